import Verif.Shim.PathLemmas
import Verif.Props.Shim

/-! # C75: conflicting paths by header space -/

namespace OFE
namespace Shim

variable {n : Nat} {α π : Type}

/-- Every reported shim includes a proper wildcard, and every match of either ruleset contains that wildcard or has no packet of the shim. -/
theorem diff_sides [DecidableEq α] {ord : List Nat → List Nat} (hn : 0 < n) (hord : ∀ l, (ord l).Perm l) {r1 r2 : List (Nat × α)}
    (h1 : ∀ r ∈ r1, WcValid n r.1) (h2 : ∀ r ∈ r2, WcValid n r.1) (e1 : r1 ≠ []) (e2 : r2 ≠ []) {n1 n2 : List (Shim × α) × List Nat}
    (m1 : normalise n ord r1 = .ok n1) (m2 : normalise n ord r2 = .ok n2) {b : Bool} {ks : List Shim} (hd : checkEqualDiff n ord n1 n2 = .ok (b, ks)) :
    (∀ k ∈ ks, ∃ m, k.inc = some m ∧ WcValid n m ∧ (∀ p, k.Has n p → Covers n m p) ∧
      ∀ w, (∃ r ∈ r1 ++ r2, r.1 = w) → (∀ p, Covers n m p → Covers n w p) ∨ ∀ p, k.Has n p → ¬ Covers n w p) ∧
    ∀ k ∈ ks, ∀ p, k.Has n p → ∃ a b, a ≠ b ∧ Picks n r1 p a ∧ Picks n r2 p b := by
  obtain ⟨n1', n2', w1, w2, m1', m2', m3, R1, R2⟩ := mergeBoth_spec hn hord r1 r2 h1 h2 e1 e2
  rw [m1] at m1'; rw [m2] at m2'
  cases m1'; cases m2'
  have over := mergeBoth_over hn hord h1 h2 m1 m2 m3
  unfold checkEqualDiff at hd
  rw [m3] at hd
  simp only [bind, Except.bind] at hd
  split at hd
  · simp only [pure, Except.pure, Except.ok.injEq, Prod.mk.injEq] at hd
    obtain ⟨-, rfl⟩ := hd
    refine ⟨fun k hk => ?_, fun k hk p hkp => ?_⟩
    · obtain ⟨x, hx, rfl⟩ := List.mem_map.1 hk
      obtain ⟨hx1, -⟩ := List.mem_filter.1 hx
      obtain ⟨A, hA, hf⟩ := over x hx1
      have hz : x.1.zero = false := by
        unfold mergeBoth at m3
        cases a1 : mergeRules n ord n1.1 (ord (n2.2.filter fun x => !n1.2.contains x)) with
        | error x => rw [a1] at m3; cases m3
        | ok W1 =>
          cases a2 : mergeRules n ord n2.1 (ord (n1.2.filter fun x => !n2.2.contains x)) with
          | error x => rw [a1, a2] at m3; cases m3
          | ok W2 =>
            rw [a1, a2] at m3
            cases a3 : del nothing W1 with
            | error x => simp [bind, Except.bind, a3] at m3
            | ok V1 =>
              cases a4 : del nothing W2 with
              | error x => simp [bind, Except.bind, a3, a4] at m3
              | ok V2 =>
                have ev : V1 = w1 := by
                  simp only [bind, Except.bind, pure, Except.pure, a3, a4, Except.ok.injEq, Prod.mk.injEq] at m3
                  exact m3.1
                subst ev
                unfold del at a3
                split at a3
                · cases a3
                  have := (List.mem_filter.1 hx1).2
                  cases hc : x.1.zero with
                  | false => rfl
                  | true =>
                    have : eqv nothing x.1 = true := by rw [eqv_iff]; exact .inl ⟨rfl, hc⟩
                    simp_all
                · cases a3
      obtain ⟨m, i1, i2, i3⟩ := hA.inc hz
      refine ⟨m, i1, i2, fun p hp => hp.2.1 m i1, fun w hw => ?_⟩
      have hwm : w ∈ r1.map (·.1) ++ r2.map (·.1) := by
        obtain ⟨r, hr, rfl⟩ := hw
        rw [← List.map_append]
        exact List.mem_map.2 ⟨r, hr, rfl⟩
      obtain ⟨b, hb⟩ := hf w hwm
      cases b
      · exact .inr fun p hp hc => ((hA.has p).1 hp).2 w hb hc
      · exact .inl fun p hp => (i3 p).1 hp w hb
    · obtain ⟨x, hx, rfl⟩ := List.mem_map.1 hk
      obtain ⟨hx1, hx2⟩ := List.mem_filter.1 hx
      rw [Bool.and_eq_true] at hx2
      obtain ⟨v, hv⟩ := Option.isSome_iff_exists.1 hx2.1
      have hne := of_decide_eq_true hx2.2
      obtain ⟨y, hy, he, rfl⟩ := get_some hv
      rw [hv] at hne
      exact ⟨x.2, y.2, fun hc => hne (by rw [hc]), R1.sound x hx1 p hkp, R2.sound y hy p ((has_congr he p).1 hkp)⟩
  · cases hd

/-- Specification: what `normalise` (normaliseheaderspace.py:190-243) reads of rules with a path: wildcard and actions. -/
def acts (R : List (Nat × α × π)) : List (Nat × α) := R.map fun r => (r.1, r.2.1)

/-- Specification: the packet takes path `o` in `R`: the first rule that matches it has that path. -/
def Takes (n : Nat) (R : List (Nat × α × π)) (p : Packet) (o : π) : Prop := ∃ a, Picks n R p (a, o)

theorem picks_acts {R : List (Nat × α × π)} {p : Packet} {a : α} : Picks n (acts R) p a ↔ ∃ o, Picks n R p (a, o) := by
  constructor
  · rintro ⟨b, x, aft, e, h1, h2, h3⟩
    obtain ⟨b', t, e1, rfl, e2⟩ := List.map_eq_append_iff.1 e
    obtain ⟨x', aft', rfl, rfl, rfl⟩ := List.map_eq_cons_iff.1 e2
    refine ⟨x'.2.2, b', x', aft', e1, h1, by rw [← h2], fun y hy => h3 (y.1, y.2.1) (List.mem_map.2 ⟨y, hy, rfl⟩)⟩
  · rintro ⟨o, b, x, aft, rfl, h1, h2, h3⟩
    refine ⟨acts b, (x.1, x.2.1), acts aft, by simp [acts], h1, by rw [h2], fun y hy => ?_⟩
    obtain ⟨z, hz, rfl⟩ := List.mem_map.1 hy
    exact h3 z hz

/-- **C75** For all non-empty rulesets `R1`, `R2` (wildcard, actions, path of each rule, in priority order) with a comparison that returns a difference `ks`: the
conflicting paths are found without an error, whatever the orders of iteration and of the sorted rulesets `O` and `N` and whichever ruleset is called the
original one.  For every packet of the difference, the path that it takes in the original ruleset is mapped to a set with the path it takes in the new one. -/
theorem C75_taken [DecidableEq α] [DecidableEq π] {ord : List Nat → List Nat} (hn : 0 < n) (hord : ∀ l, (ord l).Perm l) {R1 R2 : List (Nat × α × π)}
    (h1 : ∀ r ∈ R1, WcValid n r.1) (h2 : ∀ r ∈ R2, WcValid n r.1) (e1 : R1 ≠ []) (e2 : R2 ≠ []) {n1 n2 : List (Shim × α) × List Nat}
    (m1 : normalise n ord (acts R1) = .ok n1) (m2 : normalise n ord (acts R2) = .ok n2) {b : Bool} {ks : List Shim}
    (hd : checkEqualDiff n ord n1 n2 = .ok (b, ks)) {RO RN : List (Nat × α × π)} (roles : (RO = R1 ∧ RN = R2) ∨ (RO = R2 ∧ RN = R1))
    {O N : List (Nat × π)} (hO : O.Perm (RO.map fun r => (r.1, r.2.2))) (hN : N.Perm (RN.map fun r => (r.1, r.2.2))) :
    ∃ res, findConflictingPaths n ks O N = .ok res ∧ (res.map (·.1)).Nodup ∧
      ∀ k ∈ ks, ∀ p, k.Has n p → ∃ o x, Takes n RO p o ∧ Takes n RN p x ∧ ∃ s, (o, s) ∈ res ∧ x ∈ s := by
  have va1 : ∀ r ∈ acts R1, WcValid n r.1 := fun r hr => by obtain ⟨q, hq, rfl⟩ := List.mem_map.1 hr; exact h1 q hq
  have va2 : ∀ r ∈ acts R2, WcValid n r.1 := fun r hr => by obtain ⟨q, hq, rfl⟩ := List.mem_map.1 hr; exact h2 q hq
  obtain ⟨hs, hp⟩ := diff_sides hn hord va1 va2 (by simpa [acts] using e1) (by simpa [acts] using e2) m1 m2 hd
  obtain ⟨res, e, h1, -, h3⟩ := findConflictingPaths_spec hn ks (fun k hk => by obtain ⟨m, i1, i2, -⟩ := hs k hk; exact ⟨m, i1, i2⟩) O N
  refine ⟨res, e, h1, fun k hk p hkp => ?_⟩
  obtain ⟨m, i1, i2, i3, i4⟩ := hs k hk
  obtain ⟨a, b, -, pa, pb⟩ := hp k hk p hkp
  obtain ⟨o, po⟩ := picks_acts.1 pa
  obtain ⟨x, px⟩ := picks_acts.1 pb
  -- the rule hit contains what the shim includes
  have hit : ∀ {R : List (Nat × α × π)} {v : α × π}, (∀ r ∈ R, ∃ q ∈ acts R1 ++ acts R2, q.1 = r.1) → Picks n R p v →
      ∃ r ∈ R, r.2 = v ∧ ∀ p, Covers n m p → Covers n r.1 p := by
    rintro R v hR ⟨b, r, aft, rfl, c1, rfl, -⟩
    refine ⟨r, by simp, rfl, ?_⟩
    rcases i4 r.1 (hR r (by simp)) with h | h
    · exact h
    · exact absurd c1 (h p hkp)
  have in1 : ∀ r ∈ R1, ∃ q ∈ acts R1 ++ acts R2, q.1 = r.1 := fun r hr => ⟨(r.1, r.2.1), List.mem_append_left _ (List.mem_map.2 ⟨r, hr, rfl⟩), rfl⟩
  have in2 : ∀ r ∈ R2, ∃ q ∈ acts R1 ++ acts R2, q.1 = r.1 := fun r hr => ⟨(r.1, r.2.1), List.mem_append_right _ (List.mem_map.2 ⟨r, hr, rfl⟩), rfl⟩
  obtain ⟨q1, hq1, v1, c1⟩ := hit in1 po
  obtain ⟨q2, hq2, v2, c2⟩ := hit in2 px
  rcases roles with ⟨rfl, rfl⟩ | ⟨rfl, rfl⟩
  · refine ⟨o, x, ⟨a, po⟩, ⟨b, px⟩, (h3 o x).2 ⟨k, hk, m, i1, ⟨(q1.1, q1.2.2), hO.mem_iff.2 (List.mem_map.2 ⟨q1, hq1, rfl⟩), by rw [v1], c1⟩,
      (q2.1, q2.2.2), hN.mem_iff.2 (List.mem_map.2 ⟨q2, hq2, rfl⟩), by rw [v2], c2⟩⟩
  · refine ⟨x, o, ⟨b, px⟩, ⟨a, po⟩, (h3 x o).2 ⟨k, hk, m, i1, ⟨(q2.1, q2.2.2), hO.mem_iff.2 (List.mem_map.2 ⟨q2, hq2, rfl⟩), by rw [v2], c2⟩,
      (q1.1, q1.2.2), hN.mem_iff.2 (List.mem_map.2 ⟨q1, hq1, rfl⟩), by rw [v1], c1⟩⟩

/-- **C75** What is named: a path of the original ruleset is a key exactly if it is that of a rule which matches everything that one of the shims includes, and is
then mapped to the paths of the new rules which also do.  Missing for the full claim: such a rule may be shadowed, and the shim may have no packets at all (see
below), so the converse of `C75_taken` does not hold. -/
theorem C75_named_partial [DecidableEq α] [DecidableEq π] {ord : List Nat → List Nat} (hn : 0 < n) (hord : ∀ l, (ord l).Perm l) {r1 r2 : List (Nat × α)}
    (h1 : ∀ r ∈ r1, WcValid n r.1) (h2 : ∀ r ∈ r2, WcValid n r.1) (e1 : r1 ≠ []) (e2 : r2 ≠ []) {n1 n2 : List (Shim × α) × List Nat}
    (m1 : normalise n ord r1 = .ok n1) (m2 : normalise n ord r2 = .ok n2) {b : Bool} {ks : List Shim} (hd : checkEqualDiff n ord n1 n2 = .ok (b, ks))
    (O N : List (Nat × π)) :
    ∃ res, findConflictingPaths n ks O N = .ok res ∧
      (∀ o s, (o, s) ∈ res → ∃ k ∈ ks, ∃ r ∈ O, r.2 = o ∧ ∀ p, k.Has n p → Covers n r.1 p) ∧
      ∀ o s, (o, s) ∈ res → ∀ x ∈ s, ∃ k ∈ ks, (∃ r ∈ O, r.2 = o ∧ ∀ p, k.Has n p → Covers n r.1 p) ∧ ∃ r ∈ N, r.2 = x ∧ ∀ p, k.Has n p → Covers n r.1 p := by
  obtain ⟨hs, -⟩ := diff_sides hn hord h1 h2 e1 e2 m1 m2 hd
  obtain ⟨res, e, -, i2, i3⟩ := findConflictingPaths_spec hn ks (fun k hk => by obtain ⟨m, i1, i2, -⟩ := hs k hk; exact ⟨m, i1, i2⟩) O N
  refine ⟨res, e, fun o s ho => ?_, fun o s ho x hx => ?_⟩
  · obtain ⟨k, hk, m, j1, r, hr, rfl, c⟩ := (i2 o).1 (List.mem_map.2 ⟨(o, s), ho, rfl⟩)
    exact ⟨k, hk, r, hr, rfl, fun p hp => c p (hp.2.1 m j1)⟩
  · obtain ⟨k, hk, m, j1, ⟨r, hr, a, c⟩, q, hq, a', c'⟩ := (i3 o x).1 ⟨s, ho, hx⟩
    exact ⟨k, hk, ⟨r, hr, a, fun p hp => c p (hp.2.1 m j1)⟩, q, hq, a', fun p hp => c' p (hp.2.1 m j1)⟩

/-! ### Samples and what is not true -/

/-- Comparison with `diff=True` and the conflicting paths, as in check_equivalence.py: `normalise` (normaliseheaderspace.py 190-243), `check_equal` (270-330),
`find_conflicting_paths` (347-383). -/
def conflicts (orig new : List (Nat × Nat × Nat)) : Except PyErr (List (Nat × List Nat)) := do
  let d ← checkEqualDiff totBits id (← normalise totBits id (acts new)) (← normalise totBits id (acts orig))
  findConflictingPaths totBits d.2 (orig.map fun r => (r.1, r.2.2)) (new.map fun r => (r.1, r.2.2))

/-- Rules for bit 0 (action 1, path 10) and for bit 1 (action 2, path 20); in the new ruleset action 3 for bit 1 (path 21).  Only the packets with bit 1 differ. -/
example : conflicts [(bit0, 1, 10), (bit1, 2, 20)] [(bit0, 1, 11), (bit1, 3, 21)] = .ok [(20, [21])] := by decide +kernel

/-- A split match is found as well: the rule for everything (path 10) became two rules. -/
example : conflicts [(bit0, 1, 10), (wcFull totBits, 2, 20)] [(bit0, 3, 11), (bit1, 4, 21), (wcFull totBits, 2, 31)] =
    .ok [(20, [21, 31, 11]), (10, [11, 31])] := by decide +kernel

/-- **C75** Violated: a path is named that no packet takes.  The second rule is shadowed by the first in both rulesets (as the warning in the code says). -/
theorem C75_shadowed : conflicts [(wcFull totBits, 1, 10), (wcFull totBits, 2, 20)] [(wcFull totBits, 3, 11), (wcFull totBits, 2, 21)] =
      .ok [(10, [11, 21]), (20, [11, 21])] ∧
    ∀ p, ¬ Takes totBits [(wcFull totBits, 1, 10), (wcFull totBits, 2, 20)] p 20 := by
  refine ⟨by decide +kernel, ?_⟩
  rintro p ⟨a, h⟩
  have := first_unique h (b := (1, 10)) ⟨[], _, [(wcFull totBits, 2, 20)], rfl, covers_wcFull totBits p, rfl, fun _ h => by cases h⟩
  simp at this

/-- **C75** Violated: paths are named although the two rulesets treat all packets alike.  The last rules differ but every packet is caught before. -/
theorem C75_no_packets : conflicts [(bit0, 1, 10), (bit1, 1, 20), (wcFull totBits, 2, 30)] [(bit0, 1, 11), (bit1, 1, 21), (wcFull totBits, 3, 31)] =
      .ok [(30, [31])] ∧
    ∀ p, ¬ Takes totBits [(bit0, 1, 10), (bit1, 1, 20), (wcFull totBits, 2, 30)] p 30 := by
  refine ⟨by decide +kernel, ?_⟩
  rintro p ⟨a, h⟩
  have c : Covers totBits bit0 p ∨ Covers totBits bit1 p := by
    have h : ∀ i < totBits, ∀ b : Bool, (i ≠ 0 ∨ b = false → bit0.testBit (2 * i + b.toNat) = true) ∧ (i ≠ 0 ∨ b = true → bit1.testBit (2 * i + b.toNat) = true) := by
      decide +kernel
    cases hp : p 0 with
    | false =>
      refine .inl fun i hi => (h i hi (p i)).1 ?_
      by_cases h0 : i = 0
      · right; rw [h0]; exact hp
      · exact .inl h0
    | true =>
      refine .inr fun i hi => (h i hi (p i)).2 ?_
      by_cases h0 : i = 0
      · right; rw [h0]; exact hp
      · exact .inl h0
  by_cases h0 : Covers totBits bit0 p
  · have := first_unique h (b := (1, 10)) ⟨[], _, _, rfl, h0, rfl, fun _ h => by cases h⟩
    simp at this
  · have h1 := c.resolve_left h0
    have := first_unique h (b := (1, 20)) ⟨[(bit0, 1, 10)], _, _, rfl, h1, rfl, fun y hy => by rw [List.mem_singleton.1 hy]; exact h0⟩
    simp at this

/-- The hypotheses of the theorems on a sample: the comparison of the first sample returns one shim, which has packets. -/
example : (do checkEqualDiff totBits id (← normalise totBits id (acts [(bit0, 1, 10), (bit1, 2, 20)])) (← normalise totBits id (acts [(bit0, 1, 11), (bit1, 3, 21)]))) =
      .ok (false, [⟨false, some bit1, [bit0]⟩]) ∧ (∀ r ∈ [(bit0, 1, 10), (bit1, 2, 20)], WcValid totBits r.1) := by
  refine ⟨by decide +kernel, fun r hr => valid_bits.1 r.1 ?_⟩
  simp only [List.mem_cons, List.not_mem_nil, or_false] at hr
  rcases hr with rfl | rfl <;> simp

end Shim
end OFE
