import Verif.Fib.Lemmas
import Verif.Props.Prefix

/-! # C45: FIB conversion -/

namespace OFE
namespace Fib

variable {π : Type} [DecidableEq π]

/-- **C45** For every FIB of proper lines the ruleset sends a packet out of the port of a longest matching route: each peer has a port
of its own; a packet for which there is a route runs through exactly one rule, and all runs end with the packet sent, unchanged, to the port of the
longest matching route and nowhere else (of one of them, if a prefix is given twice). -/
theorem C45_longest_prefix (lines : List (Line π)) (hp : ∀ l ∈ lines, l.Proper) :
    ∃ rules, ∃ port : π → Nat, rulesetFromFib lines = .ok rules ∧ rules.length = lines.length ∧
      (∀ k ∈ lines, ∀ l ∈ lines, port k.peer = port l.peer → k.peer = l.peer) ∧
      (∀ p rs s, Runs rules 0 (St.enter p) rs s → ∃ l, Longest lines (ipDst p) l ∧ rs.length = 1 ∧ s.finish = [(.port (port l.peer), p)]) ∧
      (∀ p, (∃ l ∈ lines, l.Contains (ipDst p)) → ∃ rs s, Runs rules 0 (St.enter p) rs s) ∧
      (DistinctRoutes lines → ∀ p l rs s, Longest lines (ipDst p) l → Runs rules 0 (St.enter p) rs s → s.finish = [(.port (port l.peer), p)]) := by
  obtain ⟨s', e, hs, -, hpeer, hrules⟩ := foldlM_step lines (⟨0, [], []⟩ : State π) ⟨by simp, by simp⟩ hp
  simp only [List.nil_append] at hrules
  have hout : ∀ p rs s, Runs s'.ruleset 0 (St.enter p) rs s → ∃ l, Longest lines (ipDst p) l ∧ rs.length = 1 ∧
      s.finish = [(.port ((s'.mapping.lookup l.peer).getD 0), p)] := by
    intro p rs s hr
    have hhit : ∀ r, Hits s'.ruleset 0 p r → ∃ l, Longest lines (ipDst p) l ∧ r = ruleOf (fun q => (s'.mapping.lookup q).getD 0) l := by
      rintro r ⟨h1, -, h3, h4⟩
      rw [hrules] at h1
      obtain ⟨l, hl, rfl⟩ := List.mem_map.1 h1
      refine ⟨l, ⟨hl, (accepts_ruleOf (hp l hl) p).1 h3, fun k hk hc => ?_⟩, rfl⟩
      exact h4 (ruleOf (fun q => (s'.mapping.lookup q).getD 0) k) (by rw [hrules]; exact List.mem_map_of_mem hk) rfl ((accepts_ruleOf (hp k hk) p).2 hc)
    cases hr with
    | last h1 h2 =>
      obtain ⟨l, hl, rfl⟩ := hhit _ h1
      exact ⟨l, hl, rfl, rfl⟩
    | next h1 h2 h3 =>
      obtain ⟨l, -, rfl⟩ := hhit _ h1
      cases h2
  refine ⟨s'.ruleset, fun q => (s'.mapping.lookup q).getD 0, ?_, by rw [hrules, List.length_map], fun k hk l hl he => ?_, hout, ?_, ?_⟩
  · unfold rulesetFromFib
    rw [e]; rfl
  · obtain ⟨n, hn⟩ := hpeer k hk
    obtain ⟨m, hm⟩ := hpeer l hl
    simp only [hn, hm, Option.getD_some] at he
    subst he
    exact hs.inj _ _ n hn hm
  · rintro p ⟨l0, hl0, hc0⟩
    have hmax : ∀ (ls : List (Line π)), (∃ l ∈ ls, l.Contains (ipDst p)) → ∃ l, Longest ls (ipDst p) l := by
      intro ls
      induction ls with
      | nil => rintro ⟨l, hl, -⟩; cases hl
      | cons a ls ih =>
        intro hex
        by_cases hls : ∃ l ∈ ls, l.Contains (ipDst p)
        · obtain ⟨b, hb, hb', hbm⟩ := ih hls
          by_cases hcmp : a.Contains (ipDst p) ∧ b.mask < a.mask
          · refine ⟨a, by simp, hcmp.1, fun k hk hc => ?_⟩
            rcases List.mem_cons.1 hk with rfl | hk
            · exact Nat.le_refl _
            · have := hbm k hk hc; omega
          · refine ⟨b, List.mem_cons_of_mem _ hb, hb', fun k hk hc => ?_⟩
            rcases List.mem_cons.1 hk with rfl | hk
            · by_contra hlt
              exact hcmp ⟨hc, by omega⟩
            · exact hbm k hk hc
        · obtain ⟨l, hl, hc⟩ := hex
          rcases List.mem_cons.1 hl with rfl | hl
          · refine ⟨l, by simp, hc, fun k hk hck => ?_⟩
            rcases List.mem_cons.1 hk with rfl | hk
            · exact Nat.le_refl _
            · exact absurd ⟨k, hk, hck⟩ hls
          · exact absurd ⟨l, hl, hc⟩ hls
    obtain ⟨l, hl, hc, hm⟩ := hmax lines ⟨l0, hl0, hc0⟩
    refine ⟨_, _, Runs.last (r := ruleOf (fun q => (s'.mapping.lookup q).getD 0) l) ⟨?_, rfl, (accepts_ruleOf (hp l hl) p).2 hc, ?_⟩ rfl⟩
    · rw [hrules]; exact List.mem_map_of_mem hl
    · intro r hr _ ha
      rw [hrules] at hr
      obtain ⟨k, hk, rfl⟩ := List.mem_map.1 hr
      exact hm k hk ((accepts_ruleOf (hp k hk) p).1 ha)
  · intro hd p l rs s hl hr
    obtain ⟨k, hk, -, hf⟩ := hout p rs s hr
    have heq : k = l := by
      by_contra hne
      have h1 := hk.2.2 l hl.1 hl.2.1
      have h2 := hl.2.2 k hk.1 hk.2.1
      have hm : k.mask = l.mask := by omega
      have h3 := hk.2.1
      have h4 := hl.2.1
      unfold Line.Contains at h3 h4
      rw [← hm] at h4
      have key : k.addr / 2 ^ (32 - k.mask) = l.addr / 2 ^ (32 - k.mask) := by rw [← h3, h4]
      rcases pairwise_pair hd hk.1 hl.1 hne with h' | h'
      · exact h' ⟨hm, key⟩
      · exact h' ⟨hm.symm, by rw [← hm, key]⟩
    rw [hf, heq]

omit [DecidableEq π] in
/-- A length above 32 makes the conversion fail. -/
theorem C45_bad_mask [DecidableEq π] (before after : List (Line π)) (l : Line π) (hb : ∀ k ∈ before, k.Proper) (h4 : l.parts.length = 4) (hm : 32 < l.mask) :
    rulesetFromFib (before ++ l :: after) = .error .valueError := by
  obtain ⟨s', e, -⟩ := foldlM_step before (⟨0, [], []⟩ : State π) ⟨by simp, by simp⟩ hb
  have hs : step s' l = .error .valueError := by
    unfold step
    match hp : l.parts, h4 with
    | [a, b, c, d], _ => simp [ipOf, maskOf, hm, bind, Except.bind]
  unfold rulesetFromFib
  rw [List.foldlM_append, e]
  simp only [bind, Except.bind]
  rw [List.foldlM_cons, hs]
  rfl

/-- A small FIB: default route and 10.1.0.0/16 to peer 7, 10.0.0.0/8 to peer 9, 0.0.0.0/8 to peer 7. -/
def sampleFib : List (Line Nat) := [⟨[10, 0, 0, 0], 8, 9⟩, ⟨[10, 1, 0, 0], 16, 7⟩, ⟨[0, 0, 0, 0], 0, 7⟩, ⟨[0, 0, 0, 0], 8, 9⟩]

theorem sample_proper : ∀ l ∈ sampleFib, l.Proper := by unfold Line.Proper; decide

theorem sample_distinct : DistinctRoutes sampleFib := by unfold DistinctRoutes; decide

example : Longest sampleFib 0x0A010203 ⟨[10, 1, 0, 0], 16, 7⟩ ∧ Longest sampleFib 0x0B010203 ⟨[0, 0, 0, 0], 0, 7⟩ := by
  unfold Longest Line.Contains; decide +kernel

example : (rulesetFromFib sampleFib).map (·.map (·.priority)) = .ok [8, 16, 0, 8] ∧
    (rulesetFromFib sampleFib).map (·.map (·.mat.items)) =
      .ok [[(12, 0x0A000000, some 0xFF000000)], [(12, 0x0A010000, some 0xFFFF0000)], [(12, 0, some 0)], [(12, 0, some 0xFF000000)]] ∧
    (rulesetFromFib sampleFib).map (·.map (·.inst.write.iter)) = .ok [[.output 1], [.output 2], [.output 2], [.output 1]] := by decide +kernel

/-! ### The result as input of the prefix-table algorithms -/

/-- The rules as the functions of `Deps/Prefix` take them: numbered, with their `IPV4_DST` value. -/
def toPRules {ρ : Type} (rules : List (Rule ρ)) : Except PyErr (List Deps.PRule) :=
  rules.zipIdx.mapM fun x => do return ⟨← Deps.DRule.ofRule x.2 x.1, (x.1.mat.items.lookup 12).map (·.1)⟩

/-- The destination address in the header bits. -/
def dstBits (p : Packet) : Nat := Nat.ofBits fun i : Fin 32 => p.bit 12 i

theorem dstBits_testBit (p : Packet) {i : Nat} (hi : i < 32) : (dstBits p).testBit i = p.bit 12 i := by
  rw [dstBits, Nat.testBit_ofBits_lt _ _ hi]

theorem dstBits_lt (p : Packet) : dstBits p < 2 ^ 32 := Nat.ofBits_lt_two_pow _

omit [DecidableEq π] in
theorem start_lt {l : Line π} (h : l.Proper) : l.addr / 2 ^ (32 - l.mask) * 2 ^ (32 - l.mask) < 2 ^ 32 :=
  Nat.lt_of_le_of_lt (Nat.div_mul_le_self _ _) (ipOf_proper h).2

open Classical in
/-- The prefix of the rule with the number `uid`. -/
noncomputable def preOf (lines : List (Line π)) (d : Deps.DRule) : Deps.Prefix 32 :=
  match lines[d.uid]? with
  | none => ⟨0, 0, by decide, by decide, by decide⟩
  | some l => if h : l.Proper then ⟨l.addr / 2 ^ (32 - l.mask) * 2 ^ (32 - l.mask), l.mask, h.2.2, Nat.dvd_mul_left _ _, start_lt h⟩
    else ⟨0, 0, by decide, by decide, by decide⟩

omit [DecidableEq π] in
theorem preOf_eq {lines : List (Line π)} {d : Deps.DRule} {l : Line π} (h : lines[d.uid]? = some l) (hl : l.Proper) :
    (preOf lines d).addr = l.addr / 2 ^ (32 - l.mask) * 2 ^ (32 - l.mask) ∧ (preOf lines d).len = l.mask := by
  unfold preOf
  rw [h]
  simp [hl]

omit [DecidableEq π] in
theorem preOf_has {lines : List (Line π)} {d : Deps.DRule} {l : Line π} (h : lines[d.uid]? = some l) (hl : l.Proper) (x : Nat) :
    (preOf lines d).Has x ↔ l.Contains x := by
  obtain ⟨h1, h2⟩ := preOf_eq h hl
  unfold Deps.Prefix.Has Line.Contains
  rw [h1, h2, Nat.mul_div_cancel _ (Nat.two_pow_pos _)]

theorem mapM_each {α β : Type} {f : α → Except PyErr β} {P : α → β → Prop} : ∀ (l : List α), (∀ x ∈ l, ∃ y, f x = .ok y ∧ P x y) →
    ∃ ys, l.mapM f = .ok ys ∧ List.Forall₂ P l ys
  | [], _ => ⟨[], rfl, .nil⟩
  | x :: l, h => by
    obtain ⟨y, h1, h2⟩ := h x (by simp)
    obtain ⟨ys, h3, h4⟩ := mapM_each l fun z hz => h z (List.mem_cons_of_mem _ hz)
    exact ⟨y :: ys, by rw [List.mapM_cons, h1, h3]; rfl, .cons h2 h4⟩

/-- **C45**, **C37** The ruleset made from distinct routes that include 0.0.0.0/0 (as such) is a prefix table, so the prefix-table algorithms return its dependencies (`C37_prefix_direct`, `C37_prefix_indirect`). -/
theorem C45_prefix_table (lines : List (Line π)) (hp : ∀ l ∈ lines, l.Proper) (hd : DistinctRoutes lines) (h0 : ∃ l ∈ lines, l.mask = 0)
    (hz : ∀ l ∈ lines, l.mask = 0 → l.addr = 0) :
    ∃ rules prs, rulesetFromFib lines = .ok rules ∧ toPRules rules = .ok prs ∧ prs.length = lines.length ∧
      Deps.PrefixTable totBits 32 dstBits (preOf lines) prs := by
  obtain ⟨s', e, -, -, -, hrules⟩ := foldlM_step lines (⟨0, [], []⟩ : State π) ⟨by simp, by simp⟩ hp
  simp only [List.nil_append] at hrules
  let R := ruleOf (fun q => (s'.mapping.lookup q).getD 0)
  have hmap : (s'.ruleset.zipIdx).map (fun x => x.2) = List.range lines.length := by
    rw [hrules]; simp [List.range_eq_range']
  obtain ⟨prs, e2, hf⟩ := mapM_each (P := fun (x : Rule Unit × Nat) (y : Deps.PRule) => ∃ l, lines[y.rule.uid]? = some l ∧ y.rule.uid = x.2 ∧ y.rule.priority = l.mask ∧
      y.rule.table = 0 ∧ y.dst = some (entry l).1 ∧ WcValid totBits y.rule.wc ∧ (∀ p, y.rule.hits totBits p ↔ MatchesField p (12, entry l)) ∧
      (l.mask = 0 → y.rule.wc = wcFull totBits))
    (f := fun x => do return ⟨← Deps.DRule.ofRule x.2 x.1, (x.1.mat.items.lookup 12).map (·.1)⟩) s'.ruleset.zipIdx (by
      rintro ⟨r, i⟩ hx
      rw [List.mem_zipIdx_iff_getElem?] at hx
      simp only at hx
      rw [hrules, List.getElem?_map, Option.map_eq_some_iff] at hx
      obtain ⟨l, hl, rfl⟩ := hx
      have hinv : (R l).mat.Inv := ⟨by simp [R, ruleOf], by
        intro g
        simp only [R, ruleOf, Nat.zero_or, testBit_one_shiftLeft]
        by_cases hg : g = 12
        · subst hg; simp
        · simp [hg], by simp [R, ruleOf]⟩
      obtain ⟨w, m', hw, hv, hc⟩ := Deps.getWildcard_spec hinv (by simp [R, ruleOf])
      refine ⟨⟨⟨i, l.mask, 0, w, do return (← (← gotoEgress (R l) none).getWildcard).1⟩, some (entry l).1⟩, ?_, l, hl, rfl, rfl, rfl, rfl, hv, fun p => ?_, fun hm => ?_⟩
      · simp only [Deps.DRule.ofRule]
        change (do let y ← (do let w ← (R l).mat.getWildcard; _); _) = _
        rw [hw]
        rfl
      · exact (hc p).trans (by simp [MatchesAll, R, ruleOf])
      · refine wc_ext hv (wcValid_wcFull _) fun p => ?_
        rw [hc]
        simp only [covers_wcFull, iff_true]
        have : MatchesField p (12, entry l) := by
          rw [matchesField_entry, hm]
          intro i hi hi'
          omega
        simpa [MatchesAll, R, ruleOf] using this)
  have huid : prs.map (fun y => y.rule.uid) = List.range lines.length := by
    rw [← hmap]
    clear e2 hmap
    generalize s'.ruleset.zipIdx = zs at hf ⊢
    induction hf with
    | nil => rfl
    | cons h _ ih =>
      obtain ⟨l, -, h2, -⟩ := h
      simp [h2, ih]
  have get : ∀ y ∈ prs, ∃ l ∈ lines, lines[y.rule.uid]? = some l ∧ y.rule.priority = l.mask ∧
      y.rule.table = 0 ∧ y.dst = some (entry l).1 ∧ WcValid totBits y.rule.wc ∧ (∀ p, y.rule.hits totBits p ↔ MatchesField p (12, entry l)) ∧
      (l.mask = 0 → y.rule.wc = wcFull totBits) := by
    intro y hy
    clear e2 hmap huid
    generalize s'.ruleset.zipIdx = zs at hf
    induction hf with
    | nil => cases hy
    | cons h _ ih =>
      rcases List.mem_cons.1 hy with rfl | hy
      · obtain ⟨l, h1, -, h3⟩ := h
        exact ⟨l, List.mem_of_getElem? h1, h1, h3⟩
      · exact ih hy
  have hlen : prs.length = lines.length := by
    have := congrArg List.length huid
    simpa using this
  have hinj : ∀ r ∈ prs, ∀ s ∈ prs, r.rule.uid = s.rule.uid → r = s := by
    have hn : (prs.map (fun y => y.rule.uid)).Nodup := by rw [huid]; exact List.nodup_range
    exact fun r hr s hs he => List.inj_on_of_nodup_map hn hr hs he
  have hsame : ∀ (i j : Nat) (k l : Line π), lines[i]? = some k → lines[j]? = some l → k.mask = l.mask →
      k.addr / 2 ^ (32 - k.mask) = l.addr / 2 ^ (32 - k.mask) → i = j := by
    intro i j k l hi hj hm ha
    unfold DistinctRoutes at hd
    rw [List.pairwise_iff_getElem] at hd
    obtain ⟨hi', rfl⟩ := List.getElem?_eq_some_iff.1 hi
    obtain ⟨hj', rfl⟩ := List.getElem?_eq_some_iff.1 hj
    rcases Nat.lt_trichotomy i j with h | h | h
    · exact absurd ⟨hm, ha⟩ (hd i j hi' hj' h)
    · exact h
    · exact absurd ⟨hm.symm, by rw [← hm, ha]⟩ (hd j i hj' hi' h)
  refine ⟨s'.ruleset, prs, by unfold rulesetFromFib; rw [e]; rfl, e2, hlen, ?_⟩
  refine ⟨?_, fun r hr p => ?_, fun x hx => ?_, dstBits_lt, fun r hr => ?_, fun r hr s hs ha hl => ?_, fun r hr s hs hab => ?_, fun r hr => ?_, fun r hr s hs => ?_, ?_⟩
  · have hn : (prs.map (fun y => y.rule.uid)).Nodup := by rw [huid]; exact List.nodup_range
    exact hn.of_map _
  · obtain ⟨l, hl, h1, -, -, -, -, h6, -⟩ := get r hr
    rw [preOf_has h1 (hp l hl), contains_iff (hp l hl) (dstBits_lt p), h6, matchesField_entry]
    exact forall_congr' fun i => forall_congr' fun hi => by rw [dstBits_testBit p hi]
  · obtain ⟨l, hl, hm⟩ := h0
    refine ⟨Packet.build fun g i => if g = 12 then x.testBit i else false, ?_⟩
    apply Nat.eq_of_testBit_eq
    intro i
    by_cases hi : i < 32
    · rw [dstBits_testBit _ hi, build_bit (by decide) (by rw [width12]; exact hi), if_pos rfl]
    · have hle : 2 ^ 32 ≤ 2 ^ i := Nat.pow_le_pow_right (by decide) (by omega)
      rw [Nat.testBit_lt_two_pow (Nat.lt_of_lt_of_le (dstBits_lt _) hle), Nat.testBit_lt_two_pow (Nat.lt_of_lt_of_le hx hle)]
  · obtain ⟨l, hl, h1, -, -, h4, -⟩ := get r hr
    rw [h4, (preOf_eq h1 (hp l hl)).1, entry_value l (hp l hl) (hz l hl)]
  · obtain ⟨k, hk, h1, -⟩ := get r hr
    obtain ⟨l, hl', h2, -⟩ := get s hs
    obtain ⟨a1, a2⟩ := preOf_eq h1 (hp k hk)
    obtain ⟨b1, b2⟩ := preOf_eq h2 (hp l hl')
    rw [a1, b1] at ha
    rw [a2, b2] at hl
    rw [← hl] at ha
    rw [hinj r hr s hs (hsame _ _ k l h1 h2 hl (Nat.eq_of_mul_eq_mul_right (Nat.two_pow_pos _) ha))]
  · obtain ⟨k, hk, h1, h2, -⟩ := get r hr
    obtain ⟨l, hl', h3, h4, -⟩ := get s hs
    have := hab.1
    rw [(preOf_eq h1 (hp k hk)).2, (preOf_eq h3 (hp l hl')).2] at this
    omega
  · obtain ⟨l, -, -, -, -, -, h5, -⟩ := get r hr
    exact h5
  · obtain ⟨k, -, -, -, h1, -⟩ := get r hr
    obtain ⟨l, -, -, -, h2, -⟩ := get s hs
    rw [h1, h2]
  · obtain ⟨l, hl, hm⟩ := h0
    obtain ⟨i, hi, hi'⟩ := List.mem_iff_getElem.1 hl
    have : i ∈ prs.map (fun y => y.rule.uid) := by rw [huid]; exact List.mem_range.2 hi
    obtain ⟨y, hy, rfl⟩ := List.mem_map.1 this
    obtain ⟨k, hk, h1, h2, -, -, -, -, h7⟩ := get y hy
    have hkl : k = l := by
      rw [List.getElem?_eq_getElem hi] at h1
      simp only [Option.some.injEq] at h1
      rw [← h1, hi']
    subst hkl
    exact ⟨y, hy, by rw [(preOf_eq h1 (hp k hk)).2, hm], by rw [h2, hm], h7 hm⟩

example : (∃ l ∈ sampleFib, l.mask = 0) ∧ ∀ l ∈ sampleFib, l.mask = 0 → l.addr = 0 := by decide

/-- A default route written with an address other than 0.0.0.0 keeps that address in its match, so it is not sorted first and the prefix-table algorithms
fail. -/
theorem C45_default_address : ∃ rules prs, rulesetFromFib [(⟨[10, 0, 0, 0], 0, 1⟩ : Line Nat), ⟨[9, 0, 0, 0], 8, 2⟩] = .ok rules ∧ toPRules rules = .ok prs ∧
    Deps.buildPrefixBdd totBits prs = .error .assertion := by
  refine ⟨_, _, rfl, rfl, ?_⟩
  decide +kernel

example := C45_longest_prefix sampleFib sample_proper
example := C45_prefix_table sampleFib sample_proper sample_distinct (by decide) (by decide)

end Fib
end OFE
