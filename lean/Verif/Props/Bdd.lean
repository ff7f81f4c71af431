import Verif.Bdd.WcLemmas

/-!
# Properties C05, C06, C07, C09, C10: diagram operations

`DD.lookup n t p` is the action that diagram `t` over `n` header bits gives to packet `p`, `DD.WF n 0 t` says that `t` is
ordered and reduced.
-/

namespace OFE
open DD
set_option linter.unusedSectionVars false
variable {α : Type} [DecidableEq α]

/-- C05: `a + b` is the left-biased union of the two partial functions, and is again well formed. -/
theorem C05_meld (n : Nat) (a b : DD α) (ha : WF n 0 a) (hb : WF n 0 b) :
    WF n 0 (meld a b) ∧
    ∀ p, (∀ x, a.lookup n p = some x → (meld a b).lookup n p = some x) ∧
         (a.lookup n p = none → (meld a b).lookup n p = b.lookup n p) := by
  refine ⟨wf_meld ha hb, fun p => ?_⟩
  simp only [lookup]
  rw [eval_meld ha hb]
  refine ⟨fun x hx => by simp [hx], fun hx => by simp [hx]⟩

/-- C05: `+` is associative and idempotent, with the empty diagram as identity (as diagrams, not only as functions). -/
theorem C05_meld_laws (n : Nat) (a b c : DD α) (ha : WF n 0 a) (hb : WF n 0 b) (hc : WF n 0 c) :
    meld (meld a b) c = meld a (meld b c) ∧ meld a a = a ∧ meld a bot = a ∧ meld bot a = a := by
  have hbot : WF n 0 (bot : DD α) := trivial
  refine ⟨?_, ?_, ?_, ?_⟩
  · apply eq_of_eval_eq (wf_meld (wf_meld ha hb) hc) (wf_meld ha (wf_meld hb hc))
    intro q
    rw [eval_meld (wf_meld ha hb) hc, eval_meld ha hb, eval_meld ha (wf_meld hb hc), eval_meld hb hc, Option.or_assoc]
  · apply eq_of_eval_eq (wf_meld ha ha) ha
    intro q
    rw [eval_meld ha ha]; cases a.eval q <;> rfl
  · apply eq_of_eval_eq (wf_meld ha hbot) ha
    intro q
    rw [eval_meld ha hbot]; cases a.eval q <;> rfl
  · apply eq_of_eval_eq (wf_meld hbot ha) ha
    intro q
    rw [eval_meld hbot ha]; rfl

/-- `0x -> 7` melded with `x1 -> 8`. -/
example : WF 2 0 (node 0 (term 7) bot) ∧ WF 2 0 (node 1 bot (term 8)) ∧
    meld (node 0 (term 7) bot) (node 1 bot (term 8)) = node 0 (term 7) (node 1 bot (term 8)) :=
  ⟨by simp [WF], by simp [WF], by decide +kernel⟩

/-- C06: `a.intersection(b)` is defined exactly where both give the same action, with that action. -/
theorem C06_intersection (n : Nat) (a b : DD α) (ha : WF n 0 a) (hb : WF n 0 b) :
    WF n 0 (intersection a b) ∧
    ∀ p x, (intersection a b).lookup n p = some x ↔ a.lookup n p = some x ∧ b.lookup n p = some x := by
  refine ⟨wf_intersection ha hb, fun p x => ?_⟩
  simp only [lookup]
  rw [eval_intersection ha hb, intP]
  split
  · next h => rw [h]; simp
  · next h =>
    constructor
    · intro h'; cases h'
    · rintro ⟨h1, h2⟩; exact absurd (h1.trans h2.symm) h

/-- C06: `a.subtract(b)` is defined exactly where `a` is and `b` does not agree with it, with `a`'s action. -/
theorem C06_subtract (n : Nat) (a b : DD α) (ha : WF n 0 a) (hb : WF n 0 b) :
    WF n 0 (subtract a b) ∧
    ∀ p x, (subtract a b).lookup n p = some x ↔ a.lookup n p = some x ∧ b.lookup n p ≠ some x := by
  refine ⟨wf_subtract ha hb, fun p x => ?_⟩
  simp only [lookup]
  rw [eval_subtract ha hb, subP]
  split
  · next h =>
    rw [h]
    constructor
    · intro h'; cases h'
    · rintro ⟨h1, h2⟩; exact absurd h1 h2
  · next h =>
    constructor
    · intro h1; exact ⟨h1, fun h2 => h (h1.trans h2.symm)⟩
    · exact fun h1 => h1.1

example : intersection (node 0 (term 7) (term 8)) (node 1 (term 7) (term 8)) =
      node 0 (node 1 (term 7) bot) (node 1 bot (term 8)) ∧
    subtract (node 0 (term 7) (term 8)) (node 1 (term 7) (term 8)) =
      node 0 (node 1 bot (term 7)) (node 1 (term 8) bot) := by decide +kernel

/-- C07 (part that always holds): the difference is the empty diagram exactly when the two diagrams forward all packets
identically; every disagreeing packet is marked, no packet with the same action on both sides is marked, and
nothing but the mark is ever produced.  What is missing from the full statement: a packet that is undefined on *both* sides may
be marked too, see `C07_difference_not_exact`. -/
theorem C07_difference_partial (n : Nat) (d : α) (a b : DD α) (ha : WF n 0 a) (hb : WF n 0 b) :
    WF n 0 (difference d a b) ∧
    (difference d a b = bot ↔ ∀ p, a.lookup n p = b.lookup n p) ∧
    ∀ p, (a.lookup n p ≠ b.lookup n p → (difference d a b).lookup n p = some d) ∧
         (∀ x, a.lookup n p = some x → b.lookup n p = some x → (difference d a b).lookup n p = none) ∧
         (∀ x, (difference d a b).lookup n p = some x → x = d) := by
  have key := fun p : Packet => eval_difference d ha hb (fun num => p (n - 1 - num))
  refine ⟨wf_difference d ha hb, ⟨fun h p => ?_, fun h => ?_⟩, fun p => ⟨(key p).1, fun x h1 h2 => ?_, fun x hx => ?_⟩⟩
  · by_contra hne
    have := (key p).1 hne
    rw [h] at this
    cases this
  · have := lookup_ext ha hb h
    subst this
    unfold difference apply
    simp [differenceBase]
  · refine (key p).2.1 ?_ ?_
    · exact h1.trans h2.symm
    · simp only [lookup] at h1; rw [h1]; simp
  · rcases (key p).2.2 with h | h
    · simp only [lookup] at hx; rw [h] at hx; cases hx
    · simp only [lookup] at hx; rw [h] at hx; exact (Option.some.inj hx).symm

/-- C07, exact version: when the right-hand side is defined only where the left-hand side is (in particular when the left
side has a default rule), the difference marks exactly the packets on which the two disagree. -/
theorem C07_difference_exact_partial (n : Nat) (d : α) (a b : DD α) (ha : WF n 0 a) (hb : WF n 0 b)
    (hdom : ∀ p, a.lookup n p = none → b.lookup n p = none) (p : Packet) :
    (difference d a b).lookup n p = some d ↔ a.lookup n p ≠ b.lookup n p := by
  have hS : ∀ q, a.eval q = none → b.eval q = none := by
    intro q
    have := hdom fun i => q (n - 1 - i)
    simp only [lookup] at this
    rwa [← eval_congr ha (q := q), ← eval_congr hb (q := q)] at this
    all_goals
      intro i _ hi
      congr 1; omega
  simp only [lookup]
  rw [eval_difference_exact d ha hb hS, diffP]
  split
  · next h => simp [h]
  · next h => simp [h]

example : WF 2 0 (node 0 (term 7) (term 8)) ∧ WF 2 0 (node 1 (term 7) (term 8)) ∧
    (node 0 (term 7) (term 8) : DD Nat).hasNone = false ∧
    difference 99 (node 0 (term 7) (term 8)) (node 1 (term 7) (term 8)) =
      node 0 (node 1 bot (term 99)) (node 1 (term 99) bot) :=
  ⟨by simp [WF], by simp [WF], by decide, by decide +kernel⟩

/-- C07 is violated in general: with an empty left-hand side the code returns the mark for *every* packet, including
packets on which both sides are undefined.  Here `a` is the empty diagram and `b` is only defined for packets whose first bit
is 0. -/
theorem C07_difference_not_exact :
    ∃ (n : Nat) (d : Nat) (a b : DD Nat), WF n 0 a ∧ WF n 0 b ∧
      ∃ p, a.lookup n p = b.lookup n p ∧ (difference d a b).lookup n p = some d := by
  refine ⟨1, 99, bot, node 0 (term 7) bot, trivial, by simp [WF], fun _ => true, ?_, ?_⟩
  · simp [lookup, eval]
  · rw [show difference 99 bot (node 0 (term 7) bot) = term 99 by decide +kernel]
    rfl

/-- C09: `wc_to_BDD(wc, act)` sends exactly the covered packets to `act`, the others to nothing, and succeeds on every
well formed wildcard with a well formed diagram. -/
theorem C09_wc_to_bdd (n wc : Nat) (act : α) (hn : 0 < n) (hw : WcValid n wc) :
    ∃ t, wcToDD n wc act = some t ∧ WF n 0 t ∧
      ∀ p, (Covers n wc p → t.lookup n p = some act) ∧ (¬ Covers n wc p → t.lookup n p = none) := by
  obtain ⟨t, h1, h2, _, _, h4, h5⟩ := wcToDD_spec hn act hw
  refine ⟨t, h1, h2, fun p => ⟨(h5 p).2, fun hc => ?_⟩⟩
  rcases h4 p with h | h
  · exact absurd ((h5 p).1 h) hc
  · exact h

/-- C09: the empty wildcard gives the empty diagram; a non-zero wildcard with a `z` tbit fails the assertion instead of
producing a wrong diagram. -/
theorem C09_wc_to_bdd_empty (n wc : Nat) (act : α) :
    wcToDD n 0 act = some bot ∧
    (wc ≠ 0 → (∃ i, i < n ∧ wc.testBit (2 * i) = false ∧ wc.testBit (2 * i + 1) = false) → wcToDD n wc act = none) := by
  refine ⟨by simp [wcToDD], fun h0 ⟨i, hi, h1, h2⟩ => ?_⟩
  rw [wcToDD, if_neg h0]
  exact wcLoop_none ⟨i, by omega, by omega, h1, h2⟩

/-- `1x0`: bit 2 is one, bit 0 is zero. -/
example : WcValid 3 0b101101 ∧ wcToDD 3 0b101101 7 = some (node 0 bot (node 2 (term 7) bot)) ∧
    wcToDD 3 0b100001 7 = none :=
  ⟨⟨by decide, by decide⟩, by decide, by decide⟩

/-- C10: `BDD_to_wcs` enumerates well formed, pairwise disjoint wildcards; a packet lies in a wildcard labelled `a` exactly
when the diagram sends it to `a`. -/
theorem C10_bdd_to_wcs (n : Nat) (t : DD α) (ht : WF n 0 t) :
    (∀ x ∈ toWcs n t, WcValid n x.1) ∧
    (toWcs n t).Pairwise (fun x y => ¬ ∃ p, Covers n x.1 p ∧ Covers n y.1 p) ∧
    ∀ p a, t.lookup n p = some a ↔ ∃ w, (w, a) ∈ toWcs n t ∧ Covers n w p := by
  obtain ⟨h1, h2, h3, h4⟩ := toWcsAux_spec ht (wcFull n)
  refine ⟨h4 (wcValid_wcFull n) (by simpa using freeBelow_full n), h3, fun p a => ⟨h2 p a (covers_wcFull n p), ?_⟩⟩
  rintro ⟨w, hw, hc⟩
  exact (h1 _ hw p hc).2

/-- C10: converting one wildcard to a diagram and back returns exactly that wildcard. -/
theorem C10_wc_round_trip (n wc : Nat) (act : α) (hn : 0 < n) (hw : WcValid n wc) :
    ∃ t, wcToDD n wc act = some t ∧ toWcs n t = [(wc, act)] := by
  obtain ⟨t, h1, h2, _, h3, h4, h5⟩ := wcToDD_spec hn act hw
  refine ⟨t, h1, ?_⟩
  obtain ⟨hv, _, hl⟩ := C10_bdd_to_wcs n t h2
  obtain ⟨⟨w, a⟩, hx⟩ := List.length_eq_one_iff.1 (h3 (wcFull n))
  change toWcs n t = [(w, a)] at hx
  rw [hx] at hv hl ⊢
  obtain ⟨p, hp⟩ := exists_covers hw.noZ
  have ha : a = act := by
    obtain ⟨w', hw', _⟩ := (hl p act).1 ((h5 p).2 hp)
    simp only [List.mem_singleton, Prod.mk.injEq] at hw'
    exact hw'.2.symm
  subst ha
  have : w = wc := by
    apply wc_ext (hv (w, a) (by simp)) hw
    intro p
    rw [← h5, hl]
    simp
  rw [this]

example : toWcs 3 (node 0 bot (node 2 (term 7) (term 8))) = [(0b101101, 7), (0b101110, 8)] := by decide +kernel

end OFE
