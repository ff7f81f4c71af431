import Verif.Cudd.Model
import Verif.Bdd.WcLemmas

/-!
# Lemmas for the CUDD back end
-/

namespace OFE
namespace Cudd
open DD
set_option linter.unusedSectionVars false

theorem encode_lt {a b : Nat} (ha : a < 2 ^ 26) (hb : b < 2 ^ 26) : encode a b < 2 ^ 52 := by
  unfold encode
  apply Nat.or_lt_two_pow
  · omega
  · rw [Nat.shiftLeft_eq]; omega

theorem testBit_encode {a b i : Nat} (ha : a < 2 ^ 26) :
    (encode a b).testBit i = if i < 26 then a.testBit i else b.testBit (i - 26) := by
  unfold encode
  rw [Nat.testBit_or, Nat.testBit_shiftLeft]
  by_cases h : i < 26
  · have : ¬ 26 ≤ i := by omega
    simp [h, this]
  · have : a.testBit i = false := Nat.testBit_lt_two_pow (lt_of_lt_of_le ha (Nat.pow_le_pow_right (by omega) (by omega)))
    have h' : 26 ≤ i := by omega
    simp [h, this, h']

theorem decode_encode {a b : Nat} (ha : a < 2 ^ 26) (hb : b < 2 ^ 26) : decode (encode a b) = (a, b) := by
  have hm : (0x3FFFFFF : Nat) = 2 ^ 26 - 1 := rfl
  unfold decode
  rw [hm]
  ext
  · show (encode a b % 2 ^ 32) &&& (2 ^ 26 - 1) = a
    rw [Nat.and_two_pow_sub_one_eq_mod]
    apply Nat.eq_of_testBit_eq
    intro i
    rw [Nat.testBit_mod_two_pow, Nat.testBit_mod_two_pow, testBit_encode ha]
    by_cases h : i < 26
    · have : i < 32 := by omega
      simp [h, this]
    · have : a.testBit i = false := Nat.testBit_lt_two_pow (lt_of_lt_of_le ha (Nat.pow_le_pow_right (by omega) (by omega)))
      simp [h, this]
  · show ((encode a b >>> 26) % 2 ^ 32) &&& (2 ^ 26 - 1) = b
    rw [Nat.and_two_pow_sub_one_eq_mod]
    apply Nat.eq_of_testBit_eq
    intro i
    rw [Nat.testBit_mod_two_pow, Nat.testBit_mod_two_pow, Nat.testBit_shiftRight, testBit_encode ha]
    by_cases h : i < 26
    · have : i < 32 := by omega
      simp [h, this]
    · have : b.testBit i = false := Nat.testBit_lt_two_pow (lt_of_lt_of_le hb (Nat.pow_le_pow_right (by omega) (by omega)))
      simp [h, this]

/-- Terminal ids in use: not 0 (the background), below 2^26. -/
def Small (x : Option Nat) : Prop := ∀ v, x = some v → 0 < v ∧ v < 2 ^ 26

/-- What the tagged difference gives for the two results of a packet. -/
def TagR (x y r : Option Nat) : Prop :=
  (x = y → r = none) ∧
  (x ≠ y → ∃ v, r = some v ∧ v < 2 ^ 52 ∧ decode v = (x.getD 0, y.getD 0))

theorem isConst_eval {α : Type} {t : DD α} (h : isConst t = true) : ∃ x, ∀ q, t.eval q = x := by
  cases t with
  | bot => exact ⟨none, fun _ => rfl⟩
  | term a => exact ⟨some a, fun _ => rfl⟩
  | node => simp [isConst] at h

theorem diffTagged_base_ok (n : Nat) :
    BaseOK n (fun x y => Small x ∧ Small y) TagR diffTaggedLeaf where
  some_ok := by
    intro a b r k ha hb hS h
    unfold diffTaggedLeaf at h
    split at h
    · next h1 => subst h1; cases h; exact ⟨trivial, fun q => ⟨fun _ => rfl, fun h => absurd rfl h⟩⟩
    · next hne =>
      split at h
      · next h1 =>
        cases h
        simp only [Bool.and_eq_true] at h1
        have key : ∀ x y : Option Nat, x ≠ y → Small x → Small y →
            TagR x y (some (encode (x.getD 0) (y.getD 0))) ∧ encode (x.getD 0) (y.getD 0) ≠ 0 := by
          intro x y hxy hx hy
          have l1 : x.getD 0 < 2 ^ 26 := by
            cases x with
            | none => simp
            | some v => exact (hx v rfl).2
          have l2 : y.getD 0 < 2 ^ 26 := by
            cases y with
            | none => simp
            | some v => exact (hy v rfl).2
          have hd := decode_encode l1 l2
          refine ⟨⟨fun h => absurd h hxy, fun _ => ⟨_, rfl, encode_lt l1 l2, hd⟩⟩, ?_⟩
          intro h0
          rw [h0] at hd
          have e0 : decode 0 = (0, 0) := by decide
          rw [e0] at hd
          simp only [Prod.mk.injEq] at hd
          cases x with
          | some v => have := (hx v rfl).1; simp at hd; omega
          | none =>
            cases y with
            | some v => have := (hy v rfl).1; simp at hd; omega
            | none => exact hxy rfl
        have S0 := hS (fun _ => false)
        cases a with
        | node => simp [isConst] at h1
        | bot =>
          cases b with
          | node => simp [isConst] at h1
          | bot => exact absurd rfl hne
          | term v =>
            obtain ⟨k1, k2⟩ := key none (some v) (by simp) S0.1 S0.2
            simp only [Option.getD_none, Option.getD_some] at k1 k2
            simp only [addConst, constVal, k2, if_false]
            exact ⟨trivial, fun q => k1⟩
        | term u =>
          cases b with
          | node => simp [isConst] at h1
          | bot =>
            obtain ⟨k1, k2⟩ := key (some u) none (by simp) S0.1 S0.2
            simp only [Option.getD_none, Option.getD_some] at k1 k2
            simp only [addConst, constVal, k2, if_false]
            exact ⟨trivial, fun q => k1⟩
          | term v =>
            obtain ⟨k1, k2⟩ := key (some u) (some v) (by intro h; cases h; exact hne rfl) S0.1 S0.2
            simp only [Option.getD_some] at k1 k2
            simp only [addConst, constVal, k2, if_false]
            exact ⟨trivial, fun q => k1⟩
      · cases h
  none_bot_bot := by simp [diffTaggedLeaf]
  none_bot_term := by simp [diffTaggedLeaf, isConst]
  none_term_bot := by simp [diffTaggedLeaf, isConst]
  none_term_term := by
    intro s t h
    unfold diffTaggedLeaf at h
    split at h
    · cases h
    · simp [isConst] at h

theorem diffTagged_spec {n : Nat} {a b : DD Nat} (ha : WF n 0 a) (hb : WF n 0 b)
    (hS : ∀ q, Small (a.eval q) ∧ Small (b.eval q)) :
    WF n 0 (diffTagged a b) ∧ ∀ q, TagR (a.eval q) (b.eval q) ((diffTagged a b).eval q) :=
  apply_correct (diffTagged_base_ok n) ha hb hS

variable {α : Type} [DecidableEq α]

theorem meldLeaf_ok (n : Nat) :
    BaseOK n (fun _ _ => True) (fun x y r => r = x.or y) (meldLeaf : DD α → DD α → Option (DD α)) where
  some_ok := by
    intro a b r k ha hb _ h
    unfold meldLeaf at h
    split at h
    · next h1 =>
      cases h
      refine ⟨hb, fun q => ?_⟩
      rcases h1 with rfl | rfl
      · cases a.eval q <;> rfl
      · simp [eval]
    · next hne =>
      split at h
      · next h1 =>
        cases h
        refine ⟨ha, fun q => ?_⟩
        rcases h1 with h1 | rfl
        · cases a with
          | bot => exact absurd (Or.inr rfl) hne
          | term => rfl
          | node => simp [isConst] at h1
        · simp [eval]
      · cases h
  none_bot_bot := by simp [meldLeaf]
  none_bot_term := by simp [meldLeaf]
  none_term_bot := by simp [meldLeaf, isConst]
  none_term_term := by
    intro s t h
    unfold meldLeaf at h
    split at h
    · cases h
    · simp [isConst] at h

theorem subtractLeaf_ok (n : Nat) :
    BaseOK n (fun _ _ => True) (fun x y r => r = subP x y) (subtractLeaf : DD α → DD α → Option (DD α)) where
  some_ok := by
    intro a b r k ha hb _ h
    unfold subtractLeaf at h
    split at h
    · next h1 => subst h1; cases h; exact ⟨trivial, fun q => by simp [subP, eval]⟩
    · next hne =>
      split at h
      · next h1 =>
        cases h
        refine ⟨ha, fun q => ?_⟩
        simp only [Bool.and_eq_true] at h1
        have : a.eval q ≠ b.eval q := by
          cases a <;> cases b <;> simp_all [isConst, eval]
        rw [subP, if_neg this]
      · cases h
  none_bot_bot := by simp [subtractLeaf]
  none_bot_term := by simp [subtractLeaf, isConst]
  none_term_bot := by simp [subtractLeaf, isConst]
  none_term_term := by
    intro s t h
    unfold subtractLeaf at h
    split at h
    · cases h
    · simp [isConst] at h

theorem intersectionLeaf_ok (n : Nat) :
    BaseOK n (fun _ _ => True) (fun x y r => r = intP x y) (intersectionLeaf : DD α → DD α → Option (DD α)) where
  some_ok := by
    intro a b r k ha hb _ h
    unfold intersectionLeaf at h
    split at h
    · next h1 => subst h1; cases h; exact ⟨ha, fun q => by simp [intP]⟩
    · next hne =>
      split at h
      · next h1 =>
        cases h
        refine ⟨trivial, fun q => ?_⟩
        simp only [Bool.and_eq_true] at h1
        have : a.eval q ≠ b.eval q := by
          cases a <;> cases b <;> simp_all [isConst, eval]
        rw [intP, if_neg this]; rfl
      · cases h
  none_bot_bot := by simp [intersectionLeaf]
  none_bot_term := by simp [intersectionLeaf, isConst]
  none_term_bot := by simp [intersectionLeaf, isConst]
  none_term_term := by
    intro s t h
    unfold intersectionLeaf at h
    split at h
    · cases h
    · simp [isConst] at h

theorem differenceLeaf_eq (d : α) (a b : DD α) : differenceLeaf d a b = differenceBase d a b := by
  unfold differenceLeaf differenceBase
  cases a <;> cases b <;> simp [isConst, isTerm]

theorem meld_eq {n : Nat} {a b : DD α} (ha : WF n 0 a) (hb : WF n 0 b) : meld a b = DD.meld a b := by
  obtain ⟨h1, h2⟩ := apply_correct (meldLeaf_ok (α := α) n) ha hb fun _ => trivial
  exact eq_of_eval_eq h1 (wf_meld ha hb) fun q => (h2 q).trans (eval_meld ha hb q).symm

theorem subtract_eq {n : Nat} {a b : DD α} (ha : WF n 0 a) (hb : WF n 0 b) : subtract a b = DD.subtract a b := by
  obtain ⟨h1, h2⟩ := apply_correct (subtractLeaf_ok (α := α) n) ha hb fun _ => trivial
  exact eq_of_eval_eq h1 (wf_subtract ha hb) fun q => (h2 q).trans (eval_subtract ha hb q).symm

theorem intersection_eq {n : Nat} {a b : DD α} (ha : WF n 0 a) (hb : WF n 0 b) :
    intersection a b = DD.intersection a b := by
  obtain ⟨h1, h2⟩ := apply_correct (intersectionLeaf_ok (α := α) n) ha hb fun _ => trivial
  exact eq_of_eval_eq h1 (wf_intersection ha hb) fun q => (h2 q).trans (eval_intersection ha hb q).symm

theorem difference_eq (d : α) (a b : DD α) : difference d a b = DD.difference d a b := by
  unfold difference DD.difference
  congr 1
  funext x y
  exact differenceLeaf_eq d x y

theorem wcLoop_eq {n wc : Nat} (hz : ∀ i, i < n → wc.testBit (2 * i) = true ∨ wc.testBit (2 * i + 1) = true)
    {b k : Nat} (hbk : b + k = n) {c : DD α} (hne : c ≠ bot) : DD.wcLoop n wc b k c = some (wcLoop n wc b k c) := by
  induction k generalizing b c with
  | zero => rfl
  | succ k ih =>
    rw [DD.wcLoop, wcLoop]
    have hv : (wc >>> (b * 2)) &&& 3 ≠ 0 := by
      rw [tbit_value]
      rcases hz b (by omega) with h | h <;> simp [h]
    rw [if_neg hv]
    have m1 : mk (n - 1 - b) c bot = node (n - 1 - b) c bot := by rw [mk, if_neg hne]
    have m2 : mk (n - 1 - b) bot c = node (n - 1 - b) bot c := by rw [mk, if_neg (fun h => hne h.symm)]
    rw [m1, m2]
    split
    · exact ih (by omega) (by simp)
    · split
      · exact ih (by omega) (by simp)
      · exact ih (by omega) hne

section
variable {φ α : Type} [DecidableEq φ]

theorem lookup_append {κ β : Type} [DecidableEq κ] (l : List (κ × β)) (k : κ) (v : β) (k' : κ) :
    (l ++ [(k, v)]).lookup k' = (l.lookup k').or (if k' = k then some v else none) := by
  induction l with
  | nil =>
    by_cases h : k' = k
    · simp [h]
    · simp [List.lookup, h, beq_eq_false_iff_ne.2 h]
  | cons x l ih =>
    obtain ⟨k2, v2⟩ := x
    by_cases h : k' = k2
    · simp [List.lookup, h]
    · simp [List.lookup, beq_eq_false_iff_ne.2 h, ih]

/-- Invariant of the tables after the history `h`. -/
structure RegInv (fd : φ) (d : α) (h : List (φ × α)) (r : Reg φ α) : Prop where
  differs : r.mapping.lookup fd = some 1
  range : ∀ f i, r.mapping.lookup f = some i → 0 < i ∧ i < r.counter ∧ (i = 1 → f = fd)
  inj : ∀ f g i, r.mapping.lookup f = some i → r.mapping.lookup g = some i → f = g
  first : ∀ f i, r.mapping.lookup f = some i → f ≠ fd → ∃ a, h.lookup f = some a ∧ r.termTo.lookup i = some (some a)
  zero : r.termTo.lookup 0 = some none
  one : r.termTo.lookup 1 = some (some d)
  fresh : ∀ i, r.counter ≤ i → r.termTo.lookup i = none
  two : 2 ≤ r.counter
  small : r.counter ≤ 2 + h.length
  known : ∀ f a, h.lookup f = some a → (r.mapping.lookup f).isSome

theorem regInv_init (fd : φ) (d : α) : RegInv fd d [] (Reg.init fd d) where
  differs := by simp [Reg.init]
  range := by
    intro f i h
    simp only [Reg.init, List.lookup] at h
    split at h
    · next e => cases h; exact ⟨by omega, by simp [Reg.init], fun _ => by simpa using e⟩
    · cases h
  inj := by
    intro f g i h1 h2
    simp only [Reg.init, List.lookup] at h1 h2
    split at h1 <;> split at h2 <;> simp_all
  first := by
    intro f i h hne
    simp only [Reg.init, List.lookup, beq_eq_false_iff_ne.2 hne] at h
    cases h
  zero := by simp [Reg.init]
  one := by simp [Reg.init, List.lookup]
  fresh := by
    intro i hi
    simp only [Reg.init] at hi
    obtain ⟨j, rfl⟩ : ∃ j, i = j + 2 := ⟨i - 2, by omega⟩
    simp [Reg.init, List.lookup]
  two := by simp [Reg.init]
  small := by simp [Reg.init]
  known := by simp

theorem regInv_id {fd : φ} {d : α} {h : List (φ × α)} {r : Reg φ α} (I : RegInv fd d h r) (f : φ) (a : α) :
    RegInv fd d (h ++ [(f, a)]) (r.id f a).2 ∧ (r.id f a).2.mapping.lookup f = some (r.id f a).1 ∧
    ∀ g i, r.mapping.lookup g = some i → (r.id f a).2.mapping.lookup g = some i := by
  unfold Reg.id
  split
  · next i hi =>
    refine ⟨⟨I.differs, I.range, I.inj, ?_, I.zero, I.one, I.fresh, I.two, ?_, ?_⟩, hi, fun _ _ h => h⟩
    · intro g j hj hne
      obtain ⟨b, hb, hb'⟩ := I.first g j hj hne
      exact ⟨b, by rw [lookup_append, hb]; rfl, hb'⟩
    · have := I.small; simp only [List.length_append, List.length_singleton]; omega
    · intro g b hb
      rw [lookup_append] at hb
      by_cases e : g = f
      · subst e; rw [hi]; rfl
      · rw [if_neg e, Option.or_none] at hb; exact I.known g b hb
  · next hn =>
    have hfd : f ≠ fd := fun e => by rw [e, I.differs] at hn; cases hn
    have hlk : ∀ g, (r.mapping ++ [(f, r.counter)]).lookup g =
        (r.mapping.lookup g).or (if g = f then some r.counter else none) := lookup_append _ _ _
    have hlt : ∀ i, (r.termTo ++ [(r.counter, some a)]).lookup i =
        (r.termTo.lookup i).or (if i = r.counter then some (some a) else none) := lookup_append _ _ _
    have hcases : ∀ g i, (r.mapping ++ [(f, r.counter)]).lookup g = some i →
        r.mapping.lookup g = some i ∨ (g = f ∧ i = r.counter) := by
      intro g i hg
      rw [hlk] at hg
      cases hh : r.mapping.lookup g with
      | some j => rw [hh] at hg; left; simpa using hg
      | none =>
        rw [hh] at hg
        by_cases e : g = f
        · rw [if_pos e] at hg; right; exact ⟨e, by simpa using hg.symm⟩
        · rw [if_neg e] at hg; cases hg
    have hmono : ∀ g i, r.mapping.lookup g = some i → (r.mapping ++ [(f, r.counter)]).lookup g = some i := by
      intro g i hg; rw [hlk, hg]; rfl
    have hf : (r.mapping ++ [(f, r.counter)]).lookup f = some r.counter := by rw [hlk, hn]; simp
    refine ⟨⟨hmono _ _ I.differs, ?_, ?_, ?_, ?_, ?_, ?_, ?_, ?_, ?_⟩, hf, hmono⟩
    · intro g i hg
      have := I.two
      rcases hcases g i hg with hg | ⟨rfl, rfl⟩
      · obtain ⟨h1, h2, h3⟩ := I.range g i hg
        exact ⟨h1, by show i < r.counter + 1; omega, h3⟩
      · exact ⟨by omega, by show r.counter < r.counter + 1; omega, fun h => by omega⟩
    · intro g g' i h1 h2
      rcases hcases g i h1 with k1 | ⟨k1, k1'⟩ <;> rcases hcases g' _ h2 with k2 | ⟨k2, k2'⟩
      · exact I.inj _ _ _ k1 k2
      · have := (I.range _ _ k1).2.1; omega
      · have := (I.range _ _ k2).2.1; omega
      · rw [k1, k2]
    · intro g i hg hne
      rcases hcases g i hg with hg | ⟨rfl, rfl⟩
      · obtain ⟨b, hb, hb'⟩ := I.first g i hg hne
        exact ⟨b, by rw [lookup_append, hb]; rfl, by show (r.termTo ++ _).lookup i = _; rw [hlt, hb']; rfl⟩
      · have hnone : h.lookup g = none := by
          cases hh : h.lookup g with
          | none => rfl
          | some b => have := I.known _ _ hh; rw [hn] at this; cases this
        exact ⟨a, by rw [lookup_append, hnone]; simp, by
          show (r.termTo ++ _).lookup _ = _; rw [hlt, I.fresh _ (Nat.le_refl _)]; simp⟩
    · show (r.termTo ++ _).lookup _ = _; rw [hlt, I.zero]; rfl
    · show (r.termTo ++ _).lookup _ = _; rw [hlt, I.one]; rfl
    · intro i hi
      have hi : r.counter + 1 ≤ i := hi
      show (r.termTo ++ _).lookup _ = _
      rw [hlt, I.fresh i (by omega), if_neg (by omega)]; rfl
    · have := I.two; show 2 ≤ r.counter + 1; omega
    · have := I.small; show r.counter + 1 ≤ _; simp only [List.length_append, List.length_singleton]; omega
    · intro g b hb
      show ((r.mapping ++ _).lookup g).isSome
      rw [lookup_append] at hb
      by_cases e : g = f
      · subst e; rw [hf]; rfl
      · rw [if_neg e, Option.or_none] at hb
        have := I.known g b hb
        rw [hlk]; cases hh : r.mapping.lookup g with
        | some _ => rfl
        | none => rw [hh] at this; cases this

theorem regInv_run {fd : φ} {d : α} {pre : List (φ × α)} {r : Reg φ α} (I : RegInv fd d pre r) (h : List (φ × α)) :
    RegInv fd d (pre ++ h) (r.run h).2 ∧ (r.run h).1.length = h.length ∧
    (∀ (k : Nat) x i, h[k]? = some x → (r.run h).1[k]? = some i → (r.run h).2.mapping.lookup x.1 = some i) ∧
    ∀ g i, r.mapping.lookup g = some i → (r.run h).2.mapping.lookup g = some i := by
  induction h generalizing pre r with
  | nil => exact ⟨by simpa [Reg.run] using I, rfl, fun k x i hk => by simp at hk, fun _ _ h => h⟩
  | cons x h ih =>
    obtain ⟨f, a⟩ := x
    obtain ⟨I1, e1, m1⟩ := regInv_id I f a
    obtain ⟨I2, l2, e2, m2⟩ := ih I1
    refine ⟨by simpa [Reg.run] using I2, by simp [Reg.run, l2], ?_, fun g i hg => m2 g i (m1 g i hg)⟩
    intro k x i hk hi
    cases k with
    | zero =>
      simp only [Reg.run, List.getElem?_cons_zero, Option.some.injEq] at hk hi
      subst hk; subst hi
      exact m2 _ _ e1
    | succ k =>
      simp only [Reg.run, List.getElem?_cons_succ] at hk hi
      exact e2 k x i hk hi

end

end Cudd
end OFE
