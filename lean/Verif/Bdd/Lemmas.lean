import Verif.Bdd.Model
import Verif.Bdd.Spec
import Verif.Wildcard.Lemmas

namespace OFE.DD
variable {α : Type}

theorem WF.mono {n k k' : Nat} {t : DD α} (h : WF n k t) (hk : k' ≤ k) : WF n k' t := by
  cases t with
  | bot => trivial
  | term => trivial
  | node num z o => exact ⟨le_trans hk h.1, h.2⟩

theorem eval_congr {n k : Nat} {t : DD α} (h : WF n k t) {q q' : Nat → Bool}
    (hq : ∀ i, k ≤ i → i < n → q i = q' i) : t.eval q = t.eval q' := by
  induction t generalizing k with
  | bot => rfl
  | term => rfl
  | node num z o ihz iho =>
    obtain ⟨h1, h2, h3, h4, h5⟩ := h
    simp only [eval]
    rw [hq num h1 h2, ihz h4 fun i hi => hq i (by omega), iho h5 fun i hi => hq i (by omega)]

theorem eval_zero {n k num : Nat} {z o : DD α} (h : WF n k (node num z o)) (q : Nat → Bool) :
    z.eval q = (node num z o).eval (Function.update q num false) := by
  simp only [eval, Function.update_self]
  apply eval_congr h.2.2.2.1
  intro i hi _
  rw [Function.update_of_ne]; omega

theorem eval_one {n k num : Nat} {z o : DD α} (h : WF n k (node num z o)) (q : Nat → Bool) :
    o.eval q = (node num z o).eval (Function.update q num true) := by
  simp only [eval, Function.update_self]
  apply eval_congr h.2.2.2.2
  intro i hi _
  rw [Function.update_of_ne]; omega

/-- Canonicity: ordered, reduced diagrams with the same function are the same. -/
theorem eq_of_eval_eq {n k l : Nat} {s t : DD α} (hs : WF n k s) (ht : WF n l t)
    (h : ∀ q, s.eval q = t.eval q) : s = t := by
  induction hsz : sizeOf s + sizeOf t using Nat.strongRecOn generalizing s t k l with
  | ind sz ih =>
    -- a node above which the other diagram does not depend on its variable is impossible
    have key : ∀ {k l num} {z o u : DD α}, WF n k (node num z o) → WF n l u → num < l →
        sizeOf (node num z o) + sizeOf u ≤ sz → (∀ q, (node num z o).eval q = u.eval q) → False := by
      intro k l num z o u hw hu hl hsz hq
      apply hw.2.2.1
      have e : ∀ q, z.eval q = o.eval q := by
        intro q
        rw [eval_zero hw, eval_one hw, hq, hq]
        apply eval_congr hu
        intro i hi _
        rw [Function.update_of_ne (by omega), Function.update_of_ne (by omega)]
      have : sizeOf z + sizeOf o < sz := by
        simp only [node.sizeOf_spec] at hsz
        omega
      exact ih _ this hw.2.2.2.1 hw.2.2.2.2 e rfl
    cases s with
    | bot =>
      cases t with
      | bot => rfl
      | term a => simpa [eval] using h fun _ => false
      | node num z o =>
        exact (key (l := num + 1) ht (u := bot) trivial (by omega) (by omega) fun q => (h q).symm).elim
    | term a =>
      cases t with
      | bot => simpa [eval] using h fun _ => false
      | term b => simpa [eval] using h fun _ => false
      | node num z o =>
        exact (key (l := num + 1) ht (u := term a) trivial (by omega) (by omega) fun q => (h q).symm).elim
    | node num z o =>
      cases t with
      | bot => exact (key (l := num + 1) hs (u := bot) trivial (by omega) (by omega) h).elim
      | term a => exact (key (l := num + 1) hs (u := term a) trivial (by omega) (by omega) h).elim
      | node num' z' o' =>
        rcases Nat.lt_trichotomy num num' with hlt | heq | hlt
        · exact (key (l := num') hs (u := node num' z' o') ⟨le_rfl, ht.2⟩ hlt (by omega) h).elim
        · subst heq
          simp only [node.sizeOf_spec] at hsz
          have hz : z = z' := ih (sizeOf z + sizeOf z') (by omega) hs.2.2.2.1 ht.2.2.2.1 (fun q => by
            rw [eval_zero hs, eval_zero ht, h]) rfl
          have ho : o = o' := ih (sizeOf o + sizeOf o') (by omega) hs.2.2.2.2 ht.2.2.2.2 (fun q => by
            rw [eval_one hs, eval_one ht, h]) rfl
          rw [hz, ho]
        · exact (key (l := num) ht (u := node num z o) ⟨le_rfl, hs.2⟩ hlt (by omega) fun q => (h q).symm).elim

theorem lookup_ext {n : Nat} {s t : DD α} (hs : WF n 0 s) (ht : WF n 0 t)
    (h : ∀ p, s.lookup n p = t.lookup n p) : s = t := by
  apply eq_of_eval_eq hs ht
  intro q
  have := h fun i => q (n - 1 - i)
  simp only [lookup] at this
  rw [eval_congr hs (q' := fun num => q (n - 1 - (n - 1 - num))),
    eval_congr ht (q' := fun num => q (n - 1 - (n - 1 - num))), this]
  all_goals
    intro i _ hi
    congr 1; omega

section ops
variable [DecidableEq α]

theorem eval_mk (num : Nat) (z o : DD α) (q : Nat → Bool) :
    (mk num z o).eval q = if q num then o.eval q else z.eval q := by
  unfold mk
  split
  · next h => subst h; simp
  · rfl

theorem wf_mk {n k num : Nat} {z o : DD α} (hk : k ≤ num) (hn : num < n)
    (hz : WF n (num + 1) z) (ho : WF n (num + 1) o) : WF n k (mk num z o) := by
  unfold mk
  split
  · exact hz.mono (by omega)
  · next h => exact ⟨hk, hn, h, hz, ho⟩

/-- What a termination test must guarantee to implement the pointwise relation `R` between the two inputs and the
result, on pairs of inputs that are pointwise related by `S`. -/
structure BaseOK (n : Nat) (S : Option α → Option α → Prop) (R : Option α → Option α → Option α → Prop)
    (base : DD α → DD α → Option (DD α)) : Prop where
  /-- when it decides, it decides correctly and stays within bounds -/
  some_ok : ∀ {a b r k}, WF n k a → WF n k b → (∀ q, S (a.eval q) (b.eval q)) → base a b = some r →
    WF n k r ∧ ∀ q, R (a.eval q) (b.eval q) (r.eval q)
  /-- two undecided leaves mean "undefined" -/
  none_bot_bot : base bot bot = none → R none none none
  none_bot_term : ∀ t, base bot (term t) = none → R none (some t) none
  none_term_bot : ∀ t, base (term t) bot = none → R (some t) none none
  none_term_term : ∀ s t, base (term s) (term t) = none → R (some s) (some t) none

omit [DecidableEq α] in
theorem rel_both {n k num : Nat} {S : Option α → Option α → Prop} {z o z' o' : DD α}
    (ha : WF n k (node num z o)) (hb : WF n k (node num z' o'))
    (h : ∀ q, S ((node num z o).eval q) ((node num z' o').eval q)) :
    (∀ q, S (z.eval q) (z'.eval q)) ∧ (∀ q, S (o.eval q) (o'.eval q)) := by
  constructor
  · intro q; rw [eval_zero ha, eval_zero hb]; exact h _
  · intro q; rw [eval_one ha, eval_one hb]; exact h _

omit [DecidableEq α] in
theorem rel_left {n k num : Nat} {S : Option α → Option α → Prop} {z o b : DD α}
    (ha : WF n k (node num z o)) (hb : WF n (num + 1) b)
    (h : ∀ q, S ((node num z o).eval q) (b.eval q)) :
    (∀ q, S (z.eval q) (b.eval q)) ∧ (∀ q, S (o.eval q) (b.eval q)) := by
  have e : ∀ q c, b.eval q = b.eval (Function.update q num c) := fun q c => by
    apply eval_congr hb
    intro i hi _
    rw [Function.update_of_ne (by omega)]
  constructor
  · intro q; rw [eval_zero ha, e q false]; exact h _
  · intro q; rw [eval_one ha, e q true]; exact h _

omit [DecidableEq α] in
theorem rel_right {n k num : Nat} {S : Option α → Option α → Prop} {z o a : DD α}
    (hb : WF n k (node num z o)) (ha : WF n (num + 1) a)
    (h : ∀ q, S (a.eval q) ((node num z o).eval q)) :
    (∀ q, S (a.eval q) (z.eval q)) ∧ (∀ q, S (a.eval q) (o.eval q)) :=
  rel_left (S := fun x y => S y x) hb ha h

theorem apply_correct {n : Nat} {S : Option α → Option α → Prop} {R : Option α → Option α → Option α → Prop}
    {base : DD α → DD α → Option (DD α)}
    (hb : BaseOK n S R base) {k : Nat} {a b : DD α} (ha : WF n k a) (hbb : WF n k b)
    (hS : ∀ q, S (a.eval q) (b.eval q)) :
    WF n k (apply base a b) ∧ ∀ q, R (a.eval q) (b.eval q) ((apply base a b).eval q) := by
  induction a, b using apply.induct (base := base) generalizing k with
  | case1 a b r h =>
    unfold apply
    simp only [h]
    exact hb.some_ok ha hbb hS h
  | case2 z o n' z' o' h ih1 ih2 =>
    unfold apply
    simp only [h, if_true]
    have hS' := rel_both ha hbb hS
    have i1 := ih1 ha.2.2.2.1 hbb.2.2.2.1 hS'.1
    have i2 := ih2 ha.2.2.2.2 hbb.2.2.2.2 hS'.2
    refine ⟨wf_mk ha.1 ha.2.1 i1.1 i2.1, fun q => ?_⟩
    rw [eval_mk]
    simp only [eval]
    split
    · exact i2.2 q
    · exact i1.2 q
  | case3 n1 z o m z' o' h hne hlt ih1 ih2 =>
    unfold apply
    simp only [h, hne, if_false, hlt, if_true]
    have hb' : WF n (n1 + 1) (node m z' o') := ⟨by omega, hbb.2⟩
    have hS' := rel_left ha hb' hS
    have i1 := ih1 (k := n1 + 1) ha.2.2.2.1 hb' hS'.1
    have i2 := ih2 (k := n1 + 1) ha.2.2.2.2 hb' hS'.2
    refine ⟨wf_mk ha.1 ha.2.1 i1.1 i2.1, fun q => ?_⟩
    rw [eval_mk, show (node n1 z o).eval q = if q n1 then o.eval q else z.eval q from rfl]
    split
    · exact i2.2 q
    · exact i1.2 q
  | case4 n1 z o m z' o' h hne hlt ih1 ih2 =>
    unfold apply
    simp only [h, hne, if_false, hlt]
    have ha' : WF n (m + 1) (node n1 z o) := ⟨by omega, ha.2⟩
    have hS' := rel_right hbb ha' hS
    have i1 := ih1 (k := m + 1) ha' hbb.2.2.2.1 hS'.1
    have i2 := ih2 (k := m + 1) ha' hbb.2.2.2.2 hS'.2
    refine ⟨wf_mk hbb.1 hbb.2.1 i1.1 i2.1, fun q => ?_⟩
    rw [eval_mk, show (node m z' o').eval q = if q m then o'.eval q else z'.eval q from rfl]
    split
    · exact i2.2 q
    · exact i1.2 q
  | case5 n1 z o h ih1 ih2 =>
    unfold apply
    simp only [h]
    have hS' := rel_left ha (b := bot) trivial hS
    have i1 := ih1 (k := n1 + 1) ha.2.2.2.1 trivial hS'.1
    have i2 := ih2 (k := n1 + 1) ha.2.2.2.2 trivial hS'.2
    refine ⟨wf_mk ha.1 ha.2.1 i1.1 i2.1, fun q => ?_⟩
    rw [eval_mk, show (node n1 z o).eval q = if q n1 then o.eval q else z.eval q from rfl]
    split
    · exact i2.2 q
    · exact i1.2 q
  | case6 n1 z o t h ih1 ih2 =>
    unfold apply
    simp only [h]
    have hS' := rel_left ha (b := term t) trivial hS
    have i1 := ih1 (k := n1 + 1) ha.2.2.2.1 trivial hS'.1
    have i2 := ih2 (k := n1 + 1) ha.2.2.2.2 trivial hS'.2
    refine ⟨wf_mk ha.1 ha.2.1 i1.1 i2.1, fun q => ?_⟩
    rw [eval_mk, show (node n1 z o).eval q = if q n1 then o.eval q else z.eval q from rfl]
    split
    · exact i2.2 q
    · exact i1.2 q
  | case7 m z' o' h ih1 ih2 =>
    unfold apply
    simp only [h]
    have hS' := rel_right hbb (a := bot) trivial hS
    have i1 := ih1 (k := m + 1) trivial hbb.2.2.2.1 hS'.1
    have i2 := ih2 (k := m + 1) trivial hbb.2.2.2.2 hS'.2
    refine ⟨wf_mk hbb.1 hbb.2.1 i1.1 i2.1, fun q => ?_⟩
    rw [eval_mk, show (node m z' o').eval q = if q m then o'.eval q else z'.eval q from rfl]
    split
    · exact i2.2 q
    · exact i1.2 q
  | case8 t m z' o' h ih1 ih2 =>
    unfold apply
    simp only [h]
    have hS' := rel_right hbb (a := term t) trivial hS
    have i1 := ih1 (k := m + 1) trivial hbb.2.2.2.1 hS'.1
    have i2 := ih2 (k := m + 1) trivial hbb.2.2.2.2 hS'.2
    refine ⟨wf_mk hbb.1 hbb.2.1 i1.1 i2.1, fun q => ?_⟩
    rw [eval_mk, show (node m z' o').eval q = if q m then o'.eval q else z'.eval q from rfl]
    split
    · exact i2.2 q
    · exact i1.2 q
  | case9 a b h h1 h2 h3 h4 h5 =>
    unfold apply
    simp only [h]
    rcases a with _ | s | ⟨n1, z, o⟩ <;> rcases b with _ | t | ⟨m, z', o'⟩
    · exact ⟨trivial, fun q => hb.none_bot_bot h⟩
    · exact ⟨trivial, fun q => hb.none_bot_term t h⟩
    · exact (h4 m z' o' rfl rfl).elim
    · exact ⟨trivial, fun q => hb.none_term_bot s h⟩
    · exact ⟨trivial, fun q => hb.none_term_term s t h⟩
    · exact (h5 s m z' o' rfl rfl).elim
    · exact (h2 n1 z o rfl rfl).elim
    · exact (h3 n1 z o t rfl rfl).elim
    · exact (h1 n1 z o m z' o' rfl rfl).elim

/-! ### The four operations -/

omit [DecidableEq α] in
theorem eval_isSome_of_not_hasNone {t : DD α} (h : t.hasNone = false) (q : Nat → Bool) : ∃ a, t.eval q = some a := by
  induction t with
  | bot => simp [hasNone] at h
  | term a => exact ⟨a, rfl⟩
  | node num z o ihz iho =>
    simp only [hasNone, Bool.or_eq_false_iff] at h
    simp only [eval]
    split
    · exact iho h.2
    · exact ihz h.1

omit [DecidableEq α] in
theorem hasNone_iff {n k : Nat} {t : DD α} (hw : WF n k t) :
    t.hasNone = true ↔ ∃ q, t.eval q = none := by
  constructor
  · intro h
    induction t generalizing k with
    | bot => exact ⟨fun _ => false, rfl⟩
    | term a => simp [hasNone] at h
    | node num z o ihz iho =>
      simp only [hasNone, Bool.or_eq_true] at h
      rcases h with h | h
      · obtain ⟨q, hq⟩ := ihz hw.2.2.2.1 h
        exact ⟨_, (eval_zero hw q).symm.trans hq⟩
      · obtain ⟨q, hq⟩ := iho hw.2.2.2.2 h
        exact ⟨_, (eval_one hw q).symm.trans hq⟩
  · rintro ⟨q, hq⟩
    cases h : t.hasNone
    · obtain ⟨a, ha⟩ := eval_isSome_of_not_hasNone h q
      simp [hq] at ha
    · rfl

theorem meld_base_ok (n : Nat) :
    BaseOK n (fun _ _ => True) (fun x y r => r = x.or y) (meldBase : DD α → DD α → Option (DD α)) where
  some_ok := by
    intro a b r k ha hb _ h
    unfold meldBase at h
    split at h
    · next h1 => subst h1; cases h; exact ⟨hb, fun q => by simp [eval]⟩
    · split at h
      · next h2 => subst h2; cases h; exact ⟨ha, fun q => by simp [eval]⟩
      · split at h
        · next h3 =>
          cases h
          refine ⟨ha, fun q => ?_⟩
          obtain ⟨c, hc⟩ := eval_isSome_of_not_hasNone (by simpa using h3) q
          simp [hc]
        · cases h
  none_bot_bot := by simp [meldBase]
  none_bot_term := by simp [meldBase]
  none_term_bot := by simp [meldBase]
  none_term_term := by simp [meldBase, hasNone]

theorem wf_meld {n k : Nat} {a b : DD α} (ha : WF n k a) (hb : WF n k b) : WF n k (meld a b) :=
  (apply_correct (meld_base_ok n) ha hb fun _ => trivial).1

theorem eval_meld {n k : Nat} {a b : DD α} (ha : WF n k a) (hb : WF n k b) (q : Nat → Bool) :
    (meld a b).eval q = (a.eval q).or (b.eval q) :=
  (apply_correct (meld_base_ok n) ha hb fun _ => trivial).2 q

/-- Pointwise subtraction. -/
def subP (x y : Option α) : Option α := if x = y then none else x

theorem subtract_base_ok (n : Nat) :
    BaseOK n (fun _ _ => True) (fun x y r => r = subP x y) (subtractBase : DD α → DD α → Option (DD α)) where
  some_ok := by
    intro a b r k ha hb _ h
    unfold subtractBase at h
    split at h
    · next h1 => subst h1; cases h; exact ⟨trivial, fun q => by simp [eval, subP]⟩
    · split at h
      · next h2 => subst h2; cases h; exact ⟨trivial, fun q => by rw [subP, eval, ite_self]⟩
      · split at h
        · next h3 => 
          subst h3; cases h
          refine ⟨ha, fun q => ?_⟩
          rw [subP, show (bot : DD α).eval q = none from rfl]
          cases a.eval q <;> simp
        · split at h
          · next h1 h2 h3 h4 =>
            cases h
            refine ⟨ha, fun q => ?_⟩
            cases a <;> cases b <;> simp_all [isTerm, eval, subP]
          · cases h
  none_bot_bot := by simp [subtractBase]
  none_bot_term := by simp [subtractBase]
  none_term_bot := by simp [subtractBase]
  none_term_term := by
    intro s t h
    simp [subtractBase, isTerm] at h
    split at h <;> simp_all

theorem wf_subtract {n k : Nat} {a b : DD α} (ha : WF n k a) (hb : WF n k b) : WF n k (subtract a b) :=
  (apply_correct (subtract_base_ok n) ha hb fun _ => trivial).1

theorem eval_subtract {n k : Nat} {a b : DD α} (ha : WF n k a) (hb : WF n k b) (q : Nat → Bool) :
    (subtract a b).eval q = subP (a.eval q) (b.eval q) :=
  (apply_correct (subtract_base_ok n) ha hb fun _ => trivial).2 q

/-- Pointwise intersection. -/
def intP (x y : Option α) : Option α := if x = y then x else none

theorem intersection_base_ok (n : Nat) :
    BaseOK n (fun _ _ => True) (fun x y r => r = intP x y) (intersectionBase : DD α → DD α → Option (DD α)) where
  some_ok := by
    intro a b r k ha hb _ h
    unfold intersectionBase at h
    split at h
    · next h1 =>
      cases h
      refine ⟨trivial, fun q => ?_⟩
      rcases h1 with rfl | rfl
      · rw [intP, eval, ite_self]
      · rw [intP, show (bot : DD α).eval q = none from rfl]
        cases a.eval q <;> simp
    · split at h
      · next h2 => subst h2; cases h; exact ⟨ha, fun q => by simp [intP]⟩
      · cases h
  none_bot_bot := by simp [intersectionBase]
  none_bot_term := by simp [intersectionBase]
  none_term_bot := by simp [intersectionBase]
  none_term_term := by
    intro s t h
    simp [intersectionBase] at h
    simp [intP, h]

theorem wf_intersection {n k : Nat} {a b : DD α} (ha : WF n k a) (hb : WF n k b) : WF n k (intersection a b) :=
  (apply_correct (intersection_base_ok n) ha hb fun _ => trivial).1

theorem eval_intersection {n k : Nat} {a b : DD α} (ha : WF n k a) (hb : WF n k b) (q : Nat → Bool) :
    (intersection a b).eval q = intP (a.eval q) (b.eval q) :=
  (apply_correct (intersection_base_ok n) ha hb fun _ => trivial).2 q

/-- What `difference` guarantees on any two diagrams. -/
def DiffR (d : α) (x y r : Option α) : Prop :=
  (x ≠ y → r = some d) ∧ (x = y → x ≠ none → r = none) ∧ (r = none ∨ r = some d)

theorem difference_base_ok (n : Nat) (d : α) :
    BaseOK n (fun _ _ => True) (DiffR d) (differenceBase d : DD α → DD α → Option (DD α)) where
  some_ok := by
    intro a b r k ha hb _ h
    unfold differenceBase at h
    split at h
    · next h1 => subst h1; cases h; exact ⟨trivial, fun q => by simp [eval, DiffR]⟩
    · split at h
      · next h2 => subst h2; cases h; exact ⟨trivial, fun q => by simp +contextual [eval, DiffR]⟩
      · split at h
        · next h3 =>
          subst h3
          split at h
          · cases h
            refine ⟨trivial, fun q => ?_⟩
            simp [eval, DiffR]
          · cases h
        · split at h
          · next h1 h2 h3 h4 =>
            cases h
            refine ⟨trivial, fun q => ?_⟩
            cases a <;> cases b <;> simp_all [isTerm, eval, DiffR]
          · cases h
  none_bot_bot := by simp [differenceBase]
  none_bot_term := by simp [differenceBase]
  none_term_bot := by simp [differenceBase, isTerm]
  none_term_term := by
    intro s t h
    simp [differenceBase, isTerm] at h
    split at h <;> simp_all

/-- Exact pointwise difference, when `b` is defined only where `a` is. -/
def diffP (d : α) (x y : Option α) : Option α := if x = y then none else some d

theorem difference_base_ok' (n : Nat) (d : α) :
    BaseOK n (fun x y => x = none → y = none) (fun x y r => r = diffP d x y)
      (differenceBase d : DD α → DD α → Option (DD α)) where
  some_ok := by
    intro a b r k ha hb hS h
    unfold differenceBase at h
    split at h
    · next h1 => subst h1; cases h; exact ⟨trivial, fun q => by simp [eval, diffP]⟩
    · next hne =>
      split at h
      · next h2 =>
        subst h2
        exfalso
        exact hne (eq_of_eval_eq ha hb fun q => (hS q rfl).symm)
      · split at h
        · next h3 =>
          subst h3
          split at h
          · next h4 =>
            cases h
            refine ⟨trivial, fun q => ?_⟩
            cases a <;> simp_all [eval, diffP, isTerm]
          · cases h
        · split at h
          · next h1 h2 h3 h4 =>
            cases h
            refine ⟨trivial, fun q => ?_⟩
            cases a <;> cases b <;> simp_all [isTerm, eval, diffP]
          · cases h
  none_bot_bot := by simp [differenceBase]
  none_bot_term := by simp [differenceBase]
  none_term_bot := by simp [differenceBase, isTerm]
  none_term_term := by
    intro s t h
    simp [differenceBase, isTerm] at h
    split at h <;> simp_all

theorem wf_difference {n k : Nat} {a b : DD α} (d : α) (ha : WF n k a) (hb : WF n k b) :
    WF n k (difference d a b) :=
  (apply_correct (difference_base_ok n d) ha hb fun _ => trivial).1

theorem eval_difference {n k : Nat} {a b : DD α} (d : α) (ha : WF n k a) (hb : WF n k b) (q : Nat → Bool) :
    DiffR d (a.eval q) (b.eval q) ((difference d a b).eval q) :=
  (apply_correct (difference_base_ok n d) ha hb fun _ => trivial).2 q

theorem eval_difference_exact {n k : Nat} {a b : DD α} (d : α) (ha : WF n k a) (hb : WF n k b)
    (hS : ∀ q, a.eval q = none → b.eval q = none) (q : Nat → Bool) :
    (difference d a b).eval q = diffP d (a.eval q) (b.eval q) :=
  (apply_correct (difference_base_ok' n d) ha hb hS).2 q

end ops
end OFE.DD
