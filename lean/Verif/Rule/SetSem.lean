import Verif.Rule.Spec
import Verif.Props.ActionSet

/-!
# Lemmas: the action set as executed
-/

namespace OFE

/-- `x` is in the action set that the writes `W` leave. -/
def InSet (W : List Action) (x : Action) : Prop := LastOf W x ∧ (x.isOutput = true → ∀ g ∈ W, g.isGroup = false)

theorem mem_lastWrites {W : List Action} {x : Action} : x ∈ lastWrites W ↔ LastOf W x := by
  induction W with
  | nil => simp [lastWrites, LastOf]
  | cons y r ih =>
    unfold lastWrites
    have hcons : LastOf (y :: r) x ↔ LastOf r x ∨ (x = y ∧ ∀ b ∈ r, b.toType ≠ y.toType) := by
      constructor
      · rintro ⟨l, t, h, ht⟩
        cases l with
        | nil => simp at h; obtain ⟨rfl, rfl⟩ := h; exact .inr ⟨rfl, ht⟩
        | cons z l => simp at h; obtain ⟨rfl, rfl⟩ := h; exact .inl ⟨l, t, rfl, ht⟩
      · rintro (⟨l, t, rfl, ht⟩ | ⟨rfl, h⟩)
        · exact ⟨y :: l, t, rfl, ht⟩
        · exact ⟨[], r, rfl, h⟩
    rw [hcons]
    split
    · next h =>
      rw [ih]
      simp only [List.any_eq_true, decide_eq_true_eq] at h
      obtain ⟨z, hz, he⟩ := h
      constructor
      · exact .inl
      · rintro (h | ⟨rfl, h⟩)
        · exact h
        · exact absurd he (h z hz)
    · next h =>
      simp only [Bool.not_eq_true, List.any_eq_false, decide_eq_true_eq] at h
      rw [List.mem_cons, ih]
      constructor
      · rintro (rfl | h')
        · exact .inr ⟨rfl, h⟩
        · exact .inl h'
      · rintro (h' | ⟨rfl, -⟩)
        · exact .inr h'
        · exact .inl rfl

theorem lastWrites_slots (W : List Action) : (lastWrites W).Pairwise fun a b => a.toType ≠ b.toType := by
  induction W with
  | nil => exact .nil
  | cons y r ih =>
    unfold lastWrites
    split
    · exact ih
    · next h =>
      simp only [Bool.not_eq_true, List.any_eq_false, decide_eq_true_eq] at h
      refine List.pairwise_cons.2 ⟨fun b hb => ?_, ih⟩
      exact Ne.symm (h b (mem_lastWrites.1 hb).mem)

theorem isOutput_iff {x : Action} : x.isOutput = true ↔ ∃ n, x = .output n := by cases x <;> simp [Action.isOutput]
theorem isGroup_iff {x : Action} : x.isGroup = true ↔ ∃ n, x = .group n := by cases x <;> simp [Action.isGroup]

theorem mem_finalSet {W : List Action} {x : Action} : x ∈ finalSet W ↔ InSet W x := by
  unfold finalSet InSet
  simp only [List.mem_flatMap, List.mem_range, List.mem_filter, decide_eq_true_eq, mem_lastWrites, Bool.not_eq_true', Bool.and_eq_false_iff,
    decide_eq_false_iff_not, List.any_eq_false, ← isOutput_iff, ← isGroup_iff]
  constructor
  · rintro ⟨t, ht, ⟨h1, h2⟩, h3⟩
    refine ⟨h1, fun ho g hg => ?_⟩
    rcases h2 with h2 | h2
    · exact absurd ho h2
    · obtain ⟨b, hb, hs⟩ := exists_lastOf hg
      have := h2 b hb
      rw [(group_slot hs).1] at this
      simpa using this
  · rintro ⟨h1, h2⟩
    refine ⟨x.ty, ty_lt x, ⟨h1, ?_⟩, rfl⟩
    by_cases ho : x.isOutput = true
    · right
      intro g hg
      rw [h2 ho g hg.mem]; simp
    · exact .inl ho

theorem finalSet_sorted (W : List Action) :
    (finalSet W).Pairwise fun a b => a.toType ≠ b.toType ∧ a.ty ≤ b.ty := by
  unfold finalSet
  rw [List.pairwise_flatMap]
  constructor
  · intro t ht
    have h1 := ((lastWrites_slots W).filter fun x =>
      !(decide (∃ n, x = .output n) && (lastWrites W).any fun y => decide (∃ g, y = .group g))).filter fun x => decide (x.ty = t)
    refine List.Pairwise.imp_of_mem ?_ h1
    intro a b ha hb hab
    simp only [List.mem_filter, decide_eq_true_eq] at ha hb
    exact ⟨hab, by omega⟩
  · refine List.Pairwise.imp ?_ List.pairwise_lt_range
    intro t u htu a ha b hb
    simp only [List.mem_filter, decide_eq_true_eq] at ha hb
    refine ⟨fun h => ?_, by omega⟩
    have := ty_eq_of_slot h
    omega

theorem indep_of_ty {a b : Action} (h1 : a.ty = b.ty) (h2 : a.toType ≠ b.toType) (ha : a.known = true) (hb : b.known = true) :
    dependsB a b = false := by
  cases a <;> cases b <;> simp [Action.ty, Action.toType] at h1 h2
  rename_i f v g w
  simp only [Action.known, decide_eq_true_eq] at ha hb
  have : ∀ f, f < 40 → ∀ g, g < 40 → f ≠ g → dependsB (.setField f 0) (.setField g 0) = false := by decide +kernel
  rw [dependsB_slot (a := .setField f v) (a' := .setField f 0) rfl, dependsB_symm, dependsB_slot (a := .setField g w) (a' := .setField g 0) rfl,
    dependsB_symm]
  exact this f ha g hb h2

theorem trace_move {x : Action} : ∀ (l r : List Action), (∀ y ∈ l, dependsB y x = false) →
    TraceEq dependsB (l ++ x :: r) (x :: l ++ r)
  | [], r, _ => .refl _
  | y :: l, r, h => by
    have h1 := trace_move l r fun z hz => h z (List.mem_cons_of_mem _ hz)
    have h2 : TraceEq dependsB (y :: (l ++ x :: r)) (y :: (x :: l ++ r)) := by
      have : ∀ s t, TraceEq dependsB s t → TraceEq dependsB (y :: s) (y :: t) := by
        intro s t hst
        induction hst with
        | refl => exact .refl _
        | swap l r a b t hd _ ih => exact TraceEq.swap (y :: l) r a b _ hd ih
      exact this _ _ h1
    refine TraceEq.trans h2 ?_
    exact TraceEq.swap [] (l ++ r) y x _ (h y List.mem_cons_self) (.refl _)

/-- Two lists of the same actions, one per slot, both in action-set order, differ by independent swaps. -/
theorem trace_of_sorted : ∀ (s t : List Action), s.Perm t → AllKnown s →
    s.Pairwise (fun a b => a.toType ≠ b.toType ∧ a.ty ≤ b.ty) → t.Pairwise (fun a b => a.toType ≠ b.toType ∧ a.ty ≤ b.ty) →
    TraceEq dependsB t s
  | [], t, hp, _, _, _ => by rw [hp.symm.eq_nil]; exact .refl _
  | x :: s, t, hp, hk, hs, ht => by
    have hx : x ∈ t := hp.subset List.mem_cons_self
    obtain ⟨l, r, rfl⟩ := List.append_of_mem hx
    have hp' : s.Perm (l ++ r) := by
      have : (x :: s).Perm (x :: (l ++ r)) := hp.trans List.perm_middle
      exact (List.perm_cons x).1 this
    have hkt : AllKnown (l ++ x :: r) := fun y hy => hk y (hp.symm.subset hy)
    have hl : ∀ y ∈ l, dependsB y x = false := by
      intro y hy
      have h1 := (List.pairwise_append.1 ht).2.2 y hy x List.mem_cons_self
      have hy' : y ∈ s := hp'.symm.subset (List.mem_append_left _ hy)
      have h2 := (List.pairwise_cons.1 hs).1 y hy'
      exact indep_of_ty (by omega) h1.1 (hkt y (by simp [hy])) (hkt x (by simp))
    have ht' : (l ++ r).Pairwise (fun a b => a.toType ≠ b.toType ∧ a.ty ≤ b.ty) := by
      refine ht.sublist ?_
      exact List.Sublist.append_left (List.sublist_cons_self _ _) _
    have ih := trace_of_sorted s (l ++ r) hp' (fun y hy => hk y (List.mem_cons_of_mem _ hy)) (List.pairwise_cons.1 hs).2 ht'
    refine TraceEq.trans (trace_move l r hl) ?_
    have : ∀ s t, TraceEq dependsB s t → TraceEq dependsB (x :: s) (x :: t) := by
      intro s t hst
      induction hst with
      | refl => exact .refl _
      | swap l r a b t hd _ ih => exact TraceEq.swap (x :: l) r a b _ hd ih
    exact this _ _ ih

theorem nodup_of_slots {s : List Action} (h : s.Pairwise fun a b => a.toType ≠ b.toType ∧ a.ty ≤ b.ty) : s.Nodup :=
  h.imp fun hab e => hab.1 (by rw [e])

theorem finalSet_perm {W W' : List Action} (h : ∀ x, InSet W x ↔ InSet W' x) : (finalSet W).Perm (finalSet W') := by
  rw [List.perm_ext_iff_of_nodup (nodup_of_slots (finalSet_sorted W)) (nodup_of_slots (finalSet_sorted W'))]
  intro x; rw [mem_finalSet, mem_finalSet, h]

theorem finalSet_known {W : List Action} (h : AllKnown W) : AllKnown (finalSet W) :=
  fun _ hx => h _ (mem_finalSet.1 hx).1.mem

theorem finalSet_effect {W W' : List Action} (h : ∀ x, InSet W x ↔ InSet W' x) (hk : AllKnown W) :
    SameEffect (finalSet W) (finalSet W') := by
  have hk' : AllKnown (finalSet W') := fun x hx => hk x ((h x).2 (mem_finalSet.1 hx)).1.mem
  exact sameEffect_of_trace (trace_of_sorted _ _ (finalSet_perm h).symm hk' (finalSet_sorted _) (finalSet_sorted _))
    (finalSet_known hk)

/-- The actions of an `ActionSet` have the effect of the executed action set. -/
theorem setInv_effect {s : List Action} {l : ActionList} (h : SetInv s l) (hk : AllKnown s) : SameEffect (finalSet s) l.iter := by
  have h1 : l.orig.Pairwise fun a b => a.toType ≠ b.toType ∧ a.ty ≤ b.ty := h.slots.and h.sorted
  have hp : l.orig.Perm (finalSet s) := by
    rw [List.perm_ext_iff_of_nodup (nodup_of_slots h1) (nodup_of_slots (finalSet_sorted s))]
    intro x; rw [mem_finalSet, h.content]; rfl
  have hko : AllKnown l.orig := fun x hx => hk x ((h.content x).1 hx).1.mem
  have e1 := sameEffect_of_trace (trace_of_sorted _ _ hp hko h1 (finalSet_sorted s)) (finalSet_known hk)
  refine e1.trans ?_
  have : l.iter = (mkList l.orig).iter := by unfold ActionList.iter; rw [h.levels]; rfl
  rw [this]
  exact sameEffect_of_trace (mkList_iter_trace _) hko

/-! ### Histories with the same set -/

theorem lastOf_append {u t : List Action} {x : Action} :
    LastOf (u ++ t) x ↔ LastOf t x ∨ ((∀ b ∈ t, b.toType ≠ x.toType) ∧ LastOf u x) := by
  constructor
  · rintro ⟨l, r, h, hr⟩
    rw [List.append_eq_append_iff] at h
    rcases h with ⟨c, h1, h2⟩ | ⟨c, h1, h2⟩
    · exact .inl ⟨c, r, h2, hr⟩
    · cases c with
      | nil => simp at h2; exact .inl ⟨[], r, by simpa using h2.symm, hr⟩
      | cons z c =>
        simp at h2
        obtain ⟨rfl, rfl⟩ := h2
        exact .inr ⟨fun b hb => hr b (by simp [hb]), l, c, h1, fun b hb => hr b (by simp [hb])⟩
  · rintro (⟨l, r, rfl, hr⟩ | ⟨ht, l, r, rfl, hr⟩)
    · exact ⟨u ++ l, r, by simp, hr⟩
    · refine ⟨l, r ++ t, by simp, fun b hb => ?_⟩
      rcases List.mem_append.1 hb with h | h
      · exact hr b h
      · exact ht b h

theorem inSet_group {u : List Action} : (∀ g ∈ u, g.isGroup = false) ↔ ∀ g, InSet u g → g.isGroup = false := by
  constructor
  · intro h g hg; exact h g hg.1.mem
  · intro h g hg
    by_contra hc
    simp only [Bool.not_eq_false] at hc
    obtain ⟨b, hb, hs⟩ := exists_lastOf hg
    have hbg := (group_slot hs).1.trans hc
    have := h b ⟨hb, fun ho => by cases b <;> simp_all [Action.isOutput, Action.isGroup]⟩
    rw [hbg] at this; cases this

theorem inSet_slot {u : List Action} {x : Action} (hg : x.isOutput = true → ∀ g ∈ u, g.isGroup = false) :
    (∀ b ∈ u, b.toType ≠ x.toType) ↔ ∀ b, InSet u b → b.toType ≠ x.toType := by
  constructor
  · intro h b hb; exact h b hb.1.mem
  · intro h b hb he
    obtain ⟨c, hc, hs⟩ := exists_lastOf hb
    refine h c ⟨hc, fun ho => hg ?_⟩ (hs.trans he)
    rw [← (group_slot (hs.trans he)).2]; exact ho

theorem inSet_congr {u v : List Action} (h : ∀ x, InSet u x ↔ InSet v x) (s t : List Action) (x : Action) :
    InSet (s ++ u ++ t) x ↔ InSet (s ++ v ++ t) x := by
  have hgroup : (∀ g ∈ u, g.isGroup = false) ↔ ∀ g ∈ v, g.isGroup = false := by
    rw [inSet_group, inSet_group]
    constructor <;> intro h' g hg
    · exact h' g ((h g).2 hg)
    · exact h' g ((h g).1 hg)
  have key : ∀ u v : List Action, (∀ x, InSet u x ↔ InSet v x) → ((∀ g ∈ u, g.isGroup = false) ↔ ∀ g ∈ v, g.isGroup = false) →
      InSet (s ++ u ++ t) x → InSet (s ++ v ++ t) x := by
    intro u v h hgroup ⟨h1, h2⟩
    have hu : x.isOutput = true → ∀ g ∈ u, g.isGroup = false := fun ho g hg => h2 ho g (by simp [hg])
    have hv : x.isOutput = true → ∀ g ∈ v, g.isGroup = false := fun ho => hgroup.1 (hu ho)
    refine ⟨?_, fun ho g hg => ?_⟩
    · rw [lastOf_append, lastOf_append] at h1 ⊢
      rcases h1 with h1 | ⟨h1, h3⟩
      · exact .inl h1
      · refine .inr ⟨h1, ?_⟩
        rcases h3 with h3 | ⟨h3, h4⟩
        · exact .inl ((h x).1 ⟨h3, hu⟩).1
        · refine .inr ⟨?_, h4⟩
          rw [inSet_slot hu] at h3
          rw [inSet_slot hv]
          exact fun b hb => h3 b ((h b).2 hb)
    · simp only [List.mem_append] at hg
      rcases hg with (hg | hg) | hg
      · exact h2 ho g (by simp [hg])
      · exact hv ho g hg
      · exact h2 ho g (by simp [hg])
  exact ⟨key u v h hgroup, key v u (fun x => (h x).symm) hgroup.symm⟩

theorem inSet_of_slots {l : List Action} (h : l.Pairwise fun a b => a.toType ≠ b.toType) (x : Action) :
    InSet l x ↔ x ∈ l ∧ (x.isOutput = true → ∀ g ∈ l, g.isGroup = false) := by
  unfold InSet
  refine and_congr_left fun _ => ⟨LastOf.mem, fun hx => ?_⟩
  obtain ⟨a, b, rfl⟩ := List.append_of_mem hx
  exact ⟨a, b, rfl, fun y hy => Ne.symm ((List.pairwise_cons.1 (List.pairwise_append.1 h).2.1).1 y hy)⟩

/-- Iterating an `ActionSet` gives writes that leave the same set. -/
theorem setInv_inSet {s : List Action} {l : ActionList} (h : SetInv s l) (x : Action) : InSet l.iter x ↔ InSet s x := by
  have hs : l.iter.Pairwise fun a b => a.toType ≠ b.toType := (h.iter_perm.symm.pairwise_iff (fun hab => Ne.symm hab)).1 h.slots
  rw [inSet_of_slots hs, h.iter_perm.mem_iff, h.content]
  constructor
  · exact fun h => h.1
  · intro hx
    exact ⟨hx, fun ho g hg => hx.2 ho g ((h.content g).1 (h.iter_perm.mem_iff.1 hg)).1.mem⟩

end OFE
