import Verif.Props.GroupView
import Verif.Rule.InstLemmas

/-!
# Canonical instructions
-/

namespace OFE

/-- What `canonical` returns, rule.py:975-976; the last two are frozensets. -/
structure Canon where
  clear : Bool
  goto : Option Nat
  meter : Option Nat
  wmeta : MetaW
  apply : List (OutKey × List Action)
  write : List (OutKey × List Action)

/-- `Instructions.canonical`, rule.py:959-976 -/
def Inst.canonical (heap : Nat → Option GroupVal) (k : Nat) (i : Inst) : Except PyErr Canon := do
  let apply ← i.apply.perOutputPtG heap k
  let write ← i.write.perOutputPtG heap k
  return ⟨i.clear, i.goto, i.meter, i.wmeta, apply, write⟩

/-- `==` of two such tuples, rule.py:975-976 -/
def Canon.eq (a b : Canon) : Bool :=
  a.clear == b.clear && a.goto == b.goto && a.meter == b.meter && a.wmeta == b.wmeta && sameItems a.apply b.apply && sameItems a.write b.write

/-! ### Nothing in an action set is redundant -/

/-- Dependent actions come in the order of the action set. -/
def InOrder (a b : Action) : Prop := dependsB a b = true → a.ty ≤ b.ty

theorem trace_inOrder {s t : List Action} (h : TraceEq dependsB s t) (hs : s.Pairwise InOrder) : t.Pairwise InOrder := by
  induction h with
  | refl => exact hs
  | swap l r a b t hd _ ih =>
    refine ih ?_
    rw [List.pairwise_append] at hs ⊢
    obtain ⟨h1, h2, h3⟩ := hs
    rw [List.pairwise_cons, List.pairwise_cons] at h2
    obtain ⟨h2, h4, h5⟩ := h2
    refine ⟨h1, ?_, fun x hx y hy => h3 x hx y ?_⟩
    · rw [List.pairwise_cons, List.pairwise_cons]
      refine ⟨fun x hx => ?_, fun x hx => h2 x (List.mem_cons_of_mem _ hx), h5⟩
      rcases List.mem_cons.1 hx with rfl | hx
      · intro hab; rw [dependsB_symm, hd] at hab; cases hab
      · exact h4 x hx
    · rcases List.mem_cons.1 hy with rfl | hy
      · simp
      · rcases List.mem_cons.1 hy with rfl | hy
        · simp
        · simp [hy]

/-- A list like an action set: one action per slot, dependent ones in order. -/
structure SetLike (s : List Action) : Prop where
  known : AllKnown s
  order : s.Pairwise InOrder
  slots : s.Pairwise fun a b => a.toType ≠ b.toType

theorem SetLike.trace {s t : List Action} (h : SetLike s) (ht : TraceEq dependsB s t) : SetLike t :=
  ⟨allKnown_of_trace ht h.known, trace_inOrder ht h.order, (ht.perm.pairwise_iff (fun hab => Ne.symm hab)).1 h.slots⟩

theorem SetLike.sublist {s t : List Action} (h : SetLike s) (ht : t.Sublist s) : SetLike t :=
  ⟨fun x hx => h.known x (ht.subset hx), h.order.sublist ht, h.slots.sublist ht⟩

theorem push_pop_dep {a b : Action} {t : Tun} (ha : a.pushes = some t) (hb : b.pops = some t) : dependsB a b = true ∧ b.ty < a.ty := by
  have hd : ∀ {a a' b b' : Action}, a.toType = a'.toType → b.toType = b'.toType → dependsB a b = dependsB a' b' := by
    intro a a' b b' h1 h2
    rw [dependsB_slot h1, dependsB_symm, dependsB_slot h2, dependsB_symm]
  cases a <;> simp only [Action.pushes, Option.some.injEq, reduceCtorEq] at ha <;> subst ha <;>
    cases b <;> simp only [Action.pops, Option.some.injEq, reduceCtorEq] at hb
  · exact ⟨(hd (a' := .pushMpls 0) (b' := .popMpls 0) rfl rfl).trans (by decide +kernel), by simp [Action.ty]⟩
  · exact ⟨(hd (a' := .pushPbb 0) (b' := .popPbb) rfl rfl).trans (by decide +kernel), by simp [Action.ty]⟩
  · exact ⟨(hd (a' := .pushVlan 0) (b' := .popVlan) rfl rfl).trans (by decide +kernel), by simp [Action.ty]⟩

theorem set_pop_dep {a b : Action} {t : Tun} {f : Nat} (ha : a.setF = some f) (hb : b.pops = some t) (hf : f ∈ t.fields) :
    dependsB a b = true ∧ b.ty < a.ty := by
  have hd : ∀ {a a' b b' : Action}, a.toType = a'.toType → b.toType = b'.toType → dependsB a b = dependsB a' b' := by
    intro a a' b b' h1 h2
    rw [dependsB_slot h1, dependsB_symm, dependsB_slot h2, dependsB_symm]
  cases a <;> simp only [Action.setF, Option.some.injEq, reduceCtorEq] at ha
  subst ha
  rename_i f v
  cases b <;> simp only [Action.pops, Option.some.injEq, reduceCtorEq] at hb <;> subst hb
  · have : ∀ f ∈ Tun.vlan.fields, dependsB (.setField f 0) .popVlan = true := by decide +kernel
    exact ⟨(hd (a' := .setField f 0) rfl rfl).trans (this f hf), by simp [Action.ty]⟩
  · have : ∀ f ∈ Tun.pbb.fields, dependsB (.setField f 0) .popPbb = true := by decide +kernel
    exact ⟨(hd (a' := .setField f 0) rfl rfl).trans (this f hf), by simp [Action.ty]⟩
  · have : ∀ f ∈ Tun.mpls.fields, dependsB (.setField f 0) (.popMpls 0) = true := by decide +kernel
    exact ⟨(hd (a' := .setField f 0) (b' := .popMpls 0) rfl rfl).trans (this f hf), by simp [Action.ty]⟩

theorem scanPop_some {t : Tun} {xs ys : List Action} (h : scanPop t xs = some ys) : ∃ b ∈ xs, b.pops = some t := by
  induction xs generalizing ys with
  | nil => cases h
  | cons a xs ih =>
    have rest : ∀ {z}, scanPop t xs = some z → ∃ b ∈ a :: xs, b.pops = some t := fun hz =>
      let ⟨b, h1, h2⟩ := ih hz
      ⟨b, List.mem_cons_of_mem _ h1, h2⟩
    unfold scanPop at h
    split at h
    · cases h
    split at h
    · next hp => exact ⟨a, List.mem_cons_self, hp⟩
    split at h
    · split at h
      · exact rest h
      · obtain ⟨z, hz, -⟩ := Option.map_eq_some_iff.1 h
        exact rest hz
    · obtain ⟨z, hz, -⟩ := Option.map_eq_some_iff.1 h
      exact rest hz

theorem pass1_setLike {s : List Action} (h : s.Pairwise InOrder) : pass1 s = none := by
  induction s with
  | nil => rfl
  | cons a xs ih =>
    rw [List.pairwise_cons] at h
    unfold pass1
    split
    · next t ht =>
      cases hs : scanPop t xs with
      | none => simp [ih h.2]
      | some ys =>
        obtain ⟨b, hb, hp⟩ := scanPop_some hs
        obtain ⟨h1, h2⟩ := push_pop_dep ht hp
        have := h.1 b hb h1
        omega
    · simp [ih h.2]

theorem phase1_setLike {s : List Action} (h : s.Pairwise InOrder) (n : Nat) : phase1 n s = s := by
  cases n with
  | zero => rfl
  | succ n => simp only [phase1, pass1_setLike h]

theorem phase2_setLike {s : List Action} (h : s.Pairwise InOrder) : (phase2 s).2 = s := by
  induction s with
  | nil => rfl
  | cons a xs ih =>
    rw [List.pairwise_cons] at h
    unfold phase2
    split
    · rw [ih h.2]
    · split
      · next f hf =>
        split
        · next hm =>
          obtain ⟨t, h1, b, h2, h3⟩ := phase2_popped.1 hm
          obtain ⟨h4, h5⟩ := set_pop_dep hf h3 h1
          have := h.1 b h2 h4
          omega
        · rw [ih h.2]
      · rw [ih h.2]

theorem overwritten_no {f v : Nat} {xs : List Action} (hf : f < 40) (hk : AllKnown xs) (h : ∀ x ∈ xs, x.setF ≠ some f) :
    overwritten (.setField f v) f xs = .ok false := by
  induction xs with
  | nil => rfl
  | cons a xs ih =>
    unfold overwritten
    rw [if_neg (h a List.mem_cons_self), depends_known (by simpa [Action.known] using hf) (hk a List.mem_cons_self)]
    cases dependsB (.setField f v) a
    · exact ih (fun x hx => hk x (List.mem_cons_of_mem _ hx)) fun x hx => h x (List.mem_cons_of_mem _ hx)
    · rfl

theorem phase3_setLike {s : List Action} (hk : AllKnown s) (h : s.Pairwise fun a b => a.toType ≠ b.toType) : phase3 s = .ok s := by
  induction s with
  | nil => rfl
  | cons a xs ih =>
    rw [List.pairwise_cons] at h
    have hk' : AllKnown xs := fun x hx => hk x (List.mem_cons_of_mem _ hx)
    have ih := ih hk' h.2
    unfold phase3
    split
    · rw [ih]; rfl
    · next f hf =>
      have : ∃ v, a = .setField f v := by cases a <;> simp [Action.setF] at hf; subst hf; exact ⟨_, rfl⟩
      obtain ⟨v, rfl⟩ := this
      rw [overwritten_no (by simpa [Action.known] using hk _ List.mem_cons_self) hk' fun x hx hx' => ?_, ih]
      · rfl
      · have : ∃ w, x = .setField f w := by cases x <;> simp [Action.setF] at hx'; subst hx'; exact ⟨_, rfl⟩
        obtain ⟨w, rfl⟩ := this
        exact h.1 _ hx rfl

theorem removeRedundant_setLike {s : List Action} (h : SetLike s) : ∃ r, (mkList s).removeRedundant = .ok r ∧ r.iter.Perm s := by
  have hi := h.trace (mkList_iter_trace s)
  refine ⟨mkList (mkList s).iter, ?_, (mkList_iter_trace _).perm.symm.trans (mkList_iter_trace s).perm.symm⟩
  unfold ActionList.removeRedundant ActionList.replace
  simp only [phase1_setLike hi.order, phase2_setLike hi.order, phase3_setLike hi.known hi.slots]
  exact ofList_known hi.known

theorem modsOf_sublist (s : List Action) : (modsOf s).Sublist s := by
  induction s with
  | nil => exact .slnil
  | cons a xs ih => cases a <;> simp only [modsOf] <;> first | exact ih.cons_cons _ | exact ih.cons _

theorem setInv_setLike {s : List Action} {l : ActionList} (h : SetInv s l) (hk : AllKnown s) : SetLike l.iter := by
  have ho : SetLike l.orig := ⟨fun x hx => hk x ((h.content x).1 hx).1.mem, h.sorted.imp (S := InOrder) (fun hab _ => hab), h.slots⟩
  have : l.iter = (mkList l.orig).iter := by unfold ActionList.iter; rw [h.levels]; rfl
  rw [this]
  exact ho.trace (mkList_iter_trace _)

theorem ports_slots {s : List Action} (h : s.Pairwise fun a b => a.toType ≠ b.toType) : (s.filterMap Action.portOf).Nodup := by
  refine List.Pairwise.filterMap _ ?_ h
  intro a b hab n hn m hm
  cases a <;> simp only [Action.portOf, Option.some.injEq, reduceCtorEq] at hn
  cases b <;> simp only [Action.portOf, Option.some.injEq, reduceCtorEq] at hm
  exact absurd rfl hab

theorem perOutputItems_total : ∀ {l : List (OutKey × ActionList)}, (∀ e ∈ l, ∃ r, e.2.removeRedundant = .ok r) →
    ∃ items, perOutputItems l = .ok items ∧ items.map Prod.fst = l.map Prod.fst ∧
      ∀ e ∈ l, ∃ r, e.2.removeRedundant = .ok r ∧ (e.1, r.iter) ∈ items
  | [], _ => ⟨[], rfl, rfl, by simp⟩
  | (k, v) :: rest, h => by
    obtain ⟨r, hr⟩ := h _ List.mem_cons_self
    obtain ⟨items, e, h1, h2⟩ := perOutputItems_total (l := rest) fun x hx => h x (List.mem_cons_of_mem _ hx)
    refine ⟨(k, r.iter) :: items, by simp only [perOutputItems, hr, e]; rfl, by simp [h1], fun x hx => ?_⟩
    rcases List.mem_cons.1 hx with rfl | hx
    · exact ⟨r, hr, List.mem_cons_self⟩
    · obtain ⟨r', e', hm⟩ := h2 x hx
      exact ⟨r', e', List.mem_cons_of_mem _ hm⟩

/-- The view of an action set without groups shows all of its actions. -/
theorem view_set (heap : Nat → Option GroupVal) (k : Nat) {s : List Action} {l : ActionList} (h : SetInv s l) (hk : AllKnown s)
    (hg : ∀ g, Action.group g ∉ s) : ∃ items t, l.perOutputPtG heap k = .ok items ∧ (items.map Prod.fst).Nodup ∧ (OutKey.pass, t) ∈ items ∧
      t.Perm (modsOf l.iter) ∧ ∀ n, OutKey.port n ∈ items.map Prod.fst ↔ Action.output n ∈ l.iter := by
  have hs := setInv_setLike h hk
  have hgi : ∀ g, Action.group g ∉ l.iter := fun g hm => hg g ((h.content _).1 (h.iter_perm.mem_iff.1 hm)).1.mem
  have hni := ports_slots hs.slots
  have hloop := perOutputLoop_ok l.iter hs.known hgi [] (by simp [AllKnown]) [] hni (by simp)
  rw [List.nil_append, List.nil_append] at hloop
  have hkeys : (outsOf [] l.iter).map (fun x => OutKey.port x.1) = (l.iter.filterMap Action.portOf).map OutKey.port := by
    rw [← outsOf_keys []]; simp
  have hml : SetLike (modsOf l.iter) := hs.sublist (modsOf_sublist _)
  have hred : ∀ e ∈ (outsOf [] l.iter).map (fun x => (OutKey.port x.1, mkList (x.2 ++ [.output x.1]))) ++ [(OutKey.pass, mkList (modsOf l.iter))],
      ∃ r, e.2.removeRedundant = .ok r := by
    intro e he
    have hK : ∀ {s : List Action}, AllKnown s → ∃ r, (mkList s).removeRedundant = .ok r := by
      intro s hks
      obtain ⟨h1, -, -⟩ := phase1_spec (mkList s).iter.length (mkList s).iter (Nat.le_refl _)
      have h4 := phase2_sublist (phase1 (mkList s).iter.length (mkList s).iter)
      have hk2 : AllKnown (phase2 (phase1 (mkList s).iter.length (mkList s).iter)).2 := fun x hx => known_mk hks x (h1.subset (h4.subset hx))
      obtain ⟨s', h5, h6, -⟩ := phase3_spec hk2
      refine ⟨mkList s', ?_⟩
      unfold ActionList.removeRedundant ActionList.replace
      simp only [h5]
      exact ofList_known fun x hx => hk2 x (h6.subset hx)
    rcases List.mem_append.1 he with he | he
    · obtain ⟨x, hx, rfl⟩ := List.mem_map.1 he
      refine hK fun a ha => ?_
      rcases List.mem_append.1 ha with ha | ha
      · exact hs.known a (((outsOf_mem hx).1 a ha).resolve_left (by simp)).1
      · rw [List.mem_singleton.1 ha]; rfl
    · rw [List.mem_singleton.1 he]; exact hK hml.known
  obtain ⟨items, e, h1, h2⟩ := perOutputItems_total hred
  obtain ⟨r, er, hm⟩ := h2 (OutKey.pass, mkList (modsOf l.iter)) (by simp)
  obtain ⟨r', er', hp⟩ := removeRedundant_setLike hml
  have : r = r' := by
    simp only at er
    rw [er] at er'; injection er'
  subst this
  have hk1 : items.map Prod.fst = (l.iter.filterMap Action.portOf).map OutKey.port ++ [OutKey.pass] := by
    rw [h1, List.map_append, List.map_map, ← hkeys]; rfl
  refine ⟨items, r.iter, ?_, ?_, hm, hp, fun n => ?_⟩
  · rw [perOutputPtG_flat heap k l hgi]
    unfold ActionList.perOutputPt ActionList.perOutputList
    rw [show ActionList.empty = mkList [] from rfl, hloop]
    show perOutputItems (dictSet .pass _ _) = _
    rw [dictSet_new _ (by simp)]
    exact e
  · rw [hk1]
    refine List.nodup_append.2 ⟨List.Pairwise.map OutKey.port (fun a b hab hh => hab (by injection hh)) hni, by simp, ?_⟩
    intro a ha b hb hh
    obtain ⟨n, -, rfl⟩ := List.mem_map.1 ha
    rw [List.mem_singleton.1 hb] at hh
    cases hh
  · rw [hk1]
    simp only [List.mem_append, List.mem_map, List.mem_filterMap, List.mem_singleton, reduceCtorEq, or_false, OutKey.port.injEq, exists_eq_right]
    constructor
    · rintro ⟨a, ha, hp⟩
      cases a <;> simp only [Action.portOf, Option.some.injEq, reduceCtorEq] at hp
      subst hp; exact ha
    · intro ha; exact ⟨_, ha, rfl⟩

/-- An action set is read off its contents. -/
theorem setInv_det {s t : List Action} {l m : ActionList} (h1 : SetInv s l) (h2 : SetInv t m) (hk : AllKnown s) (h : ∀ x, InSet s x ↔ InSet t x) :
    l.iter = m.iter := by
  have e1 : l.iter = (mkList l.orig).iter := by unfold ActionList.iter; rw [h1.levels]; rfl
  have e2 : m.iter = (mkList m.orig).iter := by unfold ActionList.iter; rw [h2.levels]; rfl
  have p1 : l.orig.Pairwise fun a b => a.toType ≠ b.toType ∧ a.ty ≤ b.ty := h1.slots.and h1.sorted
  have p2 : m.orig.Pairwise fun a b => a.toType ≠ b.toType ∧ a.ty ≤ b.ty := h2.slots.and h2.sorted
  have hp : l.orig.Perm m.orig := by
    rw [List.perm_ext_iff_of_nodup (nodup_of_slots p1) (nodup_of_slots p2)]
    intro x; rw [h1.content, h2.content]; exact h x
  rw [e1, e2]
  have := trace_of_sorted _ _ hp (fun x hx => hk x ((h1.content x).1 hx).1.mem) p1 p2
  exact ((levelsOf_eq_iff lt_strictTotal dependsB_symm _ _).2 this).symm

theorem mem_split {xs : List Action} (hg : ∀ g, Action.group g ∉ xs) (a : Action) : a ∈ xs ↔ a ∈ modsOf xs ∨ ∃ n, a = .output n ∧ a ∈ xs := by
  constructor
  · intro ha
    by_cases ho : ∃ n, a = .output n
    · obtain ⟨n, e⟩ := ho; exact .inr ⟨n, e, ha⟩
    · left
      induction xs with
      | nil => cases ha
      | cons b xs ih =>
        have ih := ih fun g hm => hg g (List.mem_cons_of_mem _ hm)
        rcases List.mem_cons.1 ha with rfl | ha
        · cases a <;> simp_all [modsOf]
        · have := ih ha
          cases b <;> simp_all [modsOf]
  · rintro (h | ⟨_, -, h⟩)
    · exact (modsOf_mem h).1
    · exact h

/-- Equal views of action sets without groups: the same set. -/
theorem view_inj (heap : Nat → Option GroupVal) (k : Nat) {s t : List Action} {l m : ActionList} (h1 : SetInv s l) (h2 : SetInv t m) (k1 : AllKnown s)
    (k2 : AllKnown t) (g1 : ∀ g, Action.group g ∉ s) (g2 : ∀ g, Action.group g ∉ t) {a b : List (OutKey × List Action)}
    (ha : l.perOutputPtG heap k = .ok a) (hb : m.perOutputPtG heap k = .ok b) (h : sameItems a b = true) : l.iter = m.iter := by
  obtain ⟨i1, t1, e1, n1, p1, q1, r1⟩ := view_set heap k h1 k1 g1
  obtain ⟨i2, t2, e2, n2, p2, q2, r2⟩ := view_set heap k h2 k2 g2
  rw [ha] at e1; injection e1 with e1; subst e1
  rw [hb] at e2; injection e2 with e2; subst e2
  have hp := sameItems_perm (List.Nodup.of_map _ n1) (List.Nodup.of_map _ n2) h
  have ht : t1 = t2 := by
    have x1 := lookup_eq_some_of_mem n2 (hp.mem_iff.1 p1)
    have x2 := lookup_eq_some_of_mem n2 p2
    rw [x1] at x2; exact Option.some.inj x2
  subst ht
  have gi1 : ∀ g, Action.group g ∉ l.iter := fun g hm => g1 g ((h1.content _).1 (h1.iter_perm.mem_iff.1 hm)).1.mem
  have gi2 : ∀ g, Action.group g ∉ m.iter := fun g hm => g2 g ((h2.content _).1 (h2.iter_perm.mem_iff.1 hm)).1.mem
  have hmem : ∀ x, x ∈ l.iter ↔ x ∈ m.iter := by
    intro x
    rw [mem_split gi1, mem_split gi2, (q1.symm.trans q2).mem_iff]
    refine or_congr_right ⟨?_, ?_⟩
    · rintro ⟨n, rfl, hx⟩
      exact ⟨n, rfl, (r2 n).1 ((hp.map _).mem_iff.1 ((r1 n).2 hx))⟩
    · rintro ⟨n, rfl, hx⟩
      exact ⟨n, rfl, (r1 n).1 ((hp.map _).mem_iff.2 ((r2 n).2 hx))⟩
  refine setInv_det h1 h2 k1 fun x => ?_
  have c1 := h1.content x
  have c2 := h2.content x
  rw [← h1.iter_perm.mem_iff] at c1
  rw [← h2.iter_perm.mem_iff] at c2
  exact c1.symm.trans ((hmem x).trans c2)

end OFE
