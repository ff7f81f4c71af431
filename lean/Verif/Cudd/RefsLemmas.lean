import Verif.Cudd.RefsSpec

namespace OFE
namespace Cudd
open DD

/-- Accounting: every external reference belongs to `DIFFERS`, to a live object or is forgotten. -/
structure Acc (s : RefState) (lost : List (DD Nat)) : Prop where
  perm : s.ext.Perm (addConst (encode 1 0) :: (s.objs.map (·.2) ++ lost))
  nodup : (s.objs.map (·.1)).Nodup
  fresh : ∀ o ∈ s.objs, o.1 < s.fresh

theorem Acc.initial : Acc RefState.init [] := ⟨by simp [RefState.init], by simp [RefState.init], by simp [RefState.init]⟩

theorem objs_lookup_mem {l : List (Nat × DD Nat)} {i : Nat} {x : DD Nat} (h : l.lookup i = some x) : (i, x) ∈ l := by
  induction l with
  | nil => simp at h
  | cons o l ih =>
    rw [List.lookup_cons] at h
    by_cases e : i = o.1
    · subst e; simp at h; subst h; simp
    · have : (i == o.1) = false := by simpa using e
      simp only [this] at h
      exact List.mem_cons_of_mem _ (ih h)

theorem root_mem {s : RefState} {i : Nat} {x : DD Nat} (h : s.root i = .ok x) : (i, x) ∈ s.objs := by
  unfold RefState.root at h
  split at h
  · rename_i y hy; simp only [Except.ok.injEq] at h; subst h; exact objs_lookup_mem hy
  · cases h

theorem root_lookup {s : RefState} {i : Nat} {x : DD Nat} (h : s.root i = .ok x) : s.objs.lookup i = some x := by
  unfold RefState.root at h
  split at h
  · rename_i y hy; simp only [Except.ok.injEq] at h; subst h; exact hy
  · cases h

theorem map_setRoot_fresh (l : List (Nat × DD Nat)) (id : Nat) (x : DD Nat) (h : ∀ o ∈ l, o.1 < id) :
    l.map (fun o => if o.1 = id then (id, x) else o) = l := by
  induction l with
  | nil => rfl
  | cons o l ih =>
    rw [List.map_cons, ih (fun p hp => h p (by simp [hp])), if_neg]
    have := h o (by simp); omega

/-- Making the object for a result whose reference is already (or will be) taken. -/
theorem give_ok (s : RefState) (ret : DD Nat) (hf : ∀ o ∈ s.objs, o.1 < s.fresh) :
    s.give ret = .ok ⟨(s.fresh, ret) :: s.objs, s.ext, s.fresh + 1⟩ := by
  unfold RefState.give RefState.newBdd RefState.deref
  simp only [List.mem_cons, true_or, if_true, List.erase_cons_head, RefState.setRoot, List.map_cons]
  rw [map_setRoot_fresh _ _ _ hf]

theorem Acc.new {s : RefState} {lost} (h : Acc s lost) (a : Nat) : Acc (s.newBdd a) lost where
  perm := by
    simp only [RefState.newBdd, List.map_cons]
    exact (h.perm.cons _).trans (List.Perm.swap _ _ _)
  nodup := by
    simp only [RefState.newBdd, List.map_cons, List.nodup_cons]
    refine ⟨?_, h.nodup⟩
    intro hm
    obtain ⟨o, ho, e⟩ := List.mem_map.1 hm
    have := h.fresh o ho; omega
  fresh := by
    intro o ho
    simp only [RefState.newBdd, List.mem_cons] at ho ⊢
    rcases ho with rfl | ho
    · simp
    · have := h.fresh o ho; omega

/-- A state with one more object and the references for it. -/
theorem Acc.add {s : RefState} {lost more : List (DD Nat)} {ext : List (DD Nat)} {ret : DD Nat} (h : Acc s lost)
    (hp : ext.Perm (ret :: (s.ext ++ more))) : Acc ⟨(s.fresh, ret) :: s.objs, ext, s.fresh + 1⟩ (lost ++ more) where
  perm := by
    refine hp.trans ?_
    simp only [List.map_cons, List.cons_append]
    refine List.Perm.trans ?_ (List.Perm.swap _ _ _)
    refine List.Perm.cons _ ?_
    refine (h.perm.append_right more).trans ?_
    simp
  nodup := by
    simp only [List.map_cons, List.nodup_cons]
    refine ⟨?_, h.nodup⟩
    intro hm
    obtain ⟨o, ho, e⟩ := List.mem_map.1 hm
    have := h.fresh o ho; omega
  fresh := by
    intro o ho
    simp only [List.mem_cons] at ho ⊢
    rcases ho with rfl | ho
    · simp
    · have := h.fresh o ho; omega

/-- The wildcard loop builds what `Cudd.wcLoop` builds and takes one reference per decided bit. -/
theorem wcRefs_fst (n wc : Nat) : ∀ (k b : Nat) (c : DD Nat) (ext), (wcRefs n wc b k c ext).1 = Cudd.wcLoop n wc b k c := by
  intro k
  induction k with
  | zero => intro b c ext; rfl
  | succ k ih =>
    intro b c ext
    simp only [wcRefs, Cudd.wcLoop]
    split
    · exact ih _ _ _
    · split
      · exact ih _ _ _
      · exact ih _ _ _

/-- The diagrams before each decided bit, from bit `b` on. -/
def below (n wc : Nat) : Nat → Nat → DD Nat → List (DD Nat)
  | _, 0, _ => []
  | b, k + 1, c =>
    if (wc >>> (b * 2)) &&& 3 = 1 then c :: below n wc (b + 1) k (mk (n - 1 - b) c bot)
    else if (wc >>> (b * 2)) &&& 3 = 2 then c :: below n wc (b + 1) k (mk (n - 1 - b) bot c)
    else below n wc (b + 1) k c

theorem wcRefs_snd (n wc : Nat) : ∀ (k b : Nat) (c : DD Nat) (ext : List (DD Nat)),
    (wcRefs n wc b k c (c :: ext)).2.Perm (Cudd.wcLoop n wc b k c :: (ext ++ below n wc b k c)) := by
  intro k
  induction k with
  | zero => intro b c ext; simp [wcRefs, Cudd.wcLoop, below]
  | succ k ih =>
    intro b c ext
    simp only [wcRefs, Cudd.wcLoop, below]
    split
    · refine (ih _ _ (c :: ext)).trans (List.Perm.cons _ ?_)
      rw [List.cons_append]; exact List.perm_middle.symm
    · split
      · refine (ih _ _ (c :: ext)).trans (List.Perm.cons _ ?_)
        rw [List.cons_append]; exact List.perm_middle.symm
      · exact ih _ _ _

theorem below_range (n wc : Nat) (k : Nat) : ∀ (b : Nat) (c : DD Nat),
    below n wc b k c = ((List.range k).filter fun j => (wc >>> ((b + j) * 2)) &&& 3 = 1 ∨ (wc >>> ((b + j) * 2)) &&& 3 = 2).map
      fun j => Cudd.wcLoop n wc b j c := by
  induction k with
  | zero => intro b c; rfl
  | succ k ih =>
    intro b c
    have hm : ∀ c', (∀ j, Cudd.wcLoop n wc b (j + 1) c = Cudd.wcLoop n wc (b + 1) j c') →
        ((List.map Nat.succ (List.range k)).filter fun j => (wc >>> ((b + j) * 2)) &&& 3 = 1 ∨ (wc >>> ((b + j) * 2)) &&& 3 = 2).map
          (fun j => Cudd.wcLoop n wc b j c) = below n wc (b + 1) k c' := by
      intro c' hc
      rw [ih, List.filter_map, List.map_map]
      have e : ((fun j => decide ((wc >>> ((b + j) * 2)) &&& 3 = 1 ∨ (wc >>> ((b + j) * 2)) &&& 3 = 2)) ∘ Nat.succ) =
          fun j => decide ((wc >>> ((b + 1 + j) * 2)) &&& 3 = 1 ∨ (wc >>> ((b + 1 + j) * 2)) &&& 3 = 2) := by
        funext j
        simp only [Function.comp_apply, Nat.succ_eq_add_one, show b + (j + 1) = b + 1 + j from by omega]
      rw [e]
      apply List.map_congr_left
      intro j _
      exact hc j
    rw [List.range_succ_eq_map, List.filter_cons]
    simp only [Nat.add_zero, below]
    by_cases h1 : (wc >>> (b * 2)) &&& 3 = 1
    · rw [if_pos h1, if_pos (by simp [h1]), List.map_cons]
      refine congr (congrArg _ rfl) (hm _ (fun j => ?_)).symm
      rw [Cudd.wcLoop]; simp [h1]
    · by_cases h2 : (wc >>> (b * 2)) &&& 3 = 2
      · rw [if_neg h1, if_pos h2, if_pos (by simp [h2]), List.map_cons]
        refine congr (congrArg _ rfl) (hm _ (fun j => ?_)).symm
        rw [Cudd.wcLoop]; simp [h2]
      · rw [if_neg h1, if_neg h2, if_neg (by simp [h1, h2])]
        refine (hm _ (fun j => ?_)).symm
        rw [Cudd.wcLoop]; simp [h1, h2]

theorem below_wcBelow (n wc t : Nat) : below n wc 0 n (addConst (encode t 0)) = wcBelow n wc t := by
  rw [below_range]; simp [wcBelow]

theorem wcToBdd_ok (s : RefState) (n wc t : Nat) (hf : ∀ o ∈ s.objs, o.1 < s.fresh) :
    s.wcToBdd n wc t = .ok ⟨(s.fresh, Cudd.wcLoop n wc 0 n (addConst (encode t 0))) :: s.objs,
      (wcRefs n wc 0 n (addConst (encode t 0)) (addConst (encode t 0) :: s.ext)).2, s.fresh + 1⟩ := by
  simp only [RefState.wcToBdd]
  rw [wcRefs_fst]
  exact give_ok ⟨s.objs, _, s.fresh⟩ _ hf

theorem objs_split {l : List (Nat × DD Nat)} (hn : (l.map (·.1)).Nodup) {i : Nat} {x : DD Nat} (hm : (i, x) ∈ l) :
    (l.map (·.2)).Perm (x :: (l.filter fun o => o.1 ≠ i).map (·.2)) := by
  induction l with
  | nil => simp at hm
  | cons o l ih =>
    simp only [List.map_cons, List.nodup_cons] at hn
    rcases List.mem_cons.1 hm with rfl | hm
    · have : (l.filter fun o => o.1 ≠ i) = l := by
        apply List.filter_eq_self.2
        intro p hp
        have : p.1 ≠ i := fun e => hn.1 (List.mem_map.2 ⟨p, hp, e⟩)
        simpa using this
      simp only [List.map_cons, ne_eq, not_true_eq_false, decide_false, Bool.false_eq_true, not_false_eq_true, List.filter_cons_of_neg]
      simp only [ne_eq] at this
      rw [this]
    · have hne : o.1 ≠ i := by
        intro e
        exact hn.1 (e ▸ List.mem_map.2 ⟨_, hm, rfl⟩)
      rw [List.filter_cons_of_pos (by simpa using hne), List.map_cons, List.map_cons]
      exact ((ih hn.2 hm).cons _).trans (List.Perm.swap _ _ _)

theorem objs_set {l : List (Nat × DD Nat)} (hn : (l.map (·.1)).Nodup) {i : Nat} {x : DD Nat} (y : DD Nat) (hm : (i, x) ∈ l) :
    (x :: (l.map fun o => if o.1 = i then (i, y) else o).map (·.2)).Perm (y :: l.map (·.2)) := by
  induction l with
  | nil => simp at hm
  | cons o l ih =>
    simp only [List.map_cons, List.nodup_cons] at hn
    rcases List.mem_cons.1 hm with rfl | hm
    · have : (l.map fun o => if o.1 = i then (i, y) else o) = l := by
        conv => rhs; rw [← List.map_id l]
        apply List.map_congr_left
        intro p hp
        have : p.1 ≠ i := fun e => hn.1 (List.mem_map.2 ⟨p, hp, e⟩)
        simp [this]
      simp only [List.map_cons, if_true, this]
      exact List.Perm.swap _ _ _
    · have hne : o.1 ≠ i := by
        intro e
        exact hn.1 (e ▸ List.mem_map.2 ⟨_, hm, rfl⟩)
      simp only [List.map_cons, if_neg hne]
      exact (List.Perm.swap _ _ _).trans (((ih hn.2 hm).cons _).trans (List.Perm.swap _ _ _))

theorem map_fst_set (l : List (Nat × DD Nat)) (i : Nat) (y : DD Nat) :
    (l.map fun o => if o.1 = i then (i, y) else o).map (·.1) = l.map (·.1) := by
  rw [List.map_map]
  apply List.map_congr_left
  intro o _
  by_cases h : o.1 = i <;> simp [h]

theorem Acc.release {s : RefState} {lost} (h : Acc s lost) {i : Nat} {x : DD Nat} (hr : s.root i = .ok x) :
    ∃ s', s.release i = .ok s' ∧ Acc s' lost := by
  have hm := root_mem hr
  have hx : x ∈ s.ext := h.perm.mem_iff.2 (by simp; right; left; exact ⟨i, hm⟩)
  refine ⟨{ s with ext := s.ext.erase x, objs := s.objs.filter fun o => o.1 ≠ i }, ?_, ?_, ?_, ?_⟩
  · simp [RefState.release, hr, RefState.deref, hx]
  · have h1 := h.perm.erase x
    refine h1.trans ?_
    have h2 : (addConst (encode 1 0) :: (s.objs.map (·.2) ++ lost)).Perm
        (x :: (addConst (encode 1 0) :: ((s.objs.filter fun o => o.1 ≠ i).map (·.2) ++ lost))) :=
      ((((objs_split h.nodup hm).append_right lost).cons _).trans (List.Perm.swap _ _ _))
    have h3 := h2.erase x
    rwa [List.erase_cons_head] at h3
  · exact h.nodup.sublist (List.filter_sublist.map _)
  · intro o ho
    exact h.fresh o (List.mem_filter.1 ho).1

theorem Acc.reinit {s : RefState} {lost} (h : Acc s lost) {i a : Nat} {x : DD Nat} (hr : s.root i = .ok x) :
    ∃ s', s.reinit i a = .ok s' ∧ Acc s' (lost ++ [x]) := by
  have hm := root_mem hr
  refine ⟨(s.ref (addConst (encode a 0))).setRoot i (addConst (encode a 0)), by simp [RefState.reinit, hr], ?_, ?_, ?_⟩
  · simp only [RefState.ref, RefState.setRoot]
    refine (h.perm.cons _).trans ?_
    refine (List.Perm.swap _ _ _).trans (List.Perm.cons _ ?_)
    refine (((objs_set h.nodup (addConst (encode a 0)) hm).symm.append_right lost)).trans ?_
    rw [List.cons_append, ← List.append_assoc]
    exact (List.perm_append_singleton _ _).symm
  · simp only [RefState.ref, RefState.setRoot]
    rw [map_fst_set]; exact h.nodup
  · intro o ho
    simp only [RefState.ref, RefState.setRoot] at ho ⊢
    obtain ⟨p, hp, rfl⟩ := List.mem_map.1 ho
    have := h.fresh p hp
    split
    · rename_i e; simpa [e] using this
    · exact this

/-- Every operation either refuses its argument or keeps the accounts. -/
theorem Acc.step {s : RefState} {lost} (h : Acc s lost) (op : RefOp) :
    s.step op = .error .typeError ∨ ∃ s', s.step op = .ok s' ∧ Acc s' (lost ++ forgets s op) := by
  cases op with
  | new a => exact Or.inr ⟨_, rfl, by simpa [forgets] using h.new a⟩
  | binary op a b =>
    simp only [RefState.step, RefState.binary]
    split
    · rename_i x y _ _
      right
      refine ⟨_, give_ok ((s.ref _)) _ h.fresh, ?_⟩
      have := h.add (more := []) (ext := op.eval x y :: s.ext) (ret := op.eval x y) (by simp)
      simpa [forgets, RefState.ref] using this
    · exact Or.inl rfl
  | child b a =>
    simp only [RefState.step, RefState.child]
    cases hr : s.root a with
    | error e =>
      left
      have : e = .typeError := by
        unfold RefState.root at hr
        split at hr
        · cases hr
        · simp only [Except.error.injEq] at hr; exact hr.symm
      simp [this]
    | ok x =>
      simp only []
      cases hb : branch b x with
      | error e =>
        left
        have : e = .typeError := by
          unfold branch at hb
          split at hb
          · cases hb
          · simp only [Except.error.injEq] at hb; exact hb.symm
        simp [this]
      | ok y =>
        right
        simp only [give_ok s y h.fresh]
        refine ⟨_, rfl, ?_⟩
        have := h.add (more := []) (ext := y :: s.ext) (ret := y) (by simp)
        simpa [forgets, RefState.ref] using this
  | wc n w t =>
    right
    simp only [RefState.step]
    rw [wcToBdd_ok s n w t h.fresh]
    refine ⟨_, rfl, h.add ?_⟩
    rw [show forgets s (.wc n w t) = below n w 0 n (addConst (encode t 0)) from (below_wcBelow n w t).symm]
    exact wcRefs_snd n w n 0 _ _
  | reinit a x =>
    simp only [RefState.step]
    cases hr : s.root a with
    | error e =>
      left
      have : e = .typeError := by
        unfold RefState.root at hr
        split at hr
        · cases hr
        · simp only [Except.error.injEq] at hr; exact hr.symm
      simp [RefState.reinit, hr, this]
    | ok y =>
      right
      obtain ⟨s', e, hs⟩ := h.reinit (a := x) hr
      exact ⟨s', e, by simpa [forgets, root_lookup hr] using hs⟩
  | release a =>
    simp only [RefState.step]
    cases hr : s.root a with
    | error e =>
      left
      have : e = .typeError := by
        unfold RefState.root at hr
        split at hr
        · cases hr
        · simp only [Except.error.injEq] at hr; exact hr.symm
      simp [RefState.release, hr, this]
    | ok y =>
      right
      obtain ⟨s', e, hs⟩ := h.release hr
      exact ⟨s', e, by simpa [forgets] using hs⟩

theorem Acc.run {ops : List RefOp} : ∀ {s : RefState} {lost}, Acc s lost →
    s.run ops = .error .typeError ∨ ∃ s', s.run ops = .ok s' ∧ Acc s' (lost ++ forgotten s ops) := by
  induction ops with
  | nil => intro s lost h; exact Or.inr ⟨s, rfl, by simpa [forgotten] using h⟩
  | cons op ops ih =>
    intro s lost h
    rcases h.step op with e | ⟨s', e, hs⟩
    · left; simp [RefState.run, e]
    · rcases ih hs with e' | ⟨s'', e', hs'⟩
      · left; simp [RefState.run, e, e']
      · right
        refine ⟨s'', by simp [RefState.run, e, e'], ?_⟩
        simpa [forgotten, e] using hs'

end Cudd
end OFE
