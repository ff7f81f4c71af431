import Verif.Alias.Spec

/-! # Ownership: lemmas for C100 -/

namespace OFE.Alias

/-- Specification: the lists of actions reachable from an object. -/
def Heap.refs (s : Heap) (j : Nat) : List Nat := (s.objs j).ord :: s.outers (s.objs j).lv

/-- Specification: the lists of one object exist and are different. -/
structure WF (s : Heap) (j : Nat) : Prop where
  nodup : (s.refs j).Nodup
  rows : ∀ r ∈ s.refs j, r < s.nrows
  lv : (s.objs j).lv < s.nouters

/-- Specification: no list is reachable from two objects. -/
structure Inv (s : Heap) : Prop where
  wf : ∀ j < s.nobjs, WF s j
  lv : ∀ i < s.nobjs, ∀ j < s.nobjs, i ≠ j → (s.objs i).lv ≠ (s.objs j).lv
  rows : ∀ i < s.nobjs, ∀ j < s.nobjs, i ≠ j → ∀ r ∈ s.refs i, r ∉ s.refs j

/-- Specification: only lists of object `j` and new lists have changed. -/
structure Local (s : Heap) (j : Nat) (t : Heap) : Prop where
  nobjs : t.nobjs = s.nobjs
  objs : ∀ k, k ≠ j → t.objs k = s.objs k
  isSet : (t.objs j).isSet = (s.objs j).isSet
  nrows : s.nrows ≤ t.nrows
  nouters : s.nouters ≤ t.nouters
  rows : ∀ r < s.nrows, r ∉ s.refs j → t.rows r = s.rows r
  outers : ∀ o < s.nouters, o ≠ (s.objs j).lv → t.outers o = s.outers o
  refs : ∀ r ∈ t.refs j, r ∈ s.refs j ∨ s.nrows ≤ r
  lv : (t.objs j).lv = (s.objs j).lv ∨ s.nouters ≤ (t.objs j).lv
  wf : WF t j

theorem Local.refl {s : Heap} {j : Nat} (h : WF s j) : Local s j s :=
  ⟨rfl, fun _ _ => rfl, rfl, Nat.le_refl _, Nat.le_refl _, fun _ _ _ => rfl, fun _ _ _ => rfl, fun _ h => .inl h, .inl rfl, h⟩

theorem Local.trans {s t u : Heap} {j : Nat} (h : Local s j t) (g : Local t j u) : Local s j u := by
  refine ⟨g.nobjs.trans h.nobjs, fun k hk => (g.objs k hk).trans (h.objs k hk), g.isSet.trans h.isSet,
    Nat.le_trans h.nrows g.nrows, Nat.le_trans h.nouters g.nouters, fun r hr hn => ?_, fun o ho hn => ?_, fun r hr => ?_, ?_, g.wf⟩
  · rw [g.rows r (Nat.lt_of_lt_of_le hr h.nrows) fun hm => ?_, h.rows r hr hn]
    rcases h.refs r hm with h1 | h1
    · exact hn h1
    · omega
  · rw [g.outers o (Nat.lt_of_lt_of_le ho h.nouters) fun hm => ?_, h.outers o ho hn]
    rcases h.lv with h1 | h1
    · exact hn (hm.trans h1)
    · omega
  · rcases g.refs r hr with h1 | h1
    · exact h.refs r h1
    · exact .inr (Nat.le_trans h.nrows h1)
  · rcases g.lv with h1 | h1
    · rw [h1]; exact h.lv
    · exact .inr (Nat.le_trans h.nouters h1)

/-- The references of another object stay. -/
theorem Local.refs_other {s t : Heap} {j k : Nat} (h : Local s j t) (hs : Inv s) (hj : j < s.nobjs) (hk : k < s.nobjs) (hn : k ≠ j) :
    t.refs k = s.refs k := by
  unfold Heap.refs
  rw [h.objs k hn, h.outers _ (hs.wf k hk).lv (hs.lv k hk j hj hn)]

/-- What another object holds stays. -/
theorem Local.val_other {s t : Heap} {j k : Nat} (h : Local s j t) (hs : Inv s) (hj : j < s.nobjs) (hk : k < s.nobjs) (hn : k ≠ j) :
    t.val k = s.val k := by
  unfold Heap.val
  have hr : ∀ r ∈ s.refs k, t.rows r = s.rows r := fun r hr =>
    h.rows r ((hs.wf k hk).rows r hr) (hs.rows k hk j hj hn r hr)
  rw [h.objs k hn, h.outers _ (hs.wf k hk).lv (hs.lv k hk j hj hn), hr _ List.mem_cons_self]
  congr 1
  exact List.map_congr_left fun r hm => hr r (List.mem_cons_of_mem _ hm)

theorem Local.inv {s t : Heap} {j : Nat} (h : Local s j t) (hs : Inv s) (hj : j < s.nobjs) : Inv t := by
  have hl : ∀ k < s.nobjs, k ≠ j → (t.objs k).lv ≠ (t.objs j).lv := fun k hk hn he => by
    rw [h.objs k hn] at he
    rcases h.lv with h1 | h1
    · exact hs.lv k hk j hj hn (he.trans h1)
    · have := (hs.wf k hk).lv
      omega
  have hr : ∀ k < s.nobjs, k ≠ j → ∀ r ∈ s.refs k, r ∉ t.refs j := fun k hk hn r hr hm => by
    rcases h.refs r hm with h1 | h1
    · exact hs.rows k hk j hj hn r hr h1
    · have := (hs.wf k hk).rows r hr
      omega
  refine ⟨fun k hk => ?_, fun a ha b hb hn => ?_, fun a ha b hb hn r hm => ?_⟩
  · rw [h.nobjs] at hk
    by_cases e : k = j
    · subst e; exact h.wf
    · refine ⟨?_, ?_, ?_⟩
      · rw [h.refs_other hs hj hk e]; exact (hs.wf k hk).nodup
      · rw [h.refs_other hs hj hk e]
        exact fun r hr => Nat.lt_of_lt_of_le ((hs.wf k hk).rows r hr) h.nrows
      · rw [h.objs k e]; exact Nat.lt_of_lt_of_le (hs.wf k hk).lv h.nouters
  · rw [h.nobjs] at ha hb
    by_cases ea : a = j
    · subst ea
      exact fun e => hl b hb (Ne.symm hn) e.symm
    · by_cases eb : b = j
      · subst eb; exact hl a ha ea
      · rw [h.objs a ea, h.objs b eb]; exact hs.lv a ha b hb hn
  · rw [h.nobjs] at ha hb
    by_cases ea : a = j
    · subst ea
      have eb := Ne.symm hn
      rw [h.refs_other hs hj hb eb]
      exact fun hx => hr b hb eb r hx hm
    · rw [h.refs_other hs hj ha ea] at hm
      by_cases eb : b = j
      · subst eb; exact hr a ha ea r hm
      · rw [h.refs_other hs hj hb eb]; exact hs.rows a ha b hb hn r hm

/-! ### Simulation of operations on one object -/

/-- Specification: a call changes only lists of `j`, and does to the value of `j` what `g` does. -/
def Sim (j : Nat) (c : Bool) (f : Heap → Res) (g : ActionList → VRes) : Prop :=
  ∀ s, WF s j → (s.objs j).isSet = c → Local s j (f s).1 ∧ ((f s).1.val j, (f s).2) = g (s.val j)

theorem Sim.loop {j : Nat} {c : Bool} {f : Heap → Action → Res} {g : ActionList → Action → VRes}
    (h : ∀ x, Sim j c (fun s => f s x) (fun l => g l x)) (xs : List Action) :
    Sim j c (fun s => Alias.loop f s xs) (fun l => Alias.loop g l xs) := by
  induction xs with
  | nil => exact fun s hs _ => ⟨.refl hs, rfl⟩
  | cons x xs ih =>
    intro s hs hc
    obtain ⟨h1, h2⟩ := h x s hs hc
    dsimp only at h1 h2 ⊢
    simp only [Alias.loop, ← h2]
    cases e : (f s x).2 with
    | none =>
      rw [show f s x = ((f s x).1, none) from Prod.ext rfl e]
      obtain ⟨h3, h4⟩ := ih (f s x).1 h1.wf (h1.isSet.trans hc)
      exact ⟨h1.trans h3, h4⟩
    | some y =>
      rw [show f s x = ((f s x).1, some y) from Prod.ext rfl e]
      exact ⟨h1, rfl⟩

theorem putLevel_eq {levels : List (List Action)} {i : Action} {k : Nat} (hk : k ≤ levels.length) :
    putLevel Action.lt i k levels =
      if k < levels.length then levels.set k (insort Action.lt i (levels.getD k [])) else levels ++ [[i]] := by
  induction levels generalizing k with
  | nil => cases k <;> simp [putLevel]
  | cons v rest ih =>
    cases k with
    | zero => simp [putLevel]
    | succ k =>
      simp only [List.length_cons, Nat.add_le_add_iff_right] at hk
      simp only [putLevel, ih hk, List.length_cons, Nat.add_lt_add_iff_right, List.set_cons_succ, List.getD_cons_succ]
      split <;> rfl

theorem deepest_le {i : Action} {levels : List (List Action)} {n : Nat} {d : Option Nat} (hd : ∀ l, d = some l → l < n) :
    ∀ l, deepest dependsB i n levels d = some l → l < n + levels.length := by
  induction levels generalizing n d with
  | nil => exact hd
  | cons v rest ih =>
    intro l hl
    simp only [deepest] at hl
    have := ih (n := n + 1) (fun l h => by
      split at h
      · cases h; omega
      · have := hd l h; omega) l hl
    simp only [List.length_cons]
    omega

theorem place_le (levels : List (List Action)) (i : Action) : place levels i ≤ levels.length := by
  unfold place
  split
  · omega
  · rename_i l h
    have := deepest_le (n := 0) (d := none) (fun _ h => by cases h) l h
    omega

theorem upd_same {α : Type} (f : Nat → α) (i : Nat) (x : α) : upd f i x i = x := if_pos rfl
theorem upd_ne {α : Type} (f : Nat → α) {i k : Nat} (x : α) (h : k ≠ i) : upd f i x k = f k := if_neg h

theorem map_upd {f : Nat → List Action} {r : Nat} {x : List Action} {rs : List Nat} (h : r ∉ rs) :
    rs.map (upd f r x) = rs.map f :=
  List.map_congr_left fun a ha => upd_ne _ _ fun e => h (e ▸ ha)

theorem map_upd_set {f : Nat → List Action} {k r : Nat} {x : List Action} {rs : List Nat} (hn : rs.Nodup) (h : rs[k]? = some r) :
    rs.map (upd f r x) = (rs.map f).set k x := by
  induction rs generalizing k with
  | nil => simp at h
  | cons a rs ih =>
    have hn' := List.nodup_cons.1 hn
    cases k with
    | zero =>
      simp only [List.getElem?_cons_zero, Option.some.injEq] at h
      subst h
      simp only [List.map_cons, List.set_cons_zero, upd_same, map_upd hn'.1]
    | succ k =>
      simp only [List.getElem?_cons_succ] at h
      have hm := List.mem_of_getElem? h
      simp only [List.map_cons, List.set_cons_succ, ih hn'.2 h]
      rw [upd_ne]
      exact fun e => hn'.1 (e ▸ hm)

theorem sim_put (j : Nat) (c : Bool) (i : Action) : Sim j c (fun s => s._append j i) (fun l => vPut l i) := by
  intro s hs _
  dsimp only
  unfold Heap._append vPut
  dsimp only
  split
  · rename_i hb
    rw [show ActionList._append (s.val j).levels i = .error .keyError from if_pos hb]
    exact ⟨.refl hs, rfl⟩
  · rename_i hb
    rw [show ActionList._append (s.val j).levels i = .ok (appendLv dependsB Action.lt (s.val j).levels i) from if_neg hb]
    have hp := place_le (s.val j).levels i
    have hn := List.nodup_cons.1 hs.nodup
    have hl : (s.val j).levels.length = (s.outers (s.objs j).lv).length := List.length_map _
    cases e : (s.outers (s.objs j).lv)[place (s.val j).levels i]? with
    | none =>
      have hk := List.getElem?_eq_none_iff.1 e
      have hfresh : s.nrows ∉ s.refs j := fun h => Nat.lt_irrefl _ (hs.rows _ h)
      refine ⟨⟨rfl, fun _ _ => rfl, rfl, Nat.le_succ _, Nat.le_refl _, fun r hr _ => upd_ne _ _ (Nat.ne_of_lt hr), fun o _ hn => upd_ne _ _ hn,
        fun r hr => ?_, .inl rfl, ⟨?_, fun r hr => ?_, hs.lv⟩⟩, ?_⟩
      · simp only [Heap.refs, Heap.setOuter, Heap.newRow, upd_same, List.mem_cons, List.mem_append, List.not_mem_nil, or_false] at hr ⊢
        rcases hr with hr | hr | hr
        · exact .inl (.inl hr)
        · exact .inl (.inr hr)
        · exact .inr (Nat.le_of_eq hr.symm)
      · simp only [Heap.refs, Heap.setOuter, Heap.newRow, upd_same]
        simp only [Heap.refs, List.mem_cons, not_or] at hfresh
        refine List.nodup_cons.2 ⟨?_, ?_⟩
        · simp only [List.mem_append, List.mem_singleton, not_or]
          exact ⟨hn.1, Ne.symm hfresh.1⟩
        · rw [List.nodup_append]
          refine ⟨hn.2, List.nodup_cons.2 ⟨List.not_mem_nil, List.nodup_nil⟩, fun a ha b hb => ?_⟩
          rw [List.mem_singleton.1 hb]
          exact fun e => hfresh.2 (e ▸ ha)
      · simp only [Heap.refs, Heap.setOuter, Heap.newRow, upd_same, List.mem_cons, List.mem_append, List.not_mem_nil, or_false] at hr ⊢
        rcases hr with hr | hr | hr
        · exact Nat.lt_succ_of_lt (hs.rows _ (hr ▸ List.mem_cons_self))
        · exact Nat.lt_succ_of_lt (hs.rows _ (List.mem_cons_of_mem _ hr))
        · omega
      · simp only [Heap.val, Heap.setOuter, Heap.newRow, upd_same, Heap.refs, List.mem_cons, not_or] at hfresh ⊢
        rw [upd_ne _ _ (Ne.symm hfresh.1), List.map_append, map_upd hfresh.2]
        simp only [List.map_cons, List.map_nil, upd_same, appendLv]
        congr 2
        have := putLevel_eq (i := i) (k := place (s.val j).levels i) hp
        rw [if_neg (by omega)] at this
        exact this.symm
    | some r =>
      have hm := List.mem_of_getElem? e
      have hk : place (s.val j).levels i < (s.outers (s.objs j).lv).length := (List.getElem?_eq_some_iff.1 e).1
      refine ⟨⟨rfl, fun _ _ => rfl, rfl, Nat.le_refl _, Nat.le_refl _, fun a ha hx => upd_ne _ _ fun h => hx (h ▸ List.mem_cons_of_mem _ hm),
        fun _ _ _ => rfl, fun _ h => .inl h, .inl rfl, ⟨hs.nodup, hs.rows, hs.lv⟩⟩, ?_⟩
      simp only [Heap.val, Heap.setRow]
      rw [upd_ne _ _ (show (s.objs j).ord ≠ r from fun h => hn.1 (h ▸ hm)), map_upd_set hn.2 e]
      congr 2
      have := putLevel_eq (i := i) (k := place (s.val j).levels i) hp
      rw [if_pos (by omega)] at this
      refine Eq.trans ?_ this.symm
      congr 1
      simp only [Heap.val, List.getD_eq_getElem?_getD, List.getElem?_map]
      rw [show (s.outers (s.objs j).lv)[place ((s.outers (s.objs j).lv).map s.rows) i]? = some r from e]
      rfl

/-- Changing `orig_order` in place. -/
theorem local_ord {s : Heap} {j : Nat} (hs : WF s j) (x : List Action) :
    Local s j (s.setRow (s.objs j).ord x) ∧ (s.setRow (s.objs j).ord x).val j = ⟨(s.val j).levels, x⟩ := by
  have hn := List.nodup_cons.1 hs.nodup
  refine ⟨⟨rfl, fun _ _ => rfl, rfl, Nat.le_refl _, Nat.le_refl _, fun a ha hx => upd_ne _ _ fun h => hx (h ▸ List.mem_cons_self),
        fun _ _ _ => rfl, fun _ h => .inl h, .inl rfl, ⟨hs.nodup, hs.rows, hs.lv⟩⟩, ?_⟩
  simp only [Heap.val, Heap.setRow, upd_same, map_upd hn.1]

/-- A new `action_levels` with some of the levels. -/
theorem local_lv {s : Heap} {j : Nat} (hs : WF s j) (k : Nat) :
    let t := (s.newOuter ((s.outers (s.objs j).lv).take k)).setObj j ⟨s.nouters, (s.objs j).ord, (s.objs j).isSet⟩
    Local s j t ∧ t.val j = ⟨(s.val j).levels.take k, (s.val j).orig⟩ := by
  have hn := List.nodup_cons.1 hs.nodup
  have hsub : ∀ r ∈ (s.outers (s.objs j).lv).take k, r ∈ s.outers (s.objs j).lv := fun r hr => List.mem_of_mem_take hr
  refine ⟨⟨rfl, fun i hi => upd_ne _ _ hi, ?_, Nat.le_refl _, Nat.le_succ _, fun _ _ _ => rfl, fun o ho _ => upd_ne _ _ (Nat.ne_of_lt ho),
    fun r hr => ?_, .inr ?_, ⟨?_, fun r hr => ?_, ?_⟩⟩, ?_⟩
  · simp [Heap.setObj, upd_same]
  · simp only [Heap.refs, Heap.setObj, Heap.newOuter, upd_same, List.mem_cons] at hr ⊢
    exact .inl (hr.imp id (hsub r))
  · simp [Heap.setObj, upd_same]
  · simp only [Heap.refs, Heap.setObj, Heap.newOuter, upd_same]
    exact List.nodup_cons.2 ⟨fun h => hn.1 (hsub _ h), hn.2.sublist (List.take_sublist _ _)⟩
  · simp only [Heap.refs, Heap.setObj, Heap.newOuter, upd_same, List.mem_cons] at hr ⊢
    exact hs.rows r (List.mem_cons.2 (hr.imp id (hsub r)))
  · simp [Heap.setObj, Heap.newOuter, upd_same]
  · simp only [Heap.val, Heap.setObj, Heap.newOuter, upd_same, List.map_take]

theorem sim_listAppend (j : Nat) (c : Bool) (i : Action) : Sim j c (fun s => s.listAppend j i) (fun l => vListAppend l i) := by
  intro s hs hc
  obtain ⟨h1, h2⟩ := sim_put j c i s hs hc
  dsimp only at h1 h2 ⊢
  unfold Heap.listAppend
  unfold vPut at h2
  unfold vListAppend ActionList.append
  cases e : ActionList._append (s.val j).levels i with
  | error x =>
    rw [e] at h2
    have h3 := congrArg Prod.snd h2
    have h4 := congrArg Prod.fst h2
    dsimp only at h3 h4
    rw [show s._append j i = ((s._append j i).1, some x) from Prod.ext rfl h3]
    exact ⟨h1, Prod.ext h4 rfl⟩
  | ok lv =>
    rw [e] at h2
    have h3 := congrArg Prod.snd h2
    have h4 := congrArg Prod.fst h2
    dsimp only at h3 h4
    rw [show s._append j i = ((s._append j i).1, none) from Prod.ext rfl h3]
    dsimp only
    obtain ⟨h5, h6⟩ := local_ord h1.wf ((s._append j i).1.rows ((s._append j i).1.objs j).ord ++ [i])
    refine ⟨h1.trans h5, Prod.ext ?_ rfl⟩
    dsimp only
    rw [h6, h4]
    have : (s._append j i).1.rows ((s._append j i).1.objs j).ord = (s.val j).orig := congrArg ActionList.orig h4
    rw [this]
    rfl

theorem replaceIn_map {rows : Nat → List Action} {rem item : Action} {rs : List Nat} (hn : rs.Nodup) :
    rs.map (replaceIn rows rem item rs) = replaceLevels rem item (rs.map rows) := by
  induction rs with
  | nil => rfl
  | cons r rs ih =>
    have hn' := List.nodup_cons.1 hn
    simp only [replaceIn, List.map_cons, replaceLevels]
    split
    · rw [upd_same, map_upd hn'.1]
    · rename_i hm
      rw [ih hn'.2]
      congr 1
      clear ih hn hm
      induction rs with
      | nil => rfl
      | cons a rs ih =>
        simp only [replaceIn]
        simp only [List.mem_cons, not_or] at hn'
        split
        · exact upd_ne _ _ hn'.1.1
        · exact ih ⟨hn'.1.2, (List.nodup_cons.1 hn'.2).2⟩

theorem replaceIn_other {rows : Nat → List Action} {rem item : Action} {rs : List Nat} {r : Nat} (h : r ∉ rs) :
    replaceIn rows rem item rs r = rows r := by
  induction rs with
  | nil => rfl
  | cons a rs ih =>
    simp only [List.mem_cons, not_or] at h
    simp only [replaceIn]
    split
    · exact upd_ne _ _ h.1
    · exact ih h.2

theorem sim_setAppend (j : Nat) (c : Bool) (i : Action) : Sim j c (fun s => s.setAppend j i) (fun l => vSetAppend l i) := by
  intro s hs hc
  dsimp only
  unfold Heap.setAppend vSetAppend
  dsimp only
  have hn := List.nodup_cons.1 hs.nodup
  cases e : setScan i (s.val j).iter with
  | ret => exact ⟨.refl hs, rfl⟩
  | rem rem =>
    dsimp only
    obtain ⟨h1, h2⟩ := local_ord hs (replaceFirst rem i (s.rows (s.objs j).ord))
    refine ⟨h1.trans ⟨rfl, fun _ _ => rfl, rfl, Nat.le_refl _, Nat.le_refl _, fun a _ hx => ?_, fun _ _ _ => rfl, fun _ h => .inl h, .inl rfl,
      ⟨hs.nodup, hs.rows, hs.lv⟩⟩, ?_⟩
    · exact replaceIn_other fun h => hx (List.mem_cons_of_mem _ h)
    · simp only [Heap.val, Heap.setRow]
      rw [replaceIn_other hn.1, upd_same, replaceIn_map hn.2, map_upd hn.1]
  | none =>
    dsimp only
    obtain ⟨h1, h2⟩ := local_ord hs (s.rows (s.objs j).ord ++ [i])
    obtain ⟨h3, h4⟩ := local_lv h1.wf 0
    simp only [List.take_zero] at h3 h4
    obtain ⟨h5, h6⟩ := local_ord h3.wf (sortByType (s.rows (s.objs j).ord ++ [i]))
    have e1 : ((s.setRow (s.objs j).ord (s.rows (s.objs j).ord ++ [i])).objs j) = s.objs j := rfl
    have e2 : (s.setRow (s.objs j).ord (s.rows (s.objs j).ord ++ [i])).rows (s.objs j).ord = s.rows (s.objs j).ord ++ [i] := upd_same _ _ _
    simp only [e1] at h3 h4 h5 h6
    have e3 : ∀ (u : Heap) (o : Obj), (u.setObj j o).objs j = o := fun u o => upd_same _ _ _
    simp only [e3] at h5 h6
    have e4 : ∀ (u : Heap) (x : List Nat) (o : Obj), ((u.newOuter x).setObj j o).rows = u.rows := fun _ _ _ => rfl
    rw [e4, e2]
    have e5 : ∀ (u : Heap) (r : Nat) (x : List Action), (u.setRow r x).rows r = x := fun _ _ _ => upd_same _ _ _
    rw [e5]
    obtain ⟨h7, h8⟩ := Sim.loop (fun x => sim_put j c x) (sortByType (s.rows (s.objs j).ord ++ [i])) _ h5.wf
      (by rw [h5.isSet, h3.isSet]; exact hc)
    refine ⟨((h1.trans h3).trans h5).trans h7, h8.trans ?_⟩
    rw [h6, h4]
    rfl

theorem sim_append (j : Nat) (c : Bool) (i : Action) : Sim j c (fun s => s.append j i) (fun l => vAppend c l i) := by
  intro s hs hc
  dsimp only
  unfold Heap.append vAppend
  rw [hc]
  cases c
  · exact sim_listAppend j false i s hs hc
  · exact sim_setAppend j true i s hs hc

theorem sim_remove (j : Nat) (c : Bool) (x : Action) : Sim j c (fun s => s.remove j x) (fun l => vRemove l x) := by
  intro s hs hc
  dsimp only
  unfold Heap.remove vRemove
  dsimp only
  by_cases hx : x ∈ (s.val j).orig
  · rw [if_pos hx, if_pos (show x ∈ s.rows (s.objs j).ord from hx)]
    obtain ⟨h1, h2⟩ := local_ord hs ((s.rows (s.objs j).ord).erase x)
    rw [h2]
    dsimp only
    cases e : findLevel x (s.val j).levels with
    | none => exact ⟨h1, Prod.ext h2 rfl⟩
    | some p =>
      obtain ⟨l, off⟩ := p
      dsimp only
      obtain ⟨h3, h4⟩ := local_lv h1.wf l
      have e1 : ((s.setRow (s.objs j).ord ((s.rows (s.objs j).ord).erase x)).objs j) = s.objs j := rfl
      simp only [e1] at h3 h4
      have e4 : ∀ (u : Heap) (x : List Nat) (o : Obj), ((u.newOuter x).setObj j o).rows = u.rows := fun _ _ _ => rfl
      have e5 : ∀ (u : Heap) (r : Nat) (x : List Action), (u.setRow r x).rows r = x := fun _ _ _ => upd_same _ _ _
      rw [e4, e5]
      obtain ⟨h7, h8⟩ := Sim.loop (fun x => sim_put j c x) (((s.rows (s.objs j).ord).erase x).drop off) _ h3.wf
        (by rw [h3.isSet]; exact hc)
      refine ⟨(h1.trans h3).trans h7, h8.trans ?_⟩
      rw [h4, h2]
      rfl
  · rw [if_neg hx, if_neg (show ¬ x ∈ s.rows (s.objs j).ord from hx)]
    exact ⟨.refl hs, rfl⟩

end OFE.Alias
