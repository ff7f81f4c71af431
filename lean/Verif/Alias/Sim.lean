import Verif.Alias.Lemmas

/-! # The store behaves like a world of values: lemmas for C100 -/

namespace OFE.Alias

/-! ### New objects -/

/-- Specification: one object was added, made of new lists. -/
structure Fresh (s : Heap) (c : Bool) (t : Heap) : Prop where
  nobjs : t.nobjs = s.nobjs + 1
  objs : ∀ k < s.nobjs, t.objs k = s.objs k
  isSet : (t.objs s.nobjs).isSet = c
  nrows : s.nrows ≤ t.nrows
  nouters : s.nouters ≤ t.nouters
  rows : ∀ r < s.nrows, t.rows r = s.rows r
  outers : ∀ o < s.nouters, t.outers o = s.outers o
  refs : ∀ r ∈ t.refs s.nobjs, s.nrows ≤ r
  lv : s.nouters ≤ (t.objs s.nobjs).lv
  wf : WF t s.nobjs

theorem Fresh.refs_other {s t : Heap} {c : Bool} (h : Fresh s c t) (hs : Inv s) {k : Nat} (hk : k < s.nobjs) : t.refs k = s.refs k := by
  unfold Heap.refs
  rw [h.objs k hk, h.outers _ (hs.wf k hk).lv]

theorem Fresh.val_other {s t : Heap} {c : Bool} (h : Fresh s c t) (hs : Inv s) {k : Nat} (hk : k < s.nobjs) : t.val k = s.val k := by
  unfold Heap.val
  have hr : ∀ r ∈ s.refs k, t.rows r = s.rows r := fun r hr => h.rows r ((hs.wf k hk).rows r hr)
  rw [h.objs k hk, h.outers _ (hs.wf k hk).lv, hr _ List.mem_cons_self]
  congr 1
  exact List.map_congr_left fun r hm => hr r (List.mem_cons_of_mem _ hm)

theorem Fresh.inv {s t : Heap} {c : Bool} (h : Fresh s c t) (hs : Inv s) : Inv t := by
  have hlt : ∀ k, k < t.nobjs → k ≠ s.nobjs → k < s.nobjs := fun k hk hn => by have := h.nobjs; omega
  have hl : ∀ k < s.nobjs, (t.objs k).lv ≠ (t.objs s.nobjs).lv := fun k hk he => by
    have h1 := (hs.wf k hk).lv
    have h2 := h.lv
    rw [← he, h.objs k hk] at h2
    omega
  have hr : ∀ k < s.nobjs, ∀ r ∈ t.refs k, r ∉ t.refs s.nobjs := fun k hk r hr hm => by
    rw [h.refs_other hs hk] at hr
    have h1 := (hs.wf k hk).rows r hr
    have h2 := h.refs r hm
    omega
  refine ⟨fun k hk => ?_, fun a ha b hb hn => ?_, fun a ha b hb hn r hm => ?_⟩
  · by_cases e : k = s.nobjs
    · subst e; exact h.wf
    · have hk' := hlt k hk e
      refine ⟨?_, ?_, ?_⟩
      · rw [h.refs_other hs hk']; exact (hs.wf k hk').nodup
      · rw [h.refs_other hs hk']
        exact fun r hr => Nat.lt_of_lt_of_le ((hs.wf k hk').rows r hr) h.nrows
      · rw [h.objs k hk']; exact Nat.lt_of_lt_of_le (hs.wf k hk').lv h.nouters
  · by_cases ea : a = s.nobjs
    · subst ea
      exact fun e => hl b (hlt b hb (Ne.symm hn)) e.symm
    · have ha' := hlt a ha ea
      by_cases eb : b = s.nobjs
      · subst eb; exact hl a ha'
      · have hb' := hlt b hb eb
        rw [h.objs a ha', h.objs b hb']; exact hs.lv a ha' b hb' hn
  · by_cases ea : a = s.nobjs
    · subst ea
      exact fun hx => hr b (hlt b hb (Ne.symm hn)) r hx hm
    · have ha' := hlt a ha ea
      by_cases eb : b = s.nobjs
      · subst eb; exact hr a ha' r hm
      · have hb' := hlt b hb eb
        rw [h.refs_other hs ha'] at hm
        rw [h.refs_other hs hb']
        exact hs.rows a ha' b hb' hn r hm

theorem Fresh.local {s t u : Heap} {c : Bool} (h : Fresh s c t) (g : Local t s.nobjs u) : Fresh s c u := by
  refine ⟨g.nobjs.trans h.nobjs, fun k hk => (g.objs k (Nat.ne_of_lt hk)).trans (h.objs k hk), g.isSet.trans h.isSet,
    Nat.le_trans h.nrows g.nrows, Nat.le_trans h.nouters g.nouters, fun r hr => ?_, fun o ho => ?_, fun r hr => ?_, ?_, g.wf⟩
  · rw [g.rows r (Nat.lt_of_lt_of_le hr h.nrows) fun hm => ?_, h.rows r hr]
    have := h.refs r hm
    omega
  · rw [g.outers o (Nat.lt_of_lt_of_le ho h.nouters) fun hm => ?_, h.outers o ho]
    have := h.lv
    omega
  · rcases g.refs r hr with h1 | h1
    · exact h.refs r h1
    · exact Nat.le_trans h.nrows h1
  · rcases g.lv with h1 | h1
    · rw [h1]; exact h.lv
    · exact Nat.le_trans h.nouters h1

theorem fresh_create (s : Heap) (c : Bool) : Fresh s c (s.create c) ∧ (s.create c).val s.nobjs = .empty := by
  refine ⟨⟨rfl, fun k hk => upd_ne _ _ (Nat.ne_of_lt hk), ?_, Nat.le_succ _, Nat.le_succ _, fun r hr => upd_ne _ _ (Nat.ne_of_lt hr),
    fun o ho => upd_ne _ _ (Nat.ne_of_lt ho), fun r hr => ?_, ?_, ⟨?_, fun r hr => ?_, ?_⟩⟩, ?_⟩
  · simp [Heap.create, Heap.newObj, Heap.newOuter, Heap.newRow, upd_same]
  · simp [Heap.refs, Heap.create, Heap.newObj, Heap.newOuter, Heap.newRow, upd_same] at hr
    omega
  · simp [Heap.create, Heap.newObj, Heap.newOuter, Heap.newRow, upd_same]
  · simp [Heap.refs, Heap.create, Heap.newObj, Heap.newOuter, Heap.newRow, upd_same]
  · simp [Heap.refs, Heap.create, Heap.newObj, Heap.newOuter, Heap.newRow, upd_same] at hr ⊢
    omega
  · simp [Heap.create, Heap.newObj, Heap.newOuter, Heap.newRow, upd_same]
  · simp [Heap.val, Heap.create, Heap.newObj, Heap.newOuter, Heap.newRow, upd_same, ActionList.empty]

theorem copyRows_spec (s : Heap) (rs : List Nat) (h : ∀ r ∈ rs, r < s.nrows) :
    let p := s.copyRows rs
    s.nrows ≤ p.1.nrows ∧ (∀ r < s.nrows, p.1.rows r = s.rows r) ∧ p.1.outers = s.outers ∧ p.1.nouters = s.nouters ∧
    p.1.objs = s.objs ∧ p.1.nobjs = s.nobjs ∧ p.2.Nodup ∧ (∀ r ∈ p.2, s.nrows ≤ r ∧ r < p.1.nrows) ∧
    p.2.map p.1.rows = rs.map s.rows := by
  induction rs generalizing s with
  | nil =>
    exact ⟨Nat.le_refl _, fun _ _ => rfl, rfl, rfl, rfl, rfl, List.nodup_nil, fun r hr => absurd hr List.not_mem_nil, rfl⟩
  | cons r rs ih =>
    obtain ⟨h1, h2, h3, h4, h5, h6, h7, h8, h9⟩ := ih (s.newRow (s.rows r)) fun a ha =>
      Nat.lt_succ_of_lt (h a (List.mem_cons_of_mem _ ha))
    have hn : (s.newRow (s.rows r)).nrows = s.nrows + 1 := rfl
    have hrows : ∀ a < s.nrows, (s.newRow (s.rows r)).rows a = s.rows a := fun a ha => upd_ne _ _ (Nat.ne_of_lt ha)
    simp only [Heap.copyRows]
    refine ⟨by omega, fun a ha => (h2 a (by omega)).trans (hrows a ha), h3, h4, h5, h6, List.nodup_cons.2 ⟨fun hm => ?_, h7⟩, fun a ha => ?_, ?_⟩
    · have := (h8 _ hm).1
      omega
    · rcases List.mem_cons.1 ha with rfl | ha
      · omega
      · have := h8 a ha
        omega
    · rw [List.map_cons, List.map_cons, h9, h2 s.nrows (by omega)]
      congr 1
      · exact upd_same _ _ _
      · exact List.map_congr_left fun a ha => hrows a (h a (List.mem_cons_of_mem _ ha))

theorem fresh_dup {s : Heap} {k : Nat} (c : Bool) (hk : WF s k) : Fresh s c (s.dup c k) ∧ (s.dup c k).val s.nobjs = s.val k := by
  obtain ⟨h1, h2, h3, h4, h5, h6, h7, h8, h9⟩ := copyRows_spec s (s.outers (s.objs k).lv) fun r hr => hk.rows r (List.mem_cons_of_mem _ hr)
  generalize hp : s.copyRows (s.outers (s.objs k).lv) = p at h1 h2 h3 h4 h5 h6 h7 h8 h9
  unfold Heap.dup
  rw [hp]
  dsimp only at h1 h2 h3 h4 h5 h6 h7 h8 h9 ⊢
  have e1 : ∀ (u : Heap) (o : Obj), u.nobjs = s.nobjs → (u.newObj o).objs s.nobjs = o := fun u o h => by
    rw [← h]; exact upd_same _ _ _
  have eo := e1 ((p.1.newRow (s.rows (s.objs k).ord)).newOuter p.2) ⟨(p.1.newRow (s.rows (s.objs k).ord)).nouters, p.1.nrows, c⟩ h6
  have hout : (((p.1.newRow (s.rows (s.objs k).ord)).newOuter p.2).newObj ⟨(p.1.newRow (s.rows (s.objs k).ord)).nouters, p.1.nrows, c⟩).outers
      (p.1.newRow (s.rows (s.objs k).ord)).nouters = p.2 := upd_same _ _ _
  have hrefs : (((p.1.newRow (s.rows (s.objs k).ord)).newOuter p.2).newObj ⟨(p.1.newRow (s.rows (s.objs k).ord)).nouters, p.1.nrows, c⟩).refs
      s.nobjs = p.1.nrows :: p.2 := by
    unfold Heap.refs
    rw [eo]
    dsimp only
    rw [hout]
  refine ⟨⟨?_, fun i hi => ?_, ?_, ?_, ?_, fun r hr => ?_, fun o ho => ?_, fun r hr => ?_, ?_, ⟨?_, fun r hr => ?_, ?_⟩⟩, ?_⟩
  · exact congrArg (· + 1) h6
  · have : i ≠ p.1.nobjs := by omega
    exact (upd_ne _ _ this).trans (by show p.1.objs i = s.objs i; rw [h5])
  · rw [eo]
  · exact Nat.le_succ_of_le h1
  · exact Nat.le_succ_of_le (Nat.le_of_eq h4.symm)
  · have : r ≠ p.1.nrows := by omega
    exact (upd_ne _ _ this).trans (h2 r hr)
  · have : o ≠ p.1.nouters := by omega
    exact (upd_ne _ _ this).trans (by show p.1.outers o = s.outers o; rw [h3])
  · rw [hrefs] at hr
    rcases List.mem_cons.1 hr with rfl | hr
    · exact h1
    · exact (h8 r hr).1
  · rw [eo]; exact Nat.le_of_eq h4.symm
  · rw [hrefs]
    exact List.nodup_cons.2 ⟨fun h => Nat.lt_irrefl _ (h8 _ h).2, h7⟩
  · rw [hrefs] at hr
    rcases List.mem_cons.1 hr with rfl | hr
    · exact Nat.lt_succ_self _
    · exact Nat.lt_succ_of_lt (h8 r hr).2
  · rw [eo]; exact Nat.lt_succ_self _
  · unfold Heap.val
    rw [eo]
    dsimp only
    rw [hout]
    have e2 : ∀ r, (((p.1.newRow (s.rows (s.objs k).ord)).newOuter p.2).newObj
        ⟨(p.1.newRow (s.rows (s.objs k).ord)).nouters, p.1.nrows, c⟩).rows r = upd p.1.rows p.1.nrows (s.rows (s.objs k).ord) r := fun _ => rfl
    rw [e2, upd_same]
    congr 1
    rw [← h9]
    exact map_upd fun h => Nat.lt_irrefl _ (h8 _ h).2

/-! ### Iterating over a live list -/

theorem feed_local {f : Heap → Action → Res} {j : Nat} (hf : ∀ x s, WF s j → Local s j (f s x).1) (n : Nat) {s : Heap} (hs : WF s j)
    (o a b : Nat) : Local s j (feed f n s o a b).1 := by
  induction n generalizing s a b with
  | zero => exact .refl hs
  | succ n ih =>
    simp only [feed]
    split
    · exact .refl hs
    · split
      · exact ih hs (a + 1) 0
      · rename_i x _
        have h1 := hf x s hs
        split
        · rename_i t e
          rw [e] at h1
          exact h1.trans (ih h1.wf a (b + 1))
        · rename_i t y e
          rw [e] at h1
          exact h1

/-- What is left to iterate over. -/
def leftOver (vs : List (List Action)) (b : Nat) : List Action :=
  match vs with
  | [] => []
  | v :: vs => v.drop b ++ vs.flatten

theorem feed_loop {f : Heap → Action → Res} {j k : Nat} (hf : ∀ x s, WF s j → Local s j (f s x).1) (hn : k ≠ j)
    (n : Nat) {s : Heap} (hs : Inv s) (hj : j < s.nobjs) (hk : k < s.nobjs) (a b : Nat)
    (hN : (leftOver ((s.val k).levels.drop a) b).length + ((s.val k).levels.length - a) < n) :
    feed f n s (s.objs k).lv a b = loop f s (leftOver ((s.val k).levels.drop a) b) := by
  induction n generalizing s a b with
  | zero => omega
  | succ n ih =>
    simp only [feed]
    have hlen : (s.val k).levels.length = (s.outers (s.objs k).lv).length := List.length_map _
    cases e : (s.outers (s.objs k).lv)[a]? with
    | none =>
      have := List.getElem?_eq_none_iff.1 e
      rw [List.drop_eq_nil_of_le (by omega)]
      rfl
    | some r =>
      obtain ⟨ha, hr⟩ := List.getElem?_eq_some_iff.1 e
      have ha' : a < (s.val k).levels.length := by omega
      have hd : (s.val k).levels.drop a = s.rows r :: (s.val k).levels.drop (a + 1) := by
        rw [List.drop_eq_getElem_cons ha']
        congr 1
        simp only [Heap.val, List.getElem_map, hr]
      rw [hd] at hN ⊢
      simp only [leftOver] at hN ⊢
      cases eb : (s.rows r)[b]? with
      | none =>
        have h0 := List.getElem?_eq_none_iff.1 eb
        rw [List.drop_eq_nil_of_le h0, List.nil_append] at hN ⊢
        have hl : leftOver ((s.val k).levels.drop (a + 1)) 0 = ((s.val k).levels.drop (a + 1)).flatten := by
          cases (s.val k).levels.drop (a + 1) <;> simp [leftOver]
        dsimp only
        rw [ih hs hj hk (a + 1) 0 (by rw [hl]; omega), hl]
      | some x =>
        obtain ⟨hb, hx⟩ := List.getElem?_eq_some_iff.1 eb
        rw [List.drop_eq_getElem_cons hb, hx] at hN ⊢
        simp only [List.cons_append, List.length_cons] at hN
        simp only [List.cons_append, loop]
        have h1 := hf x s (hs.wf j hj)
        cases ef : f s x with
        | mk t y =>
          rw [ef] at h1
          cases y with
          | some y => rfl
          | none =>
            dsimp only at h1 ⊢
            have hv := h1.val_other hs hj hk hn
            have hr2 : leftOver ((t.val k).levels.drop a) (b + 1) = (s.rows r).drop (b + 1) ++ ((s.val k).levels.drop (a + 1)).flatten := by
              rw [hv, hd]; rfl
            rw [← hr2]
            have ho : (t.objs k).lv = (s.objs k).lv := by rw [h1.objs k hn]
            rw [← ho]
            refine ih (h1.inv hs hj) (by rw [h1.nobjs]; exact hj) (by rw [h1.nobjs]; exact hk) a (b + 1) ?_
            rw [hr2, hv]
            omega

theorem local_appendAll (fuel : Nat) {s : Heap} {j : Nat} (hs : WF s j) (src : Src) : Local s j (s.appendAll fuel j src).1 := by
  have hf : ∀ x s, WF s j → Local s j (Heap.append s j x).1 := fun x s hs => (sim_append j _ x s hs rfl).1
  cases src with
  | items xs => exact (Sim.loop (fun x => sim_append j _ x) xs s hs rfl).1
  | obj k => exact feed_local hf fuel hs _ 0 0

/-- Specification: enough steps to iterate over a source. -/
def Src.need (s : Heap) : Src → Nat
  | .items _ => 0
  | .obj k => (s.val k).iter.length + (s.val k).levels.length + 1

theorem sim_appendAll {s : Heap} {j : Nat} (hs : Inv s) (hj : j < s.nobjs) (src : Src) (hk : ∀ k, src = .obj k → k < s.nobjs ∧ k ≠ j)
    (n : Nat) (hn : src.need s ≤ n) : ((s.appendAll n j src).1.val j, (s.appendAll n j src).2) =
      loop (vAppend (s.objs j).isSet) (s.val j) (src.list s) := by
  have hf : ∀ x s, WF s j → Local s j (Heap.append s j x).1 := fun x s hs => (sim_append j _ x s hs rfl).1
  cases src with
  | items xs => exact (Sim.loop (fun x => sim_append j _ x) xs s (hs.wf j hj) rfl).2
  | obj k =>
    obtain ⟨h1, h2⟩ := hk k rfl
    have hl : leftOver ((s.val k).levels.drop 0) 0 = (s.val k).iter := by
      rw [List.drop_zero]
      unfold ActionList.iter
      cases (s.val k).levels <;> simp [leftOver]
    simp only [Src.need] at hn
    unfold Heap.appendAll
    dsimp only
    rw [feed_loop hf h2 n hs hj h1 0 0 (by rw [hl]; omega), hl]
    exact (Sim.loop (fun x => sim_append j _ x) _ s (hs.wf j hj) rfl).2

/-! ### Worlds -/

theorem world_get {s : Heap} {k : Nat} (hk : k < s.nobjs) : s.world.get k = ((s.objs k).isSet, s.val k) := by
  unfold World.get Heap.world
  rw [List.getD_eq_getElem?_getD, List.getElem?_map, List.getElem?_range hk]
  rfl

theorem world_length (s : Heap) : s.world.length = s.nobjs := by simp [Heap.world]

theorem Local.world {s t : Heap} {j : Nat} (h : Local s j t) (hs : Inv s) (hj : j < s.nobjs) :
    t.world = s.world.set j ((s.world.get j).1, t.val j) := by
  rw [world_get hj]
  refine List.ext_getElem? fun i => ?_
  by_cases hi : i < s.nobjs
  · rw [List.getElem?_set, world_length]
    unfold Heap.world
    rw [h.nobjs, List.getElem?_map, List.getElem?_range hi]
    by_cases e : j = i
    · subst e
      rw [if_pos rfl, if_pos hj]
      simp [h.isSet]
    · have e' := Ne.symm e
      rw [if_neg e, List.getElem?_map, List.getElem?_range hi]
      simp [h.objs i e', h.val_other hs hj hi e']
  · rw [List.getElem?_eq_none (by rw [world_length, h.nobjs]; omega),
      List.getElem?_eq_none (by rw [List.length_set, world_length]; omega)]

theorem Fresh.world {s t : Heap} {c : Bool} (h : Fresh s c t) (hs : Inv s) : t.world = s.world ++ [(c, t.val s.nobjs)] := by
  unfold Heap.world
  rw [h.nobjs, List.range_succ, List.map_append]
  congr 1
  · exact List.map_congr_left fun k hk => by
      have hk := List.mem_range.1 hk
      rw [h.objs k hk, h.val_other hs hk]
  · simp [h.isSet]

theorem list_world {s : Heap} {src : Src} (h : ∀ k, src = .obj k → k < s.nobjs) : src.list s = s.world.items src := by
  cases src with
  | items xs => rfl
  | obj k => simp only [Src.list, World.items, world_get (h k rfl)]

/-- Specification: enough steps for an operation, given the values. -/
def World.need (w : World) : Op → Nat
  | .replace _ (.obj k) | .iadd _ (.obj k) | .copy _ (.obj k) _ => (w.get k).2.iter.length + (w.get k).2.levels.length + 1
  | _ => 0

/-- `replace` starts with two new lists. -/
theorem local_reset {s : Heap} {j : Nat} :
    let t := ((s.newRow []).newOuter []).setObj j ⟨s.nouters, s.nrows, (s.objs j).isSet⟩
    Local s j t ∧ t.val j = .empty := by
  refine ⟨⟨rfl, fun k hk => upd_ne _ _ hk, ?_, Nat.le_succ _, Nat.le_succ _, fun r hr _ => upd_ne _ _ (Nat.ne_of_lt hr),
    fun o ho _ => upd_ne _ _ (Nat.ne_of_lt ho), fun r hr => ?_, .inr ?_, ⟨?_, fun r hr => ?_, ?_⟩⟩, ?_⟩
  · simp [Heap.setObj, upd_same]
  · simp [Heap.refs, Heap.setObj, Heap.newOuter, Heap.newRow, upd_same] at hr
    exact .inr (by omega)
  · simp [Heap.setObj, upd_same]
  · simp [Heap.refs, Heap.setObj, Heap.newOuter, Heap.newRow, upd_same]
  · simp [Heap.refs, Heap.setObj, Heap.newOuter, Heap.newRow, upd_same] at hr ⊢
    omega
  · simp [Heap.setObj, Heap.newOuter, Heap.newRow, upd_same]
  · simp [Heap.val, Heap.setObj, Heap.newOuter, Heap.newRow, upd_same, ActionList.empty]

/-- What an operation does to the store: it changes only lists of its target, or adds an object, or does nothing. -/
theorem step_shape (fuel : Nat) {s : Heap} (hs : Inv s) (op : Op) (hr : ∀ k ∈ op.refs, k < s.nobjs) :
    (∃ j, op.target = some j ∧ Local s j (s.step fuel op).1) ∨
    (op.target = none ∧ ((∃ c, Fresh s c (s.step fuel op).1) ∨ (s.step fuel op).1 = s)) := by
  cases op with
  | new c => exact .inr ⟨rfl, .inl ⟨c, (fresh_create s c).1⟩⟩
  | ofList c xs => exact .inr ⟨rfl, .inl ⟨c, (fresh_create s c).1.local (local_appendAll fuel (fresh_create s c).1.wf _)⟩⟩
  | dup c k => exact .inr ⟨rfl, .inl ⟨c, (fresh_dup c (hs.wf k (hr k List.mem_cons_self))).1⟩⟩
  | append j i => exact .inl ⟨j, rfl, (sim_append j _ i s (hs.wf j (hr j List.mem_cons_self)) rfl).1⟩
  | remove j x => exact .inl ⟨j, rfl, (sim_remove j _ x s (hs.wf j (hr j List.mem_cons_self)) rfl).1⟩
  | replace j new => exact .inl ⟨j, rfl, local_reset.1.trans (local_appendAll fuel local_reset.1.wf _)⟩
  | iadd j other =>
    have hj : j < s.nobjs := by cases other <;> exact hr j List.mem_cons_self
    exact .inl ⟨j, rfl, local_appendAll fuel (hs.wf j hj) _⟩
  | copy j add remove =>
    have hj : j < s.nobjs := by cases add <;> exact hr j List.mem_cons_self
    refine .inr ⟨rfl, ?_⟩
    simp only [Heap.step, Heap.copy]
    split
    · split
      · exact .inr rfl
      · exact .inl ⟨_, (fresh_create s _).1.local (local_appendAll fuel (fresh_create s _).1.wf _)⟩
    · have h1 := (fresh_dup (s.objs j).isSet (hs.wf j hj)).1
      have h2 := (Sim.loop (fun r => sim_remove s.nobjs _ r) remove _ h1.wf rfl).1
      dsimp only at h2
      split
      · rename_i t e
        rw [e] at h2
        exact .inl ⟨_, (h1.local h2).local (local_appendAll fuel h2.wf _)⟩
      · exact .inl ⟨_, h1.local h2⟩

theorem step_inv (fuel : Nat) {s : Heap} (hs : Inv s) (op : Op) (hr : ∀ k ∈ op.refs, k < s.nobjs) : Inv (s.step fuel op).1 := by
  rcases step_shape fuel hs op hr with ⟨j, ht, h⟩ | ⟨-, ⟨c, h⟩ | h⟩
  · refine h.inv hs (hr j ?_)
    cases op with
    | append | remove => cases ht; exact List.mem_cons_self
    | replace j' src | iadd j' src => cases ht; cases src <;> exact List.mem_cons_self
    | _ => cases ht
  · exact h.inv hs
  · rw [h]; exact hs

theorem step_world {s : Heap} (hs : Inv s) (op : Op) (hr : ∀ k ∈ op.refs, k < s.nobjs) (hself : op.self = false) :
    ∀ n, s.world.need op ≤ n → ((s.step n op).1.world, (s.step n op).2) = s.world.step op := by
  intro n hn
  cases op with
  | new c =>
    obtain ⟨h1, h2⟩ := fresh_create s c
    simp only [Heap.step, World.step, World.add, h1.world hs, h2]
  | ofList c xs =>
    obtain ⟨h1, h2⟩ := fresh_create s c
    have h3 := local_appendAll n h1.wf (.items xs)
    have h4 := (Sim.loop (fun x => sim_append s.nobjs _ x) xs _ h1.wf rfl).2
    dsimp only at h4
    rw [h1.isSet, h2] at h4
    simp only [Heap.step, World.step, World.add]
    rw [← h4, (h1.local h3).world hs]
    rfl
  | dup c k =>
    have hk := hr k List.mem_cons_self
    obtain ⟨h1, h2⟩ := fresh_dup c (hs.wf k hk)
    simp only [Heap.step, World.step, World.add, h1.world hs, h2, world_get hk]
  | append j i =>
    have hj := hr j List.mem_cons_self
    obtain ⟨h1, h2⟩ := sim_append j _ i s (hs.wf j hj) rfl
    dsimp only at h1 h2
    simp only [Heap.step, World.step, World.put]
    rw [h1.world hs hj, world_get hj]
    dsimp only
    rw [← h2]
  | remove j x =>
    have hj := hr j List.mem_cons_self
    obtain ⟨h1, h2⟩ := sim_remove j _ x s (hs.wf j hj) rfl
    dsimp only at h1 h2
    simp only [Heap.step, World.step, World.put]
    rw [h1.world hs hj, world_get hj]
    dsimp only
    rw [← h2]
  | replace j new =>
    have hj : j < s.nobjs := by cases new <;> exact hr j List.mem_cons_self
    have hk : ∀ k, new = .obj k → k < s.nobjs ∧ k ≠ j := fun k hk => by
      subst hk
      refine ⟨hr k (List.mem_cons_of_mem _ List.mem_cons_self), fun e => ?_⟩
      simp [Op.self, e] at hself
    obtain ⟨h1, h2⟩ := local_reset (s := s) (j := j)
    have hj' := h1.nobjs ▸ hj
    have h3 := h1.trans (local_appendAll n h1.wf new)
    have h4 := sim_appendAll (h1.inv hs hj) hj' new (fun k e => ⟨h1.nobjs ▸ (hk k e).1, (hk k e).2⟩) n (by
      cases new with
      | items xs => exact Nat.zero_le _
      | obj k =>
        obtain ⟨h5, h6⟩ := hk k rfl
        simp only [World.need, world_get h5] at hn
        simp only [Src.need, h1.val_other hs hj h5 h6]
        exact hn)
    rw [h2, h1.isSet] at h4
    have h5 : new.list (((s.newRow []).newOuter []).setObj j ⟨s.nouters, s.nrows, (s.objs j).isSet⟩) = s.world.items new := by
      rw [← list_world fun k e => (hk k e).1]
      cases new with
      | items xs => rfl
      | obj k => simp only [Src.list, h1.val_other hs hj (hk k rfl).1 (hk k rfl).2]
    rw [h5] at h4
    simp only [Heap.step, World.step, World.put, Heap.replace]
    rw [h3.world hs hj, world_get hj]
    dsimp only
    rw [← h4]
  | iadd j other =>
    have hj : j < s.nobjs := by cases other <;> exact hr j List.mem_cons_self
    have hk : ∀ k, other = .obj k → k < s.nobjs ∧ k ≠ j := fun k hk => by
      subst hk
      refine ⟨hr k (List.mem_cons_of_mem _ List.mem_cons_self), fun e => ?_⟩
      simp [Op.self, e] at hself
    have h3 := local_appendAll n (hs.wf j hj) other
    have h4 := sim_appendAll hs hj other hk n (by
      cases other with
      | items xs => exact Nat.zero_le _
      | obj k =>
        simp only [World.need, world_get (hk k rfl).1] at hn
        exact hn)
    rw [list_world fun k e => (hk k e).1] at h4
    simp only [Heap.step, World.step, World.put]
    rw [h3.world hs hj, world_get hj]
    dsimp only
    rw [← h4]
  | copy j add remove =>
    have hj : j < s.nobjs := by cases add <;> exact hr j List.mem_cons_self
    have hk : ∀ k, add = .obj k → k < s.nobjs := fun k hk => by
      subst hk
      exact hr k (List.mem_cons_of_mem _ List.mem_cons_self)
    simp only [Heap.step, World.step, Heap.copy, vCopy, world_get hj, ← list_world hk]
    by_cases hl : remove.length > 1
    · simp only [if_pos hl]
      show (_, _) = match (do
          let new ← remove.foldlM (fun (acc : List Action) r =>
            if r ∈ acc then (Except.ok (acc.erase r) : Except PyErr _) else .error .valueError) (s.rows (s.objs j).ord)
          return loop (vAppend (s.objs j).isSet) ActionList.empty (new ++ add.list s) : Except PyErr VRes) with
        | .ok r => World.add _ _ r
        | .error e => (_, some e)
      cases e : remove.foldlM (fun (acc : List Action) r =>
        if r ∈ acc then (Except.ok (acc.erase r) : Except PyErr _) else .error .valueError) (s.rows (s.objs j).ord) with
      | error x => rfl
      | ok new =>
        obtain ⟨h1, h2⟩ := fresh_create s (s.objs j).isSet
        have h3 := local_appendAll n h1.wf (.items (new ++ add.list s))
        have h4 := (Sim.loop (fun x => sim_append s.nobjs _ x) (new ++ add.list s) _ h1.wf rfl).2
        dsimp only at h4
        rw [h1.isSet, h2] at h4
        show (_, _) = World.add _ _ (loop (vAppend (s.objs j).isSet) ActionList.empty (new ++ add.list s))
        unfold World.add
        rw [← h4, (h1.local h3).world hs]
        rfl
    · simp only [if_neg hl]
      obtain ⟨h1, h2⟩ := fresh_dup (s.objs j).isSet (hs.wf j hj)
      obtain ⟨h3, h4⟩ := Sim.loop (fun r => sim_remove s.nobjs _ r) remove _ h1.wf rfl
      dsimp only at h3 h4
      rw [h2] at h4
      rw [← h4]
      generalize loop (fun u r => u.remove s.nobjs r) (s.dup (s.objs j).isSet j) remove = q at h3 h4
      obtain ⟨t, y⟩ := q
      dsimp only at h3 h4 ⊢
      have hf := h1.local h3
      cases y with
      | some y =>
        simp only [World.add, hf.world hs]
      | none =>
        have hlt : s.nobjs < t.nobjs := by rw [hf.nobjs]; omega
        have h5 := sim_appendAll (hf.inv hs) hlt add (fun k e =>
          ⟨Nat.lt_trans (hk k e) hlt, Nat.ne_of_lt (hk k e)⟩) n (by
            cases add with
            | items xs => exact Nat.zero_le _
            | obj k =>
              simp only [World.need, world_get (hk k rfl)] at hn
              simp only [Src.need, hf.val_other hs (hk k rfl)]
              exact hn)
        rw [hf.isSet] at h5
        have h6 : add.list t = add.list s := by
          cases add with
          | items xs => rfl
          | obj k => simp only [Src.list, hf.val_other hs (hk k rfl)]
        rw [h6] at h5
        have h7 := local_appendAll n hf.wf add
        simp only [World.add]
        rw [← h5, (hf.local h7).world hs]

theorem inv_init : Inv Heap.init :=
  ⟨fun _ h => absurd h (Nat.not_lt_zero _), fun _ h => absurd h (Nat.not_lt_zero _), fun _ h => absurd h (Nat.not_lt_zero _)⟩

theorem run_inv (fuel : Nat) {s : Heap} (hs : Inv s) (ops : List Op) : Inv (s.run fuel ops).1 := by
  induction ops generalizing s with
  | nil => exact hs
  | cons op ops ih =>
    simp only [Heap.run]
    split
    · rename_i h
      refine ih (step_inv fuel hs op fun k hk => ?_)
      exact of_decide_eq_true (List.all_eq_true.1 h k hk)
    · exact ih hs

theorem run_world {s : Heap} (hs : Inv s) (ops : List Op) (hself : ∀ op ∈ ops, op.self = false) :
    ∃ N, ∀ n, N ≤ n → ((s.run n ops).1.world, (s.run n ops).2) = s.world.run ops := by
  have key : ∀ ops : List Op, ∀ w : World, (∀ op ∈ ops, op.self = false) → ∃ N, ∀ n, N ≤ n → ∀ s, Inv s → s.world = w →
      ((s.run n ops).1.world, (s.run n ops).2) = w.run ops := by
    intro ops
    induction ops with
    | nil => exact fun w _ => ⟨0, fun n _ s _ e => by subst e; rfl⟩
    | cons op ops ih =>
      intro w hself
      obtain ⟨N1, h1⟩ := ih (w.step op).1 fun o ho => hself o (List.mem_cons_of_mem _ ho)
      obtain ⟨N2, h2⟩ := ih w fun o ho => hself o (List.mem_cons_of_mem _ ho)
      refine ⟨max (w.need op) (max N1 N2), fun n hn s hs e => ?_⟩
      have hl : s.nobjs = w.length := by rw [← e, world_length]
      simp only [Heap.run, World.run, hl]
      by_cases hr : op.refs.all (· < w.length) = true
      · rw [if_pos hr, if_pos hr]
        have hr' : ∀ k ∈ op.refs, k < s.nobjs := fun k hk => hl ▸ of_decide_eq_true (List.all_eq_true.1 hr k hk)
        have h3 := step_world hs op hr' (hself op List.mem_cons_self) n (by rw [e]; omega)
        rw [e] at h3
        have h4 := h1 n (by omega) (s.step n op).1 (step_inv n hs op hr') (congrArg Prod.fst h3)
        dsimp only
        rw [← h4, ← h3]
      · rw [if_neg hr, if_neg hr]
        have h4 := h2 n (by omega) s hs e
        dsimp only
        rw [← h4]
  obtain ⟨N, hN⟩ := key ops s.world hself
  exact ⟨N, fun n hn => hN n hn s hs rfl⟩

end OFE.Alias
