import Verif.Alias.RuleLemmas

/-! # Rules behave like values: lemmas for C100 -/

namespace OFE.Alias

variable {π : Type}

theorem create_two {s : Heap} (hs : Inv s) :
    let h := (s.create false).create true
    Ext s h ∧ h.nobjs = s.nobjs + 2 ∧ (h.objs s.nobjs).isSet = false ∧ (h.objs (s.nobjs + 1)).isSet = true ∧
    h.val s.nobjs = .empty ∧ h.val (s.nobjs + 1) = .empty := by
  obtain ⟨h1, h2⟩ := fresh_create s false
  obtain ⟨h3, h4⟩ := fresh_create (s.create false) true
  have e1 : (s.create false).nobjs = s.nobjs + 1 := rfl
  have h5 := h3.isSet
  rw [e1] at h4 h5
  have h6 := h3.ext (h1.inv hs)
  exact ⟨(h1.ext hs).trans h6, rfl, (h6.isSet _ (by rw [e1]; omega)).trans h1.isSet, h5, (h6.val _ (by rw [e1]; omega)).trans h2, h4⟩

theorem dup_two {s : Heap} (hs : Inv s) {a b : Nat} (ha : a < s.nobjs) (hb : b < s.nobjs) :
    let h := (s.dup false a).dup true b
    Ext s h ∧ h.nobjs = s.nobjs + 2 ∧ (h.objs s.nobjs).isSet = false ∧ (h.objs (s.nobjs + 1)).isSet = true ∧
    h.val s.nobjs = s.val a ∧ h.val (s.nobjs + 1) = s.val b := by
  obtain ⟨h1, h2⟩ := fresh_dup false (hs.wf a ha)
  have e1 : (s.dup false a).nobjs = s.nobjs + 1 := h1.nobjs
  have hb' : b < (s.dup false a).nobjs := by omega
  obtain ⟨h3, h4⟩ := fresh_dup true ((h1.inv hs).wf b hb')
  have h5 := h3.isSet
  have h7 := h3.nobjs
  rw [e1] at h4 h5 h7
  have h6 := h3.ext (h1.inv hs)
  exact ⟨(h1.ext hs).trans h6, h7, (h6.isSet _ (by rw [e1]; omega)).trans h1.isSet, h5, (h6.val _ (by rw [e1]; omega)).trans h2,
    h4.trans (h1.val_other hs hb)⟩

theorem step_values {s : Store π} (hs : SInv s) (op : RuleOp) (hr : ∀ k ∈ op.refs, k < s.nrules) (hself : op.self = false) (n : Nat)
    (hn : ruleNeed s.values op ≤ n) :
    SInv (s.step n op).1 ∧ ((s.step n op).1.values, (s.step n op).2) = valStep s.values op := by
  cases op with
  | new p c t =>
    obtain ⟨h1, h2, h3, h4, h5, h6⟩ := create_two hs.heap
    obtain ⟨h7, h8⟩ := addRule_spec hs h1 (m := .empty) (o := ⟨s.heap.nobjs, s.heap.nobjs + 1, none, none, false, none⟩)
      (r := ⟨0, 0, p, c, t, []⟩) ⟨Nat.le_refl _, by rw [h2]; exact Nat.lt_add_of_pos_right (by decide), h3⟩
      ⟨Nat.le_succ _, by rw [h2]; exact Nat.lt_succ_self _, h4⟩
    refine ⟨h7, ?_⟩
    simp only [Store.step, Store.newRule, valStep]
    rw [h8]
    dsimp only
    rw [h5, h6]
    rfl
  | copy i =>
    have hi := hr i List.mem_cons_self
    obtain ⟨h1, h2, h3, h4, h5, h6⟩ := dup_two hs.heap (hs.part i hi .apply).1 (hs.part i hi .write).1
    simp only [Store.part] at h1 h2 h3 h4 h5 h6
    obtain ⟨h7, h8⟩ := addRule_spec hs h1 (m := s.mats (s.rules i).mat)
      (o := ⟨s.heap.nobjs, s.heap.nobjs + 1, (s.instOf i).goto, (s.instOf i).wmeta, (s.instOf i).clear, (s.instOf i).meter⟩)
      (r := s.rules i) ⟨Nat.le_refl _, by rw [h2]; exact Nat.lt_add_of_pos_right (by decide), h3⟩
      ⟨Nat.le_succ _, by rw [h2]; exact Nat.lt_succ_self _, h4⟩
    refine ⟨h7, ?_⟩
    simp only [Store.step, Store.copyRule, valStep, values_get hi]
    rw [h8]
    dsimp only
    rw [h5, h6]
    rfl
  | act i p a =>
    have hi := hr i List.mem_cons_self
    obtain ⟨hL, hv⟩ := act_spec hs hi p a (fun k hk => hr k (List.mem_cons_of_mem _ hk)) hself hn
    simp only [Store.step, valStep, values_get hi]
    generalize s.heap.step n (s.listOp (s.part i p) a) = q at hL hv
    obtain ⟨t, e⟩ := q
    dsimp only at hL hv ⊢
    have hj := (hs.part i hi p).1
    have hother : ∀ k < s.nrules, ∀ p', ¬ (k = i ∧ p' = p) → t.val (s.part k p') = s.heap.val (s.part k p') := fun k hk p' hne =>
      hL.val_other hs.heap hj (hs.part k hk p').1 (hs.part_ne hk hi hne)
    refine ⟨⟨hL.inv hs.heap hj, hs.mat, hs.matInj, hs.inst, hs.instInj, fun k hk p' => ?_, hs.partInj⟩, ?_⟩
    · obtain ⟨h1, h2⟩ := hs.part k hk p'
      refine ⟨by show _ < t.nobjs; rw [hL.nobjs]; exact h1, ?_⟩
      by_cases hne : s.part k p' = s.part i p
      · show (t.objs (s.part k p')).isSet = _
        rw [hne, hL.isSet, ← hne]; exact h2
      · show (t.objs (s.part k p')).isSet = _
        rw [hL.objs _ hne]; exact h2
    · rw [← hv]
      dsimp only
      congr 1
      rw [values_set (s := s) (t := s.withHeap t) (i := i) rfl fun k hk hne => ?_]
      · congr 1
        cases p with
        | apply =>
          have h2 := hother i hi .write (by simp)
          simp only [Store.part] at h2
          simp only [Store.ruleVal, Store.withHeap, withPart, Store.part, Store.instOf] at h2 ⊢
          rw [h2]
        | write =>
          have h2 := hother i hi .apply (by simp)
          simp only [Store.part] at h2
          simp only [Store.ruleVal, Store.withHeap, withPart, Store.part, Store.instOf] at h2 ⊢
          rw [h2]
      · have h1 := hother k hk .apply fun h => hne h.1
        have h2 := hother k hk .write fun h => hne h.1
        simp only [Store.part] at h1 h2
        simp only [Store.ruleVal, Store.withHeap, Store.instOf] at h1 h2 ⊢
        rw [h1, h2]
  | setInst i g w c m =>
    have hi := hr i List.mem_cons_self
    simp only [Store.step, valStep, values_get hi]
    have hin : ∀ k, k < s.nrules → k ≠ i → upd s.insts (s.rules i).inst ⟨(s.instOf i).ap, (s.instOf i).wr, g, w, c, m⟩ (s.rules k).inst =
        s.instOf k := fun k hk hne => upd_ne _ _ (hs.instInj k hk i hi hne)
    have hii : upd s.insts (s.rules i).inst ⟨(s.instOf i).ap, (s.instOf i).wr, g, w, c, m⟩ (s.rules i).inst =
        ⟨(s.instOf i).ap, (s.instOf i).wr, g, w, c, m⟩ := upd_same _ _ _
    simp only [Store.instOf] at hin hii
    have hp : ∀ k, k < s.nrules → ∀ p, Store.part ⟨s.heap, s.mats, s.nmats,
        upd s.insts (s.rules i).inst ⟨(s.instOf i).ap, (s.instOf i).wr, g, w, c, m⟩, s.ninsts, s.rules, s.nrules⟩ k p = s.part k p :=
      fun k hk p => by
        by_cases e : k = i
        · subst e
          cases p <;> simp only [Store.part, Store.instOf, hii]
        · cases p <;> simp only [Store.part, Store.instOf, hin k hk e]
    refine ⟨⟨hs.heap, hs.mat, hs.matInj, hs.inst, hs.instInj, fun k hk p => ?_, fun k hk l hl hne p => ?_⟩, ?_⟩
    · rw [hp k hk]; exact hs.part k hk p
    · rw [hp k hk, hp l hl]; exact hs.partInj k hk l hl hne p
    · congr 1
      refine Eq.trans (values_set (s := s) (i := i) ?_ fun k hk hne => ?_) ?_
      · rfl
      · simp only [Store.ruleVal, Store.instOf]
        rw [hin k hk hne]
      · congr 1
        simp only [Store.ruleVal, Store.instOf, hii]
  | matAppend i f v mask =>
    have hi := hr i List.mem_cons_self
    simp only [Store.step, valStep, values_get hi]
    refine ⟨⟨hs.heap, hs.mat, hs.matInj, hs.inst, hs.instInj, hs.part, hs.partInj⟩, ?_⟩
    congr 1
    refine Eq.trans (values_set (s := s) (i := i) ?_ fun k hk hne => ?_) ?_
    · rfl
    · simp only [Store.ruleVal, Store.instOf]
      rw [upd_ne _ _ (hs.matInj k hk i hi hne)]
    · congr 1
      simp only [Store.ruleVal, Store.instOf, upd_same]
  | matDel i f =>
    have hi := hr i List.mem_cons_self
    simp only [Store.step, valStep, values_get hi]
    have e : (s.ruleVal i).mat = s.mats (s.rules i).mat := rfl
    rw [e]
    cases (s.mats (s.rules i).mat).del f with
    | error x => exact ⟨hs, rfl⟩
    | ok m =>
      refine ⟨⟨hs.heap, hs.mat, hs.matInj, hs.inst, hs.instInj, hs.part, hs.partInj⟩, ?_⟩
      dsimp only
      congr 1
      refine Eq.trans (values_set (s := s) (i := i) ?_ fun k hk hne => ?_) ?_
      · rfl
      · simp only [Store.ruleVal, Store.instOf]
        rw [upd_ne _ _ (hs.matInj k hk i hi hne)]
      · congr 1
        simp only [Store.ruleVal, Store.instOf, upd_same]
  | merge a b m w =>
    have ha := hr a List.mem_cons_self
    have hb := hr b (List.mem_cons_of_mem _ List.mem_cons_self)
    simp only [ruleNeed, values_get hb, Nat.max_le] at hn
    obtain ⟨hn1, hn2⟩ := hn
    have hx := hs.part a ha .write
    have hxa := hs.part a ha .apply
    have hy := hs.part b hb .write
    have hya := hs.part b hb .apply
    simp only [Store.part, Part.isSet] at hx hxa hy hya
    -- the write actions
    have key : ∀ q : Res, q = (if (s.instOf b).clear then s.heap.copy n (s.instOf b).wr (.items []) [] else
        s.heap.copy n (s.instOf a).wr (.obj (s.instOf b).wr) []) →
        Fresh s.heap true q.1 ∧ Agrees (q.1.val s.heap.nobjs, q.2)
          (if (s.instOf b).clear then .ok (s.heap.val (s.instOf b).wr) else
            actionSetAdd (s.heap.val (s.instOf a).wr) (s.heap.val (s.instOf b).wr)) := by
      intro q hq
      by_cases hc : (s.instOf b).clear = true
      · rw [if_pos hc] at hq ⊢
        obtain ⟨h1, h2⟩ := copy_spec hs.heap hy.1 (add := .items []) (fun k e => by cases e) (n := n) (Nat.zero_le _)
        rw [hy.2, ← hq] at h1
        rw [← hq] at h2
        exact ⟨h1, h2⟩
      · rw [if_neg hc] at hq ⊢
        obtain ⟨h1, h2⟩ := copy_spec hs.heap hx.1 (add := .obj (s.instOf b).wr) (fun k e => by cases e; exact hy.1) (n := n) hn1
        rw [hx.2, ← hq] at h1
        rw [hx.2, ← hq] at h2
        refine ⟨h1, ?_⟩
        rw [h2]
        exact agrees_loop agrees_setAppend _ _
    simp only [Store.step, Store.mergeRule, valStep, values_get ha, values_get hb]
    generalize hq : (if (s.instOf b).clear then s.heap.copy n (s.instOf b).wr (.items []) [] else
        s.heap.copy n (s.instOf a).wr (.obj (s.instOf b).wr) []) = q
    obtain ⟨hF, hA⟩ := key q hq.symm
    obtain ⟨h, e⟩ := q
    have em : (s.ruleVal a).inst.merge (s.ruleVal b).inst = (do
      let write ← (if (s.instOf b).clear then .ok (s.heap.val (s.instOf b).wr) else
            actionSetAdd (s.heap.val (s.instOf a).wr) (s.heap.val (s.instOf b).wr))
      let apply ← (s.heap.val (s.instOf a).ap).add (s.heap.val (s.instOf b).ap)
      return ⟨(s.instOf b).goto, apply, write, none, (s.instOf a).clear || (s.instOf b).clear, none⟩) := by
      have hcl : (s.ruleVal b).inst.clear = (s.instOf b).clear := rfl
      unfold Inst.merge
      rw [hcl]
      cases (s.instOf b).clear <;> rfl
    rw [em]
    generalize (if (s.instOf b).clear then .ok (s.heap.val (s.instOf b).wr) else
      actionSetAdd (s.heap.val (s.instOf a).wr) (s.heap.val (s.instOf b).wr) : Except PyErr ActionList) = wv at hA
    have hE := hF.ext hs.heap
    dsimp only at hF hE hA
    cases wv with
    | error x =>
      simp only [Agrees] at hA
      subst hA
      obtain ⟨h1, h2⟩ := withHeap_spec hs hE
      refine ⟨h1, ?_⟩
      dsimp only
      rw [h2]
      rfl
    | ok write =>
      simp only [Agrees, Prod.mk.injEq] at hA
      obtain ⟨hA1, hA2⟩ := hA
      subst hA2
      dsimp only
      have hlt : ∀ {k}, k < s.heap.nobjs → k < h.nobjs := fun hk => Nat.lt_of_lt_of_le hk hE.nobjs
      obtain ⟨h1, h2⟩ := copy_spec (hF.inv hs.heap) (hlt hxa.1) (add := .obj (s.instOf b).ap) (fun k e => by cases e; exact hlt hya.1) (n := n) (by
        simp only [Src.need, hE.val _ hya.1]; exact hn2)
      rw [hE.isSet _ hxa.1, hxa.2] at h1 h2
      rw [hE.val _ hxa.1] at h2
      generalize h.copy n (s.instOf a).ap (.obj (s.instOf b).ap) [] = q2 at h1 h2
      obtain ⟨h', e'⟩ := q2
      have h3 : Agrees (h'.val h.nobjs, e') ((s.heap.val (s.instOf a).ap).add (s.heap.val (s.instOf b).ap)) := by
        have h4 : (h'.val h.nobjs, e') = _ := h2
        rw [h4]
        simp only [Src.list, hE.val _ hya.1]
        exact agrees_loop agrees_listAppend _ _
      have hE2 := hE.trans (h1.ext (hF.inv hs.heap))
      have hnob : h.nobjs = s.heap.nobjs + 1 := hF.nobjs
      dsimp only at h1 hE2
      cases hadd : (s.heap.val (s.instOf a).ap).add (s.heap.val (s.instOf b).ap) with
      | error x =>
        rw [hadd] at h3
        simp only [Agrees] at h3
        subst h3
        obtain ⟨g1, g2⟩ := withHeap_spec hs hE2
        refine ⟨g1, ?_⟩
        dsimp only
        rw [g2]
        rfl
      | ok apply =>
        rw [hadd] at h3
        simp only [Agrees, Prod.mk.injEq] at h3
        obtain ⟨h4, h5⟩ := h3
        subst h5
        dsimp only
        have hE3 := h1.ext (hF.inv hs.heap)
        have hn1' : h'.nobjs = s.heap.nobjs + 2 := by rw [h1.nobjs, hnob]
        have hc1 := h1.isSet
        rw [hnob] at hc1 h4
        have hc2 := (hE3.isSet s.heap.nobjs (by omega)).trans hF.isSet
        have hv2 := (hE3.val s.heap.nobjs (by omega)).trans hA1
        obtain ⟨g1, g2⟩ := addRule_spec hs hE2 (m := m)
          (o := ⟨s.heap.nobjs + 1, s.heap.nobjs, (s.instOf b).goto, w, (s.instOf a).clear || (s.instOf b).clear, none⟩)
          (r := ⟨0, 0, (s.rules a).priority + (s.rules b).priority, (s.rules a).cookie, (s.rules a).table, []⟩)
          ⟨Nat.le_succ _, by rw [hn1']; exact Nat.lt_succ_self _, hc1⟩ ⟨Nat.le_refl _, by rw [hn1']; exact Nat.lt_add_of_pos_right (by decide), hc2⟩
        refine ⟨g1, ?_⟩
        rw [g2]
        dsimp only
        rw [h4, hv2]
        rfl

theorem sinv_init : SInv (Store.init : Store π) :=
  ⟨inv_init, fun _ h => absurd h (Nat.not_lt_zero _), fun _ h => absurd h (Nat.not_lt_zero _), fun _ h => absurd h (Nat.not_lt_zero _),
    fun _ h => absurd h (Nat.not_lt_zero _), fun _ h => absurd h (Nat.not_lt_zero _), fun _ h => absurd h (Nat.not_lt_zero _)⟩

theorem run_values (ops : List RuleOp) : ∀ w : List (Rule π), (∀ op ∈ ops, op.self = false) → ∃ N, ∀ n, N ≤ n → ∀ s, SInv s → s.values = w →
    SInv (s.run n ops).1 ∧ ((s.run n ops).1.values, (s.run n ops).2) = valRun w ops := by
  induction ops with
  | nil => exact fun w _ => ⟨0, fun n _ s h e => by subst e; exact ⟨h, rfl⟩⟩
  | cons op ops ih =>
    intro w hself
    obtain ⟨N1, h1⟩ := ih (valStep w op).1 fun o ho => hself o (List.mem_cons_of_mem _ ho)
    obtain ⟨N2, h2⟩ := ih w fun o ho => hself o (List.mem_cons_of_mem _ ho)
    refine ⟨max (ruleNeed w op) (max N1 N2), fun n hn s hs e => ?_⟩
    have hl : s.nrules = w.length := by rw [← e, values_length]
    simp only [Store.run, valRun, hl]
    by_cases hr : op.refs.all (· < w.length) = true
    · rw [if_pos hr, if_pos hr]
      have hr' : ∀ k ∈ op.refs, k < s.nrules := fun k hk => hl ▸ of_decide_eq_true (List.all_eq_true.1 hr k hk)
      obtain ⟨h3, h4⟩ := step_values hs op hr' (hself op List.mem_cons_self) n (by rw [e]; omega)
      rw [e] at h4
      obtain ⟨h6, h5⟩ := h1 n (by omega) (s.step n op).1 h3 (congrArg Prod.fst h4)
      refine ⟨h6, ?_⟩
      dsimp only
      rw [← h5, ← h4]
    · rw [if_neg hr, if_neg hr]
      obtain ⟨h6, h4⟩ := h2 n (by omega) s hs e
      refine ⟨h6, ?_⟩
      dsimp only
      rw [← h4]

end OFE.Alias
