import Verif.Alias.Sim
import Verif.Alias.Rules

/-! # Rules own their objects: lemmas for C100 -/

namespace OFE.Alias

/-! ### Values and the functions of `Actions/Model` -/

/-- Specification: the same end, where only the end without an exception has a value. -/
def Agrees {σ : Type} (v : σ × Option PyErr) (e : Except PyErr σ) : Prop :=
  match e with
  | .ok m => v = (m, none)
  | .error x => v.2 = some x

theorem agrees_loop {σ α : Type} {g : σ → α → σ × Option PyErr} {f : σ → α → Except PyErr σ} (h : ∀ s x, Agrees (g s x) (f s x))
    (s : σ) (xs : List α) : Agrees (loop g s xs) (xs.foldlM f s) := by
  induction xs generalizing s with
  | nil => rfl
  | cons x xs ih =>
    have hx := h s x
    rw [List.foldlM_cons]
    cases e : f s x with
    | ok t =>
      rw [e] at hx
      simp only [Agrees] at hx
      simp only [loop, hx]
      exact ih t
    | error y =>
      rw [e] at hx
      simp only [Agrees] at hx
      show Agrees _ (.error y)
      simp only [loop]
      rw [show g s x = ((g s x).1, some y) from Prod.ext rfl hx]
      rfl

theorem loop_put (lv : List (List Action)) (o : List Action) (xs : List Action) :
    Agrees (loop vPut ⟨lv, o⟩ xs) ((xs.foldlM ActionList._append lv).map fun l => ⟨l, o⟩) := by
  induction xs generalizing lv with
  | nil => rfl
  | cons x xs ih =>
    rw [List.foldlM_cons]
    simp only [loop, vPut]
    cases e : ActionList._append lv x with
    | ok t => exact ih t
    | error y => rfl

theorem agrees_listAppend (l : ActionList) (i : Action) : Agrees (vListAppend l i) (l.append i) := by
  unfold vListAppend
  cases l.append i <;> rfl

theorem agrees_setAppend (l : ActionList) (i : Action) : Agrees (vSetAppend l i) (actionSetAppend l i) := by
  unfold vSetAppend actionSetAppend
  cases setScan i l.iter with
  | ret => rfl
  | rem r => rfl
  | none =>
    have := loop_put [] (sortByType (l.orig ++ [i])) (sortByType (l.orig ++ [i]))
    dsimp only
    cases e : (sortByType (l.orig ++ [i])).foldlM ActionList._append [] with
    | ok t => rw [e] at this; exact this
    | error y => rw [e] at this; exact this

theorem removeScan_eq (x : Action) (before lv : List (List Action)) (n : Nat) :
    removeScan x before lv n = (findLevel x lv).map fun p => (before ++ lv.take p.1, n + p.2) := by
  induction lv generalizing before n with
  | nil => rfl
  | cons v rest ih =>
    simp only [removeScan, findLevel]
    split
    · simp
    · rw [ih, Option.map_map]
      congr 1
      funext p
      simp [Nat.add_comm]
      omega

theorem agrees_remove (l : ActionList) (x : Action) : Agrees (vRemove l x) (l.remove x) := by
  unfold vRemove ActionList.remove
  dsimp only
  rw [removeScan_eq]
  split
  · cases e : findLevel x l.levels with
    | none => rfl
    | some p =>
      obtain ⟨k, off⟩ := p
      simp only [Option.map_some, List.nil_append, Nat.zero_add]
      have := loop_put (l.levels.take k) (l.orig.erase x) ((l.orig.erase x).drop off)
      cases e2 : ((l.orig.erase x).drop off).foldlM ActionList._append (l.levels.take k) with
      | ok t => rw [e2] at this; exact this
      | error y => rw [e2] at this; exact this
  · rfl

/-! ### Copying in the store -/

theorem copy_spec {s : Heap} (hs : Inv s) {j : Nat} (hj : j < s.nobjs) {add : Src} (hk : ∀ k, add = .obj k → k < s.nobjs) {n : Nat}
    (hn : add.need s ≤ n) : Fresh s (s.objs j).isSet (s.copy n j add []).1 ∧
      ((s.copy n j add []).1.val s.nobjs, (s.copy n j add []).2) = loop (vAppend (s.objs j).isSet) (s.val j) (add.list s) := by
  have hr : ∀ k ∈ (Op.copy j add []).refs, k < s.nobjs := fun k h => by
    cases add with
    | items xs =>
      rcases List.mem_cons.1 h with rfl | h
      · exact hj
      · cases h
    | obj a =>
      rcases List.mem_cons.1 h with rfl | h
      · exact hj
      · rw [List.mem_singleton.1 h]; exact hk a rfl
  have hw := step_world hs (.copy j add []) hr rfl n (by
    cases add with
    | items xs => exact Nat.zero_le _
    | obj a =>
      simp only [World.need, world_get (hk a rfl)]
      exact hn)
  simp only [World.step, world_get hj, vCopy, List.length_nil, ← list_world hk, loop] at hw
  rw [if_neg (by decide)] at hw
  dsimp only [World.add] at hw
  have h1 := congrArg Prod.fst hw
  have h2 := congrArg Prod.snd hw
  dsimp only at h1 h2
  have hlen : ((s.step n (.copy j add [])).1).nobjs = s.nobjs + 1 := by
    rw [← world_length, h1, List.length_append, world_length]
    rfl
  have hF : ∃ c, Fresh s c (s.step n (.copy j add [])).1 := by
    rcases step_shape n hs (.copy j add []) hr with ⟨k, ht, -⟩ | ⟨-, h | h⟩
    · cases ht
    · exact h
    · rw [h] at hlen; omega
  obtain ⟨c, hF⟩ := hF
  have hg : ((s.step n (.copy j add [])).1).world.get s.nobjs =
      ((s.objs j).isSet, (loop (vAppend (s.objs j).isSet) (s.val j) (add.list s)).1) := by
    rw [h1]
    unfold World.get
    rw [List.getD_eq_getElem?_getD, List.getElem?_append_right (by rw [world_length]), world_length, Nat.sub_self]
    rfl
  rw [world_get (by rw [hlen]; exact Nat.lt_succ_self _)] at hg
  have hc := congrArg Prod.fst hg
  have hv := congrArg Prod.snd hg
  dsimp only at hc hv
  rw [hF.isSet] at hc
  exact ⟨hc ▸ hF, Prod.ext hv h2⟩

/-- Specification: objects were added and all others are as before. -/
structure Ext (s t : Heap) : Prop where
  inv : Inv t
  nobjs : s.nobjs ≤ t.nobjs
  isSet : ∀ k < s.nobjs, (t.objs k).isSet = (s.objs k).isSet
  val : ∀ k < s.nobjs, t.val k = s.val k

theorem Ext.refl {s : Heap} (h : Inv s) : Ext s s := ⟨h, Nat.le_refl _, fun _ _ => rfl, fun _ _ => rfl⟩

theorem Fresh.ext {s t : Heap} {c : Bool} (h : Fresh s c t) (hs : Inv s) : Ext s t :=
  ⟨h.inv hs, by rw [h.nobjs]; omega, fun k hk => by rw [h.objs k hk], fun k hk => h.val_other hs hk⟩

theorem Ext.trans {s t u : Heap} (h : Ext s t) (g : Ext t u) : Ext s u :=
  ⟨g.inv, Nat.le_trans h.nobjs g.nobjs, fun k hk => (g.isSet k (Nat.lt_of_lt_of_le hk h.nobjs)).trans (h.isSet k hk),
    fun k hk => (g.val k (Nat.lt_of_lt_of_le hk h.nobjs)).trans (h.val k hk)⟩

/-! ### Rules -/

variable {π : Type}

/-- Specification: rules have matches, instructions and action lists of their own. -/
structure SInv (s : Store π) : Prop where
  heap : Inv s.heap
  mat : ∀ i < s.nrules, (s.rules i).mat < s.nmats
  matInj : ∀ i < s.nrules, ∀ k < s.nrules, i ≠ k → (s.rules i).mat ≠ (s.rules k).mat
  inst : ∀ i < s.nrules, (s.rules i).inst < s.ninsts
  instInj : ∀ i < s.nrules, ∀ k < s.nrules, i ≠ k → (s.rules i).inst ≠ (s.rules k).inst
  part : ∀ i < s.nrules, ∀ p, s.part i p < s.heap.nobjs ∧ (s.heap.objs (s.part i p)).isSet = p.isSet
  partInj : ∀ i < s.nrules, ∀ k < s.nrules, i ≠ k → ∀ p, s.part i p ≠ s.part k p

theorem SInv.part_ne {s : Store π} (hs : SInv s) {i k : Nat} (hi : i < s.nrules) (hk : k < s.nrules) {p q : Part}
    (h : ¬ (i = k ∧ p = q)) : s.part i p ≠ s.part k q := by
  by_cases hp : p = q
  · subst hp
    exact hs.partInj i hi k hk (fun e => h ⟨e, rfl⟩) p
  · intro e
    have h1 := (hs.part i hi p).2
    have h2 := (hs.part k hk q).2
    rw [e, h2] at h1
    cases p <;> cases q <;> first | exact hp rfl | cases h1

theorem values_length (s : Store π) : s.values.length = s.nrules := by simp [Store.values]

theorem values_get {s : Store π} {i : Nat} (hi : i < s.nrules) : s.values.getD i (blank π) = s.ruleVal i := by
  unfold Store.values
  rw [List.getD_eq_getElem?_getD, List.getElem?_map, List.getElem?_range hi]
  rfl

theorem values_set {s t : Store π} {i : Nat} (hn : t.nrules = s.nrules)
    (h : ∀ k < s.nrules, k ≠ i → t.ruleVal k = s.ruleVal k) : t.values = s.values.set i (t.ruleVal i) := by
  refine List.ext_getElem? fun k => ?_
  rw [List.getElem?_set, values_length]
  unfold Store.values
  rw [hn]
  by_cases hk : k < s.nrules
  · by_cases e : i = k
    · subst e
      rw [if_pos rfl, if_pos hk, List.getElem?_map, List.getElem?_range hk]
      rfl
    · rw [if_neg e, List.getElem?_map, List.getElem?_map, List.getElem?_range hk]
      simp only [Option.map_some, h k hk (Ne.symm e)]
  · rw [List.getElem?_eq_none (by simp; omega)]
    by_cases e : i = k
    · rw [if_pos e, if_neg (by omega)]
    · rw [if_neg e, List.getElem?_eq_none (by simp; omega)]

theorem values_add {s t : Store π} (hn : t.nrules = s.nrules + 1) (h : ∀ k < s.nrules, t.ruleVal k = s.ruleVal k) :
    t.values = s.values ++ [t.ruleVal s.nrules] := by
  unfold Store.values
  rw [hn, List.range_succ, List.map_append]
  congr 1
  exact List.map_congr_left fun k hk => h k (List.mem_range.1 hk)

theorem withHeap_spec {s : Store π} (hs : SInv s) {h : Heap} (he : Ext s.heap h) :
    SInv (s.withHeap h) ∧ (s.withHeap h).values = s.values := by
  refine ⟨⟨he.inv, hs.mat, hs.matInj, hs.inst, hs.instInj, fun i hi p => ?_, hs.partInj⟩, ?_⟩
  · obtain ⟨h1, h2⟩ := hs.part i hi p
    exact ⟨Nat.lt_of_lt_of_le h1 he.nobjs, (he.isSet _ h1).trans h2⟩
  · unfold Store.values
    refine List.map_congr_left fun k hk => ?_
    have hk : k < s.nrules := List.mem_range.1 hk
    have h1 := he.val _ (hs.part k hk .apply).1
    have h2 := he.val _ (hs.part k hk .write).1
    simp only [Store.part] at h1 h2
    simp only [Store.ruleVal, Store.withHeap, Store.instOf] at h1 h2 ⊢
    rw [h1, h2]

theorem addRule_spec {s : Store π} (hs : SInv s) {h : Heap} (he : Ext s.heap h) {m : Match} {o : InstObj} {r : RuleObj π}
    (ha : s.heap.nobjs ≤ o.ap ∧ o.ap < h.nobjs ∧ (h.objs o.ap).isSet = false)
    (hw : s.heap.nobjs ≤ o.wr ∧ o.wr < h.nobjs ∧ (h.objs o.wr).isSet = true) :
    SInv (s.addRule h m o r) ∧ (s.addRule h m o r).values = s.values ++
      [⟨r.priority, r.cookie, r.table, m, ⟨o.goto, h.val o.ap, h.val o.wr, o.wmeta, o.clear, o.meter⟩, r.path⟩] := by
  have eold : ∀ k < s.nrules, (s.addRule h m o r).rules k = s.rules k := fun k hk => upd_ne _ _ (Nat.ne_of_lt hk)
  have enew : (s.addRule h m o r).rules s.nrules = ⟨s.nmats, s.ninsts, r.priority, r.cookie, r.table, r.path⟩ := upd_same _ _ _
  have eio : ∀ k < s.nrules, (s.addRule h m o r).instOf k = s.instOf k := fun k hk => by
    unfold Store.instOf
    rw [eold k hk]
    exact upd_ne _ _ (Nat.ne_of_lt (hs.inst k hk))
  have ein : (s.addRule h m o r).instOf s.nrules = o := by
    unfold Store.instOf
    rw [enew]
    exact upd_same _ _ _
  have epo : ∀ k < s.nrules, ∀ p, (s.addRule h m o r).part k p = s.part k p := fun k hk p => by
    cases p <;> simp only [Store.part, eio k hk]
  have epn : ∀ p, s.heap.nobjs ≤ (s.addRule h m o r).part s.nrules p := fun p => by
    cases p
    · simp only [Store.part, ein]; exact ha.1
    · simp only [Store.part, ein]; exact hw.1
  have hlt : ∀ k, k < (s.addRule h m o r).nrules → k ≠ s.nrules → k < s.nrules := fun k hk hn => by
    have : (s.addRule h m o r).nrules = s.nrules + 1 := rfl
    omega
  refine ⟨⟨he.inv, fun i hi => ?_, fun i hi k hk hn => ?_, fun i hi => ?_, fun i hi k hk hn => ?_, fun i hi p => ?_, fun i hi k hk hn p => ?_⟩, ?_⟩
  · by_cases e : i = s.nrules
    · rw [e, enew]; exact Nat.lt_succ_self _
    · rw [eold i (hlt i hi e)]; exact Nat.lt_succ_of_lt (hs.mat i (hlt i hi e))
  · by_cases e : i = s.nrules
    · have hk' := hlt k hk fun e2 => hn (e.trans e2.symm)
      rw [e, enew, eold k hk']
      exact Ne.symm (Nat.ne_of_lt (hs.mat k hk'))
    · by_cases e2 : k = s.nrules
      · rw [e2, enew, eold i (hlt i hi e)]
        exact Nat.ne_of_lt (hs.mat i (hlt i hi e))
      · rw [eold i (hlt i hi e), eold k (hlt k hk e2)]
        exact hs.matInj i (hlt i hi e) k (hlt k hk e2) hn
  · by_cases e : i = s.nrules
    · rw [e, enew]; exact Nat.lt_succ_self _
    · rw [eold i (hlt i hi e)]; exact Nat.lt_succ_of_lt (hs.inst i (hlt i hi e))
  · by_cases e : i = s.nrules
    · have hk' := hlt k hk fun e2 => hn (e.trans e2.symm)
      rw [e, enew, eold k hk']
      exact Ne.symm (Nat.ne_of_lt (hs.inst k hk'))
    · by_cases e2 : k = s.nrules
      · rw [e2, enew, eold i (hlt i hi e)]
        exact Nat.ne_of_lt (hs.inst i (hlt i hi e))
      · rw [eold i (hlt i hi e), eold k (hlt k hk e2)]
        exact hs.instInj i (hlt i hi e) k (hlt k hk e2) hn
  · by_cases e : i = s.nrules
    · rw [e]
      cases p
      · simp only [Store.part, ein]; exact ha.2
      · simp only [Store.part, ein]; exact hw.2
    · rw [epo i (hlt i hi e)]
      obtain ⟨h1, h2⟩ := hs.part i (hlt i hi e) p
      exact ⟨Nat.lt_of_lt_of_le h1 he.nobjs, (he.isSet _ h1).trans h2⟩
  · by_cases e : i = s.nrules
    · have hk' := hlt k hk fun e2 => hn (e.trans e2.symm)
      rw [e, epo k hk']
      have h1 := epn p
      have h2 := (hs.part k hk' p).1
      omega
    · by_cases e2 : k = s.nrules
      · rw [e2, epo i (hlt i hi e)]
        have h1 := epn p
        have h2 := (hs.part i (hlt i hi e) p).1
        omega
      · rw [epo i (hlt i hi e), epo k (hlt k hk e2)]
        exact hs.partInj i (hlt i hi e) k (hlt k hk e2) hn p
  · rw [values_add (s := s) rfl fun k hk => ?_]
    · congr 2
      simp only [Store.ruleVal, ein, enew]
      congr 1
      exact upd_same _ _ _
    · have h1 := he.val _ (hs.part k hk .apply).1
      have h2 := he.val _ (hs.part k hk .write).1
      simp only [Store.part] at h1 h2
      simp only [Store.ruleVal, eio k hk, eold k hk]
      have h3 : (s.addRule h m o r).mats (s.rules k).mat = s.mats (s.rules k).mat := upd_ne _ _ (Nat.ne_of_lt (hs.mat k hk))
      have h4 : (s.addRule h m o r).heap = h := rfl
      rw [h3, h4, h1, h2]

/-- Specification: enough steps for an operation on rules. -/
def ruleNeed (w : List (Rule π)) : RuleOp → Nat
  | .act _ _ (.replace (.part k q)) | .act _ _ (.iadd (.part k q)) =>
    let l := partOf (w.getD k (blank π)) q
    l.iter.length + l.levels.length + 1
  | .merge _ b _ _ =>
    let y := w.getD b (blank π)
    max (y.inst.write.iter.length + y.inst.write.levels.length + 1) (y.inst.apply.iter.length + y.inst.apply.levels.length + 1)
  | _ => 0

theorem partOf_val (s : Store π) (i : Nat) (p : Part) : partOf (s.ruleVal i) p = s.heap.val (s.part i p) := by cases p <;> rfl

theorem act_spec {s : Store π} (hs : SInv s) {i : Nat} (hi : i < s.nrules) (p : Part) (a : ListAct) (hr : ∀ k ∈ a.refs, k < s.nrules)
    (hself : (RuleOp.act i p a).self = false) {n : Nat} (hn : ruleNeed s.values (.act i p a) ≤ n) :
    let r := s.heap.step n (s.listOp (s.part i p) a)
    Local s.heap (s.part i p) r.1 ∧ (r.1.val (s.part i p), r.2) = vAct s.values p.isSet (partOf (s.ruleVal i) p) a := by
  obtain ⟨hj, hc⟩ := hs.part i hi p
  have hsrc : ∀ src : RSrc, (∀ k q, src = .part k q → k < s.nrules) → ∀ k, s.src src = .obj k → k < s.heap.nobjs := fun src h k e => by
    cases src with
    | items xs => cases e
    | part a q => cases e; exact (hs.part a (h a q rfl) q).1
  have hitems : ∀ src : RSrc, (∀ k q, src = .part k q → k < s.nrules) → s.heap.world.items (s.src src) = itemsOf s.values src := fun src h => by
    cases src with
    | items xs => rfl
    | part a q =>
      simp only [Store.src, World.items, itemsOf, world_get (hs.part a (h a q rfl) q).1, values_get (h a q rfl), partOf_val]
  have hpart : ∀ src, (a = .replace src ∨ a = .iadd src) → ∀ k q, src = .part k q → k < s.nrules := fun src h k q e => by
    subst e
    rcases h with rfl | rfl <;> exact hr k List.mem_cons_self
  have hrefs : ∀ k ∈ (s.listOp (s.part i p) a).refs, k < s.heap.nobjs := fun k hk => by
    cases a with
    | append x => rw [List.mem_singleton.1 hk]; exact hj
    | remove x => rw [List.mem_singleton.1 hk]; exact hj
    | replace src =>
      cases src with
      | items xs => rw [List.mem_singleton.1 hk]; exact hj
      | part b q =>
        rcases List.mem_cons.1 hk with rfl | hk
        · exact hj
        · rw [List.mem_singleton.1 hk]; exact (hs.part b (hpart _ (.inl rfl) b q rfl) q).1
    | iadd src =>
      cases src with
      | items xs => rw [List.mem_singleton.1 hk]; exact hj
      | part b q =>
        rcases List.mem_cons.1 hk with rfl | hk
        · exact hj
        · rw [List.mem_singleton.1 hk]; exact (hs.part b (hpart _ (.inr rfl) b q rfl) q).1
  have hself' : (s.listOp (s.part i p) a).self = false := by
    cases a with
    | append x => rfl
    | remove x => rfl
    | replace src =>
      cases src with
      | items xs => rfl
      | part b q =>
        simp only [Store.listOp, Store.src, Op.self, beq_eq_false_iff_ne]
        refine hs.part_ne hi (hpart _ (.inl rfl) b q rfl) fun e => ?_
        simp [RuleOp.self, e.1, e.2] at hself
    | iadd src =>
      cases src with
      | items xs => rfl
      | part b q =>
        simp only [Store.listOp, Store.src, Op.self, beq_eq_false_iff_ne]
        refine hs.part_ne hi (hpart _ (.inr rfl) b q rfl) fun e => ?_
        simp [RuleOp.self, e.1, e.2] at hself
  have hneed : s.heap.world.need (s.listOp (s.part i p) a) ≤ n := by
    cases a with
    | append x => exact Nat.zero_le _
    | remove x => exact Nat.zero_le _
    | replace src =>
      cases src with
      | items xs => exact Nat.zero_le _
      | part b q =>
        have hb := hpart _ (.inl rfl) b q rfl
        simp only [ruleNeed, values_get hb, partOf_val] at hn
        simp only [Store.listOp, Store.src, World.need, world_get (hs.part b hb q).1]
        exact hn
    | iadd src =>
      cases src with
      | items xs => exact Nat.zero_le _
      | part b q =>
        have hb := hpart _ (.inr rfl) b q rfl
        simp only [ruleNeed, values_get hb, partOf_val] at hn
        simp only [Store.listOp, Store.src, World.need, world_get (hs.part b hb q).1]
        exact hn
  have htarget : (s.listOp (s.part i p) a).target = some (s.part i p) := by cases a <;> rfl
  have hL : Local s.heap (s.part i p) (s.heap.step n (s.listOp (s.part i p) a)).1 := by
    rcases step_shape n hs.heap _ hrefs with ⟨j, ht, h⟩ | ⟨ht, -⟩
    · rw [htarget] at ht; cases ht; exact h
    · rw [htarget] at ht; cases ht
  refine ⟨hL, ?_⟩
  have hw := step_world hs.heap _ hrefs hself' n hneed
  have hv : s.heap.world.step (s.listOp (s.part i p) a) =
      s.heap.world.put (s.part i p) (vAct s.values p.isSet (partOf (s.ruleVal i) p) a) := by
    cases a with
    | append x => simp only [Store.listOp, World.step, vAct, world_get hj, hc, partOf_val]
    | remove x => simp only [Store.listOp, World.step, vAct, world_get hj, partOf_val]
    | replace src => simp only [Store.listOp, World.step, vAct, world_get hj, hc, hitems src (hpart src (.inl rfl))]
    | iadd src => simp only [Store.listOp, World.step, vAct, world_get hj, hc, partOf_val, hitems src (hpart src (.inr rfl))]
  rw [hv] at hw
  have h1 := congrArg Prod.fst hw
  have h2 := congrArg Prod.snd hw
  simp only [World.put] at h1 h2
  refine Prod.ext ?_ h2
  have h3 := congrArg (fun w => World.get w (s.part i p)) h1
  rw [world_get (by rw [hL.nobjs]; exact hj)] at h3
  have h4 := congrArg Prod.snd h3
  dsimp only at h4 ⊢
  rw [h4]
  unfold World.get
  rw [List.getD_eq_getElem?_getD, List.getElem?_set_self (by rw [world_length]; exact hj)]
  rfl

end OFE.Alias
