import Verif.Alias.RuleSim
import Verif.Rule.Equality

/-!
# C100: copies of action lists and rules are independent
-/

namespace OFE.Alias

/-! ### Action lists -/

/-- C100, except for handing a list to itself: after any program — lists and sets created, filled, copied, changed in any order, with
exceptions caught at any point — every object holds exactly what it would hold if each were a value of its own, and the same exceptions
were raised on the way; in particular `a += b` and `a + b` append the items that `b` has at that moment. -/
theorem C100_lists_partial (ops : List Op) (hself : ∀ op ∈ ops, op.self = false) :
    ∃ N, ∀ n, N ≤ n → ((Heap.init.run n ops).1.world, (Heap.init.run n ops).2) = World.run [] ops :=
  run_world inv_init ops hself

/-- A program with copies that share everything at first, changes to both, and an exception in between. -/
def demoOps : List Op :=
  [.ofList false [.pushVlan 1, .setField 6 5, .output 1], .dup false 0, .append 1 (.setField 3 7), .remove 0 (.setField 6 5), .copy 0 (.obj 1) [],
    .ofList true [.output 2, .setField 6 9], .append 3 (.output 3), .dup false 3, .append 3 (.setField 50 1), .iadd 4 (.obj 0), .remove 0 (.output 7)]

example : (∀ op ∈ demoOps, op.self = false) ∧ ((Heap.init.run 20 demoOps).1.world.map fun x => x.2.iter) =
    [[.pushVlan 1, .output 1], [.pushVlan 1, .setField 6 5, .output 1, .setField 3 7],
     [.pushVlan 1, .output 1, .pushVlan 1, .setField 6 5, .output 1, .setField 3 7],
     [.setField 6 9], [.setField 6 9, .output 3, .pushVlan 1, .output 1]] ∧
    (Heap.init.run 20 demoOps).2 = [none, none, none, none, none, none, none, none, some .keyError, none, some .valueError] ∧
    ((Heap.init.run 20 demoOps).1.world, (Heap.init.run 20 demoOps).2) = World.run [] demoOps := by decide +kernel

/-- C100: whatever the history, also with lists handed to themselves, with calls that raise or are cut short: an operation leaves every
object alone but the one it is called on; copying and adding leave all. -/
theorem C100_frame (fuel n : Nat) (ops : List Op) (op : Op) (s : Heap) (hs : s = (Heap.init.run fuel ops).1)
    (hr : ∀ k ∈ op.refs, k < s.nobjs) (k : Nat) (hk : k < s.nobjs) (hn : op.target ≠ some k) :
    (s.step n op).1.val k = s.val k ∧ ((s.step n op).1.objs k).isSet = (s.objs k).isSet := by
  have hI : Inv s := hs ▸ run_inv fuel inv_init ops
  rcases step_shape n hI op hr with ⟨j, ht, h⟩ | ⟨-, ⟨c, h⟩ | h⟩
  · have hne : k ≠ j := fun e => hn (e ▸ ht)
    have hj : j < s.nobjs := hr j (by
      cases op with
      | append | remove => cases ht; exact List.mem_cons_self
      | replace j' src | iadd j' src => cases ht; cases src <;> exact List.mem_cons_self
      | _ => cases ht)
    exact ⟨h.val_other hI hj hk hne, by rw [h.objs k hne]⟩
  · exact ⟨h.val_other hI hk, by rw [h.objs k hk]⟩
  · rw [h]; exact ⟨rfl, rfl⟩

example : ∀ op ∈ [Op.append 1 (.setField 7 1), .remove 1 (.setField 3 7), .iadd 1 (.obj 1), .replace 1 (.obj 1)],
    (∀ k ∈ op.refs, k < (Heap.init.run 20 demoOps).1.nobjs) ∧ op.target ≠ some 0 ∧
    ((Heap.init.run 20 demoOps).1.step 9 op).1.val 1 ≠ (Heap.init.run 20 demoOps).1.val 1 ∧
    (((Heap.init.run 20 demoOps).1.step 9 op).1.val 0).iter = [.pushVlan 1, .output 1] := by decide +kernel

/-- C100: a copy holds what the original holds, whatever their classes, and is a new object. -/
theorem C100_dup (fuel n : Nat) (ops : List Op) (s : Heap) (hs : s = (Heap.init.run fuel ops).1) (c : Bool) (k : Nat) (hk : k < s.nobjs) :
    (s.step n (.dup c k)).1.nobjs = s.nobjs + 1 ∧ (s.step n (.dup c k)).1.val s.nobjs = s.val k := by
  have hI : Inv s := hs ▸ run_inv fuel inv_init ops
  exact ⟨(fresh_dup c (hI.wf k hk)).1.nobjs, (fresh_dup c (hI.wf k hk)).2⟩

example : ((Heap.init.run 20 demoOps).1.step 0 (.dup true 4)).1.val 5 = (Heap.init.run 20 demoOps).1.val 4 ∧
    ((Heap.init.run 20 demoOps).1.val 4).iter ≠ [] := by decide +kernel

/-- C100: without an exception the operations on values are those of the model of values, on which the other properties rest; with one,
it is the same exception. -/
theorem C100_known (c : Bool) (l : ActionList) :
    (∀ i, Agrees (vAppend c l i) (appendOf c l i)) ∧ (∀ x, Agrees (vRemove l x) (l.remove x)) ∧
    (∀ xs, Agrees (loop (vAppend false) l xs) (xs.foldlM ActionList.append l)) ∧
    (∀ add remove, match vCopy false l add remove with | .ok r => Agrees r (l.copy add remove) | .error e => l.copy add remove = .error e) := by
  refine ⟨fun i => ?_, agrees_remove l, agrees_loop agrees_listAppend l, fun add remove => ?_⟩
  · cases c
    · exact agrees_listAppend l i
    · exact agrees_setAppend l i
  · unfold vCopy ActionList.copy
    by_cases h : remove.length > 1
    · rw [if_pos h, if_pos h]
      cases e : remove.foldlM (fun (acc : List Action) r =>
        if r ∈ acc then (Except.ok (acc.erase r) : Except PyErr _) else .error .valueError) l.orig with
      | error x => rfl
      | ok new => exact agrees_loop agrees_listAppend _ _
    · rw [if_neg h, if_neg h]
      have hm := agrees_loop agrees_remove l remove
      cases e : remove.foldlM ActionList.remove l with
      | error x =>
        rw [e] at hm
        simp only [Agrees] at hm
        dsimp only
        rw [show loop vRemove l remove = ((loop vRemove l remove).1, some x) from Prod.ext rfl hm]
        rfl
      | ok m =>
        rw [e] at hm
        simp only [Agrees] at hm
        dsimp only
        rw [hm]
        exact agrees_loop agrees_listAppend _ _

/-- Both kinds of end: an unknown dependency is met while the set is filled again, and the items before it stay. -/
example : vAppend true ⟨[[.setField 6 5]], [.setField 6 5]⟩ (.setField 50 1) = (⟨[[.setField 6 5]], [.setField 6 5, .setField 50 1]⟩, some .keyError) ∧
    vCopy false ⟨[[.setField 6 5], [.output 1]], [.setField 6 5, .output 1]⟩ [.setField 6 7] [.output 1] =
      .ok (⟨[[.setField 6 5], [.setField 6 7]], [.setField 6 5, .setField 6 7]⟩, none) := by
  constructor
  · decide +kernel
  · decide +kernel

/-! ### A list handed to itself -/

/-- The store while `a += a` runs: one level with copies of one output. -/
theorem feed_endless {j r : Nat} {p : Nat} (n : Nat) : ∀ {s : Heap} {m b : Nat}, (s.objs j).isSet = false → (s.objs j).ord ≠ r →
    s.outers (s.objs j).lv = [r] → s.rows r = List.replicate m (.output p) → b < m →
    (feed (fun u x => u.append j x) n s (s.objs j).lv 0 b).2 = some .fuel := by
  induction n with
  | zero => intros; rfl
  | succ n ih =>
    intro s m b hc ho hl hr hb
    have hx : (List.replicate m (Action.output p))[b]? = some (.output p) := by
      rw [List.getElem?_replicate, if_pos hb]
    have hdep : dependsB (.output p) (.output p) = false := by
      show dependsB (.output p) (.output p) = false
      unfold dependsB depends
      simp only [Action.toType, Action.ty, Action.isSet]
      rfl
    have hdep2 : ∃ b, depends (.output p) (.output p) = .ok b := by
      unfold depends
      simp only [Action.toType, Action.ty, Action.isSet]
      exact ⟨_, rfl⟩
    obtain ⟨bb, hbb⟩ := hdep2
    have hins : ∀ m, insort Action.lt (.output p) (List.replicate m (.output p)) = List.replicate (m + 1) (.output p) := fun m => by
      induction m with
      | zero => rfl
      | succ m ihm =>
        rw [List.replicate_succ]
        have hlt : Action.lt (.output p) (.output p) = false := by
          unfold Action.lt
          exact decide_eq_false (List.lt_irrefl _)
        simp only [insort, hlt]
        rw [if_neg (by decide), ihm]
        rfl
    have hval : (s.val j).levels = [List.replicate m (.output p)] := by
      simp only [Heap.val, hl, List.map_cons, List.map_nil, hr]
    have hany : ((s.val j).levels.flatten.any fun item => match depends item (.output p) with | .error _ => true | .ok _ => false) = false := by
      rw [hval]
      rw [List.any_eq_false]
      intro a ha
      simp only [List.flatten_cons, List.flatten_nil, List.append_nil, List.mem_replicate] at ha
      rw [ha.2, hbb]
      exact Bool.false_ne_true
    have hplace : place (s.val j).levels (.output p) = 0 := by
      rw [hval]
      unfold place
      simp only [deepest]
      rw [if_neg]
      rw [Bool.not_eq_true, List.any_eq_false]
      intro a ha
      rw [(List.mem_replicate.1 ha).2, hdep]
      decide
    have happ : s.append j (.output p) = ((s.setRow r (List.replicate (m + 1) (.output p))).setRow (s.objs j).ord (s.rows (s.objs j).ord ++ [.output p]), none) := by
      have h_ : s._append j (.output p) = (s.setRow r (List.replicate (m + 1) (.output p)), none) := by
        refine Eq.trans (if_neg (fun e => Bool.false_ne_true (hany.symm.trans e))) ?_
        rw [hplace, hl]
        simp only [List.getElem?_cons_zero]
        rw [hr, hins]
      unfold Heap.append Heap.listAppend
      rw [hc, h_]
      rw [if_neg (by decide)]
      dsimp only
      have : (s.setRow r (List.replicate (m + 1) (.output p))).rows (s.objs j).ord = s.rows (s.objs j).ord := upd_ne _ _ ho
      simp only [show (s.setRow r (List.replicate (m + 1) (.output p))).objs = s.objs from rfl]
      rw [this]
    simp only [feed]
    rw [hl]
    simp only [List.getElem?_cons_zero]
    rw [hr, hx]
    dsimp only
    rw [happ]
    dsimp only
    refine ih (m := m + 1) hc ho hl ?_ (Nat.succ_lt_succ hb)
    show upd (upd s.rows r _) (s.objs j).ord _ r = _
    rw [upd_ne _ _ (Ne.symm ho), upd_same]

/-- C100 fails for `a += a`: with a list `a` of one output (to any port) the loop meets the items that it appends and never ends, however many
steps it is given; a value added to itself would have two items. -/
theorem C100_self_iadd (p n : Nat) : (Heap.init.run n [.ofList false [.output p], .iadd 0 (.obj 0)]).2 = [none, some .fuel] := by
  have h1 : Heap.init.run n [.ofList false [.output p], .iadd 0 (.obj 0)] =
    (((Heap.init.step n (.ofList false [.output p])).1.step n (.iadd 0 (.obj 0))).1,
      [none, ((Heap.init.step n (.ofList false [.output p])).1.step n (.iadd 0 (.obj 0))).2]) := rfl
  rw [h1]
  have h2 : ((Heap.init.step n (.ofList false [.output p])).1.step n (.iadd 0 (.obj 0))).2 = some .fuel :=
    feed_endless (j := 0) (r := 1) (p := p) n (s := (Heap.init.step n (.ofList false [.output p])).1) (m := 1) (b := 0)
      rfl (by show (0 : Nat) ≠ 1; decide) rfl rfl (by decide)
  rw [h2]

example : (World.run [] [.ofList false [.output 1], .iadd 0 (.obj 0)]).2 = [none, none] ∧
    (World.run [] [.ofList false [.output 1], .iadd 0 (.obj 0)]).1.map (fun x => x.2.iter) = [[.output 1, .output 1]] ∧
    ((Heap.init.run 50 [.ofList false [.output 1], .iadd 0 (.obj 0)]).1.val 0).iter.length = 51 := by decide +kernel

/-- C100 fails for `a.replace(a)`: whatever the list or set holds, it is empty afterwards. -/
theorem C100_self_replace (s : Heap) (j n : Nat) : (s.step (n + 1) (.replace j (.obj j))).1.val j = .empty ∧
    (s.step (n + 1) (.replace j (.obj j))).2 = none := by
  have h : (((s.newRow []).newOuter []).setObj j ⟨s.nouters, s.nrows, (s.objs j).isSet⟩).outers
      ((((s.newRow []).newOuter []).setObj j ⟨s.nouters, s.nrows, (s.objs j).isSet⟩).objs j).lv = [] := by
    simp [Heap.setObj, Heap.newOuter, Heap.newRow, upd_same]
  simp only [Heap.step, Heap.replace, Heap.appendAll, feed, h, List.getElem?_nil]
  exact ⟨local_reset.2, trivial⟩

example : ((Heap.init.run 20 demoOps).1.val 4).iter ≠ [] ∧
    (((Heap.init.run 20 demoOps).1.step 9 (.replace 4 (.obj 4))).1.val 4).iter = [] := by decide +kernel

/-! ### Rules -/

variable {π : Type}

/-- C100, except for handing a list to itself: after any program on rules — created, copied, merged, their action lists, instructions and
matches changed, exceptions caught at any point — every rule is exactly what it would be if each rule were a value of its own, and the same
exceptions were raised. -/
theorem C100_rules_partial (ops : List RuleOp) (hself : ∀ op ∈ ops, op.self = false) :
    ∃ N, ∀ n, N ≤ n → (((Store.init : Store π).run n ops).1.values, ((Store.init : Store π).run n ops).2) = valRun [] ops := by
  obtain ⟨N, h⟩ := run_values (π := π) ops [] hself
  exact ⟨N, fun n hn => (h n hn _ sinv_init rfl).2⟩

/-- A rule, its copy, changes to all parts of both, and two merges, one of which fails. -/
def demoRuleOps : List RuleOp :=
  [.new 5 (some 1) 0, .matAppend 0 6 3 none, .act 0 .apply (.append (.setField 6 5)), .act 0 .write (.append (.output 1)), .copy 0,
    .act 1 .apply (.append (.setField 3 7)), .act 1 .write (.append (.output 2)), .matAppend 1 3 9 none, .matDel 0 7, .setInst 1 (some 3) none true none,
    .act 0 .write (.iadd (.part 1 .apply)), .merge 0 1 .empty none, .act 1 .apply (.append (.setField 50 1)), .merge 2 1 .empty none, .matDel 0 6]

example : (∀ op ∈ demoRuleOps, op.self = false) ∧
    (((Store.init : Store Nat).run 20 demoRuleOps).1.values, ((Store.init : Store Nat).run 20 demoRuleOps).2) = valRun [] demoRuleOps ∧
    (valRun ([] : List (Rule Nat)) demoRuleOps).2 =
      [none, none, none, none, none, none, none, none, some .keyError, none, none, none, some .keyError, none, none] ∧
    ((valRun ([] : List (Rule Nat)) demoRuleOps).1.map fun r => (r.mat.items, r.inst.apply.iter, r.inst.write.iter, r.inst.goto)) =
      [([], [.setField 6 5], [.setField 3 7, .setField 6 5, .output 1], none),
       ([(6, (3, none)), (3, (9, none))], [.setField 3 7, .setField 6 5], [.output 2], some 3),
       ([], [.setField 3 7, .setField 6 5, .setField 6 5], [.output 2], some 3),
       ([], [.setField 3 7, .setField 6 5, .setField 3 7, .setField 6 5, .setField 6 5], [.output 2], some 3)] := by decide +kernel

/-- Specification: the rule that an operation is meant to change. -/
def RuleOp.target : RuleOp → Option Nat
  | .act i _ _ | .setInst i _ _ _ _ | .matAppend i _ _ _ | .matDel i _ => some i
  | _ => none

/-- C100: after any program that hands no list to itself, an operation leaves every rule alone but the one it is meant to change; a copy
equals its original, path and all. -/
theorem C100_rule_frame (ops : List RuleOp) (hself : ∀ op ∈ ops, op.self = false) (op : RuleOp) (hop : op.self = false) :
    ∃ N, ∀ n, N ≤ n → ∀ s : Store π, s = ((Store.init : Store π).run n ops).1 → (∀ k ∈ op.refs, k < s.nrules) →
      (∀ i < s.nrules, op.target ≠ some i → (s.step n op).1.ruleVal i = s.ruleVal i) ∧
      ∀ k, op = .copy k → (s.step n op).1.nrules = s.nrules + 1 ∧ (s.step n op).1.ruleVal s.nrules = s.ruleVal k := by
  obtain ⟨N, h⟩ := run_values (π := π) ops [] hself
  refine ⟨max N (ruleNeed (valRun ([] : List (Rule π)) ops).1 op), fun n hn s hs hr => ?_⟩
  obtain ⟨hI, hv⟩ := h n (by omega) _ sinv_init rfl
  rw [← hs] at hI hv
  have hv1 : s.values = (valRun ([] : List (Rule π)) ops).1 := congrArg Prod.fst hv
  obtain ⟨hI2, hst⟩ := step_values hI op hr hop n (by rw [hv1]; omega)
  have h1 := congrArg Prod.fst hst
  dsimp only at h1
  have hlen : (s.step n op).1.nrules = (valStep s.values op).1.length := by rw [← h1, values_length]
  have hset : ∀ (i j : Nat) (r : Rule π), i ≠ j → i < s.nrules → (s.values.set j r).length = s.nrules ∧
      (s.values.set j r).getD i (blank π) = s.ruleVal i := fun i j r hne hi => by
    refine ⟨by rw [List.length_set, values_length], ?_⟩
    rw [List.getD_eq_getElem?_getD, List.getElem?_set_ne (Ne.symm hne), ← List.getD_eq_getElem?_getD, values_get hi]
  have hadd : ∀ (i : Nat) (r : Rule π), i < s.nrules → (s.values ++ [r]).length = s.nrules + 1 ∧
      (s.values ++ [r]).getD i (blank π) = s.ruleVal i := fun i r hi => by
    refine ⟨by rw [List.length_append, values_length]; rfl, ?_⟩
    rw [List.getD_eq_getElem?_getD, List.getElem?_append_left (by rw [values_length]; exact hi), ← List.getD_eq_getElem?_getD, values_get hi]
  have hw : ∀ i < s.nrules, op.target ≠ some i → s.nrules ≤ (valStep s.values op).1.length ∧
      (valStep s.values op).1.getD i (blank π) = s.ruleVal i := fun i hi hne => by
    have hl := values_length s
    cases op with
    | new p c t => exact ⟨Nat.le_trans (Nat.le_succ _) (Nat.le_of_eq (hadd i _ hi).1.symm), (hadd i _ hi).2⟩
    | copy k => exact ⟨Nat.le_trans (Nat.le_succ _) (Nat.le_of_eq (hadd i _ hi).1.symm), (hadd i _ hi).2⟩
    | act k p a =>
      have hik : i ≠ k := fun e => hne (congrArg some e.symm)
      exact ⟨Nat.le_of_eq (hset i k _ hik hi).1.symm, (hset i k _ hik hi).2⟩
    | setInst k g w c m =>
      have hik : i ≠ k := fun e => hne (congrArg some e.symm)
      exact ⟨Nat.le_of_eq (hset i k _ hik hi).1.symm, (hset i k _ hik hi).2⟩
    | matAppend k f v mask =>
      have hik : i ≠ k := fun e => hne (congrArg some e.symm)
      exact ⟨Nat.le_of_eq (hset i k _ hik hi).1.symm, (hset i k _ hik hi).2⟩
    | matDel k f =>
      have hik : i ≠ k := fun e => hne (congrArg some e.symm)
      simp only [valStep]
      split
      · exact ⟨Nat.le_of_eq (hset i k _ hik hi).1.symm, (hset i k _ hik hi).2⟩
      · exact ⟨Nat.le_of_eq hl.symm, values_get hi⟩
    | merge a b m w =>
      simp only [valStep]
      split
      · exact ⟨by rw [(hadd i _ hi).1]; omega, (hadd i _ hi).2⟩
      · exact ⟨Nat.le_of_eq hl.symm, values_get hi⟩
  refine ⟨fun i hi hne => ?_, fun k hk => ?_⟩
  · obtain ⟨g1, g2⟩ := hw i hi hne
    rw [← h1, values_get (by rw [hlen]; omega)] at g2
    exact g2
  · subst hk
    have hk := hr k List.mem_cons_self
    have hn1 : (s.step n (.copy k)).1.nrules = s.nrules + 1 := by
      rw [hlen]
      simp only [valStep, List.length_append, values_length, List.length_cons, List.length_nil]
    refine ⟨hn1, ?_⟩
    rw [← values_get (by rw [hn1]; exact Nat.lt_succ_self _), h1]
    simp only [valStep, values_get hk]
    rw [List.getD_eq_getElem?_getD, List.getElem?_append_right (by rw [values_length]), values_length, Nat.sub_self]
    rfl

example : (RuleOp.act 1 .apply (.append (.setField 4 4))).target ≠ some 0 ∧
    ((((Store.init : Store Nat).run 20 demoRuleOps).1.step 20 (.act 1 .apply (.append (.setField 4 4)))).1.ruleVal 0).inst.apply.iter = [.setField 6 5] ∧
    ((((Store.init : Store Nat).run 20 demoRuleOps).1.step 20 (.act 1 .apply (.append (.setField 4 4)))).1.ruleVal 1).inst.apply.iter =
      [.setField 3 7, .setField 4 4, .setField 6 5] ∧
    (((Store.init : Store Nat).run 20 demoRuleOps).1.step 20 (.copy 3)).1.ruleVal 4 = ((Store.init : Store Nat).run 20 demoRuleOps).1.ruleVal 3 := by
  decide +kernel

end OFE.Alias
