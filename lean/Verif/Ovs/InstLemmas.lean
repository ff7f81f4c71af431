import Verif.Ovs.LineLemmas
import Verif.Rule.Equality

/-!
# Open vSwitch text: instructions written and read
-/

namespace OFE.Ovs
open Fmt

theorem writable_known {a : Action} (h : Writable a) : a.known = true := by
  cases a with
  | setField f v =>
    have : ∀ f ∈ okFields, f < 40 := by decide +kernel
    simp only [Action.known, decide_eq_true_eq]
    exact this f h.1
  | _ => first | rfl | exact h.elim

theorem actions_text (groups : List (Nat × Nat)) : ∀ {s : List Action}, (∀ a ∈ s, Writable a) →
    ∃ ts, s.mapM actionToOvs = .ok ts ∧ List.Forall₂ (Reads groups) ts s
  | [], _ => ⟨[], rfl, .nil⟩
  | a :: s, h => by
    obtain ⟨t, e, hr⟩ := action_text groups (h a List.mem_cons_self)
    obtain ⟨ts, es, hrs⟩ := actions_text groups fun b hb => h b (List.mem_cons_of_mem _ hb)
    refine ⟨t :: ts, ?_, .cons hr hrs⟩
    rw [List.mapM_cons, e, es]
    rfl

/-- Tokens that are read one after the other. -/
inductive ISteps (groups : List (Nat × Nat)) : List (List Char) → Inst → Inst → Prop
  | nil (i : Inst) : ISteps groups [] i i
  | cons {t : List Char} {us : List (List Char)} {i j k : Inst} : IReads groups t i j → ISteps groups us j k → ISteps groups (t :: us) i k

theorem ISteps.append {groups : List (Nat × Nat)} {us vs : List (List Char)} {i j k : Inst} (h : ISteps groups us i j) (h' : ISteps groups vs j k) :
    ISteps groups (us ++ vs) i k := by
  induction h with
  | nil => exact h'
  | cons hr _ ih => exact .cons hr (ih h')

theorem ISteps.loop {groups : List (Nat × Nat)} {us : List (List Char)} {i k : Inst} (h : ISteps groups us i k) (fuel : Nat) :
    instLoop groups (us.length + (fuel + 1)) (joinWith ',' us) i = .ok k := by
  induction h with
  | nil => rw [List.length_nil, Nat.zero_add]; rfl
  | @cons t us i j k hr _ ih => rw [List.length_cons, show us.length + 1 + (fuel + 1) = us.length + (fuel + 1) + 1 from by omega, instLoop_tok hr]; exact ih

theorem ISteps.chars {groups : List (Nat × Nat)} {us : List (List Char)} {i k : Inst} (h : ISteps groups us i k) :
    ∀ t ∈ us, t ≠ [] ∧ ∀ c ∈ t, Char.toLower c = c ∧ c ≠ '=' := by
  induction h with
  | nil => simp
  | cons hr _ ih =>
    intro t ht
    rcases List.mem_cons.1 ht with rfl | ht
    · exact ⟨hr.ne, hr.low⟩
    · exact ih t ht

theorem actionList_eq {a b : ActionList} (h : a.levels = b.levels) (h' : a.len = b.len) : a.eq b = true := by
  unfold ActionList.eq ActionList.iter
  rw [if_neg (by simp [h']), h]
  simp

/-- The list of actions as it comes back has the same levels. -/
theorem mkList_iter_levels (s : List Action) : (mkList (mkList s).iter).levels = (mkList s).levels ∧ (mkList (mkList s).iter).len = (mkList s).len := by
  have h := mkList_iter_trace s
  exact ⟨(foldl_trace lt_strictTotal dependsB_symm h (by simp [LvSorted])).symm, h.perm.length_eq.symm⟩

theorem inst_text (groups : List (Nat × Nat)) {i : Inst} {s w : List Action} (hs : ∀ a ∈ s, Writable a) (es : ActionList.ofList s = .ok i.apply)
    (hw : ∀ a ∈ w, Writable a) (ew : actionSetOfList w = .ok i.write) (hm : i.meter = none) :
    ∃ t i', instToOvs i = .ok t ∧ (∀ c ∈ t, c ≠ '=') ∧ instFromOvs groups t = .ok i' ∧ i'.eq i = true := by
  have hks : AllKnown s := fun a ha => writable_known (hs a ha)
  have hkw : AllKnown w := fun a ha => writable_known (hw a ha)
  rw [ofList_known hks] at es
  have ea : i.apply = mkList s := (Except.ok.inj es).symm
  have hsi : SetInv w i.write := by
    obtain ⟨l, e, h⟩ := setInv_ofList w [] .empty setInv_empty (by simpa using hkw)
    rw [show List.foldlM actionSetAppend ActionList.empty w = .ok i.write from ew] at e
    cases e
    simpa using h
  -- the applied actions
  have hit : ∀ a ∈ i.apply.iter, Writable a := fun a ha => hs a (by rw [ea] at ha; exact (mkList_iter_trace s).perm.mem_iff.2 ha)
  obtain ⟨ts, ets, hts⟩ := actions_text groups hit
  have hwt : ∀ a ∈ i.write.iter, Writable a := fun a ha => hw a ((hsi.content a).1 (hsi.iter_perm.mem_iff.1 ha)).1.mem
  obtain ⟨ws, ews, hws⟩ := actions_text groups hwt
  obtain ⟨l', el, elv, ell, -⟩ := actionSet_rebuild hsi hkw
  have hlen : i.apply.len = ts.length := by
    rw [hts.length_eq, ea]; exact (mkList_iter_trace s).perm.length_eq
  have hwlen : i.write.len = ws.length := by
    rw [hws.length_eq]; exact hsi.iter_perm.length_eq.symm
  obtain ⟨hal, hac⟩ := mkList_iter_levels s
  have hread : i.apply.iter.foldlM ActionList.append Inst.empty.apply = .ok (mkList i.apply.iter) := by
    refine ofList_known (s := i.apply.iter) fun a ha => writable_known (hit a ha)
  -- the other tokens
  let A : List (List Char) := if ts = [] then [] else [joinWith ',' ts]
  let C : List (List Char) := if i.clear then ["clear_actions".toList] else []
  let W : List (List Char) := if ws = [] then [] else ["write_actions(".toList ++ (joinWith ',' ws ++ ")".toList)]
  let M : List (List Char) := match i.wmeta with
    | none => []
    | some (v, none) => ["write_metadata:".toList ++ digits 10 v]
    | some (v, some m) => ["write_metadata:".toList ++ (digits 10 v ++ '/' :: digits 10 m)]
  let G : List (List Char) := match i.goto with
    | none => []
    | some t => ["goto_table:".toList ++ digits 10 t]
  have etext : instToOvs i = .ok (joinWith ',' (A ++ C ++ W ++ M ++ G)) := by
    unfold instToOvs actionsToOvs
    rw [ets, ews, hlen, hwlen]
    simp only [bind, Except.bind, A, W]
    by_cases h : ts = [] <;> by_cases h' : ws = []
    · rw [if_pos (by rw [h]; rfl), if_pos h, if_pos h']
      simp only [pure, Except.pure]
      rw [if_pos (by rw [h']; rfl)]
      rfl
    · rw [if_pos (by rw [h]; rfl), if_pos h, if_neg h']
      simp only [pure, Except.pure]
      rw [if_neg (by simpa using h')]
      rfl
    · rw [if_neg (by simpa using h), if_neg h, if_pos h']
      simp only [pure, Except.pure, Except.map]
      rw [if_pos (by rw [h']; rfl)]
      rfl
    · rw [if_neg (by simpa using h), if_neg h, if_neg h']
      simp only [pure, Except.pure, Except.map]
      rw [if_neg (by simpa using h')]
      rfl
  have ejoin : joinWith ',' (A ++ C ++ W ++ M ++ G) = joinWith ',' (ts ++ (C ++ W ++ M ++ G)) := by
    by_cases h : ts = []
    · simp only [A, h, if_true, List.nil_append]
    · simp only [A, if_neg h, List.append_assoc, List.cons_append, List.nil_append]
      exact join_join h _
  -- reading
  let i0 : Inst := { Inst.empty with apply := mkList i.apply.iter }
  let i1 : Inst := { i0 with clear := i.clear }
  let i2 : Inst := { i1 with write := if ws = [] then .empty else l' }
  let i3 : Inst := { i2 with wmeta := i.wmeta }
  let i4 : Inst := { i3 with goto := i.goto }
  have hC : ISteps groups C i0 i1 := by
    simp only [C, i1]
    cases i.clear with
    | false => exact .nil _
    | true => exact .cons (ireads_clear groups i0) (.nil _)
  have hW : ISteps groups W i1 i2 := by
    simp only [W, i2]
    by_cases h : ws = []
    · rw [if_pos h, if_pos h]; exact .nil _
    · rw [if_neg h, if_neg h]; exact .cons (ireads_write hws el i1) (.nil _)
  have hM : ISteps groups M i2 i3 := by
    simp only [M, i3]
    cases i.wmeta with
    | none => exact .nil _
    | some x =>
      obtain ⟨v, m⟩ := x
      cases m with
      | none =>
        have := ireads_meta groups v none i2
        rw [maskText, List.append_nil] at this
        exact .cons this (.nil _)
      | some m => exact .cons (ireads_meta groups v (some m) i2) (.nil _)
  have hG : ISteps groups G i3 i4 := by
    simp only [G, i4]
    cases i.goto with
    | none => exact .nil _
    | some t => exact .cons (ireads_goto groups t i3) (.nil _)
  have hall := ((hC.append hW).append hM).append hG
  have hchars : ∀ t ∈ ts ++ (C ++ W ++ M ++ G), t ≠ [] ∧ ∀ c ∈ t, Char.toLower c = c ∧ c ≠ '=' := by
    intro t ht
    rcases List.mem_append.1 ht with h | h
    · exact ⟨(reads_chars hts t h).1, fun c hc => ⟨((reads_chars hts t h).2 c hc).1, ((reads_chars hts t h).2 c hc).2.1⟩⟩
    · exact hall.chars t h
  have hjc := join_chars (P := fun c => Char.toLower c = c ∧ c ≠ '=') (fun t ht => (hchars t ht).2) (by decide)
  refine ⟨_, i4, etext, ?_, ?_, ?_⟩
  · rw [ejoin]; exact fun c hc => (hjc c hc).2
  · rw [ejoin]
    have hlow : (joinWith ',' (ts ++ (C ++ W ++ M ++ G))).map Char.toLower = joinWith ',' (ts ++ (C ++ W ++ M ++ G)) := by
      have : List.map Char.toLower (joinWith ',' (ts ++ (C ++ W ++ M ++ G))) = List.map id (joinWith ',' (ts ++ (C ++ W ++ M ++ G))) :=
        List.map_congr_left fun c hc => (hjc c hc).1
      rw [this, List.map_id]
    unfold instFromOvs
    rw [hlow]
    have hl := join_length (sep := ',') fun t ht => (hchars t ht).1
    generalize (joinWith ',' (ts ++ (C ++ W ++ M ++ G))).length = n at hl
    rw [List.length_append] at hl
    obtain ⟨fuel, hf⟩ : ∃ fuel, n + 1 = ts.length + ((C ++ W ++ M ++ G).length + (fuel + 1)) := ⟨n - ts.length - (C ++ W ++ M ++ G).length, by omega⟩
    rw [hf, instLoop_acts hts _ _ _ _ hread]
    exact hall.loop fuel
  · unfold Inst.eq
    simp only [i4, i3, i2, i1, i0, Inst.empty, hm, beq_self_eq_true, Bool.true_and, Bool.and_true, Bool.and_eq_true]
    refine ⟨?_, ?_⟩
    · rw [ea]; exact actionList_eq hal hac
    · by_cases h : ws = []
      · rw [if_pos h]
        have h0 : i.write.len = 0 := by rw [hwlen, h]; rfl
        have h1 : i.write.iter = [] := List.length_eq_zero_iff.1 (by rw [hsi.iter_perm.length_eq]; exact h0)
        unfold ActionList.eq
        rw [if_neg (by rw [h0]; simp [ActionList.len, ActionList.empty]), h1]
        rfl
      · rw [if_neg h]; exact actionList_eq elv ell

end OFE.Ovs
