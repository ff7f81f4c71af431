import Verif.Rule.SetFields
import Verif.Props.ActionsSem
import Verif.Props.Rule

/-! # C88: fields set on the way to the next table -/

namespace OFE

/-- Specification: the last set-field of field `f` in a sequence of actions sets it to `v`. -/
def LastSet (s : List Action) (f v : Nat) : Prop := ∃ l r, s = l ++ .setField f v :: r ∧ ∀ w, Action.setField f w ∉ r

/-- Specification: the action adds or removes a header with this field. -/
def Action.moves (f : Nat) : Action → Bool
  | .pushVlan _ => vlanF f
  | .popVlan => vlanF f
  | .pushPbb _ => pbbF f
  | .popPbb => pbbF f
  | .pushMpls _ => mplsF f
  | .popMpls _ => mplsF f
  | _ => false

/-- Set-fields of `f`. -/
def Action.sets (f : Nat) : Action → Bool
  | .setField g _ => decide (g = f)
  | _ => false

theorem lookup_setFields : ∀ (l : List Action) (d : List (Nat × Nat)) (f : Nat),
    (l.foldl setFieldStep d).lookup f = match (l.filter (Action.sets f)).getLast? with
      | some (.setField _ v) => some v
      | _ => d.lookup f
  | [], d, f => rfl
  | a :: l, d, f => by
    rw [List.foldl_cons, lookup_setFields l _ f]
    have hl : ∀ x ∈ l.filter (Action.sets f), ∃ v, x = .setField f v := by
      intro x hx
      have := (List.mem_filter.1 hx).2
      cases x <;> simp [Action.sets] at this ⊢
      exact this
    cases hg : (l.filter (Action.sets f)).getLast? with
    | some x =>
      obtain ⟨v, rfl⟩ := hl x (List.mem_of_getLast? hg)
      have : ((a :: l).filter (Action.sets f)).getLast? = some (.setField f v) := by
        rw [List.filter_cons]
        split
        · rw [List.getLast?_cons, hg]; rfl
        · exact hg
      rw [this]
    | none =>
      have h0 : l.filter (Action.sets f) = [] := List.getLast?_eq_none_iff.1 hg
      rw [List.filter_cons, h0]
      cases a <;> simp only [Action.sets, setFieldStep, Bool.false_eq_true, if_false, List.getLast?_nil]
      rename_i g v
      by_cases e : g = f
      · subst e
        simp [lookup_dictSet]
      · have e' : ¬ f = g := fun h => e h.symm
        simp [lookup_dictSet, e, e']

theorem nodup_setFields : ∀ (l : List Action) (d : List (Nat × Nat)), (d.map (·.1)).Nodup → ((l.foldl setFieldStep d).map (·.1)).Nodup
  | [], d, h => h
  | a :: l, d, h => by
    rw [List.foldl_cons]
    refine nodup_setFields l _ ?_
    cases a <;> first | exact h | exact nodup_dictSet _ _ h

theorem lastSet_iff (s : List Action) (f v : Nat) : LastSet s f v ↔ (s.filter (Action.sets f)).getLast? = some (.setField f v) := by
  constructor
  · rintro ⟨l, r, rfl, hr⟩
    have h0 : r.filter (Action.sets f) = [] := by
      rw [List.filter_eq_nil_iff]
      intro x hx hs
      cases x <;> simp [Action.sets] at hs
      subst hs
      exact hr _ hx
    rw [List.filter_append, List.filter_cons, h0]
    simp [Action.sets]
  · intro h
    have hm := List.mem_of_getLast? h
    induction s with
    | nil => cases hm
    | cons a s ih =>
      rw [List.filter_cons] at h
      by_cases hs : (s.filter (Action.sets f)) = []
      · split at h
        · rw [hs, List.getLast?_singleton, Option.some.injEq] at h
          refine ⟨[], s, by rw [h]; rfl, fun w hw => ?_⟩
          rw [List.filter_eq_nil_iff] at hs
          exact hs _ hw (by simp [Action.sets])
        · rw [hs] at h; cases h
      · have h' : (s.filter (Action.sets f)).getLast? = some (.setField f v) := by
          split at h
          · rw [List.getLast?_cons] at h
            cases hg : (s.filter (Action.sets f)).getLast? with
            | none => exact absurd (List.getLast?_eq_none_iff.1 hg) hs
            | some x => rw [hg] at h; exact h
          · exact h
        obtain ⟨l, r, e, hr⟩ := ih h' (List.mem_of_getLast? h')
        exact ⟨a :: l, r, by rw [e]; rfl, hr⟩

theorem dependsB_sameField (f : Nat) (hf : f < 40) (v w : Nat) : dependsB (.setField f v) (.setField f w) = true := by
  have h : ∀ f < 40, dependsB (.setField f 0) (.setField f 0) = true := by decide +kernel
  exact h f hf

theorem TraceEq.filter_sets {s t : List Action} (h : TraceEq dependsB s t) (f : Nat) (hf : f < 40) : s.filter (Action.sets f) = t.filter (Action.sets f) := by
  induction h with
  | refl => rfl
  | swap l r a b t hd _ ih =>
    rw [← ih]
    simp only [List.filter_append, List.filter_cons]
    by_cases ha : Action.sets f a = true
    · by_cases hb : Action.sets f b = true
      · exfalso
        cases a <;> simp [Action.sets] at ha
        cases b <;> simp [Action.sets] at hb
        subst ha; subst hb
        rw [dependsB_sameField _ hf] at hd
        cases hd
      · simp [ha, hb]
    · simp [ha]

theorem exec_append_fst (s t : List Action) (p : Pkt) : (exec (s ++ t) p).1 = (exec t (exec s p).1).1 := by
  induction s generalizing p with
  | nil => rfl
  | cons a s ih => simp only [List.cons_append, exec, ih]

theorem exec_keepsField (f : Nat) : ∀ (s : List Action) (p : Pkt), (∀ a ∈ s, a.moves f = false) → (∀ w, Action.setField f w ∉ s) → (exec s p).1.fld f 0 = p.fld f 0
  | [], p, _, _ => rfl
  | a :: s, p, h1, h2 => by
    rw [exec]
    rw [exec_keepsField f s _ (fun x hx => h1 x (List.mem_cons_of_mem _ hx)) fun w hw => h2 w (List.mem_cons_of_mem _ hw)]
    have ha := h1 a List.mem_cons_self
    cases a <;> simp only [Action.moves] at ha <;> simp only [act, pushHdr, popHdr, ha] <;> try rfl
    rename_i g v
    have : f ≠ g := by rintro rfl; exact h2 v List.mem_cons_self
    simp [this]

/-- **C88**, the part that holds for all rules: what `get_goto_set_fields` returns has each field that the apply-actions set, once, with the value of the
last set-field in the order in which the actions were appended. -/
theorem C88_last {π : Type} (r : Rule π) (s : List Action) (h : ActionList.ofList s = .ok r.inst.apply) :
    (r.gotoSetFields.map (·.1)).Nodup ∧ ∀ f v, (f, v) ∈ r.gotoSetFields ↔ LastSet s f v := by
  have hn := nodup_setFields r.inst.apply.iter [] List.nodup_nil
  refine ⟨hn, fun f v => ?_⟩
  have hf : r.inst.apply.iter.filter (Action.sets f) = s.filter (Action.sets f) := by
    have hl := ofList_ok h
    rcases ofList_ok_known h with hk | ⟨a, rfl⟩
    · by_cases hf : f < 40
      · rw [hl]
        exact (mkList_iter_trace s).symm dependsB_symm |>.filter_sets f hf
      · have nil : ∀ l : List Action, (∀ a ∈ l, a.known = true) → l.filter (Action.sets f) = [] := by
          intro l hl
          rw [List.filter_eq_nil_iff]
          intro a ha hs
          have := hl a ha
          cases a <;> simp [Action.sets] at hs
          subst hs
          simp [Action.known] at this
          exact hf this
        rw [nil _ hk, nil _ (by rw [hl]; exact allKnown_levels hk)]
    · rw [hl]; rfl
  rw [lastSet_iff, ← hf, Rule.gotoSetFields, mem_dict_iff hn, lookup_setFields]
  cases hg : (r.inst.apply.iter.filter (Action.sets f)).getLast? with
  | none => simp
  | some x =>
    have := (List.mem_filter.1 (List.mem_of_getLast? hg)).2
    cases x <;> simp [Action.sets] at this
    subst this
    simp

/-- **C88** (partial: for fields whose header is neither added nor removed by the actions, see `C88_pop` and `C88_push`; the VLAN id is returned without the
present bit that it gets, see `C88_vid`.)  The packet handed to the next table has the returned value in that field; fields that are not returned are
unchanged. -/
theorem C88_forwarded_partial {π : Type} (r : Rule π) (s : List Action) (h : ActionList.ofList s = .ok r.inst.apply) (f : Nat) (hf : f ≠ 2)
    (hm : ∀ a ∈ s, a.moves f = false) (p : Pkt) :
    (∀ v, (f, v) ∈ r.gotoSetFields → (r.inst.forward p).fld f 0 = if f = 6 then 0x1000 ||| v else v) ∧
    ((∀ v, (f, v) ∉ r.gotoSetFields) → (r.inst.forward p).fld f 0 = p.fld f 0) := by
  have hfw : (r.inst.forward p).fld f 0 = (exec s p).1.fld f 0 := by
    rw [← (C56_canonical_effect s _ h p).1]
    unfold Inst.forward writeMeta
    split <;> simp [hf]
  obtain ⟨-, hr⟩ := C88_last r s h
  constructor
  · intro v hv
    obtain ⟨l, t, rfl, ht⟩ := (hr f v).1 hv
    rw [hfw, exec_append_fst, exec, exec_keepsField f t _ (fun a ha => hm a (by simp [ha])) ht]
    simp only [act, and_self, if_true]
    rfl
  · intro hno
    rw [hfw]
    refine exec_keepsField f s p hm fun w hw => ?_
    have hne : (s.filter (Action.sets f)).getLast? ≠ none := by
      rw [Ne, List.getLast?_eq_none_iff]
      intro h0
      rw [List.filter_eq_nil_iff] at h0
      exact h0 _ hw (by simp [Action.sets])
    cases hg : (s.filter (Action.sets f)).getLast? with
    | none => exact hne hg
    | some x =>
      have := (List.mem_filter.1 (List.mem_of_getLast? hg)).2
      cases x <;> simp [Action.sets] at this
      rename_i g v
      subst this
      exact hno v ((hr _ v).2 ((lastSet_iff _ _ _).2 hg))

/-- A rule with these apply-actions. -/
def actsRule (acts : List Action) : Except PyErr (Rule Unit) := do
  return ⟨10, none, 0, Match.empty, ⟨some 1, ← ActionList.ofList acts, .empty, none, false, none⟩, []⟩

/-- A sample: two fields, one of them set twice with an output in between; the header of VLANs is removed, but not that of ETH_DST (3). -/
example : ∃ r, actsRule [.setField 3 7, .output 1, .setField 3 8, .popVlan, .setField 11 9] = .ok r ∧
    ActionList.ofList [.setField 3 7, .output 1, .setField 3 8, .popVlan, .setField 11 9] = .ok r.inst.apply ∧
    (∀ a ∈ [Action.setField 3 7, .output 1, .setField 3 8, .popVlan, .setField 11 9], a.moves 3 = false) ∧
    r.gotoSetFields = [(3, 8), (11, 9)] :=
  ⟨_, rfl, by decide +kernel, by decide, by decide +kernel⟩

/-- **C88 is violated**: the value set in a header that is then removed is returned, though every packet is handed on with what was below it. -/
theorem C88_pop : ∃ r, actsRule [.setField 6 0x1005, .popVlan] = .ok r ∧ r.gotoSetFields = [(6, 0x1005)] ∧
    ∀ p, (r.inst.forward p).fld 6 0 = p.fld 6 1 :=
  ⟨_, rfl, by decide +kernel, fun _ => rfl⟩

/-- **C88 is violated**: the VLAN id set is returned, but the packet has the present bit as well. -/
theorem C88_vid : ∃ r, actsRule [.setField 6 5] = .ok r ∧ r.gotoSetFields = [(6, 5)] ∧ ∀ p, (r.inst.forward p).fld 6 0 = 0x1005 :=
  ⟨_, rfl, by decide +kernel, fun _ => rfl⟩

/-- **C88 is violated**: a header that is added and left as it is makes a field change that is not returned: an untagged packet gets a VLAN id. -/
theorem C88_push : ∃ r, actsRule [.pushVlan 0x8100] = .ok r ∧ r.gotoSetFields = [] ∧ ∀ p, p.fld 6 0 = 0 → (r.inst.forward p).fld 6 0 = 0x1000 := by
  refine ⟨_, rfl, by decide +kernel, fun p hp => ?_⟩
  show wrote 6 (p.fld 6 0) = _
  rw [hp]; rfl

end OFE
