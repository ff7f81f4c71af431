import Verif.Ttp.Lemmas
import Verif.Props.Ryu

/-!
# C74: flows of table type patterns
-/

namespace OFE.Ttp
open Ryu (Prog SameState)

/-- Specification: a field with a number as value and a number or nothing as mask, of the 56 fields. -/
structure TField.Plain (x : TField) : Prop where
  known : x.field < 56
  value : ∃ v, x.value = .num v
  mask : (∃ k, x.mask = .num k) ∨ x.mask = .none

/-- C74: the rule of a flow has its priority and table, accepts the packets that its match set accepts, and its instructions do what those of the flow do.

Partial: the match set has no field twice (`C74_repeated_field`), and every action is one that can be read: GROUP, meters and metadata are refused
(`C74_refused`), but set-fields of values given as text and unknown actions are dropped (`C74_dropped`, `C74_text`). -/
theorem C74_read_partial {π : Type} (f : TFlow) (q : Prog) {n : Nat} (hp : f.priority = .num n) (hf : ∀ x ∈ f.fields, x.Plain)
    (hn : (f.fields.map (·.field)).Nodup) (hi : ∀ x ∈ f.insts, x.Fine) (hq : TProgOf f.insts q) :
    ∃ r : Rule π, ruleFromTtp f = .ok r ∧ r.priority = n ∧ r.cookie = none ∧ r.table = f.table ∧ r.mat.Inv ∧
      (∀ p, r.mat.accepts p ↔ f.accepts p) ∧ (∀ st, SameState (r.inst.run st) (q.run st)) ∧ r.inst.goto = q.goto ∧ r.inst.meter = none := by
  obtain ⟨i, ei, ht⟩ := Ryu.tracks_all (f.insts.map trInst) [] .empty Ryu.tracks_nil (by
    intro x hx
    obtain ⟨y, hy, rfl⟩ := List.mem_map.1 hx
    exact tr_fine (hi y hy))
  rw [List.nil_append] at ht
  obtain ⟨h1, h2⟩ := Ryu.tracks_run ht (tr_prog hq)
  have hm := fields_ok .empty fun x hx => ⟨(hf x hx).value, (hf x hx).mask⟩
  have hinst : instFromTtp f.insts = .ok i := by
    unfold instFromTtp
    rw [tr_fold hi, ei]
    rfl
  refine ⟨⟨n, none, f.table, (f.fields.map TField.triple).foldl (fun m x => m.append x.1 x.2.1 x.2.2) .empty, i, []⟩, ?_, rfl, rfl, rfl,
    Ovs.inv_foldl _ _ inv_empty, fun p => ?_, h1, h2, ht.meter⟩
  · simp only [ruleFromTtp, hp, matchFromTtp, hm, hinst, bind, Except.bind]
    rfl
  · rw [Ovs.accepts_doc]
    · simp only [List.forall_mem_map]
      constructor
      · intro h x hx; exact (accepts_triple ⟨(hf x hx).value, (hf x hx).mask⟩ p).2 (h x hx)
      · intro h x hx; exact (accepts_triple ⟨(hf x hx).value, (hf x hx).mask⟩ p).1 (h x hx)
    · rw [List.map_map]
      exact hn
    · intro x hx
      obtain ⟨o, ho, rfl⟩ := List.mem_map.1 hx
      exact fieldBits_eq (hf o ho).known

/-! ### Refused -/

/-- C74: a flow with a priority that is not a number is refused. -/
theorem C74_priority {π : Type} (f : TFlow) (h : ∀ n, f.priority ≠ .num n) : ruleFromTtp (π := π) f = .error .assertion := by
  unfold ruleFromTtp
  split
  · next p e => exact absurd e (h p)
  · rfl

theorem foldlM_raises {α β : Type} {g : β → α → Except PyErr β} {l : List α} {x : α} (hx : x ∈ l) (h : ∀ b, ∃ e, g b x = .error e) :
    ∀ b, ∃ e, l.foldlM g b = .error e := by
  induction l with
  | nil => cases hx
  | cons y l ih =>
    intro b
    rw [List.foldlM_cons]
    rcases List.mem_cons.1 hx with rfl | hx
    · obtain ⟨e, he⟩ := h b
      exact ⟨e, by rw [he]; rfl⟩
    · cases e : g b y with
      | error e' => exact ⟨e', rfl⟩
      | ok b' => exact ih hx b'

/-- Specification: a part of a flow that has no counterpart in rules: an instruction other than GOTO_TABLE, CLEAR_ACTIONS, APPLY_ACTIONS and WRITE_ACTIONS, one
with a GROUP among its actions, or a GOTO_TABLE to a table that does not exist. -/
def TInst.Foreign : TInst → Prop
  | .other _ => True
  | .goto found => found = none
  | .apply l => ∃ g, .plain "GROUP" g ∈ l
  | .write l => ∃ g, .plain "GROUP" g ∈ l
  | .clear => False

/-- C74: a flow with a group, a meter, metadata, an unknown instruction, or a table that does not exist is refused with an exception. -/
theorem C74_refused {π : Type} (f : TFlow) {x : TInst} (hx : x ∈ f.insts) (h : x.Foreign) : ∃ e, ruleFromTtp (π := π) f = .error e := by
  have hact : ∀ (app : ActionList → Action → Except PyErr ActionList) (l : List TAct) (g : Nat), .plain "GROUP" g ∈ l →
      ∃ e, actionsFromTtp app l = .error e := fun app l g hg =>
    foldlM_raises hg (fun b => ⟨.runtimeError, rfl⟩) _
  have hstep : ∀ b, ∃ e, ttpInstStep b x = .error e := by
    intro b
    cases x with
    | other => exact ⟨_, rfl⟩
    | goto found => cases h; exact ⟨_, rfl⟩
    | clear => cases h
    | apply l =>
      obtain ⟨g, hg⟩ := h
      obtain ⟨e, he⟩ := hact ActionList.append l g hg
      exact ⟨e, by simp only [ttpInstStep, he]; rfl⟩
    | write l =>
      obtain ⟨g, hg⟩ := h
      obtain ⟨e, he⟩ := hact actionSetAppend l g hg
      exact ⟨e, by simp only [ttpInstStep, he]; rfl⟩
  obtain ⟨e, he⟩ := foldlM_raises hx hstep (.empty, true)
  have hi : instFromTtp f.insts = .error e := by
    unfold instFromTtp
    rw [he]
    rfl
  unfold ruleFromTtp
  split
  · cases hm : matchFromTtp f.fields with
    | error e' => exact ⟨e', rfl⟩
    | ok m => exact ⟨e, by simp only [hi, bind, Except.bind]⟩
  · exact ⟨_, rfl⟩

/-- C74: a flow whose last GOTO_TABLE leads to a table with a text in place of a number is refused. -/
theorem C74_table_text {π : Type} (f : TFlow) (a b : List TInst) (t : List Char) (h : f.insts = a ++ .goto (some (.text t)) :: b)
    (hb : ∀ x ∈ b, ∀ y, x ≠ .goto y) : ∃ e, ruleFromTtp (π := π) f = .error e := by
  have keep : ∀ (b : List TInst), (∀ x ∈ b, ∀ y, x ≠ .goto y) → ∀ i j : Inst × Bool, i.2 = false → b.foldlM ttpInstStep i = .ok j → j.2 = false := by
    intro b
    induction b with
    | nil => intro _ i j hi e; cases e; exact hi
    | cons x b ih =>
      intro hb i j hi e
      rw [List.foldlM_cons] at e
      cases ex : ttpInstStep i x with
      | error e' => rw [ex] at e; cases e
      | ok k =>
        rw [ex] at e
        refine ih (fun y hy => hb y (List.mem_cons_of_mem _ hy)) k j ?_ e
        cases x with
        | goto y => exact absurd rfl (hb _ List.mem_cons_self y)
        | clear => cases ex; exact hi
        | apply l =>
          simp only [ttpInstStep] at ex
          cases ea : actionsFromTtp ActionList.append l with
          | error e' => rw [ea] at ex; cases ex
          | ok q => rw [ea] at ex; cases ex; exact hi
        | write l =>
          simp only [ttpInstStep] at ex
          cases ea : actionsFromTtp actionSetAppend l with
          | error e' => rw [ea] at ex; cases ex
          | ok q => rw [ea] at ex; cases ex; exact hi
        | other => cases ex
  have hi : ∃ e, instFromTtp f.insts = .error e := by
    unfold instFromTtp
    rw [h]
    cases e : List.foldlM ttpInstStep (Inst.empty, true) (a ++ .goto (some (.text t)) :: b) with
    | error e' => exact ⟨e', rfl⟩
    | ok j =>
      rw [List.foldlM_append] at e
      cases ea : List.foldlM ttpInstStep (Inst.empty, true) a with
      | error e' => rw [ea] at e; cases e
      | ok k =>
        rw [ea] at e
        have := keep b hb _ j rfl (show b.foldlM ttpInstStep ({ k.1 with goto := none }, false) = .ok j from e)
        obtain ⟨j1, j2⟩ := j
        cases this
        exact ⟨.assertion, rfl⟩
  obtain ⟨e, hi⟩ := hi
  unfold ruleFromTtp
  split
  · cases hm : matchFromTtp f.fields with
    | error e' => exact ⟨e', rfl⟩
    | ok m => exact ⟨e, by simp only [bind, Except.bind, hi]⟩
  · exact ⟨.assertion, rfl⟩

example : ∃ e, ruleFromTtp (π := Nat) ⟨.num 1, [], [.clear, .goto (some (.text "ten".toList)), .apply []], 0⟩ = .error e :=
  C74_table_text _ [.clear] [.apply []] "ten".toList rfl (by intro x hx y; simp only [List.mem_singleton] at hx; subst hx; simp)

/-- C74: a match set with a value that is not a number is refused. -/
theorem C74_value {π : Type} (f : TFlow) {x : TField} (hx : x ∈ f.fields) (h : ∀ v, x.value ≠ .num v) : ∃ e, ruleFromTtp (π := π) f = .error e := by
  obtain ⟨e, he⟩ := foldlM_raises (g := fieldStep) hx (fun b => ⟨.assertion, by
    unfold fieldStep
    split
    all_goals first | rfl | (next e _ => exact absurd e (h _))⟩) .empty
  have hm : matchFromTtp f.fields = .error e := he
  unfold ruleFromTtp
  split
  · exact ⟨e, by simp only [hm, bind, Except.bind]⟩
  · exact ⟨_, rfl⟩

/-! ### Dropped -/

/-- Specification: the actions that leave no trace: set-fields of a variable or to a value that is not an int, and names that are not OpenFlow's. -/
def TAct.ignored : TAct → Bool
  | .plain name _ => !(ttpActions.map (·.1)).contains name
  | .setField (.field _) (.num _) => false
  | .setField _ _ => true

theorem ignored_none {a : TAct} (h : a.ignored = true) : actionFromTtp a = .ok none := by
  cases a with
  | plain name arg =>
    simp only [TAct.ignored, ttpActions, List.map_cons, List.map_nil, Bool.not_eq_true', List.contains_eq_mem, decide_eq_false_iff_not, List.mem_cons,
      List.not_mem_nil, or_false, not_or] at h
    obtain ⟨h1, h2, h3, h4, h5, h6, h7, h8, h9, h10, h11, h12, h13, h14, h15⟩ := h
    simp [actionFromTtp, h1, h2, h3, h4, h5, h6, h7, h8, h9, h10, h11, h12, h13, h14, h15]
  | setField fl v =>
    cases fl with
    | var => rfl
    | field f => cases v with
      | num => simp [TAct.ignored] at h
      | text => rfl
      | none => rfl

/-- C74, negation: these actions are dropped without an exception; the result is that of the list without them. -/
theorem C74_dropped (app : ActionList → Action → Except PyErr ActionList) (l : List TAct) :
    actionsFromTtp app l = actionsFromTtp app (l.filter fun a => !a.ignored) := by
  unfold actionsFromTtp
  generalize ActionList.empty = x
  induction l generalizing x with
  | nil => rfl
  | cons a l ih =>
    rw [List.foldlM_cons]
    cases hi : a.ignored with
    | true =>
      rw [List.filter_cons_of_neg (by simp [hi]), ignored_none hi]
      exact ih x
    | false =>
      rw [List.filter_cons_of_pos (by simp [hi]), List.foldlM_cons]
      cases (do appendOpt app x (← actionFromTtp a) : Except PyErr ActionList) with
      | error e => rfl
      | ok y => exact ih y

/-- A flow: apply SET_FIELD ETH_DST 01:80:c2:00:00:0e, given as text, and OUTPUT 3. -/
def textFlow : TFlow := ⟨.num 5, [], [.apply [.setField (.field 3) (.text "01:80:c2:00:00:0e".toList), .plain "OUTPUT" 3]], 0⟩

/-- What it does. -/
def textProg : Prog := ⟨[.setField 3 0x0180c200000e, .output 3], false, [], none, none⟩

/-- The rule made from it: the set-field is gone. -/
def textRule : Rule Nat := ⟨5, none, 0, .empty, { Inst.empty with apply := mkList [.output 3] }, []⟩

/-- C74, negation: a set-field of an address given as text is dropped, and the packet leaves with the address that it came with. -/
theorem C74_text : TProgOf textFlow.insts textProg ∧ ruleFromTtp textFlow = .ok textRule ∧
    ∃ st, ¬ SameState (textRule.inst.run st) (textProg.run st) := by
  refine ⟨⟨.cons (.text Ovs.textMac (by decide)) (.cons (.plain (f := .output) 3 (by simp [ttpActions])) .nil), .nil, rfl, rfl, rfl⟩, by decide +kernel,
    ⟨⟨fun _ _ => 0, fun _ => 0, 0, fun _ => 0, 0, 0⟩, [], []⟩, ?_⟩
  intro h
  have := congrArg (fun p => p.fld 3 0) h.pkt
  revert this
  decide +kernel

/-- C74, negation: a GOTO_TABLE to a table without a number gives a rule that ends the pipeline. -/
theorem C74_no_number {π : Type} : ruleFromTtp (π := π) ⟨.num 1, [], [.goto (some .none)], 0⟩ = .ok ⟨1, none, 0, .empty, .empty, []⟩ := rfl

/-- A match set with IPV4_DST 10.0.0.0/8 and IPV4_DST 0.0.0.1/0.0.0.255. -/
def twiceFlow : TFlow := ⟨.num 1, [⟨12, .num 0x0a000000, .num 0xff000000⟩, ⟨12, .num 1, .num 0xff⟩], [], 0⟩

/-- C74, negation: of a field that is twice in the match set only the last one counts: the rule accepts packets that the flow does not. -/
theorem C74_repeated_field : ∃ r : Rule Nat, ruleFromTtp twiceFlow = .ok r ∧ ∃ p, r.mat.accepts p ∧ ¬ twiceFlow.accepts p := by
  refine ⟨⟨1, none, 0, Match.empty.append 12 1 (some 0xff), .empty, []⟩, by decide +kernel, ⟨fun _ _ => 1, fun _ => 0, 0, fun _ => 0, 0, 0⟩, ?_, ?_⟩
  · intro x hx i hi hm
    have e : (Match.empty.append 12 1 (some 0xff)).items = [(12, 1, some 0xff)] := by decide +kernel
    rw [e, List.mem_singleton] at hx
    subst hx
    exact hdr_bit _ (by decide) hi
  · intro h
    have := h ⟨12, .num 0x0a000000, .num 0xff000000⟩ (by simp [twiceFlow]) 25 (by decide) (by intro m hm; cases hm; decide)
    rw [hdr_bit _ (by decide) (by decide)] at this
    revert this
    decide

/-! ### Examples -/

/-- A flow: IPV4_SRC 10.0.0.0/8 and TCP_DST 80; goto table 4, apply POP_VLAN, SET_FIELD ETH_DST, OUTPUT 3, write SET_QUEUE 7, clear. -/
def ttpSample : TFlow := ⟨.num 5, [⟨11, .num 0x0a000000, .num 0xff000000⟩, ⟨14, .num 80, .none⟩],
  [.goto (some (.num 4)), .apply [.plain "POP_VLAN" 0, .setField (.field 3) (.num 0x0180c200000e), .plain "OUTPUT" 3], .write [.plain "SET_QUEUE" 7], .clear], 2⟩

/-- What it does. -/
def ttpProg : Prog := ⟨[.popVlan, .setField 3 0x0180c200000e, .output 3], true, [.setQueue 7], none, some 4⟩

theorem ttpSample_ok : (∀ x ∈ ttpSample.fields, x.Plain) ∧ (∀ x ∈ ttpSample.insts, x.Fine) ∧ TProgOf ttpSample.insts ttpProg := by
  refine ⟨?_, ?_, ⟨.cons (.plain (f := fun _ => .popVlan) 0 (by simp [ttpActions])) (.cons (.num _ _) (.cons (.plain (f := .output) 3 (by simp [ttpActions])) .nil)),
    .cons (.plain (f := .setQueue) 7 (by simp [ttpActions])) .nil, rfl, rfl, rfl⟩⟩
  · intro x hx
    simp only [ttpSample, List.mem_cons, List.not_mem_nil, or_false] at hx
    rcases hx with rfl | rfl
    · exact ⟨by decide, ⟨_, rfl⟩, .inl ⟨_, rfl⟩⟩
    · exact ⟨by decide, ⟨_, rfl⟩, .inr rfl⟩
  · intro x hx
    simp only [ttpSample, List.mem_cons, List.not_mem_nil, or_false] at hx
    rcases hx with rfl | rfl | rfl | rfl
    · exact ⟨4, rfl⟩
    · intro a ha
      simp only [List.mem_cons, List.not_mem_nil, or_false] at ha
      rcases ha with rfl | rfl | rfl
      · exact .plain (f := fun _ => .popVlan) 0 (by simp [ttpActions]) (by decide)
      · exact .num _ _ (by decide)
      · exact .plain (f := .output) 3 (by simp [ttpActions]) (by decide)
    · intro a ha
      simp only [List.mem_cons, List.not_mem_nil, or_false] at ha
      subst ha
      exact .plain (f := .setQueue) 7 (by simp [ttpActions]) (by decide)
    · trivial

example : ∃ r : Rule Nat, ruleFromTtp ttpSample = .ok r ∧ r.priority = 5 ∧ r.cookie = none ∧ r.table = 2 ∧ r.mat.Inv ∧
    (∀ p, r.mat.accepts p ↔ ttpSample.accepts p) ∧ (∀ st, SameState (r.inst.run st) (ttpProg.run st)) ∧ r.inst.goto = ttpProg.goto ∧ r.inst.meter = none :=
  C74_read_partial ttpSample ttpProg rfl ttpSample_ok.1 (by decide) ttpSample_ok.2.1 ttpSample_ok.2.2

/-- Example for `C74_refused`: a meter; a group among the actions to apply. -/
example : ∃ e, ruleFromTtp (π := Nat) ⟨.num 1, [], [.clear, .other "METER"], 0⟩ = .error e := C74_refused _ (x := .other "METER") (by simp) trivial

example : ∃ e, ruleFromTtp (π := Nat) ⟨.num 1, [], [.apply [.plain "OUTPUT" 1, .plain "GROUP" 7]], 0⟩ = .error e :=
  C74_refused _ (x := .apply [.plain "OUTPUT" 1, .plain "GROUP" 7]) (by simp) ⟨7, by simp⟩

/-- Example for `C74_value`: a variable as value. -/
example : ∃ e, ruleFromTtp (π := Nat) ⟨.num 1, [⟨0, .text "$port".toList, .none⟩], [], 0⟩ = .error e :=
  C74_value _ (x := ⟨0, .text "$port".toList, .none⟩) (by simp) (by intro v h; cases h)

/-- Example for `C74_priority`. -/
example : ruleFromTtp (π := Nat) ⟨.text "$prio".toList, [], [], 0⟩ = .error .assertion := C74_priority _ (by intro n h; cases h)

/-- Example for `C74_dropped`. -/
example : actionsFromTtp ActionList.append [.plain "EXPERIMENTER" 1, .setField (.var "$x".toList) (.num 1), .plain "OUTPUT" 3] =
    actionsFromTtp ActionList.append [.plain "OUTPUT" 3] := C74_dropped _ _

end OFE.Ttp
