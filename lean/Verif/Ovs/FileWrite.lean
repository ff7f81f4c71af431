import Verif.Ovs.FileLemmas
import Verif.Props.Ovs

/-!
# Open vSwitch text: what the text of a rule looks like
-/

namespace OFE.Ovs
open Fmt

/-- A character of a written rule, outside the few spaces between the arguments. -/
def Tight (s : List Char) : Prop := ∀ c ∈ s, isSpace c = false

theorem Tight.append {s t : List Char} (hs : Tight s) (ht : Tight t) : Tight (s ++ t) := fun c hc =>
  (List.mem_append.1 hc).elim (hs c) (ht c)

theorem Tight.join {l : List (List Char)} (h : ∀ s ∈ l, Tight s) : Tight (joinWith ',' l) := join_chars h (by decide)

theorem tight_numChars {s : List Char} (h : ∀ c ∈ s, c ∈ numChars) : Tight s := fun c hc => (numChar_facts c (h c hc)).2.2.1

theorem numChars_mem {s : List Char} (h : ∀ c ∈ s, c ∈ numChars) : '=' ∉ s := fun hc => (numChar_facts _ (h _ hc)).2.2.2.2.1 rfl

theorem tight_digits (n : Nat) : Tight (digits 10 n) := tight_numChars (digits_numChars (by omega) (by omega) n).2

theorem tight_hex (n : Nat) : Tight (formatHex n) := tight_numChars (hex_text n).chars

theorem mapM_ok_mem {α β : Type} {f : α → Except PyErr β} : ∀ {l : List α} {r : List β}, l.mapM f = .ok r → ∀ y ∈ r, ∃ x ∈ l, f x = .ok y
  | [], r, h => by cases h; simp
  | x :: l, r, h => by
    rw [List.mapM_cons] at h
    cases hx : f x with
    | error e => rw [hx] at h; cases h
    | ok y =>
      rw [hx] at h
      cases hl : l.mapM f with
      | error e => rw [hl] at h; cases h
      | ok ys =>
        rw [hl] at h
        cases h
        intro z hz
        rcases List.mem_cons.1 hz with rfl | hz
        · exact ⟨x, List.mem_cons_self, hx⟩
        · obtain ⟨w, hw, e⟩ := mapM_ok_mem hl z hz
          exact ⟨w, List.mem_cons_of_mem _ hw, e⟩

theorem action_tight {a : Action} (h : Writable a) {t : List Char} (e : actionToOvs a = .ok t) : Tight t := by
  cases a with
  | setField f v =>
    obtain ⟨hf, hv, hw⟩ := h
    obtain ⟨name, en, -, -, -, -, -, -, -, -, -, n10, -⟩ := fieldToOvs_facts f hf
    simp only [actionToOvs, en] at e
    cases e
    refine Tight.append (by unfold Tight; decide) (Tight.append ?_ (Tight.append (by unfold Tight; decide) fun c hc => (n10 c hc).2.2.2.2.2))
    refine tight_numChars (form_text hf ?_).chars
    by_cases hfv : f = fVid
    · subst hfv
      rw [if_pos rfl]
      intro w hw'
      have : w = 13 := by
        have h13 : fieldBits fVid = some 13 := by decide
        rw [h13] at hw'
        exact (Option.some.inj hw').symm
      subst this
      exact Nat.or_lt_two_pow (by have := hw rfl; omega) (by decide)
    · rw [if_neg hfv]; exact hv
  | output v => cases e; exact Tight.append (by unfold Tight; decide) (tight_digits v)
  | setMplsTtl v => cases e; exact Tight.append (by unfold Tight; decide) (tight_digits v)
  | setQueue v => cases e; exact Tight.append (by unfold Tight; decide) (tight_digits v)
  | setNwTtl v => cases e; exact Tight.append (by unfold Tight; decide) (tight_digits v)
  | pushVlan v => cases e; exact Tight.append (by unfold Tight; decide) (tight_hex v)
  | pushMpls v => cases e; exact Tight.append (by unfold Tight; decide) (tight_hex v)
  | popMpls v => cases e; exact Tight.append (by unfold Tight; decide) (tight_hex v)
  | decMplsTtl => cases e; unfold Tight; decide
  | popVlan => cases e; unfold Tight; decide
  | decNwTtl => cases e; unfold Tight; decide
  | _ => exact h.elim

theorem actions_tight {l : List Action} (h : ∀ a ∈ l, Writable a) {t : List Char} (e : actionsToOvs l = .ok t) : Tight t := by
  unfold actionsToOvs at e
  cases hm : l.mapM actionToOvs with
  | error x => rw [hm] at e; cases e
  | ok ts =>
    rw [hm] at e
    cases e
    refine Tight.join fun s hs => ?_
    obtain ⟨a, ha, ea⟩ := mapM_ok_mem hm s hs
    exact action_tight (h a ha) ea

theorem actionsToOvs_exists {l : List Action} (h : ∀ a ∈ l, Writable a) : ∃ t, actionsToOvs l = .ok t ∧ Tight t := by
  obtain ⟨ts, e, -⟩ := actions_text [] h
  exact ⟨_, by unfold actionsToOvs; rw [e]; rfl, actions_tight h (by unfold actionsToOvs; rw [e]; rfl)⟩

theorem inst_tight {i : Inst} (ha : ∀ a ∈ i.apply.iter, Writable a) (hw : ∀ a ∈ i.write.iter, Writable a) : ∃ t, instToOvs i = .ok t ∧ Tight t := by
  obtain ⟨ta, ea, hta⟩ := actionsToOvs_exists ha
  obtain ⟨tw, ew, htw⟩ := actionsToOvs_exists hw
  let A : List (List Char) := if i.apply.len = 0 then [] else [ta]
  let C : List (List Char) := if i.clear then ["clear_actions".toList] else []
  let W : List (List Char) := if i.write.len = 0 then [] else ["write_actions(".toList ++ (tw ++ ")".toList)]
  let M : List (List Char) := match i.wmeta with
    | none => []
    | some (v, none) => ["write_metadata:".toList ++ digits 10 v]
    | some (v, some m) => ["write_metadata:".toList ++ (digits 10 v ++ '/' :: digits 10 m)]
  let G : List (List Char) := match i.goto with
    | none => []
    | some t => ["goto_table:".toList ++ digits 10 t]
  have etext : instToOvs i = .ok (joinWith ',' (A ++ C ++ W ++ M ++ G)) := by
    unfold instToOvs
    rw [ea, ew]
    simp only [bind, Except.bind, A, W]
    by_cases h : i.apply.len = 0 <;> by_cases h' : i.write.len = 0
    · simp only [if_pos h, if_pos h', pure, Except.pure]; rfl
    · simp only [if_pos h, if_neg h', pure, Except.pure]; rfl
    · simp only [if_neg h, if_pos h', pure, Except.pure, Except.map]; rfl
    · simp only [if_neg h, if_neg h', pure, Except.pure, Except.map]; rfl
  refine ⟨_, etext, Tight.join fun s hs => ?_⟩
  simp only [List.mem_append] at hs
  rcases hs with (((hs | hs) | hs) | hs) | hs
  · by_cases h : i.apply.len = 0
    · simp only [A, if_pos h] at hs; cases hs
    · simp only [A, if_neg h, List.mem_singleton] at hs; exact hs ▸ hta
  · cases h : i.clear with
    | false => simp only [C, h, Bool.false_eq_true, if_false] at hs; cases hs
    | true =>
      simp only [C, h, if_true, List.mem_singleton] at hs
      subst hs
      unfold Tight; decide
  · by_cases h : i.write.len = 0
    · simp only [W, if_pos h] at hs; cases hs
    · simp only [W, if_neg h, List.mem_singleton] at hs
      subst hs
      exact Tight.append (by unfold Tight; decide) (htw.append (by unfold Tight; decide))
  · cases h : i.wmeta with
    | none => simp only [M, h] at hs; cases hs
    | some x =>
      obtain ⟨v, m⟩ := x
      cases m with
      | none =>
        simp only [M, h, List.mem_singleton] at hs
        subst hs
        exact Tight.append (by unfold Tight; decide) (tight_digits v)
      | some m =>
        simp only [M, h, List.mem_singleton] at hs
        subst hs
        exact Tight.append (by unfold Tight; decide) ((tight_digits v).append (Tight.append (s := ['/']) (by unfold Tight; decide) (tight_digits m)))
  · cases h : i.goto with
    | none => simp only [G, h] at hs; cases hs
    | some t =>
      simp only [G, h, List.mem_singleton] at hs
      subst hs
      exact Tight.append (by unfold Tight; decide) (tight_digits t)

/-- The words before `=` in the text of a rule. -/
def ruleWords : List (List Char) := "cookie".toList :: "table".toList :: "priority".toList :: "actions".toList :: fieldToOvs.map (·.2)

theorem lookup_mem {α β : Type} [BEq α] {l : List (α × β)} {k : α} {v : β} (h : l.lookup k = some v) : v ∈ l.map (·.2) := by
  induction l with
  | nil => cases h
  | cons x l ih =>
    obtain ⟨a, b⟩ := x
    rw [List.lookup_cons] at h
    split at h
    · cases h; exact List.mem_cons_self
    · exact List.mem_cons_of_mem _ (ih h)

theorem field_shape {x : Nat × Nat × Option Nat} (h : FieldOK x) {t : List Char} (e : fieldText x = .ok t) : Tight t ∧ EqEnds ruleWords t := by
  obtain ⟨name, en, -, -, -, -, -, -, -, n8, -, n10, n11, -⟩ := fieldToOvs_facts x.1 h.field
  have hv := form_text h.field h.value
  have hm : ∀ m, x.2.2 = some m → NumText ((fieldForm x.1).text m) m := fun m hm => form_text h.field (h.mask m hm)
  have hval : ∀ c ∈ withMask (fieldForm x.1).text x.2.1 x.2.2, c ≠ '=' ∧ c ≠ ',' ∧ isSpace c = false := by
    intro c hc
    unfold withMask at hc
    cases e2 : x.2.2 with
    | none => rw [e2] at hc; exact numText_val_item hv c hc
    | some m =>
      rw [e2] at hc
      rcases List.mem_append.1 hc with hc | hc
      · exact numText_val_item hv c hc
      · rcases List.mem_cons.1 hc with rfl | hc
        · decide
        · exact numText_val_item (hm m e2) c hc
  simp only [fieldText, en] at e
  cases e
  have hn : name ∈ ruleWords := by
    simp only [ruleWords, List.mem_cons]
    exact .inr (.inr (.inr (.inr (lookup_mem en))))
  constructor
  · exact Tight.append (fun c hc => (n10 c hc).2.2.2.2.2) (Tight.append (s := ['=']) (by unfold Tight; decide) fun c hc => (hval c hc).2.2)
  · have := (EqEnds.word hn (List.suffix_refl name) fun hc => (n10 _ hc).2.2.2.1 rfl).append
      (t := withMask (fieldForm x.1).text x.2.1 x.2.2) (.of_no fun hc => (hval _ hc).1 rfl)
    simpa using this

theorem eqEnds_arg {w v : List Char} (hw : w ∈ ruleWords) (h : '=' ∉ w) (hv : '=' ∉ v) : EqEnds ruleWords (w ++ '=' :: v) := by
  have := (EqEnds.word hw (List.suffix_refl w) h).append (t := v) (.of_no hv)
  simpa using this

theorem isSpace_newline : isSpace '\n' = true := by decide

theorem Tight.noNewline {s : List Char} (h : Tight s) : '\n' ∉ s := fun hm => by
  have := h _ hm
  rw [isSpace_newline] at this
  cases this

/-- What a written line looks like: it stands on one line, has no white space at the ends, and is not taken for a group. -/
theorem rule_shape {π : Type} {r : Rule π} (h : WritableRule r) {text : List Char} (e : ruleToOvs r = .ok text) :
    '\n' ∉ text ∧ Padded text text ∧ "actions=".toList <:+: text ∧ ¬ "group_id=".toList <:+: text := by
  obtain ⟨s, hs, es⟩ := h.apply
  obtain ⟨w, hw, ew⟩ := h.write
  obtain ⟨it, i', e1, e2, -, -⟩ := inst_text [] hs es hw ew h.meter
  obtain ⟨ts, f1, -, -, -⟩ := fields_items (π := π) h.fields
  have ei : ∃ t, instToOvs r.inst = .ok t ∧ Tight t := by
    have hks : AllKnown s := fun a ha => writable_known (hs a ha)
    have hkw : AllKnown w := fun a ha => writable_known (hw a ha)
    rw [ofList_known hks] at es
    have ea : r.inst.apply = mkList s := (Except.ok.inj es).symm
    have hsi : SetInv w r.inst.write := by
      obtain ⟨l, e, h⟩ := setInv_ofList w [] .empty setInv_empty (by simpa using hkw)
      rw [show List.foldlM actionSetAppend ActionList.empty w = .ok r.inst.write from ew] at e
      cases e
      simpa using h
    exact inst_tight (fun a ha => hs a (by rw [ea] at ha; exact (mkList_iter_trace s).perm.mem_iff.2 ha))
      fun a ha => hw a ((hsi.content a).1 (hsi.iter_perm.mem_iff.1 ha)).1.mem
  obtain ⟨it', e1', hti⟩ := ei
  rw [e1] at e1'
  cases e1'
  have hts : ∀ t ∈ ts, Tight t ∧ EqEnds ruleWords t := fun t ht => by
    obtain ⟨x, hx, ex⟩ := mapM_ok_mem f1 t ht
    exact field_shape (h.fields x hx) ex
  unfold ruleToOvs matchToOvs at e
  rw [f1, e1] at e
  have e := Except.ok.inj e
  have hline := e.symm.trans (head_eq (formatHex (r.cookie.getD 0)) (digits 10 r.table) (digits 10 r.priority) (joinWith ',' ts) it)
  have tC := tight_hex (r.cookie.getD 0)
  have tT := tight_digits r.table
  have tP := tight_digits r.priority
  have nC : '=' ∉ formatHex (r.cookie.getD 0) := numChars_mem (hex_text _).chars
  have nT : '=' ∉ digits 10 r.table := numChars_mem (digits_numChars (by omega) (by omega) _).2
  have nP : '=' ∉ digits 10 r.priority := numChars_mem (digits_numChars (by omega) (by omega) _).2
  have tM : Tight (joinWith ',' ts) := Tight.join fun t ht => (hts t ht).1
  have nM : EqEnds ruleWords (joinWith ',' ts) := EqEnds.join fun t ht => (hts t ht).2
  generalize formatHex (r.cookie.getD 0) = C at *
  generalize digits 10 r.table = T at *
  generalize digits 10 r.priority = P at *
  generalize joinWith ',' ts = M at *
  clear e
  subst hline
  refine ⟨?_, ?_, ?_, ?_⟩
  · simp only [List.mem_append, List.mem_cons, not_or]
    have := tC.noNewline; have := tT.noNewline; have := tP.noNewline; have := tM.noNewline; have := hti.noNewline
    refine ⟨⟨⟨⟨⟨⟨⟨?_, ?_, ?_, ?_⟩, ?_⟩, ?_, ?_, ?_, ?_⟩, ?_⟩, ?_, ?_, ?_, ?_⟩, ?_, ?_⟩, ?_, ?_⟩ <;> first | assumption | (unfold pat; decide) | decide
  · refine ⟨[], [], by simp, by simp, fun c hc => ?_⟩
    have hcs : isSpace c = false := by
      rcases hc with hc | hc
      · have : c = 'c' := by
          rw [show "cookie".toList = 'c' :: "ookie".toList from rfl] at hc
          simp only [List.cons_append, List.head?_cons] at hc
          exact (Option.some.inj hc).symm
        subst this; decide
      · by_cases hn : it = []
        · subst hn
          rw [List.append_nil, List.getLast?_append_of_ne_nil _ (by unfold pat; decide)] at hc
          have : c = '=' := by
            have : pat.getLast? = some '=' := by unfold pat; decide
            rw [this] at hc
            exact (Option.some.inj hc).symm
          subst this; decide
        · rw [← List.append_assoc, List.getLast?_append_of_ne_nil _ hn] at hc
          exact hti c (mem_of_last hc)
    intro hm
    rw [(show ∀ c ∈ [' ', '\t', '\n', '\r', '\x0b', '\x0c'], isSpace c = true by decide) c hm] at hcs
    cases hcs
  · exact ⟨_, it, by rw [show "actions=".toList = pat from rfl, List.append_assoc]⟩
  · have hends : EqEnds ruleWords (("cookie".toList ++ '=' :: (C ++ [','])) ++ [' '] ++ ("table".toList ++ '=' :: (T ++ [','])) ++ [' '] ++
        ("priority".toList ++ '=' :: (P ++ [','])) ++ (M ++ [' ']) ++ (pat ++ it)) := by
      have hc : ∀ {v : List Char}, '=' ∉ v → '=' ∉ v ++ [','] := fun hv => by
        rw [List.mem_append, not_or]; exact ⟨hv, by decide⟩
      have hs : EqEnds ruleWords [' '] := .of_no (by decide)
      have hp : EqEnds ruleWords (pat ++ it) := by
        have := eqEnds_arg (w := "actions".toList) (v := it) (by simp only [ruleWords, List.mem_cons, true_or, or_true]) (by decide) fun hm => e2 _ hm rfl
        exact this
      refine ((((((eqEnds_arg ?_ (by decide) (hc nC)).append hs).append (eqEnds_arg ?_ (by decide) (hc nT))).append hs).append
        (eqEnds_arg ?_ (by decide) (hc nP))).append (nM.append hs)).append hp <;> simp only [ruleWords, List.mem_cons, true_or, or_true]
    have hno : ∀ k ∈ ruleWords, ¬ k <:+ "group_id".toList ∧ ¬ "group_id".toList <:+ k := by decide +kernel
    exact hends.absent (p := "group_id".toList) hno

/-! ### The lines of a file -/

theorem splitAt_line {s t : List Char} (h : '\n' ∉ s) : splitAt '\n' (s ++ '\n' :: t) = s :: splitAt '\n' t := by
  induction s with
  | nil => rw [List.nil_append, splitAt, if_pos rfl]
  | cons c s ih =>
    rw [List.mem_cons, not_or] at h
    rw [List.cons_append, splitAt, if_neg fun e => h.1 e.symm, ih h.2]

theorem fileLines_join : ∀ {ts : List (List Char)}, (∀ t ∈ ts, '\n' ∉ t) → fileLines (ts.map (· ++ ['\n'])).flatten = ts ++ [[]]
  | [], _ => rfl
  | t :: ts, h => by
    have ih := fileLines_join fun x hx => h x (List.mem_cons_of_mem _ hx)
    unfold fileLines at *
    rw [List.map_cons, List.flatten_cons, List.append_assoc, List.cons_append, List.nil_append, splitAt_line (h t List.mem_cons_self), ih]
    rfl

end OFE.Ovs
