import Verif.Text.Lemmas
import Verif.Props.Equality
import Mathlib.Data.List.Forall2

/-! # C90: the text of a rule; C89: the text of a path -/

namespace OFE.Str
open Fmt Ovs

/-! ### Specification -/

/-- Specification: a rule that was built by the methods of its parts (the dict has each field once, lists have the length they report), has no groups,
only fields of OpenFlow 1.3 or their inner copies, and values and masks that fit their fields. -/
structure Fits {π : Type} (r : Rule π) : Prop where
  mat : r.mat.Inv
  entries : ∀ f v m, (f, v, m) ∈ r.mat.items → f < 56 ∧ InRange f v ∧ ∀ x, m = some x → InRange f x
  noGroup : ∀ g, Action.group g ∉ r.inst.apply.iter ∧ Action.group g ∉ r.inst.write.iter
  fields : ∀ f v, Action.setField f v ∈ r.inst.apply.iter ∨ Action.setField f v ∈ r.inst.write.iter → f < 56
  lengths : r.inst.apply.len = r.inst.apply.iter.length ∧ r.inst.write.len = r.inst.write.iter.length

/-- Specification: the lines of `out` are those of `lines`, indented, with an arrow on exactly one. -/
def Arrowed (lines out : List (List Char)) : Prop :=
  ∃ before l after, lines = before ++ l :: after ∧
    out = before.map ("\t".toList ++ ·) ++ ("\t--> ".toList ++ l) :: after.map ("\t".toList ++ ·)

/-! ### Helper lemmas -/

theorem Fits.inst {π : Type} {r : Rule π} (h : Fits r) : InstOK r.inst := by
  refine ⟨fun a ha => ⟨?_, ?_⟩, fun a ha => ⟨?_, ?_⟩, h.lengths.1, h.lengths.2⟩
  · rintro g rfl; exact (h.noGroup g).1 ha
  · rintro f v rfl; exact h.fields f v (Or.inl ha)
  · rintro g rfl; exact (h.noGroup g).2 ha
  · rintro f v rfl; exact h.fields f v (Or.inr ha)

theorem Fits.entry {π : Type} {r : Rule π} (h : Fits r) : ∀ x ∈ r.mat.items, EntryOK x := fun x hx => h.entries x.1 x.2.1 x.2.2 hx

theorem mem_joinS {c : Char} {sep : List Char} : ∀ {ps : List (List Char)}, c ∈ join sep ps → c ∈ sep ∨ ∃ p ∈ ps, c ∈ p
  | [], h => by simp [join] at h
  | [p], h => Or.inr ⟨p, by simp, h⟩
  | p :: q :: rest, h => by
    simp only [join, List.mem_append] at h
    rcases h with h | h | h
    · exact Or.inr ⟨p, by simp, h⟩
    · exact Or.inl h
    · rcases mem_joinS h with h | ⟨x, hx, h⟩
      · exact Or.inl h
      · exact Or.inr ⟨x, List.mem_cons_of_mem _ hx, h⟩

theorem nl_digits (n : Nat) : '\n' ∉ digits 10 n := fun h => absurd (digits_dig n _ h) (by decide)

theorem nl_opt (n : Option Nat) : '\n' ∉ optNum n := by
  cases n with
  | none => decide
  | some n => exact nl_digits n

theorem nl_field {f : Nat} (hf : f < 56) : '\n' ∉ fieldName f := by
  intro h
  have := List.all_eq_true.1 names_ok f (List.mem_range.2 hf)
  rw [Bool.and_eq_true] at this
  exact absurd (List.all_eq_true.1 this.2 _ h) (by decide)

theorem nl_form {f v : Nat} (hf : f < 56) (hv : InRange f v) : '\n' ∉ (fieldForm f).text v := fun h => absurd (form_chars hf hv _ h) (by decide)

theorem nl_entry {x : Nat × Nat × Option Nat} (hx : EntryOK x) : '\n' ∉ entryText x := by
  obtain ⟨f, v, m⟩ := x
  obtain ⟨h1, h2, h3⟩ := hx
  simp only [entryText, List.mem_append, not_or]
  refine ⟨nl_field h1, by decide, ?_⟩
  cases m with
  | none => exact nl_form h1 h2
  | some m =>
    simp only [withMask, List.mem_append, List.mem_cons, not_or]
    exact ⟨nl_form h1 h2, by decide, nl_form h1 (h3 m rfl)⟩

theorem nl_match {m : Match} (h : ∀ x ∈ m.items, EntryOK x) : '\n' ∉ matchText m := by
  simp only [matchText, List.mem_append, not_or]
  refine ⟨by decide, fun hn => ?_, by decide⟩
  rcases mem_joinS hn with h1 | ⟨p, hp, h1⟩
  · exact absurd h1 (by decide)
  · obtain ⟨x, hx, rfl⟩ := List.mem_map.1 hp
    exact nl_entry (h x hx) h1

theorem nl_value {gt : Nat → List Char} {a : Action} (h : ActOK a) : '\n' ∉ valueText gt a := by
  cases a
  case setField f v =>
    simp only [valueText, List.mem_append, not_or]
    exact ⟨by decide, nl_field (h.2 _ _ rfl), by decide, nl_digits v, by decide⟩
  case group g => exact absurd rfl (h.1 g)
  all_goals first | exact nl_digits _ | exact (by decide : '\n' ∉ "None".toList)

theorem nl_name (a : Action) : '\n' ∉ actionName a := by
  intro h
  exact absurd (List.all_eq_true.1 (List.all_eq_true.1 tyNames_ok a.ty (List.mem_range.2 (ty_lt a))) _ h) (by decide)

theorem nl_action {gt : Nat → List Char} {a : Action} (h : ActOK a) : '\n' ∉ actionText gt a := by
  simp only [actionText, List.mem_append, not_or]
  exact ⟨by decide, nl_name a, by decide, nl_value h, by decide⟩

theorem nl_actions {gt : Nat → List Char} {l : List Action} (h : ∀ a ∈ l, ActOK a) : '\n' ∉ join ",".toList (l.map (actionText gt)) := by
  intro hn
  rcases mem_joinS hn with h1 | ⟨p, hp, h1⟩
  · exact absurd h1 (by decide)
  · obtain ⟨x, hx, rfl⟩ := List.mem_map.1 hp
    exact nl_action (h x hx) h1

theorem nl_tag (i : Fin 6) : '\n' ∉ tagText i := by
  revert i
  decide +kernel

theorem nl_part {gt : Nat → List Char} {p : IPart} (h : p.OK) : '\n' ∉ p.text gt := by
  simp only [IPart.text, List.mem_append, not_or]
  refine ⟨nl_tag _, ?_⟩
  cases p
  case goto n => exact nl_digits n
  case meter n => exact nl_digits n
  case clear => simp [IPart.body]
  case apply l =>
    simp only [IPart.body, List.mem_append, not_or]
    exact ⟨nl_actions h, by decide⟩
  case write l =>
    simp only [IPart.body, List.mem_append, not_or]
    exact ⟨nl_actions h, by decide⟩
  case wmeta v m =>
    simp only [IPart.body, List.mem_append, not_or]
    exact ⟨nl_digits v, by decide, nl_opt m, by decide⟩

theorem nl_inst {gt : Nat → List Char} {i : Inst} (h : InstOK i) : '\n' ∉ instText gt i := by
  rw [instText_parts]
  simp only [List.mem_append, not_or]
  refine ⟨by decide, fun hn => ?_, by decide⟩
  rcases mem_joinS hn with h1 | ⟨p, hp, h1⟩
  · exact absurd h1 (by decide)
  · obtain ⟨x, hx, rfl⟩ := List.mem_map.1 hp
    exact nl_part (parts_ok h x hx) h1

/-- The six lines of the text of a rule. -/
def ruleLines {π : Type} (gt : Nat → List Char) (r : Rule π) : List (List Char) :=
  ["Rule(".toList, "\tpriority: ".toList ++ digits 10 r.priority, "\tcookie: ".toList ++ optNum r.cookie, "\tmatch: ".toList ++ matchText r.mat,
   "\tinstructions: ".toList ++ instText gt r.inst, "\ttable: ".toList ++ (digits 10 r.table ++ ")".toList)]

theorem lit1 : "Rule(\n\tpriority: ".toList = "Rule(".toList ++ '\n' :: "\tpriority: ".toList := by decide +kernel
theorem lit2 : "\n\tcookie: ".toList = '\n' :: "\tcookie: ".toList := by decide +kernel
theorem lit3 : "\n\tmatch: ".toList = '\n' :: "\tmatch: ".toList := by decide +kernel
theorem lit4 : "\n\tinstructions: ".toList = '\n' :: "\tinstructions: ".toList := by decide +kernel
theorem lit5 : "\n\ttable: ".toList = '\n' :: "\ttable: ".toList := by decide +kernel

theorem ruleText_join {π : Type} (gt : Nat → List Char) (r : Rule π) : ruleText gt r = joinWith '\n' (ruleLines gt r) := by
  unfold ruleText ruleLines
  rw [lit1, lit2, lit3, lit4, lit5]
  simp only [joinWith, List.append_assoc, List.cons_append]

theorem nl_ruleLines {π : Type} (gt : Nat → List Char) {r : Rule π} (h : Fits r) : ∀ p ∈ ruleLines gt r, '\n' ∉ p := by
  intro p hp
  simp only [ruleLines, List.mem_cons, List.not_mem_nil, or_false] at hp
  rcases hp with rfl | rfl | rfl | rfl | rfl | rfl
  · decide
  · simp only [List.mem_append, not_or]; exact ⟨by decide, nl_digits _⟩
  · simp only [List.mem_append, not_or]; exact ⟨by decide, nl_opt _⟩
  · simp only [List.mem_append, not_or]; exact ⟨by decide, nl_match h.entry⟩
  · simp only [List.mem_append, not_or]; exact ⟨by decide, nl_inst h.inst⟩
  · simp only [List.mem_append, not_or]; exact ⟨by decide, nl_digits _, by decide⟩

/-! ### C90 -/

/-- C90: rules with the same text are equal. -/
theorem C90_text {π : Type} (gt : Nat → List Char) (r s : Rule π) (hr : Fits r) (hs : Fits s) (h : ruleText gt r = ruleText gt s) :
    r.eq s = true := by
  unfold ruleText at h
  replace h := List.append_cancel_left h
  obtain ⟨h1, h⟩ := reads_digits _ _ _ _ trivial trivial (stops_app (by decide +kernel) _) (stops_app (by decide +kernel) _) h
  replace h := List.append_cancel_left h
  obtain ⟨h2, h⟩ := reads_opt _ _ _ _ trivial trivial (stops_app (by decide +kernel) _) (stops_app (by decide +kernel) _) h
  replace h := List.append_cancel_left h
  simp only [matchText, List.append_assoc] at h
  replace h := List.append_cancel_left h
  obtain ⟨h3, h⟩ := entries_reads hr.entry hs.entry h
  replace h := List.append_cancel_left (List.append_cancel_left h)
  obtain ⟨⟨g1, g2, g3, g4, g5, g6⟩, h⟩ := inst_reads gt hr.inst hs.inst h
  replace h := List.append_cancel_left h
  have e4 : Stops isDig ")".toList := by
    have := stops_app (lit := ")".toList) (cls := isDig) (by decide +kernel) []
    rwa [List.append_nil] at this
  obtain ⟨h4, -⟩ := reads_digits _ _ _ _ trivial trivial e4 e4 h
  rw [ruleEq_iff, instEq_iff, actionEq_iff, actionEq_iff, matchEq_iff hr.mat hs.mat]
  exact ⟨h1, h2, fun k => by rw [h3], ⟨g1, g4, g5, g2, g3, g6⟩, h4⟩

/-- C90: the text has six lines: the frame, priority, cookie, match, instructions and table. -/
theorem C90_lines {π : Type} (gt : Nat → List Char) (r : Rule π) (hr : Fits r) :
    ∃ p c m i t, Fmt.splitAt '\n' (ruleText gt r) = ["Rule(".toList, "\tpriority: ".toList ++ p, "\tcookie: ".toList ++ c, "\tmatch: ".toList ++ m,
      "\tinstructions: ".toList ++ i, "\ttable: ".toList ++ (t ++ ")".toList)] ∧ readNum 10 p = .ok r.priority ∧ readNum 10 t = .ok r.table := by
  refine ⟨digits 10 r.priority, optNum r.cookie, matchText r.mat, instText gt r.inst, digits 10 r.table, ?_,
    readNum_digits (by omega) (by omega) _, readNum_digits (by omega) (by omega) _⟩
  rw [ruleText_join, splitAt_join (by simp [ruleLines]) (nl_ruleLines gt hr)]
  rfl

/-- The rule used in the examples: ETH_DST and masked IPV4_SRC, a set-field and an output. -/
def sampleRule (dst : Nat) : Rule Unit :=
  ⟨7, none, 0, (Match.empty.append 3 dst none).append 11 0x0a000000 (some 0xff000000),
    ⟨some 1, ⟨[[.setField 6 5], [.output 2]], [.setField 6 5, .output 2]⟩, .empty, some (1, none), true, none⟩, []⟩

theorem sample_fits {dst : Nat} (h : dst < 2 ^ 48) : Fits (sampleRule dst) := by
  refine ⟨(inv_append (inv_append inv_empty _ _ _) _ _ _), ?_, ?_, ?_, ?_⟩
  · intro f v m hm
    have hm' : (f, v, m) ∈ [(3, dst, none), (11, 0x0a000000, some 0xff000000)] := hm
    simp only [List.mem_cons, Prod.mk.injEq, List.not_mem_nil, or_false] at hm'
    rcases hm' with ⟨rfl, rfl, rfl⟩ | ⟨rfl, rfl, rfl⟩
    · refine ⟨by omega, ?_, by simp⟩
      intro w hw
      have : some w = some 48 := hw.symm.trans (by decide +kernel)
      cases this; exact h
    · refine ⟨by omega, ?_, ?_⟩
      · intro w hw
        have : some w = some 32 := hw.symm.trans (by decide +kernel)
        cases this; decide
      · intro x hx w hw
        cases hx
        have : some w = some 32 := hw.symm.trans (by decide +kernel)
        cases this; decide
  · intro g; exact ⟨by simp [sampleRule, ActionList.iter], by simp [sampleRule, ActionList.iter, ActionList.empty]⟩
  · intro f v h
    simp [sampleRule, ActionList.iter, ActionList.empty] at h
    omega
  · exact ⟨rfl, rfl⟩

/-- What the formats do with values that are too long: the last digit is dropped. -/
theorem ethernet_long : formatEthernet (2 ^ 44) = "10:00:00:00:00:00".toList ∧ formatEthernet (2 ^ 48) = "10:00:00:00:00:00".toList := by
  constructor
  · simp only [formatEthernet, padHex]
    have : digits 16 (2 ^ 44) = "100000000000".toList := by simp [digits, digitChar]
    rw [this]; decide
  · simp only [formatEthernet, padHex]
    have : digits 16 (2 ^ 48) = "1000000000000".toList := by simp [digits, digitChar]
    rw [this]; decide

/-- C90 fails for values that do not fit: two rules with the same text that differ. -/
theorem C90_too_long : ∃ r s : Rule Unit, (∀ gt, ruleText gt r = ruleText gt s) ∧ r.eq s = false := by
  refine ⟨sampleRule (2 ^ 44), sampleRule (2 ^ 48), fun gt => ?_, by decide +kernel⟩
  have e : ∀ d, matchText (sampleRule d).mat = "{".toList ++ (join ", ".toList [entryText (3, d, none), entryText (11, 0x0a000000, some 0xff000000)] ++ "}".toList) :=
    fun d => by
      have : (sampleRule d).mat.items = [(3, d, none), (11, 0x0a000000, some 0xff000000)] := rfl
      rw [matchText, this]; rfl
  have f : entryText (3, 2 ^ 44, none) = entryText (3, 2 ^ 48, none) := by
    have g : ∀ d, entryText (3, d, none) = fieldName 3 ++ (": ".toList ++ formatEthernet d) := fun _ => rfl
    rw [g, g, ethernet_long.1, ethernet_long.2]
  have m : matchText (sampleRule (2 ^ 44)).mat = matchText (sampleRule (2 ^ 48)).mat := by rw [e, e, f]
  unfold ruleText
  rw [m]
  rfl

example : Fits (sampleRule 0x0102030405ff) ∧ Fits (sampleRule 1) := ⟨sample_fits (by omega), sample_fits (by omega)⟩
example (gt : Nat → List Char) : ruleText gt (sampleRule 1) ≠ ruleText gt (sampleRule 2) := fun h =>
  absurd (C90_text gt _ _ (sample_fits (by omega)) (sample_fits (by omega)) h) (by decide +kernel)

/-! ### C89 -/

theorem indent_arrowed (py3 : Bool) (lines : List (List Char)) (i : Nat) (hi : i < lines.length) (h : ∀ j, isHalf py3 lines.length j = true ↔ j = i) :
    Arrowed lines (indent py3 lines) := by
  refine ⟨lines.take i, lines[i], lines.drop (i + 1), ?_, ?_⟩
  · rw [← List.drop_eq_getElem_cons hi, List.take_append_drop]
  · apply List.ext_getElem?
    intro j
    simp only [indent, List.getElem?_mapIdx]
    rcases Nat.lt_trichotomy j i with hj | rfl | hj
    · rw [List.getElem?_append_left (by simp; omega)]
      have : isHalf py3 lines.length j = false := by
        rw [← Bool.not_eq_true, h]; omega
      simp [this, hj]
    · have : isHalf py3 lines.length j = true := (h j).2 rfl
      rw [List.getElem?_append_right (by simp)]
      simp [this, hi, Nat.min_eq_left (Nat.le_of_lt hi)]
    · rw [List.getElem?_append_right (by simp; omega)]
      have : isHalf py3 lines.length j = false := by
        rw [← Bool.not_eq_true, h]; omega
      obtain ⟨k, rfl⟩ : ∃ k, j = i + 1 + k := ⟨j - (i + 1), by omega⟩
      have e : i + 1 + k - (List.map (fun x => "\t".toList ++ x) (List.take i lines)).length = k + 1 := by
        simp [Nat.min_eq_left (Nat.le_of_lt hi)]; omega
      rw [e]
      simp [this, List.getElem?_drop]

/-- What `format_path` makes of a text after the first. -/
def block (py3 : Bool) (s : List Char) : List Char := joinWith '\n' (indent py3 (Fmt.splitAt '\n' s)) ++ "\n".toList

theorem formatPath_foldl (py3 : Bool) : ∀ (rest : List (List Char)) (b : List Char), b ≠ [] →
    rest.foldl (fun build string => if build.isEmpty then build ++ (string ++ "\n".toList)
      else build ++ (joinWith '\n' (indent py3 (Fmt.splitAt '\n' string)) ++ "\n".toList)) b = b ++ (rest.map (block py3)).flatten
  | [], b, _ => by simp
  | s :: rest, b, hb => by
    have : b.isEmpty = false := by cases b with | nil => exact absurd rfl hb | cons => rfl
    rw [List.foldl_cons, this, if_neg (by simp), formatPath_foldl py3 rest _ (by simp [hb])]
    simp [block]

theorem formatPath_cons (py3 : Bool) (s : List Char) (rest : List (List Char)) :
    formatPath py3 (s :: rest) = s ++ ("\n".toList ++ (rest.map (block py3)).flatten) := by
  unfold formatPath
  rw [List.foldl_cons]
  have : ([] : List Char).isEmpty = true := rfl
  rw [this, if_pos rfl, formatPath_foldl _ _ _ (by simp)]
  simp

/-- C89 for any texts, with the part that depends on the number of lines as a hypothesis: python 3 needs even numbers of lines.
Missing: odd numbers of lines on python 3, for which it is false (`C89_odd`); texts of rules have six lines (`C89_path`). -/
theorem C89_texts_partial (py3 : Bool) (s : List Char) (rest : List (List Char))
    (heven : py3 = true → ∀ t ∈ rest, (Fmt.splitAt '\n' t).length % 2 = 0) :
    ∃ blocks : List (List (List Char)), List.Forall₂ (fun t b => Arrowed (Fmt.splitAt '\n' t) b) rest blocks ∧
      formatPath py3 (s :: rest) = s ++ ("\n".toList ++ (blocks.map fun b => joinWith '\n' b ++ "\n".toList).flatten) := by
  refine ⟨rest.map fun t => indent py3 (Fmt.splitAt '\n' t), ?_, ?_⟩
  · rw [List.forall₂_map_right_iff]
    rw [List.forall₂_same]
    intro t ht
    have hpos : 0 < (Fmt.splitAt '\n' t).length := List.length_pos_iff.2 (splitAt_ne_nil _ _)
    refine indent_arrowed py3 _ ((Fmt.splitAt '\n' t).length / 2) (by omega) fun j => ?_
    cases py3 with
    | false => simp [isHalf]
    | true =>
      have := heven rfl t ht
      simp only [isHalf, if_true, beq_iff_eq]
      omega
  · rw [formatPath_cons, List.map_map]
    rfl

/-- C89: the first rule as it is, every later one indented with one arrow, in order, on both pythons. -/
theorem C89_path {π : Type} (gt : Nat → List Char) (py3 : Bool) (r : Rule π) (rest : List (Rule π)) (h : ∀ s ∈ rest, Fits s) :
    ∃ blocks : List (List (List Char)), List.Forall₂ (fun s b => Arrowed (Fmt.splitAt '\n' (ruleText gt s)) b) rest blocks ∧
      formatPath py3 ((r :: rest).map (ruleText gt)) =
        ruleText gt r ++ ("\n".toList ++ (blocks.map fun b => joinWith '\n' b ++ "\n".toList).flatten) := by
  obtain ⟨blocks, h1, h2⟩ := C89_texts_partial py3 (ruleText gt r) (rest.map (ruleText gt)) (by
    intro _ t ht
    obtain ⟨s, hs, rfl⟩ := List.mem_map.1 ht
    obtain ⟨p, c, m, i, t, he, -⟩ := C90_lines gt s (h s hs)
    rw [he]; simp)
  rw [List.forall₂_map_left_iff] at h1
  exact ⟨blocks, h1, h2⟩

/-- C89 fails for texts with an odd number of lines on python 3: `len(lines) / 2` is not a whole number and no line has the arrow. -/
theorem C89_odd (s t : List Char) (h : (Fmt.splitAt '\n' t).length % 2 = 1) :
    formatPath true [s, t] = s ++ ("\n".toList ++ (joinWith '\n' ((Fmt.splitAt '\n' t).map ("\t".toList ++ ·)) ++ "\n".toList)) := by
  rw [formatPath_cons]
  simp only [List.map_cons, List.map_nil, List.flatten_cons, List.flatten_nil, List.append_nil, block, indent]
  congr 4
  apply List.ext_getElem?
  intro j
  have : isHalf true (Fmt.splitAt '\n' t).length j = false := by
    simp only [isHalf, if_true, beq_eq_false_iff_ne]; omega
  simp [List.getElem?_mapIdx, this]

example : ∀ s ∈ [sampleRule 1, sampleRule 2], Fits s := by
  intro s hs
  simp only [List.mem_cons, List.not_mem_nil, or_false] at hs
  rcases hs with rfl | rfl <;> exact sample_fits (by omega)
example : formatPath true ["a".toList, "b\nc".toList, "d\ne".toList] = "a\n\tb\n\t--> c\n\td\n\t--> e\n".toList := by decide +kernel
example : formatPath false ["a".toList, "b".toList] = "a\n\t--> b\n".toList := by decide +kernel
example : formatPath true ["a".toList, "b".toList] = "a\n\tb\n".toList := by decide +kernel
example : (Fmt.splitAt '\n' "b\nc\nd".toList).length % 2 = 1 := by decide +kernel

end OFE.Str
