import Verif.Graph.Label
import Verif.Props.Util
import Verif.Props.Main
import Verif.Text.Codes

/-!
# Labels, options and the web page of the graph (C105)
-/

namespace OFE.Label

open OFE.Fmt OFE.Graph

/-! ### Labels -/

/-- Specification: how a number is shown, in decimal or with letters (`--help` of graph_ruleset_deps.py: "format() a node name, extra z or Z modifier
for alpha"). -/
inductive Style where
  | decimal
  | lower
  | upper
deriving DecidableEq

/-- Specification: the number in that form. -/
def Style.show : Style → Nat → List Char
  | .decimal, n => digits 10 n
  | .lower, n => Util.alphaFormat false n
  | .upper, n => Util.alphaFormat true n

/-- Specification: the part behind the name of a field. -/
def Style.spec : Style → List Char
  | .decimal => []
  | .lower => [':', 'z']
  | .upper => [':', 'Z']

/-- Specification: a label is made of characters and of places for the number. -/
inductive Part where
  | char (c : Char)
  | num (s : Style)
deriving DecidableEq

/-- Specification: how a part is written in a format string; braces are doubled, and the places all have the number 0 (`ex`) or none has a number. -/
def Part.render (ex : Bool) : Part → List Char
  | .char c => if c = '{' then ['{', '{'] else if c = '}' then ['}', '}'] else [c]
  | .num s => '{' :: ((if ex then ['0'] else []) ++ s.spec ++ ['}'])

/-- Specification: the format string. -/
def render (ex : Bool) (ps : List Part) : List Char := (ps.map (Part.render ex)).flatten

/-- Specification: what it stands for. -/
def meaning (ps : List Part) (n : Nat) : List Char := (ps.map fun | .char c => [c] | .num s => s.show n).flatten

/-- Specification: the number of places for the number. -/
def places (ps : List Part) : Nat := ps.countP fun | .num _ => true | _ => false

theorem value_spec (ext : List Char → Nat → Except PyErr (List Char)) (n : Nat) (s : Style) : alphaValue ext n (s.spec.drop 1) = .ok (s.show n) := by
  cases s <;> simp [alphaValue, Style.spec, Style.show]

theorem format_char (val : List Char → Except PyErr (List Char)) (st : Numbering) (ex : Bool) (c : Char) (r : List Char) :
    formatLoop val .text st (Part.render ex (.char c) ++ r) = (formatLoop val .text st r).map (c :: ·) := by
  by_cases h1 : c = '{'
  · subst h1; rfl
  · by_cases h2 : c = '}'
    · subst h2; rfl
    · simp only [Part.render, if_neg h1, if_neg h2]
      show formatLoop val .text st (c :: r) = _
      rw [formatLoop, if_neg h1, if_neg h2]

theorem format_num (ext : List Char → Nat → Except PyErr (List Char)) (n : Nat) (st : Numbering) (ex : Bool) (s : Style) (r : List Char) :
    formatLoop (alphaValue ext n) .text st (Part.render ex (.num s) ++ r) =
      (argOf st (if ex then ['0'] else [])).bind fun st' => (formatLoop (alphaValue ext n) .text st' r).map (s.show n ++ ·) := by
  have hv := value_spec ext n s
  cases ex <;> cases s <;> cases st <;>
    simp [Part.render, formatLoop, Style.spec, argOf, alphaValue, Style.show, bind, Except.bind, List.takeWhile, List.dropWhile]

theorem format_explicit (ext : List Char → Nat → Except PyErr (List Char)) (n : Nat) (ps : List Part) (st : Numbering) (h : st ≠ .auto) :
    formatLoop (alphaValue ext n) .text st (render true ps) = .ok (meaning ps n) := by
  induction ps generalizing st with
  | nil => rfl
  | cons p ps ih =>
    rw [show render true (p :: ps) = p.render true ++ render true ps from rfl]
    cases p with
    | char c => rw [format_char, ih st h]; rfl
    | num s =>
      rw [format_num, show argOf st (if true then ['0'] else []) = .ok .manual from by cases st <;> first | exact absurd rfl h | decide]
      simp only [Except.bind]
      rw [ih .manual (by decide)]; rfl

theorem format_none (ext : List Char → Nat → Except PyErr (List Char)) (n : Nat) (ps : List Part) (ex : Bool) (st : Numbering) (h : places ps = 0) :
    formatLoop (alphaValue ext n) .text st (render ex ps) = .ok (meaning ps n) := by
  induction ps with
  | nil => rfl
  | cons p ps ih =>
    rw [show render ex (p :: ps) = p.render ex ++ render ex ps from rfl]
    cases p with
    | char c => rw [format_char, ih (by simpa [places] using h)]; rfl
    | num s => simp [places] at h

theorem format_implicit (ext : List Char → Nat → Except PyErr (List Char)) (n : Nat) (ps : List Part) (h : places ps ≤ 1) :
    formatLoop (alphaValue ext n) .text .unknown (render false ps) = .ok (meaning ps n) := by
  induction ps with
  | nil => rfl
  | cons p ps ih =>
    rw [show render false (p :: ps) = p.render false ++ render false ps from rfl]
    cases p with
    | char c => rw [format_char, ih (by simpa [places] using h)]; rfl
    | num s =>
      rw [format_num]
      simp only [argOf, Bool.false_eq_true, if_false, if_true, Except.bind]
      rw [format_none _ _ _ _ _ (by simpa [places] using h)]; rfl

theorem digits_mono {i j : Nat} (h : i ≤ j) : (digits 10 i).length ≤ (digits 10 j).length := by
  induction j using Nat.strongRecOn generalizing i with
  | _ j ih =>
    by_cases hi : i < 10
    · rw [digits, if_pos (.inl hi)]
      exact digits_length_pos 10 j
    · rw [digits, if_neg (by omega), digits.eq_1 10 j, if_neg (by omega)]
      simp only [List.length_append, List.length_singleton]
      have := ih (j / 10) (by omega) (i := i / 10) (by omega)
      omega

theorem alpha_grows (v : Int) (acc : List Char) : acc.length ≤ (Util.alphaLoop v acc).length := by
  fun_induction Util.alphaLoop v acc with
  | case1 v acc hv ih => simp only [List.length_cons] at ih; omega
  | case2 v acc hv => omega

theorem alpha_mono (v : Int) (acc : List Char) : ∀ (w : Int) (acc' : List Char), v ≤ w → acc.length ≤ acc'.length →
    (Util.alphaLoop v acc).length ≤ (Util.alphaLoop w acc').length := by
  fun_induction Util.alphaLoop v acc with
  | case1 v acc hv ih =>
    intro w acc' hw ha
    rw [Util.alphaLoop.eq_1 w acc', if_pos (by omega)]
    refine ih _ _ (by omega) ?_
    simp only [List.length_cons]; omega
  | case2 v acc hv =>
    intro w acc' _ ha
    exact Nat.le_trans ha (alpha_grows w acc')

theorem show_mono (s : Style) {i j : Nat} (h : i ≤ j) : (s.show i).length ≤ (s.show j).length := by
  cases s with
  | decimal => exact digits_mono h
  | lower => exact alpha_mono i [] j [] (by omega) (by simp)
  | upper =>
    simp only [Style.show, Util.alphaFormat, if_true, List.length_map]
    exact alpha_mono i [] j [] (by omega) (by simp)

theorem show_inj (s : Style) {i j : Nat} (h : s.show i = s.show j) : i = j := by
  cases s with
  | decimal => exact Str.digits_inj h
  | lower => have := (Util.C49_letters false).2.1 i j (by omega) (by omega) h; omega
  | upper => have := (Util.C49_letters true).2.1 i j (by omega) (by omega) h; omega

theorem meaning_mono (ps : List Part) {i j : Nat} (h : i ≤ j) : (meaning ps i).length ≤ (meaning ps j).length := by
  induction ps with
  | nil => simp [meaning]
  | cons p ps ih =>
    simp only [meaning, List.map_cons, List.flatten_cons, List.length_append] at ih ⊢
    cases p with
    | char c => simp only; omega
    | num s => have := show_mono s h; simp only; omega

theorem meaning_inj_le (ps : List Part) (hp : 0 < places ps) {i j : Nat} (hle : i ≤ j) (h : meaning ps i = meaning ps j) : i = j := by
  induction ps with
  | nil => simp [places] at hp
  | cons p ps ih =>
    cases p with
    | char c =>
      refine ih (by simpa [places] using hp) ?_
      simpa [meaning] using h
    | num s =>
      have hl := congrArg List.length h
      have h1 := show_mono s hle
      have h2 := meaning_mono ps hle
      simp only [meaning, List.map_cons, List.flatten_cons, List.length_append] at hl h h2
      exact show_inj s (List.append_inj_left h (by omega))

/-- C105: a label made of characters and places for the number is what it says, and different for different rules if there is a place for the number at
all.  The places all have the number 0, or there is at most one. -/
theorem C105_labels (ext : List Char → Nat → Except PyErr (List Char)) (ex : Bool) (ps : List Part) (h : ex = true ∨ places ps ≤ 1) :
    (∀ i, labelOf ext (render ex ps) i = .ok (meaning ps i)) ∧ (0 < places ps → ∀ i j, meaning ps i = meaning ps j → i = j) := by
  constructor
  · intro i
    cases ex with
    | true => exact format_explicit ext i ps .unknown (by decide)
    | false => exact format_implicit ext i ps (h.resolve_left (by decide))
  · intro hp i j e
    rcases Nat.le_total i j with hle | hle
    · exact meaning_inj_le ps hp hle e
    · exact (meaning_inj_le ps hp hle e.symm).symm

/-- `{0:Z} ({0})` has two places: rule 27 is "AB (27)". -/
example : render true [.num .upper, .char ' ', .char '(', .num .decimal, .char ')'] = "{0:Z} ({0})".toList ∧
    labelOf (fun _ _ => .error .fuel) "{0:Z} ({0})".toList 27 = .ok "AB (27)".toList := by
  refine ⟨by decide, ?_⟩
  have := (C105_labels (fun _ _ => .error .fuel) true [.num .upper, .char ' ', .char '(', .num .decimal, .char ')'] (.inl rfl)).1 27
  rw [show render true [.num .upper, .char ' ', .char '(', .num .decimal, .char ')'] = "{0:Z} ({0})".toList from by decide] at this
  have h1 : Util.alphaLoop 27 [] = ['a', 'b'] := by simp [Util.alphaLoop]
  rw [this]
  simp only [meaning, List.map_cons, Style.show, Util.alphaFormat, Int.cast_ofNat_Int, h1]
  decide +kernel

/-- With two places and no numbers the second is for an argument that is not there. -/
theorem C105_two_places (ext : List Char → Nat → Except PyErr (List Char)) (ps : List Part) (h : 2 ≤ places ps) (i : Nat) :
    labelOf ext (render false ps) i = .error .indexError := by
  have auto : ∀ ps : List Part, 0 < places ps → formatLoop (alphaValue ext i) .text .auto (render false ps) = .error .indexError := by
    intro ps
    induction ps with
    | nil => intro h; simp [places] at h
    | cons p ps ih =>
      intro h
      rw [show render false (p :: ps) = p.render false ++ render false ps from rfl]
      cases p with
      | char c => rw [format_char, ih (by simpa [places] using h)]; rfl
      | num s => rw [format_num]; rfl
  unfold labelOf formatOne
  induction ps with
  | nil => simp [places] at h
  | cons p ps ih =>
    rw [show render false (p :: ps) = p.render false ++ render false ps from rfl]
    cases p with
    | char c => rw [format_char, ih (by simpa [places] using h)]; rfl
    | num s =>
      rw [format_num]
      simp only [argOf, Bool.false_eq_true, if_false, if_true, Except.bind]
      rw [auto _ (by simp [places] at h ⊢; omega)]; rfl

example : labelOf (fun _ _ => .error .fuel) "{}-{:Z}".toList 3 = .error .indexError :=
  C105_two_places _ [.num .decimal, .char '-', .num .upper] (by decide) 3

/-! ### All rules of a graph -/

theorem named_total {fmt : Nat → Except PyErr (List Char)} {m : Nat → List Char} (h : ∀ i, fmt i = .ok (m i)) (nodes : List Nat) (l : List Nat) (s : Labels) :
    l.foldlM (namedStep fmt nodes) ⟨s.label.map fun x => (x.1, m x.2), s.unreachable, s.mins⟩ =
      (l.foldlM (labelStep nodes) s).map fun s => ⟨s.label.map fun x => (x.1, m x.2), s.unreachable, s.mins⟩ := by
  induction l generalizing s with
  | nil => rfl
  | cons i l ih =>
    simp only [List.foldlM_cons]
    have hstep : namedStep fmt nodes ⟨s.label.map fun x => (x.1, m x.2), s.unreachable, s.mins⟩ i =
        (labelStep nodes s i).map fun s => ⟨s.label.map fun x => (x.1, m x.2), s.unreachable, s.mins⟩ := by
      unfold namedStep labelStep
      by_cases hi : i ∈ nodes
      · simp only [if_pos hi, h i, Except.map, List.map_append, List.map_cons, List.map_nil]
      · simp only [if_neg hi]
        cases s.mins with
        | none => rfl
        | some x =>
          obtain ⟨r, g⟩ := x
          simp only
          split
          · split <;> rfl
          · rfl
    rw [hstep]
    cases labelStep nodes s i with
    | error e => rfl
    | ok s' => exact ih s'

theorem labelStep_none (nodes : List Nat) (l : List Nat) (s : Labels) (hs : s.mins = none) :
    l.foldlM (labelStep nodes) s = .ok ⟨s.label ++ (l.filter fun i => decide (i ∈ nodes)).map fun i => (i, i),
      s.unreachable ++ l.filter fun i => decide (i ∉ nodes), none⟩ := by
  induction l generalizing s with
  | nil => obtain ⟨a, b, c⟩ := s; simp only at hs; subst hs; simp [pure, Except.pure]
  | cons i l ih =>
    simp only [List.foldlM_cons]
    by_cases hi : i ∈ nodes
    · rw [show labelStep nodes s i = .ok { s with label := s.label ++ [(i, i)] } from by rw [labelStep, if_pos hi]]
      simp only [bind, Except.bind]
      rw [ih { s with label := s.label ++ [(i, i)] } hs]
      simp [hi]
    · rw [show labelStep nodes s i = .ok { s with unreachable := s.unreachable ++ [i] } from by rw [labelStep, if_neg hi, hs]]
      simp only [bind, Except.bind]
      rw [ih { s with unreachable := s.unreachable ++ [i] } hs]
      simp [hi]

/-- C105: with such labels each rule of the graph has a label of its own, and exactly the rules that are not in the graph are reported as unreachable
(without `--compress`; with it the loop is the one of C85, up to the texts). -/
theorem C105_loop (ext : List Char → Nat → Except PyErr (List Char)) (ex : Bool) (ps : List Part) (h : ex = true ∨ places ps ≤ 1) (nodes : List Nat)
    (n : Nat) :
    (∃ s, nameRules (labelOf ext (render ex ps)) nodes none n = .ok s ∧
      (∀ i t, (i, t) ∈ s.label ↔ i < n ∧ i ∈ nodes ∧ t = meaning ps i) ∧ (∀ i, i ∈ s.unreachable ↔ i < n ∧ i ∉ nodes) ∧
      (0 < places ps → (s.label.map (·.2)).Nodup)) ∧
    ∀ mins, nameRules (labelOf ext (render ex ps)) nodes mins n =
      ((List.range n).foldlM (labelStep nodes) ⟨[], [], mins⟩).map fun s => ⟨s.label.map fun x => (x.1, meaning ps x.2), s.unreachable, s.mins⟩ := by
  obtain ⟨h1, h2⟩ := C105_labels ext ex ps h
  have hall := fun mins => named_total h1 nodes (List.range n) ⟨[], [], mins⟩
  refine ⟨?_, fun mins => hall mins⟩
  have := hall none
  rw [labelStep_none _ _ _ rfl] at this
  refine ⟨_, this, fun i t => ?_, fun i => ?_, fun hp => ?_⟩
  · simp only [List.nil_append, List.map_map, List.mem_map, List.mem_filter, List.mem_range, decide_eq_true_eq, Function.comp_apply, Prod.mk.injEq]
    constructor
    · rintro ⟨a, ⟨h1, h2⟩, rfl, rfl⟩; exact ⟨h1, h2, rfl⟩
    · rintro ⟨h1, h2, rfl⟩; exact ⟨i, ⟨h1, h2⟩, rfl, rfl⟩
  · simp [List.mem_filter]
  · simp only [List.nil_append, List.map_map]
    refine List.Nodup.map_on ?_ (List.nodup_range.filter _)
    intro a _ b _ e
    exact h2 hp a b e

/-- Three rules, of which the second is not in the graph. -/
example : ∃ s, nameRules (labelOf (fun _ _ => .error .fuel) "R{}".toList) [0, 2] none 3 = .ok s ∧ (2, ['R', '2']) ∈ s.label ∧ 1 ∈ s.unreachable := by
  obtain ⟨⟨s, e, h1, h2, -⟩, -⟩ := C105_loop (fun _ _ => .error .fuel) false [.char 'R', .num .decimal] (.inr (by decide)) [0, 2] 3
  exact ⟨s, e, (h1 2 _).2 ⟨by decide, by decide, by decide +kernel⟩, (h2 1).2 ⟨by decide, by decide⟩⟩

/-- Without a place for the number all rules have the same label (and are one node for dot, which tells nodes by their labels). -/
theorem C105_same_label (ext : List Char → Nat → Except PyErr (List Char)) (ex : Bool) (ps : List Part) (h : places ps = 0) :
    ∃ t, ∀ i, labelOf ext (render ex ps) i = .ok t := by
  refine ⟨meaning ps 0, fun i => ?_⟩
  rw [(C105_labels ext ex ps (.inr (by omega))).1 i]
  congr 1
  induction ps with
  | nil => rfl
  | cons p ps ih =>
    cases p with
    | char c => simpa [meaning] using ih (by simpa [places] using h)
    | num s => simp [places] at h

example : ∃ t, ∀ i, labelOf (fun _ _ => .error .fuel) "rule".toList i = .ok t :=
  C105_same_label _ true [.char 'r', .char 'u', .char 'l', .char 'e'] (by decide)

theorem format_field (val : List Char → Except PyErr (List Char)) (st : Numbering) (name : List Char) (acc rest : List Char) (hc : '}' ∉ name) :
    formatLoop val (.field acc) st (name ++ '}' :: rest) = formatLoop val (.field (name.reverse ++ acc)) st ('}' :: rest) := by
  induction name generalizing acc with
  | nil => rfl
  | cons c name ih =>
    simp only [List.cons_append]
    rw [formatLoop, if_neg (by intro e; subst e; simp at hc), ih _ (fun h => hc (by simp [h]))]
    simp

/-- A label with the name of a thing instead, like `{rule}`: the KeyError of formatting is taken for that of a rule that is not in the graph, and all rules
are reported as unreachable, whatever the graph. -/
theorem C105_named (ext : List Char → Nat → Except PyErr (List Char)) (name rest : List Char) (h0 : ∃ c ∈ name, c.isDigit = false)
    (hc : ∀ c ∈ name, c ∉ ['{', '}', ':', '!', '.', '[']) (nodes : List Nat) (n : Nat) :
    nameRules (labelOf ext ('{' :: (name ++ '}' :: rest))) nodes none n = .ok ⟨[], List.range n, none⟩ := by
  have hf : ∀ i, labelOf ext ('{' :: (name ++ '}' :: rest)) i = .error .keyError := by
    intro i
    unfold labelOf formatOne
    cases name with
    | nil => obtain ⟨c, hm, -⟩ := h0; simp at hm
    | cons c name =>
      have hc1 := hc c (by simp)
      simp only [List.mem_cons, List.not_mem_nil, or_false, not_or] at hc1
      rw [formatLoop, if_pos rfl, List.cons_append, formatLoop, if_neg hc1.1, if_neg hc1.2.1, format_field _ _ _ _ _ (fun h => hc '}' (by simp [h]) (by decide)),
        formatLoop, if_pos rfl]
      have hall : ∀ x ∈ (name.reverse ++ [c]).reverse, x ∉ ['{', '}', ':', '!', '.', '['] := by
        intro x hx; exact hc x (by simpa using hx)
      have htake : (name.reverse ++ [c]).reverse.takeWhile (· ≠ ':') = c :: name := by
        have htw : ∀ l : List Char, (∀ x ∈ l, x ∉ ['{', '}', ':', '!', '.', '[']) → l.takeWhile (· ≠ ':') = l := by
          intro l
          induction l with
          | nil => intro _; rfl
          | cons x l ih =>
            intro hl
            have hx : x ≠ ':' := fun e => hl x (by simp) (by rw [e]; decide)
            rw [List.takeWhile_cons_of_pos (by simpa using hx), ih fun y hy => hl y (by simp [hy])]
        rw [htw _ hall]; simp
      rw [htake]
      simp only
      rw [if_neg, show argOf .unknown (c :: name) = .error .keyError from ?_]
      · rfl
      · unfold argOf
        rw [if_neg (by simp), if_neg]
        intro hd
        obtain ⟨x, hx, hxd⟩ := h0
        have := List.all_eq_true.1 hd x hx
        rw [hxd] at this; cases this
      · intro hor
        simp only [Bool.or_eq_true, List.any_eq_true, decide_eq_true_eq] at hor
        rcases hor with ⟨x, hx, rfl⟩ | ⟨x, hx, hor⟩
        · exact hall '{' (List.mem_reverse.2 hx) (by decide)
        · have := hc x hx
          simp only [List.mem_cons, not_or] at this
          grind
  unfold nameRules
  have : ∀ (l : List Nat) (u : List Nat), l.foldlM (namedStep (labelOf ext ('{' :: (name ++ '}' :: rest))) nodes) ⟨[], u, none⟩ = .ok ⟨[], u ++ l, none⟩ := by
    intro l
    induction l with
    | nil => intro u; simp [pure, Except.pure]
    | cons i l ih =>
      intro u
      have hstep : namedStep (labelOf ext ('{' :: (name ++ '}' :: rest))) nodes ⟨[], u, none⟩ i = .ok ⟨[], u ++ [i], none⟩ := by
        unfold namedStep
        rw [hf i, ite_self]
      rw [List.foldlM_cons, hstep]
      simp only [bind, Except.bind]
      rw [ih]; simp
  exact this _ _

example : nameRules (labelOf (fun _ _ => .error .fuel) "{rule}".toList) [0, 1] none 2 = .ok ⟨[], [0, 1], none⟩ :=
  C105_named _ "rule".toList [] ⟨'r', by decide, by decide⟩ (by decide) [0, 1] 2

/-! ### Options -/

/-- C105: the labels that are used if none is given. -/
theorem C105_defaults (ext : List Char → Nat → Except PyErr (List Char)) (o : Options) (h : o.nodeLabel = none) (h' : o.groupLabel = none) (i : Nat) :
    (isDot o.type = true → labelOf ext (nodeTemplate o) i = .ok ("<R<SUB>".toList ++ Util.alphaFormat true i ++ "</SUB>>".toList) ∧
      labelOf ext (groupTemplate o) i = .ok ("<G<SUB>".toList ++ digits 10 i ++ "</SUB>>".toList)) ∧
    (isDot o.type = false → labelOf ext (nodeTemplate o) i = .ok (Util.alphaFormat true i) ∧
      labelOf ext (groupTemplate o) i = .ok ('G' :: digits 10 i)) := by
  have key : ∀ (pre post : List Char) (s : Style) (t : List Char),
      render false (pre.map Part.char ++ .num s :: post.map Part.char) = t → labelOf ext t i = .ok (pre ++ s.show i ++ post) := by
    intro pre post s t e
    have hz : ∀ l : List Char, places (l.map Part.char) = 0 := by
      intro l; unfold places; rw [List.countP_eq_zero]; intro x hx; obtain ⟨c, -, rfl⟩ := List.mem_map.1 hx; simp
    have hp : places (pre.map Part.char ++ .num s :: post.map Part.char) ≤ 1 := by
      have a := hz pre
      have b := hz post
      unfold places at a b ⊢
      rw [List.countP_append, List.countP_cons, a, b]; simp
    have hm : ∀ (l : List Char) (r : List Part), meaning (l.map Part.char ++ r) i = l ++ meaning r i := by
      intro l r
      induction l with
      | nil => rfl
      | cons c l ih => simpa [meaning] using ih
    rw [← e, (C105_labels ext false _ (.inr hp)).1 i, hm]
    have := hm post []
    simp only [List.append_nil, meaning] at this
    simp only [meaning, List.map_cons, List.flatten_cons, this]
    simp
  constructor <;> intro hd
  · refine ⟨?_, ?_⟩
    · rw [nodeTemplate, h]; simp only [hd, if_true]
      exact key "<R<SUB>".toList "</SUB>>".toList .upper _ (by decide)
    · rw [groupTemplate, h']; simp only [hd, if_true]
      exact key "<G<SUB>".toList "</SUB>>".toList .decimal _ (by decide)
  · refine ⟨?_, ?_⟩
    · rw [nodeTemplate, h]; simp only [hd]
      have := key [] [] .upper "{:Z}".toList (by decide)
      simpa [Style.show] using this
    · rw [groupTemplate, h']; simp only [hd]
      have := key ['G'] [] .decimal "G{}".toList (by decide)
      simpa [Style.show] using this

/-- The options of the examples. -/
def someOptions (t : Cli.GType) (c g : Grouping) : Options := ⟨t, c, g, none, none, none, false⟩

example : labelOf (fun _ _ => .error .fuel) (groupTemplate (someOptions .dotraw .table .none)) 3 = .ok "<G<SUB>3</SUB>>".toList := by
  rw [((C105_defaults (fun _ _ => .error .fuel) (someOptions .dotraw .table .none) rfl rfl 3).1 rfl).2]
  decide +kernel

/-- C105: the program refuses to write a file for pyplot and nothing else; the first warning is for clusters that are not drawn, the second for clusters and
groups together. -/
theorem C105_warnings (o : Options) :
    (parseArgs o = none ↔ o.type = .pyplot ∧ (o.outputOnly = true ∨ ∃ p, o.output = some p ∧ p ≠ "")) ∧
    ∀ ws n g, parseArgs o = some (ws, n, g) →
      ((∃ t, .clusterIgnored t ∈ ws) ↔ (o.type = .d3 ∨ o.type = .pyplot) ∧ o.cluster ≠ .none) ∧
      (.groupIgnored ∈ ws ↔ (o.type = .dotraw ∨ o.type = .dotpdf) ∧ o.cluster ≠ .none ∧ o.group ≠ .none) ∧
      (∀ t, o.nodeLabel = some t → n = t) ∧ ∀ t, o.groupLabel = some t → g = t := by
  constructor
  · unfold parseArgs
    have hg : (Cli.given o.output).isSome = true ↔ ∃ p, o.output = some p ∧ p ≠ "" := by
      cases o.output with
      | none => simp [Cli.given]
      | some p => simp [Cli.given, Option.filter]
    rw [← hg]
    split <;> simp_all
  · intro ws n g e
    unfold parseArgs at e
    split at e
    · cases e
    · simp only [Option.some.injEq, Prod.mk.injEq] at e
      obtain ⟨rfl, rfl, rfl⟩ := e
      refine ⟨?_, ?_, fun t ht => by rw [nodeTemplate, ht], fun t ht => by rw [groupTemplate, ht]⟩
      · unfold warnings
        obtain ⟨t, c, gr, -⟩ := o
        cases t <;> cases c <;> cases gr <;> simp [isDot]
      · unfold warnings
        obtain ⟨t, c, gr, -⟩ := o
        cases t <;> cases c <;> cases gr <;> simp [isDot]

example : parseArgs (someOptions .pyplot .table .none) = some ([.clusterIgnored .pyplot], "{:Z}".toList, "G{}".toList) ∧
    parseArgs { someOptions .pyplot .table .none with output := some "x.pdf" } = none := by decide +kernel

/-- C105: where the option is said to be ignored it makes no difference to the graph other than the attribute of that name, provided the graph is built. -/
theorem C105_cluster_ignored {π : Type} (ord : Groups.Sel Nat → List Nat → List Nat) (o : GraphOpts) (rules : List (Rule π)) (deps : List (Nat × Nat))
    (g : DepGraph) (h : buildGraph ord o rules deps = .ok g) :
    buildGraph ord { o with cluster := .none } rules deps = .ok { g with cluster := [] } := by
  unfold buildGraph at h ⊢
  simp only [bind, Except.bind] at h ⊢
  rw [show minsOf ord { o with cluster := .none } = minsOf (π := π) ord o from rfl]
  generalize (if o.noTableMiss = true then dropMiss rules deps else (rules, deps)) = x at h ⊢
  cases h1 : minsOf ord o x.1 x.2 with
  | error e => rw [h1] at h; cases h
  | ok mins =>
    rw [h1] at h
    simp only at h ⊢
    cases h2 : (List.range x.1.length).foldlM (labelStep (edgesOf x.1 x.2).1) ⟨[], [], mins⟩ with
    | error e => rw [h2] at h; cases h
    | ok s =>
      rw [h2] at h
      simp only at h ⊢
      rw [show grouped x.1 (edgesOf x.1 x.2).1 (s.label.map (·.1)) s.mins .none = .ok [] from rfl]
      simp only
      cases h3 : grouped x.1 (edgesOf x.1 x.2).1 (s.label.map (·.1)) s.mins o.cluster with
      | error e => rw [h3] at h; cases h
      | ok cl =>
        rw [h3] at h
        simp only at h
        cases h4 : grouped x.1 (edgesOf x.1 x.2).1 (s.label.map (·.1)) s.mins o.group with
        | error e => rw [h4] at h; cases h
        | ok gr =>
          rw [h4] at h
          simp only at h ⊢
          cases h5 : positionsOf x.1 o.drawn (edgesOf x.1 x.2).1 (edgesOf x.1 x.2).2 gr with
          | error e => rw [h5] at h; cases h
          | ok pos => rw [h5] at h; simp only [pure, Except.pure, Except.ok.injEq] at h ⊢; rw [← h]

/-- Two rules of one table. -/
example : ∃ g, buildGraph (fun _ l => l) ⟨false, false, false, .table, .none, true⟩
      [mainRule 5 0 (Match.empty.append 14 1 none) [.output 1] none, mainRule 0 0 Match.empty [.output 3] none] [(0, 1)] = .ok g ∧ g.cluster = [(0, 1), (1, 1)] ∧
    buildGraph (fun _ l => l) ⟨false, false, false, .none, .none, true⟩
      [mainRule 5 0 (Match.empty.append 14 1 none) [.output 1] none, mainRule 0 0 Match.empty [.output 3] none] [(0, 1)] = .ok { g with cluster := [] } := by
  have e : buildGraph (fun _ l => l) ⟨false, false, false, .table, .none, true⟩
      [mainRule 5 0 (Match.empty.append 14 1 none) [.output 1] none, mainRule 0 0 Match.empty [.output 3] none] [(0, 1)] =
      .ok ⟨[0, 1], [((0, 1), false)], [(0, 0), (1, 1)], [(0, 1), (1, 1)], [], [(0, (1 / 2, 3 / 4)), (1, (1 / 2, 1 / 4))], [], []⟩ := by decide +kernel
  exact ⟨_, e, rfl, C105_cluster_ignored _ _ _ _ _ e⟩

/-- C105 is violated by clusters of a compression that is not asked for: the option is said to be ignored, but building the graph raises NameError, for
every ruleset. -/
theorem C105_cluster_raises {π : Type} (ord : Groups.Sel Nat → List Nat → List Nat) (rules : List (Rule π)) (deps : List (Nat × Nat)) :
    warnings (someOptions .d3 .compressed .none) = [.clusterIgnored .d3] ∧
    buildGraph ord ⟨false, false, false, .compressed, .none, true⟩ rules deps = .error .nameError := by
  refine ⟨by decide, ?_⟩
  unfold buildGraph
  simp only [minsOf, Bool.false_eq_true, if_false, bind, Except.bind]
  rw [labelStep_none _ _ _ rfl]
  rfl

/-- C105 is violated by clusters and groups together: the groups are said to be ignored, but they still add edges. -/
theorem C105_group_not_ignored (ext : List Char → Nat → Except PyErr (List Char)) (c g : Grouping) (hc : c ≠ .none) (hg : g ≠ .none) :
    warnings (someOptions .dotraw c g) = [.groupIgnored] ∧
    ∃ nodes bs es, dotExtras ext (someOptions .dotraw c g) id nodes [] = .ok (bs, es) ∧ es = [("A", "B")] ∧
      dotExtras ext (someOptions .dotraw c .none) id nodes [] = .ok (bs, []) := by
  constructor
  · cases c <;> first | exact absurd rfl hc | (cases g <;> first | exact absurd rfl hg | decide)
  · have hb : Draw.boxes id [⟨"A", 1, 1⟩, ⟨"B", 1, 2⟩] = [(1, ["A", "B"])] := by decide +kernel
    have he : Draw.constraints id [⟨"A", 1, 1⟩, ⟨"B", 1, 2⟩] [] = .ok [("A", "B")] := by decide +kernel
    have hl := ((C105_defaults ext (someOptions .dotraw c g) rfl rfl 1).1 rfl).2
    have hl' := ((C105_defaults ext (someOptions .dotraw c .none) rfl rfl 1).1 rfl).2
    refine ⟨[⟨"A", 1, 1⟩, ⟨"B", 1, 2⟩], [("<G<SUB>".toList ++ digits 10 1 ++ "</SUB>>".toList, ["A", "B"])], _, ?_, rfl, ?_⟩
    · simp only [dotExtras]
      rw [if_neg (show (someOptions .dotraw c g).cluster ≠ .none from hc), hb, he]
      simp only [List.mapM_cons, List.mapM_nil, hl, if_neg (show (someOptions .dotraw c g).group ≠ .none from hg)]; rfl
    · simp only [dotExtras]
      rw [if_neg (show (someOptions .dotraw c .none).cluster ≠ .none from hc), hb]
      simp only [List.mapM_cons, List.mapM_nil, hl']; rfl

/-! ### The page -/

/-- A text without fields, with its doubled braces made single. -/
def single : List Char → Option (List Char)
  | [] => some []
  | ['{'] => none
  | ['}'] => none
  | '{' :: c :: r => if c = '{' then (single r).map ('{' :: ·) else none
  | '}' :: c :: r => if c = '}' then (single r).map ('}' :: ·) else none
  | c :: r => (single r).map (c :: ·)

theorem format_single (val : List Char → Except PyErr (List Char)) (st : Numbering) (a r : List Char) : ∀ t, single a = some t →
    formatLoop val .text st (a ++ r) = (formatLoop val .text st r).map (t ++ ·) := by
  fun_induction single a with
  | case1 =>
    intro t e; cases e
    rw [List.nil_append]
    cases formatLoop val .text st r <;> rfl
  | case2 => intro t e; cases e
  | case3 => intro t e; cases e
  | case4 s ih =>
    intro t e
    obtain ⟨u, hu, rfl⟩ := Option.map_eq_some_iff.1 e
    have := ih u hu
    show (formatLoop val .text st (s ++ r)).map ('{' :: ·) = _
    rw [this]; cases formatLoop val .text st r <;> rfl
  | case5 => intro t e; cases e
  | case6 s ih =>
    intro t e
    obtain ⟨u, hu, rfl⟩ := Option.map_eq_some_iff.1 e
    have := ih u hu
    show (formatLoop val .text st (s ++ r)).map ('}' :: ·) = _
    rw [this]; cases formatLoop val .text st r <;> rfl
  | case7 => intro t e; cases e
  | case8 c s h1 h2 h3 h4 ih =>
    intro t e
    obtain ⟨u, hu, rfl⟩ := Option.map_eq_some_iff.1 e
    have hc1 : c ≠ '{' := by
      rintro rfl
      cases s with
      | nil => exact h1 rfl rfl
      | cons x s => exact h3 x s rfl rfl
    have hc2 : c ≠ '}' := by
      rintro rfl
      cases s with
      | nil => exact h2 rfl rfl
      | cons x s => exact h4 x s rfl rfl
    rw [List.cons_append, formatLoop, if_neg hc1, if_neg hc2, ih u hu]
    cases formatLoop val .text st r <;> rfl

/-- Specification: every closing brace has an opening one before it, and the other way round. -/
def balanced : Nat → List Char → Bool
  | d, [] => d == 0
  | d, c :: r => if c = '{' then balanced (d + 1) r else if c = '}' then (match d with | 0 => false | d + 1 => balanced d r) else balanced d r

/-- C105: whatever the data, the page is made, and is a fixed text with the data in one place, where they are assigned to the variable from which the script
draws.  The braces of the text are balanced. -/
theorem C105_page (ext : List Char → Except PyErr (List Char)) :
    ∃ head tail, (∀ json, d3Page ext json = .ok (head ++ "json = ".toList ++ json ++ ";\n".toList ++ tail)) ∧ balanced 0 head = true ∧ balanced 0 tail = true := by
  have hsplit : d3Html = ((d3Lines.take 31).map fun l => l.toList ++ ['\n']).flatten ++ ("json = ".toList ++ ('{' :: '}' :: (";\n".toList ++
      ((d3Lines.drop 32).map fun l => l.toList ++ ['\n']).flatten))) := by decide +kernel
  have h1 : (single ((d3Lines.take 31).map fun l => l.toList ++ ['\n']).flatten).any (balanced 0) = true := by decide +kernel
  have h2 : (single ((d3Lines.drop 32).map fun l => l.toList ++ ['\n']).flatten).any (balanced 0) = true := by decide +kernel
  have key : ∀ o : Option (List Char), o.any (balanced 0) = true → ∃ x, o = some x ∧ balanced 0 x = true := by
    intro o h
    cases o with
    | none => cases h
    | some x => exact ⟨x, rfl, h⟩
  obtain ⟨head, e1, b1⟩ := key _ h1
  obtain ⟨tail, e2, b2⟩ := key _ h2
  refine ⟨head, tail, fun json => ?_, b1, b2⟩
  unfold d3Page formatOne
  rw [hsplit, format_single _ _ _ _ _ e1, format_single _ _ _ _ "json = ".toList (by decide), formatLoop, if_pos rfl, formatLoop, if_neg (by decide), if_pos rfl]
  simp only [argOf, if_true, bind, Except.bind]
  rw [format_single _ _ _ _ ";\n".toList (by decide), ← List.append_nil (List.flatten _), format_single _ _ _ _ _ e2]
  simp [formatLoop, Except.map]

/-! ### Refused labels -/

theorem format_chars (ext : List Char → Nat → Except PyErr (List Char)) (n : Nat) (ps : List Part) (hp : places ps = 0) (st : Numbering) (r : List Char) :
    formatLoop (alphaValue ext n) .text st (render false ps ++ r) = (formatLoop (alphaValue ext n) .text st r).map (meaning ps n ++ ·) := by
  induction ps with
  | nil => show formatLoop _ _ _ r = _; cases formatLoop (alphaValue ext n) .text st r <;> rfl
  | cons p ps ih =>
    cases p with
    | char c =>
      rw [show render false (.char c :: ps) ++ r = Part.render false (.char c) ++ (render false ps ++ r) from by simp [render], format_char,
        ih (by simpa [places] using hp)]
      cases formatLoop (alphaValue ext n) .text st r <;> rfl
    | num s => simp [places] at hp

/-- A closing brace that is not doubled is refused with ValueError, whatever comes before and after. -/
theorem C105_single_brace (ext : List Char → Nat → Except PyErr (List Char)) (ps : List Part) (hp : places ps = 0) (c : Char) (hc : c ≠ '}') (rest : List Char)
    (i : Nat) : labelOf ext (render false ps ++ '}' :: c :: rest) i = .error .valueError ∧ labelOf ext (render false ps ++ ['}']) i = .error .valueError := by
  unfold labelOf formatOne
  rw [format_chars ext i ps hp, format_chars ext i ps hp]
  simp [formatLoop, hc, Except.map]

example : labelOf (fun _ _ => .error .fuel) "R}1".toList 3 = .error .valueError ∧ labelOf (fun _ _ => .error .fuel) "R}".toList 3 = .error .valueError :=
  C105_single_brace _ [.char 'R'] (by decide) '1' (by decide) [] 3

/-- A place with a number other than 0 is for an argument that is not there. -/
theorem C105_other_number (ext : List Char → Nat → Except PyErr (List Char)) (ps : List Part) (hp : places ps = 0) (name : List Char)
    (hd : ∀ c ∈ name, c.isDigit = true) (h0 : ∃ c ∈ name, c ≠ '0') (rest : List Char) (i : Nat) :
    labelOf ext (render false ps ++ '{' :: (name ++ '}' :: rest)) i = .error .indexError := by
  unfold labelOf formatOne
  rw [format_chars ext i ps hp]
  have hx : ∀ c ∈ name, c ∉ ['{', '}', ':', '!', '.', '['] := by
    intro c hc hm
    have := hd c hc
    simp only [List.mem_cons, List.not_mem_nil, or_false] at hm
    rcases hm with rfl | rfl | rfl | rfl | rfl | rfl <;> revert this <;> decide
  cases name with
  | nil => obtain ⟨c, hm, -⟩ := h0; simp at hm
  | cons c name =>
    have hc1 := hx c (by simp)
    simp only [List.mem_cons, List.not_mem_nil, or_false, not_or] at hc1
    rw [formatLoop, if_pos rfl, List.cons_append, formatLoop, if_neg hc1.1, if_neg hc1.2.1, format_field _ _ _ _ _ (fun h => hx '}' (by simp [h]) (by decide)),
      formatLoop, if_pos rfl]
    have hrev : (name.reverse ++ [c]).reverse = c :: name := by simp
    have htake : (name.reverse ++ [c]).reverse.takeWhile (· ≠ ':') = c :: name := by
      rw [hrev]
      have htw : ∀ l : List Char, (∀ x ∈ l, x ∉ ['{', '}', ':', '!', '.', '[']) → l.takeWhile (· ≠ ':') = l := by
        intro l
        induction l with
        | nil => intro _; rfl
        | cons x l ih =>
          intro hl
          have h1 := hl x (by simp)
          simp only [List.mem_cons, not_or] at h1
          rw [List.takeWhile_cons_of_pos (by simpa using h1.2.2.1), ih fun y hy => hl y (List.mem_cons_of_mem _ hy)]
      exact htw _ hx
    have hno : ((name.reverse ++ [c]).any (· = '{') || (c :: name).any fun c => c = '!' || c = '.' || c = '[') = false := by
      rw [Bool.or_eq_false_iff]
      constructor
      · rw [List.any_eq_false]
        intro x hm
        have := hx x (by simpa [or_comm] using hm)
        simp only [List.mem_cons, not_or] at this
        simpa using this.1
      · rw [List.any_eq_false]
        intro x hm
        have := hx x hm
        simp only [List.mem_cons, not_or] at this
        simp [this.2.2.2.1, this.2.2.2.2.1, this.2.2.2.2.2.1]
    have harg : argOf .unknown (c :: name) = .error .indexError := by
      have h1 : (c :: name).all Char.isDigit = true := List.all_eq_true.2 hd
      have h2 : (c :: name).all (· = '0') = false := by
        rw [List.all_eq_false]
        obtain ⟨x, hm, hne⟩ := h0
        exact ⟨x, hm, by simpa using hne⟩
      unfold argOf
      rw [if_neg (by simp), if_pos h1, if_neg (by decide), h2]
      rfl
    simp only [htake, hno, harg]
    rfl

example : labelOf (fun _ _ => .error .fuel) "R{1}".toList 3 = .error .indexError :=
  C105_other_number _ [.char 'R'] (by decide) ['1'] (by decide) ⟨'1', by decide, by decide⟩ [] 3

/-- Hexadecimal places show the digits of the number to base 16. -/
theorem C105_hexadecimal (ext : List Char → Nat → Except PyErr (List Char)) (ps qs : List Part) (hp : places ps = 0) (hq : places qs = 0) (i : Nat) :
    labelOf ext (render false ps ++ ("{:x}".toList ++ render false qs)) i = .ok (meaning ps i ++ (digits 16 i ++ meaning qs i)) := by
  unfold labelOf formatOne
  rw [format_chars ext i ps hp]
  have h : formatLoop (alphaValue ext i) .text .unknown ("{:x}".toList ++ render false qs) =
      (formatLoop (alphaValue ext i) .text .auto (render false qs)).map (digits 16 i ++ ·) := by
    simp [formatLoop, argOf, alphaValue, bind, Except.bind]
  rw [h, format_none ext i qs false .auto hq]
  rfl

example : labelOf (fun _ _ => .error .fuel) "R{:x}.".toList 5 = .ok ("R".toList ++ (digits 16 5 ++ ".".toList)) :=
  C105_hexadecimal _ [.char 'R'] [.char '.'] (by decide) (by decide) 5

end OFE.Label
