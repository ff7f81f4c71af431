import Verif.Files.Ruleset
import Verif.Props.Ryu
import Verif.Props.OvsFile
import Verif.Props.Auto
import Verif.Props.Equality
import Mathlib.Data.List.Forall2

/-!
# C92: a ruleset that is saved is loaded again

True for what a format can hold (`Holds`).  That a format that cannot be written is refused is false: nothing is written and nothing is said
(`C92_not_refused`).  The formats of Ryu lose the groups (`C92_groups_lost`), and a ruleset that cannot be saved costs the file that was there
(`C92_old_lost`); with Open vSwitch, a shorter ruleset takes its place (`C92_cut`).
-/

namespace OFE.Save
open Ryu Auto

/-- Specification: a format can hold a rule.  Pickles hold all rules, Ryu's formats and Open vSwitch's those of C70 and C66; Open vSwitch rules have a
cookie. -/
def Holds {π : Type} (heap : Nat → Option GroupObj) (format : String) (r : Rule π) : Prop :=
  (format = "pickle") ∨ ((format = "ryu_json" ∨ format = "ryu_pickle") ∧ RyuRule heap r) ∨ (format = "ovs" ∧ Ovs.WritableRule r ∧ r.cookie.isSome)

/-- Specification: the loaded ruleset has equal rules in the same order. -/
def SameRules {π : Type} (l : List (PElem π)) (rs : List (Rule π)) : Prop := List.Forall₂ (fun e r => ∃ r', e = .rule r' ∧ (r' = r ∨ r'.eq r = true)) l rs

theorem sameRules_map {π : Type} {rs' rs : List (Rule π)} (h : List.Forall₂ (fun r' r => r'.eq r = true) rs' rs) : SameRules (rs'.map .rule) rs := by
  unfold SameRules
  rw [List.forall₂_map_left_iff]
  exact h.imp fun _ _ e => ⟨_, rfl, .inr e⟩

theorem elems_flows {π : Type} (fs : List RFlow) :
    (fs.map PElem.flow).mapM (elemFromRyu (π := π)) = (fs.mapM (ruleFromRyu (π := π))).map (·.map .rule) := by
  induction fs with
  | nil => rfl
  | cons f fs ih =>
    rw [List.map_cons, List.mapM_cons, List.mapM_cons, ih]
    cases e : ruleFromRyu (π := π) f with
    | error _ => simp only [elemFromRyu, e, bind, Except.bind, Except.map]
    | ok r =>
      cases e' : fs.mapM (ruleFromRyu (π := π)) with
      | error _ => simp only [elemFromRyu, e, bind, Except.bind, Except.map, pure, Except.pure]
      | ok rs => simp only [elemFromRyu, e, bind, Except.bind, Except.map, pure, Except.pure, List.map_cons]

theorem fromPickle_flows {π : Type} (fs : List RFlow) :
    rulesetFromPickle (π := π) (.list (fs.map .flow)) = (fs.mapM (ruleFromRyu (π := π))).map (·.map .rule) := by
  rw [← elems_flows]
  cases fs <;> rfl

theorem fromPickle_rules {π : Type} (rs : List (Rule π)) : rulesetFromPickle (.list (rs.map .rule)) = .ok (rs.map .rule) := by
  cases rs <;> rfl

theorem writeLines_ok {π : Type} : ∀ (rs : List (Rule π)) (t : List Char), Ovs.rulesetToOvs rs = .ok t → writeLines rs = (t, .ok ())
  | [], t, h => by
    cases h
    rfl
  | r :: rs, t, h => by
    unfold Ovs.rulesetToOvs at h
    rw [List.mapM_cons] at h
    cases e : Ovs.ruleToOvs r with
    | error _ => rw [e] at h; cases h
    | ok x =>
      cases e' : rs.mapM Ovs.ruleToOvs with
      | error _ => rw [e, e'] at h; cases h
      | ok xs =>
        rw [e, e'] at h
        cases h
        have := writeLines_ok rs (xs.map (· ++ ['\n'])).flatten (by unfold Ovs.rulesetToOvs; rw [e']; rfl)
        simp only [writeLines, e, this, List.map_cons, List.flatten_cons, List.append_assoc, List.cons_append, List.nil_append]

/-- C92: a ruleset that the format can hold is saved without an exception, whatever was at the path before, and loaded again from there with the same format,
as equal rules in the same order.

Partial: what a format cannot hold is not, and unknown formats are not refused; see below. -/
theorem C92_round_trip_partial {π : Type} (heap : Nat → Option GroupObj) (fuel n : Nat) (pprint : List (Rule π) → List Char) (old : Content π)
    (R : Readers π) (values : List Fmt) (name : Name) (seek : Seek) (pos : Nat) (format : String) (rs : List (Rule π))
    (hf : format ∈ ["pickle", "ryu_json", "ryu_pickle", "ovs"]) (h : ∀ r ∈ rs, Holds heap format r) :
    ∃ c l, saveRuleset heap fuel n pprint old rs format = (c, .ok ()) ∧ loadRuleset (readers R c) values format name seek pos = .ok l ∧ SameRules l rs := by
  simp only [List.mem_cons, List.not_mem_nil, or_false] at hf
  rcases hf with rfl | rfl | rfl | rfl
  · refine ⟨.pickled (.list (rs.map .rule)), rs.map .rule, rfl, ?_, ?_⟩
    · rw [(C73_given ..).2.2.1]
      exact fromPickle_rules rs
    · unfold SameRules
      rw [List.forall₂_map_left_iff]
      exact List.forall₂_same.2 fun r _ => ⟨r, rfl, .inl rfl⟩
  · obtain ⟨fs, rs', e1, e2, e3⟩ := C70_file_partial heap fuel n R.reply R.other rs fun r hr => by
      rcases h r hr with h | h | h
      · exact absurd h (by decide)
      · exact h.2
      · exact absurd h.1 (by decide)
    refine ⟨.json (.list (fs.map .flow)), rs'.map .rule, ?_, ?_, sameRules_map e3⟩
    · change rulesetToRyuJson heap fuel n rs = _
      unfold rulesetToRyuJson
      rw [e1]
      rfl
    · rw [(C73_given ..).1]
      change (rulesetFromJson R.reply R.other _).map _ = _
      rw [e2]
      rfl
  · obtain ⟨fs, rs', e1, e2, e3⟩ := C70_file_partial heap fuel n R.reply R.other rs fun r hr => by
      rcases h r hr with h | h | h
      · exact absurd h (by decide)
      · exact h.2
      · exact absurd h.1 (by decide)
    refine ⟨.pickled (.list (fs.map .flow)), rs'.map .rule, ?_, ?_, sameRules_map e3⟩
    · change rulesetToRyuPickle heap fuel n rs = _
      unfold rulesetToRyuPickle
      rw [e1]
      rfl
    · rw [(C73_given ..).2.1]
      change rulesetFromPickle _ = _
      have := C70_json (π := π) R.reply R.other [] fs (by simp)
      rw [fromPickle_flows, ← this]
      change (rulesetFromJson R.reply R.other (.list (fs.map .flow))).map _ = _
      rw [e2]
      rfl
  · have hw : ∀ r ∈ rs, Ovs.WritableRule r ∧ r.cookie.isSome := fun r hr => by
      rcases h r hr with h | h | h
      · exact absurd h (by decide)
      · exact absurd h.1 (by decide)
      · exact h.2
    obtain ⟨t, rs', e1, e2, e3⟩ := Ovs.C69_round_trip_partial rs fun r hr => (hw r hr).1
    refine ⟨.text t, rs'.map .rule, ?_, ?_, sameRules_map ?_⟩
    · change rulesetToOvsFile rs = _
      unfold rulesetToOvsFile
      rw [writeLines_ok rs t e1]
    · rw [(C73_given ..).2.2.2.1]
      change (Ovs.rulesetFromOvs (Ovs.fileLines t)).map _ = _
      rw [e2]
      rfl
    · clear e1 e2 h
      induction e3 with
      | nil => exact .nil
      | @cons a b _ _ hab _ ih =>
        refine .cons ?_ (ih fun r hr => hw r (List.mem_cons_of_mem _ hr))
        have hc := (hw b List.mem_cons_self).2
        obtain ⟨c, hc⟩ := Option.isSome_iff_exists.1 hc
        rw [hc] at hab
        cases b
        cases hc
        exact hab

/-- C92: pickles give back the very rules. -/
theorem C92_pickle {π : Type} (heap : Nat → Option GroupObj) (fuel n : Nat) (pprint : List (Rule π) → List Char) (old : Content π)
    (R : Readers π) (values : List Fmt) (name : Name) (seek : Seek) (pos : Nat) (rs : List (Rule π)) :
    ∃ c, saveRuleset heap fuel n pprint old rs "pickle" = (c, .ok ()) ∧
      loadRuleset (readers R c) values "pickle" name seek pos = .ok (rs.map .rule) ∧ loadRuleset (readers R c) values "ryu_pickle" name seek pos = .ok (rs.map .rule) :=
  ⟨.pickled (.list (rs.map .rule)), rfl, fromPickle_rules rs, fromPickle_rules rs⟩

/-- C92, Open vSwitch: a rule without a cookie comes back with the cookie 0, and so is not equal to what was saved. -/
theorem C92_ovs_cookie_partial {π : Type} (heap : Nat → Option GroupObj) (fuel n : Nat) (pprint : List (Rule π) → List Char) (old : Content π)
    (R : Readers π) (values : List Fmt) (name : Name) (seek : Seek) (pos : Nat) (r : Rule π) (hr : Ovs.WritableRule r) (hc : r.cookie = none) :
    ∃ c r', saveRuleset heap fuel n pprint old [r] "ovs" = (c, .ok ()) ∧ loadRuleset (readers R c) values "ovs" name seek pos = .ok [.rule r'] ∧
      r'.eq { r with cookie := some 0 } = true ∧ r'.eq r = false := by
  obtain ⟨t, rs', e1, e2, e3⟩ := Ovs.C69_round_trip_partial [r] fun x hx => by
    cases List.mem_singleton.1 hx
    exact hr
  cases e3 with
  | cons h1 h2 =>
    cases h2
    rename_i r'
    rw [hc] at h1
    refine ⟨.text t, r', ?_, ?_, h1, ?_⟩
    · change rulesetToOvsFile [r] = _
      unfold rulesetToOvsFile
      rw [writeLines_ok [r] t e1]
    · rw [(C73_given ..).2.2.2.1]
      change (Ovs.rulesetFromOvs (Ovs.fileLines t)).map _ = _
      rw [e2]
      rfl
    · have h2 := (ruleEq_iff.1 h1).2.1
      cases e : r'.eq r with
      | false => rfl
      | true =>
        have h3 := (ruleEq_iff.1 e).2.1
        rw [h3, hc] at h2
        cases h2

/-! ### What is not so -/

/-- C92 is false of unknown formats: they are not refused, the file is as before and there is no exception, although `load_ruleset` raises ValueError for
them.  So with the formats that can only be read. -/
theorem C92_not_refused {π : Type} (heap : Nat → Option GroupObj) (fuel n : Nat) (pprint : List (Rule π) → List Char) (old : Content π) (rs : List (Rule π))
    (format : String) (h : format ∉ ["ryu_json", "ryu_pickle", "pickle", "ovs", "text"]) :
    saveRuleset heap fuel n pprint old rs format = (old, .ok ()) := by
  simp only [List.mem_cons, List.not_mem_nil, or_false, not_or] at h
  unfold saveRuleset
  rw [if_neg h.1, if_neg h.2.1, if_neg h.2.2.1, if_neg h.2.2.2.1, if_neg h.2.2.2.2]

/-- The format `text` can be written, but not read. -/
theorem C92_text {π : Type} (heap : Nat → Option GroupObj) (fuel n : Nat) (pprint : List (Rule π) → List Char) (old : Content π) (rs : List (Rule π))
    (R : Readers π) (values : List Fmt) (name : Name) (seek : Seek) (pos : Nat) :
    ∃ c, saveRuleset heap fuel n pprint old rs "text" = (c, .ok ()) ∧ loadRuleset (readers R c) values "text" name seek pos = .error .valueError :=
  ⟨.text (pprint rs), rfl, (C73_given ..).2.2.2.2.2 "text" (by decide)⟩

/-- A ruleset that Ryu's formats cannot hold raises, and the file that was there is empty. -/
theorem C92_old_lost {π : Type} (heap : Nat → Option GroupObj) (fuel n : Nat) (pprint : List (Rule π) → List Char) (old : Content π) (rs : List (Rule π))
    (e : PyErr) (h : rulesetToRyu heap fuel rs n = .error e) :
    saveRuleset heap fuel n pprint old rs "ryu_json" = (.text [], .error e) ∧ saveRuleset heap fuel n pprint old rs "ryu_pickle" = (.text [], .error e) := by
  constructor
  · change rulesetToRyuJson heap fuel n rs = _
    unfold rulesetToRyuJson
    rw [h]
    rfl
  · change rulesetToRyuPickle heap fuel n rs = _
    unfold rulesetToRyuPickle
    rw [h]
    rfl

theorem writeLines_cut {π : Type} : ∀ (rs : List (Rule π)) (t : List Char) (r : Rule π) (rest : List (Rule π)) (e : PyErr), Ovs.rulesetToOvs rs = .ok t →
    Ovs.ruleToOvs r = .error e → writeLines (rs ++ r :: rest) = (t, .error e)
  | [], t, r, rest, e, h, he => by
    cases h
    simp only [List.nil_append, writeLines, he]
    rfl
  | x :: rs, t, r, rest, e, h, he => by
    unfold Ovs.rulesetToOvs at h
    rw [List.mapM_cons] at h
    cases ex : Ovs.ruleToOvs x with
    | error _ => rw [ex] at h; cases h
    | ok y =>
      cases e' : rs.mapM Ovs.ruleToOvs with
      | error _ => rw [ex, e'] at h; cases h
      | ok ys =>
        rw [ex, e'] at h
        cases h
        have := writeLines_cut rs (ys.map (· ++ ['\n'])).flatten r rest e (by unfold Ovs.rulesetToOvs; rw [e']; rfl) he
        simp only [List.cons_append, writeLines, ex, this, List.map_cons, List.flatten_cons, List.append_assoc, List.nil_append]

/-- When a rule cannot be written for Open vSwitch, the file that is left is the one of the rules before it: it loads, as a shorter ruleset. -/
theorem C92_cut {π : Type} (heap : Nat → Option GroupObj) (fuel n : Nat) (pprint : List (Rule π) → List Char) (old : Content π)
    (R : Readers π) (values : List Fmt) (name : Name) (seek : Seek) (pos : Nat) (before : List (Rule π)) (r : Rule π) (after : List (Rule π)) (e : PyErr)
    (hb : ∀ x ∈ before, Ovs.WritableRule x ∧ x.cookie.isSome) (hr : Ovs.ruleToOvs r = .error e) :
    ∃ c l, saveRuleset heap fuel n pprint old (before ++ r :: after) "ovs" = (c, .error e) ∧
      loadRuleset (readers R c) values "ovs" name seek pos = .ok l ∧ SameRules l before := by
  obtain ⟨c, l, h1, h2, h3⟩ := C92_round_trip_partial heap fuel n pprint old R values name seek pos "ovs" before (by decide)
    fun x hx => .inr (.inr ⟨rfl, hb x hx⟩)
  refine ⟨c, l, ?_, h2, h3⟩
  obtain ⟨t, rs', e1, -, -⟩ := Ovs.C69_round_trip_partial before fun x hx => (hb x hx).1
  change rulesetToOvsFile before = _ at h1
  change rulesetToOvsFile _ = _
  unfold rulesetToOvsFile at h1 ⊢
  rw [writeLines_ok _ _ e1] at h1
  rw [writeLines_cut _ _ _ _ _ e1 hr]
  cases h1
  rfl

/-- A rule that sends all packets to the group object 0. -/
def toGroup : Rule Nat := ⟨5, some 1, 0, .empty, ⟨none, mkList [.group 0], mkList [], none, false, none⟩, []⟩

/-- Ryu's formats lose the groups: two rulesets whose groups send packets to different ports are the same file. -/
theorem C92_groups_lost :
    ∃ heap heap' : Nat → Option GroupObj, (heap 0).map (·.buckets) = some [[.output 1]] ∧ (heap' 0).map (·.buckets) = some [[.output 2]] ∧
      ∀ format ∈ ["ryu_json", "ryu_pickle"], ∃ c, saveRuleset heap 2 0 (fun _ => []) (.text []) [toGroup] format = (c, .ok ()) ∧
        saveRuleset heap' 2 0 (fun _ => []) (.text []) [toGroup] format = (c, .ok ()) := by
  refine ⟨fun _ => some ⟨"all", some "L3 ECMP", [[.output 1]]⟩, fun _ => some ⟨"all", some "L3 ECMP", [[.output 2]]⟩, rfl, rfl, fun format hf => ?_⟩
  simp only [List.mem_cons, List.not_mem_nil, or_false] at hf
  rcases hf with rfl | rfl
  · exact ⟨_, rfl, rfl⟩
  · exact ⟨_, rfl, rfl⟩

/-! ### Pickles of collected states, and `ruleset_from_ryu` -/

/-- C92: from a dict, such as collect_state.py writes, the flow messages under "flow_stats" are loaded; without them it is a KeyError. -/
theorem C92_dict {π : Type} (d : List (String × Option (List (PElem π)))) :
    (d.lookup "flow_stats" = none → rulesetFromPickle (.dict d) = .error .keyError) ∧
    ∀ fs : List RFlow, d.lookup "flow_stats" = some (some (fs.map .flow)) → rulesetFromPickle (.dict d) = (fs.mapM (ruleFromRyu (π := π))).map (·.map .rule) := by
  refine ⟨fun h => ?_, fun fs h => ?_⟩
  · unfold rulesetFromPickle
    simp only [h]
  · rw [← elems_flows]
    unfold rulesetFromPickle
    simp only [h]

/-- Only the first element is looked at: a list that begins with a rule is loaded as it is, with everything else in it. -/
theorem C92_only_first {π : Type} (r : Rule π) (l : List (PElem π)) : rulesetFromPickle (.list (.rule r :: l)) = .ok (.rule r :: l) := rfl

/-- C92: a list of flow messages with a rule or anything else among them, but not first, is refused. -/
theorem C92_mixed {π : Type} (f : RFlow) (l : List (PElem π)) (x : PElem π) (hx : x ∈ l) (hf : ∀ f, x ≠ .flow f) :
    ∃ e, rulesetFromPickle (.list (.flow f :: l)) = .error e := by
  have key : ∀ l : List (PElem π), x ∈ l → ∀ v, l.mapM elemFromRyu ≠ .ok v := by
    intro l
    induction l with
    | nil => intro h; cases h
    | cons y l ih =>
      intro h v e
      rw [List.mapM_cons] at e
      cases ey : elemFromRyu y with
      | error z => rw [ey] at e; cases e
      | ok z =>
        rw [ey] at e
        rcases List.mem_cons.1 h with rfl | h
        · cases x with
          | flow f => exact hf f rfl
          | rule r => cases ey
          | other => cases ey
        · cases el : l.mapM elemFromRyu with
          | error z' => simp only [el, bind, Except.bind] at e; cases e
          | ok z' => exact ih h z' el
  cases e : rulesetFromPickle (.list (.flow f :: l)) with
  | error y => exact ⟨y, rfl⟩
  | ok v => exact absurd e (key (.flow f :: l) (List.mem_cons_of_mem _ hx) v)

/-- Specification: a source for `ruleset_from_ryu` that can be read again. -/
def Again {ρ : Type} (load : Nat → Except RyuErr ρ × Nat) (seek : Bool) (pos : Nat) : Prop := (seek = true ∧ pos = 0) ∨ ∀ p q, (load p).1 = (load q).1

/-- C92, `ruleset_from_ryu`: whatever the name, a pickle is loaded as a pickle when `json.load` refuses it with a ValueError. -/
theorem C92_ryu_pickle_partial {ρ : Type} (json pickle : Nat → Except RyuErr ρ × Nat) (s : List Char) (seek : Bool) (pos : Nat) (r : ρ)
    (hs : Again pickle seek pos) (hp : (pickle pos).1 = .ok r) (hj : (json pos).1 = .error .valueError) :
    rulesetFromRyu json pickle (.text s) seek pos = .ok r := by
  unfold rulesetFromRyu
  simp only
  split
  · cases ej : json pos with
    | mk a p =>
      rw [ej] at hj
      cases hj
      simp only
      rcases hs with ⟨h1, h2⟩ | h
      · subst h1 h2
        exact hp
      · rw [h _ pos]
        exact hp
  · cases ep : pickle pos with
    | mk a p =>
      rw [ep] at hp
      cases hp
      rfl

/-- C92, `ruleset_from_ryu`: whatever the name, JSON is loaded as JSON when `pickle.load` refuses it with an UnpicklingError. -/
theorem C92_ryu_json_partial {ρ : Type} (json pickle : Nat → Except RyuErr ρ × Nat) (s : List Char) (seek : Bool) (pos : Nat) (r : ρ)
    (hs : Again json seek pos) (hj : (json pos).1 = .ok r) (hp : (pickle pos).1 = .error .unpickling) :
    rulesetFromRyu json pickle (.text s) seek pos = .ok r := by
  unfold rulesetFromRyu
  simp only
  split
  · cases ej : json pos with
    | mk a p =>
      rw [ej] at hj
      cases hj
      rfl
  · cases ep : pickle pos with
    | mk a p =>
      rw [ep] at hp
      cases hp
      simp only
      rcases hs with ⟨h1, h2⟩ | h
      · subst h1 h2
        exact hj
      · rw [h _ pos]
        exact hj

/-- `ruleset_from_ryu` gives up on JSON that `pickle.load` refuses with any other exception, such as an EOFError or an IndexError, and on a pickle in a file
with "json" in its name for which `json.load` raises something else. -/
theorem C92_ryu_gives_up {ρ : Type} (json pickle : Nat → Except RyuErr ρ × Nat) (s : List Char) (seek : Bool) (pos : Nat) (e : PyErr) :
    (¬ "json".toList <:+: s → ¬ "jsn".toList <:+: s → (pickle pos).1 = .error (.other e) → rulesetFromRyu json pickle (.text s) seek pos = .error (.other e)) ∧
    ("json".toList <:+: s → (json pos).1 = .error (.other e) → rulesetFromRyu json pickle (.text s) seek pos = .error (.other e)) := by
  constructor
  · intro h1 h2 hp
    have hm : mentions s ["json", "jsn"] = false := by
      cases hm : mentions s ["json", "jsn"] with
      | false => rfl
      | true =>
        obtain ⟨w, hw, hi⟩ := mentions_iff.1 hm
        simp only [List.mem_cons, List.not_mem_nil, or_false] at hw
        rcases hw with rfl | rfl
        · exact absurd hi h1
        · exact absurd hi h2
    unfold rulesetFromRyu
    simp only [hm, Bool.false_eq_true, if_false]
    cases ep : pickle pos with
    | mk a p =>
      rw [ep] at hp
      cases hp
      rfl
  · intro h1 hj
    have hm : mentions s ["json", "jsn"] = true := mentions_iff.2 ⟨_, List.mem_cons_self, h1⟩
    unfold rulesetFromRyu
    simp only [hm, if_true]
    cases ej : json pos with
    | mk a p =>
      rw [ej] at hj
      cases hj
      rfl

/-! ### Examples -/

/-- Readers that refuse files of another kind. -/
def strict : Readers Nat := ⟨fun _ _ => .error .valueError, fun _ => .error .keyError, fun _ => .error .keyError, fun _ => 0⟩

example : ∃ c l, saveRuleset (fun _ => none) 0 0 (fun _ => []) (.text []) [ryuSample, ryuSample] "ryu_pickle" = (c, .ok ()) ∧
    loadRuleset (readers strict c) [] "ryu_pickle" (.text []) .absent 0 = .ok l ∧ SameRules l [ryuSample, ryuSample] :=
  C92_round_trip_partial _ 0 0 _ _ strict [] _ _ 0 "ryu_pickle" _ (by decide) fun r hr => by
    have : r = ryuSample := by simpa using hr
    subst this
    exact .inr (.inl ⟨.inr rfl, ryuSample_ok⟩)

theorem cookied : Ovs.WritableRule { Ovs.ovsSample with cookie := some 3 } :=
  ⟨Ovs.ovsSample_writable.mat, Ovs.ovsSample_writable.fields, Ovs.ovsSample_writable.apply, Ovs.ovsSample_writable.write, Ovs.ovsSample_writable.meter⟩

example : ∃ c l, saveRuleset (fun _ => none) 0 0 (fun _ => []) (.text []) [{ Ovs.ovsSample with cookie := some 3 }] "ovs" = (c, .ok ()) ∧
    loadRuleset (readers strict c) [] "ovs" (.text []) .absent 0 = .ok l ∧ SameRules l [{ Ovs.ovsSample with cookie := some 3 }] :=
  C92_round_trip_partial _ 0 0 _ _ strict [] _ _ 0 "ovs" _ (by decide) fun r hr => by
    cases List.mem_singleton.1 hr
    exact .inr (.inr ⟨rfl, cookied, rfl⟩)

example : ∃ c r', saveRuleset (fun _ => none) 0 0 (fun _ => []) (.text []) [Ovs.ovsSample] "ovs" = (c, .ok ()) ∧
    loadRuleset (readers strict c) [] "ovs" (.text []) .absent 0 = .ok [.rule r'] ∧ r'.eq { Ovs.ovsSample with cookie := some 0 } = true ∧
    r'.eq Ovs.ovsSample = false :=
  C92_ovs_cookie_partial _ 0 0 _ _ strict [] _ _ 0 _ Ovs.ovsSample_writable rfl

/-- A rule that Ryu's formats cannot hold for its meter, and Open vSwitch for its action. -/
def metered : Rule Nat := ⟨5, some 1, 0, .empty, ⟨none, mkList [.popPbb], mkList [], none, false, some 1⟩, []⟩

example : saveRuleset (fun _ => none) 0 0 (fun _ => []) (.json .scalar) [metered] "ryu_json" = (.text [], .error .assertion) :=
  (C92_old_lost _ 0 0 _ _ _ .assertion rfl).1

example : ∃ c l, saveRuleset (fun _ => none) 0 0 (fun _ => []) (.json .scalar) ([{ Ovs.ovsSample with cookie := some 3 }] ++ metered :: [metered]) "ovs" = (c, .error .runtimeError) ∧
    loadRuleset (readers strict c) [] "ovs" (.text []) .absent 0 = .ok l ∧ SameRules l [{ Ovs.ovsSample with cookie := some 3 }] :=
  C92_cut _ 0 0 _ _ strict [] _ _ 0 _ _ _ _ (fun x hx => by
    cases List.mem_singleton.1 hx
    exact ⟨cookied, rfl⟩) rfl

example : saveRuleset (fun _ => none) 0 0 (fun _ => []) (.text ['x']) [ryuSample] "fib" = (.text ['x'], .ok ()) :=
  C92_not_refused _ 0 0 _ _ _ "fib" (by decide)

example : rulesetFromPickle (π := Nat) (.dict [("desc", none), ("flow_stats", some ([⟨5, some 42, 2, none, none⟩].map .flow))]) =
    ([⟨5, some 42, 2, none, none⟩].mapM (ruleFromRyu (π := Nat))).map (·.map .rule) :=
  (C92_dict _).2 _ rfl

example : rulesetFromPickle (.list [.flow ⟨5, some 42, 2, none, none⟩, .rule ryuSample]) = .error .attributeError := by rfl

example : rulesetFromRyu (fun _ => (.error .valueError, 7)) (fun p => if p = 0 then (.ok [1], 9) else (.error .unpickling, p)) (.text "a.json".toList) true 0 =
    (.ok [1] : Except RyuErr (List Nat)) :=
  C92_ryu_pickle_partial _ _ _ true 0 [1] (.inl ⟨rfl, rfl⟩) rfl rfl

example : rulesetFromRyu (fun p => if p = 0 then (.ok [1], 9) else (.error .valueError, p)) (fun _ => (.error .unpickling, 1)) (.text "a.txt".toList) true 0 =
    (.ok [1] : Except RyuErr (List Nat)) :=
  C92_ryu_json_partial _ _ _ true 0 [1] (.inl ⟨rfl, rfl⟩) rfl rfl

example : rulesetFromRyu (fun _ => (.ok [1], 9)) (fun _ => (.error (.other .indexError), 1)) (.text "a.txt".toList) true 0 =
    (.error (.other .indexError) : Except RyuErr (List Nat)) :=
  (C92_ryu_gives_up _ _ _ true 0 _).1 (by decide +kernel) (by decide +kernel) rfl

end OFE.Save
