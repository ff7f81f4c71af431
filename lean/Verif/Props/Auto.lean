import Verif.Ryu.Auto
import Verif.Ovs.FileLemmas

/-!
# Detection of the format (C73)
-/

namespace OFE.Auto

/-- Specification: the set of load functions, in some order. -/
def IsValues (values : List Fmt) : Prop := values.Perm [.json, .pickle, .fib, .ovs]

instance (values : List Fmt) : Decidable (IsValues values) := inferInstanceAs (Decidable (List.Perm _ _))

/-- Specification: a source that can be read again: a path, or a file at its start that can be rewound. -/
inductive Rereadable {ρ : Type} (load : Load ρ) : Seek → Nat → Prop
  | path : (∀ l p q, (load l p).1 = (load l q).1) → ∀ p, Rereadable load .absent p
  | file : Rereadable load .rewinds 0

/-- Specification: a format accepts the source. -/
def Accepts {ρ : Type} (load : Load ρ) (pos : Nat) (l : Fmt) (r : ρ) : Prop := (load l pos).1 = .ok r

/-- Specification: the words in a name that speak for a format. -/
def hints : Fmt → List String
  | .json => ["json", "jsn"]
  | .pickle => ["pickle", "pkl"]
  | .fib => ["fib"]
  | .ovs => ["ovs"]

/-- Specification: the name speaks for a format. -/
def Hinted (s : List Char) (l : Fmt) : Prop := ∃ w ∈ hints l, w.toList <:+: s

theorem mentions_iff {s : List Char} {ws : List String} : mentions s ws = true ↔ ∃ w ∈ ws, w.toList <:+: s := by
  unfold mentions
  simp only [List.any_eq_true, Ovs.hasText_iff]

theorem byName_mem {s : List Char} {l : Fmt} : l ∈ byName s ↔ Hinted s l := by
  unfold byName Hinted
  simp only [mentions_iff]
  cases l <;> simp only [List.mem_append, hints] <;>
    (constructor
     · intro h
       rcases h with ((h | h) | h) | h <;> split at h <;> simp_all
     · intro h
       rw [if_pos h]
       simp)

theorem tryOrder_mem {values : List Fmt} (hv : IsValues values) (s : List Char) (l : Fmt) : l ∈ tryOrder values s := by
  unfold tryOrder
  simp only [List.mem_append, List.mem_filter, List.mem_singleton]
  by_cases h : l ∈ byName s
  · exact .inl (.inl h)
  · by_cases h2 : l = .ovs
    · exact .inr h2
    · refine .inl (.inr ⟨hv.mem_iff.2 (by cases l <;> simp), ?_⟩)
      simp [h, h2]

theorem tryAll_reread {ρ : Type} {load : Load ρ} {seek : Seek} {pos : Nat} (h : Rereadable load seek pos) (ls : List Fmt) :
    tryAll load seek ls pos = match ls.findSome? fun l => (load l pos).1.toOption with | some r => .ok r | none => .error .valueError := by
  cases h with
  | path hp p =>
    induction ls generalizing pos with
    | nil => rfl
    | cons l ls ih =>
      unfold tryAll
      rw [List.findSome?_cons]
      cases e : load l pos with
      | mk r q =>
        cases r with
        | ok r => rfl
        | error err =>
          simp only [Except.toOption]
          rw [ih (pos := q)]
          simp only [fun l => hp l q pos]
          rfl
  | file =>
    induction ls with
    | nil => rfl
    | cons l ls ih =>
      unfold tryAll
      rw [List.findSome?_cons]
      cases e : load l 0 with
      | mk r q =>
        cases r with
        | ok r => rfl
        | error err =>
          simp only [Except.toOption]
          exact ih

theorem toOption_some {ρ : Type} {x : Except PyErr ρ} {r : ρ} : x.toOption = some r ↔ x = .ok r := by
  cases x <;> simp [Except.toOption]

/-- C73: what is returned was read by one of the load functions, and ValueError is raised exactly if none of them accepts the source. -/
theorem C73_some_loader {ρ : Type} (load : Load ρ) (values : List Fmt) (hv : IsValues values) (s : List Char) (seek : Seek) (pos : Nat)
    (h : Rereadable load seek pos) :
    (∀ r, loadRuleset load values "auto" (.text s) seek pos = .ok r → ∃ l, Accepts load pos l r) ∧
      ((∃ e, loadRuleset load values "auto" (.text s) seek pos = .error e) ↔ ∀ l r, ¬ Accepts load pos l r) ∧
      (∀ e, loadRuleset load values "auto" (.text s) seek pos = .error e → e = .valueError) := by
  have e : loadRuleset load values "auto" (.text s) seek pos = _ := tryAll_reread h (tryOrder values s)
  rw [e]
  cases hf : (tryOrder values s).findSome? fun l => (load l pos).1.toOption with
  | some r =>
    obtain ⟨l, -, hl⟩ := List.exists_of_findSome?_eq_some hf
    rw [toOption_some] at hl
    refine ⟨?_, ⟨?_, ?_⟩, ?_⟩
    · intro r' e; cases e; exact ⟨l, hl⟩
    · rintro ⟨_, e⟩; cases e
    · intro hno; exact absurd hl (hno l r)
    · intro e h; cases h
  | none =>
    rw [List.findSome?_eq_none_iff] at hf
    refine ⟨?_, ⟨?_, ?_⟩, ?_⟩
    · intro r e; cases e
    · rintro - l r ha
      have := hf l (tryOrder_mem hv s l)
      rw [toOption_some.2 ha] at this
      cases this
    · intro _; exact ⟨.valueError, rfl⟩
    · intro e h; cases h; rfl

theorem findSome_unique {ρ : Type} {ls : List Fmt} {g : Fmt → Option ρ} {l : Fmt} {r : ρ} (hl : g l = some r) (h : ∀ k ∈ ls, k ≠ l → g k = none) (hm : l ∈ ls) :
    ls.findSome? g = some r := by
  induction ls with
  | nil => cases hm
  | cons k ls ih =>
    rw [List.findSome?_cons]
    by_cases hk : k = l
    · subst hk; rw [hl]
    · rw [h k List.mem_cons_self hk]
      exact ih (fun k hk => h k (List.mem_cons_of_mem _ hk)) ((List.mem_cons.1 hm).resolve_left (Ne.symm hk))

/-- C73: a source that exactly one load function accepts is read by it, whatever its name and the order of the load functions. -/
theorem C73_one_format {ρ : Type} (load : Load ρ) (values : List Fmt) (hv : IsValues values) (s : List Char) (seek : Seek) (pos : Nat)
    (h : Rereadable load seek pos) (l : Fmt) (r : ρ) (hl : Accepts load pos l r) (hu : ∀ k r', Accepts load pos k r' → k = l) :
    loadRuleset load values "auto" (.text s) seek pos = .ok r := by
  have e : loadRuleset load values "auto" (.text s) seek pos = _ := tryAll_reread h (tryOrder values s)
  rw [e, findSome_unique (l := l) (r := r) (toOption_some.2 hl) ?_ (tryOrder_mem hv s l)]
  intro k _ hk
  cases e : (load k pos).1 with
  | error err => rfl
  | ok r' => exact absurd (hu k r' e) hk

/-- C73, since the Open vSwitch loader accepts nearly everything (`C73_garbage`): a source that of the other formats exactly one accepts is read by that one, whatever the
order of the load functions.

Partial: unless the name mentions ovs and not the format itself (`C73_ovs_in_path`). -/
theorem C73_other_format_partial {ρ : Type} (load : Load ρ) (values : List Fmt) (hv : IsValues values) (s : List Char) (seek : Seek) (pos : Nat)
    (h : Rereadable load seek pos) (l : Fmt) (r : ρ) (hne : l ≠ .ovs) (hl : Accepts load pos l r) (hu : ∀ k r', k ≠ .ovs → Accepts load pos k r' → k = l)
    (hname : Hinted s .ovs → Hinted s l) : loadRuleset load values "auto" (.text s) seek pos = .ok r := by
  have e : loadRuleset load values "auto" (.text s) seek pos = _ := tryAll_reread h (tryOrder values s)
  -- the functions tried before and including l, none of which is that for Open vSwitch
  have key : ∃ a b, tryOrder values s = a ++ b ∧ l ∈ a ∧ Fmt.ovs ∉ a := by
    unfold tryOrder
    by_cases ho : Hinted s .ovs
    · have hl' := hname ho
      refine ⟨(if mentions s ["json", "jsn"] then [.json] else []) ++ (if mentions s ["pickle", "pkl"] then [.pickle] else []) ++
        (if mentions s ["fib"] then [.fib] else []), _, by unfold byName; simp only [List.append_assoc]; rfl, ?_, ?_⟩
      · have := byName_mem.2 hl'
        unfold byName at this
        rcases List.mem_append.1 this with h | h
        · exact h
        · split at h
          · exact absurd (List.mem_singleton.1 h) hne
          · cases h
      · simp only [List.mem_append, not_or]
        refine ⟨⟨?_, ?_⟩, ?_⟩ <;> split <;> simp
    · refine ⟨byName s ++ values.filter (fun l => !(byName s ++ [Fmt.ovs]).contains l), [.ovs], rfl, ?_, ?_⟩
      · have := tryOrder_mem hv s l
        unfold tryOrder at this
        rcases List.mem_append.1 this with h | h
        · exact h
        · exact absurd (List.mem_singleton.1 h) hne
      · rw [List.mem_append, not_or]
        refine ⟨fun h => ho (byName_mem.1 h), fun h => ?_⟩
        simp at h
  obtain ⟨a, b, hab, hla, hoa⟩ := key
  rw [e, hab, List.findSome?_append, findSome_unique (l := l) (r := r) (toOption_some.2 hl) ?_ hla]
  · rfl
  · intro k hk hkl
    cases e : (load k pos).1 with
    | error err => rfl
    | ok r' => exact absurd (hu k r' (fun hko => hoa (hko ▸ hk)) e) hkl

/-- C73: a source whose name speaks for one format only is read by its load function if that accepts it, whatever the others do. -/
theorem C73_hint {ρ : Type} (load : Load ρ) (values : List Fmt) (s : List Char) (seek : Seek) (pos : Nat) (l : Fmt) (r : ρ) (hl : Accepts load pos l r)
    (h1 : Hinted s l) (h2 : ∀ k, Hinted s k → k = l) : loadRuleset load values "auto" (.text s) seek pos = .ok r := by
  have hb : ∃ rest, tryOrder values s = l :: rest := by
    have hm := byName_mem.2 h1
    unfold tryOrder
    cases e : byName s with
    | nil => rw [e] at hm; cases hm
    | cons k rest =>
      have : k = l := h2 k (byName_mem.1 (by rw [e]; exact List.mem_cons_self))
      subst this
      exact ⟨_, rfl⟩
  obtain ⟨rest, e⟩ := hb
  have : loadRuleset load values "auto" (.text s) seek pos = tryAll load seek (tryOrder values s) pos := rfl
  rw [this, e, tryAll]
  unfold Accepts at hl
  cases ep : load l pos with
  | mk x q =>
    rw [ep] at hl
    simp only at hl
    rw [hl]

/-- C73: with a format given, its load function is called, and only that. -/
theorem C73_given {ρ : Type} (load : Load ρ) (values : List Fmt) (name : Name) (seek : Seek) (pos : Nat) :
    loadRuleset load values "ryu_json" name seek pos = (load .json pos).1 ∧ loadRuleset load values "ryu_pickle" name seek pos = (load .pickle pos).1 ∧
    loadRuleset load values "pickle" name seek pos = (load .pickle pos).1 ∧ loadRuleset load values "ovs" name seek pos = (load .ovs pos).1 ∧
    loadRuleset load values "fib" name seek pos = (load .fib pos).1 ∧
    ∀ f, f ∉ ["auto", "ryu_json", "ryu_pickle", "pickle", "ovs", "fib"] → loadRuleset load values f name seek pos = .error .valueError := by
  refine ⟨rfl, rfl, rfl, rfl, rfl, fun f hf => ?_⟩
  simp only [List.mem_cons, List.not_mem_nil, or_false, not_or] at hf
  obtain ⟨h1, h2, h3, h4, h5, h6⟩ := hf
  unfold loadRuleset inputLoadFn
  rw [if_neg h1]
  have hbe : ∀ k : String, f ≠ k → (f == k) = false := fun k h => by simpa using h
  simp only [List.lookup, hbe _ h2, hbe _ h3, hbe _ h4, hbe _ h5, hbe _ h6]

/-! ### Examples -/

example : loadRuleset (fun _ _ => (.ok 1, 0) : Load Nat) [] "text" (.text []) .absent 0 = .error .valueError :=
  (C73_given _ [] (.text []) .absent 0).2.2.2.2.2 "text" (by decide)

/-- A file with the text of a ruleset in Ryu's JSON: the Open vSwitch loader takes it for an empty ruleset, the others refuse it. -/
def jsonFile : Load (List Nat) := fun l _ => match l with | .json => (.ok [1, 2], 9) | .ovs => (.ok [], 9) | _ => (.error .valueError, 3)

/-- A pickle: the Open vSwitch loader refuses it as it is not text. -/
def pickleFile : Load (List Nat) := fun l _ => match l with | .pickle => (.ok [3], 9) | _ => (.error .valueError, 3)

example : loadRuleset jsonFile [.fib, .ovs, .json, .pickle] "auto" (.text "rules.txt".toList) .rewinds 0 = .ok [1, 2] :=
  C73_other_format_partial jsonFile _ (by decide) _ _ 0 .file .json [1, 2] (by decide) rfl (by
    intro k r' hk ha
    cases k with
    | json => rfl
    | ovs => exact absurd rfl hk
    | _ => cases ha) (by
    rintro ⟨w, hw, hi⟩
    rw [List.mem_singleton.1 hw] at hi
    exact absurd (Ovs.hasText_iff.2 hi) (by decide))

example : loadRuleset pickleFile [.fib, .ovs, .json, .pickle] "auto" (.text "ovs.fib".toList) .rewinds 0 = .ok [3] :=
  C73_one_format pickleFile _ (by decide) _ _ 0 .file .pickle [3] rfl (by intro k r' ha; cases k <;> first | rfl | cases ha)

example : ∃ e, loadRuleset (fun _ _ => (.error .keyError, 0) : Load Nat) [.fib, .ovs, .json, .pickle] "auto" (.text "x".toList) .absent 0 = .error e :=
  (C73_some_loader _ _ (by decide) _ _ 0 (.path (fun _ _ _ => rfl) 0)).2.1.2 (by intro l r h; cases h)

/-- A pipe called rules.json. -/
example : loadRuleset jsonFile [] "auto" (.text "rules.json".toList) (.raises .valueError) 0 = .ok [1, 2] :=
  C73_hint jsonFile [] _ _ 0 .json [1, 2] rfl ⟨"json", by decide, Ovs.hasText_iff.1 (by decide)⟩ (by
    rintro k ⟨w, hw, hi⟩
    cases k with
    | json => rfl
    | pickle =>
      simp only [hints, List.mem_cons, List.not_mem_nil, or_false] at hw
      rcases hw with rfl | rfl <;> exact absurd (Ovs.hasText_iff.2 hi) (by decide)
    | fib =>
      rw [List.mem_singleton.1 hw] at hi
      exact absurd (Ovs.hasText_iff.2 hi) (by decide)
    | ovs =>
      rw [List.mem_singleton.1 hw] at hi
      exact absurd (Ovs.hasText_iff.2 hi) (by decide))

/-! ### Violations -/

/-- The Open vSwitch loader takes any text without `actions=` and `group_id=` for an empty ruleset. -/
theorem C73_garbage {π : Type} (lines : List (List Char)) (h : ∀ t ∈ lines, ¬ "actions=".toList <:+: t ∧ ¬ "group_id=".toList <:+: t) :
    Ovs.rulesetFromOvs (π := π) lines = .ok ([], []) := by
  have hs : ∀ t : List Char, Ovs.strip t <:+: t := by
    intro t
    unfold Ovs.strip
    have h1 : ∀ (p : Char → Bool) (u : List Char), u.dropWhile p <:+ u := fun p u => List.dropWhile_suffix p
    have h2 : (((t.dropWhile Ovs.isSpace).reverse.dropWhile Ovs.isSpace).reverse) <+: t.dropWhile Ovs.isSpace := by
      have := (h1 Ovs.isSpace (t.dropWhile Ovs.isSpace).reverse)
      rw [← List.reverse_prefix, List.reverse_reverse] at this
      exact this
    exact h2.isInfix.trans (h1 _ t).isInfix
  have hno : ∀ (w : List Char) (t : List Char), ¬ w <:+: t → Ovs.hasText w (Ovs.strip t) = false := by
    intro w t hw
    cases e : Ovs.hasText w (Ovs.strip t) with
    | false => rfl
    | true => exact absurd ((Ovs.hasText_iff.1 e).trans (hs t)) hw
  have e1 : Ovs.sortLines lines = ([], []) := by
    unfold Ovs.sortLines
    simp only [Prod.mk.injEq, List.filter_eq_nil_iff, List.forall_mem_map]
    refine ⟨fun t ht => ?_, fun t ht => ?_⟩
    · rw [hno _ t (h t ht).2]; simp
    · rw [hno _ t (h t ht).1]; simp
  unfold Ovs.rulesetFromOvs
  rw [e1]
  rfl

example : Ovs.rulesetFromOvs (π := Nat) ["Dear all,".toList, "this is not a ruleset.".toList] = .ok ([], []) :=
  C73_garbage _ (by
    intro t ht
    simp only [List.mem_cons, List.not_mem_nil, or_false] at ht
    rcases ht with rfl | rfl <;>
      exact ⟨fun h => absurd (Ovs.hasText_iff.2 h) (by decide), fun h => absurd (Ovs.hasText_iff.2 h) (by decide)⟩)

/-- Hence a text of no known format gives an empty ruleset instead of the ValueError, whatever the order. -/
theorem C73_no_error {π : Type} (load : Load (List (Rule π))) (values : List Fmt) (hv : IsValues values) (s : List Char) (pos : Nat) (seek : Seek)
    (hr : Rereadable load seek pos) (lines : List (List Char)) (h : ∀ t ∈ lines, ¬ "actions=".toList <:+: t ∧ ¬ "group_id=".toList <:+: t)
    (ho : (load .ovs pos).1 = (Ovs.rulesetFromOvs (π := π) lines).map (·.1)) (hothers : ∀ l r, l ≠ .ovs → ¬ Accepts load pos l r) :
    loadRuleset load values "auto" (.text s) seek pos = .ok [] := by
  refine C73_one_format load values hv s seek pos hr .ovs [] ?_ ?_
  · unfold Accepts
    rw [ho, C73_garbage lines h]
    rfl
  · intro k r' hk
    cases Classical.em (k = .ovs) with
    | inl e => exact e
    | inr e => exact absurd hk (hothers k r' e)

/-- A letter. -/
def letterFile : Load (List (Rule Nat)) := fun l _ => match l with
  | .ovs => ((Ovs.rulesetFromOvs (π := Nat) ["hello".toList]).map (·.1), 0)
  | _ => (.error .valueError, 0)

example : loadRuleset letterFile [.pickle, .fib, .json, .ovs] "auto" (.text "letter".toList) .absent 0 = .ok [] :=
  C73_no_error letterFile _ (by decide) _ _ _ (.path (fun l _ _ => by cases l <;> rfl) 0) ["hello".toList]
    (by
      intro t ht
      rw [List.mem_singleton.1 ht]
      exact ⟨fun h => absurd (Ovs.hasText_iff.2 h) (by decide), fun h => absurd (Ovs.hasText_iff.2 h) (by decide)⟩) rfl
    (by intro l r hl ha; cases l <;> first | exact hl rfl | cases ha)

/-- A JSON file in a directory whose name has the letters ovs is read as an empty ruleset. -/
theorem C73_ovs_in_path : loadRuleset jsonFile [.json, .pickle, .fib, .ovs] "auto" (.text "/home/ovs/rules.txt".toList) .absent 0 = .ok [] ∧
    loadRuleset jsonFile [.json, .pickle, .fib, .ovs] "auto" (.text "/home/rules.txt".toList) .absent 0 = .ok [1, 2] := by decide +kernel

/-- The result depends on the order of the set if two load functions accept a source.  Such a source is the
line `{"a 1.2.3.4/8 b": []}`: a FIB with one route, and JSON with no flows. -/
theorem C73_order : ∃ load : Load (List Nat), ∃ v w, IsValues v ∧ IsValues w ∧ loadRuleset load v "auto" (.text "rules".toList) .absent 0 ≠
    loadRuleset load w "auto" (.text "rules".toList) .absent 0 :=
  ⟨fun l _ => match l with | .json => (.ok [1], 0) | .fib => (.ok [2], 0) | _ => (.error .valueError, 0), [.json, .pickle, .fib, .ovs], [.fib, .pickle, .json, .ovs],
    by decide, by decide, by decide +kernel⟩

/-- A pipe is read only if its format is tried first. -/
theorem C73_pipe {ρ : Type} (load : Load ρ) (values : List Fmt) (s : List Char) (pos : Nat) (e : PyErr) (l : Fmt) (rest : List Fmt)
    (h : tryOrder values s = l :: rest) (hf : ∀ r, ¬ Accepts load pos l r) : loadRuleset load values "auto" (.text s) (.raises e) pos = .error e := by
  have : loadRuleset load values "auto" (.text s) (.raises e) pos = tryAll load (.raises e) (tryOrder values s) pos := rfl
  rw [this, h, tryAll]
  cases ep : load l pos with
  | mk x q =>
    cases x with
    | ok r => exact absurd (by unfold Accepts; rw [ep]) (hf r)
    | error err => rfl

example : loadRuleset pickleFile [.json, .pickle, .fib, .ovs] "auto" (.text "<stdin>".toList) (.raises .valueError) 0 = .error .valueError :=
  C73_pipe pickleFile _ _ 0 _ .json [.pickle, .fib, .ovs] (by decide +kernel) (by intro r h; cases h)

/-- A file opened by its descriptor is not read. -/
theorem C73_descriptor {ρ : Type} (load : Load ρ) (values : List Fmt) (n : Nat) (seek : Seek) (pos : Nat) :
    loadRuleset load values "auto" (.number n) seek pos = .error .typeError := rfl

end OFE.Auto
