import Verif.Cli.Model
import Verif.DictLemmas
import Verif.Props.MainReverse
import Verif.Props.SaveLoad

/-!
# The programs use all files they are given (C99)

True for check_equivalence when no name is given twice; otherwise only what was loaded last under a name is used, and two different rulesets may not be
compared at all (`C99_same_name`).  convert_ruleset writes what it reads if the format can hold it; if not, and the file is converted in place, the
ruleset is lost (`C99_in_place_lost`).  graph_ruleset_deps writes where it is told and removes its temporary file, but opens a file for viewing that
it did not write when `dot` fails (`C99_dot_fails`).
-/

namespace OFE.Cli
open Save Auto Ryu

/-! ### check_equivalence -/

/-- Specification: loading the files of a list of names and formats, one after the other, gives the rulesets `rs`. -/
inductive Reads {σ ρ : Type} (load : σ → String → String → Except PyErr ρ × σ) : σ → List (String × String) → List (String × ρ) → Prop where
  | nil (st : σ) : Reads load st [] []
  | cons {st st' : σ} {n f : String} {r : ρ} {rest : List (String × String)} {rs : List (String × ρ)} (h : load st n f = (.ok r, st'))
      (more : Reads load st' rest rs) : Reads load st ((n, f) :: rest) ((n, r) :: rs)

theorem Reads.names {σ ρ : Type} {load : σ → String → String → Except PyErr ρ × σ} {st : σ} {reqs : List (String × String)} {rs : List (String × ρ)}
    (h : Reads load st reqs rs) : rs.map Prod.fst = reqs.map Prod.fst := by
  induction h with
  | nil => rfl
  | cons _ _ ih => rw [List.map_cons, List.map_cons, ih]

/-- C99: every file named on the command line is loaded in its format: names without an option in the format "auto". -/
theorem C99_requests (names : List String) (opts : String → List String) (n f : String) :
    (n, f) ∈ requests names opts ↔ (f = "auto" ∧ n ∈ names) ∨
      (f ∈ ["auto", "ryu_pickle", "ryu_json", "pickle", "ovs", "fib"] ∧ n ∈ opts f) := by
  unfold requests
  rw [List.mem_append, List.mem_map, List.mem_flatMap]
  constructor
  · rintro (⟨x, hx, e⟩ | ⟨g, hg, hx⟩)
    · cases e; exact .inl ⟨rfl, hx⟩
    · obtain ⟨x, hx, e⟩ := List.mem_map.1 hx
      cases e; exact .inr ⟨hg, hx⟩
  · rintro (⟨rfl, hx⟩ | ⟨hg, hx⟩)
    · exact .inl ⟨n, hx, rfl⟩
    · exact .inr ⟨f, hg, List.mem_map.2 ⟨n, hx, rfl⟩⟩

example : ("b", "fib") ∈ requests ["a"] (fun f => if f = "fib" then ["b"] else []) := (C99_requests _ _ _ _).2 (.inr ⟨by decide, by simp⟩)

theorem loadAll_spec {σ ρ : Type} (load : σ → String → String → Except PyErr ρ × σ) : ∀ (reqs : List (String × String)) (st : σ) (d0 : List (String × ρ)),
    (∀ rs, Reads load st reqs rs → loadAll load st reqs d0 = .ok (rs.foldl (fun d x => dictSet x.1 x.2 d) d0)) ∧
    ((¬ ∃ rs, Reads load st reqs rs) → ∃ e, loadAll load st reqs d0 = .error e) := by
  intro reqs
  induction reqs with
  | nil =>
    intro st d0
    refine ⟨fun rs h => ?_, fun h => absurd ⟨[], .nil st⟩ h⟩
    cases h
    rfl
  | cons x reqs ih =>
    intro st d0
    obtain ⟨n, f⟩ := x
    constructor
    · intro rs h
      cases h with
      | @cons _ st' _ _ r _ rs h more =>
        rw [loadAll, h]
        exact (ih st' _).1 rs more
    · intro hno
      rw [loadAll]
      rcases e : load st n f with ⟨_ | r, st'⟩
      · exact ⟨_, rfl⟩
      · simp only
        refine (ih st' _).2 fun ⟨rs, h⟩ => hno ⟨(n, r) :: rs, .cons e h⟩

theorem fold_names {ρ : Type} : ∀ (rs d : List (String × ρ)), (d.map Prod.fst).Nodup →
    ((rs.foldl (fun d x => dictSet x.1 x.2 d) d).map Prod.fst).Nodup ∧
    (∀ n, n ∈ (rs.foldl (fun d x => dictSet x.1 x.2 d) d).map Prod.fst ↔ n ∈ d.map Prod.fst ∨ n ∈ rs.map Prod.fst) ∧
    ∀ n, (rs.foldl (fun d x => dictSet x.1 x.2 d) d).lookup n = (rs.reverse.lookup n).or (d.lookup n) := by
  intro rs
  induction rs with
  | nil => intro d h; exact ⟨h, by simp, by simp⟩
  | cons x rs ih =>
    intro d h
    obtain ⟨h1, h2, h3⟩ := ih (dictSet x.1 x.2 d) (nodup_dictSet _ _ h)
    refine ⟨h1, fun n => ?_, fun n => ?_⟩
    · rw [List.foldl_cons, h2, mem_keys_dictSet, List.map_cons, List.mem_cons]
      constructor
      · rintro ((h | h) | h)
        · first | exact .inl h | exact .inr (.inl h)
        · first | exact .inl h | exact .inr (.inl h)
        · exact .inr (.inr h)
      · rintro (h | h | h)
        · first | exact .inl (.inl h) | exact .inl (.inr h)
        · first | exact .inl (.inr h) | exact .inl (.inl h)
        · exact .inr h
    · rw [List.foldl_cons, h3, lookup_dictSet, List.reverse_cons, List.lookup_append]
      obtain ⟨k, v⟩ := x
      simp only [List.lookup_cons, List.lookup_nil]
      by_cases e : n = k
      · subst e; simp
      · rw [if_neg e, show (n == k) = false from beq_eq_false_iff_ne.2 e]
        simp

theorem fold_distinct {ρ : Type} : ∀ (rs d : List (String × ρ)), ((d ++ rs).map Prod.fst).Nodup →
    rs.foldl (fun d x => dictSet x.1 x.2 d) d = d ++ rs := by
  intro rs
  induction rs with
  | nil => intro d _; simp
  | cons x rs ih =>
    intro d h
    have hx : x.1 ∉ d.map Prod.fst := by
      rw [List.map_append, List.map_cons, List.nodup_append] at h
      intro hm
      exact h.2.2 _ hm _ List.mem_cons_self rfl
    rw [List.foldl_cons, dictSet_new _ hx, ih _ (by simpa using h)]
    simp

/-- C99, loading: if all files can be loaded, the rulesets compared are, for every name on the command line, the one that was loaded last under
that name; otherwise the program raises.  Nothing else is compared, and no name twice. -/
theorem C99_loaded {σ ρ : Type} (load : σ → String → String → Except PyErr ρ × σ) (st : σ) (reqs : List (String × String)) :
    (∀ rs, Reads load st reqs rs → ∃ d, loadAll load st reqs [] = .ok d ∧ (d.map Prod.fst).Nodup ∧ (∀ n, n ∈ d.map Prod.fst ↔ n ∈ reqs.map Prod.fst) ∧
      (∀ n r, (n, r) ∈ d ↔ rs.reverse.lookup n = some r) ∧ ((reqs.map Prod.fst).Nodup → d = rs)) ∧
    ((¬ ∃ rs, Reads load st reqs rs) → ∃ e, loadAll load st reqs [] = .error e) := by
  refine ⟨fun rs h => ?_, (loadAll_spec load reqs st []).2⟩
  obtain ⟨h1, h2, h3⟩ := fold_names rs [] (by simp)
  refine ⟨_, (loadAll_spec load reqs st []).1 rs h, h1, fun n => ?_, fun n r => ?_, fun hn => ?_⟩
  · rw [h2, ← h.names]; simp
  · rw [mem_dict_iff h1, h3]; simp
  · rw [fold_distinct rs [] (by rw [List.nil_append, h.names]; exact hn), List.nil_append]

/-- Two files in two formats, and a third that cannot be opened. -/
def sampleLoad : Unit → String → String → Except PyErr Nat × Unit := fun _ n f =>
  (if n = "a" then (if f = "fib" then .ok 2 else .ok 1) else if n = "b" then .ok 3 else .error .valueError, ())

example : Reads sampleLoad () [("a", "auto"), ("b", "auto"), ("a", "fib")] [("a", 1), ("b", 3), ("a", 2)] ∧
    (loadAll sampleLoad () [("a", "auto"), ("b", "auto"), ("a", "fib")] []).toOption = some [("a", 2), ("b", 3)] ∧
    ¬ ∃ rs, Reads sampleLoad () [("c", "auto")] rs := by
  refine ⟨.cons (st' := ()) rfl (.cons (st' := ()) rfl (.cons (st' := ()) rfl (.nil ()))), rfl, ?_⟩
  rintro ⟨rs, h⟩
  cases h with
  | cons h _ => exact absurd (congrArg Prod.fst h) (by simp [sampleLoad])

section
variable {σ : Type} (py3 dc : Bool) {items : List (String × List (Rule Nat)) → List (String × List (Rule Nat))} (hitems : ∀ d, (items d).Perm d)
  (load : σ → String → String → Except PyErr (List (Rule Nat)) × σ) (st : σ) (names : List String) (opts : String → List String)

/-- C99: the usage is printed exactly when there is no name on the command line. -/
theorem C99_usage (rev : Bool) : checkMain py3 rev dc items load st names opts = .ok .usage ↔ requests names opts = [] := by
  unfold checkMain
  constructor
  · intro h
    by_cases hr : ∃ rs, Reads load st (requests names opts) rs
    · obtain ⟨rs, hr⟩ := hr
      obtain ⟨d, e, -, hn, -⟩ := (C99_loaded load st (requests names opts)).1 rs hr
      rw [e] at h
      cases d with
      | nil =>
        cases hq : requests names opts with
        | nil => rfl
        | cons x l =>
          have := (hn x.1).2 (by rw [hq]; simp)
          simp at this
      | cons x d =>
        simp only [bind, Except.bind, pure, Except.pure, List.isEmpty_cons, Bool.false_eq_true, if_false] at h
        split at h
        · cases h
        · split at h <;> cases h
    · obtain ⟨e, he⟩ := (C99_loaded load st (requests names opts)).2 hr
      rw [he] at h
      cases h
  · intro h
    rw [h]
    rfl

include hitems

/-- C99: if there are two or more names and none is given twice, all files that were named are compared: the names are printed exactly once each, and
two on the same line forward all packets in the same way.  `items` may give the rulesets in any order.

Partial: C58's conditions on the rulesets, without `-r` (with it, C98 instead of C58); and no name is given twice, see below. -/
theorem C99_compared_partial {rs : List (String × List (Rule Nat))} (hr : Reads load st (requests names opts) rs)
    (hnames : ((requests names opts).map Prod.fst).Nodup) (hlen : 2 ≤ (requests names opts).length) (hgood : ∀ x ∈ rs, GoodPipeline x.2)
    (hties : ∀ x ∈ rs, NoTies x.2) :
    ∃ lines, checkMain py3 false dc items load st names opts = .ok (.lines lines) ∧ lines.flatten.Perm ((requests names opts).map Prod.fst) ∧
      ∀ line ∈ lines, ∀ a ∈ line, ∀ b ∈ line, ∀ A B, (a, A) ∈ rs → (b, B) ∈ rs → SameForwarding A B := by
  obtain ⟨d, e, -, -, -, hd⟩ := (C99_loaded load st (requests names opts)).1 rs hr
  obtain rfl := hd hnames
  have hl : d.length = (requests names opts).length := by
    have := congrArg List.length hr.names
    simpa using this
  have hp := hitems d
  have hm : ∀ {x}, x ∈ items d ↔ x ∈ d := hp.mem_iff
  obtain ⟨lines, e1, e2, e3⟩ := C58_same_line_sound_partial dc (items d)
    (by rw [(hp.map Prod.fst).nodup_iff, hr.names]; exact hnames) (fun x hx => hgood x (hm.1 hx)) (fun x hx => hties x (hm.1 hx))
    (by rw [hp.length_eq, hl]; exact hlen)
  refine ⟨lines, ?_, ?_, fun line hline a ha b hb A B hA hB => e3 line hline a ha b hb A B (hm.2 hA) (hm.2 hB)⟩
  · unfold checkMain
    rw [e]
    simp only [bind, Except.bind, pure, Except.pure]
    rw [if_neg (show ¬ d.isEmpty = true from by cases d with
      | nil => rw [← hl] at hlen; simp at hlen
      | cons => simp), C98_off, e1]
    simp only
    rw [if_neg (by omega)]
  · rw [← hr.names]
    exact e2.trans (hp.map Prod.fst)

end

/-- Two files given without options. -/
def twoFiles : Unit → String → String → Except PyErr (List (Rule Nat)) × Unit := fun _ n _ => (.ok (if n = "x" then mainX else mainY), ())

/-- The hypotheses of `C99_compared_partial` hold for two files, one of them given with an option. -/
example : ∃ lines, checkMain true false true id twoFiles () ["x"] (fun f => if f = "ovs" then ["y"] else []) = .ok (.lines lines) ∧
    lines.flatten.Perm ["x", "y"] := by
  have hr : Reads twoFiles () (requests ["x"] (fun f => if f = "ovs" then ["y"] else [])) [("x", mainX), ("y", mainY)] :=
    .cons (st' := ()) rfl (.cons (st' := ()) rfl (.nil ()))
  obtain ⟨lines, h1, h2, -⟩ := C99_compared_partial true true (items := id) (fun _ => .refl _) twoFiles () ["x"] (fun f => if f = "ovs" then ["y"] else []) hr
    (by decide) (by decide)
    (fun x hx => by
      simp only [List.mem_cons, List.not_mem_nil, or_false] at hx
      rcases hx with rfl | rfl
      · exact mainX_good.1
      · exact mainY_good.1)
    (fun x hx => by
      simp only [List.mem_cons, List.not_mem_nil, or_false] at hx
      rcases hx with rfl | rfl
      · exact mainX_good.2
      · exact mainY_good.2)
  exact ⟨lines, h1, h2⟩

/-- Standard input, from which two rulesets come one after the other. -/
def twoInputs : Nat → String → String → Except PyErr (List (Rule Nat)) × Nat := fun st _ _ =>
  (.ok (revPrefix (if st = 0 then 0x80000000 else 0xC0000000)), st + 1)

/-- What is decided by computation about one file. -/
def oneForm : Except PyErr (List (String × DD Nat)) → Bool
  | .ok [_] => true
  | _ => false

/-- C99 is false when a name is given twice, such as "-" for two rulesets of different formats on standard input: both rulesets are read, they forward
packets differently, but the program ends without an error and without having compared them. -/
theorem C99_same_name (dc : Bool) : Reads twoInputs 0 (requests ["-"] (fun f => if f = "ovs" then ["-"] else []))
      [("-", revPrefix 0x80000000), ("-", revPrefix 0xC0000000)] ∧
    ¬ SameForwarding (revPrefix 0x80000000) (revPrefix 0xC0000000) ∧
    checkMain true false dc id twoInputs 0 ["-"] (fun f => if f = "ovs" then ["-"] else []) = .ok .quiet := by
  refine ⟨.cons (st' := 1) rfl (.cons (st' := 2) rfl (.nil 2)), revPrefix_differ, ?_⟩
  have h : oneForm (optionForms true false dc (Cudd.Reg.init none none) [("-", revPrefix 0xC0000000)]) = true := by
    cases dc <;> decide +kernel
  have e : loadAll twoInputs 0 (requests ["-"] (fun f => if f = "ovs" then ["-"] else [])) [] = .ok [("-", revPrefix 0xC0000000)] := rfl
  unfold checkMain
  rw [e]
  simp only [bind, Except.bind, pure, Except.pure, List.isEmpty_cons, Bool.false_eq_true, if_false, id]
  unfold mainLines
  generalize optionForms true false dc (Cudd.Reg.init none none) [("-", revPrefix 0xC0000000)] = forms at h
  unfold oneForm at h
  split at h
  · rfl
  · cases h

/-! ### convert_ruleset -/

theorem asRules_map {π : Type} (rs : List (Rule π)) : asRules (rs.map .rule) = .ok rs := by
  induction rs with
  | nil => rfl
  | cons r rs ih => simp only [List.map_cons, asRules, ih, bind, Except.bind, pure, Except.pure]

theorem asRules_same {π : Type} : ∀ {l : List (PElem π)} {rs : List (Rule π)}, asRules l = .ok rs → l = rs.map .rule
  | [], rs, h => by cases h; rfl
  | .rule r :: l, rs, h => by
    rw [asRules] at h
    cases e : asRules l with
    | error _ => rw [e] at h; cases h
    | ok rs' =>
      rw [e] at h
      cases h
      rw [List.map_cons, ← asRules_same e]
  | .flow _ :: _, _, h => by cases h
  | .other :: _, _, h => by cases h

/-- C99, convert_ruleset: after a ruleset is read and the output format can hold it, the destination holds the same rules (they are loaded from it again), no
other file has changed, and nothing is raised; the destination may be the source.

Partial: rulesets that the format can hold (as in C92). -/
theorem C99_converted_partial {π : Type} (R : Readers π) (values : List Fmt) (heap : Nat → Option GroupObj) (fuel n : Nat)
    (pprint : List (Rule π) → List Char) (missing : PyErr) (disk : Disk π) (source inFormat destination outFormat : String) (c : Content π)
    (rs : List (Rule π)) (hc : disk source = some c) (hl : loadRuleset (readers R c) values inFormat (.text source.toList) .absent 0 = .ok (rs.map .rule))
    (hf : outFormat ∈ ["pickle", "ryu_json", "ryu_pickle", "ovs"]) (h : ∀ r ∈ rs, Holds heap outFormat r) :
    ∃ disk' c' l, convertMain R values heap fuel n pprint missing disk source inFormat destination outFormat = (disk', .ok ()) ∧
      disk' destination = some c' ∧ (∀ p, p ≠ destination → disk' p = disk p) ∧
      loadRuleset (readers R c') values outFormat (.text destination.toList) .absent 0 = .ok l ∧ SameRules l rs := by
  obtain ⟨c', l, e1, e2, e3⟩ := C92_round_trip_partial heap fuel n pprint ((disk destination).getD (.text [])) R values (.text destination.toList) .absent 0
    outFormat rs hf h
  refine ⟨fun p => if p = destination then some c' else disk p, c', l, ?_, ?_, ?_, e2, e3⟩
  · unfold convertMain
    simp only [hc, hl, asRules_map, e1]
    have : outFormat ∈ ["ryu_json", "ryu_pickle", "pickle", "ovs", "text"] := by
      simp only [List.mem_cons, List.not_mem_nil, or_false] at hf ⊢
      rcases hf with h | h | h | h <;> simp [h]
    simp only [if_pos this]
  · simp
  · intro p hp
    simp [hp]

/-- C99, convert_ruleset: if the source cannot be read, the files stay as they are and the exception is raised. -/
theorem C99_unread {π : Type} (R : Readers π) (values : List Fmt) (heap : Nat → Option GroupObj) (fuel n : Nat)
    (pprint : List (Rule π) → List Char) (missing : PyErr) (disk : Disk π) (source inFormat destination outFormat : String) (e : PyErr)
    (h : (disk source = none ∧ e = missing) ∨
      ∃ c, disk source = some c ∧ loadRuleset (readers R c) values inFormat (.text source.toList) .absent 0 = .error e) :
    convertMain R values heap fuel n pprint missing disk source inFormat destination outFormat = (disk, .error e) := by
  unfold convertMain
  rcases h with ⟨h, rfl⟩ | ⟨c, h1, h2⟩
  · rw [h]
  · rw [h1]
    simp only [h2]

/-- C99 is false for a ruleset that the format cannot hold: converted in place to Ryu's formats, it is gone (the exception comes after the file was
emptied). -/
theorem C99_in_place_lost {π : Type} (R : Readers π) (values : List Fmt) (heap : Nat → Option GroupObj) (fuel n : Nat)
    (pprint : List (Rule π) → List Char) (missing : PyErr) (disk : Disk π) (path : String) (c : Content π)
    (rs : List (Rule π)) (hc : disk path = some c) (hl : loadRuleset (readers R c) values "pickle" (.text path.toList) .absent 0 = .ok (rs.map .rule))
    (e : PyErr) (h : rulesetToRyu heap fuel rs n = .error e) :
    ∃ disk', convertMain R values heap fuel n pprint missing disk path "pickle" path "ryu_json" = (disk', .error e) ∧ disk' path = some (.text []) := by
  obtain ⟨h1, -⟩ := C92_old_lost heap fuel n pprint ((disk path).getD (.text [])) rs e h
  refine ⟨fun p => if p = path then some (.text []) else disk p, ?_, by simp⟩
  unfold convertMain
  simp only [hc, hl, asRules_map]
  rw [hc, Option.getD_some] at h1
  simp [h1]

/-- The hypotheses of `C99_converted_partial` hold for a pickled ruleset converted in place to JSON. -/
example : ∃ disk' c' l, convertMain strict [] (fun _ => none) 0 0 (fun _ => []) .valueError
      (fun _ => some (.pickled (.list ([ryuSample, ryuSample].map .rule)))) "a" "pickle" "a" "ryu_json" = (disk', .ok ()) ∧
    disk' "a" = some c' ∧ (∀ p, p ≠ "a" → disk' p = some (.pickled (.list ([ryuSample, ryuSample].map .rule)))) ∧
    loadRuleset (readers strict c') [] "ryu_json" (.text "a".toList) .absent 0 = .ok l ∧ SameRules l [ryuSample, ryuSample] :=
  C99_converted_partial strict [] (fun _ => none) 0 0 (fun _ => []) .valueError _ "a" "pickle" "a" "ryu_json" _ _ rfl rfl (by decide) fun r hr => by
    have : r = ryuSample := by simpa using hr
    subst this
    exact .inr (.inl ⟨.inl rfl, ryuSample_ok⟩)

/-- The hypotheses of `C99_in_place_lost` hold for a rule with a meter. -/
example : ∃ disk', convertMain strict [] (fun _ => none) 0 0 (fun _ => []) .valueError
    (fun _ => some (.pickled (.list ([metered].map .rule)))) "a" "pickle" "a" "ryu_json" = (disk', .error .assertion) ∧ disk' "a" = some (.text []) :=
  C99_in_place_lost strict [] (fun _ => none) 0 0 (fun _ => []) .valueError _ "a" _ [metered] rfl rfl .assertion rfl

/-- The hypotheses of `C99_unread` hold for a name without a file. -/
example : convertMain strict [] (fun _ => none) 0 0 (fun _ => []) .valueError (fun _ => none) "a" "auto" "b" "ovs" = ((fun _ => none : Disk Nat), .error .valueError) :=
  C99_unread strict [] _ 0 0 _ _ _ "a" "auto" "b" "ovs" .valueError (.inl ⟨rfl, rfl⟩)

/-! ### graph_ruleset_deps -/

/-- Specification: where the drawing goes.  The window of pyplot, the file that is named, standard output (`-O` alone), or a temporary file. -/
def target (t : GType) (output : Option String) (outputOnly : Bool) (tmp : String) : Event :=
  if t = .pyplot then .window
  else match output with
    | some p => if p = "" then (if outputOnly then .printed else .wrote tmp) else .wrote p
    | none => if outputOnly then .printed else .wrote tmp

/-- C99, graph_ruleset_deps: if everything can be made, the drawing goes where it should, once; unless told otherwise, exactly the file that was written
is opened after that; and a temporary file is made only when no name is given and it is the file written, and is removed at the end. -/
theorem C99_graph (t : GType) (output : Option String) (outputOnly : Bool) (tmp : String)
    (hargs : t = .pyplot → outputOnly = false ∧ (output = none ∨ output = some "")) :
    ∃ temp : Bool, graphMain t output outputOnly tmp (.ok ()) (.ok ()) (.ok true) =
      ((if temp then [.tempMade tmp] else []) ++ [target t output outputOnly tmp] ++
        (match target t output outputOnly tmp with | .wrote p => if outputOnly then [] else [.opened p] | _ => []) ++
        (if temp then [.tempGone tmp] else []), .ok ()) ∧
      (temp = true ↔ t ≠ .pyplot ∧ (output = none ∨ output = some "") ∧ outputOnly = false) := by
  refine ⟨(given output).isNone && !outputOnly && t.hasExt, ?_, ?_⟩
  · rcases output with _ | p
    · cases t <;> cases outputOnly <;> first | rfl | (have := (hargs rfl).1; cases this)
    · by_cases hp : p = ""
      · subst hp
        cases t <;> cases outputOnly <;> first | rfl | (have := (hargs rfl).1; cases this)
      · have hg : given (some p) = some p := by simp [given, Option.filter, hp]
        have ht : t ≠ .pyplot := fun e => by
          rcases (hargs e).2 with h | h
          · cases h
          · cases h; exact hp rfl
        have htar : target t (some p) outputOnly tmp = .wrote p := by
          unfold target
          rw [if_neg ht]
          simp [hp]
        rw [htar]
        unfold graphMain graphBody
        rw [if_neg (fun h => ht h.1)]
        simp only [hg]
        cases t <;> first | exact absurd rfl ht | (cases outputOnly <;> rfl)
  · rcases output with _ | p
    · cases t <;> cases outputOnly <;> simp [given, GType.hasExt]
    · by_cases hp : p = ""
      · subst hp
        cases t <;> cases outputOnly <;> simp [given, GType.hasExt, Option.filter]
      · cases t <;> cases outputOnly <;> simp [given, GType.hasExt, Option.filter, hp]

/-- A page for a name, one on standard output, and one in a temporary file. -/
example : graphMain .d3 (some "g.html") false "t" (.ok ()) (.ok ()) (.ok true) = ([.wrote "g.html", .opened "g.html"], .ok ()) ∧
    graphMain .d3 none true "t" (.ok ()) (.ok ()) (.ok true) = ([.printed], .ok ()) ∧
    graphMain .d3 none false "t" (.ok ()) (.ok ()) (.ok true) = ([.tempMade "t", .wrote "t", .opened "t", .tempGone "t"], .ok ()) := by decide +kernel

/-- C99, graph_ruleset_deps: pyplot with an output file is refused and nothing is drawn. -/
theorem C99_pyplot (output : Option String) (outputOnly : Bool) (tmp : String) (built made : Except PyErr Unit) (dot : Except PyErr Bool)
    (h : outputOnly = true ∨ ∃ p, p ≠ "" ∧ output = some p) : graphMain .pyplot output outputOnly tmp built made dot = ([.usage], .ok ()) := by
  unfold graphMain
  rw [if_pos]
  refine ⟨rfl, ?_⟩
  rcases h with h | ⟨p, h1, rfl⟩
  · exact .inl h
  · right; simp [given, Option.filter, h1]

example : graphMain .pyplot (some "g.png") false "t" (.ok ()) (.ok ()) (.ok true) = ([.usage], .ok ()) :=
  C99_pyplot _ _ _ _ _ _ (.inr ⟨"g.png", by decide, rfl⟩)

/-- C99, graph_ruleset_deps: whatever fails, a temporary file that was made is removed, as the last thing that happens, and nothing is written or opened besides
the named file and the temporary one. -/
theorem C99_no_temp_left (t : GType) (output : Option String) (outputOnly : Bool) (tmp : String) (built made : Except PyErr Unit) (dot : Except PyErr Bool) :
    let evs := (graphMain t output outputOnly tmp built made dot).1
    (Event.tempMade tmp ∈ evs → evs.getLast? = some (.tempGone tmp)) ∧
    (∀ p, Event.tempMade p ∈ evs → p = tmp) ∧
    ∀ p, (Event.wrote p ∈ evs ∨ Event.opened p ∈ evs) → some p = output ∨ (p = tmp ∧ Event.tempMade tmp ∈ evs) := by
  intro evs
  have hev : evs = (graphMain t output outputOnly tmp built made dot).1 := rfl
  clear_value evs
  unfold graphMain at hev
  split at hev
  · subst hev; simp
  · cases built with
    | error e => subst hev; simp
    | ok _ =>
      simp only [graphBody] at hev
      rcases output with _ | p
      · rcases made with _ | _ <;> rcases dot with _ | _ | _ <;> cases t <;> cases outputOnly <;>
          simp [given, draw, GType.hasExt, Option.filter] at hev <;> subst hev <;> simp
      · by_cases hp : p = ""
        · subst hp
          rcases made with _ | _ <;> rcases dot with _ | _ | _ <;> cases t <;> cases outputOnly <;>
            simp [given, draw, GType.hasExt, Option.filter] at hev <;> subst hev <;> simp
        · rcases made with _ | _ <;> rcases dot with _ | _ | _ <;> cases t <;> cases outputOnly <;>
            simp [given, draw, GType.hasExt, Option.filter, hp] at hev <;> subst hev <;> simp

example : (graphMain .dotpdf none false "t" (.ok ()) (.ok ()) (.error .runtimeError)) = ([.tempMade "t", .tempGone "t"], .error .runtimeError) := by
  decide +kernel

/-- C99 is false when `dot` fails: nothing is written, but the file is opened for viewing and no error is raised. -/
theorem C99_dot_fails (p tmp : String) (hp : p ≠ "") :
    graphMain .dotpdf (some p) false tmp (.ok ()) (.ok ()) (.ok false) = ([.opened p], .ok ()) := by
  unfold graphMain graphBody
  rw [if_neg (by simp)]
  simp [given, Option.filter, hp, draw]

example : graphMain .dotpdf (some "g.pdf") false "t" (.ok ()) (.ok ()) (.ok false) = ([.opened "g.pdf"], .ok ()) := C99_dot_fails _ _ (by decide)

end OFE.Cli
