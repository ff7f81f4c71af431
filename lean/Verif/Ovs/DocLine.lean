import Verif.Ovs.DocActs
import Verif.Rule.Spec

/-!
# Instructions and flows as documented are read
-/

namespace OFE.Ovs
open Fmt

/-! ### Lists of actions -/

theorem docActs_loop {groups : List (Nat × Nat)} {app : ActionList → Action → Except PyErr ActionList} {ts : List (List Char)} {ass : List (List Action)}
    (h : List.Forall₂ (DReads groups) ts ass) : ∀ (fuel : Nat) (l : ActionList), ts.length < fuel →
      actionsLoop groups app fuel (joinWith ',' ts) l = ass.flatten.foldlM app l := by
  induction h with
  | nil =>
    intro fuel l hf
    obtain ⟨f, rfl⟩ : ∃ f, fuel = f + 1 := ⟨fuel - 1, by simp at hf; omega⟩
    rfl
  | @cons t as ts ass ht hrest ih =>
    intro fuel l hf
    rw [List.length_cons] at hf
    obtain ⟨f, rfl⟩ : ∃ f, fuel = f + 1 := ⟨fuel - 1, by omega⟩
    obtain ⟨rest, e, htail⟩ := join_tail t ts
    rw [e, actionsLoop, if_neg (by simp [ht.ne]), ht.act rest _ htail, List.flatten_cons, List.foldlM_append]
    simp only [bind, Except.bind]
    cases as.foldlM app l with
    | error e => rfl
    | ok l' => exact ih f l' (by omega)

theorem docActs_ne {groups : List (Nat × Nat)} {ts : List (List Char)} {ass : List (List Action)} (h : List.Forall₂ (DReads groups) ts ass) : ∀ t ∈ ts, t ≠ [] := by
  induction h with
  | nil => simp
  | cons hr _ ih =>
    intro t ht
    rcases List.mem_cons.1 ht with rfl | ht
    · exact hr.ne
    · exact ih t ht

theorem docActs_from {groups : List (Nat × Nat)} {app : ActionList → Action → Except PyErr ActionList} {ts : List (List Char)} {ass : List (List Action)}
    (h : List.Forall₂ (DReads groups) ts ass) : actionsFromOvs groups app (joinWith ',' ts) = ass.flatten.foldlM app .empty :=
  docActs_loop h _ _ (Nat.lt_succ_of_le (join_length (docActs_ne h)))

theorem closing_join {groups : List (Nat × Nat)} {ts : List (List Char)} {ass : List (List Action)} (h : List.Forall₂ (DReads groups) ts ass) (r : List Char) :
    closing none (joinWith ',' ts ++ ')' :: r) = some (joinWith ',' ts, r) := by
  induction h with
  | nil => rfl
  | @cons t as ts ass ht hrest ih =>
    cases ts with
    | nil => rw [joinWith, ht.close, closing, if_pos rfl]; simp
    | cons u us =>
      rw [joinWith, List.append_assoc, ht.close, List.cons_append, closing, if_neg (by decide), if_neg (by decide), ih]
      rfl

theorem forall₂_docActs {groups : List (Nat × Nat)} {ts : List (List Char)} {ass : List (List Action)}
    (h : List.Forall₂ (DocAct fun n => groups.lookup n) ts ass) : List.Forall₂ (DReads groups) ts ass ∧ ∀ a ∈ ass.flatten, a.known = true := by
  induction h with
  | nil => exact ⟨.nil, by simp⟩
  | cons hd _ ih =>
    obtain ⟨h1, h2⟩ := docAct_reads hd
    refine ⟨.cons h1 ih.1, fun a ha => ?_⟩
    rw [List.flatten_cons, List.mem_append] at ha
    rcases ha with ha | ha
    · exact h2 a ha
    · exact ih.2 a ha

/-! ### One token -/

/-- The part of the instructions that a token changes, as far as it succeeds. -/
def Mean.doTo (m : Mean) (i i' : Inst) : Prop :=
  match m with
  | .acts as => as.foldlM ActionList.append i.apply = .ok i'.apply ∧ i' = { i with apply := i'.apply }
  | .clear => i' = { i with clear := true }
  | .write as => actionSetOfList as = .ok i'.write ∧ i' = { i with write := i'.write }
  | .wmeta v k => i' = { i with wmeta := some (v, k) }
  | .goto t => i' = { i with goto := some t }

/-- Everything the token says can be appended. -/
def Mean.fine : Mean → Prop
  | .acts as => ∀ a ∈ as, a.known = true
  | .write as => ∀ a ∈ as, a.known = true
  | _ => True

/-- A token is read in one turn of the loop. -/
structure TokReads (groups : List (Nat × Nat)) (t : List Char) (m : Mean) : Prop where
  ne : t ≠ []
  fine : m.fine
  step : ∀ i i', m.doTo i i' → ∀ us fuel, instLoop groups (fuel + 1) (joinWith ',' (t :: us)) i = instLoop groups fuel (joinWith ',' us) i'

theorem tokReads_inst {groups : List (Nat × Nat)} {t : List Char} {m : Mean} (hne : t ≠ []) (hf : m.fine)
    (h : ∀ i i', m.doTo i i' → ∀ rest out, Tail rest out → parseNextInst groups (t ++ rest) i = .ok (some (i', out))) : TokReads groups t m := by
  refine ⟨hne, hf, fun i i' hi us fuel => ?_⟩
  obtain ⟨rest, ej, htail⟩ := join_tail t us
  rw [ej, instLoop, if_neg (by simp [hne]), h i i' hi rest _ htail]
  rfl

theorem tokReads_meta (groups : List (Nat × Nat)) {t : List Char} {v : Nat} {u : Option (List Char)} {k : Option Nat} (h : Denotes .num t v)
    (hu : match u, k with | none, none => True | some u, some k => Denotes .num u k | _, _ => False) :
    TokReads groups ("write_metadata:".toList ++ valueText t u) (.wmeta v k) := by
  have hv := denotes_val h
  refine tokReads_inst (by simp) trivial fun i i' hi rest out ht => ?_
  have hi' : i' = { i with wmeta := some (v, k) } := hi
  subst hi'
  have htok : tokMeta ("write_metadata:".toList ++ (valueText t u ++ rest)) = some (t, u, out) := by
    unfold tokMeta
    generalize hr : valueText t u ++ rest = r
    rw [show ("write_metadata:".toList ++ r).dropWhile isSpace = "write_metadata:".toList ++ r from rfl, dropLit_append]
    cases u with
    | none =>
      simp only [valueText] at hr
      obtain ⟨h1, h2⟩ := while_stop (p := isVal) (t := t) (rest := rest) hv.2 fun c hc => by rw [tail_head ht c hc]; rfl
      subst hr
      simp only [Option.bind_some, h1, h2]
      rw [if_neg (by simp [hv.1])]
      cases ht <;> rfl
    | some u =>
      cases k with
      | none => exact hu.elim
      | some k =>
        simp only [valueText, List.append_assoc, List.cons_append] at hr
        have hm := denotes_arg hu
        obtain ⟨h1, h2⟩ := while_stop (p := isVal) (t := t) (rest := '/' :: (u ++ rest)) hv.2 fun c hc => by
          simp only [List.head?_cons, Option.mem_def, Option.some.injEq] at hc
          subst hc; rfl
        obtain ⟨h3, h4⟩ := while_stop (p := isArg) (t := u) (rest := rest) hm.2 fun c hc => by rw [tail_head ht c hc]; rfl
        subst hr
        simp only [Option.bind_some, h1, h2]
        rw [if_neg (by simp [hv.1])]
        simp only [h3, h4]
        rw [if_neg (by simp [hm.1]), endTok_tail ht]
        rfl
  rw [List.append_assoc]
  generalize valueText t u ++ rest = r at htok
  unfold parseNextInst
  rw [show tokLit "clear_actions".toList ("write_metadata:".toList ++ r) = none from rfl,
    show tokWrite ("write_metadata:".toList ++ r) = none from rfl, htok]
  simp only [denotes_read h, bind, Except.bind]
  cases u with
  | none =>
    cases k with
    | none => rfl
    | some k => exact hu.elim
  | some u =>
    cases k with
    | none => exact hu.elim
    | some k =>
      simp only [Option.mapM_some, denotes_read hu]
      rfl

theorem tokReads_goto (groups : List (Nat × Nat)) {t : List Char} {n : Nat} (h : Denotes .num t n) : TokReads groups ("goto_table:".toList ++ t) (.goto n) := by
  refine tokReads_inst (by simp) trivial fun i i' hi rest out ht => ?_
  have hi' : i' = { i with goto := some n } := hi
  subst hi'
  have htok := tokArg_hit (cls := isArg) (lit := "goto_table:".toList) (ne := true) (t := t) rfl (denotes_arg h) rfl ht
  rw [List.append_assoc]
  generalize t ++ rest = r at htok
  unfold parseNextInst
  rw [show tokLit "clear_actions".toList ("goto_table:".toList ++ r) = none from rfl,
    show tokWrite ("goto_table:".toList ++ r) = none from rfl, show tokMeta ("goto_table:".toList ++ r) = none from rfl, htok]
  simp only [denotes_read h, bind, Except.bind]
  rfl

theorem tokReads_resubmit (groups : List (Nat × Nat)) {c : Char} {d : Nat} (h : IsDec c d) : TokReads groups ("resubmit(,".toList ++ [c, ')']) (.goto d) := by
  have hd : Denotes .num [c] d := by
    have := Denotes.dec (t := [c]) (ds := [d]) (by simp) (.cons h .nil) (by by_cases h0 : d = 0 <;> simp [h0])
    simpa using this
  refine tokReads_inst (by simp) trivial fun i i' hi rest out ht => ?_
  have hi' : i' = { i with goto := some d } := hi
  subst hi'
  have ha : isArg c = true := (denotes_arg hd).2 c (by simp)
  have htok : tokResubmit ("resubmit(,".toList ++ (c :: ')' :: rest)) = some ([c], out) := by
    unfold tokResubmit
    rw [show "resubmit(,".toList ++ (c :: ')' :: rest) = "resubmit(".toList ++ (',' :: c :: ')' :: rest) from rfl,
      show ("resubmit(".toList ++ (',' :: c :: ')' :: rest)).dropWhile isSpace = "resubmit(".toList ++ (',' :: c :: ')' :: rest) from rfl, dropLit_append]
    simp only [Option.bind_some]
    rw [show dropLit "in_port".toList (',' :: c :: ')' :: rest) = none from rfl, Option.getD_none,
      show dropLit [','] (',' :: c :: ')' :: rest) = some (c :: ')' :: rest) from by simp [dropLit]]
    simp only [Option.bind_some]
    rw [if_pos ha, endTok_tail ht]
    rfl
  rw [show "resubmit(,".toList ++ [c, ')'] ++ rest = "resubmit(,".toList ++ (c :: ')' :: rest) from by simp]
  generalize c :: ')' :: rest = r at htok
  unfold parseNextInst
  rw [show tokLit "clear_actions".toList ("resubmit(,".toList ++ r) = none from rfl,
    show tokWrite ("resubmit(,".toList ++ r) = none from rfl, show tokMeta ("resubmit(,".toList ++ r) = none from rfl,
    show tokArg isArg "goto_table:".toList true ("resubmit(,".toList ++ r) = none from rfl, htok]
  simp only [denotes_read hd, bind, Except.bind]
  rfl

theorem tokReads_write {groups : List (Nat × Nat)} {ts : List (List Char)} {ass : List (List Action)}
    (h : List.Forall₂ (DocAct fun n => groups.lookup n) ts ass) :
    TokReads groups ("write_actions(".toList ++ (joinWith ',' ts ++ ")".toList)) (.write ass.flatten) := by
  obtain ⟨h1, h2⟩ := forall₂_docActs h
  refine tokReads_inst (by simp) h2 fun i i' hi rest out ht => ?_
  obtain ⟨e, hi'⟩ : actionSetOfList ass.flatten = .ok i'.write ∧ i' = { i with write := i'.write } := hi
  have htok : tokWrite ("write_actions(".toList ++ (joinWith ',' ts ++ ')' :: rest)) = some (joinWith ',' ts, out) := by
    unfold tokWrite
    rw [show ("write_actions(".toList ++ (joinWith ',' ts ++ ')' :: rest)).dropWhile isSpace = "write_actions(".toList ++ (joinWith ',' ts ++ ')' :: rest)
      from rfl, dropLit_append]
    simp only [Option.bind_some, closing_join h1, endTok_tail ht, Option.map_some]
  rw [show "write_actions(".toList ++ (joinWith ',' ts ++ ")".toList) ++ rest = "write_actions(".toList ++ (joinWith ',' ts ++ ')' :: rest) from by
    rw [List.append_assoc, List.append_assoc]; rfl]
  generalize joinWith ',' ts ++ ')' :: rest = r at htok
  unfold parseNextInst
  rw [show tokLit "clear_actions".toList ("write_actions(".toList ++ r) = none from rfl, htok]
  simp only [docActs_from h1, bind, Except.bind]
  rw [show List.foldlM actionSetAppend ActionList.empty ass.flatten = .ok i'.write from e, hi']
  rfl

theorem docTok_reads {groups : List (Nat × Nat)} {t : List Char} {m : Mean} (h : DocTok (fun n => groups.lookup n) t m) : TokReads groups t m := by
  cases h with
  | @act t as hd =>
    obtain ⟨h1, h2⟩ := docAct_reads hd
    refine ⟨h1.ne, h2, fun i i' hi us fuel => ?_⟩
    obtain ⟨e, hi'⟩ : as.foldlM ActionList.append i.apply = .ok i'.apply ∧ i' = { i with apply := i'.apply } := hi
    obtain ⟨rest, ej, htail⟩ := join_tail t us
    rw [ej, instLoop, if_neg (by simp [h1.ne]), h1.inst rest _ htail i]
    simp only [bind, Except.bind, h1.act rest _ htail, e]
    rw [hi']
  | clear =>
    refine tokReads_inst (by simp) trivial fun i i' hi rest out ht => ?_
    have hi' : i' = { i with clear := true } := hi
    subst hi'
    unfold parseNextInst
    rw [tokLit_hit rfl ht]
  | write hd => exact tokReads_write hd
  | wmeta hd => exact tokReads_meta groups (u := none) (k := none) hd trivial
  | @wmask t u v k hd hd' => exact tokReads_meta groups (u := some u) (k := some k) hd hd'
  | goto hd => exact tokReads_goto groups hd
  | resubmit hd => exact tokReads_resubmit groups hd

/-! ### All tokens -/

/-- What the instructions hold after the tokens. -/
structure Holds (ms : List Mean) (i : Inst) : Prop where
  known : ∀ a ∈ ms.flatMap Mean.applied, a.known = true
  apply : ActionList.ofList (ms.flatMap Mean.applied) = .ok i.apply
  write : actionSetOfList ((ms.filterMap Mean.written).getLast?.getD []) = .ok i.write
  clear : i.clear = true ↔ Mean.clear ∈ ms
  wmeta : i.wmeta = (ms.filterMap Mean.metadata).getLast?
  goto : i.goto = (ms.filterMap Mean.next).getLast?
  meter : i.meter = none

theorem holds_empty : Holds [] .empty := ⟨by simp, rfl, rfl, by simp [Inst.empty], rfl, rfl, rfl⟩

theorem last_append {α β : Type} (f : α → Option β) (l : List α) (x : α) :
    ((l ++ [x]).filterMap f).getLast? = match f x with | some y => some y | none => (l.filterMap f).getLast? := by
  rw [List.filterMap_append]
  cases e : f x with
  | none => simp [e]
  | some y => simp [e]

theorem holds_step {ms : List Mean} {i : Inst} (h : Holds ms i) (m : Mean) (hm : m.fine) : ∃ i', m.doTo i i' ∧ Holds (ms ++ [m]) i' := by
  obtain ⟨h1, h2, h3, h4, h5, h6, h7⟩ := h
  cases m with
  | acts as =>
    have hk : ∀ a ∈ ms.flatMap Mean.applied ++ as, a.known = true := by
      intro a ha
      rcases List.mem_append.1 ha with ha | ha
      · exact h1 a ha
      · exact hm a ha
    have e := ofList_known (s := ms.flatMap Mean.applied ++ as) hk
    unfold ActionList.ofList at e h2
    rw [List.foldlM_append, h2] at e
    have hf : (ms ++ [Mean.acts as]).flatMap Mean.applied = ms.flatMap Mean.applied ++ as := by simp [Mean.applied]
    refine ⟨{ i with apply := mkList (ms.flatMap Mean.applied ++ as) }, ⟨e, rfl⟩, ?_, ?_, ?_, ?_, ?_, ?_, h7⟩
    · rw [hf]; exact hk
    · rw [hf]; exact ofList_known hk
    · rw [last_append]; exact h3
    · simpa using h4
    · rw [last_append]; exact h5
    · rw [last_append]; exact h6
  | clear =>
    refine ⟨_, rfl, ?_, ?_, ?_, by simp, ?_, ?_, h7⟩
    · simpa [Mean.applied] using h1
    · simpa [Mean.applied] using h2
    · rw [last_append]; exact h3
    · rw [last_append]; exact h5
    · rw [last_append]; exact h6
  | write as =>
    obtain ⟨l, e, -⟩ := setInv_ofList as [] .empty setInv_empty (by rw [List.nil_append]; exact hm)
    refine ⟨{ i with write := l }, ⟨e, rfl⟩, ?_, ?_, ?_, by simpa using h4, ?_, ?_, h7⟩
    · simpa [Mean.applied] using h1
    · simpa [Mean.applied] using h2
    · rw [last_append]; exact e
    · rw [last_append]; exact h5
    · rw [last_append]; exact h6
  | wmeta v k =>
    refine ⟨_, rfl, ?_, ?_, ?_, by simpa using h4, ?_, ?_, h7⟩
    · simpa [Mean.applied] using h1
    · simpa [Mean.applied] using h2
    · rw [last_append]; exact h3
    · rw [last_append]; rfl
    · rw [last_append]; exact h6
  | goto t =>
    refine ⟨_, rfl, ?_, ?_, ?_, by simpa using h4, ?_, ?_, h7⟩
    · simpa [Mean.applied] using h1
    · simpa [Mean.applied] using h2
    · rw [last_append]; exact h3
    · rw [last_append]; exact h5
    · rw [last_append]; rfl

theorem docToks_loop {groups : List (Nat × Nat)} {us : List (List Char)} {ms : List Mean} (h : List.Forall₂ (TokReads groups) us ms) :
    ∀ {done : List Mean} {i : Inst}, Holds done i → ∀ fuel, ∃ i', instLoop groups (us.length + (fuel + 1)) (joinWith ',' us) i = .ok i' ∧ Holds (done ++ ms) i' := by
  induction h with
  | nil => intro done i hi fuel; exact ⟨i, by rw [List.length_nil, Nat.zero_add]; rfl, by simpa using hi⟩
  | @cons t m us ms ht _ ih =>
    intro done i hi fuel
    obtain ⟨j, hj, hh⟩ := holds_step hi m ht.fine
    obtain ⟨i', e, hi'⟩ := ih hh fuel
    refine ⟨i', ?_, by simpa using hi'⟩
    rw [List.length_cons, show us.length + 1 + (fuel + 1) = us.length + (fuel + 1) + 1 from by omega, ht.step i j hj, e]

theorem instFromOvs_doc {groups : List (Nat × Nat)} {s : List Char} {us : List (List Char)} {ms : List Mean} (hs : s.map Char.toLower = joinWith ',' us)
    (h : List.Forall₂ (DocTok fun n => groups.lookup n) us ms) : ∃ i, instFromOvs groups s = .ok i ∧ Holds ms i := by
  have h' : List.Forall₂ (TokReads groups) us ms := h.imp fun _ _ hd => docTok_reads hd
  have hne : ∀ t ∈ us, t ≠ [] := by
    clear h hs
    induction h' with
    | nil => simp
    | cons hr _ ih =>
      intro t ht
      rcases List.mem_cons.1 ht with rfl | ht
      · exact hr.ne
      · exact ih t ht
  have hl := join_length (sep := ',') hne
  rw [← hs, List.length_map] at hl
  obtain ⟨fuel, hf⟩ : ∃ fuel, s.length + 1 = us.length + (fuel + 1) := ⟨s.length - us.length, by omega⟩
  obtain ⟨i, e, hi⟩ := docToks_loop h' holds_empty fuel
  refine ⟨i, ?_, by simpa using hi⟩
  unfold instFromOvs
  rw [hf, hs, e]

/-! ### Flows -/

/-- A pattern that begins with a character which does not come again is found where it is written. -/
theorem splitOn_two {u s : List Char} (hu : ¬ pat <:+: u) (hs : ¬ pat <:+: s) : splitOn pat (u ++ (pat ++ s)) = [u, s] := by
  have hmiss : ∀ {c : Char} {r : List Char}, ¬ pat <:+: (c :: r) → dropLit pat (c :: r) = none := by
    intro c r h
    cases e : dropLit pat (c :: r) with
    | none => rfl
    | some w => exact absurd ⟨[], w, by rw [dropLit_some e]; simp⟩ h
  have hnone : ∀ {s : List Char}, ¬ pat <:+: s → splitOn pat s = [s] := by
    intro s
    induction s with
    | nil => intro _; rw [splitOn]
    | cons c s ih =>
      intro h
      exact splitOn_miss (hmiss h) (ih fun hi => h (hi.trans (List.suffix_cons c s).isInfix))
  have e : splitOn pat (pat ++ s) = [[], s] := by
    rw [show pat ++ s = 'a' :: ("ctions=".toList ++ s) from rfl, splitOn]
    rw [show dropLit pat ('a' :: ("ctions=".toList ++ s)) = some s from dropLit_append pat s, if_pos (by rfl)]
    rw [show ('a' :: ("ctions=".toList ++ s)).drop (max 1 pat.length) = s from rfl, hnone hs]
  induction u with
  | nil => exact e
  | cons c u ih =>
    have h1 := ih fun hi => hu (hi.trans (List.suffix_cons c u).isInfix)
    rw [List.cons_append]
    refine splitOn_miss ?_ h1
    cases ed : dropLit pat (c :: (u ++ (pat ++ s))) with
    | none => rfl
    | some w =>
      exfalso
      have e2 : (c :: u) ++ (pat ++ s) = pat ++ w := dropLit_some ed
      rcases List.append_eq_append_iff.1 e2 with ⟨a, h2, h3⟩ | ⟨b, h2, h3⟩
      · -- the pattern would overlap with itself
        cases a with
        | nil =>
          rw [List.append_nil] at h2
          exact hu ⟨[], [], by rw [h2]; simp⟩
        | cons d a =>
          have hd : d = 'a' := by
            have := congrArg List.head? h3
            rw [show pat ++ s = 'a' :: ("ctions=".toList ++ s) from rfl, List.cons_append, List.head?_cons, List.head?_cons] at this
            exact (Option.some.inj this).symm
          have : 'a' ∈ pat.tail := by
            rw [h2, List.cons_append, List.tail_cons, hd]; simp
          exact absurd this (by decide)
      · exact hu ⟨[], b, by rw [h2]; simp⟩

/-- The part of a rule that an argument changes. -/
def Arg.doTo {π : Type} (a : Arg) (r : Rule π) : Rule π :=
  match a with
  | .fields cs => { r with mat := cs.foldl (fun m x => m.append x.1 x.2.1 x.2.2) r.mat }
  | .table n => { r with table := n }
  | .priority n => { r with priority := n }
  | .cookie n => { r with cookie := some n }
  | .nothing => r

theorem docArg_reads {π : Type} {t : List Char} {a : Arg} (h : DocArg t a) (r : Rule π) : flowArgument r t = .ok (a.doTo r) := by
  have hs1 : ∀ {key t : List Char} {v : Nat}, '=' ∉ key → ValText t v → splitItem (key ++ '=' :: t) = .ok (key, some t, none) := fun hk ht =>
    splitItem_field (m := none) hk (valText_no ht) (by simp)
  cases h with
  | item hd => exact (docItem_reads hd).flow r
  | @table t n hd =>
    have ht := (denotes_facts hd).1
    generalize hkey : "table".toList = key
    rw [show "table=".toList ++ t = key ++ '=' :: t from by rw [← hkey]; rfl]
    unfold flowArgument
    rw [hs1 (by rw [← hkey]; decide) ht]
    simp only [bind, Except.bind]
    rw [if_pos (.inr hkey.symm)]
    simp only [plainNumber, Option.getD_none, List.isEmpty_nil, if_true, ht.read]
    rfl
  | @priority t n hd =>
    have ht := (denotes_facts hd).1
    generalize hkey : "priority".toList = key
    rw [show "priority=".toList ++ t = key ++ '=' :: t from by rw [← hkey]; rfl]
    unfold flowArgument
    rw [hs1 (by rw [← hkey]; decide) ht]
    simp only [bind, Except.bind]
    rw [if_neg (by rw [← hkey]; decide), if_pos hkey.symm]
    simp only [plainNumber, Option.getD_none, List.isEmpty_nil, if_true, ht.read]
    rfl
  | @cookie t n hd =>
    have ht := (denotes_facts hd).1
    generalize hkey : "cookie".toList = key
    rw [show "cookie=".toList ++ t = key ++ '=' :: t from by rw [← hkey]; rfl]
    unfold flowArgument
    rw [hs1 (by rw [← hkey]; decide) ht]
    simp only [bind, Except.bind]
    rw [if_neg (by rw [← hkey]; decide), if_neg (by rw [← hkey]; decide), if_neg (by rw [← hkey]; decide), if_neg (by rw [← hkey]; decide), if_pos hkey.symm]
    simp only [plainNumber, Option.getD_none, List.isEmpty_nil, if_true, ht.read]
    rfl
  | @skipped key t hk h1 h2 =>
    obtain ⟨k1, k2, k3, k4⟩ := (show ∀ key ∈ docSkipped, key ∈ skippedKeys ∧ '=' ∉ key ∧ ¬ (key = "table_id".toList ∨ key = "table".toList) ∧
      key ≠ "priority".toList by decide +kernel) key hk
    unfold flowArgument
    rw [show splitItem (key ++ '=' :: t) = .ok (key, some t, none) from splitItem_field (m := none) k2 ⟨h1, h2⟩ (by simp)]
    simp only [bind, Except.bind]
    rw [if_neg k3, if_neg k4, if_pos k1]
    rfl
  | flag hk =>
    obtain ⟨k1, k2, k3, k4⟩ := (show ∀ key ∈ docFlags, (key ∈ skippedKeys ∨ key = "check_overlap".toList) ∧ '=' ∉ key ∧
      ¬ (key = "table_id".toList ∨ key = "table".toList) ∧ key ≠ "priority".toList by decide +kernel) t hk
    unfold flowArgument splitItem
    rw [splitAt_none k2]
    simp only [bind, Except.bind]
    rw [if_neg k3, if_neg k4]
    rcases k1 with k1 | k1
    · rw [if_pos k1]; rfl
    · by_cases hs : t ∈ skippedKeys
      · rw [if_pos hs]; rfl
      · rw [if_neg hs, if_pos (.inr (.inr k1))]; rfl

theorem docArgs_fold {π : Type} {l : List (List Char × Arg)} (h : ∀ x ∈ l, DocArg x.1 x.2) :
    ∀ r : Rule π, (l.map (·.1)).foldlM flowArgument r = .ok (l.foldl (fun r x => x.2.doTo r) r) := by
  induction l with
  | nil => intro r; rfl
  | cons x l ih =>
    intro r
    rw [List.map_cons, List.foldlM_cons, docArg_reads (h x List.mem_cons_self)]
    exact ih (fun y hy => h y (List.mem_cons_of_mem _ hy)) _

theorem docArgs_parts {π : Type} (l : List Arg) : ∀ r : Rule π,
    (l.foldl (fun r x => x.doTo r) r).mat = (l.flatMap Arg.asked).foldl (fun m x => m.append x.1 x.2.1 x.2.2) r.mat ∧
    (l.foldl (fun r x => x.doTo r) r).table = (l.filterMap Arg.tableNo).getLast?.getD r.table ∧
    (l.foldl (fun r x => x.doTo r) r).priority = (l.filterMap Arg.priorityNo).getLast?.getD r.priority ∧
    (l.foldl (fun r x => x.doTo r) r).cookie = (l.filterMap Arg.cookieNo).getLast?.or r.cookie ∧
    (l.foldl (fun r x => x.doTo r) r).inst = r.inst := by
  have hlast : ∀ {β : Type} (x : β) (l : List β) (d : β), (x :: l).getLast?.getD d = l.getLast?.getD x := by
    intro β x l d
    rw [List.getLast?_cons]; simp
  have hor : ∀ {β : Type} (x : β) (l : List β) (d : Option β), (x :: l).getLast?.or d = l.getLast?.or (some x) := by
    intro β x l d
    rw [List.getLast?_cons]; cases l.getLast? <;> rfl
  induction l with
  | nil => intro r; exact ⟨rfl, rfl, rfl, rfl, rfl⟩
  | cons a l ih =>
    intro r
    obtain ⟨h1, h2, h3, h4, h5⟩ := ih (a.doTo r)
    simp only [List.foldl_cons]
    rw [h1, h2, h3, h4, h5]
    cases a with
    | fields cs => simp [Arg.doTo, Arg.asked, Arg.tableNo, Arg.priorityNo, Arg.cookieNo]
    | table n =>
      refine ⟨by simp [Arg.doTo, Arg.asked], ?_, by simp [Arg.doTo, Arg.priorityNo], by simp [Arg.doTo, Arg.cookieNo], rfl⟩
      rw [List.filterMap_cons_some (f := Arg.tableNo) (b := n) rfl, hlast]; rfl
    | priority n =>
      refine ⟨by simp [Arg.doTo, Arg.asked], by simp [Arg.doTo, Arg.tableNo], ?_, by simp [Arg.doTo, Arg.cookieNo], rfl⟩
      rw [List.filterMap_cons_some (f := Arg.priorityNo) (b := n) rfl, hlast]; rfl
    | cookie n =>
      refine ⟨by simp [Arg.doTo, Arg.asked], by simp [Arg.doTo, Arg.tableNo], by simp [Arg.doTo, Arg.priorityNo], ?_, rfl⟩
      rw [List.filterMap_cons_some (f := Arg.cookieNo) (b := n) rfl, hor]; rfl
    | nothing => simp [Arg.doTo, Arg.asked, Arg.tableNo, Arg.priorityNo, Arg.cookieNo]

/-- The bits of the fields asked for are as wide as the fields. -/
theorem docArg_bits {t : List Char} {a : Arg} (h : DocArg t a) : ∀ x ∈ a.asked, fieldBits x.1 = some (width x.1) := by
  cases h with
  | item hd => exact (docItem_reads hd).bits
  | _ => simp [Arg.asked]

theorem accepts_doc {cs : List (Nat × Nat × Option Nat)} (hn : (cs.map (·.1)).Nodup) (hb : ∀ x ∈ cs, fieldBits x.1 = some (width x.1)) (p : Pkt) :
    (cs.foldl (fun m x => m.append x.1 x.2.1 x.2.2) Match.empty).accepts p ↔ ∀ c ∈ cs, MatchesField p.hdr c := by
  unfold Match.accepts
  rw [append_items cs .empty (by simpa [Match.empty] using hn)]
  unfold MatchesAll
  constructor
  · intro h c hc
    exact (matches_norm (hb c hc) p.hdr).1 (h _ (List.mem_append_right _ (List.mem_map.2 ⟨c, hc, rfl⟩)))
  · intro h x hx
    rcases List.mem_append.1 hx with hx | hx
    · cases hx
    · obtain ⟨c, hc, rfl⟩ := List.mem_map.1 hx
      exact (matches_norm (hb c hc) p.hdr).2 (h c hc)

end OFE.Ovs
