import Verif.Ovs.ActionLemmas
import Verif.Actions.SetRebuild
import Verif.Match.MatchLemmas

/-!
# Open vSwitch text: lists of actions, instructions, matches and lines
-/

namespace OFE.Ovs
open Fmt

/-! ### Lists of tokens -/

theorem join_tail (t : List Char) (ts : List (List Char)) : ∃ rest, joinWith ',' (t :: ts) = t ++ rest ∧ Tail rest (joinWith ',' ts) := by
  cases ts with
  | nil => exact ⟨[], by simp [joinWith], .last⟩
  | cons u us => exact ⟨_, rfl, .more _⟩

theorem join_length {sep : Char} : ∀ {ts : List (List Char)}, (∀ t ∈ ts, t ≠ []) → ts.length ≤ (joinWith sep ts).length
  | [], _ => by simp
  | [t], h => by
    have := List.length_pos_iff.2 (h t List.mem_cons_self)
    simp only [joinWith, List.length_singleton]; omega
  | t :: u :: rest, h => by
    have h1 := List.length_pos_iff.2 (h t List.mem_cons_self)
    have h2 := join_length (sep := sep) fun x hx => h x (List.mem_cons_of_mem _ hx)
    rw [joinWith, List.length_append]
    simp only [List.length_cons] at h2 ⊢
    omega

theorem join_join {sep : Char} {ts : List (List Char)} (h : ts ≠ []) (us : List (List Char)) :
    joinWith sep (joinWith sep ts :: us) = joinWith sep (ts ++ us) := by
  induction ts with
  | nil => exact absurd rfl h
  | cons t ts ih =>
    cases ts with
    | nil => rfl
    | cons u rest =>
      have := ih (by simp)
      cases us with
      | nil => simp [joinWith]
      | cons v vs =>
        rw [joinWith] at this ⊢
        rw [show joinWith sep (t :: u :: rest ++ v :: vs) = t ++ sep :: joinWith sep (u :: rest ++ v :: vs) from rfl, ← this, joinWith]
        simp

theorem actionsLoop_join {groups : List (Nat × Nat)} {app : ActionList → Action → Except PyErr ActionList} {ts : List (List Char)} {s : List Action}
    (h : List.Forall₂ (Reads groups) ts s) : ∀ (fuel : Nat) (l : ActionList), ts.length < fuel →
      actionsLoop groups app fuel (joinWith ',' ts) l = s.foldlM app l := by
  induction h with
  | nil =>
    intro fuel l hf
    obtain ⟨f, rfl⟩ : ∃ f, fuel = f + 1 := ⟨fuel - 1, by simp at hf; omega⟩
    rfl
  | @cons t a ts s ht hrest ih =>
    intro fuel l hf
    rw [List.length_cons] at hf
    obtain ⟨f, rfl⟩ : ∃ f, fuel = f + 1 := ⟨fuel - 1, by omega⟩
    obtain ⟨rest, e, htail⟩ := join_tail t ts
    rw [e, actionsLoop, if_neg (by simp [ht.ne]), ht.act rest _ htail]
    simp only [bind, Except.bind, List.foldlM_cons, List.foldlM_nil]
    cases app l a with
    | error e => rfl
    | ok l' => exact ih f l' (by omega)

theorem actionsFromOvs_join {groups : List (Nat × Nat)} {app : ActionList → Action → Except PyErr ActionList} {ts : List (List Char)} {s : List Action}
    (h : List.Forall₂ (Reads groups) ts s) : actionsFromOvs groups app (joinWith ',' ts) = s.foldlM app .empty := by
  refine actionsLoop_join h _ _ (Nat.lt_succ_of_le (join_length fun t ht => ?_))
  clear app
  induction h with
  | nil => cases ht
  | cons hr _ ih =>
    rcases List.mem_cons.1 ht with rfl | ht
    · exact hr.ne
    · exact ih ht

/-! ### Instructions -/

/-- A text that is read as an instruction. -/
structure IReads (groups : List (Nat × Nat)) (t : List Char) (i i' : Inst) : Prop where
  ne : t ≠ []
  low : ∀ c ∈ t, Char.toLower c = c ∧ c ≠ '='
  step : ∀ rest out, Tail rest out → parseNextInst groups (t ++ rest) i = .ok (some (i', out))

theorem instLoop_acts {groups : List (Nat × Nat)} {ts : List (List Char)} {s : List Action} (h : List.Forall₂ (Reads groups) ts s)
    (us : List (List Char)) : ∀ (fuel : Nat) (i : Inst) (l : ActionList), s.foldlM ActionList.append i.apply = .ok l →
      instLoop groups (ts.length + fuel) (joinWith ',' (ts ++ us)) i = instLoop groups fuel (joinWith ',' us) { i with apply := l } := by
  induction h with
  | nil =>
    intro fuel i l e
    cases e
    simp
  | @cons t a ts s ht hrest ih =>
    intro fuel i l e
    obtain ⟨rest, ej, htail⟩ := join_tail t (ts ++ us)
    rw [List.cons_append, List.length_cons, ej, Nat.succ_add, instLoop, if_neg (by simp [ht.ne]), ht.inst rest _ htail i]
    simp only [bind, Except.bind, ht.act rest _ htail, List.foldlM_cons, List.foldlM_nil]
    rw [List.foldlM_cons] at e
    cases ea : i.apply.append a with
    | error x => rw [ea] at e; cases e
    | ok l' =>
      rw [ea] at e
      exact ih fuel { i with apply := l' } l e

theorem instLoop_tok {groups : List (Nat × Nat)} {t : List Char} {i i' : Inst} (h : IReads groups t i i') (us : List (List Char)) (fuel : Nat) :
    instLoop groups (fuel + 1) (joinWith ',' (t :: us)) i = instLoop groups fuel (joinWith ',' us) i' := by
  obtain ⟨rest, ej, htail⟩ := join_tail t us
  rw [ej, instLoop, if_neg (by simp [h.ne]), h.step rest _ htail]
  rfl

theorem ireads_clear (groups : List (Nat × Nat)) (i : Inst) : IReads groups "clear_actions".toList i { i with clear := true } := by
  refine ⟨by decide, by decide, fun rest out h => ?_⟩
  unfold parseNextInst
  rw [tokLit_hit rfl h]

theorem closing_eq : ∀ {t : List Char} (rest : List Char), (∀ c ∈ t, c ≠ '(' ∧ c ≠ ')') → closing none (t ++ ')' :: rest) = some (t, rest)
  | [], _, _ => rfl
  | c :: t, rest, h => by
    obtain ⟨h1, h2⟩ := h c List.mem_cons_self
    rw [List.cons_append, closing, if_neg h2, if_neg h1, closing_eq rest fun d hd => h d (List.mem_cons_of_mem _ hd)]
    rfl

theorem join_chars {P : Char → Prop} {ts : List (List Char)} (h : ∀ t ∈ ts, ∀ c ∈ t, P c) (hc : P ',') : ∀ c ∈ joinWith ',' ts, P c := by
  intro c hm
  rcases mem_join hm with rfl | ⟨t, ht, hm⟩
  · exact hc
  · exact h t ht c hm

theorem reads_chars {groups : List (Nat × Nat)} {ts : List (List Char)} {s : List Action} (h : List.Forall₂ (Reads groups) ts s) :
    ∀ t ∈ ts, t ≠ [] ∧ ∀ c ∈ t, Char.toLower c = c ∧ c ≠ '=' ∧ c ≠ '(' ∧ c ≠ ')' := by
  induction h with
  | nil => simp
  | cons hr _ ih =>
    intro t ht
    rcases List.mem_cons.1 ht with rfl | ht
    · exact ⟨hr.ne, hr.low⟩
    · exact ih t ht

theorem ireads_write {groups : List (Nat × Nat)} {ts : List (List Char)} {s : List Action} (h : List.Forall₂ (Reads groups) ts s) {l : ActionList}
    (e : actionSetOfList s = .ok l) (i : Inst) :
    IReads groups ("write_actions(".toList ++ (joinWith ',' ts ++ ")".toList)) i { i with write := l } := by
  have hc := join_chars (P := fun c => Char.toLower c = c ∧ c ≠ '=' ∧ c ≠ '(' ∧ c ≠ ')') (fun t ht => (reads_chars h t ht).2) (by decide)
  refine ⟨by simp, fun c hm => ?_, fun rest out ht => ?_⟩
  · rcases List.mem_append.1 hm with hm | hm
    · exact (show ∀ c ∈ "write_actions(".toList, Char.toLower c = c ∧ c ≠ '=' by decide) c hm
    · rcases List.mem_append.1 hm with hm | hm
      · exact ⟨(hc c hm).1, (hc c hm).2.1⟩
      · exact (show ∀ c ∈ ")".toList, Char.toLower c = c ∧ c ≠ '=' by decide) c hm
  · have htok : tokWrite ("write_actions(".toList ++ (joinWith ',' ts ++ ')' :: rest)) = some (joinWith ',' ts, out) := by
      unfold tokWrite
      rw [show ("write_actions(".toList ++ (joinWith ',' ts ++ ')' :: rest)).dropWhile isSpace = "write_actions(".toList ++ (joinWith ',' ts ++ ')' :: rest)
        from rfl, dropLit_append]
      simp only [Option.bind_some, closing_eq rest fun c hm => (hc c hm).2.2, endTok_tail ht, Option.map_some]
    rw [show "write_actions(".toList ++ (joinWith ',' ts ++ ")".toList) ++ rest = "write_actions(".toList ++ (joinWith ',' ts ++ ')' :: rest) from by
      rw [List.append_assoc, List.append_assoc]; rfl]
    generalize joinWith ',' ts ++ ')' :: rest = r at htok
    unfold parseNextInst
    rw [show tokLit "clear_actions".toList ("write_actions(".toList ++ r) = none from rfl, htok]
    simp only [actionsFromOvs_join h, bind, Except.bind]
    rw [show List.foldlM actionSetAppend ActionList.empty s = .ok l from e]
    rfl

theorem numText_val {t : List Char} {v : Nat} (h : NumText t v) : ∀ c ∈ t, isVal c = true := fun c hc => (numChar_facts c (h.chars c hc)).1

/-- The mask of write_metadata as written, convert_ovs.py:691-692. -/
def maskText : Option Nat → List Char
  | none => []
  | some m => '/' :: digits 10 m

theorem ireads_meta (groups : List (Nat × Nat)) (v : Nat) (m : Option Nat) (i : Inst) :
    IReads groups ("write_metadata:".toList ++ (digits 10 v ++ maskText m)) i
      { i with wmeta := some (v, m) } := by
  have hv := decimal_text v
  have hlow : ∀ n, ∀ c ∈ digits 10 n, Char.toLower c = c ∧ c ≠ '=' := fun n c hc => by
    obtain ⟨-, -, -, h1, h2, -⟩ := numChar_facts c ((decimal_text n).chars c hc)
    exact ⟨h1, h2⟩
  refine ⟨by simp, fun c hm => ?_, fun rest out ht => ?_⟩
  · rcases List.mem_append.1 hm with hm | hm
    · exact (show ∀ c ∈ "write_metadata:".toList, Char.toLower c = c ∧ c ≠ '=' by decide) c hm
    · rcases List.mem_append.1 hm with hm | hm
      · exact hlow v c hm
      · cases m with
        | none => cases hm
        | some m =>
          rcases List.mem_cons.1 hm with rfl | hm
          · decide
          · exact hlow m c hm
  · have htok : tokMeta ("write_metadata:".toList ++ (digits 10 v ++ (maskText m ++ rest))) =
        some (digits 10 v, m.map (digits 10), out) := by
      unfold tokMeta
      generalize hr : digits 10 v ++ (maskText m ++ rest) = r
      rw [show ("write_metadata:".toList ++ r).dropWhile isSpace = "write_metadata:".toList ++ r from rfl, dropLit_append]
      cases m with
      | none =>
        simp only [maskText, List.nil_append] at hr
        obtain ⟨h1, h2⟩ := while_stop (p := isVal) (t := digits 10 v) (rest := rest) (numText_val hv) fun c hc => by rw [tail_head ht c hc]; rfl
        subst hr
        simp only [Option.bind_some, h1, h2]
        rw [if_neg (by simp [hv.ne])]
        cases ht <;> rfl
      | some m =>
        simp only [maskText, List.cons_append] at hr
        have hm := decimal_text m
        obtain ⟨h1, h2⟩ := while_stop (p := isVal) (t := digits 10 v) (rest := '/' :: (digits 10 m ++ rest)) (numText_val hv) fun c hc => by
          simp only [List.head?_cons, Option.mem_def, Option.some.injEq] at hc
          subst hc; rfl
        obtain ⟨h3, h4⟩ := while_stop (p := isArg) (t := digits 10 m) (rest := rest) (numText_arg hm).2 fun c hc => by rw [tail_head ht c hc]; rfl
        subst hr
        simp only [Option.bind_some, h1, h2]
        rw [if_neg (by simp [hv.ne])]
        simp only [h3, h4]
        rw [if_neg (by simp [hm.ne]), endTok_tail ht]
        rfl
    rw [List.append_assoc, List.append_assoc]
    generalize digits 10 v ++ (maskText m ++ rest) = r at htok
    unfold parseNextInst
    rw [show tokLit "clear_actions".toList ("write_metadata:".toList ++ r) = none from rfl,
      show tokWrite ("write_metadata:".toList ++ r) = none from rfl, htok]
    simp only [hv.read, bind, Except.bind]
    cases m with
    | none => rfl
    | some m =>
      simp only [Option.map_some, Option.mapM_some, (decimal_text m).read]
      rfl

theorem ireads_goto (groups : List (Nat × Nat)) (t : Nat) (i : Inst) : IReads groups ("goto_table:".toList ++ digits 10 t) i { i with goto := some t } := by
  have ht := decimal_text t
  refine ⟨by simp, fun c hm => ?_, fun rest out h => ?_⟩
  · rcases List.mem_append.1 hm with hm | hm
    · exact (show ∀ c ∈ "goto_table:".toList, Char.toLower c = c ∧ c ≠ '=' by decide) c hm
    · obtain ⟨-, -, -, h1, h2, -⟩ := numChar_facts c (ht.chars c hm)
      exact ⟨h1, h2⟩
  · have htok := tokArg_hit (cls := isArg) (lit := "goto_table:".toList) (ne := true) (t := digits 10 t) rfl (numText_arg ht) rfl h
    rw [List.append_assoc]
    generalize digits 10 t ++ rest = r at htok
    unfold parseNextInst
    rw [show tokLit "clear_actions".toList ("goto_table:".toList ++ r) = none from rfl,
      show tokWrite ("goto_table:".toList ++ r) = none from rfl, show tokMeta ("goto_table:".toList ++ r) = none from rfl, htok]
    simp only [ht.read, bind, Except.bind]
    rfl

end OFE.Ovs
