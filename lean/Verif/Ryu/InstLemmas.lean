import Verif.Ryu.Lemmas
import Verif.Rule.InstLemmas

/-!
# Lemmas on actions and instructions of Ryu messages
-/

namespace OFE.Ryu
open Fmt Ovs

/-! ### Reading -/

theorem text_bytes {k : Kind} {t : List Char} {v : Nat} (h : Denotes k t v) (hk : k ≠ .num) : normaliseBytes t = .ok v := by
  obtain ⟨h1, h2⟩ := denotes_facts h
  have hsep : ∃ c, (c = '.' ∨ c = ':' ∨ c = '-') ∧ c ∈ t := by
    cases k with
    | num => exact absurd rfl hk
    | v4 => exact ⟨'.', .inl rfl, List.count_pos_iff.1 (by rw [h2.1]; omega)⟩
    | mac => exact ⟨':', .inr (.inl rfl), h2.2⟩
    | v6 => exact ⟨':', .inr (.inl rfl), h2.2⟩
  obtain ⟨c, hc, hm⟩ := hsep
  have := h1.read
  unfold normaliseString at this
  rw [readAuto_sep hc hm] at this
  exact this

theorem actMeans_read {a : RAct} {b : Action} (h : ActMeans a b) : actionFromRyu a = .ok b := by
  cases h with
  | @plain type f arg h =>
    simp only [wireActions, List.mem_cons, List.not_mem_nil, or_false, Prod.mk.injEq] at h
    rcases h with h | h | h | h | h | h | h | h | h | h | h | h | h | h | h <;> obtain ⟨rfl, rfl⟩ := h <;> rfl
  | num => rfl
  | text h hk =>
    simp only [actionFromRyu, readVal, text_bytes h hk]
    rfl

theorem means_unique {l : List RAct} {s t : List Action} (h1 : List.Forall₂ ActMeans l s) (h2 : List.Forall₂ ActMeans l t) : s = t := by
  induction h1 generalizing t with
  | nil => cases h2; rfl
  | cons h _ ih =>
    cases h2 with
    | cons h' ht =>
      rw [ih ht]
      have e := (actMeans_read h).symm.trans (actMeans_read h')
      cases e; rfl

theorem actionsFold_means (app : ActionList → Action → Except PyErr ActionList) {l : List RAct} {s : List Action} (h : List.Forall₂ ActMeans l s) :
    ∀ x, l.foldlM (fun ret a => do app ret (← actionFromRyu a)) x = s.foldlM app x := by
  induction h with
  | nil => intro x; rfl
  | cons h _ ih =>
    intro x
    rw [List.foldlM_cons, List.foldlM_cons, actMeans_read h]
    simp only [bind, Except.bind]
    cases app x _ with
    | error e => rfl
    | ok y => exact ih y

theorem readable_means {l : List RAct} (h : ∀ a ∈ l, Readable a) : ∃ s, List.Forall₂ ActMeans l s ∧ AllKnown s := by
  induction l with
  | nil => exact ⟨[], .nil, by simp [AllKnown]⟩
  | cons a l ih =>
    obtain ⟨s, h1, h2⟩ := ih fun x hx => h x (List.mem_cons_of_mem _ hx)
    obtain ⟨b, h3, h4⟩ := h a List.mem_cons_self
    refine ⟨b :: s, .cons h3 h1, fun x hx => ?_⟩
    rcases List.mem_cons.1 hx with rfl | hx
    · exact h4
    · exact h2 x hx

theorem actionSet_known {w : List Action} (h : AllKnown w) : ∃ l, actionSetOfList w = .ok l ∧ SetInv w l := by
  obtain ⟨l, e, h'⟩ := setInv_ofList w [] .empty setInv_empty (by simpa using h)
  exact ⟨l, e, by simpa using h'⟩

/-- What `instructions_from_ryu` has built after some instructions. -/
structure Tracks (l : List RInst) (i : Inst) : Prop where
  goto : i.goto = (l.filterMap RInst.next).getLast?
  wmeta : i.wmeta = ((l.filterMap RInst.metadata).getLast?).map fun x => (x.1, some x.2)
  clear : i.clear = l.any RInst.clears
  meter : i.meter = none
  apply : ∃ s, AllKnown s ∧ List.Forall₂ ActMeans ((l.filterMap RInst.applied).getLast?.getD []) s ∧ ActionList.ofList s = .ok i.apply
  write : ∃ s, AllKnown s ∧ List.Forall₂ ActMeans ((l.filterMap RInst.written).getLast?.getD []) s ∧ actionSetOfList s = .ok i.write

theorem last_filterMap {α β : Type} (f : α → Option β) (l : List α) (x : α) :
    ((l ++ [x]).filterMap f).getLast? = match f x with | some v => some v | none => (l.filterMap f).getLast? := by
  rw [List.filterMap_append]
  cases h : f x with
  | none => simp [h]
  | some v => simp [h]

theorem any_snoc {α : Type} (f : α → Bool) (l : List α) (x : α) : (l ++ [x]).any f = (l.any f || f x) := by simp

theorem tracks_nil : Tracks [] .empty :=
  ⟨rfl, rfl, rfl, rfl, ⟨[], by simp [AllKnown], .nil, rfl⟩, ⟨[], by simp [AllKnown], .nil, rfl⟩⟩

theorem tracks_step {l : List RInst} {i : Inst} (h : Tracks l i) {x : RInst} (hx : x.Fine) : ∃ i', instStep i x = .ok i' ∧ Tracks (l ++ [x]) i' := by
  cases x with
  | goto t =>
    refine ⟨_, rfl, ⟨?_, ?_, ?_, h.meter, ?_, ?_⟩⟩
    · rw [last_filterMap]; rfl
    · rw [last_filterMap]; exact h.wmeta
    · rw [any_snoc]; simpa [RInst.clears] using h.clear
    · rw [last_filterMap]; exact h.apply
    · rw [last_filterMap]; exact h.write
  | wmeta v m =>
    refine ⟨_, rfl, ⟨?_, ?_, ?_, h.meter, ?_, ?_⟩⟩
    · rw [last_filterMap]; exact h.goto
    · rw [last_filterMap]; rfl
    · rw [any_snoc]; simpa [RInst.clears] using h.clear
    · rw [last_filterMap]; exact h.apply
    · rw [last_filterMap]; exact h.write
  | meter => cases hx
  | other ty =>
    refine ⟨_, rfl, ⟨?_, ?_, ?_, h.meter, ?_, ?_⟩⟩
    · rw [last_filterMap]; exact h.goto
    · rw [last_filterMap]; exact h.wmeta
    · rw [any_snoc]; simpa [RInst.clears] using h.clear
    · rw [last_filterMap]; exact h.apply
    · rw [last_filterMap]; exact h.write
  | actions ty as =>
    have hx' : ∀ a ∈ as, Readable a := hx
    obtain ⟨s, hs, hk⟩ := readable_means hx'
    by_cases h3 : ty = 3
    · subst h3
      obtain ⟨w, ew, -⟩ := actionSet_known hk
      have e : actionsFromRyu actionSetAppend as = .ok w := by
        unfold actionsFromRyu
        rw [actionsFold_means actionSetAppend hs]; exact ew
      refine ⟨{ i with write := w }, ?_, ⟨?_, ?_, ?_, h.meter, ?_, ?_⟩⟩
      · simp only [instStep, itWrite, if_true, e]; rfl
      · rw [last_filterMap]; exact h.goto
      · rw [last_filterMap]; exact h.wmeta
      · rw [any_snoc]; simpa [RInst.clears] using h.clear
      · rw [last_filterMap]; exact h.apply
      · rw [last_filterMap]; exact ⟨s, hk, hs, ew⟩
    by_cases h4 : ty = 4
    · subst h4
      have e : actionsFromRyu ActionList.append as = .ok (mkList s) := by
        unfold actionsFromRyu
        rw [actionsFold_means ActionList.append hs]; exact ofList_known hk
      refine ⟨{ i with apply := mkList s }, ?_, ⟨?_, ?_, ?_, h.meter, ?_, ?_⟩⟩
      · simp only [instStep, itWrite, itApply]
        rw [if_neg (by decide), if_pos (by trivial), e]; rfl
      · rw [last_filterMap]; exact h.goto
      · rw [last_filterMap]; exact h.wmeta
      · rw [any_snoc]; simpa [RInst.clears] using h.clear
      · rw [last_filterMap]; exact ⟨s, hk, hs, ofList_known hk⟩
      · rw [last_filterMap]; exact h.write
    have ha : RInst.applied (.actions ty as) = none := by
      unfold RInst.applied; split
      · next h => cases h; exact absurd rfl h4
      · rfl
    have hw : RInst.written (.actions ty as) = none := by
      unfold RInst.written; split
      · next h => cases h; exact absurd rfl h3
      · rfl
    by_cases h5 : ty = 5
    · subst h5
      refine ⟨{ i with clear := true }, ?_, ⟨?_, ?_, ?_, h.meter, ?_, ?_⟩⟩
      · simp only [instStep, itWrite, itApply, itClear]
        rw [if_neg (by decide), if_neg (by decide), if_pos (by trivial)]
      · rw [last_filterMap]; exact h.goto
      · rw [last_filterMap]; exact h.wmeta
      · rw [any_snoc]; simp [RInst.clears]
      · rw [last_filterMap]; exact h.apply
      · rw [last_filterMap]; exact h.write
    · refine ⟨i, ?_, ⟨?_, ?_, ?_, h.meter, ?_, ?_⟩⟩
      · simp only [instStep, itWrite, itApply, itClear]
        rw [if_neg h3, if_neg h4, if_neg h5]
      · rw [last_filterMap]; exact h.goto
      · rw [last_filterMap]; exact h.wmeta
      · have hc : RInst.clears (.actions ty as) = false := by
          unfold RInst.clears; split
          · next h => cases h; exact absurd rfl h5
          · rfl
        rw [any_snoc, hc, Bool.or_false]; exact h.clear
      · rw [last_filterMap, ha]; exact h.apply
      · rw [last_filterMap, hw]; exact h.write

theorem tracks_all : ∀ (rest done : List RInst) (i : Inst), Tracks done i → (∀ x ∈ rest, x.Fine) →
    ∃ i', rest.foldlM instStep i = .ok i' ∧ Tracks (done ++ rest) i'
  | [], done, i, h, _ => ⟨i, rfl, by simpa using h⟩
  | x :: rest, done, i, h, hf => by
    obtain ⟨i1, e1, h1⟩ := tracks_step h (hf x List.mem_cons_self)
    obtain ⟨i2, e2, h2⟩ := tracks_all rest (done ++ [x]) i1 h1 fun y hy => hf y (List.mem_cons_of_mem _ hy)
    refine ⟨i2, ?_, by simpa using h2⟩
    rw [List.foldlM_cons, e1]
    exact e2

/-- The instructions read do what the message says. -/
theorem tracks_run {l : List RInst} {i : Inst} {q : Prog} (h : Tracks l i) (hq : ProgOf l q) :
    (∀ st, SameState (i.run st) (q.run st)) ∧ i.goto = q.goto := by
  obtain ⟨s, hks, hs, es⟩ := h.apply
  obtain ⟨w, hkw, hw, ew⟩ := h.write
  have e1 := means_unique hs hq.apply
  have e2 := means_unique hw hq.write
  subst e1 e2
  have heff := C56_canonical_effect _ _ es
  obtain ⟨l', el, hset⟩ := actionSet_known hkw
  rw [ew] at el
  cases el
  refine ⟨fun st => ⟨?_, ?_, ?_⟩, by rw [h.goto, hq.goto]⟩
  · simp only [Inst.run, Inst.forward, Prog.run, h.wmeta, hq.wmeta, (heff st.pkt).1]
  · simp only [Inst.run, Prog.run]
    exact List.Perm.append_left _ (heff st.pkt).2
  · simp only [Inst.run, Prog.run, h.clear, hq.clear]
    refine finalSet_perm fun x => ?_
    have := inSet_congr (u := i.write.iter) (fun y => setInv_inSet hset y) (if (l.any RInst.clears) = true then [] else st.writes) [] x
    simpa using this

/-! ### Writing -/

/-- Specification: the groups among the actions are numbers, not `Group` objects. -/
def NoObjects (heap : Nat → Option GroupObj) (l : List Action) : Prop := ∀ g, Action.group g ∈ l → heap g = none

theorem actionToRyu_ok {heap : Nat → Option GroupObj} (grp : GroupObj → Nat → Except PyErr (Nat × List GroupMod × Nat)) (n : Nat) {a : Action}
    (h : ∀ g, a = .group g → heap g = none) : ∃ r, actionToRyu heap grp n a = .ok (r, [], n) ∧ ActMeans r a := by
  cases a with
  | setField f v => exact ⟨_, rfl, .num f v⟩
  | group g =>
    refine ⟨.plain 22 g, ?_, .plain (f := .group) g (by simp [wireActions])⟩
    simp only [actionToRyu, h g rfl]
  | copyTtlIn => exact ⟨_, rfl, .plain (f := fun _ => .copyTtlIn) 0 (by simp [wireActions])⟩
  | popVlan => exact ⟨_, rfl, .plain (f := fun _ => .popVlan) 0 (by simp [wireActions])⟩
  | popPbb => exact ⟨_, rfl, .plain (f := fun _ => .popPbb) 0 (by simp [wireActions])⟩
  | popMpls e => exact ⟨_, rfl, .plain (f := .popMpls) e (by simp [wireActions])⟩
  | pushMpls e => exact ⟨_, rfl, .plain (f := .pushMpls) e (by simp [wireActions])⟩
  | pushPbb e => exact ⟨_, rfl, .plain (f := .pushPbb) e (by simp [wireActions])⟩
  | pushVlan e => exact ⟨_, rfl, .plain (f := .pushVlan) e (by simp [wireActions])⟩
  | copyTtlOut => exact ⟨_, rfl, .plain (f := fun _ => .copyTtlOut) 0 (by simp [wireActions])⟩
  | decMplsTtl => exact ⟨_, rfl, .plain (f := fun _ => .decMplsTtl) 0 (by simp [wireActions])⟩
  | decNwTtl => exact ⟨_, rfl, .plain (f := fun _ => .decNwTtl) 0 (by simp [wireActions])⟩
  | setMplsTtl e => exact ⟨_, rfl, .plain (f := .setMplsTtl) e (by simp [wireActions])⟩
  | setNwTtl e => exact ⟨_, rfl, .plain (f := .setNwTtl) e (by simp [wireActions])⟩
  | setQueue e => exact ⟨_, rfl, .plain (f := .setQueue) e (by simp [wireActions])⟩
  | output e => exact ⟨_, rfl, .plain (f := .output) e (by simp [wireActions])⟩

theorem actionsWith_ok {heap : Nat → Option GroupObj} (grp : GroupObj → Nat → Except PyErr (Nat × List GroupMod × Nat)) (n : Nat) :
    ∀ {l : List Action}, NoObjects heap l → ∃ rs, actionsWith heap grp l n = .ok (rs, [], n) ∧ List.Forall₂ ActMeans rs l
  | [], _ => ⟨[], rfl, .nil⟩
  | a :: l, h => by
    obtain ⟨r, e, hr⟩ := actionToRyu_ok grp n (a := a) fun g hg => h g (by rw [hg]; exact List.mem_cons_self)
    obtain ⟨rs, es, hrs⟩ := actionsWith_ok grp n (l := l) fun g hg => h g (List.mem_cons_of_mem _ hg)
    refine ⟨r :: rs, ?_, .cons hr hrs⟩
    rw [actionsWith, e]
    simp only [bind, Except.bind, es]
    rfl

theorem actionsInst_ok {heap : Nat → Option GroupObj} (vlan : Option Nat) (fuel type n : Nat) {l : ActionList} (h : NoObjects heap l.iter) :
    ∃ rs, actionsInst heap vlan fuel type l n = .ok (if l.len = 0 then [] else [.actions type rs], [], n) ∧ List.Forall₂ ActMeans rs l.iter := by
  obtain ⟨rs, e, hr⟩ := actionsWith_ok (groupToRyu heap vlan fuel) n h
  refine ⟨rs, ?_, hr⟩
  unfold actionsInst actionsToRyu
  by_cases h0 : l.len = 0
  · rw [if_pos h0, if_pos h0]
  · rw [if_neg h0, if_neg h0, e]; rfl

/-- Specification: instructions that can be written: no metadata, no meter, no `Group` objects. -/
structure InstOK (heap : Nat → Option GroupObj) (i : Inst) : Prop where
  wmeta : i.wmeta = none
  meter : i.meter = none
  write : NoObjects heap i.write.iter
  apply : NoObjects heap i.apply.iter
  writeLen : i.write.len = i.write.iter.length
  applyLen : i.apply.len = i.apply.iter.length

theorem instToRyu_ok {heap : Nat → Option GroupObj} (vlan : Option Nat) (fuel n : Nat) {i : Inst} (h : InstOK heap i) :
    ∃ l, instToRyu heap vlan fuel i n = .ok (l, [], n) ∧ ProgOf l ⟨i.apply.iter, i.clear, i.write.iter, none, i.goto⟩ ∧
      (AllKnown i.apply.iter → AllKnown i.write.iter → ∀ x ∈ l, x.Fine) := by
  obtain ⟨ws, e1, h1⟩ := actionsInst_ok vlan fuel itWrite n h.write
  obtain ⟨as, e2, h2⟩ := actionsInst_ok vlan fuel itApply n h.apply
  let G : List RInst := match i.goto with | none => [] | some t => [.goto t]
  let W : List RInst := if i.write.len = 0 then [] else [.actions itWrite ws]
  let A : List RInst := if i.apply.len = 0 then [] else [.actions itApply as]
  let C : List RInst := if i.clear then [.actions itClear []] else []
  have hread : ∀ {rs : List RAct} {l : List Action}, List.Forall₂ ActMeans rs l → AllKnown l → ∀ a ∈ rs, Readable a := by
    intro rs l hf hk a ha
    induction hf with
    | nil => cases ha
    | @cons r b rs l hr _ ih =>
      rcases List.mem_cons.1 ha with rfl | ha
      · exact ⟨b, hr, hk b List.mem_cons_self⟩
      · exact ih (fun x hx => hk x (List.mem_cons_of_mem _ hx)) ha
  refine ⟨G ++ W ++ A ++ C, ?_, ?_, fun ka kw x hx => ?_⟩
  · unfold instToRyu
    rw [h.wmeta, h.meter, e1]
    simp only [Option.isSome_none, Bool.false_eq_true, if_false, bind, Except.bind, e2]
    rfl
  · have hG : G.filterMap RInst.applied = [] ∧ G.filterMap RInst.written = [] ∧ G.filterMap RInst.metadata = [] ∧ (G.filterMap RInst.next).getLast? = i.goto ∧
        G.any RInst.clears = false := by
      simp only [G]; cases i.goto <;> simp [RInst.applied, RInst.written, RInst.metadata, RInst.next, RInst.clears]
    have hW : W.filterMap RInst.applied = [] ∧ W.filterMap RInst.metadata = [] ∧ W.filterMap RInst.next = [] ∧
        (W.filterMap RInst.written) = (if i.write.len = 0 then [] else [ws]) ∧ W.any RInst.clears = false := by
      simp only [W]; split <;> simp [RInst.applied, RInst.written, RInst.metadata, RInst.next, RInst.clears, itWrite]
    have hA : W.filterMap RInst.applied = [] ∧ A.filterMap RInst.metadata = [] ∧ A.filterMap RInst.next = [] ∧
        (A.filterMap RInst.applied) = (if i.apply.len = 0 then [] else [as]) ∧ A.any RInst.clears = false ∧ A.filterMap RInst.written = [] := by
      refine ⟨hW.1, ?_⟩
      simp only [A]; split <;> simp [RInst.applied, RInst.written, RInst.metadata, RInst.next, RInst.clears, itApply]
    have hC : C.filterMap RInst.applied = [] ∧ C.filterMap RInst.metadata = [] ∧ C.filterMap RInst.next = [] ∧ C.filterMap RInst.written = [] ∧ C.any RInst.clears = i.clear := by
      simp only [C]; cases i.clear <;> simp [RInst.applied, RInst.written, RInst.metadata, RInst.next, RInst.clears, itClear]
    obtain ⟨g1, g2, g3, g4, g5⟩ := hG
    obtain ⟨w1, w2, w3, w4, w5⟩ := hW
    obtain ⟨-, a2, a3, a4, a5, a6⟩ := hA
    obtain ⟨c1, c2, c3, c4, c5⟩ := hC
    refine ⟨?_, ?_, ?_, ?_, ?_⟩
    · simp only [List.filterMap_append, g1, w1, a4, c1, List.nil_append, List.append_nil]
      by_cases h0 : i.apply.len = 0
      · rw [if_pos h0]
        rw [h.applyLen, List.length_eq_zero_iff] at h0
        rw [h0]; exact .nil
      · rw [if_neg h0]; exact h2
    · simp only [List.filterMap_append, g2, w4, a6, c4, List.nil_append, List.append_nil]
      by_cases h0 : i.write.len = 0
      · rw [if_pos h0]
        rw [h.writeLen, List.length_eq_zero_iff] at h0
        rw [h0]; exact .nil
      · rw [if_neg h0]; exact h1
    · simp only [List.any_append, g5, w5, a5, c5, Bool.false_or]
    · simp only [List.filterMap_append, g3, w2, a2, c2]; rfl
    · simp only [List.filterMap_append, w3, a3, c3, List.append_nil, g4]
  · rcases List.mem_append.1 hx with hx | hx
    · rcases List.mem_append.1 hx with hx | hx
      · rcases List.mem_append.1 hx with hx | hx
        · simp only [G] at hx
          cases e : i.goto with
          | none => rw [e] at hx; cases hx
          | some t => rw [e] at hx; rw [List.mem_singleton.1 hx]; trivial
        · simp only [W] at hx
          split at hx
          · cases hx
          · rw [List.mem_singleton.1 hx]; exact hread h1 kw
      · simp only [A] at hx
        split at hx
        · cases hx
        · rw [List.mem_singleton.1 hx]; exact hread h2 ka
    · simp only [C] at hx
      split at hx
      · rw [List.mem_singleton.1 hx]; exact fun a ha => by cases ha
      · cases hx

end OFE.Ryu
