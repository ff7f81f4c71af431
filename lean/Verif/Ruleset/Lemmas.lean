import Verif.Ruleset.Spec
import Verif.Props.Rule

/-!
# Lemmas: single-table conversion
-/

namespace OFE

/-! ### Sorting -/

section sort
variable {π : Type}

theorem mem_insertDesc {x y : Rule π} {l : List (Rule π)} : y ∈ insertDesc x l ↔ y = x ∨ y ∈ l := by
  induction l with
  | nil => simp [insertDesc]
  | cons z l ih =>
    unfold insertDesc
    split
    · simp
    · simp only [List.mem_cons, ih]
      constructor
      · rintro (h | h | h) <;> simp [h]
      · rintro (h | h | h) <;> simp [h]

theorem mem_sortDesc {y : Rule π} {l : List (Rule π)} : y ∈ sortDesc l ↔ y ∈ l := by
  induction l with
  | nil => simp [sortDesc]
  | cons x l ih =>
    show y ∈ insertDesc x (sortDesc l) ↔ _
    rw [mem_insertDesc, ih]; simp

theorem insertDesc_sorted {x : Rule π} {l : List (Rule π)} (h : l.Pairwise fun a b => b.priority ≤ a.priority) :
    (insertDesc x l).Pairwise fun a b => b.priority ≤ a.priority := by
  induction l with
  | nil => simp [insertDesc]
  | cons y l ih =>
    unfold insertDesc
    obtain ⟨h1, h2⟩ := List.pairwise_cons.1 h
    split
    · next hle =>
      refine List.pairwise_cons.2 ⟨fun z hz => ?_, h⟩
      rcases List.mem_cons.1 hz with rfl | hz
      · exact hle
      · exact Nat.le_trans (h1 z hz) hle
    · next hle =>
      refine List.pairwise_cons.2 ⟨fun z hz => ?_, ih h2⟩
      rcases mem_insertDesc.1 hz with rfl | hz
      · omega
      · exact h1 z hz

theorem sortDesc_sorted (l : List (Rule π)) : (sortDesc l).Pairwise fun a b => b.priority ≤ a.priority := by
  induction l with
  | nil => exact .nil
  | cons x l ih => exact insertDesc_sorted ih

theorem insertDesc_perm (x : Rule π) (l : List (Rule π)) : (insertDesc x l).Perm (x :: l) := by
  induction l with
  | nil => exact .refl _
  | cons y l ih =>
    unfold insertDesc
    split
    · exact .refl _
    · exact (ih.cons y).trans (.swap x y l)

theorem sortDesc_perm (l : List (Rule π)) : (sortDesc l).Perm l := by
  induction l with
  | nil => exact .refl _
  | cons x l ih => exact (insertDesc_perm x _).trans (ih.cons x)

theorem mem_insertTable {t u : Nat} {l : List Nat} : u ∈ insertTable t l ↔ u = t ∨ u ∈ l := by
  induction l with
  | nil => simp [insertTable]
  | cons v l ih =>
    unfold insertTable
    split
    · simp
    · split
      · next h => subst h; simp
      · simp only [List.mem_cons, ih]
        constructor
        · rintro (h | h | h) <;> simp [h]
        · rintro (h | h | h) <;> simp [h]

theorem insertTable_sorted {t : Nat} {l : List Nat} (h : l.Pairwise (· < ·)) : (insertTable t l).Pairwise (· < ·) := by
  induction l with
  | nil => simp [insertTable]
  | cons v l ih =>
    obtain ⟨h1, h2⟩ := List.pairwise_cons.1 h
    unfold insertTable
    split
    · next hlt =>
      refine List.pairwise_cons.2 ⟨fun z hz => ?_, h⟩
      rcases List.mem_cons.1 hz with rfl | hz
      · exact hlt
      · exact Nat.lt_trans hlt (h1 z hz)
    · split
      · exact h
      · refine List.pairwise_cons.2 ⟨fun z hz => ?_, ih h2⟩
        rcases mem_insertTable.1 hz with rfl | hz
        · omega
        · exact h1 z hz

theorem mem_tablesOf {l : List (Rule π)} {t : Nat} : t ∈ tablesOf l ↔ ∃ r ∈ l, r.table = t := by
  induction l with
  | nil => simp [tablesOf]
  | cons x l ih =>
    show t ∈ insertTable x.table (tablesOf l) ↔ _
    rw [mem_insertTable, ih]
    simp [eq_comm]

theorem tablesOf_sorted (l : List (Rule π)) : (tablesOf l).Pairwise (· < ·) := by
  induction l with
  | nil => exact .nil
  | cons x l ih => exact insertTable_sorted ih

theorem mem_tableRules {l : List (Rule π)} {t : Nat} {r : Rule π} : r ∈ tableRules l t ↔ r ∈ l ∧ r.table = t := by
  unfold tableRules
  rw [mem_sortDesc, List.mem_filter]; simp

theorem exists_firstHit {l : List (Rule π)} {p : Pkt} (h : ∃ r ∈ l, r.mat.accepts p) : ∃ r, FirstHit l p r := by
  induction l with
  | nil => simp at h
  | cons x l ih =>
    by_cases hx : x.mat.accepts p
    · exact ⟨x, [], l, rfl, hx, by simp⟩
    · obtain ⟨r, hr, ha⟩ := h
      rcases List.mem_cons.1 hr with rfl | hr
      · exact absurd ha hx
      · obtain ⟨r, b, a, e, h1, h2⟩ := ih ⟨r, hr, ha⟩
        refine ⟨r, x :: b, a, by simp [e], h1, fun y hy => ?_⟩
        rcases List.mem_cons.1 hy with rfl | hy
        · exact hx
        · exact h2 y hy

theorem FirstHit.mem {l : List (Rule π)} {p : Pkt} {r : Rule π} (h : FirstHit l p r) : r ∈ l := by
  obtain ⟨b, a, rfl, _, _⟩ := h; simp

theorem FirstHit.hits {l : List (Rule π)} {t : Nat} {p : Pkt} {r : Rule π} (h : FirstHit (tableRules l t) p r) : Hits l t p r := by
  obtain ⟨hm, ht⟩ := mem_tableRules.1 h.mem
  obtain ⟨b, a, e, h1, h2⟩ := h
  refine ⟨hm, ht, h1, fun s hs hst hsp => ?_⟩
  have hs' := mem_tableRules.2 ⟨hs, hst⟩
  have hsort := sortDesc_sorted (l.filter fun r => r.table == t)
  rw [show sortDesc (l.filter fun r => r.table == t) = tableRules l t from rfl, e] at hsort
  rw [e] at hs'
  rcases List.mem_append.1 hs' with hb | hb
  · exact absurd hsp (h2 s hb)
  · rcases List.mem_cons.1 hb with rfl | hb
    · exact Nat.le_refl _
    · exact (List.pairwise_cons.1 (List.pairwise_append.1 hsort).2.1).1 s hb

end sort

/-! ### Condensing two tables -/

section cond
variable {π : Type}

/-- The merged rule with its path, if there is one. -/
def merged? (a : Rule π) (openflow : Bool) (b : Rule π) : Option (Rule π) :=
  match a.merge b openflow with
  | .ok r => some { r with path := a.path ++ b.path }
  | .error _ => none

theorem mergeAll_eq {a : Rule π} (ha : RuleOK a) (hf : FlatActs a.inst.apply.iter) (openflow : Bool) {l : List (Rule π)}
    (hl : ∀ b ∈ l, RuleOK b) : mergeAll a openflow l = .ok (l.filterMap (merged? a openflow)) := by
  induction l with
  | nil => rfl
  | cons b l ih =>
    have ih := ih fun x hx => hl x (List.mem_cons_of_mem _ hx)
    unfold mergeAll
    rcases merge_cases ha (hl b List.mem_cons_self) hf openflow with ⟨r, i, e, -⟩ | ⟨e, -⟩
    · rw [e]
      simp only [ih, bind, Except.bind, pure, Except.pure, List.filterMap_cons]
      rw [show merged? a openflow b = some { r with path := a.path ++ b.path } from by unfold merged?; rw [e]]
    · rw [e]
      simp only [ih, List.filterMap_cons]
      rw [show merged? a openflow b = none from by unfold merged?; rw [e]]

theorem condense_eq {first second : List (Rule π)} {num : Nat} {openflow : Bool}
    (hf : ∀ a ∈ first, RuleOK a ∧ (a.inst.goto = some num → FlatActs a.inst.apply.iter)) (hs : ∀ b ∈ second, RuleOK b) :
    condense first second num openflow =
      .ok (first.flatMap fun a => if a.inst.goto = some num then second.filterMap (merged? a openflow) else [a]) := by
  induction first with
  | nil => rfl
  | cons a rest ih =>
    have ih := ih fun x hx => hf x (List.mem_cons_of_mem _ hx)
    obtain ⟨h1, h2⟩ := hf a List.mem_cons_self
    unfold condense
    rw [ih, List.flatMap_cons]
    by_cases hg : a.inst.goto = some num
    · simp only [if_pos hg, mergeAll_eq h1 (h2 hg) openflow hs]; rfl
    · simp only [if_neg hg]; rfl

theorem firstHit_flatMap {l : List (Rule π)} {f : Rule π → List (Rule π)} {p : Pkt} {c r : Rule π} (h : FirstHit l p c)
    (hr : FirstHit (f c) p r) (hsub : ∀ a ∈ l, ∀ x ∈ f a, x.mat.accepts p → a.mat.accepts p) : FirstHit (l.flatMap f) p r := by
  obtain ⟨b, a, rfl, h1, h2⟩ := h
  obtain ⟨b', a', e, h3, h4⟩ := hr
  refine ⟨b.flatMap f ++ b', a' ++ a.flatMap f, by simp [e], h3, fun x hx hxp => ?_⟩
  rcases List.mem_append.1 hx with hx | hx
  · obtain ⟨y, hy, hxy⟩ := List.mem_flatMap.1 hx
    exact h2 y hy (hsub y (by simp [hy]) x hxy hxp)
  · exact h4 x hx hxp

theorem firstHit_filterMap {l : List (Rule π)} {f : Rule π → Option (Rule π)} {p q : Pkt} {b r : Rule π} (h : FirstHit l q b)
    (hb : f b = some r) (hr : r.mat.accepts p) (hsub : ∀ x ∈ l, ∀ y, f x = some y → y.mat.accepts p → x.mat.accepts q) :
    FirstHit (l.filterMap f) p r := by
  obtain ⟨u, v, rfl, h1, h2⟩ := h
  refine ⟨u.filterMap f, v.filterMap f, by simp [List.filterMap_append, List.filterMap_cons, hb], hr, fun y hy hyp => ?_⟩
  obtain ⟨x, hx, hxy⟩ := List.mem_filterMap.1 hy
  exact h2 x hx (hsub x (by simp [hx]) y hxy hyp)

end cond

/-! ### States up to order of copies and histories of the action set -/

/-- Same packet, same copies, same action set. -/
def StEq (s t : St) : Prop := s.pkt = t.pkt ∧ SameSent s.sent t.sent ∧ ∀ x, InSet s.writes x ↔ InSet t.writes x

theorem StEq.refl (s : St) : StEq s s := ⟨rfl, .refl _, fun _ => .rfl⟩

theorem StEq.trans {s t u : St} (h1 : StEq s t) (h2 : StEq t u) : StEq s u :=
  ⟨h1.1.trans h2.1, h1.2.1.trans h2.2.1, fun x => (h1.2.2 x).trans (h2.2.2 x)⟩

theorem StEq.run {s t : St} (h : StEq s t) (i : Inst) : StEq (i.run s) (i.run t) := by
  obtain ⟨h1, h2, h3⟩ := h
  refine ⟨by simp only [Inst.run, h1], ?_, fun x => ?_⟩
  · simp only [Inst.run, h1]
    unfold SameSent at *
    rw [List.map_append, List.map_append]
    exact List.Perm.append_right _ h2
  · simp only [Inst.run]
    cases i.clear
    · have := inSet_congr h3 [] i.write.iter x
      simpa using this
    · simp

/-- The rules of a list one after the other. -/
def runAll {π : Type} (rs : List (Rule π)) (s : St) : St := rs.foldl (fun s r => r.inst.run s) s

theorem runAll_append {π : Type} (rs rs' : List (Rule π)) (s : St) : runAll (rs ++ rs') s = runAll rs' (runAll rs s) := by
  simp [runAll]

theorem merge_stEq {π : Type} {a b r : Rule π} (ha : RuleOK a) (hb : RuleOK b) (hm : NoMeta b.inst.apply.iter) {openflow : Bool}
    (h : a.merge b openflow = .ok r) (s : St) : StEq (r.inst.run s) (b.inst.run (a.inst.run s)) := by
  obtain ⟨h1, h2, h3, -⟩ := C27_merge_instructions a b r ha hb hm openflow h s
  exact ⟨h1, h2, fun x => by rw [← mem_finalSet, ← mem_finalSet, h3.mem_iff]⟩

/-- The rule `c` of the single table stands for the rules `rs` in sequence. -/
structure Rep {π : Type} (c : Rule π) (rs : List (Rule π)) : Prop where
  ok : RuleOK c
  ne : rs ≠ []
  flat : c.inst.goto ≠ none → FlatActs c.inst.apply.iter
  path : c.path = rs.flatMap (·.path)
  prio : c.priority = (rs.map (·.priority)).sum
  run : ∀ s, StEq (c.inst.run s) (runAll rs s)

/-- A run of hits from table `t` that has not ended; the table to go to next. -/
inductive Leads {π : Type} (R : List (Rule π)) (t : Nat) (s : St) : List (Rule π) → Option Nat → Prop where
  | one {r} : Hits R t s.pkt r → Leads R t s [r] r.inst.goto
  | snoc {rs n r} : Leads R t s rs (some n) → Hits R n (runAll rs s).pkt r → Leads R t s (rs ++ [r]) r.inst.goto

theorem leads_runs {π : Type} {R : List (Rule π)} {t : Nat} {s : St} {rs : List (Rule π)} {g : Option Nat} (h : Leads R t s rs g) :
    ∀ n, g = some n → ∀ rs' s', Runs R n (runAll rs s) rs' s' → Runs R t s (rs ++ rs') s' := by
  induction h with
  | @one r h =>
    intro n hn rs' s' h'
    exact .next h hn h'
  | @snoc rs m r h1 h2 ih =>
    intro n hn rs' s' h'
    rw [List.append_assoc]
    refine ih m rfl _ _ ?_
    rw [runAll_append] at h'
    exact .next h2 hn h'

theorem leads_end {π : Type} {R : List (Rule π)} {t : Nat} {s : St} {rs : List (Rule π)} (h : Leads R t s rs none) :
    Runs R t s rs (runAll rs s) := by
  generalize hg : (none : Option Nat) = g at h
  cases h with
  | one h => exact .last h hg.symm
  | @snoc rs m r h1 h2 =>
    refine leads_runs h1 m rfl _ _ ?_
    rw [runAll_append]
    exact .last h2 hg.symm

end OFE
