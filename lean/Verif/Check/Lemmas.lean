import Verif.Check.ActLemmas
import Verif.Props.Cudd
import Verif.Props.Normalise
import Verif.Deps.OfRule
import Batteries.Data.Nat.Lemmas

/-!
# Lemmas for the default equality check
-/

namespace OFE
open DD

/-! ### Labels -/

theorem insertKey_perm (x : OutKey × List Action) (l : Label) : (insertKey x l).Perm (x :: l) := by
  induction l with
  | nil => exact List.Perm.refl _
  | cons y l ih =>
    simp only [insertKey]
    split
    · exact List.Perm.refl _
    · exact (ih.cons y).trans (List.Perm.swap ..)

theorem canonLabel_perm (l : Label) : (canonLabel l).Perm l := by
  induction l with
  | nil => exact List.Perm.refl _
  | cons x l ih => exact (insertKey_perm x _).trans (ih.cons x)

/-- A label that describes what the action list `l` sends. -/
structure LabelOf (l : ActionList) (L : Label) : Prop where
  tup : ∀ x ∈ L, TupOK x.2
  nodup : (L.map Prod.fst).Nodup
  sends : ∀ p, (emitted L p).Perm (exec l.iter p).2

theorem fullActions_eq {π : Type} {r : Rule π} (h : RuleOK r) :
    ∃ s, r.inst.fullActions = .ok (mkList s) ∧ AllKnown s ∧ s.Perm (r.inst.apply.iter ++ r.inst.write.iter) := by
  obtain ⟨s, k, e⟩ := h.apply
  obtain ⟨t, k', e'⟩ := h.write
  have hkw := (setInv_of k' e').known k'
  have hks : AllKnown (s ++ r.inst.write.iter) := by
    intro x hx
    rcases List.mem_append.1 hx with h | h
    · exact k x h
    · exact hkw x h
  refine ⟨s ++ r.inst.write.iter, ?_, hks, ?_⟩
  · unfold Inst.fullActions ActionList.add
    rw [ofList_ok e]
    exact copy_add hks
  · rw [ofList_ok e]
    exact List.Perm.append_right _ (mkList_iter_trace s).perm

theorem label_spec {π : Type} {r : Rule π} (h : PlainRule r) :
    ∃ l L, r.inst.fullActions = .ok l ∧ r.label = .ok L ∧ LabelOf l L := by
  obtain ⟨s, e, hk, hp⟩ := fullActions_eq h.ok
  have hs : PlainActs s := h.acts.of_subset (fun a ha => hp.mem_iff.1 ha) ((hp.filterMap _).nodup_iff.2 h.acts.ports)
  obtain ⟨items, tup, -, b, c, d, -, -, f, g⟩ := perOutput_spec s (hs.mods hk) hs.ports
  have hcp := canonLabel_perm items
  refine ⟨_, canonLabel items, e, ?_, ⟨fun x hx => ?_, ?_, fun p => ?_⟩⟩
  · unfold Rule.label
    rw [e]
    simp only [bind, Except.bind, b]; rfl
  · obtain ⟨g1, g2⟩ := g x (hcp.mem_iff.1 hx)
    exact ⟨fun a ha => hk a (g1 a ha), hs.of_subset g1 g2⟩
  · exact (hcp.map _).nodup_iff.2 f
  · refine ((hcp.flatMap_right _).trans (d p)).trans ?_
    exact ((C56_canonical_effect s _ (ofList_known hk)) p).2.symm

/-! ### The entries of a ruleset -/

/-- Entry `e` stands for rule `r`. -/
structure EntryOf {π : Type} (r : Rule π) (e : Nat × Label) : Prop where
  covers : ∀ p : Pkt, Covers totBits e.1 p.hdr ↔ r.mat.accepts p
  valid : WcValid totBits e.1
  free : FreeBelow (fieldPos 39) e.1
  lab : r.label = .ok e.2
  label : ∃ l, r.inst.fullActions = .ok l ∧ LabelOf l e.2

theorem ruleEntry_spec {π : Type} {r : Rule π} (h : PlainRule r) : ∃ e, ruleEntry r = .ok e ∧ EntryOf r e := by
  obtain ⟨l, L, e1, e2, e3⟩ := label_spec h
  have hk : ∀ x ∈ r.mat.items, x.1 < 56 := fun x hx => by have := h.ok.keys x hx; omega
  obtain ⟨w, m', f1, f2, f3⟩ := Deps.getWildcard_spec h.ok.inv hk
  refine ⟨(w, L), ?_, ⟨fun p => f3 p.hdr, f2, ?_, e2, l, e1, e3⟩⟩
  · unfold ruleEntry
    rw [e2, f1]; rfl
  · have := getWildcard_eq h.ok.inv
    rw [f1] at this
    exact freeBelow_match h.ok.keys this.symm

theorem mapM_ruleEntry {π : Type} {rules : List (Rule π)} (h : ∀ r ∈ rules, PlainRule r) :
    ∃ es, rules.mapM ruleEntry = .ok es ∧ List.Forall₂ EntryOf rules es := by
  induction rules with
  | nil => exact ⟨[], rfl, .nil⟩
  | cons r rules ih =>
    obtain ⟨es, e1, e2⟩ := ih fun x hx => h x (List.mem_cons_of_mem _ hx)
    obtain ⟨e, f1, f2⟩ := ruleEntry_spec (h r (by simp))
    exact ⟨e :: es, by rw [List.mapM_cons, f1, e1]; rfl, .cons f2 e2⟩

/-- The rule a packet hits first, its entry and its number; or none. -/
theorem firstMatch_rule {π : Type} {rules : List (Rule π)} {es : List (Nat × Label)} {ids : List Nat}
    (h : List.Forall₂ EntryOf rules es) (hl : ids.length = es.length) (p : Pkt) {x : Option Nat}
    (hf : FirstMatch totBits p.hdr (List.zipWith (fun (e : Nat × Label) id => (e.1, id)) es ids) x) :
    (∃ c e i, FirstHit rules p c ∧ EntryOf c e ∧ (e.2, i) ∈ (es.map (·.2)).zip ids ∧ x = some i) ∨
    ((∀ r ∈ rules, ¬ r.mat.accepts p) ∧ x = none) := by
  induction h generalizing ids with
  | nil => right; cases hf; exact ⟨by simp, rfl⟩
  | @cons r e rules es hre _ ih =>
    cases ids with
    | nil => simp at hl
    | cons i ids =>
      simp only [List.zipWith_cons_cons] at hf
      cases hf with
      | hit hc =>
        left
        exact ⟨r, e, i, ⟨[], rules, rfl, (hre.covers p).1 hc, by simp⟩, hre, by simp, rfl⟩
      | miss hc hf =>
        have hr : ¬ r.mat.accepts p := fun h => hc ((hre.covers p).2 h)
        rcases ih (by simpa using hl) hf with ⟨c, e', j, ⟨b, a, rfl, h1, h2⟩, h3, h4, h5⟩ | ⟨h1, h2⟩
        · left
          refine ⟨c, e', j, ⟨r :: b, a, rfl, h1, ?_⟩, h3, by simp [h4], h5⟩
          intro y hy
          rcases List.mem_cons.1 hy with rfl | hy
          · exact hr
          · exact h2 y hy
        · right
          refine ⟨?_, h2⟩
          intro y hy
          rcases List.mem_cons.1 hy with rfl | hy
          · exact hr
          · exact h1 y hy

theorem firstMatch_free {n m : Nat} {l : List (Nat × Nat)} (hl : ∀ e ∈ l, FreeBelow m e.1) {p q : Packet}
    (hpq : ∀ i, m ≤ i → i < n → p i = q i) {x : Option Nat} (h : FirstMatch n p l x) : FirstMatch n q l x := by
  induction h with
  | nil => exact .nil
  | hit h => exact .hit ((covers_free (hl _ List.mem_cons_self) hpq).1 h)
  | miss h _ ih =>
    exact .miss (fun h' => h ((covers_free (hl _ List.mem_cons_self) hpq).2 h')) (ih fun e he => hl e (List.mem_cons_of_mem _ he))

/-! ### The numbering -/

theorem run_append {φ α : Type} [DecidableEq φ] (r : Cudd.Reg φ α) (a b : List (φ × α)) :
    r.run (a ++ b) = ((r.run a).1 ++ ((r.run a).2.run b).1, ((r.run a).2.run b).2) := by
  induction a generalizing r with
  | nil => simp [Cudd.Reg.run]
  | cons x a ih =>
    obtain ⟨f, v⟩ := x
    simp only [List.cons_append, Cudd.Reg.run, ih]

theorem sessionReg_run (h ls : List Label) : ((sessionReg h).runLabels ls).2 = sessionReg (h ++ ls) := by
  unfold sessionReg LReg.runLabels
  rw [List.map_append, run_append]

/-- All numbers handed out in a session. -/
def sessionIds (ls : List Label) : List Nat := (LReg.runLabels (Cudd.Reg.init none none) ls).1

theorem sessionIds_run (h ls : List Label) : sessionIds (h ++ ls) = sessionIds h ++ ((sessionReg h).runLabels ls).1 := by
  unfold sessionIds sessionReg LReg.runLabels
  rw [List.map_append, run_append]

/-- The number of a label in the table. -/
def Cudd.Reg.numOf {φ α : Type} [DecidableEq φ] (r : Cudd.Reg φ α) (f : φ) : Option Nat := r.mapping.lookup f

theorem lookup_same {β : Type} [DecidableEq β] {ls : List (β × β)} (hs : ∀ x ∈ ls, x.2 = x.1) {L x : β}
    (h : ls.lookup L = some x) : x = L := by
  obtain ⟨a, b, e, -⟩ := List.lookup_eq_some_iff.1 h
  exact hs (L, x) (by rw [e]; simp)

/-- The numbers of part of a session are in use, stand for the labels, and tell labels apart. -/
theorem session_ids (h ls h' : List Label) :
    ((sessionReg h).runLabels ls).1.length = ls.length ∧
    (∀ i ∈ ((sessionReg h).runLabels ls).1, i ∈ sessionIds (h ++ ls ++ h')) ∧
    ∀ L i, (L, i) ∈ ls.zip ((sessionReg h).runLabels ls).1 →
      (sessionReg (h ++ ls ++ h')).numOf (some L) = some i ∧
      (sessionReg (h ++ ls ++ h')).actOf (some i) = some (some L) := by
  obtain ⟨I0, -, -, -⟩ := Cudd.regInv_run (Cudd.regInv_init (none : Option Label) (none : Option Label)) (h.map fun l => (some l, some l))
  obtain ⟨I1, l1, e1, -⟩ := Cudd.regInv_run I0 (ls.map fun l => (some l, some l))
  obtain ⟨I2, -, -, m2⟩ := Cudd.regInv_run I1 (h'.map fun l => (some l, some l))
  have hr : sessionReg (h ++ ls ++ h') = (Cudd.Reg.run (Cudd.Reg.run (sessionReg h) (ls.map fun l => (some l, some l))).2
      (h'.map fun l => (some l, some l))).2 := by
    rw [← sessionReg_run, ← sessionReg_run]; rfl
  refine ⟨by rw [List.length_map] at l1; exact l1, fun i hi => ?_, fun L i hi => ?_⟩
  · rw [sessionIds_run, sessionIds_run]
    simp [hi]
  · obtain ⟨k, hk, hki⟩ := List.getElem_of_mem hi
    rw [List.length_zip] at hk
    rw [List.getElem_zip, Prod.mk.injEq] at hki
    have hk1 : k < ls.length := by omega
    have hk2 : k < ((sessionReg h).runLabels ls).1.length := by omega
    have h1 := e1 k (some L, some L) i (by rw [List.getElem?_map, List.getElem?_eq_getElem hk1, hki.1]; rfl)
      (by rw [← hki.2]; exact List.getElem?_eq_getElem hk2)
    have h2 := m2 _ _ h1
    rw [hr]
    refine ⟨h2, ?_⟩
    obtain ⟨a, f1, f2⟩ := I2.first _ _ h2 (by simp)
    have ha : a = some L := by
      refine lookup_same (fun x hx => ?_) f1
      simp only [List.nil_append, List.mem_append, List.mem_map] at hx
      rcases hx with (⟨_, -, rfl⟩ | ⟨_, -, rfl⟩) | ⟨_, -, rfl⟩ <;> rfl
    subst ha
    unfold Cudd.Reg.actOf
    simp only [Option.bind_some]
    rw [show (Cudd.Reg.run (Cudd.Reg.run (sessionReg h) (ls.map fun l => (some l, some l))).2
      (h'.map fun l => (some l, some l))).2.termTo.lookup i = some (some (some L)) from f2]
    rfl

theorem session_inj (h : List Label) {L M : Label} {i : Nat} (h1 : (sessionReg h).numOf (some L) = some i)
    (h2 : (sessionReg h).numOf (some M) = some i) : L = M := by
  obtain ⟨I, -, -, -⟩ := Cudd.regInv_run (Cudd.regInv_init (none : Option Label) (none : Option Label)) (h.map fun l => (some l, some l))
  exact Option.some.inj (I.inj _ _ _ h1 h2)

/-! ### The canonical form -/

/-- `t` is the diagram of the rules, with labels numbered by `ids`. -/
structure FormOf {π : Type} (rules : List (Rule π)) (es : List (Nat × Label)) (ids : List Nat) (t : DD Nat) : Prop where
  entries : List.Forall₂ EntryOf rules es
  len : ids.length = es.length
  wf : WF totBits 0 t
  outer : WF (totBits - fieldPos 39) 0 t
  first : ∀ p, FirstMatch totBits p (List.zipWith (fun (e : Nat × Label) id => (e.1, id)) es ids) (t.lookup totBits p)

theorem lookup_mem {n : Nat} {p : Packet} {es : List (Nat × Label)} {ids : List Nat} {v : Nat}
    (h : FirstMatch n p (List.zipWith (fun (e : Nat × Label) id => (e.1, id)) es ids) (some v)) : v ∈ ids := by
  induction es generalizing ids with
  | nil => simp at h; cases h
  | cons e es ih =>
    cases ids with
    | nil => simp at h; cases h
    | cons i ids =>
      simp only [List.zipWith_cons_cons] at h
      cases h with
      | hit => simp
      | miss _ h => exact List.mem_cons_of_mem _ (ih h)

theorem normaliseDC_nil {n : Nat} {t : DD Nat} (h : normaliseDC n plain [] = .ok t) : False := by
  unfold normaliseDC entries at h
  simp only [List.flatMap_nil, List.mapM_nil, bind, Except.bind, pure, Except.pure] at h
  rw [pairLoop] at h
  simp at h

/-- The rules handed to the construction of the diagram. -/
def numbered (es : List (Nat × Label)) (ids : List Nat) : List (NRule Nat) :=
  List.zipWith (fun (e : Nat × Label) id => (⟨0, e.1, id⟩ : NRule Nat)) es ids

theorem numbered_entries (es : List (Nat × Label)) (ids : List Nat) :
    entries plain (numbered es ids) = List.zipWith (fun (e : Nat × Label) id => (e.1, id)) es ids := by
  unfold numbered
  induction es generalizing ids with
  | nil => rfl
  | cons e es ih =>
    cases ids with
    | nil => rfl
    | cons j js =>
      have := ih js
      unfold entries at this ⊢
      simp only [List.zipWith_cons_cons, List.flatMap_cons, plain, List.singleton_append, this]

theorem entriesOf_valid {π : Type} {rules : List (Rule π)} {es : List (Nat × Label)} (h : List.Forall₂ EntryOf rules es) :
    ∀ e ∈ es, WcValid totBits e.1 ∧ FreeBelow (fieldPos 39) e.1 := by
  induction h with
  | nil => simp
  | cons h1 _ ih =>
    intro e he
    rcases List.mem_cons.1 he with rfl | he
    · exact ⟨h1.valid, h1.free⟩
    · exact ih e he

theorem mem_numbered {es : List (Nat × Label)} {ids : List Nat} :
    ∀ x ∈ List.zipWith (fun (e : Nat × Label) id => (e.1, id)) es ids, ∃ e ∈ es, x.1 = e.1 := by
  intro x hx
  obtain ⟨k, hk, rfl⟩ := List.getElem_of_mem hx
  rw [List.getElem_zipWith]
  exact ⟨_, List.getElem_mem _, rfl⟩

theorem numbered_ok {π : Type} {rules : List (Rule π)} {es : List (Nat × Label)} (h : List.Forall₂ EntryOf rules es) (ids : List Nat) :
    RulesOK totBits plain (numbered es ids) := by
  refine ⟨?_, ?_⟩
  · have : ∀ r ∈ numbered es ids, r.table = 0 := by
      intro x hx
      unfold numbered at hx
      obtain ⟨k, hk, rfl⟩ := List.getElem_of_mem hx
      rw [List.getElem_zipWith]
    intro r hr s hs
    rw [this r hr, this s hs]
  · rw [numbered_entries]
    intro x hx
    obtain ⟨e, he, hxe⟩ := mem_numbered x hx
    rw [hxe]; exact (entriesOf_valid h e he).1

theorem numbered_ne {es : List (Nat × Label)} {ids : List Nat} (hl : ids.length = es.length) (hne : es ≠ []) :
    entries plain (numbered es ids) ≠ [] := by
  rw [numbered_entries]
  intro h0
  have := congrArg List.length h0
  rw [List.length_zipWith, hl] at this
  simp at this
  exact hne this

theorem normaliseRules_spec {π : Type} {rules : List (Rule π)} (h : ∀ r ∈ rules, PlainRule r) (hist : List Label) :
    (∀ t reg, normaliseRules (sessionReg hist) rules = .ok (t, reg) → ∃ es, reg = sessionReg (hist ++ es.map (·.2)) ∧
      FormOf rules es ((sessionReg hist).runLabels (es.map (·.2))).1 t) ∧
    (rules ≠ [] → (∀ r ∈ rules, ∀ s ∈ rules, r.table = s.table) →
      (∃ x, normaliseRules (sessionReg hist) rules = .ok x) ∧
      normaliseRulesNaive (sessionReg hist) rules = normaliseRules (sessionReg hist) rules) := by
  obtain ⟨es, e1, e2⟩ := mapM_ruleEntry h
  have hlen : ((sessionReg hist).runLabels (es.map (·.2))).1.length = es.length := by
    have := (session_ids hist (es.map (·.2)) []).1
    simpa using this
  set ids := ((sessionReg hist).runLabels (es.map (·.2))).1 with hids
  have hent := numbered_entries es ids
  have hes := entriesOf_valid e2
  have hz := mem_numbered (es := es) (ids := ids)
  have hok := numbered_ok e2 ids
  have hb : bytesNeeded * 8 = totBits := by decide +kernel
  have hform : ∀ t, normaliseDC totBits plain (numbered es ids) = .ok t →
      es ≠ [] → FormOf rules es ids t := by
    intro t ht hne
    obtain ⟨t', g1, g2, -, g3⟩ := normaliseDC_spec (by decide) hok (numbered_ne hlen hne)
    rw [ht] at g1
    cases g1
    rw [hent] at g3
    refine ⟨e2, hlen, g2, ?_, g3⟩
    refine wf_of_indep g2 fun q q' hq => ?_
    have key : ∀ q : Nat → Bool, t.eval q = t.lookup totBits fun i => q (totBits - 1 - i) := by
      intro q
      unfold lookup
      apply eval_congr g2
      intro i _ hi
      congr 1; omega
    rw [key, key]
    have h1 := g3 fun i => q (totBits - 1 - i)
    have h2 := g3 fun i => q' (totBits - 1 - i)
    refine FirstMatch.unique (firstMatch_free (m := fieldPos 39) (fun x hx => ?_) (fun i h1 h2 => ?_) h1) h2
    · obtain ⟨e, he, hxe⟩ := hz x hx
      rw [hxe]; exact (hes e he).2
    · exact hq _ (by omega)
  have hone : ∀ reg : LReg, oneTable (rules.map fun r => (⟨r.table, 0, ()⟩ : NRule Unit)) = true →
      normaliseRules reg rules = (normaliseDC totBits plain (numbered es (reg.runLabels (es.map (·.2))).1)).map fun t => (t, (reg.runLabels (es.map (·.2))).2) := by
    intro reg h1
    unfold normaliseRules
    rw [if_pos h1, e1]
    simp only [bind, Except.bind, hb]
    rw [show List.zipWith (fun (e : Nat × Label) id => (⟨0, e.1, id⟩ : NRule Nat)) es (reg.runLabels (es.map fun x => x.2)).1 =
      numbered es (reg.runLabels (es.map fun x => x.2)).1 from rfl]
    cases normaliseDC totBits plain (numbered es (reg.runLabels (es.map (·.2))).1) <;> rfl
  refine ⟨fun t reg hn => ?_, fun hne htab => ?_⟩
  · by_cases h1 : oneTable (rules.map fun r => (⟨r.table, 0, ()⟩ : NRule Unit)) = true
    · rw [hone _ h1] at hn
      cases hd : normaliseDC totBits plain (numbered es ids) with
      | error x => rw [← hids, hd] at hn; cases hn
      | ok t' =>
        rw [← hids, hd] at hn
        simp only [Except.map, Except.ok.injEq, Prod.mk.injEq] at hn
        obtain ⟨rfl, rfl⟩ := hn
        refine ⟨es, sessionReg_run .., hform t' hd ?_⟩
        rintro rfl
        exact normaliseDC_nil hd
    · unfold normaliseRules at hn
      rw [if_neg h1] at hn; cases hn
  · have h1 : oneTable (rules.map fun r => (⟨r.table, 0, ()⟩ : NRule Unit)) = true := by
      rw [oneTable_iff]
      intro a ha b hb
      obtain ⟨r, hr, rfl⟩ := List.mem_map.1 ha
      obtain ⟨s, hs, rfl⟩ := List.mem_map.1 hb
      exact htab r hr s hs
    have hesne : es ≠ [] := by
      rintro rfl
      cases e2
      exact hne rfl
    obtain ⟨t', g1, g2⟩ := C02_strategies_agree _ (by decide) plain _ hok (numbered_ne hlen hesne)
    refine ⟨⟨(t', (LReg.runLabels (sessionReg hist) (es.map (·.2))).2), by rw [hone _ h1, ← hids, g1]; rfl⟩, ?_⟩
    rw [hone _ h1, ← hids, g1]
    unfold normaliseRulesNaive
    rw [if_pos h1, e1]
    simp only [bind, Except.bind, hb]
    rw [show List.zipWith (fun (e : Nat × Label) id => (⟨0, e.1, id⟩ : NRule Nat)) es ((sessionReg hist).runLabels (es.map fun x => x.2)).1 =
      numbered es ids from rfl]
    rw [g2]; rfl

/-! ### The loop over the paths -/

/-- The loop with the numbers already looked up. -/
def pathsLoop : List (Nat × Option (Option Label) × Option (Option Label)) → Except PyErr Bool
  | [] => .ok true
  | (wc, left, right) :: rest => do
    let m ← wildcardToMatch wc
    if ← comparePath m left right then pathsLoop rest else return false

theorem comparePaths_decoded (reg : LReg) : ∀ (L : List (Nat × Nat)) l,
    (L.mapM fun x => do
      let l ← reg.action (Cudd.decode x.2).1
      let rr ← reg.action (Cudd.decode x.2).2
      return (x.1, l, rr) : Except PyErr (List (Nat × Option (Option Label) × Option (Option Label)))) = .ok l →
    comparePaths reg L = pathsLoop l ∧ l.map (·.1) = L.map (·.1)
  | [], l, h => by cases h; exact ⟨rfl, rfl⟩
  | (wc, t) :: L, l, h => by
    rw [List.mapM_cons] at h
    cases e1 : reg.action (Cudd.decode t).1 with
    | error x => simp [e1, bind, Except.bind] at h
    | ok a =>
      cases e2 : reg.action (Cudd.decode t).2 with
      | error x => simp [e1, e2, bind, Except.bind] at h
      | ok b =>
        simp only [e1, e2, bind, Except.bind, pure, Except.pure] at h
        split at h
        · cases h
        · next l' hl' =>
          injection h with h
          subst h
          obtain ⟨i1, i2⟩ := comparePaths_decoded reg L l' hl'
          refine ⟨?_, by simp [i2]⟩
          simp only [comparePaths, pathsLoop, e1, e2, bind, Except.bind, i1]

theorem pathsLoop_true : ∀ {l}, pathsLoop l = .ok true → ∀ x ∈ l, ∃ m, wildcardToMatch x.1 = .ok m ∧ comparePath m x.2.1 x.2.2 = .ok true
  | [], _ => by simp
  | (wc, a, b) :: l, h => by
    simp only [pathsLoop, bind, Except.bind] at h
    split at h
    · cases h
    · next m hm =>
      split at h
      · cases h
      · next v hv =>
        cases v with
        | false => simp [pure, Except.pure] at h
        | true =>
          simp only [if_true] at h
          intro x hx
          rcases List.mem_cons.1 hx with rfl | hx
          · exact ⟨m, hm, hv⟩
          · exact pathsLoop_true h x hx

theorem pathsLoop_total : ∀ {l}, (∀ x ∈ l, ∃ m b, wildcardToMatch x.1 = .ok m ∧ comparePath m x.2.1 x.2.2 = .ok b) → ∃ b, pathsLoop l = .ok b
  | [], _ => ⟨true, rfl⟩
  | (wc, a, b) :: l, h => by
    obtain ⟨c, hc⟩ := pathsLoop_total fun x hx => h x (List.mem_cons_of_mem _ hx)
    obtain ⟨m, d, h1, h2⟩ := h _ List.mem_cons_self
    simp only [pathsLoop, h1, bind, Except.bind, h2, hc]
    cases d
    · exact ⟨false, rfl⟩
    · exact ⟨c, rfl⟩

/-! ### The fully matched fields of a path -/

theorem matchSets_noOp {wc : Nat} (hv : WcValid totBits wc) (hf : FreeBelow (fieldPos 39) wc) :
    ∃ m, wildcardToMatch wc = .ok m ∧ ∀ p : Pkt, p.Sized → Covers totBits wc p.hdr → NoOp (matchSets m) p := by
  obtain ⟨m, h1, h2, h3, -, h5, h6⟩ := wildcardToMatch_ok hv (padFull_of_free hf)
  refine ⟨m, h1, fun p hp hc a ha => ?_⟩
  have hlt : ∀ x ∈ m.items, x.1 < 56 := fun x hx => (h5 x hx).1
  have hall := (covers_toWildcard hlt h6 p.hdr).1 hc
  unfold matchSets at ha
  obtain ⟨x, hx, rfl⟩ := List.mem_map.1 ha
  obtain ⟨hxm, hxn⟩ := List.mem_filter.1 hx
  have h40 : x.1 < 40 := fieldsOf_outer hf x (h3 ▸ hxm)
  refine ⟨x.1, x.2.1, rfl, h40, ?_⟩
  apply Nat.eq_of_testBit_eq
  intro i
  by_cases hi : i < width x.1
  · have := hall x hxm i hi (fun mm hmm => by rw [hmm] at hxn; cases hxn)
    rw [hdr_bit p (hlt x hxm) hi] at this
    rw [← this]
    simp [shown, h40]
  · rw [Nat.testBit_lt_two_pow (lt_of_lt_of_le (hp x.1 h40) (Nat.pow_le_pow_right (by omega) (by omega))),
      Nat.testBit_lt_two_pow (lt_of_lt_of_le (h5 x hxm).2.1 (Nat.pow_le_pow_right (by omega) (by omega)))]

/-! ### A packet for every path -/

/-- The field of a bit above the inner headers. -/
theorem field_of_bit {k : Nat} (h1 : fieldPos 39 ≤ k) (h2 : k < totBits) : ∃ f, f < 40 ∧ fieldPos f ≤ k ∧ k < fieldPos f + width f := by
  have key : ∀ j f, f + j = 39 → k < fieldPos f + width f → ∃ g, g < 40 ∧ fieldPos g ≤ k ∧ k < fieldPos g + width g := by
    intro j
    induction j with
    | zero =>
      intro f hf hk
      obtain rfl : f = 39 := by omega
      exact ⟨39, by omega, h1, hk⟩
    | succ j ih =>
      intro f hf hk
      by_cases hle : fieldPos f ≤ k
      · exact ⟨f, by omega, hle, hk⟩
      · have := fieldPos_step f (by omega)
        exact ih (f + 1) (by omega) (by omega)
  exact key 39 0 rfl (by rw [fieldPos_first]; exact h2)

/-- A packet with given header bits, without inner headers. -/
def pktOf (q : Packet) : Pkt where
  fld f d := if d = 0 then Nat.ofBits fun i : Fin (width f) => q (fieldPos f + i) else 0
  ipcp _ := 0
  mplsN := 0
  mttl _ := 0
  nwTtl := 0
  queue := 0

theorem pktOf_sized (q : Packet) : (pktOf q).Sized := by
  intro f _
  simp only [pktOf, if_true]
  exact Nat.ofBits_lt_two_pow _

theorem pktOf_hdr (q : Packet) {k : Nat} (h1 : fieldPos 39 ≤ k) (h2 : k < totBits) : (pktOf q).hdr k = q k := by
  obtain ⟨f, f1, f2, f3⟩ := field_of_bit h1 h2
  have := hdr_bit (pktOf q) (g := f) (i := k - fieldPos f) (by omega) (by omega)
  unfold Packet.bit at this
  rw [show fieldPos f + (k - fieldPos f) = k by omega] at this
  rw [this]
  simp only [shown, if_pos f1, pktOf, if_true]
  rw [Nat.testBit_ofBits_lt _ _ (by omega)]
  change q _ = q _
  congr 1
  change fieldPos f + (k - fieldPos f) = k
  omega

theorem exists_covered {wc : Nat} (hv : WcValid totBits wc) (hf : FreeBelow (fieldPos 39) wc) :
    ∃ p : Pkt, p.Sized ∧ Covers totBits wc p.hdr := by
  obtain ⟨q, hq⟩ := exists_covers hv.2
  refine ⟨pktOf q, pktOf_sized q, (covers_free hf fun i h1 h2 => ?_).2 hq⟩
  exact pktOf_hdr q h1 h2

end OFE
