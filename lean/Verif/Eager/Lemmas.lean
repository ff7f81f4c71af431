import Verif.Eager.Spec
import Verif.Check.Lemmas

/-!
# Lemmas for the eager treatment of set-fields
-/

namespace OFE
open DD

/-! ### Combinations -/

theorem mem_combinations {α : Type} {k : Nat} {l c : List α} : c ∈ combinations k l ↔ c.Sublist l ∧ c.length = k := by
  induction l generalizing k c with
  | nil =>
    cases k with
    | zero => simp [combinations]
    | succ k =>
      simp only [combinations, List.not_mem_nil, false_iff, not_and]
      intro h
      rw [List.sublist_nil.1 h]; simp
  | cons x xs ih =>
    cases k with
    | zero =>
      simp only [combinations, List.mem_singleton, List.length_eq_zero_iff]
      exact ⟨fun h => ⟨by rw [h]; exact List.nil_sublist _, h⟩, And.right⟩
    | succ k =>
      simp only [combinations, List.mem_append, List.mem_map, ih]
      constructor
      · rintro (⟨d, ⟨h1, h2⟩, rfl⟩ | ⟨h1, h2⟩)
        · exact ⟨h1.cons_cons x, by simp [h2]⟩
        · exact ⟨h1.cons x, h2⟩
      · rintro ⟨h1, h2⟩
        cases h1 with
        | cons _ h => exact .inr ⟨h, h2⟩
        | cons_cons _ h => exact .inl ⟨_, ⟨h, by simpa using h2⟩, rfl⟩

/-- All combinations, the long ones first. -/
def allCombos (sets : List (Nat × Nat)) : List (List (Nat × Nat)) :=
  ((List.range sets.length).map fun i => sets.length - i).flatMap fun k => combinations k sets

theorem mem_allCombos {sets c : List (Nat × Nat)} : c ∈ allCombos sets ↔ c.Sublist sets ∧ c ≠ [] := by
  unfold allCombos
  simp only [List.mem_flatMap, List.mem_map, List.mem_range, mem_combinations]
  constructor
  · rintro ⟨k, ⟨i, hi, rfl⟩, h1, h2⟩
    refine ⟨h1, ?_⟩
    rintro rfl
    simp at h2; omega
  · rintro ⟨h1, h2⟩
    have := h1.length_le
    have := List.length_pos_iff.2 h2
    exact ⟨c.length, ⟨sets.length - c.length, by omega, by omega⟩, h1, rfl⟩

theorem allCombos_sorted (sets : List (Nat × Nat)) : (allCombos sets).Pairwise fun a b => b.length ≤ a.length := by
  unfold allCombos
  rw [List.pairwise_flatMap]
  constructor
  · intro k _
    refine List.Pairwise.imp_of_mem (R := fun _ _ => True) (fun {a b} ha hb _ => ?_) (List.pairwise_of_forall fun _ _ => trivial)
    rw [(mem_combinations.1 ha).2, (mem_combinations.1 hb).2]
  · rw [List.pairwise_map]
    refine List.Pairwise.imp ?_ (List.pairwise_lt_range (n := sets.length))
    intro i j hij a ha b hb
    rw [(mem_combinations.1 ha).2, (mem_combinations.1 hb).2]
    omega

theorem mem_setPairs {L : Label} {f v : Nat} : (f, v) ∈ setPairs L ↔ ∃ x ∈ L, Action.setField f v ∈ x.2 := by
  have key : ∀ l : List (Nat × Nat), (f, v) ∈ l.foldr List.insert [] ↔ (f, v) ∈ l := by
    intro l
    induction l with
    | nil => simp
    | cons y l ih => rw [List.foldr_cons, List.mem_insert_iff, ih, List.mem_cons]
  unfold setPairs
  rw [key]
  simp only [List.mem_flatMap, List.mem_filterMap]
  constructor
  · rintro ⟨x, hx, a, ha, h⟩
    cases a <;> simp at h
    obtain ⟨rfl, rfl⟩ := h
    exact ⟨x, hx, ha⟩
  · rintro ⟨x, hx, ha⟩
    exact ⟨x, hx, _, ha, rfl⟩

theorem setPairs_nodup (L : Label) : (setPairs L).Nodup := by
  unfold setPairs
  generalize L.flatMap _ = l
  induction l with
  | nil => exact List.nodup_nil
  | cons y l ih => rw [List.foldr_cons]; exact ih.insert

/-! ### Wildcards -/

theorem totBits_eq : bytesNeeded * 8 = totBits := by decide +kernel

/-- A wildcard that is empty or leaves the bits below the OpenFlow fields open. -/
def ZeroOrFree (w : Nat) : Prop := w = 0 ∨ FreeBelow (fieldPos 39) w

theorem zeroOrFree_intersect {a b : Nat} (ha : ZeroOrFree a) (hb : ZeroOrFree b) : ZeroOrFree (wcIntersect totBits a b) := by
  by_cases h : wcIntersect totBits a b = 0
  · exact .inl h
  right
  have e : wcIntersect totBits a b = a &&& b := by
    unfold wcIntersect at h ⊢
    simp only at h ⊢
    split at h
    · exact absurd rfl h
    · rename_i h'; rw [if_neg h']
  have hne : a &&& b ≠ 0 := e ▸ h
  rw [e]
  rcases ha with rfl | ha
  · simp at hne
  rcases hb with rfl | hb
  · simp at hne
  intro i hi
  simp [(ha i hi).1, (ha i hi).2, (hb i hi).1, (hb i hi).2]

theorem comboWildcard_spec {c : List (Nat × Nat)} (hc : ∀ x ∈ c, x.1 < 40) :
    ∃ w, comboWildcard c = .ok w ∧ ZeroOrFree w ∧ ∀ q, Covers totBits w q ↔ ∀ x ∈ c, MatchesField q (x.1, x.2, none) := by
  have step : ∀ (c : List (Nat × Nat)) (w0 : Nat), ZeroOrFree w0 → (∀ x ∈ c, x.1 < 40) →
      ∃ w, c.foldlM (fun sf (x : Nat × Nat) => do
        let wc ← (Match.empty.append x.1 x.2 none).getWildcard
        return wcIntersect (bytesNeeded * 8) sf wc.1) w0 = .ok w ∧ ZeroOrFree w ∧
        ∀ q, Covers totBits w q ↔ Covers totBits w0 q ∧ ∀ x ∈ c, MatchesField q (x.1, x.2, none) := by
    intro c
    induction c with
    | nil => intro w0 h0 _; exact ⟨w0, rfl, h0, by simp⟩
    | cons x c ih =>
      intro w0 h0 hc
      have hi : (Match.empty.append x.1 x.2 none).Inv := inv_append inv_empty _ _ _
      have hit : (Match.empty.append x.1 x.2 none).items = [(x.1, x.2, none)] := by
        simp only [Match.append, Match.empty, dictSet]
        congr 3
        unfold normValue
        split
        · rename_i h; cases h
        · rfl
      have hk : ∀ y ∈ (Match.empty.append x.1 x.2 none).items, y.1 < 40 := by
        rw [hit]; intro y hy
        rw [List.mem_singleton.1 hy]
        exact hc x List.mem_cons_self
      obtain ⟨w, m', e1, e2, e3⟩ := Deps.getWildcard_spec hi fun y hy => by have := hk y hy; omega
      have hfree : FreeBelow (fieldPos 39) w := by
        have := getWildcard_eq hi
        rw [e1] at this
        exact freeBelow_match hk this.symm
      obtain ⟨w', g1, g2, g3⟩ := ih (wcIntersect totBits w0 w) (zeroOrFree_intersect h0 (.inr hfree)) fun y hy => hc y (List.mem_cons_of_mem _ hy)
      refine ⟨w', ?_, g2, fun q => ?_⟩
      · rw [List.foldlM_cons, e1]
        simp only [bind, Except.bind, pure, Except.pure] at g1 ⊢
        rw [totBits_eq] at g1 ⊢
        exact g1
      · rw [g3, covers_wcIntersect (by decide), e3, hit]
        simp [MatchesAll, and_assoc]
  obtain ⟨w0, m', e1, e2, e3⟩ := Deps.getWildcard_spec inv_empty (by simp [Match.empty])
  have hfree : FreeBelow (fieldPos 39) w0 := by
    have := getWildcard_eq inv_empty
    rw [e1] at this
    exact freeBelow_match (by simp [Match.empty]) this.symm
  obtain ⟨w, g1, g2, g3⟩ := step c w0 (.inr hfree) hc
  refine ⟨w, ?_, g2, fun q => ?_⟩
  · unfold comboWildcard
    rw [e1]
    exact g1
  · rw [g3, e3]
    simp [MatchesAll, Match.empty]

theorem matchesField_exact {p : Pkt} (hp : p.Sized) {f v : Nat} (hf : f < 40) (hv : v < 2 ^ width f) :
    MatchesField p.hdr (f, v, none) ↔ p.fld f 0 = v := by
  have hb : ∀ i, i < width f → p.hdr.bit f i = (p.fld f 0).testBit i := by
    intro i hi
    rw [hdr_bit p (by omega) hi]
    simp only [shown, if_pos hf]
  constructor
  · intro h
    apply Nat.eq_of_testBit_eq
    intro i
    by_cases hi : i < width f
    · rw [← hb i hi]; exact h i hi (by simp)
    · rw [Nat.testBit_lt_two_pow (Nat.lt_of_lt_of_le (hp f hf) (Nat.pow_le_pow_right (by omega) (by omega))),
        Nat.testBit_lt_two_pow (Nat.lt_of_lt_of_le hv (Nat.pow_le_pow_right (by omega) (by omega)))]
  · intro h i hi _
    simp only at hi ⊢
    rw [hb i hi, h]

/-! ### Actions -/

/-- The filter of `dropSets`. -/
def keeps (c : List (Nat × Nat)) : Action → Bool
  | .setField f v => !c.contains (f, v)
  | _ => true

theorem dropSets_eq (c : List (Nat × Nat)) (L : Label) : dropSets c L = L.map fun x => (x.1, x.2.filter (keeps c)) := by
  rfl

theorem act_set_same (f : Nat) (p : Pkt) : @act rawWrites (.setField f (p.fld f 0)) p = p := by
  simp only [act]
  have : (fun g d => if g = f ∧ d = 0 then p.fld f 0 else p.fld g d) = p.fld := by
    funext g d
    split
    · next e => rw [e.1, e.2]
    · rfl
  show { p with fld := fun g d => if g = f ∧ d = 0 then p.fld f 0 else p.fld g d } = p
  rw [this]

/-- Something that does not interfere with set-fields of a field leaves the field as it is. -/
theorem act_keeps_field {f v : Nat} {b : Action} (h : depends (.setField f v) b = .ok false) (p : Pkt) :
    (@act rawWrites b p).fld f 0 = p.fld f 0 := by
  have h' : depends (.setField f (p.fld f 0)) b = .ok false := by
    rw [← h]; exact depends_slot rfl
  have e := @set_comm rawWrites f (p.fld f 0) b h' p
  rw [act_set_same f p] at e
  have := congrArg (fun q : Pkt => q.fld f 0) e
  have h2 : p.fld f 0 = (@act rawWrites b p).fld f 0 := by
    rw [← this]
    show p.fld f 0 = (if f = f ∧ 0 = 0 then p.fld f 0 else (@act rawWrites b p).fld f 0)
    simp
  exact h2.symm

theorem act_emits {a : Action} (h : a.emits = true) (p : Pkt) : @act rawWrites a p = p := by
  cases a <;> simp [Action.emits] at h <;> rfl

/-- Set-fields that change nothing can be left out of a list that sets each field at most once. -/
theorem exec_keeps {c : List (Nat × Nat)} : ∀ {t : List Action} {p : Pkt}, FreeSets t → (t.filterMap Action.setF).Nodup →
    (∀ f v, Action.setField f v ∈ t → (f, v) ∈ c → p.fld f 0 = v) → @exec rawWrites (t.filter (keeps c)) p = @exec rawWrites t p := by
  intro t
  induction t with
  | nil => intro p _ _ _; rfl
  | cons a t ih =>
    intro p hf hn hc
    have hf' : FreeSets t := fun f v h b hb => hf f v (List.mem_cons_of_mem _ h) b (List.mem_cons_of_mem _ hb)
    have hn' : (t.filterMap Action.setF).Nodup := by
      cases ha : a.setF with
      | none => rw [List.filterMap_cons_none ha] at hn; exact hn
      | some f => rw [List.filterMap_cons_some ha] at hn; exact (List.nodup_cons.1 hn).2
    by_cases hk : keeps c a = true
    · rw [List.filter_cons_of_pos hk]
      simp only [exec]
      rw [ih hf' hn' fun f v h hm => ?_]
      have h0 := hc f v (List.mem_cons_of_mem _ h) hm
      by_cases he : a.emits = true
      · rw [act_emits he]; exact h0
      · have hne : a.setF ≠ some f := by
          intro ha
          rw [List.filterMap_cons_some ha] at hn
          exact (List.nodup_cons.1 hn).1 (List.mem_filterMap.2 ⟨_, h, rfl⟩)
        rw [act_keeps_field (hf f v (List.mem_cons_of_mem _ h) a List.mem_cons_self (by simpa using he) hne), h0]
    · rw [List.filter_cons_of_neg hk]
      cases a with
      | setField f v =>
        simp only [keeps, Bool.not_eq_true', Bool.not_eq_false, List.contains_iff_mem] at hk
        have h0 := hc f v List.mem_cons_self hk
        subst h0
        rw [ih hf' hn' fun g w h hm => hc g w (List.mem_cons_of_mem _ h) hm]
        simp only [exec, act_set_same]
        rfl
      | _ => simp [keeps] at hk

/-- In a list without interference, no set-field that is kept is followed by one of the same field. -/
theorem overwritten_false {f v : Nat} {xs : List Action}
    (hf : ∀ a ∈ xs, a.emits = false → a.setF ≠ some f → depends (.setField f v) a = .ok false)
    (ho : xs.Pairwise fun a b => a.emits = true → b.emits = true) (h : overwritten (.setField f v) f xs = .ok false) :
    ∀ a ∈ xs, a.setF ≠ some f := by
  induction xs with
  | nil => simp
  | cons x xs ih =>
    rw [overwritten] at h
    split at h
    · cases h
    rename_i hx
    have ho' := List.pairwise_cons.1 ho
    cases he : x.emits with
    | true =>
      intro a ha
      rcases List.mem_cons.1 ha with rfl | ha
      · exact hx
      · have := ho'.1 a ha he
        cases a <;> simp_all [Action.emits, Action.setF]
    | false =>
      rw [hf x List.mem_cons_self he hx] at h
      intro a ha
      rcases List.mem_cons.1 ha with rfl | ha
      · exact hx
      · exact ih (fun b hb => hf b (List.mem_cons_of_mem _ hb)) ho'.2 h a ha

theorem phase3_unique {s s' : List Action} (hk : AllKnown s) (hf : FreeSets s) (ho : s.Pairwise fun a b => a.emits = true → b.emits = true)
    (h : phase3 s = .ok s') : (s'.filterMap Action.setF).Nodup := by
  induction s generalizing s' with
  | nil => cases h; exact List.nodup_nil
  | cons a xs ih =>
    have hk' : AllKnown xs := fun x hx => hk x (List.mem_cons_of_mem _ hx)
    obtain ⟨ys, h1, h2, -⟩ := phase3_spec hk'
    have hn := ih hk' (fun f v h b hb => hf f v (List.mem_cons_of_mem _ h) b (List.mem_cons_of_mem _ hb)) (List.pairwise_cons.1 ho).2 h1
    rw [phase3] at h
    split at h
    · rename_i ha
      rw [h1] at h
      cases h
      rw [List.filterMap_cons_none ha]
      exact hn
    · rename_i f ha
      have : ∃ v, a = .setField f v := by cases a <;> simp [Action.setF] at ha; subst ha; exact ⟨_, rfl⟩
      obtain ⟨v, rfl⟩ := this
      obtain ⟨b, hb⟩ := overwritten_known (v := v) (by simpa [Action.known] using hk _ List.mem_cons_self) hk'
      rw [hb, h1] at h
      simp only [bind, Except.bind, pure, Except.pure] at h
      cases b with
      | true => cases h; exact hn
      | false =>
        cases h
        have hno := overwritten_false (fun a ha => hf f v List.mem_cons_self a (List.mem_cons_of_mem _ ha))
          (List.pairwise_cons.1 ho).2 hb
        simp only [Bool.false_eq_true, if_false]
        rw [List.filterMap_cons_some ha, List.nodup_cons]
        refine ⟨fun hm => ?_, hn⟩
        obtain ⟨a, h3, h4⟩ := List.mem_filterMap.1 hm
        exact hno a (h2.subset h3) h4

theorem FreeSets.of_subset {s t : List Action} (h : FreeSets s) (hs : ∀ a ∈ t, a ∈ s) : FreeSets t :=
  fun f v hv a ha => h f v (hs _ hv) a (hs a ha)

theorem emits_last {s : List Action} (hk : AllKnown s) (hout : s.Pairwise fun a b => a.emits = true → b.emits = true) :
    (mkList s).iter.Pairwise fun a b => a.emits = true → b.emits = true := by
  have ht := mkList_iter_trace s
  rw [List.pairwise_iff_forall_sublist]
  intro a b hab hae
  cases hbe : b.emits with
  | true => rfl
  | false =>
    exfalso
    have hbm : b ∈ s := ht.perm.mem_iff.2 (hab.subset (by simp))
    have hd := depends_out hae hbe (hk b hbm)
    have hf := ht.filter_pair dependsB_symm a b (by simp [dependsB, hd])
    have h1 : [a, b].Sublist ((mkList s).iter.filter fun z => decide (z = a ∨ z = b)) := by
      have := hab.filter fun z => decide (z = a ∨ z = b)
      simpa using this
    rw [← hf] at h1
    have h2 : [a, b].Sublist s := h1.trans List.filter_sublist
    have := (List.pairwise_iff_forall_sublist.1 hout) h2 hae
    rw [hbe] at this; cases this

/-- The lists of the per-output view set each field at most once. -/
theorem removeRedundant_unique {s : List Action} {l : ActionList} (hk : AllKnown s) (hf : FreeSets s)
    (hout : s.Pairwise fun a b => a.emits = true → b.emits = true) (h : (mkList s).removeRedundant = .ok l) : (l.iter.filterMap Action.setF).Nodup := by
  have hp := (mkList_iter_trace s).perm
  have hm : ∀ x ∈ (mkList s).iter, x ∈ s := fun x hx => hp.mem_iff.2 hx
  have hki : AllKnown (mkList s).iter := fun x hx => hk x (hm x hx)
  have hoi := emits_last hk hout
  obtain ⟨h1, -, -⟩ := phase1_spec (mkList s).iter.length (mkList s).iter (Nat.le_refl _)
  have h4 := phase2_sublist (phase1 (mkList s).iter.length (mkList s).iter)
  have hsub := h4.trans h1
  have hk2 : AllKnown (phase2 (phase1 (mkList s).iter.length (mkList s).iter)).2 := fun x hx => hki x (hsub.subset hx)
  obtain ⟨s', h5, h6, -⟩ := phase3_spec hk2
  have hu := phase3_unique hk2 ((hf.of_subset hm).of_subset fun a ha => hsub.subset ha) (hoi.sublist hsub) h5
  unfold ActionList.removeRedundant ActionList.replace at h
  simp only [h5] at h
  change ActionList.ofList s' = .ok l at h
  have hl := ofList_ok h
  subst hl
  exact (((mkList_iter_trace s').perm.filterMap _).nodup_iff).1 hu

theorem perOutputItems_mem : ∀ {l : List (OutKey × ActionList)} {items}, perOutputItems l = .ok items → ∀ x ∈ items,
    ∃ y ∈ l, y.1 = x.1 ∧ ∃ v, y.2.removeRedundant = .ok v ∧ x.2 = v.iter
  | [], _, h => by cases h; simp
  | (k, v) :: rest, items, h => by
    simp only [perOutputItems, bind, Except.bind] at h
    split at h
    · cases h
    rename_i r hr
    split at h
    · cases h
    rename_i rs hrs
    cases h
    intro x hx
    rcases List.mem_cons.1 hx with rfl | hx
    · exact ⟨_, List.mem_cons_self, rfl, r, hr, rfl⟩
    · obtain ⟨y, h1, h2⟩ := perOutputItems_mem hrs x hx
      exact ⟨y, List.mem_cons_of_mem _ h1, h2⟩

/-- Per port, each field is set at most once. -/
theorem perOutput_unique {s : List Action} (h : ModsOK s) (hn : (s.filterMap Action.portOf).Nodup) (hf : FreeSets s)
    {items : List (OutKey × List Action)} (e : (mkList s).perOutput = .ok items) : ∀ x ∈ items, (x.2.filterMap Action.setF).Nodup := by
  have hp := (mkList_iter_trace s).perm
  have hi : ModsOK (mkList s).iter := h.perm fun x hx => hp.mem_iff.2 hx
  have hni : ((mkList s).iter.filterMap Action.portOf).Nodup := (hp.filterMap _).nodup_iff.1 hn
  have hloop := perOutputLoop_ok (mkList s).iter hi.known hi.nogroup [] (by simp [AllKnown]) [] hni (by simp)
  rw [List.nil_append, List.nil_append] at hloop
  unfold ActionList.perOutput ActionList.perOutputPt ActionList.perOutputList at e
  rw [show ActionList.empty = mkList [] from rfl, hloop] at e
  simp only [bind, Except.bind, pure, Except.pure] at e
  rw [dictSet_new _ (by simp)] at e
  split at e
  · cases e
  rename_i its hits
  cases e
  intro x hx
  obtain ⟨hx, hx2⟩ := List.mem_filter.1 hx
  obtain ⟨y, h1, h2, v, h3, h4⟩ := perOutputItems_mem hits x hx
  rw [h4]
  have hs : ∀ a ∈ (mkList s).iter, a ∈ s := fun a ha => hp.mem_iff.2 ha
  have ms_ne : ∀ ms : List Action, (∀ a ∈ ms, a ∈ (mkList s).iter ∧ a.portOf = none) → ∀ a ∈ ms, a.emits = false := by
    intro ms hms a ha
    obtain ⟨h1, h2⟩ := hms a ha
    have := hi.nogroup
    cases a <;> simp_all [Action.emits, Action.portOf]
  rcases List.mem_append.1 h1 with h1 | h1
  · obtain ⟨z, hz, rfl⟩ := List.mem_map.1 h1
    obtain ⟨o1, o2⟩ := outsOf_mem hz
    have o1' : ∀ a ∈ z.2, a ∈ (mkList s).iter ∧ a.portOf = none := fun a ha => (o1 a ha).resolve_left (by simp)
    have hsub : ∀ a ∈ z.2 ++ [.output z.1], a ∈ s := by
      intro a ha
      rcases List.mem_append.1 ha with ha | ha
      · exact hs a (o1' a ha).1
      · rw [List.mem_singleton.1 ha]; exact hs _ o2
    refine removeRedundant_unique (fun a ha => h.known a (hsub a ha)) (hf.of_subset hsub) ?_ h3
    refine List.pairwise_append.2 ⟨?_, by simp, fun a ha b hb he => ?_⟩
    · exact List.Pairwise.imp_of_mem (R := fun _ _ => True) (fun {a b} ha _ _ he => by rw [ms_ne _ o1' a ha] at he; cases he)
        (List.pairwise_of_forall (fun _ _ => trivial))
    · rw [ms_ne _ o1' a ha] at he; cases he
  · exfalso
    rw [List.mem_singleton.1 h1] at h2
    simp only at h2
    simp [← h2] at hx2

/-! ### The expansion of a rule -/

/-- What is known about the expansion of a rule. -/
structure ExpandOf {π : Type} (r : Rule π) (es : List (Nat × Label)) : Prop where
  valid : ∀ e ∈ es, WcValid totBits e.1 ∧ FreeBelow (fieldPos 39) e.1
  covers : ∀ p : Pkt, (∃ e ∈ es, Covers totBits e.1 p.hdr) ↔ r.mat.accepts p
  label : ∃ l L, r.inst.fullActions = .ok l ∧ r.label = .ok L ∧ LabelOf l L ∧
    ∀ p : Pkt, p.Sized → (r.mat.accepts p → FirstMatch totBits p.hdr es (some (stripNoOps p L))) ∧
      ∀ e ∈ es, Covers totBits e.1 p.hdr → (emitted e.2 p).Perm (exec l.iter p).2

theorem exec_filter {t : List Action} {c : List (Nat × Nat)} {p : Pkt} (hf : FreeSets t) (hu : (t.filterMap Action.setF).Nodup)
    (hv : ∀ v, Action.setField 6 v ∈ t → 0x1000 ||| v = v) (hc : ∀ f v, Action.setField f v ∈ t → (f, v) ∈ c → p.fld f 0 = v) :
    exec (t.filter (keeps c)) p = exec t p := by
  rw [← exec_raw hv, ← exec_keeps hf hu hc, exec_raw]
  intro v h
  exact hv v (List.mem_filter.1 h).1

theorem mapM_forall2 {α β : Type} {f : α → Except PyErr β} {R : α → β → Prop} {l : List α} (h : ∀ a ∈ l, ∃ b, f a = .ok b ∧ R a b) :
    ∃ bs, l.mapM f = .ok bs ∧ List.Forall₂ R l bs := by
  induction l with
  | nil => exact ⟨[], rfl, .nil⟩
  | cons a l ih =>
    obtain ⟨b, h1, h2⟩ := h a List.mem_cons_self
    obtain ⟨bs, h3, h4⟩ := ih fun x hx => h x (List.mem_cons_of_mem _ hx)
    exact ⟨b :: bs, by rw [List.mapM_cons, h1, h3]; rfl, .cons h2 h4⟩

/-- What a combination gives. -/
structure ComboOf {π : Type} (r : Rule π) (L : Label) (c : List (Nat × Nat)) (x : Option (Nat × Label)) : Prop where
  hit : ∀ e, x = some e → WcValid totBits e.1 ∧ FreeBelow (fieldPos 39) e.1 ∧ e.2 = dropSets c L ∧
    ∀ q, Covers totBits e.1 q ↔ MatchesAll r.mat.items q ∧ ∀ y ∈ c, MatchesField q (y.1, y.2, none)
  miss : x = none → ∀ q, ¬ (MatchesAll r.mat.items q ∧ ∀ y ∈ c, MatchesField q (y.1, y.2, none))

theorem comboEntry_spec {π : Type} {r : Rule π} (h : RuleOK r) {L : Label} {c : List (Nat × Nat)} (hc : ∀ x ∈ c, x.1 < 40) :
    ∃ x, comboEntry r.mat L c = .ok x ∧ ComboOf r L c x := by
  obtain ⟨sf, a1, a2, a3⟩ := comboWildcard_spec hc
  obtain ⟨w, m', f1, f2, f3⟩ := Deps.getWildcard_spec h.inv fun x hx => by have := h.keys x hx; omega
  have hfree : FreeBelow (fieldPos 39) w := by
    have := getWildcard_eq h.inv
    rw [f1] at this
    exact freeBelow_match h.keys this.symm
  have hcov : ∀ q, Covers totBits (wcIntersect totBits w sf) q ↔ MatchesAll r.mat.items q ∧ ∀ y ∈ c, MatchesField q (y.1, y.2, none) := by
    intro q
    rw [covers_wcIntersect (by decide), f3, a3]
  refine ⟨if wcIntersect totBits w sf = 0 then none else some (wcIntersect totBits w sf, dropSets c L), ?_, ?_⟩
  · unfold comboEntry
    rw [a1, f1]
    simp only [bind, Except.bind, pure, Except.pure, totBits_eq]
  · by_cases h0 : wcIntersect totBits w sf = 0
    · rw [if_pos h0]
      refine ⟨fun e he => (by cases he), fun _ q hq => ?_⟩
      rw [← hcov, h0] at hq
      have := hq 0 (by decide)
      simp at this
    · rw [if_neg h0]
      refine ⟨fun e he => ?_, fun he => (by cases he)⟩
      cases he
      exact ⟨wcValid_wcIntersect f2 h0, (zeroOrFree_intersect (.inr hfree) a2).resolve_left h0, rfl, hcov⟩

/-- The first entry for a packet is the one of the largest combination that changes nothing. -/
theorem firstMatch_combos {π : Type} {r : Rule π} {L : Label} {p : Pkt} (hacc : r.mat.accepts p) {w : Nat} (hw : Covers totBits w p.hdr)
    {N : List (Nat × Nat)} (hN : ∀ y ∈ N, MatchesField p.hdr (y.1, y.2, none)) :
    ∀ {cs : List (List (Nat × Nat))} {xs : List (Option (Nat × Label))}, List.Forall₂ (ComboOf r L) cs xs →
      cs.Pairwise (fun a b => b.length ≤ a.length) → (∀ c ∈ cs, (∀ y ∈ c, MatchesField p.hdr (y.1, y.2, none)) → c.Sublist N) →
      (N ∈ cs ∨ N = []) → FirstMatch totBits p.hdr (xs.filterMap id ++ [(w, L)]) (some (dropSets N L)) := by
  intro cs xs h
  induction h with
  | nil =>
    intro _ _ hm
    have : N = [] := hm.resolve_left (by simp)
    subst this
    have e : dropSets [] L = L := by
      rw [dropSets_eq]
      refine (List.map_congr_left fun x _ => ?_).trans (List.map_id L)
      have : x.2.filter (keeps []) = x.2 := List.filter_eq_self.2 fun a _ => by cases a <;> rfl
      rw [this]; rfl
    rw [e]
    exact .hit hw
  | @cons c x cs xs hcx hrest ih =>
    intro hp hs hm
    have hp' := List.pairwise_cons.1 hp
    by_cases hcov : ∀ y ∈ c, MatchesField p.hdr (y.1, y.2, none)
    · have hsub := hs c List.mem_cons_self hcov
      have hcN : c = N := by
        rcases hm with hm | rfl
        · rcases List.mem_cons.1 hm with rfl | hm
          · rfl
          · exact hsub.eq_of_length_le (hp'.1 N hm)
        · exact List.sublist_nil.1 hsub
      subst hcN
      cases x with
      | none => exact absurd ⟨hacc, hcov⟩ (hcx.miss rfl p.hdr)
      | some e =>
        obtain ⟨-, -, h3, h4⟩ := hcx.hit e rfl
        rw [List.filterMap_cons_some (f := id) (a := some e) (b := e) rfl, List.cons_append, ← h3]
        exact .hit ((h4 p.hdr).2 ⟨hacc, hcov⟩)
    · have hm' : N ∈ cs ∨ N = [] := by
        rcases hm with hm | hm
        · rcases List.mem_cons.1 hm with rfl | hm
          · exact absurd hN hcov
          · exact .inl hm
        · exact .inr hm
      have := ih hp'.2 (fun d hd => hs d (List.mem_cons_of_mem _ hd)) hm'
      cases x with
      | none => rw [List.filterMap_cons_none rfl]; exact this
      | some e =>
        obtain ⟨-, -, -, h4⟩ := hcx.hit e rfl
        rw [List.filterMap_cons_some (f := id) (a := some e) (b := e) rfl, List.cons_append]
        exact .miss (fun hc => hcov ((h4 p.hdr).1 hc).2) this

theorem label_unique {π : Type} {r : Rule π} (h : EagerRule r) :
    ∃ l L, r.inst.fullActions = .ok l ∧ r.label = .ok L ∧ LabelOf l L ∧
      ∀ x ∈ L, (x.2.filterMap Action.setF).Nodup ∧ ∀ a ∈ x.2, a ∈ r.acts := by
  obtain ⟨s, e, hk, hp⟩ := fullActions_eq h.plain.ok
  have hs : PlainActs s := h.plain.acts.of_subset (fun a ha => hp.mem_iff.1 ha) ((hp.filterMap _).nodup_iff.2 h.plain.acts.ports)
  have hfree : FreeSets s := h.free.of_subset fun a ha => hp.mem_iff.1 ha
  obtain ⟨l, L, e1, e2, e3⟩ := label_spec h.plain
  refine ⟨l, L, e1, e2, e3, fun x hx => ?_⟩
  rw [e] at e1
  cases e1
  obtain ⟨items, tup, -, b, c, d, -, -, f, g⟩ := perOutput_spec s (hs.mods hk) hs.ports
  have hL : L = canonLabel items := by
    unfold Rule.label at e2
    rw [e] at e2
    simp only [bind, Except.bind, pure, Except.pure, b] at e2
    cases e2; rfl
  subst hL
  have hxi : x ∈ items := (canonLabel_perm items).mem_iff.1 hx
  exact ⟨perOutput_unique (hs.mods hk) hs.ports hfree b x hxi, fun a ha => hp.mem_iff.1 ((g x hxi).1 a ha)⟩

theorem normaliseSetFields_spec {π : Type} {r : Rule π} (h : EagerRule r) {order : List (Nat × Nat) → List (Nat × Nat)}
    (ho : ∀ l, (order l).Perm l) : ∃ es, normaliseSetFields order r = .ok es ∧ ExpandOf r es := by
  obtain ⟨l, L, e1, e2, e3, e4⟩ := label_unique h
  have hsets : ∀ x ∈ order (setPairs L), x.1 < 40 ∧ x.2 < 2 ^ width x.1 := by
    intro x hx
    obtain ⟨y, hy, ha⟩ := mem_setPairs.1 ((ho _).mem_iff.1 hx)
    have hk := (e3.tup y hy).known _ ha
    exact ⟨by simpa [Action.known] using hk, h.range _ _ ((e4 y hy).2 _ ha)⟩
  obtain ⟨xs, f1, f2⟩ := mapM_forall2 (R := ComboOf r L) (l := allCombos (order (setPairs L))) fun c hc =>
    comboEntry_spec h.plain.ok (L := L) fun x hx => (hsets x ((mem_allCombos.1 hc).1.subset hx)).1
  obtain ⟨w, m', g1, g2, g3⟩ := Deps.getWildcard_spec h.plain.ok.inv fun x hx => by have := h.plain.ok.keys x hx; omega
  have hfree : FreeBelow (fieldPos 39) w := by
    have := getWildcard_eq h.plain.ok.inv
    rw [g1] at this
    exact freeBelow_match h.plain.ok.keys this.symm
  have hentry : ∀ e ∈ xs.filterMap id, ∃ c ∈ allCombos (order (setPairs L)), ComboOf r L c (some e) := by
    intro e he
    obtain ⟨x, hx, hxe⟩ := List.mem_filterMap.1 he
    obtain rfl : x = some e := hxe
    clear f1 he
    revert hx
    generalize allCombos (order (setPairs L)) = cs at f2 ⊢
    induction f2 with
    | nil => intro hx; cases hx
    | @cons c x cs xs h1 _ ih =>
      intro hx
      rcases List.mem_cons.1 hx with rfl | hx
      · exact ⟨c, List.mem_cons_self, h1⟩
      · obtain ⟨d, h2, h3⟩ := ih hx
        exact ⟨d, List.mem_cons_of_mem _ h2, h3⟩
  refine ⟨xs.filterMap id ++ [(w, L)], ?_, ?_, ?_, l, L, e1, e2, e3, fun p hp => ⟨fun hacc => ?_, fun e he hc => ?_⟩⟩
  · unfold normaliseSetFields
    rw [e2]
    simp only [bind, Except.bind]
    rw [show (((List.range (order (setPairs L)).length).map fun i => (order (setPairs L)).length - i).flatMap fun k =>
      combinations k (order (setPairs L))) = allCombos (order (setPairs L)) from rfl, f1, g1]
    rfl
  · intro e he
    rcases List.mem_append.1 he with he | he
    · obtain ⟨c, -, hc⟩ := hentry e he
      obtain ⟨h1, h2, -⟩ := hc.hit e rfl
      exact ⟨h1, h2⟩
    · rw [List.mem_singleton.1 he]; exact ⟨g2, hfree⟩
  · intro p
    constructor
    · rintro ⟨e, he, hc⟩
      rcases List.mem_append.1 he with he | he
      · obtain ⟨c, -, hco⟩ := hentry e he
        obtain ⟨-, -, -, h4⟩ := hco.hit e rfl
        exact ((h4 _).1 hc).1
      · rw [List.mem_singleton.1 he] at hc
        exact (g3 _).1 hc
    · intro hacc
      exact ⟨(w, L), List.mem_append_right _ (List.mem_singleton.2 rfl), (g3 _).2 hacc⟩
  · have hmf : ∀ y ∈ order (setPairs L), (MatchesField p.hdr (y.1, y.2, none) ↔ p.fld y.1 0 = y.2) := fun y hy =>
      matchesField_exact hp (hsets y hy).1 (hsets y hy).2
    let N := (order (setPairs L)).filter fun y => p.fld y.1 0 == y.2
    have hNm : ∀ {y}, y ∈ N ↔ y ∈ order (setPairs L) ∧ p.fld y.1 0 = y.2 := by
      intro y
      simp only [N, List.mem_filter, beq_iff_eq]
    have hstrip : stripNoOps p L = dropSets N L := by
      rw [dropSets_eq]
      unfold stripNoOps
      refine List.map_congr_left fun x hx => ?_
      congr 1
      refine List.filter_congr fun a ha => ?_
      cases a with
      | setField f v =>
        have hm : (f, v) ∈ order (setPairs L) := (ho _).mem_iff.2 (mem_setPairs.2 ⟨x, hx, ha⟩)
        have h3 : N.contains (f, v) = (p.fld f 0 == v) := by
          rw [Bool.eq_iff_iff, List.contains_iff_mem, hNm]
          simp [hm]
        simp only [isNoOp, keeps, h3]
      | _ => rfl
    rw [hstrip]
    refine firstMatch_combos hacc ((g3 _).2 hacc) (fun y hy => ?_) f2 (allCombos_sorted _) (fun c hc hcov => ?_) ?_
    · exact (hmf y (hNm.1 hy).1).2 (hNm.1 hy).2
    · have hcs := (mem_allCombos.1 hc).1
      have h1 : c.filter (fun y => p.fld y.1 0 == y.2) = c := by
        refine List.filter_eq_self.2 fun y hy => ?_
        rw [beq_iff_eq]
        exact (hmf y (hcs.subset hy)).1 (hcov y hy)
      have := hcs.filter fun y => p.fld y.1 0 == y.2
      rw [h1] at this
      exact this
    · by_cases hN : N = []
      · exact .inr hN
      · exact .inl (mem_allCombos.2 ⟨List.filter_sublist, hN⟩)
  · rcases List.mem_append.1 he with he | he
    · obtain ⟨c, hcm, hco⟩ := hentry e he
      obtain ⟨-, -, h3, h4⟩ := hco.hit e rfl
      have hcov := ((h4 _).1 hc).2
      have hcs := (mem_allCombos.1 hcm).1
      rw [h3, dropSets_eq]
      refine List.Perm.trans (.of_eq ?_) (e3.sends p)
      unfold emitted
      rw [List.flatMap_map]
      refine List.flatMap_congr fun x hx => ?_
      have : exec (x.2.filter (keeps c)) p = exec x.2 p := by
        refine exec_filter (h.free.of_subset (e4 x hx).2) (e4 x hx).1 (e3.tup x hx).acts.vid fun f v hv hm => ?_
        have hm' := hcs.subset hm
        exact (matchesField_exact hp (hsets _ hm').1 (hsets _ hm').2).1 (hcov _ hm)
      simp only [this]
    · rw [List.mem_singleton.1 he]
      exact e3.sends p

end OFE
