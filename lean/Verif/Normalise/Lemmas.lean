import Verif.Normalise.Model
import Verif.Normalise.Spec
import Verif.Bdd.WcLemmas

set_option linter.unusedSectionVars false

namespace OFE
open DD
variable {α : Type} [DecidableEq α]

/-- The diagram of one entry (`bot` if the conversion fails). -/
def toT (n : Nat) (e : Nat × α) : DD α := (wcToDD n e.1 e.2).getD bot

theorem toT_spec {n : Nat} (hn : 0 < n) {e : Nat × α} (hw : WcValid n e.1) :
    wcToDDE n e.1 e.2 = .ok (toT n e) ∧ WF n 0 (toT n e) ∧ toT n e ≠ bot ∧
      (∀ p, (toT n e).lookup n p = some e.2 ∨ (toT n e).lookup n p = none) ∧
      (∀ p, (toT n e).lookup n p = some e.2 ↔ Covers n e.1 p) := by
  obtain ⟨t, h1, h2, h3, _, h4, h5⟩ := wcToDD_spec hn e.2 hw
  have : toT n e = t := by simp [toT, h1]
  rw [this]
  exact ⟨by simp [wcToDDE, h1], h2, h3, h4, h5⟩

theorem lookup_toT {n : Nat} (hn : 0 < n) {e : Nat × α} (hw : WcValid n e.1) (p : Packet) [Decidable (Covers n e.1 p)] :
    (toT n e).lookup n p = if Covers n e.1 p then some e.2 else none := by
  obtain ⟨_, _, _, h4, h5⟩ := toT_spec (α := α) hn hw
  split
  · next h => exact (h5 p).2 h
  · next h =>
    rcases h4 p with h' | h'
    · exact absurd ((h5 p).1 h') h
    · exact h'

theorem mapM_toT {n : Nat} (hn : 0 < n) {l : List (Nat × α)} (hw : ∀ e ∈ l, WcValid n e.1) :
    (l.mapM fun e => wcToDDE n e.1 e.2) = .ok (l.map (toT n)) := by
  induction l with
  | nil => rfl
  | cons e l ih =>
    rw [List.mapM_cons, (toT_spec hn (hw e (by simp))).1, ih fun e he => hw e (by simp [he])]
    rfl

/-- First defined value along a list of diagrams. -/
def orAll (ts : List (DD α)) (q : Nat → Bool) : Option α := ts.foldr (fun t x => (t.eval q).or x) none

theorem orAll_pairUp {n : Nat} : ∀ {ts : List (DD α)}, (∀ t ∈ ts, WF n 0 t) →
    (∀ t ∈ pairUp ts, WF n 0 t) ∧ ∀ q, orAll (pairUp ts) q = orAll ts q
  | [], _ => ⟨by simp [pairUp], fun _ => rfl⟩
  | [a], h => ⟨by simpa [pairUp] using h, fun q => by rw [pairUp]⟩
  | a :: b :: rest, h => by
    have ih := orAll_pairUp (ts := rest) fun t ht => h t (by simp [ht])
    have ha := h a (by simp)
    have hb := h b (by simp)
    refine ⟨?_, fun q => ?_⟩
    · intro t ht
      rw [pairUp, List.mem_cons] at ht
      rcases ht with rfl | ht
      · exact wf_meld ha hb
      · exact ih.1 t ht
    · have := ih.2 q
      simp only [orAll] at this ⊢
      rw [pairUp, List.foldr_cons, List.foldr_cons, List.foldr_cons, this, eval_meld ha hb, Option.or_assoc]

theorem pairLoop_spec {n : Nat} {ts : List (DD α)} (h : ∀ t ∈ ts, WF n 0 t) (hne : ts ≠ []) :
    ∃ t, pairLoop ts = [t] ∧ WF n 0 t ∧ ∀ q, t.eval q = orAll ts q := by
  induction ts using pairLoop.induct with
  | case1 ts hl ih =>
    have hp := orAll_pairUp h
    rw [pairLoop, if_pos hl]
    obtain ⟨t, h1, h2, h3⟩ := ih hp.1 (by
      intro h0
      have := pairUp_length ts
      rw [h0] at this
      simp at this
      omega)
    exact ⟨t, h1, h2, fun q => by rw [h3, hp.2]⟩
  | case2 ts hl =>
    rw [pairLoop, if_neg hl]
    match ts, hl, hne with
    | [t], _, _ => exact ⟨t, rfl, h t (by simp), fun q => by simp [orAll]⟩
    | _ :: _ :: _, hl, _ => exact absurd (by simp) hl

theorem naive_foldl {n : Nat} (hn : 0 < n) {l : List (Nat × α)} (hw : ∀ e ∈ l, WcValid n e.1) {t0 : DD α}
    (h0 : WF n 0 t0) :
    ∃ t, l.foldlM (fun bdd e => do return DD.meld bdd (← wcToDDE n e.1 e.2)) t0 = .ok t ∧ WF n 0 t ∧
      ∀ q, t.eval q = (t0.eval q).or (orAll (l.map (toT n)) q) := by
  induction l generalizing t0 with
  | nil => exact ⟨t0, rfl, h0, fun q => by simp [orAll]⟩
  | cons e l ih =>
    obtain ⟨h1, h2, _⟩ := toT_spec (α := α) hn (hw e (by simp))
    obtain ⟨t, e1, e2, e3⟩ := ih (fun e he => hw e (by simp [he])) (wf_meld h0 h2)
    refine ⟨t, ?_, e2, fun q => ?_⟩
    · rw [List.foldlM_cons, h1]
      exact e1
    · rw [e3, eval_meld h0 h2, Option.or_assoc]
      rfl

theorem orAll_firstMatch {n : Nat} (hn : 0 < n) {l : List (Nat × α)} (hw : ∀ e ∈ l, WcValid n e.1) (p : Packet) :
    FirstMatch n p l (orAll (l.map (toT n)) fun num => p (n - 1 - num)) := by
  classical
  induction l with
  | nil => exact .nil
  | cons e l ih =>
    have := ih fun e he => hw e (by simp [he])
    have hl := lookup_toT hn (hw e (by simp)) p
    simp only [lookup] at hl
    simp only [orAll, List.map_cons, List.foldr_cons] at this ⊢
    rw [hl]
    obtain ⟨wc, a⟩ := e
    by_cases hc : Covers n wc p
    · simp only [hc, if_true, Option.some_or]
      exact .hit hc
    · simp only [hc, if_false, Option.none_or]
      exact .miss hc this

theorem oneTable_iff (rules : List (NRule α)) : oneTable rules = true ↔ ∀ r ∈ rules, ∀ s ∈ rules, r.table = s.table := by
  cases rules with
  | nil => simp [oneTable]
  | cons r rs =>
    simp only [oneTable, List.all_eq_true, beq_iff_eq]
    constructor
    · intro h a ha b hb
      have key : ∀ c ∈ r :: rs, c.table = r.table := fun c hc => by
        rcases List.mem_cons.1 hc with rfl | hc
        · rfl
        · exact h c hc
      rw [key a ha, key b hb]
    · intro h s hs
      exact h s (List.mem_cons_of_mem _ hs) r List.mem_cons_self

/-- The rules are usable: one table, every wildcard well formed. -/
structure RulesOK (n : Nat) (expand : NRule α → List (Nat × α)) (rules : List (NRule α)) : Prop where
  table : ∀ r ∈ rules, ∀ s ∈ rules, r.table = s.table
  valid : ∀ e ∈ entries expand rules, WcValid n e.1

theorem normaliseDC_spec {n : Nat} (hn : 0 < n) {expand : NRule α → List (Nat × α)} {rules : List (NRule α)}
    (h : RulesOK n expand rules) (hne : entries expand rules ≠ []) :
    ∃ t, normaliseDC n expand rules = .ok t ∧ WF n 0 t ∧
      (∀ q, t.eval q = orAll ((entries expand rules).map (toT n)) q) ∧
      ∀ p, FirstMatch n p (entries expand rules) (t.lookup n p) := by
  obtain ⟨t, h1, h2, h3⟩ := pairLoop_spec (n := n) (ts := (entries expand rules).map (toT n))
    (by
      intro t ht
      obtain ⟨e, he, rfl⟩ := List.mem_map.1 ht
      exact (toT_spec hn (h.valid e he)).2.1)
    (by simpa using hne)
  refine ⟨t, ?_, h2, h3, fun p => ?_⟩
  · unfold normaliseDC
    rw [if_pos ((oneTable_iff _).2 h.table), mapM_toT hn h.valid]
    simp only [bind, Except.bind, h1]
  · rw [lookup, h3]
    exact orAll_firstMatch hn h.valid p

theorem normaliseNaive_spec {n : Nat} (hn : 0 < n) {expand : NRule α → List (Nat × α)} {rules : List (NRule α)}
    (h : RulesOK n expand rules) :
    ∃ t, normaliseNaive n expand rules = .ok t ∧ WF n 0 t ∧
      (∀ q, t.eval q = orAll ((entries expand rules).map (toT n)) q) ∧
      ∀ p, FirstMatch n p (entries expand rules) (t.lookup n p) := by
  obtain ⟨t, h1, h2, h3⟩ := naive_foldl hn h.valid (t0 := bot) trivial
  have h3' : ∀ q, t.eval q = orAll ((entries expand rules).map (toT n)) q := fun q => by
    rw [h3]; simp [eval]
  refine ⟨t, ?_, h2, h3', fun p => ?_⟩
  · unfold normaliseNaive
    rw [if_pos ((oneTable_iff _).2 h.table)]
    exact h1
  · rw [lookup, h3']
    exact orAll_firstMatch hn h.valid p

/-! ### Conflict attribution -/

/-- A diagram that only marks packets. -/
def Marks (d : α) (t : DD α) : Prop := ∀ q, t.eval q = none ∨ t.eval q = some d

theorem collectLoop_spec {π : Type} {n : Nat} (hn : 0 < n) {d : α} {rules : List (Nat × π)}
    (hw : ∀ r ∈ rules, WcValid n r.1) {rem : DD α} (hr : WF n 0 rem) (hm : Marks d rem) (acc : List (π × DD α)) :
    ∃ out rem', collectLoop n d rules rem acc = .ok (acc ++ out, rem') ∧ WF n 0 rem' ∧ Marks d rem' ∧
      (∀ x ∈ out, WF n 0 x.2 ∧ Marks d x.2 ∧ x.2 ≠ bot) ∧
      -- remaining: marked and not covered by any rule
      (∀ p, rem'.lookup n p = some d ↔ rem.lookup n p = some d ∧ ∀ r ∈ rules, ¬ Covers n r.1 p) ∧
      -- pieces: the rules' first-match regions
      (∀ p π, (∃ t, (π, t) ∈ out ∧ t.lookup n p = some d) ↔
        rem.lookup n p = some d ∧ FirstMatch n p rules (some π)) ∧
      out.Pairwise (fun x y => ¬ ∃ p, x.2.lookup n p = some d ∧ y.2.lookup n p = some d) ∧
      (out.map (·.1)).Sublist (rules.map (·.2)) := by
  induction rules generalizing rem acc with
  | nil =>
    refine ⟨[], rem, by simp [collectLoop], hr, hm, by simp, by simp, ?_, by simp, by simp⟩
    intro p π
    constructor
    · rintro ⟨t, ht, _⟩; simp at ht
    · rintro ⟨_, h⟩; cases h
  | cons r rules ih =>
    obtain ⟨wc, path⟩ := r
    obtain ⟨t1, t2, t3, t4, t5⟩ := toT_spec (α := α) hn (e := (wc, d)) (hw (wc, path) (by simp))
    simp only at t1 t4 t5
    have hwi := wf_intersection hr t2
    have hei : ∀ p, (intersection rem (toT n (wc, d))).lookup n p = some d ↔ rem.lookup n p = some d ∧ Covers n wc p := by
      intro p
      simp only [lookup] at t5 ⊢
      rw [eval_intersection hr t2, intP]
      rcases hm (fun num => p (n - 1 - num)) with h | h
      · rw [h]; split <;> simp
      · rw [h]
        split
        · next he => simp only [true_and, true_iff]; exact (t5 p).1 he.symm
        · next he =>
          simp only [true_and]
          constructor
          · intro h; cases h
          · intro hc; exact absurd ((t5 p).2 hc).symm he
    have hmi : Marks d (intersection rem (toT n (wc, d))) := by
      intro q
      rw [eval_intersection hr t2, intP]
      split
      · exact hm q
      · exact Or.inl rfl
    have hsub : ∀ q, rem.eval q = none → (intersection rem (toT n (wc, d))).eval q = none := by
      intro q hq
      rw [eval_intersection hr t2, intP, hq]
      split <;> rfl
    have hwd := wf_difference d hr hwi
    have hed : ∀ q, (difference d rem (intersection rem (toT n (wc, d)))).eval q =
        diffP d (rem.eval q) ((intersection rem (toT n (wc, d))).eval q) :=
      eval_difference_exact d hr hwi hsub
    have hmd : Marks d (difference d rem (intersection rem (toT n (wc, d)))) := by
      intro q; rw [hed, diffP]; split
      · exact Or.inl rfl
      · exact Or.inr rfl
    have hld : ∀ p, (difference d rem (intersection rem (toT n (wc, d)))).lookup n p = some d ↔
        rem.lookup n p = some d ∧ ¬ Covers n wc p := by
      intro p
      have := hei p
      simp only [lookup] at this ⊢
      rw [hed, diffP]
      rcases hm (fun num => p (n - 1 - num)) with h | h
      · rw [h, hsub _ h]; simp
      · rw [h] at this ⊢
        simp only [true_and] at this ⊢
        rw [← this]
        constructor
        · intro hh hk; rw [hk] at hh; simp at hh
        · intro hk; rw [if_neg]; exact fun h => hk h.symm
    rw [collectLoop, t1]
    have hbotmark : ∀ p, (bot : DD α).lookup n p = none := fun _ => rfl
    -- the two outcomes of the first step
    simp only [bind, Except.bind]
    by_cases hb : intersection rem (toT n (wc, d)) = bot
    · -- no packet of rem is covered
      have hnc : ∀ p, rem.lookup n p = some d → ¬ Covers n wc p := by
        intro p hp hc
        have := (hei p).2 ⟨hp, hc⟩
        rw [hb, hbotmark] at this; cases this
      simp only [hb, ne_eq, not_true_eq_false, if_false]
      by_cases hrem : rem = bot
      · subst hrem
        simp only [if_true]
        refine ⟨[], bot, by simp, trivial, hm, by simp, ?_, ?_, by simp, by simp⟩
        · intro p; simp [hbotmark]
        · intro p π
          constructor
          · rintro ⟨t, ht, _⟩; simp at ht
          · rintro ⟨h, _⟩; rw [hbotmark] at h; cases h
      · simp only [hrem, if_false]
        obtain ⟨out, rem', g1, g2, g3, g4, g5, g6, g7, g8⟩ := ih (fun r hr => hw r (by simp [hr])) hr hm acc
        refine ⟨out, rem', g1, g2, g3, g4, ?_, ?_, g7, g8.trans (by simp)⟩
        · intro p; rw [g5]
          constructor
          · rintro ⟨h1, h2⟩
            refine ⟨h1, fun r hr => ?_⟩
            rcases List.mem_cons.1 hr with rfl | hr
            · exact hnc p h1
            · exact h2 r hr
          · rintro ⟨h1, h2⟩; exact ⟨h1, fun r hr => h2 r (by simp [hr])⟩
        · intro p π; rw [g6]
          constructor
          · rintro ⟨h1, h2⟩; exact ⟨h1, .miss (hnc p h1) h2⟩
          · rintro ⟨h1, h2⟩
            refine ⟨h1, ?_⟩
            cases h2 with
            | hit hc => exact absurd hc (hnc p h1)
            | miss _ h => exact h
    · simp only [ne_eq, hb, not_false_eq_true, if_true]
      have first : ∀ p, (intersection rem (toT n (wc, d))).lookup n p = some d →
          ∀ π, FirstMatch n p ((wc, path) :: rules) (some π) ↔ π = path := by
        intro p hp π
        have hc := ((hei p).1 hp).2
        constructor
        · intro h
          exact Option.some.inj (h.unique (.hit hc))
        · rintro rfl; exact .hit hc
      by_cases hrem : difference d rem (intersection rem (toT n (wc, d))) = bot
      · simp only [hrem, if_true]
        refine ⟨[(path, intersection rem (toT n (wc, d)))], bot, rfl, trivial, fun _ => Or.inl rfl, ?_, ?_, ?_, by simp, by simp⟩
        · intro x hx
          simp only [List.mem_singleton] at hx
          subst hx
          exact ⟨hwi, hmi, hb⟩
        · intro p
          constructor
          · intro h; rw [hbotmark] at h; cases h
          · rintro ⟨h1, h2⟩
            have := (hld p).2 ⟨h1, h2 (wc, path) (by simp)⟩
            rw [hrem] at this; exact this
        · intro p π
          constructor
          · rintro ⟨t, ht, hl⟩
            simp only [List.mem_singleton, Prod.mk.injEq] at ht
            obtain ⟨rfl, rfl⟩ := ht
            exact ⟨((hei p).1 hl).1, (first p hl π).2 rfl⟩
          · rintro ⟨h1, h2⟩
            have hc : Covers n wc p := by
              by_contra hc
              have := (hld p).2 ⟨h1, hc⟩
              rw [hrem, hbotmark] at this; cases this
            have hl := (hei p).2 ⟨h1, hc⟩
            have := (first p hl π).1 h2
            subst this
            exact ⟨_, by simp, hl⟩
      · simp only [hrem, if_false]
        obtain ⟨out, rem', g1, g2, g3, g4, g5, g6, g7, g8⟩ := ih (fun r hr => hw r (by simp [hr])) hwd hmd
          (acc ++ [(path, intersection rem (toT n (wc, d)))])
        refine ⟨(path, intersection rem (toT n (wc, d))) :: out, rem', by rw [g1]; simp, g2, g3, ?_, ?_, ?_, ?_, by simpa using g8⟩
        · intro x hx
          rcases List.mem_cons.1 hx with rfl | hx
          · exact ⟨hwi, hmi, hb⟩
          · exact g4 x hx
        · intro p; rw [g5, hld]
          constructor
          · rintro ⟨⟨h1, h2⟩, h3⟩
            refine ⟨h1, fun r hr => ?_⟩
            rcases List.mem_cons.1 hr with rfl | hr
            · exact h2
            · exact h3 r hr
          · rintro ⟨h1, h2⟩
            exact ⟨⟨h1, h2 (wc, path) (by simp)⟩, fun r hr => h2 r (by simp [hr])⟩
        · intro p π
          constructor
          · rintro ⟨t, ht, hl⟩
            rcases List.mem_cons.1 ht with ht | ht
            · simp only [Prod.mk.injEq] at ht
              obtain ⟨rfl, rfl⟩ := ht
              exact ⟨((hei p).1 hl).1, (first p hl π).2 rfl⟩
            · obtain ⟨h1, h2⟩ := (g6 p π).1 ⟨t, ht, hl⟩
              obtain ⟨h3, h4⟩ := (hld p).1 h1
              exact ⟨h3, .miss h4 h2⟩
          · rintro ⟨h1, h2⟩
            by_cases hc : Covers n wc p
            · have hl := (hei p).2 ⟨h1, hc⟩
              have := (first p hl π).1 h2
              subst this
              exact ⟨_, by simp, hl⟩
            · obtain ⟨t, ht, hl⟩ := (g6 p π).2 ⟨(hld p).2 ⟨h1, hc⟩, by
                cases h2 with
                | hit h => exact absurd h hc
                | miss _ h => exact h⟩
              exact ⟨t, by simp [ht], hl⟩
        · rw [List.pairwise_cons]
          refine ⟨?_, g7⟩
          rintro x hx ⟨p, hp1, hp2⟩
          have := (g6 p x.1).1 ⟨x.2, hx, hp2⟩
          exact ((hld p).1 this.1).2 ((hei p).1 hp1).2

theorem collectPaths_spec {π : Type} {n : Nat} (hn : 0 < n) {d : α} {rules : List (Nat × π)} (noPath : π)
    (hw : ∀ r ∈ rules, WcValid n r.1) {bdd : DD α} (hr : WF n 0 bdd) (hm : Marks d bdd) :
    ∃ out, collectPaths n d noPath bdd rules = .ok out ∧
      (∀ x ∈ out, WF n 0 x.2 ∧ Marks d x.2 ∧ x.2 ≠ bot) ∧
      (∀ p π, (∃ t, (π, t) ∈ out ∧ t.lookup n p = some d) ↔
        bdd.lookup n p = some d ∧ ∃ x, FirstMatch n p rules x ∧ x.getD noPath = π) ∧
      out.Pairwise (fun x y => ¬ ∃ p, x.2.lookup n p = some d ∧ y.2.lookup n p = some d) ∧
      (out.map (·.1)).Sublist (rules.map (·.2) ++ [noPath]) := by
  obtain ⟨out, rem, g1, g2, g3, g4, g5, g6, g7, g8⟩ := collectLoop_spec hn hw hr hm []
  have hnone : ∀ p, (∀ r ∈ rules, ¬ Covers n r.1 p) ↔ FirstMatch n p rules none := by
    intro p
    clear g1 g4 g5 g6 g7 g8 hw
    induction rules with
    | nil => simp; exact .nil
    | cons r rules ih =>
      constructor
      · intro h
        exact .miss (h r (by simp)) (ih.1 fun r hr => h r (by simp [hr]))
      · intro h r' hr'
        cases h with
        | miss h1 h2 =>
          rcases List.mem_cons.1 hr' with rfl | hr'
          · exact h1
          · exact ih.2 h2 r' hr'
  unfold collectPaths
  rw [g1]
  simp only [bind, Except.bind, List.nil_append, pure, Except.pure]
  refine ⟨_, rfl, ?_, ?_, ?_, ?_⟩
  · intro x hx
    split at hx
    · next h =>
      rcases List.mem_append.1 hx with hx | hx
      · exact g4 x hx
      · simp only [List.mem_singleton] at hx
        subst hx
        exact ⟨g2, g3, h⟩
    · exact g4 x hx
  · intro p π
    constructor
    · rintro ⟨t, ht, hl⟩
      have hcase : (π, t) ∈ out ∨ (π = noPath ∧ t = rem) := by
        split at ht
        · rcases List.mem_append.1 ht with ht | ht
          · exact Or.inl ht
          · simp only [List.mem_singleton, Prod.mk.injEq] at ht
            exact Or.inr ht
        · exact Or.inl ht
      rcases hcase with ht | ⟨rfl, rfl⟩
      · have := (g6 p π).1 ⟨t, ht, hl⟩
        exact ⟨this.1, some π, this.2, rfl⟩
      · have := (g5 p).1 hl
        exact ⟨this.1, none, (hnone p).1 this.2, rfl⟩
    · rintro ⟨h1, x, h2, rfl⟩
      cases x with
      | some x =>
        obtain ⟨t, ht, hl⟩ := (g6 p x).2 ⟨h1, h2⟩
        refine ⟨t, ?_, hl⟩
        split
        · exact List.mem_append_left _ ht
        · exact ht
      | none =>
        have hl := (g5 p).2 ⟨h1, (hnone p).2 h2⟩
        have hne : rem ≠ bot := by
          rintro rfl
          simp [lookup, eval] at hl
        refine ⟨rem, ?_, hl⟩
        rw [if_pos hne]
        simp
  · split
    · rw [List.pairwise_append]
      refine ⟨g7, by simp, ?_⟩
      rintro x hx y hy ⟨p, hp1, hp2⟩
      simp only [List.mem_singleton] at hy
      subst hy
      have h1 := (g6 p x.1).1 ⟨x.2, hx, hp1⟩
      have h2 := (g5 p).1 hp2
      have := h1.2.unique ((hnone p).1 h2.2)
      cases this
    · exact g7
  · split
    · rw [List.map_append]
      exact g8.append (List.Sublist.refl _)
    · exact g8.trans (by simp)

theorem mem_dictSet {κ ν : Type} [DecidableEq κ] {k : κ} {v : ν} {l : List (κ × ν)} (hk : k ∉ l.map (·.1)) :
    dictSet k v l = l ++ [(k, v)] := by
  induction l with
  | nil => rfl
  | cons x l ih =>
    simp only [List.map_cons, List.mem_cons, not_or] at hk
    rw [dictSet, if_neg (fun h => hk.1 h.symm), ih hk.2]
    rfl

end OFE
