import Verif.Graph.Layout
import Verif.Deps.Lemmas
import Mathlib.Data.List.Forall2
import Mathlib.Tactic.Linarith
import Mathlib.Tactic.FieldSimp
import Mathlib.Tactic.Positivity

/-! # Lemmas on the layout -/

namespace OFE
namespace Graph

variable {α : Type} [DecidableEq α]
set_option linter.unusedSectionVars false

/-- Related nodes are on different levels, the first one above. -/
structure Down (R : α → α → Prop) (levels : List (List α)) : Prop where
  inner : ∀ A ∈ levels, ∀ u ∈ A, ∀ v ∈ A, ¬ R u v
  outer : levels.Pairwise fun A B => ∀ u ∈ A, ∀ v ∈ B, ¬ R v u

theorem Down.cons_iff {R : α → α → Prop} {A : List α} {ls : List (List α)} :
    Down R (A :: ls) ↔ (∀ u ∈ A, ∀ v ∈ A, ¬ R u v) ∧ (∀ u ∈ A, ∀ v ∈ ls.flatten, ¬ R v u) ∧ Down R ls := by
  constructor
  · rintro ⟨h1, h2⟩
    rw [List.pairwise_cons] at h2
    refine ⟨h1 A (by simp), fun u hu v hv => ?_, ⟨fun B hB => h1 B (List.mem_cons_of_mem _ hB), h2.2⟩⟩
    obtain ⟨B, hB, hv⟩ := List.mem_flatten.1 hv
    exact h2.1 B hB u hu v hv
  · rintro ⟨h1, h2, h3⟩
    refine ⟨fun B hB => ?_, List.pairwise_cons.2 ⟨fun B hB u hu v hv => h2 u hu v (List.mem_flatten.2 ⟨B, hB, hv⟩), h3.outer⟩⟩
    rcases List.mem_cons.1 hB with rfl | hB
    · exact h1
    · exact h3.inner B hB

theorem Down.nil {R : α → α → Prop} : Down R ([] : List (List α)) := ⟨by simp, .nil⟩

theorem Down.congr {R S : α → α → Prop} {ls : List (List α)} (h : Down R ls) (hs : ∀ u ∈ ls.flatten, ∀ v ∈ ls.flatten, S u v → R u v) : Down S ls := by
  induction ls with
  | nil => exact .nil
  | cons A ls ih =>
    rw [Down.cons_iff] at h ⊢
    simp only [List.flatten_cons, List.mem_append] at hs
    exact ⟨fun u hu v hv k => h.1 u hu v hv (hs u (.inl hu) v (.inl hv) k), fun u hu v hv k => h.2.1 u hu v hv (hs v (.inr hv) u (.inl hu) k),
      ih h.2.2 fun u hu v hv => hs u (.inr hu) v (.inr hv)⟩

theorem Down.append {R : α → α → Prop} {as bs : List (List α)} (ha : Down R as) (hb : Down R bs) (h : ∀ u ∈ as.flatten, ∀ v ∈ bs.flatten, ¬ R v u) :
    Down R (as ++ bs) := by
  induction as with
  | nil => exact hb
  | cons A as ih =>
    rw [List.cons_append, Down.cons_iff]
    rw [Down.cons_iff] at ha
    simp only [List.flatten_cons, List.mem_append] at h
    refine ⟨ha.1, fun u hu v hv => ?_, ih ha.2.2 fun u hu => h u (.inr hu)⟩
    rw [List.flatten_append, List.mem_append] at hv
    rcases hv with hv | hv
    · exact ha.2.1 u hu v hv
    · exact h u (.inl hu) v hv

/-! ### Placing -/

theorem mem_edgesIn {E : List (α × α)} {x y : α} : y ∈ edgesIn E x ↔ (y, x) ∈ E := by
  simp only [edgesIn, List.mem_map, List.mem_filter, decide_eq_true_eq]
  constructor
  · rintro ⟨⟨a, b⟩, ⟨h, rfl⟩, rfl⟩; exact h
  · intro h; exact ⟨(y, x), ⟨h, rfl⟩, rfl⟩

theorem mem_edgesOut {E : List (α × α)} {x y : α} : y ∈ edgesOut E x ↔ (x, y) ∈ E := by
  simp only [edgesOut, List.mem_map, List.mem_filter, decide_eq_true_eq]
  constructor
  · rintro ⟨⟨a, b⟩, ⟨h, rfl⟩, rfl⟩; exact h
  · intro h; exact ⟨(x, y), ⟨h, rfl⟩, rfl⟩

theorem nextLevel_shift (ins : List α) (ls : List (List α)) : ∀ i, nextLevel ins i ls = if nextLevel ins 0 ls = 0 then 0 else nextLevel ins 0 ls + i := by
  induction ls with
  | nil => intro i; rfl
  | cons l ls ih =>
    have e : ∀ i, nextLevel ins i (l :: ls) = if nextLevel ins (i + 1) ls ≠ 0 then nextLevel ins (i + 1) ls
      else if l.any fun y => decide (y ∈ ins) then i + 1 else 0 := fun i => rfl
    intro i
    generalize hk : nextLevel ins 0 ls = k at ih
    have e0 := e 0
    have ei := e i
    rw [ih (0 + 1)] at e0
    rw [ih (i + 1)] at ei
    generalize nextLevel ins 0 (l :: ls) = a at *
    generalize nextLevel ins i (l :: ls) = c at *
    subst e0 ei
    by_cases h : k = 0
    · simp only [h, if_true, ne_eq, not_true_eq_false, if_false]
      by_cases h2 : (l.any fun y => decide (y ∈ ins)) = true
      · simp only [h2, if_true]; rw [if_neg (by omega)]; omega
      · simp [h2]
    · simp only [h, if_false]
      have h1 : k + (i + 1) ≠ 0 := by omega
      have h2 : k + (0 + 1) ≠ 0 := by omega
      simp only [if_pos h1, if_pos h2, if_neg h2]; omega

theorem nextLevel_cons (ins : List α) (l : List α) (ls : List (List α)) : nextLevel ins 0 (l :: ls) =
    if nextLevel ins 0 ls = 0 ∧ ¬ (∃ y ∈ l, y ∈ ins) then 0 else nextLevel ins 0 ls + 1 := by
  have e : nextLevel ins 0 (l :: ls) = if nextLevel ins (0 + 1) ls ≠ 0 then nextLevel ins (0 + 1) ls
      else if l.any fun y => decide (y ∈ ins) then 0 + 1 else 0 := rfl
  rw [e, nextLevel_shift ins ls (0 + 1)]
  have ha : (l.any fun y => decide (y ∈ ins)) = true ↔ ∃ y ∈ l, y ∈ ins := by simp
  generalize nextLevel ins 0 ls = k
  simp only [← ha]
  cases (l.any fun y => decide (y ∈ ins)) <;> by_cases h : k = 0 <;> simp [h]

theorem nextLevel_zero {ins : List α} {ls : List (List α)} (h : nextLevel ins 0 ls = 0) : ∀ y ∈ ls.flatten, y ∉ ins := by
  induction ls with
  | nil => simp
  | cons l ls ih =>
    rw [nextLevel_cons] at h
    split at h
    · next hc =>
      intro y hy
      rw [List.flatten_cons, List.mem_append] at hy
      rcases hy with hy | hy
      · exact fun hi => hc.2 ⟨y, hy, hi⟩
      · exact ih hc.1 y hy
    · omega

theorem addAt_perm (x : α) : ∀ (k : Nat) (ls : List (List α)), (addAt x k ls).flatten.Perm (x :: ls.flatten)
  | _, [] => by simp [addAt]
  | 0, l :: ls => by
    simp only [addAt, List.flatten_cons, List.append_assoc, List.cons_append, List.nil_append]
    exact List.perm_middle
  | k + 1, l :: ls => by
    simp only [addAt, List.flatten_cons]
    exact ((addAt_perm x k ls).append_left l).trans List.perm_middle

theorem place_perm (E : List (α × α)) (ls : List (List α)) (x : α) : (place E ls x).flatten.Perm (x :: ls.flatten) := addAt_perm _ _ _

/-- The edge relation. -/
def Rel (E : List (α × α)) (u v : α) : Prop := (u, v) ∈ E

theorem place_down {E : List (α × α)} {x : α} (hx : (x, x) ∉ E) : ∀ {ls : List (List α)}, Down (Rel E) ls → (∀ u ∈ ls.flatten, (x, u) ∉ E) →
    Down (Rel E) (addAt x (nextLevel (edgesIn E x) 0 ls) ls)
  | [], _, _ => by
    rw [addAt, Down.cons_iff]
    refine ⟨fun u hu v hv => ?_, by simp, .nil⟩
    rw [List.mem_singleton] at hu hv
    subst hu; subst hv
    exact hx
  | l :: ls, h, ho => by
    rw [Down.cons_iff] at h
    simp only [List.flatten_cons, List.mem_append] at ho
    rw [nextLevel_cons]
    split
    · next hc =>
      rw [addAt, Down.cons_iff]
      refine ⟨fun u hu v hv => ?_, fun u hu v hv => ?_, h.2.2⟩
      · rw [List.mem_append, List.mem_singleton] at hu hv
        rcases hu with hu | rfl <;> rcases hv with hv | rfl
        · exact h.1 u hu v hv
        · exact fun k => hc.2 ⟨u, hu, mem_edgesIn.2 k⟩
        · exact ho v (.inl hv)
        · exact hx
      · rw [List.mem_append, List.mem_singleton] at hu
        rcases hu with hu | rfl
        · exact h.2.1 u hu v hv
        · exact fun k => nextLevel_zero hc.1 v hv (mem_edgesIn.2 k)
    · rw [addAt, Down.cons_iff]
      refine ⟨h.1, fun u hu v hv => ?_, place_down hx h.2.2 fun u hu => ho u (.inr hu)⟩
      rcases List.mem_cons.1 ((addAt_perm _ _ _).mem_iff.1 hv) with rfl | hv
      · exact ho u (.inl hu)
      · exact h.2.1 u hu v hv

theorem placeAll_down {E : List (α × α)} : ∀ (xs : List α) (ls : List (List α)), Down (Rel E) ls →
    (∀ x ∈ xs, (x, x) ∉ E ∧ ∀ u ∈ ls.flatten, (x, u) ∉ E) → (xs.Pairwise fun u v => (v, u) ∉ E) →
    Down (Rel E) (xs.foldl (place E) ls) ∧ (xs.foldl (place E) ls).flatten.Perm (xs ++ ls.flatten)
  | [], ls, h, _, _ => ⟨h, .refl _⟩
  | x :: xs, ls, h, ho, hp => by
    rw [List.pairwise_cons] at hp
    obtain ⟨a, b⟩ := placeAll_down xs (place E ls x) (place_down (ho x (by simp)).1 h (ho x (by simp)).2)
      (fun y hy => ⟨(ho y (List.mem_cons_of_mem _ hy)).1, fun u hu => by
        rcases List.mem_cons.1 ((place_perm E ls x).mem_iff.1 hu) with rfl | hu
        · exact hp.1 y hy
        · exact (ho y (List.mem_cons_of_mem _ hy)).2 u hu⟩) hp.2
    refine ⟨a, b.trans ?_⟩
    exact ((place_perm E ls x).append_left xs).trans List.perm_middle

/-! ### Pushing down -/

theorem pushLevel_spec (E : List (α × α)) : ∀ (l below : List α), ∃ moved, (pushLevel E l below).2 = below ++ moved ∧
    ((pushLevel E l below).1 ++ moved).Perm l ∧ ∀ x ∈ moved, ∀ y ∈ below, (x, y) ∉ E
  | [], below => ⟨[], by simp [pushLevel]⟩
  | x :: xs, below => by
    unfold pushLevel
    split
    · obtain ⟨m, h1, h2, h3⟩ := pushLevel_spec E xs below
      exact ⟨m, h1, h2.cons x, h3⟩
    · next hc =>
      obtain ⟨m, h1, h2, h3⟩ := pushLevel_spec E xs (below ++ [x])
      refine ⟨x :: m, by rw [h1]; simp, List.perm_middle.trans (h2.cons x), fun y hy z hz k => ?_⟩
      rcases List.mem_cons.1 hy with rfl | hy
      · refine hc ?_
        rw [List.any_eq_true]
        exact ⟨z, mem_edgesOut.2 k, by simpa using hz⟩
      · exact h3 y hy z (by simp [hz]) k

theorem pushAll_spec (E : List (α × α)) : ∀ {ls : List (List α)}, Down (Rel E) ls → Down (Rel E) (pushAll E ls) ∧ (pushAll E ls).flatten.Perm ls.flatten
  | [], _ => ⟨.nil, .refl _⟩
  | l :: ls, h => by
    rw [Down.cons_iff] at h
    obtain ⟨d, p⟩ := pushAll_spec E h.2.2
    unfold pushAll
    cases hp : pushAll E ls with
    | nil =>
      rw [hp] at p
      refine ⟨by rw [Down.cons_iff]; exact ⟨h.1, by simp, .nil⟩, ?_⟩
      simp only [List.flatten_cons, List.flatten_nil, List.append_nil]
      rw [List.perm_nil.1 p.symm]; simp
    | cons b bs =>
      rw [hp] at d p
      rw [Down.cons_iff] at d
      obtain ⟨m, h1, h2, h3⟩ := pushLevel_spec E l b
      have hk : ∀ u ∈ (pushLevel E l b).1, u ∈ l := fun u hu => h2.mem_iff.1 (List.mem_append_left _ hu)
      have hm : ∀ u ∈ m, u ∈ l := fun u hu => h2.mem_iff.1 (List.mem_append_right _ hu)
      have hup : ∀ u ∈ l, ∀ v, v ∈ b ∨ v ∈ bs.flatten → ¬ Rel E v u := fun u hu v hv =>
        h.2.1 u hu v (p.mem_iff.1 (by rw [List.flatten_cons, List.mem_append]; exact hv))
      refine ⟨?_, ?_⟩
      · simp only [Down.cons_iff, h1, List.flatten_cons, List.mem_append]
        refine ⟨fun u hu v hv => h.1 u (hk u hu) v (hk v hv), fun u hu v hv => ?_, fun u hu v hv => ?_, fun u hu v hv => ?_, d.2.2⟩
        · rcases hv with (hv | hv) | hv
          · exact hup u (hk u hu) v (.inl hv)
          · exact h.1 v (hm v hv) u (hk u hu)
          · exact hup u (hk u hu) v (.inr hv)
        · rcases hu with hu | hu <;> rcases hv with hv | hv
          · exact d.1 u hu v hv
          · exact hup v (hm v hv) u (.inl hu)
          · exact h3 u hu v hv
          · exact h.1 u (hm u hu) v (hm v hv)
        · rcases hu with hu | hu
          · exact d.2.1 u hu v hv
          · exact hup u (hm u hu) v (.inr hv)
      · simp only [h1, List.flatten_cons]
        have e1 : ((pushLevel E l b).1 ++ (b ++ m ++ bs.flatten)).Perm (((pushLevel E l b).1 ++ m) ++ (b ++ bs.flatten)) := by
          rw [List.append_assoc, List.append_assoc]
          refine List.Perm.append_left _ ?_
          rw [← List.append_assoc, ← List.append_assoc]
          exact List.perm_append_comm.append_right _
        exact e1.trans (h2.append p)

theorem layoutLevels_spec {le : α → α → Bool} (total : ∀ a b, le a b = true ∨ le b a = true)
    (trans : ∀ a b c, le a b = true → le b c = true → le a c = true) {E : List (α × α)} (push : Bool) {nodes : List α}
    (he : ∀ u ∈ nodes, ∀ v ∈ nodes, (u, v) ∈ E → le v u = false) :
    Down (Rel E) (layoutLevels le E push nodes) ∧ (layoutLevels le E push nodes).flatten.Perm nodes := by
  have hs := Deps.sortBy_sorted le total trans nodes
  have hp := Deps.sortBy_perm le nodes
  have hrefl : ∀ a, le a a = true := fun a => (total a a).elim id id
  obtain ⟨d, p⟩ := placeAll_down (E := E) (Deps.sortBy le nodes) [] .nil
    (fun x hx => ⟨fun k => by
      have hx := hp.mem_iff.1 hx
      have := he x hx x hx k
      rw [hrefl] at this; exact Bool.noConfusion this, by simp⟩)
    (by
      refine List.Pairwise.imp_of_mem ?_ hs
      intro a b ha hb hab k
      have := he b (hp.mem_iff.1 hb) a (hp.mem_iff.1 ha) k
      rw [hab] at this; cases this)
  have p' : ((Deps.sortBy le nodes).foldl (place E) []).flatten.Perm nodes := by
    refine p.trans ?_
    simpa using hp
  unfold layoutLevels
  simp only
  split
  · obtain ⟨d2, p2⟩ := pushAll_spec E d
    exact ⟨d2, p2.trans p'⟩
  · exact ⟨d, p'⟩

/-! ### Groups -/

theorem flatMap_spec {le : α → α → Bool} (total : ∀ a b, le a b = true ∨ le b a = true)
    (trans : ∀ a b c, le a b = true → le b c = true → le a c = true) {E : List (α × α)} (push : Bool) {nodes : List α}
    (he : ∀ u ∈ nodes, ∀ v ∈ nodes, (u, v) ∈ E → le v u = false) (grp : α → Option Nat)
    (hg : ∀ u ∈ nodes, ∀ v ∈ nodes, (u, v) ∈ E → ∀ s t, grp u = some s → grp v = some t → s ≤ t) : ∀ (ts : List Nat), ts.Pairwise (· < ·) →
    Down (fun u v => (u, v) ∈ E ∨ ∃ s t, grp u = some s ∧ grp v = some t ∧ s < t)
      (ts.flatMap fun t => layoutLevels le E push (nodes.filter fun y => decide (grp y = some t))) ∧
    (ts.flatMap fun t => layoutLevels le E push (nodes.filter fun y => decide (grp y = some t))).flatten.Perm
      (ts.flatMap fun t => nodes.filter fun y => decide (grp y = some t))
  | [], _ => ⟨.nil, .refl _⟩
  | t :: ts, hp => by
    rw [List.pairwise_cons] at hp
    obtain ⟨d, p⟩ := flatMap_spec total trans push he grp hg ts hp.2
    obtain ⟨d1, p1⟩ := layoutLevels_spec total trans (E := E) push (nodes := nodes.filter fun y => decide (grp y = some t))
      (fun u hu v hv => he u (List.mem_of_mem_filter hu) v (List.mem_of_mem_filter hv))
    have m1 : ∀ u ∈ (layoutLevels le E push (nodes.filter fun y => decide (grp y = some t))).flatten, u ∈ nodes ∧ grp u = some t := by
      intro u hu
      have := p1.mem_iff.1 hu
      simpa using this
    have m2 : ∀ u ∈ (ts.flatMap fun t => layoutLevels le E push (nodes.filter fun y => decide (grp y = some t))).flatten,
        u ∈ nodes ∧ ∃ s ∈ ts, grp u = some s := by
      intro u hu
      have := p.mem_iff.1 hu
      simp only [List.mem_flatMap, List.mem_filter, decide_eq_true_eq] at this
      obtain ⟨s, hs, h1, h2⟩ := this
      exact ⟨h1, s, hs, h2⟩
    refine ⟨?_, ?_⟩
    · rw [List.flatMap_cons]
      refine Down.append (d1.congr fun u hu v hv k => ?_) d fun u hu v hv k => ?_
      · rcases k with k | ⟨a, b, h1, h2, h3⟩
        · exact k
        · rw [(m1 u hu).2] at h1; rw [(m1 v hv).2] at h2
          cases h1; cases h2; omega
      · obtain ⟨hu1, hu2⟩ := m1 u hu
        obtain ⟨hv1, s, hs, hv2⟩ := m2 v hv
        have := hp.1 s hs
        rcases k with k | ⟨a, b, h1, h2, h3⟩
        · have := hg v hv1 u hu1 k s t hv2 hu2; omega
        · rw [hv2] at h1; rw [hu2] at h2
          cases h1; cases h2; omega
    · rw [List.flatMap_cons, List.flatMap_cons, List.flatten_append]
      exact p1.append p

theorem mem_flatMap_groups {nodes : List α} {grp : α → Option Nat} {ts : List Nat} (hall : ∀ y ∈ nodes, ∃ t ∈ ts, grp y = some t) (hn : nodes.Nodup)
    (hp : ts.Pairwise (· < ·)) : (ts.flatMap fun t => nodes.filter fun y => decide (grp y = some t)).Perm nodes := by
  rw [List.perm_ext_iff_of_nodup ?_ hn]
  · intro x
    simp only [List.mem_flatMap, List.mem_filter, decide_eq_true_eq]
    constructor
    · rintro ⟨t, -, h, -⟩; exact h
    · intro h
      obtain ⟨t, ht, e⟩ := hall x h
      exact ⟨t, ht, h, e⟩
  · rw [List.nodup_flatMap]
    refine ⟨fun t _ => hn.filter _, hp.imp fun {a b} hab => ?_⟩
    intro x h1 h2
    simp only [List.mem_filter, decide_eq_true_eq] at h1 h2
    have := h1.2.symm.trans h2.2
    cases this
    omega

/-! ### Clustering -/

theorem clusterLevels_spec (E : List (α × α)) {R : α → α → Prop} : ∀ {ls : List (List α)}, Down R ls →
    Down R (clusterLevels E ls) ∧ (clusterLevels E ls).flatten.Perm ls.flatten
  | [], _ => ⟨.nil, .refl _⟩
  | l :: ls, h => by
    rw [Down.cons_iff] at h
    obtain ⟨d, p⟩ := clusterLevels_spec E h.2.2
    unfold clusterLevels
    cases hc : clusterLevels E ls with
    | nil =>
      rw [hc] at p
      refine ⟨by rw [Down.cons_iff]; exact ⟨h.1, by simp, .nil⟩, ?_⟩
      simp only [List.flatten_cons, List.flatten_nil, List.append_nil]
      rw [List.perm_nil.1 p.symm]; simp
    | cons b bs =>
      rw [hc] at d p
      have hs := Deps.sortBy_perm (fun x y => decide (sortLevel E b x ≤ sortLevel E b y)) l
      refine ⟨?_, ?_⟩
      · rw [Down.cons_iff]
        exact ⟨fun u hu v hv => h.1 u (hs.mem_iff.1 hu) v (hs.mem_iff.1 hv),
          fun u hu v hv => h.2.1 u (hs.mem_iff.1 hu) v (p.mem_iff.1 hv), d⟩
      · rw [List.flatten_cons, List.flatten_cons (l := l)]
        exact hs.append p

/-! ### Positions -/

theorem foldl_dictSet_new {β : Type} : ∀ (l : List (α × β)) (d : List (α × β)), ((d ++ l).map (·.1)).Nodup →
    l.foldl (fun d x => dictSet x.1 x.2 d) d = d ++ l
  | [], d, _ => by simp
  | x :: l, d, h => by
    rw [List.foldl_cons, dictSet_new, foldl_dictSet_new l _ (by simpa using h)]
    · simp
    · rw [List.map_append, List.map_cons, List.nodup_append] at h
      intro hx
      exact h.2.2 x.1 hx x.1 (by simp) rfl

/-- All positions in order. -/
def posList (scale : ℚ) (m : Nat) (i : Nat) : List (List α) → List (α × (ℚ × ℚ))
  | [] => []
  | l :: ls => (l.zipIdx.map fun x => (x.1, coord scale m i l.length x.2)) ++ posList scale m (i + 1) ls

theorem posList_keys (scale : ℚ) (m : Nat) : ∀ (i : Nat) (ls : List (List α)), (posList scale m i ls).map (·.1) = ls.flatten
  | _, [] => rfl
  | i, l :: ls => by
    rw [posList, List.map_append, posList_keys scale m (i + 1) ls, List.map_map, List.flatten_cons]
    congr 1
    exact List.zipIdx_map_fst 0 l

theorem positions_eq (scale : ℚ) {levels : List (List α)} (h : levels.flatten.Nodup) : positions scale levels = posList scale levels.length 0 levels := by
  have key : ∀ (m i : Nat) (ls : List (List α)) (d : List (α × (ℚ × ℚ))), ((d ++ posList scale m i ls).map (·.1)).Nodup →
      (ls.zipIdx i).foldl (fun d l => l.1.zipIdx.foldl (fun d x => dictSet x.1 (coord scale m l.2 l.1.length x.2) d) d) d = d ++ posList scale m i ls := by
    intro m i ls
    induction ls generalizing i with
    | nil => intro d _; simp [posList]
    | cons l ls ih =>
      intro d hd
      rw [List.zipIdx_cons, List.foldl_cons]
      have e : l.zipIdx.foldl (fun d x => dictSet x.1 (coord scale m i l.length x.2) d) d =
          d ++ (l.zipIdx.map fun x => (x.1, coord scale m i l.length x.2)) := by
        rw [← foldl_dictSet_new _ d, List.foldl_map]
        rw [posList, ← List.append_assoc, List.map_append] at hd
        exact (List.nodup_append.1 hd).1
      simp only [e]
      rw [ih (i + 1) _ (by rw [List.append_assoc]; exact hd), List.append_assoc]; rfl
  have := key levels.length 0 levels [] (by rw [List.nil_append, posList_keys]; exact h)
  simpa [positions] using this

theorem mem_posList {scale : ℚ} {m : Nat} {x : α} {c : ℚ × ℚ} : ∀ {i : Nat} {ls : List (List α)}, (x, c) ∈ posList scale m i ls ↔
    ∃ j l k, ls[j]? = some l ∧ l[k]? = some x ∧ c = coord scale m (i + j) l.length k
  | _, [] => by simp [posList]
  | i, l :: ls => by
    rw [posList, List.mem_append, mem_posList]
    constructor
    · rintro (h | ⟨j, l', k, h1, h2, h3⟩)
      · obtain ⟨⟨y, k⟩, hy, e⟩ := List.mem_map.1 h
        simp only [Prod.mk.injEq] at e
        obtain ⟨rfl, rfl⟩ := e
        exact ⟨0, l, k, rfl, by simpa using (List.mem_zipIdx_iff_getElem?.1 hy), rfl⟩
      · exact ⟨j + 1, l', k, by simpa using h1, h2, by rw [h3]; congr 1; omega⟩
    · rintro ⟨j, l', k, h1, h2, h3⟩
      cases j with
      | zero =>
        simp only [List.getElem?_cons_zero, Option.some.injEq] at h1
        subst h1
        exact .inl (List.mem_map.2 ⟨(x, k), List.mem_zipIdx_iff_getElem?.2 h2, by rw [h3]; rfl⟩)
      | succ j =>
        exact .inr ⟨j, l', k, by simpa using h1, h2, by rw [h3]; congr 1; omega⟩

theorem coord_mono {scale : ℚ} (hs : 0 < scale) {m i j k k' n n' : Nat} (hm : 0 < m) (h : i < j) :
    (coord scale m j k n).2 < (coord scale m i k' n').2 := by
  simp only [coord]
  refine mul_lt_mul_of_pos_right ?_ hs
  have h1 : (i : ℚ) < j := by exact_mod_cast h
  have h2 : (0 : ℚ) < 1 / m := by positivity
  have := mul_lt_mul_of_pos_left (add_lt_add_left h1 (1 / 2)) h2
  linarith

theorem coord_left {scale : ℚ} (hs : 0 < scale) {m i k n n' : Nat} (hk : 0 < k) (h : n < n') : (coord scale m i k n).1 < (coord scale m i k n').1 := by
  simp only [coord]
  refine mul_lt_mul_of_pos_right ?_ hs
  have h1 : (n : ℚ) < n' := by exact_mod_cast h
  have h2 : (0 : ℚ) < 1 / k := by positivity
  have := mul_lt_mul_of_pos_left (add_lt_add_left h1 (1 / 2)) h2
  linarith

theorem frac_mem {k n : Nat} (h : n < k) : 0 < (1 / (k : ℚ)) * ((n : ℚ) + 1 / 2) ∧ (1 / (k : ℚ)) * ((n : ℚ) + 1 / 2) < 1 := by
  have hk : (0 : ℚ) < k := by exact_mod_cast (Nat.zero_lt_of_lt h)
  have hn : (n : ℚ) + 1 ≤ k := by exact_mod_cast h
  refine ⟨by positivity, ?_⟩
  rw [one_div, inv_mul_lt_iff₀ hk]
  linarith

theorem coord_mem {scale : ℚ} (hs : 0 < scale) {m i k n : Nat} (hi : i < m) (hn : n < k) :
    (0 < (coord scale m i k n).1 ∧ (coord scale m i k n).1 < scale) ∧ (0 < (coord scale m i k n).2 ∧ (coord scale m i k n).2 < scale) := by
  obtain ⟨a, b⟩ := frac_mem hn
  obtain ⟨c, d⟩ := frac_mem hi
  simp only [coord]
  refine ⟨⟨mul_pos a hs, ?_⟩, mul_pos (by linarith) hs, ?_⟩
  · have := mul_lt_mul_of_pos_right b hs; linarith
  · have := mul_lt_mul_of_pos_right (show 1 - 1 / (m : ℚ) * ((i : ℚ) + 1 / 2) < 1 by linarith) hs; linarith

/-- Positions of levels that respect a relation. -/
theorem positions_spec {scale : ℚ} (hs : 0 < scale) {levels : List (List α)} {R : α → α → Prop} (hd : Down R levels) (hn : levels.flatten.Nodup) :
    ((positions scale levels).map (·.1)) = levels.flatten ∧ ((positions scale levels).map (·.2)).Nodup ∧
    (∀ x ∈ positions scale levels, (0 < x.2.1 ∧ x.2.1 < scale) ∧ (0 < x.2.2 ∧ x.2.2 < scale)) ∧
    ∀ x ∈ positions scale levels, ∀ y ∈ positions scale levels, R x.1 y.1 → y.2.2 < x.2.2 := by
  rw [positions_eq scale hn]
  have hpos : ∀ {j : Nat} {l : List α}, levels[j]? = some l → j < levels.length := fun h => (List.getElem?_eq_some_iff.1 h).1
  refine ⟨posList_keys _ _ _ _, ?_, ?_, ?_⟩
  · refine List.Nodup.map_on (fun x hx y hy e => ?_) (List.Nodup.of_map (·.1) (by rw [posList_keys]; exact hn))
    obtain ⟨x, c⟩ := x
    obtain ⟨y, c'⟩ := y
    dsimp only at e
    subst e
    obtain ⟨j, l, k, h1, h2, h3⟩ := mem_posList.1 hx
    obtain ⟨j', l', k', h1', h2', h3'⟩ := mem_posList.1 hy
    rw [h3] at h3'
    have hm := Nat.zero_lt_of_lt (hpos h1)
    have hj : j = j' := by
      rcases Nat.lt_trichotomy j j' with h | h | h
      · have := coord_mono hs (k := l'.length) (k' := l.length) (n := k') (n' := k) hm (show 0 + j < 0 + j' by omega)
        rw [← h3'] at this; exact absurd this (lt_irrefl _)
      · exact h
      · have := coord_mono hs (k := l.length) (k' := l'.length) (n := k) (n' := k') hm (show 0 + j' < 0 + j by omega)
        rw [h3'] at this; exact absurd this (lt_irrefl _)
    subst hj
    rw [h1] at h1'
    cases h1'
    have hk := Nat.zero_lt_of_lt (List.getElem?_eq_some_iff.1 h2).1
    have hkk : k = k' := by
      rcases Nat.lt_trichotomy k k' with h | h | h
      · have := coord_left hs (m := levels.length) (i := 0 + j) hk h
        rw [h3'] at this; exact absurd this (lt_irrefl _)
      · exact h
      · have := coord_left hs (m := levels.length) (i := 0 + j) hk h
        rw [h3'] at this; exact absurd this (lt_irrefl _)
    subst hkk
    rw [h2] at h2'
    cases h2'
    rfl
  · rintro ⟨x, c⟩ hx
    obtain ⟨j, l, k, h1, h2, rfl⟩ := mem_posList.1 hx
    exact coord_mem hs (by have := hpos h1; omega) (List.getElem?_eq_some_iff.1 h2).1
  · rintro ⟨x, c⟩ hx ⟨y, c'⟩ hy hR
    obtain ⟨j, l, k, h1, h2, rfl⟩ := mem_posList.1 hx
    obtain ⟨j', l', k', h1', h2', rfl⟩ := mem_posList.1 hy
    have hm := Nat.zero_lt_of_lt (hpos h1)
    refine coord_mono hs hm ?_
    have hxl := List.mem_of_getElem? h2
    have hyl := List.mem_of_getElem? h2'
    rcases Nat.lt_trichotomy j j' with h | h | h
    · omega
    · subst h
      rw [h1] at h1'
      cases h1'
      exact absurd hR (hd.inner l (List.mem_of_getElem? h1) x hxl y hyl)
    · obtain ⟨a1, a2⟩ := List.getElem?_eq_some_iff.1 h1
      obtain ⟨b1, b2⟩ := List.getElem?_eq_some_iff.1 h1'
      have := List.pairwise_iff_getElem.1 hd.outer j' j b1 a1 h
      rw [a2, b2] at this
      exact absurd hR (this y hyl x hxl)

/-! ### Without pushing down, nodes are as high as they can be -/

/-- Every node below the first level has an edge from the level right above. -/
def Chained (E : List (α × α)) (ls : List (List α)) : Prop := ls.IsChain fun A B => ∀ x ∈ B, ∃ u ∈ A, (u, x) ∈ E

theorem nextLevel_nil (ins : List α) : nextLevel ins 0 [] = 0 := rfl

theorem place_chained {E : List (α × α)} {x : α} : ∀ {ls : List (List α)}, Chained E ls → Chained E (addAt x (nextLevel (edgesIn E x) 0 ls) ls)
  | [], _ => .singleton _
  | l :: ls, h => by
    rw [nextLevel_cons]
    split
    · rw [addAt]
      cases ls with
      | nil => exact .singleton _
      | cons b bs =>
        obtain ⟨h1, h2⟩ := List.isChain_cons_cons.1 h
        refine .cons_cons (fun y hy => ?_) h2
        obtain ⟨u, hu, k⟩ := h1 y hy
        exact ⟨u, by simp [hu], k⟩
    · next hc =>
      rw [addAt]
      have ih : Chained E (addAt x (nextLevel (edgesIn E x) 0 ls) ls) := place_chained (List.IsChain.tail h)
      cases ls with
      | nil =>
        refine .cons_cons (fun y hy => ?_) (.singleton _)
        rw [List.mem_singleton] at hy
        subst hy
        simp only [nextLevel_nil, true_and, not_not] at hc
        obtain ⟨u, hu, k⟩ := hc
        exact ⟨u, hu, mem_edgesIn.1 k⟩
      | cons b bs =>
        obtain ⟨h1, h2⟩ := List.isChain_cons_cons.1 h
        by_cases h0 : nextLevel (edgesIn E x) 0 (b :: bs) = 0
        · rw [h0] at ih ⊢
          rw [addAt] at ih ⊢
          refine .cons_cons (fun y hy => ?_) ih
          rw [List.mem_append, List.mem_singleton] at hy
          rcases hy with hy | rfl
          · exact h1 y hy
          · simp only [h0, true_and, not_not] at hc
            obtain ⟨u, hu, k⟩ := hc
            exact ⟨u, hu, mem_edgesIn.1 k⟩
        · obtain ⟨n, hn⟩ := Nat.exists_eq_succ_of_ne_zero h0
          rw [hn] at ih ⊢
          rw [Nat.succ_eq_add_one, addAt] at ih ⊢
          exact .cons_cons h1 ih

theorem placeAll_chained {E : List (α × α)} : ∀ (xs : List α) (ls : List (List α)), Chained E ls → Chained E (xs.foldl (place E) ls)
  | [], _, h => h
  | x :: xs, ls, h => placeAll_chained xs (place E ls x) (place_chained h)

/-- In chained levels, no other assignment of levels has a node higher up. -/
theorem chained_le {E : List (α × α)} {ls : List (List α)} (h : Chained E ls) (f : α → Nat)
    (hf : ∀ u ∈ ls.flatten, ∀ v ∈ ls.flatten, (u, v) ∈ E → f u < f v) : ∀ {i : Nat} {l : List α} {x : α}, ls[i]? = some l → x ∈ l → i ≤ f x
  | 0, _, _, _, _ => Nat.zero_le _
  | i + 1, l, x, hl, hx => by
    obtain ⟨h1, h2⟩ := List.getElem?_eq_some_iff.1 hl
    have hc := List.isChain_iff_getElem.1 h i (by omega)
    rw [h2] at hc
    obtain ⟨u, hu, k⟩ := hc x hx
    have ih := chained_le h f hf (i := i) (l := ls[i]) (x := u) (List.getElem?_eq_getElem (by omega)) hu
    have := hf u (List.mem_flatten.2 ⟨_, List.getElem_mem _, hu⟩) x (List.mem_flatten.2 ⟨l, List.mem_of_getElem? hl, hx⟩) k
    omega

theorem clusterLevels_shape (E : List (α × α)) : ∀ (ls : List (List α)), List.Forall₂ List.Perm (clusterLevels E ls) ls
  | [] => .nil
  | l :: ls => by
    have ih := clusterLevels_shape E ls
    unfold clusterLevels
    cases hc : clusterLevels E ls with
    | nil => rw [hc] at ih; cases ih; exact .cons (.refl _) .nil
    | cons b bs => rw [hc] at ih; exact .cons (Deps.sortBy_perm _ _) ih

end Graph
end OFE
