import Verif.Graph.LayoutLemmas
import Verif.Graph.LayoutSpec
import Verif.Props.DirectRuleset

/-! # C84: layout of dependency graphs -/

namespace OFE
namespace Graph

variable {α : Type} [DecidableEq α]

/-- From levels to the drawing. -/
theorem draw {scale : ℚ} (hs : 0 < scale) {nodes : List α} (hn : nodes.Nodup) {R : α → α → Prop} {levels : List (List α)} (hd : Down R levels)
    (hp : levels.flatten.Perm nodes) (E : List (α × α)) (cluster : Bool) :
    Drawn scale nodes (positions scale (if cluster then clusterLevels E levels else levels)) ∧
    ∀ u v, R u v → Above (positions scale (if cluster then clusterLevels E levels else levels)) u v := by
  have key : ∀ ls : List (List α), Down R ls → ls.flatten.Perm nodes → Drawn scale nodes (positions scale ls) ∧
      ∀ u v, R u v → Above (positions scale ls) u v := by
    intro ls h1 h2
    obtain ⟨a, b, c, d⟩ := positions_spec hs h1 (h2.nodup_iff.2 hn)
    exact ⟨⟨by rw [a]; exact h2, b, c⟩, fun u v hr x y hx hy => d _ hx _ hy hr⟩
  cases cluster with
  | false => exact key levels hd hp
  | true =>
    obtain ⟨d2, p2⟩ := clusterLevels_spec E hd
    exact key _ d2 (p2.trans hp)

/-- **C84** (partial: edges must follow the order of the nodes and the graph must not be empty, see `C84_empty`; for graphs with groups see
`C84_groups_partial`.)  Without groups, with or without pushing down and clustering, every node gets a position of its own within the box, and an edge
leads to a node that is drawn lower. -/
theorem C84_layout_partial (le : α → α → Bool) (g : DiGraph α) (h : Ordered le g) (hg : ∀ x ∈ g.nodes, g.group x = none) (scale : ℚ) (hs : 0 < scale)
    (push cluster : Bool) :
    ∃ pos, directedLayout le scale push cluster g = .ok pos ∧ Drawn scale g.nodes pos ∧ ∀ e ∈ g.edges, Above pos e.1 e.2 := by
  obtain ⟨d, p⟩ := layoutLevels_spec h.total h.trans (E := g.edges) push (nodes := g.nodes) fun u _ v _ k => h.forward (u, v) k
  have hl : levelsOf le push g = .ok (layoutLevels le g.edges push g.nodes) := by
    unfold levelsOf
    cases hx : g.nodes with
    | nil => exact absurd hx h.ne
    | cons x xs => simp [hg x (by simp [hx])]
  obtain ⟨a, b⟩ := draw hs h.nodup d p g.edges cluster
  exact ⟨_, by simp only [directedLayout, hl, bind, Except.bind, pure, Except.pure], a, fun e he => b _ _ he⟩

/-- **C84** (partial: groups must not go against the edges, see `C84_compressed_groups`.)  With groups, the same, and every node of a group is drawn
above every node of a later group. -/
theorem C84_groups_partial (le : α → α → Bool) (g : DiGraph α) (h : Ordered le g) (hall : ∀ x ∈ g.nodes, (g.group x).isSome)
    (hmono : ∀ e ∈ g.edges, ∀ s t, g.group e.1 = some s → g.group e.2 = some t → s ≤ t) (scale : ℚ) (hs : 0 < scale) (push cluster : Bool) :
    ∃ pos, directedLayout le scale push cluster g = .ok pos ∧ Drawn scale g.nodes pos ∧ (∀ e ∈ g.edges, Above pos e.1 e.2) ∧
      ∀ u v s t, g.group u = some s → g.group v = some t → s < t → Above pos u v := by
  let ts := Deps.sortBy (fun a b => decide (a ≤ b)) (g.nodes.foldl (fun s y => Deps.setAdd ((g.group y).getD 0) s) [])
  have hmem : ∀ t, t ∈ ts ↔ ∃ y ∈ g.nodes, (g.group y).getD 0 = t := by
    intro t
    rw [show ts = _ from rfl, (Deps.sortBy_perm _ _).mem_iff]
    have := Deps.mem_foldl_setAdd (fun _ : α => True) (fun y => (g.group y).getD 0) g.nodes [] t
    simp only [if_true, true_and, List.not_mem_nil, false_or] at this
    rw [this]
    exact ⟨fun ⟨r, a, b⟩ => ⟨r, a, b.symm⟩, fun ⟨r, a, b⟩ => ⟨r, a, b.symm⟩⟩
  have hlt : ts.Pairwise (· < ·) := by
    have h1 : ts.Nodup := by
      rw [show ts = _ from rfl, (Deps.sortBy_perm _ _).nodup_iff]
      have := Deps.foldl_nodup (fun _ : α => True) (fun y => (g.group y).getD 0) g.nodes [] List.nodup_nil
      simpa only [if_true] using this
    have h2 := Deps.sortBy_sorted (fun a b : Nat => decide (a ≤ b)) (by intro a b; simp only [decide_eq_true_eq]; omega)
      (by intro a b c; simp only [decide_eq_true_eq]; omega) (g.nodes.foldl (fun s y => Deps.setAdd ((g.group y).getD 0) s) [])
    refine (h2.and h1).imp ?_
    intro a b hab
    simp only [decide_eq_true_eq] at hab
    omega
  obtain ⟨d, p⟩ := flatMap_spec h.total h.trans (E := g.edges) push (nodes := g.nodes) (fun u _ v _ k => h.forward (u, v) k) g.group
    (fun u _ v _ k => hmono (u, v) k) ts hlt
  have p' := p.trans (mem_flatMap_groups (nodes := g.nodes) (grp := g.group) (fun y hy => by
    obtain ⟨t, ht⟩ := Option.isSome_iff_exists.1 (hall y hy)
    exact ⟨t, (hmem t).2 ⟨y, hy, by rw [ht]; rfl⟩, ht⟩) h.nodup hlt)
  have hl : levelsOf le push g = .ok (ts.flatMap fun t => layoutLevels le g.edges push (g.nodes.filter fun y => decide (g.group y = some t))) := by
    unfold levelsOf
    cases hx : g.nodes with
    | nil => exact absurd hx h.ne
    | cons x xs =>
      simp only
      rw [if_pos (hall x (by simp [hx])), if_pos (by rw [List.all_eq_true, ← hx]; exact hall)]
      simp only [ts, hx]
  obtain ⟨a, b⟩ := draw hs h.nodup d p' g.edges cluster
  exact ⟨_, by simp only [directedLayout, hl, bind, Except.bind, pure, Except.pure], a, fun e he => b _ _ (.inl he),
    fun u v s t h1 h2 h3 => b _ _ (.inr ⟨s, t, h1, h2, h3⟩)⟩

/-- **C84** Without `push_down` (and groups), nodes are as high as possible: the levels are numbered such that no other numbering that grows along the edges
gives any node a lower number, and the height of a node depends on its level only. -/
theorem C84_highest (le : α → α → Bool) (g : DiGraph α) (h : Ordered le g) (hg : ∀ x ∈ g.nodes, g.group x = none) (scale : ℚ) (hs : 0 < scale)
    (cluster : Bool) :
    ∃ pos m, ∃ level : α → Nat, directedLayout le scale false cluster g = .ok pos ∧ (∀ e ∈ g.edges, level e.1 < level e.2) ∧
      (∀ x ∈ pos, level x.1 < m ∧ x.2.2 = (1 - (1 / (m : ℚ)) * ((level x.1 : ℚ) + 1 / 2)) * scale) ∧
      ∀ f : α → Nat, (∀ e ∈ g.edges, f e.1 < f e.2) → ∀ x ∈ g.nodes, level x ≤ f x := by
  obtain ⟨d, p⟩ := layoutLevels_spec h.total h.trans (E := g.edges) false (nodes := g.nodes) fun u _ v _ k => h.forward (u, v) k
  have hl : levelsOf le false g = .ok (layoutLevels le g.edges false g.nodes) := by
    unfold levelsOf
    cases hx : g.nodes with
    | nil => exact absurd hx h.ne
    | cons x xs => simp [hg x (by simp [hx])]
  have hch : Chained g.edges (layoutLevels le g.edges false g.nodes) := placeAll_chained _ [] .nil
  generalize hL : layoutLevels le g.edges false g.nodes = L at *
  let L' := if cluster then clusterLevels g.edges L else L
  have hshape : List.Forall₂ List.Perm L' L := by
    cases cluster with
    | false => exact List.forall₂_same.2 fun _ _ => .refl _
    | true => exact clusterLevels_shape _ _
  have hD' : Down (Rel g.edges) L' ∧ L'.flatten.Perm L.flatten := by
    cases cluster with
    | false => exact ⟨d, .refl _⟩
    | true => exact clusterLevels_spec _ d
  have hn' : L'.flatten.Nodup := (hD'.2.trans p).nodup_iff.2 h.nodup
  have hix : ∀ {i : Nat} {l : List α}, L'[i]? = some l → ∃ l', L[i]? = some l' ∧ l.Perm l' := by
    intro i l hi
    obtain ⟨h1, h2⟩ := List.getElem?_eq_some_iff.1 hi
    have hlen := hshape.length_eq
    refine ⟨L[i]'(by omega), List.getElem?_eq_getElem _, ?_⟩
    rw [← h2]
    exact hshape.get h1 (by omega)
  have hex : ∀ x, ∃ i : Nat, x ∈ L'.flatten → ∃ l, L'[i]? = some l ∧ x ∈ l := by
    intro x
    by_cases hx : x ∈ L'.flatten
    · obtain ⟨l, hl1, hl2⟩ := List.mem_flatten.1 hx
      obtain ⟨i, hi⟩ := List.mem_iff_getElem?.1 hl1
      exact ⟨i, fun _ => ⟨l, hi, hl2⟩⟩
    · exact ⟨0, fun h => absurd h hx⟩
  choose level hlev using hex
  have huniq : ∀ {x : α} {i : Nat} {l : List α}, L'[i]? = some l → x ∈ l → i = level x := by
    intro x i l hi hx
    obtain ⟨l', h1, h2⟩ := hlev x (List.mem_flatten.2 ⟨l, List.mem_of_getElem? hi, hx⟩)
    obtain ⟨a1, a2⟩ := List.getElem?_eq_some_iff.1 hi
    obtain ⟨b1, b2⟩ := List.getElem?_eq_some_iff.1 h1
    have hdis := (List.nodup_flatten.1 hn').2
    rcases Nat.lt_trichotomy i (level x) with hlt | he | hlt
    · have := List.pairwise_iff_getElem.1 hdis i (level x) a1 b1 hlt
      rw [a2, b2] at this
      exact absurd h2 (this hx)
    · exact he
    · have := List.pairwise_iff_getElem.1 hdis (level x) i b1 a1 hlt
      rw [a2, b2] at this
      exact absurd hx (this h2)
  have hnodes : ∀ {x}, x ∈ g.nodes → x ∈ L'.flatten := fun hx => hD'.2.mem_iff.2 (p.mem_iff.2 hx)
  refine ⟨positions scale L', L'.length, level, ?_, fun e he => ?_, ?_, fun f hf x hx => ?_⟩
  · simp only [directedLayout, hl, bind, Except.bind, pure, Except.pure]; rfl
  · obtain ⟨e1, e2⟩ := h.ends e he
    obtain ⟨l1, h1, m1⟩ := hlev e.1 (hnodes e1)
    obtain ⟨l2, h2, m2⟩ := hlev e.2 (hnodes e2)
    obtain ⟨a1, a2⟩ := List.getElem?_eq_some_iff.1 h1
    obtain ⟨b1, b2⟩ := List.getElem?_eq_some_iff.1 h2
    rcases Nat.lt_trichotomy (level e.1) (level e.2) with hlt | he' | hlt
    · exact hlt
    · rw [he', h2] at h1
      cases h1
      exact absurd he (hD'.1.inner l1 (List.mem_of_getElem? h2) _ m1 _ m2)
    · have := List.pairwise_iff_getElem.1 hD'.1.outer _ _ b1 a1 hlt
      rw [a2, b2] at this
      exact absurd he (this _ m2 _ m1)
  · rintro ⟨x, c⟩ hx
    rw [positions_eq scale hn'] at hx
    obtain ⟨j, l, k, h1, h2, rfl⟩ := mem_posList.1 hx
    have := huniq h1 (List.mem_of_getElem? h2)
    subst this
    exact ⟨(List.getElem?_eq_some_iff.1 h1).1, by simp [coord]⟩
  · obtain ⟨l, h1, m1⟩ := hlev x (hnodes hx)
    obtain ⟨l', h1', hp'⟩ := hix h1
    exact chained_le hch f (fun u _ v _ k => hf (u, v) k) h1' (hp'.mem_iff.1 m1)

/-- Numbers in their order. -/
def leNat (a b : Nat) : Bool := decide (a ≤ b)

theorem minFold_le {n : Nat} {b : List α} : ∀ (l : List α) (m : Nat), l.foldl (fun m y => if y ∈ b then min m (b.idxOf y) else m) m ≤ n ↔
    m ≤ n ∨ ∃ y ∈ l, y ∈ b ∧ b.idxOf y ≤ n
  | [], m => by simp
  | x :: l, m => by
    rw [List.foldl_cons, minFold_le l]
    by_cases hx : x ∈ b
    · rw [if_pos hx, min_le_iff]
      constructor
      · rintro ((h | h) | ⟨y, h1, h2⟩)
        · exact .inl h
        · exact .inr ⟨x, by simp, hx, h⟩
        · exact .inr ⟨y, List.mem_cons_of_mem _ h1, h2⟩
      · rintro (h | ⟨y, h1, h2, h3⟩)
        · exact .inl (.inl h)
        · rcases List.mem_cons.1 h1 with rfl | h1
          · exact .inl (.inr h3)
          · exact .inr ⟨y, h1, h2, h3⟩
    · rw [if_neg hx]
      refine or_congr_right ⟨fun ⟨y, h1, h2⟩ => ⟨y, List.mem_cons_of_mem _ h1, h2⟩, ?_⟩
      rintro ⟨y, h1, h2, h3⟩
      rcases List.mem_cons.1 h1 with rfl | h1
      · exact absurd h2 hx
      · exact ⟨y, h1, h2, h3⟩

theorem sortLevel_le {E : List (α × α)} {b : List α} {x : α} {n : Nat} (hn : n < 99999999999999) :
    sortLevel E b x ≤ n ↔ ∃ y, (x, y) ∈ E ∧ y ∈ b ∧ b.idxOf y ≤ n := by
  unfold sortLevel edgesOut
  rw [minFold_le]
  constructor
  · rintro (h | ⟨y, h1, h2⟩)
    · omega
    · obtain ⟨⟨u, v⟩, he, rfl⟩ := List.mem_map.1 h1
      obtain ⟨h3, h4⟩ := List.mem_filter.1 he
      simp only [decide_eq_true_eq] at h4
      subst h4
      exact ⟨_, h3, h2⟩
  · rintro ⟨y, h1, h2⟩
    exact .inr ⟨y, List.mem_map.2 ⟨(x, y), List.mem_filter.2 ⟨h1, by simp⟩, rfl⟩, h2⟩

theorem clusterLevels_sorted (E : List (α × α)) : ∀ (ls : List (List α)) (i : Nat) (l b : List α), (clusterLevels E ls)[i]? = some l →
    (clusterLevels E ls)[i + 1]? = some b → l.Pairwise fun x y => sortLevel E b x ≤ sortLevel E b y
  | [], i, l, b, h, _ => by simp [clusterLevels] at h
  | l0 :: ls, i, l, b, h1, h2 => by
    unfold clusterLevels at h1 h2
    cases hc : clusterLevels E ls with
    | nil => rw [hc] at h2; simp at h2
    | cons b0 bs =>
      rw [hc] at h1 h2
      simp only at h1 h2
      cases i with
      | zero =>
        simp only [List.getElem?_cons_zero, Option.some.injEq, List.getElem?_cons_succ] at h1 h2
        subst h1 h2
        refine (Deps.sortBy_sorted _ ?_ ?_ l0).imp ?_
        · intro x y; simp only [decide_eq_true_eq]; omega
        · intro x y z; simp only [decide_eq_true_eq]; omega
        · intro x y h
          simpa using h
      | succ i =>
        rw [List.getElem?_cons_succ] at h1 h2
        exact clusterLevels_sorted E ls i l b (by rw [hc]; exact h1) (by rw [hc]; exact h2)

/-- **C84** With `cluster` (and without groups), each level is sorted by where its nodes lead to in the next: levels are drawn from top to bottom, each from left to
right, and if a node has an edge to some place in the next level, then each node left of it has an edge to that place or to one left of that. -/
theorem C84_clustered (le : α → α → Bool) (g : DiGraph α) (h : Ordered le g) (hg : ∀ x ∈ g.nodes, g.group x = none) (scale : ℚ) (push : Bool)
    (hsize : g.nodes.length ≤ 99999999999999) :
    ∃ pos, ∃ levels : List (List α), directedLayout le scale push true g = .ok pos ∧ levels.flatten.Perm g.nodes ∧
      (∀ x ∈ pos, ∃ (i : Nat) (l : List α) (k : Nat), levels[i]? = some l ∧ l[k]? = some x.1 ∧
        x.2 = ((1 / (l.length : ℚ)) * ((k : ℚ) + 1 / 2) * scale, (1 - (1 / (levels.length : ℚ)) * ((i : ℚ) + 1 / 2)) * scale)) ∧
      ∀ (i : Nat) (l b : List α) (j k n : Nat) (x y z : α), levels[i]? = some l → levels[i + 1]? = some b → l[j]? = some x → l[k]? = some y → j < k →
        b[n]? = some z → (y, z) ∈ g.edges → ∃ n' z', n' ≤ n ∧ b[n']? = some z' ∧ (x, z') ∈ g.edges := by
  obtain ⟨d, p⟩ := layoutLevels_spec h.total h.trans (E := g.edges) push (nodes := g.nodes) fun u _ v _ k => h.forward (u, v) k
  have hl : levelsOf le push g = .ok (layoutLevels le g.edges push g.nodes) := by
    unfold levelsOf
    cases hx : g.nodes with
    | nil => exact absurd hx h.ne
    | cons x xs => simp [hg x (by simp [hx])]
  obtain ⟨-, p'⟩ := clusterLevels_spec g.edges d
  have pp := p'.trans p
  have hn := pp.nodup_iff.2 h.nodup
  refine ⟨positions scale (clusterLevels g.edges (layoutLevels le g.edges push g.nodes)), clusterLevels g.edges (layoutLevels le g.edges push g.nodes),
    by simp only [directedLayout, hl, bind, Except.bind, pure, Except.pure, if_true], pp, ?_, ?_⟩
  · rintro ⟨x, c⟩ hx
    rw [positions_eq scale hn] at hx
    obtain ⟨j, l, k, h1, h2, rfl⟩ := mem_posList.1 hx
    exact ⟨j, l, k, h1, h2, by simp [coord]⟩
  · intro i l b j k n x y z h1 h2 hj hk hjk hz he
    have hsort := clusterLevels_sorted _ _ i l b h1 h2
    obtain ⟨a1, a2⟩ := List.getElem?_eq_some_iff.1 hj
    obtain ⟨b1, b2⟩ := List.getElem?_eq_some_iff.1 hk
    obtain ⟨c1, c2⟩ := List.getElem?_eq_some_iff.1 hz
    have hxy := List.pairwise_iff_getElem.1 hsort j k a1 b1 hjk
    rw [a2, b2] at hxy
    have hlen : b.length ≤ g.nodes.length := by
      rw [← pp.length_eq]
      exact (List.sublist_flatten_of_mem (List.mem_of_getElem? h2)).length_le
    have hyn : sortLevel g.edges b y ≤ n := (sortLevel_le (by omega)).2 ⟨z, he, List.mem_of_getElem? hz, by
      rw [← c2]
      by_contra hlt
      have := List.not_of_lt_findIdx (p := (· == b[n])) (Nat.lt_of_not_le hlt)
      simp at this⟩
    obtain ⟨z', e1, e2, e3⟩ := (sortLevel_le (by omega)).1 (Nat.le_trans hxy hyn)
    refine ⟨b.idxOf z', z', e3, ?_, e1⟩
    have := List.idxOf_lt_length_of_mem e2
    rw [List.getElem?_eq_getElem this, List.getElem_idxOf]

/-- Nodes 0 and 1 point to nodes 3 and 2: drawn in the order 1, 0. -/
example : Ordered leNat ⟨[0, 1, 2, 3], [(0, 3), (1, 2)], fun _ => none⟩ ∧
    directedLayout leNat 1 true true ⟨[0, 1, 2, 3], [(0, 3), (1, 2)], fun _ => none⟩ =
      .ok [(1, (1 / 4, 3 / 4)), (0, (3 / 4, 3 / 4)), (2, (1 / 4, 1 / 4)), (3, (3 / 4, 1 / 4))] := by
  refine ⟨⟨?_, ?_, by decide, by decide, by decide, by decide⟩, by decide +kernel⟩
  · intro a b; simp only [leNat, decide_eq_true_eq]; omega
  · intro a b c; simp only [leNat, decide_eq_true_eq]; omega

/-- **C84** for the direct dependencies of a pipeline (C83), drawn without groups with the default key `(table, -priority)`, ruleset.py:34-39: every dependency
points downwards. -/
theorem C84_dependencies {π : Type} (rs : List (Deps.URule π)) (h : Deps.DirectOK rs) (es : List (Nat × Nat))
    (he : Deps.directRuleset true (Deps.batchEdges totBits) (Deps.parentsBdd totBits) rs = .ok es)
    (le : Nat → Nat → Bool) (total : ∀ a b, le a b = true ∨ le b a = true) (trans : ∀ a b c, le a b = true → le b c = true → le a c = true)
    (hle : ∀ r ∈ rs, ∀ s ∈ rs, le r.1 s.1 = true ↔ r.2.table < s.2.table ∨ r.2.table = s.2.table ∧ s.2.priority ≤ r.2.priority)
    (nodes : List Nat) (hne : nodes ≠ []) (hn : nodes.Nodup) (hnodes : ∀ a b, (a, b) ∈ es → a ∈ nodes ∧ b ∈ nodes) (push cluster : Bool) :
    ∃ pos, directedLayout le 1 push cluster ⟨nodes, es, fun _ => none⟩ = .ok pos ∧ Drawn 1 nodes pos ∧ ∀ a b, (a, b) ∈ es → Above pos a b := by
  have hrs : rs ≠ [] := by rintro rfl; cases he
  obtain ⟨es', e1, -, e2⟩ := Deps.C83_batch_partial rs hrs h
  rw [e1] at he
  cases he
  obtain ⟨pos, p1, p2, p3⟩ := C84_layout_partial le ⟨nodes, es, fun _ => none⟩ ⟨total, trans, hn, hne, fun e he => hnodes e.1 e.2 he, fun e he => by
    obtain ⟨r, s, p, h1, h2, hrs⟩ := (e2 e.1 e.2).1 he
    rw [← h1, ← h2]
    rcases hrs with hb | hb
    · have := hle s hb.2.1 r hb.1
      cases hc : le s.1 r.1 with
      | false => rfl
      | true =>
        have h3 := this.1 hc
        have h4 := hb.2.2.1
        have h5 := hb.2.2.2.1
        omega
    · have := hle s hb.2.2.2.1 r hb.1
      cases hc : le s.1 r.1 with
      | false => rfl
      | true =>
        have h3 := this.1 hc
        have h4 := h.goto r hb.1 _ hb.2.2.1
        omega⟩ (fun _ _ => rfl) 1 (by decide) push cluster
  exact ⟨pos, p1, p2, fun a b hab => p3 (a, b) hab⟩

/-! ## Where it fails -/

/-- **C84** fails for the empty graph: `next(iter(...))` raises, graph_ruleset_deps.py:307.  (StopIteration, see `levelsOf`.) -/
theorem C84_empty (le : α → α → Bool) (scale : ℚ) (push cluster : Bool) (E : List (α × α)) (grp : α → Option Nat) :
    directedLayout le scale push cluster ⟨[], E, grp⟩ = .error .runtimeError := rfl

/-- **C84** fails if only some nodes have a group: KeyError. -/
theorem C84_some_groups (le : α → α → Bool) (scale : ℚ) (push cluster : Bool) (g : DiGraph α) (x : α) (xs : List α) (h : g.nodes = x :: xs)
    (h1 : (g.group x).isSome) (y : α) (hy : y ∈ xs) (h2 : g.group y = none) : directedLayout le scale push cluster g = .error .keyError := by
  have : (g.nodes.all fun y => (g.group y).isSome) = false := by
    rw [List.all_eq_false]
    exact ⟨y, by rw [h]; exact List.mem_cons_of_mem _ hy, by simp [h2]⟩
  unfold directedLayout levelsOf
  rw [h] at this ⊢
  simp only [h1, this, if_true, Bool.false_eq_true, if_false]
  rfl

/-- Node 0 of group 1 and its child 1 of group 0. -/
def againstGroups : DiGraph Nat := ⟨[0, 1], [(0, 1)], fun n => some (1 - n)⟩

/-- **C84** fails if groups go against the edges: the docstring ensures "that all children are placed on lower levels than their parents", but here the
parent is drawn below its child. -/
theorem C84_compressed_groups :
    Ordered leNat againstGroups ∧ (∀ x ∈ againstGroups.nodes, (againstGroups.group x).isSome) ∧ (0, 1) ∈ againstGroups.edges ∧
    ∀ push cluster, directedLayout leNat 1 push cluster againstGroups = .ok [(1, (1 / 2, 3 / 4)), (0, (1 / 2, 1 / 4))] := by
  refine ⟨⟨?_, ?_, by decide, by decide, by decide, by decide⟩, by decide, by decide, by decide +kernel⟩
  · intro a b; simp only [leNat, decide_eq_true_eq]; omega
  · intro a b c; simp only [leNat, decide_eq_true_eq]; omega

/-- The chain 0, 1, 2, 3, 5, and node 4 that points to the last of it. -/
def besideChain : DiGraph Nat := ⟨[0, 4, 1, 2, 3, 5], [(0, 1), (1, 2), (2, 3), (3, 5), (4, 5)], fun _ => none⟩

/-- The order of `besideChain`. -/
def leBeside (a b : Nat) : Bool := leNat (if a = 4 then 0 else a) (if b = 4 then 0 else b)

theorem besideChain_ordered : Ordered leBeside besideChain := by
  refine ⟨?_, ?_, by decide, by decide, by decide, by decide⟩
  · intro a b; simp only [leBeside, leNat, decide_eq_true_eq]; omega
  · intro a b c; simp only [leBeside, leNat, decide_eq_true_eq]; omega

/-- **C84** fails for `push_down`: nodes are not "placed at the lowest possible point in the graph", graph_ruleset_deps.py:255-256, as each is moved down
one level at most.  Node 4 may be drawn on level 3 of 5, directly above its child, yet comes to lie on level 1, next to node 1. -/
theorem C84_not_lowest :
    (∃ level : Nat → Nat, (∀ e ∈ besideChain.edges, level e.1 < level e.2) ∧ (∀ x ∈ besideChain.nodes, level x < 5) ∧ level 4 = 3) ∧
    ∀ cluster, directedLayout leBeside 1 true cluster besideChain = .ok
      [(0, (1 / 2, 9 / 10)), (1, (1 / 4, 7 / 10)), (4, (3 / 4, 7 / 10)), (2, (1 / 2, 1 / 2)), (3, (1 / 2, 3 / 10)),
        (5, (1 / 2, 1 / 10))] := by
  refine ⟨⟨fun n => if n = 4 then 3 else if n = 5 then 4 else n, by decide, by decide, by decide⟩, by decide +kernel⟩

/-! ## Examples -/

example : Ordered leBeside besideChain ∧ (∀ x ∈ besideChain.nodes, besideChain.group x = none) ∧ (0 : ℚ) < 1 :=
  ⟨besideChain_ordered, fun _ _ => rfl, by decide⟩

/-- Without pushing down, node 4 stays at the top. -/
example : directedLayout leBeside 1 false true besideChain = .ok
    [(0, (1 / 4, 9 / 10)), (4, (3 / 4, 9 / 10)), (1, (1 / 2, 7 / 10)), (2, (1 / 2, 1 / 2)), (3, (1 / 2, 3 / 10)), (5, (1 / 2, 1 / 10))] := by
  decide +kernel

/-- Two tables as groups: rule 2 of the second table is drawn below the rules of the first though nothing leads to it. -/
def twoTables : DiGraph Nat := ⟨[0, 1, 2, 3], [(0, 1), (0, 3)], fun n => some (n / 2)⟩

example : Ordered leNat twoTables ∧ (∀ x ∈ twoTables.nodes, (twoTables.group x).isSome) ∧
    (∀ e ∈ twoTables.edges, ∀ s t, twoTables.group e.1 = some s → twoTables.group e.2 = some t → s ≤ t) := by
  refine ⟨⟨?_, ?_, by decide, by decide, by decide, by decide⟩, by decide, ?_⟩
  · intro a b; simp only [leNat, decide_eq_true_eq]; omega
  · intro a b c; simp only [leNat, decide_eq_true_eq]; omega
  · intro e he s t h1 h2
    simp only [twoTables, Option.some.injEq] at h1 h2
    have : e.1 ≤ e.2 := (by decide : ∀ e ∈ twoTables.edges, e.1 ≤ e.2) e he
    omega

example : directedLayout leNat 1 true true twoTables = .ok [(0, (1 / 2, 5 / 6)), (1, (1 / 2, 1 / 2)), (2, (1 / 4, 1 / 6)), (3, (3 / 4, 1 / 6))] := by
  decide +kernel

/-- The order of the pipeline of C83: rules 2 and 3 have the same priority. -/
def lePipe (a b : Nat) : Bool := leNat (if a = 3 then 2 else a) (if b = 3 then 2 else b)

example : ∃ es, Deps.DirectOK Deps.pipeD ∧ Deps.directRuleset true (Deps.batchEdges totBits) (Deps.parentsBdd totBits) Deps.pipeD = .ok es ∧
    (∀ a b, lePipe a b = true ∨ lePipe b a = true) ∧ (∀ a b c, lePipe a b = true → lePipe b c = true → lePipe a c = true) ∧
    (∀ r ∈ Deps.pipeD, ∀ s ∈ Deps.pipeD, lePipe r.1 s.1 = true ↔ r.2.table < s.2.table ∨ r.2.table = s.2.table ∧ s.2.priority ≤ r.2.priority) ∧
    (∀ a b, (a, b) ∈ es → a ∈ [0, 1, 2, 3, 4] ∧ b ∈ [0, 1, 2, 3, 4]) ∧
    directedLayout lePipe 1 true true ⟨[0, 1, 2, 3, 4], es, fun _ => none⟩ =
      .ok [(0, (1 / 2, 7 / 8)), (1, (1 / 2, 5 / 8)), (2, (1 / 4, 3 / 8)), (3, (3 / 4, 3 / 8)), (4, (1 / 2, 1 / 8))] := by
  refine ⟨[(0, 1), (2, 4), (3, 4), (0, 2), (1, 2), (1, 3), (1, 4)], Deps.pipeD_ok, by decide +kernel, ?_, ?_, by decide +kernel, by simp; omega,
    by decide +kernel⟩
  · intro a b; simp only [lePipe, leNat, decide_eq_true_eq]; omega
  · intro a b c; simp only [lePipe, leNat, decide_eq_true_eq]; omega

/-- Some nodes with and some without a group. -/
example : directedLayout leNat 1 true true ⟨[0, 1], [], fun n => if n = 0 then some 0 else none⟩ = .error .keyError :=
  C84_some_groups leNat 1 true true ⟨[0, 1], [], fun n => if n = 0 then some 0 else none⟩ 0 [1] rfl rfl 1 (by simp) rfl

end Graph
end OFE
