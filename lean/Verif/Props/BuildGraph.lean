import Verif.Graph.BuildLemmas
import Verif.Props.Layout
import Verif.Props.Select

/-! # C85: dependency graphs -/

namespace OFE
namespace Graph

variable {π : Type}

theorem not_alone {deps : List (Nat × Nat)} {i : Nat} : ¬ Alone deps i ↔ ∃ j, (i, j) ∈ deps ∨ (j, i) ∈ deps := by
  unfold Alone
  constructor
  · intro h
    apply Classical.byContradiction
    intro hc
    exact h fun j => ⟨fun h1 => hc ⟨j, .inl h1⟩, fun h1 => hc ⟨j, .inr h1⟩⟩
  · rintro ⟨j, h1 | h1⟩ h
    · exact (h j).1 h1
    · exact (h j).2 h1

theorem mem_nodes {rules : List (Rule π)} {deps : List (Nat × Nat)} (hin : ∀ e ∈ deps, e.1 < rules.length ∧ e.2 < rules.length) (i : Nat) :
    i ∈ (edgesOf rules deps).1 ↔ i < rules.length ∧ ¬ Alone deps i := by
  rw [(edgesOf_spec rules deps).2.2.1, not_alone]
  constructor
  · rintro ⟨j, h | h⟩
    · exact ⟨(hin _ h).1, j, .inl h⟩
    · exact ⟨(hin _ h).2, j, .inr h⟩
  · exact fun h => h.2

theorem shows_of {rules : List (Rule π)} {deps : List (Nat × Nat)} (hin : ∀ e ∈ deps, e.1 < rules.length ∧ e.2 < rules.length) {g : DepGraph}
    (hn : g.nodes = (edgesOf rules deps).1) (he : g.edges = (edgesOf rules deps).2)
    (hl : g.label = ((List.range rules.length).filter fun i => decide (i ∈ (edgesOf rules deps).1)).map fun i => (i, i))
    (hu : g.unreachable = (List.range rules.length).filter fun i => decide (i ∉ (edgesOf rules deps).1)) : Shows rules deps g := by
  obtain ⟨a1, a2, a3, a4⟩ := edgesOf_spec rules deps
  refine ⟨hn ▸ a1, fun i => by rw [hn]; exact mem_nodes hin i, he ▸ a2, fun i j red => ?_, fun i n => ?_, fun i => ?_⟩
  · rw [he, a4]
    refine and_congr_right fun hd => ?_
    obtain ⟨h1, h2⟩ := hin _ hd
    have e1 := List.getElem?_eq_getElem h1
    have e2 := List.getElem?_eq_getElem h2
    rw [tableOf_get e1, tableOf_get e2]
    constructor
    · rintro rfl r s hr hs
      rw [e1] at hr; rw [e2] at hs
      cases hr; cases hs
      simp
    · intro h
      have := h _ _ e1 e2
      rw [Bool.eq_iff_iff, this]
      simp
  · rw [hl, hn, List.mem_map]
    constructor
    · rintro ⟨k, hk, e⟩
      cases e
      exact ⟨by simpa using (List.mem_filter.1 hk).2, rfl⟩
    · rintro ⟨h1, rfl⟩
      exact ⟨n, List.mem_filter.2 ⟨List.mem_range.2 ((mem_nodes hin n).1 h1).1, by simpa using h1⟩, rfl⟩
  · rw [hu, List.mem_filter, List.mem_range, decide_eq_true_eq, mem_nodes hin]
    constructor
    · rintro ⟨h1, h2⟩
      exact ⟨h1, Classical.byContradiction fun hc => h2 ⟨h1, hc⟩⟩
    · rintro ⟨h1, h2⟩
      exact ⟨h1, fun h => h.2 h2⟩

/-- **C85** (partial: rules without dependencies are left out, whether packets hit them or not, see `C85_single`; without `--compress`, for which see
`C85_compress`, and groups that need it, see `C85_no_groups`.)  For every sorted ruleset and all dependencies between its rules the graph shows the dependencies
as edges and the rules that have any as nodes; clusters and groups number the tables, or the priorities within the tables, in order. -/
theorem C85_graph_partial (ord : Groups.Sel Nat → List Nat → List Nat) (cluster group : Grouping) (hc : cluster ≠ .compressed) (hg : group ≠ .compressed)
    (onlyGroup : Bool) (rules : List (Rule π)) (hs : Sorted rules) (deps : List (Nat × Nat)) (hin : ∀ e ∈ deps, e.1 < rules.length ∧ e.2 < rules.length) :
    ∃ g, buildGraph ord ⟨false, onlyGroup, false, cluster, group, false⟩ rules deps = .ok g ∧ Shows rules deps g ∧
      NumberedBy rules g.nodes cluster g.cluster ∧ NumberedBy rules g.nodes group g.group ∧ g.filled = [] := by
  have hn : ∀ i ∈ (edgesOf rules deps).1, i < rules.length := fun i hi => ((mem_nodes hin i).1 hi).1
  obtain ⟨d1, e1, n1⟩ := grouped_spec hs hn none cluster hc
  obtain ⟨d2, e2, n2⟩ := grouped_spec hs hn none group hg
  have hmap : ∀ l : List Nat, (l.map fun i => (i, i)).map (·.1) = l := by intro l; simp [Function.comp_def]
  refine ⟨⟨(edgesOf rules deps).1, (edgesOf rules deps).2, ((List.range rules.length).filter fun i => decide (i ∈ (edgesOf rules deps).1)).map fun i => (i, i), d1, d2,
    [], [], (List.range rules.length).filter fun i => decide (i ∉ (edgesOf rules deps).1)⟩, ?_, shows_of hin rfl rfl rfl rfl, n1, n2, rfl⟩
  simp only [buildGraph, minsOf, bind, Except.bind, Bool.false_eq_true, if_false, labels_plain _ _ ⟨[], [], none⟩ rfl, List.nil_append, hmap, e1, e2, positionsOf, pure,
    Except.pure, Option.map_none, Option.getD_none]

theorem keyLe_total (rules : List (Rule π)) (i j : Nat) : keyLe rules i j = true ∨ keyLe rules j i = true := by
  simp only [keyLe, decide_eq_true_eq]; omega

theorem keyLe_trans (rules : List (Rule π)) (i j k : Nat) (h1 : keyLe rules i j = true) (h2 : keyLe rules j k = true) : keyLe rules i k = true := by
  simp only [keyLe, decide_eq_true_eq] at *; omega

theorem keyLe_before {rules : List (Rule π)} {i j : Nat} (h : Groups.Before rules i j) : keyLe rules j i = false := by
  obtain ⟨r, s, hr, hs, h⟩ := h
  simp only [keyLe, decide_eq_false_iff_not, tableOf_get hr, tableOf_get hs, prioOf_get hr, prioOf_get hs]
  omega

theorem before_lt {rules : List (Rule π)} {i j : Nat} (h : Groups.Before rules i j) : i < rules.length ∧ j < rules.length := by
  obtain ⟨r, s, hr, hs, -⟩ := h
  exact ⟨(List.getElem?_eq_some_iff.1 hr).1, (List.getElem?_eq_some_iff.1 hs).1⟩

/-- **C85** (partial as `C85_graph_partial`, and some rule must depend on another, see `C85_single`.)  With positions: if rules depend on rules of earlier
tables or higher priority, which computed dependencies do (`C61_computed_forward`), the graph is drawn with all edges leading down. -/
theorem C85_drawn_partial (ord : Groups.Sel Nat → List Nat → List Nat) (cluster group : Grouping) (hc : cluster ≠ .compressed) (hg : group ≠ .compressed)
    (onlyGroup : Bool) (rules : List (Rule π)) (hs : Sorted rules) (deps : List (Nat × Nat)) (hne : deps ≠ []) (hfwd : ∀ e ∈ deps, Groups.Before rules e.1 e.2) :
    ∃ g, buildGraph ord ⟨false, onlyGroup, false, cluster, group, true⟩ rules deps = .ok g ∧ Shows rules deps g ∧
      NumberedBy rules g.nodes cluster g.cluster ∧ NumberedBy rules g.nodes group g.group ∧ Drawn 1 g.nodes g.pos ∧ ∀ e ∈ deps, Above g.pos e.1 e.2 := by
  have hin : ∀ e ∈ deps, e.1 < rules.length ∧ e.2 < rules.length := fun e he => before_lt (hfwd e he)
  have hn : ∀ i ∈ (edgesOf rules deps).1, i < rules.length := fun i hi => ((mem_nodes hin i).1 hi).1
  obtain ⟨d1, e1, n1⟩ := grouped_spec hs hn none cluster hc
  obtain ⟨d2, e2, n2⟩ := grouped_spec hs hn none group hg
  obtain ⟨a1, a2, a3, a4⟩ := edgesOf_spec rules deps
  have hE : ∀ e, e ∈ (edgesOf rules deps).2.map (·.1) ↔ e ∈ deps := by
    rintro ⟨i, j⟩
    constructor
    · intro h
      obtain ⟨⟨e, c⟩, h1, h2⟩ := List.mem_map.1 h
      subst h2
      exact ((a4 _ _ _).1 h1).1
    · exact fun h => List.mem_map.2 ⟨_, (a4 i j _).2 ⟨h, rfl⟩, rfl⟩
  have hends : ∀ e ∈ deps, e.1 ∈ (edgesOf rules deps).1 ∧ e.2 ∈ (edgesOf rules deps).1 := fun e he => ⟨(a3 _).2 ⟨e.2, .inl he⟩, (a3 _).2 ⟨e.1, .inr he⟩⟩
  have hord : Ordered (keyLe rules) ⟨(edgesOf rules deps).1, (edgesOf rules deps).2.map (·.1), fun i => d2.lookup i⟩ := by
    refine ⟨keyLe_total rules, keyLe_trans rules, a1, fun h => ?_, fun e he => hends e ((hE e).1 he), fun e he => keyLe_before (hfwd e ((hE e).1 he))⟩
    obtain ⟨e, he⟩ := List.exists_mem_of_ne_nil _ hne
    have := (hends e he).1
    simp only at h
    rw [h] at this
    cases this
  have hpos : ∃ pos, positionsOf rules true (edgesOf rules deps).1 (edgesOf rules deps).2 d2 = .ok pos ∧ Drawn 1 (edgesOf rules deps).1 pos ∧ ∀ e ∈ deps, Above pos e.1 e.2 := by
    have some_of : ∀ lt, Numbered rules (edgesOf rules deps).1 lt d2 → (∀ e ∈ deps, ∀ r s, rules[e.1]? = some r → rules[e.2]? = some s → ¬ lt s r) →
        ∃ pos, positionsOf rules true (edgesOf rules deps).1 (edgesOf rules deps).2 d2 = .ok pos ∧ Drawn 1 (edgesOf rules deps).1 pos ∧ ∀ e ∈ deps, Above pos e.1 e.2 := by
      intro lt hnum hlt
      obtain ⟨pos, p1, p2, p3, -⟩ := C84_groups_partial _ _ hord (fun x hx => (hnum.all x).2 hx) (by
        intro e he s t h1 h2
        have he' := (hE e).1 he
        obtain ⟨k1, k2⟩ := hin e he'
        have g1 := List.getElem?_eq_getElem k1
        have g2 := List.getElem?_eq_getElem k2
        have := (not_congr (hnum.order e.2 e.1 t s _ _ h2 h1 g2 g1)).2 (hlt e he' _ _ g1 g2)
        omega) 1 (by decide) true true
      exact ⟨pos, by rw [positionsOf, if_pos rfl]; exact p1, p2, fun e he => p3 e ((hE e).2 he)⟩
    cases group with
    | compressed => exact absurd rfl hg
    | none =>
      cases (show d2 = [] from n2)
      obtain ⟨pos, p1, p2, p3⟩ := C84_layout_partial _ _ hord (fun _ _ => rfl) 1 (by decide) true true
      exact ⟨pos, by rw [positionsOf, if_pos rfl]; exact p1, p2, fun e he => p3 e ((hE e).2 he)⟩
    | table =>
      refine some_of _ n2 fun e he r s hr hs' => ?_
      obtain ⟨r', s', h1, h2, h3⟩ := hfwd e he
      rw [hr] at h1; rw [hs'] at h2
      cases h1; cases h2
      omega
    | priority =>
      refine some_of _ n2 fun e he r s hr hs' => ?_
      obtain ⟨r', s', h1, h2, h3⟩ := hfwd e he
      rw [hr] at h1; rw [hs'] at h2
      cases h1; cases h2
      omega
  obtain ⟨pos, p1, p2, p3⟩ := hpos
  have hmap : ∀ l : List Nat, (l.map fun i => (i, i)).map (·.1) = l := by intro l; simp [Function.comp_def]
  refine ⟨⟨(edgesOf rules deps).1, (edgesOf rules deps).2, ((List.range rules.length).filter fun i => decide (i ∈ (edgesOf rules deps).1)).map fun i => (i, i), d1, d2,
    pos, [], (List.range rules.length).filter fun i => decide (i ∉ (edgesOf rules deps).1)⟩, ?_, shows_of hin rfl rfl rfl rfl, n1, n2, p2, p3⟩
  simp only [buildGraph, minsOf, bind, Except.bind, Bool.false_eq_true, if_false, labels_plain _ _ ⟨[], [], none⟩ rfl, List.nil_append, hmap, e1, e2, p1, pure,
    Except.pure, Option.map_none, Option.getD_none]

/-! ## With `--compress` -/

/-- Specification: the groups of similar rules are numbered, and rules have the same number exactly if they are in the same group. -/
def Clustered (groups : List (Nat × List Nat)) (nodes : List Nat) (d : List (Nat × Nat)) : Prop :=
  (∀ i, (d.lookup i).isSome ↔ i ∈ nodes) ∧ ∀ i j a b, d.lookup i = some a → d.lookup j = some b → (a = b ↔ Groups.Together groups i j)

theorem same_group : ∀ {groups : List (Nat × List Nat)}, (groups.map (·.2)).flatten.Nodup → ∀ {x y : Nat × List Nat} {z : Nat}, x ∈ groups → y ∈ groups →
    z ∈ x.2 → z ∈ y.2 → x = y
  | [], _, x, y, z, hx, _, _, _ => by cases hx
  | g :: groups, h, x, y, z, hx, hy, zx, zy => by
    rw [List.map_cons, List.flatten_cons] at h
    obtain ⟨-, h2, h3⟩ := List.nodup_append.1 h
    have fl : ∀ w ∈ groups, z ∈ w.2 → z ∈ (groups.map (·.2)).flatten := fun w hw hz => List.mem_flatten.2 ⟨w.2, List.mem_map.2 ⟨w, hw, rfl⟩, hz⟩
    rcases List.mem_cons.1 hx with rfl | hx' <;> rcases List.mem_cons.1 hy with rfl | hy'
    · rfl
    · exact absurd rfl (h3 z zx z (fl y hy' zy))
    · exact absurd rfl (h3 z zy z (fl x hx' zx))
    · exact same_group h2 hx' hy' zx zy

theorem keys_nodup : ∀ {groups : List (Nat × List Nat)}, (groups.map (·.2)).flatten.Nodup → (∀ g ∈ groups, g.2.head? = some g.1) → (groups.map (·.1)).Nodup
  | [], _, _ => List.nodup_nil
  | g :: groups, h, hh => by
    rw [List.map_cons, List.flatten_cons] at h
    obtain ⟨-, h2, h3⟩ := List.nodup_append.1 h
    rw [List.map_cons, List.nodup_cons]
    refine ⟨fun hm => ?_, keys_nodup h2 fun x hx => hh x (List.mem_cons_of_mem _ hx)⟩
    obtain ⟨x, hx, e⟩ := List.mem_map.1 hm
    have k1 := List.mem_of_mem_head? (hh g List.mem_cons_self)
    have k2 := List.mem_of_mem_head? (hh x (List.mem_cons_of_mem _ hx))
    exact h3 _ k1 _ (List.mem_flatten.2 ⟨x.2, List.mem_map.2 ⟨x, hx, rfl⟩, k2⟩) e.symm

/-- What the theorems on groups (C42, C61) give. -/
structure Partition (rules : List (Rule π)) (deps : List (Nat × Nat)) (groups : List (Nat × List Nat)) : Prop where
  perm : (groups.map (·.2)).flatten.Perm (List.range rules.length)
  head : ∀ g ∈ groups, g.2.head? = some g.1
  alone : ∀ i j, Groups.Together groups i j → Alone deps i → Alone deps j

theorem Partition.nodup {rules : List (Rule π)} {deps : List (Nat × Nat)} {groups : List (Nat × List Nat)} (h : Partition rules deps groups) :
    (groups.map (·.2)).flatten.Nodup := h.perm.nodup_iff.2 List.nodup_range

theorem grouped_compressed {rules : List (Rule π)} {deps : List (Nat × Nat)} (hin : ∀ e ∈ deps, e.1 < rules.length ∧ e.2 < rules.length)
    {groups g' : List (Nat × List Nat)} (hp : Partition rules deps groups) (hg : (g'.map (·.1)).Nodup)
    (hm : ∀ x, x ∈ g' ↔ x ∈ groups ∧ (x.1 ∈ List.range rules.length → x.1 ∈ (edgesOf rules deps).1)) (r' l : List Nat) :
    ∃ d, grouped rules (edgesOf rules deps).1 l (some (r', g')) .compressed = .ok d ∧ Clustered groups (edgesOf rules deps).1 d := by
  have hperm := Deps.sortBy_perm (keyLe rules) (g'.map (·.1))
  have hget : ∀ k ∈ Deps.sortBy (keyLe rules) (g'.map (·.1)), (k, (g'.lookup k).getD []) ∈ g' := by
    intro k hk
    obtain ⟨v, hv⟩ := Option.isSome_iff_exists.1 (lookup_isSome_iff.2 (hperm.mem_iff.1 hk))
    rw [hv]
    exact (mem_dict_iff hg).2 hv
  have lt_of : ∀ x ∈ groups, ∀ i ∈ x.2, i < rules.length := fun x hx i hi =>
    List.mem_range.1 (hp.perm.mem_iff.1 (List.mem_flatten.2 ⟨x.2, List.mem_map.2 ⟨x, hx, rfl⟩, hi⟩))
  have inn : ∀ x ∈ g', ∀ i ∈ x.2, i ∈ (edgesOf rules deps).1 := by
    intro x hx i hi
    obtain ⟨h1, h2⟩ := (hm x).1 hx
    have hk := List.mem_of_mem_head? (hp.head x h1)
    have h3 := h2 (List.mem_range.2 (lt_of x h1 _ hk))
    rw [mem_nodes hin] at h3 ⊢
    exact ⟨lt_of x h1 i hi, fun ha => h3.2 (hp.alone i x.1 ⟨x, h1, hi, hk⟩ ha)⟩
  have hmem : ∀ i, i ∈ ((Deps.sortBy (keyLe rules) (g'.map (·.1))).map fun k => (g'.lookup k).getD []).flatten ↔ i ∈ (edgesOf rules deps).1 := by
    intro i
    rw [List.mem_flatten]
    constructor
    · rintro ⟨l', hl', hi⟩
      obtain ⟨k, hk, rfl⟩ := List.mem_map.1 hl'
      exact inn _ (hget k hk) i hi
    · intro hi
      have hi' := (mem_nodes hin i).1 hi
      obtain ⟨l', hl', hil⟩ := List.mem_flatten.1 (hp.perm.mem_iff.2 (List.mem_range.2 hi'.1))
      obtain ⟨x, hx, rfl⟩ := List.mem_map.1 hl'
      have hk := List.mem_of_mem_head? (hp.head x hx)
      have hx' : x ∈ g' := (hm x).2 ⟨hx, fun _ => (mem_nodes hin _).2 ⟨lt_of x hx _ hk, fun ha => hi'.2 (hp.alone x.1 i ⟨x, hx, hk, hil⟩ ha)⟩⟩
      refine ⟨x.2, List.mem_map.2 ⟨x.1, hperm.mem_iff.2 (List.mem_map.2 ⟨x, hx', rfl⟩), ?_⟩, hil⟩
      rw [(mem_dict_iff hg (k := x.1) (v := x.2)).1 hx']
      rfl
  have hnd : ((Deps.sortBy (keyLe rules) (g'.map (·.1))).map fun k => (g'.lookup k).getD []).flatten.Nodup := by
    rw [List.nodup_flatten]
    constructor
    · intro l' hl'
      obtain ⟨k, hk, rfl⟩ := List.mem_map.1 hl'
      exact (List.nodup_flatten.1 hp.nodup).1 _ (List.mem_map.2 ⟨_, ((hm _).1 (hget k hk)).1, rfl⟩)
    · rw [List.pairwise_map]
      refine List.Pairwise.imp_of_mem ?_ (hperm.nodup_iff.2 hg)
      intro a b ha hb hab z hz1 hz2
      have := same_group hp.nodup ((hm _).1 (hget a ha)).1 ((hm _).1 (hget b hb)).1 hz1 hz2
      exact hab (congrArg Prod.fst this)
  obtain ⟨d, d1, d2, d3⟩ := numberGroups_spec (edgesOf rules deps).1 _ 1 [] (fun r hr => (hmem r).1 hr) hnd
  have look : ∀ i a, d.lookup i = some a → ∃ (m : Nat) (k : Nat), (Deps.sortBy (keyLe rules) (g'.map (·.1)))[m]? = some k ∧ i ∈ (g'.lookup k).getD [] ∧ a = 1 + m := by
    intro i a ha
    by_cases hi : i ∈ (edgesOf rules deps).1
    · obtain ⟨l', hl', hil⟩ := List.mem_flatten.1 ((hmem i).2 hi)
      obtain ⟨m, hm'⟩ := List.mem_iff_getElem?.1 hl'
      have h2 := d2 m l' hm' i hil
      rw [ha, Option.some.injEq] at h2
      rw [List.getElem?_map, Option.map_eq_some_iff] at hm'
      obtain ⟨k, hk, rfl⟩ := hm'
      exact ⟨m, k, hk, hil, h2⟩
    · rw [d3 i fun hc => hi ((hmem i).1 hc)] at ha
      cases ha
  refine ⟨d, d1, fun i => ⟨fun h => ?_, fun h => ?_⟩, fun i j a b ha hb => ?_⟩
  · obtain ⟨a, ha⟩ := Option.isSome_iff_exists.1 h
    obtain ⟨m, k, hk, hi, -⟩ := look i a ha
    exact inn _ (hget k (List.mem_of_getElem? hk)) i hi
  · obtain ⟨l', hl', hil⟩ := List.mem_flatten.1 ((hmem i).2 h)
    obtain ⟨m, hm'⟩ := List.mem_iff_getElem?.1 hl'
    rw [d2 m l' hm' i hil]
    rfl
  · obtain ⟨m, k, hk, hi, rfl⟩ := look i a ha
    obtain ⟨n, k', hk', hj, rfl⟩ := look j b hb
    have g1 := ((hm _).1 (hget k (List.mem_of_getElem? hk))).1
    have g2 := ((hm _).1 (hget k' (List.mem_of_getElem? hk'))).1
    constructor
    · intro e
      have : m = n := by omega
      subst this
      rw [hk] at hk'
      cases hk'
      exact ⟨_, g1, hi, hj⟩
    · rintro ⟨x, hx, hxi, hxj⟩
      have e1 := same_group hp.nodup hx g1 hxi hi
      have e2 := same_group hp.nodup hx g2 hxj hj
      have ek : k = k' := by rw [e1] at e2; exact congrArg Prod.fst e2
      subst ek
      obtain ⟨x1, x2⟩ := List.getElem?_eq_some_iff.1 hk
      obtain ⟨y1, y2⟩ := List.getElem?_eq_some_iff.1 hk'
      have := (List.Nodup.getElem_inj_iff (hperm.nodup_iff.2 hg) (hi := x1) (hj := y1)).1 (x2.trans y2.symm)
      omega

/-- Specification: the numbers for each kind of clusters and groups. -/
def NumberedFor (rules : List (Rule π)) (nodes : List Nat) (groups : List (Nat × List Nat)) (k : Grouping) (d : List (Nat × Nat)) : Prop :=
  if k = .compressed then Clustered groups nodes d else NumberedBy rules nodes k d

theorem build_compress (ord : Groups.Sel Nat → List Nat → List Nat) (o : GraphOpts) (hm : o.noTableMiss = false) (hd : o.drawn = false)
    (rules : List (Rule π)) (hs : Sorted rules) (deps : List (Nat × Nat)) (hin : ∀ e ∈ deps, e.1 < rules.length ∧ e.2 < rules.length)
    {sel : List Nat} {groups : List (Nat × List Nat)} (h : minsOf ord o rules deps = .ok (some (sel, groups))) (hp : Partition rules deps groups)
    (hsel : sel.Nodup) (hkey : ∀ i ∈ sel, i ∈ groups.map (·.1)) :
    ((∃ i, i < rules.length ∧ Alone deps i ∧ i ∉ sel) → buildGraph ord o rules deps = .error .valueError) ∧
    ((∀ i, i < rules.length → Alone deps i → i ∈ sel) → ∃ g, buildGraph ord o rules deps = .ok g ∧ Shows rules deps g ∧
      NumberedFor rules g.nodes groups o.cluster g.cluster ∧ NumberedFor rules g.nodes groups o.group g.group ∧
      g.filled.Nodup ∧ ∀ i, i ∈ g.filled ↔ i ∈ sel ∧ ¬ Alone deps i) := by
  have hn : ∀ i ∈ (edgesOf rules deps).1, i < rules.length := fun i hi => ((mem_nodes hin i).1 hi).1
  have nal : ∀ i, i < rules.length → (i ∉ (edgesOf rules deps).1 ↔ Alone deps i) := by
    intro i hi
    rw [mem_nodes hin]
    exact ⟨fun hh => Classical.byContradiction fun hc => hh ⟨hi, hc⟩, fun ha hh => hh.2 ha⟩
  obtain ⟨p, q⟩ := labels_mins (edgesOf rules deps).1 (List.range rules.length) ⟨[], [], some (sel, groups)⟩ sel groups List.nodup_range rfl hsel
    (keys_nodup hp.nodup hp.head) hkey
  constructor
  · rintro ⟨i, hi, ha, hns⟩
    have := q ⟨i, List.mem_range.2 hi, (nal i hi).2 ha, hns⟩
    simp only [buildGraph, hm, h, bind, Except.bind, Bool.false_eq_true, if_false, this]
  · intro hall
    obtain ⟨r', g', e, ⟨e1, e2⟩, e3, e4⟩ := p fun i hi hia => hall i (List.mem_range.1 hi) ((nal i (List.mem_range.1 hi)).1 hia)
    have hgr : ∀ k : Grouping, ∃ d, grouped rules (edgesOf rules deps).1 ((List.range rules.length).filter fun i => decide (i ∈ (edgesOf rules deps).1))
        (some (r', g')) k = .ok d ∧ NumberedFor rules (edgesOf rules deps).1 groups k d := by
      intro k
      unfold NumberedFor
      by_cases hk : k = .compressed
      · subst hk
        simpa only [if_true] using grouped_compressed hin hp e3 e4 r' _
      · simp only [if_neg hk]
        exact grouped_spec hs hn _ k hk
    obtain ⟨d1, c1, n1⟩ := hgr o.cluster
    obtain ⟨d2, c2, n2⟩ := hgr o.group
    have hmap : ∀ l : List Nat, (l.map fun i => (i, i)).map (·.1) = l := by intro l; simp [Function.comp_def]
    refine ⟨⟨(edgesOf rules deps).1, (edgesOf rules deps).2, ((List.range rules.length).filter fun i => decide (i ∈ (edgesOf rules deps).1)).map fun i => (i, i), d1, d2,
      [], r', (List.range rules.length).filter fun i => decide (i ∉ (edgesOf rules deps).1)⟩, ?_, shows_of hin rfl rfl rfl rfl, n1, n2, e1, fun i => ?_⟩
    · simp only [buildGraph, hm, hd, h, bind, Except.bind, Bool.false_eq_true, if_false, e, List.nil_append, hmap, c1, c2, positionsOf, pure, Except.pure,
        Option.map_some, Option.getD_some]
    · simp only [e2, List.mem_range]
      refine and_congr_right fun hi => ?_
      obtain ⟨x, hx, rfl⟩ := List.mem_map.1 (hkey i hi)
      have hlt : x.1 < rules.length := List.mem_range.1 (hp.perm.mem_iff.1 (List.mem_flatten.2 ⟨x.2, List.mem_map.2 ⟨x, hx, rfl⟩,
        List.mem_of_mem_head? (hp.head x hx)⟩))
      rw [← nal _ hlt, Classical.not_not]
      exact ⟨fun hh => hh hlt, fun hh _ => hh⟩

theorem alone_iff {deps : List (Nat × Nat)} {i : Nat} : Alone deps i ↔ Groups.parents deps i = [] ∧ Groups.children deps i = [] := by
  simp only [Groups.parents, Groups.children, List.map_eq_nil_iff, List.filter_eq_nil_iff, decide_eq_true_eq, Alone]
  constructor
  · intro h
    refine ⟨fun e he hi => ?_, fun e he hi => ?_⟩
    · subst hi; exact (h e.1).2 he
    · subst hi; exact (h e.2).1 he
  · rintro ⟨h1, h2⟩ j
    exact ⟨fun h => h2 _ h rfl, fun h => h1 _ h rfl⟩

theorem stable_alone {deps : List (Nat × Nat)} {alike S : Nat → Nat → Prop} (h : Groups.Stable alike (Groups.parents deps) (Groups.children deps) S) (i j : Nat)
    (hs : S i j) (ha : Alone deps i) : Alone deps j := by
  rw [alone_iff] at ha ⊢
  constructor
  · rw [List.eq_nil_iff_forall_not_mem]
    intro q hq
    obtain ⟨p, hp, -⟩ := (h.parents i j hs).2 q hq
    rw [ha.1] at hp; cases hp
  · rw [List.eq_nil_iff_forall_not_mem]
    intro q hq
    obtain ⟨p, hp, -⟩ := (h.children i j hs).2 q hq
    rw [ha.2] at hp; cases hp

/-- **C85** with `--compress`, exactly: if a ruleset can be compressed, its graph can be built unless two similar rules have no dependencies, in which case
`min_ruleset.remove(rule)` raises ValueError for the one that was not selected (line 398); the nodes filled are the selected ones, and `compressed` clusters are
the groups of similar rules. -/
theorem C85_compress (ord : Groups.Sel Nat → List Nat → List Nat) (hord : ∀ s l, (ord s l).Perm l) (cluster group : Grouping)
    (rules : List (Rule π)) (hok : ∀ r ∈ rules, RuleOK r) (hs : Sorted rules) (deps : List (Nat × Nat)) (hfwd : ∀ e ∈ deps, Groups.Before rules e.1 e.2)
    {sel : List Nat} {groups : List (Nat × List Nat)} (h : Groups.compressRuleset ord rules deps = .ok (sel, groups)) :
    ((∃ i j, i ≠ j ∧ Groups.Together groups i j ∧ Alone deps i ∧ Alone deps j) →
      buildGraph ord ⟨true, false, false, cluster, group, false⟩ rules deps = .error .valueError) ∧
    ((∀ i j, Groups.Together groups i j → Alone deps i → Alone deps j → i = j) →
      ∃ g, buildGraph ord ⟨true, false, false, cluster, group, false⟩ rules deps = .ok g ∧ Shows rules deps g ∧
        NumberedFor rules g.nodes groups cluster g.cluster ∧ NumberedFor rules g.nodes groups group g.group ∧
        g.filled.Nodup ∧ ∀ i, i ∈ g.filled ↔ i ∈ sel ∧ ¬ Alone deps i) := by
  have hin : ∀ e ∈ deps, e.1 < rules.length ∧ e.2 < rules.length := fun e he => before_lt (hfwd e he)
  obtain ⟨⟨groups0, r2g0, c1, c2⟩, c3, c4, c5, c6, -, c7, -⟩ := Groups.C61_compress_partial rules hok deps hfwd ord hord h
  obtain ⟨-, -, -, st, -⟩ := Groups.C42_groups rules hok deps hin c1
  have hp : Partition rules deps groups := ⟨c3, c4, fun i j ht ha => stable_alone st i j ((c2 i j).1 ht) ha⟩
  obtain ⟨p, q⟩ := build_compress ord ⟨true, false, false, cluster, group, false⟩ rfl rfl rules hs deps hin (sel := sel) (groups := groups)
    (by simp [minsOf, h, Except.map]) hp c6 fun i hi => c5.mem_iff.1 hi
  have tlt : ∀ i j, Groups.Together groups i j → i < rules.length := by
    rintro i j ⟨g, hg, h1, -⟩
    exact List.mem_range.1 (c3.mem_iff.1 (List.mem_flatten.2 ⟨g.2, List.mem_map.2 ⟨g, hg, rfl⟩, h1⟩))
  have sy : ∀ {i j}, Groups.Together groups i j → Groups.Together groups j i := fun ⟨g, hg, h1, h2⟩ => ⟨g, hg, h2, h1⟩
  have refl : ∀ {i j}, Groups.Together groups i j → Groups.Together groups i i := fun ⟨g, hg, h1, h2⟩ => ⟨g, hg, h1, h1⟩
  constructor
  · rintro ⟨i, j, hne, ht, hi, hj⟩
    apply p
    obtain ⟨k, hk, hk1, hk2⟩ := c7 i (tlt i j ht)
    by_cases his : i ∈ sel
    · have e1 := hk2 i his (refl ht)
      refine ⟨j, tlt j i (sy ht), hj, fun hjs => hne ?_⟩
      rw [e1, hk2 j hjs ht]
    · exact ⟨i, tlt i j ht, hi, his⟩
  · intro hall
    apply q
    intro i hi ha
    obtain ⟨k, hk, hk1, hk2⟩ := c7 i hi
    rw [hall i k hk1 ha (hp.alone i k hk1 ha)]
    exact hk

/-- **C85** with `--compress --only-group`, exactly: the graph can be built only if every rule has a dependency, since `min_ruleset` is empty. -/
theorem C85_only_group (ord : Groups.Sel Nat → List Nat → List Nat) (cluster group : Grouping)
    (rules : List (Rule π)) (hok : ∀ r ∈ rules, RuleOK r) (hs : Sorted rules) (deps : List (Nat × Nat)) (hin : ∀ e ∈ deps, e.1 < rules.length ∧ e.2 < rules.length)
    {groups : List (Nat × List Nat)} {r2g : List (Nat × Nat)} (h : Groups.createSimilarGroups rules deps = .ok (groups, r2g)) :
    ((∃ i, i < rules.length ∧ Alone deps i) → buildGraph ord ⟨true, true, false, cluster, group, false⟩ rules deps = .error .valueError) ∧
    ((∀ i, i < rules.length → ¬ Alone deps i) →
      ∃ g, buildGraph ord ⟨true, true, false, cluster, group, false⟩ rules deps = .ok g ∧ Shows rules deps g ∧
        NumberedFor rules g.nodes groups cluster g.cluster ∧ NumberedFor rules g.nodes groups group g.group ∧ g.filled = []) := by
  obtain ⟨c3, c4, -, st, -⟩ := Groups.C42_groups rules hok deps hin h
  have hp : Partition rules deps groups := ⟨c3, c4, fun i j ht ha => stable_alone st i j ht ha⟩
  obtain ⟨p, q⟩ := build_compress ord ⟨true, true, false, cluster, group, false⟩ rfl rfl rules hs deps hin (sel := []) (groups := groups)
    (by simp [minsOf, h, Except.map]) hp List.nodup_nil fun i hi => by cases hi
  constructor
  · rintro ⟨i, hi, ha⟩
    exact p ⟨i, hi, ha, List.not_mem_nil⟩
  · intro hall
    obtain ⟨g, g1, g2, g3, g4, -, g6⟩ := q fun i hi ha => absurd ha (hall i hi)
    refine ⟨g, g1, g2, g3, g4, List.eq_nil_iff_forall_not_mem.2 fun i hi => ?_⟩
    have := ((g6 i).1 hi).1
    cases this

/-! ## Without table-miss rules -/

/-- `--no-table-miss` draws the graph of the ruleset without its rules of priority 0 (whatever they match): `keep` is where the remaining rules were, and the
dependencies between them are kept. -/
theorem C85_no_table_miss (ord : Groups.Sel Nat → List Nat → List Nat) (o : GraphOpts) (ho : o.noTableMiss = true) (rules : List (Rule π)) (deps : List (Nat × Nat))
    (hin : ∀ e ∈ deps, e.1 < rules.length ∧ e.2 < rules.length) :
    ∃ (keep : List Nat) (rules' : List (Rule π)) (deps' : List (Nat × Nat)),
      buildGraph ord o rules deps = buildGraph ord { o with noTableMiss := false } rules' deps' ∧
      keep.Pairwise (· < ·) ∧ (∀ i, i ∈ keep ↔ ∃ r, rules[i]? = some r ∧ r.priority ≠ 0) ∧
      rules'.map some = keep.map (fun i => rules[i]?) ∧ (∀ e ∈ deps', e.1 < rules'.length ∧ e.2 < rules'.length) ∧
      ∀ a b i j, keep[a]? = some i → keep[b]? = some j → ((a, b) ∈ deps' ↔ (i, j) ∈ deps) := by
  have keep_mem : ∀ i, i ∈ (List.range rules.length).filter (fun i => decide (prioOf rules i ≠ 0)) ↔ ∃ r, rules[i]? = some r ∧ r.priority ≠ 0 := by
    intro i
    rw [List.mem_filter, List.mem_range, decide_eq_true_eq]
    constructor
    · rintro ⟨h1, h2⟩
      have e := List.getElem?_eq_getElem h1
      exact ⟨_, e, by rwa [prioOf_get e] at h2⟩
    · rintro ⟨r, hr, h⟩
      exact ⟨(List.getElem?_eq_some_iff.1 hr).1, by rw [prioOf_get hr]; exact h⟩
  have keep_nodup : ((List.range rules.length).filter fun i => decide (prioOf rules i ≠ 0)).Nodup := List.nodup_range.filter _
  have hmap : ∀ rules : List (Rule π), (rules.filter fun r => decide (r.priority ≠ 0)).map some =
      ((List.range rules.length).filter fun i => decide (prioOf rules i ≠ 0)).map fun i => rules[i]? := by
    intro rules
    induction rules with
    | nil => rfl
    | cons r rules ih =>
      have e0 : (List.range (r :: rules).length) = 0 :: (List.range rules.length).map (· + 1) := by
        rw [List.length_cons, List.range_succ_eq_map]
      have e1 : ((List.range rules.length).map (· + 1)).filter (fun i => decide (prioOf (r :: rules) i ≠ 0)) =
          ((List.range rules.length).filter fun i => decide (prioOf rules i ≠ 0)).map (· + 1) := by
        rw [List.filter_map]
        congr 1
      have e2 : prioOf (r :: rules) 0 = r.priority := rfl
      rw [e0, List.filter_cons, List.filter_cons, e2, e1]
      by_cases hp : r.priority = 0
      · simp only [hp, ne_eq, not_true_eq_false, decide_false, Bool.false_eq_true, if_false]
        rw [List.map_map]
        simpa [Function.comp_def] using ih
      · simp only [hp, ne_eq, not_false_eq_true, decide_true, if_true, List.map_cons]
        rw [List.map_map]
        simpa [Function.comp_def] using ih
  refine ⟨(List.range rules.length).filter fun i => decide (prioOf rules i ≠ 0), (dropMiss rules deps).1, (dropMiss rules deps).2, ?_, ?_, keep_mem, hmap rules, ?_, ?_⟩
  · simp only [buildGraph, ho, if_true, Bool.false_eq_true, if_false]
    rfl
  · exact List.Pairwise.sublist List.filter_sublist List.pairwise_lt_range
  · intro e he
    have hlen : (dropMiss rules deps).1.length = ((List.range rules.length).filter fun i => decide (prioOf rules i ≠ 0)).length := by
      have := congrArg List.length (hmap rules)
      simp only [List.length_map] at this
      exact this
    simp only [dropMiss, List.mem_map, List.mem_filter, Bool.and_eq_true, decide_eq_true_eq] at he
    obtain ⟨⟨i, j⟩, ⟨h1, h2, h3⟩, rfl⟩ := he
    rw [hlen]
    obtain ⟨k1, k2⟩ := hin _ h1
    exact ⟨List.idxOf_lt_length_of_mem (List.mem_filter.2 ⟨List.mem_range.2 k1, by simpa using h2⟩),
      List.idxOf_lt_length_of_mem (List.mem_filter.2 ⟨List.mem_range.2 k2, by simpa using h3⟩)⟩
  · intro a b i j ha hb
    obtain ⟨x1, x2⟩ := List.getElem?_eq_some_iff.1 ha
    obtain ⟨y1, y2⟩ := List.getElem?_eq_some_iff.1 hb
    have pi : prioOf rules i ≠ 0 := by
      obtain ⟨r, hr, h⟩ := (keep_mem i).1 (List.mem_of_getElem? ha)
      rw [prioOf_get hr]; exact h
    have pj : prioOf rules j ≠ 0 := by
      obtain ⟨r, hr, h⟩ := (keep_mem j).1 (List.mem_of_getElem? hb)
      rw [prioOf_get hr]; exact h
    have ia : ((List.range rules.length).filter fun i => decide (prioOf rules i ≠ 0)).idxOf i = a := by
      rw [← x2]; exact keep_nodup.idxOf_getElem a x1
    have jb : ((List.range rules.length).filter fun i => decide (prioOf rules i ≠ 0)).idxOf j = b := by
      rw [← y2]; exact keep_nodup.idxOf_getElem b y1
    simp only [dropMiss, List.mem_map, List.mem_filter, Bool.and_eq_true, decide_eq_true_eq]
    constructor
    · rintro ⟨⟨i', j'⟩, ⟨h1, h2, h3⟩, e⟩
      obtain ⟨k1, k2⟩ := hin _ h1
      have m1 : i' ∈ (List.range rules.length).filter fun i => decide (prioOf rules i ≠ 0) := List.mem_filter.2 ⟨List.mem_range.2 k1, by simpa using h2⟩
      have m2 : j' ∈ (List.range rules.length).filter fun i => decide (prioOf rules i ≠ 0) := List.mem_filter.2 ⟨List.mem_range.2 k2, by simpa using h3⟩
      simp only [Prod.mk.injEq] at e
      have g1 := List.getElem?_idxOf m1
      have g2 := List.getElem?_idxOf m2
      rw [e.1, ha] at g1
      rw [e.2, hb] at g2
      cases g1; cases g2
      exact h1
    · intro h
      exact ⟨(i, j), ⟨h, pi, pj⟩, by simp only [ia, jb]⟩

/-! ## Violations -/

/-- **C85 is violated**: in a ruleset with one rule that rule counts as unreachable, whatever it matches, and the graph, which is empty, cannot be drawn. -/
theorem C85_single (ord : Groups.Sel Nat → List Nat → List Nat) (r : Rule π) (cluster group : Grouping) (hc : cluster ≠ .compressed)
    (hg : group ≠ .compressed) :
    buildGraph ord ⟨false, false, false, cluster, group, false⟩ [r] [] = .ok ⟨[], [], [], [], [], [], [], [0]⟩ ∧
    buildGraph ord ⟨false, false, false, cluster, group, true⟩ [r] [] = .error .runtimeError := by
  constructor
  · cases cluster <;> cases group <;> first | rfl | exact absurd rfl hc | exact absurd rfl hg
  · cases cluster <;> cases group <;> first | rfl | exact absurd rfl hc | exact absurd rfl hg

/-- A rule for all packets has no dependencies by itself, and all packets hit it. -/
example : Deps.buildRulesetDeps 1 [(0, (⟨0, none, 0, Match.empty, Inst.empty, []⟩ : Rule Unit))] = .ok [] ∧ ∀ p, Match.empty.accepts p :=
  ⟨by decide +kernel, fun p => by intro x hx; cases hx⟩

/-- Two VLANs, and nothing for other packets. -/
def twoVlans : List (Nat × List (Nat × Nat) × List Action) := [(10, [(6, 0x1005)], [.output 3]), (10, [(6, 0x1006)], [.output 4])]

/-- **C85 is violated**: two rules that do not overlap count as unreachable although packets hit both; and with `--compress` ValueError is raised since they are
similar. -/
theorem C85_disjoint : ∃ rules, twoVlans.mapM (fun x => Groups.mRule x.1 x.2.1 x.2.2) = .ok rules ∧ (∀ r ∈ rules, RuleOK r) ∧ Sorted rules ∧
    rules.map (·.mat) = [Match.empty.append 6 0x1005 none, Match.empty.append 6 0x1006 none] ∧
    (∃ p, (Match.empty.append 6 0x1005 none).accepts p) ∧ (∃ p, (Match.empty.append 6 0x1006 none).accepts p) ∧
    (¬ ∃ p, (Match.empty.append 6 0x1005 none).accepts p ∧ (Match.empty.append 6 0x1006 none).accepts p) ∧
    Deps.buildRulesetDeps 1 (rules.zipIdx.map fun x => (x.2, x.1)) = .ok [] ∧
    (∃ g, buildGraph (fun _ l => l) ⟨false, false, false, .none, .none, false⟩ rules [] = .ok g ∧ g.nodes = [] ∧ g.unreachable = [0, 1]) ∧
    (∃ groups, Groups.compressRuleset (fun _ l => l) rules [] = .ok ([0], groups) ∧ Groups.Together groups 0 1) ∧
    buildGraph (fun _ l => l) ⟨true, false, false, .none, .none, false⟩ rules [] = .error .valueError := by
  have hacc : ∀ v, v = 0x1005 ∨ v = 0x1006 → ∃ p : Pkt, (Match.empty.append 6 v none).accepts p := by
    intro v hv
    obtain ⟨w, m, -, h1, h2⟩ := Deps.getWildcard_spec (m := Match.empty.append 6 v none) (inv_append inv_empty _ _ _) (by
      rcases hv with rfl | rfl <;> decide +kernel)
    obtain ⟨q, hq⟩ := exists_covers h1.noZ
    obtain ⟨p, hp⟩ := exists_pkt q
    exact ⟨p, (matches_congr (inv_append inv_empty _ _ _).nodup hp).2 ((h2 q).1 hq)⟩
  refine ⟨_, rfl, Groups.mRules_ok (l := twoVlans) (by decide) rfl, ?_, ?_, hacc _ (.inl rfl), hacc _ (.inr rfl), ?_, ?_, ⟨_, rfl, rfl, ?_⟩, ⟨[(0, [0, 1])], ?_, ?_⟩, ?_⟩
  · exact List.Pairwise.cons (fun s hs => by cases hs with | head => exact .inr ⟨rfl, Nat.le_refl _⟩ | tail _ h => cases h) (List.pairwise_singleton _ _)
  · decide +kernel
  · exact Deps.disjoint_of (inv_append inv_empty _ _ _) (by decide +kernel) (inv_append inv_empty _ _ _) (by decide +kernel) (by decide +kernel)
  · decide +kernel
  · decide +kernel
  · decide +kernel
  · exact ⟨_, List.mem_cons_self, by decide, by decide⟩
  · decide +kernel

/-- **C85 is violated**: clusters and groups of similar rules raise UnboundLocalError without `--compress`. -/
theorem C85_no_groups (ord : Groups.Sel Nat → List Nat → List Nat) (onlyGroup noMiss drawn : Bool) (group : Grouping) (rules : List (Rule π)) (deps : List (Nat × Nat)) :
    buildGraph ord ⟨false, onlyGroup, noMiss, .compressed, group, drawn⟩ rules deps = .error .nameError := by
  simp only [buildGraph, minsOf, bind, Except.bind, Bool.false_eq_true, if_false, labels_plain _ _ ⟨[], [], none⟩ rfl, grouped]

/-- **C85 is violated**: a rule below one for all packets is a node, and not found to be unreachable. -/
theorem C85_shadowed : ∃ rules, [(10, [], [Action.output 1]), (5, [(6, 0x1005)], [.output 2])].mapM (fun x => Groups.mRule x.1 x.2.1 x.2.2) = .ok rules ∧
    rules.map (fun r => (r.priority, r.mat)) = [(10, Match.empty), (5, Match.empty.append 6 0x1005 none)] ∧ (∀ p, Match.empty.accepts p) ∧
    Deps.buildRulesetDeps 1 (rules.zipIdx.map fun x => (x.2, x.1)) = .ok [(0, 1)] ∧
    ∃ g, buildGraph (fun _ l => l) ⟨false, false, false, .none, .none, false⟩ rules [(0, 1)] = .ok g ∧ g.nodes = [0, 1] ∧ g.unreachable = [] :=
  ⟨_, rfl, by decide +kernel, Deps.accepts_empty, by decide +kernel, _, rfl, by decide +kernel, by decide +kernel⟩

/-! ## Samples -/

theorem sorted_of_check {rules : List (Rule π)} (h : (List.range rules.length).all (fun i => (List.range i).all fun j => keyLe rules j i) = true) : Sorted rules := by
  refine List.pairwise_iff_getElem.2 fun i j hi hj hij => ?_
  have := List.all_eq_true.1 (List.all_eq_true.1 h j (List.mem_range.2 hj)) i (List.mem_range.2 hij)
  simpa only [keyLe, decide_eq_true_eq, tableOf_get (List.getElem?_eq_getElem hi), tableOf_get (List.getElem?_eq_getElem hj),
    prioOf_get (List.getElem?_eq_getElem hi), prioOf_get (List.getElem?_eq_getElem hj)] using this

/-- The hypotheses hold for the sample of C61, whose dependencies are computed; with groups by priority, the nodes are numbered 1, 1, 2, 2, 3.  Compressed,
the groups are numbered in the order of priorities, and the selected rules 0, 3 and 4 are filled; no rule is alone. -/
example : ∃ rules, Groups.crossList.mapM (fun x => Groups.mRule x.1 x.2.1 x.2.2) = .ok rules ∧ (∀ r ∈ rules, RuleOK r) ∧ Sorted rules ∧
    ∃ deps, Deps.buildRulesetDeps 1 (rules.zipIdx.map fun x => (x.2, x.1)) = .ok deps ∧ deps ≠ [] ∧ (∀ e ∈ deps, Groups.Before rules e.1 e.2) ∧
      (∀ i < rules.length, ¬ Alone deps i) ∧
      (buildGraph (fun _ l => l) ⟨false, false, false, .table, .priority, true⟩ rules deps).toOption.map
        (fun g => (Deps.sortBy leNat g.nodes, g.cluster, g.group, g.unreachable)) =
        some ([0, 1, 2, 3, 4], [(0, 1), (1, 1), (2, 1), (3, 1), (4, 1)], [(0, 1), (1, 1), (2, 2), (3, 2), (4, 3)], []) ∧
      (buildGraph (fun _ l => l) ⟨true, false, false, .compressed, .none, false⟩ rules deps).toOption.map (fun g => (g.cluster, g.filled)) =
        some ([(0, 1), (1, 1), (3, 2), (2, 2), (4, 3)], [0, 3, 4]) ∧
      (buildGraph (fun _ l => l) ⟨true, true, false, .compressed, .none, false⟩ rules deps).toOption.map (fun g => (g.cluster, g.filled)) =
        some ([(1, 1), (0, 1), (3, 2), (2, 2), (4, 3)], []) ∧
      (buildGraph (fun _ l => l) ⟨false, false, true, .none, .none, false⟩ rules deps).toOption.map (fun g => (g.nodes, g.edges, g.unreachable)) =
        some ([0, 3, 1, 2], [((0, 3), false), ((1, 2), false)], []) := by
  refine ⟨_, rfl, Groups.mRules_ok (l := Groups.crossList) (by decide) rfl, sorted_of_check (by decide +kernel),
    [(0, 3), (0, 4), (1, 2), (1, 4), (2, 4), (3, 4)], by decide +kernel, by decide +kernel,
    Groups.before_of_check (by decide +kernel), ?_, by decide +kernel, by decide +kernel, by decide +kernel, by decide +kernel⟩
  intro i hi ha
  have : ∀ i < 5, ∃ j < 5, (i, j) ∈ [(0, 3), (0, 4), (1, 2), (1, 4), (2, 4), (3, 4)] ∨ (j, i) ∈ [(0, 3), (0, 4), (1, 2), (1, 4), (2, 4), (3, 4)] := by decide
  obtain ⟨j, -, h | h⟩ := this i hi
  · exact (ha j).1 h
  · exact (ha j).2 h

end Graph
end OFE
