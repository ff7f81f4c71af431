import Verif.Graph.BuildSpec
import Verif.DictLemmas
import Verif.Groups.Lemmas

/-! # Lemmas on building dependency graphs -/

namespace OFE
namespace Graph

theorem mem_setAdd {x y : Nat} {s : List Nat} : y ∈ Deps.setAdd x s ↔ y ∈ s ∨ y = x := by
  unfold Deps.setAdd
  split
  · rename_i h
    exact ⟨.inl, fun hh => hh.elim id fun e => e ▸ h⟩
  · simp

theorem nodup_setAdd {x : Nat} {s : List Nat} (h : s.Nodup) : (Deps.setAdd x s).Nodup := by
  unfold Deps.setAdd
  split
  · exact h
  · rename_i hx
    exact List.nodup_append.2 ⟨h, List.nodup_singleton x, fun a ha b hb => by
      rw [List.mem_singleton] at hb
      rintro rfl
      exact hx (hb ▸ ha)⟩

theorem addEdges_spec (col : Nat × Nat → Bool) : ∀ (l : List ((Nat × Nat) × Bool)) (g : List Nat × List ((Nat × Nat) × Bool)), (∀ x ∈ l, x.2 = col x.1) →
    g.1.Nodup → (g.2.map (·.1)).Nodup → (∀ x ∈ g.2, x.2 = col x.1) →
    (l.foldl addEdge g).1.Nodup ∧ ((l.foldl addEdge g).2.map (·.1)).Nodup ∧
    (∀ i, i ∈ (l.foldl addEdge g).1 ↔ i ∈ g.1 ∨ ∃ x ∈ l, i = x.1.1 ∨ i = x.1.2) ∧
    (∀ x ∈ (l.foldl addEdge g).2, x.2 = col x.1) ∧
    ∀ e, e ∈ (l.foldl addEdge g).2.map (·.1) ↔ e ∈ g.2.map (·.1) ∨ ∃ x ∈ l, x.1 = e
  | [], g, _, h1, h2, h3 => by simp_all
  | x :: l, g, hl, h1, h2, h3 => by
    have hx : x.2 = col x.1 := hl x (by simp)
    obtain ⟨a1, a2, a3, a4, a5⟩ := addEdges_spec col l (addEdge g x) (fun y hy => hl y (by simp [hy])) (nodup_setAdd (nodup_setAdd h1)) (nodup_dictSet _ _ h2)
      (by
        intro y hy
        have hy' := (mem_dict_iff (nodup_dictSet _ _ h2) (k := y.1) (v := y.2)).1 hy
        rw [lookup_dictSet] at hy'
        split at hy'
        · rename_i hk
          rw [Option.some.injEq] at hy'
          rw [← hy', hx]
          first | rw [hk] | rw [← hk]
        · exact h3 y ((mem_dict_iff h2).2 hy'))
    refine ⟨a1, a2, fun i => ?_, a4, fun e => ?_⟩
    · rw [List.foldl_cons, a3]
      simp only [addEdge, mem_setAdd, List.mem_cons, exists_eq_or_imp]
      constructor
      · rintro (((h | h) | h) | h)
        · exact .inl h
        · exact .inr (.inl (.inl h))
        · exact .inr (.inl (.inr h))
        · exact .inr (.inr h)
      · rintro (h | (h | h) | h)
        · exact .inl (.inl (.inl h))
        · exact .inl (.inl (.inr h))
        · exact .inl (.inr h)
        · exact .inr h
    · rw [List.foldl_cons, a5]
      simp only [addEdge, mem_keys_dictSet, List.mem_cons, exists_eq_or_imp]
      constructor
      · rintro ((h | h) | h)
        · first | exact .inl h | exact .inr (.inl h.symm)
        · first | exact .inl h | exact .inr (.inl h.symm)
        · exact .inr (.inr h)
      · rintro (h | h | h)
        · first | exact .inl (.inl h) | exact .inl (.inr h)
        · first | exact .inl (.inl h.symm) | exact .inl (.inr h.symm)
        · exact .inr h

/-- The graph has the dependencies as edges and their ends as nodes. -/
theorem edgesOf_spec {π : Type} (rules : List (Rule π)) (deps : List (Nat × Nat)) :
    (edgesOf rules deps).1.Nodup ∧ ((edgesOf rules deps).2.map (·.1)).Nodup ∧
    (∀ i, i ∈ (edgesOf rules deps).1 ↔ ∃ j, (i, j) ∈ deps ∨ (j, i) ∈ deps) ∧
    (∀ i j c, ((i, j), c) ∈ (edgesOf rules deps).2 ↔ (i, j) ∈ deps ∧ c = decide (tableOf rules i ≠ tableOf rules j)) := by
  let L : List ((Nat × Nat) × Bool) := (deps.filter fun e => decide (tableOf rules e.1 = tableOf rules e.2)).map (fun e => (e, false)) ++
    (deps.filter fun e => decide (tableOf rules e.1 ≠ tableOf rules e.2)).map fun e => (e, true)
  have hL : ∀ x, x ∈ L ↔ x.1 ∈ deps ∧ x.2 = decide (tableOf rules x.1.1 ≠ tableOf rules x.1.2) := by
    rintro ⟨e, c⟩
    simp only [L, List.mem_append, List.mem_map, List.mem_filter, decide_eq_true_eq, Prod.mk.injEq]
    constructor
    · rintro (⟨x, ⟨h1, h2⟩, rfl, rfl⟩ | ⟨x, ⟨h1, h2⟩, rfl, rfl⟩)
      · exact ⟨h1, by simp [h2]⟩
      · exact ⟨h1, by simp [h2]⟩
    · rintro ⟨h1, hcc⟩
      by_cases h : tableOf rules e.1 = tableOf rules e.2
      · exact .inl ⟨e, ⟨h1, h⟩, rfl, by simp [hcc, h]⟩
      · exact .inr ⟨e, ⟨h1, h⟩, rfl, by simp [hcc, h]⟩
  obtain ⟨a1, a2, a3, a4, a5⟩ := addEdges_spec (fun e => decide (tableOf rules e.1 ≠ tableOf rules e.2)) L ([], []) (fun x hx => ((hL x).1 hx).2)
    List.nodup_nil List.nodup_nil (by simp)
  refine ⟨a1, a2, fun i => ?_, fun i j c => ?_⟩
  · refine (a3 i).trans ?_
    simp only [List.not_mem_nil, false_or]
    constructor
    · rintro ⟨⟨⟨u, v⟩, c⟩, hx, rfl | rfl⟩
      · exact ⟨v, .inl ((hL _).1 hx).1⟩
      · exact ⟨u, .inr ((hL _).1 hx).1⟩
    · rintro ⟨j, h | h⟩
      · exact ⟨((i, j), decide (tableOf rules i ≠ tableOf rules j)), (hL _).2 ⟨h, rfl⟩, .inl rfl⟩
      · exact ⟨((j, i), decide (tableOf rules j ≠ tableOf rules i)), (hL _).2 ⟨h, rfl⟩, .inr rfl⟩
  · constructor
    · intro h
      have h1 := (a5 (i, j)).1 (List.mem_map.2 ⟨_, h, rfl⟩)
      simp only [List.map_nil, List.not_mem_nil, false_or] at h1
      obtain ⟨x, hx, hx1⟩ := h1
      exact ⟨hx1 ▸ ((hL x).1 hx).1, a4 _ h⟩
    · rintro ⟨h, rfl⟩
      obtain ⟨⟨e, c⟩, hx, rfl⟩ := List.mem_map.1 ((a5 (i, j)).2 (.inr ⟨((i, j), decide (tableOf rules i ≠ tableOf rules j)), (hL _).2 ⟨h, rfl⟩, rfl⟩))
      have := a4 _ hx
      simp only at this
      rw [← this]
      exact hx

/-! ## Labels -/

theorem labels_plain (nodes : List Nat) : ∀ (l : List Nat) (s : Labels), s.mins = none → l.foldlM (labelStep nodes) s = .ok
      ⟨s.label ++ (l.filter fun i => decide (i ∈ nodes)).map (fun i => (i, i)), s.unreachable ++ l.filter (fun i => decide (i ∉ nodes)), none⟩
  | [], s, h => by
    rw [List.foldlM_nil]
    cases s
    simp_all [pure, Except.pure]
  | i :: l, s, h => by
    rw [List.foldlM_cons]
    by_cases hi : i ∈ nodes
    · simp only [labelStep, if_pos hi, bind, Except.bind]
      rw [labels_plain nodes l ⟨s.label ++ [(i, i)], s.unreachable, s.mins⟩ h]
      simp [hi]
    · simp only [labelStep, if_neg hi, h, bind, Except.bind]
      rw [labels_plain nodes l ⟨_, _, _⟩ rfl]
      simp [hi]

/-- With compression, all rules without dependencies must be selected. -/
theorem labels_mins (nodes : List Nat) : ∀ (l : List Nat) (s : Labels) (r : List Nat) (g : List (Nat × List Nat)), l.Nodup → s.mins = some (r, g) → r.Nodup →
      (g.map (·.1)).Nodup → (∀ i ∈ r, i ∈ g.map (·.1)) →
      ((∀ i ∈ l, i ∉ nodes → i ∈ r) → ∃ r' g', l.foldlM (labelStep nodes) s = .ok
        ⟨s.label ++ (l.filter fun i => decide (i ∈ nodes)).map (fun i => (i, i)), s.unreachable ++ l.filter (fun i => decide (i ∉ nodes)), some (r', g')⟩ ∧
        (r'.Nodup ∧ ∀ i, i ∈ r' ↔ i ∈ r ∧ (i ∈ l → i ∈ nodes)) ∧ (g'.map (·.1)).Nodup ∧ ∀ x, x ∈ g' ↔ x ∈ g ∧ (x.1 ∈ l → x.1 ∈ nodes)) ∧
      ((∃ i ∈ l, i ∉ nodes ∧ i ∉ r) → l.foldlM (labelStep nodes) s = .error .valueError)
  | [], s, r, g, _, h, hr, hgn, hg => by
    refine ⟨fun _ => ⟨r, g, ?_, ⟨hr, by simp⟩, hgn, by simp⟩, by simp⟩
    rw [List.foldlM_nil]
    cases s
    simp_all [pure, Except.pure]
  | i :: l, s, r, g, hl, h, hr, hgn, hg => by
    obtain ⟨hil, hl⟩ := List.nodup_cons.1 hl
    rw [List.foldlM_cons]
    by_cases hi : i ∈ nodes
    · simp only [labelStep, if_pos hi, bind, Except.bind]
      obtain ⟨p, q⟩ := labels_mins nodes l { s with label := s.label ++ [(i, i)] } r g hl h hr hgn hg
      constructor
      · intro hall
        obtain ⟨r', g', e, ⟨e1, e2⟩, e0, e3⟩ := p fun j hj => hall j (List.mem_cons_of_mem _ hj)
        refine ⟨r', g', by rw [e]; simp [hi], ⟨e1, fun j => ?_⟩, e0, fun x => ?_⟩
        · rw [e2]
          simp only [List.mem_cons]
          exact ⟨fun hh => ⟨hh.1, fun hj => hj.elim (fun e => e ▸ hi) hh.2⟩, fun hh => ⟨hh.1, fun hj => hh.2 (.inr hj)⟩⟩
        · rw [e3]
          simp only [List.mem_cons]
          exact ⟨fun hh => ⟨hh.1, fun hj => hj.elim (fun e => e ▸ hi) hh.2⟩, fun hh => ⟨hh.1, fun hj => hh.2 (.inr hj)⟩⟩
      · rintro ⟨j, hj, hjn, hjr⟩
        refine q ⟨j, ?_, hjn, hjr⟩
        rcases List.mem_cons.1 hj with rfl | hj
        · exact absurd hi hjn
        · exact hj
    · by_cases hir : i ∈ r
      · have hk : (g.lookup i).isSome := lookup_isSome_iff.2 (hg i hir)
        simp only [labelStep, if_neg hi, h, if_pos hir, hk, if_true, bind, Except.bind]
        have hmem : ∀ x, x ∈ dictDel i g ↔ x ∈ g ∧ x.1 ≠ i := by
          intro x
          simp [dictDel]
        obtain ⟨p, q⟩ := labels_mins nodes l ⟨s.label, s.unreachable ++ [i], some (r.erase i, dictDel i g)⟩ (r.erase i) (dictDel i g) hl rfl (hr.erase _)
          (nodup_dictDel _ hgn) (fun j hj => by
            rw [hr.mem_erase_iff] at hj
            rw [mem_keys_dictDel]
            exact ⟨hj.1, hg j hj.2⟩)
        constructor
        · intro hall
          obtain ⟨r', g', e, ⟨e1, e2⟩, e0, e3⟩ := p fun j hj hjn => by
            rw [hr.mem_erase_iff]
            exact ⟨by rintro rfl; exact hil hj, hall j (List.mem_cons_of_mem _ hj) hjn⟩
          refine ⟨r', g', by rw [e]; simp [hi], ⟨e1, fun j => ?_⟩, e0, fun x => ?_⟩
          · rw [e2, hr.mem_erase_iff]
            simp only [List.mem_cons]
            constructor
            · rintro ⟨⟨h1, h2⟩, h3⟩
              exact ⟨h2, fun hj => hj.elim (fun e => absurd e h1) h3⟩
            · rintro ⟨h1, h2⟩
              exact ⟨⟨by rintro rfl; exact hi (h2 (.inl rfl)), h1⟩, fun hj => h2 (.inr hj)⟩
          · rw [e3, hmem]
            simp only [List.mem_cons]
            constructor
            · rintro ⟨⟨h1, h2⟩, h3⟩
              exact ⟨h1, fun hj => hj.elim (fun e => absurd e h2) h3⟩
            · rintro ⟨h1, h2⟩
              exact ⟨⟨h1, fun e => hi (e ▸ h2 (.inl e))⟩, fun hj => h2 (.inr hj)⟩
        · rintro ⟨j, hj, hjn, hjr⟩
          refine q ⟨j, ?_, hjn, fun hh => hjr (List.mem_of_mem_erase hh)⟩
          rcases List.mem_cons.1 hj with rfl | hj
          · exact absurd hir hjr
          · exact hj
      · simp only [labelStep, if_neg hi, h, if_neg hir, bind, Except.bind]
        refine ⟨fun hall => absurd (hall i (by simp) hi) hir, fun _ => trivial⟩

/-! ## Numbering -/

theorem foldl_number (n : Nat) : ∀ (rules : List Nat) (d : List (Nat × Nat)) (i : Nat),
    (rules.foldl (fun d r => dictSet r n d) d).lookup i = if i ∈ rules then some n else d.lookup i
  | [], d, i => by simp
  | r :: rules, d, i => by
    rw [List.foldl_cons, foldl_number, lookup_dictSet]
    by_cases h1 : i ∈ rules
    · simp [h1]
    · by_cases h2 : i = r
      · subst h2; simp
      · simp [h1, h2]

theorem numberGroups_spec (nodes : List Nat) : ∀ (gs : List (List Nat)) (n : Nat) (d : List (Nat × Nat)), (∀ r ∈ gs.flatten, r ∈ nodes) → gs.flatten.Nodup →
    ∃ d', numberGroups nodes n gs d = .ok d' ∧ (∀ k l, gs[k]? = some l → ∀ i ∈ l, d'.lookup i = some (n + k)) ∧ ∀ i, i ∉ gs.flatten → d'.lookup i = d.lookup i
  | [], n, d, _, _ => ⟨d, rfl, by simp, by simp⟩
  | rules :: gs, n, d, hm, hn => by
    rw [List.flatten_cons] at hn
    obtain ⟨d', h1, h2, h3⟩ := numberGroups_spec nodes gs (n + 1) (rules.foldl (fun d r => dictSet r n d) d) (fun r hr => hm r (by
      rw [List.flatten_cons]; exact List.mem_append_right _ hr)) (List.nodup_append.1 hn).2.1
    refine ⟨d', ?_, fun k l hk i hi => ?_, fun i hi => ?_⟩
    · rw [numberGroups, if_pos, h1]
      rw [List.all_eq_true]
      exact fun r hr => by simpa using hm r (by rw [List.flatten_cons]; exact List.mem_append_left _ hr)
    · cases k with
      | zero =>
        rw [List.getElem?_cons_zero, Option.some.injEq] at hk
        subst hk
        rw [h3 i fun hc => (List.nodup_append.1 hn).2.2 i hi i hc rfl, foldl_number, if_pos hi]; rfl
      | succ k =>
        rw [List.getElem?_cons_succ] at hk
        rw [h2 k l hk i hi]
        congr 1
        omega
    · rw [List.flatten_cons, List.mem_append, not_or] at hi
      rw [h3 i hi.2, foldl_number, if_neg hi.1]

/-- Numbers in the order of a code. -/
theorem number_runs {κ : Type} [DecidableEq κ] {key : Nat → κ} {code : Nat → List Int} (hc : ∀ a b, code a = code b ↔ key a = key b) (nodes l : List Nat)
    (hl : ∀ i, i ∈ l ↔ i ∈ nodes) (hn : l.Nodup) (hs : l.Pairwise fun a b => code a ≤ code b) :
    ∃ d, numberGroups nodes 1 (Groups.runs key l) [] = .ok d ∧ (∀ i, (d.lookup i).isSome ↔ i ∈ nodes) ∧
      (∀ i j a b, d.lookup i = some a → d.lookup j = some b → (a < b ↔ code i < code j)) ∧
      ∀ i a, d.lookup i = some a → 1 ≤ a ∧ ∀ c, 1 ≤ c → c ≤ a → ∃ k, d.lookup k = some c := by
  obtain ⟨hf, hne, hsame⟩ := Groups.runs_spec (key := key) l
  have hap := Groups.runs_apart hc l hs
  obtain ⟨d, h1, h2, h3⟩ := numberGroups_spec nodes (Groups.runs key l) 1 [] (by rw [hf]; exact fun r hr => (hl r).1 hr) (by rw [hf]; exact hn)
  rw [hf] at h3
  have hget : ∀ i, i ∈ l → ∃ (k : Nat) (g : List Nat), (Groups.runs key l)[k]? = some g ∧ i ∈ g := by
    intro i hi
    rw [← hf] at hi
    obtain ⟨g, hg, hig⟩ := List.mem_flatten.1 hi
    obtain ⟨k, hk⟩ := List.mem_iff_getElem?.1 hg
    exact ⟨k, g, hk, hig⟩
  have hin : ∀ i a, d.lookup i = some a → i ∈ l := by
    intro i a h
    by_cases hi : i ∈ l
    · exact hi
    · rw [h3 i hi] at h; cases h
  have hno : ∀ i a, d.lookup i = some a → ∃ (k : Nat) (g : List Nat), (Groups.runs key l)[k]? = some g ∧ i ∈ g ∧ a = 1 + k := by
    intro i a h
    obtain ⟨k, g, hk, hi⟩ := hget i (hin i a h)
    rw [h2 k g hk i hi, Option.some.injEq] at h
    exact ⟨k, g, hk, hi, h.symm⟩
  have hord : (Groups.runs key l).Pairwise fun r s => ∀ a ∈ r, ∀ b ∈ s, code a ≤ code b := by
    rw [← hf] at hs
    exact (List.pairwise_flatten.1 hs).2
  have hlt : ∀ {k m : Nat} {g g' : List Nat}, (Groups.runs key l)[k]? = some g → (Groups.runs key l)[m]? = some g' → k < m → ∀ a ∈ g, ∀ b ∈ g', code a < code b := by
    intro k m g g' hk hm hkm a ha b hb
    obtain ⟨x1, x2⟩ := List.getElem?_eq_some_iff.1 hk
    obtain ⟨y1, y2⟩ := List.getElem?_eq_some_iff.1 hm
    have p1 := List.pairwise_iff_getElem.1 hord k m x1 y1 hkm
    have p2 := List.pairwise_iff_getElem.1 hap k m x1 y1 hkm
    rw [x2, y2] at p1 p2
    have q1 := p1 a ha b hb
    have q2 := p2 a ha b hb
    exact (List.le_iff_lt_or_eq.1 q1).resolve_right fun e => q2 ((hc a b).1 e)
  refine ⟨d, h1, fun i => ?_, fun i j a b hi hj => ?_, fun i a hi => ?_⟩
  · rw [← hl]
    constructor
    · intro h
      obtain ⟨a, ha⟩ := Option.isSome_iff_exists.1 h
      exact hin i a ha
    · intro h
      obtain ⟨k, g, hk, hi⟩ := hget i h
      rw [h2 k g hk i hi]; rfl
  · obtain ⟨k, g, hk, hig, rfl⟩ := hno i a hi
    obtain ⟨m, g', hm, hjg, rfl⟩ := hno j b hj
    constructor
    · intro h
      exact hlt hk hm (by omega) i hig j hjg
    · intro h
      rcases Nat.lt_trichotomy k m with hkm | rfl | hkm
      · omega
      · rw [hk] at hm; cases hm
        have := (hc i j).2 (hsame g (List.mem_of_getElem? hk) i hig j hjg)
        rw [this] at h
        exact absurd h (List.lt_irrefl _)
      · exact absurd (hlt hm hk hkm j hjg i hig) (fun hh => List.lt_irrefl _ (List.lt_trans h hh))
  · obtain ⟨k, g, hk, hig, rfl⟩ := hno i a hi
    refine ⟨by omega, fun c h1 h2' => ?_⟩
    have hklen := (List.getElem?_eq_some_iff.1 hk).1
    have hc' : c - 1 < (Groups.runs key l).length := by omega
    have hx := List.getElem?_eq_getElem hc'
    obtain ⟨y, hy⟩ := List.exists_mem_of_ne_nil _ (hne _ (List.getElem_mem hc'))
    exact ⟨y, by rw [h2 _ _ hx y hy]; congr 1; omega⟩

/-! ## Clusters and groups -/

variable {π : Type}

theorem tableOf_get {rules : List (Rule π)} {i : Nat} {r : Rule π} (h : rules[i]? = some r) : tableOf rules i = r.table := by simp [tableOf, h]
theorem prioOf_get {rules : List (Rule π)} {i : Nat} {r : Rule π} (h : rules[i]? = some r) : prioOf rules i = r.priority := by simp [prioOf, h]

theorem reachables_pairwise {rules : List (Rule π)} (hs : Sorted rules) (code : Nat → List Int) (p : Nat → Bool)
    (hcode : ∀ i j r s, rules[i]? = some r → rules[j]? = some s → (r.table < s.table ∨ (r.table = s.table ∧ s.priority ≤ r.priority)) → code i ≤ code j) :
    ((List.range rules.length).filter p).Pairwise fun a b => code a ≤ code b := by
  refine List.Pairwise.sublist List.filter_sublist ?_
  rw [List.pairwise_iff_getElem]
  intro i j hi hj hij
  simp only [List.length_range] at hi hj
  simp only [List.getElem_range]
  exact hcode i j _ _ (List.getElem?_eq_getElem hi) (List.getElem?_eq_getElem hj) (List.pairwise_iff_getElem.1 hs i j hi hj hij)

theorem code_lt1 (a b : Int) : [a] < [b] ↔ a < b := by simp [List.cons_lt_cons_iff]
theorem code_lt2 (a b c d : Int) : [a, b] < [c, d] ↔ a < c ∨ (a = c ∧ b < d) := by simp [List.cons_lt_cons_iff]

/-- Clusters and groups by table and by priority. -/
theorem grouped_spec {rules : List (Rule π)} (hs : Sorted rules) {nodes : List Nat} (hn : ∀ i ∈ nodes, i < rules.length)
    (mins : Option (List Nat × List (Nat × List Nat))) (k : Grouping) (hk : k ≠ .compressed) :
    ∃ d, grouped rules nodes ((List.range rules.length).filter fun i => decide (i ∈ nodes)) mins k = .ok d ∧ NumberedBy rules nodes k d := by
  have hl : ∀ i, i ∈ (List.range rules.length).filter (fun i => decide (i ∈ nodes)) ↔ i ∈ nodes := by
    intro i
    rw [List.mem_filter, List.mem_range, decide_eq_true_eq]
    exact ⟨fun h => h.2, fun h => ⟨hn i h, h⟩⟩
  have hnd : ((List.range rules.length).filter fun i => decide (i ∈ nodes)).Nodup := List.nodup_range.filter _
  cases k with
  | none => exact ⟨[], rfl, rfl⟩
  | compressed => exact absurd rfl hk
  | table =>
    obtain ⟨d, h1, h2, h3, h4⟩ := number_runs (key := tableOf rules) (code := fun i => [(tableOf rules i : Int)]) (by intro a b; simp) nodes _ hl hnd
      (reachables_pairwise hs (fun i => [(tableOf rules i : Int)]) _ (by
        intro i j r s hr hs' h
        simp only [tableOf_get hr, tableOf_get hs']
        rw [List.le_iff_lt_or_eq, code_lt1]
        rcases h with h | ⟨h, -⟩
        · left; omega
        · right; rw [h]))
    refine ⟨d, h1, h2, fun i j a b r s ha hb hr hs' => ?_, h4⟩
    rw [h3 i j a b ha hb, code_lt1, tableOf_get hr, tableOf_get hs']
    omega
  | priority =>
    obtain ⟨d, h1, h2, h3, h4⟩ := number_runs (key := fun i => (tableOf rules i, prioOf rules i)) (code := fun i => [(tableOf rules i : Int), -(prioOf rules i : Int)])
      (by intro a b; simp) nodes _ hl hnd
      (reachables_pairwise hs (fun i => [(tableOf rules i : Int), -(prioOf rules i : Int)]) _ (by
        intro i j r s hr hs' h
        simp only [tableOf_get hr, tableOf_get hs', prioOf_get hr, prioOf_get hs']
        rw [List.le_iff_lt_or_eq, code_lt2]
        rcases h with h | ⟨h, h'⟩
        · left; left; omega
        · by_cases e : r.priority = s.priority
          · right; rw [h, e]
          · left; right; exact ⟨by omega, by omega⟩))
    refine ⟨d, h1, h2, fun i j a b r s ha hb hr hs' => ?_, h4⟩
    rw [h3 i j a b ha hb, code_lt2, tableOf_get hr, tableOf_get hs', prioOf_get hr, prioOf_get hs']
    omega

end Graph
end OFE
