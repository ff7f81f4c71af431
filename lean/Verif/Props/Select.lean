import Verif.Select.Loop
import Verif.Props.Groups
import Verif.Props.Indirect
import Verif.Main.Lemmas

/-! # C61, C62, C63: the compressed ruleset -/

namespace OFE
namespace Groups

variable {π : Type}

/-- Rule `i` comes before rule `j`: in an earlier table or in the same table with a higher priority. -/
def Before (rules : List (Rule π)) (i j : Nat) : Prop :=
  ∃ r s, rules[i]? = some r ∧ rules[j]? = some s ∧ (r.table < s.table ∨ (r.table = s.table ∧ s.priority < r.priority))

/-- The order of tables and priorities. -/
def NotAfter (rules : List (Rule π)) (i j : Nat) : Prop := ∀ r s, rules[i]? = some r → rules[j]? = some s → r.table < s.table ∨ (r.table = s.table ∧ s.priority ≤ r.priority)

/-- The code's order made total on all numbers. -/
def rankLe' (rules : List (Rule π)) (i j : Nat) : Bool :=
  match rules[i]?, rules[j]? with
  | some r, some s => decide (r.table < s.table ∨ (r.table = s.table ∧ s.priority ≤ r.priority))
  | some _, none => true
  | none, some _ => false
  | none, none => true

theorem rankLe'_total (rules : List (Rule π)) (i j : Nat) : rankLe' rules i j = true ∨ rankLe' rules j i = true := by
  unfold rankLe'
  cases rules[i]? <;> cases rules[j]? <;> simp
  omega

theorem rankLe'_trans (rules : List (Rule π)) (i j k : Nat) : rankLe' rules i j = true → rankLe' rules j k = true → rankLe' rules i k = true := by
  unfold rankLe'
  cases rules[i]? <;> cases rules[j]? <;> cases rules[k]? <;> simp
  omega

theorem insertBy_congr {ν : Type} {le le' : ν → ν → Bool} (x : ν) : ∀ (l : List ν), (∀ y ∈ l, le x y = le' x y) → Deps.insertBy le x l = Deps.insertBy le' x l
  | [], _ => rfl
  | y :: ys, h => by
    unfold Deps.insertBy
    rw [h y List.mem_cons_self, insertBy_congr x ys fun z hz => h z (List.mem_cons_of_mem _ hz)]

theorem sortBy_congr {ν : Type} {le le' : ν → ν → Bool} : ∀ (l : List ν), (∀ x ∈ l, ∀ y ∈ l, le x y = le' x y) → Deps.sortBy le l = Deps.sortBy le' l
  | [], _ => rfl
  | x :: l, h => by
    rw [Deps.sortBy, List.foldr_cons, Deps.sortBy, List.foldr_cons]
    have ih := sortBy_congr (le := le) (le' := le') l fun a ha b hb => h a (List.mem_cons_of_mem _ ha) b (List.mem_cons_of_mem _ hb)
    rw [Deps.sortBy, Deps.sortBy] at ih
    rw [ih]
    refine insertBy_congr x _ fun y hy => h x List.mem_cons_self y (List.mem_cons_of_mem _ ?_)
    exact (Deps.sortBy_perm le' l).mem_iff.1 hy

theorem rankLe_eq {rules : List (Rule π)} {i j : Nat} (hi : i < rules.length) (hj : j < rules.length) : rankLe rules i j = rankLe' rules i j := by
  unfold rankLe rankLe'
  rw [List.getElem?_eq_getElem hi, List.getElem?_eq_getElem hj]

theorem mem_children {deps : List (Nat × Nat)} {i j : Nat} : j ∈ children deps i ↔ (i, j) ∈ deps := by
  unfold children
  simp only [List.mem_map, List.mem_filter, decide_eq_true_eq]
  constructor
  · rintro ⟨⟨a, b⟩, ⟨h, rfl⟩, rfl⟩; exact h
  · intro h; exact ⟨(i, j), ⟨h, rfl⟩, rfl⟩

theorem mem_parents {deps : List (Nat × Nat)} {i j : Nat} : j ∈ parents deps i ↔ (j, i) ∈ deps := by
  unfold parents
  simp only [List.mem_map, List.mem_filter, decide_eq_true_eq]
  constructor
  · rintro ⟨⟨a, b⟩, ⟨h, rfl⟩, rfl⟩; exact h
  · intro h; exact ⟨(j, i), ⟨h, rfl⟩, rfl⟩

/-- The facts used by the selection, from C42. -/
theorem graph_of (rules : List (Rule π)) (hok : ∀ r ∈ rules, RuleOK r) (deps : List (Nat × Nat)) (hfwd : ∀ e ∈ deps, Before rules e.1 e.2)
    {groups : List (Nat × List Nat)} {r2g : List (Nat × Nat)} (h : createSimilarGroups rules deps = .ok (groups, r2g)) :
    ∃ t, Tree.nodeToTree deps (List.range rules.length) = .ok t ∧ (∀ i j, j ∈ t.chi i ↔ (i, j) ∈ deps) ∧
      Graph t (List.range rules.length) (Together groups) (rankLe' rules) ∧ SelInv (List.range rules.length) (Together groups) ⟨groups, r2g, []⟩ := by
  have len : ∀ {i : Nat} {r : Rule π}, rules[i]? = some r → i < rules.length := fun h => (List.getElem?_eq_some_iff.1 h).1
  have hin : ∀ e ∈ deps, e.1 < rules.length ∧ e.2 < rules.length := by
    intro e he
    obtain ⟨r, s, h1, h2, -⟩ := hfwd e he
    exact ⟨len h1, len h2⟩
  obtain ⟨t, et, hp, hc⟩ := Tree.nodeToTree_spec deps (List.range rules.length) (fun x hx => ⟨List.mem_range.2 (hin x hx).1, List.mem_range.2 (hin x hx).2⟩)
  obtain ⟨p1, p2, p3, p4, -⟩ := C42_groups rules hok deps hin h
  have chi : ∀ i j, j ∈ t.chi i ↔ (i, j) ∈ deps := fun i j => by rw [hc]; exact mem_children
  have par : ∀ i j, j ∈ t.par i ↔ (j, i) ∈ deps := fun i j => by rw [hp]; exact mem_parents
  have hmem : ∀ {x : Nat}, x ∈ List.range rules.length ↔ ∃ g ∈ groups, x ∈ g.2 := by
    intro x
    rw [← p1.mem_iff, List.mem_flatten]
    constructor
    · rintro ⟨l, hl, hr⟩
      obtain ⟨g, hg, rfl⟩ := List.mem_map.1 hl
      exact ⟨g, hg, hr⟩
    · rintro ⟨g, hg, hr⟩
      exact ⟨g.2, List.mem_map_of_mem hg, hr⟩
  have hsel : SelInv (List.range rules.length) (Together groups) ⟨groups, r2g, []⟩ := ⟨p1, p2, p3, fun _ _ => Iff.rfl, fun a ha => by cases ha⟩
  refine ⟨t, et, chi, ⟨List.nodup_range, fun x y => ?_, ?_, ?_, ?_, ?_, ?_, rankLe'_total rules, rankLe'_trans rules, ?_, ?_, ?_⟩, hsel⟩
  · rw [chi, par]
  · rintro x y (h | h)
    · exact List.mem_range.2 (hin _ ((chi x y).1 h)).2
    · exact List.mem_range.2 (hin _ ((par x y).1 h)).1
  · rintro x y ⟨g, hg, h1, -⟩
    exact hmem.2 ⟨g, hg, h1⟩
  · rintro x y hxy d (h | h)
    · rw [chi] at h
      obtain ⟨q, hq, hdq⟩ := (p4.children x y hxy).1 d (mem_children.2 h)
      exact ⟨q, .inl ((chi y q).2 (mem_children.1 hq)), hdq⟩
    · rw [par] at h
      obtain ⟨q, hq, hdq⟩ := (p4.parents x y hxy).1 d (mem_parents.2 h)
      exact ⟨q, .inr ((par y q).2 (mem_parents.1 hq)), hdq⟩
  · intro x y h
    obtain ⟨r, s, h1, h2, h3⟩ := hfwd _ ((chi x y).1 h)
    unfold rankLe'
    rw [h1, h2]
    simp only [decide_eq_false_iff_not]
    omega
  · intro x y hxy
    obtain ⟨r, s, h1, h2, h3⟩ := p4.alike x y hxy
    unfold rankLe'
    rw [h1, h2]
    simp only [decide_eq_true_eq]
    right
    exact ⟨h3.table, Nat.le_of_eq h3.priority.symm⟩
  · intro x hx
    obtain ⟨g, hg, h1⟩ := hmem.1 hx
    exact ⟨g, hg, h1, h1⟩
  · rintro x y ⟨g, hg, h1, h2⟩
    exact ⟨g, hg, h2, h1⟩
  · rintro x y z ⟨g, hg, h1, h2⟩ ⟨g', hg', h3, h4⟩
    have e1 := p3 g hg y h2
    rw [p3 g' hg' y h3, Option.some.injEq] at e1
    have : g = g' := by
      have hnd : (groups.map (·.1)).Nodup := by
        have hn : (groups.map (·.2)).flatten.Nodup := p1.nodup_iff.2 List.nodup_range
        have hp := (List.nodup_flatten.1 hn).2
        rw [List.pairwise_map] at hp
        rw [List.Nodup, List.pairwise_map]
        refine hp.imp_of_mem ?_
        intro a b ha hb hd e
        exact hd (hsel.headMem ha) (e ▸ hsel.headMem hb)
      have q1 := lookup_eq_some_of_mem hnd hg
      have q2 := lookup_eq_some_of_mem hnd hg'
      rw [e1, q1, Option.some.injEq] at q2
      exact Prod.ext e1.symm q2
    subst this
    exact ⟨g, hg, h1, h4⟩

/-- **C61** (if it returns; see C62.)  For all rules and all dependencies that lead from earlier to later rules, in whatever order python lists its sets:
`sel` lists exactly the keys of the returned mapping, each once and sorted; the mapping's values are the groups of similar rules (those of
`create_similar_groups`), each with its key as first member; and whenever rule `j` depends on rule `i`, the rule selected for the group of `j` depends on the
rule selected for the group of `i`. -/
theorem C61_compress_partial (rules : List (Rule π)) (hok : ∀ r ∈ rules, RuleOK r) (deps : List (Nat × Nat)) (hfwd : ∀ e ∈ deps, Before rules e.1 e.2)
    (ord : Sel Nat → List Nat → List Nat) (hord : ∀ s l, (ord s l).Perm l) {sel : List Nat} {groups : List (Nat × List Nat)}
    (h : compressRuleset ord rules deps = .ok (sel, groups)) :
    (∃ groups0 r2g0, createSimilarGroups rules deps = .ok (groups0, r2g0) ∧ ∀ i j, Together groups i j ↔ Together groups0 i j) ∧
    (groups.map (·.2)).flatten.Perm (List.range rules.length) ∧ (∀ g ∈ groups, g.2.head? = some g.1) ∧
    sel.Perm (groups.map (·.1)) ∧ sel.Nodup ∧ sel.Pairwise (NotAfter rules) ∧
    (∀ i < rules.length, ∃ k ∈ sel, Together groups i k ∧ ∀ k' ∈ sel, Together groups i k' → k' = k) ∧
    ∀ i j, (i, j) ∈ deps → ∀ i' ∈ sel, ∀ j' ∈ sel, Together groups i i' → Together groups j j' → (i', j') ∈ deps := by
  unfold compressRuleset at h
  cases h1 : createSimilarGroups rules deps with
  | error x => rw [h1] at h; cases h
  | ok x =>
    obtain ⟨groups0, r2g0⟩ := x
    obtain ⟨t, et, chi, G, hinv⟩ := graph_of rules hok deps hfwd h1
    rw [h1, et] at h
    simp only [bind, Except.bind] at h
    have kl : ∀ x ∈ groups0.map (·.1), x < rules.length := fun x hx => List.mem_range.1 (hinv.keyMem hx)
    have hsame : selectCompressed (rankLe rules) t ord (groups0, r2g0) = selectCompressed (rankLe' rules) t ord (groups0, r2g0) := by
      unfold selectCompressed
      rw [sortBy_congr (le := rankLe rules) (le' := rankLe' rules) _ fun x hx y hy => rankLe_eq (kl x hx) (kl y hy)]
    rw [hsame] at h
    cases h2 : selectCompressed (rankLe' rules) t ord (groups0, r2g0) with
    | error x => rw [h2] at h; cases h
    | ok s =>
      rw [h2] at h
      simp only [pure, Except.pure, Except.ok.injEq, Prod.mk.injEq] at h
      obtain ⟨rfl, rfl⟩ := h
      obtain ⟨i1, i2, i3⟩ := select_spec G hord hinv h2
      have hperm := Deps.sortBy_perm (rankLe rules) (s.groups.map (·.1))
      have kl' : ∀ x ∈ s.groups.map (·.1), x < rules.length := fun x hx => List.mem_range.1 (i1.keyMem hx)
      refine ⟨⟨groups0, r2g0, rfl, i1.same⟩, i1.perm, i1.head, hperm, hperm.nodup_iff.2 (i1.nodupKeys G), ?_, ?_, ?_⟩
      · rw [sortBy_congr (le := rankLe rules) (le' := rankLe' rules) _ fun x hx y hy => rankLe_eq (kl' x hx) (kl' y hy)]
        refine (Deps.sortBy_sorted _ (rankLe'_total rules) (rankLe'_trans rules) _).imp ?_
        intro a b hab r s' hr hs
        unfold rankLe' at hab
        rw [hr, hs] at hab
        simpa using hab
      · intro i hi
        obtain ⟨g, hg⟩ := i1.isSome (List.mem_range.2 hi)
        obtain ⟨c1, -, c3⟩ := i1.look (List.mem_range.2 hi) hg
        refine ⟨g, hperm.mem_iff.2 c3, (i1.same _ _).2 c1, fun k' hk' hik => ?_⟩
        have := i1.rep G (hperm.mem_iff.1 hk') ((i1.same _ _).1 hik)
        rw [hg, Option.some.injEq] at this
        exact this.symm
      · intro i j hij i' hi' j' hj' hii hjj
        have e1 := i1.rep G (hperm.mem_iff.1 hi') ((i1.same _ _).1 hii)
        have e2 := i1.rep G (hperm.mem_iff.1 hj') ((i1.same _ _).1 hjj)
        exact (chi i' j').1 (i3 i j ((chi i j).2 hij) i' j' e1 e2)

theorem path_tables {rs : List (Deps.URule π)} (h : Deps.GotoOK rs) : ∀ {t p l}, Deps.Path rs t p l → (∀ x ∈ l, x ∈ rs ∧ t ≤ x.2.table) ∧
    l.Pairwise fun a b => a.2.table < b.2.table := by
  intro t p l hp
  induction hp with
  | here a b _ =>
    refine ⟨fun x hx => ?_, List.pairwise_singleton _ _⟩
    rw [List.mem_singleton.1 hx]
    exact ⟨a, Nat.le_of_eq b.symm⟩
  | @next t p r n l a b _ d _ ih =>
    have hlt := (h.goto r a n d).1
    refine ⟨fun x hx => ?_, List.pairwise_cons.2 ⟨fun x hx => Nat.lt_of_lt_of_le hlt (ih.1 x hx).2, ih.2⟩⟩
    rcases List.mem_cons.1 hx with rfl | hx
    · exact ⟨a, Nat.le_of_eq b.symm⟩
    · exact ⟨(ih.1 x hx).1, by have := (ih.1 x hx).2; omega⟩

/-- The dependencies that the library computes lead from earlier to later rules. -/
theorem C61_computed_forward (rules : List (Rule π)) (h : Deps.GotoOK (rules.zipIdx.map fun x => (x.2, x.1))) (depth : Nat) (hd : ∀ r ∈ rules, r.table < depth)
    {deps : List (Nat × Nat)} (e : Deps.buildRulesetDeps depth (rules.zipIdx.map fun x => (x.2, x.1)) = .ok deps) : ∀ e ∈ deps, Before rules e.1 e.2 := by
  have mz : ∀ x : Deps.URule π, x ∈ rules.zipIdx.map (fun x => ((x.2, x.1) : Deps.URule π)) → rules[x.1]? = some x.2 := by
    intro x hx
    obtain ⟨y, hy, rfl⟩ := List.mem_map.1 hx
    exact List.mem_zipIdx_iff_getElem?.1 hy
  obtain ⟨es, e', hes⟩ := Deps.C40_ruleset_deps_partial _ h depth (fun r hr => hd _ (List.mem_of_getElem? (mz r hr)))
  rw [e] at e'
  cases e'
  rintro ⟨a, b⟩ hab
  rcases (hes a b).1 hab with ⟨t, p, l, hp, hs⟩ | ⟨r, hr, s, hs, rfl, rfl, h1, h2, -⟩
  · obtain ⟨q1, q2⟩ := path_tables h hp
    obtain ⟨l', hl', e2⟩ := List.sublist_map_iff.1 hs
    match l', e2 with
    | [x, y], e2 =>
      simp only [List.map_cons, List.map_nil, List.cons.injEq, and_true] at e2
      obtain ⟨rfl, rfl⟩ := e2
      have hx : x ∈ l := hl'.subset (by simp)
      have hy : y ∈ l := hl'.subset (by simp)
      have := q2.sublist hl'
      rw [List.pairwise_cons] at this
      exact ⟨x.2, y.2, mz x (q1 x hx).1, mz y (q1 y hy).1, .inl (this.1 y (by simp))⟩
  · exact ⟨r.2, s.2, mz r hr, mz s hs, .inr ⟨h1, h2⟩⟩

/-! ### When it succeeds -/

theorem assignOne_complete {ν : Type} [DecidableEq ν] {t : Tree.Links ν} {rs : List ν} {cls : ν → ν → Prop} {le : ν → ν → Bool} {s : Sel ν}
    {ord : Sel ν → List ν → List ν} (G : Graph t rs cls le)
    (hcomp : ∀ x y, y ∈ t.chi x → ∀ x' y', cls x x' → cls y y' → y' ∈ t.chi x') {k : ν} {rem : List ν} (hrem : ∀ k' ∈ rem, le k' k = true)
    (hk : k ∈ s.groups.map (·.1)) (h : LoopInv t rs cls le s (k :: rem)) : assignOne t ord s k = .ok { s with assigned := k :: s.assigned } := by
  obtain ⟨g, hg, rfl⟩ := List.mem_map.1 hk
  have hl := lookup_eq_some_of_mem (h.inv.nodupKeys G) hg
  have hrep := h.inv.r2g g hg _ (h.inv.headMem hg)
  have hkr := h.inv.keyMem hk
  have hhead := h.inv.head g hg
  obtain ⟨k, opts⟩ := g
  simp only at hl hrep hrem hk h hhead hkr ⊢
  cases opts with
  | nil => cases hhead
  | cons o rest =>
    simp only [List.head?_cons, Option.some.injEq] at hhead
    subst hhead
    have hcheck : ∃ x, checkOption t s o = .ok x ∧ sameSet x.1 x.2 = true := by
      unfold checkOption
      rw [groupsOf_ok (r2g := s.r2g) (l := t.chi o) (fun y hy => h.inv.isSome (G.range o y (.inl hy)))]
      refine ⟨_, rfl, sameSet_iff.2 fun x => ?_⟩
      simp only [List.mem_filterMap, List.mem_filter, decide_eq_true_eq]
      constructor
      · rintro ⟨d, hd, hx⟩
        have hdr := G.range o d (.inl hd)
        obtain ⟨c1, -, c3⟩ := h.inv.look hdr hx
        refine ⟨hcomp o d hd o x (G.refl _ hkr) c1, ?_⟩
        rcases h.cover d hdr with ⟨k', hk', hdk⟩ | ⟨a, ha, hda⟩
        · exfalso
          have hle : le k' o = true := by
            rcases List.mem_cons.1 hk' with rfl | hk'
            · exact G.rank _ _ (G.refl _ hkr)
            · exact hrem k' hk'
          have := G.below o d hd
          rw [G.trans _ _ _ (G.rank _ _ hdk) hle] at this
          cases this
        · have := h.inv.rep G (h.inv.keys a ha) hda
          rw [hx, Option.some.injEq] at this
          rw [this]; exact ha
      · rintro ⟨hx, ha⟩
        exact ⟨x, hx, h.inv.rep G (h.inv.keys x ha) (G.refl _ (h.inv.keyMem (h.inv.keys x ha)))⟩
    obtain ⟨x, hx, hs⟩ := hcheck
    have hfirst : firstOption t s (o :: rest) = .ok (some o) := by
      rw [firstOption, hx]
      simp only [bind, Except.bind]
      rw [if_pos hs]
      rfl
    have hsw : switchAssigned s o = .ok s := by
      unfold switchAssigned getKey
      rw [hrep]
      simp only [bind, Except.bind]
      rw [if_pos trivial]
      rfl
    unfold assignOne getKey
    rw [hl]
    simp only [bind, Except.bind]
    rw [hfirst]
    simp only
    rw [hsw]
    rfl

theorem loop_complete {ν : Type} [DecidableEq ν] {t : Tree.Links ν} {rs : List ν} {cls : ν → ν → Prop} {le : ν → ν → Bool}
    {ord : Sel ν → List ν → List ν} (G : Graph t rs cls le) (hord : ∀ s l, (ord s l).Perm l)
    (hcomp : ∀ x y, y ∈ t.chi x → ∀ x' y', cls x x' → cls y y' → y' ∈ t.chi x') : ∀ (rem : List ν) (s : Sel ν), rem.Pairwise (fun a b => le b a = true) →
    (∀ k ∈ rem, k ∈ s.groups.map (·.1)) → LoopInv t rs cls le s rem → ∃ l, rem.foldlM (assignOne t ord) s = .ok { s with assigned := l }
  | [], s, _, _, _ => ⟨s.assigned, rfl⟩
  | k :: rem, s, hp, hk, h => by
    rw [List.pairwise_cons] at hp
    have e := assignOne_complete (ord := ord) G hcomp hp.1 (hk k List.mem_cons_self) h
    have h' := assignOne_spec G hord hp.1 h e
    obtain ⟨l, hl⟩ := loop_complete G hord hcomp rem { s with assigned := k :: s.assigned } hp.2 (fun k' hk' => hk k' (List.mem_cons_of_mem _ hk')) h'
    refine ⟨l, ?_⟩
    rw [List.foldlM_cons, e]
    exact hl

/-- **C62** (partial: it fails in general, see `C62_no_choice`.)  If all rules of dependent groups depend on each other, compression returns, and with the first
member of each group. -/
theorem C62_complete_partial (rules : List (Rule π)) (hne : rules ≠ []) (hok : ∀ r ∈ rules, RuleOK r) (deps : List (Nat × Nat))
    (hfwd : ∀ e ∈ deps, Before rules e.1 e.2) (ord : Sel Nat → List Nat → List Nat) (hord : ∀ s l, (ord s l).Perm l)
    {groups : List (Nat × List Nat)} {r2g : List (Nat × Nat)} (h : createSimilarGroups rules deps = .ok (groups, r2g))
    (hcomp : ∀ i j, (i, j) ∈ deps → ∀ i' j', Together groups i i' → Together groups j j' → (i', j') ∈ deps) :
    ∃ sel, compressRuleset ord rules deps = .ok (sel, groups) := by
  obtain ⟨t, et, chi, G, hinv⟩ := graph_of rules hok deps hfwd h
  have kl : ∀ x ∈ groups.map (·.1), x < rules.length := fun x hx => List.mem_range.1 (hinv.keyMem hx)
  have hsame : selectCompressed (rankLe rules) t ord (groups, r2g) = selectCompressed (rankLe' rules) t ord (groups, r2g) := by
    unfold selectCompressed
    rw [sortBy_congr (le := rankLe rules) (le' := rankLe' rules) _ fun x hx y hy => rankLe_eq (kl x hx) (kl y hy)]
  have hcomp' : ∀ x y, y ∈ t.chi x → ∀ x' y', Together groups x x' → Together groups y y' → y' ∈ t.chi x' := fun x y hxy x' y' hx hy =>
    (chi x' y').2 (hcomp x y ((chi x y).1 hxy) x' y' hx hy)
  have hsel : ∃ l, selectCompressed (rankLe' rules) t ord (groups, r2g) = .ok ⟨groups, r2g, l⟩ := by
    unfold selectCompressed
    have hperm := (List.reverse_perm (Deps.sortBy (rankLe' rules) (groups.map (·.1)))).trans (Deps.sortBy_perm (rankLe' rules) _)
    have hsort := Deps.sortBy_sorted (rankLe' rules) G.total G.trans (groups.map (·.1))
    rw [← List.pairwise_reverse] at hsort
    split
    · rename_i heq
      exfalso
      simp only at heq
      rw [heq] at hperm
      have : groups = [] := by simpa using hperm.symm.eq_nil
      rw [this] at hinv
      have hz := hinv.perm.length_eq
      simp at hz
      exact hne (List.eq_nil_of_length_eq_zero hz.symm)
    · rename_i g rest heq
      simp only at heq
      rw [heq] at hsort hperm
      rw [List.pairwise_cons] at hsort
      have hgk : g ∈ groups.map (·.1) := hperm.mem_iff.1 List.mem_cons_self
      refine loop_complete G hord hcomp' rest ⟨groups, r2g, [g]⟩ hsort.2 (fun k hk => hperm.mem_iff.1 (List.mem_cons_of_mem _ hk)) ?_
      exact first_inv (x := (groups, r2g)) G hinv hgk hsort.1 fun k hk => List.mem_cons.1 (hperm.mem_iff.2 hk)
  obtain ⟨l, hl⟩ := hsel
  refine ⟨Deps.sortBy (rankLe rules) (groups.map (·.1)), ?_⟩
  unfold compressRuleset
  rw [h, et]
  simp only [bind, Except.bind]
  rw [hsame, hl]
  rfl

/-! ### Samples -/

/-- A rule with the given priority, match and apply-actions in table 0. -/
def mRule (prio : Nat) (m : List (Nat × Nat)) (acts : List Action) : Except PyErr (Rule Unit) := do
  return ⟨prio, none, 0, m.foldl (fun m x => m.append x.1 x.2 none) .empty, ⟨none, ← ActionList.ofList acts, .empty, none, false, none⟩, []⟩

theorem foldl_append_ok : ∀ (l : List (Nat × Nat)) (m : Match), m.Inv → (∀ x ∈ m.items, x.1 < 40) → (∀ x ∈ l, x.1 < 40) →
    (l.foldl (fun m x => m.append x.1 x.2 none) m).Inv ∧ ∀ x ∈ (l.foldl (fun m x => m.append x.1 x.2 none) m).items, x.1 < 40
  | [], m, h, hk, _ => ⟨h, hk⟩
  | x :: l, m, h, hk, hl => by
    refine foldl_append_ok l (m.append x.1 x.2 none) (inv_append h _ _ _) ?_ fun y hy => hl y (List.mem_cons_of_mem _ hy)
    intro y hy
    have : y.1 ∈ ((m.append x.1 x.2 none).items.map (·.1)) := List.mem_map_of_mem hy
    unfold Match.append at this
    simp only [mem_keys_dictSet] at this
    rcases this with h1 | h1
    · rw [h1]; exact hl x List.mem_cons_self
    · obtain ⟨z, hz, e⟩ := List.mem_map.1 h1
      rw [← e]; exact hk z hz

theorem mRule_ok {prio : Nat} {m : List (Nat × Nat)} {acts : List Action} (hm : ∀ x ∈ m, x.1 < 40) (ha : ∀ a ∈ acts, a.known = true) {r : Rule Unit}
    (h : mRule prio m acts = .ok r) : RuleOK r := by
  have hE : actionSetOfList [] = .ok .empty := by decide +kernel
  unfold mRule at h
  cases hl : ActionList.ofList acts with
  | error e => rw [hl] at h; cases h
  | ok l =>
    rw [hl] at h
    cases h
    obtain ⟨h1, h2⟩ := foldl_append_ok m .empty inv_empty (by intro x hx; cases hx) hm
    exact ⟨h1, h2, ⟨acts, ha, hl⟩, ⟨[], by decide, hE⟩⟩

theorem mRules_ok : ∀ {l : List (Nat × List (Nat × Nat) × List Action)} {rules : List (Rule Unit)}, (∀ x ∈ l, (∀ y ∈ x.2.1, y.1 < 40) ∧ ∀ a ∈ x.2.2, a.known = true) →
    l.mapM (fun x => mRule x.1 x.2.1 x.2.2) = .ok rules → ∀ r ∈ rules, RuleOK r
  | [], rules, _, h => by cases h; intro r hr; cases hr
  | x :: l, rules, hk, h => by
    rw [List.mapM_cons] at h
    cases h1 : mRule x.1 x.2.1 x.2.2 with
    | error e => rw [h1] at h; cases h
    | ok r1 =>
      cases h2 : l.mapM (fun x => mRule x.1 x.2.1 x.2.2) with
      | error e => rw [h1, h2] at h; cases h
      | ok rs =>
        rw [h1, h2] at h
        cases h
        intro r hr
        rcases List.mem_cons.1 hr with rfl | hr
        · exact mRule_ok (hk x List.mem_cons_self).1 (hk x List.mem_cons_self).2 h1
        · exact mRules_ok (fun y hy => hk y (List.mem_cons_of_mem _ hy)) h2 r hr

/-- Ports 1 and 2 crosswise: port 1 with VLAN 6, port 2 with VLAN 5; below the VLANs 5 and 6; and a default. -/
def crossList : List (Nat × List (Nat × Nat) × List Action) :=
  [(20, [(0, 1), (6, 0x1006)], [.output 1]), (20, [(0, 2), (6, 0x1005)], [.output 2]), (10, [(6, 0x1005)], [.output 3]), (10, [(6, 0x1006)], [.output 4]),
   (0, [], [])]

theorem before_of_check {rules : List (Rule π)} {deps : List (Nat × Nat)}
    (h : (deps.all fun e => match rules[e.1]?, rules[e.2]? with
      | some r, some s => decide (r.table < s.table ∨ (r.table = s.table ∧ s.priority < r.priority))
      | _, _ => false) = true) : ∀ e ∈ deps, Before rules e.1 e.2 := by
  intro e he
  have := List.all_eq_true.1 h e he
  revert this
  cases h1 : rules[e.1]? with
  | none => simp
  | some r =>
    cases h2 : rules[e.2]? with
    | none => simp
    | some s =>
      intro h
      exact ⟨r, s, h1, h2, of_decide_eq_true h⟩

/-- A sample of C61: with the dependencies that are computed, the first rule of each group does not do (rules 1 and 3 do not overlap); the choice for the
upper group is changed. -/
example : ∃ rules, crossList.mapM (fun x => mRule x.1 x.2.1 x.2.2) = .ok rules ∧ (∀ r ∈ rules, RuleOK r) ∧
    ∃ deps, Deps.buildRulesetDeps 1 (rules.zipIdx.map fun x => (x.2, x.1)) = .ok deps ∧ (∀ e ∈ deps, Before rules e.1 e.2) ∧
      (createSimilarGroups rules deps).map (·.1) = .ok [(1, [1, 0]), (3, [3, 2]), (4, [4])] ∧
      compressRuleset (fun _ l => l) rules deps = .ok ([0, 3, 4], [(3, [3, 2]), (4, [4]), (0, [0, 1])]) :=
  ⟨_, rfl, mRules_ok (l := crossList) (by decide) rfl, _, rfl, before_of_check (by decide +kernel), by decide +kernel, by decide +kernel⟩

/-- The hypotheses of `C61_computed_forward` hold for this ruleset. -/
example : ∃ rules, crossList.mapM (fun x => mRule x.1 x.2.1 x.2.2) = .ok rules ∧ Deps.GotoOK (rules.zipIdx.map fun x => (x.2, x.1)) ∧ ∀ r ∈ rules, r.table < 1 := by
  have hch : ∀ rules, crossList.mapM (fun x => mRule x.1 x.2.1 x.2.2) = .ok rules → (rules.all fun r => r.inst.goto.isNone && decide (r.table = 0) &&
      r.inst.apply.iter.all fun a => a.pushes.isNone && a.pops.isNone && decide (a.toType ≠ .s 2)) = true := by
    intro rules hr
    cases hr
    decide +kernel
  have hok : ∀ rules, crossList.mapM (fun x => mRule x.1 x.2.1 x.2.2) = .ok rules → ∀ r ∈ rules, RuleOK r := fun rules h => mRules_ok (l := crossList) (by decide) h
  refine ⟨_, rfl, ?_⟩
  have h := hok _ rfl
  have h' := List.all_eq_true.1 (hch _ rfl)
  simp only [Bool.and_eq_true, decide_eq_true_eq, List.all_eq_true, Option.isNone_iff_eq_none] at h'
  have mem : ∀ {l : List (Rule Unit)} {r : Deps.URule Unit}, r ∈ l.zipIdx.map (fun x => ((x.2, x.1) : Deps.URule Unit)) → r.2 ∈ l := by
    intro l r hr
    obtain ⟨y, hy, rfl⟩ := List.mem_map.1 hr
    exact List.mem_of_getElem? (List.mem_zipIdx_iff_getElem?.1 hy)
  refine ⟨⟨fun r hr => h _ (mem hr), fun r hr a ha => ?_, fun r hr n hn => ?_⟩, fun r hr => ?_⟩
  · obtain ⟨⟨h1, h2⟩, h3⟩ := (h' r.2 (mem hr)).2 a ha
    exact ⟨h1, h2, fun v e => h3 (by rw [e]; rfl)⟩
  · rw [(h' r.2 (mem hr)).1.1] at hn; cases hn
  · rw [(h' r hr).1.2]; decide

/-- A sample of C62: two VLANs and a default. -/
example : ∃ rules, [(10, [(6, 0x1005)], [Action.output 3]), (10, [(6, 0x1006)], [.output 4]), (0, [], [])].mapM (fun x => mRule x.1 x.2.1 x.2.2) = .ok rules ∧
    (∀ r ∈ rules, RuleOK r) ∧ (∀ e ∈ [(0, 2), (1, 2)], Before rules e.1 e.2) ∧
    ∃ groups r2g, createSimilarGroups rules [(0, 2), (1, 2)] = .ok (groups, r2g) ∧
      (∀ i j, (i, j) ∈ [(0, 2), (1, 2)] → ∀ i' j', Together groups i i' → Together groups j j' → (i', j') ∈ [(0, 2), (1, 2)]) := by
  refine ⟨_, rfl, mRules_ok (l := [(10, [(6, 0x1005)], [Action.output 3]), (10, [(6, 0x1006)], [.output 4]), (0, [], [])]) (by decide) rfl,
    before_of_check (by decide +kernel), [(0, [0, 1]), (2, [2])], [(0, 0), (1, 0), (2, 2)], by decide +kernel, ?_⟩
  rintro i j hij i' j' ⟨g, hg, h1, h2⟩ ⟨g', hg', h3, h4⟩
  simp only [List.mem_cons, List.not_mem_nil, or_false, Prod.mk.injEq] at hij hg hg' ⊢
  rcases hg with rfl | rfl <;> rcases hg' with rfl | rfl <;> simp only [List.mem_cons, List.not_mem_nil, or_false] at h1 h2 h3 h4 <;> omega

/-- Six rules: ports 1, 2 with VLANs 1, 2; ports 1, 2 with protocols 1, 2; protocols 1, 2 with VLANs 2, 1. -/
def hexList : List (Nat × List (Nat × Nat) × List Action) :=
  [(30, [(0, 1), (6, 0x1001)], [.output 1]), (30, [(0, 2), (6, 0x1002)], [.output 1]), (20, [(0, 1), (10, 1)], [.output 2]), (20, [(0, 2), (10, 2)], [.output 2]),
   (10, [(10, 1), (6, 0x1002)], [.output 3]), (10, [(10, 2), (6, 0x1001)], [.output 3])]

/-- **C62 is violated**: the dependencies between these rules form a cycle of six, in which no choice of one rule of each pair keeps the three dependencies
between the pairs.  Whatever the order in which python lists its sets, compression does not return; the code tries to start a debugger. -/
theorem C62_no_choice : ∃ rules, hexList.mapM (fun x => mRule x.1 x.2.1 x.2.2) = .ok rules ∧ (∀ r ∈ rules, RuleOK r) ∧
    ∃ deps, Deps.buildRulesetDeps 1 (rules.zipIdx.map fun x => (x.2, x.1)) = .ok deps ∧ (∀ e ∈ deps, Before rules e.1 e.2) ∧
      (createSimilarGroups rules deps).map (·.1) = .ok [(0, [0, 1]), (2, [2, 3]), (5, [5, 4])] ∧
      (∀ ord : Sel Nat → List Nat → List Nat, (∀ s l, (ord s l).Perm l) → ∃ e, compressRuleset ord rules deps = .error e) ∧
      compressRuleset (fun _ l => l) rules deps = .error .runtimeError := by
  have hok : ∀ rules, hexList.mapM (fun x => mRule x.1 x.2.1 x.2.2) = .ok rules → ∀ r ∈ rules, RuleOK r := fun rules h => mRules_ok (l := hexList) (by decide) h
  refine ⟨_, rfl, hok _ rfl, [(0, 2), (0, 5), (1, 3), (1, 4), (2, 4), (3, 5)], by decide +kernel, before_of_check (by decide +kernel), by decide +kernel, ?_,
    by decide +kernel⟩
  intro ord hord
  cases h : compressRuleset ord _ [(0, 2), (0, 5), (1, 3), (1, 4), (2, 4), (3, 5)] with
  | error e => exact ⟨e, rfl⟩
  | ok x =>
    exfalso
    obtain ⟨sel, groups⟩ := x
    have hg : ∀ rules, hexList.mapM (fun x => mRule x.1 x.2.1 x.2.2) = .ok rules →
        (createSimilarGroups rules [(0, 2), (0, 5), (1, 3), (1, 4), (2, 4), (3, 5)]).map (·.1) = .ok [(0, [0, 1]), (2, [2, 3]), (5, [5, 4])] ∧ rules.length = 6 ∧
        ∀ e ∈ [(0, 2), (0, 5), (1, 3), (1, 4), (2, 4), (3, 5)], Before rules e.1 e.2 := by
      intro rules hr
      cases hr
      exact ⟨by decide +kernel, rfl, before_of_check (by decide +kernel)⟩
    obtain ⟨g1, g2, g3⟩ := hg _ rfl
    obtain ⟨⟨groups0, r2g0, c1, c2⟩, -, -, -, -, -, c3, c4⟩ := C61_compress_partial _ (hok _ rfl) _ g3 ord hord h
    rw [c1] at g1
    simp only [Except.map, Except.ok.injEq] at g1
    subst g1
    rw [g2] at c3
    obtain ⟨a, ha, ta, -⟩ := c3 0 (by decide)
    obtain ⟨b, hb, tb, -⟩ := c3 2 (by decide)
    obtain ⟨c, hc, tc, -⟩ := c3 4 (by decide)
    have sy : ∀ x y, Together groups x y → Together groups y x := fun x y ⟨g, hg, h1, h2⟩ => ⟨g, hg, h2, h1⟩
    have t5 : Together groups 5 4 := (c2 5 4).2 ⟨(5, [5, 4]), by decide, by decide, by decide⟩
    have m1 := c4 0 2 (by decide) a ha b hb ta tb
    have m2 := c4 2 4 (by decide) b hb c hc tb tc
    have m3 := c4 1 4 (by decide) a ha c hc ((c2 1 a).2 (by
      obtain ⟨g, hg, h1, h2⟩ := (c2 0 a).1 ta
      revert h1 h2
      simp only [List.mem_cons, List.not_mem_nil, or_false] at hg
      rcases hg with rfl | rfl | rfl
      · exact fun _ h2 => ⟨_, List.mem_cons_self, by decide, h2⟩
      · exact fun h1 _ => absurd h1 (by decide)
      · exact fun h1 _ => absurd h1 (by decide))) tc
    simp only [List.mem_cons, List.not_mem_nil, or_false, Prod.mk.injEq] at m1 m2 m3
    omega

/-- **C63 is violated**: whatever the ruleset, the file written is the ruleset that was read in (sorted). -/
theorem C63_saves_original (depth : Nat) (ord : Sel Nat → List Nat → List Nat) (rules : List (Rule π)) {saved compressed : List (Rule π)}
    (h : compressMain depth ord rules = .ok (saved, compressed)) : saved.Perm rules := by
  unfold compressMain at h
  simp only at h
  cases h1 : Deps.buildRulesetDeps depth ((sortRuleset rules).zipIdx.map fun x => (x.2, x.1)) with
  | error e => rw [h1] at h; cases h
  | ok deps =>
    rw [h1] at h
    simp only [bind, Except.bind] at h
    cases h2 : compressRuleset ord (sortRuleset rules) deps with
    | error e => rw [h2] at h; cases h
    | ok c =>
      rw [h2] at h
      cases h
      exact sortRuleset_perm rules

/-- Five rules are saved though three are reported. -/
theorem C63_not_compressed : ∃ rules, crossList.mapM (fun x => mRule x.1 x.2.1 x.2.2) = .ok rules ∧
    (compressMain 1 (fun _ l => l) rules).map (fun x => (x.1.length, x.2.map (·.priority))) = .ok (5, [20, 10, 0]) := ⟨_, rfl, by decide +kernel⟩

end Groups
end OFE
