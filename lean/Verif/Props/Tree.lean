import Verif.Tree.Lemmas

/-! # C41: simplification of dependency trees -/

namespace OFE
namespace Tree

variable {ν : Type} [DecidableEq ν]

/-- **C41** `simplify_tree` on links without cycles and repetitions (heights within the recursion limit), for every order of set iteration: it raises nothing;
`children` still mirrors `parents`; the ancestors of every node are the same as before; the parents of a processed node are exactly its former parents that
are no ancestor of another parent (in their former order); hence afterwards no parent of a processed node is an ancestor of another of its parents. -/
theorem C41_simplify_tree (height : ν → Nat) (ord : List ν → List ν) (hord : ∀ l, (ord l).Perm l) (limit : Nat) (hl : ∀ n, height n ≤ limit) (nodes : List ν)
    (t : Links ν) (ht : LinksOK height t) :
    ∃ t', simplifyTree ord limit nodes t = .ok t' ∧ LinksOK height t' ∧ (∀ n, (t'.par n).Sublist (t.par n)) ∧
      (∀ n a, Anc t'.par n a ↔ Anc t.par n a) ∧ (∀ n ∈ nodes, ∀ p, p ∈ t'.par n ↔ Direct t.par n p) ∧ (∀ n, n ∉ nodes → t'.par n = t.par n) ∧
      ∀ n ∈ nodes, ∀ p ∈ t'.par n, ∀ q ∈ t'.par n, ¬ Anc t'.par q p := by
  obtain ⟨t', e, h1, h2, h3, h4, h5⟩ := simplifyTree_spec hord hl t nodes t (fun _ => False) ht (fun _ => List.Sublist.refl _) (fun _ _ => Iff.rfl)
    (fun _ h => h.elim) (fun _ _ => rfl)
  refine ⟨t', e, h1, h2, h3, fun n hn => h4 n (.inr hn), fun n hn => h5 n (by simpa using hn), fun n hn p hp q hq ha => ?_⟩
  have hp' := (h4 n (.inr hn) p).1 hp
  have hq' := (h4 n (.inr hn) q).1 hq
  exact hp'.2 q hq'.1 ((h3 q p).1 ha)

/-- **C41** with `node_to_tree`: from a list of dependencies without repetitions and cycles between listed nodes, the two functions leave at each node exactly
the dependencies that do not follow from others, without changing what a node depends on directly or indirectly. -/
theorem C41_from_deps (height : ν → Nat) (ord : List ν → List ν) (hord : ∀ l, (ord l).Perm l) (limit : Nat) (hl : ∀ n, height n ≤ limit) (nodes : List ν)
    (deps : List (ν × ν)) (hn : deps.Nodup) (hin : ∀ e ∈ deps, e.1 ∈ nodes ∧ e.2 ∈ nodes) (hh : ∀ e ∈ deps, height e.1 < height e.2) :
    ∃ t t', nodeToTree deps nodes = .ok t ∧ simplifyTree ord limit nodes t = .ok t' ∧ (∀ n p, p ∈ t.par n ↔ (p, n) ∈ deps) ∧
      LinksOK height t' ∧ (∀ n a, Anc t'.par n a ↔ Anc t.par n a) ∧ ∀ n p, p ∈ t'.par n ↔ Direct t.par n p := by
  obtain ⟨t, e, hp, hc⟩ := nodeToTree_spec deps nodes hin
  have mp : ∀ n p, p ∈ t.par n ↔ (p, n) ∈ deps := by
    intro n p
    rw [hp]
    simp only [List.mem_map, List.mem_filter, decide_eq_true_eq]
    constructor
    · rintro ⟨⟨a, b⟩, ⟨h1, h2⟩, h3⟩; simp only at h2 h3; subst h2 h3; exact h1
    · intro h; exact ⟨_, ⟨h, rfl⟩, rfl⟩
  have mc : ∀ n p, n ∈ t.chi p ↔ (p, n) ∈ deps := by
    intro n p
    rw [hc]
    simp only [List.mem_map, List.mem_filter, decide_eq_true_eq]
    constructor
    · rintro ⟨⟨a, b⟩, ⟨h1, h2⟩, h3⟩; simp only at h2 h3; subst h2 h3; exact h1
    · intro h; exact ⟨_, ⟨h, rfl⟩, rfl⟩
  have ok : LinksOK height t := by
    refine ⟨fun n p => by rw [mp, mc], fun n => ?_, fun n => ?_, fun n p h => hh _ ((mp n p).1 h)⟩
    · rw [hp]
      refine List.Nodup.map_on (fun x hx y hy he => ?_) (hn.filter _)
      simp only [List.mem_filter, decide_eq_true_eq] at hx hy
      exact Prod.ext he (hx.2.trans hy.2.symm)
    · rw [hc]
      refine List.Nodup.map_on (fun x hx y hy he => ?_) (hn.filter _)
      simp only [List.mem_filter, decide_eq_true_eq] at hx hy
      exact Prod.ext (hx.2.trans hy.2.symm) he
  obtain ⟨t', e2, h1, h2, h3, h4, h5, -⟩ := C41_simplify_tree height ord hord limit hl nodes t ok
  refine ⟨t, t', e, e2, mp, h1, h3, fun n p => ?_⟩
  by_cases hnn : n ∈ nodes
  · exact h4 n hnn p
  · have hempty : ∀ q, q ∉ t.par n := fun q hq => hnn (hin _ ((mp n q).1 hq)).2
    rw [h5 n hnn]
    exact ⟨fun h => absurd h (hempty p), fun h => h.1⟩

/-- A node outside the list raises. -/
theorem C41_unlisted_node (deps : List (ν × ν)) (nodes : List ν) (e : ν × ν) (he : e ∈ deps) (hn : ¬ (e.1 ∈ nodes ∧ e.2 ∈ nodes)) :
    nodeToTree deps nodes = .error .attributeError := by
  unfold nodeToTree
  generalize (⟨fun _ => [], fun _ => []⟩ : Links ν) = s
  induction deps generalizing s with
  | nil => cases he
  | cons x l ih =>
    rw [List.foldlM_cons]
    rcases List.mem_cons.1 he with rfl | he
    · rw [if_neg hn]; rfl
    · split
      · exact ih he _
      · rfl

/-- Negation: a dependency listed twice is removed only once, so the redundant parent stays. -/
theorem C41_repeated_edge : ∃ t t', nodeToTree [(0, 1), (1, 2), (0, 2), (0, 2)] [0, 1, 2] = .ok t ∧ simplifyTree id 10 [0, 1, 2] t = .ok t' ∧
    t'.par 2 = [1, 0] ∧ Anc t'.par 1 0 := by
  refine ⟨_, _, rfl, rfl, by decide, .parent (by decide)⟩

/-- The sample: 0 → 1 → 2 → 3 with the shortcuts 0 → 2, 0 → 3. -/
example : ∃ t t', nodeToTree [(0, 1), (0, 2), (1, 2), (0, 3), (2, 3)] [3, 1, 0, 2] = .ok t ∧ simplifyTree id 4 [3, 1, 0, 2] t = .ok t' ∧
    [0, 1, 2, 3].map t.par = [[], [0], [0, 1], [0, 2]] ∧ [0, 1, 2, 3].map t'.par = [[], [0], [1], [2]] ∧
    [0, 1, 2, 3].map t'.chi = [[1], [2], [3], []] := by
  refine ⟨_, _, rfl, rfl, by decide, by decide, by decide⟩

example := C41_from_deps (fun n : Nat => min n 3) id (fun _ => List.Perm.refl _) 3 (fun n => Nat.min_le_right _ _) [3, 1, 0, 2]
  [(0, 1), (0, 2), (1, 2), (0, 3), (2, 3)] (by decide) (by decide) (by decide)

end Tree
end OFE
