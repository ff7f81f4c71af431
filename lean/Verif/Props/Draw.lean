import Verif.Graph.Draw
import Verif.DictLemmas
import Verif.Deps.Lemmas
import Mathlib.Data.List.Forall2

/-!
# C93: drawings refer to the right nodes
-/

namespace OFE.Draw
open Deps (sortBy sortBy_perm sortBy_sorted)

/-! ### Web pages -/

theorem indexOf_spec {α : Type} (eq : α → α → Bool) (hr : ∀ x, eq x x = true) (x : α) : ∀ nodes : List α,
    nodes.Pairwise (fun a b => eq a b = false ∧ eq b a = false) → x ∈ nodes → ∃ i, indexOf eq x nodes = .ok i ∧ nodes[i]? = some x
  | [], _, hx => by cases hx
  | y :: ys, hp, hx => by
    rw [List.pairwise_cons] at hp
    unfold indexOf
    by_cases e : eq y x = true
    · refine ⟨0, by rw [if_pos e], ?_⟩
      rcases List.mem_cons.1 hx with rfl | hx
      · rfl
      · exact absurd e (by rw [(hp.1 x hx).1]; decide)
    · rcases List.mem_cons.1 hx with rfl | hx
      · exact absurd (hr x) e
      · obtain ⟨i, h1, h2⟩ := indexOf_spec eq hr x ys hp.2 hx
        refine ⟨i + 1, by rw [if_neg e, h1]; rfl, by simpa using h2⟩

theorem indexOf_absent {α : Type} (eq : α → α → Bool) (x : α) : ∀ nodes : List α, (∀ y ∈ nodes, eq y x = false) → indexOf eq x nodes = .error .valueError
  | [], _ => rfl
  | y :: ys, h => by
    unfold indexOf
    rw [if_neg (by rw [h y List.mem_cons_self]; decide), indexOf_absent eq x ys fun z hz => h z (List.mem_cons_of_mem _ hz)]
    rfl

/-- C93, create_d3: when no two nodes are equal rules, which NetworkX ensures, and links are between nodes, each link is given by the places of its two ends. -/
theorem C93_d3 {α : Type} (eq : α → α → Bool) (hr : ∀ x, eq x x = true) (nodes : List α) (hp : nodes.Pairwise (fun a b => eq a b = false ∧ eq b a = false))
    (links : List (α × α)) (h : ∀ l ∈ links, l.1 ∈ nodes ∧ l.2 ∈ nodes) :
    ∃ places, d3Links eq nodes links = .ok places ∧ List.Forall₂ (fun p l => nodes[p.1]? = some l.1 ∧ nodes[p.2]? = some l.2) places links := by
  induction links with
  | nil => exact ⟨[], rfl, .nil⟩
  | cons l links ih =>
    obtain ⟨s, t⟩ := l
    obtain ⟨ps, e, f⟩ := ih fun x hx => h x (List.mem_cons_of_mem _ hx)
    obtain ⟨hs, ht⟩ := h (s, t) List.mem_cons_self
    obtain ⟨i, i1, i2⟩ := indexOf_spec eq hr s nodes hp hs
    obtain ⟨j, j1, j2⟩ := indexOf_spec eq hr t nodes hp ht
    refine ⟨(i, j) :: ps, by unfold d3Links; rw [i1, j1, e]; rfl, .cons ⟨i2, j2⟩ f⟩

/-- Two nodes that are equal rules would be taken for each other: the link of the second leads to the first. -/
theorem C93_d3_equal {α : Type} (eq : α → α → Bool) (x y : α) (h : eq x y = true) (rest : List α) : d3Links eq (x :: rest) [(y, y)] = .ok [(0, 0)] := by
  unfold d3Links
  have : indexOf eq y (x :: rest) = .ok 0 := by unfold indexOf; rw [if_pos h]
  rw [this]
  rfl

/-! ### Sequence numbers -/

theorem popAll_spec {ι : Type} : ∀ (xs : List ι) (seqs : List Nat), xs.length = seqs.length → popAll xs seqs.reverse = .ok (xs.zip seqs)
  | [], seqs, h => rfl
  | x :: xs, [], h => by cases h
  | x :: xs, n :: seqs, h => by
    have := popAll_spec xs seqs (by simpa using h)
    unfold popAll
    simp only [List.reverse_cons, List.getLast?_append, List.getLast?_singleton, List.dropLast_concat, this, Option.some_or]
    rfl

/-- C93, reorder_dot: never fails; the items get the numbers that were in use, each once; items come in the order of the key, and in the order of the new
numbers. -/
theorem C93_reorder {ι : Type} (le : ι → ι → Bool) (total : ∀ a b, le a b = true ∨ le b a = true)
    (trans : ∀ a b c, le a b = true → le b c = true → le a c = true) (items : List (ι × Nat)) :
    ∃ l, reorderDot le items = .ok l ∧ (l.map (·.1)).Perm (items.map (·.1)) ∧ (l.map (·.2)).Perm (items.map (·.2)) ∧
      l.Pairwise fun a b => le a.1 b.1 = true ∧ a.2 ≤ b.2 := by
  have hx := sortBy_perm (fun a b : ι × Nat => le a.1 b.1) items
  have hn := sortBy_perm (fun a b : Nat => decide (b ≤ a)) (items.map (·.2))
  have sx : ((sortBy (fun a b : ι × Nat => le a.1 b.1) items).map (·.1)).Pairwise fun a b => le a b = true :=
    List.pairwise_map.2 (sortBy_sorted (fun a b : ι × Nat => le a.1 b.1) (fun a b => total a.1 b.1) (fun a b c => trans a.1 b.1 c.1) items)
  have sn := sortBy_sorted (fun a b : Nat => decide (b ≤ a)) (fun a b => by simp only [decide_eq_true_eq]; omega)
    (fun a b c => by simp only [decide_eq_true_eq]; omega) (items.map (·.2))
  have hlen : ((sortBy (fun a b : ι × Nat => le a.1 b.1) items).map (·.1)).length = (sortBy (fun a b : Nat => decide (b ≤ a)) (items.map (·.2))).reverse.length := by
    rw [List.length_reverse, hn.length_eq, List.length_map, List.length_map, hx.length_eq]
  refine ⟨_, by unfold reorderDot; have := popAll_spec _ _ hlen; rwa [List.reverse_reverse] at this, ?_, ?_, ?_⟩
  · rw [List.map_fst_zip (by rw [hlen])]
    exact hx.map _
  · rw [List.map_snd_zip (by rw [hlen])]
    exact (List.reverse_perm _).trans hn
  · have sn' : (sortBy (fun a b : Nat => decide (b ≤ a)) (items.map (·.2))).reverse.Pairwise fun a b => a ≤ b := by
      rw [List.pairwise_reverse]
      exact sn.imp fun h => by simpa using h
    revert sx sn'
    generalize (sortBy (fun a b : ι × Nat => le a.1 b.1) items).map (·.1) = xs
    generalize (sortBy (fun a b : Nat => decide (b ≤ a)) (items.map (·.2))).reverse = ns
    intro sx sn'
    clear hlen
    induction xs generalizing ns with
    | nil => exact .nil
    | cons x xs ih =>
      cases ns with
      | nil => exact .nil
      | cons n ns =>
        rw [List.pairwise_cons] at sx sn'
        rw [List.zip_cons_cons, List.pairwise_cons]
        refine ⟨fun p hp => ?_, ih ns sx.2 sn'.2⟩
        have := List.of_mem_zip (a := p.1) (b := p.2) hp
        exact ⟨sx.1 _ this.1, sn'.1 _ this.2⟩

/-! ### Boxes -/

theorem gather_lookup (key : Node → Nat) (k : Nat) : ∀ (nodes : List Node) (d : List (Nat × List Node)),
    (gather key nodes d).lookup k = if (nodes.filter fun n => decide (key n = k)) = [] then d.lookup k
      else some ((d.lookup k).getD [] ++ nodes.filter fun n => decide (key n = k))
  | [], d => by simp [gather]
  | n :: rest, d => by
    unfold gather
    rw [gather_lookup key k rest, lookup_dictSet]
    by_cases h : key n = k
    · subst h
      simp only [if_true, Option.getD_some, decide_true, List.filter_cons_of_pos, List.append_assoc, List.singleton_append, reduceCtorEq, if_false]
      split
      · rename_i e
        rw [e]
      · rfl
    · have hk : ¬ k = key n := fun e => h e.symm
      simp only [if_neg hk, List.filter_cons_of_neg (p := fun n => decide (key n = k)) (by simpa using h)]

theorem gather_keys (key : Node → Nat) : ∀ (nodes : List Node) (d : List (Nat × List Node)), (d.map (·.1)).Nodup → ((gather key nodes d).map (·.1)).Nodup
  | [], d, h => h
  | n :: rest, d, h => by
    unfold gather
    exact gather_keys key rest _ (nodup_dictSet _ _ h)

theorem gather_mem (key : Node → Nat) (nodes : List Node) (k : Nat) (ns : List Node) :
    (k, ns) ∈ gather key nodes [] ↔ ns = nodes.filter (fun n => decide (key n = k)) ∧ ns ≠ [] := by
  rw [mem_dict_iff (gather_keys key nodes [] List.nodup_nil), gather_lookup]
  split
  · rename_i h
    rw [h]
    constructor
    · intro h; cases h
    · rintro ⟨h1, h2⟩; exact absurd h1 h2
  · rename_i h
    constructor
    · intro h'; cases h'; exact ⟨rfl, h⟩
    · rintro ⟨rfl, -⟩; rfl

theorem byNumber_mem (key : Node → Nat) (nodes : List Node) (k : Nat) (ns : List Node) :
    (k, ns) ∈ byNumber (gather key nodes []) ↔ ns = nodes.filter (fun n => decide (key n = k)) ∧ ns ≠ [] :=
  (sortBy_perm _ _).mem_iff.trans (gather_mem key nodes k ns)

theorem byNumber_sorted (key : Node → Nat) (nodes : List Node) : (byNumber (gather key nodes [])).Pairwise fun a b => a.1 < b.1 := by
  have h1 := sortBy_sorted (fun a b : Nat × List Node => decide (a.1 ≤ b.1)) (fun a b => by simp only [decide_eq_true_eq]; omega)
    (fun a b c => by simp only [decide_eq_true_eq]; omega) (gather key nodes [])
  have h2 : ((byNumber (gather key nodes [])).map (·.1)).Nodup := ((sortBy_perm _ _).map _).nodup_iff.2 (gather_keys key nodes [] List.nodup_nil)
  rw [List.Nodup, List.pairwise_map] at h2
  refine (List.Pairwise.and h1 h2).imp fun h => ?_
  have := h.1
  simp only [decide_eq_true_eq] at this
  have := h.2
  omega

/-- C93, create_dot: there is one box for each cluster that has nodes, in the order of their numbers, and in the box of a cluster are the names of its nodes,
in some order. -/
theorem C93_boxes (order : List Node → List Node) (ho : ∀ l, (order l).Perm l) (nodes : List Node) :
    (boxes order nodes).Pairwise (fun a b => a.1 < b.1) ∧
    (∀ k names, (k, names) ∈ boxes order nodes → names.Perm ((nodes.filter fun n => decide (n.cluster = k)).map (·.name)) ∧ names ≠ []) ∧
    ∀ n ∈ nodes, ∃ names, (n.cluster, names) ∈ boxes order nodes ∧ n.name ∈ names := by
  refine ⟨?_, fun k names h => ?_, fun n hn => ?_⟩
  · unfold boxes
    rw [List.pairwise_map]
    exact byNumber_sorted _ nodes
  · unfold boxes at h
    obtain ⟨⟨k', ns⟩, hm, he⟩ := List.mem_map.1 h
    cases he
    obtain ⟨h1, h2⟩ := (byNumber_mem _ nodes k' ns).1 hm
    subst h1
    refine ⟨(ho _).map _, fun e => h2 ?_⟩
    have := List.map_eq_nil_iff.1 e
    have hp := ho (nodes.filter fun n => decide (n.cluster = k'))
    rw [this] at hp
    exact hp.symm.eq_nil
  · have hf : n ∈ nodes.filter fun m => decide (m.cluster = n.cluster) := List.mem_filter.2 ⟨hn, by simp⟩
    refine ⟨(order (nodes.filter fun m => decide (m.cluster = n.cluster))).map (·.name), List.mem_map.2 ⟨(n.cluster, _), (byNumber_mem _ nodes _ _).2 ⟨rfl, ?_⟩, rfl⟩,
      List.mem_map.2 ⟨n, (ho _).mem_iff.2 hf, rfl⟩⟩
    intro e
    rw [e] at hf
    cases hf

/-! ### Constraints -/

/-- Specification: an edge from one of the chosen nodes to the next. -/
def Step (reps : List Node) (e : String × String) : Prop := ∃ (i : Nat) (a b : Node), reps[i]? = some a ∧ reps[i + 1]? = some b ∧ e = (a.name, b.name)

theorem step_cons {x : Node} {reps : List Node} {e : String × String} :
    Step (x :: reps) e ↔ (∃ b, reps[0]? = some b ∧ e = (x.name, b.name)) ∨ Step reps e := by
  constructor
  · rintro ⟨i, a, b, h1, h2, h3⟩
    cases i with
    | zero =>
      left
      have h1 : x = a := by simpa using h1
      subst h1
      exact ⟨b, by simpa using h2, h3⟩
    | succ i => exact .inr ⟨i, a, b, by simpa using h1, by simpa using h2, h3⟩
  · rintro (⟨b, h1, h2⟩ | ⟨i, a, b, h1, h2, h3⟩)
    · exact ⟨0, x, b, rfl, by simpa using h1, h2⟩
    · exact ⟨i + 1, a, b, by simpa using h1, by simpa using h2, h3⟩

theorem mem_addConstraint {edges : List (String × String)} {a b : Node} {e : String × String} :
    e ∈ addConstraint edges a b ↔ e ∈ edges ∨ e = (a.name, b.name) := by
  unfold addConstraint
  split
  · rename_i h
    constructor
    · exact .inl
    · rintro (h' | rfl)
      · exact h'
      · exact h
  · rw [List.mem_append, List.mem_singleton]

theorem constrain_spec (order : List Node → List Node) (ho : ∀ l, (order l).Perm l) : ∀ (gs : List (Nat × List Node)) (prev : Option Node) (edges : List (String × String)),
    (∀ g ∈ gs, g.2 ≠ []) → ∃ reps E, constrain order gs prev edges = .ok E ∧ List.Forall₂ (fun r (g : Nat × List Node) => r ∈ g.2) reps gs ∧
      ∀ e, e ∈ E ↔ e ∈ edges ∨ Step (prev.toList ++ reps) e
  | [], prev, edges, _ => by
    refine ⟨[], edges, rfl, .nil, fun e => ⟨.inl, fun h => ?_⟩⟩
    rcases h with h | ⟨i, a, b, h1, h2, -⟩
    · exact h
    · cases prev <;> simp at h2
  | (k, ns) :: gs, prev, edges, h => by
    have hne := h (k, ns) List.mem_cons_self
    unfold constrain
    cases e : (order ns).head? with
    | none =>
      have := List.head?_eq_none_iff.1 e
      have hp := ho ns
      rw [this] at hp
      exact absurd hp.symm.eq_nil hne
    | some n =>
      have hn : n ∈ ns := (ho ns).mem_iff.1 (List.mem_of_mem_head? e)
      cases prev with
      | none =>
        obtain ⟨reps, E, h1, h2, h3⟩ := constrain_spec order ho gs (some n) edges fun g hg => h g (List.mem_cons_of_mem _ hg)
        exact ⟨n :: reps, E, h1, .cons hn h2, h3⟩
      | some p =>
        obtain ⟨reps, E, h1, h2, h3⟩ := constrain_spec order ho gs (some n) (addConstraint edges p n) fun g hg => h g (List.mem_cons_of_mem _ hg)
        refine ⟨n :: reps, E, h1, .cons hn h2, fun x => ?_⟩
        rw [h3, mem_addConstraint]
        change _ ↔ _ ∨ Step (p :: n :: reps) x
        rw [step_cons (x := p)]
        simp only [List.getElem?_cons_zero, Option.some.injEq, exists_eq_left', or_assoc]
        rfl

/-- C93, create_dot: with one node chosen of each group, in the order of the groups, there is an edge from each of them to the next, so that the next group is
kept below; beside those there are just the edges of the graph. -/
theorem C93_constraints (order : List Node → List Node) (ho : ∀ l, (order l).Perm l) (nodes : List Node) (edges : List (String × String)) :
    ∃ reps E, constraints order nodes edges = .ok E ∧ (∀ r ∈ reps, r ∈ nodes) ∧ reps.Pairwise (fun a b => a.group < b.group) ∧
      (∀ n ∈ nodes, ∃ r ∈ reps, r.group = n.group) ∧ ∀ e, e ∈ E ↔ e ∈ edges ∨ Step reps e := by
  obtain ⟨reps, E, h1, h2, h3⟩ := constrain_spec order ho (byNumber (gather (·.group) nodes [])) none edges fun g hg => ((byNumber_mem _ nodes g.1 g.2).1 hg).2
  have hg : List.Forall₂ (fun (r : Node) (g : Nat × List Node) => r.group = g.1 ∧ r ∈ nodes) reps (byNumber (gather (·.group) nodes [])) := by
    have hall : ∀ g ∈ byNumber (gather (·.group) nodes []), g.2 = nodes.filter fun n => decide (n.group = g.1) := fun g hg =>
      ((byNumber_mem _ nodes g.1 g.2).1 hg).1
    revert h2 hall
    generalize byNumber (gather (·.group) nodes []) = gs
    intro h2 hall
    clear h1 h3
    induction h2 with
    | nil => exact .nil
    | @cons r g _ _ hr _ ih =>
      refine .cons ?_ (ih fun g hg => hall g (List.mem_cons_of_mem _ hg))
      rw [hall g List.mem_cons_self] at hr
      have := List.mem_filter.1 hr
      exact ⟨by simpa using this.2, this.1⟩
  have hmap : reps.map (·.group) = (byNumber (gather (·.group) nodes [])).map (·.1) := by
    clear h1 h3 h2
    revert hg
    generalize byNumber (gather (·.group) nodes []) = gs
    intro hg
    induction hg with
    | nil => rfl
    | cons h _ ih => rw [List.map_cons, List.map_cons, ih, h.1]
  refine ⟨reps, E, h1, ?_, ?_, fun n hn => ?_, h3⟩
  · intro r hr
    clear h1 h3 h2 hmap
    revert hg
    generalize byNumber (gather (·.group) nodes []) = gs
    intro hg
    induction hg with
    | nil => cases hr
    | cons h _ ih =>
      rcases List.mem_cons.1 hr with rfl | hr
      · exact h.2
      · exact ih hr
  · have : ((byNumber (gather (·.group) nodes [])).map (·.1)).Pairwise (· < ·) := List.pairwise_map.2 (byNumber_sorted (·.group) nodes)
    rw [← hmap, List.pairwise_map] at this
    exact this
  · have hf : n ∈ nodes.filter fun m => decide (m.group = n.group) := List.mem_filter.2 ⟨hn, by simp⟩
    have hm : n.group ∈ reps.map (·.group) := by
      rw [hmap]
      refine List.mem_map.2 ⟨(n.group, nodes.filter fun m => decide (m.group = n.group)), (byNumber_mem _ nodes _ _).2 ⟨rfl, fun e => ?_⟩, rfl⟩
      rw [e] at hf
      cases hf
    obtain ⟨r, h1, h2⟩ := List.mem_map.1 hm
    exact ⟨r, h1, h2⟩

/-- Nodes are told apart by their labels only: two rules with the same label (as with a --node-label that leaves out the number) are one node in the drawing,
which is in the boxes of both. -/
theorem C93_same_label (order : List Node → List Node) (ho : ∀ l, (order l).Perm l) (nodes : List Node) (a b : Node) (ha : a ∈ nodes) (hb : b ∈ nodes)
    (hn : a.name = b.name) : ∃ A B, (a.cluster, A) ∈ boxes order nodes ∧ (b.cluster, B) ∈ boxes order nodes ∧ a.name ∈ A ∧ a.name ∈ B := by
  obtain ⟨-, -, h⟩ := C93_boxes order ho nodes
  obtain ⟨A, h1, h2⟩ := h a ha
  obtain ⟨B, h3, h4⟩ := h b hb
  exact ⟨A, B, h1, h3, h2, hn ▸ h4⟩

/-! ### Examples -/

example : ∃ places, d3Links (fun a b => a == b) [7, 5, 9] [(5, 7), (9, 5)] = .ok places ∧
    List.Forall₂ (fun p l => [7, 5, 9][p.1]? = some l.1 ∧ [7, 5, 9][p.2]? = some l.2) places [(5, 7), (9, 5)] :=
  C93_d3 _ (by simp) _ (by decide) _ (by decide)

example : d3Links (fun a b => a == b) [7, 5, 9] [(5, 7), (9, 5)] = .ok [(1, 0), (2, 1)] := by decide

example : d3Links (fun a b => a % 10 == b % 10) [7, 17] [(17, 17)] = .ok [(0, 0)] := C93_d3_equal _ 7 17 rfl [17]

example : ∃ l, reorderDot (fun a b => decide (a ≤ b)) [(30, 4), (10, 2), (20, 9)] = .ok l ∧ (l.map (·.1)).Perm [30, 10, 20] ∧ (l.map (·.2)).Perm [4, 2, 9] ∧
    l.Pairwise fun a b => decide (a.1 ≤ b.1) = true ∧ a.2 ≤ b.2 :=
  C93_reorder (fun a b => decide (a ≤ b)) (by simp; omega) (by simp; omega) [(30, 4), (10, 2), (20, 9)]

example : reorderDot (fun a b => decide (a ≤ b)) [(30, 4), (10, 2), (20, 9)] = .ok [(10, 2), (20, 4), (30, 9)] := by decide

/-- Three rules in two clusters and three groups. -/
def someNodes : List Node := [⟨"c", 2, 3⟩, ⟨"a", 1, 1⟩, ⟨"b", 2, 2⟩]

example : boxes id someNodes = [(1, ["a"]), (2, ["c", "b"])] := by decide

example : constraints id someNodes [("a", "b")] = .ok [("a", "b"), ("b", "c")] := by decide

example : (boxes List.reverse someNodes).Pairwise (fun a b => a.1 < b.1) := (C93_boxes _ List.reverse_perm _).1

example : ∃ reps E, constraints List.reverse someNodes [("a", "b")] = .ok E ∧ (∀ r ∈ reps, r ∈ someNodes) ∧ reps.Pairwise (fun a b => a.group < b.group) ∧
    (∀ n ∈ someNodes, ∃ r ∈ reps, r.group = n.group) ∧ ∀ e, e ∈ E ↔ e ∈ [("a", "b")] ∨ Step reps e :=
  C93_constraints _ List.reverse_perm _ _

example : ∃ A B, (1, A) ∈ boxes id [⟨"a", 1, 1⟩, ⟨"a", 2, 1⟩] ∧ (2, B) ∈ boxes id [⟨"a", 1, 1⟩, ⟨"a", 2, 1⟩] ∧ "a" ∈ A ∧ "a" ∈ B :=
  C93_same_label id (fun _ => .refl _) _ ⟨"a", 1, 1⟩ ⟨"a", 2, 1⟩ (by decide) (by decide) rfl

end OFE.Draw
