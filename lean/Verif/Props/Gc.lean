import Verif.Heap.GcLemmas

/-! # C77: collecting the C++ node table -/

namespace OFE
namespace Heap

variable {s : Tbl} {ext num : Addr → Nat}

/-- **C77** For every well-formed table (children in it, numbered higher, counts as the references add up), whatever references there are from outside:
`gc_node_cache` ends without a failed assertion, a missing key or the use of a freed object.  Exactly the objects in use stay in the table, in the same
order and with the same children; all others are freed; the number printed is how many; memory that does not belong to the table is as it was; and the
table is well formed again with the same outside references. -/
theorem C77_gc (g : Good s ext num) :
    ∃ s', gcNodeCache s = .ok (s', s.table.length - s'.table.length) ∧ s'.table.Sublist s.table ∧ (∀ x, x ∈ s'.table ↔ InUse s ext x) ∧
      (∀ x ∈ s'.table, ∃ c c', s.mem x = some c ∧ s'.mem x = some c' ∧ c'.kids = c.kids) ∧ (∀ x ∈ s.table, ¬ InUse s ext x → s'.mem x = none) ∧
      (∀ x, x ∉ s.table → s'.mem x = s.mem x) ∧ Good s' ext num := by
  have p : Pending s (s.table.filter fun x => refcnt s x == 2) :=
    ⟨g.nodup.filter _, fun x => by rw [List.mem_filter, beq_iff_eq]⟩
  obtain ⟨s', e, g', p', sh⟩ := gcLoop_spec (s.table.length + 2) g p 0 (Nat.le_refl _)
  have iff : ∀ x, x ∈ s'.table ↔ InUse s ext x := fun x =>
    ⟨fun h => inUse_back sh (all_inUse g' p' x h), fun h => g'.inUse_mem (inUse_kept sh g' h)⟩
  refine ⟨s', by rw [gcNodeCache, e, Nat.zero_add], sh.sub, iff, fun x hx => ?_, fun x hx hn => (sh.freed x hx fun h => hn ((iff x).1 h)).1, sh.rest, g'⟩
  obtain ⟨c, hc, -⟩ := g.cell x (sh.sub.subset hx)
  obtain ⟨c', hc', -⟩ := g'.cell x hx
  refine ⟨c, c', hc, hc', ?_⟩
  have := sh.kids x hx
  simpa [kidsOf, hc, hc'] using this

/-- **C77** In use is what can be reached: everything that an object in use refers to stays, so no diagram that can be reached from outside is cut. -/
theorem C77_closed (g : Good s ext num) {s' : Tbl} {r : Nat} (e : gcNodeCache s = .ok (s', r)) {x y : Addr} (hx : x ∈ s.table) (he : 0 < ext x)
    (h : Relation.ReflTransGen (Child s) x y) : y ∈ s'.table := by
  obtain ⟨s1, e1, -, h2, -⟩ := C77_gc g
  rw [e] at e1
  simp only [Except.ok.injEq, Prod.mk.injEq] at e1
  obtain ⟨rfl, -⟩ := e1
  refine (h2 y).2 ?_
  induction h with
  | refl => exact .root hx he
  | tail _ h ih => exact .child ih h

/-- **C77** A second collection finds nothing. -/
theorem C77_idempotent (g : Good s ext num) {s' : Tbl} {r : Nat} (e : gcNodeCache s = .ok (s', r)) :
    ∃ s'', gcNodeCache s' = .ok (s'', 0) ∧ s''.table = s'.table := by
  obtain ⟨s1, e1, h1, h2, h3, -, -, g1⟩ := C77_gc g
  rw [e] at e1
  simp only [Except.ok.injEq, Prod.mk.injEq] at e1
  obtain ⟨rfl, -⟩ := e1
  obtain ⟨s2, e2, k1, k2, -⟩ := C77_gc g1
  have hsub : ∀ x ∈ s'.table, x ∈ s2.table := by
    intro x hx
    refine (k2 x).2 ?_
    have := (h2 x).1 hx
    clear hx
    induction this with
    | root hx he => exact .root ((h2 _).2 (.root hx he)) he
    | child ha hc ih =>
      rename_i a b
      have ha' := (h2 a).2 ha
      obtain ⟨c, c', q1, q2, q3⟩ := h3 a ha'
      obtain ⟨-, c1, w1, w2⟩ := hc
      rw [q1] at w1; cases w1
      exact .child ih ⟨ha', c', q2, by rw [q3]; exact w2⟩
  have heq : s2.table = s'.table := k1.eq_of_length_le (List.subperm_of_subset g1.nodup hsub).length_le
  refine ⟨s2, ?_, heq⟩
  rw [e2, heq, Nat.sub_self]

/-! ### Sample -/

/-- A table: terminal 10 below the nodes 1 and 2, node 3 above both, node 4 above node 2 and a terminal 11 of its own.  Held from outside: node 2. -/
def sample : Tbl where
  mem := fun
    | 10 => some ⟨4, []⟩
    | 11 => some ⟨3, []⟩
    | 1 => some ⟨3, [10]⟩
    | 2 => some ⟨5, [10]⟩
    | 3 => some ⟨2, [1, 2]⟩
    | 4 => some ⟨2, [2, 11]⟩
    | _ => none
  table := [10, 11, 1, 2, 3, 4]

/-- References from outside the sample. -/
def sampleExt : Addr → Nat := fun x => if x = 2 then 1 else 0

/-- Levels of the sample. -/
def sampleNum : Addr → Nat := fun x => if x = 10 ∨ x = 11 then 100 else if x = 1 ∨ x = 2 then 50 else 7

theorem sample_good : Good sample sampleExt sampleNum where
  nodup := by decide
  cell := by
    intro x hx
    have : x = 10 ∨ x = 11 ∨ x = 1 ∨ x = 2 ∨ x = 3 ∨ x = 4 := by simpa [sample] using hx
    rcases this with rfl | rfl | rfl | rfl | rfl | rfl <;> exact ⟨_, rfl, by decide, by decide, by decide⟩

/-- The sample meets the hypothesis, and its collection keeps node 2 and its terminal; four objects go, in two rounds. -/
example : (match gcNodeCache sample with | .ok (s, r) => some (s.table, r, s.mem 2, s.mem 10, s.mem 1) | .error _ => none) =
    some ([10, 2], 4, some ⟨3, [10]⟩, some ⟨3, []⟩, none) := by decide +kernel

/-- The hypothesis that the counts add up is needed: with one reference too many (a leak) an unused node stays. -/
example : (match gcNodeCache ⟨fun x => if x = 1 then some ⟨3, []⟩ else none, [1]⟩ with | .ok (s, r) => some (s.table, r) | .error _ => none) = some ([1], 0) := by
  decide +kernel

end Heap
end OFE
