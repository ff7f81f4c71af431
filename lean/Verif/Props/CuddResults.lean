import Verif.Props.CuddRefs
import Verif.Props.Cudd

/-!
# Property C80: what the diagrams hold after a history of operations
-/

namespace OFE
namespace Cudd
open DD

theorem give_root {s : RefState} {ret : DD Nat} (hf : ∀ o ∈ s.objs, o.1 < s.fresh) :
    ∃ s', s.give ret = .ok s' ∧ s'.root s.fresh = .ok ret ∧ ∀ i x, s.root i = .ok x → s'.root i = .ok x := by
  refine ⟨_, give_ok s ret hf, by simp [RefState.root], fun i x h => ?_⟩
  have hm := root_mem h
  have hi := hf _ hm
  have hl := root_lookup h
  have : (i == s.fresh) = false := by simp at hi ⊢; omega
  simp [RefState.root, List.lookup_cons, this, hl]

theorem refs_append (ops ops' : List RefOp) (s : RefState) : s.run (ops ++ ops') = (match s.run ops with
    | .error e => .error e
    | .ok s' => s'.run ops') := by
  induction ops generalizing s with
  | nil => rfl
  | cons op ops ih =>
    simp only [List.cons_append, RefState.run]
    cases s.step op with
    | error e => rfl
    | ok s' => exact ih s'

/-- **C80** The objects hold what they should: after any history, a binary operation on two objects makes a new object whose diagram
holds, for every packet, what the operation is to give there, and all other objects keep their diagrams. -/
theorem C80_results (ops : List RefOp) (s : RefState) (h : RefState.init.run ops = .ok s) (n : Nat) (op : BinOp) (a b : Nat) (x y : DD Nat)
    (hx : s.root a = .ok x) (hy : s.root b = .ok y) (wx : WF n 0 x) (wy : WF n 0 y)
    (hs : op = .diffTagged → ∀ p v, x.lookup n p = some v ∨ y.lookup n p = some v → 0 < v ∧ v < 2 ^ 26) :
    ∃ s' z, RefState.init.run (ops ++ [.binary op a b]) = .ok s' ∧ s'.root s.fresh = .ok z ∧ WF n 0 z ∧
      (∀ p, Gives op (x.lookup n p) (y.lookup n p) (z.lookup n p)) ∧ ∀ i w, s.root i = .ok w → s'.root i = .ok w := by
  obtain h' | ⟨s0, h', ha⟩ := Acc.run (ops := ops) Acc.initial
  · rw [h] at h'; cases h'
  rw [h] at h'
  cases h'
  obtain ⟨s', e1, e2, e3⟩ := give_root (s := s.ref (op.eval x y)) (ret := op.eval x y) ha.fresh
  have hstep : s.step (.binary op a b) = .ok s' := by simp only [RefState.step, RefState.binary, hx, hy, e1]
  have hm : WF n 0 (op.eval x y) ∧ ∀ p, Gives op (x.lookup n p) (y.lookup n p) ((op.eval x y).lookup n p) := by
    obtain ⟨c1, c2, c3, c4⟩ := C05_C07_cudd_same n (encode 1 0) x y wx wy
    cases op with
    | meld =>
      obtain ⟨w, hl⟩ := C05_meld n x y wx wy
      simp only [BinOp.eval, c1]
      refine ⟨w, fun p => ?_⟩
      cases e : x.lookup n p with
      | none => simpa [Gives] using (hl p).2 e
      | some v => simpa [Gives] using (hl p).1 v e
    | intersection =>
      simp only [BinOp.eval, c3]
      exact C06_intersection n x y wx wy
    | subtract =>
      simp only [BinOp.eval, c2]
      exact C06_subtract n x y wx wy
    | difference =>
      simp only [BinOp.eval]
      rw [c4, show encode 1 0 = 1 by decide]
      obtain ⟨w, -, hl⟩ := C07_difference_partial n 1 x y wx wy
      exact ⟨w, hl⟩
    | diffTagged =>
      obtain ⟨w, -, hl⟩ := C08_difftagged n x y wx wy (fun p v hv => hs rfl p v (.inl hv)) (fun p v hv => hs rfl p v (.inr hv))
      refine ⟨w, fun p => ⟨(hl p).1, fun hne => ?_⟩⟩
      obtain ⟨v, h1, -, h2⟩ := (hl p).2 hne
      exact ⟨v, h1, h2⟩
  refine ⟨s', _, by rw [refs_append, h]; simp only [RefState.run, hstep], e2, hm.1, hm.2, fun i w hw => e3 i w hw⟩

/-- **C80** The branches of an object: for a diagram that is not constant both can be had, as new objects, and for every packet the diagram holds
what the one branch or the other holds, by the bit that the diagram asks first. -/
theorem C80_branches (ops : List RefOp) (s : RefState) (h : RefState.init.run ops = .ok s) (n a i : Nat) (z o : DD Nat)
    (hx : s.root a = .ok (node i z o)) :
    ∃ s' t f, RefState.init.run (ops ++ [.child true a, .child false a]) = .ok s' ∧ s'.root s.fresh = .ok t ∧ s'.root (s.fresh + 1) = .ok f ∧
      ∀ p, (node i z o).lookup n p = if p (n - 1 - i) then t.lookup n p else f.lookup n p := by
  obtain h' | ⟨s0, h', ha⟩ := Acc.run (ops := ops) Acc.initial
  · rw [h] at h'; cases h'
  rw [h] at h'
  cases h'
  have hlt := ha.fresh _ (root_mem hx)
  simp only at hlt
  have h1 : s.step (.child true a) = .ok ⟨(s.fresh, o) :: s.objs, o :: s.ext, s.fresh + 1⟩ := by
    simp only [RefState.step, RefState.child, hx, branch, if_true, give_ok s o ha.fresh, RefState.ref]
  have hx' : RefState.root a ⟨(s.fresh, o) :: s.objs, o :: s.ext, s.fresh + 1⟩ = .ok (node i z o) := by
    have : (a == s.fresh) = false := by simp; omega
    simp [RefState.root, List.lookup_cons, this, root_lookup hx]
  have h2 : RefState.step ⟨(s.fresh, o) :: s.objs, o :: s.ext, s.fresh + 1⟩ (.child false a) =
      .ok ⟨(s.fresh + 1, z) :: (s.fresh, o) :: s.objs, z :: o :: s.ext, s.fresh + 1 + 1⟩ := by
    simp only [RefState.step, RefState.child, hx', branch]
    rw [give_ok _ _ (by intro x hm; rcases List.mem_cons.1 hm with rfl | hm; · simp
                        · have := ha.fresh x hm; simp only; omega)]
    rfl
  refine ⟨_, o, z, by rw [refs_append, h]; simp only [RefState.run, h1, h2]; rfl, ?_, ?_, fun p => rfl⟩
  · have : (s.fresh == s.fresh + 1) = false := by simp
    simp [RefState.root, List.lookup_cons, this]
  · simp [RefState.root]

/-- A melded and a subtracted diagram, and the branches of the first. -/
example : ((RefState.init.run [.wc 2 0b1001 5, .wc 2 0b1101 7, .binary .meld 0 1, .binary .subtract 2 0, .child true 2, .child false 2]).toOption.map (·.objs)) =
    some [(5, node 1 (term 7) bot), (4, node 1 (term 5) bot), (3, node 0 (node 1 (term 7) bot) bot), (2, node 0 (node 1 (term 7) bot) (node 1 (term 5) bot)),
      (1, node 1 (term 7) bot), (0, node 0 bot (node 1 (term 5) bot))] := by decide +kernel

end Cudd
end OFE
