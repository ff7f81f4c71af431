import Verif.Cudd.IterLemmas
import Verif.Cudd.RefsLemmas
import Verif.Props.Bdd

/-!
# Property C80: CUDD diagrams are enumerated completely and released completely
-/

namespace OFE
namespace Cudd
open DD

/-- C80: calls of `next()` on a new iterator, or after `iter()` wherever the iterator stood, give one result per
`len()`, then `StopIteration`, and leave the iterator ready to begin again.  The results are wildcards with decoded
terminals that are valid, pairwise disjoint, and cover exactly the packets with an action.  The manager must know the
variables of the diagram and get no new ones meanwhile (see `C80_grown`). -/
theorem C80_iterate (m n size : Nat) (it : Iter) (hw : WF m 0 it.root) (hn : m ≤ n) (hs : m ≤ size)
    (hb : it.bits = n - 1) (hwc : it.wc = wcFull n) :
    ∃ l : List (Nat × Nat),
      it.iter.nexts size (it.len + 1) =
        (l.map (fun x => .ok (some (x.1, (decode x.2).1, (decode x.2).2))) ++ [.ok none], it.iter) ∧
      l.length = it.len ∧
      (∀ x ∈ l, WcValid n x.1) ∧
      l.Pairwise (fun x y => ¬ ∃ p, Covers n x.1 p ∧ Covers n y.1 p) ∧
      ∀ p v, it.root.lookup n p = some v ↔ ∃ w, (w, v) ∈ l ∧ Covers n w p := by
  have hn' : WF n 0 it.root := by
    have : ∀ (t : DD Nat) k, WF m k t → WF n k t := by
      intro t
      induction t with
      | bot => intros; trivial
      | term a => intros; trivial
      | node i z o hz ho =>
        intro k ⟨h1, h2, h3, h4, h5⟩
        exact ⟨h1, by omega, h3, hz _ h4, ho _ h5⟩
    exact this _ _ hw
  obtain ⟨h1, h2, h3⟩ := C10_bdd_to_wcs n it.root hn'
  refine ⟨DD.toWcs n it.root, ?_, sizeRec_toWcsAux _ _ _, h1, h2, h3⟩
  have h := nexts_pending (size := size) _ it.iter rfl
  have e : it.iter.pending size = cubes size it.root := rfl
  rw [e, cubes_length_sizeRec] at h
  rw [show it.len = sizeRec it.root from rfl, h]
  rw [show it.iter.bits = n - 1 from hb, show it.iter.wc = wcFull n from hwc, cubes_out hw hn hs]
  simp only [Iter.iter, hb, hwc]
  rfl

/-- `1x0` with action 7: one result, then the end, then the same again. -/
example :
    let it := Iter.init (node 0 bot (node 2 (term 7) bot)) (wcFull 3) 2
    WF 3 0 it.root ∧ it.len = 1 ∧ (it.nexts 3 4).1.map Except.toOption =
      [some (some (0b101101, 7, 0)), some none, some (some (0b101101, 7, 0)), some none] := by
  refine ⟨⟨by decide, by decide, by decide, trivial, ⟨by decide, by decide, by decide, trivial, trivial⟩⟩, ?_⟩
  decide +kernel

/-- C80: the loop over the iterator, as in `cuddbdd.BDD_to_wcs`, gives the same list as the recursive `BDD_to_wcs` of the C
module (cuddmodule.c:396-442), in the same order. -/
theorem C80_collect (m n size : Nat) (t : DD Nat) (hw : WF m 0 t) (hn : m ≤ n) (hs : m ≤ size) (k : Nat)
    (hk : sizeRec t < k) :
    (Iter.init t (wcFull n) (n - 1)).collect size k =
      .ok ((DD.toWcs n t).map fun x => (x.1, (decode x.2).1, (decode x.2).2)) := by
  refine collect_pending _ (cubes size t) _ k rfl ?_ ?_
  · rw [List.map_map]
    exact cubes_out hw hn hs (wcFull n)
  · rw [List.length_map, DD.toWcs, sizeRec_toWcsAux]; exact hk

/-- A diagram with two paths. -/
example :
    let t : DD Nat := node 0 (term 5) (node 2 (term 7) bot)
    WF 3 0 t ∧ sizeRec t = 2 ∧ ((Iter.init t (wcFull 3) 2).collect 3 3).toOption = some [(0b011111, 5, 0), (0b101101, 7, 0)] := by
  refine ⟨⟨by decide, by decide, by decide, trivial, ⟨by decide, by decide, by decide, trivial, trivial⟩⟩, ?_⟩
  decide +kernel

/-- C80 does not hold while diagrams are built during the iteration: once another `wc_to_BDD` has given the manager more
variables than it had at the first `next()`, the next `next()` reads past the end of the array of the cube. -/
theorem C80_grown : ∃ it it' : Iter, ∃ x y, WF 1 0 it.root ∧ it.next 1 = (.ok (some x), it') ∧
    (it'.next 1).1 = .ok (some y) ∧ (it'.next 3).1 = .error .indexError :=
  ⟨Iter.init (node 0 (term 5) (term 7)) (wcFull 3) 2, ⟨node 0 (term 5) (term 7), wcFull 3, 2, some [([1], 7)]⟩,
    (0b011111, 5, 0), (0b101111, 7, 0), ⟨by decide, by decide, by decide, trivial, trivial⟩, rfl, rfl, rfl⟩

/-- C80: no sequence of operations drops a reference that is not held: a history goes through unless it uses an object
that is not there or asks a constant for its branches. -/
theorem C80_no_underflow (ops : List RefOp) :
    (∃ s, RefState.init.run ops = .ok s) ∨ RefState.init.run ops = .error .typeError := by
  rcases Acc.run (ops := ops) Acc.initial with h | ⟨s, h, _⟩
  · exact Or.inr h
  · exact Or.inl ⟨s, h⟩

/-- C80: while an object lives, every node of its diagram is kept. -/
theorem C80_live (ops : List RefOp) (s : RefState) (h : RefState.init.run ops = .ok s) :
    ∀ o ∈ s.objs, ∀ x, Sub x o.2 → Kept s x := by
  rcases Acc.run (ops := ops) Acc.initial with h' | ⟨s', h', ha⟩
  · rw [h] at h'; cases h'
  · rw [h] at h'
    simp only [Except.ok.injEq] at h'
    subst h'
    intro o ho x hx
    exact ⟨o.2, ha.perm.mem_iff.2 (by simp; right; left; exact ⟨o.1, ho⟩), hx⟩

/-- C80 (partial), exact account: the external references are those of `DIFFERS`, one for each live object, and the
forgotten ones.  Missing from C80: `wc_to_BDD` and a second `__init__` do forget references (`C80_leak`, `C80_reinit_leak`). -/
theorem C80_account_partial (ops : List RefOp) (s : RefState) (h : RefState.init.run ops = .ok s) :
    s.ext.Perm (addConst (encode 1 0) :: (s.objs.map (·.2) ++ forgotten RefState.init ops)) := by
  rcases Acc.run (ops := ops) Acc.initial with h' | ⟨s', h', ha⟩
  · rw [h] at h'; cases h'
  · rw [h] at h'
    simp only [Except.ok.injEq] at h'
    subst h'
    simpa using ha.perm

/-- C80 (partial): when all objects are released, the nodes that stay are `DIFFERS` and the nodes of what was forgotten. -/
theorem C80_released_partial (ops : List RefOp) (s : RefState) (h : RefState.init.run ops = .ok s) (he : s.objs = []) (x : DD Nat) :
    Kept s x ↔ x = term 1 ∨ ∃ f ∈ forgotten RefState.init ops, Sub x f := by
  have hp := C80_account_partial ops s h
  rw [he] at hp
  simp only [Kept, hp.mem_iff, List.map_nil, List.nil_append, List.mem_cons]
  have hd : addConst (encode 1 0) = term 1 := by decide
  rw [hd]
  constructor
  · rintro ⟨r, rfl | hr, hx⟩
    · cases hx; exact Or.inl rfl
    · exact Or.inr ⟨r, hr, hx⟩
  · rintro (rfl | ⟨f, hf, hx⟩)
    · exact ⟨_, Or.inl rfl, Sub.self⟩
    · exact ⟨f, Or.inr hf, hx⟩

/-- Two wildcards, their meld and its branches, everything released: what remains are the diagrams below the decided bits,
here the terminals 5 and 7 and the diagram of the second lowest bit. -/
example :
    let ops := [.wc 2 0b1001 5, .wc 2 0b1101 7, .binary .meld 0 1, .child false 2, .release 0, .release 2, .release 1, .release 3]
    ((RefState.init.run ops).toOption.map fun s => (s.objs, s.ext)) =
      some ([], [term 7, node 1 (term 5) bot, term 5, term 1]) ∧
    forgotten RefState.init ops = [term 5, node 1 (term 5) bot, term 7] := by
  decide +kernel

/-- C80 does not hold: after one wildcard `0` is built and released, its terminal is still referenced. -/
theorem C80_leak : ∃ ops s, RefState.init.run ops = .ok s ∧ s.objs = [] ∧ Kept s (term 5) := by
  refine ⟨[.wc 1 0b01 5, .release 0], ⟨[], [term 5, term 1], 1⟩, by decide +kernel, rfl, term 5, by simp, Sub.self⟩

/-- The leak in general: building the diagram of a wildcard with at least one decided bit and releasing it leaves the
terminal (and the diagrams below every decided bit) referenced for ever. -/
theorem C80_leak_always (n wc t b : Nat) (hb : b < n) (hd : (wc >>> (b * 2)) &&& 3 = 1 ∨ (wc >>> (b * 2)) &&& 3 = 2) :
    ∃ s, RefState.init.run [.wc n wc t, .release 0] = .ok s ∧ s.objs = [] ∧
      Kept s (Cudd.wcLoop n wc 0 b (addConst (encode t 0))) := by
  have h1 := wcToBdd_ok RefState.init n wc t (by simp [RefState.init])
  have hi := Acc.initial.step (.wc n wc t)
  simp only [RefState.step, h1] at hi
  obtain hi | ⟨s', e, hs⟩ := hi
  · cases hi
  · simp only [Except.ok.injEq] at e
    have hr : s'.root 0 = .ok (Cudd.wcLoop n wc 0 n (addConst (encode t 0))) := by
      rw [← e]; simp [RefState.root, RefState.init]
    obtain ⟨s'', e', hs'⟩ := hs.release hr
    have ho : s''.objs = [] := by
      have := e'
      simp only [RefState.release, hr, RefState.deref] at this
      split at this
      · cases this
      · rename_i s2 h2
        split at h2
        · simp only [Except.ok.injEq] at h2 this
          rw [← this, ← h2, ← e]
          simp [RefState.init]
        · cases h2
    refine ⟨s'', by simp [RefState.run, RefState.step, h1, e, e'], ho, _, ?_, Sub.self⟩
    refine hs'.perm.mem_iff.2 ?_
    simp only [List.mem_cons, List.mem_append]
    refine Or.inr (Or.inr (Or.inr ?_))
    simp only [forgets, wcBelow, List.mem_map, List.mem_filter, List.mem_range]
    exact ⟨b, ⟨hb, by simpa using hd⟩, rfl⟩

/-- A wildcard of three bits, `1x0`: bit 2 is decided, the diagram of the bits below it remains. -/
example : 2 < 3 ∧ (0b101101 >>> (2 * 2)) &&& 3 = 2 ∧
    Cudd.wcLoop 3 0b101101 0 2 (addConst (encode 7 0)) = node 2 (term 7) bot := by decide +kernel

/-- C80 does not hold for objects initialised twice: `b = BDD(5); b.__init__(6); del b` leaves terminal 5 referenced. -/
theorem C80_reinit_leak : ∃ s, RefState.init.run [.new 5, .reinit 0 6, .release 0] = .ok s ∧ s.objs = [] ∧ Kept s (term 5) := by
  refine ⟨⟨[], [term 5, term 1], 1⟩, by decide +kernel, rfl, term 5, by simp, Sub.self⟩

/-- C80: a history whose wildcards are all don't-care and that initialises nothing twice releases everything: only
`DIFFERS` stays. -/
theorem C80_clean_partial (ops : List RefOp) (s : RefState) (h : RefState.init.run ops = .ok s) (he : s.objs = [])
    (hr : ∀ a x, .reinit a x ∉ ops) (hw : ∀ n w t, .wc n w t ∈ ops → ∀ b < n, (w >>> (b * 2)) &&& 3 ≠ 1 ∧ (w >>> (b * 2)) &&& 3 ≠ 2)
    (x : DD Nat) : Kept s x ↔ x = term 1 := by
  have key : ∀ (ops : List RefOp) (s : RefState), (∀ a x, .reinit a x ∉ ops) →
      (∀ n w t, .wc n w t ∈ ops → ∀ b < n, (w >>> (b * 2)) &&& 3 ≠ 1 ∧ (w >>> (b * 2)) &&& 3 ≠ 2) → forgotten s ops = [] := by
    intro ops
    induction ops with
    | nil => intros; rfl
    | cons op ops ih =>
      intro s hr hw
      have h1 : forgets s op = [] := by
        cases op with
        | wc n w t =>
          simp only [forgets, wcBelow, List.map_eq_nil_iff, List.filter_eq_nil_iff, List.mem_range]
          intro b hb
          simpa using hw n w t (by simp) b hb
        | reinit a x => exact absurd (by simp) (hr a x)
        | _ => rfl
      simp only [forgotten, h1, List.nil_append]
      split
      · rfl
      · exact ih _ (fun a x hm => hr a x (by simp [hm])) (fun n w t hm => hw n w t (by simp [hm]))
  rw [C80_released_partial ops s h he x, key ops _ hr hw]
  simp

/-- Constants made and combined. -/
example :
    let ops : List RefOp := [.new 5, .wc 2 0b1111 7, .binary .diffTagged 0 1, .release 1, .release 2, .release 0]
    ((RefState.init.run ops).toOption.map fun s => (s.objs, s.ext)) = some ([], [term 1]) := by
  decide +kernel

end Cudd
end OFE
