import Verif.Hs.Lemmas
import Verif.Props.Deps

/-! # C38, C43: header spaces -/

namespace OFE

/-- **C43** After every sequence of operations on a header space, starting from any header space, the packets are those that the operations mean: union,
intersection, difference, and no change for `clean_up`. -/
theorem C43_headerspace (n : Nat) (hn : 0 < n) (ops : List HSOp) (h : HSpace) (p : Packet) :
    (ops.foldl (HSOp.apply n) h).Has n p ↔ ops.foldl (HSOp.on n) (h.Has n) p := by
  induction ops generalizing h with
  | nil => rfl
  | cons o ops ih =>
    rw [List.foldl_cons, List.foldl_cons, ih]
    have : (HSOp.apply n h o).Has n = HSOp.on n (h.Has n) o := by
      funext q
      apply propext
      cases o with
      | add wc => exact HSpace.has_addHs h wc q
      | intersect b => exact HSpace.has_intersect hn h b q
      | diff wc => exact HSpace.has_diffHs hn h wc q
      | cleanUp => exact HSpace.has_cleanUp h q
    rw [this]

/-- **C43** A header space that is reported empty has no packets. -/
theorem C43_is_empty (n : Nat) (h : HSpace) (he : h.cleanUp.isEmpty = true) (p : Packet) : ¬ h.Has n p := by
  rw [← HSpace.has_cleanUp]
  have : h.cleanUp = [] := by simpa [HSpace.isEmpty] using he
  rw [this]
  rintro ⟨x, hx, -⟩
  cases hx

/-- **C43** Where nothing was taken away the test is exact: the intersection of two wildcards is reported empty exactly if no packet is in both. -/
theorem C43_no_diff_exact (n : Nat) (hn : 0 < n) (a b : Nat) :
    ((HSpace.intersect n (HSpace.addHs [] a) (HSpace.addHs [] b)).cleanUp.isEmpty = true) ↔ ¬ ∃ p, Covers n a p ∧ Covers n b p := by
  rw [← wcIntersect_eq_zero hn]
  by_cases h : wcIntersect n a b = 0 <;> simp [HSpace.intersect, HSpace.addHs, HSpace.cleanUp, HSpace.isEmpty, HSpace.meet, h]

/-- The converse of `C43_is_empty` does not hold: `xx` without `0x` and `1x` has no packets and is not reported empty. -/
theorem C43_is_empty_incomplete : (((HSpace.addHs [] 0b1111).diffHs 2 0b0111).diffHs 2 0b1011).cleanUp.isEmpty = false ∧
    ∀ p, ¬ (((HSpace.addHs [] 0b1111).diffHs 2 0b0111).diffHs 2 0b1011).Has 2 p := by
  refine ⟨by decide +kernel, fun p => ?_⟩
  rw [HSpace.has_diffHs (by decide), HSpace.has_diffHs (by decide)]
  rintro ⟨⟨-, h1⟩, h2⟩
  cases hp : p 1 with
  | false =>
    apply h1
    intro i hi
    have : i = 0 ∨ i = 1 := by omega
    rcases this with rfl | rfl
    · cases p 0 <;> decide
    · rw [hp]; decide
  | true =>
    apply h2
    intro i hi
    have : i = 0 ∨ i = 1 := by omega
    rcases this with rfl | rfl
    · cases p 0 <;> decide
    · rw [hp]; decide

/-- `(xx ∪ 10) ∩ x0`, without `1x`, cleaned up: `00` is left. -/
example : [HSOp.add 0b1111, .add 0b1001, .intersect [(0b1101, [])], .diff 0b1011, .cleanUp].foldl (HSOp.apply 2) [] = [(0b1101, [0b1001])] := by
  decide +kernel

namespace Deps

/-- **C38** The header-space variant of `build_table_deps` misses no edge of the diagram variant: for every ruleset (of one or more tables), whenever
the diagram variant succeeds, so does the header-space variant, and every edge of the former is an edge of the latter. -/
theorem C38_no_missed_edge (n : Nat) (hn : 0 < n) (rs : List DRule) (hv : ∀ r ∈ rs, WcValid n r.wc)
    (he : ∀ r ∈ rs, ∀ w, r.egress = .ok w → WcValid n w) (bdd : Reaches BDD) (h : buildTableDeps n rs = .ok bdd) :
    ∃ hs, buildTableDepsHs n rs = .ok hs ∧ ∀ e, (bdd.lookup e).isSome → (hs.lookup e).isSome := by
  unfold buildTableDeps at h
  split at h
  · cases h
  · cases hf : rs.foldlM (fun g R => addParents n R (potential rs R) g) ⟨[], []⟩ with
    | error e => rw [hf] at h; cases h
    | ok g =>
      rw [hf] at h
      cases h
      exact hs_fold_keys hn hv he rs (fun _ hr => hr) (h := []) (by simp) hf

/-- **C38** The labels stand for the same packets: for a ruleset without repeated rules, a label of the header-space variant has exactly the packets of the
diagram on the edge, and no packets if the diagram variant has no such edge. -/
theorem C38_labels (n : Nat) (hn : 0 < n) (rs : List DRule) (hnd : rs.Nodup) (hv : ∀ r ∈ rs, WcValid n r.wc)
    (he : ∀ r ∈ rs, ∀ w, r.egress = .ok w → WcValid n w) (bdd : Reaches BDD) (h : buildTableDeps n rs = .ok bdd)
    (hs : Reaches HSpace) (h' : buildTableDepsHs n rs = .ok hs) (r c : DRule) (l : HSpace) (hl : hs.lookup ⟨r, c⟩ = some l) (p : Packet) :
    l.Has n p ↔ ∃ b, bdd.lookup ⟨r, c⟩ = some b ∧ Holds n b p := by
  unfold buildTableDeps at h
  split at h
  · cases h
  · cases hf : rs.foldlM (fun g R => addParents n R (potential rs R) g) ⟨[], []⟩ with
    | error e => rw [hf] at h; cases h
    | ok g =>
      rw [hf] at h
      cases h
      exact hs_fold_labels hn hnd hv he rs (fun _ hr => hr) hnd good_empty (by simp) (fun r _ c p h => by simp [Dag.on] at h) (by simp) hf h' r c l hl p

/-- The sample: no edge more. -/
example : (buildTableDepsHs 2 sampleTable).map (fun l => l.map (·.1)) =
    .ok [⟨sC, sB⟩, ⟨sA, sD⟩, ⟨sE, sB⟩, ⟨sE, sD⟩, ⟨sB, sA⟩, ⟨sB, sD⟩] := by decide +kernel

/-- The header-space variant may report more: a rule covered by two others together depends on what is below them. -/
theorem C38_spurious_edge :
    (buildTableDeps 2 [⟨3, 9, 0, 0b1111, .ok 0⟩, ⟨2, 8, 0, 0b0111, .ok 0⟩, ⟨1, 7, 0, 0b1011, .ok 0⟩, ⟨0, 0, 0, 0b1111, .ok 0⟩]).map
      (fun l => (l.lookup ⟨⟨3, 9, 0, 0b1111, .ok 0⟩, ⟨0, 0, 0, 0b1111, .ok 0⟩⟩).isSome) = .ok false ∧
    (buildTableDepsHs 2 [⟨3, 9, 0, 0b1111, .ok 0⟩, ⟨2, 8, 0, 0b0111, .ok 0⟩, ⟨1, 7, 0, 0b1011, .ok 0⟩, ⟨0, 0, 0, 0b1111, .ok 0⟩]).map
      (fun l => (l.lookup ⟨⟨3, 9, 0, 0b1111, .ok 0⟩, ⟨0, 0, 0, 0b1111, .ok 0⟩⟩).isSome) = .ok true := by
  decide +kernel

end Deps
end OFE
