import Verif.Deps.Insert
import Verif.Deps.OfRule

/-! # C35, C36: direct dependencies -/

namespace OFE
namespace Deps
open DD

/-- **C35** (partial: `get_goto_egress` must not raise for a rule that has no rule below it, see `C35_egress_raises`.)
`build_table_deps` with diagrams returns, for a table without overlapping rules of one priority, exactly the direct dependencies: an
edge (r, c) for rules r, c of the table with a packet that matches both, c being of lower priority, and matches no rule in between; the
label is exactly the set of those packets. -/
theorem C35_direct_exact_partial (n : Nat) (hn : 0 < n) (rs : List DRule) (hne : rs ≠ []) (h : TableOK n rs)
    (he : ∀ r ∈ rs, (∀ q ∈ rs, ¬ q.priority < r.priority) → ∃ w, r.egress = .ok w) :
    ∃ reaches, buildTableDeps n rs = .ok reaches ∧ ExactDeps n rs reaches := by
  obtain ⟨g, e, hg, hx⟩ := batch_exact hn hne h he
  exact ⟨g.reaches, e, exact_deps hg hx⟩

/-- Negation for C35: a rule with nothing below it is asked for its egress although that is not used, so an exception there (for instance
three pushed headers, see `egress_three_pushes`) makes `build_table_deps` fail. -/
theorem C35_egress_raises (n : Nat) (r : DRule) (e : PyErr) (h : r.egress = .error e) : buildTableDeps n [r] = .error e := by
  simp [buildTableDeps, potential, addParents, startWc, h, bind, Except.bind]

/-- A rule that matches on a VLAN and pushes three VLAN headers. -/
def threePushes : Rule Unit where
  priority := 0
  cookie := none
  table := 0
  mat := Match.empty.append 6 0x1005 none
  inst := ⟨none, ⟨[[.pushVlan 33024], [.pushVlan 33024], [.pushVlan 33024]], [.pushVlan 33024, .pushVlan 33024, .pushVlan 33024]⟩,
    ActionList.empty, none, false, none⟩
  path := []

/-- Its egress raises, and so `build_table_deps` of a table with this rule alone. -/
theorem egress_three_pushes : RuleOK threePushes ∧ ∃ e, gotoEgress threePushes none = .error e ∧
    ∃ d, DRule.ofRule 0 threePushes = .ok d ∧ buildTableDeps totBits [d] = .error e := by
  refine ⟨⟨inv_append inv_empty _ _ _, by decide +kernel, ⟨[.pushVlan 33024, .pushVlan 33024, .pushVlan 33024], by decide, by decide +kernel⟩,
    ⟨[], by decide, by decide +kernel⟩⟩, ?_⟩
  cases he : gotoEgress threePushes none with
  | ok m =>
    have h0 : (gotoEgress threePushes none).isOk = false := by decide +kernel
    rw [he] at h0; cases h0
  | error e =>
    refine ⟨e, rfl, ?_⟩
    cases hw : threePushes.mat.getWildcard with
    | error e' =>
      have h0 : threePushes.mat.getWildcard.isOk = true := by decide +kernel
      rw [hw] at h0; cases h0
    | ok v =>
      refine ⟨⟨0, threePushes.priority, threePushes.table, v.1, .error e⟩, ?_, C35_egress_raises _ _ _ rfl⟩
      simp [DRule.ofRule, hw, he, bind, Except.bind, pure, Except.pure]

/-- **C36** For every table without repeated rules, without overlapping rules of one priority, and with exactly one match-all rule, of the lowest
priority, the incremental algorithm returns the same edges with the same diagrams as the batch algorithm, and these are the direct
dependencies; whatever order sets are iterated in, if the recursion limit is not below the number of rules.  (The incremental
algorithm does not need the egress of the default rule.) -/
theorem C36_incremental (n : Nat) (hn : 0 < n) (ord : List DRule → List DRule) (hord : ∀ l, (ord l).Perm l) (rs : List DRule)
    (hnd : rs.Nodup) (h : TableOK n rs) (d : DRule) (hd : d ∈ rs) (hall : d.wc = wcFull n)
    (hlow : ∀ r ∈ rs, r ≠ d → d.priority < r.priority ∧ r.wc ≠ wcFull n) (depth : Nat) (hdep : rs.length ≤ depth) :
    ∃ inc, buildIncremental n ord depth rs = .ok inc ∧ ExactDeps n rs inc ∧
      ((∃ w, d.egress = .ok w) → ∃ batch, buildTableDeps n rs = .ok batch ∧ ∀ e, inc.lookup e = batch.lookup e) := by
  let le : DRule → DRule → Bool := fun a b => decide (a.priority ≤ b.priority)
  have hperm := sortBy_perm le rs
  have hone : (sortBy le rs).filter (fun r => decide (r.wc = 2 ^ (2 * n) - 1)) = [d] := by
    have h1 : ∀ r, r ∈ (sortBy le rs).filter (fun r => decide (r.wc = 2 ^ (2 * n) - 1)) ↔ r = d := by
      intro r
      simp only [List.mem_filter, hperm.mem_iff, decide_eq_true_eq]
      constructor
      · rintro ⟨a, b⟩
        by_contra hc
        exact (hlow r a hc).2 b
      · rintro rfl; exact ⟨hd, hall⟩
    have h2 : ((sortBy le rs).filter (fun r => decide (r.wc = 2 ^ (2 * n) - 1))).Nodup := (hperm.nodup_iff.2 hnd).filter _
    exact List.perm_singleton.1 ((List.perm_ext_iff_of_nodup h2 (by simp)).2 (by simpa using h1))
  let l := (sortBy le rs).filter (fun r => decide (r.wc ≠ 2 ^ (2 * n) - 1))
  have hl : (l ++ [d]).Perm rs := by
    refine List.Perm.trans ?_ hperm
    have := List.filter_append_perm (fun r : DRule => decide (r.wc = 2 ^ (2 * n) - 1)) (sortBy le rs)
    rw [hone] at this
    refine (List.perm_append_comm).trans ?_
    simpa [l] using this
  have hmem : ∀ {r}, r ∈ l ++ [d] → r ∈ rs := fun hr => hl.mem_iff.1 hr
  obtain ⟨g, T, e, hg, hx, hT⟩ := insert_all hn (d := d) hord (depth := depth) l (S := [d]) (by simp)
    ⟨fun r hr => h.valid r (hmem hr), fun r hr s hs => h.table r (hmem hr) s (hmem hs), fun r hr s hs => h.ties r (hmem hr) s (hmem hs)⟩
    ⟨by simp, fun p => by unfold DRule.hits; rw [hall]; exact covers_wcFull n p, fun r hr hne => (hlow r (hmem hr) hne).1⟩
    (hl.nodup_iff.2 hnd) (by rw [hl.length_eq]; exact hdep) good_empty (exact_single d)
  have hm : ∀ r, r ∈ T ↔ r ∈ rs := fun r => (hT r).trans hl.mem_iff
  have hx' := exactOn_congr hm hx
  refine ⟨g.reaches, ?_, exact_deps hg hx', fun hw => ?_⟩
  · unfold buildIncremental
    simp only [show (fun a b : DRule => decide (a.priority ≤ b.priority)) = le from rfl, hone, List.getLast?_singleton]
    change (do return (← l.foldlM (fun g R => dagInsert n ord depth d R g) ⟨[], []⟩).reaches : Except PyErr (Reaches BDD)) = _
    rw [e]; rfl
  · obtain ⟨g', e', hg', hx2⟩ := batch_exact hn (List.ne_nil_of_mem hd) h (fun r hr hno => by
      by_cases hrd : r = d
      · rw [hrd]; exact hw
      · exact absurd (hlow r hr hrd).1 (hno d hd))
    exact ⟨g'.reaches, e', exact_unique (fun _ => Iff.rfl) hg hg' hx' hx2⟩

/-- **C36**, one insertion: `dep_dag_insert` takes the exact graph of a table with a lowest match-all rule to the exact graph of the table with a new
rule of any priority above it.  Hence every order of insertions gives the same graph. -/
theorem C36_insert (n : Nat) (hn : 0 < n) (ord : List DRule → List DRule) (hord : ∀ l, (ord l).Perm l) (S : List DRule) (d new : DRule)
    (h : TableOK n (new :: S)) (hdS : d ∈ S) (hall : ∀ p, d.hits n p) (hlow : ∀ r ∈ new :: S, r ≠ d → d.priority < r.priority) (hnew : new ∉ S)
    (depth : Nat) (hdep : S.length < depth) (g : Dag) (hg : Good n g) (hx : ExactOn n S S g) :
    ∃ g', dagInsert n ord depth d new g = .ok g' ∧ Good n g' ∧ ExactOn n (new :: S) (new :: S) g' :=
  dagInsert_spec hn h ⟨List.mem_cons_of_mem _ hdS, hall, hlow⟩ hdS hnew hord hdep hg hx

/-! ### Samples over two header bits -/

/-- `xx` (lowest), `1x`, `x0`, `10`, and `0x` of the same priority as `10`. -/
def sD : DRule := ⟨0, 0, 0, 0b1111, .ok 0b1111⟩
def sA : DRule := ⟨1, 10, 0, 0b1011, .ok 0b1011⟩
def sB : DRule := ⟨2, 20, 0, 0b1101, .ok 0b1101⟩
def sC : DRule := ⟨3, 30, 0, 0b1001, .ok 0b1001⟩
def sE : DRule := ⟨4, 30, 0, 0b0111, .error .overflow⟩
def sampleTable : List DRule := [sC, sA, sD, sE, sB]

theorem wcValid_small {n w : Nat} (h : decide (w < 2 ^ (2 * n)) && (List.range n).all fun i => w.testBit (2 * i) || w.testBit (2 * i + 1)) :
    WcValid n w := by
  simp only [Bool.and_eq_true, decide_eq_true_eq, List.all_eq_true, List.mem_range, Bool.or_eq_true] at h
  exact ⟨h.1, h.2⟩

theorem sample_ok : TableOK 2 sampleTable := by
  refine ⟨?_, by decide, ?_⟩
  · intro r hr
    apply wcValid_small
    revert r
    decide
  · intro r hr s hs hp hne
    have : wcIntersect 2 r.wc s.wc = 0 := by
      revert r s
      decide +kernel
    exact (wcIntersect_eq_zero (by decide) _ _).1 this

/-- The sample meets the hypotheses of C35 and C36; the edge from `x0` reaches past `1x` (packet `00`). -/
example : (sampleTable.Nodup ∧ sD ∈ sampleTable ∧ sD.wc = wcFull 2 ∧
      ∀ r ∈ sampleTable, r ≠ sD → sD.priority < r.priority ∧ r.wc ≠ wcFull 2) ∧
    (buildTableDeps 2 sampleTable).map (fun l => l.map (·.1)) =
      .ok [⟨sC, sB⟩, ⟨sA, sD⟩, ⟨sE, sB⟩, ⟨sE, sD⟩, ⟨sB, sA⟩, ⟨sB, sD⟩] ∧
    (buildIncremental 2 List.reverse 5 sampleTable).map (fun l => l.map (·.1)) =
      .ok [⟨sA, sD⟩, ⟨sB, sA⟩, ⟨sB, sD⟩, ⟨sC, sB⟩, ⟨sE, sB⟩, ⟨sE, sD⟩] ∧
    (buildTableDeps 2 sampleTable).map (fun l => l.lookup ⟨sB, sD⟩) = .ok (some (node 0 (node 1 (term ()) bot) bot)) := by
  decide +kernel

/-- Inserting out of order changes an existing edge: `1x` goes between `10` and the default. -/
example : (dagInsert 2 id 2 sD sC ⟨[], []⟩).map (fun g => g.reaches.map (·.1)) = .ok [⟨sC, sD⟩] ∧
    ((dagInsert 2 id 2 sD sC ⟨[], []⟩).bind (dagInsert 2 id 3 sD sA)).map (fun g => g.reaches.map (·.1)) = .ok [⟨sC, sA⟩, ⟨sA, sD⟩] := by
  decide +kernel

/-- The lowest match-all rule has to be the only one: with another one above, that one is taken as the default, the lowest is forgotten
and the rule `0x` below gets an edge upwards. -/
theorem C36_two_match_all :
    buildIncremental 2 id 5 [⟨0, 0, 0, 0b1111, .ok 0⟩, ⟨1, 3, 0, 0b0111, .ok 0⟩, ⟨2, 5, 0, 0b1111, .ok 0⟩] =
      .ok [(⟨⟨1, 3, 0, 0b0111, .ok 0⟩, ⟨2, 5, 0, 0b1111, .ok 0⟩⟩, node 0 (term ()) bot)] ∧
    (buildTableDeps 2 [⟨0, 0, 0, 0b1111, .ok 0⟩, ⟨1, 3, 0, 0b0111, .ok 0⟩, ⟨2, 5, 0, 0b1111, .ok 0⟩]).map (fun l => l.map (·.1)) =
      .ok [⟨⟨1, 3, 0, 0b0111, .ok 0⟩, ⟨0, 0, 0, 0b1111, .ok 0⟩⟩, ⟨⟨2, 5, 0, 0b1111, .ok 0⟩, ⟨1, 3, 0, 0b0111, .ok 0⟩⟩,
        ⟨⟨2, 5, 0, 0b1111, .ok 0⟩, ⟨0, 0, 0, 0b1111, .ok 0⟩⟩] := by
  decide +kernel

/-- Rules as the program has them give such a table, over the 1584 header bits. -/
example : (DRule.ofRule 7 { threePushes with inst := ⟨none, ⟨[[.setField 6 6]], [.setField 6 6]⟩,
    ActionList.empty, none, false, none⟩ }).map (fun d => (d.priority, d.wc == 2 ^ (2 * totBits) - 1, d.egress.isOk)) = .ok (0, false, true) := by
  decide +kernel

/-- The lowest rule of the sample table sends out packets. -/
theorem sample_lowest : ∀ r ∈ sampleTable, (∀ q ∈ sampleTable, ¬ q.priority < r.priority) → ∃ w, r.egress = .ok w := by
  have h : ∀ r ∈ sampleTable, (∀ q ∈ sampleTable, ¬ q.priority < r.priority) → r.egress.isOk = true := by decide +kernel
  intro r hr hq
  have := h r hr hq
  cases e : r.egress with
  | error x => rw [e] at this; cases this
  | ok w => exact ⟨w, rfl⟩
example := C35_direct_exact_partial 2 (by decide) sampleTable (by decide) sample_ok sample_lowest
example := C36_incremental 2 (by decide) List.reverse (fun l => List.reverse_perm l) sampleTable (by decide) sample_ok sD (by decide) (by decide)
  (by decide +kernel) 5 (by decide)

end Deps
end OFE
