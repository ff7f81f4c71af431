import Verif.Deps.RulesetLemmas
import Verif.Props.Indirect
import Verif.Props.Hs

/-! # C83: direct dependencies over several tables -/

namespace OFE
namespace Deps
open DD

variable {π : Type}

/-- Result of `build_ruleset_deps` when the table algorithm is right on every table and the step between tables succeeds. -/
theorem direct_based {rs : List (URule π)} (h : Based rs) (hne : rs ≠ []) (attach : Bool) {build : List DRule → Except PyErr (List Edge)}
    {parents : DRule → List DRule → Except PyErr (List Edge)} {G : URule π → URule π → Prop}
    (hb : ∀ r ∈ rs, ∃ l, build (tableRules (rs.map gOf) r.2.table) = .ok l ∧ ∀ e, e ∈ l ↔ e.child ∈ tableRules (rs.map gOf) r.2.table ∧
      e.parent ∈ tableRules (rs.map gOf) r.2.table ∧ ∃ p, FallsTo totBits (tableRules (rs.map gOf) r.2.table) e.child e.parent p)
    (hp : ∀ r ∈ rs, ∀ t, r.2.inst.goto = some t → ∃ l, parents (dOf r) (tableRules (rs.map gOf) t) = .ok l ∧ ∀ e, e ∈ l ↔
      e.child = dOf r ∧ ∃ s ∈ rs, s.2.table = t ∧ dOf s = e.parent ∧ G r s) :
    ∃ es, directRuleset attach build parents rs = .ok es ∧ es.Nodup ∧
      ∀ a b, (a, b) ∈ es ↔ ∃ r s, r ∈ rs ∧ s ∈ rs ∧ r.1 = a ∧ s.1 = b ∧ ((∃ p, NextBelow rs r s p) ∨ (r.2.inst.goto = some s.2.table ∧ G r s)) := by
  let T := rs.map gOf
  obtain ⟨es, e1, e2, e3⟩ := directDeps_spec (attach := attach) (build := build) (parents := parents) (rs := T) (by simpa [T] using hne)
    (B := fun t => (build (tableRules T t)).toOption.getD [])
    (Q := fun r t => (parents r.1 (tableRules T t)).toOption.getD [])
    (fun d hd => by
      obtain ⟨r, hr, rfl⟩ := List.mem_map.1 hd
      obtain ⟨l, a, -⟩ := hb r hr
      have ht : (gOf r).1.table = r.2.table := (h.seen hr).table
      rw [ht, a]; rfl)
    (fun d hd t ht => by
      obtain ⟨r, hr, rfl⟩ := List.mem_map.1 hd
      obtain ⟨l, a, -⟩ := hp r hr t ht
      refine ⟨?_, ?_⟩
      · have := h.goto r hr t ht
        rw [show (gOf r).1.table = r.2.table from (h.seen hr).table]; exact this
      · rw [show (gOf r).1 = dOf r from rfl, a]; rfl)
  have hmem : ∀ e, e ∈ es ↔ ∃ r s, r ∈ rs ∧ s ∈ rs ∧ e = ⟨dOf r, dOf s⟩ ∧ ((∃ p, NextBelow rs r s p) ∨ (r.2.inst.goto = some s.2.table ∧ G r s)) := by
    intro e
    rw [e3]
    constructor
    · rintro (⟨d, hd, he⟩ | ⟨d, hd, t, ht, he⟩)
      · obtain ⟨x, hx, rfl⟩ := List.mem_map.1 hd
        obtain ⟨l, a, b⟩ := hb x hx
        have htx : (gOf x).1.table = x.2.table := (h.seen hx).table
        rw [htx] at he
        simp only [show T = rs.map gOf from rfl, a, Except.toOption, Option.getD_some] at he
        obtain ⟨c1, c2, c3⟩ := (b e).1 he
        obtain ⟨r, hr, hrt, hre⟩ := h.mem_tableRules.1 c1
        obtain ⟨s, hs, hst, hse⟩ := h.mem_tableRules.1 c2
        refine ⟨r, s, hr, hs, by rw [hre, hse], .inl ?_⟩
        rw [← hre, ← hse, ← hrt] at c3
        exact (h.falls hr hs (hrt.trans hst.symm)).1 c3
      · obtain ⟨r, hr, rfl⟩ := List.mem_map.1 hd
        obtain ⟨l, a, b⟩ := hp r hr t ht
        simp only [show T = rs.map gOf from rfl, show (gOf r).1 = dOf r from rfl, a, Except.toOption, Option.getD_some] at he
        obtain ⟨c1, s, hs, hst, c2, c3⟩ := (b e).1 he
        exact ⟨r, s, hr, hs, by rw [← c1, c2], .inr ⟨by rw [hst]; exact ht, c3⟩⟩
    · rintro ⟨r, s, hr, hs, rfl, h1 | ⟨hg, h1⟩⟩
      · left
        refine ⟨gOf r, List.mem_map.2 ⟨r, hr, rfl⟩, ?_⟩
        obtain ⟨l, a, b⟩ := hb r hr
        have htab : r.2.table = s.2.table := by obtain ⟨p, hp⟩ := h1; exact hp.2.2.1
        simp only [show (gOf r).1.table = r.2.table from (h.seen hr).table, show T = rs.map gOf from rfl, a, Except.toOption, Option.getD_some]
        exact (b _).2 ⟨h.mem_tableRules.2 ⟨r, hr, rfl, rfl⟩, h.mem_tableRules.2 ⟨s, hs, htab.symm, rfl⟩, (h.falls hr hs htab).2 h1⟩
      · right
        refine ⟨gOf r, List.mem_map.2 ⟨r, hr, rfl⟩, s.2.table, hg, ?_⟩
        obtain ⟨l, a, b⟩ := hp r hr _ hg
        simp only [show T = rs.map gOf from rfl, show (gOf r).1 = dOf r from rfl, a, Except.toOption, Option.getD_some]
        exact (b _).2 ⟨rfl, s, hs, rfl, rfl, h1⟩
  refine ⟨es.map fun e => (e.child.uid, e.parent.uid), ?_, ?_, fun a b => ?_⟩
  · simp only [directRuleset, gotoRules_conv rs fun r hr => h.conv hr, bind, Except.bind, pure, Except.pure]
    rw [show rs.map gOf = T from rfl, e1]
  · refine List.Nodup.map_on (fun x hx y hy e => ?_) e2
    obtain ⟨r, s, hr, hs, rfl, -⟩ := (hmem x).1 hx
    obtain ⟨r', s', hr', hs', rfl, -⟩ := (hmem y).1 hy
    simp only [Prod.mk.injEq, (h.seen hr).uid, (h.seen hs).uid, (h.seen hr').uid, (h.seen hs').uid] at e
    rw [h.id_inj hr hr' e.1, h.id_inj hs hs' e.2]
  · rw [List.mem_map]
    constructor
    · rintro ⟨e, he, hab⟩
      obtain ⟨r, s, hr, hs, rfl, hrs⟩ := (hmem e).1 he
      simp only [Prod.mk.injEq, (h.seen hr).uid, (h.seen hs).uid] at hab
      exact ⟨r, s, hr, hs, hab.1, hab.2, hrs⟩
    · rintro ⟨r, s, hr, hs, rfl, rfl, hp⟩
      exact ⟨_, (hmem ⟨dOf r, dOf s⟩).2 ⟨r, s, hr, hs, rfl, hp⟩, by rw [(h.seen hr).uid, (h.seen hs).uid]⟩

/-- The same where nothing is pushed or popped. -/
theorem direct_of_tables {rs : List (URule π)} (h : DirectOK rs) (hne : rs ≠ []) (attach : Bool) {build : List DRule → Except PyErr (List Edge)}
    (hb : ∀ r ∈ rs, ∃ l, build (tableRules (rs.map gOf) r.2.table) = .ok l ∧ ∀ e, e ∈ l ↔ e.child ∈ tableRules (rs.map gOf) r.2.table ∧
      e.parent ∈ tableRules (rs.map gOf) r.2.table ∧ ∃ p, FallsTo totBits (tableRules (rs.map gOf) r.2.table) e.child e.parent p) :
    ∃ es, directRuleset attach build (parentsBdd totBits) rs = .ok es ∧ es.Nodup ∧
      ∀ a b, (a, b) ∈ es ↔ ∃ r s p, r.1 = a ∧ s.1 = b ∧ (NextBelow rs r s p ∨ GoesTo rs r s p) := by
  have hB := h.based
  obtain ⟨es, e1, e2, e3⟩ := direct_based hB hne attach (parents := parentsBdd totBits) (G := fun r s => ∃ p, GoesTo rs r s p) hb (by
    intro r hr t ht
    obtain ⟨w, hw, hwv, -⟩ := (h.seen hr).image
    obtain ⟨l, e1, e2⟩ := parentsBdd_spec (n := totBits) (by decide) (R := dOf r) (P := tableRules (rs.map gOf) t)
      (fun q hq => by
        obtain ⟨s, hs, hst, rfl⟩ := hB.mem_tableRules.1 hq
        have := h.goto r hr t ht
        rw [(h.seen hs).table, (h.seen hr).table]; omega)
      hw hwv (hB.tableOK t).valid (hB.tableOK t).ties
    refine ⟨l, e1, fun e => ?_⟩
    rw [e2]
    refine and_congr_right fun _ => ?_
    constructor
    · rintro ⟨hm, hq⟩
      obtain ⟨s, hs, hst, he⟩ := hB.mem_tableRules.1 hm
      refine ⟨s, hs, hst, he, ?_⟩
      subst hst
      rw [← he] at hq
      exact (h.goes hr hs ht hw).1 hq
    · rintro ⟨s, hs, hst, he, hq⟩
      subst hst
      refine ⟨hB.mem_tableRules.2 ⟨s, hs, rfl, he⟩, ?_⟩
      rw [← he]
      exact (h.goes hr hs ht hw).2 hq)
  refine ⟨es, e1, e2, fun a b => ?_⟩
  rw [e3]
  constructor
  · rintro ⟨r, s, -, -, h1, h2, ⟨p, hp⟩ | ⟨-, p, hp⟩⟩
    · exact ⟨r, s, p, h1, h2, .inl hp⟩
    · exact ⟨r, s, p, h1, h2, .inr hp⟩
  · rintro ⟨r, s, p, h1, h2, hp | hp⟩
    · exact ⟨r, s, hp.1, hp.2.1, h1, h2, .inl ⟨p, hp⟩⟩
    · exact ⟨r, s, hp.1, hp.2.2.2.1, h1, h2, .inr ⟨hp.2.2.1, p, hp⟩⟩

/-- `build_table_deps` is right on every table. -/
theorem batch_tables {rs : List (URule π)} (h : Based rs) (r : URule π) (hr : r ∈ rs) :
    ∃ g, buildTableDeps totBits (tableRules (rs.map gOf) r.2.table) = .ok g ∧ ∀ e, e ∈ g.map (·.1) ↔ e.child ∈ tableRules (rs.map gOf) r.2.table ∧
      e.parent ∈ tableRules (rs.map gOf) r.2.table ∧ ∃ p, FallsTo totBits (tableRules (rs.map gOf) r.2.table) e.child e.parent p := by
  obtain ⟨g, e1, e2⟩ := C35_direct_exact_partial totBits (by decide) (tableRules (rs.map gOf) r.2.table)
    (List.ne_nil_of_mem (h.mem_tableRules.2 ⟨r, hr, rfl, rfl⟩)) (h.tableOK _)
    (fun d hd _ => by obtain ⟨s, hs, -, rfl⟩ := h.mem_tableRules.1 hd; exact (h.seen hs).egress)
  exact ⟨g, e1, fun e => lookup_isSome_iff.symm.trans (e2 e.child e.parent).2⟩

/-- `build_table_deps_incremental` is right on every table that has a table-miss rule. -/
theorem incremental_tables {rs : List (URule π)} (h : Based rs) (hmiss : ∀ r ∈ rs, ∃ d, d.2.table = r.2.table ∧ MissRule rs d)
    (ord : List DRule → List DRule) (hord : ∀ l, (ord l).Perm l) (depth : Nat) (hd : rs.length ≤ depth) (r : URule π) (hr : r ∈ rs) :
    ∃ g, buildIncremental totBits ord depth (tableRules (rs.map gOf) r.2.table) = .ok g ∧ ∀ e, e ∈ g.map (·.1) ↔
      e.child ∈ tableRules (rs.map gOf) r.2.table ∧
      e.parent ∈ tableRules (rs.map gOf) r.2.table ∧ ∃ p, FallsTo totBits (tableRules (rs.map gOf) r.2.table) e.child e.parent p := by
  obtain ⟨d, hdt, hm⟩ := hmiss r hr
  have hnd : (tableRules (rs.map gOf) r.2.table).Nodup := by
    rw [h.tableRules]
    refine List.Nodup.map_on (fun x hx y hy e => h.dOf_inj (List.mem_of_mem_filter hx) (List.mem_of_mem_filter hy) e) ?_
    exact (List.Nodup.of_map _ h.ids).filter _
  obtain ⟨g, e1, e2, -⟩ := C36_incremental totBits (by decide) ord hord (tableRules (rs.map gOf) r.2.table) hnd (h.tableOK _) (dOf d)
    (h.mem_tableRules.2 ⟨d, hm.mem, hdt, rfl⟩)
    ((covers_all_iff (h.seen hm.mem).valid).1 fun q => by
      obtain ⟨p, hp⟩ := exists_pkt q
      exact (h.hits_pkt hm.mem hp).2 (hm.all p))
    (fun x hx hne => by
      obtain ⟨s, hs, hst, rfl⟩ := h.mem_tableRules.1 hx
      obtain ⟨a, p, b⟩ := hm.low s hs (hst.trans hdt.symm) fun e => hne (by rw [h.id_inj hs hm.mem e])
      refine ⟨by rw [(h.seen hs).priority, (h.seen hm.mem).priority]; exact a, fun e => b ?_⟩
      exact (h.hits_pkt hs (q := p.hdr) fun _ _ _ => rfl).1 ((covers_all_iff (h.seen hs).valid).2 e _))
    depth (by
      rw [h.tableRules, List.length_map]
      exact Nat.le_trans (List.length_filter_le _ _) hd)
  exact ⟨g, e1, fun e => lookup_isSome_iff.symm.trans (e2 e.child e.parent).2⟩

/-- **C83** (partial: a rule that is shadowed in its own table counts as well, see `C83_shadowed`.)  With `build_table_deps`, the dependencies
of a pipeline are, each once, exactly: the pairs of rules of one table such that a packet matches both and no rule in between; and the
pairs (r, s) such that some packet that matches r, rewritten by r, meets s first in the table that r goes to. -/
theorem C83_batch_partial (rs : List (URule π)) (hne : rs ≠ []) (h : DirectOK rs) :
    ∃ es, directRuleset true (batchEdges totBits) (parentsBdd totBits) rs = .ok es ∧ es.Nodup ∧
      ∀ a b, (a, b) ∈ es ↔ ∃ r s p, r.1 = a ∧ s.1 = b ∧ (NextBelow rs r s p ∨ GoesTo rs r s p) :=
  direct_of_tables h hne true fun r hr => by
    obtain ⟨g, e1, e2⟩ := batch_tables h.based r hr
    exact ⟨_, by simp only [batchEdges, e1, bind, Except.bind, pure, Except.pure], e2⟩

/-- **C83** (partial as above; further every table must have a table-miss rule, the lowest and the only one to match all packets, see
`C83_no_miss`.)  The same for the default, the incremental algorithm, whatever order sets are iterated in. -/
theorem C83_incremental_partial (rs : List (URule π)) (hne : rs ≠ []) (h : DirectOK rs)
    (hmiss : ∀ r ∈ rs, ∃ d, d.2.table = r.2.table ∧ MissRule rs d)
    (ord : List DRule → List DRule) (hord : ∀ l, (ord l).Perm l) (depth : Nat) (hd : rs.length ≤ depth) :
    ∃ es, directRuleset true (incrementalEdges totBits ord depth) (parentsBdd totBits) rs = .ok es ∧ es.Nodup ∧
      ∀ a b, (a, b) ∈ es ↔ ∃ r s p, r.1 = a ∧ s.1 = b ∧ (NextBelow rs r s p ∨ GoesTo rs r s p) :=
  direct_of_tables h hne true fun r hr => by
    obtain ⟨g, e1, e2⟩ := incremental_tables h.based hmiss ord hord depth hd r hr
    exact ⟨_, by simp only [incrementalEdges, e1, bind, Except.bind, pure, Except.pure], e2⟩

/-- **C83** Any two rules that handle a packet one after the other are dependent. -/
theorem C83_pair (rs : List (URule π)) (h : DirectOK rs) (es : List (Nat × Nat))
    (he : directRuleset true (batchEdges totBits) (parentsBdd totBits) rs = .ok es) (t : Nat) (p : Pkt) (l : List (URule π)) (hl : Run rs t p l) :
    l.IsChain fun r s => (r.1, s.1) ∈ es := by
  have hne : rs ≠ [] := by
    rintro rfl
    cases he
  obtain ⟨es', e1, -, e2⟩ := C83_batch_partial rs hne h
  rw [e1] at he
  cases he
  induction hl with
  | last _ _ => exact .singleton _
  | step ht hf hg hr ih =>
    cases hr with
    | last ht' hf' =>
      subst ht'
      exact .cons_cons ((e2 _ _).2 ⟨_, _, _, rfl, rfl, .inr ⟨hf.1, hf.2.1, hg, hf'⟩⟩) (.singleton _)
    | step ht' hf' hg' hr' =>
      subst ht'
      exact .cons_cons ((e2 _ _).2 ⟨_, _, _, rfl, rfl, .inr ⟨hf.1, hf.2.1, hg, hf'⟩⟩) ih

/-! ### With header spaces -/

/-- If the parts of one variant contain those of another, so does the whole. -/
theorem directDeps_super {attach attach' : Bool} {build build' : List DRule → Except PyErr (List Edge)}
    {parents parents' : DRule → List DRule → Except PyErr (List Edge)} {rs : List (DRule × Option Nat)} (hne : rs ≠ [])
    (hb : ∀ r ∈ rs, ∃ l l', build (tableRules rs r.1.table) = .ok l ∧ build' (tableRules rs r.1.table) = .ok l' ∧ ∀ e ∈ l, e ∈ l')
    (hp : ∀ r ∈ rs, ∀ t, r.2 = some t → r.1.table < t ∧ ∃ l l', parents r.1 (tableRules rs t) = .ok l ∧ parents' r.1 (tableRules rs t) = .ok l' ∧
      ∀ e ∈ l, e ∈ l') :
    ∃ es es', directDeps attach build parents rs = .ok es ∧ directDeps attach' build' parents' rs = .ok es' ∧ ∀ e ∈ es, e ∈ es' := by
  obtain ⟨es, e1, -, m1⟩ := directDeps_spec (attach := attach) (build := build) (parents := parents) hne
    (B := fun t => (build (tableRules rs t)).toOption.getD []) (Q := fun r t => (parents r.1 (tableRules rs t)).toOption.getD [])
    (fun r hr => by obtain ⟨l, -, a, -⟩ := hb r hr; rw [a]; rfl)
    (fun r hr t ht => by obtain ⟨h0, l, -, a, -⟩ := hp r hr t ht; exact ⟨h0, by rw [a]; rfl⟩)
  obtain ⟨es', e1', -, m1'⟩ := directDeps_spec (attach := attach') (build := build') (parents := parents') hne
    (B := fun t => (build' (tableRules rs t)).toOption.getD []) (Q := fun r t => (parents' r.1 (tableRules rs t)).toOption.getD [])
    (fun r hr => by obtain ⟨-, l, -, a, -⟩ := hb r hr; rw [a]; rfl)
    (fun r hr t ht => by obtain ⟨h0, -, l, -, a, -⟩ := hp r hr t ht; exact ⟨h0, by rw [a]; rfl⟩)
  refine ⟨es, es', e1, e1', fun e he => (m1' e).2 ?_⟩
  rcases (m1 e).1 he with ⟨r, hr, h⟩ | ⟨r, hr, t, ht, h⟩
  · left
    obtain ⟨l, l', a, b, c⟩ := hb r hr
    refine ⟨r, hr, ?_⟩
    simp only [a, Except.toOption, Option.getD_some] at h
    simp only [b, Except.toOption, Option.getD_some]
    exact c e h
  · right
    obtain ⟨-, l, l', a, b, c⟩ := hp r hr t ht
    refine ⟨r, hr, t, ht, ?_⟩
    simp only [a, Except.toOption, Option.getD_some] at h
    simp only [b, Except.toOption, Option.getD_some]
    exact c e h

/-- **C83** With `use_bdd=False` no dependency is missed, whether the tables are built one way or the other.  (There may be more, see `C38_spurious_edge`.) -/
theorem C83_header_space (rs : List (URule π)) (hne : rs ≠ []) (h : DirectOK rs) (build : List DRule → Except PyErr (List Edge))
    (hb : build = batchEdgesHs totBits ∨ ∃ ord depth, build = incrementalEdges totBits ord depth ∧ (∀ l, (ord l).Perm l) ∧ rs.length ≤ depth ∧
      ∀ r ∈ rs, ∃ d, d.2.table = r.2.table ∧ MissRule rs d) :
    ∃ es, directRuleset false build (parentsHs totBits) rs = .ok es ∧
      ∀ r s p, NextBelow rs r s p ∨ GoesTo rs r s p → (r.1, s.1) ∈ es := by
  obtain ⟨es0, e0, -, m0⟩ := C83_batch_partial rs hne h
  obtain ⟨es, es', a, b, c⟩ := directDeps_super (attach := true) (attach' := false) (build := batchEdges totBits) (build' := build)
    (parents := parentsBdd totBits) (parents' := parentsHs totBits) (rs := rs.map gOf) (by simpa using hne)
    (fun d hd => by
      obtain ⟨r, hr, rfl⟩ := List.mem_map.1 hd
      rw [show (gOf r).1.table = r.2.table from (h.seen hr).table]
      obtain ⟨g, g1, g2⟩ := batch_tables h.based r hr
      rcases hb with rfl | ⟨ord, depth, rfl, p1, p2, p3⟩
      · obtain ⟨k, k1, k2⟩ := C38_no_missed_edge totBits (by decide) (tableRules (rs.map gOf) r.2.table) (h.based.tableOK _).valid
          (fun d hd => by obtain ⟨s, hs, -, rfl⟩ := h.based.mem_tableRules.1 hd; exact (h.seen hs).validE) g g1
        exact ⟨_, _, by simp only [batchEdges, g1, bind, Except.bind, pure, Except.pure],
          by simp only [batchEdgesHs, k1, bind, Except.bind, pure, Except.pure],
          fun e he => lookup_isSome_iff.1 (k2 e (lookup_isSome_iff.2 he))⟩
      · obtain ⟨k, k1, k2⟩ := incremental_tables h.based p3 ord p1 depth p2 r hr
        exact ⟨_, _, by simp only [batchEdges, g1, bind, Except.bind, pure, Except.pure],
          by simp only [incrementalEdges, k1, bind, Except.bind, pure, Except.pure], fun e he => (k2 e).2 ((g2 e).1 he)⟩)
    (fun d hd t ht => by
      obtain ⟨r, hr, rfl⟩ := List.mem_map.1 hd
      have hlt := h.goto r hr t ht
      refine ⟨by rw [show (gOf r).1.table = r.2.table from (h.seen hr).table]; exact hlt, ?_⟩
      obtain ⟨w, hw, hwv, -⟩ := (h.seen hr).image
      have hdiff : ∀ q ∈ tableRules (rs.map gOf) t, q.table ≠ (dOf r).table := fun q hq => by
        obtain ⟨s, hs, hst, rfl⟩ := h.based.mem_tableRules.1 hq
        rw [(h.seen hs).table, (h.seen hr).table]; omega
      obtain ⟨l, l1, -⟩ := parentsBdd_spec (n := totBits) (by decide) hdiff hw hwv (h.based.tableOK t).valid (h.based.tableOK t).ties
      obtain ⟨l', l2, l3⟩ := parentsHs_super (n := totBits) (by decide) ((startWc_egress hdiff).trans hw) hwv (h.based.tableOK t).valid l1
      exact ⟨l, l', l1, l2, l3⟩)
  simp only [directRuleset, gotoRules_eq rs h.ok h.flat, bind, Except.bind, pure, Except.pure, a, Except.ok.injEq] at e0
  subst e0
  refine ⟨es'.map fun e => (e.child.uid, e.parent.uid), ?_, fun r s p hp => ?_⟩
  · simp only [directRuleset, gotoRules_eq rs h.ok h.flat, bind, Except.bind, pure, Except.pure, b]
  · obtain ⟨e, he, e'⟩ := List.mem_map.1 ((m0 r.1 s.1).2 ⟨r, s, p, rfl, rfl, hp⟩)
    exact List.mem_map.2 ⟨e, c e he, e'⟩

/-! ### A sample pipeline -/

/-- The pipeline of C40 with a table-miss rule in table 1 (rule 4). -/
def pipeD : List (URule Unit) := pipe ++ [(4, ⟨0, none, 1, Match.empty, Inst.empty, []⟩)]

theorem disjoint_of {a b : Match} (ha : a.Inv) (hka : ∀ x ∈ a.items, x.1 < 56) (hb : b.Inv) (hkb : ∀ x ∈ b.items, x.1 < 56)
    (h : (do let x ← a.getWildcard; let y ← b.getWildcard; return wcIntersect totBits x.1 y.1 : Except PyErr Nat).toOption = some 0) :
    ¬ ∃ p : Pkt, a.accepts p ∧ b.accepts p := by
  obtain ⟨w, m, e1, v1, c1⟩ := getWildcard_spec ha hka
  obtain ⟨w', m', e2, v2, c2⟩ := getWildcard_spec hb hkb
  simp only [e1, e2, bind, Except.bind, pure, Except.pure, Except.toOption, Option.some.injEq] at h
  rintro ⟨p, h1, h2⟩
  exact (wcIntersect_eq_zero (by decide) _ _).1 h ⟨p.hdr, (c1 _).2 h1, (c2 _).2 h2⟩

theorem pipeD_ok : DirectOK pipeD := by
  have hE : ∃ s : List Action, (∀ a ∈ s, a.known = true) ∧ ActionList.ofList s = .ok .empty := ⟨[], by decide, by decide +kernel⟩
  have hW : ∃ s : List Action, (∀ a ∈ s, a.known = true) ∧ actionSetOfList s = .ok .empty := ⟨[], by decide, by decide +kernel⟩
  have hd := disjoint_of (a := Match.empty.append 6 0x1006 none) (b := Match.empty.append 6 0x1007 none) (inv_append inv_empty _ _ _)
    (by decide +kernel) (inv_append inv_empty _ _ _) (by decide +kernel) (by decide +kernel)
  refine ⟨?_, ?_, by decide, by decide +kernel, ?_⟩
  · intro r hr
    rcases List.mem_append.1 hr with hr | hr
    · exact pipe_ok.ok r hr
    · rw [List.mem_singleton] at hr; subst hr
      exact ⟨inv_empty, by decide +kernel, hE, hW⟩
  · intro r hr
    rcases List.mem_append.1 hr with hr | hr
    · exact pipe_ok.flat r hr
    · rw [List.mem_singleton] at hr; subst hr
      intro a ha
      have h : ActionList.empty.iter = [] := by decide +kernel
      rw [show Inst.apply _ = ActionList.empty from rfl, h] at ha
      cases ha
  · intro r hr s hs ht hp hne
    simp only [pipeD, pipe, List.cons_append, List.nil_append, List.mem_cons, List.not_mem_nil, or_false] at hr hs
    rcases hr with rfl | rfl | rfl | rfl | rfl <;> rcases hs with rfl | rfl | rfl | rfl | rfl <;>
      first
        | exact absurd rfl hne
        | exact absurd ht (by decide)
        | exact absurd hp (by decide)
        | exact hd
        | (rintro ⟨p, h1, h2⟩; exact hd ⟨p, h2, h1⟩)

/-- The sample: rule 0 leads to rule 2 only, rule 1 to all rules of table 1; within the tables the rules fall to the table-miss rules.  All variants agree here. -/
example : directRuleset true (batchEdges totBits) (parentsBdd totBits) pipeD = .ok [(0, 1), (2, 4), (3, 4), (0, 2), (1, 2), (1, 3), (1, 4)] ∧
    directRuleset true (incrementalEdges totBits id 5) (parentsBdd totBits) pipeD = .ok [(0, 1), (2, 4), (3, 4), (0, 2), (1, 2), (1, 3), (1, 4)] ∧
    directRuleset false (batchEdgesHs totBits) (parentsHs totBits) pipeD = .ok [(0, 1), (2, 4), (3, 4), (0, 2), (1, 2), (1, 3), (1, 4)] := by
  decide +kernel

theorem accepts_empty (p : Pkt) : Match.empty.accepts p := by intro x hx; cases hx

/-- A packet that does not match on a VLAN: without VLAN header. -/
theorem untagged_rejects (v : Nat) (h : (v = 0x1005 ∨ v = 0x1006) ∨ v = 0x1007) : ∃ p : Pkt, ¬ (Match.empty.append 6 v none).accepts p := by
  have key : ∀ v, (v = 0x1005 ∨ v = 0x1006) ∨ v = 0x1007 → ¬ ∃ p : Pkt, (Match.empty.append 6 v none).accepts p ∧ (Match.empty.append 6 0x1008 none).accepts p := by
    intro v hv
    refine disjoint_of (inv_append inv_empty _ _ _) ?_ (inv_append inv_empty _ _ _) (by decide +kernel) ?_
    all_goals rcases hv with (rfl | rfl) | rfl <;> decide +kernel
  obtain ⟨w, m, -, hv, hc⟩ := getWildcard_spec (m := Match.empty.append 6 0x1008 none) (inv_append inv_empty _ _ _) (by decide +kernel)
  obtain ⟨q, hq⟩ := exists_covers hv.noZ
  obtain ⟨p, hp⟩ := exists_pkt q
  exact ⟨p, fun h' => key v h ⟨p, h', (matches_congr (inv_append inv_empty _ _ _).nodup hp).2 ((hc q).1 hq)⟩⟩

/-- Its tables have table-miss rules. -/
theorem pipeD_miss : ∀ r ∈ pipeD, ∃ d, d.2.table = r.2.table ∧ MissRule pipeD d := by
  have h0 : MissRule pipeD (1, ⟨1, none, 0, Match.empty, ⟨some 1, .empty, .empty, none, false, none⟩, []⟩) := by
    refine ⟨by simp [pipeD, pipe], accepts_empty, fun r hr ht hne => ?_⟩
    simp only [pipeD, pipe, List.cons_append, List.nil_append, List.mem_cons, List.not_mem_nil, or_false] at hr
    rcases hr with rfl | rfl | rfl | rfl | rfl
    · exact ⟨by decide, untagged_rejects _ (by decide)⟩
    · exact absurd rfl hne
    all_goals exact absurd ht (by decide)
  have h1 : MissRule pipeD (4, ⟨0, none, 1, Match.empty, Inst.empty, []⟩) := by
    refine ⟨by simp [pipeD, pipe], accepts_empty, fun r hr ht hne => ?_⟩
    simp only [pipeD, pipe, List.cons_append, List.nil_append, List.mem_cons, List.not_mem_nil, or_false] at hr
    rcases hr with rfl | rfl | rfl | rfl | rfl
    · exact absurd ht (by decide)
    · exact absurd ht (by decide)
    · exact ⟨by decide, untagged_rejects _ (by decide)⟩
    · exact ⟨by decide, untagged_rejects _ (by decide)⟩
    · exact absurd rfl hne
  intro r hr
  simp only [pipeD, pipe, List.cons_append, List.nil_append, List.mem_cons, List.not_mem_nil, or_false] at hr
  rcases hr with rfl | rfl | rfl | rfl | rfl
  exacts [⟨_, by decide, h0⟩, ⟨_, by decide, h0⟩, ⟨_, by decide, h1⟩, ⟨_, by decide, h1⟩, ⟨_, by decide, h1⟩]

/-- A packet of the sample is handled by rules 1 and 4. -/
example : ∃ p l, Run pipeD 0 p l ∧ l.map (·.1) = [1, 4] := by
  obtain ⟨w, m, -, hv, hc⟩ := getWildcard_spec (m := Match.empty.append 6 0x1008 none) (inv_append inv_empty _ _ _) (by decide +kernel)
  obtain ⟨q, hq⟩ := exists_covers hv.noZ
  obtain ⟨p, hp⟩ := exists_pkt q
  have h8 : (Match.empty.append 6 0x1008 none).accepts p := (matches_congr (inv_append inv_empty _ _ _).nodup hp).2 ((hc q).1 hq)
  have no : ∀ v, (v = 0x1005 ∨ v = 0x1006) ∨ v = 0x1007 → ¬ (Match.empty.append 6 v none).accepts p := by
    intro v hv' h'
    refine disjoint_of (b := Match.empty.append 6 0x1008 none) (inv_append inv_empty _ _ _) ?_ (inv_append inv_empty _ _ _) (by decide +kernel) ?_ ⟨p, h', h8⟩
    all_goals rcases hv' with (rfl | rfl) | rfl <;> decide +kernel
  have hfw : (⟨some 1, .empty, .empty, none, false, none⟩ : Inst).forward p = p := by
    have : ActionList.empty.iter = [] := by decide +kernel
    simp [Inst.forward, this, exec, writeMeta]
  refine ⟨p, [(1, ⟨1, none, 0, Match.empty, ⟨some 1, .empty, .empty, none, false, none⟩, []⟩), (4, ⟨0, none, 1, Match.empty, Inst.empty, []⟩)],
    .step rfl ⟨by simp [pipeD, pipe], accepts_empty p, ?_⟩ rfl (.last rfl ⟨by simp [pipeD, pipe], accepts_empty _, ?_⟩), rfl⟩
  · intro q hq ht hlt
    simp only [pipeD, pipe, List.cons_append, List.nil_append, List.mem_cons, List.not_mem_nil, or_false] at hq
    rcases hq with rfl | rfl | rfl | rfl | rfl
    · exact no _ (by decide)
    all_goals first | exact absurd ht (by decide) | exact absurd hlt (by decide)
  · rw [hfw]
    intro q hq ht hlt
    simp only [pipeD, pipe, List.cons_append, List.nil_append, List.mem_cons, List.not_mem_nil, or_false] at hq
    rcases hq with rfl | rfl | rfl | rfl | rfl
    · exact absurd ht (by decide)
    · exact absurd ht (by decide)
    · exact no _ (by decide)
    · exact no _ (by decide)
    · exact absurd hlt (by decide)

/-! ### Where the property fails -/

/-- Rule 0 takes all packets of table 0, so none leaves rule 1, which goes to table 1. -/
def shadowPipe : List (URule Unit) :=
  [(0, ⟨9, none, 0, Match.empty, Inst.empty, []⟩),
   (1, ⟨5, none, 0, Match.empty.append 6 0x1005 none, ⟨some 1, .empty, .empty, none, false, none⟩, []⟩),
   (2, ⟨0, none, 1, Match.empty, Inst.empty, []⟩)]

/-- **C83** is violated by shadowed rules: they are given dependencies on the next table although no packet leaves them. -/
theorem C83_shadowed : directRuleset true (batchEdges totBits) (parentsBdd totBits) shadowPipe = .ok [(0, 1), (1, 2)] ∧
    ∀ r ∈ shadowPipe, r.1 = 1 → ∀ p, ¬ FirstAt shadowPipe r p := by
  refine ⟨by decide +kernel, fun r hr h1 p hf => ?_⟩
  have ha := hf.2.2 (0, ⟨9, none, 0, Match.empty, Inst.empty, []⟩) (by simp [shadowPipe])
  simp only [shadowPipe, List.mem_cons, List.not_mem_nil, or_false] at hr
  rcases hr with rfl | rfl | rfl
  · cases h1
  · exact ha rfl (by decide) (accepts_empty p)
  · cases h1

/-- **C83** is violated by tables without a table-miss rule: the default algorithm refuses them. -/
theorem C83_no_miss : directRuleset true (incrementalEdges totBits id 9) (parentsBdd totBits) pipe = .error .valueError ∧
    directRuleset true (batchEdges totBits) (parentsBdd totBits) pipe = .ok [(0, 1), (0, 2), (1, 2), (1, 3)] := by
  decide +kernel

/-- A goto that leads back is refused; one that leads to a table without rules is not; without rules only the diagram variant fails. -/
example : directRuleset true (batchEdges totBits) (parentsBdd totBits)
      ([(0, ⟨9, none, 1, Match.empty, ⟨some 1, .empty, .empty, none, false, none⟩, []⟩)] : List (URule Unit)) = .error .assertion ∧
    directRuleset true (batchEdges totBits) (parentsBdd totBits)
      ([(0, ⟨9, none, 1, Match.empty, ⟨some 2, .empty, .empty, none, false, none⟩, []⟩)] : List (URule Unit)) = .ok [] ∧
    directRuleset true (batchEdges totBits) (parentsBdd totBits) ([] : List (URule Unit)) = .error .indexError ∧
    directRuleset false (batchEdgesHs totBits) (parentsHs totBits) ([] : List (URule Unit)) = .ok [] := by
  decide +kernel

end Deps
end OFE
