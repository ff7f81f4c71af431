import Verif.Deps.Ruleset
import Verif.Deps.RulesetSpec
import Verif.Deps.GotoLemmas
import Verif.Props.Deps
import Verif.Hs.Lemmas

/-! # Lemmas on direct dependencies over several tables -/

namespace OFE
namespace Deps
open DD

variable {π : Type}

/-! ### Rules as the algorithms see them -/

theorem covers_all_iff {w : Nat} (hw : WcValid totBits w) : (∀ p, Covers totBits w p) ↔ w = wcFull totBits := by
  constructor
  · intro h
    exact wc_ext hw (wcValid_wcFull _) fun p => ⟨fun _ => covers_wcFull _ p, fun _ => h p⟩
  · intro h p; rw [h]; exact covers_wcFull _ p

/-- What is needed of a rule and its counterpart. -/
structure Seen (r : URule π) (d : DRule) : Prop extends OfR r d where
  image : ∃ w, d.egress = .ok w ∧ WcValid totBits w ∧ ∀ q : Packet, Covers totBits w q ↔ ∃ p : Pkt, r.2.mat.accepts p ∧
    ∀ g i, i < width g → (r.2.inst.forward p).hdr.bit g i = q.bit g i

theorem ofRule_seen (r : URule π) (hr : RuleOK r.2) (hf : FlatActs r.2.inst.apply.iter) : ∃ d, DRule.ofRule r.1 r.2 = .ok d ∧ Seen r d := by
  obtain ⟨w, m', e, hv, hc⟩ := getWildcard_spec hr.inv (lt56 hr.keys)
  obtain ⟨eg, h1, h2, h3, h4, h5⟩ := egress_image hr.inv hr.keys (flatOK_of hr hf)
  obtain ⟨w2, m2, e2, hv2, hc2⟩ := getWildcard_spec h2 (lt56 h3)
  refine ⟨⟨r.1, r.2.priority, r.2.table, w, .ok w2⟩, ?_, ⟨⟨rfl, rfl, rfl, hc, ⟨w2, rfl⟩, hv, fun x hx => by cases hx; exact hv2⟩,
    ⟨w2, rfl, hv2, fun q => ?_⟩⟩⟩
  · simp [DRule.ofRule, e, h1, e2, bind, Except.bind, pure, Except.pure]
  · rw [hc2]
    constructor
    · intro hq
      obtain ⟨p', hp'⟩ := exists_pkt q
      obtain ⟨p, hp, he⟩ := h5 p' ((matches_congr h2.nodup hp').2 hq)
      exact ⟨p, hp, fun g i hi => (he g i hi).trans (hp' g i hi)⟩
    · rintro ⟨p, hp, he⟩
      exact (matches_congr h2.nodup he).1 (h4 p hp)

/-- The counterpart. -/
noncomputable def dOf (r : URule π) : DRule := (DRule.ofRule r.1 r.2).toOption.getD ⟨0, 0, 0, 0, .ok 0⟩

theorem dOf_spec {r : URule π} (hr : RuleOK r.2) (hf : FlatActs r.2.inst.apply.iter) : DRule.ofRule r.1 r.2 = .ok (dOf r) ∧ Seen r (dOf r) := by
  obtain ⟨d, e, h⟩ := ofRule_seen r hr hf
  have : dOf r = d := by simp [dOf, e, Except.toOption]
  rw [this]
  exact ⟨e, h⟩

/-- The rule with its goto table. -/
noncomputable def gOf (r : URule π) : DRule × Option Nat := (dOf r, r.2.inst.goto)

theorem gotoRules_conv (rs : List (URule π)) (h : ∀ r ∈ rs, DRule.ofRule r.1 r.2 = .ok (dOf r)) : gotoRules rs = .ok (rs.map gOf) := by
  unfold gotoRules
  induction rs with
  | nil => rfl
  | cons r rs ih =>
    rw [List.mapM_cons, ih (fun x hx => h x (List.mem_cons_of_mem _ hx)), h r (by simp)]
    rfl

theorem gotoRules_eq (rs : List (URule π)) (h1 : ∀ r ∈ rs, RuleOK r.2) (h2 : ∀ r ∈ rs, FlatActs r.2.inst.apply.iter) :
    gotoRules rs = .ok (rs.map gOf) := gotoRules_conv rs fun r hr => (dOf_spec (h1 r hr) (h2 r hr)).1

theorem tableRules_eq (rs : List (URule π)) (h : ∀ r ∈ rs, (dOf r).table = r.2.table) (t : Nat) :
    tableRules (rs.map gOf) t = (rs.filter fun r => r.2.table == t).map dOf := by
  unfold tableRules
  induction rs with
  | nil => rfl
  | cons r rs ih =>
    have ih' := ih fun x hx => h x (List.mem_cons_of_mem _ hx)
    simp only [List.map_cons, List.filter_cons, show (gOf r).1.table = r.2.table from h r (by simp)]
    split
    · rw [List.map_cons, List.map_cons, ih']; rfl
    · exact ih'

theorem mem_tableOrder (rs : List (DRule × Option Nat)) (t : Nat) : t ∈ tableOrder rs ↔ ∃ r ∈ rs, r.1.table = t := by
  unfold tableOrder
  rw [(sortBy_perm _ _).mem_iff]
  have := mem_foldl_setAdd (fun _ : DRule × Option Nat => True) (fun r => r.1.table) rs [] t
  simp only [if_true, true_and, List.not_mem_nil, false_or] at this
  rw [this]
  exact ⟨fun ⟨r, a, b⟩ => ⟨r, a, b.symm⟩, fun ⟨r, a, b⟩ => ⟨r, a, b.symm⟩⟩

theorem mem_addEdges {new es : List Edge} {e : Edge} : e ∈ addEdges new es ↔ e ∈ es ∨ e ∈ new := by
  unfold addEdges
  have := mem_foldl_setAdd (fun _ : Edge => True) id new es e
  simp only [if_true, true_and, id_eq] at this
  rw [this]
  simp

theorem nodup_addEdges {new es : List Edge} (h : es.Nodup) : (addEdges new es).Nodup := by
  unfold addEdges
  have := foldl_nodup (fun _ : Edge => True) id new es h
  simpa only [if_true, id_eq] using this

/-- If all parts succeed, the result is the union of the parts. -/
theorem directDeps_spec {attach : Bool} {build : List DRule → Except PyErr (List Edge)} {parents : DRule → List DRule → Except PyErr (List Edge)}
    {rs : List (DRule × Option Nat)} (hne : rs ≠ []) {B : Nat → List Edge} {Q : DRule × Option Nat → Nat → List Edge}
    (hb : ∀ r ∈ rs, build (tableRules rs r.1.table) = .ok (B r.1.table))
    (hp : ∀ r ∈ rs, ∀ t, r.2 = some t → r.1.table < t ∧ parents r.1 (tableRules rs t) = .ok (Q r t)) :
    ∃ es, directDeps attach build parents rs = .ok es ∧ es.Nodup ∧ ∀ e, e ∈ es ↔
      (∃ r ∈ rs, e ∈ B r.1.table) ∨ ∃ r ∈ rs, ∃ t, r.2 = some t ∧ e ∈ Q r t := by
  obtain ⟨s1, e1, n1, m1⟩ := foldlM_adds (f := fun es t => (do return addEdges (← build (tableRules rs t)) es : Except PyErr (List Edge)))
    (fun s e => e ∈ s) List.Nodup (fun t e => e ∈ B t) (tableOrder rs)
    (fun t ht s hs => by
      obtain ⟨r, hr, rfl⟩ := (mem_tableOrder rs t).1 ht
      exact ⟨addEdges (B r.1.table) s, by simp [hb r hr, bind, Except.bind, pure, Except.pure], nodup_addEdges hs, fun e => mem_addEdges⟩)
    [] List.nodup_nil
  obtain ⟨s2, e2, n2, m2⟩ := foldlM_adds (f := gotoEdges parents rs) (fun s e => e ∈ s) List.Nodup
    (fun r e => ∃ t, r.2 = some t ∧ e ∈ Q r t) rs
    (fun r hr s hs => by
      cases hg : r.2 with
      | none => exact ⟨s, by simp [gotoEdges, hg], hs, by simp⟩
      | some t =>
        obtain ⟨a, b⟩ := hp r hr t hg
        exact ⟨addEdges (Q r t) s, by simp [gotoEdges, hg, a, b, bind, Except.bind, pure, Except.pure], nodup_addEdges hs,
          fun e => by simp [mem_addEdges]⟩)
    s1 n1
  refine ⟨s2, ?_, n2, fun e => ?_⟩
  · have : rs.isEmpty = false := by simpa using hne
    simp only [directDeps, this, Bool.and_false, Bool.false_eq_true, if_false]
    rw [e1]
    exact e2
  · rw [m2, m1]
    simp only [List.not_mem_nil, false_or]
    refine or_congr ⟨?_, ?_⟩ Iff.rfl
    · rintro ⟨t, ht, he⟩
      obtain ⟨r, hr, rfl⟩ := (mem_tableOrder rs t).1 ht
      exact ⟨r, hr, he⟩
    · rintro ⟨r, hr, he⟩
      exact ⟨_, (mem_tableOrder rs _).2 ⟨r, hr, rfl⟩, he⟩

/-! ### From one table to the next -/

variable {n : Nat}

theorem startWc_egress {R : DRule} {P : List DRule} (h : ∀ q ∈ P, q.table ≠ R.table) : startWc R P = R.egress := by
  cases P with
  | nil => rfl
  | cons q P => simp only [startWc]; rw [if_neg]; exact fun e => h q (by simp) e.symm

/-- `add_parents_bdd` between tables: the rules that the egress meets first. -/
theorem parentsBdd_spec (hn : 0 < n) {R : DRule} {P : List DRule} (ht : ∀ q ∈ P, q.table ≠ R.table) {w : Nat} (hw : R.egress = .ok w)
    (hwv : WcValid n w) (hv : ∀ q ∈ P, WcValid n q.wc)
    (hties : ∀ r ∈ P, ∀ s ∈ P, r.priority = s.priority → r ≠ s → ¬ ∃ p, r.hits n p ∧ s.hits n p) :
    ∃ l, parentsBdd n R P = .ok l ∧ ∀ e, e ∈ l ↔ e.child = R ∧ e.parent ∈ P ∧
      ∃ p, Covers n w p ∧ e.parent.hits n p ∧ ∀ q ∈ P, e.parent.priority < q.priority → ¬ q.hits n p := by
  obtain ⟨wf, hol⟩ := holds_ofWc hn hwv
  obtain ⟨g1, g2⟩ := parentsLoop_spec hn R (ps := descending P) (fun q hq => hv q (mem_descending.1 hq)) wf (good_empty (n := n))
  refine ⟨_, by simp [parentsBdd, addParents, startWc_egress ht, hw, bind, Except.bind, pure, Except.pure]; rfl, ?_⟩
  rintro ⟨r, c⟩
  rw [← lookup_isSome_iff, g1.some_iff]
  have harr : ∀ p, Arrives n (ofWc n w) (descending P) c p ↔ c ∈ P ∧ Covers n w p ∧ c.hits n p ∧ ∀ q ∈ P, c.priority < q.priority → ¬ q.hits n p := by
    intro p
    unfold Arrives
    rw [hol, mem_descending]
    constructor
    · rintro ⟨a1, a2, a3, a4⟩
      exact ⟨a2, a1, a3, fun q hq hlt => a4 q ((before_desc (descending_sorted P) (mem_descending.2 a2) q).2 (mem_descending.2 hq) hlt)⟩
    · rintro ⟨a2, a1, a3, a4⟩
      refine ⟨a1, a2, a3, fun q hq hit => ?_⟩
      obtain ⟨q1, q2, q3⟩ := (before_desc (descending_sorted P) (mem_descending.2 a2) q).1 hq
      by_cases e : q.priority = c.priority
      · exact hties q (mem_descending.1 q1) c a2 e q2 ⟨p, hit, a3⟩
      · exact a4 q (mem_descending.1 q1) (by omega) hit
  simp only [g2, harr]
  constructor
  · rintro ⟨p, ⟨rfl, h1, h2⟩ | ⟨-, b, hb, -⟩⟩
    · exact ⟨rfl, h1, p, h2⟩
    · simp at hb
  · rintro ⟨rfl, h1, p, h2⟩
    exact ⟨p, .inl ⟨rfl, h1, h2⟩⟩

/-- `add_parents_hs` misses none of the edges of `add_parents_bdd`. -/
theorem parentsHs_super (hn : 0 < n) {R : DRule} {P : List DRule} {w : Nat} (hw : startWc R P = .ok w) (hwv : WcValid n w)
    (hv : ∀ q ∈ P, WcValid n q.wc) {l : List Edge} (hl : parentsBdd n R P = .ok l) : ∃ l', parentsHs n R P = .ok l' ∧ ∀ e ∈ l, e ∈ l' := by
  obtain ⟨s1, s2⟩ := start_same hn hwv
  refine ⟨_, by simp only [parentsHs, addParentsHs, hw, bind, Except.bind, pure, Except.pure]; rfl, fun e he => ?_⟩
  simp only [parentsBdd, addParents, hw, bind, Except.bind, pure, Except.pure, Except.ok.injEq] at hl
  subst hl
  rw [← lookup_isSome_iff] at he ⊢
  exact parentsLoopHs_keys hn R (fun q hq => hv q (mem_descending.1 hq)) s1 s2 (by simp) e he

/-! ### Within the tables -/

section tables
variable {rs : List (URule π)}

/-- What is needed of a pipeline, whatever its rules do with headers. -/
structure Based (rs : List (URule π)) : Prop where
  ok : ∀ r ∈ rs, RuleOK r.2
  ids : (rs.map (·.1)).Nodup
  goto : ∀ r ∈ rs, ∀ n, r.2.inst.goto = some n → r.2.table < n
  ties : ∀ r ∈ rs, ∀ s ∈ rs, r.2.table = s.2.table → r.2.priority = s.2.priority → r.1 ≠ s.1 → ¬ ∃ p, r.2.mat.accepts p ∧ s.2.mat.accepts p
  conv : ∀ {r}, r ∈ rs → DRule.ofRule r.1 r.2 = .ok (dOf r)
  seen : ∀ {r}, r ∈ rs → OfR r (dOf r)

theorem DirectOK.seen (h : DirectOK rs) {r : URule π} (hr : r ∈ rs) : Seen r (dOf r) := (dOf_spec (h.ok r hr) (h.flat r hr)).2

theorem DirectOK.based (h : DirectOK rs) : Based rs :=
  ⟨h.ok, h.ids, h.goto, h.ties, fun hr => (dOf_spec (h.ok _ hr) (h.flat _ hr)).1, fun hr => (h.seen hr).toOfR⟩

theorem Based.tableRules (h : Based rs) (t : Nat) : tableRules (rs.map gOf) t = (rs.filter fun r => r.2.table == t).map dOf :=
  tableRules_eq rs (fun _ hr => (h.seen hr).table) t

theorem Based.mem_tableRules (h : Based rs) {t : Nat} {d : DRule} :
    d ∈ Deps.tableRules (rs.map gOf) t ↔ ∃ r ∈ rs, r.2.table = t ∧ dOf r = d := by
  rw [h.tableRules]
  simp [and_assoc]

theorem Based.id_inj (h : Based rs) {r s : URule π} (hr : r ∈ rs) (hs : s ∈ rs) (e : r.1 = s.1) : r = s :=
  List.inj_on_of_nodup_map h.ids hr hs e

theorem Based.dOf_inj (h : Based rs) {r s : URule π} (hr : r ∈ rs) (hs : s ∈ rs) (e : dOf r = dOf s) : r = s :=
  h.id_inj hr hs (by rw [← (h.seen hr).uid, ← (h.seen hs).uid, e])

/-- A rule's counterpart on header bits and the rule on packets. -/
theorem Based.hits_pkt (h : Based rs) {r : URule π} (hr : r ∈ rs) {p : Pkt} {q : Packet} (e : ∀ g i, i < width g → p.hdr.bit g i = q.bit g i) :
    (dOf r).hits totBits q ↔ r.2.mat.accepts p := by
  rw [(h.seen hr).hits]
  exact (matches_congr (h.ok r hr).inv.nodup e).symm

theorem Based.tableOK (h : Based rs) (t : Nat) : TableOK totBits (Deps.tableRules (rs.map gOf) t) := by
  refine ⟨fun d hd => ?_, fun d hd e he => ?_, fun d hd e he hp hne => ?_⟩
  · obtain ⟨r, hr, -, rfl⟩ := h.mem_tableRules.1 hd
    exact (h.seen hr).valid
  · obtain ⟨r, hr, h1, rfl⟩ := h.mem_tableRules.1 hd
    obtain ⟨s, hs, h2, rfl⟩ := h.mem_tableRules.1 he
    rw [(h.seen hr).table, (h.seen hs).table, h1, h2]
  · obtain ⟨r, hr, h1, rfl⟩ := h.mem_tableRules.1 hd
    obtain ⟨s, hs, h2, rfl⟩ := h.mem_tableRules.1 he
    rintro ⟨q, c1, c2⟩
    obtain ⟨p, hp'⟩ := exists_pkt q
    refine h.ties r hr s hs (by rw [h1, h2]) (by rw [← (h.seen hr).priority, ← (h.seen hs).priority, hp])
      (fun e => hne (by rw [h.id_inj hr hs e])) ⟨p, (h.hits_pkt hr hp').1 c1, (h.hits_pkt hs hp').1 c2⟩

/-- Falling within a table, on header bits and on packets. -/
theorem Based.falls (h : Based rs) {r s : URule π} (hr : r ∈ rs) (hs : s ∈ rs) (e : r.2.table = s.2.table) :
    (∃ q, FallsTo totBits (Deps.tableRules (rs.map gOf) r.2.table) (dOf r) (dOf s) q) ↔ ∃ p, NextBelow rs r s p := by
  have key : ∀ (p : Pkt) (q : Packet), (∀ g i, i < width g → p.hdr.bit g i = q.bit g i) →
      (FallsTo totBits (Deps.tableRules (rs.map gOf) r.2.table) (dOf r) (dOf s) q ↔ NextBelow rs r s p) := by
    intro p q he
    unfold FallsTo NextBelow
    rw [h.hits_pkt hr he, h.hits_pkt hs he, (h.seen hr).priority, (h.seen hs).priority]
    constructor
    · rintro ⟨a, b, c, d⟩
      refine ⟨hr, hs, e, a, b, c, fun x hx hxt h1 h2 => ?_⟩
      rw [← h.hits_pkt hx he]
      exact d _ (h.mem_tableRules.2 ⟨x, hx, hxt.trans e.symm, rfl⟩) (by rw [(h.seen hx).priority]; exact h1) (by rw [(h.seen hx).priority]; exact h2)
    · rintro ⟨-, -, -, a, b, c, d⟩
      refine ⟨a, b, c, fun x hx h1 h2 => ?_⟩
      obtain ⟨y, hy, hyt, rfl⟩ := h.mem_tableRules.1 hx
      rw [h.hits_pkt hy he]
      rw [(h.seen hy).priority] at h1 h2
      exact d y hy (hyt.trans e) h1 h2
  constructor
  · rintro ⟨q, hq⟩
    obtain ⟨p, hp⟩ := exists_pkt q
    exact ⟨p, (key p q hp).1 hq⟩
  · rintro ⟨p, hp⟩
    exact ⟨p.hdr, (key p p.hdr fun _ _ _ => rfl).2 hp⟩

/-- Going to the next table, on header bits and on packets. -/
theorem DirectOK.goes (h : DirectOK rs) {r s : URule π} (hr : r ∈ rs) (hs : s ∈ rs) (hg : r.2.inst.goto = some s.2.table) {w : Nat}
    (hw : (dOf r).egress = .ok w) :
    (∃ q, Covers totBits w q ∧ (dOf s).hits totBits q ∧
      ∀ x ∈ Deps.tableRules (rs.map gOf) s.2.table, (dOf s).priority < x.priority → ¬ x.hits totBits q) ↔ ∃ p, GoesTo rs r s p := by
  have hB := h.based
  obtain ⟨w', e', -, him⟩ := (h.seen hr).image
  have : w' = w := by rw [e'] at hw; exact Except.ok.inj hw
  subst this
  have key : ∀ (p : Pkt) (q : Packet), (∀ g i, i < width g → p.hdr.bit g i = q.bit g i) →
      (((dOf s).hits totBits q ∧ ∀ x ∈ Deps.tableRules (rs.map gOf) s.2.table, (dOf s).priority < x.priority → ¬ x.hits totBits q) ↔ FirstAt rs s p) := by
    intro p q he
    unfold FirstAt
    rw [hB.hits_pkt hs he, (h.seen hs).priority]
    constructor
    · rintro ⟨a, b⟩
      refine ⟨hs, a, fun x hx hxt h1 => ?_⟩
      rw [← hB.hits_pkt hx he]
      exact b _ (hB.mem_tableRules.2 ⟨x, hx, hxt, rfl⟩) (by rw [(h.seen hx).priority]; exact h1)
    · rintro ⟨-, a, b⟩
      refine ⟨a, fun x hx h1 => ?_⟩
      obtain ⟨y, hy, hyt, rfl⟩ := hB.mem_tableRules.1 hx
      rw [hB.hits_pkt hy he]
      rw [(h.seen hy).priority] at h1
      exact b y hy hyt h1
  constructor
  · rintro ⟨q, hc, h1⟩
    obtain ⟨p, hp, he⟩ := (him q).1 hc
    exact ⟨p, hr, hp, hg, (key _ q he).1 h1⟩
  · rintro ⟨p, -, hp, -, hf⟩
    refine ⟨(r.2.inst.forward p).hdr, (him _).2 ⟨p, hp, fun _ _ _ => rfl⟩, (key _ _ fun _ _ _ => rfl).2 hf⟩

end tables

end Deps
end OFE
