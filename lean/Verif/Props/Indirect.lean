import Verif.Deps.GotoLemmas
import Verif.Props.Deps

/-! # C39, C40: indirect dependencies -/

namespace OFE
namespace Deps
open DD

/-- **C39** (partial: `get_goto_egress` must not raise for a rule with no rule below it, see `C39_egress_raises`.)  Within a table the indirect
dependencies are exactly the pairs of rules with a common packet, the second of lower priority. -/
theorem C39_indirect_partial (n : Nat) (hn : 0 < n) (rs : List DRule) (ht : ∀ r ∈ rs, ∀ s ∈ rs, r.table = s.table)
    (he : ∀ r ∈ rs, (∀ q ∈ rs, ¬ q.priority < r.priority) → ∃ w, r.egress = .ok w) :
    ∃ es, buildIndirect n rs = .ok es ∧ es.Nodup ∧
      ∀ r c, ⟨r, c⟩ ∈ es ↔ r ∈ rs ∧ c ∈ rs ∧ c.priority < r.priority ∧ ∃ p, r.hits n p ∧ c.hits n p :=
  buildIndirect_spec hn ht he

/-- **C39** The wildcard and the diagram variant agree on every ruleset (of one or more tables), also in the exception they raise. -/
theorem C39_variants_agree (n : Nat) (hn : 0 < n) (rs : List DRule) (hne : rs ≠ []) (hv : ∀ r ∈ rs, WcValid n r.wc)
    (he : ∀ r ∈ rs, ∀ w, r.egress = .ok w → WcValid n w) : buildIndirectBdd n rs = buildIndirect n rs := by
  unfold buildIndirectBdd buildIndirect
  rw [if_neg (by simpa using hne)]
  exact foldlM_congr_mem _ _ fun R hR s => indirect_same hn (hv R hR) (he R hR) (fun p hp => hv p (List.mem_of_mem_filter hp)) s

/-- On the empty ruleset they differ: only the diagram variant looks at the first rule. -/
theorem C39_empty (n : Nat) : buildIndirect n [] = .ok [] ∧ buildIndirectBdd n [] = .error .indexError := ⟨rfl, rfl⟩

/-- A rule without rules below whose egress cannot be computed makes the function fail. -/
theorem C39_egress_raises (n : Nat) (r : DRule) (e : PyErr) (h : r.egress = .error e) : buildIndirect n [r] = .error e := by
  simp [buildIndirect, potential, indirectHs, startWc, h, bind, Except.bind]

example : (buildIndirect 2 sampleTable) =
      .ok [⟨sC, sA⟩, ⟨sC, sD⟩, ⟨sC, sB⟩, ⟨sA, sD⟩, ⟨sE, sD⟩, ⟨sE, sB⟩, ⟨sB, sA⟩, ⟨sB, sD⟩] ∧
    buildIndirectBdd 2 sampleTable = buildIndirect 2 sampleTable := by
  decide +kernel

/-- **C40** (partial: gotos must lead to tables that have rules, see `C40_goto_without_table`.)  For every pipeline of well-built rules without push and
pop, with a recursion limit above the table numbers, the dependencies of the multi-table algorithm are exactly: the pairs of rules
that one packet, entering some table, may be matched by in this order along gotos; and the pairs of overlapping rules of one table. -/
theorem C40_ruleset_deps_partial {π : Type} (rs : List (URule π)) (h : GotoOK rs) (depth : Nat) (hd : ∀ r ∈ rs, r.2.table < depth) :
    ∃ es, buildRulesetDeps depth rs = .ok es ∧ ∀ a b, (a, b) ∈ es ↔
      (∃ t p l, Path rs t p l ∧ [a, b].Sublist (l.map (·.1))) ∨
      (∃ r ∈ rs, ∃ s ∈ rs, r.1 = a ∧ s.1 = b ∧ r.2.table = s.2.table ∧ s.2.priority < r.2.priority ∧
        ∃ p : Pkt, r.2.mat.accepts p ∧ s.2.mat.accepts p) := by
  have hnoneOK : IngressOK none := fun m h => by cases h
  -- first loop
  obtain ⟨es, e1, -, m1⟩ := foldlM_adds (f := fun es (t : Nat × List (URule π)) => (do
      let st ← recurseGoto (groupTables rs) depth t.1 none [] (false, es)
      if st.1 then .error .runtimeError else return st.2 : Except PyErr (List (Nat × Nat))))
    (fun s e => e ∈ s) (fun _ => True) (fun t e => Reach rs t.1 none [] e) (groupTables rs)
    (fun t ht s _ => by
      obtain ⟨-, hex⟩ := mem_group (t := t.1) (l := t.2) ht
      obtain ⟨st, s1, s2, s3⟩ := recurseGoto_spec h depth t.1 none [] s hnoneOK hex (fun r hr => by have := hd r hr; omega)
      refine ⟨st.2, ?_, trivial, s3⟩
      simp [s1, s2, bind, Except.bind, pure, Except.pure]) [] trivial
  -- second loop
  obtain ⟨es', e2, -, m2⟩ := foldlM_adds (f := fun es (t : Nat × List (URule π)) => tableDeps t.2 es)
    (fun s e => e ∈ s) (fun _ => True) (fun t e => ∃ r ∈ t.2, ∃ s ∈ t.2, r.1 = e.1 ∧ s.1 = e.2 ∧ s.2.priority < r.2.priority ∧
      ∃ p : Pkt, r.2.mat.accepts p ∧ s.2.mat.accepts p) (groupTables rs)
    (fun t ht s _ => by
      obtain ⟨hl, -⟩ := mem_group (t := t.1) (l := t.2) ht
      have hmem : ∀ r ∈ t.2, r ∈ rs ∧ r.2.table = t.1 := fun r hr => by rw [hl] at hr; simpa using hr
      obtain ⟨ds, d1, d2, d3⟩ := mapM_ofRule (t := t.1) t.2 (fun r hr => ⟨h.ok r (hmem r hr).1, h.flat r (hmem r hr).1, (hmem r hr).2⟩)
      obtain ⟨edges, g1, -, g3⟩ := buildIndirect_spec (n := totBits) (by decide) (rs := ds)
        (fun a ha b hb => by
          obtain ⟨r, hr, hr'⟩ := d2 a ha
          obtain ⟨r2, hr2, hr2'⟩ := d2 b hb
          rw [hr'.table, hr2'.table, (hmem r hr).2, (hmem r2 hr2).2])
        (fun a ha _ => by obtain ⟨r, hr, hr'⟩ := d2 a ha; exact hr'.egress)
      refine ⟨_, by simp only [tableDeps, d1, g1, bind, Except.bind, pure, Except.pure]; rfl, trivial, fun e => ?_⟩
      have := mem_foldl_setAdd (fun _ : Edge => True) (fun e => (e.child.uid, e.parent.uid)) edges s e
      simp only [if_true, true_and] at this
      rw [this]
      refine or_congr_right ⟨?_, ?_⟩
      · rintro ⟨⟨a, b⟩, hab, rfl⟩
        obtain ⟨ha, hb, hlt, p0, c1, c2⟩ := (g3 a b).1 hab
        obtain ⟨r, hr, hr'⟩ := d2 a ha
        obtain ⟨r2, hr2, hr2'⟩ := d2 b hb
        obtain ⟨p, hp⟩ := exists_pkt p0
        refine ⟨r, hr, r2, hr2, hr'.uid.symm, hr2'.uid.symm, by rw [← hr'.priority, ← hr2'.priority]; exact hlt, p, ?_, ?_⟩
        · exact (matches_congr (h.ok r (hmem r hr).1).inv.nodup hp).2 ((hr'.hits p0).1 c1)
        · exact (matches_congr (h.ok r2 (hmem r2 hr2).1).inv.nodup hp).2 ((hr2'.hits p0).1 c2)
      · rintro ⟨r, hr, r2, hr2, u1, u2, hlt, p, c1, c2⟩
        obtain ⟨a, ha, hr'⟩ := d3 r hr
        obtain ⟨b, hb, hr2'⟩ := d3 r2 hr2
        refine ⟨⟨a, b⟩, (g3 a b).2 ⟨ha, hb, by rw [hr'.priority, hr2'.priority]; exact hlt, p.hdr, (hr'.hits _).2 c1, (hr2'.hits _).2 c2⟩, ?_⟩
        rw [hr'.uid, hr2'.uid, u1, u2]) es trivial
  refine ⟨es', ?_, fun a b => ?_⟩
  · have e1' : gotoDeps depth (groupTables rs) = .ok es := e1
    simp only [buildRulesetDeps, e1', bind, Except.bind]
    exact e2
  · rw [m2, m1]
    simp only [List.not_mem_nil, false_or]
    refine or_congr ⟨?_, ?_⟩ ⟨?_, ?_⟩
    · rintro ⟨t, -, p, l, -, hp, hh⟩
      refine ⟨t.1, p, l, hp, ?_⟩
      rcases hh with ⟨h0, -⟩ | hh
      · cases h0
      · exact hh
    · rintro ⟨t, p, l, hp, hs⟩
      have : ∃ r ∈ rs, r.2.table = t := by cases hp with
        | here a b _ => exact ⟨_, a, b⟩
        | next a b _ _ _ => exact ⟨_, a, b⟩
      obtain ⟨r, hr, rfl⟩ := this
      exact ⟨_, group_of_rule hr, p, l, fun m h => (by cases h), hp, .inr hs⟩
    · rintro ⟨t, ht, r, hr, s, hs, u1, u2, hlt, hp⟩
      obtain ⟨hl, -⟩ := mem_group (t := t.1) (l := t.2) ht
      rw [hl] at hr hs
      simp only [List.mem_filter, beq_iff_eq] at hr hs
      exact ⟨r, hr.1, s, hs.1, u1, u2, by rw [hr.2, hs.2], hlt, hp⟩
    · rintro ⟨r, hr, s, hs, u1, u2, htab, hlt, hp⟩
      refine ⟨_, group_of_rule hr, r, by simp [hr], s, by simp [hs, htab], u1, u2, hlt, hp⟩

/-! ### A sample pipeline -/

/-- Table 0: packets of VLAN 5 get VLAN 6 and go to table 1 (rule 0), others go to table 1 unchanged (rule 1).  Table 1: VLAN 6 (rule 2), VLAN 7 (rule 3). -/
def pipe : List (URule Unit) :=
  [(0, ⟨5, none, 0, Match.empty.append 6 0x1005 none, ⟨some 1, ⟨[[.setField 6 6]], [.setField 6 6]⟩, .empty, none, false, none⟩, []⟩),
   (1, ⟨1, none, 0, Match.empty, ⟨some 1, .empty, .empty, none, false, none⟩, []⟩),
   (2, ⟨5, none, 1, Match.empty.append 6 0x1006 none, Inst.empty, []⟩),
   (3, ⟨5, none, 1, Match.empty.append 6 0x1007 none, Inst.empty, []⟩)]

theorem pipe_ok : GotoOK pipe := by
  have hE : ∃ s : List Action, (∀ a ∈ s, a.known = true) ∧ ActionList.ofList s = .ok .empty := ⟨[], by decide, by decide +kernel⟩
  have hW : ∃ s : List Action, (∀ a ∈ s, a.known = true) ∧ actionSetOfList s = .ok .empty := ⟨[], by decide, by decide +kernel⟩
  refine ⟨?_, ?_, by decide +kernel⟩
  · intro r hr
    simp only [pipe, List.mem_cons, List.not_mem_nil, or_false] at hr
    rcases hr with rfl | rfl | rfl | rfl
    · exact ⟨inv_append inv_empty _ _ _, by decide +kernel, ⟨[.setField 6 6], by decide, by decide +kernel⟩, hW⟩
    · exact ⟨inv_empty, by decide +kernel, hE, hW⟩
    · exact ⟨inv_append inv_empty _ _ _, by decide +kernel, hE, hW⟩
    · exact ⟨inv_append inv_empty _ _ _, by decide +kernel, hE, hW⟩
  · intro r hr a ha
    simp only [pipe, List.mem_cons, List.not_mem_nil, or_false] at hr
    rcases hr with rfl | rfl | rfl | rfl
    · have : a = .setField 6 6 := by
        have h : (⟨[[.setField 6 6]], [.setField 6 6]⟩ : ActionList).iter = [.setField 6 6] := by decide +kernel
        rw [show (⟨some 1, ⟨[[.setField 6 6]], [.setField 6 6]⟩, .empty, none, false, none⟩ : Inst).apply.iter = [.setField 6 6] from h] at ha
        simpa using ha
      subst this
      exact ⟨rfl, rfl, by intro v; simp⟩
    all_goals
      have h : ActionList.empty.iter = [] := by decide +kernel
      rw [show Inst.apply _ = ActionList.empty from rfl, h] at ha
      cases ha

/-- The sample: rule 0 leads to rule 2 and not to rule 3, rule 1 leads to both, and rules 0 and 1 overlap. -/
example : buildRulesetDeps 2 pipe = .ok [(0, 2), (1, 2), (1, 3), (0, 1)] := by decide +kernel

/-- **C40** is violated by a goto to a table without rules: python stops with RuntimeError, since the lookup in the defaultdict adds a key while the
dict is being iterated over. -/
theorem C40_goto_without_table :
    buildRulesetDeps 9 (pipe ++ [(4, ⟨7, none, 0, Match.empty, ⟨some 2, .empty, .empty, none, false, none⟩, []⟩)]) = .error .runtimeError := by
  decide +kernel

/-- A goto that leads back is refused. -/
example : buildRulesetDeps 9 (pipe ++ [((4, ⟨7, none, 1, Match.empty, ⟨some 1, .empty, .empty, none, false, none⟩, []⟩) : URule Unit)]) = .error .assertion := by
  decide +kernel

example := C39_indirect_partial 2 (by decide) sampleTable (by decide) sample_lowest

end Deps
end OFE
