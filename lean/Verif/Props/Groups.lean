import Verif.Groups.KeyLemmas
import Verif.Deps.PrefixLemmas

/-! # C42: groups of similar rules -/

namespace OFE
namespace Groups

variable {π : Type}

/-- The rules on which rule `i` depends, and those that depend on it. -/
def parents (deps : List (Nat × Nat)) (i : Nat) : List Nat := (deps.filter fun e => decide (e.2 = i)).map (·.1)
def children (deps : List (Nat × Nat)) (i : Nat) : List Nat := (deps.filter fun e => decide (e.1 = i)).map (·.2)

/-- The rules with these numbers look alike. -/
def AlikeAt (rules : List (Rule π)) (i j : Nat) : Prop := ∃ r s, rules[i]? = some r ∧ rules[j]? = some s ∧ Alike r s

/-- Python 3 cannot tell which of the two keys is less. -/
def Incomparable (r s : Rule π) : Prop := ∃ k k', simKey r = .ok k ∧ simKey s = .ok k' ∧ k.table = k'.table ∧ k.priority = k'.priority ∧ k.mask = k'.mask ∧
  k.goto = k'.goto ∧ Mixed k.actions k'.actions

theorem insertM_error {ν : Type} {lt : ν → ν → Except PyErr Bool} {x : ν} {e : PyErr} : ∀ {l : List ν}, insertM lt x l = .error e → ∃ y ∈ l, lt y x = .error e
  | [], h => by cases h
  | y :: ys, h => by
    rw [insertM] at h
    cases hb : lt y x with
    | error e' => rw [hb] at h; cases h; exact ⟨y, List.mem_cons_self, hb⟩
    | ok b =>
      cases b
      · rw [hb] at h; cases h
      · cases hr : insertM lt x ys with
        | error e' =>
          rw [hb, hr] at h; cases h
          obtain ⟨z, hz, hz'⟩ := insertM_error hr
          exact ⟨z, List.mem_cons_of_mem _ hz, hz'⟩
        | ok r => rw [hb, hr] at h; cases h

theorem sortM_error {ν : Type} {lt : ν → ν → Except PyErr Bool} {e : PyErr} : ∀ {l : List ν}, sortM lt l = .error e → ∃ x ∈ l, ∃ y ∈ l, lt x y = .error e
  | [], h => by cases h
  | x :: l, h => by
    rw [sortM_cons] at h
    cases hr : sortM lt l with
    | error e' =>
      rw [hr] at h; cases h
      obtain ⟨a, ha, b, hb, h'⟩ := sortM_error hr
      exact ⟨a, List.mem_cons_of_mem _ ha, b, List.mem_cons_of_mem _ hb, h'⟩
    | ok r =>
      rw [hr] at h
      obtain ⟨y, hy, h'⟩ := insertM_error h
      exact ⟨y, List.mem_cons_of_mem _ ((sortM_perm hr).mem_iff.1 hy), x, List.mem_cons_self, h'⟩

/-- The steps before the loop, for rules as built by the code. -/
theorem create_eq (rules : List (Rule π)) (hok : ∀ r ∈ rules, RuleOK r) (deps : List (Nat × Nat)) (hin : ∀ e ∈ deps, e.1 < rules.length ∧ e.2 < rules.length) :
    ∃ (t : Tree.Links Nat) (key : Nat → SimKey), (∀ i, t.par i = parents deps i) ∧ (∀ i, t.chi i = children deps i) ∧
      (∀ i r, rules[i]? = some r → simKey r = .ok (key i)) ∧
      createSimilarGroups rules deps = similarGroups key id t (List.range rules.length) := by
  obtain ⟨t, e, hp, hc⟩ := Tree.nodeToTree_spec deps (List.range rules.length) (fun x hx => ⟨List.mem_range.2 (hin x hx).1, List.mem_range.2 (hin x hx).2⟩)
  let kf : Rule π → SimKey := fun r => match simKey r with | .ok k => k | .error _ => ⟨0, 0, 0, 0, []⟩
  have hk : ∀ r ∈ rules, simKey r = .ok (kf r) := by
    intro r hr
    obtain ⟨k, h⟩ := simKey_ok (hok r hr)
    simp only [kf, h]
  refine ⟨t, fun i => (rules.map kf).getD i ⟨0, 0, 0, 0, []⟩, hp, hc, ?_, ?_⟩
  · intro i r hr
    rw [hk r (List.mem_of_getElem? hr)]
    simp [List.getD, hr]
  · rw [createSimilarGroups, e, Deps.mapM_ok rules hk]
    rfl

/-- **C42** For every ruleset and every list of dependencies between its rules, what `create_similar_groups` returns is a partition of the rules (keyed by a
first member, `rule2group` giving each rule's key); rules of a group look alike and depend on rules of the same groups, and rules of the same groups depend on
them; and the partition is the coarsest such one: every relation between rules with these two properties only relates rules of one group. -/
theorem C42_groups (rules : List (Rule π)) (hok : ∀ r ∈ rules, RuleOK r) (deps : List (Nat × Nat)) (hin : ∀ e ∈ deps, e.1 < rules.length ∧ e.2 < rules.length)
    {groups : List (Nat × List Nat)} {r2g : List (Nat × Nat)} (h : createSimilarGroups rules deps = .ok (groups, r2g)) :
    (groups.map (·.2)).flatten.Perm (List.range rules.length) ∧ (∀ g ∈ groups, g.2.head? = some g.1) ∧ (∀ g ∈ groups, ∀ r ∈ g.2, r2g.lookup r = some g.1) ∧
    Stable (AlikeAt rules) (parents deps) (children deps) (Together groups) ∧
    ∀ S, Stable (AlikeAt rules) (parents deps) (children deps) S → ∀ i j, S i j → Together groups i j := by
  obtain ⟨t, key, hpar, hchi, hkey, e⟩ := create_eq rules hok deps hin
  rw [e] at h
  have hn : (List.range rules.length).Nodup := List.nodup_range
  have hp : ∀ r ∈ List.range rules.length, ∀ x ∈ t.par r, x ∈ List.range rules.length := by
    intro r _ x hx
    rw [hpar] at hx
    obtain ⟨d, hd, rfl⟩ := List.mem_map.1 hx
    exact List.mem_range.2 (hin d (List.mem_filter.1 hd).1).1
  have hc : ∀ r ∈ List.range rules.length, ∀ x ∈ t.chi r, x ∈ List.range rules.length := by
    intro r _ x hx
    rw [hchi] at hx
    obtain ⟨d, hd, rfl⟩ := List.mem_map.1 hx
    exact List.mem_range.2 (hin d (List.mem_filter.1 hd).1).2
  unfold similarGroups at h
  cases hs : sortM (fun a b => keyLt (key a) (key b)) (List.range rules.length) with
  | error x => rw [hs] at h; cases h
  | ok sorted =>
    obtain ⟨s0, e0, hi0⟩ := initial_spec (key := key) (t := t) id hn hs
    obtain ⟨s1, e1, hi, hst⟩ := refine_spec hn hp hc ((List.range rules.length).length + 1) s0 hi0 (by omega)
    rw [hs] at h
    simp only [bind, Except.bind] at h
    rw [e0] at h
    simp only at h
    rw [e1] at h
    cases h
    have alike_iff : ∀ i ∈ List.range rules.length, ∀ j ∈ List.range rules.length, key i = key j ↔ AlikeAt rules i j := by
      intro i hi' j hj'
      have h1 := List.getElem?_eq_getElem (List.mem_range.1 hi')
      have h2 := List.getElem?_eq_getElem (List.mem_range.1 hj')
      rw [simKey_eq_iff (hok _ (List.getElem_mem _)) (hok _ (List.getElem_mem _)) (hkey i _ h1) (hkey j _ h2)]
      constructor
      · intro h; exact ⟨_, _, h1, h2, h⟩
      · rintro ⟨r, s, h3, h4, h⟩
        rw [h1] at h3; rw [h2] at h4
        cases h3; cases h4
        exact h
    have inr : ∀ i j, AlikeAt rules i j → i ∈ List.range rules.length ∧ j ∈ List.range rules.length := by
      rintro i j ⟨r, s, h1, h2, -⟩
      exact ⟨List.mem_range.2 (List.getElem?_eq_some_iff.1 h1).1, List.mem_range.2 (List.getElem?_eq_some_iff.1 h2).1⟩
    have tog : ∀ i j, Together groups i j → i ∈ List.range rules.length ∧ j ∈ List.range rules.length := by
      rintro i j ⟨g, hg, h1, h2⟩
      exact ⟨hi.mem.2 ⟨g, hg, h1⟩, hi.mem.2 ⟨g, hg, h2⟩⟩
    -- the frozensets of rules of a group agree
    have sets : ∀ i j, Together groups i j →
        ((∀ p ∈ t.par i, ∃ q ∈ t.par j, Together groups p q) ∧ ∀ q ∈ t.par j, ∃ p ∈ t.par i, Together groups p q) ∧
        ((∀ p ∈ t.chi i, ∃ q ∈ t.chi j, Together groups p q) ∧ ∀ q ∈ t.chi j, ∃ p ∈ t.chi i, Together groups p q) := by
      intro i j hij
      obtain ⟨ri, rj⟩ := tog i j hij
      obtain ⟨g, hg, h1, h2⟩ := hij
      obtain ⟨k1, k2⟩ := hst g hg i h1 j h2
      have one : ∀ (f : Nat → List Nat) (x y : Nat), (∀ z, z ∈ (f x).filterMap (r2g.lookup ·) ↔ z ∈ (f y).filterMap (r2g.lookup ·)) →
          (∀ r ∈ List.range rules.length, ∀ z ∈ f r, z ∈ List.range rules.length) → x ∈ List.range rules.length → y ∈ List.range rules.length →
          ∀ p ∈ f x, ∃ q ∈ f y, Together groups p q := by
        intro f x y hxy hf hx hy p hpx
        obtain ⟨gp, hgp⟩ := hi.isSome (hf x hx p hpx)
        have := (hxy gp).1 (List.mem_filterMap.2 ⟨p, hpx, hgp⟩)
        obtain ⟨q, hq, hgq⟩ := List.mem_filterMap.1 this
        exact ⟨q, hq, (hi.together hn (hf x hx p hpx) (hf y hy q hq)).2 (hgp.trans hgq.symm)⟩
      have sy : ∀ a b, Together groups a b → Together groups b a := fun a b ⟨g, hg, h1, h2⟩ => ⟨g, hg, h2, h1⟩
      refine ⟨⟨one t.par i j k1 hp ri rj, fun q hq => ?_⟩, one t.chi i j k2 hc ri rj, fun q hq => ?_⟩
      · obtain ⟨p, h3, h4⟩ := one t.par j i (fun z => (k1 z).symm) hp rj ri q hq
        exact ⟨p, h3, sy _ _ h4⟩
      · obtain ⟨p, h3, h4⟩ := one t.chi j i (fun z => (k2 z).symm) hc rj ri q hq
        exact ⟨p, h3, sy _ _ h4⟩
    refine ⟨hi.perm, hi.head, hi.r2g, ⟨?_, ?_, ?_⟩, ?_⟩
    · intro i j hij
      obtain ⟨ri, rj⟩ := tog i j hij
      obtain ⟨g, hg, h1, h2⟩ := hij
      exact (alike_iff i ri j rj).1 (hi.alike g hg i h1 j h2)
    · intro i j hij; rw [← hpar i, ← hpar j]; exact (sets i j hij).1
    · intro i j hij; rw [← hchi i, ← hchi j]; exact (sets i j hij).2
    · intro S hS i j hij
      obtain ⟨ri, rj⟩ := inr i j (hS.alike i j hij)
      refine hi.coarse S ⟨fun a b hab => ?_, fun a b hab => ?_, fun a b hab => ?_⟩ i j hij ri rj
      · obtain ⟨ra, rb⟩ := inr a b (hS.alike a b hab)
        exact (alike_iff a ra b rb).2 (hS.alike a b hab)
      · rw [hpar a, hpar b]; exact hS.parents a b hab
      · rw [hchi a, hchi b]; exact hS.children a b hab

/-- **C42** It always ends; the only error is the TypeError of two keys that cannot be compared. -/
theorem C42_terminates_partial (rules : List (Rule π)) (hok : ∀ r ∈ rules, RuleOK r) (deps : List (Nat × Nat))
    (hin : ∀ e ∈ deps, e.1 < rules.length ∧ e.2 < rules.length) :
    (∃ groups r2g, createSimilarGroups rules deps = .ok (groups, r2g)) ∨
    (createSimilarGroups rules deps = .error .typeError ∧ ∃ r ∈ rules, ∃ s ∈ rules, Incomparable r s) := by
  obtain ⟨t, key, hpar, hchi, hkey, e⟩ := create_eq rules hok deps hin
  rw [e]
  unfold similarGroups
  cases hs : sortM (fun a b => keyLt (key a) (key b)) (List.range rules.length) with
  | error x =>
    obtain ⟨a, ha, b, hb, h⟩ := sortM_error hs
    unfold keyLt at h
    split at h
    · rename_i hcl
      cases h
      refine .inr ⟨rfl, rules[a]'(List.mem_range.1 ha), List.getElem_mem _, rules[b]'(List.mem_range.1 hb), List.getElem_mem _, key a, key b,
        hkey a _ (List.getElem?_eq_getElem _), hkey b _ (List.getElem?_eq_getElem _), hcl.1, hcl.2.1, hcl.2.2.1, hcl.2.2.2.1, ?_⟩
      exact (clash_iff _ _).1 hcl.2.2.2.2
    · cases h
  | ok sorted =>
    have hp : ∀ r ∈ List.range rules.length, ∀ x ∈ t.par r, x ∈ List.range rules.length := by
      intro r _ x hx
      rw [hpar] at hx
      obtain ⟨d, hd, rfl⟩ := List.mem_map.1 hx
      exact List.mem_range.2 (hin d (List.mem_filter.1 hd).1).1
    have hc : ∀ r ∈ List.range rules.length, ∀ x ∈ t.chi r, x ∈ List.range rules.length := by
      intro r _ x hx
      rw [hchi] at hx
      obtain ⟨d, hd, rfl⟩ := List.mem_map.1 hx
      exact List.mem_range.2 (hin d (List.mem_filter.1 hd).1).2
    obtain ⟨s0, e0, hi0⟩ := initial_spec (key := key) (t := t) id List.nodup_range hs
    obtain ⟨s1, e1, -⟩ := refine_spec List.nodup_range hp hc ((List.range rules.length).length + 1) s0 hi0 (by omega)
    refine .inl ⟨s1.1, s1.2, ?_⟩
    simp only [bind, Except.bind]
    rw [e0]
    exact e1

/-- No error if rules without set-field actions are grouped. -/
theorem C42_no_set_field (rules : List (Rule π)) (hok : ∀ r ∈ rules, RuleOK r) (hs : ∀ r ∈ rules, ∀ f, ¬ HasType r (.s f)) (deps : List (Nat × Nat))
    (hin : ∀ e ∈ deps, e.1 < rules.length ∧ e.2 < rules.length) : ∃ groups r2g, createSimilarGroups rules deps = .ok (groups, r2g) := by
  rcases C42_terminates_partial rules hok deps hin with h | ⟨-, r, hr, s, hs', k, k', e, e', -, -, -, -, p, x, y, f, i, h⟩
  · exact h
  · exfalso
    have acts : ∀ r ∈ rules, ∀ k, simKey r = .ok k → .s f ∉ k.actions := by
      intro r hr k hk hm
      unfold simKey at hk
      cases hw : r.mat.getWildcard with
      | error x => rw [hw] at hk; cases hk
      | ok w =>
        rw [hw] at hk
        cases hk
        exact hs r hr f ((mem_types r _).1 (((actionTuple_spec _).2.1 _).1 hm))
    rcases h with ⟨h, -⟩ | ⟨h, -⟩
    · exact acts r hr k e (by rw [h]; simp)
    · exact acts s hs' k' e' (by rw [h]; simp)

/-- A rule of a table with priority 5 for one VLAN with the given apply-actions. -/
def vlanRule (vid : Nat) (acts : List Action) : Except PyErr (Rule Unit) := do
  return ⟨5, none, 0, Match.empty.append 6 vid none, ⟨none, ← ActionList.ofList acts, .empty, none, false, none⟩, []⟩

theorem vlanRule_ok {vid : Nat} {acts : List Action} (ha : ∀ a ∈ acts, a.known = true) {r : Rule Unit} (h : vlanRule vid acts = .ok r) :
    RuleOK r := by
  have hE : actionSetOfList [] = .ok .empty := by decide +kernel
  unfold vlanRule at h
  cases hl : ActionList.ofList acts with
  | error e => rw [hl] at h; cases h
  | ok l =>
    rw [hl] at h
    cases h
    refine ⟨inv_append inv_empty _ _ _, ?_, ⟨acts, ha, hl⟩, ⟨[], by decide, hE⟩⟩
    intro x hx
    have : x.1 ∈ ((Match.empty.append 6 vid none).items.map (·.1)) := List.mem_map_of_mem hx
    unfold Match.append at this
    simp only [Match.empty, dictSet, List.map_cons, List.map_nil, List.mem_singleton] at this
    rw [this]; decide

theorem vlanRules_ok : ∀ {l : List (Nat × List Action)} {rules : List (Rule Unit)}, (∀ x ∈ l, ∀ a ∈ x.2, a.known = true) →
    l.mapM (fun x => vlanRule x.1 x.2) = .ok rules → ∀ r ∈ rules, RuleOK r
  | [], rules, _, h => by cases h; intro r hr; cases hr
  | x :: l, rules, hk, h => by
    rw [List.mapM_cons] at h
    cases h1 : vlanRule x.1 x.2 with
    | error e => rw [h1] at h; cases h
    | ok r1 =>
      cases h2 : l.mapM (fun x => vlanRule x.1 x.2) with
      | error e => rw [h1, h2] at h; cases h
      | ok rs =>
        rw [h1, h2] at h
        cases h
        intro r hr
        rcases List.mem_cons.1 hr with rfl | hr
        · exact vlanRule_ok (hk x List.mem_cons_self) h1
        · exact vlanRules_ok (fun y hy => hk y (List.mem_cons_of_mem _ hy)) h2 r hr

/-- **C42** is violated on python 3: the rule `VLAN 5: set VLAN 7, output 1` beside `VLAN 6: output 1` makes the sort raise TypeError, since the tuple
`("SET_FIELD", "VLAN_VID")` is compared with the string `"OUTPUT"`. -/
theorem C42_mixed_types : ∃ rules, [(0x1005, [Action.setField 6 7, .output 1]), (0x1006, [.output 1])].mapM (fun x => vlanRule x.1 x.2) = .ok rules ∧
    createSimilarGroups rules [] = .error .typeError := ⟨_, rfl, by decide +kernel⟩

/-- A sample: rules 0, 1, 2 look alike, as do 3, 4, 5; rule 2 has no dependency. -/
example : ∃ rules, [(0x1005, [Action.output 1]), (0x1006, [.output 1]), (0x1007, [.output 2]), (0x1005, [.output 1, .setQueue 2]),
      (0x1006, [.output 1, .setQueue 2]), (0x1007, [.setQueue 3, .output 2])].mapM (fun x => vlanRule x.1 x.2) = .ok rules ∧
    (∀ r ∈ rules, RuleOK r) ∧ createSimilarGroups rules [(0, 3), (1, 4)] = .ok ([(2, [2]), (0, [0, 1]), (5, [5]), (3, [3, 4])], [(2, 2), (0, 0), (1, 0), (5, 5), (3, 3), (4, 3)]) := by
  refine ⟨_, rfl, ?_, by decide +kernel⟩
  exact vlanRules_ok (l := [(0x1005, [Action.output 1]), (0x1006, [.output 1]), (0x1007, [.output 2]), (0x1005, [.output 1, .setQueue 2]),
      (0x1006, [.output 1, .setQueue 2]), (0x1007, [.setQueue 3, .output 2])]) (by decide) rfl

end Groups
end OFE
