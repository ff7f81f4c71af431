import Verif.Main.Reverse
import Verif.Props.Reverse

/-!
# Lemmas about the command line tool with the option -r
-/

namespace OFE

/-- What reversing one rule gives. -/
structure RevFull (r r' : Rule Nat) : Prop where
  fn : reverseRule false r = .ok r'
  rev : RevRule r r'
  ok : RuleOK r'
  path : r'.path = r.path
  apply : r'.inst.apply.iter.Perm (r.inst.apply.iter.map revAct)
  items : r'.mat.items = r.mat.items.map revItem

theorem reverseMatch_inv : ∀ (rest : MItems) (m m' : Match), m.Inv → reverseMatch rest m = .ok m' → m'.Inv := by
  intro rest
  induction rest with
  | nil => intro m m' h e; cases e; exact h
  | cons x rest ih =>
    intro m m' h e
    obtain ⟨f, v, mask⟩ := x
    rw [reverseMatch] at e
    split at e
    · exact ih _ _ h e
    · cases e1 : reverseChecked f v with
      | error x => rw [e1] at e; cases e
      | ok nv =>
        rw [e1] at e
        simp only [bind, Except.bind, pure, Except.pure, Except.map] at e
        split at e <;> exact ih _ _ (inv_append h _ _ _) e

theorem reverseRule_full {r : Rule Nat} (h : RevOK r) : ∃ r', RevFull r r' := by
  obtain ⟨r', e, hr⟩ := reverseRule_spec h
  obtain ⟨m', e1, e2⟩ := reverseMatch_spec r.mat.items [] r.mat rfl h.ok.inv.nodup h.ok.keys h.exact
  obtain ⟨s, hs, es⟩ := h.ok.apply
  have hk := iter_known hs es
  have e3 : r.inst.apply.iter.mapM reverseAction = .ok (r.inst.apply.iter.map revAct) :=
    mapM_eq_map fun a ha => reverseAction_ok (hk a ha) fun f v e => h.sets f v (e ▸ ha)
  have hk2 : ∀ a ∈ r.inst.apply.iter.map revAct, a.known = true := fun a ha => by
    obtain ⟨b, hb, rfl⟩ := List.mem_map.1 ha
    exact revAct_known (hk b hb)
  obtain ⟨l, e4⟩ := C19_known_ok (r.inst.apply.iter.map revAct) hk2
  have e5 : reverseRule false r = .ok { r with mat := m', inst := { r.inst with apply := l } } := by
    unfold reverseRule
    simp only [Bool.false_eq_true, if_false, e1, e3, e4, bind, Except.bind, pure, Except.pure]
  rw [e] at e5
  cases e5
  refine ⟨_, e, hr, ⟨reverseMatch_inv _ _ _ h.ok.inv e1, ?_, ⟨_, hk2, e4⟩, h.ok.write⟩, rfl, (C19_canonical_order _ _ e4).1,
    by simpa using e2⟩
  intro x hx
  simp only at hx
  rw [e2, List.nil_append] at hx
  obtain ⟨y, hy, rfl⟩ := List.mem_map.1 hx
  have := h.ok.keys y hy
  unfold revItem
  split <;> exact this

theorem reverseFields_full {rules : List (Rule Nat)} (h : ∀ r ∈ rules, RevOK r) :
    ∃ rules', reverseFields false rules = .ok rules' ∧ List.Forall₂ RevFull rules rules' := by
  unfold reverseFields
  induction rules with
  | nil => exact ⟨[], rfl, .nil⟩
  | cons r rules ih =>
    obtain ⟨r', h1⟩ := reverseRule_full (h r List.mem_cons_self)
    obtain ⟨rules', e2, h2⟩ := ih fun s hs => h s (List.mem_cons_of_mem _ hs)
    refine ⟨r' :: rules', ?_, .cons h1 h2⟩
    rw [List.mapM_cons, h1.fn, e2]
    rfl

section
variable {A A' : List (Rule Nat)} (h : List.Forall₂ RevFull A A')
include h

theorem RevFull.back : ∀ r' ∈ A', ∃ r ∈ A, RevFull r r' := by
  induction h with
  | nil => simp
  | cons a _ ih =>
    intro r' hr
    rcases List.mem_cons.1 hr with rfl | hr
    · exact ⟨_, List.mem_cons_self, a⟩
    · obtain ⟨r, h1, h2⟩ := ih r' hr
      exact ⟨r, List.mem_cons_of_mem _ h1, h2⟩

theorem RevFull.there : ∀ r ∈ A, ∃ r' ∈ A', RevFull r r' := by
  induction h with
  | nil => simp
  | cons a _ ih =>
    intro r' hr
    rcases List.mem_cons.1 hr with rfl | hr
    · exact ⟨_, List.mem_cons_self, a⟩
    · obtain ⟨r, h1, h2⟩ := ih r' hr
      exact ⟨r, List.mem_cons_of_mem _ h1, h2⟩

theorem RevFull.toRev : List.Forall₂ RevRule A A' := by
  induction h with
  | nil => exact .nil
  | cons a _ ih => exact .cons a.rev ih

theorem RevFull.noTies (hn : NoTies A) : NoTies A' := by
  intro r' hr' s' hs' ht hp ho
  obtain ⟨r, hr, fr⟩ := RevFull.back h r' hr'
  obtain ⟨s, hs, fs⟩ := RevFull.back h s' hs'
  obtain ⟨p, p1, p2⟩ := ho
  have e : r = s := hn r hr s hs (by rw [← fr.rev.table, ht, fs.rev.table]) (by rw [← fr.rev.priority, hp, fs.rev.priority])
    ⟨revPkt p, (fr.rev.accepts _).1 (by rwa [revPkt_revPkt]), (fs.rev.accepts _).1 (by rwa [revPkt_revPkt])⟩
  subst e
  have := fr.fn.symm.trans fs.fn
  cases this
  rfl

theorem RevFull.pipeline (hA : PipelineOK A) : PipelineOK A' where
  ok r' hr' := by obtain ⟨r, hr, f⟩ := RevFull.back h r' hr'; exact f.ok
  noMeta r' hr' v hv := by
    obtain ⟨r, hr, f⟩ := RevFull.back h r' hr'
    obtain ⟨b, hb, e⟩ := List.mem_map.1 (f.apply.mem_iff.1 hv)
    cases b with
    | setField g w =>
      rw [revAct_set] at e
      split at e
      · cases e; exact hA.noMeta r hr _ hb
      · cases e; exact hA.noMeta r hr _ hb
    | _ => exact absurd e (by simp [revAct])
  noMetaW r' hr' v hv := by
    obtain ⟨r, hr, f⟩ := RevFull.back h r' hr'
    rw [f.rev.write] at hv
    exact hA.noMetaW r hr v hv
  prio r' hr' := by
    obtain ⟨r, hr, f⟩ := RevFull.back h r' hr'
    rw [f.rev.priority]; exact hA.prio r hr
  path r' hr' := by
    obtain ⟨r, hr, f⟩ := RevFull.back h r' hr'
    rw [f.path]; exact hA.path r hr
  zero := by
    obtain ⟨r, hr, h0⟩ := hA.zero
    obtain ⟨r', hr', f⟩ := RevFull.there h r hr
    exact ⟨r', hr', by rw [f.rev.table, h0]⟩
  goto r' hr' n hn := by
    obtain ⟨r, hr, f⟩ := RevFull.back h r' hr'
    rw [f.rev.goto] at hn
    obtain ⟨h1, s, hs, h2⟩ := hA.goto r hr n hn
    obtain ⟨s', hs', g⟩ := RevFull.there h s hs
    exact ⟨by rw [f.rev.table]; exact h1, s', hs', by rw [g.rev.table, h2]⟩
  covered r' hr' p := by
    obtain ⟨r, hr, f⟩ := RevFull.back h r' hr'
    obtain ⟨s, hs, h1, h2⟩ := hA.covered r hr (revPkt p)
    obtain ⟨s', hs', g⟩ := RevFull.there h s hs
    refine ⟨s', hs', by rw [g.rev.table, f.rev.table, h1], ?_⟩
    have := (g.rev.accepts (revPkt p)).2 h2
    rwa [revPkt_revPkt] at this

theorem RevFull.flat (hA : FlatPipeline A) : FlatPipeline A' := by
  intro r' hr' hg a ha
  obtain ⟨r, hr, f⟩ := RevFull.back h r' hr'
  obtain ⟨b, hb, rfl⟩ := List.mem_map.1 (f.apply.mem_iff.1 ha)
  have hb := hA r hr (by rwa [← f.rev.goto]) b hb
  cases b with
  | setField g w =>
    rw [revAct_set]
    split
    · exact hb
    · refine ⟨rfl, rfl, ?_⟩
      rintro v e
      cases e
      exact hb.2.2 w rfl
  | _ => exact hb

omit h in
theorem revAct_port (a : Action) : (revAct a).portOf = a.portOf := by
  cases a with
  | setField g w => rw [revAct_set]; split <;> rfl
  | _ => rfl

omit h in
theorem revAct_ttl (a : Action) : (revAct a).mplsTtl = a.mplsTtl := by
  cases a with
  | setField g w => rw [revAct_set]; split <;> rfl
  | _ => rfl

omit h in
/-- Actions other than set-fields, and the VLAN id, are left alone. -/
theorem mem_revAct {a : Action} (ha : ∀ f v, a = .setField f v → f = 6) {s s' : List Action} (hp : s'.Perm (s.map revAct)) :
    a ∈ s' → a ∈ s := by
  intro hm
  obtain ⟨b, hb, e⟩ := List.mem_map.1 (hp.mem_iff.1 hm)
  cases b with
  | setField g w =>
    rw [revAct_set] at e
    split at e
    · rw [← e]; exact hb
    · rename_i hg
      exact absurd (ha g _ e.symm) hg
  | _ => simp only [revAct] at e; rw [← e]; exact hb

omit h in
theorem plainActs_rev {s s' : List Action} (hp : s'.Perm (s.map revAct)) (hs : PlainActs s) : PlainActs s' where
  nogroup g hg := hs.nogroup g (mem_revAct (by simp) hp hg)
  ports := by
    rw [(hp.filterMap Action.portOf).nodup_iff, List.filterMap_map]
    have : Action.portOf ∘ revAct = Action.portOf := funext revAct_port
    rw [this]
    exact hs.ports
  ttl := by
    rintro ⟨e, he⟩ ⟨e2, he2⟩ a ha
    obtain ⟨b, hb, rfl⟩ := List.mem_map.1 (hp.mem_iff.1 ha)
    rw [revAct_ttl]
    exact hs.ttl ⟨e, mem_revAct (by simp) hp he⟩ ⟨e2, mem_revAct (by simp) hp he2⟩ b hb
  pbb := by
    rintro ⟨e, he⟩ hv
    exact hs.pbb ⟨e, mem_revAct (by simp) hp he⟩ (mem_revAct (by simp) hp hv)
  vid v hv := hs.vid v (mem_revAct (fun f w e => by cases e; rfl) hp hv)

theorem RevFull.path_back : ∀ P', GotoPath A' P' → ∃ P, List.Forall₂ RevFull P P' ∧ GotoPath A P := by
  intro P'
  induction P' with
  | nil => exact fun _ => ⟨[], .nil, by simp, List.IsChain.nil⟩
  | cons r' P' ih =>
    intro hP
    obtain ⟨P, hf, hg⟩ := ih ⟨fun x hx => hP.1 x (List.mem_cons_of_mem _ hx), hP.2.tail⟩
    obtain ⟨r, hr, f⟩ := RevFull.back h r' (hP.1 r' List.mem_cons_self)
    refine ⟨r :: P, .cons f hf, fun x hx => ?_, ?_⟩
    · rcases List.mem_cons.1 hx with rfl | hx
      · exact hr
      · exact hg.1 x hx
    · cases hf with
      | nil => exact List.IsChain.singleton _
      | cons g _ =>
        have hc := (List.isChain_cons_cons.1 hP.2).1
        refine List.isChain_cons_cons.2 ⟨?_, hg.2⟩
        rw [← f.rev.goto, hc, g.rev.table]

omit h in
theorem acts_rev {P P' : List (Rule Nat)} (h : List.Forall₂ RevFull P P') : (P'.flatMap Rule.acts).Perm ((P.flatMap Rule.acts).map revAct) := by
  induction h with
  | nil => exact .nil
  | @cons r r' P P' f _ ih =>
    rw [List.flatMap_cons, List.flatMap_cons, List.map_append]
    refine List.Perm.append ?_ ih
    unfold Rule.acts
    rw [List.map_append]
    refine f.apply.append ?_
    rw [f.rev.write, List.map_congr_left (g := id) f.rev.safe, List.map_id]

theorem RevFull.plain (hA : PlainPipeline A) : PlainPipeline A' := by
  intro P' hP'
  obtain ⟨P, hf, hP⟩ := RevFull.path_back h P' hP'
  exact plainActs_rev (acts_rev hf) (hA P hP)

theorem RevFull.good (hA : GoodPipeline A) : GoodPipeline A' := ⟨RevFull.pipeline h hA.ok, RevFull.flat h hA.flat, RevFull.plain h hA.plain⟩

end

/-- Specification: the order of rules that check_equivalence establishes. -/
def KeySorted (rules : List (Rule Nat)) : Prop :=
  rules.Pairwise fun r s => r.table < s.table ∨ (r.table = s.table ∧ s.priority ≤ r.priority)

theorem sortRuleset_of_sorted {rules : List (Rule Nat)} (h : KeySorted rules) : sortRuleset rules = rules := by
  induction rules with
  | nil => rfl
  | cons r rules ih =>
    have h' := List.pairwise_cons.1 h
    rw [show sortRuleset (r :: rules) = insertKeyed r (sortRuleset rules) from rfl, ih h'.2]
    cases rules with
    | nil => rfl
    | cons s rules =>
      rw [insertKeyed, if_pos (h'.1 s List.mem_cons_self)]

theorem KeySorted.rev {A A' : List (Rule Nat)} (h : List.Forall₂ RevFull A A') (hs : KeySorted A) : KeySorted A' := by
  induction h with
  | nil => exact .nil
  | @cons r r' A A' f h ih =>
    have h' := List.pairwise_cons.1 hs
    refine List.pairwise_cons.2 ⟨fun s' hs' => ?_, ih h'.2⟩
    obtain ⟨s, hs, g⟩ := RevFull.back h s' hs'
    have := h'.1 s hs
    rw [f.rev.table, f.rev.priority, g.rev.table, g.rev.priority]
    exact this

/-- What the tool works on with `-r`. -/
theorem prepared_spec {A : List (Rule Nat)} (hA : ∀ r ∈ A, RevOK r) : ∃ A', prepareRuleset false true A = .ok A' ∧
    List.Forall₂ RevFull (sortRuleset A) A' ∧ sortRuleset A' = A' := by
  obtain ⟨A', e, f⟩ := reverseFields_full (rules := sortRuleset A) fun r hr => hA r (mem_sortRuleset.1 hr)
  exact ⟨A', e, f, sortRuleset_of_sorted (KeySorted.rev f (C58_sorted A).2.1)⟩

theorem optionForm_eq {py3 rev dc : Bool} {reg : LReg} {A A' : List (Rule Nat)} (e : prepareRuleset py3 rev A = .ok A') (hs : sortRuleset A' = A') :
    optionForm py3 rev dc reg A = canonicalForm dc reg A' := by
  unfold optionForm canonicalForm
  rw [e, hs]
  rfl

theorem optionForms_eq {ν : Type} {py3 rev dc : Bool} {files files' : List (ν × List (Rule Nat))} (reg : LReg)
    (h : List.Forall₂ (fun (x y : ν × List (Rule Nat)) => x.1 = y.1 ∧ prepareRuleset py3 rev x.2 = .ok y.2 ∧ sortRuleset y.2 = y.2) files files') :
    optionForms py3 rev dc reg files = canonicalForms dc reg files' := by
  induction h generalizing reg with
  | nil => rfl
  | @cons x y files files' a _ ih =>
    obtain ⟨n, A⟩ := x
    obtain ⟨n', A'⟩ := y
    obtain ⟨rfl, e, hs⟩ := a
    simp only at e hs
    rw [optionForms, canonicalForms, optionForm_eq e hs]
    cases canonicalForm dc reg A' with
    | error _ => rfl
    | ok x =>
      simp only [bind, Except.bind]
      rw [ih]

theorem mainLines_eq {ν : Type} {py3 rev dc : Bool} {files files' : List (ν × List (Rule Nat))}
    (h : List.Forall₂ (fun (x y : ν × List (Rule Nat)) => x.1 = y.1 ∧ prepareRuleset py3 rev x.2 = .ok y.2 ∧ sortRuleset y.2 = y.2) files files') :
    mainLines py3 rev dc files = mainGroups dc files' := by
  unfold mainLines mainGroups
  rw [optionForms_eq _ h, h.length_eq]

/-- The files the tool works on with `-r`. -/
theorem prepared_files {ν : Type} {files : List (ν × List (Rule Nat))} (hrev : ∀ x ∈ files, ∀ r ∈ x.2, RevOK r) :
    ∃ files' : List (ν × List (Rule Nat)), List.Forall₂ (fun (x y : ν × List (Rule Nat)) => x.1 = y.1 ∧
      (prepareRuleset false true x.2 = .ok y.2 ∧ sortRuleset y.2 = y.2) ∧ List.Forall₂ RevFull (sortRuleset x.2) y.2) files files' := by
  induction files with
  | nil => exact ⟨[], .nil⟩
  | cons x files ih =>
    obtain ⟨files', h⟩ := ih fun y hy => hrev y (List.mem_cons_of_mem _ hy)
    obtain ⟨A', e, f, hs⟩ := prepared_spec (hrev x List.mem_cons_self)
    exact ⟨(x.1, A') :: files', .cons ⟨rfl, ⟨e, hs⟩, f⟩ h⟩

end OFE
