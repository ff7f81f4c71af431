import Verif.Ruleset.Condense

/-!
# Lemmas: scaling, paths and default rules
-/

namespace OFE

section
variable {π : Type}

/-- A rule with its scaled priority. -/
def scaled (tables : List Nat) (r : Rule π) : Rule π := { r with priority := r.priority * maxPriority ^ tablePower tables r.table }

theorem scaleRuleset_ok {rules : List (Rule π)} (h : ∀ r ∈ rules, r.priority < maxPriority) :
    scaleRuleset rules = .ok (rules.map (scaled (tablesOf rules))) := by
  unfold scaleRuleset
  generalize tablesOf rules = T
  induction rules with
  | nil => rfl
  | cons r rules ih =>
    rw [List.mapM_cons, ih fun x hx => h x (List.mem_cons_of_mem _ hx), if_pos (h r List.mem_cons_self)]
    rfl

theorem scaleRuleset_assert {rules : List (Rule π)} (h : ∃ r ∈ rules, maxPriority ≤ r.priority) :
    scaleRuleset rules = .error .assertion := by
  unfold scaleRuleset
  generalize tablesOf rules = T
  induction rules with
  | nil => simp at h
  | cons r rules ih =>
    rw [List.mapM_cons]
    by_cases hr : r.priority < maxPriority
    · rw [if_pos hr]
      obtain ⟨x, hx, hxp⟩ := h
      rcases List.mem_cons.1 hx with rfl | hx
      · omega
      · rw [ih ⟨x, hx, hxp⟩]; rfl
    · rw [if_neg hr]; rfl

theorem tablesOf_map {rules : List (Rule π)} {f : Rule π → Rule π} (h : ∀ r, (f r).table = r.table) :
    tablesOf (rules.map f) = tablesOf rules := by
  unfold tablesOf
  rw [List.foldr_map]
  simp only [h]

end

/-- The rules of the loop: scaled, with paths, with defaults. -/
def prepared (rules : List (Rule Nat)) : List (Rule Nat) :=
  addDefaults (tablesOf rules) (fillPaths (rules.map (scaled (tablesOf rules))))

/-- `r'` is the rule `r` of the ruleset with scaled priority and its own path. -/
def Orig (rules : List (Rule Nat)) (r r' : Rule Nat) : Prop :=
  ∃ i, rules[i]? = some r ∧ r' = { scaled (tablesOf rules) r with path := [i] }

theorem fillPaths_eq {rules : List (Rule Nat)} (hp : ∀ r ∈ rules, r.path = []) (f : Rule Nat → Rule Nat) (hf : ∀ r, (f r).path = r.path) :
    fillPaths (rules.map f) = rules.zipIdx.map fun x => { f x.1 with path := [x.2] } := by
  unfold fillPaths
  rw [List.zipIdx_map, List.map_map]
  refine List.map_congr_left fun x hx => ?_
  have : (f x.1).path = [] := by rw [hf]; exact hp _ (by
    have := List.mem_zipIdx hx
    rw [this.2.2]; exact List.getElem_mem _)
  simp [this]

/-- Everything about default rules: what the loop leaves. -/
theorem addDefaults_spec : ∀ (tables : List Nat) (rs : List (Rule Nat)), tables.Nodup →
    ∃ ds, addDefaults tables rs = rs ++ ds ∧
      ∀ d ∈ ds, d.table ∈ tables ∧ (∃ i, rs.length ≤ i ∧ d = defaultRule d.table i) ∧
        (∀ r ∈ rs, r.table = d.table → r.priority ≠ 0)
  | [], rs, _ => ⟨[], by simp [addDefaults], by simp⟩
  | t :: tables, rs, hn => by
    obtain ⟨hn1, hn2⟩ := List.nodup_cons.1 hn
    unfold addDefaults
    rw [List.foldl_cons]
    by_cases h : rs.any (fun r => r.priority == 0 && r.table == t) = true
    · rw [if_pos h]
      obtain ⟨ds, e, hd⟩ := addDefaults_spec tables rs hn2
      refine ⟨ds, e, fun d hdm => ?_⟩
      obtain ⟨h1, h2, h3⟩ := hd d hdm
      exact ⟨List.mem_cons_of_mem _ h1, h2, h3⟩
    · rw [if_neg h]
      obtain ⟨ds, e, hd⟩ := addDefaults_spec tables (rs ++ [defaultRule t rs.length]) hn2
      refine ⟨defaultRule t rs.length :: ds, by unfold addDefaults at e; rw [e]; simp, fun d hdm => ?_⟩
      rcases List.mem_cons.1 hdm with rfl | hdm
      · refine ⟨List.mem_cons_self, ⟨rs.length, Nat.le_refl _, rfl⟩, fun r hr hrt h0 => h ?_⟩
        rw [List.any_eq_true]
        exact ⟨r, hr, by simp [h0, hrt, defaultRule]⟩
      · obtain ⟨h1, ⟨i, h2, h2'⟩, h3⟩ := hd d hdm
        refine ⟨List.mem_cons_of_mem _ h1, ⟨i, by simp at h2; omega, h2'⟩, fun r hr => h3 r (by simp [hr])⟩

/-- What is in the prepared ruleset. -/
theorem mem_prepared {rules : List (Rule Nat)} (hp : ∀ r ∈ rules, r.path = []) :
    (∀ r' ∈ prepared rules, (∃ r, Orig rules r r') ∨
      (∃ i, rules.length ≤ i ∧ r' = defaultRule r'.table i ∧ r'.table ∈ tablesOf rules ∧ ∀ r ∈ rules, r.table = r'.table → r.priority ≠ 0)) ∧
    (∀ r ∈ rules, ∃ r' ∈ prepared rules, Orig rules r r') := by
  have hnod : (tablesOf rules).Nodup := (tablesOf_sorted rules).imp fun h => Nat.ne_of_lt h
  obtain ⟨ds, e, hd⟩ := addDefaults_spec (tablesOf rules) (fillPaths (rules.map (scaled (tablesOf rules)))) hnod
  rw [fillPaths_eq hp (scaled (tablesOf rules)) (fun _ => rfl)] at hd
  have e' : prepared rules = rules.zipIdx.map (fun x => { scaled (tablesOf rules) x.1 with path := [x.2] }) ++ ds := by
    unfold prepared
    rw [e, fillPaths_eq hp (scaled (tablesOf rules)) (fun _ => rfl)]
  have hin : ∀ r ∈ rules, ∃ i, rules[i]? = some r ∧
      ({ scaled (tablesOf rules) r with path := [i] } : Rule Nat) ∈ rules.zipIdx.map (fun x => { scaled (tablesOf rules) x.1 with path := [x.2] }) := by
    intro r hr
    obtain ⟨i, hi, rfl⟩ := List.mem_iff_getElem.1 hr
    refine ⟨i, List.getElem?_eq_getElem hi, List.mem_map.2 ⟨(rules[i], i), ?_, rfl⟩⟩
    rw [List.mk_mem_zipIdx_iff_getElem?]
    exact List.getElem?_eq_getElem hi
  constructor
  · intro r' hr'
    rw [e'] at hr'
    rcases List.mem_append.1 hr' with h | h
    · obtain ⟨⟨r, i⟩, hx, rfl⟩ := List.mem_map.1 h
      rw [List.mk_mem_zipIdx_iff_getElem?] at hx
      exact .inl ⟨r, i, hx, rfl⟩
    · obtain ⟨h1, ⟨i, h2, h2'⟩, h3⟩ := hd r' h
      refine .inr ⟨i, by simpa using h2, h2', h1, fun r hr hrt h0 => ?_⟩
      obtain ⟨j, -, hm⟩ := hin r hr
      refine h3 _ hm hrt ?_
      simp [scaled, h0]
  · intro r hr
    obtain ⟨i, hi, hm⟩ := hin r hr
    exact ⟨_, by rw [e']; exact List.mem_append_left _ hm, i, hi, rfl⟩

theorem maxPriority_pos : 0 < maxPriority := by decide

/-- A hit in the prepared ruleset is a hit of the original rule. -/
theorem hits_orig {rules : List (Rule Nat)} (h : PipelineOK rules) {t : Nat} {p : Pkt} {r' : Rule Nat} (hr : Hits (prepared rules) t p r') :
    ∃ r, Orig rules r r' ∧ Hits rules t p r := by
  obtain ⟨h1, h2⟩ := mem_prepared h.path
  obtain ⟨hm, ht, hacc, hmax⟩ := hr
  rcases h1 r' hm with ⟨r, ho⟩ | ⟨i, hi, hd, htab, hno⟩
  · refine ⟨r, ho, ?_⟩
    obtain ⟨i, hi, rfl⟩ := ho
    refine ⟨List.mem_of_getElem? hi, ht, hacc, fun s hs hst hsp => ?_⟩
    obtain ⟨s', hs', j, hj, rfl⟩ := h2 s hs
    have := hmax _ hs' hst hsp
    simp only [scaled] at this ht
    rw [hst, ht] at this
    exact Nat.le_of_mul_le_mul_right this (Nat.pow_pos maxPriority_pos)
  · exfalso
    obtain ⟨r, hr, hrt⟩ := mem_tablesOf.1 htab
    obtain ⟨s, hs, hst, hsp⟩ := h.covered r hr p
    obtain ⟨s', hs', j, hj, rfl⟩ := h2 s hs
    have := hmax _ hs' (by rw [← ht, ← hrt]; exact hst) hsp
    rw [hd] at this
    simp only [scaled, defaultRule, Nat.le_zero, Nat.mul_eq_zero] at this
    rcases this with h0 | h0
    · exact hno s hs (hst.trans hrt) h0
    · exact absurd h0 (Nat.pos_iff_ne_zero.1 (Nat.pow_pos maxPriority_pos))

theorem default_ok (t i : Nat) : RuleOK (defaultRule t i) :=
  ⟨inv_empty, by simp [defaultRule, Match.empty], ⟨[], by simp, rfl⟩, ⟨[], by simp, rfl⟩⟩

theorem default_accepts (t i : Nat) (p : Pkt) : (defaultRule t i).mat.accepts p := by
  unfold Match.accepts MatchesAll defaultRule Match.empty
  simp

theorem loopOK {rules : List (Rule Nat)} (h : PipelineOK rules) (hf : FlatPipeline rules) : LoopOK (prepared rules) := by
  obtain ⟨h1, h2⟩ := mem_prepared h.path
  refine ⟨fun r' hr' => ?_, fun r' hr' => ?_, fun r' hr' hg => ?_, fun r' hr' p => ?_⟩
  · rcases h1 r' hr' with ⟨r, i, hi, rfl⟩ | ⟨i, -, hd, -⟩
    · have := h.ok r (List.mem_of_getElem? hi)
      exact ⟨this.inv, this.keys, this.apply, this.write⟩
    · rw [hd]; exact default_ok _ _
  · rcases h1 r' hr' with ⟨r, i, hi, rfl⟩ | ⟨i, -, hd, -⟩
    · exact h.noMeta r (List.mem_of_getElem? hi)
    · rw [hd]; intro v hv; simp [defaultRule, Inst.empty, ActionList.iter, ActionList.empty] at hv
  · rcases h1 r' hr' with ⟨r, i, hi, rfl⟩ | ⟨i, -, hd, -⟩
    · exact hf r (List.mem_of_getElem? hi) hg
    · rw [hd] at hg; simp [defaultRule, Inst.empty] at hg
  · have : r'.table ∈ tablesOf rules := by
      rcases h1 r' hr' with ⟨r, i, hi, rfl⟩ | ⟨i, -, hd, ht, -⟩
      · exact mem_tablesOf.2 ⟨r, List.mem_of_getElem? hi, rfl⟩
      · exact ht
    obtain ⟨r, hr, hrt⟩ := mem_tablesOf.1 this
    obtain ⟨s, hs, hst, hsp⟩ := h.covered r hr p
    obtain ⟨s', hs', j, hj, rfl⟩ := h2 s hs
    exact ⟨_, hs', hst.trans hrt, hsp⟩

/-- A run of hits in the prepared ruleset is one in the original, and the paths say which. -/
theorem leads_orig {rules : List (Rule Nat)} (h : PipelineOK rules) {t : Nat} {s : St} {rs' : List (Rule Nat)} {g : Option Nat}
    (hl : Leads (prepared rules) t s rs' g) : ∃ rs, Leads rules t s rs g ∧ runAll rs s = runAll rs' s ∧
      (rs'.flatMap (·.path)).map (rules[·]?) = rs.map some := by
  induction hl with
  | @one r' hr =>
    obtain ⟨r, ⟨i, hi, e⟩, hh⟩ := hits_orig h hr
    have hinst : r'.inst = r.inst := by rw [e]; rfl
    refine ⟨[r], by rw [hinst]; exact .one hh, by simp [runAll, hinst], ?_⟩
    have : r'.path = [i] := by rw [e]
    simp [this, hi]
  | @snoc rs' n r' h1 h2 ih =>
    obtain ⟨rs, i1, i2, i3⟩ := ih
    rw [← i2] at h2
    obtain ⟨r, ⟨i, hi, e⟩, hh⟩ := hits_orig h h2
    have hinst : r'.inst = r.inst := by rw [e]; rfl
    refine ⟨rs ++ [r], by rw [hinst]; exact .snoc i1 hh, by rw [runAll_append, runAll_append, i2]; simp [runAll, hinst], ?_⟩
    have : r'.path = [i] := by rw [e]
    simp only [List.flatMap_append, List.map_append, i3]
    simp [this, hi]

end OFE
