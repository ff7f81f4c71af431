import Verif.Ruleset.Order

/-!
# Lemmas: the single table as a whole
-/

namespace OFE

theorem toSingleTable_eq {rules : List (Rule Nat)} (hp : ∀ r ∈ rules, r.priority < maxPriority) (h0 : ∃ r ∈ rules, r.table = 0)
    (openflow : Bool) : ∃ rem, tablesOf rules = 0 :: rem ∧ toSingleTable rules openflow =
      rem.foldlM (fun acc n => condense acc (tableRules (prepared rules) n) n openflow) (tableRules (prepared rules) 0) := by
  have h0' : 0 ∈ tablesOf rules := mem_tablesOf.2 h0
  have hs := tablesOf_sorted rules
  have ht : tablesOf (rules.map (scaled (tablesOf rules))) = tablesOf rules := tablesOf_map fun _ => rfl
  have e : toSingleTable rules openflow = toSingleTableScaled (rules.map (scaled (tablesOf rules))) openflow := by
    unfold toSingleTable
    rw [scaleRuleset_ok hp]; rfl
  have e2 : toSingleTableScaled (rules.map (scaled (tablesOf rules))) openflow =
      (match tablesOf rules with
      | [] => .ok []
      | t :: rest => rest.foldlM (fun acc n => condense acc (tableRules (prepared rules) n) n openflow) (tableRules (prepared rules) t)) := by
    unfold toSingleTableScaled
    simp only [ht]
    rw [if_pos h0']
    rfl
  rw [e, e2]
  cases hT : tablesOf rules with
  | nil => rw [hT] at h0'; simp at h0'
  | cons t rem =>
    rw [hT] at h0' hs
    have : t = 0 := by
      rcases List.mem_cons.1 h0' with h | h
      · exact h.symm
      · have := (List.pairwise_cons.1 hs).1 0 h; omega
    subst this
    exact ⟨rem, rfl, rfl⟩

theorem prepared_goto {rules : List (Rule Nat)} (h : PipelineOK rules) {r' : Rule Nat} (hr : r' ∈ prepared rules) {n : Nat}
    (hn : r'.inst.goto = some n) : r'.table < n ∧ n ∈ tablesOf rules := by
  rcases (mem_prepared h.path).1 r' hr with ⟨r, i, hi, rfl⟩ | ⟨i, -, hd, -⟩
  · obtain ⟨h1, h2⟩ := h.goto r (List.mem_of_getElem? hi) n hn
    exact ⟨h1, mem_tablesOf.2 h2⟩
  · rw [hd] at hn; simp [defaultRule, Inst.empty] at hn

theorem prepared_table {rules : List (Rule Nat)} (hp : ∀ r ∈ rules, r.path = []) {t : Nat} (ht : t ∈ tablesOf rules) :
    ∃ r ∈ prepared rules, r.table = t := by
  obtain ⟨r, hr, rfl⟩ := mem_tablesOf.1 ht
  obtain ⟨r', hr', i, hi, rfl⟩ := (mem_prepared hp).2 r hr
  exact ⟨_, hr', rfl⟩

/-- The loop ends with a single table in which every packet's first match stands for its run through the tables. -/
theorem single_cinv {rules : List (Rule Nat)} (h : PipelineOK rules) (hf : FlatPipeline rules) (openflow : Bool) :
    ∃ cs, toSingleTable rules openflow = .ok cs ∧ CInv (prepared rules) 0 [] cs := by
  obtain ⟨rem, hT, e⟩ := toSingleTable_eq h.prio h.zero openflow
  have hs := tablesOf_sorted rules
  rw [hT] at hs
  obtain ⟨hs1, hs2⟩ := List.pairwise_cons.1 hs
  have hmem : ∀ {r' : Rule Nat}, r' ∈ prepared rules → ∀ n, r'.inst.goto = some n → r'.table < n ∧ n ∈ rem := by
    intro r' hr n hn
    obtain ⟨h1, h2⟩ := prepared_goto h hr hn
    rw [hT] at h2
    rcases List.mem_cons.1 h2 with rfl | h2
    · omega
    · exact ⟨h1, h2⟩
  have hl := loopOK h hf
  have hstart := cinv_start hl (t := 0) (prepared_table h.path (by rw [hT]; simp)) (rem := rem) fun r hr _ n hn => (hmem hr n hn).2
  obtain ⟨cs, e', hc⟩ := cinv_loop hl openflow rem _ (fun n hn => prepared_table h.path (by rw [hT]; simp [hn])) hs2
    (fun r hr m _ hrt n hn => by obtain ⟨a, b⟩ := hmem hr n hn; exact ⟨hrt ▸ a, b⟩) hstart
  exact ⟨cs, by rw [e, e'], hc⟩

/-- What a packet of the single table sends. -/
theorem finish_congr {s t : St} (h : StEq s t) (hk : AllKnown s.writes) : SameSent s.finish t.finish := by
  obtain ⟨h1, h2, h3⟩ := h
  unfold St.finish SameSent at *
  rw [List.map_append, List.map_append, h1]
  exact h2.append ((finalSet_effect h3 hk t.pkt).2.map _)

theorem write_known {r : Rule Nat} (h : RuleOK r) : AllKnown r.inst.write.iter := by
  obtain ⟨s, k, e⟩ := h.write
  exact (setInv_of k e).known k

theorem runAll_writes {rs : List (Rule Nat)} : ∀ (s : St), ∀ x ∈ (runAll rs s).writes, x ∈ s.writes ∨ ∃ r ∈ rs, x ∈ r.inst.write.iter := by
  induction rs with
  | nil => intro s x hx; exact .inl hx
  | cons r rs ih =>
    intro s x hx
    rcases ih (r.inst.run s) x hx with h | ⟨r', hr', h⟩
    · simp only [Inst.run] at h
      rcases List.mem_append.1 h with h | h
      · split at h
        · simp at h
        · exact .inl h
      · exact .inr ⟨r, List.mem_cons_self, h⟩
    · exact .inr ⟨r', List.mem_cons_of_mem _ hr', h⟩

/-- The actions of a rule executed as one list do what its instructions do. -/
theorem fullActions_finish {c : Rule Nat} (h : RuleOK c) (hm : NoMeta (finalSet c.inst.write.iter)) (p : Pkt) :
    ∃ l, c.inst.fullActions = .ok l ∧ SameSent (exec l.iter p).2 (c.inst.run (St.enter p)).finish := by
  obtain ⟨s, k, e⟩ := h.apply
  obtain ⟨t, k', e'⟩ := h.write
  have hi := setInv_of k' e'
  have hkw := hi.known k'
  have hadd : c.inst.apply.add c.inst.write = ActionList.ofList (s ++ c.inst.write.iter) := by
    unfold ActionList.add ActionList.copy ActionList.ofList
    rw [List.foldlM_append]
    unfold ActionList.ofList at e
    rw [e]; rfl
  have hks : AllKnown (s ++ c.inst.write.iter) := by
    intro x hx
    rcases List.mem_append.1 hx with h | h
    · exact k x h
    · exact hkw x h
  refine ⟨mkList (s ++ c.inst.write.iter), by unfold Inst.fullActions; rw [hadd, ofList_known hks], ?_⟩
  have h1 : SameEffect (mkList (s ++ c.inst.write.iter)).iter (c.inst.apply.iter ++ finalSet c.inst.write.iter) := by
    refine (C56_canonical_effect _ _ (ofList_known hks)).trans (SameEffect.append (C56_canonical_effect _ _ e).symm ?_)
    refine (setInv_effect hi k').symm.trans ?_
    exact finalSet_effect (fun x => (setInv_inSet hi x).symm) k'
  have h2 := (h1 p).2
  rw [exec_append] at h2
  obtain ⟨-, h3⟩ := exec_writeMeta hm c.inst.wmeta (exec c.inst.apply.iter p).1
  unfold SameSent at *
  refine (h2.map _).trans ?_
  have e3 : (c.inst.run (St.enter p)).finish =
      (exec c.inst.apply.iter p).2 ++ (exec (finalSet c.inst.write.iter) (writeMeta c.inst.wmeta (exec c.inst.apply.iter p).1)).2 := by
    simp [Inst.run, St.enter, St.finish, Inst.forward]
  rw [e3, List.map_append, List.map_append]
  exact List.Perm.append_left _ h3.symm

theorem prepared_inst {rules : List (Rule Nat)} (h : PipelineOK rules) {r' : Rule Nat} (hr : r' ∈ prepared rules) :
    RuleOK r' ∧ NoMeta r'.inst.write.iter := by
  rcases (mem_prepared h.path).1 r' hr with ⟨r, i, hi, rfl⟩ | ⟨i, -, hd, -⟩
  · have hr := List.mem_of_getElem? hi
    have hok := h.ok r hr
    exact ⟨⟨hok.inv, hok.keys, hok.apply, hok.write⟩, h.noMetaW r hr⟩
  · rw [hd]
    exact ⟨default_ok _ _, by intro v hv; simp [defaultRule, Inst.empty, ActionList.iter, ActionList.empty] at hv⟩

/-- All about one packet, from the rule it hits first. -/
theorem packet_of {rules : List (Rule Nat)} (h : PipelineOK rules) {c : Rule Nat} {rs' : List (Rule Nat)} {p : Pkt} (hok : RuleOK c)
    (hpa : c.path = rs'.flatMap (·.path)) (hru : ∀ s, StEq (c.inst.run s) (runAll rs' s))
    (hl : Leads (prepared rules) 0 (St.enter p) rs' none) :
    ∃ l rs s', c.inst.fullActions = .ok l ∧ Runs rules 0 (St.enter p) rs s' ∧
      c.path.map (rules[·]?) = rs.map some ∧ SameSent (exec l.iter p).2 s'.finish := by
  obtain ⟨rs, hl', hrun, hpath⟩ := leads_orig h hl
  have hSt := hru (St.enter p)
  have hmem := hl.mem
  have hw : ∀ x ∈ (runAll rs' (St.enter p)).writes, ∃ r ∈ rs', x ∈ r.inst.write.iter := by
    intro x hx
    rcases runAll_writes _ x hx with h | h
    · simp [St.enter] at h
    · exact h
  have hin : ∀ x, InSet (c.inst.run (St.enter p)).writes x → ∃ r ∈ rs', x ∈ r.inst.write.iter :=
    fun x hx => hw x ((hSt.2.2 x).1 hx).1.mem
  have hwr : (c.inst.run (St.enter p)).writes = c.inst.write.iter := by simp [Inst.run, St.enter]
  have hnm : NoMeta (finalSet c.inst.write.iter) := by
    intro v hv
    rw [mem_finalSet, ← hwr] at hv
    obtain ⟨r, hr, hx⟩ := hin _ hv
    exact (prepared_inst h (hmem r hr)).2 v hx
  obtain ⟨l, hl1, hl2⟩ := fullActions_finish hok hnm p
  refine ⟨l, rs, _, hl1, leads_end hl', by rw [hpa]; exact hpath, ?_⟩
  rw [hrun]
  refine hl2.trans (finish_congr hSt ?_)
  rw [hwr]
  exact write_known hok

/-- All about one packet. -/
theorem single_packet {rules : List (Rule Nat)} (h : PipelineOK rules) {cs : List (Rule Nat)}
    (hc : CInv (prepared rules) 0 [] cs) (p : Pkt) :
    ∃ c l rs s', FirstHit cs p c ∧ c.inst.goto = none ∧ c.inst.fullActions = .ok l ∧ Runs rules 0 (St.enter p) rs s' ∧
      c.path.map (rules[·]?) = rs.map some ∧ SameSent (exec l.iter p).2 s'.finish := by
  obtain ⟨c, rs', hfm, hrep, hl⟩ := hc.first p
  have hg : c.inst.goto = none := by
    cases hgo : c.inst.goto with
    | none => rfl
    | some n => exact absurd (hc.goto c hfm.mem n hgo) (by simp)
  rw [hg] at hl
  obtain ⟨l, rs, s', h1, h2, h3, h4⟩ := packet_of h hrep.ok hrep.path hrep.run hl
  exact ⟨c, l, rs, s', hfm, hg, h1, h2, h3, h4⟩

/-- Without ties there is only one run. -/
theorem runs_unique {π : Type} {rules : List (Rule π)} (hn : NoTies rules) {t : Nat} {s : St} {rs rs' : List (Rule π)} {e e' : St}
    (h : Runs rules t s rs e) (h' : Runs rules t s rs' e') : rs = rs' ∧ e = e' := by
  have huniq : ∀ {t p} {r r' : Rule π}, Hits rules t p r → Hits rules t p r' → r = r' := by
    intro t p r r' ⟨a1, a2, a3, a4⟩ ⟨b1, b2, b3, b4⟩
    exact hn r a1 r' b1 (a2.trans b2.symm) (Nat.le_antisymm (b4 r a1 a2 a3) (a4 r' b1 b2 b3)) ⟨p, a3, b3⟩
  induction h generalizing rs' e' with
  | last h1 h2 =>
    cases h' with
    | last h3 h4 => cases huniq h1 h3; exact ⟨rfl, rfl⟩
    | next h3 h4 h5 => cases huniq h1 h3; rw [h2] at h4; cases h4
  | next h1 h2 _ ih =>
    cases h' with
    | last h3 h4 => cases huniq h1 h3; rw [h2] at h4; cases h4
    | next h3 h4 h5 =>
      cases huniq h1 h3
      rw [h2] at h4; cases h4
      obtain ⟨h6, h7⟩ := ih h5
      exact ⟨by rw [h6], h7⟩

end OFE
