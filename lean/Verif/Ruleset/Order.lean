import Verif.Ruleset.Scale

/-!
# Lemmas: priorities of the single table
-/

namespace OFE

section
variable {π : Type}

theorem merge_priority {a b r : Rule π} {openflow : Bool} (h : a.merge b openflow = .ok r) : r.priority = a.priority + b.priority := by
  unfold Rule.merge at h
  simp only [bind, Except.bind, pure, Except.pure] at h
  repeat' split at h
  all_goals first | (cases h; done) | skip
  all_goals (injection h with h; rw [← h])

theorem mergeAll_sublist {a : Rule π} {openflow : Bool} : ∀ {l res : List (Rule π)}, mergeAll a openflow l = .ok res →
    ∃ l' : List (Rule π), l'.Sublist l ∧ res.map (·.priority) = l'.map fun b => a.priority + b.priority
  | [], res, h => by cases h; exact ⟨[], .slnil, rfl⟩
  | b :: l, res, h => by
    unfold mergeAll at h
    cases hm : a.merge b openflow with
    | ok r =>
      rw [hm] at h
      simp only [bind, Except.bind, pure, Except.pure] at h
      cases hr : mergeAll a openflow l with
      | error e => rw [hr] at h; cases h
      | ok res' =>
        rw [hr] at h
        cases h
        obtain ⟨l', h1, h2⟩ := mergeAll_sublist hr
        exact ⟨b :: l', h1.cons_cons _, by simp [h2, merge_priority hm]⟩
    | error e =>
      rw [hm] at h
      cases e <;> simp only at h <;> try (cases h; done)
      all_goals
        obtain ⟨l', h1, h2⟩ := mergeAll_sublist h
        exact ⟨l', h1.cons _, h2⟩

/-- Decreasing with at least `K` in between. -/
def Gap (K : Nat) (l : List (Rule π)) : Prop := l.Pairwise fun c d => d.priority + K ≤ c.priority

theorem gap_iff {K : Nat} {l : List (Rule π)} : Gap K l ↔ (l.map (·.priority)).Pairwise fun x y => y + K ≤ x := by
  unfold Gap; rw [List.pairwise_map]

theorem condense_gap {K M : Nat} {first second res : List (Rule π)} {num : Nat} {openflow : Bool} (h : condense first second num openflow = .ok res)
    (h1 : Gap (K * M) first) (h2 : Gap K second) (hM : 0 < M) (h3 : ∀ b ∈ second, b.priority + K ≤ K * M) :
    Gap K res ∧ ∀ r ∈ res, ∃ a ∈ first, a.priority ≤ r.priority ∧ r.priority + K ≤ a.priority + K * M := by
  have hKM : K ≤ K * M := Nat.le_mul_of_pos_right K hM
  induction first generalizing res with
  | nil => cases h; exact ⟨.nil, by simp⟩
  | cons a first ih =>
    obtain ⟨g1, g2⟩ := List.pairwise_cons.1 h1
    unfold condense at h
    simp only [bind, Except.bind, pure, Except.pure] at h
    have key : ∀ here rest, (Gap K here ∧ ∀ r ∈ here, a.priority ≤ r.priority ∧ r.priority + K ≤ a.priority + K * M) →
        condense first second num openflow = .ok rest →
        Gap K (here ++ rest) ∧ ∀ r ∈ here ++ rest, ∃ a' ∈ a :: first, a'.priority ≤ r.priority ∧ r.priority + K ≤ a'.priority + K * M := by
      intro here rest ⟨k1, k2⟩ hr
      obtain ⟨i1, i2⟩ := ih hr g2
      refine ⟨List.pairwise_append.2 ⟨k1, i1, fun x hx y hy => ?_⟩, fun r hr => ?_⟩
      · obtain ⟨a', ha', b1, b2⟩ := i2 y hy
        have := g1 a' ha'
        have := k2 x hx
        omega
      · rcases List.mem_append.1 hr with hr | hr
        · exact ⟨a, List.mem_cons_self, k2 r hr⟩
        · obtain ⟨a', ha', hh⟩ := i2 r hr
          exact ⟨a', List.mem_cons_of_mem _ ha', hh⟩
    cases hrest : condense first second num openflow with
    | error e =>
      rw [hrest] at h
      split at h
      · cases hm : mergeAll a openflow second with
        | error e => rw [hm] at h; cases h
        | ok v => rw [hm] at h; cases h
      · cases h
    | ok rest =>
      rw [hrest] at h
      split at h
      · cases hm : mergeAll a openflow second with
        | error e => rw [hm] at h; cases h
        | ok here =>
          rw [hm] at h
          cases h
          refine key here rest ?_ hrest
          obtain ⟨l', hs, hp⟩ := mergeAll_sublist hm
          constructor
          · rw [gap_iff, hp, List.pairwise_map]
            exact (h2.sublist hs).imp fun hab => by omega
          · intro r hr
            have : r.priority ∈ here.map (·.priority) := List.mem_map.2 ⟨r, hr, rfl⟩
            rw [hp] at this
            obtain ⟨b, hb, e⟩ := List.mem_map.1 this
            have := h3 b (hs.subset hb)
            omega
      · cases h
        refine key [a] rest ?_ hrest
        exact ⟨List.pairwise_singleton _ _, fun r hr => by simp at hr; subst hr; omega⟩

/-- Distinct priorities within each table. -/
def Distinct (rules : List (Rule π)) : Prop := rules.Pairwise fun r s => r.table = s.table → r.priority ≠ s.priority

/-- The priorities of a scaled ruleset. -/
def ScaledFor (tables : List Nat) (rules : List (Rule π)) : Prop :=
  ∀ r ∈ rules, ∃ q, q < maxPriority ∧ r.priority = q * maxPriority ^ tablePower tables r.table

theorem table_gap {rules : List (Rule π)} {tables : List Nat} (hd : Distinct rules) (hs : ScaledFor tables rules) (t : Nat) :
    Gap (maxPriority ^ tablePower tables t) (tableRules rules t) ∧
    ∀ b ∈ tableRules rules t, b.priority + maxPriority ^ tablePower tables t ≤ maxPriority ^ tablePower tables t * maxPriority := by
  have hne : (tableRules rules t).Pairwise fun r s => r.priority ≠ s.priority := by
    unfold tableRules
    rw [(sortDesc_perm _).pairwise_iff (fun h => Ne.symm h)]
    refine (hd.sublist List.filter_sublist).imp_of_mem fun {a b} ha hb hab => ?_
    have ha := (List.mem_filter.1 ha).2
    have hb := (List.mem_filter.1 hb).2
    simp at ha hb
    exact hab (by rw [ha, hb])
  have hso : (tableRules rules t).Pairwise fun r s => s.priority ≤ r.priority := sortDesc_sorted _
  constructor
  · refine (hne.and hso).imp_of_mem fun {a b} ha hb hab => ?_
    obtain ⟨ha1, ha2⟩ := mem_tableRules.1 ha
    obtain ⟨hb1, hb2⟩ := mem_tableRules.1 hb
    obtain ⟨qa, -, ea⟩ := hs a ha1
    obtain ⟨qb, -, eb⟩ := hs b hb1
    rw [ha2] at ea
    rw [hb2] at eb
    rw [ea, eb] at hab ⊢
    have hlt : qb < qa := by
      rcases Nat.lt_or_ge qb qa with h | h
      · exact h
      · have := Nat.mul_le_mul_right (maxPriority ^ tablePower tables t) h
        exact absurd (Nat.le_antisymm this hab.2) hab.1
    calc qb * maxPriority ^ tablePower tables t + maxPriority ^ tablePower tables t
        = (qb + 1) * maxPriority ^ tablePower tables t := by rw [Nat.succ_mul]
      _ ≤ qa * maxPriority ^ tablePower tables t := Nat.mul_le_mul_right _ hlt
  · intro b hb
    obtain ⟨hb1, hb2⟩ := mem_tableRules.1 hb
    obtain ⟨q, hq, e⟩ := hs b hb1
    rw [hb2] at e
    rw [e]
    calc q * maxPriority ^ tablePower tables t + maxPriority ^ tablePower tables t
        = (q + 1) * maxPriority ^ tablePower tables t := by rw [Nat.succ_mul]
      _ ≤ maxPriority * maxPriority ^ tablePower tables t := Nat.mul_le_mul_right _ hq
      _ = _ := Nat.mul_comm _ _

theorem tablePower_mid {pre rem : List Nat} {num : Nat} (h : (pre ++ num :: rem).Pairwise (· < ·)) :
    tablePower (pre ++ num :: rem) num = rem.length := by
  have hnot : num ∉ pre := by
    intro hm
    have := (List.pairwise_append.1 h).2.2 num hm num List.mem_cons_self
    omega
  unfold tablePower
  rw [List.idxOf_append, if_neg hnot]
  simp

theorem loop_gap {R : List (Rule π)} {tables : List Nat} (hd : Distinct R) (hs : ScaledFor tables R) (hsort : tables.Pairwise (· < ·))
    (openflow : Bool) : ∀ (rem pre : List Nat) (l res : List (Rule π)), pre ++ rem = tables → Gap (maxPriority ^ rem.length) l →
    rem.foldlM (fun acc n => condense acc (tableRules R n) n openflow) l = .ok res → Gap 1 res
  | [], pre, l, res, _, hg, h => by cases h; simpa using hg
  | num :: rem, pre, l, res, he, hg, h => by
    rw [List.foldlM_cons] at h
    cases hc : condense l (tableRules R num) num openflow with
    | error e => rw [hc] at h; cases h
    | ok l' =>
      rw [hc] at h
      obtain ⟨t1, t2⟩ := table_gap hd hs num
      have hp : tablePower tables num = rem.length := by rw [← he]; exact tablePower_mid (he ▸ hsort)
      rw [hp] at t1 t2
      have := condense_gap hc (by rw [List.length_cons, Nat.pow_succ] at hg; exact hg) t1 maxPriority_pos t2
      exact loop_gap hd hs hsort openflow rem (pre ++ [num]) l' res (by simp [he]) this.1 h

end

theorem addDefaults_distinct : ∀ (tables : List Nat) (rs : List (Rule Nat)) (T : List Nat), Distinct rs → ScaledFor T rs →
    Distinct (addDefaults tables rs) ∧ ScaledFor T (addDefaults tables rs)
  | [], rs, T, h1, h2 => ⟨h1, h2⟩
  | t :: tables, rs, T, h1, h2 => by
    unfold addDefaults
    rw [List.foldl_cons]
    by_cases h : rs.any (fun r => r.priority == 0 && r.table == t) = true
    · rw [if_pos h]; exact addDefaults_distinct tables rs T h1 h2
    · rw [if_neg h]
      refine addDefaults_distinct tables _ T (List.pairwise_append.2 ⟨h1, List.pairwise_singleton _ _, fun a ha b hb => ?_⟩) ?_
      · simp at hb
        subst hb
        intro hab h0
        apply h
        rw [List.any_eq_true]
        exact ⟨a, ha, by simp only [defaultRule] at hab h0; simp [hab, h0]⟩
      · intro r hr
        rcases List.mem_append.1 hr with hr | hr
        · exact h2 r hr
        · simp at hr; subst hr; exact ⟨0, maxPriority_pos, by simp [defaultRule]⟩

theorem prepared_distinct {rules : List (Rule Nat)} (hd : Distinct rules) (hp : ∀ r ∈ rules, r.priority < maxPriority) :
    Distinct (prepared rules) ∧ ScaledFor (tablesOf rules) (prepared rules) := by
  unfold prepared
  have hf : ∀ x : Rule Nat × Nat, (if x.1.path.isEmpty then { x.1 with path := [x.2] } else x.1).priority = x.1.priority ∧
      (if x.1.path.isEmpty then { x.1 with path := [x.2] } else x.1).table = x.1.table := by
    intro x; split <;> exact ⟨rfl, rfl⟩
  apply addDefaults_distinct
  · unfold Distinct fillPaths
    rw [List.pairwise_map]
    simp only [hf]
    have : ((rules.map (scaled (tablesOf rules))).zipIdx.map Prod.fst).Pairwise fun r s => r.table = s.table → r.priority ≠ s.priority := by
      rw [List.zipIdx_map_fst, List.pairwise_map]
      refine hd.imp fun {a b} hab ht hpr => ?_
      simp only [scaled] at ht hpr
      rw [ht] at hpr
      exact hab ht (Nat.eq_of_mul_eq_mul_right (Nat.pow_pos maxPriority_pos) hpr)
    rwa [List.pairwise_map] at this
  · intro r hr
    unfold fillPaths at hr
    obtain ⟨x, hx, rfl⟩ := List.mem_map.1 hr
    rw [(hf x).1, (hf x).2]
    have hx1 : x.1 ∈ rules.map (scaled (tablesOf rules)) := by
      have := List.mem_zipIdx hx
      rw [this.2.2]; exact List.getElem_mem _
    obtain ⟨r0, hr0, e⟩ := List.mem_map.1 hx1
    exact ⟨r0.priority, hp r0 hr0, by rw [← e]; rfl⟩

end OFE
