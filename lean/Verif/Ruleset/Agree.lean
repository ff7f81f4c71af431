import Verif.Ruleset.Single

/-!
# Lemmas: priorities of rules that match a common packet, and sums of scaled priorities
-/

namespace OFE

section
variable {π : Type}

/-- Rules that match a common packet are at least `K` apart in priority, the first having the higher. -/
def Apart (K : Nat) (l : List (Rule π)) : Prop :=
  l.Pairwise fun c d => (∃ p, c.mat.accepts p ∧ d.mat.accepts p) → d.priority + K ≤ c.priority

theorem table_apart {rules : List (Rule π)} {tables : List Nat} (hd : Separate rules) (hs : ScaledFor tables rules) (t : Nat) :
    Apart (maxPriority ^ tablePower tables t) (tableRules rules t) ∧
    ∀ b ∈ tableRules rules t, b.priority + maxPriority ^ tablePower tables t ≤ maxPriority ^ tablePower tables t * maxPriority := by
  have hne : (tableRules rules t).Pairwise fun r s => (∃ p, r.mat.accepts p ∧ s.mat.accepts p) → r.priority ≠ s.priority := by
    unfold tableRules
    rw [(sortDesc_perm _).pairwise_iff (fun h hov => Ne.symm (h (by obtain ⟨p, a, b⟩ := hov; exact ⟨p, b, a⟩)))]
    refine (hd.sublist List.filter_sublist).imp_of_mem fun {a b} ha hb hab hov he => ?_
    have ha := (List.mem_filter.1 ha).2
    have hb := (List.mem_filter.1 hb).2
    simp at ha hb
    exact hab (by rw [ha, hb]) he hov
  have hso : (tableRules rules t).Pairwise fun r s => s.priority ≤ r.priority := sortDesc_sorted _
  constructor
  · refine (hne.and hso).imp_of_mem fun {a b} ha hb hab hov => ?_
    obtain ⟨ha1, ha2⟩ := mem_tableRules.1 ha
    obtain ⟨hb1, hb2⟩ := mem_tableRules.1 hb
    obtain ⟨qa, -, ea⟩ := hs a ha1
    obtain ⟨qb, -, eb⟩ := hs b hb1
    have hab' := hab.1 hov
    have hab2 := hab.2
    rw [ha2] at ea
    rw [hb2] at eb
    rw [ea, eb] at hab' hab2 ⊢
    have hlt : qb < qa := by
      rcases Nat.lt_or_ge qb qa with h | h
      · exact h
      · have := Nat.mul_le_mul_right (maxPriority ^ tablePower tables t) h
        exact absurd (Nat.le_antisymm this hab2) hab'
    calc qb * maxPriority ^ tablePower tables t + maxPriority ^ tablePower tables t
        = (qb + 1) * maxPriority ^ tablePower tables t := by rw [Nat.succ_mul]
      _ ≤ qa * maxPriority ^ tablePower tables t := Nat.mul_le_mul_right _ hlt
  · intro b hb
    obtain ⟨hb1, hb2⟩ := mem_tableRules.1 hb
    obtain ⟨q, hq, e⟩ := hs b hb1
    rw [hb2] at e
    rw [e]
    calc q * maxPriority ^ tablePower tables t + maxPriority ^ tablePower tables t
        = (q + 1) * maxPriority ^ tablePower tables t := by rw [Nat.succ_mul]
      _ ≤ maxPriority * maxPriority ^ tablePower tables t := Nat.mul_le_mul_right _ hq
      _ = _ := Nat.mul_comm _ _

theorem apart_step {K M : Nat} {l second : List (Rule π)} {num : Nat} {openflow : Bool} (hM : 0 < M)
    (hl : ∀ a ∈ l, RuleOK a ∧ (a.inst.goto = some num → FlatActs a.inst.apply.iter))
    (hsec : ∀ b ∈ second, RuleOK b ∧ NoMeta b.inst.apply.iter)
    (h1 : Apart (K * M) l) (h2 : Apart K second) (h3 : ∀ b ∈ second, b.priority + K ≤ K * M) :
    Apart K (l.flatMap fun a => if a.inst.goto = some num then second.filterMap (merged? a openflow) else [a]) := by
  have hKM : K ≤ K * M := Nat.le_mul_of_pos_right K hM
  have hfrom : ∀ a ∈ l, ∀ x ∈ (if a.inst.goto = some num then second.filterMap (merged? a openflow) else [a]),
      (∀ p, x.mat.accepts p → a.mat.accepts p) ∧ a.priority ≤ x.priority ∧ x.priority + K ≤ a.priority + K * M := by
    intro a ha x hx
    split at hx
    · next hg =>
      obtain ⟨b, hb, hm⟩ := List.mem_filterMap.1 hx
      have hf := merged_facts (hl a ha).1 (hsec b hb).1 ((hl a ha).2 hg) (hsec b hb).2 hm
      have := h3 b hb
      exact ⟨fun p hp => ((hf.2.2.2.2.1 p).1 hp).1, by omega, by omega⟩
    · simp at hx; subst hx; exact ⟨fun _ h => h, Nat.le_refl _, by omega⟩
  unfold Apart
  rw [List.pairwise_flatMap]
  constructor
  · intro a ha
    split
    · next hg =>
      rw [List.pairwise_filterMap]
      refine h2.imp_of_mem fun {b b'} hb hb' hab r hr r' hr' hov => ?_
      have f1 := merged_facts (hl a ha).1 (hsec b hb).1 ((hl a ha).2 hg) (hsec b hb).2 hr
      have f2 := merged_facts (hl a ha).1 (hsec b' hb').1 ((hl a ha).2 hg) (hsec b' hb').2 hr'
      obtain ⟨p, p1, p2⟩ := hov
      have := hab ⟨a.inst.forward p, ((f1.2.2.2.2.1 p).1 p1).2, ((f2.2.2.2.2.1 p).1 p2).2⟩
      omega
    · exact List.pairwise_singleton _ _
  · refine h1.imp_of_mem fun {a a'} ha ha' hab x hx y hy hov => ?_
    obtain ⟨p, p1, p2⟩ := hov
    obtain ⟨x1, x2, x3⟩ := hfrom a ha x hx
    obtain ⟨y1, y2, y3⟩ := hfrom a' ha' y hy
    have := hab ⟨p, x1 p p1, y1 p p2⟩
    omega

theorem loop_apart {R : List (Rule π)} (h : LoopOK R) {tables : List Nat} (hd : Separate R) (hs : ScaledFor tables R)
    (hsort : tables.Pairwise (· < ·)) (openflow : Bool) : ∀ (rem pre : List Nat) (l res : List (Rule π)), pre ++ rem = tables →
    Apart (maxPriority ^ rem.length) l → (∀ c ∈ l, ∃ rs, Rep c rs) →
    rem.foldlM (fun acc n => condense acc (tableRules R n) n openflow) l = .ok res → Apart 1 res
  | [], pre, l, res, _, hg, _, h => by cases h; simpa using hg
  | num :: rem, pre, l, res, he, hg, hrep, hres => by
    have hsec : ∀ b ∈ tableRules R num, RuleOK b ∧ NoMeta b.inst.apply.iter := fun b hb =>
      ⟨h.ok b (mem_tableRules.1 hb).1, h.noMeta b (mem_tableRules.1 hb).1⟩
    have hfst : ∀ a ∈ l, RuleOK a ∧ (a.inst.goto = some num → FlatActs a.inst.apply.iter) := by
      intro a ha
      obtain ⟨rs, hr⟩ := hrep a ha
      exact ⟨hr.ok, fun hgo => hr.flat (by rw [hgo]; simp)⟩
    rw [List.foldlM_cons, condense_eq hfst fun b hb => (hsec b hb).1] at hres
    obtain ⟨t1, t2⟩ := table_apart hd hs num
    have hp : tablePower tables num = rem.length := by rw [← he]; exact tablePower_mid (he ▸ hsort)
    rw [hp] at t1 t2
    refine loop_apart h hd hs hsort openflow rem (pre ++ [num]) _ res (by simp [he]) ?_ ?_ hres
    · exact apart_step maxPriority_pos hfst hsec (by rw [List.length_cons, Nat.pow_succ] at hg; exact hg) t1 t2
    · intro c hc
      obtain ⟨a, ha, hca⟩ := List.mem_flatMap.1 hc
      obtain ⟨rs, hr⟩ := hrep a ha
      split at hca
      · next hgo =>
        obtain ⟨b, hb, hm⟩ := List.mem_filterMap.1 hca
        exact ⟨_, rep_merge h hr (by rw [hgo]; simp) (mem_tableRules.1 hb).1 hm⟩
      · simp at hca; subst hca; exact ⟨rs, hr⟩

end

theorem addDefaults_separate : ∀ (tables : List Nat) (rs : List (Rule Nat)) (T : List Nat), Separate rs → ScaledFor T rs →
    Separate (addDefaults tables rs) ∧ ScaledFor T (addDefaults tables rs)
  | [], rs, T, h1, h2 => ⟨h1, h2⟩
  | t :: tables, rs, T, h1, h2 => by
    unfold addDefaults
    rw [List.foldl_cons]
    by_cases h : rs.any (fun r => r.priority == 0 && r.table == t) = true
    · rw [if_pos h]; exact addDefaults_separate tables rs T h1 h2
    · rw [if_neg h]
      refine addDefaults_separate tables _ T (List.pairwise_append.2 ⟨h1, List.pairwise_singleton _ _, fun a ha b hb => ?_⟩) ?_
      · simp at hb
        subst hb
        intro hab h0
        exfalso
        apply h
        rw [List.any_eq_true]
        exact ⟨a, ha, by simp only [defaultRule] at hab h0; simp [hab, h0]⟩
      · intro r hr
        rcases List.mem_append.1 hr with hr | hr
        · exact h2 r hr
        · simp at hr; subst hr; exact ⟨0, maxPriority_pos, by simp [defaultRule]⟩

theorem prepared_separate {rules : List (Rule Nat)} (hd : Separate rules) (hp : ∀ r ∈ rules, r.priority < maxPriority) :
    Separate (prepared rules) ∧ ScaledFor (tablesOf rules) (prepared rules) := by
  unfold prepared
  have hf : ∀ x : Rule Nat × Nat, (if x.1.path.isEmpty then { x.1 with path := [x.2] } else x.1).priority = x.1.priority ∧
      (if x.1.path.isEmpty then { x.1 with path := [x.2] } else x.1).table = x.1.table ∧
      (if x.1.path.isEmpty then { x.1 with path := [x.2] } else x.1).mat = x.1.mat := by
    intro x; split <;> exact ⟨rfl, rfl, rfl⟩
  apply addDefaults_separate
  · unfold Separate fillPaths
    rw [List.pairwise_map]
    simp only [hf]
    have : ((rules.map (scaled (tablesOf rules))).zipIdx.map Prod.fst).Pairwise fun r s => r.table = s.table → r.priority = s.priority →
        ¬ ∃ p, r.mat.accepts p ∧ s.mat.accepts p := by
      rw [List.zipIdx_map_fst, List.pairwise_map]
      refine hd.imp fun {a b} hab ht hpr => ?_
      simp only [scaled] at ht hpr
      rw [ht] at hpr
      exact hab ht (Nat.eq_of_mul_eq_mul_right (Nat.pow_pos maxPriority_pos) hpr)
    rwa [List.pairwise_map] at this
  · intro r hr
    unfold fillPaths at hr
    obtain ⟨x, hx, rfl⟩ := List.mem_map.1 hr
    rw [(hf x).1, (hf x).2.1]
    have hx1 : x.1 ∈ rules.map (scaled (tablesOf rules)) := by
      have := List.mem_zipIdx hx
      rw [this.2.2]; exact List.getElem_mem _
    obtain ⟨r0, hr0, e⟩ := List.mem_map.1 hx1
    exact ⟨r0.priority, hp r0 hr0, by rw [← e]; rfl⟩

/-! ### Sums of scaled priorities -/

/-- Digits `f t` for the tables, most significant first. -/
def radixVal (f : Nat → Nat) : List Nat → Nat
  | [] => 0
  | t :: T => f t * maxPriority ^ T.length + radixVal f T

theorem radixVal_lt {f : Nat → Nat} (hf : ∀ t, f t < maxPriority) (T : List Nat) : radixVal f T < maxPriority ^ T.length := by
  induction T with
  | nil => simp [radixVal]
  | cons t T ih =>
    unfold radixVal
    rw [List.length_cons, Nat.pow_succ]
    have h1 := Nat.mul_le_mul_right (maxPriority ^ T.length) (hf t)
    rw [Nat.succ_mul, Nat.mul_comm maxPriority] at h1
    omega

theorem radix_lex {f g : Nat → Nat} (hf : ∀ t, f t < maxPriority) (hg : ∀ t, g t < maxPriority) :
    ∀ T : List Nat, T.Pairwise (· < ·) →
    (radixVal g T < radixVal f T ↔ ∃ t ∈ T, g t < f t ∧ ∀ u ∈ T, u < t → f u = g u)
  | [], _ => by simp [radixVal]
  | t :: T, hT => by
    obtain ⟨h1, h2⟩ := List.pairwise_cons.1 hT
    have ih := radix_lex hf hg T h2
    have lf := radixVal_lt hf T
    have lg := radixVal_lt hg T
    unfold radixVal
    rcases Nat.lt_trichotomy (f t) (g t) with hlt | heq | hgt
    · constructor
      · intro h
        have := Nat.mul_le_mul_right (maxPriority ^ T.length) hlt
        rw [Nat.succ_mul] at this
        omega
      · rintro ⟨u, hu, hgu, hall⟩
        rcases List.mem_cons.1 hu with rfl | hu
        · omega
        · have := hall t List.mem_cons_self (h1 u hu); omega
    · rw [heq, Nat.add_lt_add_iff_left, ih]
      constructor
      · rintro ⟨u, hu, hgu, hall⟩
        refine ⟨u, List.mem_cons_of_mem _ hu, hgu, fun v hv hvu => ?_⟩
        rcases List.mem_cons.1 hv with rfl | hv
        · exact heq
        · exact hall v hv hvu
      · rintro ⟨u, hu, hgu, hall⟩
        rcases List.mem_cons.1 hu with rfl | hu
        · omega
        · exact ⟨u, hu, hgu, fun v hv hvu => hall v (List.mem_cons_of_mem _ hv) hvu⟩
    · constructor
      · intro _
        refine ⟨t, List.mem_cons_self, hgt, fun u hu hut => ?_⟩
        rcases List.mem_cons.1 hu with rfl | hu
        · omega
        · have := h1 u hu; omega
      · intro _
        have := Nat.mul_le_mul_right (maxPriority ^ T.length) hgt
        rw [Nat.succ_mul] at this
        omega

end OFE

namespace OFE

variable {π : Type}

/-- The priority a path has in table `t`: that of its rule there, or 0. -/
def prioAt (P : List (Rule π)) (t : Nat) : Nat :=
  match P.find? fun r => r.table == t with
  | some r => r.priority
  | none => 0

theorem radixVal_congr {f g : Nat → Nat} : ∀ {T : List Nat}, (∀ t ∈ T, f t = g t) → radixVal f T = radixVal g T
  | [], _ => rfl
  | t :: T, h => by
    unfold radixVal
    rw [h t List.mem_cons_self, radixVal_congr fun u hu => h u (List.mem_cons_of_mem _ hu)]

theorem radixVal_zero : ∀ {T : List Nat}, radixVal (fun _ => 0) T = 0
  | [] => rfl
  | _ :: T => by unfold radixVal; rw [radixVal_zero]; simp

theorem sum_radix : ∀ (rem pre : List Nat) (P : List (Rule π)), (pre ++ rem).Pairwise (· < ·) →
    P.Pairwise (fun r s => r.table < s.table) → (∀ r ∈ P, r.table ∈ rem) →
    (P.map fun r => (scaled (pre ++ rem) r).priority).sum = radixVal (prioAt P) rem
  | [], pre, P, _, _, h => by
    cases P with
    | nil => rfl
    | cons r P => exact absurd (h r List.mem_cons_self) (by simp)
  | t :: rem, pre, P, hs, hp, h => by
    have hgt : ∀ u ∈ rem, t < u := (List.pairwise_cons.1 (List.pairwise_append.1 hs).2.1).1
    have happ : pre ++ t :: rem = (pre ++ [t]) ++ rem := by simp
    by_cases hall : ∀ r ∈ P, r.table ∈ rem
    · have ih := sum_radix rem (pre ++ [t]) P (happ ▸ hs) hp hall
      rw [happ, ih]
      rw [radixVal]
      have : prioAt P t = 0 := by
        unfold prioAt
        rw [List.find?_eq_none.2]
        intro r hr
        have := hgt _ (hall r hr)
        simp; omega
      rw [this]; simp
    · cases P with
      | nil => exact absurd (by simp) hall
      | cons r P =>
        obtain ⟨p1, p2⟩ := List.pairwise_cons.1 hp
        have hin : ∀ s ∈ P, s.table ∈ rem := by
          intro s hsP
          rcases List.mem_cons.1 (h s (List.mem_cons_of_mem _ hsP)) with e | hm
          · have hlt := p1 s hsP
            rcases List.mem_cons.1 (h r List.mem_cons_self) with e' | hm
            · omega
            · have := hgt _ hm; omega
          · exact hm
        have hrt : r.table = t := by
          rcases List.mem_cons.1 (h r List.mem_cons_self) with e' | hm
          · exact e'
          · exact absurd (fun s hs' => by
              rcases List.mem_cons.1 hs' with rfl | hs'
              · exact hm
              · exact hin s hs') hall
        have ih := sum_radix rem (pre ++ [t]) P (happ ▸ hs) p2 hin
        rw [List.map_cons, List.sum_cons]
        rw [← happ] at ih
        rw [ih]
        have h1 : (scaled (pre ++ t :: rem) r).priority = r.priority * maxPriority ^ rem.length := by
          unfold scaled; rw [hrt, tablePower_mid hs]
        have h2 : prioAt (r :: P) t = r.priority := by unfold prioAt; rw [List.find?_cons]; simp [hrt]
        have h3 : radixVal (prioAt (r :: P)) rem = radixVal (prioAt P) rem := by
          apply radixVal_congr
          intro u hu
          have := hgt u hu
          unfold prioAt
          rw [List.find?_cons]
          have : (r.table == u) = false := by simp; omega
          rw [this]
        rw [radixVal, h1, h2, h3]

theorem prioAt_lt {rules P : List (Rule π)} (hp : ∀ r ∈ rules, r.priority < maxPriority) (hP : ∀ r ∈ P, r ∈ rules) (t : Nat) :
    prioAt P t < maxPriority := by
  unfold prioAt
  split
  · next r h => exact hp r (hP r (List.mem_of_find?_eq_some h))
  · exact maxPriority_pos

theorem prioAt_zero {T : List Nat} {P : List (Rule π)} (hP : ∀ r ∈ P, r.table ∈ T) {t : Nat} (ht : t ∉ T) : prioAt P t = 0 := by
  unfold prioAt
  rw [List.find?_eq_none.2]
  intro r hr
  have := hP r hr
  simp; rintro rfl; exact ht this

end OFE
