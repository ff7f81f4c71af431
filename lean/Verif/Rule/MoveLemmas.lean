import Verif.Rule.TunnelSteps

/-!
# Lemmas: moving the match on a tunnel field to other depths
-/

namespace OFE

/-- Id of the copy of a tunnel field at depth 0, 1 or 2. -/
def inAt (f d : Nat) : Nat := if d = 0 then f else if d = 1 then in1 f else in2 f

theorem inAt_ids : ∀ f ∈ tunFields, ∀ d, d ≤ 2 → innerId f d = some (inAt f d) ∧ shown (inAt f d) = (f, d) ∧ inAt f d < 56 ∧
    width (inAt f d) = width f ∧ depthOf f (inAt f d) = some d := by
  intro f hf d hd
  have h := tun_ids f hf
  have : d = 0 ∨ d = 1 ∨ d = 2 := by omega
  rcases this with rfl | rfl | rfl
  · exact ⟨h.1, h.2.2.2.2.1, by have := h.2.2.2.2.2.2.2.1; simp [inAt]; omega, rfl, h.2.2.2.2.2.2.2.2.2.2.2.2.2.2.2.1⟩
  · exact ⟨h.2.1, h.2.2.2.2.2.1, h.2.2.2.2.2.2.2.2.2.1, h.2.2.2.2.2.2.2.2.2.2.2.2.2.1, h.2.2.2.2.2.2.2.2.2.2.2.2.2.2.2.2.1⟩
  · exact ⟨h.2.2.1, h.2.2.2.2.2.2.1, h.2.2.2.2.2.2.2.2.2.2.2.1, h.2.2.2.2.2.2.2.2.2.2.2.2.2.2.1, h.2.2.2.2.2.2.2.2.2.2.2.2.2.2.2.2.2⟩

theorem inAt_inj {f d d' : Nat} (hf : f ∈ tunFields) (hd : d ≤ 2) (hd' : d' ≤ 2) (h : inAt f d = inAt f d') : d = d' := by
  have h1 := (inAt_ids f hf d hd).2.1
  have h2 := (inAt_ids f hf d' hd').2.1
  rw [h, h2] at h1
  exact (Prod.mk.inj h1).2.symm

theorem innerId_deep {f d : Nat} (hd : 2 < d) : innerId f d = none := by
  unfold innerId headerDepth
  rw [if_neg (by omega), if_neg (by omega)]

/-! ### Inwards -/

theorem demoteOne_absent {m : Match} {f n d : Nat} (hf : f ∈ tunFields) (hd : d ≤ 2) (h : m.items.lookup (inAt f d) = none) :
    demoteOne f n m d = .ok m := by
  unfold demoteOne
  rw [(inAt_ids f hf d hd).1]
  simp [h]

theorem demoteOne_deep {m : Match} {f n d : Nat} (hf : f ∈ tunFields) (hd : d ≤ 2) (h : (m.items.lookup (inAt f d)).isSome = true) (hn : 2 < d + n) :
    demoteOne f n m d = .error (if d = 0 then .nameError else .overflow) := by
  unfold demoteOne
  rw [(inAt_ids f hf d hd).1, innerId_deep hn]
  obtain ⟨x, hx⟩ := Option.isSome_iff_exists.1 h
  simp [hx]

theorem demoteOne_move {m : Match} {f n d : Nat} (hf : f ∈ tunFields) (hn : 1 ≤ n) (hd : d + n ≤ 2)
    (h : m.items.lookup (inAt f (d + n)) = none) :
    ∃ m', demoteOne f n m d = .ok m' ∧ (m.Inv → m'.Inv) ∧ ((∀ x ∈ m.items, x.1 < 56) → ∀ x ∈ m'.items, x.1 < 56) ∧
      ∀ g, m'.items.lookup g = if g = inAt f d then none
        else if g = inAt f (d + n) then (m.items.lookup (inAt f d)).map (moved (inAt f (d + n))) else m.items.lookup g := by
  cases hl : m.items.lookup (inAt f d) with
  | none =>
    refine ⟨m, demoteOne_absent hf (by omega) hl, id, id, fun g => ?_⟩
    by_cases g0 : g = inAt f d
    · rw [if_pos g0, g0, hl]
    · rw [if_neg g0]
      by_cases g1 : g = inAt f (d + n)
      · rw [if_pos g1, g1, h]; rfl
      · rw [if_neg g1]
  | some x =>
    have hne : inAt f (d + n) ≠ inAt f d := fun e => by have := inAt_inj hf hd (by omega) e; omega
    obtain ⟨m', e, hi, hlk, hk⟩ := rename_ok (m := m) hne (by rw [hl]; rfl)
    refine ⟨m', ?_, hi, hk 56 (inAt_ids f hf _ hd).2.2.1, fun g => by rw [hlk, hl]⟩
    unfold demoteOne
    rw [(inAt_ids f hf d (by omega)).1, (inAt_ids f hf _ hd).1]
    simp [hl, e]

/-- The copies of a field are moved inwards by `n`. -/
structure MovedIn (f n : Nat) (m m' : Match) : Prop where
  inv : m.Inv → m'.Inv
  keys : (∀ x ∈ m.items, x.1 < 56) → ∀ x ∈ m'.items, x.1 < 56
  same : ∀ g, (∀ d, d ≤ 2 → g ≠ inAt f d) → m'.items.lookup g = m.items.lookup g
  at_ : ∀ d, d ≤ 2 → m'.items.lookup (inAt f d) = if n ≤ d then (m.items.lookup (inAt f (d - n))).map (moved (inAt f d)) else none

theorem three {P : Nat → Prop} (h0 : P 0) (h1 : P 1) (h2 : P 2) : ∀ d, d ≤ 2 → P d := by
  intro d hd
  have : d = 0 ∨ d = 1 ∨ d = 2 := by omega
  rcases this with rfl | rfl | rfl <;> assumption

/-- All copies that are present fit. -/
theorem demote_fits {m : Match} {f n : Nat} (hf : f ∈ tunFields) (hn : 1 ≤ n)
    (h : ∀ d, d ≤ 2 → 2 < d + n → m.items.lookup (inAt f d) = none) : ∃ m', demote m f n = .ok m' ∧ MovedIn f n m m' := by
  have hne : ∀ d d', d ≤ 2 → d' ≤ 2 → d ≠ d' → inAt f d ≠ inAt f d' := fun d d' hd hd' hx e => hx (inAt_inj hf hd hd' e)
  have n01 := hne 0 1 (by omega) (by omega) (by omega)
  have n02 := hne 0 2 (by omega) (by omega) (by omega)
  have n12 := hne 1 2 (by omega) (by omega) (by omega)
  have hz : n ≠ 0 := by omega
  unfold demote
  rw [if_neg hz]
  have e2 := demoteOne_absent (n := n) hf (Nat.le_refl 2) (h 2 (by omega) (by omega))
  simp only [List.foldlM_cons, List.foldlM_nil, e2, bind, Except.bind, pure, Except.pure]
  by_cases h1 : n = 1
  · subst h1
    obtain ⟨m1, e1, i1, k1, l1⟩ := demoteOne_move (d := 1) hf (Nat.le_refl 1) (by omega) (h 2 (by omega) (by omega))
    obtain ⟨m2, e0, i0, k0, l0⟩ := demoteOne_move (m := m1) (d := 0) hf (Nat.le_refl 1) (by omega) (by rw [l1, if_pos rfl])
    refine ⟨m2, by rw [e1]; simp only [e0], i0 ∘ i1, fun x => k0 (k1 x), fun g hg => ?_, three ?_ ?_ ?_⟩
    · have g0 := hg 0 (by omega); have g1 := hg 1 (by omega); have g2 := hg 2 (by omega)
      rw [l0, if_neg g0, if_neg g1, l1, if_neg g1, if_neg g2]
    · rw [l0, if_pos rfl]; rfl
    · rw [l0, if_neg (Ne.symm n01), if_pos rfl, l1, if_neg n01, if_neg n02]; rfl
    · rw [l0, if_neg (Ne.symm n02), if_neg (Ne.symm n12), l1, if_neg (Ne.symm n12), if_pos rfl]; rfl
  · have e1 := demoteOne_absent (n := n) hf (show 1 ≤ 2 by omega) (h 1 (by omega) (by omega))
    simp only [e1]
    by_cases h2 : n = 2
    · subst h2
      obtain ⟨m2, e0, i0, k0, l0⟩ := demoteOne_move (m := m) (d := 0) hf (by omega) (Nat.le_refl 2) (h 2 (by omega) (by omega))
      refine ⟨m2, by simp only [e0], i0, k0, fun g hg => ?_, three ?_ ?_ ?_⟩
      · rw [l0, if_neg (hg 0 (by omega)), if_neg (hg 2 (by omega))]
      · rw [l0, if_pos rfl]; rfl
      · rw [l0, if_neg (Ne.symm n01), if_neg n12, h 1 (by omega) (by omega)]; rfl
      · rw [l0, if_neg (Ne.symm n02), if_pos rfl]; rfl
    · have e0 := demoteOne_absent (n := n) hf (show 0 ≤ 2 by omega) (h 0 (by omega) (by omega))
      refine ⟨m, by simp only [e0], id, id, fun _ _ => rfl, fun d hd => ?_⟩
      rw [if_neg (by omega), h d hd (by omega)]

/-- Some copy does not fit. -/
theorem demote_refuses {m : Match} {f n : Nat} (hf : f ∈ tunFields) {d : Nat} (hd : d ≤ 2) (hn : 2 < d + n)
    (h : (m.items.lookup (inAt f d)).isSome = true) : demote m f n = .error .overflow ∨ demote m f n = .error .nameError := by
  have hz : n ≠ 0 := by omega
  unfold demote
  rw [if_neg hz]
  simp only [List.foldlM_cons, List.foldlM_nil, bind, Except.bind, pure, Except.pure]
  by_cases h2 : (m.items.lookup (inAt f 2)).isSome = true
  · rw [demoteOne_deep hf (Nat.le_refl 2) h2 (by omega)]; left; rfl
  · have h2' := Option.not_isSome_iff_eq_none.1 h2
    rw [demoteOne_absent hf (Nat.le_refl 2) h2']
    simp only
    have hd2 : d ≠ 2 := fun e => h2 (e ▸ h)
    by_cases h1 : (m.items.lookup (inAt f 1)).isSome = true
    · by_cases hn2 : 2 ≤ n
      · rw [demoteOne_deep hf (by omega) h1 (by omega)]; left; rfl
      · exfalso; omega
    · rw [demoteOne_absent hf (by omega) (Option.not_isSome_iff_eq_none.1 h1)]
      simp only
      have hd1 : d ≠ 1 := fun e => h1 (e ▸ h)
      have : d = 0 := by omega
      subst this
      rw [demoteOne_deep hf (by omega) h (by omega)]; right; rfl

/-! ### Outwards -/

/-- The copies of a field are moved outwards by `n`. -/
structure MovedOut (f n : Nat) (m m' : Match) : Prop where
  inv : m'.Inv
  keys : ∀ x ∈ m'.items, x.1 < 56
  same : ∀ g, (∀ d, d ≤ 2 → g ≠ inAt f d) → m'.items.lookup g = m.items.lookup g
  at_ : ∀ d, d ≤ 2 → m'.items.lookup (inAt f d) = if d + n ≤ 2 then (m.items.lookup (inAt f (d + n))).map (moved (inAt f d)) else none

theorem promoteOne_shallow {m : Match} {f n d : Nat} (hf : f ∈ tunFields) (hd : d ≤ 2) (hn : 1 ≤ n) (h : d < n) :
    promoteOne f n m (inAt f d) = .error .overflow := by
  unfold promoteOne
  rw [(inAt_ids f hf d hd).2.2.2.2]
  simp only [if_pos h]
  split <;> rfl

theorem promoteOne_move {m : Match} {f n d : Nat} (hf : f ∈ tunFields) (hd : d ≤ 2) (hn : 1 ≤ n) (h : n ≤ d)
    (hp : (m.items.lookup (inAt f d)).isSome = true) :
    ∃ m', promoteOne f n m (inAt f d) = .ok m' ∧ (m.Inv → m'.Inv) ∧ ((∀ x ∈ m.items, x.1 < 56) → ∀ x ∈ m'.items, x.1 < 56) ∧
      ∀ g, m'.items.lookup g = if g = inAt f d then none
        else if g = inAt f (d - n) then (m.items.lookup (inAt f d)).map (moved (inAt f (d - n))) else m.items.lookup g := by
  have hne : inAt f (d - n) ≠ inAt f d := fun e => by have := inAt_inj hf (by omega) hd e; omega
  obtain ⟨m', e, hi, hlk, hk⟩ := rename_ok (m := m) hne hp
  refine ⟨m', ?_, hi, hk 56 (inAt_ids f hf _ (by omega)).2.2.1, hlk⟩
  unfold promoteOne
  rw [(inAt_ids f hf d hd).2.2.2.2]
  simp only
  rw [if_neg (by omega), if_neg (by omega), (inAt_ids f hf _ (by omega)).1]
  exact e

/-- The loop stops with an overflow if one of the copies would be moved out of the packet. -/
theorem promote_loop_refuses {f n : Nat} (hf : f ∈ tunFields) (hn : 1 ≤ n) : ∀ (L : List Nat) (m : Match), L.Nodup →
    (∀ g ∈ L, (m.items.lookup g).isSome = true ∧ ∃ d, d ≤ 2 ∧ g = inAt f d) → (∃ d, d ≤ 2 ∧ d < n ∧ inAt f d ∈ L) →
    L.foldlM (promoteOne f n) m = .error .overflow
  | [], _, _, _, ⟨_, _, _, h⟩ => by cases h
  | g :: L, m, hnd, hL, ⟨e, he, hen, hm⟩ => by
    obtain ⟨hp, d, hd, rfl⟩ := hL _ List.mem_cons_self
    obtain ⟨hni, hnd'⟩ := List.nodup_cons.1 hnd
    rw [List.foldlM_cons]
    by_cases hdn : d < n
    · rw [promoteOne_shallow hf hd hn hdn]; rfl
    · obtain ⟨m', e', -, -, hl⟩ := promoteOne_move hf hd hn (by omega) hp
      rw [e']
      refine promote_loop_refuses hf hn L m' hnd' (fun g hg => ?_) ⟨e, he, hen, ?_⟩
      · obtain ⟨hg1, hg2⟩ := hL g (List.mem_cons_of_mem _ hg)
        refine ⟨?_, hg2⟩
        rw [hl, if_neg (fun x : g = inAt f d => hni (x ▸ hg))]
        split
        · simpa using hp
        · exact hg1
      · rcases List.mem_cons.1 hm with h | h
        · have := inAt_inj hf he hd h; omega
        · exact h

/-- The copies of `f` among the keys of a match. -/
def copiesOf (m : Match) (f : Nat) : List Nat := (m.items.map (·.1)).filter fun g => (depthOf f g).isSome

theorem copies_of {m : Match} {f : Nat} (hf : f ∈ tunFields) (hi : m.Inv) (hk : ∀ x ∈ m.items, x.1 < 56) :
    (copiesOf m f).Nodup ∧ (∀ g ∈ copiesOf m f, (m.items.lookup g).isSome = true ∧ ∃ d, d ≤ 2 ∧ g = inAt f d) ∧
    ∀ d, d ≤ 2 → (m.items.lookup (inAt f d)).isSome = true → inAt f d ∈ copiesOf m f := by
  refine ⟨hi.nodup.filter _, fun g hg => ?_, fun d hd h => ?_⟩
  · obtain ⟨hg1, hg2⟩ := List.mem_filter.1 hg
    obtain ⟨x, hx, rfl⟩ := List.mem_map.1 hg1
    refine ⟨by rw [lookup_eq_some_of_mem hi.nodup (show (x.1, x.2) ∈ m.items from hx)]; rfl, ?_⟩
    rcases depthOf_some f hf x.1 (hk x hx) hg2 with h | h | h
    · exact ⟨0, by omega, h⟩
    · exact ⟨1, by omega, h⟩
    · exact ⟨2, by omega, h⟩
  · obtain ⟨x, hx⟩ := Option.isSome_iff_exists.1 h
    refine List.mem_filter.2 ⟨List.mem_map.2 ⟨_, mem_of_lookup_eq_some hx, rfl⟩, by rw [(inAt_ids f hf d hd).2.2.2.2]; rfl⟩

theorem promote_refuses {m : Match} {f n : Nat} (hf : f ∈ tunFields) (hi : m.Inv) (hk : ∀ x ∈ m.items, x.1 < 56) {d : Nat} (hd : d ≤ 2) (hn : d < n)
    (h : (m.items.lookup (inAt f d)).isSome = true) : promote m f n = .error .overflow := by
  obtain ⟨h1, h2, h3⟩ := copies_of hf hi hk
  unfold promote
  rw [if_neg (by omega)]
  exact promote_loop_refuses hf (by omega) _ m h1 h2 ⟨d, hd, hn, h3 d hd h⟩

/-- No copy is moved out of the packet, and if both inner copies are matched then the outer one was added first. -/
theorem promote_fits {m : Match} {f n : Nat} (hf : f ∈ tunFields) (hi : m.Inv) (hk : ∀ x ∈ m.items, x.1 < 56) (hn : 1 ≤ n)
    (h : ∀ d, d ≤ 2 → d < n → m.items.lookup (inAt f d) = none)
    (hord : n = 1 → copiesOf m f ≠ [inAt f 2, inAt f 1]) : ∃ m', promote m f n = .ok m' ∧ MovedOut f n m m' := by
  obtain ⟨hnd, hL, hall⟩ := copies_of hf hi hk
  have hne : ∀ d d', d ≤ 2 → d' ≤ 2 → d ≠ d' → inAt f d ≠ inAt f d' := fun d d' hd hd' hx e => hx (inAt_inj hf hd hd' e)
  have n01 := hne 0 1 (by omega) (by omega) (by omega)
  have n02 := hne 0 2 (by omega) (by omega) (by omega)
  have n12 := hne 1 2 (by omega) (by omega) (by omega)
  have hge : ∀ g ∈ copiesOf m f, ∃ d, d ≤ 2 ∧ n ≤ d ∧ g = inAt f d := by
    intro g hg
    obtain ⟨hs, d, hd, rfl⟩ := hL g hg
    refine ⟨d, hd, ?_, rfl⟩
    apply Classical.byContradiction
    intro hlt
    rw [h d hd (by omega)] at hs; cases hs
  have habs : ∀ d, d ≤ 2 → inAt f d ∉ copiesOf m f → m.items.lookup (inAt f d) = none := by
    intro d hd hm
    cases hl : m.items.lookup (inAt f d) with
    | none => rfl
    | some x => exact absurd (hall d hd (by rw [hl]; rfl)) hm
  have hprom : promote m f n = (copiesOf m f).foldlM (promoteOne f n) m := by
    unfold promote; rw [if_neg (by omega)]; rfl
  have h0 := h 0 (by omega) (by omega)
  rw [hprom]
  generalize copiesOf m f = L at *
  match L, hnd, hge, hL, habs, hord with
  | [], _, _, _, habs, _ =>
    refine ⟨m, rfl, hi, hk, fun _ _ => rfl, fun d hd => ?_⟩
    rw [habs d hd (by simp)]
    split
    · rw [habs _ (by omega) (by simp)]; rfl
    · rfl
  | [g], _, hge, hL, habs, _ =>
    obtain ⟨d, hd, hnd', rfl⟩ := hge _ List.mem_cons_self
    obtain ⟨m', e, hi', hk', hl⟩ := promoteOne_move hf hd hn hnd' (hL _ List.mem_cons_self).1
    refine ⟨m', by simp [e, bind, Except.bind, pure, Except.pure], hi' hi, hk' hk, fun g hg => ?_, fun d' hd' => ?_⟩
    · rw [hl, if_neg (hg d hd), if_neg (hg (d - n) (by omega))]
    · have hab : ∀ k, k ≤ 2 → k ≠ d → m.items.lookup (inAt f k) = none :=
        fun k hk2 hkd => habs k hk2 (by simpa using hne k d hk2 hd hkd)
      rw [hl]
      by_cases c1 : d' = d
      · subst c1
        rw [if_pos rfl]
        split
        · rw [hab _ (by omega) (by omega)]; rfl
        · rfl
      · rw [if_neg (hne _ _ hd' hd c1)]
        by_cases c2 : d' = d - n
        · subst c2
          rw [if_pos rfl, if_pos (by omega), show d - n + n = d by omega]
        · rw [if_neg (hne _ _ hd' (by omega) c2), hab d' hd' c1]
          split
          · rw [hab _ (by omega) (by omega)]; rfl
          · rfl
  | a :: b :: L', hnd, hge, hL, habs, hord =>
    obtain ⟨d, hd, hdn, rfl⟩ := hge a (by simp)
    obtain ⟨d', hd', hdn', rfl⟩ := hge b (by simp)
    simp only [List.nodup_cons, List.mem_cons, not_or] at hnd
    have hdd : d ≠ d' := fun e => hnd.1.1 (by rw [e])
    have hn1 : n = 1 := by omega
    subst hn1
    have hLnil : L' = [] := by
      rw [List.eq_nil_iff_forall_not_mem]
      intro c hc
      obtain ⟨d3, h3, h3', rfl⟩ := hge c (by simp [hc])
      have c1 : d ≠ d3 := fun e => hnd.1.2 (e ▸ hc)
      have c2 : d' ≠ d3 := fun e => hnd.2.1 (e ▸ hc)
      omega
    subst hLnil
    have : d = 1 ∧ d' = 2 := by
      have : d = 1 ∨ d = 2 := by omega
      rcases this with e | e
      · exact ⟨e, by omega⟩
      · have : d' = 1 := by omega
        subst e this
        exact absurd rfl (hord rfl)
    obtain ⟨rfl, rfl⟩ := this
    obtain ⟨m1, e1, i1, k1, l1⟩ := promoteOne_move hf (show 1 ≤ 2 by omega) (Nat.le_refl 1) (Nat.le_refl 1) (hL _ List.mem_cons_self).1
    obtain ⟨m2, e2, i2, k2, l2⟩ := promoteOne_move (m := m1) hf (Nat.le_refl 2) (Nat.le_refl 1) (by omega)
      (by rw [l1, if_neg (Ne.symm n12), if_neg (Ne.symm n02)]; exact (hL (inAt f 2) (by simp)).1)
    refine ⟨m2, by simp [e1, e2, bind, Except.bind, pure, Except.pure], i2 (i1 hi), k2 (k1 hk), fun g hg => ?_, three ?_ ?_ ?_⟩
    · have g0 := hg 0 (by omega); have g1 := hg 1 (by omega); have g2 := hg 2 (by omega)
      rw [l2, if_neg g2, if_neg g1, l1, if_neg g1, if_neg g0]
    · rw [l2, if_neg n02, if_neg n01, l1, if_neg n01, if_pos rfl]; rfl
    · rw [l2, if_neg n12, if_pos rfl, l1, if_neg (Ne.symm n12), if_neg (Ne.symm n02)]; rfl
    · rw [l2, if_pos rfl]; rfl

/-! ### On packets -/

/-- The packet without the outermost `n` values of field `f`. -/
def dropHdr (f n : Nat) (p : Pkt) : Pkt := { p with fld := fun g d => if g = f then p.fld g (d + n) else p.fld g d }

theorem req_lookup {m : Match} {g i : Nat} {b : Bool} (h : req m.items g i = some b) : ∃ x, m.items.lookup g = some x ∧ reqItem x.1 x.2 i = some b := by
  unfold req at h
  cases hl : m.items.lookup g with
  | none => rw [hl] at h; cases h
  | some x => rw [hl] at h; exact ⟨x, rfl, h⟩

theorem inAt_cases {f g : Nat} (hf : f ∈ tunFields) (hg : g < 56) : (∃ d, d ≤ 2 ∧ g = inAt f d) ∨ (∀ d, d ≤ 2 → g ≠ inAt f d) ∧ (shown g).1 ≠ f := by
  by_cases h : (shown g).1 = f
  · left
    rcases shown_cases f hf g hg h with e | e | e
    · exact ⟨0, by omega, e⟩
    · exact ⟨1, by omega, e⟩
    · exact ⟨2, by omega, e⟩
  · right
    refine ⟨fun d hd e => h ?_, h⟩
    rw [e, (inAt_ids f hf d hd).2.1]

theorem movedIn_accepts {m m' : Match} {f n : Nat} (hf : f ∈ tunFields) (hi : m.Inv) (hm : MovedIn f n m m')
    (h : ∀ d, d ≤ 2 → 2 < d + n → m.items.lookup (inAt f d) = none) (p : Pkt) : m'.accepts p ↔ m.accepts (dropHdr f n p) := by
  rw [← agrees_iff hi, ← agrees_iff (hm.inv hi)]
  constructor
  · intro ha g i b hib hr
    rcases inAt_cases hf (field_lt hib) with ⟨d, hd, rfl⟩ | ⟨hg, hsh⟩
    · obtain ⟨-, hs, -, hw, -⟩ := inAt_ids f hf d hd
      by_cases hdn : d + n ≤ 2
      · obtain ⟨-, hs', hlt, hw', -⟩ := inAt_ids f hf (d + n) hdn
        have hl := hm.at_ (d + n) hdn
        rw [if_pos (by omega), show d + n - n = d by omega] at hl
        have := ha (inAt f (d + n)) i b (by rw [hw', ← hw]; exact hib) (by rw [req_moved hlt (by rw [hw', ← hw]; exact hib) hl]; exact hr)
        rw [hs'] at this
        rw [hs]; simpa [dropHdr] using this
      · rw [req_none (h d hd (by omega))] at hr; cases hr
    · have := ha g i b hib (by rw [req_same (hm.same g hg)]; exact hr)
      simp only [dropHdr, if_neg hsh]; exact this
  · intro ha g i b hib hr
    rcases inAt_cases hf (field_lt hib) with ⟨d, hd, rfl⟩ | ⟨hg, hsh⟩
    · obtain ⟨-, hs, hlt, hw, -⟩ := inAt_ids f hf d hd
      have hl := hm.at_ d hd
      by_cases hdn : n ≤ d
      · rw [if_pos hdn] at hl
        obtain ⟨-, hs', -, hw', -⟩ := inAt_ids f hf (d - n) (by omega)
        rw [req_moved hlt hib hl] at hr
        have := ha _ i b (by rw [hw', ← hw]; exact hib) hr
        rw [hs'] at this
        rw [hs]
        simpa [dropHdr, show d - n + n = d by omega] using this
      · rw [if_neg hdn] at hl
        rw [req_none hl] at hr; cases hr
    · rw [req_same (hm.same g hg)] at hr
      have := ha g i b hib hr
      simp only [dropHdr, if_neg hsh] at this; exact this

theorem movedOut_accepts {m m' : Match} {f n : Nat} (hf : f ∈ tunFields) (hi : m.Inv) (hm : MovedOut f n m m')
    (h : ∀ d, d ≤ 2 → d < n → m.items.lookup (inAt f d) = none) (p : Pkt) : m'.accepts (dropHdr f n p) ↔ m.accepts p := by
  rw [← agrees_iff hi, ← agrees_iff hm.inv]
  constructor
  · intro ha g i b hib hr
    rcases inAt_cases hf (field_lt hib) with ⟨d, hd, rfl⟩ | ⟨hg, hsh⟩
    · obtain ⟨-, hs, -, hw, -⟩ := inAt_ids f hf d hd
      by_cases hdn : n ≤ d
      · obtain ⟨-, hs', hlt, hw', -⟩ := inAt_ids f hf (d - n) (by omega)
        have hl := hm.at_ (d - n) (by omega)
        rw [if_pos (by omega), show d - n + n = d by omega] at hl
        have := ha (inAt f (d - n)) i b (by rw [hw', ← hw]; exact hib) (by rw [req_moved hlt (by rw [hw', ← hw]; exact hib) hl]; exact hr)
        rw [hs'] at this
        rw [hs]; simpa [dropHdr, show d - n + n = d by omega] using this
      · rw [req_none (h d hd (by omega))] at hr; cases hr
    · have := ha g i b hib (by rw [req_same (hm.same g hg)]; exact hr)
      simp only [dropHdr, if_neg hsh] at this; exact this
  · intro ha g i b hib hr
    rcases inAt_cases hf (field_lt hib) with ⟨d, hd, rfl⟩ | ⟨hg, hsh⟩
    · obtain ⟨-, hs, hlt, hw, -⟩ := inAt_ids f hf d hd
      have hl := hm.at_ d hd
      by_cases hdn : d + n ≤ 2
      · rw [if_pos hdn] at hl
        obtain ⟨-, hs', -, hw', -⟩ := inAt_ids f hf (d + n) hdn
        rw [req_moved hlt hib hl] at hr
        have := ha _ i b (by rw [hw', ← hw]; exact hib) hr
        rw [hs'] at this
        rw [hs]
        simpa [dropHdr] using this
      · rw [if_neg hdn] at hl
        rw [req_none hl] at hr; cases hr
    · rw [req_same (hm.same g hg)] at hr
      have := ha g i b hib hr
      simp only [dropHdr, if_neg hsh]; exact this

end OFE
