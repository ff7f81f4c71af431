import Verif.Bdd.Lemmas

namespace OFE.DD
variable {α : Type}

theorem tbit_value (wc b : Nat) :
    (wc >>> (b * 2)) &&& 3 = (wc.testBit (2 * b)).toNat + 2 * (wc.testBit (2 * b + 1)).toNat := by
  have h3 : ∀ i, Nat.testBit 3 i = decide (i < 2) := fun i => by
    rw [show (3 : Nat) = 2 ^ 2 - 1 from rfl, Nat.testBit_two_pow_sub_one]
  apply Nat.eq_of_testBit_eq
  intro i
  rw [Nat.testBit_and, Nat.testBit_shiftRight, h3, Nat.mul_comm b 2]
  rcases i with _ | _ | i
  · cases wc.testBit (2 * b) <;> cases wc.testBit (2 * b + 1) <;> simp
  · cases wc.testBit (2 * b) <;> cases wc.testBit (2 * b + 1) <;> simp [Nat.testBit_succ]
  · have : ¬ (i + 1 + 1 < 2) := by omega
    simp only [this, decide_false, Bool.and_false]
    symm
    apply Nat.testBit_lt_two_pow
    calc _ < 2 ^ 2 := by cases wc.testBit (2 * b) <;> cases wc.testBit (2 * b + 1) <;> simp
      _ ≤ 2 ^ (i + 1 + 1) := Nat.pow_le_pow_right (by omega) (by omega)


/-- Loop invariant of `wc_to_BDD`. -/
theorem wcLoop_spec {n wc : Nat} {act : α} (hz : ∀ i, i < n → wc.testBit (2 * i) = true ∨ wc.testBit (2 * i + 1) = true)
    {b k : Nat} (hbk : b + k = n) {c : DD α} (hc : WF n (n - b) c) (hne : c ≠ bot)
    (hl1 : ∀ w, (toWcsAux (n - 1) c w).length = 1)
    (hev : ∀ p : Packet, c.lookup n p = some act ∨ c.lookup n p = none)
    (hcov : ∀ p : Packet, c.lookup n p = some act ↔ Covers b wc p) :
    ∃ t, wcLoop n wc b k c = some t ∧ WF n 0 t ∧ t ≠ bot ∧ (∀ w, (toWcsAux (n - 1) t w).length = 1) ∧
      (∀ p, t.lookup n p = some act ∨ t.lookup n p = none) ∧
      (∀ p, t.lookup n p = some act ↔ Covers n wc p) := by
  induction k generalizing b c with
  | zero =>
    have : b = n := by omega
    subst this
    exact ⟨c, rfl, hc.mono (by omega), hne, hl1, hev, hcov⟩
  | succ k ih =>
    have hbn : b < n := by omega
    have hnum : n - 1 - (n - 1 - b) = b := by omega
    have hcov' : ∀ p : Packet, Covers (b + 1) wc p ↔ Covers b wc p ∧ wc.testBit (2 * b + (p b).toNat) = true := by
      intro p
      constructor
      · intro h; exact ⟨fun i hi => h i (by omega), h b (by omega)⟩
      · rintro ⟨h1, h2⟩ i hi
        by_cases hib : i = b
        · subst hib; exact h2
        · exact h1 i (by omega)
    simp only [wcLoop, tbit_value]
    have hbit := hz b hbn
    cases h0 : wc.testBit (2 * b) <;> cases h1 : wc.testBit (2 * b + 1)
    · simp [h0, h1] at hbit
    · -- value 2: the bit must be one
      simp only [Bool.toNat_false, Bool.toNat_true]
      simp only [show ¬ (0 + 2 * 1 = 0) by omega, show ¬ (0 + 2 * 1 = 1) by omega, if_false,
        show 0 + 2 * 1 = 2 by omega, if_true]
      have hlk : ∀ p : Packet, (node (n - 1 - b) bot c).lookup n p = if p b then c.lookup n p else none := by
        intro p; simp only [lookup, eval, hnum]
      apply ih (by omega)
      · refine ⟨by omega, by omega, Ne.symm hne, trivial, ?_⟩
        rwa [show n - 1 - b + 1 = n - b by omega]
      · simp
      · intro w; simp [toWcsAux, hl1]
      · intro p; rw [hlk]; split
        · exact hev p
        · exact Or.inr rfl
      · intro p; rw [hlk, hcov' p]
        cases hp : p b
        · simp [h0]
        · simp [hcov, h1]
    · simp only [Bool.toNat_false, Bool.toNat_true]
      simp only [show ¬ (1 + 2 * 0 = 0) by omega, if_false, show 1 + 2 * 0 = 1 by omega, if_true]
      have hlk : ∀ p : Packet, (node (n - 1 - b) c bot).lookup n p = if p b then none else c.lookup n p := by
        intro p; simp only [lookup, eval, hnum]
      apply ih (by omega)
      · refine ⟨by omega, by omega, hne, ?_, trivial⟩
        rwa [show n - 1 - b + 1 = n - b by omega]
      · simp
      · intro w; simp [toWcsAux, hl1]
      · intro p; rw [hlk]; split
        · exact Or.inr rfl
        · exact hev p
      · intro p; rw [hlk, hcov' p]
        cases hp : p b
        · simp [hcov, h0]
        · simp [h1]
    · simp only [Bool.toNat_true]
      simp only [show ¬ (1 + 2 * 1 = 0) by omega, show ¬ (1 + 2 * 1 = 1) by omega, show ¬ (1 + 2 * 1 = 2) by omega,
        if_false]
      apply ih (by omega) (hc.mono (by omega)) hne hl1 hev
      intro p
      rw [hcov' p, hcov p]
      cases hp : p b <;> simp [h0, h1]

theorem wcToDD_spec {n wc : Nat} (hn : 0 < n) (act : α) (hw : WcValid n wc) :
    ∃ t, wcToDD n wc act = some t ∧ WF n 0 t ∧ t ≠ bot ∧ (∀ w, (toWcsAux (n - 1) t w).length = 1) ∧
      (∀ p, t.lookup n p = some act ∨ t.lookup n p = none) ∧
      (∀ p, t.lookup n p = some act ↔ Covers n wc p) := by
  have hne : wc ≠ 0 := by
    rintro rfl
    have := hw.noZ 0 hn
    simp at this
  unfold wcToDD
  rw [if_neg hne]
  apply wcLoop_spec hw.noZ (by omega) (c := term act) trivial (by simp) (by simp [toWcsAux])
  · intro p; left; rfl
  · intro p
    simp only [lookup, eval, true_iff]
    intro i hi
    omega

/-- A `z` tbit makes the conversion fail. -/
theorem wcLoop_none {n wc : Nat} {b k : Nat} {c : DD α}
    (h : ∃ i, b ≤ i ∧ i < b + k ∧ wc.testBit (2 * i) = false ∧ wc.testBit (2 * i + 1) = false) :
    wcLoop n wc b k c = none := by
  induction k generalizing b c with
  | zero => obtain ⟨i, h1, h2, _⟩ := h; omega
  | succ k ih =>
    obtain ⟨i, h1, h2, h3, h4⟩ := h
    simp only [wcLoop, tbit_value]
    by_cases hib : i = b
    · subst hib; simp [h3, h4]
    · have : ∃ i, b + 1 ≤ i ∧ i < b + 1 + k ∧ wc.testBit (2 * i) = false ∧ wc.testBit (2 * i + 1) = false :=
        ⟨i, by omega, by omega, h3, h4⟩
      split
      · rfl
      · split
        · exact ih this
        · split
          · exact ih this
          · exact ih this

/-! ### BDD_to_wcs -/

theorem covers_clear_one {n wc j : Nat} (hj : j < n) (p : Packet) :
    Covers n (andNot wc (2 <<< (j * 2))) p ↔ Covers n wc p ∧ p j = false := by
  have hbit : ∀ i, (2 <<< (j * 2)).testBit i = decide (i = 2 * j + 1) := by
    intro i
    rw [show 2 <<< (j * 2) = 2 ^ (2 * j + 1) by rw [Nat.shiftLeft_eq, pow_succ, Nat.mul_comm j 2, Nat.mul_comm]]
    rw [Nat.testBit_two_pow]
    exact decide_eq_decide.2 ⟨fun h => h.symm, fun h => h.symm⟩
  constructor
  · intro h
    refine ⟨fun i hi => ?_, ?_⟩
    · have := h i hi
      rw [testBit_andNot, Bool.and_eq_true] at this
      exact this.1
    · have := h j hj
      rw [testBit_andNot, hbit] at this
      cases hp : p j
      · rfl
      · simp [hp] at this
  · rintro ⟨h, hp⟩ i hi
    rw [testBit_andNot, h i hi, hbit]
    by_cases hij : i = j
    · subst hij; simp [hp]
    · have : (p i).toNat ≤ 1 := Bool.toNat_le _
      simp; omega

theorem covers_clear_zero {n wc j : Nat} (hj : j < n) (p : Packet) :
    Covers n (andNot wc (1 <<< (j * 2))) p ↔ Covers n wc p ∧ p j = true := by
  have hbit : ∀ i, (1 <<< (j * 2)).testBit i = decide (i = 2 * j) := by
    intro i
    rw [Nat.shiftLeft_eq, Nat.one_mul, Nat.mul_comm j 2, Nat.testBit_two_pow]
    exact decide_eq_decide.2 ⟨fun h => h.symm, fun h => h.symm⟩
  constructor
  · intro h
    refine ⟨fun i hi => ?_, ?_⟩
    · have := h i hi
      rw [testBit_andNot, Bool.and_eq_true] at this
      exact this.1
    · have := h j hj
      rw [testBit_andNot, hbit] at this
      cases hp : p j
      · simp [hp] at this
      · rfl
  · rintro ⟨h, hp⟩ i hi
    rw [testBit_andNot, h i hi, hbit]
    by_cases hij : i = j
    · subst hij; simp [hp]
    · have : (p i).toNat ≤ 1 := Bool.toNat_le _
      simp; omega

theorem andNot_lt {a b m : Nat} (h : a < 2 ^ m) : andNot a b < 2 ^ m := by
  apply Nat.lt_pow_two_of_testBit
  intro j hj
  rw [testBit_andNot, Nat.testBit_lt_two_pow (lt_of_lt_of_le h (Nat.pow_le_pow_right (by omega) hj))]
  rfl

/-- Positions below header bit `m` are unconstrained in `wc`. -/
def FreeBelow (m wc : Nat) : Prop := ∀ i, i < m → wc.testBit (2 * i) = true ∧ wc.testBit (2 * i + 1) = true

theorem testBit_two_shift (j i : Nat) : (2 <<< (j * 2)).testBit i = decide (i = 2 * j + 1) := by
  rw [show 2 <<< (j * 2) = 2 ^ (2 * j + 1) by rw [Nat.shiftLeft_eq, pow_succ, Nat.mul_comm j 2, Nat.mul_comm]]
  rw [Nat.testBit_two_pow]
  exact decide_eq_decide.2 ⟨fun h => h.symm, fun h => h.symm⟩

theorem testBit_one_shift (j i : Nat) : (1 <<< (j * 2)).testBit i = decide (i = 2 * j) := by
  rw [Nat.shiftLeft_eq, Nat.one_mul, Nat.mul_comm j 2, Nat.testBit_two_pow]
  exact decide_eq_decide.2 ⟨fun h => h.symm, fun h => h.symm⟩

theorem valid_clear {n wc j : Nat} {x : Nat}
    (hx : (∀ i, x.testBit i = decide (i = 2 * j + 1)) ∨ (∀ i, x.testBit i = decide (i = 2 * j))) (hw : WcValid n wc)
    (hf : FreeBelow (j + 1) wc) : WcValid n (andNot wc x) ∧ FreeBelow j (andNot wc x) := by
  refine ⟨⟨andNot_lt hw.lt, fun i hi => ?_⟩, fun i hi => ?_⟩
  · simp only [testBit_andNot]
    by_cases hij : i = j
    · subst hij
      have := hf i (by omega)
      rcases hx with hx | hx
      · left; simp [this, hx]
      · right; simp [this, hx]
    · rcases hx with hx | hx
      · rcases hw.noZ i hi with h | h
        · left; simp [h, hx]; omega
        · right; simp [h, hx]; omega
      · rcases hw.noZ i hi with h | h
        · left; simp [h, hx]; omega
        · right; simp [h, hx]; omega
  · have := hf i (by omega)
    simp only [testBit_andNot]
    rcases hx with hx | hx
    · simp [this, hx]; omega
    · simp [this, hx]; omega

theorem toWcsAux_spec {n k : Nat} {t : DD α} (ht : WF n k t) (wc : Nat) :
    (∀ x ∈ toWcsAux (n - 1) t wc, ∀ p, Covers n x.1 p → Covers n wc p ∧ t.lookup n p = some x.2) ∧
    (∀ p a, Covers n wc p → t.lookup n p = some a → ∃ w, (w, a) ∈ toWcsAux (n - 1) t wc ∧ Covers n w p) ∧
    (toWcsAux (n - 1) t wc).Pairwise (fun x y => ¬ ∃ p, Covers n x.1 p ∧ Covers n y.1 p) ∧
    (WcValid n wc → FreeBelow (n - k) wc → ∀ x ∈ toWcsAux (n - 1) t wc, WcValid n x.1) := by
  induction t generalizing k wc with
  | bot => simp [toWcsAux, lookup, eval]
  | term a =>
    refine ⟨?_, ?_, ?_, ?_⟩
    · simp only [toWcsAux, List.mem_singleton]
      rintro x rfl p h; exact ⟨h, rfl⟩
    · intro p b h1 h2
      simp only [lookup, eval, Option.some.injEq] at h2
      subst h2
      exact ⟨wc, by simp [toWcsAux], h1⟩
    · simp [toWcsAux]
    · intro h _; simpa [toWcsAux] using h
  | node num z o ihz iho =>
    obtain ⟨h1, h2, h3, h4, h5⟩ := ht
    have hj : n - 1 - num < n := by omega
    have hlk : ∀ p : Packet, (node num z o).lookup n p = if p (n - 1 - num) then o.lookup n p else z.lookup n p := by
      intro p; simp only [lookup, eval]
    obtain ⟨z1, z2, z3, z4⟩ := ihz h4 (andNot wc (2 <<< ((n - 1 - num) * 2)))
    obtain ⟨o1, o2, o3, o4⟩ := iho h5 (andNot wc (1 <<< ((n - 1 - num) * 2)))
    refine ⟨?_, ?_, ?_, ?_⟩
    · intro x hx p hp
      simp only [toWcsAux, List.mem_append] at hx
      rcases hx with hx | hx
      · obtain ⟨c1, c2⟩ := z1 x hx p hp
        obtain ⟨c3, c4⟩ := (covers_clear_one hj p).1 c1
        exact ⟨c3, by rw [hlk, c4]; exact c2⟩
      · obtain ⟨c1, c2⟩ := o1 x hx p hp
        obtain ⟨c3, c4⟩ := (covers_clear_zero hj p).1 c1
        exact ⟨c3, by rw [hlk, c4]; exact c2⟩
    · intro p a hc hl
      rw [hlk] at hl
      cases hp : p (n - 1 - num)
      · rw [hp] at hl
        obtain ⟨w, hw, hcw⟩ := z2 p a ((covers_clear_one hj p).2 ⟨hc, hp⟩) hl
        exact ⟨w, by simp only [toWcsAux, List.mem_append]; exact Or.inl hw, hcw⟩
      · rw [hp] at hl
        obtain ⟨w, hw, hcw⟩ := o2 p a ((covers_clear_zero hj p).2 ⟨hc, hp⟩) hl
        exact ⟨w, by simp only [toWcsAux, List.mem_append]; exact Or.inr hw, hcw⟩
    · simp only [toWcsAux]
      rw [List.pairwise_append]
      refine ⟨z3, o3, ?_⟩
      rintro x hx y hy ⟨p, hp1, hp2⟩
      have c1 := (covers_clear_one hj p).1 (z1 x hx p hp1).1
      have c2 := (covers_clear_zero hj p).1 (o1 y hy p hp2).1
      simp [c1.2] at c2
    · intro hv hf x hx
      have hf' : FreeBelow (n - 1 - num + 1) wc := fun i hi => hf i (by omega)
      simp only [toWcsAux, List.mem_append] at hx
      have e : n - (num + 1) = n - 1 - num := by omega
      rcases hx with hx | hx
      · have := valid_clear (Or.inl (testBit_two_shift _)) hv hf'
        exact z4 this.1 (by rw [e]; exact this.2) x hx
      · have := valid_clear (Or.inr (testBit_one_shift _)) hv hf'
        exact o4 this.1 (by rw [e]; exact this.2) x hx

theorem freeBelow_full (n : Nat) : FreeBelow n (wcFull n) := by
  intro i hi
  simp only [testBit_wcFull, decide_eq_true_eq]
  omega

end OFE.DD
