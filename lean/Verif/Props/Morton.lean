import Verif.Morton.Lemmas

/-!
# Property C18: bit interleaving
-/

namespace OFE

/-- C18: `morton_number(a, b)` puts bit `i` of `a` at position `2i` and bit `i` of `b` at position `2i+1`, for integers of
any size. -/
theorem C18_morton_number (a b i : Nat) :
    (morton a b).testBit (2 * i) = a.testBit i ∧ (morton a b).testBit (2 * i + 1) = b.testBit i := by
  rw [testBit_morton, testBit_morton]
  have e1 : 2 * i % 2 = 0 := by omega
  have e2 : ¬ (2 * i + 1) % 2 = 0 := by omega
  have e3 : 2 * i / 2 = i := by omega
  have e4 : (2 * i + 1) / 2 = i := by omega
  rw [if_pos e1, if_neg e2, e3, e4]
  exact ⟨rfl, rfl⟩

/-- three bytes deep -/
example : morton 0x0F00F0 0xFF0001 = 0xaaff00005502 := by decide +kernel

/-- C18: `RMorton` undoes `morton_number`. -/
theorem C18_rmorton_morton (a b : Nat) : rmorton (morton a b) = (a, b) := by
  apply Prod.ext
  · apply Nat.eq_of_testBit_eq
    intro i
    rw [(testBit_rmorton _ _).1, (C18_morton_number a b i).1]
  · apply Nat.eq_of_testBit_eq
    intro i
    rw [(testBit_rmorton _ _).2, (C18_morton_number a b i).2]

example : rmorton 0xaaff00005502 = (0x0F00F0, 0xFF0001) := by decide +kernel

/-- C18: `morton_number` undoes `RMorton`, so interleaving is a bijection on pairs. -/
theorem C18_morton_rmorton (x : Nat) : morton (rmorton x).1 (rmorton x).2 = x := by
  apply Nat.eq_of_testBit_eq
  intro i
  rw [testBit_morton, (testBit_rmorton _ _).1, (testBit_rmorton _ _).2]
  rcases Nat.mod_two_eq_zero_or_one i with e | e
  · rw [if_pos e]; congr 1; omega
  · rw [if_neg (by omega)]; congr 1; omega

example : morton (rmorton 0xaaff00005502).1 (rmorton 0xaaff00005502).2 = 0xaaff00005502 := by decide +kernel

/-- C18: the three C implementations (PDEP 32, PDEP 64, lookup table) agree with the python one on all non-negative
integers. -/
theorem C18_c_variants (a b : Nat) :
    mortonPdep32 a b = morton a b ∧ mortonPdep64 a b = morton a b ∧ mortonLutC a b = morton a b := by
  refine ⟨?_, ?_, ?_⟩
  · have h := mortonC_eq (by decide) (isInterleave_pdep 16) a b
    rw [show oddMask 16 = 0x55555555 by decide +kernel] at h
    exact h
  · have h := mortonC_eq (by decide) (isInterleave_pdep 32) a b
    rw [show oddMask 32 = 0x5555555555555555 by decide +kernel] at h
    exact h
  · exact mortonC_eq (by decide) isInterleave_lut a b

example : mortonPdep32 0x0F00F0 0xFF0001 = 0xaaff00005502 ∧ mortonPdep64 0x0F00F0 0xFF0001 = 0xaaff00005502 ∧
    mortonLutC 0x0F00F0 0xFF0001 = 0xaaff00005502 := by decide +kernel

end OFE
