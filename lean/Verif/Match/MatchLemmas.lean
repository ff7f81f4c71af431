import Verif.Match.RevLemmas

/-!
# Lemmas: the `Match` class
-/

namespace OFE

/-- Invariant of every `Match` object: distinct keys, `required_mask` is the set of keys, the cache is right. -/
structure Match.Inv (m : Match) : Prop where
  nodup : (m.items.map (·.1)).Nodup
  req : ∀ f, m.required.testBit f = decide (f ∈ m.items.map (·.1))
  cache : ∀ w, m.cache = some w → toWildcard m.items = .ok w

theorem testBit_one_shiftLeft (f g : Nat) : (1 <<< f).testBit g = decide (g = f) := by
  rw [Nat.shiftLeft_eq, Nat.one_mul, Nat.testBit_two_pow]
  simp [eq_comm]

theorem inv_empty : Match.empty.Inv := ⟨by simp [Match.empty], by simp [Match.empty], by simp [Match.empty]⟩

theorem inv_append {m : Match} (h : m.Inv) (f v : Nat) (mask : Option Nat) : (m.append f v mask).Inv := by
  refine ⟨nodup_dictSet _ _ h.nodup, fun g => ?_, by simp [Match.append]⟩
  simp only [Match.append, Nat.testBit_or, h.req, testBit_one_shiftLeft, mem_keys_dictSet]
  by_cases e : g = f <;> simp [e]

theorem inv_del {m m' : Match} (h : m.Inv) {f : Nat} (hd : m.del f = .ok m') : m'.Inv := by
  unfold Match.del at hd
  split at hd
  · cases hd
  · cases hd
    refine ⟨nodup_dictDel _ h.nodup, fun g => ?_, by simp⟩
    simp only [testBit_andNot, h.req, testBit_one_shiftLeft, mem_keys_dictDel]
    by_cases e : g = f <;> simp [e]

theorem inv_getWildcard {m m' : Match} {w : Nat} (h : m.Inv) (hg : m.getWildcard = .ok (w, m')) :
    m'.Inv ∧ m'.items = m.items ∧ toWildcard m.items = .ok w := by
  unfold Match.getWildcard at hg
  split at hg
  · next w' hc => cases hg; exact ⟨h, rfl, h.cache _ hc⟩
  · split at hg
    · cases hg
    · next w' hw =>
      cases hg
      exact ⟨⟨h.nodup, h.req, fun w' hw' => by cases hw'; exact hw⟩, rfl, hw⟩

theorem getWildcard_eq {m : Match} (h : m.Inv) : m.getWildcard.map (·.1) = toWildcard m.items := by
  unfold Match.getWildcard
  split
  · next w hc => rw [h.cache w hc]; rfl
  · split
    · next e he => rw [he]; rfl
    · next w hw => rw [hw]; rfl

/-- Normal form of an entry of known field `f`: the value within the width and zero outside the mask, a mask that is
neither empty nor full. -/
def NormItem (x : Nat × Nat × Option Nat) : Prop :=
  x.1 < 56 ∧ x.2.1 < 2 ^ width x.1 ∧
  ∀ m, x.2.2 = some m → m ≠ 0 ∧ m < 2 ^ width x.1 - 1 ∧ x.2.1 &&& m = x.2.1

theorem normValue_of_norm {x : Nat × Nat × Option Nat} (h : NormItem x) : normValue x.1 x.2.1 x.2.2 = x.2 := by
  obtain ⟨f, v, mask⟩ := x
  obtain ⟨h1, h2, h3⟩ := h
  unfold normValue
  simp only at *
  rw [fieldBits_eq h1]
  cases mask with
  | none => rfl
  | some m =>
    obtain ⟨m0, m1, m2⟩ := h3 m rfl
    have hw := width_pos f h1
    simp only
    rw [if_pos ⟨by omega, m0⟩, Nat.and_two_pow_sub_one_eq_mod, Nat.mod_eq_of_lt (by omega), m2, if_neg (by omega)]

/-- Arguments to `append` that lead to a normal form. -/
def ProperArgs (f v : Nat) (mask : Option Nat) : Prop :=
  f < 56 ∧ (mask = none → v < 2 ^ width f) ∧ ∀ m, mask = some m → m % 2 ^ width f ≠ 0

theorem norm_normValue {f v : Nat} {mask : Option Nat} (h : ProperArgs f v mask) : NormItem (f, normValue f v mask) := by
  obtain ⟨h1, h2, h3⟩ := h
  unfold normValue NormItem
  rw [fieldBits_eq h1]
  have hw := width_pos f h1
  cases mask with
  | none => exact ⟨h1, h2 rfl, fun m hm => by cases hm⟩
  | some m =>
    have hm := h3 m rfl
    have m0 : m ≠ 0 := fun e => hm (by rw [e, Nat.zero_mod])
    simp only
    rw [if_pos ⟨by omega, m0⟩, Nat.and_two_pow_sub_one_eq_mod]
    have hlt : m % 2 ^ width f < 2 ^ width f := Nat.mod_lt _ (Nat.two_pow_pos _)
    refine ⟨h1, Nat.lt_of_le_of_lt Nat.and_le_right hlt, fun m' hm' => ?_⟩
    split at hm'
    · cases hm'
    · next hne =>
      cases hm'
      exact ⟨hm, by omega, by rw [Nat.and_assoc, Nat.and_self]⟩

theorem norm_entryOf {wc f : Nat} (hf : f < 56) {x : Nat × Nat × Option Nat} (hx : x ∈ entryOf wc f) : NormItem x := by
  have hk := entryOf_key hx
  obtain ⟨ra, rb⟩ : (∀ i, _) ∧ (∀ i, _) := ⟨fun i => (rmorton_slice wc (fieldPos f) (width f) i).1,
    fun i => (rmorton_slice wc (fieldPos f) (width f) i).2⟩
  unfold entryOf at hx
  generalize rmorton ((wc >>> (fieldPos f * 2)) &&& (1 <<< (width f * 2) - 1)) = ab at ra rb hx
  simp only at hx
  have hlt : ab.1 ^^^ ab.2 < 2 ^ width f := by
    apply Nat.lt_pow_two_of_testBit
    intro i hi
    rw [Nat.testBit_xor, ra, rb]
    have : ¬ i < width f := by omega
    simp [this]
  have hvlt : ab.2 &&& (ab.1 ^^^ ab.2) < 2 ^ width f := Nat.lt_of_le_of_lt Nat.and_le_right hlt
  split at hx
  · next hne =>
    split at hx
    · rw [List.mem_singleton] at hx; subst hx
      exact ⟨hf, hvlt, fun m hm => by cases hm⟩
    · next hnf =>
      rw [List.mem_singleton] at hx; subst hx
      refine ⟨hf, hvlt, fun m hm => ?_⟩
      cases hm
      rw [Nat.shiftLeft_eq, Nat.one_mul] at hnf
      refine ⟨hne, ?_, by simp only [Nat.and_assoc, Nat.and_self]⟩
      show ab.1 ^^^ ab.2 < 2 ^ width f - 1
      omega
  · cases hx

theorem foldl_append_items {l : MItems} (hn : ∀ x ∈ l, NormItem x) (m : Match)
    (hnd : ((m.items ++ l).map (·.1)).Nodup) :
    (l.foldl (fun m x => m.append x.1 x.2.1 x.2.2) m).items = m.items ++ l := by
  induction l generalizing m with
  | nil => simp
  | cons x l ih =>
    have hx := normValue_of_norm (hn x (by simp))
    have hnew : x.1 ∉ m.items.map (·.1) := by
      intro h
      rw [List.map_append, List.nodup_append] at hnd
      exact hnd.2.2 _ h _ (List.mem_map.2 ⟨x, by simp, rfl⟩) rfl
    have hi : (m.append x.1 x.2.1 x.2.2).items = m.items ++ [x] := by
      unfold Match.append
      simp only [hx]
      rw [dictSet_new _ hnew]
    rw [List.foldl_cons, ih (fun y hy => hn y (List.mem_cons_of_mem _ hy)) _ (by rw [hi]; simpa using hnd), hi]
    simp

theorem inv_foldl_append {l : MItems} {m : Match} (h : m.Inv) : (l.foldl (fun m x => m.append x.1 x.2.1 x.2.2) m).Inv := by
  induction l generalizing m with
  | nil => exact h
  | cons x l ih => exact ih (inv_append h _ _ _)

theorem wildcardToMatch_eq {wc : Nat} {fs : MItems} (h : wildcardToFields wc = .ok fs) :
    wildcardToMatch wc = .ok ⟨(fs.foldl (fun m x => m.append x.1 x.2.1 x.2.2) Match.empty).items,
      (fs.foldl (fun m x => m.append x.1 x.2.1 x.2.2) Match.empty).required, some wc⟩ := by
  unfold wildcardToMatch
  rw [h]; rfl

theorem wildcardToMatch_gen {wc : Nat} {fs : MItems} (he : wildcardToFields wc = .ok fs) (hn : ∀ x ∈ fs, NormItem x)
    (hnd : (fs.map (·.1)).Nodup) (hw : toWildcard fs = .ok wc) :
    ∃ m, wildcardToMatch wc = .ok m ∧ m.Inv ∧ m.items = fs ∧ m.cache = some wc ∧ (∀ x ∈ m.items, NormItem x) ∧
      toWildcard m.items = .ok wc := by
  have hi := foldl_append_items hn Match.empty (by simpa only [Match.empty, List.nil_append] using hnd)
  have e0 : Match.empty.items = [] := rfl
  rw [e0, List.nil_append] at hi
  have hI := inv_foldl_append (l := fs) inv_empty
  refine ⟨_, wildcardToMatch_eq he, ⟨hI.nodup, hI.req, fun w hw' => ?_⟩, hi, rfl, ?_, ?_⟩
  · cases hw'; simp only [hi]; exact hw
  · simp only [hi]; exact hn
  · simp only [hi]; exact hw

theorem norm_fieldsOf {wc : Nat} : ∀ x ∈ fieldsOf wc, NormItem x :=
  fun _ hx => norm_entryOf (mem_fieldsOf.1 hx).1 (mem_fieldsOf.1 hx).2

theorem wildcardToMatch_ok {wc : Nat} (hv : WcValid totBits wc) (hp : PadFull wc) :
    ∃ m, wildcardToMatch wc = .ok m ∧ m.Inv ∧ m.items = fieldsOf wc ∧ m.cache = some wc ∧ (∀ x ∈ m.items, NormItem x) ∧
      toWildcard m.items = .ok wc :=
  wildcardToMatch_gen (wildcardToFields_eq hp) norm_fieldsOf (fieldsOf_nodup wc) (toWildcard_fieldsOf hv hp)

theorem wildcardToMatch_zero : wildcardToMatch 0 = .error .keyError := by
  have : wildcardToFields 0 = .error .keyError := by
    unfold wildcardToFields toFieldsLoop
    have h0 : bitScan0 0 0 (bytesNeeded * 16 - 0) = 0 := by
      rw [bytesNeeded_eq']; unfold totBits bitScan0; simp
    have h1 : 0 < bytesNeeded * 16 := by rw [bytesNeeded_eq']; simp [totBits]
    simp only [h0, h1, if_true, bit2field_pad 0 (by omega)]
  unfold wildcardToMatch
  rw [this]; rfl

/-- Two normal entries of the same field are equal as soon as they allow the same values. -/
theorem norm_ext {x y : Nat × Nat × Option Nat} (hx : NormItem x) (hy : NormItem y) (hf : x.1 = y.1)
    (h : ∀ i, i < width x.1 → ∀ c, allows x (fieldPos x.1 + i) c = allows y (fieldPos x.1 + i) c) : x = y := by
  obtain ⟨f, v, m⟩ := x
  obtain ⟨g, v', m'⟩ := y
  simp only at hf
  subst hf
  obtain ⟨f1, v1, m1⟩ := hx
  obtain ⟨_, v1', m1'⟩ := hy
  simp only at *
  have key : ∀ i, i < width f → cares (f, v, m) i = cares (f, v', m') i ∧
      (cares (f, v, m) i = true → v.testBit i = v'.testBit i) := by
    intro i hi
    have ht := h i hi true
    have hfl := h i hi false
    unfold allows at ht hfl
    have a1 : fieldPos f ≤ fieldPos f + i := by omega
    have a2 : fieldPos f + i < fieldPos f + width f := by omega
    simp only [a1, a2, decide_true, Bool.and_self, Bool.not_true, Bool.false_or, Nat.add_sub_cancel_left] at ht hfl
    revert ht hfl
    cases cares (f, v, m) i <;> cases cares (f, v', m') i <;> cases v.testBit i <;> cases v'.testBit i <;> simp
  have bits_out : ∀ {u : Nat}, u < 2 ^ width f → ∀ i, ¬ i < width f → u.testBit i = false := fun hu i hi =>
    Nat.testBit_lt_two_pow (Nat.lt_of_lt_of_le hu (Nat.pow_le_pow_right (by omega) (by omega)))
  have hfull : ∀ k, k < 2 ^ width f - 1 → ¬ ∀ i, i < width f → k.testBit i = true := by
    intro k hk hall
    have : k = 2 ^ width f - 1 := by
      apply Nat.eq_of_testBit_eq
      intro i
      rw [Nat.testBit_two_pow_sub_one]
      by_cases hi : i < width f
      · simp [hall i hi, hi]
      · rw [bits_out (by omega) i hi]; simp [hi]
    omega
  have hm : m = m' := by
    cases m with
    | none =>
      cases m' with
      | none => rfl
      | some k' =>
        exfalso
        apply hfull k' (m1' k' rfl).2.1
        intro i hi
        have := (key i hi).1
        simpa [cares] using this.symm
    | some k =>
      cases m' with
      | none =>
        exfalso
        apply hfull k (m1 k rfl).2.1
        intro i hi
        have := (key i hi).1
        simpa [cares] using this
      | some k' =>
        congr 1
        apply Nat.eq_of_testBit_eq
        intro i
        have b1 := (m1 k rfl).2.1
        have b2 := (m1' k' rfl).2.1
        by_cases hi : i < width f
        · have := (key i hi).1
          simpa [cares] using this
        · rw [bits_out (by omega) i hi, bits_out (by omega) i hi]
  subst hm
  have hv : v = v' := by
    apply Nat.eq_of_testBit_eq
    intro i
    by_cases hi : i < width f
    · by_cases hc : cares (f, v, m) i = true
      · exact (key i hi).2 hc
      · cases m with
        | none => simp [cares] at hc
        | some k =>
          have hk : k.testBit i = false := by simpa [cares] using hc
          have e1 := congrArg (·.testBit i) (m1 k rfl).2.2
          have e2 := congrArg (·.testBit i) (m1' k rfl).2.2
          simp only [Nat.testBit_and, hk, Bool.and_false] at e1 e2
          rw [← e1, ← e2]
    · rw [bits_out v1 i hi, bits_out v1' i hi]
  rw [hv]

end OFE
