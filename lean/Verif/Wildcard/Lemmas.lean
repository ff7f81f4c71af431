import Verif.Wildcard.Model
import Verif.Wildcard.Spec

namespace OFE

theorem testBit_one' (i : Nat) : Nat.testBit 1 i = decide (i = 0) := by
  rcases i with _ | i
  · simp
  · simp [Nat.testBit_succ]

theorem testBit_andNot (a b i : Nat) : (andNot a b).testBit i = (a.testBit i && !b.testBit i) := by
  simp only [andNot, Nat.testBit_xor, Nat.testBit_and]
  cases a.testBit i <;> cases b.testBit i <;> rfl

theorem testBit_oddMask (n i : Nat) : (oddMask n).testBit i = (decide (i < 2 * n) && decide (i % 2 = 0)) := by
  induction n generalizing i with
  | zero => simp [oddMask]
  | succ n ih =>
    simp only [oddMask, Nat.testBit_or, Nat.testBit_shiftLeft, ih, testBit_one']
    rcases i with _ | _ | i
    · simp
    · simp
    · simp
      grind

/-- A z position in the bitwise and, as detected by the code. -/
theorem zcheck_iff (n ret : Nat) :
    andNot (andNot (oddMask n) ret) (ret >>> 1) ≠ 0 ↔
      ∃ i, i < n ∧ ret.testBit (2 * i) = false ∧ ret.testBit (2 * i + 1) = false := by
  constructor
  · intro h
    obtain ⟨j, hj⟩ := Nat.exists_testBit_of_ne_zero h
    simp only [testBit_andNot, testBit_oddMask, Nat.testBit_shiftRight, Bool.and_eq_true,
      decide_eq_true_eq, Bool.not_eq_true'] at hj
    refine ⟨j / 2, by omega, ?_, ?_⟩
    · have : 2 * (j / 2) = j := by omega
      rw [this]; exact hj.1.2
    · have : 2 * (j / 2) + 1 = 1 + j := by omega
      rw [this]; exact hj.2
  · rintro ⟨i, hi, h0, h1⟩ hz
    have : (andNot (andNot (oddMask n) ret) (ret >>> 1)).testBit (2 * i) = true := by
      simp only [testBit_andNot, testBit_oddMask, Nat.testBit_shiftRight, Bool.and_eq_true,
        decide_eq_true_eq, Bool.not_eq_true', h0, Nat.add_comm 1 (2 * i), h1, and_true]
      constructor <;> omega
    rw [hz] at this
    simp at this

theorem covers_and (n a b : Nat) (p : Packet) :
    Covers n (a &&& b) p ↔ Covers n a p ∧ Covers n b p := by
  simp only [Covers, Nat.testBit_and, Bool.and_eq_true]
  constructor
  · intro h; exact ⟨fun i hi => (h i hi).1, fun i hi => (h i hi).2⟩
  · rintro ⟨h1, h2⟩ i hi; exact ⟨h1 i hi, h2 i hi⟩

theorem not_covers_of_z {n w : Nat} {i : Nat} (hi : i < n) (h0 : w.testBit (2 * i) = false)
    (h1 : w.testBit (2 * i + 1) = false) (p : Packet) : ¬ Covers n w p := by
  intro h
  have := h i hi
  cases hp : p i <;> simp [hp, h0, h1] at this

theorem not_covers_zero {n : Nat} (hn : 0 < n) (p : Packet) : ¬ Covers n 0 p := by
  intro h; simpa using h 0 hn

/-- A wildcard without z positions covers some packet. -/
theorem exists_covers {n w : Nat}
    (h : ∀ i, i < n → w.testBit (2 * i) = true ∨ w.testBit (2 * i + 1) = true) :
    ∃ p, Covers n w p := by
  refine ⟨fun i => w.testBit (2 * i + 1), fun i hi => ?_⟩
  cases hb : w.testBit (2 * i + 1)
  · have := h i hi; simp_all
  · simp [hb]

theorem covers_wcIntersect {n : Nat} (hn : 0 < n) (a b : Nat) (p : Packet) :
    Covers n (wcIntersect n a b) p ↔ Covers n a p ∧ Covers n b p := by
  unfold wcIntersect
  simp only
  split
  · next h =>
    obtain ⟨i, hi, h0, h1⟩ := (zcheck_iff n _).1 h
    constructor
    · intro hc; exact absurd hc (not_covers_zero hn p)
    · intro hc; exact absurd ((covers_and n a b p).2 hc) (not_covers_of_z hi h0 h1 p)
  · exact covers_and n a b p

theorem wcIntersect_eq_zero {n : Nat} (hn : 0 < n) (a b : Nat) :
    wcIntersect n a b = 0 ↔ ¬ ∃ p, Covers n a p ∧ Covers n b p := by
  constructor
  · rintro h ⟨p, hp⟩
    rw [← covers_wcIntersect hn, h] at hp
    exact not_covers_zero hn p hp
  · intro h
    unfold wcIntersect
    simp only
    split
    · rfl
    · next hz =>
      rw [zcheck_iff] at hz
      exfalso
      apply h
      obtain ⟨p, hp⟩ := exists_covers (n := n) (w := a &&& b) (by
        intro i hi
        by_contra hc
        apply hz
        refine ⟨i, hi, ?_⟩
        simpa using hc)
      exact ⟨p, (covers_and n a b p).1 hp⟩

theorem wcValid_wcIntersect {n a b : Nat} (ha : WcValid n a)
    (h : wcIntersect n a b ≠ 0) : WcValid n (wcIntersect n a b) := by
  unfold wcIntersect at h ⊢
  simp only at h ⊢
  split at h
  · exact absurd rfl h
  · next hz =>
    rw [if_neg hz]
    rw [zcheck_iff] at hz
    refine ⟨lt_of_le_of_lt Nat.and_le_left ha.lt, fun i hi => ?_⟩
    by_contra hc
    exact hz ⟨i, hi, by simpa using hc⟩

theorem wcIntersect_comm (n a b : Nat) : wcIntersect n a b = wcIntersect n b a := by
  simp [wcIntersect, Nat.land_comm]

theorem testBit_ge {n w j : Nat} (h : w < 2 ^ (2 * n)) (hj : 2 * n ≤ j) : w.testBit j = false := by
  apply Nat.testBit_lt_two_pow
  exact lt_of_lt_of_le h (Nat.pow_le_pow_right (by omega) hj)

/-- Any single allowed value of a tbit of a valid wildcard is witnessed by a packet. -/
theorem exists_covers_at {n w : Nat} (h : WcValid n w) {i : Nat} {c : Bool}
    (hc : w.testBit (2 * i + c.toNat) = true) : ∃ p, Covers n w p ∧ p i = c := by
  obtain ⟨p, hp⟩ := exists_covers h.noZ
  refine ⟨fun j => if j = i then c else p j, fun j hj => ?_, by simp⟩
  by_cases hji : j = i
  · subst hji; simpa using hc
  · simpa [hji] using hp j hj

theorem wcIsSubset_iff {n a b : Nat} (ha : WcValid n a) :
    wcIsSubset a b = true ↔ ∀ p, Covers n a p → Covers n b p := by
  unfold wcIsSubset
  rw [beq_iff_eq]
  constructor
  · intro h p hp i hi
    have h1 := congrArg (fun x => Nat.testBit x (2 * i + (p i).toNat)) h
    simp only [testBit_andNot, Nat.zero_testBit] at h1
    have := hp i hi
    simpa [this] using h1
  · intro h
    apply Nat.eq_of_testBit_eq
    intro j
    simp only [testBit_andNot, Nat.zero_testBit]
    by_cases hj : j < 2 * n
    · cases hb : a.testBit j
      · simp
      · have hj2 : j = 2 * (j / 2) + (decide (j % 2 = 1)).toNat := by
          rcases Nat.mod_two_eq_zero_or_one j with h | h <;> simp [h] <;> omega
        rw [hj2] at hb
        obtain ⟨p, hp, hpi⟩ := exists_covers_at ha hb
        have := h p hp (j / 2) (by omega)
        rw [hpi, ← hj2] at this
        simp [this]
    · simp [testBit_ge ha.lt (by omega : 2 * n ≤ j)]

theorem wcIsSubset_iff_le {a b : Nat} : wcIsSubset a b = true ↔ ∀ j, a.testBit j = true → b.testBit j = true := by
  unfold wcIsSubset
  rw [beq_iff_eq]
  constructor
  · intro h j hj
    have h1 := congrArg (fun x => Nat.testBit x j) h
    simp only [testBit_andNot, Nat.zero_testBit, hj] at h1
    simpa using h1
  · intro h
    apply Nat.eq_of_testBit_eq
    intro j
    simp only [testBit_andNot, Nat.zero_testBit]
    cases hb : a.testBit j
    · simp
    · simp [h j hb]

theorem wcIsSubset_refl (a : Nat) : wcIsSubset a a = true := by
  rw [wcIsSubset_iff_le]; exact fun _ h => h

theorem wcIsSubset_trans {a b c : Nat} (h1 : wcIsSubset a b = true) (h2 : wcIsSubset b c = true) :
    wcIsSubset a c = true := by
  rw [wcIsSubset_iff_le] at *; exact fun j h => h2 j (h1 j h)

theorem wcIsSubset_antisymm {a b : Nat} (h1 : wcIsSubset a b = true) (h2 : wcIsSubset b a = true) : a = b := by
  rw [wcIsSubset_iff_le] at *
  apply Nat.eq_of_testBit_eq
  intro j
  rw [Bool.eq_iff_iff]
  exact ⟨h1 j, h2 j⟩

/-- Valid wildcards covering the same packets are the same number. -/
theorem wc_ext {n a b : Nat} (ha : WcValid n a) (hb : WcValid n b)
    (h : ∀ p, Covers n a p ↔ Covers n b p) : a = b :=
  wcIsSubset_antisymm ((wcIsSubset_iff ha).2 fun p => (h p).1) ((wcIsSubset_iff hb).2 fun p => (h p).2)

theorem covers_mono {n a b : Nat} {p : Packet} (h : wcIsSubset a b = true) (hp : Covers n a p) : Covers n b p := by
  rw [wcIsSubset_iff_le] at h
  exact fun i hi => h _ (hp i hi)

theorem wcValid_union {n a b : Nat} (ha : WcValid n a) (hb : WcValid n b) : WcValid n (wcUnionCover a b) := by
  refine ⟨Nat.or_lt_two_pow ha.lt hb.lt, fun i hi => ?_⟩
  simp only [wcUnionCover, Nat.testBit_or, Bool.or_eq_true]
  rcases ha.noZ i hi with h | h
  · exact Or.inl (Or.inl h)
  · exact Or.inr (Or.inl h)

theorem testBit_wcFull (n i : Nat) : (wcFull n).testBit i = decide (i < 2 * n) := by
  simp [wcFull, Nat.testBit_two_pow_sub_one]

theorem covers_wcFull (n : Nat) (p : Packet) : Covers n (wcFull n) p := by
  intro i hi
  rw [testBit_wcFull]
  have : (p i).toNat ≤ 1 := Bool.toNat_le _
  simp; omega

theorem wcValid_wcFull (n : Nat) : WcValid n (wcFull n) := by
  refine ⟨?_, fun i hi => Or.inl ?_⟩
  · unfold wcFull; have := Nat.two_pow_pos (2 * n); omega
  · rw [testBit_wcFull]; simp; omega

/-! ### compress_wildcard_list -/

/-- Every popped index is dominated by a different element: strictly larger, or equal with a larger index. -/
theorem mem_compressInner {i x j k : Nat} {ys : List Nat} (h : k ∈ compressInner i x j ys) :
    (k = i ∧ ∃ m, ∃ (hm : m < ys.length), wcIsSubset x ys[m] = true) ∨
    (∃ m, ∃ (hm : m < ys.length), k = j + m ∧ wcIsSubset ys[m] x = true ∧ wcIsSubset x ys[m] = false) := by
  induction ys generalizing j with
  | nil => simp [compressInner] at h
  | cons y ys ih =>
    rw [compressInner, List.mem_append] at h
    rcases h with h | h
    · split at h
      · next hs =>
        left
        simp at h
        exact ⟨h, 0, by simp, by simpa using hs⟩
      · next hs =>
        split at h
        · next hs2 =>
          right
          simp at h
          exact ⟨0, by simp, by omega, by simpa using hs2, by simpa using hs⟩
        · simp at h
    · rcases ih h with ⟨h1, m, hm, hs⟩ | ⟨m, hm, h1, hs⟩
      · exact Or.inl ⟨h1, m + 1, by simpa using hm, by simpa using hs⟩
      · exact Or.inr ⟨m + 1, by simpa using hm, by omega, by simpa using hs⟩

theorem mem_compressPops {i k : Nat} {l : List Nat} (h : k ∈ compressPops i l) :
    ∃ a, ∃ (ha : a < l.length), k = i + a ∧
      ∃ b, ∃ (hb : b < l.length), wcIsSubset l[a] l[b] = true ∧
        (a < b ∨ wcIsSubset l[b] l[a] = false) := by
  induction l generalizing i with
  | nil => simp [compressPops] at h
  | cons x xs ih =>
    rw [compressPops, List.mem_append] at h
    rcases h with h | h
    · rcases mem_compressInner h with ⟨h1, m, hm, hs⟩ | ⟨m, hm, h1, hs, hs2⟩
      · exact ⟨0, by simp, by omega, m + 1, by simpa using hm, by simpa using hs, by left; omega⟩
      · exact ⟨m + 1, by simpa using hm, by omega, 0, by simp, by simpa using hs, by right; simpa using hs2⟩
    · obtain ⟨a, ha, h1, b, hb, hs, hs2⟩ := ih h
      refine ⟨a + 1, by simpa using ha, by omega, b + 1, by simpa using hb, by simpa using hs, ?_⟩
      rcases hs2 with h | h
      · left; omega
      · right; simpa using h

theorem mem_compressList {l : List Nat} {w : Nat} :
    w ∈ compressList l ↔ ∃ k, ∃ (hk : k < l.length), l[k] = w ∧ k ∉ compressPops 0 l := by
  unfold compressList
  simp only [List.mem_map, List.mem_filter, Prod.exists, List.mem_zipIdx_iff_getElem?]
  constructor
  · rintro ⟨x, k, ⟨h1, h2⟩, rfl⟩
    obtain ⟨hk, h⟩ := List.getElem?_eq_some_iff.1 h1
    exact ⟨k, hk, h, by simpa using h2⟩
  · rintro ⟨k, hk, rfl, h⟩
    exact ⟨l[k], k, ⟨by simp [hk], by simpa using h⟩, rfl⟩

/-- Each element of the list lies below a surviving one. -/
theorem compressList_dominates {l : List Nat} (a : Nat) (ha : a < l.length) :
    ∃ w ∈ compressList l, wcIsSubset l[a] w = true := by
  -- climb to an index that is maximal: larger set, then larger index
  -- measure: number of indices not strictly above
  classical
  let above (a b : Nat) : Prop := ∃ (ha : a < l.length) (hb : b < l.length),
    wcIsSubset l[a] l[b] = true ∧ (a < b ∨ wcIsSubset l[b] l[a] = false)
  have strict : ∀ {a b}, above a b → a = b → False := by
    rintro a b ⟨ha, hb, h1, h2⟩ rfl
    rcases h2 with h | h
    · omega
    · simp [wcIsSubset_refl] at h
  -- lexicographic argument by strong induction on the number of elements above
  let P (b : Nat) : Prop := ∃ (hb : b < l.length), wcIsSubset l[a] l[b] = true
  -- choose among P the one whose value is maximal for subset, then index maximal
  have hfin : ∃ b, P b ∧ ∀ c, P c → ¬ above b c := by
    by_contra hno
    push Not at hno
    have tr : ∀ b c d, above b c → above c d → above b d := by
      rintro b c d ⟨hb, hc, h1, h2⟩ ⟨_, hd, h3, h4⟩
      refine ⟨hb, hd, wcIsSubset_trans h1 h3, ?_⟩
      by_cases hdb : wcIsSubset l[d] l[b] = true
      · left
        have e1 := wcIsSubset_trans hdb h1
        have e2 := wcIsSubset_trans h3 hdb
        rcases h2 with h2 | h2
        · rcases h4 with h4 | h4
          · omega
          · simp [e1] at h4
        · simp [e2] at h2
      · right; simpa using hdb
    -- a finite strict order has a maximal element
    have : ∀ n b, P b → (((List.range l.length).filter (fun c => decide (above b c))).length ≤ n) → False := by
      intro n
      induction n with
      | zero =>
        intro b hb hle
        obtain ⟨c, hc, hbc⟩ := hno b hb
        obtain ⟨_, hc', _⟩ := id hbc
        have : c ∈ (List.range l.length).filter (fun c => decide (above b c)) := by
          simp [hc', hbc]
        have := List.length_pos_of_mem this
        omega
      | succ n ih =>
        intro b hb hle
        obtain ⟨c, hc, hbc⟩ := hno b hb
        obtain ⟨_, hc', _⟩ := id hbc
        apply ih c hc
        have hsub : ((List.range l.length).filter (fun d => decide (above c d))).length <
            ((List.range l.length).filter (fun d => decide (above b d))).length := by
          rw [← List.countP_eq_length_filter, ← List.countP_eq_length_filter]
          have hsp : List.countP (fun d => decide (above b d)) (List.range l.length) =
            List.countP (fun d => decide (above c d)) (List.range l.length) +
            List.countP (fun d => decide (above b d ∧ ¬ above c d)) (List.range l.length) := by
            induction List.range l.length with
            | nil => simp
            | cons x xs ihx =>
              rw [List.countP_cons, List.countP_cons, List.countP_cons, ihx]
              by_cases h1 : above c x
              · have := tr b c x hbc h1
                simp [h1, this]; omega
              · by_cases h2 : above b x <;> simp [h1, h2]; omega
          rw [hsp]
          have : 0 < List.countP (fun d => decide (above b d ∧ ¬ above c d)) (List.range l.length) := by
            rw [List.countP_pos_iff]
            exact ⟨c, by simp [hc'], by simpa [hbc] using fun h => strict h rfl⟩
          omega
        omega
    exact this _ a ⟨ha, wcIsSubset_refl _⟩ le_rfl
  obtain ⟨b, ⟨hb, hab⟩, hmax⟩ := hfin
  refine ⟨l[b], mem_compressList.2 ⟨b, hb, rfl, fun hpop => ?_⟩, hab⟩
  obtain ⟨a', ha', he, c, hc, h1, h2⟩ := mem_compressPops hpop
  have : a' = b := by omega
  subst this
  exact hmax c ⟨hc, wcIsSubset_trans hab h1⟩ ⟨hb, hc, h1, h2⟩

theorem compressList_subset {l : List Nat} {w : Nat} (h : w ∈ compressList l) : w ∈ l := by
  obtain ⟨k, hk, rfl, _⟩ := mem_compressList.1 h
  exact List.getElem_mem hk

theorem compressInner_pops {i x j : Nat} {ys : List Nat} {m : Nat} (hm : m < ys.length) :
    (wcIsSubset x ys[m] = true → i ∈ compressInner i x j ys) ∧
    (wcIsSubset x ys[m] = false → wcIsSubset ys[m] x = true → j + m ∈ compressInner i x j ys) := by
  induction ys generalizing j m with
  | nil => simp at hm
  | cons y ys ih =>
    rw [compressInner]
    rcases m with _ | m
    · constructor
      · intro h; simp only [List.getElem_cons_zero] at h; simp [h]
      · intro h h2; simp only [List.getElem_cons_zero] at h h2; simp [h, h2]
    · have := ih (j := j + 1) (m := m) (by simpa using hm)
      constructor
      · intro h; exact List.mem_append_right _ (this.1 (by simpa using h))
      · intro h h2
        have h3 := this.2 (by simpa using h) (by simpa using h2)
        refine List.mem_append_right _ ?_
        rwa [show j + (m + 1) = j + 1 + m by omega]

theorem compressPops_pops {i : Nat} {l : List Nat} {a b : Nat} (hab : a < b) (hb : b < l.length) :
    (wcIsSubset l[a] l[b] = true → i + a ∈ compressPops i l) ∧
    (wcIsSubset l[a] l[b] = false → wcIsSubset l[b] l[a] = true → i + b ∈ compressPops i l) := by
  induction l generalizing i a b with
  | nil => simp at hb
  | cons x xs ih =>
    rw [compressPops]
    rcases b with _ | b
    · omega
    rcases a with _ | a
    · have := compressInner_pops (i := i) (x := x) (j := i + 1) (ys := xs) (m := b) (by simpa using hb)
      constructor
      · intro h; exact List.mem_append_left _ (this.1 (by simpa using h))
      · intro h h2
        have h3 := this.2 (by simpa using h) (by simpa using h2)
        refine List.mem_append_left _ ?_
        rwa [show i + (b + 1) = i + 1 + b by omega]
    · have := ih (i := i + 1) (a := a) (b := b) (by omega) (by simpa using hb)
      constructor
      · intro h
        have h3 := this.1 (by simpa using h)
        refine List.mem_append_right _ ?_
        rwa [show i + (a + 1) = i + 1 + a by omega]
      · intro h h2
        have h3 := this.2 (by simpa using h) (by simpa using h2)
        refine List.mem_append_right _ ?_
        rwa [show i + (b + 1) = i + 1 + b by omega]

theorem compressList_antichain (l : List Nat) : (compressList l).Pairwise fun a b =>
    wcIsSubset a b = false ∧ wcIsSubset b a = false := by
  unfold compressList
  rw [List.pairwise_map]
  have hp : l.zipIdx.Pairwise (fun p q => p.2 < q.2) := by
    rw [List.pairwise_iff_getElem]
    intro i j hi hj hij
    simpa using hij
  refine List.Pairwise.imp_of_mem ?_ (hp.filter _)
  rintro ⟨x, i⟩ ⟨y, j⟩ hx hy hij
  simp only [List.mem_filter, List.mem_zipIdx_iff_getElem?] at hx hy
  simp only at hij ⊢
  obtain ⟨hx1, hx2⟩ := hx
  obtain ⟨hy1, hy2⟩ := hy
  obtain ⟨hi, rfl⟩ := List.getElem?_eq_some_iff.1 hx1
  obtain ⟨hj, rfl⟩ := List.getElem?_eq_some_iff.1 hy1
  have := compressPops_pops (i := 0) (l := l) hij hj
  simp only [Nat.zero_add] at this
  have h1 : wcIsSubset l[i] l[j] = false := by
    by_contra h
    have := this.1 (by simpa using h)
    simp [this] at hx2
  refine ⟨h1, ?_⟩
  by_contra h
  have := this.2 h1 (by simpa using h)
  simp [this] at hy2

end OFE
