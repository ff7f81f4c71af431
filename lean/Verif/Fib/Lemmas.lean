import Verif.Fib.Spec
import Verif.Deps.PrefixLemmas
import Verif.Rule.ReqLemmas

/-! # Lemmas: FIB conversion -/

namespace OFE
namespace Fib

theorem pairwise_pair {α : Type} {R : α → α → Prop} {l : List α} (h : l.Pairwise R) {a b : α} (ha : a ∈ l) (hb : b ∈ l) (hne : a ≠ b) : R a b ∨ R b a := by
  induction h with
  | nil => cases ha
  | cons hx _ ih =>
    rcases List.mem_cons.1 ha with rfl | ha'
    · exact .inl (hx b ((List.mem_cons.1 hb).resolve_left (Ne.symm hne)))
    · rcases List.mem_cons.1 hb with rfl | hb'
      · exact .inr (hx a ha')
      · exact ih ha' hb'

variable {π : Type} [DecidableEq π]

omit [DecidableEq π] in
theorem ipOf_proper {l : Line π} (h : l.Proper) : ipOf l.parts = .ok l.addr ∧ l.addr < 2 ^ 32 := by
  obtain ⟨h1, h2, -⟩ := h
  unfold Line.addr
  match hp : l.parts, h1 with
  | [a, b, c, d], _ =>
    rw [hp] at h2
    simp only [List.mem_cons, List.not_mem_nil, or_false, forall_eq_or_imp, forall_eq] at h2
    obtain ⟨ha, hb, hc, hd⟩ := h2
    simp only [ipOf, Except.ok.injEq, List.foldl_cons, List.foldl_nil]
    refine ⟨?_, by omega⟩
    rw [Nat.or_assoc, Nat.or_assoc]
    rw [← Nat.shiftLeft_add_eq_or_of_lt (i := 8) (by omega : d < 2 ^ 8) c,
      ← Nat.shiftLeft_add_eq_or_of_lt (i := 16) (by rw [Nat.shiftLeft_eq]; omega) b,
      ← Nat.shiftLeft_add_eq_or_of_lt (i := 24) (by simp only [Nat.shiftLeft_eq]; omega) a]
    simp only [Nat.shiftLeft_eq]
    omega

theorem mask_bit {m : Nat} (i : Nat) : ((ipMask <<< (32 - m)) &&& ipMask).testBit i = (decide (32 - m ≤ i) && decide (i < 32)) := by
  have h : ∀ j, ipMask.testBit j = decide (j < 32) := by
    intro j
    rw [show ipMask = 2 ^ 32 - 1 from rfl, Nat.testBit_two_pow_sub_one]
  rw [Nat.testBit_and, Nat.testBit_shiftLeft, h, h]
  by_cases h1 : 32 - m ≤ i <;> by_cases h2 : i < 32 <;> simp [h1, h2] <;> omega

theorem div_eq_iff_bits (x y k : Nat) : x / 2 ^ k = y / 2 ^ k ↔ ∀ i, k ≤ i → x.testBit i = y.testBit i := by
  constructor
  · intro h i hi
    have := congrArg (fun n => n.testBit (i - k)) h
    simpa [Nat.testBit_div_two_pow, Nat.sub_add_cancel hi] using this
  · intro h
    apply Nat.eq_of_testBit_eq
    intro i
    rw [Nat.testBit_div_two_pow, Nat.testBit_div_two_pow]
    exact h _ (by omega)

omit [DecidableEq π] in
/-- Containment, bit by bit. -/
theorem contains_iff {l : Line π} (h : l.Proper) {x : Nat} (hx : x < 2 ^ 32) :
    l.Contains x ↔ ∀ i, i < 32 → 32 - l.mask ≤ i → x.testBit i = l.addr.testBit i := by
  unfold Line.Contains
  rw [div_eq_iff_bits]
  constructor
  · intro h i _ hi; exact h i hi
  · intro h' i hi
    by_cases h32 : i < 32
    · exact h' i h32 hi
    · have hle : 2 ^ 32 ≤ 2 ^ i := Nat.pow_le_pow_right (by decide) (by omega)
      rw [Nat.testBit_lt_two_pow (Nat.lt_of_lt_of_le hx hle), Nat.testBit_lt_two_pow (Nat.lt_of_lt_of_le (ipOf_proper h).2 hle)]

theorem width12 : width 12 = 32 := by decide +kernel

theorem fieldBits12 : fieldBits 12 = some 32 := by decide +kernel

/-- The entry that the match of a route holds. -/
def entry (l : Line π) : Nat × Option Nat := normValue 12 l.addr (some ((ipMask <<< (32 - l.mask)) &&& ipMask))

omit [DecidableEq π] in
theorem matchesField_entry {l : Line π} (p : Packet) :
    MatchesField p (12, entry l) ↔ ∀ i, i < 32 → 32 - l.mask ≤ i → p.bit 12 i = l.addr.testBit i := by
  unfold MatchesField entry normValue
  rw [fieldBits12]
  simp only [width12]
  have hb := fun i => mask_bit (m := l.mask) i
  generalize (ipMask <<< (32 - l.mask)) &&& ipMask = m at *
  split
  · rename_i h0
    have h1 : m &&& (2 ^ 32 - 1) = m := by
      apply Nat.eq_of_testBit_eq
      intro i
      rw [Nat.testBit_and, Nat.testBit_two_pow_sub_one, hb]
      by_cases h : i < 32 <;> simp [h]
    rw [h1]
    refine forall_congr' fun i => forall_congr' fun hi => ?_
    rw [Nat.testBit_and, hb]
    by_cases hf : m = 2 ^ 32 - 1
    · have : (decide (32 - l.mask ≤ i) && decide (i < 32)) = true := by
        rw [← hb, hf, Nat.testBit_two_pow_sub_one]; simpa using hi
      simp only [Bool.and_eq_true, decide_eq_true_eq] at this
      simp [hf, this.1, hi]
    · rw [if_neg hf]
      simp only [Option.some.injEq, forall_eq', hb]
      constructor
      · intro h hk
        simpa [hk, hi] using h (by simp [hk, hi])
      · intro h hk
        simp only [Bool.and_eq_true, decide_eq_true_eq] at hk
        simpa [hk.1, hk.2] using h hk.1
  · simp only [Option.some.injEq, forall_eq', hb]
    refine forall_congr' fun i => forall_congr' fun hi => ?_
    simp [hi]

omit [DecidableEq π] in
/-- The value in the match is the first address of the prefix (for `/0` the address as given). -/
theorem entry_value (l : Line π) (hl : l.Proper) (h0 : l.mask = 0 → l.addr = 0) : (entry l).1 = l.addr / 2 ^ (32 - l.mask) * 2 ^ (32 - l.mask) := by
  have key : (entry l).1 = l.addr &&& ((ipMask <<< (32 - l.mask)) &&& ipMask) := by
    unfold entry normValue
    rw [fieldBits12]
    have hb := fun i => mask_bit (m := l.mask) i
    by_cases hm : l.mask = 0
    · rw [h0 hm, hm]
      decide
    · have hne : (ipMask <<< (32 - l.mask)) &&& ipMask ≠ 0 := by
        intro he
        have := hb 31
        rw [he] at this
        have h1 : 32 - l.mask ≤ 31 := by omega
        simp [h1] at this
      generalize (ipMask <<< (32 - l.mask)) &&& ipMask = m at *
      have h1 : m &&& (2 ^ 32 - 1) = m := by
        apply Nat.eq_of_testBit_eq
        intro i
        rw [Nat.testBit_and, Nat.testBit_two_pow_sub_one, hb]
        by_cases h : i < 32 <;> simp [h]
      simp only [h1]
      rw [if_pos ⟨by decide, hne⟩]
  rw [key]
  apply Nat.eq_of_testBit_eq
  intro i
  rw [Nat.testBit_and, mask_bit, Nat.testBit_mul_two_pow, Nat.testBit_div_two_pow]
  by_cases h1 : 32 - l.mask ≤ i
  · by_cases h2 : i < 32
    · simp [h1, h2, Nat.sub_add_cancel h1]
    · have hle : 2 ^ 32 ≤ 2 ^ i := Nat.pow_le_pow_right (by decide) (by omega)
      simp [h1, h2, Nat.sub_add_cancel h1, Nat.testBit_lt_two_pow (Nat.lt_of_lt_of_le (ipOf_proper hl).2 hle)]
  · simp [h1]

/-- The rule made for a line. -/
def ruleOf (port : π → Nat) (l : Line π) : Rule Unit :=
  ⟨l.mask, none, 0, ⟨[(12, entry l)], 0 ||| (1 <<< 12), none⟩, { Inst.empty with write := ⟨[[.output (port l.peer)]], [.output (port l.peer)]⟩ }, []⟩

/-- Ports are given out in turn, one to each peer. -/
structure PortsOK (s : State π) : Prop where
  range : ∀ q n, s.mapping.lookup q = some n → 1 ≤ n ∧ n ≤ s.count
  inj : ∀ q q' n, s.mapping.lookup q = some n → s.mapping.lookup q' = some n → q = q'

theorem step_ok {s : State π} (hs : PortsOK s) {l : Line π} (hl : l.Proper) :
    ∃ s' n, step s l = .ok s' ∧ PortsOK s' ∧ (∀ q k, s.mapping.lookup q = some k → s'.mapping.lookup q = some k) ∧
      s'.mapping.lookup l.peer = some n ∧ s'.ruleset = s.ruleset ++ [ruleOf (fun _ => n) l] := by
  have hset : ∀ n, actionSetAppend .empty (.output n) = .ok ⟨[[.output n]], [.output n]⟩ := fun n => rfl
  have hmask : maskOf l.mask = .ok ((ipMask <<< (32 - l.mask)) &&& ipMask) := if_neg (by have := hl.2.2; omega)
  unfold step
  simp only [(ipOf_proper hl).1, hmask, bind, Except.bind, pure, Except.pure]
  cases hlk : s.mapping.lookup l.peer with
  | some n =>
    simp only [hlk, hset]
    exact ⟨_, n, rfl, ⟨hs.range, hs.inj⟩, fun q k h => h, hlk, rfl⟩
  | none =>
    simp only [lookup_dictSet, if_pos, hset]
    refine ⟨_, s.count + 1, rfl, ⟨fun q n h => ?_, fun q q' n h h' => ?_⟩, fun q k h => ?_, ?_, rfl⟩
    · change 1 ≤ n ∧ n ≤ s.count + 1
      simp only [lookup_dictSet] at h
      split at h
      · cases h; omega
      · have := hs.range q n h; omega
    · simp only [lookup_dictSet] at h h'
      split at h <;> split at h'
      · simp_all
      · cases h
        have := hs.range q' _ h'; omega
      · cases h'
        have := hs.range q _ h; omega
      · exact hs.inj q q' n h h'
    · simp only [lookup_dictSet]
      rw [if_neg]
      · exact h
      · rintro rfl; rw [hlk] at h; cases h
    · simp only [lookup_dictSet, if_pos]

theorem foldlM_step (lines : List (Line π)) : ∀ (s : State π), PortsOK s → (∀ l ∈ lines, l.Proper) →
    ∃ s', lines.foldlM step s = .ok s' ∧ PortsOK s' ∧ (∀ q k, s.mapping.lookup q = some k → s'.mapping.lookup q = some k) ∧
      (∀ l ∈ lines, ∃ n, s'.mapping.lookup l.peer = some n) ∧
      s'.ruleset = s.ruleset ++ lines.map (ruleOf fun q => (s'.mapping.lookup q).getD 0) := by
  induction lines with
  | nil => intro s hs _; exact ⟨s, rfl, hs, fun _ _ h => h, by simp, by simp⟩
  | cons l lines ih =>
    intro s hs hp
    obtain ⟨s1, n, e1, h1, k1, l1, r1⟩ := step_ok hs (hp l (by simp))
    obtain ⟨s2, e2, h2, k2, l2, r2⟩ := ih s1 h1 fun x hx => hp x (List.mem_cons_of_mem _ hx)
    refine ⟨s2, by rw [List.foldlM_cons, e1]; exact e2, h2, fun q k h => k2 q k (k1 q k h), fun x hx => ?_, ?_⟩
    · rcases List.mem_cons.1 hx with rfl | hx
      · exact ⟨n, k2 _ _ l1⟩
      · exact l2 x hx
    · rw [r2, r1, List.append_assoc, List.map_cons]
      congr 1
      rw [List.singleton_append]
      congr 1
      simp only [ruleOf, k2 _ _ l1, Option.getD_some]

omit [DecidableEq π] in
theorem accepts_ruleOf {port : π → Nat} {l : Line π} (hl : l.Proper) (p : Pkt) : (ruleOf port l).mat.accepts p ↔ l.Contains (ipDst p) := by
  have hlt : ipDst p < 2 ^ 32 := Nat.mod_lt _ (by decide)
  rw [contains_iff hl hlt]
  have : (ruleOf port l).mat.accepts p ↔ MatchesField p.hdr (12, entry l) := by
    simp [Match.accepts, MatchesAll, ruleOf]
  rw [this, matchesField_entry]
  refine forall_congr' fun i => forall_congr' fun hi => ?_
  rw [hdr_bit p (by decide) (by rw [width12]; exact hi)]
  have : (ipDst p).testBit i = (p.fld 12 0).testBit i := by
    rw [ipDst, Nat.testBit_mod_two_pow]; simp [hi]
  rw [this]
  rfl

omit [DecidableEq π] in
theorem run_ruleOf (port : π → Nat) (l : Line π) (p : Pkt) : ((ruleOf port l).inst.run (St.enter p)).finish = [(.port (port l.peer), p)] := rfl

end Fib
end OFE
