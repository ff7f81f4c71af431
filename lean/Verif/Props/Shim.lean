import Verif.Shim.NormLemmas

/-! # C44, C57: normalisation by header space -/

namespace OFE
namespace Shim

variable {n : Nat} {α : Type}

/-- **C44** For every history of `add` calls with proper wildcards and every order of set iteration: the internal assertion never fails (nothing is raised), and
the shim stands for exactly the packets in the first wildcard that are in all added ones and in none of the excluded ones. -/
theorem C44_history {ord : List Nat → List Nat} (hn : 0 < n) (hord : ∀ l, (ord l).Perm l) {w : Nat} (hw : WcValid n w) (calls : List (Nat × Bool))
    (hc : ∀ c ∈ calls, WcValid n c.1) :
    ∃ s, (ofWc n ord w >>= fun s => calls.foldlM (fun s c => add n ord s c.1 c.2) s) = .ok s ∧
      ∀ p, s.Has n p ↔ Covers n w p ∧ ∀ c ∈ calls, Covers n c.1 p ↔ c.2 = true := by
  obtain ⟨s, e, h⟩ := ofWc_can (ord := ord) hn hw
  have gen : ∀ (l : List (Nat × Bool)) (s : Shim) (A : List (Nat × Bool)), (∀ c ∈ l, WcValid n c.1) → Can n s A →
      ∃ s', l.foldlM (fun s c => add n ord s c.1 c.2) s = .ok s' ∧ Can n s' (A ++ l) := by
    intro l
    induction l with
    | nil => intro s A _ h; exact ⟨s, rfl, by rwa [List.append_nil]⟩
    | cons c l ih =>
      intro s A hl h
      obtain ⟨s1, e1, h1⟩ := add_can hn hord h (hl c List.mem_cons_self) c.2
      obtain ⟨s2, e2, h2⟩ := ih s1 _ (fun x hx => hl x (List.mem_cons_of_mem _ hx)) h1
      exact ⟨s2, by rw [List.foldlM_cons, e1]; exact e2, by rw [List.append_assoc] at h2; exact h2⟩
  obtain ⟨s', e', h'⟩ := gen calls s _ hc h
  refine ⟨s', by rw [e]; exact e', fun p => ?_⟩
  rw [h'.has p]
  constructor
  · rintro ⟨h1, h2⟩
    refine ⟨h1 w (by simp), fun c hcm => ?_⟩
    obtain ⟨f, b⟩ := c
    cases b
    · simp only [Bool.false_eq_true, iff_false]; exact h2 f (by simp [hcm])
    · simp only [iff_true]; exact h1 f (by simp [hcm])
  · rintro ⟨h1, h2⟩
    refine ⟨fun f hf => ?_, fun f hf hp => ?_⟩
    · rcases List.mem_append.1 hf with hf | hf
      · simp at hf; rw [hf]; exact h1
      · exact (h2 _ hf).2 rfl
    · rcases List.mem_append.1 hf with hf | hf
      · simp at hf
      · have := (h2 _ hf).1 hp; cases this

/-- **C44** The value does not depend on the order of the calls (nor on repetitions or set iteration): histories with the same calls give equal shims. -/
theorem C44_order {ord ord' : List Nat → List Nat} (hn : 0 < n) (hord : ∀ l, (ord l).Perm l) (hord' : ∀ l, (ord' l).Perm l) {w : Nat} (hw : WcValid n w)
    (calls calls' : List (Nat × Bool)) (hc : ∀ c ∈ calls, WcValid n c.1) (hsame : ∀ c, c ∈ calls ↔ c ∈ calls') :
    ∃ s s', (ofWc n ord w >>= fun s => calls.foldlM (fun s c => add n ord s c.1 c.2) s) = .ok s ∧
      (ofWc n ord' w >>= fun s => calls'.foldlM (fun s c => add n ord' s c.1 c.2) s) = .ok s' ∧ eqv s s' = true := by
  have gen : ∀ {o : List Nat → List Nat}, (∀ l, (o l).Perm l) → ∀ (l : List (Nat × Bool)) (s : Shim) (A : List (Nat × Bool)), (∀ c ∈ l, WcValid n c.1) → Can n s A →
      ∃ s', l.foldlM (fun s c => add n o s c.1 c.2) s = .ok s' ∧ Can n s' (A ++ l) := by
    intro o ho l
    induction l with
    | nil => intro s A _ h; exact ⟨s, rfl, by rwa [List.append_nil]⟩
    | cons c l ih =>
      intro s A hl h
      obtain ⟨s1, e1, h1⟩ := add_can hn ho h (hl c List.mem_cons_self) c.2
      obtain ⟨s2, e2, h2⟩ := ih s1 _ (fun x hx => hl x (List.mem_cons_of_mem _ hx)) h1
      exact ⟨s2, by rw [List.foldlM_cons, e1]; exact e2, by rw [List.append_assoc] at h2; exact h2⟩
  obtain ⟨s, e, h⟩ := ofWc_can (ord := ord) hn hw
  obtain ⟨t, f, g⟩ := ofWc_can (ord := ord') hn hw
  obtain ⟨s1, e1, h1⟩ := gen hord calls s _ hc h
  obtain ⟨s2, e2, h2⟩ := gen hord' calls' t _ (fun c h => hc c ((hsame c).2 h)) g
  refine ⟨s1, s2, by rw [e]; exact e1, by rw [f]; exact e2, (h1.congr fun x => ?_).eqv h2⟩
  rw [List.mem_append, List.mem_append, hsame]

/-- A sample on four header bits: `xxxx` without `1xx1` and `0xxx`, within `xx1x`; then without `0xx0` and `0xxx` (which swallows
the former), in two orders with the same result. -/
example : (ofWc 4 id 0xff >>= fun s => [(0xbf ^^^ 0x01, false), (0x7f, false), (0xfb, true)].foldlM (fun s c => add 4 id s c.1 c.2) s) =
      .ok ⟨false, some 0xfb, [0xbe, 0x7f]⟩ ∧
    (ofWc 4 id 0xff >>= fun s => [(0x7e, false), (0x7f, false), (0xfb, true)].foldlM (fun s c => add 4 id s c.1 c.2) s) = .ok ⟨false, some 0xfb, [0x7f]⟩ ∧
    (ofWc 4 id 0xff >>= fun s => [(0x7f, false), (0xfb, true), (0x7e, false)].foldlM (fun s c => add 4 id s c.1 c.2) s) = .ok ⟨false, some 0xfb, [0x7f]⟩ := by
  refine ⟨?_, ?_, ?_⟩ <;> decide +kernel

/-- **C57** For all non-empty rule lists with proper wildcards and every order of set iteration, normalising and comparing by header space raises nothing, and if
the answer is `True` then every packet is treated alike: the first rules that match it have the same actions, or no rule of either list matches it. -/
theorem C57_check_equal_sound [DecidableEq α] {ord : List Nat → List Nat} (hn : 0 < n) (hord : ∀ l, (ord l).Perm l) (r1 r2 : List (Nat × α))
    (h1 : ∀ r ∈ r1, WcValid n r.1) (h2 : ∀ r ∈ r2, WcValid n r.1) (e1 : r1 ≠ []) (e2 : r2 ≠ []) :
    ∃ n1 n2 b, normalise n ord r1 = .ok n1 ∧ normalise n ord r2 = .ok n2 ∧ checkEqual n ord n1 n2 = .ok b ∧
      (b = true → ∀ p a, Picks n r1 p a ↔ Picks n r2 p a) := by
  obtain ⟨n1, n2, w1, w2, m1, m2, m3, R1, R2⟩ := mergeBoth_spec hn hord r1 r2 h1 h2 e1 e2
  refine ⟨n1, n2, _, m1, m2, by rw [checkEqual, m3]; rfl, fun hb p a => ?_⟩
  obtain ⟨fw, bw⟩ := dictEqv_spec R1.kn hb
  constructor
  · intro hp
    obtain ⟨x, hx, hxp⟩ := R1.complete p a hp
    obtain ⟨y, hy, he, hv⟩ := fw x hx
    have s1 := R1.sound x hx p hxp
    have s2 := R2.sound y hy p ((has_congr he p).1 hxp)
    rw [hv, ← first_unique hp s1] at s2
    exact s2
  · intro hp
    obtain ⟨y, hy, hyp⟩ := R2.complete p a hp
    obtain ⟨x, hx, he, hv⟩ := bw y hy
    have s2 := R2.sound y hy p hyp
    have s1 := R1.sound x hx p ((has_congr he p).2 hyp)
    rw [← hv, ← first_unique hp s2] at s1
    exact s1

/-- **C57** `diff=True`: an answer comes without error, and if it says `True` the rules treat packets alike; otherwise the assertion on the keys fails. -/
theorem C57_diff [DecidableEq α] {ord : List Nat → List Nat} (hn : 0 < n) (hord : ∀ l, (ord l).Perm l) (r1 r2 : List (Nat × α))
    (h1 : ∀ r ∈ r1, WcValid n r.1) (h2 : ∀ r ∈ r2, WcValid n r.1) (e1 : r1 ≠ []) (e2 : r2 ≠ []) :
    ∃ n1 n2, normalise n ord r1 = .ok n1 ∧ normalise n ord r2 = .ok n2 ∧
      (checkEqualDiff n ord n1 n2 = .error .assertion ∨ ∃ b ks, checkEqualDiff n ord n1 n2 = .ok (b, ks) ∧
        (b = true → ∀ p a, Picks n r1 p a ↔ Picks n r2 p a) ∧
        ∀ p, (∃ k ∈ ks, k.Has n p) → ∃ a b, a ≠ b ∧ Picks n r1 p a ∧ Picks n r2 p b) := by
  obtain ⟨n1, n2, b, m1, m2, m3, hb⟩ := C57_check_equal_sound hn hord r1 r2 h1 h2 e1 e2
  obtain ⟨n1', n2', w1, w2, m1', m2', m3', R1, R2⟩ := mergeBoth_spec hn hord r1 r2 h1 h2 e1 e2
  rw [m1] at m1'; rw [m2] at m2'
  cases m1'; cases m2'
  refine ⟨n1, n2, m1, m2, ?_⟩
  rw [checkEqual, m3'] at m3
  cases m3
  unfold checkEqualDiff
  rw [m3']
  simp only [bind, Except.bind]
  split
  · refine .inr ⟨_, _, rfl, hb, ?_⟩
    rintro p ⟨k, hk, hkp⟩
    obtain ⟨x, hx, rfl⟩ := List.mem_map.1 hk
    obtain ⟨hx1, hx2⟩ := List.mem_filter.1 hx
    rw [Bool.and_eq_true] at hx2
    obtain ⟨v, hv⟩ := Option.isSome_iff_exists.1 hx2.1
    have hne := of_decide_eq_true hx2.2
    obtain ⟨y, hy, he, rfl⟩ := get_some hv
    rw [hv] at hne
    exact ⟨x.2, y.2, fun hc => hne (by rw [hc]), R1.sound x hx1 p hkp, R2.sound y hy p ((has_congr he p).1 hkp)⟩
  · exact .inl rfl

/-! ### Samples and what is not true -/

/-- Sample matches (wildcards as in `convert_ruleset.py`): header bit 0 is 0, is 1. -/
def bit0 : Nat := wcFull totBits ^^^ 2
/-- Header bit 0 is 1. -/
def bit1 : Nat := wcFull totBits ^^^ 1

theorem valid_bits : (∀ w ∈ [bit0, bit1, wcFull totBits], WcValid totBits w) ∧ 0 < totBits := by
  have h0 : bit0 < 2 ^ (2 * totBits) ∧ bit1 < 2 ^ (2 * totBits) := by decide +kernel
  have h1 : (∀ i < totBits, bit0.testBit (2 * i) = true) ∧ ∀ i < totBits, bit1.testBit (2 * i + 1) = true := by decide +kernel
  refine ⟨fun w hw => ?_, by decide⟩
  simp only [List.mem_cons, List.not_mem_nil, or_false] at hw
  rcases hw with hw | hw | hw
  · rw [hw]; exact ⟨h0.1, fun i hi => .inl (h1.1 i hi)⟩
  · rw [hw]; exact ⟨h0.2, fun i hi => .inr (h1.2 i hi)⟩
  · rw [hw]; exact wcValid_wcFull _

/-- The comparison of two rule lists: `normalise` (normaliseheaderspace.py 190-243) of both, then `check_equal` (270-330). -/
def compare (r1 r2 : List (Nat × Nat)) : Except PyErr Bool := do
  checkEqual totBits id (← normalise totBits id r1) (← normalise totBits id r2)

/-- Two lists that are found equal: the second rule is shadowed partly or not, the order of disjoint rules does not matter. -/
example : compare [(bit0, 1), (wcFull totBits, 2)] [(bit0, 1), (wcFull totBits, 2)] = .ok true ∧
    compare [(bit0, 1), (bit1, 2)] [(bit1, 2), (bit0, 1)] = .ok true ∧
    compare [(bit0, 1), (wcFull totBits, 2)] [(wcFull totBits, 2), (bit0, 1)] = .ok false := by
  refine ⟨?_, ?_, ?_⟩ <;> decide +kernel

/-- **C57** The converse is violated: rules for `0` and for `1` in one bit do the same as one rule for everything, but are reported as different (the shim
"everything but 0 and 1" is not seen to be empty). -/
theorem C57_incomplete : (∀ p a, Picks totBits [(bit0, 1), (bit1, 1)] p a ↔ Picks totBits [(wcFull totBits, 1)] p a) ∧
    compare [(bit0, 1), (bit1, 1)] [(wcFull totBits, 1)] = .ok false := by
  refine ⟨fun p a => ?_, by decide +kernel⟩
  have c : Covers totBits bit0 p ∨ Covers totBits bit1 p := by
    have h : ∀ i < totBits, ∀ b : Bool, (i ≠ 0 ∨ b = false → bit0.testBit (2 * i + b.toNat) = true) ∧ (i ≠ 0 ∨ b = true → bit1.testBit (2 * i + b.toNat) = true) := by
      decide +kernel
    cases hp : p 0 with
    | false =>
      left
      intro i hi
      refine (h i hi (p i)).1 ?_
      by_cases h0 : i = 0
      · right; rw [h0]; exact hp
      · exact .inl h0
    | true =>
      right
      intro i hi
      refine (h i hi (p i)).2 ?_
      by_cases h0 : i = 0
      · right; rw [h0]; exact hp
      · exact .inl h0
  have full := covers_wcFull totBits p
  constructor
  · rintro ⟨b, x, aft, e, h1, h2, h3⟩
    have hx : x.2 = 1 := by
      have : x ∈ [(bit0, 1), (bit1, 1)] := by rw [e]; simp
      simp only [List.mem_cons, List.not_mem_nil, or_false] at this
      rcases this with rfl | rfl <;> rfl
    exact ⟨[], (wcFull totBits, 1), [], rfl, full, by rw [← h2, hx], fun _ h => by cases h⟩
  · rintro ⟨b, x, aft, e, h1, h2, h3⟩
    have ha : a = 1 := by
      have : x ∈ [(wcFull totBits, 1)] := by rw [e]; simp
      rw [List.mem_singleton] at this
      rw [← h2, this]
    subst ha
    by_cases h0 : Covers totBits bit0 p
    · exact ⟨[], (bit0, 1), [(bit1, 1)], rfl, h0, rfl, fun _ h => by cases h⟩
    · rcases c with c | c
      · exact absurd c h0
      · refine ⟨[(bit0, 1)], (bit1, 1), [], rfl, c, rfl, fun y hy => ?_⟩
        rw [List.mem_singleton.1 hy]; exact h0

/-- An empty ruleset cannot be compared, not even with itself: KeyError. -/
theorem C57_empty : compare [] [] = .error .keyError := by decide +kernel

/-- With `diff=True` different keys are not reported but fail an assertion. -/
theorem C57_diff_asserts : (do checkEqualDiff totBits id (← normalise totBits id [(bit0, 1)]) (← normalise totBits id [(wcFull totBits, 1)])) =
    .error .assertion := by decide +kernel

example := C57_check_equal_sound (n := 2) (ord := id) (by decide) (fun _ => List.Perm.refl _) [(0b0111, 1), (0b1111, 2)] [(0b1011, 2), (0b1111, 1)]
  (by intro r hr; constructor <;> revert r <;> decide) (by intro r hr; constructor <;> revert r <;> decide) (by decide) (by decide)
example := C57_diff (n := 2) (ord := id) (by decide) (fun _ => List.Perm.refl _) [(0b0111, 1), (0b1111, 2)] [(0b1011, 2), (0b1111, 1)]
  (by intro r hr; constructor <;> revert r <;> decide) (by intro r hr; constructor <;> revert r <;> decide) (by decide) (by decide)

end Shim
end OFE
