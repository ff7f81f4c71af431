import Verif.Util.Spec

/-!
# Properties of the utilities (C49, C51, C52, C54)
-/

namespace OFE.Util

/-! ### C49 -/

/-- The number of a lower case letter. -/
def letterNo (c : Char) : Int := c.toNat - 97

theorem letter_facts : ∀ k : Fin 26, letterNo (Char.ofNat (97 + k.1)) = k.1 ∧ Char.ofNat (97 + k.1) ∈ letters false ∧
    (Char.ofNat (97 + k.1)).toUpper ∈ letters true := by decide +kernel

theorem letter_back : ∀ c ∈ letters false, 0 ≤ letterNo c ∧ letterNo c < 26 ∧ Char.ofNat (97 + (letterNo c).toNat) = c := by decide +kernel

theorem upper_facts : (∀ c ∈ letters false, ∀ d ∈ letters false, c.toUpper = d.toUpper → c = d) ∧
    ∀ c ∈ letters true, ∃ d ∈ letters false, d.toUpper = c := by decide +kernel

theorem letter_facts' {v : Int} (h : 0 ≤ v) : letterNo (Char.ofNat (97 + (v % 26).toNat)) = v % 26 ∧ Char.ofNat (97 + (v % 26).toNat) ∈ letters false := by
  have hk : (v % 26).toNat < 26 := by omega
  obtain ⟨h1, h2, -⟩ := letter_facts ⟨_, hk⟩
  refine ⟨?_, h2⟩
  have e : ((v % 26).toNat : Int) = v % 26 := by omega
  rw [← e]
  exact h1

/-- Reading a string of letters back, beginning with the number `x`. -/
def readFrom (x : Int) (l : List Char) : Int := l.foldl (fun x c => (x + 1) * 26 + letterNo c) x

theorem read_alpha (v : Int) (acc : List Char) (h : -1 ≤ v) : readFrom (-1) (alphaLoop v acc) = readFrom v acc := by
  fun_induction alphaLoop v acc with
  | case1 v acc hv ih =>
    rw [ih (by omega)]
    simp only [readFrom, List.foldl_cons]
    rw [(letter_facts' hv).1, show (v / 26 - 1 + 1) * 26 + v % 26 = v from by omega]
  | case2 v acc hv => rw [show v = -1 from by omega]

theorem alpha_step {x : Int} (hx : -1 ≤ x) {c : Char} (hc : c ∈ letters false) (acc : List Char) :
    alphaLoop ((x + 1) * 26 + letterNo c) acc = alphaLoop x (c :: acc) := by
  obtain ⟨h1, h2, h3⟩ := letter_back c hc
  rw [alphaLoop, if_pos (by omega), show ((x + 1) * 26 + letterNo c) / 26 - 1 = x from by omega,
    show ((x + 1) * 26 + letterNo c) % 26 = letterNo c from by omega, h3]

theorem alpha_read (l : List Char) (hl : ∀ c ∈ l, c ∈ letters false) : ∀ (x : Int), -1 ≤ x → ∀ acc,
    alphaLoop (readFrom x l) acc = alphaLoop x (l ++ acc) ∧ -1 ≤ readFrom x l := by
  induction l with
  | nil => intro x hx acc; exact ⟨rfl, hx⟩
  | cons c l ih =>
    intro x hx acc
    have hb := letter_back c (hl c List.mem_cons_self)
    obtain ⟨i1, i2⟩ := ih (fun d hd => hl d (List.mem_cons_of_mem _ hd)) ((x + 1) * 26 + letterNo c) (by omega) acc
    refine ⟨?_, i2⟩
    rw [List.cons_append, ← alpha_step hx (hl c List.mem_cons_self)]
    exact i1

theorem alpha_letters (v : Int) (acc : List Char) (ha : ∀ c ∈ acc, c ∈ letters false) : ∀ c ∈ alphaLoop v acc, c ∈ letters false := by
  fun_induction alphaLoop v acc with
  | case1 v acc hv ih =>
    refine ih fun c hc => ?_
    rcases List.mem_cons.1 hc with rfl | hc
    · exact (letter_facts' hv).2
    · exact ha c hc
  | case2 v acc hv => exact ha

theorem upper_inj {a b : List Char} (ha : ∀ c ∈ a, c ∈ letters false) (hb : ∀ c ∈ b, c ∈ letters false)
    (h : a.map Char.toUpper = b.map Char.toUpper) : a = b := by
  induction a generalizing b with
  | nil => cases b with
    | nil => rfl
    | cons => cases h
  | cons c a ih =>
    cases b with
    | nil => cases h
    | cons d b =>
      simp only [List.map_cons, List.cons.injEq] at h
      rw [upper_facts.1 c (ha c List.mem_cons_self) d (hb d List.mem_cons_self) h.1,
        ih (fun c hc => ha c (List.mem_cons_of_mem _ hc)) (fun c hc => hb c (List.mem_cons_of_mem _ hc)) h.2]

/-- C49: the strings are non-empty and made of letters, distinct for distinct numbers, and every such string is the string of a number; for
lower and upper case. -/
theorem C49_letters (upper : Bool) :
    (∀ v : Int, 0 ≤ v → alphaFormat upper v ≠ [] ∧ ∀ c ∈ alphaFormat upper v, c ∈ letters upper) ∧
    (∀ v w : Int, 0 ≤ v → 0 ≤ w → alphaFormat upper v = alphaFormat upper w → v = w) ∧
    ∀ l : List Char, l ≠ [] → (∀ c ∈ l, c ∈ letters upper) → ∃ v : Int, 0 ≤ v ∧ alphaFormat upper v = l := by
  have low : ∀ v, ∀ c ∈ alphaLoop v [], c ∈ letters false := fun v => alpha_letters v [] (by simp)
  have inj : ∀ {v w : Int}, 0 ≤ v → 0 ≤ w → alphaLoop v [] = alphaLoop w [] → v = w := by
    intro v w hv hw h
    have h1 := read_alpha v [] (by omega)
    have h2 := read_alpha w [] (by omega)
    rw [h] at h1
    exact h1.symm.trans h2
  have nonempty : ∀ {v : Int}, 0 ≤ v → alphaLoop v [] ≠ [] := by
    intro v hv h
    have h1 := read_alpha v [] (by omega)
    rw [h] at h1
    simp only [readFrom, List.foldl_nil] at h1
    omega
  have surj : ∀ l : List Char, l ≠ [] → (∀ c ∈ l, c ∈ letters false) → ∃ v : Int, 0 ≤ v ∧ alphaLoop v [] = l := by
    intro l hl hc
    obtain ⟨h1, h2⟩ := alpha_read l hc (-1) (by omega) []
    rw [List.append_nil, show alphaLoop (-1) l = l from by rw [alphaLoop, if_neg (by omega)]] at h1
    refine ⟨readFrom (-1) l, ?_, h1⟩
    refine Classical.byContradiction fun hneg => ?_
    rw [show readFrom (-1) l = -1 from by omega, alphaLoop, if_neg (by omega)] at h1
    exact hl h1.symm
  cases upper with
  | false => exact ⟨fun v hv => ⟨nonempty hv, low v⟩, fun v w hv hw h => inj hv hw h, surj⟩
  | true =>
    refine ⟨fun v hv => ⟨fun h => nonempty hv (List.map_eq_nil_iff.1 h), fun c hc => ?_⟩, fun v w hv hw h => ?_, fun l hl hc => ?_⟩
    · obtain ⟨d, hd, rfl⟩ := List.mem_map.1 hc
      obtain ⟨h1, h2, h3⟩ := letter_back d (low v d hd)
      have h4 := (letter_facts ⟨(letterNo d).toNat, by omega⟩).2.2
      simp only [h3] at h4
      exact h4
    · exact inj hv hw (upper_inj (low v) (low w) h)
    · have : ∃ l' : List Char, (∀ c ∈ l', c ∈ letters false) ∧ l'.map Char.toUpper = l := by
        clear hl
        induction l with
        | nil => exact ⟨[], by simp, rfl⟩
        | cons c l ih =>
          obtain ⟨l', h1, h2⟩ := ih fun d hd => hc d (List.mem_cons_of_mem _ hd)
          obtain ⟨d, hd, hdc⟩ := upper_facts.2 c (hc c List.mem_cons_self)
          refine ⟨d :: l', fun e he => ?_, by rw [List.map_cons, hdc, h2]⟩
          rcases List.mem_cons.1 he with rfl | he
          · exact hd
          · exact h1 e he
      obtain ⟨l', h1, rfl⟩ := this
      obtain ⟨v, hv, e⟩ := surj l' (by rintro rfl; exact hl rfl) h1
      exact ⟨v, hv, by rw [← e]; rfl⟩

/-- 0, 25, 26, 701 and 702 are a, z, aa, zz and AAA. -/
example : alphaFormat false 0 = ['a'] ∧ alphaFormat false 25 = ['z'] ∧ alphaFormat false 26 = ['a', 'a'] ∧ alphaFormat false 701 = ['z', 'z'] ∧
    alphaFormat true 702 = ['A', 'A', 'A'] := by
  simp [alphaFormat, alphaLoop]

/-! ### C54 -/

/-- C54: the limit is set exactly if there is none and the free memory is known, and then it is the smallest one that allows `m_min`, reserves
at most `max_res`, and reserves at most the given percentage of the free memory. -/
theorem C54_limit (mMin perc : Int) (maxRes : Int) (soft hard : Option Nat) (info : MemInfo) (hp : 0 ≤ perc ∧ perc ≤ 100) :
    ∃ r, limitMemory mMin perc (some maxRes) soft hard info = .ok r ∧
      (r ≠ none ↔ soft = none ∧ hard = none ∧ ∃ kb, info = .free kb) ∧
      ∀ kb, info = .free kb → ∀ L, r = some L →
        (mMin ≤ L ∧ 1024 * kb - L ≤ maxRes ∧ 100 * (1024 * kb - L) ≤ perc * (1024 * kb)) ∧
        ∀ L', mMin ≤ L' → 1024 * kb - L' ≤ maxRes → 100 * (1024 * kb - L') ≤ perc * (1024 * kb) → L ≤ L' := by
  unfold limitMemory
  rw [if_pos hp]
  by_cases hs : soft = none ∧ hard = none
  · rw [if_pos hs]
    cases info with
    | ioError => exact ⟨none, rfl, by simp, fun kb h => by cases h⟩
    | noLine => exact ⟨none, rfl, by simp, fun kb h => by cases h⟩
    | free kb =>
      refine ⟨_, rfl, by simp [hs], ?_⟩
      rintro kb' h L hL
      cases h
      cases hL
      generalize hm : (kb : Int) * 1024 = m
      have hm' : 1024 * (kb : Int) = m := by omega
      rw [hm']
      generalize perc * m = q
      refine ⟨⟨?_, ?_, ?_⟩, fun L' h1 h2 h3 => ?_⟩ <;> omega
  · rw [if_neg hs]
    refine ⟨none, rfl, ?_, fun kb _ L h => by cases h⟩
    constructor
    · intro h; exact absurd rfl h
    · rintro ⟨h1, h2, -⟩; exact absurd ⟨h1, h2⟩ hs

/-- A percentage outside 0 to 100 is refused. -/
theorem C54_assert (mMin perc : Int) (maxRes : Option Int) (soft hard : Option Nat) (info : MemInfo) (hp : ¬ (0 ≤ perc ∧ perc ≤ 100)) :
    limitMemory mMin perc maxRes soft hard info = .error .assertion := if_neg hp

/-- The documented value None of `max_res` ("always use res_perc") raises a TypeError whenever a limit would be set. -/
theorem C54_none_raises (mMin perc : Int) (kb : Nat) (hp : 0 ≤ perc ∧ perc ≤ 100) :
    limitMemory mMin perc none none none (.free kb) = .error .typeError := by
  unfold limitMemory
  rw [if_pos hp, if_pos ⟨rfl, rfl⟩]

/-- 8 GB free with the default parameters: a fifth is reserved. -/
example : limitMemory (512 * 1048576) 20 (some (2048 * 1048576)) none none (.free 8388608) = .ok (some 6871947674) := rfl

/-! ### C51 -/

/-- Inside a block nothing happens any more. -/
theorem unique_inside {μ : Type} (p : Prog UBlock) : ∀ (s : UState μ), s.cls = none → (∀ c ∈ p.blocks, s.saved c.1 = none) →
    (p.run (uniqueRules μ) s).1 = s ∧
    (p.run (uniqueRules μ) s).2.1.map UState.cls = (p.ideal (fun _ _ => true) (fun i c => !i && c.2) true).1.map (fun _ => none) ∧
    (p.run (uniqueRules μ) s).2.2 = (p.ideal (fun _ _ => true) (fun i c => !i && c.2) true).2 := by
  induction p with
  | skip => intro s _ _; exact ⟨rfl, rfl, rfl⟩
  | look => intro s h _; exact ⟨rfl, by simp [Prog.run, Prog.ideal, h], rfl⟩
  | raise => intro s _ _; exact ⟨rfl, rfl, rfl⟩
  | seq p q ihp ihq =>
    intro s h hb
    obtain ⟨a1, a2, a3⟩ := ihp s h fun c hc => hb c (List.mem_append_left _ hc)
    obtain ⟨b1, b2, b3⟩ := ihq s h fun c hc => hb c (List.mem_append_right _ hc)
    simp only [Prog.run, Prog.ideal]
    rw [← a3]
    split
    · exact ⟨a1, a2, a3⟩
    · rw [a1]
      exact ⟨b1, by simp only [List.map_append]; rw [a2, b2], b3⟩
  | attempt p ih =>
    intro s h hb
    obtain ⟨a1, a2, -⟩ := ih s h hb
    exact ⟨a1, a2, rfl⟩
  | block c p ih =>
    intro s h hb
    obtain ⟨a1, a2, a3⟩ := ih s h fun d hd => hb d (List.mem_cons_of_mem _ hd)
    have e1 : (uniqueRules μ).enter c s = (s, false) := by simp only [uniqueRules, h]
    have e2 : (uniqueRules μ).leave c s = (s, false) := by simp only [uniqueRules, hb c List.mem_cons_self]
    simp only [Prog.run, Prog.ideal, e1, a1, e2]
    exact ⟨rfl, a2, by simp [a3]⟩

/-- Outside, the methods are back after every block. -/
theorem unique_outside {μ : Type} (m : μ) (p : Prog UBlock) : ∀ (s : UState μ), s.cls = some m → (∀ c ∈ p.blocks, s.saved c.1 = none) →
    (p.blocks.map Prod.fst).Nodup →
    (p.run (uniqueRules μ) s).1.cls = some m ∧
    (∀ i, i ∉ p.blocks.map Prod.fst → (p.run (uniqueRules μ) s).1.saved i = s.saved i) ∧
    (p.run (uniqueRules μ) s).2.1.map UState.cls =
      (p.ideal (fun _ _ => true) (fun i c => !i && c.2) false).1.map (fun i => if i then none else some m) ∧
    (p.run (uniqueRules μ) s).2.2 = (p.ideal (fun _ _ => true) (fun i c => !i && c.2) false).2 := by
  induction p with
  | skip => intro s h _ _; exact ⟨h, fun _ _ => rfl, rfl, rfl⟩
  | look => intro s h _ _; exact ⟨h, fun _ _ => rfl, by simp [Prog.run, Prog.ideal, h], rfl⟩
  | raise => intro s h _ _; exact ⟨h, fun _ _ => rfl, rfl, rfl⟩
  | seq p q ihp ihq =>
    intro s h hb hn
    simp only [Prog.blocks, List.map_append, List.nodup_append] at hn
    obtain ⟨n1, n2, n3⟩ := hn
    obtain ⟨a1, a2, a3, a4⟩ := ihp s h (fun c hc => hb c (List.mem_append_left _ hc)) n1
    obtain ⟨b1, b2, b3, b4⟩ := ihq (p.run (uniqueRules μ) s).1 a1 (fun c hc => by
      rw [a2 c.1 fun hm => n3 c.1 hm c.1 (List.mem_map_of_mem hc) rfl]
      exact hb c (List.mem_append_right _ hc)) n2
    simp only [Prog.run, Prog.ideal, Prog.blocks, List.map_append, List.mem_append, not_or]
    rw [← a4]
    split
    · exact ⟨a1, fun i hi => a2 i hi.1, a3, a4⟩
    · refine ⟨b1, fun i hi => ?_, by simp only [List.map_append]; rw [a3, b3], b4⟩
      simp only
      rw [b2 i hi.2, a2 i hi.1]
  | attempt p ih =>
    intro s h hb hn
    obtain ⟨a1, a2, a3, -⟩ := ih s h hb hn
    exact ⟨a1, a2, a3, rfl⟩
  | block c p ih =>
    intro s h hb hn
    simp only [Prog.blocks, List.map_cons, List.nodup_cons] at hn
    have e1 : (uniqueRules μ).enter c s = (⟨none, fun i => if i = c.1 then some m else s.saved i⟩, false) := by simp only [uniqueRules, h]
    obtain ⟨a1, a2, a3⟩ := unique_inside p ⟨none, fun i => if i = c.1 then some m else s.saved i⟩ rfl fun d hd => by
      have hdc : d.1 ≠ c.1 := fun e => hn.1 (e ▸ List.mem_map_of_mem hd)
      simp only [if_neg hdc]
      exact hb d (List.mem_cons_of_mem _ hd)
    have hid : ∀ (p : Prog UBlock), ∀ x ∈ (p.ideal (fun _ _ => true) (fun i c => !i && c.2) true).1, x = true := by
      intro p
      induction p with
      | skip => intro x hx; cases hx
      | look => intro x hx; simpa [Prog.ideal] using hx
      | raise => intro x hx; cases hx
      | seq p q i1 i2 =>
        intro x hx
        simp only [Prog.ideal] at hx
        split at hx
        · exact i1 x hx
        · rcases List.mem_append.1 hx with hx | hx
          · exact i1 x hx
          · exact i2 x hx
      | attempt p ih => exact ih
      | block c p ih => exact ih
    have e2 : (uniqueRules μ).leave c ⟨none, fun i => if i = c.1 then some m else s.saved i⟩ =
        (⟨some m, fun i => if i = c.1 then some m else s.saved i⟩, c.2) := by simp [uniqueRules]
    simp only [Prog.run, Prog.ideal, e1, a1, e2]
    refine ⟨rfl, fun i hi => ?_, ?_, by simp [a3]⟩
    · simp only [Prog.blocks, List.map_cons, List.mem_cons, not_or] at hi
      exact if_neg hi.1
    · refine a2.trans (List.map_congr_left fun x hx => ?_)
      rw [hid p x hx]
      rfl

/-- C51: however blocks are nested and left, normally or by an exception, the comparison of rules is what it was before once the outermost block
has been left, and it is identity inside blocks and only there; blocks raise nothing, except leaving the outermost block when `rebuild_mappings`
does.  Every block has its own new object, as in all uses in the code. -/
theorem C51_restored {μ : Type} (m : μ) (p : Prog UBlock) (hn : (p.blocks.map Prod.fst).Nodup) :
    let r := p.run (uniqueRules μ) ⟨some m, fun _ => none⟩
    let x := p.ideal (fun _ _ => true) (fun inside c => !inside && c.2) false
    r.1.cls = some m ∧ r.2.1.map UState.cls = x.1.map (fun inside => if inside then none else some m) ∧ r.2.2 = x.2 := by
  obtain ⟨h1, -, h3, h4⟩ := unique_outside m p ⟨some m, fun _ => none⟩ rfl (fun _ _ => rfl) hn
  exact ⟨h1, h3, h4⟩

/-- Nested blocks, the inner one left by an exception. -/
def uniqueProg : Prog UBlock :=
  .seq .look (.seq (.block (0, false) (.seq (.attempt (.block (1, false) (.seq .look .raise))) .look)) .look)

example : (uniqueProg.blocks.map Prod.fst).Nodup ∧
    (uniqueProg.run (uniqueRules Nat) ⟨some 7, fun _ => none⟩).2.1.map UState.cls = [some 7, none, none, some 7] := by decide

/-- One object used for two nested blocks: comparison is no longer identity in the rest of the outer block. -/
theorem C51_shared_object : ∃ (p : Prog UBlock) (m : Nat),
    ¬ ((p.run (uniqueRules Nat) ⟨some m, fun _ => none⟩).2.1.map UState.cls =
      (p.ideal (fun _ _ => true) (fun inside c => !inside && c.2) false).1.map (fun inside => if inside then none else some m)) :=
  ⟨.block (0, false) (.seq (.block (0, false) .skip) .look), 7, by decide⟩

/-- C51: rebuilding a dict whose keys are different under the restored comparison leaves it as it is. -/
theorem C51_rebuild {κ ν : Type} (eq : κ → κ → Bool) (d : List (κ × ν)) (h : d.Pairwise fun x y => eq x.1 y.1 = false) : rebuildDict eq d = d := by
  have : ∀ (d acc : List (κ × ν)), (acc ++ d).Pairwise (fun x y => eq x.1 y.1 = false) →
      d.foldl (fun acc x => if acc.any (fun y => eq y.1 x.1) then acc.map (fun y => if eq y.1 x.1 then (y.1, x.2) else y) else acc ++ [x]) acc = acc ++ d := by
    intro d
    induction d with
    | nil => intro acc _; simp
    | cons x d ih =>
      intro acc hacc
      have hx : acc.any (fun y => eq y.1 x.1) = false := by
        rw [List.any_eq_false]
        intro y hy
        have := (List.pairwise_append.1 hacc).2.2 y hy x List.mem_cons_self
        simp [this]
      rw [List.foldl_cons, hx]
      simp only [Bool.false_eq_true, if_false]
      rw [ih (acc ++ [x]) (by simpa using hacc)]
      simp
  exact this d [] (by simpa using h)

/-- Rules that are equal under the restored comparison are merged; the docstring asks for unique rules. -/
theorem C51_rebuild_merges : ∃ (eq : Nat → Nat → Bool) (d : List (Nat × Nat)), (d.map Prod.fst).Nodup ∧ rebuildDict eq d ≠ d :=
  ⟨fun a b => a % 2 == b % 2, [(1, 10), (3, 30)], by decide, by decide⟩

example : rebuildDict (fun a b : Nat => a % 10 == b % 10) [(1, 10), (3, 30), (12, 5)] = [(1, 10), (3, 30), (12, 5)] :=
  C51_rebuild _ _ (by decide)

/-! ### C52 -/

theorem delAttrs_spec : ∀ (rs : List Nat) (h : Nat → Bool), rs.Nodup → (∀ r ∈ rs, h r = true) →
    delAttrs rs h = (fun i => !decide (i ∈ rs) && h i, false) := by
  intro rs
  induction rs with
  | nil => intro h _ _; simp [delAttrs]
  | cons r rs ih =>
    intro h hn hh
    obtain ⟨n1, n2⟩ := List.nodup_cons.1 hn
    rw [delAttrs, if_pos (hh r List.mem_cons_self), ih _ n2 fun q hq => ?_]
    · congr 1
      funext i
      by_cases hi : i = r
      · subst hi; simp [n1]
      · simp [hi]
    · have : q ≠ r := fun e => n1 (e ▸ hq)
      simp only [if_neg this]
      exact hh q (List.mem_cons_of_mem _ hq)

theorem attach_spec (rs : Nat → List Nat) (p : Prog Nat) : ∀ (s : AState), p.Laminar rs s.has → p.blocks.Nodup →
    (∀ c ∈ p.blocks, s.ruleset c = some (rs c) ∧ rs c ≠ [] ∧ (rs c).Nodup) →
    (p.run attachBDD s).1.has = s.has ∧ (∀ c, c ∉ p.blocks → (p.run attachBDD s).1.ruleset c = s.ruleset c) ∧
    (p.run attachBDD s).2.1.map AState.has = (p.ideal (fun c cover i => decide (i ∈ rs c) || cover i) (fun _ _ => false) s.has).1 ∧
    (p.run attachBDD s).2.2 = (p.ideal (fun c cover i => decide (i ∈ rs c) || cover i) (fun _ _ => false) s.has).2 := by
  induction p with
  | skip => intro s _ _ _; exact ⟨rfl, fun _ _ => rfl, rfl, rfl⟩
  | look => intro s _ _ _; exact ⟨rfl, fun _ _ => rfl, rfl, rfl⟩
  | raise => intro s _ _ _; exact ⟨rfl, fun _ _ => rfl, rfl, rfl⟩
  | seq p q ihp ihq =>
    intro s hl hn hb
    simp only [Prog.blocks, List.nodup_append] at hn
    obtain ⟨n1, n2, n3⟩ := hn
    obtain ⟨a1, a2, a3, a4⟩ := ihp s hl.1 n1 fun c hc => hb c (List.mem_append_left _ hc)
    obtain ⟨b1, b2, b3, b4⟩ := ihq (p.run attachBDD s).1 (by rw [a1]; exact hl.2) n2 fun c hc => by
      rw [a2 c fun hm => n3 c hm c hc rfl]
      exact hb c (List.mem_append_right _ hc)
    rw [a1] at b1 b3 b4
    simp only [Prog.run, Prog.ideal, Prog.blocks, List.mem_append, not_or]
    rw [← a4]
    split
    · exact ⟨a1, fun c hc => a2 c hc.1, a3, a4⟩
    · refine ⟨b1, fun c hc => ?_, by simp only [List.map_append]; rw [a3, b3], b4⟩
      simp only
      rw [b2 c hc.2, a2 c hc.1]
  | attempt p ih =>
    intro s hl hn hb
    obtain ⟨a1, a2, a3, -⟩ := ih s hl hn hb
    exact ⟨a1, a2, a3, rfl⟩
  | block c p ih =>
    intro s hl hn hb
    obtain ⟨hn1, hn2⟩ := List.nodup_cons.1 hn
    obtain ⟨r1, r2, r3⟩ := hb c List.mem_cons_self
    obtain ⟨hl1, hl2⟩ := hl
    obtain ⟨q, qs, hrs⟩ : ∃ q qs, rs c = q :: qs := by
      cases h : rs c with
      | nil => exact absurd h r2
      | cons q qs => exact ⟨q, qs, rfl⟩
    rcases hl1 with hin | hout
    · have hcov : (fun i => decide (i ∈ rs c) || s.has i) = s.has := by
        funext i
        by_cases hi : i ∈ rs c
        · simp [hin i hi]
        · simp [hi]
      have e1 : attachBDD.enter c s = (⟨s.has, fun i => if i = c then none else s.ruleset i⟩, false) := by
        simp only [attachBDD, r1, hrs, hin q (by rw [hrs]; exact List.mem_cons_self), if_true]
      obtain ⟨a1, a2, a3, a4⟩ := ih ⟨s.has, fun i => if i = c then none else s.ruleset i⟩ (by rw [hcov] at hl2; exact hl2) hn2 fun d hd => by
        have hdc : d ≠ c := fun e => hn1 (e ▸ hd)
        simp only [if_neg hdc]
        exact hb d (List.mem_cons_of_mem _ hd)
      have e2 : attachBDD.leave c (p.run attachBDD ⟨s.has, fun i => if i = c then none else s.ruleset i⟩).1 =
          ((p.run attachBDD ⟨s.has, fun i => if i = c then none else s.ruleset i⟩).1, false) := by
        have : (p.run attachBDD ⟨s.has, fun i => if i = c then none else s.ruleset i⟩).1.ruleset c = none := by
          rw [a2 c hn1]; exact if_pos rfl
        simp only [attachBDD] at this ⊢
        rw [this]
      simp only [Prog.run, Prog.ideal, e1, e2, hcov]
      refine ⟨a1, fun d hd => ?_, a3, by simp [a4]⟩
      simp only [Prog.blocks, List.mem_cons, not_or] at hd
      have := a2 d hd.2
      simp only [if_neg hd.1] at this
      exact this
    · have e1 : attachBDD.enter c s = (⟨fun i => decide (i ∈ rs c) || s.has i, s.ruleset⟩, false) := by
        simp only [attachBDD, r1, hrs, hout q (by rw [hrs]; exact List.mem_cons_self), Bool.false_eq_true, if_false]
      obtain ⟨a1, a2, a3, a4⟩ := ih ⟨fun i => decide (i ∈ rs c) || s.has i, s.ruleset⟩ hl2 hn2 fun d hd => hb d (List.mem_cons_of_mem _ hd)
      have hru : (p.run attachBDD ⟨fun i => decide (i ∈ rs c) || s.has i, s.ruleset⟩).1.ruleset c = some (rs c) := by rw [a2 c hn1]; exact r1
      have e2 : attachBDD.leave c (p.run attachBDD ⟨fun i => decide (i ∈ rs c) || s.has i, s.ruleset⟩).1 =
          (⟨s.has, (p.run attachBDD ⟨fun i => decide (i ∈ rs c) || s.has i, s.ruleset⟩).1.ruleset⟩, false) := by
        generalize p.run attachBDD ⟨fun i => decide (i ∈ rs c) || s.has i, s.ruleset⟩ = x at a1 hru
        obtain ⟨⟨xh, xr⟩, xx⟩ := x
        simp only at a1 hru
        subst a1
        simp only [attachBDD, hru]
        rw [delAttrs_spec (rs c) _ r3 fun i hi => by simp [hi]]
        simp only [Prod.mk.injEq, AState.mk.injEq, and_true]
        funext i
        by_cases hi : i ∈ rs c
        · simp [hi, hout i hi]
        · simp [hi]
      simp only [Prog.run, Prog.ideal, e1, e2]
      refine ⟨rfl, fun d hd => ?_, a3, by simp [a4]⟩
      simp only [Prog.blocks, List.mem_cons, not_or] at hd
      exact a2 d hd.2

/-- C52: however blocks are nested and left, the rules that have an `as_BDD` attribute are those of the enclosing blocks, no rule keeps one at
the end, and the blocks raise nothing.  Every block has its own new object, rulesets are non-empty lists of different rules, and a block within
another uses rules of the enclosing ones only or other rules only (as all uses in the code). -/
theorem C52_attached (rs : Nat → List Nat) (p : Prog Nat) (hl : p.Laminar rs fun _ => false) (hn : p.blocks.Nodup)
    (hr : ∀ c ∈ p.blocks, rs c ≠ [] ∧ (rs c).Nodup) :
    let r := p.run attachBDD ⟨fun _ => false, fun c => some (rs c)⟩
    let x := p.ideal (fun c cover i => decide (i ∈ rs c) || cover i) (fun _ _ => false) (fun _ => false)
    (∀ i, r.1.has i = false) ∧ r.2.1.map AState.has = x.1 ∧ r.2.2 = x.2 := by
  obtain ⟨h1, -, h3, h4⟩ := attach_spec rs p ⟨fun _ => false, fun c => some (rs c)⟩ hl hn fun c hc => ⟨rfl, hr c hc⟩
  exact ⟨fun i => by rw [h1], h3, h4⟩

/-- As in `build_ruleset_deps`: a block for all rules, within it blocks for the tables, one left by an exception. -/
example : let rs : Nat → List Nat := fun c => if c = 0 then [1, 2, 3] else if c = 1 then [1, 2] else [3]
    let p : Prog Nat := .block 0 (.seq (.block 1 .look) (.seq (.attempt (.block 2 .raise)) .look))
    (∀ i, (p.run attachBDD ⟨fun _ => false, fun c => some (rs c)⟩).1.has i = false) ∧
    ((p.run attachBDD ⟨fun _ => false, fun c => some (rs c)⟩).2.1.map fun s => [1, 2, 3, 4].map s.has) =
      [[true, true, true, false], [true, true, true, false]] := by
  intro rs p
  refine ⟨(C52_attached rs p ?_ (by decide) ?_).1, by decide⟩
  · exact ⟨.inr (by simp), ⟨.inl (by simp [rs]), trivial⟩, ⟨.inl (by simp [rs]), trivial⟩, trivial⟩
  · simp [p, rs, Prog.blocks]

/-- A rule that is twice in the list: leaving the block raises AttributeError. -/
theorem C52_repeated_rule : ((Prog.block 0 Prog.skip).run attachBDD ⟨fun _ => false, fun _ => some [1, 1]⟩).2.2 = true := by decide

/-- One object used for two nested blocks: the attributes stay. -/
theorem C52_shared_object : ((Prog.block 0 (.block 0 .skip)).run attachBDD ⟨fun _ => false, fun _ => some [1]⟩).1.has 1 = true := by decide

/-- An inner block with more rules than the outer one leaves them without diagrams. -/
theorem C52_larger_inner : ∃ s, s ∈ ((Prog.block 0 (.block 1 .look)).run attachBDD
    ⟨fun _ => false, fun c => if c = 0 then some [1] else some [1, 2]⟩).2.1 ∧ s.has 2 = false :=
  ⟨_, List.mem_cons_self, by decide⟩

end OFE.Util
