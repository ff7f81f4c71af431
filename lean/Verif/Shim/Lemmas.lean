import Verif.Shim.Spec
import Verif.Wildcard.Lemmas
import Verif.Deps.Lemmas

/-! # Lemmas about shims -/

namespace OFE
namespace Shim

variable {n : Nat}

/-- All positive wildcards of a history cover `p`. -/
def Pos (n : Nat) (A : List (Nat × Bool)) (p : Packet) : Prop := ∀ w, (w, true) ∈ A → Covers n w p

/-- The value of a shim after a history of additions. -/
structure Can (n : Nat) (s : Shim) (A : List (Nat × Bool)) : Prop where
  zero_iff : s.zero = true ↔ (∃ e, (e, false) ∈ A ∧ ∀ p, Pos n A p → Covers n e p) ∨ ¬ ∃ p, Pos n A p
  inc : s.zero = false → ∃ m, s.inc = some m ∧ WcValid n m ∧ ∀ p, Covers n m p ↔ Pos n A p
  exc : s.zero = false → ∀ e, e ∈ s.exc ↔ (e, false) ∈ A ∧ ∀ x, (x, false) ∈ A → wcIsSubset e x = true → x = e

theorem Can.congr {s : Shim} {A B : List (Nat × Bool)} (h : ∀ x, x ∈ A ↔ x ∈ B) (hs : Can n s A) : Can n s B := by
  have hp : ∀ p, Pos n A p ↔ Pos n B p := fun p => by simp only [Pos, h]
  refine ⟨?_, ?_, ?_⟩
  · rw [hs.zero_iff]; simp only [h, hp]
  · intro hz
    obtain ⟨m, h1, h2, h3⟩ := hs.inc hz
    exact ⟨m, h1, h2, fun p => (h3 p).trans (hp p)⟩
  · intro hz e
    rw [hs.exc hz e]; simp only [h]

theorem Can.eqv {s s' : Shim} {A : List (Nat × Bool)} (h : Can n s A) (h' : Can n s' A) : eqv s s' = true := by
  unfold Shim.eqv
  have hz : s.zero = s'.zero := by rw [Bool.eq_iff_iff, h.zero_iff, h'.zero_iff]
  cases hs : s.zero with
  | true => rw [hs] at hz; rw [← hz]; rfl
  | false =>
    have hs' : s'.zero = false := by rw [← hz, hs]
    obtain ⟨m, h1, h2, h3⟩ := h.inc hs
    obtain ⟨m', h1', h2', h3'⟩ := h'.inc hs'
    have hm : m = m' := wc_ext h2 h2' fun p => (h3 p).trans (h3' p).symm
    rw [hs', h1, h1', hm]
    simp only [Bool.or_self, Bool.false_eq_true, if_false, decide_true, Bool.true_and, Bool.and_eq_true, List.all_eq_true, List.contains_iff_mem]
    exact ⟨fun x hx => (h'.exc hs' x).2 ((h.exc hs x).1 hx), fun x hx => (h.exc hs x).2 ((h'.exc hs' x).1 hx)⟩

/-- Every excluded wildcard lies in a maximal one. -/
theorem exists_max (A : List (Nat × Bool)) : ∀ (k e : Nat), (e, false) ∈ A →
    (A.filter fun x => decide (x.2 = false) && wcIsSubset e x.1 && decide (x.1 ≠ e)).length ≤ k →
    ∃ f, (f, false) ∈ A ∧ wcIsSubset e f = true ∧ ∀ x, (x, false) ∈ A → wcIsSubset f x = true → x = f
  | k, e, he, hk => by
    by_cases h : ∃ x, (x, false) ∈ A ∧ wcIsSubset e x = true ∧ x ≠ e
    · obtain ⟨x, hx, hex, hne⟩ := h
      have hmem : (x, false) ∈ A.filter fun x => decide (x.2 = false) && wcIsSubset e x.1 && decide (x.1 ≠ e) := by
        simp [hx, hex, hne]
      have hlt : (A.filter fun y => decide (y.2 = false) && wcIsSubset x y.1 && decide (y.1 ≠ x)).length <
          (A.filter fun x => decide (x.2 = false) && wcIsSubset e x.1 && decide (x.1 ≠ e)).length := by
        have e1 : (A.filter fun y => decide (y.2 = false) && wcIsSubset x y.1 && decide (y.1 ≠ x)) =
            (A.filter fun x => decide (x.2 = false) && wcIsSubset e x.1 && decide (x.1 ≠ e)).filter
              (fun y => decide (y.2 = false) && wcIsSubset x y.1 && decide (y.1 ≠ x)) := by
          rw [List.filter_filter]
          refine List.filter_congr fun y hy => ?_
          rw [Bool.eq_iff_iff]
          simp only [Bool.and_eq_true, decide_eq_true_eq]
          constructor
          · rintro ⟨⟨h1, h2⟩, h3⟩
            refine ⟨⟨⟨h1, h2⟩, h3⟩, ⟨h1, wcIsSubset_trans hex h2⟩, fun hye => ?_⟩
            rw [hye] at h2
            exact hne (wcIsSubset_antisymm h2 hex)
          · exact fun h => h.1
        rw [e1]
        exact List.length_filter_lt_length_iff_exists.2 ⟨(x, false), hmem, by simp⟩
      match k with
      | 0 => omega
      | k + 1 =>
        obtain ⟨f, h1, h2, h3⟩ := exists_max A k x hx (by omega)
        exact ⟨f, h1, wcIsSubset_trans hex h2, h3⟩
    · refine ⟨e, he, wcIsSubset_refl e, fun x hx hex => ?_⟩
      by_contra hne
      exact h ⟨x, hx, hex, hne⟩

/-- What a shim stands for. -/
theorem Can.has {s : Shim} {A : List (Nat × Bool)} (h : Can n s A) (p : Packet) :
    s.Has n p ↔ Pos n A p ∧ ∀ e, (e, false) ∈ A → ¬ Covers n e p := by
  constructor
  · rintro ⟨hz, h1, h2⟩
    obtain ⟨m, i1, i2, i3⟩ := h.inc hz
    refine ⟨(i3 p).1 (h1 m i1), fun e he hc => ?_⟩
    obtain ⟨f, f1, f2, f3⟩ := exists_max A _ e he (Nat.le_refl _)
    exact h2 f ((h.exc hz f).2 ⟨f1, f3⟩) (covers_mono f2 hc)
  · rintro ⟨h1, h2⟩
    have hz : s.zero = false := by
      cases hz : s.zero with
      | false => rfl
      | true =>
        rcases h.zero_iff.1 hz with ⟨e, he, hc⟩ | hno
        · exact absurd (hc p h1) (h2 e he)
        · exact absurd ⟨p, h1⟩ hno
    obtain ⟨m, i1, i2, i3⟩ := h.inc hz
    refine ⟨hz, fun w hw => ?_, fun e he => h2 e ((h.exc hz e).1 he).1⟩
    rw [i1] at hw; cases hw
    exact (i3 p).2 h1

theorem eqv_iff {a b : Shim} : eqv a b = true ↔
    (a.zero = true ∧ b.zero = true) ∨ (a.zero = false ∧ b.zero = false ∧ a.inc = b.inc ∧ ∀ x, x ∈ a.exc ↔ x ∈ b.exc) := by
  unfold eqv
  cases a.zero <;> cases b.zero <;>
    simp only [Bool.or_self, Bool.or_true, Bool.or_false, Bool.true_or, Bool.false_or, Bool.and_self, Bool.and_true, Bool.and_false, Bool.false_and, Bool.true_and,
      if_true, if_false, Bool.false_eq_true, Bool.and_eq_true, decide_eq_true_eq, List.all_eq_true, List.contains_iff_mem, true_and, and_true, false_and, and_false,
      or_false, false_or, reduceCtorEq, or_self]
  constructor
  · rintro ⟨⟨h1, h2⟩, h3⟩; exact ⟨h1, fun x => ⟨h2 x, h3 x⟩⟩
  · rintro ⟨h1, h2⟩; exact ⟨⟨h1, fun x => (h2 x).1⟩, fun x => (h2 x).2⟩

theorem eqv_refl (a : Shim) : eqv a a = true := by
  rw [eqv_iff]
  cases a.zero <;> simp

theorem eqv_symm {a b : Shim} (h : eqv a b = true) : eqv b a = true := by
  rw [eqv_iff] at h ⊢
  rcases h with ⟨h1, h2⟩ | ⟨h1, h2, h3, h4⟩
  · exact .inl ⟨h2, h1⟩
  · exact .inr ⟨h2, h1, h3.symm, fun x => (h4 x).symm⟩

theorem eqv_trans {a b c : Shim} (h : eqv a b = true) (h' : eqv b c = true) : eqv a c = true := by
  rw [eqv_iff] at h h' ⊢
  rcases h with ⟨h1, h2⟩ | ⟨h1, h2, h3, h4⟩ <;> rcases h' with ⟨h1', h2'⟩ | ⟨h1', h2', h3', h4'⟩
  · exact .inl ⟨h1, h2'⟩
  · rw [h2] at h1'; cases h1'
  · rw [h2] at h1'; cases h1'
  · exact .inr ⟨h1, h2', h3.trans h3', fun x => (h4 x).trans (h4' x)⟩

theorem has_congr {a b : Shim} (h : eqv a b = true) (p : Packet) : a.Has n p ↔ b.Has n p := by
  rw [eqv_iff] at h
  rcases h with ⟨h1, h2⟩ | ⟨h1, h2, h3, h4⟩
  · simp [Shim.Has, h1, h2]
  · simp only [Shim.Has, h1, h2, h3, h4]

/-- The loop over the excludes, given that none contains another. -/
theorem scan_spec (wc : Nat) : ∀ (es rem : List Nat), (∀ a ∈ rem ++ es, ∀ b ∈ rem ++ es, wcIsSubset a b = true → a = b) → (∀ r ∈ rem, wcIsSubset r wc = true) →
    (∃ e ∈ es, wcIsSubset wc e = true ∧ ¬ wcIsSubset e wc = true ∧ scan wc es rem = .ok none) ∨
    ((∀ e ∈ es, wcIsSubset wc e = true → wcIsSubset e wc = true) ∧ scan wc es rem = .ok (some (rem ++ es.filter fun e => wcIsSubset e wc)))
  | [], rem, _, _ => .inr ⟨fun _ h => (by cases h), by simp [scan]⟩
  | e :: es, rem, hanti, hrem => by
    rw [scan]
    by_cases h1 : wcIsSubset e wc = true
    · rw [if_pos h1]
      rcases scan_spec wc es (rem ++ [e]) (by simpa using hanti) (by
        intro r hr
        rcases List.mem_append.1 hr with hr | hr
        · exact hrem r hr
        · rw [List.mem_singleton.1 hr]; exact h1) with ⟨f, hf, h2, h3, h4⟩ | ⟨h2, h3⟩
      · exact .inl ⟨f, List.mem_cons_of_mem _ hf, h2, h3, h4⟩
      · refine .inr ⟨fun f hf => ?_, ?_⟩
        · rcases List.mem_cons.1 hf with rfl | hf
          · exact fun _ => h1
          · exact h2 f hf
        · rw [h3, List.filter_cons_of_pos (by simpa using h1), List.append_assoc]; rfl
    · rw [if_neg h1]
      by_cases h2 : wcIsSubset wc e = true
      · rw [if_pos h2]
        have : rem = [] := by
          cases rem with
          | nil => rfl
          | cons r rem =>
            exfalso
            have hre : wcIsSubset r e = true := wcIsSubset_trans (hrem r List.mem_cons_self) h2
            have := hanti r (by simp) e (by simp) hre
            rw [this] at hrem
            exact h1 (hrem e List.mem_cons_self)
        subst this
        exact .inl ⟨e, List.mem_cons_self, h2, h1, rfl⟩
      · rw [if_neg h2]
        rcases scan_spec wc es rem (fun a ha b hb => hanti a (by simp at ha ⊢; tauto) b (by simp at hb ⊢; tauto)) hrem with ⟨f, hf, h3, h4, h5⟩ | ⟨h3, h4⟩
        · exact .inl ⟨f, List.mem_cons_of_mem _ hf, h3, h4, h5⟩
        · refine .inr ⟨fun f hf => ?_, ?_⟩
          · rcases List.mem_cons.1 hf with rfl | hf
            · exact fun h => absurd h h2
            · exact h3 f hf
          · rw [h4, List.filter_cons_of_neg (by simpa using h1)]

theorem pos_snoc_true {A : List (Nat × Bool)} {wc : Nat} {p : Packet} : Pos n (A ++ [(wc, true)]) p ↔ Pos n A p ∧ Covers n wc p := by
  simp only [Pos, List.mem_append, List.mem_singleton, Prod.mk.injEq, and_true]
  constructor
  · intro h; exact ⟨fun w hw => h w (.inl hw), h wc (.inr rfl)⟩
  · rintro ⟨h1, h2⟩ w (hw | rfl)
    · exact h1 w hw
    · exact h2

theorem pos_snoc_false {A : List (Nat × Bool)} {wc : Nat} {p : Packet} : Pos n (A ++ [(wc, false)]) p ↔ Pos n A p := by
  simp only [Pos, List.mem_append, List.mem_singleton, Prod.mk.injEq, Bool.true_eq_false, and_false, or_false]

/-- One addition, in any order of iteration. -/
theorem add_can {ord : List Nat → List Nat} (hn : 0 < n) (hord : ∀ l, (ord l).Perm l) {s : Shim} {A : List (Nat × Bool)} (h : Can n s A) {wc : Nat} (hw : WcValid n wc)
    (b : Bool) : ∃ s', add n ord s wc b = .ok s' ∧ Can n s' (A ++ [(wc, b)]) := by
  unfold add
  cases hz : s.zero with
  | true =>
    refine ⟨s, by simp, ?_, fun h' => (by rw [hz] at h'; cases h'), fun h' => (by rw [hz] at h'; cases h')⟩
    refine ⟨fun _ => ?_, fun _ => hz⟩
    rcases h.zero_iff.1 hz with ⟨e, he, hc⟩ | hno
    · refine .inl ⟨e, List.mem_append_left _ he, fun p hp => hc p ?_⟩
      exact fun w hw' => hp w (List.mem_append_left _ hw')
    · exact .inr fun ⟨p, hp⟩ => hno ⟨p, fun w hw' => hp w (List.mem_append_left _ hw')⟩
  | false =>
    obtain ⟨m, i1, i2, i3⟩ := h.inc hz
    have hexc := h.exc hz
    have hnz : ¬ ((∃ e, (e, false) ∈ A ∧ ∀ p, Pos n A p → Covers n e p) ∨ ¬ ∃ p, Pos n A p) := by
      rw [← h.zero_iff, hz]; simp
    cases b with
    | true =>
      simp only [Bool.false_eq_true, if_false, if_true, i1]
      by_cases hm : wcIntersect n m wc = 0
      · refine ⟨_, by rw [if_pos hm], ⟨fun _ => .inr ?_, fun _ => rfl⟩, fun h' => (by cases h'), fun h' => (by cases h')⟩
        rintro ⟨p, hp⟩
        rw [pos_snoc_true] at hp
        exact (wcIntersect_eq_zero hn m wc).1 hm ⟨p, (i3 p).2 hp.1, hp.2⟩
      · have hv := wcValid_wcIntersect i2 hm
        have hcov : ∀ p, Covers n (wcIntersect n m wc) p ↔ Pos n (A ++ [(wc, true)]) p := by
          intro p; rw [covers_wcIntersect hn, pos_snoc_true, i3]
        refine ⟨_, by rw [if_neg hm], ⟨?_, fun _ => ⟨_, rfl, hv, hcov⟩, fun _ e => ?_⟩⟩
        · simp only [List.any_eq_true]
          constructor
          · rintro ⟨e, he, hsub⟩
            exact .inl ⟨e, List.mem_append_left _ ((hexc e).1 he).1, fun p hp => covers_mono hsub ((hcov p).2 hp)⟩
          · rintro (⟨e, he, hc⟩ | hno)
            · have he' : (e, false) ∈ A := by simpa using he
              obtain ⟨f, f1, f2, f3⟩ := exists_max A _ e he' (Nat.le_refl _)
              exact ⟨f, (hexc f).2 ⟨f1, f3⟩, wcIsSubset_trans ((wcIsSubset_iff hv).2 fun p hp => hc p ((hcov p).1 hp)) f2⟩
            · exfalso
              obtain ⟨p, hp⟩ := exists_covers hv.noZ
              exact hno ⟨p, (hcov p).1 hp⟩
        · simp only [hexc, List.mem_append, List.mem_singleton, Prod.mk.injEq, Bool.false_eq_true, and_false, or_false]
    | false =>
      simp only [Bool.false_eq_true, if_false, i1]
      by_cases hm : wcIsSubset m wc = true
      · refine ⟨_, by rw [if_pos hm], ⟨fun _ => .inl ⟨wc, by simp, fun p hp => ?_⟩, fun _ => rfl⟩, fun h' => (by cases h'), fun h' => (by cases h')⟩
        exact covers_mono hm ((i3 p).2 (pos_snoc_false.1 hp))
      · rw [if_neg hm]
        have hanti : ∀ a ∈ ([] : List Nat) ++ ord s.exc, ∀ b ∈ ([] : List Nat) ++ ord s.exc, wcIsSubset a b = true → a = b := by
          intro a ha b hb hab
          rw [List.nil_append, (hord _).mem_iff] at ha hb
          exact (((hexc a).1 ha).2 b ((hexc b).1 hb).1 hab).symm
        have zero' : ¬ ((∃ e, (e, false) ∈ A ++ [(wc, false)] ∧ ∀ p, Pos n (A ++ [(wc, false)]) p → Covers n e p) ∨ ¬ ∃ p, Pos n (A ++ [(wc, false)]) p) := by
          simp only [pos_snoc_false]
          rintro (⟨e, he, hc⟩ | hno)
          · simp only [List.mem_append, List.mem_singleton, Prod.mk.injEq, and_true] at he
            rcases he with he | rfl
            · exact hnz (.inl ⟨e, he, hc⟩)
            · exact hm ((wcIsSubset_iff i2).2 fun p hp => hc p ((i3 p).1 hp))
          · exact hnz (.inr hno)
        have hinc : ∀ p, Covers n m p ↔ Pos n (A ++ [(wc, false)]) p := fun p => by rw [pos_snoc_false, i3]
        rcases scan_spec wc (ord s.exc) [] hanti (fun _ h => by cases h) with ⟨e, he, h1, h2, h3⟩ | ⟨h1, h2⟩
        · rw [h3]
          rw [(hord _).mem_iff] at he
          refine ⟨s, rfl, ⟨?_, fun _ => ⟨m, i1, i2, hinc⟩, fun _ x => ?_⟩⟩
          · rw [hz]; simp only [Bool.false_eq_true, false_iff]; exact zero'
          · rw [hexc x]
            simp only [List.mem_append, List.mem_singleton, Prod.mk.injEq, and_true]
            constructor
            · rintro ⟨x1, x2⟩
              refine ⟨.inl x1, fun y hy hxy => ?_⟩
              rcases hy with hy | rfl
              · exact x2 y hy hxy
              · have hxe := x2 e ((hexc e).1 he).1 (wcIsSubset_trans hxy h1)
                rw [hxe] at h2
                exact absurd hxy h2
            · rintro ⟨x1 | rfl, x2⟩
              · exact ⟨x1, fun y hy => x2 y (.inl hy)⟩
              · exact absurd (by rw [x2 e (.inl ((hexc e).1 he).1) h1]; exact wcIsSubset_refl _) h2
        · rw [h2]
          refine ⟨_, rfl, ⟨?_, fun _ => ⟨m, rfl, i2, hinc⟩, fun _ x => ?_⟩⟩
          · simp only [Bool.false_eq_true, false_iff]; exact zero'
          · simp only [Deps.mem_setAdd, List.mem_filter, List.nil_append, Bool.not_eq_true', hexc]
            have hcont : (List.filter (fun e => wcIsSubset e wc) (ord s.exc)).contains x = false ↔ ¬ (x ∈ s.exc ∧ wcIsSubset x wc = true) := by
              rw [← Bool.not_eq_true, List.contains_iff_mem, List.mem_filter, (hord _).mem_iff]
            rw [hcont]
            have hle : ∀ e ∈ s.exc, wcIsSubset wc e = true → wcIsSubset e wc = true := fun e he => h1 e ((hord _).mem_iff.2 he)
            simp only [List.mem_append, List.mem_singleton, Prod.mk.injEq, and_true]
            constructor
            · rintro (rfl | ⟨⟨x1, x2⟩, x3⟩)
              · refine ⟨.inr rfl, fun y hy hxy => ?_⟩
                rcases hy with hy | rfl
                · obtain ⟨f, f1, f2, f3⟩ := exists_max A _ y hy (Nat.le_refl _)
                  have := hle f ((hexc f).2 ⟨f1, f3⟩) (wcIsSubset_trans hxy f2)
                  exact wcIsSubset_antisymm (wcIsSubset_trans f2 this) hxy
                · rfl
              · refine ⟨.inl x1, fun y hy hxy => ?_⟩
                rcases hy with hy | rfl
                · exact x2 y hy hxy
                · exact absurd ⟨(hexc x).2 ⟨x1, x2⟩, hxy⟩ x3
            · rintro ⟨x1, x2⟩
              by_cases hxw : x = wc
              · exact .inl hxw
              · rcases x1 with x1 | x1
                · refine .inr ⟨⟨x1, fun y hy => x2 y (.inl hy)⟩, fun hc => hxw (x2 wc (.inr rfl) hc.2).symm⟩
                · exact absurd x1 hxw

theorem ofWc_can {ord : List Nat → List Nat} (hn : 0 < n) {wc : Nat} (hw : WcValid n wc) :
    ∃ s, ofWc n ord wc = .ok s ∧ Can n s [(wc, true)] := by
  obtain ⟨p, hp⟩ := exists_covers hw.noZ
  have h0 : wc ≠ 0 := by rintro rfl; exact not_covers_zero hn p hp
  have hpos : ∀ p, Pos n [(wc, true)] p ↔ Covers n wc p := by
    intro p; simp [Pos]
  refine ⟨⟨false, some wc, []⟩, by simp [ofWc, add, h0], ⟨?_, fun _ => ⟨wc, rfl, hw, fun p => (hpos p).symm⟩, fun _ e => by simp⟩⟩
  simp only [Bool.false_eq_true, false_iff, hpos]
  rintro (⟨e, he, -⟩ | hno)
  · simp at he
  · exact hno ⟨p, hp⟩

end Shim
end OFE
