import Verif.Groups.Lemmas
import Verif.Deps.OfRule
import Verif.Deps.Dag

/-! # The keys by which rules are compared -/

namespace OFE
namespace Groups

/-! ## What equal keys mean -/

theorem testBit_oddMask : ∀ (n i : Nat), (oddMask n).testBit i = (decide (i < 2 * n) && decide (i % 2 = 0))
  | 0, i => by simp [oddMask]
  | n + 1, i => by
    rw [oddMask, Nat.testBit_or, Nat.testBit_shiftLeft, testBit_oddMask n]
    rcases Nat.lt_or_ge i 2 with h | h
    · have : i = 0 ∨ i = 1 := by omega
      rcases this with rfl | rfl <;> simp [Nat.testBit]
    · have h1 : (1 : Nat).testBit i = false := by rw [Nat.testBit_lt_two_pow]; exact Nat.one_lt_two_pow (by omega)
      rw [h1, Bool.or_false, Bool.eq_iff_iff]
      simp only [Bool.and_eq_true, decide_eq_true_eq]
      omega

theorem testBit_wildcardMask (w i : Nat) :
    (wildcardMask w).testBit i = (w.testBit i && w.testBit (i + 1) && (decide (i < 2 * totBits) && decide (i % 2 = 0))) := by
  rw [wildcardMask, Nat.testBit_and, Nat.testBit_and, Nat.testBit_shiftRight, testBit_oddMask, bytesNeeded_eq, Nat.add_comm 1 i]

theorem wildcardMask_eq_iff {a b : Nat} : wildcardMask a = wildcardMask b ↔
    ∀ i < totBits, (a.testBit (2 * i) = true ∧ a.testBit (2 * i + 1) = true) ↔ (b.testBit (2 * i) = true ∧ b.testBit (2 * i + 1) = true) := by
  constructor
  · intro h i hi
    have := congrArg (fun x => x.testBit (2 * i)) h
    simp only [testBit_wildcardMask] at this
    have h1 : decide (2 * i < 2 * totBits) = true := decide_eq_true (by omega)
    have h2 : decide (2 * i % 2 = 0) = true := decide_eq_true (by omega)
    rw [h1, h2, Bool.and_self, Bool.and_true, Bool.and_true] at this
    rw [← Bool.and_eq_true, ← Bool.and_eq_true, this]
  · intro h
    refine Nat.eq_of_testBit_eq fun i => ?_
    rw [testBit_wildcardMask, testBit_wildcardMask, Bool.eq_iff_iff]
    simp only [Bool.and_eq_true, decide_eq_true_eq]
    constructor
    · rintro ⟨h1, h2, h3⟩
      obtain ⟨j, rfl⟩ : ∃ j, i = 2 * j := ⟨i / 2, by omega⟩
      exact ⟨(h j (by omega)).1 h1, h2, h3⟩
    · rintro ⟨h1, h2, h3⟩
      obtain ⟨j, rfl⟩ : ∃ j, i = 2 * j := ⟨i / 2, by omega⟩
      exact ⟨(h j (by omega)).2 h1, h2, h3⟩

theorem free_iff {m : Match} {w : Nat} (hv : WcValid totBits w) (hc : ∀ p, Covers totBits w p ↔ MatchesAll m.items p) {i : Nat} (hi : i < totBits) :
    Free m i ↔ (w.testBit (2 * i) = true ∧ w.testBit (2 * i + 1) = true) := by
  constructor
  · intro h
    -- a packet that is covered
    let p : Packet := fun j => w.testBit (2 * j + 1)
    have hp : Covers totBits w p := by
      intro j hj
      cases hb : w.testBit (2 * j + 1) with
      | true => simp only [p, hb, Bool.toNat_true]
      | false =>
        simp only [p, hb, Bool.toNat_false]
        rcases hv.noZ j hj with h' | h'
        · exact h'
        · rw [hb] at h'; cases h'
    have any : ∀ b : Bool, Covers totBits w (fun j => if j = i then b else p j) := fun b =>
      (hc _).2 ((h p _ (fun j hj => by simp [hj])).1 ((hc p).1 hp))
    have h0 := any false i hi
    have h1 := any true i hi
    simp only [if_pos, Bool.toNat_false, Bool.toNat_true] at h0 h1
    exact ⟨h0, h1⟩
  · intro h p q hpq
    rw [← hc, ← hc]
    have gen : ∀ p q : Packet, (∀ j, j ≠ i → p j = q j) → Covers totBits w p → Covers totBits w q := by
      intro p q hpq hp j hj
      by_cases hji : j = i
      · subst hji
        cases q j
        · exact h.1
        · exact h.2
      · rw [← hpq j hji]; exact hp j hj
    exact ⟨gen p q hpq, gen q p fun j hj => (hpq j hj).symm⟩

theorem actionTuple_spec (l : List TypeKey) : (actionTuple l).Nodup ∧ (∀ x, x ∈ actionTuple l ↔ x ∈ l) ∧
    (actionTuple l).Pairwise fun a b => typeCode a ≤ typeCode b := by
  have hset : ∀ (l s : List TypeKey), s.Nodup → (l.foldl (fun s x => Deps.setAdd x s) s).Nodup ∧ ∀ x, x ∈ l.foldl (fun s x => Deps.setAdd x s) s ↔ x ∈ s ∨ x ∈ l := by
    intro l
    induction l with
    | nil => intro s hs; exact ⟨hs, fun x => by simp⟩
    | cons y l ih =>
      intro s hs
      obtain ⟨h1, h2⟩ := ih (Deps.setAdd y s) (Deps.nodup_setAdd hs)
      refine ⟨h1, fun x => ?_⟩
      rw [List.foldl_cons, h2 x, Deps.mem_setAdd, List.mem_cons, or_comm (a := x = y), or_assoc]
  obtain ⟨h1, h2⟩ := hset l [] List.nodup_nil
  have hp := Deps.sortBy_perm (fun a b => decide (typeCode a ≤ typeCode b)) (l.foldl (fun s x => Deps.setAdd x s) [])
  refine ⟨hp.nodup_iff.2 h1, fun x => ?_, ?_⟩
  · rw [actionTuple, hp.mem_iff, h2 x]; simp
  · have := Deps.sortBy_sorted (fun a b => decide (typeCode a ≤ typeCode b)) (fun a b => by simp only [decide_eq_true_eq]; exact List.le_total _ _)
      (fun a b c h h' => by simp only [decide_eq_true_eq] at *; exact List.le_trans h h') (l.foldl (fun s x => Deps.setAdd x s) [])
    exact this.imp (fun h => of_decide_eq_true h)

theorem actionTuple_eq_iff (a b : List TypeKey) : actionTuple a = actionTuple b ↔ ∀ x, x ∈ a ↔ x ∈ b := by
  obtain ⟨a1, a2, a3⟩ := actionTuple_spec a
  obtain ⟨b1, b2, b3⟩ := actionTuple_spec b
  constructor
  · intro h x; rw [← a2, ← b2, h]
  · intro h
    have hp : (actionTuple a).Perm (actionTuple b) := (List.perm_ext_iff_of_nodup a1 b1).2 fun x => by rw [a2, b2, h]
    exact hp.eq_of_pairwise (fun x y _ _ h1 h2 => typeCode_inj (List.le_antisymm h1 h2)) a3 b3

theorem mem_types {π : Type} (r : Rule π) (ty : TypeKey) :
    ty ∈ r.inst.write.iter.map Action.toType ++ r.inst.apply.iter.map Action.toType ↔ HasType r ty := by
  rw [List.mem_append, List.mem_map, List.mem_map, HasType]
  constructor
  · rintro (⟨a, h, e⟩ | ⟨a, h, e⟩)
    · exact ⟨a, .inl h, e⟩
    · exact ⟨a, .inr h, e⟩
  · rintro ⟨a, h | h, e⟩
    · exact .inl ⟨a, h, e⟩
    · exact .inr ⟨a, h, e⟩

/-- Keys can be computed, and equal keys mean that the rules look alike. -/
theorem simKey_ok {π : Type} {r : Rule π} (hr : RuleOK r) : ∃ k, simKey r = .ok k := by
  obtain ⟨w, m', e, -⟩ := Deps.getWildcard_spec hr.inv fun x hx => Nat.lt_of_lt_of_le (hr.keys x hx) (by decide)
  exact ⟨_, by rw [simKey, e]; rfl⟩

theorem simKey_eq_iff {π : Type} {r s : Rule π} (hr : RuleOK r) (hs : RuleOK s) {k k' : SimKey} (e : simKey r = .ok k) (e' : simKey s = .ok k') :
    k = k' ↔ Alike r s := by
  obtain ⟨w, m, hw, hv, hc⟩ := Deps.getWildcard_spec hr.inv fun x hx => Nat.lt_of_lt_of_le (hr.keys x hx) (by decide)
  obtain ⟨w', m', hw', hv', hc'⟩ := Deps.getWildcard_spec hs.inv fun x hx => Nat.lt_of_lt_of_le (hs.keys x hx) (by decide)
  rw [simKey, hw] at e
  rw [simKey, hw'] at e'
  cases e
  cases e'
  simp only [SimKey.mk.injEq, wildcardMask_eq_iff, actionTuple_eq_iff, mem_types]
  constructor
  · rintro ⟨h1, h2, h3, h4, h5⟩
    exact ⟨h1, h2, fun i hi => by rw [free_iff hv hc hi, free_iff hv' hc' hi]; exact h3 i hi, h4, h5⟩
  · rintro ⟨h1, h2, h3, h4, h5⟩
    exact ⟨h1, h2, fun i hi => by rw [← free_iff hv hc hi, ← free_iff hv' hc' hi]; exact h3 i hi, h4, h5⟩

theorem clash_iff : ∀ (a b : List TypeKey), clash a b = true ↔ Mixed a b
  | [], b => by
    simp only [clash, Mixed]
    constructor
    · intro h; cases h
    · rintro ⟨p, x, y, f, i, ⟨h, -⟩ | ⟨-, h⟩⟩ <;> simp at h
  | a :: as, [] => by
    have : clash (a :: as) [] = false := by cases a <;> rfl
    rw [this]
    constructor
    · intro h; cases h
    · rintro ⟨p, x, y, f, i, ⟨-, h⟩ | ⟨h, -⟩⟩ <;> simp at h
  | a :: as, b :: bs => by
    have same : a = b → (clash as bs = true ↔ Mixed (a :: as) (b :: bs)) := by
      rintro rfl
      rw [clash_iff as bs]
      constructor
      · rintro ⟨p, x, y, f, i, ⟨rfl, rfl⟩ | ⟨rfl, rfl⟩⟩
        · exact ⟨a :: p, x, y, f, i, .inl ⟨rfl, rfl⟩⟩
        · exact ⟨a :: p, x, y, f, i, .inr ⟨rfl, rfl⟩⟩
      · rintro ⟨p, x, y, f, i, h⟩
        cases p with
        | nil => rcases h with ⟨h, h'⟩ | ⟨h, h'⟩ <;> (simp only [List.nil_append, List.cons.injEq] at h h'; rw [h.1] at h'; cases h'.1)
        | cons c p =>
          rcases h with ⟨h, h'⟩ | ⟨h, h'⟩
          · simp only [List.cons_append, List.cons.injEq] at h h'
            exact ⟨p, x, y, f, i, .inl ⟨h.2, h'.2⟩⟩
          · simp only [List.cons_append, List.cons.injEq] at h h'
            exact ⟨p, x, y, f, i, .inr ⟨h.2, h'.2⟩⟩
    have diff : a ≠ b → (∀ f i, ¬ (a = .s f ∧ b = .t i)) → (∀ f i, ¬ (b = .s f ∧ a = .t i)) → ¬ Mixed (a :: as) (b :: bs) := by
      rintro hab h1 h2 ⟨p, x, y, f, i, h⟩
      cases p with
      | nil =>
        rcases h with ⟨h, h'⟩ | ⟨h, h'⟩
        · simp only [List.nil_append, List.cons.injEq] at h h'; exact h1 f i ⟨h.1, h'.1⟩
        · simp only [List.nil_append, List.cons.injEq] at h h'; exact h2 f i ⟨h.1, h'.1⟩
      | cons c p =>
        rcases h with ⟨h, h'⟩ | ⟨h, h'⟩
        · simp only [List.cons_append, List.cons.injEq] at h h'; exact hab (h.1.trans h'.1.symm)
        · simp only [List.cons_append, List.cons.injEq] at h h'; exact hab (h'.1.trans h.1.symm)
    cases a with
    | s f => cases b with
      | s g =>
        rw [clash]
        by_cases h : f = g
        · rw [if_pos h]; exact same (by rw [h])
        · rw [if_neg h]
          simp only [Bool.false_eq_true, false_iff]
          exact diff (fun e => h (by cases e; rfl)) (fun _ _ e => by cases e.2) (fun _ _ e => by cases e.2)
      | t j => simp only [clash, true_iff]; exact ⟨[], as, bs, f, j, .inl ⟨rfl, rfl⟩⟩
    | t i => cases b with
      | s g => simp only [clash, true_iff]; exact ⟨[], bs, as, g, i, .inr ⟨rfl, rfl⟩⟩
      | t j =>
        rw [clash]
        by_cases h : i = j
        · rw [if_pos h]; exact same (by rw [h])
        · rw [if_neg h]
          simp only [Bool.false_eq_true, false_iff]
          exact diff (fun e => h (by cases e; rfl)) (fun _ _ e => by cases e.1) (fun _ _ e => by cases e.1)

end Groups
end OFE
