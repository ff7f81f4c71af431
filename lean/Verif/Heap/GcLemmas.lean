import Verif.Heap.Gc
import Mathlib.Logic.Relation
import Mathlib.Data.List.Basic
import Mathlib.Data.List.Perm.Subperm
import Mathlib.Tactic.ByContra

/-! # What the collector removes -/

namespace OFE
namespace Heap

/-- Specification: `y` is a child of the table's object `x`. -/
def Child (s : Tbl) (x y : Addr) : Prop := x ∈ s.table ∧ ∃ c, s.mem x = some c ∧ y ∈ c.kids

/-- Specification: in use, that is reached from an object with a reference from outside (`ext` counts them) through children. -/
inductive InUse (s : Tbl) (ext : Addr → Nat) : Addr → Prop where
  | root {x} : x ∈ s.table → 0 < ext x → InUse s ext x
  | child {x y} : InUse s ext x → Child s x y → InUse s ext y

/-- Children of an object of the table. -/
def kidsOf (m : Addr → Option Cell) (x : Addr) : List Addr :=
  match m x with
  | some c => c.kids
  | none => []

/-- References to `x` from objects of the table. -/
def parents (m : Addr → Option Cell) (t : List Addr) (x : Addr) : Nat := (t.map fun y => (kidsOf m y).count x).sum

/-- The table is well formed: no key twice; children of its objects are in it, differ from each other and are further down (numbered higher, see
`get_node`, cbddmodule.cpp:386-437); and each count is what the references add up to: two of the table, those from outside, and those of the parents. -/
structure Good (s : Tbl) (ext : Addr → Nat) (num : Addr → Nat) : Prop where
  nodup : s.table.Nodup
  cell : ∀ x ∈ s.table, ∃ c, s.mem x = some c ∧ c.rc = 2 + ext x + parents s.mem s.table x ∧ c.kids.Nodup ∧ ∀ k ∈ c.kids, k ∈ s.table ∧ num x < num k

variable {s : Tbl} {ext num : Addr → Nat}

theorem kidsOf_put {m : Addr → Option Cell} {x y : Addr} {c : Option Cell} : kidsOf (put m x c) y = if y = x then (match c with | some c => c.kids | none => []) else kidsOf m y := by
  unfold kidsOf put
  by_cases h : y = x
  · subst h; simp
  · simp [h]

theorem parents_cons {m : Addr → Option Cell} {t : List Addr} {y x : Addr} : parents m (y :: t) x = (kidsOf m y).count x + parents m t x := by
  simp [parents]

theorem parents_congr {m m' : Addr → Option Cell} {t : List Addr} (h : ∀ y ∈ t, kidsOf m y = kidsOf m' y) (x : Addr) : parents m t x = parents m' t x := by
  unfold parents
  congr 1
  exact List.map_congr_left fun y hy => by rw [h y hy]

theorem parents_erase {m : Addr → Option Cell} {t : List Addr} {x : Addr} (hx : x ∈ t) (k : Addr) :
    parents m t k = (kidsOf m x).count k + parents m (t.erase x) k := by
  have hp : t.Perm (x :: t.erase x) := List.perm_cons_erase hx
  have : ∀ {l l' : List Addr}, l.Perm l' → parents m l k = parents m l' k := by
    intro l l' h
    induction h with
    | nil => rfl
    | cons _ _ ih => rw [parents_cons, parents_cons, ih]
    | swap => simp only [parents_cons]; omega
    | trans _ _ i1 i2 => rw [i1, i2]
  rw [this hp, parents_cons]

theorem parents_zero {m : Addr → Option Cell} {t : List Addr} {x : Addr} : parents m t x = 0 ↔ ∀ y ∈ t, x ∉ kidsOf m y := by
  induction t with
  | nil => simp [parents]
  | cons y t ih =>
    rw [parents_cons, Nat.add_eq_zero_iff, ih, List.count_eq_zero]
    simp

/-- Dropping references that are not the last ones. -/
theorem decref_alive {fuel : Nat} {xs : List Addr} {m : Addr → Option Cell} (hnd : xs.Nodup) (h : ∀ x ∈ xs, ∃ c, m x = some c ∧ 2 ≤ c.rc) (hf : xs.length < fuel) :
    decref fuel xs m = .ok fun y => if y ∈ xs then (m y).map fun c => ⟨c.rc - 1, c.kids⟩ else m y := by
  induction xs generalizing fuel m with
  | nil => simp [decref]
  | cons x xs ih =>
    obtain ⟨fuel, rfl⟩ : ∃ k, fuel = k + 1 := ⟨fuel - 1, by simp only [List.length_cons] at hf; omega⟩
    obtain ⟨c, hc, h2⟩ := h x List.mem_cons_self
    obtain ⟨n1, n2⟩ := List.nodup_cons.1 hnd
    have h1 : ¬ c.rc = 1 := by omega
    rw [decref, hc]
    simp only [if_neg h1]
    rw [ih n2 (fun y hy => ?_) (by simp only [List.length_cons] at hf; omega)]
    · congr 1
      funext y
      by_cases hyx : y = x
      · subst hyx; simp [n1, put, hc]
      · simp [hyx, put]
    · have hyx : y ≠ x := fun e => n1 (e ▸ hy)
      obtain ⟨c', hc', h2'⟩ := h y (List.mem_cons_of_mem _ hy)
      exact ⟨c', by simp [put, hyx, hc'], h2'⟩

/-- The children of an object of the table have, besides the table's two, a reference of this object. -/
theorem Good.kid_rc (g : Good s ext num) {x : Addr} (hx : x ∈ s.table) {k : Addr} (hk : k ∈ kidsOf s.mem x) : ∃ c, s.mem k = some c ∧ 3 ≤ c.rc := by
  obtain ⟨c, hc, -, -, h4⟩ := g.cell x hx
  have hk' : k ∈ c.kids := by simpa [kidsOf, hc] using hk
  obtain ⟨c', hc', r, -, -⟩ := g.cell k (h4 k hk').1
  refine ⟨c', hc', ?_⟩
  have := parents_erase (m := s.mem) hx k
  have : 0 < (kidsOf s.mem x).count k := List.count_pos_iff.2 hk
  omega

/-- The memory after the table has let go of `x`. -/
def dropped (m : Addr → Option Cell) (x : Addr) : Addr → Option Cell :=
  fun y => if y = x then none else if y ∈ kidsOf m x then (m y).map fun c => ⟨c.rc - 1, c.kids⟩ else m y

theorem delItem_spec (g : Good s ext num) {x : Addr} (hx : x ∈ s.table) (h2 : refcnt s x = 2) :
    delItem s x = .ok ⟨dropped s.mem x, s.table.erase x⟩ := by
  obtain ⟨c, hc, -, h3, h4⟩ := g.cell x hx
  have hrc : c.rc = 2 := by simpa [refcnt, hc] using h2
  have hkids : kidsOf s.mem x = c.kids := by simp [kidsOf, hc]
  have hxk : x ∉ c.kids := fun h => Nat.lt_irrefl _ (h4 x h).2
  have hlen : c.kids.length ≤ s.table.length := (List.subperm_of_subset h3 fun k hk => (h4 k hk).1).length_le
  have halive := decref_alive (fuel := 2 * s.table.length + 2) (m := put (put s.mem x (some ⟨1, c.kids⟩)) x (some ⟨0, c.kids⟩)) h3 (fun k hk => by
    obtain ⟨c', hc', h⟩ := g.kid_rc hx (hkids ▸ hk)
    have hkx : k ≠ x := fun e => hxk (e ▸ hk)
    exact ⟨c', by simp [put, hkx, hc'], by omega⟩) (by omega)
  unfold delItem
  rw [if_pos hx]
  rw [show 2 * s.table.length + 4 = (2 * s.table.length + 2) + 1 + 1 from rfl, decref, hc]
  simp only [hrc]
  rw [if_neg (by decide), decref]
  simp only [put, if_true, Nat.add_one_sub_one] at halive ⊢
  rw [halive]
  simp only [decref]
  congr 2
  funext y
  unfold dropped
  rw [hkids]
  by_cases hyx : y = x
  · simp [put, hyx]
  · simp [put, hyx]

theorem kidsOf_dropped {m : Addr → Option Cell} {x y : Addr} (h : y ≠ x) : kidsOf (dropped m x) y = kidsOf m y := by
  have e : dropped m x y = if y ∈ kidsOf m x then (m y).map fun c => ⟨c.rc - 1, c.kids⟩ else m y := by
    unfold dropped; rw [if_neg h]
  by_cases hy : y ∈ kidsOf m x
  · rw [if_pos hy] at e
    unfold kidsOf
    rw [e]; cases m y <;> rfl
  · rw [if_neg hy] at e
    unfold kidsOf
    rw [e]

/-- Objects other than `x` after the deletion of `x`. -/
theorem refcnt_dropped {x y : Addr} (h : y ≠ x) {t : List Addr} : refcnt ⟨dropped s.mem x, t⟩ y = if y ∈ kidsOf s.mem x then refcnt s y - 1 else refcnt s y := by
  unfold refcnt dropped
  simp only [if_neg h]
  by_cases hy : y ∈ kidsOf s.mem x
  · simp only [if_pos hy]
    cases s.mem y <;> rfl
  · simp only [if_neg hy]

/-- Deleting an object which only the table holds leaves a well-formed table. -/
theorem Good.drop (g : Good s ext num) {x : Addr} (hx : x ∈ s.table) (h2 : refcnt s x = 2) : Good ⟨dropped s.mem x, s.table.erase x⟩ ext num where
  nodup := g.nodup.erase x
  cell := by
    intro y hy
    obtain ⟨hyx, hyt⟩ := (g.nodup.mem_erase_iff).1 hy
    obtain ⟨c, hc, r1, r2, r3⟩ := g.cell y hyt
    obtain ⟨cx, hcx, rx, -, -⟩ := g.cell x hx
    have hcx2 : cx.rc = 2 := by simpa [refcnt, hcx] using h2
    have hno : ∀ z ∈ s.table, x ∉ kidsOf s.mem z := parents_zero.1 (by omega)
    have hkx : kidsOf s.mem x = cx.kids := by simp [kidsOf, hcx]
    obtain ⟨cx', hcx', -, nd, -⟩ := g.cell x hx
    have : cx' = cx := by rw [hcx] at hcx'; exact (Option.some.inj hcx').symm
    subst this
    have e := parents_erase (m := s.mem) hx y
    have e' : parents (dropped s.mem x) (s.table.erase x) y = parents s.mem (s.table.erase x) y :=
      parents_congr (fun z hz => kidsOf_dropped ((g.nodup.mem_erase_iff).1 hz).1) y
    have kin : ∀ k ∈ c.kids, k ∈ s.table.erase x ∧ num y < num k := fun k hk =>
      ⟨(g.nodup.mem_erase_iff).2 ⟨fun e => hno y hyt (by rw [← e]; simpa [kidsOf, hc] using hk), (r3 k hk).1⟩, (r3 k hk).2⟩
    by_cases hyk : y ∈ kidsOf s.mem x
    · refine ⟨⟨c.rc - 1, c.kids⟩, by simp [dropped, hyx, hyk, hc], ?_, r2, kin⟩
      have : (kidsOf s.mem x).count y = 1 := by rw [(hkx ▸ nd : (kidsOf s.mem x).Nodup).count, if_pos hyk]
      simp only [e']
      omega
    · refine ⟨c, by simp [dropped, hyx, hyk, hc], ?_, r2, kin⟩
      have : (kidsOf s.mem x).count y = 0 := List.count_eq_zero.2 hyk
      simp only [e']
      omega

/-- What one step leaves as it was: the table shrinks, the objects that stay keep their children, freed ones are gone. -/
structure Shrunk (ext : Addr → Nat) (s s' : Tbl) : Prop where
  sub : s'.table.Sublist s.table
  kids : ∀ x ∈ s'.table, kidsOf s'.mem x = kidsOf s.mem x
  freed : ∀ x ∈ s.table, x ∉ s'.table → s'.mem x = none ∧ ext x = 0
  rest : ∀ x, x ∉ s.table → s'.mem x = s.mem x

theorem Shrunk.refl (s : Tbl) : Shrunk ext s s := ⟨List.Sublist.refl _, fun _ _ => rfl, fun _ h h' => absurd h h', fun _ _ => rfl⟩

theorem Shrunk.trans {s s' s'' : Tbl} (h : Shrunk ext s s') (h' : Shrunk ext s' s'') : Shrunk ext s s'' where
  sub := h'.sub.trans h.sub
  kids := fun x hx => (h'.kids x hx).trans (h.kids x (h'.sub.subset hx))
  freed := fun x hx hx' => by
    by_cases hs : x ∈ s'.table
    · exact h'.freed x hs hx'
    · rw [h'.rest x hs]; exact h.freed x hx hs
  rest := fun x hx => (h'.rest x fun h1 => hx (h.sub.subset h1)).trans (h.rest x hx)

theorem shrunk_drop (g : Good s ext num) {x : Addr} (hx : x ∈ s.table) (h2 : refcnt s x = 2) : Shrunk ext s ⟨dropped s.mem x, s.table.erase x⟩ where
  sub := List.erase_sublist
  kids := fun y hy => kidsOf_dropped ((g.nodup.mem_erase_iff).1 hy).1
  freed := by
    intro y hy hy'
    have : y = x := by
      by_contra hne
      exact hy' ((g.nodup.mem_erase_iff).2 ⟨hne, hy⟩)
    subst this
    obtain ⟨c, hc, r, -⟩ := g.cell y hx
    have : c.rc = 2 := by simpa [refcnt, hc] using h2
    exact ⟨by simp [dropped], by omega⟩
  rest := by
    intro y hy
    have hyx : y ≠ x := fun e => hy (e ▸ hx)
    have hyk : y ∉ kidsOf s.mem x := fun h => by
      obtain ⟨c, hc, -, -, h4⟩ := g.cell x hx
      exact hy (h4 y (by simpa [kidsOf, hc] using h)).1
    simp [dropped, hyx, hyk]

/-- The state of the collector between two deletions: what is to be removed has no references but the table's, each is listed once, and nothing else is like this. -/
structure Pending (s : Tbl) (l : List Addr) : Prop where
  nodup : l.Nodup
  only : ∀ x, x ∈ l ↔ x ∈ s.table ∧ refcnt s x = 2

theorem pending_drop (g : Good s ext num) {x : Addr} {xs next : List Addr} (p : Pending s ((x :: xs) ++ next)) :
    Pending ⟨dropped s.mem x, s.table.erase x⟩ (xs ++ (next ++ (kidsOf s.mem x).filter fun k => refcnt s k == 3)) := by
  obtain ⟨hx, h2⟩ := (p.only x).1 (by simp)
  obtain ⟨c, hc, -, nd, h4⟩ := g.cell x hx
  have hk : kidsOf s.mem x = c.kids := by simp [kidsOf, hc]
  have nd0 := p.nodup
  rw [List.cons_append, List.nodup_cons] at nd0
  constructor
  · rw [← List.append_assoc, List.nodup_append]
    refine ⟨nd0.2, (hk ▸ nd).filter _, ?_⟩
    rintro a ha b hb rfl
    have h3 := (List.mem_filter.1 hb).2
    have := ((p.only a).1 (by rw [List.cons_append]; exact List.mem_cons_of_mem _ ha)).2
    rw [this] at h3
    cases h3
  · intro y
    rw [← List.append_assoc, List.mem_append, List.mem_filter]
    simp only
    rw [g.nodup.mem_erase_iff]
    constructor
    · rintro (h | ⟨h, h'⟩)
      · have hyx : y ≠ x := fun e => nd0.1 (e ▸ h)
        obtain ⟨q1, q2⟩ := (p.only y).1 (by rw [List.cons_append]; exact List.mem_cons_of_mem _ h)
        refine ⟨⟨hyx, q1⟩, ?_⟩
        rw [refcnt_dropped hyx, if_neg, q2]
        intro hc'
        obtain ⟨c', e1, e2⟩ := g.kid_rc hx hc'
        have : refcnt s y = c'.rc := by simp [refcnt, e1]
        omega
      · have hyc : y ∈ c.kids := hk ▸ h
        have hyx : y ≠ x := fun e => Nat.lt_irrefl _ (h4 x (e ▸ hyc)).2
        refine ⟨⟨hyx, (h4 y hyc).1⟩, ?_⟩
        rw [refcnt_dropped hyx, if_pos h, beq_iff_eq.1 h']
    · rintro ⟨⟨hyx, hyt⟩, hr⟩
      rw [refcnt_dropped hyx] at hr
      by_cases hyk : y ∈ kidsOf s.mem x
      · rw [if_pos hyk] at hr
        obtain ⟨c', e1, e2⟩ := g.kid_rc hx hyk
        have : refcnt s y = c'.rc := by simp [refcnt, e1]
        exact .inr ⟨hyk, by simp only [beq_iff_eq]; omega⟩
      · rw [if_neg hyk] at hr
        have := (p.only y).2 ⟨hyt, hr⟩
        rw [List.cons_append, List.mem_cons] at this
        exact .inl (this.resolve_left hyx)

theorem gcRound_spec (xs : List Addr) {s : Tbl} (g : Good s ext num) {next : List Addr} (p : Pending s (xs ++ next)) (removed : Nat) :
    ∃ s' next' , gcRound xs (s, next, removed) = .ok (s', next', removed + xs.length) ∧ Good s' ext num ∧ Pending s' next' ∧ Shrunk ext s s' ∧
      s'.table.length + xs.length = s.table.length := by
  induction xs generalizing s next removed with
  | nil => exact ⟨s, next, rfl, g, p, Shrunk.refl s, rfl⟩
  | cons x xs ih =>
    obtain ⟨hx, h2⟩ := (p.only x).1 (by simp)
    obtain ⟨c, hc, -⟩ := g.cell x hx
    have hrc : c.rc = 2 := by simpa [refcnt, hc] using h2
    have hk : kidsOf s.mem x = c.kids := by simp [kidsOf, hc]
    obtain ⟨s', next', e, g', p', sh, hl⟩ := ih (g.drop hx h2) (pending_drop g p) (removed + 1)
    refine ⟨s', next', ?_, g', p', (shrunk_drop g hx h2).trans sh, ?_⟩
    · rw [gcRound, hc]
      simp only [hrc, if_true, delItem_spec g hx h2]
      rw [← hk, e]
      simp only [List.length_cons]
      congr 3
      omega
    · simp only [List.length_erase_of_mem hx] at hl
      have := List.length_pos_of_mem hx
      simp only [List.length_cons]
      omega

theorem gcLoop_spec (fuel : Nat) {s : Tbl} (g : Good s ext num) {next : List Addr} (p : Pending s next) (removed : Nat) (hf : s.table.length + 2 ≤ fuel) :
    ∃ s', gcLoop fuel (s, next, removed) = .ok (s', removed + (s.table.length - s'.table.length)) ∧ Good s' ext num ∧ Pending s' [] ∧ Shrunk ext s s' := by
  induction fuel generalizing s next removed with
  | zero => omega
  | succ fuel ih =>
    rw [gcLoop]
    by_cases hn : next = []
    · subst hn
      exact ⟨s, by simp, g, p, Shrunk.refl s⟩
    · rw [if_neg hn]
      obtain ⟨s', next', e, g', p', sh, hl⟩ := gcRound_spec next (next := []) g (by simpa using p) removed
      have : 0 < next.length := List.length_pos_iff.2 hn
      obtain ⟨s'', e', g'', p'', sh'⟩ := ih g' p' (removed + next.length) (by omega)
      refine ⟨s'', ?_, g'', p'', sh.trans sh'⟩
      rw [e]
      simp only [e']
      have := sh'.sub.length_le
      congr 2
      omega

/-- Objects in use are in the table. -/
theorem Good.inUse_mem (g : Good s ext num) {x : Addr} (h : InUse s ext x) : x ∈ s.table := by
  cases h with
  | root h => exact h
  | child _ hc =>
    obtain ⟨h, c, hc, hk⟩ := hc
    obtain ⟨c', hc', -, -, h4⟩ := g.cell _ h
    rw [hc] at hc'; cases hc'
    exact (h4 _ hk).1

theorem child_iff {x y : Addr} : Child s x y ↔ x ∈ s.table ∧ y ∈ kidsOf s.mem x := by
  unfold Child kidsOf
  cases s.mem x <;> simp

/-- When nothing is pending, everything in the table is in use. -/
theorem all_inUse (g : Good s ext num) (p : Pending s []) : ∀ x ∈ s.table, InUse s ext x := by
  intro x
  induction hk : num x using Nat.strongRecOn generalizing x with
  | ind k ih =>
    intro hx
    obtain ⟨c, hc, r1, -, -⟩ := g.cell x hx
    have hne : refcnt s x ≠ 2 := fun h => by simpa using (p.only x).2 ⟨hx, h⟩
    have hrc : refcnt s x = c.rc := by simp [refcnt, hc]
    by_cases he : 0 < ext x
    · exact .root hx he
    · have hp : parents s.mem s.table x ≠ 0 := by omega
      rw [Ne, parents_zero] at hp
      obtain ⟨y, hy⟩ := Classical.not_forall.1 hp
      obtain ⟨hyt, hyk⟩ := Classical.not_imp.1 hy
      have hyk := Classical.not_not.1 hyk
      obtain ⟨c', hc', -, -, h4⟩ := g.cell y hyt
      have := (h4 x (by simpa [kidsOf, hc'] using hyk)).2
      exact .child (ih (num y) (by omega) y rfl hyt) (child_iff.2 ⟨hyt, hyk⟩)

/-- Nothing that is in use is lost. -/
theorem inUse_kept {s s' : Tbl} (sh : Shrunk ext s s') (g' : Good s' ext num) {x : Addr} (h : InUse s ext x) : InUse s' ext x := by
  induction h with
  | root hx he =>
    refine .root ?_ he
    by_contra hn
    have := (sh.freed _ hx hn).2
    omega
  | child h hc ih =>
    rename_i a b
    have ha := g'.inUse_mem ih
    have hk : b ∈ kidsOf s'.mem a := by rw [sh.kids a ha]; exact (child_iff.1 hc).2
    exact .child ih (child_iff.2 ⟨ha, hk⟩)

theorem inUse_back {s s' : Tbl} (sh : Shrunk ext s s') {x : Addr} (h : InUse s' ext x) : InUse s ext x := by
  induction h with
  | root hx he => exact .root (sh.sub.subset hx) he
  | child h hc ih =>
    obtain ⟨h1, h2⟩ := child_iff.1 hc
    exact .child ih (child_iff.2 ⟨sh.sub.subset h1, by rw [← sh.kids _ h1]; exact h2⟩)

end Heap
end OFE
