import Verif.Common
import Mathlib.Data.List.Nodup
import Mathlib.Data.List.Perm.Subperm

/-!
# Insertion ordered dictionaries
-/

namespace OFE
variable {κ ν : Type} [DecidableEq κ]

theorem lookup_dictSet (k : κ) (v : ν) (d : List (κ × ν)) (k' : κ) :
    (dictSet k v d).lookup k' = if k' = k then some v else d.lookup k' := by
  induction d with
  | nil =>
    by_cases h : k' = k
    · simp [dictSet, h]
    · simp [dictSet, List.lookup, h, beq_eq_false_iff_ne.2 h]
  | cons x d ih =>
    obtain ⟨k2, v2⟩ := x
    unfold dictSet
    by_cases h2 : k2 = k
    · subst h2
      rw [if_pos rfl]
      by_cases h : k' = k2
      · simp [h]
      · simp [List.lookup, h, beq_eq_false_iff_ne.2 h]
    · rw [if_neg h2]
      by_cases h : k' = k2
      · subst h; simp [h2]
      · simp [List.lookup, beq_eq_false_iff_ne.2 h, ih]

theorem lookup_dictDel (k : κ) (d : List (κ × ν)) (k' : κ) :
    (dictDel k d).lookup k' = if k' = k then none else d.lookup k' := by
  induction d with
  | nil => simp [dictDel]
  | cons x d ih =>
    obtain ⟨k2, v2⟩ := x
    unfold dictDel at ih ⊢
    by_cases h2 : k2 = k
    · subst h2
      rw [List.filter_cons_of_neg (by simp), ih]
      by_cases h : k' = k2
      · simp [h]
      · simp [List.lookup, h, beq_eq_false_iff_ne.2 h]
    · rw [List.filter_cons_of_pos (by simpa using h2)]
      by_cases h : k' = k2
      · subst h; simp [h2]
      · simp only [List.lookup, beq_eq_false_iff_ne.2 h]; exact ih

theorem keys_dictSet (k : κ) (v : ν) (d : List (κ × ν)) :
    (dictSet k v d).map (·.1) = if k ∈ d.map (·.1) then d.map (·.1) else d.map (·.1) ++ [k] := by
  induction d with
  | nil => simp [dictSet]
  | cons x d ih =>
    obtain ⟨k2, v2⟩ := x
    unfold dictSet
    by_cases h2 : k2 = k
    · subst h2; simp
    · rw [if_neg h2, List.map_cons, ih]
      have : k ≠ k2 := fun h => h2 h.symm
      by_cases h : k ∈ d.map (·.1) <;> simp_all

theorem mem_keys_dictSet (k : κ) (v : ν) (d : List (κ × ν)) (k' : κ) :
    k' ∈ (dictSet k v d).map (·.1) ↔ k' = k ∨ k' ∈ d.map (·.1) := by
  rw [keys_dictSet]
  split
  · next h => constructor
              · exact Or.inr
              · rintro (rfl | h'); exacts [h, h']
  · simp only [List.mem_append, List.mem_singleton]; exact or_comm

theorem nodup_dictSet (k : κ) (v : ν) {d : List (κ × ν)} (h : (d.map (·.1)).Nodup) : ((dictSet k v d).map (·.1)).Nodup := by
  rw [keys_dictSet]
  split
  · exact h
  · next h' => exact List.nodup_append.2 ⟨h, by simp, by simp only [List.mem_singleton]; rintro a ha _ rfl rfl; exact h' ha⟩

theorem nodup_dictDel (k : κ) {d : List (κ × ν)} (h : (d.map (·.1)).Nodup) : ((dictDel k d).map (·.1)).Nodup :=
  h.sublist (List.Sublist.map _ List.filter_sublist)

theorem mem_keys_dictDel (k : κ) (d : List (κ × ν)) (k' : κ) :
    k' ∈ (dictDel k d).map (·.1) ↔ k' ≠ k ∧ k' ∈ d.map (·.1) := by
  unfold dictDel
  simp only [List.mem_map, List.mem_filter, decide_eq_true_eq]
  constructor
  · rintro ⟨x, ⟨h1, h2⟩, rfl⟩; exact ⟨h2, x, h1, rfl⟩
  · rintro ⟨h2, x, h1, rfl⟩; exact ⟨x, ⟨h1, h2⟩, rfl⟩

theorem dictSet_new {k : κ} (v : ν) {d : List (κ × ν)} (h : k ∉ d.map (·.1)) : dictSet k v d = d ++ [(k, v)] := by
  induction d with
  | nil => rfl
  | cons x d ih =>
    obtain ⟨k2, v2⟩ := x
    simp only [List.map_cons, List.mem_cons, not_or] at h
    unfold dictSet
    rw [if_neg (fun e => h.1 e.symm), ih h.2]; rfl

theorem lookup_eq_some_of_mem {d : List (κ × ν)} (h : (d.map (·.1)).Nodup) {x : κ × ν} (hx : x ∈ d) :
    d.lookup x.1 = some x.2 := by
  induction d with
  | nil => cases hx
  | cons y d ih =>
    obtain ⟨k2, v2⟩ := y
    rw [List.map_cons, List.nodup_cons] at h
    rcases List.mem_cons.1 hx with rfl | hx
    · simp
    · have hne : x.1 ≠ k2 := fun e => h.1 (e ▸ List.mem_map.2 ⟨x, hx, rfl⟩)
      simp [List.lookup, beq_eq_false_iff_ne.2 hne, ih h.2 hx]

theorem mem_of_lookup_eq_some {d : List (κ × ν)} {k : κ} {v : ν} (h : d.lookup k = some v) : (k, v) ∈ d := by
  induction d with
  | nil => cases h
  | cons y d ih =>
    obtain ⟨k2, v2⟩ := y
    by_cases e : k = k2
    · subst e; simp at h; subst h; simp
    · simp only [List.lookup, beq_eq_false_iff_ne.2 e] at h; exact List.mem_cons_of_mem _ (ih h)

theorem mem_dict_iff {d : List (κ × ν)} (h : (d.map (·.1)).Nodup) {k : κ} {v : ν} : (k, v) ∈ d ↔ d.lookup k = some v :=
  ⟨fun hx => lookup_eq_some_of_mem h hx, mem_of_lookup_eq_some⟩

theorem lookup_isSome_iff {d : List (κ × ν)} {k : κ} : (d.lookup k).isSome ↔ k ∈ d.map (·.1) := by
  induction d with
  | nil => simp
  | cons y d ih =>
    obtain ⟨k2, v2⟩ := y
    by_cases e : k = k2
    · subst e; simp
    · simp [List.lookup, beq_eq_false_iff_ne.2 e, ih, e]

theorem lookup_eq_none_iff {d : List (κ × ν)} {k : κ} : d.lookup k = none ↔ k ∉ d.map (·.1) := by
  rw [← lookup_isSome_iff]; cases d.lookup k <;> simp

theorem dictEq_iff [DecidableEq ν] {a b : List (κ × ν)} (ha : (a.map (·.1)).Nodup) (hb : (b.map (·.1)).Nodup) :
    dictEq a b = true ↔ ∀ k, a.lookup k = b.lookup k := by
  unfold dictEq
  simp only [Bool.and_eq_true, beq_iff_eq, List.all_eq_true]
  constructor
  · rintro ⟨hl, h⟩ k
    have sub : a.map (·.1) ⊆ b.map (·.1) := by
      intro k hk
      obtain ⟨x, hx, rfl⟩ := List.mem_map.1 hk
      rw [← lookup_isSome_iff, h x hx]; rfl
    have perm : (a.map (·.1)).Perm (b.map (·.1)) :=
      (List.Nodup.subperm ha sub).perm_of_length_le (by simp [hl])
    cases e : a.lookup k with
    | some v => exact (h (k, v) (mem_of_lookup_eq_some e)).symm
    | none =>
      rw [lookup_eq_none_iff] at e
      exact (lookup_eq_none_iff.2 (fun hk => e (perm.mem_iff.2 hk))).symm
  · intro h
    refine ⟨?_, fun x hx => by rw [← h, lookup_eq_some_of_mem ha hx]⟩
    have perm : (a.map (·.1)).Perm (b.map (·.1)) := by
      rw [List.perm_ext_iff_of_nodup ha hb]
      intro k
      rw [← lookup_isSome_iff, ← lookup_isSome_iff, h]
    simpa using perm.length_eq

end OFE
