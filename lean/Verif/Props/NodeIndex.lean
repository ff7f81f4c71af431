import Verif.Cudd.Index
import Verif.Match.LayoutLemmas
import Verif.Match.Lemmas
import Verif.DictLemmas
import Verif.Store.WalkSpec
import Verif.Store.Spec

/-! # C86: node numbers name header bits -/

namespace OFE
namespace Cudd
open DD

/-- The entries in the order in which they are made. -/
def indexEntries (maxOffset : Nat) (offsets : List (Nat × Nat)) (bits : Nat → Nat) : List (Nat × (Nat × Nat)) :=
  offsets.flatMap fun x => (List.range (bits x.1)).map fun bit => (maxOffset - (x.2 + bit), (x.1, bit))

theorem foldl_dictSet_fresh {κ ν : Type} [DecidableEq κ] (l d : List (κ × ν)) (h : ((d ++ l).map (·.1)).Nodup) :
    l.foldl (fun d x => dictSet x.1 x.2 d) d = d ++ l := by
  induction l generalizing d with
  | nil => simp
  | cons x l ih =>
    have hx : x.1 ∉ d.map (·.1) := by
      rw [List.map_append, List.nodup_append] at h
      intro hm
      exact h.2.2 _ hm x.1 (by simp) rfl
    rw [List.foldl_cons, dictSet_new _ hx, ih _ (by simpa using h)]
    simp

theorem generateIndex_eq (maxOffset : Nat) (offsets : List (Nat × Nat)) (bits : Nat → Nat) (h : ((indexEntries maxOffset offsets bits).map (·.1)).Nodup) :
    generateIndex maxOffset offsets bits = indexEntries maxOffset offsets bits := by
  have key : ∀ (offsets : List (Nat × Nat)) (d : List (Nat × (Nat × Nat))),
      offsets.foldl (fun d x => (List.range (bits x.1)).foldl (fun d bit => dictSet (maxOffset - (x.2 + bit)) (x.1, bit) d) d) d =
      (indexEntries maxOffset offsets bits).foldl (fun d x => dictSet x.1 x.2 d) d := by
    intro offsets
    induction offsets with
    | nil => intro d; rfl
    | cons x l ih =>
      intro d
      simp only [indexEntries, List.flatMap_cons, List.foldl_append, List.foldl_cons, List.foldl_map]
      exact ih _
  rw [generateIndex, key, foldl_dictSet_fresh _ _ (by simpa using h)]
  simp

theorem indexEntries_keys : (indexEntries (bytesNeeded * 8 - 1) wcFieldOffset fun f => (fieldBits f).getD 0).map (·.1) = (List.range 1581).reverse := by
  decide +kernel

theorem indexToField_eq : indexToField = indexEntries (bytesNeeded * 8 - 1) wcFieldOffset fun f => (fieldBits f).getD 0 :=
  generateIndex_eq _ _ _ (by rw [indexEntries_keys, List.nodup_reverse]; exact List.nodup_range)

theorem indexToField_keys : indexToField.map (·.1) = (List.range 1581).reverse := by rw [indexToField_eq, indexEntries_keys]

theorem wcFieldOffset_keys : wcFieldOffset.map (·.1) = (List.range 56).reverse := by decide +kernel

theorem mem_wcFieldOffset {f o : Nat} : (f, o) ∈ wcFieldOffset ↔ f < 56 ∧ o = fieldPos f := by
  have hnd : (wcFieldOffset.map (·.1)).Nodup := by rw [wcFieldOffset_keys, List.nodup_reverse]; exact List.nodup_range
  rw [mem_dict_iff hnd]
  constructor
  · intro h
    have hf : f < 56 := by
      have : f ∈ wcFieldOffset.map (·.1) := lookup_isSome_iff.1 (by rw [h]; rfl)
      rw [wcFieldOffset_keys, List.mem_reverse, List.mem_range] at this
      exact this
    rw [wcFieldOffset_eq f hf] at h
    exact ⟨hf, (Option.some.inj h).symm⟩
  · rintro ⟨hf, rfl⟩
    exact wcFieldOffset_eq f hf

/-- **C86** The table gives field and bit for a node number exactly if this bit of the field is at the corresponding place of the header: counted from its other
end. -/
theorem C86_table (num f bit : Nat) : indexToField.lookup num = some (f, bit) ↔ f < 56 ∧ bit < width f ∧ num + (fieldPos f + bit) = totBits - 1 := by
  have hnd : (indexToField.map (·.1)).Nodup := by rw [indexToField_keys, List.nodup_reverse]; exact List.nodup_range
  rw [← mem_dict_iff hnd, indexToField_eq, indexEntries, List.mem_flatMap]
  have hmax : bytesNeeded * 8 - 1 = totBits - 1 := by rw [bytesNeeded_eq]
  constructor
  · rintro ⟨⟨f', o⟩, h1, h2⟩
    obtain ⟨hf, rfl⟩ := mem_wcFieldOffset.1 h1
    simp only [List.mem_map, List.mem_range, Prod.mk.injEq] at h2
    obtain ⟨b, hb, rfl, rfl, rfl⟩ := h2
    rw [fieldBits_eq hf, Option.getD_some] at hb
    have := fieldPos_le hf
    exact ⟨hf, hb, by rw [hmax]; omega⟩
  · rintro ⟨hf, hb, hn⟩
    refine ⟨(f, fieldPos f), mem_wcFieldOffset.2 ⟨hf, rfl⟩, ?_⟩
    simp only [List.mem_map, List.mem_range, Prod.mk.injEq]
    exact ⟨bit, by rw [fieldBits_eq hf]; exact hb, by rw [hmax]; omega, trivial, rfl⟩

/-- **C86** A node tests the bit that the table names. -/
theorem C86_node {α : Type} (num f bit : Nat) (h : indexToField.lookup num = some (f, bit)) (z o : DD α) (p : Packet) :
    (node num z o).lookup totBits p = if p.bit f bit then o.lookup totBits p else z.lookup totBits p := by
  obtain ⟨-, -, h3⟩ := (C86_table num f bit).1 h
  have : totBits - 1 - num = fieldPos f + bit := by omega
  simp only [DD.lookup, eval, Packet.bit, this]
  rfl

/-- **C86** Different numbers name different bits. -/
theorem C86_injective (num num' f bit : Nat) (h : indexToField.lookup num = some (f, bit)) (h' : indexToField.lookup num' = some (f, bit)) : num = num' := by
  have h1 := ((C86_table num f bit).1 h).2.2
  have h2 := ((C86_table num' f bit).1 h').2.2
  omega

/-- **C86** Every bit of every field has a number, and exactly the numbers of the three bits of padding have no field. -/
theorem C86_complete : (∀ f bit, f < 56 → bit < width f → ∃ num, num < totBits ∧ indexToField.lookup num = some (f, bit)) ∧
    ∀ num, indexToField.lookup num = none ↔ totBits - 3 ≤ num := by
  refine ⟨fun f bit hf hb => ?_, fun num => ?_⟩
  · have := fieldPos_le hf
    exact ⟨totBits - 1 - (fieldPos f + bit), by omega, (C86_table _ _ _).2 ⟨hf, hb, by omega⟩⟩
  · rw [lookup_eq_none_iff, indexToField_keys, List.mem_reverse, List.mem_range]
    have : totBits = 1584 := by decide +kernel
    omega

/-! ## Diagrams built from matches -/

/-- All node numbers have a property. -/
def AllNums {α : Type} (P : Nat → Prop) : DD α → Prop
  | bot => True
  | term _ => True
  | node num z o => P num ∧ AllNums P z ∧ AllNums P o

variable {α : Type} [DecidableEq α] {P : Nat → Prop}

theorem allNums_mk {num : Nat} {z o : DD α} (h : P num) (hz : AllNums P z) (ho : AllNums P o) : AllNums P (mk num z o) := by
  unfold mk
  split
  · exact hz
  · exact ⟨h, hz, ho⟩

theorem allNums_apply {base : DD α → DD α → Option (DD α)} (hb : ∀ a b r, AllNums P a → AllNums P b → base a b = some r → AllNums P r) (a b : DD α)
    (ha : AllNums P a) (hb' : AllNums P b) : AllNums P (apply base a b) := by
  fun_induction apply base a b with
  | case1 a b r h => exact hb _ _ _ ha hb' h
  | case2 n z o z' o' _ i1 i2 => exact allNums_mk ha.1 (i1 ha.2.1 hb'.2.1) (i2 ha.2.2 hb'.2.2)
  | case3 n z o m z' o' _ _ _ i1 i2 => exact allNums_mk ha.1 (i1 ha.2.1 hb') (i2 ha.2.2 hb')
  | case4 n z o m z' o' _ _ _ i1 i2 => exact allNums_mk hb'.1 (i1 ha hb'.2.1) (i2 ha hb'.2.2)
  | case5 n z o _ i1 i2 => exact allNums_mk ha.1 (i1 ha.2.1 hb') (i2 ha.2.2 hb')
  | case6 n z o t _ i1 i2 => exact allNums_mk ha.1 (i1 ha.2.1 hb') (i2 ha.2.2 hb')
  | case7 m z' o' _ i1 i2 => exact allNums_mk hb'.1 (i1 ha hb'.2.1) (i2 ha hb'.2.2)
  | case8 t m z' o' _ i1 i2 => exact allNums_mk hb'.1 (i1 ha hb'.2.1) (i2 ha hb'.2.2)
  | case9 => trivial

theorem allNums_op (d : α) (op : Store.Op) {a b : DD α} (ha : AllNums P a) (hb : AllNums P b) : AllNums P (op.tree d a b) := by
  cases op with
  | meld =>
    refine allNums_apply (fun a b r ha hb h => ?_) a b ha hb
    simp only [meldBase] at h
    split at h
    · cases h; exact hb
    · split at h
      · cases h; exact ha
      · split at h
        · cases h; exact ha
        · cases h
  | difference =>
    refine allNums_apply (fun a b r ha hb h => ?_) a b ha hb
    simp only [differenceBase] at h
    repeat' split at h
    all_goals first
      | cases h; trivial
      | cases h
  | subtract =>
    refine allNums_apply (fun a b r ha hb h => ?_) a b ha hb
    simp only [subtractBase] at h
    repeat' split at h
    all_goals first
      | (cases h; trivial)
      | cases h
  | intersection =>
    refine allNums_apply (fun a b r ha hb h => ?_) a b ha hb
    simp only [intersectionBase] at h
    repeat' split at h
    all_goals first
      | (cases h; trivial)
      | cases h

theorem allNums_wcLoop {n wc : Nat} (hP : ∀ b, b < n → (wc >>> (b * 2)) &&& 3 ≠ 3 → P (n - 1 - b)) (k b : Nat) (hk : b + k = n) (c t : DD α)
    (hc : AllNums P c) (h : DD.wcLoop n wc b k c = some t) : AllNums P t := by
  induction k generalizing b c with
  | zero => simp only [DD.wcLoop] at h; cases h; exact hc
  | succ k ih =>
    simp only [DD.wcLoop] at h
    have h3 : (wc >>> (b * 2)) &&& 3 ≤ 3 := Nat.and_le_right
    split at h
    · cases h
    · split at h
      · rename_i h1
        exact ih (b + 1) (by omega) (node (n - 1 - b) c bot) ⟨hP b (by omega) (by omega), hc, trivial⟩ h
      · split at h
        · rename_i h1
          exact ih (b + 1) (by omega) (node (n - 1 - b) bot c) ⟨hP b (by omega) (by omega), trivial, hc⟩ h
        · exact ih (b + 1) (by omega) _ hc h

theorem and_three_eq (x : Nat) (h0 : x.testBit 0 = true) (h1 : x.testBit 1 = true) : x &&& 3 = 3 := by
  apply Nat.eq_of_testBit_eq
  intro i
  rw [Nat.testBit_and]
  match i with
  | 0 => rw [h0]; rfl
  | 1 => rw [h1]; rfl
  | i + 2 =>
    have : (3 : Nat).testBit (i + 2) = false := Nat.testBit_lt_two_pow (by have := Nat.pow_le_pow_right (n := 2) (by decide) (show 2 ≤ i + 2 by omega); omega)
    rw [this, Bool.and_false]

/-- **C86** Every node of a diagram that is built from wildcards with free padding, as matches give, has a field. -/
theorem C86_diagrams (d : α) (h : List (Store.Call α)) (hw : ∀ wc act, .wc wc act ∈ h → wc = 0 ∨ PadFull wc) (t : DD α) (ht : t ∈ Store.runT totBits d h)
    (num : Nat) (z o : DD α) (hs : Sub (node num z o) t) : ∃ f bit, indexToField.lookup num = some (f, bit) := by
  have key : AllNums (fun num => (indexToField.lookup num).isSome) t := by
    have wcs : ∀ wc act u, wc = 0 ∨ PadFull wc → DD.wcToDD totBits wc act = some u → AllNums (fun num => (indexToField.lookup num).isSome) (u : DD α) := by
      intro wc act u hp hu
      simp only [DD.wcToDD] at hu
      split at hu
      · cases hu; trivial
      · rename_i hne
        have hpad := hp.resolve_left hne
        refine allNums_wcLoop (fun b hb hv => ?_) _ 0 (by omega) (term act) _ trivial hu
        have h3 : 3 ≤ b := by
          rcases Nat.lt_or_ge b 3 with hlt | hge
          · refine absurd (and_three_eq _ ?_ ?_) hv <;> rw [Nat.testBit_shiftRight] <;> exact hpad _ (by omega)
          · exact hge
        rw [Option.isSome_iff_ne_none]
        intro hc
        have := (C86_complete.2 _).1 hc
        omega
    have gen : ∀ (h : List (Store.Call α)) (x : List (DD α)), (∀ wc act, Store.Call.wc wc act ∈ h → wc = 0 ∨ PadFull wc) →
        (∀ u ∈ x, AllNums (fun num => (indexToField.lookup num).isSome) u) →
        ∀ u ∈ h.foldl (Store.stepT totBits d) x, AllNums (fun num => (indexToField.lookup num).isSome) u := by
      intro h
      induction h with
      | nil => intro x _ hx u hu; exact hx u hu
      | cons c h ih =>
        intro x hc hx
        refine ih _ (fun wc act hm => hc wc act (List.mem_cons_of_mem _ hm)) ?_
        intro u hu
        cases c with
        | wc wc act =>
          simp only [Store.stepT] at hu
          split at hu
          · rename_i t' ht'
            rw [List.mem_append, List.mem_singleton] at hu
            rcases hu with hu | rfl
            · exact hx u hu
            · exact wcs wc act _ (hc wc act (by simp)) ht'
          · exact hx u hu
        | op op i j =>
          simp only [Store.stepT] at hu
          split at hu
          · rename_i a b ha hb
            rw [List.mem_append, List.mem_singleton] at hu
            rcases hu with hu | rfl
            · exact hx u hu
            · exact allNums_op d op (hx a (List.mem_of_getElem? ha)) (hx b (List.mem_of_getElem? hb))
          · exact hx u hu
    exact gen h [] hw (by simp) t ht
  have : ∀ {s t : DD α} {P : Nat → Prop}, Sub s t → AllNums P t → AllNums P s := by
    intro s t P hs
    induction hs with
    | self _ => exact id
    | zero _ ih => exact fun hh => ih hh.2.1
    | one _ ih => exact fun hh => ih hh.2.2
  obtain ⟨x, hx⟩ := Option.isSome_iff_exists.1 (this hs key).1
  exact ⟨x.1, x.2, hx⟩

/-! ## Examples -/

/-- Number 0 is the most significant bit of IN_PORT, number 1580 the least significant bit of the innermost PBB_ISID. -/
example : indexToField.lookup 0 = some (0, 31) ∧ indexToField.lookup 31 = some (0, 0) ∧ indexToField.lookup 32 = some (1, 31) ∧
    indexToField.lookup 1580 = some (55, 0) ∧ indexToField.lookup 1581 = none := by
  refine ⟨(C86_table _ _ _).2 (by decide +kernel), (C86_table _ _ _).2 (by decide +kernel), (C86_table _ _ _).2 (by decide +kernel),
    (C86_table _ _ _).2 (by decide +kernel), (C86_complete.2 _).2 (by decide +kernel)⟩

/-- A diagram with a node for the last bit of padding that is the wildcard of no match. -/
example : ∃ t : DD Nat, DD.wcToDD totBits (wcFull totBits - 1) 7 = some t ∧ Sub (node 1583 bot (term 7)) t ∧ indexToField.lookup 1583 = none ∧
    ¬ PadFull (wcFull totBits - 1) := by
  refine ⟨node 1583 bot (term 7), by decide +kernel, .self (by simp), (C86_complete.2 _).2 (by decide +kernel), fun h => ?_⟩
  have := h 0 (by decide)
  revert this
  decide +kernel

example : PadFull (wcFull totBits - 1 <<< 100) ∧ (DD.wcToDD totBits (wcFull totBits - 1 <<< 100) 7 = some (node 1533 bot (term 7))) := by
  constructor
  · intro j hj
    have : ∀ j, j < 6 → (wcFull totBits - 1 <<< 100).testBit j = true := by decide +kernel
    exact this j hj
  · decide +kernel

end Cudd
end OFE
