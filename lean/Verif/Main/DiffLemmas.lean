import Verif.Main.Difference
import Verif.Main.Lemmas
import Verif.Ruleset.Agree

/-!
# Lemmas for `-D`: paths of a single table, sorting a single table
-/

namespace OFE
open DD

/-! ### Paths are pairwise different -/

/-- Every rule has its own position as path. -/
def OwnPath (R : List (Rule Nat)) : Prop := ∀ (i : Nat) (r : Rule Nat), R[i]? = some r → r.path = [i]

theorem ownPath_snoc {R : List (Rule Nat)} (h : OwnPath R) {r : Rule Nat} (hr : r.path = [R.length]) : OwnPath (R ++ [r]) := by
  intro i s hs
  rw [List.getElem?_append] at hs
  split at hs
  · exact h i s hs
  · rename_i hi
    have : i - R.length = 0 := by
      by_contra hne
      rw [List.getElem?_eq_none (by simp; omega)] at hs
      cases hs
    rw [this] at hs
    simp only [List.getElem?_cons_zero, Option.some.injEq] at hs
    rw [← hs, hr, show i = R.length by omega]

theorem ownPath_addDefaults : ∀ (tables : List Nat) (R : List (Rule Nat)), OwnPath R → OwnPath (addDefaults tables R)
  | [], _, h => h
  | t :: tables, R, h => by
    unfold addDefaults
    rw [List.foldl_cons]
    split
    · exact ownPath_addDefaults tables R h
    · exact ownPath_addDefaults tables _ (ownPath_snoc h rfl)

theorem ownPath_prepared {rules : List (Rule Nat)} (hp : ∀ r ∈ rules, r.path = []) : OwnPath (prepared rules) := by
  refine ownPath_addDefaults _ _ ?_
  rw [fillPaths_eq hp (scaled (tablesOf rules)) fun _ => rfl]
  intro i r hr
  rw [List.getElem?_map, List.getElem?_zipIdx] at hr
  cases h : rules[i]? with
  | none => rw [h] at hr; cases hr
  | some s => rw [h] at hr; simp at hr; rw [← hr]

theorem ownPath_nodup {R : List (Rule Nat)} (h : OwnPath R) : (R.map (·.path)).Nodup := by
  have : R.map (·.path) = (List.range R.length).map fun i => [i] := by
    apply List.ext_getElem?
    intro i
    rw [List.getElem?_map, List.getElem?_map]
    by_cases hi : i < R.length
    · rw [List.getElem?_eq_getElem hi, List.getElem?_range hi]
      exact congrArg some (h i _ (List.getElem?_eq_getElem hi))
    · rw [List.getElem?_eq_none (by omega), List.getElem?_eq_none (by simp; omega)]; rfl
  rw [this]
  exact List.Nodup.map (fun a b hab => by simpa using hab) List.nodup_range

/-- Invariant of the loop over the tables: different paths, none empty, that lead through the tables `T`. -/
structure PathInv (R : List (Rule Nat)) (T : List Nat) (l : List (Rule Nat)) : Prop where
  nodup : (l.map (·.path)).Nodup
  ne : ∀ c ∈ l, c.path ≠ []
  tables : ∀ c ∈ l, ∀ i ∈ c.path, ∃ r, R[i]? = some r ∧ r.table ∈ T

theorem tableRules_own {R : List (Rule Nat)} (h : OwnPath R) {t : Nat} {c : Rule Nat} (hc : c ∈ tableRules R t) :
    ∃ i, R[i]? = some c ∧ c.table = t ∧ c.path = [i] := by
  obtain ⟨h1, h2⟩ := mem_tableRules.1 hc
  obtain ⟨i, hi⟩ := List.mem_iff_getElem?.1 h1
  exact ⟨i, hi, h2, h i c hi⟩

theorem tableRules_nodup {R : List (Rule Nat)} (h : OwnPath R) (t : Nat) : ((tableRules R t).map (·.path)).Nodup := by
  unfold tableRules
  exact ((sortDesc_perm _).map _).nodup_iff.2 ((ownPath_nodup h).sublist (List.filter_sublist.map _))

theorem pathInv_start {R : List (Rule Nat)} (h : OwnPath R) (t : Nat) : PathInv R [t] (tableRules R t) where
  nodup := tableRules_nodup h t
  ne c hc := by obtain ⟨i, -, -, e⟩ := tableRules_own h hc; rw [e]; simp
  tables c hc j hj := by
    obtain ⟨i, e1, e2, e3⟩ := tableRules_own h hc
    rw [e3] at hj
    simp only [List.mem_singleton] at hj
    exact ⟨c, hj ▸ e1, by simp [e2]⟩

theorem mergeAll_paths {a : Rule Nat} {openflow : Bool} : ∀ {l out : List (Rule Nat)}, mergeAll a openflow l = .ok out →
    (out.map (·.path)).Sublist (l.map fun b => a.path ++ b.path)
  | [], out, h => by cases h; exact .slnil
  | b :: l, out, h => by
    unfold mergeAll at h
    split at h
    · cases e : mergeAll a openflow l with
      | error x => rw [e] at h; cases h
      | ok rest => rw [e] at h; cases h; exact (mergeAll_paths e).cons_cons _
    · exact (mergeAll_paths h).cons _
    · exact (mergeAll_paths h).cons _
    · cases h

theorem condense_paths {second : List (Rule Nat)} {num : Nat} {openflow : Bool} : ∀ {first out : List (Rule Nat)},
    condense first second num openflow = .ok out → ∃ blocks : List (List (Rule Nat)), out = blocks.flatten ∧
      List.Forall₂ (fun a b => b = [a] ∨ (b.map (·.path)).Sublist (second.map fun s => a.path ++ s.path)) first blocks
  | [], out, h => by cases h; exact ⟨[], rfl, .nil⟩
  | a :: first, out, h => by
    unfold condense at h
    have key : ∃ here rest, (here = [a] ∨ mergeAll a openflow second = .ok here) ∧ condense first second num openflow = .ok rest ∧ out = here ++ rest := by
      dsimp only at h
      split at h
      · cases e1 : mergeAll a openflow second with
        | error x => rw [e1] at h; cases h
        | ok here =>
          cases e2 : condense first second num openflow with
          | error x => rw [e1, e2] at h; cases h
          | ok rest => rw [e1, e2] at h; cases h; exact ⟨here, rest, .inr rfl, rfl, rfl⟩
      · cases e2 : condense first second num openflow with
        | error x => rw [e2] at h; cases h
        | ok rest => rw [e2] at h; cases h; exact ⟨[a], rest, .inl rfl, rfl, rfl⟩
    obtain ⟨here, rest, h1, h2, rfl⟩ := key
    obtain ⟨blocks, b1, b2⟩ := condense_paths h2
    refine ⟨here :: blocks, by rw [b1]; rfl, .cons ?_ b2⟩
    rcases h1 with h1 | h1
    · exact .inl h1
    · exact .inr (mergeAll_paths h1)

theorem pathInv_step {R : List (Rule Nat)} (h : OwnPath R) {T : List Nat} {num : Nat} (hnum : num ∉ T) {first out : List (Rule Nat)} {openflow : Bool}
    (hf : PathInv R T first) (e : condense first (tableRules R num) num openflow = .ok out) : PathInv R (T ++ [num]) out := by
  obtain ⟨blocks, rfl, hb⟩ := condense_paths e
  clear e
  have hnew : ∀ s ∈ tableRules R num, ∃ i, s.path = [i] ∧ ∃ r, R[i]? = some r ∧ r.table = num := by
    intro s hs
    obtain ⟨i, e1, e2, e3⟩ := tableRules_own h hs
    exact ⟨i, e3, s, e1, e2⟩
  have hold : ∀ a ∈ first, ∀ i ∈ a.path, ¬ ∃ r, R[i]? = some r ∧ r.table = num := by
    rintro a ha i hi ⟨r, e1, rfl⟩
    obtain ⟨s, e2, e3⟩ := hf.tables a ha i hi
    rw [e1] at e2; cases e2
    exact hnum e3
  -- every path of a block is that of its rule, or that with one more position
  have shape : ∀ {a : Rule Nat} {b : List (Rule Nat)}, (b = [a] ∨ (b.map (·.path)).Sublist ((tableRules R num).map fun s => a.path ++ s.path)) →
      ∀ c ∈ b, c.path = a.path ∨ ∃ i, c.path = a.path ++ [i] ∧ ∃ r, R[i]? = some r ∧ r.table = num := by
    intro a b hab c hc
    rcases hab with rfl | hab
    · simp only [List.mem_singleton] at hc
      exact .inl (by rw [hc])
    · right
      obtain ⟨s, hs, hsc⟩ := List.mem_map.1 (hab.subset (List.mem_map_of_mem (f := fun r : Rule Nat => r.path) hc))
      obtain ⟨i, e1, e2⟩ := hnew s hs
      exact ⟨i, by rw [← hsc, e1], e2⟩
  have hmem : ∀ c ∈ blocks.flatten, ∃ a ∈ first, c.path = a.path ∨ ∃ i, c.path = a.path ++ [i] ∧ ∃ r, R[i]? = some r ∧ r.table = num := by
    intro c hc
    obtain ⟨b, hbm, hcb⟩ := List.mem_flatten.1 hc
    clear hnum hf hold hnew hc
    induction hb with
    | nil => cases hbm
    | @cons a b0 first blocks hab _ ih =>
      rcases List.mem_cons.1 hbm with rfl | hbm
      · exact ⟨a, List.mem_cons_self, shape hab c hcb⟩
      · obtain ⟨a', h1, h2⟩ := ih hbm
        exact ⟨a', List.mem_cons_of_mem _ h1, h2⟩
  refine ⟨?_, fun c hc => ?_, fun c hc i hi => ?_⟩
  · have hn := hf.nodup
    have ho := hold
    clear hmem hf hold
    induction hb with
    | nil => simp
    | @cons a b first blocks hab hrest ih =>
      simp only [List.map_cons, List.nodup_cons] at hn
      rw [List.flatten_cons, List.map_append, List.nodup_append]
      refine ⟨?_, ih hn.2 fun x hx => ho x (List.mem_cons_of_mem _ hx), ?_⟩
      · rcases hab with rfl | hab
        · simp
        · refine hab.nodup ?_
          have := tableRules_nodup h num
          rw [show (tableRules R num).map (fun s => a.path ++ s.path) = ((tableRules R num).map (·.path)).map (a.path ++ ·) by simp]
          exact this.map fun x y hxy => List.append_cancel_left hxy
      · intro x hx y hy
        rintro rfl
        obtain ⟨c, hc, rfl⟩ := List.mem_map.1 hx
        obtain ⟨d, hd, hdc⟩ := List.mem_map.1 hy
        have hd' : ∃ a' ∈ first, d.path = a'.path ∨ ∃ i, d.path = a'.path ++ [i] ∧ ∃ r, R[i]? = some r ∧ r.table = num := by
          obtain ⟨b', hb', hdb⟩ := List.mem_flatten.1 hd
          clear ih hn ho hd hy hdc
          induction hrest with
          | nil => cases hb'
          | @cons a2 b2 first blocks hab2 _ ih2 =>
            rcases List.mem_cons.1 hb' with rfl | hb'
            · exact ⟨a2, List.mem_cons_self, shape hab2 d hdb⟩
            · obtain ⟨a', h1, h2⟩ := ih2 hb'
              exact ⟨a', List.mem_cons_of_mem _ h1, h2⟩
        obtain ⟨a', ha', hd2⟩ := hd'
        have hne : a.path ≠ a'.path := fun e => hn.1 (e ▸ List.mem_map_of_mem (f := fun r : Rule Nat => r.path) ha')
        rcases shape hab c hc with e1 | ⟨i, e1, hi⟩
        · rcases hd2 with e2 | ⟨j, e2, hj⟩
          · exact hne (by rw [← e1, ← hdc, e2])
          · exact ho a List.mem_cons_self j (by rw [← e1, ← hdc, e2]; simp) hj
        · rcases hd2 with e2 | ⟨j, e2, hj⟩
          · exact ho a' (List.mem_cons_of_mem _ ha') i (by rw [← e2, hdc, e1]; simp) hi
          · have : a.path ++ [i] = a'.path ++ [j] := by rw [← e1, ← hdc, e2]
            exact hne (List.append_inj_left' this rfl)
  · obtain ⟨a, ha, e | ⟨i, e, -⟩⟩ := hmem c hc
    · rw [e]; exact hf.ne a ha
    · rw [e]; simp
  · obtain ⟨a, ha, e | ⟨j, e, r, e1, e2⟩⟩ := hmem c hc
    · rw [e] at hi
      obtain ⟨r, h1, h2⟩ := hf.tables a ha i hi
      exact ⟨r, h1, by simp [h2]⟩
    · rw [e] at hi
      rcases List.mem_append.1 hi with hi | hi
      · obtain ⟨r, h1, h2⟩ := hf.tables a ha i hi
        exact ⟨r, h1, by simp [h2]⟩
      · simp only [List.mem_singleton] at hi
        exact ⟨r, hi ▸ e1, by simp [e2]⟩

theorem pathInv_loop {R : List (Rule Nat)} (h : OwnPath R) (openflow : Bool) : ∀ (rem T : List Nat) (l out : List (Rule Nat)),
    (T ++ rem).Nodup → PathInv R T l → rem.foldlM (fun acc n => condense acc (tableRules R n) n openflow) l = .ok out →
    PathInv R (T ++ rem) out
  | [], T, l, out, _, hl, e => by cases e; rw [List.append_nil]; exact hl
  | n :: rem, T, l, out, hn, hl, e => by
    rw [List.foldlM_cons] at e
    cases e1 : condense l (tableRules R n) n openflow with
    | error x => rw [e1] at e; cases e
    | ok mid =>
      rw [e1] at e
      have hnT : n ∉ T := fun hm => (List.nodup_append.1 hn).2.2 n hm n (by simp) rfl
      have := pathInv_loop h openflow rem (T ++ [n]) mid out (by simpa using hn) (pathInv_step h hnT hl e1) e
      simpa using this

/-- The rules of a single table have different paths, none of them empty. -/
theorem single_paths {rules : List (Rule Nat)} (hprio : ∀ r ∈ rules, r.priority < maxPriority) (h0 : ∃ r ∈ rules, r.table = 0)
    (hp : ∀ r ∈ rules, r.path = []) {openflow : Bool} {cs : List (Rule Nat)} (e : toSingleTable rules openflow = .ok cs) :
    (cs.map (·.path)).Nodup ∧ ∀ c ∈ cs, c.path ≠ [] := by
  obtain ⟨rem, hT, e'⟩ := toSingleTable_eq hprio h0 openflow
  rw [e'] at e
  have hs := tablesOf_sorted rules
  rw [hT] at hs
  have := pathInv_loop (ownPath_prepared hp) openflow rem [0] _ cs (hs.imp fun h => Nat.ne_of_lt h) (pathInv_start (ownPath_prepared hp) 0) e
  exact ⟨this.nodup, this.ne⟩

end OFE
