import Verif.Heap.Lemmas

/-! # Collections and whole histories on the C++ node table -/

namespace OFE
namespace Heap
open Store (Ref Obj Op Memo RuleEntry termNum)
open DD
set_option linter.unusedSectionVars false
variable {α : Type} [DecidableEq α] {n : Nat} {d : α}

/-! ### Collection -/

/-- The level of an object. -/
def numOf (s : CSt α) (x : Addr) : Nat :=
  match s.mem x with
  | some (.node num _ _ _) => num
  | _ => termNum

theorem numOf_rep {s : CSt α} {i : Addr} {t : DD α} (h : Rep s.mem (some i) t) : numOf s i = (Store.viewT t).1 := by
  cases h with
  | term h => simp [numOf, h, Store.viewT]
  | node h => simp [numOf, h, Store.viewT]

theorem kidsOf_toTbl {s : CSt α} {roots : List Ref} (x : Addr) : kidsOf (toTbl s roots).mem x = objKids (s.mem x) := by
  unfold kidsOf toTbl
  cases h : s.mem x <;> simp [h, objKids]

theorem good_toTbl {s : CSt α} (hi : InvC n d s) (roots : List Ref) : Good (toTbl s roots) (extRefs s roots) (numOf s) where
  nodup := hi.nodup
  cell := by
    intro x hx
    have hx' : x ∈ s.table := hx
    obtain ⟨t, ht, hw⟩ := hi.rep x hx'
    have hrc : refs s roots x = 2 + extRefs s roots x + parents (toTbl s roots).mem s.table x := by
      unfold refs parents
      congr 2
      exact List.map_congr_left fun y _ => by rw [kidsOf_toTbl]
    cases ht with
    | term h =>
      exact ⟨⟨refs s roots x, []⟩, by simp [toTbl, h, objKids], hrc, List.nodup_nil, by simp⟩
    | @node _ num z o tz tn h hz ho =>
      refine ⟨⟨refs s roots x, z.toList ++ o.toList⟩, by simp [toTbl, h, objKids], hrc, ?_, ?_⟩
      · have hne : z ≠ o := fun e => hw.2.2.1 ((hz.eq_iff hi ho).1 e)
        cases z with
        | none => cases o <;> simp
        | some z =>
          cases o with
          | none => simp
          | some o =>
            have : z ≠ o := fun e => hne (by rw [e])
            simp [this]
      · intro k hk
        have hkid : ∀ {r : Ref} {u : DD α}, Rep s.mem r u → WF n (num + 1) u → k ∈ r.toList → k ∈ s.table ∧ num < numOf s k := by
          intro r u hr hu hk
          have : r = some k := by simpa using hk
          subst this
          refine ⟨hr.mem_table hi, ?_⟩
          rw [numOf_rep hr]
          cases u with
          | bot => cases hr
          | term => exact lt_of_lt_of_le hw.2.1 hi.nle
          | node num' _ _ => exact hu.1
        have hnx : numOf s x = num := by simp [numOf, h]
        rw [hnx]
        rcases List.mem_append.1 hk with hk | hk
        · exact hkid hz hw.2.2.2.1 hk
        · exact hkid ho hw.2.2.2.2 hk

/-- What is in use keeps its tree. -/
theorem rep_kept {s : CSt α} {roots : List Ref} (hi : InvC n d s) {m' : Addr → Option (Obj α)} (hm : ∀ i, InUse (toTbl s roots) (extRefs s roots) i → m' i = s.mem i)
    {r : Ref} {t : DD α} (h : Rep s.mem r t) (hu : ∀ i, r = some i → InUse (toTbl s roots) (extRefs s roots) i) : Rep m' r t := by
  induction h with
  | bot => exact .bot
  | term h => exact .term (by rw [hm _ (hu _ rfl), h])
  | @node i num z o tz tn h hz ho i1 i2 =>
    have hui := hu i rfl
    have hin : i ∈ s.table := (hi.tab i).2 (by rw [h]; rfl)
    have kid : ∀ k, k ∈ objKids (s.mem i) → InUse (toTbl s roots) (extRefs s roots) k := fun k hk =>
      .child hui (child_iff.2 ⟨hin, by rw [kidsOf_toTbl]; exact hk⟩)
    refine .node (by rw [hm _ hui, h]) (i1 fun k e => kid k ?_) (i2 fun k e => kid k ?_)
    · rw [h]; simp [objKids, e]
    · rw [h]; simp [objKids, e]

/-- The tree has the action. -/
def HasLeaf (act : α) : DD α → Prop
  | bot => False
  | term a => a = act
  | node _ z o => HasLeaf act z ∨ HasLeaf act o

theorem wcLoop_hasLeaf {wc : Nat} {act : α} (k : Nat) {b : Nat} {c t : DD α} (hc : HasLeaf act c) (h : wcLoop n wc b k c = some t) : HasLeaf act t := by
  induction k generalizing b c with
  | zero => simp only [wcLoop, Option.some.injEq] at h; exact h ▸ hc
  | succ k ih =>
    rw [wcLoop] at h
    split at h
    · cases h
    · split at h
      · exact ih (c := node _ c bot) (Or.inl hc) h
      · split at h
        · exact ih (c := node _ bot c) (Or.inr hc) h
        · exact ih hc h

/-- The terminal of an action of a diagram in use is in use. -/
theorem leaf_inUse {s : CSt α} {roots : List Ref} (hi : InvC n d s) {act : α} {r : Ref} {t : DD α} (h : Rep s.mem r t) (hl : HasLeaf act t)
    (hu : ∀ i, r = some i → InUse (toTbl s roots) (extRefs s roots) i) : ∃ i, s.mem i = some (.term act) ∧ InUse (toTbl s roots) (extRefs s roots) i := by
  induction h with
  | bot => cases hl
  | term h => cases hl; exact ⟨_, h, hu _ rfl⟩
  | @node i num z o tz tn h hz ho i1 i2 =>
    have hui := hu i rfl
    have hin : i ∈ s.table := (hi.tab i).2 (by rw [h]; rfl)
    have kid : ∀ k, k ∈ objKids (s.mem i) → InUse (toTbl s roots) (extRefs s roots) k := fun k hk =>
      .child hui (child_iff.2 ⟨hin, by rw [kidsOf_toTbl]; exact hk⟩)
    rcases hl with hl | hl
    · exact i1 hl fun k e => kid k (by rw [h]; simp [objKids, e])
    · exact i2 hl fun k e => kid k (by rw [h]; simp [objKids, e])

theorem ext_root {s : CSt α} {roots : List Ref} {x : Addr} (h : some x ∈ roots) : 0 < extRefs s roots x := by
  have := List.count_pos_iff.2 h
  unfold extRefs; omega

theorem ext_rule {s : CSt α} {roots : List Ref} {x : Addr} {m : RuleEntry} (hm : m ∈ s.rules) (h : m.r = some x) : 0 < extRefs s roots x := by
  have : 0 < (s.rules.map (·.r)).count (some x) := List.count_pos_iff.2 (List.mem_map.2 ⟨m, hm, h⟩)
  unfold extRefs; omega

theorem sum_pos {l : List Nat} {x : Nat} (h : x ∈ l) (hx : 0 < x) : 0 < l.sum := by
  induction l with
  | nil => cases h
  | cons y l ih =>
    rw [List.sum_cons]
    rcases List.mem_cons.1 h with rfl | h
    · omega
    · have := ih h; omega

theorem ext_memo {s : CSt α} {roots : List Ref} {x : Addr} {m : Memo} (hm : m ∈ s.memo) (h : some x ∈ [m.a, m.b, m.r]) : 0 < extRefs s roots x := by
  have := sum_pos (List.mem_map.2 ⟨m, hm, rfl⟩ : [m.a, m.b, m.r].count (some x) ∈ s.memo.map fun m => [m.a, m.b, m.r].count (some x)) (List.count_pos_iff.2 h)
  unfold extRefs; omega

/-- A collection keeps the invariant, the diagrams of the caller, and otherwise exactly what is in use. -/
theorem collect_spec' {s : CSt α} (hi : InvC n d s) (roots : List Ref) :
    ∃ s', collect s roots = .ok s' ∧ (∀ x, InUse (toTbl s roots) (extRefs s roots) x → s'.mem x = s.mem x) ∧ InvC n d s' ∧ s'.memo = s.memo ∧ s'.rules = s.rules ∧
      (∀ i, i ∈ s'.table ↔ InUse (toTbl s roots) (extRefs s roots) i) ∧ (∀ r ∈ roots, ∀ t, Rep s.mem r t → Rep s'.mem r t) := by
  have g := good_toTbl hi roots
  have p : Pending (toTbl s roots) ((toTbl s roots).table.filter fun x => refcnt (toTbl s roots) x == 2) :=
    ⟨g.nodup.filter _, fun x => by rw [List.mem_filter, beq_iff_eq]⟩
  obtain ⟨T, e, g', p', sh⟩ := gcLoop_spec ((toTbl s roots).table.length + 2) g p 0 (Nat.le_refl _)
  have iff : ∀ x, x ∈ T.table ↔ InUse (toTbl s roots) (extRefs s roots) x := fun x =>
    ⟨fun h => inUse_back sh (all_inUse g' p' x h), fun h => g'.inUse_mem (inUse_kept sh g' h)⟩
  have hsome : ∀ x, (T.mem x).isSome ↔ x ∈ T.table := by
    intro x
    by_cases hx : x ∈ T.table
    · obtain ⟨c, hc, -⟩ := g'.cell x hx
      simp [hc, hx]
    · have : T.mem x = none := by
        by_cases hx' : x ∈ s.table
        · exact (sh.freed x hx' hx).1
        · rw [sh.rest x hx']
          have := mt (hi.tab x).2 hx'
          simp only [Option.not_isSome_iff_eq_none] at this
          simp [toTbl, this]
      simp [this, hx]
  let m' : Addr → Option (Obj α) := fun x => if (T.mem x).isSome then s.mem x else none
  have hm : ∀ i, InUse (toTbl s roots) (extRefs s roots) i → m' i = s.mem i := by
    intro i h
    have := (hsome i).2 ((iff i).2 h)
    simp [m', this]
  have hback : ∀ {i y}, m' i = some y → s.mem i = some y := by
    intro i y h
    simp only [m'] at h
    split at h
    · exact h
    · cases h
  have use : ∀ {r : Ref} {t : DD α}, Rep s.mem r t → (∀ i, r = some i → 0 < extRefs s roots i) → ∀ i, r = some i → InUse (toTbl s roots) (extRefs s roots) i := by
    intro r t h h' i e
    subst e
    exact .root (h.mem_table hi) (h' i rfl)
  have keep : ∀ {r : Ref} {t : DD α}, Rep s.mem r t → (∀ i, r = some i → 0 < extRefs s roots i) → Rep m' r t := fun h h' => rep_kept hi hm h (use h h')
  refine ⟨{ s with mem := m', table := T.table }, by unfold collect gcNodeCache; rw [e], hm, ?_, rfl, rfl, iff, fun r hr t ht => keep ht fun i e => ext_root (e ▸ hr)⟩
  exact {
    nle := hi.nle
    nodup := g'.nodup
    tab := by
      intro i
      simp only [m']
      rw [← hsome]
      by_cases h : (T.mem i).isSome
      · have : i ∈ s.table := sh.sub.subset ((hsome i).1 h)
        simp [h, (hi.tab i).1 this]
      · simp [h]
    rep := by
      intro i h
      have hu := (iff i).1 h
      obtain ⟨t, h1, h2⟩ := hi.rep i (g.inUse_mem hu)
      exact ⟨t, rep_kept hi hm h1 fun j e => by cases e; exact hu, h2⟩
    uniqN := fun h h' => hi.uniqN (hback h) (hback h')
    uniqT := fun h h' => hi.uniqT (hback h) (hback h')
    diff := by
      have : InUse (toTbl s roots) (extRefs s roots) s.differing :=
        .root ((hi.tab _).2 (by rw [hi.diff]; rfl)) (by unfold extRefs; rw [if_pos rfl]; omega)
      exact (hm _ this).trans hi.diff
    memo := by
      intro m hmm
      obtain ⟨ta, tb, h1, h2, h3⟩ := hi.memo m hmm
      exact ⟨ta, tb, keep h1 fun i e => ext_memo hmm (by simp [e]), keep h2 fun i e => ext_memo hmm (by simp [e]), keep h3 fun i e => ext_memo hmm (by simp [e])⟩
    rules := by
      intro m hmm
      obtain ⟨act, t, h1, h2, h3, h4⟩ := hi.rules m hmm
      refine ⟨act, t, ?_, h2, h3, keep h4 fun i e => ext_rule hmm e⟩
      have hl : HasLeaf act t := by
        rw [wcToDD, if_neg h2] at h3
        exact wcLoop_hasLeaf n (c := term act) rfl h3
      obtain ⟨i, e1, e2⟩ := leaf_inUse hi h4 hl (use h4 fun i e => ext_rule hmm e)
      rw [hi.uniqT h1 e1]
      exact (hm _ e2).trans e1 }

theorem collect_spec {s : CSt α} (hi : InvC n d s) (roots : List Ref) :
    ∃ s', collect s roots = .ok s' ∧ InvC n d s' ∧ (∀ r ∈ roots, ∀ t, Rep s.mem r t → Rep s'.mem r t) := by
  obtain ⟨s', h1, -, h2, -, -, -, h3⟩ := collect_spec' hi roots
  exact ⟨s', h1, h2, h3⟩

theorem cleanup_spec {s : CSt α} (hi : InvC n d s) (roots : List Ref) :
    ∃ s', cleanup s roots = .ok s' ∧ InvC n d s' ∧ (∀ r ∈ roots, ∀ t, Rep s.mem r t → Rep s'.mem r t) := by
  unfold cleanup
  split
  · obtain ⟨s', e, h1, h2⟩ := collect_spec hi roots
    exact ⟨s', e, h1, h2⟩
  · exact ⟨s, rfl, hi, fun _ _ _ h => h⟩

theorem binopC_spec {e : Env} (he : e.Sound) (op : Op) {a b : Ref} {s : CSt α} {ta tb : DD α} {roots : List Ref} (hi : InvC n d s) (hra : a ∈ roots) (hrb : b ∈ roots)
    (ha : Rep s.mem a ta) (hb : Rep s.mem b tb) :
    ∃ r s', binopC e n op a b roots s = .ok (r, s') ∧ InvC n d s' ∧ (∀ r ∈ roots, ∀ t, Rep s.mem r t → Rep s'.mem r t) ∧ Rep s'.mem r (op.tree d ta tb) := by
  obtain ⟨s1, e1, i1, k1⟩ := cleanup_spec hi roots
  have h1 := hgt_le (hi.wfRep ha)
  have h2 := hgt_le (hi.wfRep hb)
  obtain ⟨r, s2, e2, i2, x2, r2⟩ := applyC_spec he op (2 * n + 3) i1 (k1 a hra ta ha) (k1 b hrb tb hb) (by omega)
  refine ⟨r, s2, by unfold binopC; rw [e1]; exact e2, i2, fun r hr t ht => (k1 r hr t ht).mono x2, r2⟩

/-! ### Wildcards -/

theorem digit_value (wc b : Nat) : (((wc >>> (b * 2 / 30 * 30)) % 2 ^ 30) >>> (b * 2 % 30)) &&& 3 = (wc >>> (b * 2)) &&& 3 := by
  apply Nat.eq_of_testBit_eq
  intro i
  rw [Nat.testBit_and, Nat.testBit_and, Nat.testBit_shiftRight, Nat.testBit_mod_two_pow, Nat.testBit_shiftRight, Nat.testBit_shiftRight]
  by_cases hi : i < 2
  · have h1 : b * 2 % 30 + i < 30 := by omega
    have h2 : b * 2 / 30 * 30 + (b * 2 % 30 + i) = b * 2 + i := by omega
    simp [h1, h2]
  · have : Nat.testBit 3 i = false := Nat.testBit_lt_two_pow (Nat.lt_of_lt_of_le (by decide : 3 < 2 ^ 2) (Nat.pow_le_pow_right (by decide) (by omega)))
    simp [this]

theorem shift_ne_zero {wc b : Nat} (h : (wc >>> (b * 2)) &&& 3 ≠ 0) : wc >>> (b * 2 / 30 * 30) ≠ 0 := by
  intro h0
  apply h
  rw [← digit_value, h0]
  simp

theorem wcLoopC_spec {e : Env} (he : e.Sound) {wc b k : Nat} {c : Addr} (hbk : b + k = n) {s : CSt α} (hi : InvC n d s) {tc t : DD α} (hc : Rep s.mem (some c) tc)
    (hw : WF n (n - b) tc) (h : wcLoop n wc b k tc = some t) :
    ∃ r s', wcLoopC e n wc b k (some c) s = .ok (r, s') ∧ InvC n d s' ∧ ExtM s.mem s'.mem ∧ Rep s'.mem r t := by
  induction k generalizing b c s tc with
  | zero =>
    simp only [wcLoop, Option.some.injEq] at h
    exact ⟨_, _, rfl, hi, ExtM.refl _, h ▸ hc⟩
  | succ k ih =>
    have hne : tc ≠ bot := fun h => by have := hc.none_iff.2 h; cases this
    rw [wcLoop.eq_def] at h
    rw [wcLoopC.eq_def]
    simp only [digit_value] at h ⊢
    by_cases h0 : (wc >>> (b * 2)) &&& 3 = 0
    · rw [if_pos h0] at h; cases h
    rw [if_neg h0] at h
    rw [if_neg (shift_ne_zero h0)]
    by_cases h1 : (wc >>> (b * 2)) &&& 3 = 1
    · rw [if_pos h1] at h ⊢
      have hwn : WF n (n - (b + 1)) (node (n - 1 - b) tc bot) := ⟨by omega, by omega, hne, hw.mono (by omega), trivial⟩
      have hmk : mk (n - 1 - b) tc bot = node (n - 1 - b) tc bot := by rw [mk, if_neg hne]
      obtain ⟨r, s', e1, i1, x1, r1⟩ := getNode_spec he hi hc .bot (num := n - 1 - b) (hmk ▸ hwn.mono (Nat.zero_le _))
      rw [hmk] at r1
      cases r with
      | none => cases r1
      | some i =>
        rw [e1]
        obtain ⟨r, s'', e2, i2, x2, p⟩ := ih (by omega) i1 r1 hwn h
        exact ⟨r, s'', e2, i2, x1.trans x2, p⟩
    rw [if_neg h1] at h ⊢
    by_cases h2 : (wc >>> (b * 2)) &&& 3 = 2
    · rw [if_pos h2] at h ⊢
      have hwn : WF n (n - (b + 1)) (node (n - 1 - b) bot tc) := ⟨by omega, by omega, fun h => hne h.symm, trivial, hw.mono (by omega)⟩
      have hmk : mk (n - 1 - b) bot tc = node (n - 1 - b) bot tc := by rw [mk, if_neg fun h => hne h.symm]
      obtain ⟨r, s', e1, i1, x1, r1⟩ := getNode_spec he hi .bot hc (num := n - 1 - b) (hmk ▸ hwn.mono (Nat.zero_le _))
      rw [hmk] at r1
      cases r with
      | none => cases r1
      | some i =>
        rw [e1]
        obtain ⟨r, s'', e2, i2, x2, p⟩ := ih (by omega) i1 r1 hwn h
        exact ⟨r, s'', e2, i2, x1.trans x2, p⟩
    rw [if_neg h2] at h ⊢
    exact ih (by omega) hi hc (hw.mono (by omega)) h

theorem wcToC_spec {e : Env} (he : e.Sound) {wc : Nat} {act : α} {s : CSt α} (hi : InvC n d s) {t : DD α} (h : wcToDD n wc act = some t) :
    ∃ r s', wcToC e n wc act s = .ok (r, s') ∧ InvC n d s' ∧ ExtM s.mem s'.mem ∧ Rep s'.mem r t := by
  unfold wcToC
  by_cases h0 : wc = 0
  · rw [wcToDD, if_pos h0] at h
    cases h
    rw [if_pos h0]
    exact ⟨_, _, rfl, hi, ExtM.refl _, .bot⟩
  rw [if_neg h0]
  obtain ⟨i, s1, e1, i1, x1, r1⟩ := internC_term he hi act
  rw [e1]
  simp only
  have i2 := invC_tick he i1
  have hsn : (tickC e s1).mem = s1.mem := rfl
  generalize htk : tickC e s1 = s2 at i2 hsn
  rw [← hsn] at r1 x1
  cases hg : ruleGetC s2 wc i with
  | some r =>
    refine ⟨_, _, rfl, i2, x1, ?_⟩
    unfold ruleGetC at hg
    split at hg
    · next m hm =>
      have hmem := List.mem_of_find?_eq_some hm
      have hp := List.find?_some hm
      simp only [Bool.and_eq_true, decide_eq_true_eq] at hp
      obtain ⟨act', t', h1, h2, h3, h4⟩ := i2.rules m hmem
      rw [hp.2, r1] at h1
      cases h1
      rw [hp.1, h] at h3
      cases h3
      rw [hg] at h4
      exact h4
    · cases hg
  | none =>
    simp only
    have hl := h
    rw [wcToDD, if_neg h0] at hl
    obtain ⟨r, s3, e2, i3, x3, r3⟩ := wcLoopC_spec he (wc := wc) (b := 0) (k := n) (by omega) i2 (.term r1) trivial hl
    rw [e2]
    refine ⟨_, _, rfl, ?_, x1.trans x3, r3⟩
    apply invC_tick he
    exact {
      nle := i3.nle
      nodup := i3.nodup
      tab := i3.tab
      rep := i3.rep
      uniqN := i3.uniqN
      uniqT := i3.uniqT
      diff := i3.diff
      memo := i3.memo
      rules := by
        intro m hm
        rcases List.mem_cons.1 hm with rfl | hm
        · exact ⟨act, t, x3 _ _ r1, h0, h, r3⟩
        · exact i3.rules m hm }

/-! ### Histories -/

/-- One call at the level of trees; `none` is a diagram that was let go. -/
def stepTC (n : Nat) (d : α) (x : List (Option (DD α))) (c : CCall α) : List (Option (DD α)) :=
  match c with
  | .wc wc act => x ++ [wcToDD n wc act]
  | .op op i j =>
    match x[i]?, x[j]? with
    | some (some a), some (some b) => x ++ [some (op.tree d a b)]
    | _, _ => x
  | .release i => x.set i none
  | .gc => x
  | .limit _ => x

/-- A history at the level of trees. -/
def runTC (n : Nat) (d : α) (h : List (CCall α)) : List (Option (DD α)) := h.foldl (stepTC n d) []

/-- What the caller holds is a copy of the trees. -/
def Slots (m : Addr → Option (Obj α)) (rs : List (Option Ref)) (ts : List (Option (DD α))) : Prop :=
  rs.length = ts.length ∧ ∀ i : Nat, (rs[i]? = some none ↔ ts[i]? = some none) ∧ ∀ r t, rs[i]? = some (some r) → ts[i]? = some (some t) → Rep m r t

theorem Slots.get {m : Addr → Option (Obj α)} {rs : List (Option Ref)} {ts : List (Option (DD α))} (h : Slots m rs ts) (i : Nat) :
    (rs[i]? = none ∧ ts[i]? = none) ∨ (rs[i]? = some none ∧ ts[i]? = some none) ∨ ∃ r t, rs[i]? = some (some r) ∧ ts[i]? = some (some t) ∧ Rep m r t := by
  obtain ⟨h1, h2⟩ := h
  cases hr : rs[i]? with
  | none =>
    left
    rw [List.getElem?_eq_none_iff] at hr ⊢
    exact ⟨rfl, by omega⟩
  | some x =>
    have hlt : i < ts.length := by rw [List.getElem?_eq_some_iff] at hr; obtain ⟨hr, -⟩ := hr; omega
    have ht := List.getElem?_eq_getElem hlt
    right
    cases x with
    | none => left; exact ⟨rfl, (h2 i).1.1 hr⟩
    | some r =>
      cases hx : ts[i] with
      | none => rw [hx] at ht; rw [(h2 i).1.2 ht] at hr; cases hr
      | some t => rw [hx] at ht; right; exact ⟨r, t, rfl, ht, (h2 i).2 r t hr ht⟩

theorem Slots.keep {m m' : Addr → Option (Obj α)} {rs : List (Option Ref)} {ts : List (Option (DD α))} (h : Slots m rs ts)
    (hk : ∀ r ∈ held rs, ∀ t, Rep m r t → Rep m' r t) : Slots m' rs ts :=
  ⟨h.1, fun i => ⟨(h.2 i).1, fun r t h1 h2 => hk r (by
    unfold held
    rw [List.mem_filterMap]
    exact ⟨some r, List.mem_of_getElem? h1, rfl⟩) t ((h.2 i).2 r t h1 h2)⟩⟩

theorem Slots.snoc {m : Addr → Option (Obj α)} {rs : List (Option Ref)} {ts : List (Option (DD α))} (h : Slots m rs ts) {r : Ref} {t : DD α} (hr : Rep m r t) :
    Slots m (rs ++ [some r]) (ts ++ [some t]) := by
  obtain ⟨h1, h2⟩ := h
  refine ⟨by simp [h1], fun i => ?_⟩
  by_cases hi : i < rs.length
  · rw [List.getElem?_append_left hi, List.getElem?_append_left (h1 ▸ hi)]
    exact h2 i
  · rw [List.getElem?_append_right (by omega), List.getElem?_append_right (by omega), h1]
    cases i - ts.length with
    | zero =>
      refine ⟨by simp, fun r' t' e1 e2 => ?_⟩
      simp at e1 e2
      rw [← e1, ← e2]; exact hr
    | succ k => simp

theorem Slots.release {m : Addr → Option (Obj α)} {rs : List (Option Ref)} {ts : List (Option (DD α))} (h : Slots m rs ts) (k : Nat) :
    Slots m (rs.set k none) (ts.set k none) := by
  obtain ⟨h1, h2⟩ := h
  refine ⟨by simp [h1], fun i => ?_⟩
  rw [List.getElem?_set, List.getElem?_set, h1]
  split
  · split
    · simp
    · simp
  · exact h2 i

/-- The calls for which the tree level has a diagram: wildcards without a `z` bit. -/
def CCall.Fine (n : Nat) : CCall α → Prop
  | .wc v _ => v = 0 ∨ WcValid n v
  | _ => True

theorem stepC_spec {e : Env} (he : e.Sound) (h0 : 0 < n) {x : CSt α × List (Option Ref)} {ts : List (Option (DD α))} (hi : InvC n d x.1) (hr : Slots x.1.mem x.2 ts)
    (c : CCall α) (hc : c.Fine n) : ∃ y, stepC e n x c = .ok y ∧ InvC n d y.1 ∧ Slots y.1.mem y.2 (stepTC n d ts c) := by
  cases c with
  | wc wc act =>
    obtain ⟨t, ht⟩ : ∃ t, wcToDD n wc act = some t := by
      rcases hc with rfl | hv
      · exact ⟨bot, by rw [wcToDD, if_pos rfl]⟩
      · obtain ⟨t, h, _⟩ := wcToDD_spec h0 act hv; exact ⟨t, h⟩
    obtain ⟨r, s', e1, i1, x1, r1⟩ := wcToC_spec he hi ht
    refine ⟨(s', x.2 ++ [some r]), by simp only [stepC, e1], i1, ?_⟩
    simp only [stepTC, ht]
    exact (hr.keep fun r _ t h => h.mono x1).snoc r1
  | op op i j =>
    simp only [stepC, stepTC]
    rcases hr.get i with ⟨h1, h2⟩ | ⟨h1, h2⟩ | ⟨a, ta, h1, h2, h3⟩
    · simp only [h1, h2]; exact ⟨x, rfl, hi, hr⟩
    · simp only [h1, h2]; exact ⟨x, rfl, hi, hr⟩
    rcases hr.get j with ⟨h1', h2'⟩ | ⟨h1', h2'⟩ | ⟨b, tb, h1', h2', h3'⟩
    · simp only [h1, h2, h1', h2']; exact ⟨x, rfl, hi, hr⟩
    · simp only [h1, h2, h1', h2']; exact ⟨x, rfl, hi, hr⟩
    have inh : ∀ {i : Nat} {r : Ref}, x.2[i]? = some (some r) → r ∈ held x.2 := fun h => by
      unfold held
      rw [List.mem_filterMap]
      exact ⟨_, List.mem_of_getElem? h, rfl⟩
    obtain ⟨r, s', e1, i1, k1, r1⟩ := binopC_spec he op hi (inh h1) (inh h1') h3 h3'
    simp only [h1, h2, h1', h2', e1]
    exact ⟨_, rfl, i1, (hr.keep k1).snoc r1⟩
  | release i => exact ⟨_, rfl, hi, hr.release i⟩
  | gc =>
    obtain ⟨s', e1, i1, k1⟩ := collect_spec hi (held x.2)
    exact ⟨(s', x.2), by simp only [stepC, e1], i1, hr.keep k1⟩
  | limit t => exact ⟨_, rfl, { hi with }, hr⟩

theorem runC_spec {e : Env} (he : e.Sound) (h0 : 0 < n) (hn : n ≤ termNum) (h : List (CCall α)) (hf : ∀ c ∈ h, c.Fine n) :
    ∃ y, runC e n d h = .ok y ∧ InvC n d y.1 ∧ Slots y.1.mem y.2 (runTC n d h) := by
  unfold runC runTC
  have : ∀ (h : List (CCall α)) (x : CSt α × List (Option Ref)) (ts : List (Option (DD α))), (∀ c ∈ h, c.Fine n) → InvC n d x.1 → Slots x.1.mem x.2 ts →
      ∃ y, h.foldlM (stepC e n) x = .ok y ∧ InvC n d y.1 ∧ Slots y.1.mem y.2 (h.foldl (stepTC n d) ts) := by
    intro h
    induction h with
    | nil => intro x ts _ hi hr; exact ⟨x, rfl, hi, hr⟩
    | cons c h ih =>
      intro x ts hf hi hr
      obtain ⟨y, e1, h1, h3⟩ := stepC_spec he h0 hi hr c (hf c List.mem_cons_self)
      obtain ⟨z, e2, h4, h5⟩ := ih y _ (fun c hc => hf c (List.mem_cons_of_mem _ hc)) h1 h3
      exact ⟨z, by rw [List.foldlM_cons, e1]; exact e2, h4, h5⟩
  exact this h _ _ hf (invC_init hn) ⟨rfl, fun i => by simp⟩

/-! ### Looking packets up -/

/-- Specification: looking a packet up by following references from `r`: it ends at a terminal with action `x`, or at `None`. -/
inductive WalkC (m : Addr → Option (Obj α)) (n : Nat) (p : Packet) : Ref → Option α → Prop where
  | none : WalkC m n p none none
  | term {i a} : m i = some (.term a) → WalkC m n p (some i) (some a)
  | zero {i num z o h x} : m i = some (.node num z o h) → p (n - 1 - num) = false → WalkC m n p z x → WalkC m n p (some i) x
  | one {i num z o h x} : m i = some (.node num z o h) → p (n - 1 - num) = true → WalkC m n p o x → WalkC m n p (some i) x

theorem walkC_iff {m : Addr → Option (Obj α)} {r : Ref} {t : DD α} (h : Rep m r t) (p : Packet) (x : Option α) : WalkC m n p r x ↔ t.lookup n p = x := by
  induction h with
  | bot =>
    constructor
    · intro h; cases h; rfl
    · rintro rfl; exact .none
  | term h1 =>
    constructor
    · intro h
      cases h with
      | term h2 => rw [h1] at h2; cases h2; rfl
      | zero h2 => rw [h1] at h2; cases h2
      | one h2 => rw [h1] at h2; cases h2
    · rintro rfl; exact .term h1
  | @node i num z o tz tn h1 _ _ i1 i2 =>
    have hl : (node num tz tn).lookup n p = if p (n - 1 - num) then tn.lookup n p else tz.lookup n p := rfl
    rw [hl]
    constructor
    · intro h
      cases h with
      | term h2 => rw [h1] at h2; cases h2
      | zero h2 hp hw =>
        rw [h1] at h2
        simp only [Option.some.injEq, Obj.node.injEq] at h2
        obtain ⟨rfl, rfl, rfl, -⟩ := h2
        rw [hp]; exact i1.1 hw
      | one h2 hp hw =>
        rw [h1] at h2
        simp only [Option.some.injEq, Obj.node.injEq] at h2
        obtain ⟨rfl, rfl, rfl, -⟩ := h2
        rw [hp]; exact i2.1 hw
    · cases hp : p (n - 1 - num)
      · intro h; exact .zero h1 hp (i1.2 (by simpa using h))
      · intro h; exact .one h1 hp (i2.2 (by simpa using h))

end Heap
end OFE
