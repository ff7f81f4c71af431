import Verif.Heap.Model
import Verif.Heap.GcLemmas
import Verif.Store.Lemmas

/-!
# The C++ node table implements the trees

Invariant `InvC`, refinement of the recursion.
-/

namespace OFE
namespace Heap
open Store (Ref Obj Op Memo RuleEntry termNum)
open DD
set_option linter.unusedSectionVars false
variable {α : Type} [DecidableEq α]

/-- Reference `r` is the root of a copy of tree `t` (with the `has_none` flags of the tree). -/
inductive Rep (m : Addr → Option (Obj α)) : Ref → DD α → Prop where
  | bot : Rep m none bot
  | term {i a} : m i = some (.term a) → Rep m (some i) (term a)
  | node {i num z o tz tn} : m i = some (.node num z o (tz.hasNone || tn.hasNone)) → Rep m z tz → Rep m o tn → Rep m (some i) (node num tz tn)

/-- Nothing is lost or changed. -/
def ExtM (m m' : Addr → Option (Obj α)) : Prop := ∀ i x, m i = some x → m' i = some x

theorem ExtM.refl (m : Addr → Option (Obj α)) : ExtM m m := fun _ _ h => h
theorem ExtM.trans {m m' m'' : Addr → Option (Obj α)} (h : ExtM m m') (h' : ExtM m' m'') : ExtM m m'' := fun i x hx => h' i x (h i x hx)

theorem Rep.mono {m m' : Addr → Option (Obj α)} (h : ExtM m m') {r : Ref} {t : DD α} (hr : Rep m r t) : Rep m' r t := by
  induction hr with
  | bot => exact .bot
  | term h1 => exact .term (h _ _ h1)
  | node h1 _ _ i1 i2 => exact .node (h _ _ h1) i1 i2

theorem Rep.functional {m : Addr → Option (Obj α)} {r : Ref} {t t' : DD α} (h : Rep m r t) (h' : Rep m r t') : t = t' := by
  induction h generalizing t' with
  | bot => cases h'; rfl
  | term h1 =>
    cases h' with
    | term h2 => rw [h1] at h2; cases h2; rfl
    | node h2 _ _ => rw [h1] at h2; cases h2
  | node h1 _ _ i1 i2 =>
    cases h' with
    | term h2 => rw [h1] at h2; cases h2
    | node h2 a b =>
      rw [h1] at h2
      simp only [Option.some.injEq, Obj.node.injEq] at h2
      obtain ⟨rfl, rfl, rfl, -⟩ := h2
      rw [i1 a, i2 b]

theorem Rep.none_iff {m : Addr → Option (Obj α)} {r : Ref} {t : DD α} (h : Rep m r t) : r = none ↔ t = DD.bot := by
  cases h <;> simp

/-- The invariant of the table and the caches. -/
structure InvC (n : Nat) (d : α) (s : CSt α) : Prop where
  nle : n ≤ termNum
  nodup : s.table.Nodup
  tab : ∀ i, i ∈ s.table ↔ (s.mem i).isSome
  rep : ∀ i, i ∈ s.table → ∃ t, Rep s.mem (some i) t ∧ WF n 0 t
  uniqN : ∀ {i j num : Nat} {z o : Ref} {h h' : Bool}, s.mem i = some (.node num z o h) → s.mem j = some (.node num z o h') → i = j
  uniqT : ∀ {i j : Nat} {a : α}, s.mem i = some (.term a) → s.mem j = some (.term a) → i = j
  diff : s.mem s.differing = some (.term d)
  memo : ∀ m ∈ s.memo, ∃ ta tb, Rep s.mem m.a ta ∧ Rep s.mem m.b tb ∧ Rep s.mem m.r (m.op.tree d ta tb)
  rules : ∀ m ∈ s.rules, ∃ act t, s.mem m.term = some (.term act) ∧ m.wc ≠ 0 ∧ wcToDD n m.wc act = some t ∧ Rep s.mem m.r t

/-- Caches only drop entries, and a new object is at a free address. -/
structure Env.Sound (e : Env) : Prop where
  memo : ∀ t l, ∀ m ∈ e.memo t l, m ∈ l
  rules : ∀ t l, ∀ m ∈ e.rules t l, m ∈ l
  alloc : ∀ t l, e.alloc t l ∉ l

variable {n : Nat} {d : α}

theorem Rep.mem_table {s : CSt α} (hi : InvC n d s) {i : Nat} {t : DD α} (h : Rep s.mem (some i) t) : i ∈ s.table := by
  rw [hi.tab]
  cases h with
  | term h => rw [h]; rfl
  | node h => rw [h]; rfl

theorem InvC.wfRep {s : CSt α} (hi : InvC n d s) {r : Ref} {t : DD α} (h : Rep s.mem r t) : WF n 0 t := by
  cases r with
  | none => cases h; trivial
  | some i =>
    obtain ⟨t', h1, h2⟩ := hi.rep i (h.mem_table hi)
    rw [h.functional h1]; exact h2

theorem Rep.inj {s : CSt α} (hi : InvC n d s) {r r' : Ref} {t : DD α} (h : Rep s.mem r t) (h' : Rep s.mem r' t) : r = r' := by
  induction h generalizing r' with
  | bot => cases h'; rfl
  | term h1 => cases h' with
    | term h2 => rw [hi.uniqT h1 h2]
  | node h1 _ _ i1 i2 =>
    cases h' with
    | node h2 a b =>
      have := i1 a; have := i2 b
      subst_vars
      rw [hi.uniqN h1 h2]

theorem Rep.eq_iff {s : CSt α} (hi : InvC n d s) {r r' : Ref} {t t' : DD α} (h : Rep s.mem r t) (h' : Rep s.mem r' t') : r = r' ↔ t = t' := by
  constructor
  · rintro rfl; exact h.functional h'
  · rintro rfl; exact h.inj hi h'

theorem invC_init {e : Env} (hn : n ≤ termNum) : InvC n d (initC e d) where
  nle := hn
  nodup := by simp [initC]
  tab := by
    intro i
    simp only [initC, List.mem_singleton]
    by_cases h : i = e.alloc 0 [] <;> simp [h]
  rep := by
    intro i hi
    simp only [initC, List.mem_singleton] at hi
    exact ⟨term d, .term (by simp [initC, hi]), trivial⟩
  uniqN := by
    intro i j num z o h h' hx
    simp only [initC] at hx
    split at hx <;> cases hx
  uniqT := by
    intro i j a hx hy
    simp only [initC] at hx hy
    split at hx
    · split at hy
      · rename_i h1 h2; exact h1.trans h2.symm
      · cases hy
    · cases hx
  diff := by simp [initC]
  memo := by simp [initC]
  rules := by simp [initC]

theorem invC_tick {e : Env} (he : e.Sound) {s : CSt α} (hi : InvC n d s) : InvC n d (tickC e s) where
  nle := hi.nle
  nodup := hi.nodup
  tab := hi.tab
  rep := hi.rep
  uniqN := hi.uniqN
  uniqT := hi.uniqT
  diff := hi.diff
  memo := fun m hm => hi.memo m (he.memo _ _ m hm)
  rules := fun m hm => hi.rules m (he.rules _ _ m hm)

theorem viewC_spec {s : CSt α} {r : Ref} {t : DD α} (h : Rep s.mem r t) :
    ∃ z o, viewC s r = .ok ((Store.viewT t).1, z, o, t.hasNone) ∧ Rep s.mem z (Store.viewT t).2.1 ∧ Rep s.mem o (Store.viewT t).2.2 := by
  cases h with
  | bot => exact ⟨none, none, rfl, .bot, .bot⟩
  | term h => exact ⟨none, none, by simp [viewC, h, Store.viewT, hasNone], .bot, .bot⟩
  | node h hz ho => exact ⟨_, _, by simp [viewC, h, Store.viewT, hasNone], hz, ho⟩

/-- `internC`: the object is found, or added at a free address. -/
theorem internC_spec {e : Env} (he : e.Sound) {s : CSt α} (hi : InvC n d s) {x : Obj α} {t : DD α} (hw : WF n 0 t)
    (hx : ∀ {m : Addr → Option (Obj α)} {i : Addr}, ExtM s.mem m → m i = some x → Rep m (some i) t)
    (hh : ∀ {i : Addr} {y : Obj α}, s.mem i = some y → sameObj x y = true → y = x) :
    ∃ i s', internC e x s = (i, s') ∧ InvC n d s' ∧ ExtM s.mem s'.mem ∧ Rep s'.mem (some i) t ∧ s'.mem i = some x := by
  unfold internC
  cases hf : s.table.find? (fun i => match s.mem i with | some y => sameObj x y | none => false) with
  | some i =>
    have hp := List.find?_some hf
    cases hm : s.mem i with
    | none => rw [hm] at hp; cases hp
    | some y =>
      rw [hm] at hp
      have := hh hm hp
      subst this
      exact ⟨i, s, rfl, hi, ExtM.refl _, hx (ExtM.refl _) hm, hm⟩
  | none =>
    simp only
    rw [List.find?_eq_none] at hf
    generalize hk : e.alloc s.clock s.table = k
    have hkf : k ∉ s.table := hk ▸ he.alloc _ _
    have hkn : s.mem k = none := by
      have := mt (hi.tab k).2 hkf
      simpa using this
    have hnone : ∀ {i : Addr} {y : Obj α}, s.mem i = some y → sameObj x y = false := by
      intro i y hy
      have := hf i ((hi.tab i).2 (by rw [hy]; rfl))
      rw [hy] at this
      simpa using this
    let m' : Addr → Option (Obj α) := fun y => if y = k then some x else s.mem y
    have hext : ExtM s.mem m' := by
      intro i y hy
      have : i ≠ k := fun h => by rw [h, hkn] at hy; cases hy
      simp [m', this, hy]
    have hmk : m' k = some x := by simp [m']
    have hback : ∀ {i y}, m' i = some y → (i = k ∧ y = x) ∨ s.mem i = some y := by
      intro i y hy
      by_cases h : i = k
      · left; subst h; rw [hmk] at hy; cases hy; exact ⟨rfl, rfl⟩
      · right; simpa [m', h] using hy
    refine ⟨k, _, rfl, ?_, hext, hx hext hmk, hmk⟩
    exact {
      nle := hi.nle
      nodup := by
        simp only [List.nodup_append, List.nodup_cons, List.not_mem_nil, not_false_eq_true, List.nodup_nil, and_self, List.mem_singleton, true_and]
        refine ⟨hi.nodup, ?_⟩
        rintro a ha b rfl rfl
        exact hkf ha
      tab := by
        intro i
        simp only [List.mem_append, List.mem_singleton]
        by_cases h : i = k
        · simp [h]
        · simp [h, hi.tab]
      rep := by
        intro i hi'
        simp only [List.mem_append, List.mem_singleton] at hi'
        rcases hi' with h | rfl
        · obtain ⟨t', h1, h2⟩ := hi.rep i h
          exact ⟨t', h1.mono hext, h2⟩
        · exact ⟨t, hx hext hmk, hw⟩
      uniqN := by
        intro i j num z o h h' hx' hy'
        rcases hback hx' with ⟨rfl, e1⟩ | h1 <;> rcases hback hy' with ⟨rfl, e2⟩ | h2
        · rfl
        · have := hnone h2; rw [← e1] at this; simp [sameObj] at this
        · have := hnone h1; rw [← e2] at this; simp [sameObj] at this
        · exact hi.uniqN h1 h2
      uniqT := by
        intro i j a hx' hy'
        rcases hback hx' with ⟨rfl, e1⟩ | h1 <;> rcases hback hy' with ⟨rfl, e2⟩ | h2
        · rfl
        · have := hnone h2; rw [← e1] at this; simp [sameObj] at this
        · have := hnone h1; rw [← e2] at this; simp [sameObj] at this
        · exact hi.uniqT h1 h2
      diff := hext _ _ hi.diff
      memo := by
        intro m hm
        obtain ⟨ta, tb, h1, h2, h3⟩ := hi.memo m hm
        exact ⟨ta, tb, h1.mono hext, h2.mono hext, h3.mono hext⟩
      rules := by
        intro m hm
        obtain ⟨act, t, h1, h2, h3, h4⟩ := hi.rules m hm
        exact ⟨act, t, hext _ _ h1, h2, h3, h4.mono hext⟩ }

theorem internC_term {e : Env} (he : e.Sound) {s : CSt α} (hi : InvC n d s) (a : α) :
    ∃ i s', internC e (.term a) s = (i, s') ∧ InvC n d s' ∧ ExtM s.mem s'.mem ∧ s'.mem i = some (.term a) := by
  obtain ⟨i, s', e1, i1, x1, -, r1⟩ := internC_spec (t := term a) he hi (x := .term a) trivial (fun _ h => .term h) (by
    intro i y hy hs
    cases y with
    | term b => simp [sameObj] at hs; rw [hs]
    | node => simp [sameObj] at hs)
  exact ⟨i, s', e1, i1, x1, r1⟩

theorem getNode_spec {e : Env} (he : e.Sound) {s : CSt α} (hi : InvC n d s) {num : Nat} {z o : Ref} {tz tn : DD α} (hz : Rep s.mem z tz) (ho : Rep s.mem o tn)
    (hw : WF n 0 (mk num tz tn)) :
    ∃ r s', getNode e num z o s = .ok (r, s') ∧ InvC n d s' ∧ ExtM s.mem s'.mem ∧ Rep s'.mem r (mk num tz tn) := by
  unfold getNode
  by_cases h : z = o
  · have := (hz.eq_iff hi ho).1 h
    refine ⟨z, s, by rw [if_pos h], hi, ExtM.refl _, ?_⟩
    rw [mk, if_pos this]; exact hz
  · have hne : tz ≠ tn := fun h' => h ((hz.eq_iff hi ho).2 h')
    rw [mk, if_neg hne] at hw ⊢
    obtain ⟨z1, z2, vz, -, -⟩ := viewC_spec hz
    obtain ⟨o1, o2, vo, -, -⟩ := viewC_spec ho
    rw [if_neg h, vz, vo]
    simp only
    obtain ⟨i, s', e1, i1, x1, r1, -⟩ := internC_spec (t := node num tz tn) he hi (x := .node num z o (tz.hasNone || tn.hasNone)) hw
      (fun hx h => .node h (hz.mono hx) (ho.mono hx)) (by
        intro i y hy hs
        cases y with
        | term b => simp [sameObj] at hs
        | node num' z' o' h' =>
          simp only [sameObj, Bool.and_eq_true, beq_iff_eq] at hs
          obtain ⟨⟨rfl, rfl⟩, rfl⟩ := hs
          obtain ⟨t, ht, -⟩ := hi.rep i ((hi.tab i).2 (by rw [hy]; rfl))
          cases ht with
          | term h => rw [hy] at h; cases h
          | node h a b =>
            rw [hy] at h
            simp only [Option.some.injEq, Obj.node.injEq] at h
            obtain ⟨rfl, rfl, rfl, rfl⟩ := h
            rw [a.functional hz, b.functional ho])
    rw [e1]
    exact ⟨some i, s', rfl, i1, x1, r1⟩

theorem sameKey_iff {s : CSt α} (hi : InvC n d s) {a b : Ref} {ta tb : DD α} (ha : Rep s.mem a ta) (hb : Rep s.mem b tb) : sameKey s a b = true ↔ a = b := by
  unfold sameKey
  rw [Bool.or_eq_true, beq_iff_eq]
  constructor
  · rintro (h | h)
    · exact h
    · cases a with
      | none => cases h
      | some i =>
        cases b with
        | none => cases h
        | some j =>
          simp only at h
          cases ei : s.mem i with
          | none => rw [ei] at h; cases h
          | some x =>
            cases ej : s.mem j with
            | none => rw [ei, ej] at h; cases h
            | some y =>
              rw [ei, ej] at h
              cases x with
              | term u =>
                cases y with
                | term v =>
                  simp only [sameObj, beq_iff_eq] at h
                  subst h
                  rw [hi.uniqT ei ej]
                | node => simp [sameObj] at h
              | node =>
                cases y with
                | term v => simp [sameObj] at h
                | node =>
                  simp only [sameObj, Bool.and_eq_true, beq_iff_eq] at h
                  obtain ⟨⟨rfl, rfl⟩, rfl⟩ := h
                  rw [hi.uniqN ei ej]
  · exact .inl

theorem memoGetC_spec {s : CSt α} (hi : InvC n d s) {op : Op} {a b : Ref} {ta tb : DD α} (ha : Rep s.mem a ta) (hb : Rep s.mem b tb) {r : Ref}
    (h : memoGetC s op a b = some r) : Rep s.mem r (op.tree d ta tb) := by
  unfold memoGetC at h
  rw [Option.map_eq_some_iff] at h
  obtain ⟨m, hm, rfl⟩ := h
  have hmem := List.mem_of_find?_eq_some hm
  have hp := List.find?_some hm
  simp only [Bool.and_eq_true, decide_eq_true_eq] at hp
  obtain ⟨⟨h1, h2⟩, h3⟩ := hp
  obtain ⟨ta', tb', h4, h5, h6⟩ := hi.memo m hmem
  rw [sameKey_iff hi ha h4] at h2
  rw [sameKey_iff hi hb h5] at h3
  rw [← h2] at h4; rw [← h3] at h5
  rw [h4.functional ha, h5.functional hb, h1] at h6
  exact h6

theorem invC_memoPut {e : Env} (he : e.Sound) {s : CSt α} (hi : InvC n d s) {op : Op} {a b r : Ref} {ta tb : DD α} (ha : Rep s.mem a ta) (hb : Rep s.mem b tb)
    (hr : Rep s.mem r (op.tree d ta tb)) : InvC n d (memoPutC e op a b r s) ∧ (memoPutC e op a b r s).mem = s.mem := by
  unfold memoPutC
  split
  · exact ⟨hi, rfl⟩
  · refine ⟨?_, rfl⟩
    apply invC_tick he
    exact {
      nle := hi.nle
      nodup := hi.nodup
      tab := hi.tab
      rep := hi.rep
      uniqN := hi.uniqN
      uniqT := hi.uniqT
      diff := hi.diff
      memo := by
        intro m hm
        rcases List.mem_cons.1 hm with rfl | hm
        · exact ⟨ta, tb, ha, hb, hr⟩
        · exact hi.memo m hm
      rules := hi.rules }

theorem num_isTerm {t : DD α} (hw : WF n 0 t) (hn : n ≤ termNum) (h : t ≠ bot) : (Store.viewT t).1 = termNum ↔ t.isTerm = true := by
  cases t with
  | bot => exact absurd rfl h
  | term => simp [Store.viewT, isTerm]
  | node num z o =>
    have := lt_of_lt_of_le hw.2.1 hn
    simp only [Store.viewT, isTerm]
    constructor
    · intro h; omega
    · intro h; cases h

theorem baseC_spec {s : CSt α} (hi : InvC n d s) (op : Op) {a b : Ref} {ta tb : DD α} (ha : Rep s.mem a ta) (hb : Rep s.mem b tb) :
    (∀ r, baseC op s.differing a b (Store.viewT ta).1 (Store.viewT tb).1 ta.hasNone = some r → ∃ tr, op.base d ta tb = some tr ∧ Rep s.mem r tr) ∧
    (baseC op s.differing a b (Store.viewT ta).1 (Store.viewT tb).1 ta.hasNone = none → op.base d ta tb = none) := by
  have hab := ha.eq_iff hi hb
  have hd : Rep s.mem (some s.differing) (term d) := .term hi.diff
  have han := ha.none_iff
  have hbn := hb.none_iff
  have hwa := hi.wfRep ha
  have hwb := hi.wfRep hb
  cases op with
  | meld =>
    simp only [baseC, Op.base, meldBase]
    by_cases h1 : ta = bot
    · have := han.2 h1
      simp only [h1, this, if_true]
      exact ⟨fun r hr => ⟨tb, rfl, by cases hr; exact hb⟩, fun h => by cases h⟩
    · rw [if_neg (fun h => h1 (han.1 h)), if_neg h1]
      by_cases h2 : tb = bot
      · have := hbn.2 h2
        simp only [h2, this, if_true]
        exact ⟨fun r hr => ⟨ta, rfl, by cases hr; exact ha⟩, fun h => by cases h⟩
      · rw [if_neg (fun h => h2 (hbn.1 h)), if_neg h2]
        cases h3 : ta.hasNone
        · simp only [Bool.not_false, if_true]
          exact ⟨fun r hr => ⟨ta, rfl, by cases hr; exact ha⟩, fun h => by cases h⟩
        · simp
  | difference =>
    simp only [baseC, Op.base, differenceBase]
    by_cases h0 : ta = tb
    · rw [if_pos (hab.2 h0), if_pos h0]
      exact ⟨fun r hr => ⟨bot, rfl, by cases hr; exact .bot⟩, fun h => by cases h⟩
    rw [if_neg (fun h => h0 (hab.1 h)), if_neg h0]
    by_cases h1 : ta = bot
    · rw [if_pos (han.2 h1), if_pos h1]
      exact ⟨fun r hr => ⟨_, rfl, by cases hr; exact hd⟩, fun h => by cases h⟩
    · have ha' : a ≠ none := fun h => h1 (han.1 h)
      rw [if_neg ha', if_neg h1]
      simp only [num_isTerm hwa hi.nle h1]
      by_cases h2 : tb = bot
      · rw [if_pos (hbn.2 h2), if_pos h2]
        cases h3 : ta.isTerm
        · simp
        · simp only [if_true]
          exact ⟨fun r hr => ⟨_, rfl, by cases hr; exact hd⟩, fun h => by cases h⟩
      · have hb' : b ≠ none := fun h => h2 (hbn.1 h)
        rw [if_neg hb', if_neg h2]
        simp only [num_isTerm hwb hi.nle h2]
        cases h3 : ta.isTerm <;> cases h4 : tb.isTerm <;> simp
        exact hd
  | subtract =>
    simp only [baseC, Op.base, subtractBase]
    by_cases h0 : ta = tb
    · rw [if_pos (hab.2 h0), if_pos h0]
      exact ⟨fun r hr => ⟨bot, rfl, by cases hr; exact .bot⟩, fun h => by cases h⟩
    rw [if_neg (fun h => h0 (hab.1 h)), if_neg h0]
    by_cases h1 : ta = bot
    · rw [if_pos (han.2 h1), if_pos h1]
      exact ⟨fun r hr => ⟨_, rfl, by cases hr; exact .bot⟩, fun h => by cases h⟩
    · have ha' : a ≠ none := fun h => h1 (han.1 h)
      rw [if_neg ha', if_neg h1]
      simp only [num_isTerm hwa hi.nle h1]
      by_cases h2 : tb = bot
      · rw [if_pos (hbn.2 h2), if_pos h2]
        exact ⟨fun r hr => ⟨_, rfl, by cases hr; exact ha⟩, fun h => by cases h⟩
      · have hb' : b ≠ none := fun h => h2 (hbn.1 h)
        rw [if_neg hb', if_neg h2]
        simp only [num_isTerm hwb hi.nle h2]
        cases h3 : ta.isTerm <;> cases h4 : tb.isTerm <;> simp
        exact ha
  | intersection =>
    simp only [baseC, Op.base, intersectionBase]
    simp only [han, hbn]
    by_cases h1 : ta = bot ∨ tb = bot
    · rw [if_pos h1, if_pos h1]
      exact ⟨fun r hr => ⟨bot, rfl, by cases hr; exact .bot⟩, fun h => by cases h⟩
    · rw [if_neg h1, if_neg h1]
      by_cases h0 : ta = tb
      · rw [if_pos (hab.2 h0), if_pos h0]
        exact ⟨fun r hr => ⟨ta, rfl, by cases hr; exact ha⟩, fun h => by cases h⟩
      · rw [if_neg (fun h => h0 (hab.1 h)), if_neg h0]
        simp

/-- Height, counting a termination as one. -/
def hgt : DD α → Nat
  | bot => 0
  | term _ => 1
  | node _ z o => 1 + max (hgt z) (hgt o)

theorem hgt_le {k : Nat} {t : DD α} (h : WF n k t) : hgt t ≤ n - k + 1 := by
  induction t generalizing k with
  | bot => exact Nat.zero_le _
  | term => simp only [hgt]; omega
  | node num z o iz io =>
    obtain ⟨h1, h2, -, h4, h5⟩ := h
    have := iz h4
    have := io h5
    simp only [hgt]
    omega

theorem hgt_view (t : DD α) : hgt (Store.viewT t).2.1 ≤ hgt t - 1 ∧ hgt (Store.viewT t).2.2 ≤ hgt t - 1 := by
  cases t with
  | bot => simp [Store.viewT, hgt]
  | term => simp [Store.viewT, hgt]
  | node num z o => simp only [Store.viewT, hgt]; omega

theorem hgt_pos {t : DD α} (h : t ≠ bot) : 0 < hgt t := by
  cases t with
  | bot => exact absurd rfl h
  | term => simp [hgt]
  | node => simp only [hgt]; omega

theorem ne_bot_of_num {t : DD α} (h : (Store.viewT t).1 ≠ termNum) : t ≠ bot := by rintro rfl; exact h rfl

/-- Refinement: the recursion on the table computes the tree operation, reads no freed object, does not run out of fuel, only adds objects, and keeps the
invariant; in whichever order the arguments are evaluated. -/
theorem applyC_spec {e : Env} (he : e.Sound) (op : Op) (fuel : Nat) {a b : Ref} {s : CSt α} {ta tb : DD α} (hi : InvC n d s) (ha : Rep s.mem a ta)
    (hb : Rep s.mem b tb) (hf : hgt ta + hgt tb < fuel) :
    ∃ r s', applyC e op fuel a b s = .ok (r, s') ∧ InvC n d s' ∧ ExtM s.mem s'.mem ∧ Rep s'.mem r (op.tree d ta tb) := by
  induction fuel generalizing a b s ta tb with
  | zero => omega
  | succ fuel ih =>
    obtain ⟨hb1, hb2⟩ := baseC_spec hi op ha hb
    obtain ⟨az, ao, va, raz, rao⟩ := viewC_spec ha
    obtain ⟨bz, bo, vb, rbz, rbo⟩ := viewC_spec hb
    rw [applyC.eq_def]
    simp only [va, vb]
    cases hbase : baseC op s.differing a b (Store.viewT ta).1 (Store.viewT tb).1 ta.hasNone with
    | some r =>
      obtain ⟨tr, h1, h2⟩ := hb1 r hbase
      refine ⟨r, s, rfl, hi, ExtM.refl _, ?_⟩
      rw [Op.tree_eq]; unfold apply; simp only [h1]; exact h2
    | none =>
      have hbt := hb2 hbase
      simp only
      have hi1 : InvC n d (tickC e s) := invC_tick he hi
      have hsn : (tickC e s).mem = s.mem := rfl
      generalize htk : tickC e s = s1 at hi1 hsn
      rw [← hsn] at ha hb raz rao rbz rbo
      rw [← hsn]
      clear hsn htk
      cases hm : memoGetC s1 op a b with
      | some r => exact ⟨r, s1, rfl, hi1, ExtM.refl _, memoGetC_spec hi1 ha hb hm⟩
      | none =>
        simp only
        have hwa := hi1.wfRep ha
        have hwb := hi1.wfRep hb
        have happ := Store.apply_view (Store.base_bot d op) hwa hwb hi.nle hbt
        have hwr : WF n 0 (op.tree d ta tb) := op.wf d hwa hwb
        have hra := hgt_view ta
        have hrb := hgt_view tb
        have hpos : 0 < hgt ta + hgt tb := by
          by_cases h1 : ta = bot
          · by_cases h2 : tb = bot
            · rw [h1, h2, Store.base_bot] at hbt; cases hbt
            · have := hgt_pos h2; omega
          · have := hgt_pos h1; omega
        rw [← Op.tree_eq] at happ
        have main : ∀ (num : Nat) (az bz ao bo : Ref) (taz tbz tao tbo : DD α),
            Rep s1.mem az taz → Rep s1.mem bz tbz → Rep s1.mem ao tao → Rep s1.mem bo tbo →
            hgt taz + hgt tbz < hgt ta + hgt tb → hgt tao + hgt tbo < hgt ta + hgt tb →
            op.tree d ta tb = mk num (op.tree d taz tbz) (op.tree d tao tbo) →
            ∃ r s', (match both e.oneFirst (applyC e op fuel az bz) (applyC e op fuel ao bo) s1 with
              | .error x => .error x
              | .ok (z, o, s) =>
                match getNode e num z o s with
                | .error x => .error x
                | .ok (r, s) => .ok (r, memoPutC e op a b r s)) = (.ok (r, s') : Except PyErr (Ref × CSt α)) ∧
              InvC n d s' ∧ ExtM s1.mem s'.mem ∧ Rep s'.mem r (op.tree d ta tb) := by
          intro num az bz ao bo taz tbz tao tbo h1 h2 h3 h4 hr1 hr2 heq
          have hboth : ∃ z o s3, both e.oneFirst (applyC e op fuel az bz) (applyC e op fuel ao bo) s1 = .ok (z, o, s3) ∧ InvC n d s3 ∧ ExtM s1.mem s3.mem ∧
              Rep s3.mem z (op.tree d taz tbz) ∧ Rep s3.mem o (op.tree d tao tbo) := by
            unfold both
            cases e.oneFirst with
            | false =>
              obtain ⟨z, s2, e1, i2, x2, r2⟩ := ih hi1 h1 h2 (by omega)
              obtain ⟨o, s3, e2, i3, x3, r3⟩ := ih i2 (h3.mono x2) (h4.mono x2) (by omega)
              exact ⟨z, o, s3, by simp [e1, e2], i3, x2.trans x3, r2.mono x3, r3⟩
            | true =>
              obtain ⟨o, s2, e1, i2, x2, r2⟩ := ih hi1 h3 h4 (by omega)
              obtain ⟨z, s3, e2, i3, x3, r3⟩ := ih i2 (h1.mono x2) (h2.mono x2) (by omega)
              exact ⟨z, o, s3, by simp [e1, e2], i3, x2.trans x3, r3, r2.mono x3⟩
          obtain ⟨z, o, s3, e1, i3, x3, r1, r2⟩ := hboth
          rw [heq] at hwr
          obtain ⟨r, s4, e3, i4, x4, r4⟩ := getNode_spec he i3 r1 r2 hwr
          rw [← heq] at r4
          obtain ⟨p1, p2⟩ := invC_memoPut he i4 (ha.mono (x3.trans x4)) (hb.mono (x3.trans x4)) r4
          refine ⟨r, memoPutC e op a b r s4, by rw [e1]; simp only [e3], p1, ?_, ?_⟩
          · rw [p2]; exact x3.trans x4
          · rw [p2]; exact r4
        by_cases c1 : (Store.viewT ta).1 = (Store.viewT tb).1
        · rw [if_pos c1] at happ
          simp only [c1, if_true]
          rw [c1] at happ
          exact main _ _ _ _ _ _ _ _ _ raz rbz rao rbo (by omega) (by omega) happ
        · rw [if_neg c1] at happ
          by_cases c2 : (Store.viewT ta).1 < (Store.viewT tb).1
          · rw [if_pos c2] at happ
            simp only [c1, if_false, c2, if_true]
            have hle := Store.viewT_le hwb hi.nle
            have := hgt_pos (ne_bot_of_num (t := ta) (by omega))
            exact main _ _ _ _ _ _ _ _ _ raz hb rao hb (by omega) (by omega) happ
          · rw [if_neg c2] at happ
            simp only [c1, if_false, c2]
            have hle := Store.viewT_le hwa hi.nle
            have := hgt_pos (ne_bot_of_num (t := tb) (by omega))
            exact main _ _ _ _ _ _ _ _ _ ha rbz ha rbo (by omega) (by omega) happ

end Heap
end OFE
