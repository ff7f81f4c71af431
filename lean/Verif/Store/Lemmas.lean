import Verif.Store.Spec
import Verif.Bdd.WcLemmas

/-!
# The shared node table implements the trees

Main invariant `Inv` and the refinement theorem `applyS_spec`.
-/

namespace OFE
namespace Store
open DD
set_option linter.unusedSectionVars false
variable {α : Type} [DecidableEq α]

/-- Reference `r` is the root of a copy of tree `t`. -/
inductive Rep (nodes : List (Obj α)) : Ref → DD α → Prop where
  | bot : Rep nodes none bot
  | term {i a} : nodes[i]? = some (.term a) → Rep nodes (some i) (term a)
  | node {i num z o h tz tn} : nodes[i]? = some (.node num z o h) → Rep nodes z tz → Rep nodes o tn →
      Rep nodes (some i) (node num tz tn)

/-- Nothing is lost or changed. -/
def Ext (l l' : List (Obj α)) : Prop := ∀ (i : Nat) x, l[i]? = some x → l'[i]? = some x

theorem Ext.refl (l : List (Obj α)) : Ext l l := fun _ _ h => h
theorem Ext.trans {l l' l'' : List (Obj α)} (h : Ext l l') (h' : Ext l' l'') : Ext l l'' :=
  fun i x hx => h' i x (h i x hx)

theorem Ext.append (l : List (Obj α)) (x : Obj α) : Ext l (l ++ [x]) := by
  intro i y hy
  have : i < l.length := by
    rw [List.getElem?_eq_some_iff] at hy; exact hy.1
  rw [List.getElem?_append_left this]; exact hy

theorem Rep.mono {l l' : List (Obj α)} (h : Ext l l') {r : Ref} {t : DD α} (hr : Rep l r t) : Rep l' r t := by
  induction hr with
  | bot => exact .bot
  | term h1 => exact .term (h _ _ h1)
  | node h1 _ _ i1 i2 => exact .node (h _ _ h1) i1 i2

theorem Rep.functional {l : List (Obj α)} {r : Ref} {t t' : DD α} (h : Rep l r t) (h' : Rep l r t') : t = t' := by
  induction h generalizing t' with
  | bot => cases h'; rfl
  | term h1 =>
    cases h' with
    | term h2 => rw [h1] at h2; cases h2; rfl
    | node h2 _ _ => rw [h1] at h2; cases h2
  | node h1 _ _ i1 i2 =>
    cases h' with
    | term h2 => rw [h1] at h2; cases h2
    | node h2 a b =>
      rw [h1] at h2; cases h2
      rw [i1 a, i2 b]

/-- The base test of the tree level operation. -/
def Op.base (d : α) : Op → DD α → DD α → Option (DD α)
  | .meld => meldBase
  | .difference => differenceBase d
  | .subtract => subtractBase
  | .intersection => intersectionBase

theorem Op.tree_eq (d : α) (op : Op) : op.tree d = apply (op.base d) := by
  cases op <;> rfl

theorem Op.wf {n k : Nat} (d : α) (op : Op) {a b : DD α} (ha : WF n k a) (hb : WF n k b) : WF n k (op.tree d a b) := by
  cases op
  · exact wf_meld ha hb
  · exact wf_difference d ha hb
  · exact wf_subtract ha hb
  · exact wf_intersection ha hb

/-- The invariant of the node table and the caches. -/
structure Inv (n : Nat) (d : α) (s : St α) : Prop where
  nle : n ≤ termNum
  lt : ∀ {i num : Nat} {z o : Ref} {h : Bool}, s.nodes[i]? = some (.node num z o h) → rank z ≤ i ∧ rank o ≤ i
  wf : ∀ {i : Nat} {t : DD α}, Rep s.nodes (some i) t → WF n 0 t
  hn : ∀ {i num : Nat} {z o : Ref} {h : Bool}, s.nodes[i]? = some (.node num z o h) → h = (refHasNone s z || refHasNone s o)
  uniqN : ∀ {i j num : Nat} {z o : Ref} {h h' : Bool}, s.nodes[i]? = some (.node num z o h) → s.nodes[j]? = some (.node num z o h') → i = j
  uniqT : ∀ {i j : Nat} {a : α}, s.nodes[i]? = some (.term a) → s.nodes[j]? = some (.term a) → i = j
  diff0 : s.nodes[0]? = some (.term d)
  memo : ∀ m ∈ s.memo, ∃ ta tb, Rep s.nodes m.a ta ∧ Rep s.nodes m.b tb ∧ Rep s.nodes m.r (m.op.tree d ta tb)
  rules : ∀ m ∈ s.rules, ∃ act t, s.nodes[m.term]? = some (.term act) ∧ wcToDD n m.wc act = some t ∧ Rep s.nodes m.r t

variable {n : Nat} {d : α}

theorem Inv.wfRep {s : St α} (hi : Inv n d s) {r : Ref} {t : DD α} (h : Rep s.nodes r t) : WF n 0 t := by
  cases r with
  | none => cases h; trivial
  | some i => exact hi.wf h

theorem Rep.inj {s : St α} (hi : Inv n d s) {r r' : Ref} {t : DD α} (h : Rep s.nodes r t) (h' : Rep s.nodes r' t) :
    r = r' := by
  induction h generalizing r' with
  | bot => cases h'; rfl
  | term h1 => cases h' with
    | term h2 => rw [hi.uniqT h1 h2]
  | node h1 _ _ i1 i2 =>
    cases h' with
    | node h2 a b =>
      have := i1 a; have := i2 b
      subst_vars
      rw [hi.uniqN h1 h2]

theorem Rep.eq_iff {s : St α} (hi : Inv n d s) {r r' : Ref} {t t' : DD α} (h : Rep s.nodes r t) (h' : Rep s.nodes r' t') :
    r = r' ↔ t = t' := by
  constructor
  · rintro rfl; exact h.functional h'
  · rintro rfl; exact h.inj hi h'

/-- Every reference into the table is the root of some tree. -/
theorem rep_total {l : List (Obj α)} (hlt : ∀ {i num : Nat} {z o : Ref} {h : Bool}, l[i]? = some (.node num z o h) → rank z ≤ i ∧ rank o ≤ i)
    {r : Ref} (hr : rank r ≤ l.length) : ∃ t, Rep l r t := by
  induction hk : rank r using Nat.strongRecOn generalizing r with
  | ind k ih =>
    cases r with
    | none => exact ⟨bot, .bot⟩
    | some i =>
      simp only [rank] at hr hk
      obtain ⟨x, hx⟩ : ∃ x, l[i]? = some x := ⟨l[i], List.getElem?_eq_getElem (by omega)⟩
      cases x with
      | term a => exact ⟨_, .term hx⟩
      | node num z o h =>
        obtain ⟨h1, h2⟩ := hlt hx
        obtain ⟨tz, hz⟩ := ih (rank z) (by omega) (r := z) (by omega) rfl
        obtain ⟨tn, ho⟩ := ih (rank o) (by omega) (r := o) (by omega) rfl
        exact ⟨_, .node hx hz ho⟩

theorem refHasNone_eq {s : St α} (hi : Inv n d s) {r : Ref} {t : DD α} (h : Rep s.nodes r t) :
    refHasNone s r = t.hasNone := by
  induction h with
  | bot => rfl
  | term h1 => simp [refHasNone, h1, hasNone]
  | node h1 _ _ i1 i2 =>
    simp only [refHasNone, h1, hasNone]
    rw [hi.hn h1, i1, i2]

theorem Rep.rank_le {l : List (Obj α)} {r : Ref} {t : DD α} (h : Rep l r t) : rank r ≤ l.length := by
  cases h with
  | bot => simp [rank]
  | term h => rw [List.getElem?_eq_some_iff] at h; have := h.1; simp [rank]; omega
  | node h => rw [List.getElem?_eq_some_iff] at h; have := h.1; simp [rank]; omega

theorem inv_init (hn : n ≤ termNum) : Inv n d (init d) where
  nle := hn
  lt := by
    intro i num z o h hx
    rcases i with _ | i <;> simp [init] at hx
  wf := by
    intro i t h
    cases h with
    | term => trivial
    | @node i num z o h tz tn hx =>
      rcases i with _ | i <;> simp [init] at hx
  hn := by
    intro i num z o h hx
    rcases i with _ | i <;> simp [init] at hx
  uniqN := by
    intro i j num z o h h' hx
    rcases i with _ | i <;> simp [init] at hx
  uniqT := by
    intro i j a hx hy
    rcases i with _ | i <;> rcases j with _ | j <;> simp [init] at hx hy ⊢
  diff0 := rfl
  memo := by simp [init]
  rules := by simp [init]

theorem inv_tick {e : Evict} (he : e.Sound) {s : St α} (hi : Inv n d s) : Inv n d (tick e s) where
  nle := hi.nle
  lt := hi.lt
  wf := hi.wf
  hn := hi.hn
  uniqN := hi.uniqN
  uniqT := hi.uniqT
  diff0 := hi.diff0
  memo := fun m hm => hi.memo m (he.memo _ _ m hm)
  rules := fun m hm => hi.rules m (he.rules _ _ m hm)

theorem getElem?_concat {β : Type} {l : List β} {x y : β} {i : Nat} (h : (l ++ [x])[i]? = some y) :
    (i < l.length ∧ l[i]? = some y) ∨ (i = l.length ∧ x = y) := by
  rcases Nat.lt_trichotomy i l.length with hi | hi | hi
  · left; rw [List.getElem?_append_left hi] at h; exact ⟨hi, h⟩
  · right; subst hi; simp at h; exact ⟨rfl, h⟩
  · rw [List.getElem?_append_right (by omega)] at h
    have : i - l.length ≠ 0 := by omega
    obtain ⟨k, hk⟩ := Nat.exists_eq_succ_of_ne_zero this
    rw [hk] at h; simp at h

theorem refHasNone_append {s : St α} {x : Obj α} {r : Ref} (hr : rank r ≤ s.nodes.length) :
    refHasNone { s with nodes := s.nodes ++ [x] } r = refHasNone s r := by
  cases r with
  | none => rfl
  | some i =>
    simp only [rank] at hr
    simp only [refHasNone]
    rw [List.getElem?_append_left (by omega)]

/-- Adding one new object keeps the invariant. -/
theorem inv_append {s : St α} (hi : Inv n d s) (x : Obj α)
    (hlt : ∀ {num : Nat} {z o : Ref} {h : Bool}, x = .node num z o h → rank z ≤ s.nodes.length ∧ rank o ≤ s.nodes.length)
    (hwf : ∀ t, Rep (s.nodes ++ [x]) (some s.nodes.length) t → WF n 0 t)
    (hhn : ∀ {num : Nat} {z o : Ref} {h : Bool}, x = .node num z o h → h = (refHasNone s z || refHasNone s o))
    (hnewN : ∀ {num : Nat} {z o : Ref} {h h' : Bool} {i : Nat}, x = .node num z o h → s.nodes[i]? ≠ some (.node num z o h'))
    (hnewT : ∀ {a : α} {i : Nat}, x = .term a → s.nodes[i]? ≠ some (.term a)) :
    Inv n d { s with nodes := s.nodes ++ [x] } where
  nle := hi.nle
  lt := by
    intro i num z o h hx
    rcases getElem?_concat hx with ⟨_, h1⟩ | ⟨rfl, h1⟩
    · exact hi.lt h1
    · exact hlt h1
  wf := by
    intro i t h
    have hle := h.rank_le
    simp only [rank, List.length_append, List.length_singleton] at hle
    by_cases hil : i < s.nodes.length
    · obtain ⟨t', ht'⟩ := rep_total hi.lt (r := some i) (by simp [rank]; omega)
      rw [h.functional (ht'.mono (Ext.append _ _))]
      exact hi.wf ht'
    · have : i = s.nodes.length := by omega
      subst this
      exact hwf t h
  hn := by
    intro i num z o h hx
    rcases getElem?_concat hx with ⟨hl, h1⟩ | ⟨rfl, h1⟩
    · have := hi.lt h1
      rw [refHasNone_append (by omega), refHasNone_append (by omega)]
      exact hi.hn h1
    · have := hlt h1
      rw [refHasNone_append (by omega), refHasNone_append (by omega)]
      exact hhn h1
  uniqN := by
    intro i j num z o h h' hx hy
    rcases getElem?_concat hx with ⟨hl, h1⟩ | ⟨rfl, h1⟩ <;> rcases getElem?_concat hy with ⟨hl', h1'⟩ | ⟨rfl, h1'⟩
    · exact hi.uniqN h1 h1'
    · exact absurd h1 (hnewN h1')
    · exact absurd h1' (hnewN h1)
    · rfl
  uniqT := by
    intro i j a hx hy
    rcases getElem?_concat hx with ⟨hl, h1⟩ | ⟨rfl, h1⟩ <;> rcases getElem?_concat hy with ⟨hl', h1'⟩ | ⟨rfl, h1'⟩
    · exact hi.uniqT h1 h1'
    · exact absurd h1 (hnewT h1')
    · exact absurd h1' (hnewT h1)
    · rfl
  diff0 := Ext.append _ _ _ _ hi.diff0
  memo := by
    intro m hm
    obtain ⟨ta, tb, h1, h2, h3⟩ := hi.memo m hm
    exact ⟨ta, tb, h1.mono (Ext.append _ _), h2.mono (Ext.append _ _), h3.mono (Ext.append _ _)⟩
  rules := by
    intro m hm
    obtain ⟨act, t, h1, h2, h3⟩ := hi.rules m hm
    exact ⟨act, t, Ext.append _ _ _ _ h1, h2, h3.mono (Ext.append _ _)⟩

theorem internTerm_spec {s : St α} (hi : Inv n d s) (a : α) :
    ∃ i s', internTerm a s = (i, s') ∧ Inv n d s' ∧ Ext s.nodes s'.nodes ∧ s'.nodes[i]? = some (.term a) := by
  unfold internTerm intern
  cases hf : s.nodes.findIdx? (sameTerm a) with
  | some i =>
    refine ⟨i, s, rfl, hi, Ext.refl _, ?_⟩
    rw [List.findIdx?_eq_some_iff_getElem] at hf
    obtain ⟨hlt, hs, _⟩ := hf
    rw [List.getElem?_eq_getElem hlt]
    cases hx : s.nodes[i] with
    | term a' => rw [hx] at hs; simp [sameTerm] at hs; rw [hs]
    | node => rw [hx] at hs; simp [sameTerm] at hs
  | none =>
    rw [List.findIdx?_eq_none_iff] at hf
    refine ⟨_, _, rfl, ?_, Ext.append _ _, by simp⟩
    apply inv_append hi
    · intro num z o h hx; cases hx
    · intro t ht
      cases ht with
      | term => trivial
      | node h => simp at h
    · intro num z o h hx; cases hx
    · intro num z o h h' i hx; cases hx
    · intro b i hx hb
      cases hx
      have := hf _ (List.mem_of_getElem? hb)
      simp [sameTerm] at this

theorem internNode_spec {s : St α} (hi : Inv n d s) {num : Nat} {z o : Ref} {tz tn : DD α} (hz : Rep s.nodes z tz)
    (ho : Rep s.nodes o tn) (hw : WF n 0 (node num tz tn)) :
    ∃ i s', internNode num z o s = (i, s') ∧ Inv n d s' ∧ Ext s.nodes s'.nodes ∧ s'.memo = s.memo ∧ s'.rules = s.rules ∧
      Rep s'.nodes (some i) (node num tz tn) := by
  unfold internNode intern
  cases hf : s.nodes.findIdx? (sameNode num z o) with
  | some i =>
    refine ⟨i, s, rfl, hi, Ext.refl _, rfl, rfl, ?_⟩
    rw [List.findIdx?_eq_some_iff_getElem] at hf
    obtain ⟨hlt, hs, _⟩ := hf
    have hg := List.getElem?_eq_getElem hlt
    cases hx : s.nodes[i] with
    | term a' => rw [hx] at hs; simp [sameNode] at hs
    | node num' z' o' h' =>
      rw [hx] at hs hg
      simp [sameNode] at hs
      obtain ⟨⟨rfl, rfl⟩, rfl⟩ := hs
      exact .node hg hz ho
  | none =>
    rw [List.findIdx?_eq_none_iff] at hf
    have hrep : Rep (s.nodes ++ [.node num z o (refHasNone s z || refHasNone s o)]) (some s.nodes.length) (node num tz tn) :=
      .node List.getElem?_concat_length (hz.mono (Ext.append _ _)) (ho.mono (Ext.append _ _))
    refine ⟨_, _, rfl, ?_, Ext.append _ _, rfl, rfl, hrep⟩
    apply inv_append hi
    · intro num z o h hx; cases hx
      exact ⟨hz.rank_le, ho.rank_le⟩
    · intro t ht
      rw [ht.functional hrep]; exact hw
    · intro num z o h hx; cases hx; rfl
    · intro num z o h h' i hx hy
      cases hx
      have := hf _ (List.mem_of_getElem? hy)
      simp [sameNode] at this
    · intro a i hx; cases hx

/-- `num`, `zero`, `one` at tree level. -/
def viewT : DD α → Nat × DD α × DD α
  | node num z o => (num, z, o)
  | _ => (termNum, bot, bot)

theorem view_spec {s : St α} {r : Ref} {t : DD α} (h : Rep s.nodes r t) :
    (view s r).1 = (viewT t).1 ∧ Rep s.nodes (view s r).2.1 (viewT t).2.1 ∧ Rep s.nodes (view s r).2.2 (viewT t).2.2 := by
  cases h with
  | bot => exact ⟨rfl, .bot, .bot⟩
  | term h => simp only [view, h, viewT]; exact ⟨trivial, .bot, .bot⟩
  | node h hz ho => simp only [view, h, viewT]; exact ⟨trivial, hz, ho⟩

theorem viewT_lt {t : DD α} (hw : WF n 0 t) (hn : n ≤ termNum) (h : (viewT t).1 ≠ termNum) :
    ∃ num z o, t = node num z o ∧ num < termNum := by
  cases t with
  | bot => exact absurd rfl h
  | term => exact absurd rfl h
  | node num z o => exact ⟨num, z, o, rfl, lt_of_lt_of_le hw.2.1 hn⟩

theorem viewT_le {t : DD α} (hw : WF n 0 t) (hn : n ≤ termNum) : (viewT t).1 ≤ termNum := by
  cases t with
  | bot => exact le_refl _
  | term => exact le_refl _
  | node num z o => exact (lt_of_lt_of_le hw.2.1 hn).le

/-- The descent of the code on numbers and children, with leaves numbered `termNum`, is the descent of `apply`. -/
theorem apply_view {base : DD α → DD α → Option (DD α)} (hbb : base bot bot = some bot) {a b : DD α}
    (ha : WF n 0 a) (hb : WF n 0 b) (hn : n ≤ termNum) (h : base a b = none) :
    apply base a b =
      if (viewT a).1 = (viewT b).1 then
        mk (viewT a).1 (apply base (viewT a).2.1 (viewT b).2.1) (apply base (viewT a).2.2 (viewT b).2.2)
      else if (viewT a).1 < (viewT b).1 then
        mk (viewT a).1 (apply base (viewT a).2.1 b) (apply base (viewT a).2.2 b)
      else mk (viewT b).1 (apply base a (viewT b).2.1) (apply base a (viewT b).2.2) := by
  have hbot : apply base bot bot = bot := by unfold apply; simp only [hbb]
  have hmk : ∀ k, mk k (bot : DD α) bot = bot := by intro k; simp [mk]
  cases a with
  | bot =>
    cases b with
    | bot => rw [h] at hbb; cases hbb
    | term x =>
      have e1 : (viewT (bot : DD α)).1 = (viewT (term x : DD α)).1 := rfl
      rw [if_pos e1, apply.eq_def]; simp only [h, viewT, hbot, hmk]
    | node m z o =>
      have := lt_of_lt_of_le hb.2.1 hn
      have e1 : ¬ (viewT (bot : DD α)).1 = (viewT (node m z o : DD α)).1 := by simp only [viewT]; omega
      have e2 : ¬ (viewT (bot : DD α)).1 < (viewT (node m z o : DD α)).1 := by simp only [viewT]; omega
      rw [if_neg e1, if_neg e2, apply.eq_def]; simp only [h, viewT]
  | term t =>
    cases b with
    | bot =>
      have e1 : (viewT (term t : DD α)).1 = (viewT (bot : DD α)).1 := rfl
      rw [if_pos e1, apply.eq_def]; simp only [h, viewT, hbot, hmk]
    | term x =>
      have e1 : (viewT (term t : DD α)).1 = (viewT (term x : DD α)).1 := rfl
      rw [if_pos e1, apply.eq_def]; simp only [h, viewT, hbot, hmk]
    | node m z o =>
      have := lt_of_lt_of_le hb.2.1 hn
      have e1 : ¬ (viewT (term t : DD α)).1 = (viewT (node m z o : DD α)).1 := by simp only [viewT]; omega
      have e2 : ¬ (viewT (term t : DD α)).1 < (viewT (node m z o : DD α)).1 := by simp only [viewT]; omega
      rw [if_neg e1, if_neg e2, apply.eq_def]; simp only [h, viewT]
  | node m z o =>
    have := lt_of_lt_of_le ha.2.1 hn
    cases b with
    | bot =>
      have e1 : ¬ (viewT (node m z o : DD α)).1 = (viewT (bot : DD α)).1 := by simp only [viewT]; omega
      have e2 : (viewT (node m z o : DD α)).1 < (viewT (bot : DD α)).1 := by simp only [viewT]; omega
      rw [if_neg e1, if_pos e2, apply.eq_def]; simp only [h, viewT]
    | term x =>
      have e1 : ¬ (viewT (node m z o : DD α)).1 = (viewT (term x : DD α)).1 := by simp only [viewT]; omega
      have e2 : (viewT (node m z o : DD α)).1 < (viewT (term x : DD α)).1 := by simp only [viewT]; omega
      rw [if_neg e1, if_pos e2, apply.eq_def]; simp only [h, viewT]
    | node m' z' o' =>
      rw [apply.eq_def]; simp only [h]; rfl

theorem refIsTerm_eq {s : St α} (hi : Inv n d s) {r : Ref} {t : DD α} (h : Rep s.nodes r t) (hr : r ≠ none) :
    refIsTerm s r = t.isTerm := by
  have hw := hi.wfRep h
  have hn := hi.nle
  cases h with
  | bot => exact absurd rfl hr
  | term h => simp [refIsTerm, view, h, isTerm]
  | node h =>
    have := lt_of_lt_of_le hw.2.1 hn
    simp only [refIsTerm, view, h, isTerm, beq_eq_false_iff_ne]
    omega

theorem objEq_iff {s : St α} (hi : Inv n d s) {i j : Nat} {ti tj : DD α} (h : Rep s.nodes (some i) ti)
    (h' : Rep s.nodes (some j) tj) : objEq s i j = true ↔ ti = tj := by
  rw [← h.eq_iff hi h', Option.some_inj]
  cases h with
  | term hx => cases h' with
    | term hy =>
      simp only [objEq, hx, hy, beq_iff_eq]
      constructor
      · rintro rfl; exact hi.uniqT hx hy
      · rintro rfl; rw [hx] at hy; cases hy; rfl
    | node hy =>
      simp only [objEq, hx, hy]
      constructor
      · intro h; cases h
      · rintro rfl; rw [hx] at hy; cases hy
  | node hx => cases h' with
    | term hy =>
      simp only [objEq, hx, hy]
      constructor
      · intro h; cases h
      · rintro rfl; rw [hx] at hy; cases hy
    | node hy =>
      simp only [objEq, hx, hy, Bool.and_eq_true, beq_iff_eq]
      constructor
      · rintro ⟨⟨rfl, rfl⟩, rfl⟩; exact hi.uniqN hx hy
      · rintro rfl; rw [hx] at hy; cases hy; simp

theorem Rep.none_iff {l : List (Obj α)} {r : Ref} {t : DD α} (h : Rep l r t) : r = none ↔ t = DD.bot := by
  cases h <;> simp

theorem baseS_spec {s : St α} (hi : Inv n d s) (op : Op) {a b : Ref} {ta tb : DD α} (ha : Rep s.nodes a ta)
    (hb : Rep s.nodes b tb) :
    (∀ r, baseS op s a b = some r → ∃ tr, op.base d ta tb = some tr ∧ Rep s.nodes r tr) ∧
    (baseS op s a b = none → op.base d ta tb = none) := by
  have hab := ha.eq_iff hi hb
  have hd : Rep s.nodes (some 0) (term d) := .term hi.diff0
  have han := ha.none_iff
  have hbn := hb.none_iff
  cases op with
  | meld =>
    simp only [baseS, Op.base, meldBase, refHasNone_eq hi ha]
    by_cases h1 : ta = bot
    · have := han.2 h1
      simp only [h1, this, if_true]
      exact ⟨fun r hr => ⟨tb, rfl, by cases hr; exact hb⟩, fun h => by cases h⟩
    · rw [if_neg (fun h => h1 (han.1 h)), if_neg h1]
      by_cases h2 : tb = bot
      · have := hbn.2 h2
        simp only [h2, this, if_true]
        exact ⟨fun r hr => ⟨ta, rfl, by cases hr; exact ha⟩, fun h => by cases h⟩
      · rw [if_neg (fun h => h2 (hbn.1 h)), if_neg h2]
        cases h3 : ta.hasNone
        · simp only [Bool.not_false, if_true]
          exact ⟨fun r hr => ⟨ta, rfl, by cases hr; exact ha⟩, fun h => by cases h⟩
        · simp
  | difference =>
    simp only [baseS, Op.base, differenceBase]
    by_cases h0 : ta = tb
    · have := hab.2 h0
      simp only [h0, this, if_true]
      exact ⟨fun r hr => ⟨bot, rfl, by cases hr; exact .bot⟩, fun h => by cases h⟩
    rw [if_neg (fun h => h0 (hab.1 h)), if_neg h0]
    by_cases h1 : ta = bot
    · have := han.2 h1
      simp only [h1, this, if_true]
      exact ⟨fun r hr => ⟨_, rfl, by cases hr; exact hd⟩, fun h => by cases h⟩
    · have ha' : a ≠ none := fun h => h1 (han.1 h)
      rw [if_neg ha', if_neg h1, refIsTerm_eq hi ha ha']
      by_cases h2 : tb = bot
      · have := hbn.2 h2
        simp only [h2, this, if_true]
        cases h3 : ta.isTerm
        · simp
        · simp only [if_true]
          exact ⟨fun r hr => ⟨_, rfl, by cases hr; exact hd⟩, fun h => by cases h⟩
      · have hb' : b ≠ none := fun h => h2 (hbn.1 h)
        rw [if_neg hb', if_neg h2, refIsTerm_eq hi hb hb']
        cases h3 : (ta.isTerm && tb.isTerm)
        · simp
        · simp only [if_true]
          exact ⟨fun r hr => ⟨_, rfl, by cases hr; exact hd⟩, fun h => by cases h⟩
  | subtract =>
    simp only [baseS, Op.base, subtractBase]
    by_cases h0 : ta = tb
    · have := hab.2 h0
      simp only [h0, this, if_true]
      exact ⟨fun r hr => ⟨bot, rfl, by cases hr; exact .bot⟩, fun h => by cases h⟩
    rw [if_neg (fun h => h0 (hab.1 h)), if_neg h0]
    by_cases h1 : ta = bot
    · have := han.2 h1
      simp only [h1, this, if_true]
      exact ⟨fun r hr => ⟨_, rfl, by cases hr; exact .bot⟩, fun h => by cases h⟩
    · have ha' : a ≠ none := fun h => h1 (han.1 h)
      rw [if_neg ha', if_neg h1, refIsTerm_eq hi ha ha']
      by_cases h2 : tb = bot
      · have := hbn.2 h2
        simp only [h2, this, if_true]
        exact ⟨fun r hr => ⟨_, rfl, by cases hr; exact ha⟩, fun h => by cases h⟩
      · have hb' : b ≠ none := fun h => h2 (hbn.1 h)
        rw [if_neg hb', if_neg h2, refIsTerm_eq hi hb hb']
        cases h3 : (ta.isTerm && tb.isTerm)
        · simp
        · simp only [if_true]
          exact ⟨fun r hr => ⟨_, rfl, by cases hr; exact ha⟩, fun h => by cases h⟩
  | intersection =>
    simp only [baseS, Op.base, intersectionBase]
    cases a with
    | none =>
      have := han.1 rfl
      rw [if_pos (Or.inl this)]
      exact ⟨fun r hr => ⟨bot, rfl, by cases hr; exact .bot⟩, fun h => by cases h⟩
    | some i =>
      cases b with
      | none =>
        have := hbn.1 rfl
        rw [if_pos (Or.inr this)]
        exact ⟨fun r hr => ⟨bot, rfl, by cases hr; exact .bot⟩, fun h => by cases h⟩
      | some j =>
        have h1 : ¬ (ta = bot ∨ tb = bot) := by
          rintro (h | h)
          · cases han.2 h
          · cases hbn.2 h
        rw [if_neg h1]
        have := objEq_iff hi ha hb
        by_cases h0 : ta = tb
        · simp only [this.2 h0, if_true, h0]
          exact ⟨fun r hr => ⟨_, rfl, by cases hr; exact h0 ▸ ha⟩, fun h => by cases h⟩
        · have h2 : objEq s i j = false := by
            cases h : objEq s i j
            · rfl
            · exact absurd (this.1 h) h0
          simp [h2, h0]

theorem base_bot (d : α) (op : Op) : op.base d bot bot = some bot := by
  cases op <;> simp [Op.base, meldBase, differenceBase, subtractBase, intersectionBase]

theorem memoGet_spec {s : St α} (hi : Inv n d s) {op : Op} {a b : Ref} {ta tb : DD α} (ha : Rep s.nodes a ta)
    (hb : Rep s.nodes b tb) {r : Nat} (h : memoGet s op a b = some r) : Rep s.nodes (some r) (op.tree d ta tb) := by
  unfold memoGet at h
  split at h
  · next m hm =>
    have hmem := List.mem_of_find?_eq_some hm
    have hp := List.find?_some hm
    simp only [Bool.and_eq_true, decide_eq_true_eq] at hp
    obtain ⟨⟨h1, h2⟩, h3⟩ := hp
    obtain ⟨ta', tb', h4, h5, h6⟩ := hi.memo m hmem
    rw [h2] at h4; rw [h3] at h5
    rw [h4.functional ha, h5.functional hb, h1, h] at h6
    exact h6
  · cases h

theorem inv_memoPut {e : Evict} (he : e.Sound) {s : St α} (hi : Inv n d s) {op : Op} {a b r : Ref} {ta tb : DD α}
    (ha : Rep s.nodes a ta) (hb : Rep s.nodes b tb) (hr : Rep s.nodes r (op.tree d ta tb)) :
    Inv n d (memoPut e op a b r s) := by
  unfold memoPut
  apply inv_tick he
  exact {
    nle := hi.nle
    lt := hi.lt
    wf := hi.wf
    hn := hi.hn
    uniqN := hi.uniqN
    uniqT := hi.uniqT
    diff0 := hi.diff0
    memo := by
      intro m hm
      rcases List.mem_cons.1 hm with rfl | hm
      · exact ⟨ta, tb, ha, hb, hr⟩
      · exact hi.memo m hm
    rules := hi.rules }

theorem mkNode_spec {s : St α} (hi : Inv n d s) {num : Nat} {z o : Ref} {tz tn : DD α} (hz : Rep s.nodes z tz)
    (ho : Rep s.nodes o tn) (hw : WF n 0 (mk num tz tn)) :
    ∃ r s', mkNode num z o s = (r, s') ∧ Inv n d s' ∧ Ext s.nodes s'.nodes ∧ Rep s'.nodes r (mk num tz tn) := by
  unfold mkNode
  by_cases h : z = o
  · have := (hz.eq_iff hi ho).1 h
    refine ⟨z, s, by rw [if_pos h], hi, Ext.refl _, ?_⟩
    rw [mk, if_pos this]; exact hz
  · have hne : tz ≠ tn := fun h' => h ((hz.eq_iff hi ho).2 h')
    rw [mk, if_neg hne] at hw ⊢
    obtain ⟨i, s', h1, h2, h3, _, _, h4⟩ := internNode_spec hi hz ho hw
    refine ⟨some i, s', ?_, h2, h3, h4⟩
    rw [if_neg h, h1]

theorem view_rank {s : St α} (hi : Inv n d s) {r : Ref} (h : (view s r).1 ≠ termNum) :
    rank (view s r).2.1 < rank r ∧ rank (view s r).2.2 < rank r := by
  cases r with
  | none => exact absurd rfl h
  | some i =>
    simp only [view] at h ⊢
    cases hx : s.nodes[i]? with
    | none => rw [hx] at h; exact absurd rfl h
    | some x =>
      cases x with
      | term => rw [hx] at h; exact absurd rfl h
      | node num z o hh =>
        have := hi.lt hx
        exact ⟨Nat.lt_succ_of_le this.1, Nat.lt_succ_of_le this.2⟩

theorem view_rank_le {s : St α} (hi : Inv n d s) (r : Ref) :
    rank (view s r).2.1 ≤ rank r - 1 ∧ rank (view s r).2.2 ≤ rank r - 1 := by
  by_cases h : (view s r).1 = termNum
  · cases r with
    | none => exact ⟨le_refl _, le_refl _⟩
    | some i =>
      simp only [view] at h ⊢
      cases hx : s.nodes[i]? with
      | none => simp [rank]
      | some x =>
        cases x with
        | term => simp [rank]
        | node num z o hh =>
          exact hi.lt hx
  · have := view_rank hi h; omega

/-- Refinement: the memoised recursion on the shared table computes the tree operation, never runs out of fuel, only adds
objects, and keeps the invariant. -/
theorem applyS_spec {e : Evict} (he : e.Sound) (op : Op) (fuel : Nat) {a b : Ref} {s : St α} {ta tb : DD α}
    (hi : Inv n d s) (ha : Rep s.nodes a ta) (hb : Rep s.nodes b tb) (hf : rank a + rank b < fuel) :
    ∃ r s', applyS e op fuel a b s = some (r, s') ∧ Inv n d s' ∧ Ext s.nodes s'.nodes ∧
      Rep s'.nodes r (op.tree d ta tb) := by
  induction fuel generalizing a b s ta tb with
  | zero => omega
  | succ fuel ih =>
    obtain ⟨hb1, hb2⟩ := baseS_spec hi op ha hb
    rw [applyS.eq_def]
    simp only
    cases hbase : baseS op s a b with
    | some r =>
      obtain ⟨tr, h1, h2⟩ := hb1 r hbase
      refine ⟨r, s, rfl, hi, Ext.refl _, ?_⟩
      rw [Op.tree_eq]; unfold apply; simp only [h1]; exact h2
    | none =>
      have hbt := hb2 hbase
      simp only
      have hi1 : Inv n d (tick e s) := inv_tick he hi
      have hsn : (tick e s).nodes = s.nodes := rfl
      generalize htk : tick e s = s1 at hi1 hsn
      rw [← hsn] at ha hb
      rw [← hsn]
      clear hsn htk
      cases hm : memoGet s1 op a b with
      | some r =>
        exact ⟨some r, s1, rfl, hi1, Ext.refl _, memoGet_spec hi1 ha hb hm⟩
      | none =>
        simp only
        obtain ⟨va1, va2, va3⟩ := view_spec ha
        obtain ⟨vb1, vb2, vb3⟩ := view_spec hb
        have hwa := hi1.wfRep ha
        have hwb := hi1.wfRep hb
        have happ := apply_view (base_bot d op) hwa hwb hi.nle hbt
        have hwr : WF n 0 (op.tree d ta tb) := op.wf d hwa hwb
        have hra := view_rank_le hi1 a
        have hrb := view_rank_le hi1 b
        have hpos : 0 < rank a + rank b := by
          rcases a with _ | i
          · rcases b with _ | j
            · exfalso
              cases ha; cases hb
              rw [base_bot] at hbt; cases hbt
            · simp [rank]
          · simp [rank]; omega
        rw [← Op.tree_eq, ← va1, ← vb1] at happ
        -- the two recursive calls, whatever the chosen descent
        have main : ∀ (num : Nat) (az bz ao bo : Ref) (taz tbz tao tbo : DD α),
            Rep s1.nodes az taz → Rep s1.nodes bz tbz → Rep s1.nodes ao tao → Rep s1.nodes bo tbo →
            rank az + rank bz < rank a + rank b → rank ao + rank bo < rank a + rank b →
            op.tree d ta tb = mk num (op.tree d taz tbz) (op.tree d tao tbo) →
            ∃ r s', (match applyS e op fuel az bz s1 with
              | none => none
              | some (z, s) =>
                match applyS e op fuel ao bo s with
                | none => none
                | some (o, s) => some ((mkNode num z o s).1, memoPut e op a b (mkNode num z o s).1 (mkNode num z o s).2)) =
                some (r, s') ∧ Inv n d s' ∧ Ext s1.nodes s'.nodes ∧ Rep s'.nodes r (op.tree d ta tb) := by
          intro num az bz ao bo taz tbz tao tbo h1 h2 h3 h4 hr1 hr2 heq
          obtain ⟨z, s2, e1, i2, x2, r2⟩ := ih hi1 h1 h2 (by omega)
          obtain ⟨o, s3, e2, i3, x3, r3⟩ := ih i2 (h3.mono x2) (h4.mono x2) (by omega)
          rw [heq] at hwr
          obtain ⟨r, s4, e3, i4, x4, r4⟩ := mkNode_spec i3 (r2.mono x3) r3 hwr
          refine ⟨r, memoPut e op a b r s4, ?_, ?_, ?_, ?_⟩
          · rw [e1]; simp only [e2, e3]
          · have x14 := x2.trans (x3.trans x4)
            rw [← heq] at r4
            exact inv_memoPut he i4 (ha.mono x14) (hb.mono x14) r4
          · exact x2.trans (x3.trans x4)
          · rw [heq]; exact r4
        by_cases c1 : (view s1 a).1 = (view s1 b).1
        · rw [if_pos c1] at happ
          simp only [c1, if_true]
          rw [c1] at happ
          have key := main _ _ _ _ _ _ _ _ _ va2 vb2 va3 vb3 (by omega) (by omega) happ
          exact key
        · rw [if_neg c1] at happ
          by_cases c2 : (view s1 a).1 < (view s1 b).1
          · rw [if_pos c2] at happ
            simp only [c1, if_false, c2, if_true]
            have hle := viewT_le hwb hi.nle
            rw [← vb1] at hle
            have := view_rank hi1 (r := a) (by omega)
            have key := main _ _ _ _ _ _ _ _ _ va2 hb va3 hb (by omega) (by omega) happ
            exact key
          · rw [if_neg c2] at happ
            simp only [c1, if_false, c2]
            have hle := viewT_le hwa hi.nle
            rw [← va1] at hle
            have := view_rank hi1 (r := b) (by omega)
            have key := main _ _ _ _ _ _ _ _ _ ha vb2 ha vb3 (by omega) (by omega) happ
            exact key

theorem binop_spec {e : Evict} (he : e.Sound) (op : Op) {a b : Ref} {s : St α} {ta tb : DD α}
    (hi : Inv n d s) (ha : Rep s.nodes a ta) (hb : Rep s.nodes b tb) :
    ∃ r s', binop e op a b s = some (r, s') ∧ Inv n d s' ∧ Ext s.nodes s'.nodes ∧
      Rep s'.nodes r (op.tree d ta tb) :=
  applyS_spec he op _ hi ha hb (by omega)

theorem wcLoopS_spec {wc b k c : Nat} (hbk : b + k = n) {s : St α} (hi : Inv n d s) {tc : DD α}
    (hc : Rep s.nodes (some c) tc) (hw : WF n (n - b) tc) :
    ∃ r s', wcLoopS n wc b k c s = (r, s') ∧ Inv n d s' ∧ Ext s.nodes s'.nodes ∧
      (r = none → wcLoop n wc b k tc = none) ∧
      (∀ i, r = some i → ∃ t, wcLoop n wc b k tc = some t ∧ Rep s'.nodes (some i) t) := by
  induction k generalizing b c s tc with
  | zero =>
    exact ⟨_, _, rfl, hi, Ext.refl _, by simp, fun i h => ⟨tc, rfl, by cases h; exact hc⟩⟩
  | succ k ih =>
    have hne : tc ≠ bot := fun h => by have := hc.none_iff.2 h; cases this
    rw [wcLoopS.eq_def, wcLoop.eq_def]
    simp only
    by_cases h0 : (wc >>> (b * 2)) &&& 3 = 0
    · simp only [h0, if_true]
      exact ⟨_, _, rfl, hi, Ext.refl _, by simp, fun i h => by cases h⟩
    rw [if_neg h0, if_neg h0]
    by_cases h1 : (wc >>> (b * 2)) &&& 3 = 1
    · rw [if_pos h1, if_pos h1]
      have hwn : WF n (n - (b + 1)) (node (n - 1 - b) tc bot) :=
        ⟨by omega, by omega, hne, hw.mono (by omega), trivial⟩
      obtain ⟨i, s', e1, i1, x1, _, _, r1⟩ := internNode_spec hi hc .bot (hwn.mono (Nat.zero_le _))
      rw [e1]
      obtain ⟨r, s'', e2, i2, x2, p1, p2⟩ := ih (by omega) i1 r1 hwn
      exact ⟨r, s'', e2, i2, x1.trans x2, p1, p2⟩
    rw [if_neg h1, if_neg h1]
    by_cases h2 : (wc >>> (b * 2)) &&& 3 = 2
    · rw [if_pos h2, if_pos h2]
      have hwn : WF n (n - (b + 1)) (node (n - 1 - b) bot tc) :=
        ⟨by omega, by omega, fun h => hne h.symm, trivial, hw.mono (by omega)⟩
      obtain ⟨i, s', e1, i1, x1, _, _, r1⟩ := internNode_spec hi .bot hc (hwn.mono (Nat.zero_le _))
      rw [e1]
      obtain ⟨r, s'', e2, i2, x2, p1, p2⟩ := ih (by omega) i1 r1 hwn
      exact ⟨r, s'', e2, i2, x1.trans x2, p1, p2⟩
    rw [if_neg h2, if_neg h2]
    exact ih (by omega) hi hc (hw.mono (by omega))

theorem wcToS_spec {e : Evict} (he : e.Sound) {wc : Nat} {act : α} {s : St α} (hi : Inv n d s) :
    ∃ r s', wcToS e n wc act s = (r, s') ∧ Inv n d s' ∧ Ext s.nodes s'.nodes ∧
      (r = none → wcToDD n wc act = none) ∧
      (∀ x, r = some x → ∃ t, wcToDD n wc act = some t ∧ Rep s'.nodes x t) := by
  unfold wcToS wcToDD
  by_cases h0 : wc = 0
  · rw [if_pos h0, if_pos h0]
    exact ⟨_, _, rfl, hi, Ext.refl _, by simp, fun x h => ⟨bot, rfl, by cases h; exact .bot⟩⟩
  rw [if_neg h0, if_neg h0]
  obtain ⟨t, s1, e1, i1, x1, r1⟩ := internTerm_spec hi act
  rw [e1]
  simp only
  have i2 := inv_tick he i1
  have hsn : (tick e s1).nodes = s1.nodes := rfl
  generalize htk : tick e s1 = s2 at i2 hsn
  rw [← hsn] at r1 x1
  cases hg : ruleGet s2 wc t with
  | some r =>
    refine ⟨_, _, rfl, i2, x1, by simp, fun x hx => ?_⟩
    cases hx
    unfold ruleGet at hg
    split at hg
    · next m hm =>
      have hmem := List.mem_of_find?_eq_some hm
      have hp := List.find?_some hm
      simp only [Bool.and_eq_true, decide_eq_true_eq] at hp
      obtain ⟨act', t', h1, h2, h3⟩ := i2.rules m hmem
      rw [hp.2, r1] at h1
      cases h1
      rw [hp.1, wcToDD, if_neg h0] at h2
      rw [hg] at h3
      exact ⟨t', h2, h3⟩
    · cases hg
  | none =>
    simp only
    obtain ⟨r, s3, e2, i3, x3, p1, p2⟩ := wcLoopS_spec (wc := wc) (b := 0) (k := n) (by omega) i2 (.term r1) trivial
    rw [e2]
    cases r with
    | none => exact ⟨_, _, rfl, i3, x1.trans x3, fun _ => p1 rfl, fun x h => by cases h⟩
    | some i =>
      obtain ⟨t', h1, h2⟩ := p2 i rfl
      refine ⟨_, _, rfl, ?_, x1.trans x3, by simp, fun x hx => ?_⟩
      · apply inv_tick he
        exact {
          nle := i3.nle
          lt := i3.lt
          wf := i3.wf
          hn := i3.hn
          uniqN := i3.uniqN
          uniqT := i3.uniqT
          diff0 := i3.diff0
          memo := i3.memo
          rules := by
            intro m hm
            rcases List.mem_cons.1 hm with rfl | hm
            · exact ⟨act, t', x3 _ _ r1, by rw [wcToDD, if_neg h0]; exact h1, h2⟩
            · exact i3.rules m hm }
      · cases hx
        exact ⟨t', h1, h2⟩

/-- All roots held by the caller are copies of the corresponding trees. -/
def Roots (l : List (Obj α)) (rs : List Ref) (ts : List (DD α)) : Prop := List.Forall₂ (Rep l) rs ts

theorem Roots.get {l : List (Obj α)} {rs : List Ref} {ts : List (DD α)} (h : Roots l rs ts) (i : Nat) :
    (rs[i]? = none ∧ ts[i]? = none) ∨ ∃ r t, rs[i]? = some r ∧ ts[i]? = some t ∧ Rep l r t := by
  induction h generalizing i with
  | nil => left; simp
  | cons h1 _ ih =>
    cases i with
    | zero => right; exact ⟨_, _, rfl, rfl, h1⟩
    | succ i => simpa using ih i

theorem Roots.length_eq {l : List (Obj α)} {rs : List Ref} {ts : List (DD α)} (h : Roots l rs ts) :
    rs.length = ts.length := by
  unfold Roots at h
  induction h with
  | nil => rfl
  | cons _ _ ih => simp [ih]

theorem Roots.mono {l l' : List (Obj α)} (hx : Ext l l') {rs : List Ref} {ts : List (DD α)} (h : Roots l rs ts) :
    Roots l' rs ts := by
  unfold Roots at *
  induction h with
  | nil => exact .nil
  | cons h1 _ ih => exact .cons (h1.mono hx) ih

theorem Roots.snoc {l : List (Obj α)} {rs : List Ref} {ts : List (DD α)} (h : Roots l rs ts) {r : Ref} {t : DD α}
    (hr : Rep l r t) : Roots l (rs ++ [r]) (ts ++ [t]) := by
  unfold Roots at *
  induction h with
  | nil => exact .cons hr .nil
  | cons h1 _ ih => exact .cons h1 ih

theorem step_spec {e : Evict} (he : e.Sound) {x : St α × List Ref} {ts : List (DD α)} (hi : Inv n d x.1)
    (hr : Roots x.1.nodes x.2 ts) (c : Call α) :
    Inv n d (step e n x c).1 ∧ Ext x.1.nodes (step e n x c).1.nodes ∧
      Roots (step e n x c).1.nodes (step e n x c).2 (stepT n d ts c) := by
  cases c with
  | wc wc act =>
    obtain ⟨r, s', e1, i1, x1, p1, p2⟩ := wcToS_spec (wc := wc) (act := act) he hi
    simp only [step, stepT, e1]
    cases r with
    | none => rw [p1 rfl]; exact ⟨i1, x1, hr.mono x1⟩
    | some r =>
      obtain ⟨t, h1, h2⟩ := p2 r rfl
      rw [h1]
      exact ⟨i1, x1, (hr.mono x1).snoc h2⟩
  | op op i j =>
    simp only [step, stepT]
    rcases hr.get i with ⟨h1, h2⟩ | ⟨a, ta, h1, h2, h3⟩
    · simp only [h1, h2]; exact ⟨hi, Ext.refl _, hr⟩
    rcases hr.get j with ⟨h1', h2'⟩ | ⟨b, tb, h1', h2', h3'⟩
    · simp only [h1, h2, h1', h2']; exact ⟨hi, Ext.refl _, hr⟩
    obtain ⟨r, s', e1, i1, x1, r1⟩ := binop_spec he op hi h3 h3'
    simp only [h1, h2, h1', h2', e1]
    exact ⟨i1, x1, (hr.mono x1).snoc r1⟩

theorem run_spec {e : Evict} (he : e.Sound) (hn : n ≤ termNum) (h : List (Call α)) :
    Inv n d (run e n d h).1 ∧ Roots (run e n d h).1.nodes (run e n d h).2 (runT n d h) := by
  unfold run runT
  have : ∀ (h : List (Call α)) (x : St α × List Ref) (ts : List (DD α)), Inv n d x.1 → Roots x.1.nodes x.2 ts →
      Inv n d (h.foldl (step e n) x).1 ∧ Roots (h.foldl (step e n) x).1.nodes (h.foldl (step e n) x).2
        (h.foldl (stepT n d) ts) := by
    intro h
    induction h with
    | nil => intro x ts hi hr; exact ⟨hi, hr⟩
    | cons c h ih =>
      intro x ts hi hr
      obtain ⟨h1, _, h3⟩ := step_spec he hi hr c
      exact ih _ _ h1 h3
  exact this h _ _ (inv_init hn) .nil

theorem walk_iff {l : List (Obj α)} {r : Ref} {t : DD α} (h : Rep l r t) (p : Packet) (x : Option α) :
    Walk l n p r x ↔ t.lookup n p = x := by
  induction h with
  | bot =>
    constructor
    · intro h; cases h; rfl
    · rintro rfl; exact .none
  | term h1 =>
    constructor
    · intro h
      cases h with
      | term h2 => rw [h1] at h2; cases h2; rfl
      | zero h2 => rw [h1] at h2; cases h2
      | one h2 => rw [h1] at h2; cases h2
    · rintro rfl; exact .term h1
  | @node i num z o h tz tn h1 _ _ i1 i2 =>
    have hl : (node num tz tn).lookup n p = if p (n - 1 - num) then tn.lookup n p else tz.lookup n p := rfl
    rw [hl]
    constructor
    · intro h
      cases h with
      | term h2 => rw [h1] at h2; cases h2
      | zero h2 hp hw => rw [h1] at h2; cases h2; rw [hp]; exact i1.1 hw
      | one h2 hp hw => rw [h1] at h2; cases h2; rw [hp]; exact i2.1 hw
    · cases hp : p (n - 1 - num)
      · intro h; exact .zero h1 hp (i1.2 (by simpa using h))
      · intro h; exact .one h1 hp (i2.2 (by simpa using h))

end Store
end OFE
