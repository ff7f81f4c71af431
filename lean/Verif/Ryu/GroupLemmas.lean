import Verif.Ryu.InstLemmas
import Mathlib.Data.List.Forall2

/-!
# Groups in Ryu messages
-/

namespace OFE.Ryu

/-! ### Specification -/

/-- Specification: the group types of OpenFlow 1.3 (`enum ofp_group_type`) by name, in upper or lower case. -/
inductive TypeCode : String → Nat → Prop
  | mk {s t : String} {c : Nat} : (t, c) ∈ [("ALL", 0), ("SELECT", 1), ("INDIRECT", 2), ("FF", 3)] → s.toList.map Char.toUpper = t.toList → TypeCode s c

/-- Specification: an action message stands for an action, given the groups that were sent (`T`, with the message of each).  A `Group` object is named by the number of one
of its messages. -/
inductive Rep (heap : Nat → Option GroupObj) (T : List (GroupObj × GroupMod)) : Action → RAct → Prop
  | object {g : Nat} {obj : GroupObj} {m : GroupMod} : heap g = some obj → (obj, m) ∈ T → Rep heap T (.group g) (.plain 22 m.id)
  | same {a : Action} {ra : RAct} : (∀ g, a = .group g → heap g = none) → ActMeans ra a → Rep heap T a ra

/-- Specification: the messages define groups one after the other: each has the type of its group, and buckets that stand for those of the group and use only groups
defined by earlier messages. -/
def Installs (heap : Nat → Option GroupObj) (T : List (GroupObj × GroupMod)) : Prop :=
  ∀ a x b, T = a ++ x :: b → TypeCode x.1.type x.2.type ∧ List.Forall₂ (List.Forall₂ (Rep heap a)) x.1.buckets x.2.buckets

/-! ### Lemmas -/

theorem groupType_code {s : String} {c : Nat} (h : groupType s = .ok c) : TypeCode s c := by
  unfold groupType at h
  cases e : [("ALL", 0), ("SELECT", 1), ("INDIRECT", 2), ("FF", 3)].lookup (String.ofList (s.toList.map Char.toUpper)) with
  | none => rw [e] at h; cases h
  | some n =>
    rw [e] at h
    cases h
    exact .mk (mem_of_lookup_eq_some e) (by simp)

theorem groupType_total {s : String} {c : Nat} (h : TypeCode s c) : groupType s = .ok c := by
  obtain ⟨h1, h2⟩ := h
  unfold groupType
  rw [h2, String.ofList_toList, lookup_eq_some_of_mem (by decide) h1]

theorem Rep.mono {heap : Nat → Option GroupObj} {T T' : List (GroupObj × GroupMod)} (h : T ⊆ T') {a : Action} {ra : RAct} (hr : Rep heap T a ra) : Rep heap T' a ra := by
  cases hr with
  | object h1 h2 => exact .object h1 (h h2)
  | same h1 h2 => exact .same h1 h2

theorem reps_mono {heap : Nat → Option GroupObj} {T T' : List (GroupObj × GroupMod)} (h : T ⊆ T') {l : List Action} {rs : List RAct}
    (hr : List.Forall₂ (Rep heap T) l rs) : List.Forall₂ (Rep heap T') l rs := hr.imp fun _ _ => Rep.mono h

theorem installs_nil (heap : Nat → Option GroupObj) : Installs heap [] := by
  intro a x b h
  cases a <;> cases h

theorem installs_append {heap : Nat → Option GroupObj} {T T' : List (GroupObj × GroupMod)} (h : Installs heap T) (h' : Installs heap T') : Installs heap (T ++ T') := by
  intro a x b e
  rcases List.append_eq_append_iff.1 e with ⟨c, e1, e2⟩ | ⟨c, e1, e2⟩
  · obtain ⟨h1, h2⟩ := h' c x b e2
    refine ⟨h1, h2.imp fun _ _ => reps_mono ?_⟩
    rw [e1]
    exact List.subset_append_right _ _
  · cases c with
    | nil =>
      obtain ⟨h1, h2⟩ := h' [] x b (by simpa using e2.symm)
      exact ⟨h1, h2.imp fun _ _ => reps_mono (List.nil_subset _)⟩
    | cons y c =>
      simp only [List.cons_append, List.cons.injEq] at e2
      obtain ⟨rfl, e3⟩ := e2
      exact h a x c e1

theorem installs_snoc {heap : Nat → Option GroupObj} {T : List (GroupObj × GroupMod)} {x : GroupObj × GroupMod} (h : Installs heap T)
    (ht : TypeCode x.1.type x.2.type) (hb : List.Forall₂ (List.Forall₂ (Rep heap T)) x.1.buckets x.2.buckets) : Installs heap (T ++ [x]) := by
  intro a y b e
  rcases List.append_eq_append_iff.1 e with ⟨c, e1, e2⟩ | ⟨c, e1, e2⟩
  · cases c with
    | nil =>
      simp only [List.nil_append, List.cons.injEq] at e2
      rw [List.append_nil] at e1
      rw [← e2.1, e1]
      exact ⟨ht, hb⟩
    | cons z c => cases c <;> simp at e2
  · cases c with
    | nil =>
      simp only [List.nil_append, List.cons.injEq] at e2
      rw [List.append_nil] at e1
      rw [e2.1, ← e1]
      exact ⟨ht, hb⟩
    | cons z c =>
      simp only [List.cons_append, List.cons.injEq] at e2
      obtain ⟨rfl, e3⟩ := e2
      exact h a y c e1

/-- What is shown of `group_to_ryu`. -/
def GrpSends (heap : Nat → Option GroupObj) (grp : GroupObj → Nat → Except PyErr (Nat × List GroupMod × Nat)) : Prop :=
  ∀ obj n id msgs n', grp obj n = .ok (id, msgs, n') → ∃ T m, T.map (·.2) = msgs ∧ Installs heap T ∧ (obj, m) ∈ T ∧ m.id = id

theorem actionToRyu_same {heap : Nat → Option GroupObj} {grp : GroupObj → Nat → Except PyErr (Nat × List GroupMod × Nat)} {a : Action} {n : Nat}
    {x : RAct × List GroupMod × Nat} (h : ∀ g, a = .group g → heap g = none) (e : actionToRyu heap grp n a = .ok x) : x.2 = ([], n) ∧ ActMeans x.1 a := by
  obtain ⟨r, e', h'⟩ := actionToRyu_ok grp n h
  rw [e] at e'
  cases e'
  exact ⟨rfl, h'⟩

/-- Either the action is a `Group` object, or it is sent as it is. -/
theorem actionToRyu_cases {heap : Nat → Option GroupObj} {grp : GroupObj → Nat → Except PyErr (Nat × List GroupMod × Nat)} {a : Action} {n : Nat}
    {x : RAct × List GroupMod × Nat} (e : actionToRyu heap grp n a = .ok x) :
    (∃ g obj id, a = .group g ∧ heap g = some obj ∧ grp obj n = .ok (id, x.2) ∧ x.1 = .plain 22 id) ∨
      ((∀ g, a = .group g → heap g = none) ∧ x.2 = ([], n) ∧ ActMeans x.1 a) := by
  by_cases h : ∀ g, a = .group g → heap g = none
  · obtain ⟨h1, h2⟩ := actionToRyu_same h e
    exact .inr ⟨h, h1, h2⟩
  · left
    simp only [Classical.not_forall] at h
    obtain ⟨g, rfl, h2⟩ := h
    cases ho : heap g with
    | none => exact absurd ho h2
    | some obj =>
      simp only [actionToRyu, ho, bind, Except.bind] at e
      cases eg : grp obj n with
      | error err => rw [eg] at e; cases e
      | ok y =>
        rw [eg] at e
        cases e
        exact ⟨g, obj, y.1, rfl, ho, eg, rfl⟩

theorem actionsWith_sends {heap : Nat → Option GroupObj} {grp : GroupObj → Nat → Except PyErr (Nat × List GroupMod × Nat)} (hg : GrpSends heap grp) :
    ∀ {l : List Action} {n : Nat} {x : List RAct × List GroupMod × Nat}, actionsWith heap grp l n = .ok x →
      ∃ T, T.map (·.2) = x.2.1 ∧ Installs heap T ∧ List.Forall₂ (Rep heap T) l x.1
  | [], n, x, e => by cases e; exact ⟨[], rfl, installs_nil heap, .nil⟩
  | a :: l, n, x, e => by
    rw [actionsWith] at e
    simp only [bind, Except.bind] at e
    cases e1 : actionToRyu heap grp n a with
    | error err => rw [e1] at e; cases e
    | ok y =>
      rw [e1] at e
      simp only at e
      cases e2 : actionsWith heap grp l y.2.2 with
      | error err => rw [e2] at e; cases e
      | ok z =>
        rw [e2] at e
        cases e
        obtain ⟨T', h1, h2, h3⟩ := actionsWith_sends hg e2
        have key : ∃ T, T.map (·.2) = y.2.1 ∧ Installs heap T ∧ Rep heap T a y.1 := by
          rcases actionToRyu_cases e1 with ⟨g, obj, id, rfl, h4, h5, h6⟩ | ⟨h4, h5, h6⟩
          · obtain ⟨T, m, t1, t2, t3, t4⟩ := hg obj n id y.2.1 y.2.2 h5
            refine ⟨T, t1, t2, ?_⟩
            rw [h6, ← t4]
            exact .object h4 t3
          · exact ⟨[], by rw [h5]; rfl, installs_nil heap, .same h4 h6⟩
        obtain ⟨T, t1, t2, t3⟩ := key
        refine ⟨T ++ T', ?_, installs_append t2 h2, .cons (t3.mono (List.subset_append_left _ _)) (reps_mono (List.subset_append_right _ _) h3)⟩
        simp only [List.map_append, t1, h1]

theorem bucketsWith_sends {heap : Nat → Option GroupObj} {grp : GroupObj → Nat → Except PyErr (Nat × List GroupMod × Nat)} (hg : GrpSends heap grp) :
    ∀ {l : List (List Action)} {n : Nat} {x : List (List RAct) × List GroupMod × Nat}, bucketsWith heap grp l n = .ok x →
      ∃ T, T.map (·.2) = x.2.1 ∧ Installs heap T ∧ List.Forall₂ (List.Forall₂ (Rep heap T)) l x.1
  | [], n, x, e => by cases e; exact ⟨[], rfl, installs_nil heap, .nil⟩
  | b :: l, n, x, e => by
    rw [bucketsWith] at e
    simp only [bind, Except.bind] at e
    cases e1 : actionsWith heap grp b n with
    | error err => rw [e1] at e; cases e
    | ok y =>
      rw [e1] at e
      simp only at e
      cases e2 : bucketsWith heap grp l y.2.2 with
      | error err => rw [e2] at e; cases e
      | ok z =>
        rw [e2] at e
        cases e
        obtain ⟨T', h1, h2, h3⟩ := bucketsWith_sends hg e2
        obtain ⟨T, t1, t2, t3⟩ := actionsWith_sends hg e1
        refine ⟨T ++ T', ?_, installs_append t2 h2, .cons (reps_mono (List.subset_append_left _ _) t3)
          (h3.imp fun _ _ => reps_mono (List.subset_append_right _ _))⟩
        simp only [List.map_append, t1, h1]

theorem groupToRyu_parts {heap : Nat → Option GroupObj} {vlan : Option Nat} {fuel : Nat} {g : GroupObj} {n : Nat} {x : Nat × List GroupMod × Nat}
    (e : groupToRyu heap vlan (fuel + 1) g n = .ok x) :
    ∃ type n1 bs extra, groupType g.type = .ok type ∧ groupId g vlan n = .ok (x.1, n1) ∧
      bucketsWith heap (groupToRyu heap vlan fuel) g.buckets n1 = .ok (bs, extra, x.2.2) ∧ x.2.1 = extra ++ [⟨type, x.1, bs⟩] := by
  rw [groupToRyu] at e
  simp only [bind, Except.bind] at e
  cases e1 : groupType g.type with
  | error err => rw [e1] at e; cases e
  | ok type =>
    rw [e1] at e
    simp only at e
    cases e2 : groupId g vlan n with
    | error err => rw [e2] at e; cases e
    | ok y =>
      rw [e2] at e
      simp only at e
      cases e3 : bucketsWith heap (groupToRyu heap vlan fuel) g.buckets y.2 with
      | error err => rw [e3] at e; cases e
      | ok z =>
        rw [e3] at e
        cases e
        exact ⟨type, y.2, z.1, z.2.1, rfl, rfl, e3, rfl⟩

theorem groupToRyu_sends (heap : Nat → Option GroupObj) (vlan : Option Nat) : ∀ fuel, GrpSends heap (groupToRyu heap vlan fuel)
  | 0 => by intro obj n id msgs n' e; cases e
  | fuel + 1 => by
    intro obj n id msgs n' e
    obtain ⟨type, n1, bs, extra, h1, h2, h3, h4⟩ := groupToRyu_parts e
    obtain ⟨T, t1, t2, t3⟩ := bucketsWith_sends (groupToRyu_sends heap vlan fuel) h3
    refine ⟨T ++ [(obj, ⟨type, id, bs⟩)], ⟨type, id, bs⟩, ?_, installs_snoc t2 (groupType_code h1) t3, by simp, rfl⟩
    simp only at h4
    rw [List.map_append, t1, h4]
    rfl

/-! ### Numbers -/

/-- Specification: the numbers of the messages, seen modulo 2^16, are different and between the counter before and after. -/
structure Fresh (n n' : Nat) (msgs : List GroupMod) : Prop where
  le : n ≤ n'
  nodup : n' < 2 ^ 16 → (msgs.map fun m => m.id % 2 ^ 16).Nodup
  range : n' < 2 ^ 16 → ∀ m ∈ msgs, n < m.id % 2 ^ 16 ∧ m.id % 2 ^ 16 ≤ n'

theorem fresh_nil (n : Nat) : Fresh n n [] := ⟨Nat.le_refl n, by simp, by simp⟩

theorem fresh_append {n n1 n2 : Nat} {a b : List GroupMod} (h : Fresh n n1 a) (h' : Fresh n1 n2 b) : Fresh n n2 (a ++ b) := by
  have l1 := h.le
  have l2 := h'.le
  refine ⟨Nat.le_trans l1 l2, fun hn => ?_, fun hn m hm => ?_⟩
  · rw [List.map_append, List.nodup_append]
    refine ⟨h.nodup (by omega), h'.nodup hn, ?_⟩
    intro x hx y hy
    obtain ⟨m, hm, rfl⟩ := List.mem_map.1 hx
    obtain ⟨m', hm', rfl⟩ := List.mem_map.1 hy
    have := h.range (by omega) m hm
    have := h'.range hn m' hm'
    omega
  · rcases List.mem_append.1 hm with hm | hm
    · have := h.range (by omega) m hm
      omega
    · have := h'.range hn m hm
      omega

/-- Specification: a group whose number is taken from the counter. -/
def Counted (g : GroupObj) : Prop := g.ttp ≠ some "L2 Interface" ∧ g.ttp ≠ some "L2 Unfiltered Interface"

theorem shift_mod (a b : Nat) (k : Nat) (hk : 16 ≤ k) : (a <<< k ||| b) % 2 ^ 16 = b % 2 ^ 16 := by
  apply Nat.eq_of_testBit_eq
  intro i
  simp only [Nat.testBit_mod_two_pow, Nat.testBit_or, Nat.testBit_shiftLeft]
  by_cases h : i < 16
  · have : ¬ k ≤ i := by omega
    simp [h, this]
  · simp [h]

theorem groupId_counted {g : GroupObj} {vlan : Option Nat} {n : Nat} {x : Nat × Nat} (hg : Counted g) (e : groupId g vlan n = .ok x) :
    x.2 = n + 1 ∧ x.1 % 2 ^ 16 = (n + 1) % 2 ^ 16 := by
  obtain ⟨h1, h2⟩ := hg
  have s3 : ∀ a b c : Nat, (a <<< 28 ||| b <<< 16 ||| c) % 2 ^ 16 = c % 2 ^ 16 := by
    intro a b c
    rw [show a <<< 28 ||| b <<< 16 ||| c = a <<< 28 ||| (b <<< 16 ||| c) from Nat.or_assoc .., shift_mod _ _ 28 (by omega), shift_mod _ _ 16 (by omega)]
  unfold groupId at e
  cases ht : g.ttp with
  | none => rw [ht] at e; cases e
  | some name =>
    rw [ht] at e h1 h2
    simp only at e
    have n1 : name ≠ "L2 Interface" := fun h => h1 (by rw [h])
    have n2 : name ≠ "L2 Unfiltered Interface" := fun h => h2 (by rw [h])
    rw [if_neg n1, if_neg n2] at e
    have hb : ∀ t : Nat, (do return (t <<< 28 ||| (← bound vlan) <<< 16 ||| (n + 1), n + 1)) = Except.ok x → x.2 = n + 1 ∧ x.1 % 2 ^ 16 = (n + 1) % 2 ^ 16 := by
      intro t h
      cases vlan with
      | none => cases h
      | some v => cases h; exact ⟨rfl, s3 _ _ _⟩
    have hc : ∀ t : Nat, Except.ok (ε := PyErr) (t <<< 28 ||| (n + 1), n + 1) = Except.ok x → x.2 = n + 1 ∧ x.1 % 2 ^ 16 = (n + 1) % 2 ^ 16 := by
      intro t h
      cases h
      exact ⟨rfl, shift_mod _ _ 28 (by omega)⟩
    split at e
    · exact hc _ e
    split at e
    · exact hb _ e
    split at e
    · exact hc _ e
    split at e
    · exact hc _ e
    split at e
    · exact hb _ e
    split at e
    · exact hb _ e
    split at e
    · exact hc _ e
    · cases e; exact ⟨rfl, rfl⟩

/-- What is shown of the numbers in `group_to_ryu`. -/
def GrpFresh (heap : Nat → Option GroupObj) (grp : GroupObj → Nat → Except PyErr (Nat × List GroupMod × Nat)) : Prop :=
  ∀ g obj n id msgs n', heap g = some obj → grp obj n = .ok (id, msgs, n') → Fresh n n' msgs

theorem actionsWith_fresh {heap : Nat → Option GroupObj} {grp : GroupObj → Nat → Except PyErr (Nat × List GroupMod × Nat)} (hg : GrpFresh heap grp) :
    ∀ {l : List Action} {n : Nat} {x : List RAct × List GroupMod × Nat}, actionsWith heap grp l n = .ok x → Fresh n x.2.2 x.2.1
  | [], n, x, e => by cases e; exact fresh_nil n
  | a :: l, n, x, e => by
    rw [actionsWith] at e
    simp only [bind, Except.bind] at e
    cases e1 : actionToRyu heap grp n a with
    | error err => rw [e1] at e; cases e
    | ok y =>
      rw [e1] at e
      simp only at e
      cases e2 : actionsWith heap grp l y.2.2 with
      | error err => rw [e2] at e; cases e
      | ok z =>
        rw [e2] at e
        cases e
        refine fresh_append (n1 := y.2.2) ?_ (actionsWith_fresh hg e2)
        rcases actionToRyu_cases e1 with ⟨g, obj, id, rfl, h4, h5, h6⟩ | ⟨h4, h5, h6⟩
        · exact hg g obj n id y.2.1 y.2.2 h4 h5
        · rw [show y.2.1 = [] from congrArg (·.1) h5, show y.2.2 = n from congrArg (·.2) h5]
          exact fresh_nil n

theorem bucketsWith_fresh {heap : Nat → Option GroupObj} {grp : GroupObj → Nat → Except PyErr (Nat × List GroupMod × Nat)} (hg : GrpFresh heap grp) :
    ∀ {l : List (List Action)} {n : Nat} {x : List (List RAct) × List GroupMod × Nat}, bucketsWith heap grp l n = .ok x → Fresh n x.2.2 x.2.1
  | [], n, x, e => by cases e; exact fresh_nil n
  | b :: l, n, x, e => by
    rw [bucketsWith] at e
    simp only [bind, Except.bind] at e
    cases e1 : actionsWith heap grp b n with
    | error err => rw [e1] at e; cases e
    | ok y =>
      rw [e1] at e
      simp only at e
      cases e2 : bucketsWith heap grp l y.2.2 with
      | error err => rw [e2] at e; cases e
      | ok z =>
        rw [e2] at e
        cases e
        exact fresh_append (actionsWith_fresh hg e1) (bucketsWith_fresh hg e2)

theorem groupToRyu_fresh {heap : Nat → Option GroupObj} (hc : ∀ g obj, heap g = some obj → Counted obj) (vlan : Option Nat) :
    ∀ fuel, GrpFresh heap (groupToRyu heap vlan fuel)
  | 0 => by intro g obj n id msgs n' _ e; cases e
  | fuel + 1 => by
    intro g obj n id msgs n' hh e
    obtain ⟨type, n1, bs, extra, h1, h2, h3, h4⟩ := groupToRyu_parts e
    obtain ⟨c1, c2⟩ := groupId_counted (hc g obj hh) h2
    have hf := bucketsWith_fresh (groupToRyu_fresh hc vlan fuel) h3
    simp only at c1 c2 h4 hf
    subst c1
    have hle := hf.le
    refine ⟨by omega, fun hn => ?_, fun hn m hm => ?_⟩
    · rw [h4, List.map_append, List.nodup_append]
      refine ⟨hf.nodup hn, by simp, ?_⟩
      intro x hx y hy
      obtain ⟨m, hm, rfl⟩ := List.mem_map.1 hx
      have := hf.range hn m hm
      simp only [List.map_cons, List.map_nil, List.mem_cons, List.not_mem_nil, or_false] at hy
      rw [hy, c2]
      have := Nat.mod_le (n + 1) (2 ^ 16)
      omega
    · rw [h4] at hm
      rcases List.mem_append.1 hm with hm | hm
      · have := hf.range hn m hm
        omega
      · simp only [List.mem_cons, List.not_mem_nil, or_false] at hm
        rw [hm]
        simp only
        rw [c2, Nat.mod_eq_of_lt (by omega)]
        omega

/-- Shape of `actions_to_ryu` for one kind of instruction. -/
theorem actionsInst_parts {heap : Nat → Option GroupObj} {vlan : Option Nat} {fuel type n : Nat} {l : ActionList} {x : List RInst × List GroupMod × Nat}
    (hl : l.len = l.iter.length) (e : actionsInst heap vlan fuel type l n = .ok x) :
    ∃ rs, x.1 = (if l.len = 0 then [] else [.actions type rs]) ∧ actionsWith heap (groupToRyu heap vlan fuel) l.iter n = .ok (rs, x.2) := by
  unfold actionsInst actionsToRyu at e
  by_cases h0 : l.len = 0
  · rw [if_pos h0] at e
    cases e
    refine ⟨[], by rw [if_pos h0], ?_⟩
    have : l.iter = [] := List.eq_nil_of_length_eq_zero (hl.symm.trans h0)
    rw [this]
    rfl
  · rw [if_neg h0] at e
    simp only [bind, Except.bind] at e
    cases e1 : actionsWith heap (groupToRyu heap vlan fuel) l.iter n with
    | error err => rw [e1] at e; cases e
    | ok y =>
      rw [e1] at e
      cases e
      exact ⟨y.1, by rw [if_neg h0], rfl⟩

end OFE.Ryu
