import Verif.Ryu.GroupLemmas
import Verif.Props.Ryu

/-!
# Groups in Ryu messages (C72)
-/

namespace OFE.Ryu

theorem ruleToRyu_parts {π : Type} {heap : Nat → Option GroupObj} {fuel n n' : Nat} {r : Rule π} {f : RFlow} {msgs : List GroupMod}
    (hw : r.inst.write.len = r.inst.write.iter.length) (ha : r.inst.apply.len = r.inst.apply.iter.length) (e : ruleToRyu heap fuel r n = .ok (f, msgs, n')) :
    ∃ ws as x y n1 il, actionsWith heap (groupToRyu heap (vlanOf r.mat) fuel) r.inst.write.iter n = .ok (ws, x, n1) ∧
      actionsWith heap (groupToRyu heap (vlanOf r.mat) fuel) r.inst.apply.iter n1 = .ok (as, y, n') ∧ msgs = x ++ y ∧ f.inst = some il ∧
      ws = (il.filterMap RInst.written).getLast?.getD [] ∧ as = (il.filterMap RInst.applied).getLast?.getD [] := by
  unfold ruleToRyu at e
  cases hm : matchToRyu r.mat with
  | error err => rw [hm] at e; cases e
  | ok l =>
    rw [hm] at e
    simp only [bind, Except.bind] at e
    cases hi : instToRyu heap (vlanOf r.mat) fuel r.inst n with
    | error err => rw [hi] at e; cases e
    | ok z =>
      rw [hi] at e
      cases e
      unfold instToRyu at hi
      by_cases h1 : r.inst.wmeta.isSome = true
      · rw [if_pos h1] at hi; cases hi
      rw [if_neg h1] at hi
      simp only [bind, Except.bind] at hi
      cases h2 : actionsInst heap (vlanOf r.mat) fuel itWrite r.inst.write n with
      | error err => rw [h2] at hi; cases hi
      | ok w =>
        rw [h2] at hi
        simp only at hi
        cases h3 : actionsInst heap (vlanOf r.mat) fuel itApply r.inst.apply w.2.2 with
        | error err => rw [h3] at hi; cases hi
        | ok a =>
          rw [h3] at hi
          simp only at hi
          by_cases h4 : r.inst.meter.isSome = true
          · rw [if_pos h4] at hi; cases hi
          rw [if_neg h4] at hi
          cases hi
          obtain ⟨ws, e1, e2⟩ := actionsInst_parts hw h2
          obtain ⟨as, e3, e4⟩ := actionsInst_parts ha h3
          have w0 : r.inst.write.len = 0 → ws = [] := by
            intro h0
            rw [List.eq_nil_of_length_eq_zero (hw.symm.trans h0)] at e2
            simp only [actionsWith, Except.ok.injEq, Prod.mk.injEq] at e2
            exact e2.1.symm
          have a0 : r.inst.apply.len = 0 → as = [] := by
            intro h0
            rw [List.eq_nil_of_length_eq_zero (ha.symm.trans h0)] at e4
            simp only [actionsWith, Except.ok.injEq, Prod.mk.injEq] at e4
            exact e4.1.symm
          refine ⟨ws, as, w.2.1, a.2.1, w.2.2, _, e2, e4, rfl, rfl, ?_, ?_⟩
          · rw [e1, e3]
            cases r.inst.goto <;> by_cases p1 : r.inst.write.len = 0 <;> by_cases p2 : r.inst.apply.len = 0 <;> cases r.inst.clear <;>
              simp [p1, p2, RInst.written, itWrite, itApply, itClear, w0]
          · rw [e1, e3]
            cases r.inst.goto <;> by_cases p1 : r.inst.write.len = 0 <;> by_cases p2 : r.inst.apply.len = 0 <;> cases r.inst.clear <;>
              simp [p1, p2, RInst.applied, itWrite, itApply, itClear, a0]

theorem lens {π : Type} {r : Rule π} (ha : ∃ s, AllKnown s ∧ ActionList.ofList s = .ok r.inst.apply) (hw : ∃ w, AllKnown w ∧ actionSetOfList w = .ok r.inst.write) :
    r.inst.apply.len = r.inst.apply.iter.length ∧ r.inst.write.len = r.inst.write.iter.length := by
  constructor
  · obtain ⟨s, ks, es⟩ := ha
    rw [ofList_known ks] at es
    rw [← Except.ok.inj es]
    exact (mkList_iter_trace s).perm.length_eq
  · obtain ⟨w, kw, ew⟩ := hw
    obtain ⟨l, el, hset⟩ := actionSet_known kw
    rw [ew] at el
    cases el
    exact hset.iter_perm.length_eq.symm

/-- C72: the messages of a rule define its groups, each with the type and buckets of the `Group` object and after the groups that it uses; the flow uses the numbers so
defined.  `T` pairs the messages with their objects; an object that is used twice is sent twice. -/
theorem C72_sent {π : Type} (heap : Nat → Option GroupObj) (fuel n n' : Nat) (r : Rule π) (f : RFlow) (msgs : List GroupMod)
    (ha : ∃ s, AllKnown s ∧ ActionList.ofList s = .ok r.inst.apply) (hw : ∃ w, AllKnown w ∧ actionSetOfList w = .ok r.inst.write)
    (e : ruleToRyu heap fuel r n = .ok (f, msgs, n')) :
    ∃ T il, T.map (·.2) = msgs ∧ Installs heap T ∧ f.inst = some il ∧
      List.Forall₂ (Rep heap T) r.inst.apply.iter ((il.filterMap RInst.applied).getLast?.getD []) ∧
      List.Forall₂ (Rep heap T) r.inst.write.iter ((il.filterMap RInst.written).getLast?.getD []) := by
  obtain ⟨la, lw⟩ := lens ha hw
  obtain ⟨ws, as, x, y, n1, il, e1, e2, rfl, e4, e5, e6⟩ := ruleToRyu_parts lw la e
  obtain ⟨T, t1, t2, t3⟩ := actionsWith_sends (groupToRyu_sends heap (vlanOf r.mat) fuel) e1
  obtain ⟨T', s1, s2, s3⟩ := actionsWith_sends (groupToRyu_sends heap (vlanOf r.mat) fuel) e2
  refine ⟨T ++ T', il, by rw [List.map_append, t1, s1], installs_append t2 s2, e4, ?_, ?_⟩
  · rw [← e6]; exact reps_mono (List.subset_append_right _ _) s3
  · rw [← e5]; exact reps_mono (List.subset_append_left _ _) t3

/-! ### Example -/

/-- A selecting group that uses an L3 unicast group and the group 99 of the switch. -/
def ecmpObj : GroupObj := ⟨"select", some "L3 ECMP", [[.group 101], [.group 99], [.output 4]]⟩

/-- An L3 unicast group. -/
def unicastObj : GroupObj := ⟨"indirect", some "L3 Unicast", [[.decNwTtl, .setField 3 0x0180c200000e, .group 102]]⟩

/-- An L2 multicast group. -/
def multiObj : GroupObj := ⟨"ALL", some "L2 Multicast", [[.output 1], [.output 2]]⟩

/-- The objects. -/
def groupHeap : Nat → Option GroupObj
  | 100 => some ecmpObj
  | 101 => some unicastObj
  | 102 => some multiObj
  | _ => none

/-- VLAN_VID 5, apply OUTPUT 7, write the first group. -/
def groupRule : Rule Nat := ⟨5, none, 0, Match.empty.append 6 0x1005 none, ⟨none, mkList [.output 7], mkList [.group 100], none, false, none⟩, []⟩

/-- The flow message for it. -/
def groupFlow : RFlow := ⟨5, none, 0, some [⟨6, ['\x10', '\x05'], none⟩], some [.actions 3 [.plain 22 0x70000001], .actions 4 [.plain 0 7]]⟩

/-- The group messages for it. -/
def groupMsgs : List GroupMod := [⟨0, 0x30050003, [[.plain 0 1], [.plain 0 2]]⟩,
  ⟨2, 0x20000002, [[.plain 24 0, .setField 3 (.num 0x0180c200000e), .plain 22 0x30050003]]⟩,
  ⟨1, 0x70000001, [[.plain 22 0x20000002], [.plain 22 99], [.plain 0 4]]⟩]

theorem groupRule_sent : ruleToRyu groupHeap 3 groupRule 0 = .ok (groupFlow, groupMsgs, 3) := by decide +kernel

theorem mkList_known1 (a : Action) (h : a.known = true) : ∃ s, AllKnown s ∧ ActionList.ofList s = .ok (mkList [a]) :=
  ⟨[a], by intro b hb; rw [List.mem_singleton.1 hb]; exact h, ofList_known (by intro b hb; rw [List.mem_singleton.1 hb]; exact h)⟩

example : ∃ T il, T.map (·.2) = groupMsgs ∧ Installs groupHeap T ∧ groupFlow.inst = some il ∧
      List.Forall₂ (Rep groupHeap T) groupRule.inst.apply.iter ((il.filterMap RInst.applied).getLast?.getD []) ∧
      List.Forall₂ (Rep groupHeap T) groupRule.inst.write.iter ((il.filterMap RInst.written).getLast?.getD []) :=
  C72_sent groupHeap 3 0 3 groupRule groupFlow groupMsgs (mkList_known1 (.output 7) rfl)
    ⟨[.group 100], by intro b hb; rw [List.mem_singleton.1 hb]; rfl, by decide +kernel⟩ groupRule_sent

/-! ### Numbers -/

/-- Specification: rules converted one after the other by the same program: the group messages of all, and the counter before and after. -/
inductive Session {π : Type} (heap : Nat → Option GroupObj) (fuel : Nat) : List (Rule π) → Nat → List GroupMod → Nat → Prop
  | nil (n : Nat) : Session heap fuel [] n [] n
  | cons {r : Rule π} {rs : List (Rule π)} {f : RFlow} {n n1 n2 : Nat} {a b : List GroupMod} : ruleToRyu heap fuel r n = .ok (f, a, n1) →
      Session heap fuel rs n1 b n2 → Session heap fuel (r :: rs) n (a ++ b) n2

/-- C72: the groups of all rules get different numbers.

Partial: while less than 2^16 numbers are drawn (`C72_wrap`), and without L2 Interface groups, which are numbered by VLAN and port alone (`C72_same_port`,
`C72_default_clash`). -/
theorem C72_different_partial {π : Type} (heap : Nat → Option GroupObj) (fuel n n' : Nat) (rs : List (Rule π)) (msgs : List GroupMod)
    (ha : ∀ r ∈ rs, ∃ s, AllKnown s ∧ ActionList.ofList s = .ok r.inst.apply) (hw : ∀ r ∈ rs, ∃ w, AllKnown w ∧ actionSetOfList w = .ok r.inst.write)
    (hc : ∀ g obj, heap g = some obj → Counted obj) (hn : n' < 2 ^ 16) (h : Session heap fuel rs n msgs n') : (msgs.map (·.id)).Nodup := by
  have key : Fresh n n' msgs := by
    clear hn
    induction h with
    | nil n => exact fresh_nil n
    | @cons r rs f n n1 n2 a b e _ ih =>
      obtain ⟨la, lw⟩ := lens (ha r List.mem_cons_self) (hw r List.mem_cons_self)
      obtain ⟨ws, as, x, y, n3, il, e1, e2, rfl, -, -, -⟩ := ruleToRyu_parts lw la e
      refine fresh_append (fresh_append (actionsWith_fresh (groupToRyu_fresh hc _ fuel) e1) (actionsWith_fresh (groupToRyu_fresh hc _ fuel) e2)) ?_
      exact ih (fun r hr => ha r (List.mem_cons_of_mem _ hr)) fun r hr => hw r (List.mem_cons_of_mem _ hr)
  have := key.nodup hn
  rw [show (msgs.map fun m => m.id % 2 ^ 16) = (msgs.map (·.id)).map (· % 2 ^ 16) by rw [List.map_map]; rfl] at this
  exact List.Nodup.of_map _ this

theorem groupRule_again : ruleToRyu groupHeap 3 groupRule 3 = .ok
    ({ groupFlow with inst := some [.actions 3 [.plain 22 0x70000004], .actions 4 [.plain 0 7]] }, [⟨0, 0x30050006, [[.plain 0 1], [.plain 0 2]]⟩,
      ⟨2, 0x20000005, [[.plain 24 0, .setField 3 (.num 0x0180c200000e), .plain 22 0x30050006]]⟩,
      ⟨1, 0x70000004, [[.plain 22 0x20000005], [.plain 22 99], [.plain 0 4]]⟩], 6) := by decide +kernel

/-- The rule converted twice: six groups. -/
example : ∃ msgs, Session groupHeap 3 [groupRule, groupRule] 0 msgs 6 ∧ msgs.length = 6 ∧ (msgs.map (·.id)).Nodup := by
  have hs := Session.cons groupRule_sent (.cons groupRule_again (.nil (π := Nat) 6))
  refine ⟨_, hs, rfl, C72_different_partial groupHeap 3 0 6 [groupRule, groupRule] _ ?_ ?_ ?_ (by decide) hs⟩
  · intro r hr
    simp only [List.mem_cons, List.not_mem_nil, or_false, or_self] at hr
    subst hr
    exact mkList_known1 (.output 7) rfl
  · intro r hr
    simp only [List.mem_cons, List.not_mem_nil, or_false, or_self] at hr
    subst hr
    exact ⟨[.group 100], by intro b hb; rw [List.mem_singleton.1 hb]; rfl, by decide +kernel⟩
  · intro g obj h
    unfold groupHeap at h
    split at h <;> cases h <;> exact ⟨by decide, by decide⟩

/-- Specification: the group tables of OF-DPA by name: the number of the table, whether the group is for a VLAN, and whether it is for a port (otherwise it is one of many
with an index). -/
def ofdpaTables : List (String × Nat × Bool × Bool) := [("L2 Interface", 0, true, true), ("L2 Unfiltered Interface", 11, false, true), ("L3 Interface", 5, false, false),
  ("L3 Multicast", 6, true, false), ("L3 Unicast", 2, false, false), ("L3 ECMP", 7, false, false), ("L2 Flood", 4, true, false), ("L2 Multicast", 3, true, false),
  ("L3 Rewrite", 1, false, false)]

theorem layout3 {t v k : Nat} (hv : v < 2 ^ 12) (hk : k < 2 ^ 16) :
    (t <<< 28 ||| v <<< 16 ||| k) / 2 ^ 28 = t ∧ (t <<< 28 ||| v <<< 16 ||| k) / 2 ^ 16 % 2 ^ 12 = v ∧ (t <<< 28 ||| v <<< 16 ||| k) % 2 ^ 16 = k := by
  have h1 : v <<< 16 ||| k = 2 ^ 16 * v + k := by
    rw [Nat.shiftLeft_eq, Nat.mul_comm, Nat.two_pow_add_eq_or_of_lt hk]
  have h2 : v <<< 16 ||| k < 2 ^ 28 := by rw [h1]; omega
  have h3 : t <<< 28 ||| v <<< 16 ||| k = 2 ^ 28 * t + (2 ^ 16 * v + k) := by
    rw [Nat.or_assoc, Nat.shiftLeft_eq, Nat.mul_comm t, ← Nat.two_pow_add_eq_or_of_lt h2, h1]
  rw [h3]
  refine ⟨by omega, by omega, by omega⟩

theorem portOf_mem {g : GroupObj} {p : Nat} (h : portOf g = some p) : .output p ∈ g.buckets.headD [] := by
  unfold portOf at h
  cases e : g.buckets with
  | nil => rw [e] at h; cases h
  | cons b rest =>
    rw [e] at h
    simp only at h
    have key : ∀ (l : List Action) (o : Option Nat), l.foldl (fun p a => match a with | .output n => some n | _ => p) o = some p → o = some p ∨ .output p ∈ l := by
      intro l
      induction l with
      | nil => intro o h; exact .inl h
      | cons a l ih =>
        intro o h
        rw [List.foldl_cons] at h
        rcases ih _ h with h | h
        · cases a <;> first | exact .inl h | (cases h; exact .inr List.mem_cons_self)
        · exact .inr (List.mem_cons_of_mem _ h)
    rcases key b none h with h | h
    · cases h
    · simpa using h

theorem portOf_some {g : GroupObj} {p : Nat} (h : .output p ∈ g.buckets.headD []) : ∃ q, portOf g = some q := by
  unfold portOf
  cases e : g.buckets with
  | nil => rw [e] at h; cases h
  | cons b rest =>
    rw [e] at h
    simp only
    have key : ∀ (l : List Action) (o : Option Nat), (o.isSome ∨ .output p ∈ l) → ∃ q, l.foldl (fun p a => match a with | .output n => some n | _ => p) o = some q := by
      intro l
      induction l with
      | nil =>
        intro o h
        rcases h with h | h
        · exact Option.isSome_iff_exists.1 h
        · cases h
      | cons a l ih =>
        intro o h
        rw [List.foldl_cons]
        apply ih
        rcases h with h | h
        · left; cases a <;> first | exact h | rfl
        · rcases List.mem_cons.1 h with rfl | h
          · exact .inl rfl
          · exact .inr h
    exact key b none (.inr (by simpa using h))

/-- C72: the number is in the format of OF-DPA: table in bits 31-28, VLAN in bits 27-16, port or index in bits 15-0.

Partial: for ports and counters of more than 16 bits it is not (`C72_controller`, `C72_wrap`). -/
theorem C72_ofdpa_partial (g : GroupObj) (m : Match) (n id n' : Nat) (name : String) (t : Nat) (forVlan forPort : Bool) (hg : g.ttp = some name)
    (ht : (name, t, forVlan, forPort) ∈ ofdpaTables) (hp : ∀ p, .output p ∈ g.buckets.headD [] → p < 2 ^ 16) (hn : n + 1 < 2 ^ 16)
    (e : groupId g (vlanOf m) n = .ok (id, n')) :
    id / 2 ^ 28 = t ∧ (if forVlan then ∃ v k, m.items.lookup 6 = some (v, k) ∧ id / 2 ^ 16 % 2 ^ 12 = v % 2 ^ 12 else id / 2 ^ 16 % 2 ^ 12 = 0) ∧
      (if forPort then .output (id % 2 ^ 16) ∈ g.buckets.headD [] ∧ n' = n else id % 2 ^ 16 = n + 1 ∧ n' = n + 1) := by
  have hv : ∀ w, vlanOf m = some w → w < 2 ^ 12 ∧ ∃ v k, m.items.lookup 6 = some (v, k) ∧ w = v % 2 ^ 12 := by
    intro w h
    unfold vlanOf at h
    cases e : m.items.lookup 6 with
    | none => rw [e] at h; cases h
    | some x =>
      rw [e] at h
      cases h
      have : x.1 &&& 0xfff = x.1 % 2 ^ 12 := Nat.and_two_pow_sub_one_eq_mod x.1 12
      simp only
      rw [this]
      exact ⟨Nat.mod_lt _ (by decide), x.1, x.2, rfl, rfl⟩
  have hq : ∀ p, portOf g = some p → p < 2 ^ 16 ∧ .output p ∈ g.buckets.headD [] := fun p h => ⟨hp p (portOf_mem h), portOf_mem h⟩
  unfold groupId at e
  rw [hg] at e
  simp only at e
  -- the shapes of the branches
  have plain : ∀ t : Nat, Except.ok (ε := PyErr) (t <<< 28 ||| (n + 1), n + 1) = Except.ok (id, n') →
      id / 2 ^ 28 = t ∧ id / 2 ^ 16 % 2 ^ 12 = 0 ∧ id % 2 ^ 16 = n + 1 ∧ n' = n + 1 := by
    intro t h
    cases h
    have := layout3 (t := t) (v := 0) (k := n + 1) (by decide) hn
    rw [Nat.zero_shiftLeft, Nat.or_zero] at this
    exact ⟨this.1, this.2.1, this.2.2, rfl⟩
  have tagged : ∀ t : Nat, (do return (t <<< 28 ||| (← bound (vlanOf m)) <<< 16 ||| (n + 1), n + 1)) = Except.ok (id, n') →
      id / 2 ^ 28 = t ∧ (∃ v k, m.items.lookup 6 = some (v, k) ∧ id / 2 ^ 16 % 2 ^ 12 = v % 2 ^ 12) ∧ id % 2 ^ 16 = n + 1 ∧ n' = n + 1 := by
    intro t h
    cases ev : vlanOf m with
    | none => rw [ev] at h; cases h
    | some w =>
      rw [ev] at h
      cases h
      obtain ⟨h1, v, k, h2, h3⟩ := hv w ev
      have := layout3 (t := t) h1 hn
      exact ⟨this.1, ⟨v, k, h2, by rw [this.2.1, h3]⟩, this.2.2, rfl⟩
  simp only [ofdpaTables, List.mem_cons, List.not_mem_nil, or_false, Prod.mk.injEq] at ht
  rcases ht with ⟨rfl, rfl, rfl, rfl⟩ | ⟨rfl, rfl, rfl, rfl⟩ | ⟨rfl, rfl, rfl, rfl⟩ | ⟨rfl, rfl, rfl, rfl⟩ | ⟨rfl, rfl, rfl, rfl⟩ | ⟨rfl, rfl, rfl, rfl⟩ |
    ⟨rfl, rfl, rfl, rfl⟩ | ⟨rfl, rfl, rfl, rfl⟩ | ⟨rfl, rfl, rfl, rfl⟩
  · rw [if_pos rfl] at e
    cases ev : vlanOf m with
    | none => rw [ev] at e; cases e
    | some w =>
      cases ep : portOf g with
      | none => rw [ev, ep] at e; cases e
      | some p =>
        rw [ev, ep] at e
        cases e
        obtain ⟨h1, v, k, h2, h3⟩ := hv w ev
        obtain ⟨p1, p2⟩ := hq p ep
        have := layout3 (t := 0) h1 p1
        rw [Nat.zero_shiftLeft, Nat.zero_or] at this
        simp only [if_true]
        exact ⟨this.1, ⟨v, k, h2, by rw [this.2.1, h3]⟩, by rw [this.2.2]; exact p2, trivial⟩
  · rw [if_neg (by decide), if_pos rfl] at e
    cases ep : portOf g with
    | none => rw [ep] at e; cases e
    | some p =>
      rw [ep] at e
      cases e
      obtain ⟨p1, p2⟩ := hq p ep
      have := layout3 (t := 11) (v := 0) (by decide) p1
      rw [Nat.zero_shiftLeft, Nat.or_zero] at this
      exact ⟨this.1, this.2.1, by rw [if_pos rfl, this.2.2]; exact ⟨p2, rfl⟩⟩
  · exact plain 5 e
  · exact tagged 6 e
  · exact plain 2 e
  · exact plain 7 e
  · exact tagged 4 e
  · exact tagged 3 e
  · exact plain 1 e

example : (0x30050003 : Nat) / 2 ^ 28 = 3 ∧ (∃ v k, groupRule.mat.items.lookup 6 = some (v, k) ∧ 0x30050003 / 2 ^ 16 % 2 ^ 12 = v % 2 ^ 12) ∧ 0x30050003 % 2 ^ 16 = 2 + 1 ∧
    3 = 2 + 1 :=
  C72_ofdpa_partial multiObj groupRule.mat 2 0x30050003 3 "L2 Multicast" 3 true false rfl (by decide)
    (by intro p hp; simp [multiObj] at hp; omega) (by decide) (by decide +kernel)

/-- C72: other groups get the next number of the counter. -/
theorem C72_default (g : GroupObj) (vlan : Option Nat) (n : Nat) (name : String) (hg : g.ttp = some name) (h : ∀ x ∈ ofdpaTables, x.1 ≠ name) :
    groupId g vlan n = .ok (n + 1, n + 1) := by
  simp only [ofdpaTables, List.forall_mem_cons] at h
  obtain ⟨h1, h2, h3, h4, h5, h6, h7, h8, h9, -⟩ := h
  unfold groupId
  rw [hg]
  simp only
  rw [if_neg h1.symm, if_neg h2.symm, if_neg h3.symm, if_neg h4.symm, if_neg h5.symm, if_neg h6.symm, if_neg h7.symm, if_neg h8.symm, if_neg h9.symm]

example : groupId ⟨"all", some "Protection", []⟩ none 70000 = .ok (70001, 70001) := C72_default _ none 70000 "Protection" rfl (by decide)

/-! ### Success -/

/-- Specification: a group that can be sent, with nesting up to a depth: a type of OpenFlow, a table (`ttp_link`), a VLAN and a port if the table asks for them, and
buckets with such groups. -/
def CanSend (heap : Nat → Option GroupObj) (vlan : Bool) : Nat → GroupObj → Prop
  | 0, _ => False
  | d + 1, g => (∃ c, TypeCode g.type c) ∧
    (∃ name, g.ttp = some name ∧ ∀ x ∈ ofdpaTables, x.1 = name → (x.2.2.1 = true → vlan = true) ∧ (x.2.2.2 = true → ∃ p, .output p ∈ g.buckets.headD [])) ∧
    ∀ b ∈ g.buckets, ∀ k obj, Action.group k ∈ b → heap k = some obj → CanSend heap vlan d obj

theorem groupId_total {g : GroupObj} {vlan : Option Nat} {n : Nat} (h : ∃ name, g.ttp = some name ∧
    ∀ x ∈ ofdpaTables, x.1 = name → (x.2.2.1 = true → vlan.isSome = true) ∧ (x.2.2.2 = true → ∃ p, .output p ∈ g.buckets.headD [])) : ∃ x, groupId g vlan n = .ok x := by
  obtain ⟨name, hg, h⟩ := h
  have hb : ∀ o : Option Nat, o.isSome = true → ∃ v, bound o = .ok v := by
    intro o ho
    obtain ⟨v, rfl⟩ := Option.isSome_iff_exists.1 ho
    exact ⟨v, rfl⟩
  have hport : (∃ p, .output p ∈ g.buckets.headD []) → ∃ p, bound (portOf g) = .ok p := by
    rintro ⟨p, hp⟩
    obtain ⟨q, hq⟩ := portOf_some hp
    exact ⟨q, by rw [hq]; rfl⟩
  simp only [ofdpaTables, List.forall_mem_cons] at h
  obtain ⟨h1, h2, h3, h4, h5, h6, h7, h8, h9, -⟩ := h
  unfold groupId
  rw [hg]
  simp only
  split
  · rename_i e
    obtain ⟨v, ev⟩ := hb vlan ((h1 e.symm).1 trivial)
    obtain ⟨p, ep⟩ := hport ((h1 e.symm).2 trivial)
    rw [ev, ep]; exact ⟨_, rfl⟩
  split
  · rename_i e
    obtain ⟨p, ep⟩ := hport ((h2 e.symm).2 trivial)
    rw [ep]; exact ⟨_, rfl⟩
  split
  · exact ⟨_, rfl⟩
  split
  · rename_i e
    obtain ⟨v, ev⟩ := hb vlan ((h4 e.symm).1 trivial)
    rw [ev]; exact ⟨_, rfl⟩
  split
  · exact ⟨_, rfl⟩
  split
  · exact ⟨_, rfl⟩
  split
  · rename_i e
    obtain ⟨v, ev⟩ := hb vlan ((h7 e.symm).1 trivial)
    rw [ev]; exact ⟨_, rfl⟩
  split
  · rename_i e
    obtain ⟨v, ev⟩ := hb vlan ((h8 e.symm).1 trivial)
    rw [ev]; exact ⟨_, rfl⟩
  split
  · exact ⟨_, rfl⟩
  · exact ⟨_, rfl⟩

theorem actionsWith_total {heap : Nat → Option GroupObj} {grp : GroupObj → Nat → Except PyErr (Nat × List GroupMod × Nat)} :
    ∀ {l : List Action} {n : Nat}, (∀ k obj, Action.group k ∈ l → heap k = some obj → ∀ n, ∃ x, grp obj n = .ok x) → ∃ x, actionsWith heap grp l n = .ok x
  | [], n, _ => ⟨_, rfl⟩
  | a :: l, n, h => by
    have h1 : ∃ x, actionToRyu heap grp n a = .ok x := by
      by_cases hno : ∀ g, a = .group g → heap g = none
      · obtain ⟨r, e, -⟩ := actionToRyu_ok grp n hno
        exact ⟨_, e⟩
      · simp only [Classical.not_forall] at hno
        obtain ⟨g, rfl, h2⟩ := hno
        cases ho : heap g with
        | none => exact absurd ho h2
        | some obj =>
          obtain ⟨x, ex⟩ := h g obj List.mem_cons_self ho n
          simp only [actionToRyu, ho, ex]
          exact ⟨_, rfl⟩
    obtain ⟨x, ex⟩ := h1
    obtain ⟨y, ey⟩ := actionsWith_total (n := x.2.2) (l := l) fun k obj hk => h k obj (List.mem_cons_of_mem _ hk)
    rw [actionsWith, ex]
    simp only [bind, Except.bind, ey]
    exact ⟨_, rfl⟩

theorem bucketsWith_total {heap : Nat → Option GroupObj} {grp : GroupObj → Nat → Except PyErr (Nat × List GroupMod × Nat)} :
    ∀ {l : List (List Action)} {n : Nat}, (∀ b ∈ l, ∀ k obj, Action.group k ∈ b → heap k = some obj → ∀ n, ∃ x, grp obj n = .ok x) →
      ∃ x, bucketsWith heap grp l n = .ok x
  | [], n, _ => ⟨_, rfl⟩
  | b :: l, n, h => by
    obtain ⟨x, ex⟩ := actionsWith_total (n := n) (h b List.mem_cons_self)
    obtain ⟨y, ey⟩ := bucketsWith_total (n := x.2.2) (l := l) fun b' hb => h b' (List.mem_cons_of_mem _ hb)
    rw [bucketsWith, ex]
    simp only [bind, Except.bind, ey]
    exact ⟨_, rfl⟩

theorem groupToRyu_total {heap : Nat → Option GroupObj} {vlan : Option Nat} : ∀ {d : Nat} {g : GroupObj}, CanSend heap vlan.isSome d g →
    ∀ n, ∃ x, groupToRyu heap vlan d g n = .ok x
  | 0, g, h, n => h.elim
  | d + 1, g, h, n => by
    obtain ⟨⟨c, hc⟩, h2, h3⟩ := h
    obtain ⟨y, ey⟩ := groupId_total (n := n) h2
    obtain ⟨z, ez⟩ := bucketsWith_total (n := y.2) (l := g.buckets) fun b hb k obj hk ho => groupToRyu_total (h3 b hb k obj hk ho)
    rw [groupToRyu, groupType_total hc]
    simp only [bind, Except.bind, ey, ez]
    exact ⟨_, rfl⟩

/-- C72: rules whose groups can be sent are converted, whatever the counter.

Partial: groups without a table raise AttributeError (`C72_no_table`), and some tables need a VLAN in the match (`C72_no_vlan`). -/
theorem C72_converted_partial {π : Type} (heap : Nat → Option GroupObj) (fuel n : Nat) (r : Rule π) (hf : ∀ x ∈ r.mat.items, OxmOK x)
    (hm : r.inst.wmeta = none) (ht : r.inst.meter = none)
    (hg : ∀ k obj, Action.group k ∈ r.inst.apply.iter ++ r.inst.write.iter → heap k = some obj → CanSend heap (r.mat.items.lookup 6).isSome fuel obj) :
    ∃ x, ruleToRyu heap fuel r n = .ok x := by
  obtain ⟨ys, l, e1, -, -⟩ := matchToRyu_ok hf
  have hvl : (vlanOf r.mat).isSome = (r.mat.items.lookup 6).isSome := by unfold vlanOf; simp
  rw [← hvl] at hg
  have one : ∀ (type : Nat) (l : ActionList) (n : Nat), (∀ k, Action.group k ∈ l.iter → Action.group k ∈ r.inst.apply.iter ++ r.inst.write.iter) →
      ∃ x, actionsInst heap (vlanOf r.mat) fuel type l n = .ok x := by
    intro type l n hl
    unfold actionsInst actionsToRyu
    by_cases h0 : l.len = 0
    · rw [if_pos h0]; exact ⟨_, rfl⟩
    · rw [if_neg h0]
      obtain ⟨x, ex⟩ := actionsWith_total (n := n) (l := l.iter) fun k obj hk ho => groupToRyu_total (hg k obj (hl k hk) ho)
      rw [ex]; exact ⟨_, rfl⟩
  obtain ⟨w, ew⟩ := one itWrite r.inst.write n fun k hk => List.mem_append_right _ hk
  obtain ⟨a, ea⟩ := one itApply r.inst.apply w.2.2 fun k hk => List.mem_append_left _ hk
  unfold ruleToRyu instToRyu
  rw [e1, hm, ht]
  simp only [bind, Except.bind, ew, ea, Option.isSome_none, Bool.false_eq_true, if_false]
  exact ⟨_, rfl⟩

theorem groupHeap_can : CanSend groupHeap true 3 ecmpObj := by
  have c1 : TypeCode "select" 1 := .mk (t := "SELECT") (by decide) (by decide)
  have c2 : TypeCode "indirect" 2 := .mk (t := "INDIRECT") (by decide) (by decide)
  have c3 : TypeCode "ALL" 0 := .mk (t := "ALL") (by decide) (by decide)
  have hmem : ∀ {d : Nat} {o : GroupObj} (gs : List Nat), (∀ b ∈ o.buckets, ∀ k, Action.group k ∈ b → k ∈ gs) → (∀ k ∈ gs, ∀ obj, groupHeap k = some obj →
      CanSend groupHeap true d obj) → ∀ b ∈ o.buckets, ∀ k obj, Action.group k ∈ b → groupHeap k = some obj → CanSend groupHeap true d obj :=
    fun gs h1 h2 b hb k obj hk => h2 k (h1 b hb k hk) obj
  have nop : ∀ {name : String} {o : GroupObj}, (∀ x ∈ ofdpaTables, x.1 = name → x.2.2.2 = false) →
      ∀ x ∈ ofdpaTables, x.1 = name → (x.2.2.1 = true → true = true) ∧ (x.2.2.2 = true → ∃ p, .output p ∈ o.buckets.headD []) :=
    fun h x hx hn => ⟨fun _ => rfl, fun ht => by rw [h x hx hn] at ht; cases ht⟩
  have m : CanSend groupHeap true 1 multiObj := ⟨⟨0, c3⟩, ⟨_, rfl, nop (by decide)⟩, hmem [] (by simp [multiObj]) (by simp)⟩
  have u : CanSend groupHeap true 2 unicastObj := ⟨⟨2, c2⟩, ⟨_, rfl, nop (by decide)⟩, hmem [102] (by simp [unicastObj]) (by
    intro k hk obj ho
    rw [List.mem_singleton.1 hk] at ho
    cases ho
    exact m)⟩
  refine ⟨⟨1, c1⟩, ⟨_, rfl, nop (by decide)⟩, hmem [101, 99] (by simp [ecmpObj]) ?_⟩
  intro k hk obj ho
  simp only [List.mem_cons, List.not_mem_nil, or_false] at hk
  rcases hk with rfl | rfl
  · cases ho; exact u
  · cases ho

example (n : Nat) : ∃ x, ruleToRyu groupHeap 3 groupRule n = .ok x := by
  have e : groupRule.mat.items = [(6, 0x1005, none)] := by decide +kernel
  refine C72_converted_partial groupHeap 3 n groupRule ?_ rfl rfl ?_
  · intro x hx
    rw [e] at hx
    rw [List.mem_singleton.1 hx]
    exact ⟨by decide, Ovs.inRange_of (w := 13) (by decide) (by decide), fun m hm => by cases hm⟩
  · intro k obj hk ho
    have : groupRule.inst.apply.iter ++ groupRule.inst.write.iter = [.output 7, .group 100] := by decide +kernel
    rw [this] at hk
    simp only [List.mem_cons, List.not_mem_nil, or_false, Action.group.injEq, reduceCtorEq, false_or] at hk
    subst hk
    cases ho
    rw [show (groupRule.mat.items.lookup 6).isSome = true by rw [e]; rfl]
    exact groupHeap_can

/-! ### Violations -/

/-- A group without `ttp_link` (the default) is not converted, although it should get the next unused number. -/
theorem C72_no_table (g : GroupObj) (vlan : Option Nat) (n : Nat) (h : g.ttp = none) : groupId g vlan n = .error .attributeError := by
  unfold groupId
  rw [h]

example : groupId ⟨"all", none, [[.output 1]]⟩ (some 5) 0 = .error .attributeError := C72_no_table _ _ 0 rfl

/-- A rule without VLAN_VID that uses an L2 Interface group is not converted. -/
theorem C72_no_vlan : ruleToRyu (fun _ => some ⟨"indirect", some "L2 Interface", [[.output 1]]⟩) 1 { groupRule with mat := .empty } 0 = .error .nameError := by
  decide +kernel

/-- Two L2 Interface groups for the same VLAN and port but with different actions get the same number. -/
theorem C72_same_port : ∃ a b : GroupObj, a.buckets ≠ b.buckets ∧ a.ttp = b.ttp ∧ groupId a (some 5) 0 = .ok (0x50003, 0) ∧ groupId b (some 5) 0 = .ok (0x50003, 0) :=
  ⟨⟨"indirect", some "L2 Interface", [[.popVlan, .output 3]]⟩, ⟨"indirect", some "L2 Interface", [[.output 3]]⟩, by decide, rfl, by decide +kernel, by decide +kernel⟩

/-- The next unused number may be that of an L2 Interface group of VLAN 0. -/
theorem C72_default_clash : ∃ a b : GroupObj, a.buckets ≠ b.buckets ∧ groupId a (some 0) 0 = .ok (1, 0) ∧ groupId b (some 0) 0 = .ok (1, 1) :=
  ⟨⟨"indirect", some "L2 Interface", [[.output 1]]⟩, ⟨"indirect", some "Other", [[.output 3]]⟩, by decide, by decide +kernel, by decide +kernel⟩

/-- An L2 Interface group to the controller (port 0xfffffffd) gets a number of table 15. -/
theorem C72_controller : ∃ id, groupId ⟨"indirect", some "L2 Interface", [[.output 0xfffffffd]]⟩ (some 5) 0 = .ok (id, 0) ∧ id / 2 ^ 28 = 15 :=
  ⟨0xfffffffd, by decide +kernel, by decide⟩

/-- After 2^16 groups the counter reaches into the VLAN: two L2 Multicast groups with the same number. -/
theorem C72_wrap : ∃ (g : GroupObj) (id a b : Nat), groupId g (some 1) 4 = .ok (id, a) ∧ groupId g (some 0) 65540 = .ok (id, b) ∧ a ≠ b :=
  ⟨⟨"all", some "L2 Multicast", [[.output 3]]⟩, 0x30010005, 5, 65541, by decide +kernel, by decide +kernel, by decide⟩

/-- The type for fast failover must be called ff. -/
theorem C72_failover : groupType "ff" = .ok 3 ∧ groupType "fast_failover" = .error .attributeError := by decide +kernel

end OFE.Ryu
