import Verif.Props.ActionsSem
import Verif.Props.Actions
import Verif.Actions.RedLemmas

/-! # C107: reordering actions and the ethertypes of the packet

The semantics of `Actions/Sem` leaves out ethertypes.  Here they are all there is. -/

namespace OFE

/-- Specification: the ethertypes of a frame: of its VLAN tags (outermost first), of what follows them (`ETH_TYPE`), and of the frames inside its PBB headers. -/
structure Frame where
  tags : List Nat
  type : Nat
  inside : List (List Nat × Nat)
deriving DecidableEq

/-- Specification: what an action does to them (OpenFlow 1.3.5, 5.12).  A VLAN tag is put in front of the other tags; PUSH_MPLS and POP_MPLS say what the new
type is; PUSH_PBB puts the whole frame inside a new one. -/
def Frame.act : Action → Frame → Frame
  | .pushVlan e, x => { x with tags := e :: x.tags }
  | .popVlan, x => { x with tags := x.tags.tail }
  | .pushMpls e, x => { x with type := e }
  | .popMpls e, x => { x with type := e }
  | .pushPbb e, x => ⟨[], e, (x.tags, x.type) :: x.inside⟩
  | .popPbb, ⟨_, _, (t, y) :: r⟩ => ⟨t, y, r⟩
  | .setField 5 v, x => { x with type := v }
  | _, x => x

/-- Specification: copies sent out by an action. -/
def Frame.emit : Action → Frame → List (Dest × Frame)
  | .output n, x => [(.port n, x)]
  | .group g, x => [(.group g, x)]
  | _, _ => []

/-- Specification: the frame after the actions and the copies sent. -/
def Frame.exec : List Action → Frame → Frame × List (Dest × Frame)
  | [], x => (x, [])
  | a :: rest, x => ((exec rest (x.act a)).1, x.emit a ++ (exec rest (x.act a)).2)

/-- Specification: same frame afterwards, and the same copies sent to the same places (in any order). -/
def SameTypes (s t : List Action) : Prop := ∀ x : Frame, (x.exec s).1 = (x.exec t).1 ∧ (x.exec s).2.Perm (x.exec t).2

/-- Specification: pushes and pops of PBB headers. -/
def Action.isPbb : Action → Bool
  | .pushPbb _ | .popPbb => true
  | _ => false

/-- Specification: pushes and pops of VLAN and MPLS headers. -/
def Action.isTag : Action → Bool
  | .pushVlan _ | .popVlan | .pushMpls _ | .popMpls _ => true
  | _ => false

/-- Specification: no PBB header together with VLAN tags or labels. -/
def NoMix (s : List Action) : Prop := (∃ a ∈ s, a.isPbb = true) → ∀ b ∈ s, b.isTag = false

theorem frame_set {f v : Nat} (h : f ≠ 5) (x : Frame) : x.act (.setField f v) = x := by
  unfold Frame.act
  split <;> first | rfl | (rename_i e; cases e; exact absurd rfl h) | (rename_i e; cases e)

theorem frame_set5 (v : Nat) (x : Frame) : x.act (.setField 5 v) = { x with type := v } := rfl

theorem frame_set_comm (f v : Nat) (b : Action) (h : depends (.setField f v) b = .ok false) (x : Frame) :
    (x.act b).act (.setField f v) = (x.act (.setField f v)).act b := by
  by_cases hf : f = 5
  · subst hf
    rw [frame_set5, frame_set5]
    cases b with
    | setField g w =>
      have hne := table_set_set 5 g v w h
      rw [frame_set (Ne.symm hne), frame_set (Ne.symm hne)]
    | pushMpls e => exfalso; revert h; simp [depends, Action.toType, Action.ty, actionDeps, setTtl, Action.isSet]
    | popMpls e => exfalso; revert h; simp [depends, Action.toType, Action.ty, actionDeps, setTtl, Action.isSet]
    | pushPbb e => exfalso; revert h; simp [depends, Action.toType, Action.ty, actionDeps, Action.isSet]
    | popPbb => exfalso; revert h; simp [depends, Action.toType, Action.ty, actionDeps, Action.isSet]
    | _ => rfl
  · rw [frame_set hf, frame_set hf]

set_option linter.unusedSimpArgs false in
theorem frame_comm (a b : Action) (h : depends a b = .ok false) (hm : (a.isPbb && b.isTag || b.isPbb && a.isTag) = false) (x : Frame) :
    (x.act a).act b = (x.act b).act a := by
  cases a with
  | setField f v => exact (frame_set_comm f v b h x).symm
  | _ =>
    cases b <;> first
    | rfl
    | (rename_i f v; rw [depends_comm] at h; exact frame_set_comm f v _ h x)
    | (exfalso; revert h; simp [depends, Action.toType, Action.ty, actionDeps, setAll, setTtl, Action.isSet]; done)
    | (exfalso; revert hm; simp [Action.isPbb, Action.isTag]; done)

theorem frame_emit_comm (a b : Action) (h : depends a b = .ok false) (x : Frame) :
    (x.emit a ++ (x.act a).emit b).Perm (x.emit b ++ (x.act b).emit a) := by
  have key : ∀ a b : Action, depends a b = .ok false → x.emit a ≠ [] → x.act b = x ∧ x.act a = x := by
    intro a b h hne
    have ha : (∃ n, a = .output n) ∨ ∃ g, a = .group g := by
      cases a <;> simp [Frame.emit] at hne ⊢
    have hact : x.act a = x := by rcases ha with ⟨n, rfl⟩ | ⟨g, rfl⟩ <;> rfl
    refine ⟨?_, hact⟩
    have h15 : actionDeps a.toType = some (setAll.filter fun x => decide (x ≠ .t 15 ∧ x ≠ .t 14)) := by
      rcases ha with ⟨n, rfl⟩ | ⟨g, rfl⟩ <;> rfl
    have hb : (actionDeps b.toType).isSome := by rw [actionDeps_isSome]; exact (depends_ok_known h).2
    obtain ⟨d2, hd2⟩ := Option.isSome_iff_exists.1 hb
    unfold depends at h
    rw [h15, hd2] at h
    simp only at h
    split at h
    · cases h
    rename_i hn
    cases b <;> first
      | rfl
      | (exfalso; revert h; simp [Action.toType, Action.ty, setAll, List.range, List.range.loop]; done)
      | (exfalso; revert hn; simp [Action.isSet, setAll, List.range, List.range.loop]; done)
  by_cases ha : x.emit a = []
  · have ha' : ∀ q : Frame, q.emit a = [] := by cases a <;> simp_all [Frame.emit]
    simp only [ha']
    by_cases hb : x.emit b = []
    · have hb' : ∀ q : Frame, q.emit b = [] := by cases b <;> simp_all [Frame.emit]
      simp [hb']
    · rw [depends_comm] at h
      rw [(key b a h hb).1]; simp
  · rw [(key a b h ha).1, (key a b h ha).2]
    exact List.perm_append_comm

theorem frame_exec_append (s t : List Action) (x : Frame) :
    x.exec (s ++ t) = (((x.exec s).1.exec t).1, (x.exec s).2 ++ ((x.exec s).1.exec t).2) := by
  induction s generalizing x with
  | nil => rfl
  | cons a s ih => simp only [List.cons_append, Frame.exec, ih, List.append_assoc]

theorem sameTypes_of_trace {s t : List Action} (h : TraceEq dependsB s t) (hk : AllKnown s) (hm : NoMix s) : SameTypes s t := by
  induction h with
  | refl => exact fun _ => ⟨rfl, .refl _⟩
  | swap l r a b t hd _ ih =>
    have hka : a.known = true := hk a (by simp)
    have hkb : b.known = true := hk b (by simp)
    have hdep : depends a b = .ok false := by rw [depends_known hka hkb, hd]
    have hmix : (a.isPbb && b.isTag || b.isPbb && a.isTag) = false := by
      cases ha : a.isPbb <;> cases hb : b.isPbb <;> simp
      · exact hm ⟨b, by simp, hb⟩ a (by simp)
      · exact hm ⟨a, by simp, ha⟩ b (by simp)
      · exact ⟨hm ⟨a, by simp, ha⟩ b (by simp), hm ⟨a, by simp, ha⟩ a (by simp)⟩
    have hmem : ∀ y, y ∈ l ++ b :: a :: r ↔ y ∈ l ++ a :: b :: r := by intro y; simp; grind
    intro x
    have h1 := ih (fun y hy => hk y ((hmem y).1 hy)) (fun ⟨y, hy, hp⟩ z hz => hm ⟨y, (hmem y).1 hy, hp⟩ z ((hmem z).1 hz)) x
    refine ⟨Eq.trans ?_ h1.1, List.Perm.trans ?_ h1.2⟩
    · simp only [frame_exec_append, Frame.exec]
      rw [frame_comm a b hdep hmix]
    · simp only [frame_exec_append, Frame.exec]
      rw [frame_comm a b hdep hmix, ← List.append_assoc (Frame.emit a _), ← List.append_assoc (Frame.emit b _)]
      exact List.Perm.append_left _ ((frame_emit_comm a b hdep _).append_right _)

/-- **C107** (partial: PBB headers not together with VLAN tags or labels, see `C107_pbb`) Executing an action list in its canonical order leaves the ethertypes that
the actions in the order in which they were appended leave, in the packet and in all copies sent. -/
theorem C107_canonical_partial (s : List Action) (l : ActionList) (h : ActionList.ofList s = .ok l) (hm : NoMix s) : SameTypes l.iter s := by
  have hl := ofList_ok h
  rcases ofList_ok_known h with hk | ⟨a, rfl⟩
  · subst hl
    have ht := mkList_iter_trace s
    refine sameTypes_of_trace (ht.symm dependsB_symm) (allKnown_levels hk) fun ⟨y, hy, hp⟩ z hz => ?_
    exact hm ⟨y, ht.perm.mem_iff.2 hy, hp⟩ z (ht.perm.mem_iff.2 hz)
  · subst hl; exact fun _ => ⟨rfl, .refl _⟩

/-- **C107** (partial, as above) Lists that compare equal leave the same ethertypes. -/
theorem C107_equal_partial (s t : List Action) (l m : ActionList) (hl : ActionList.ofList s = .ok l) (hm : ActionList.ofList t = .ok m)
    (h : l.eq m = true) (hs : NoMix s) : SameTypes s t := by
  have hp := ((C20_eq_iff_trace s t l m hl hm).1 h).perm
  have h1 := C107_canonical_partial s l hl hs
  have h2 := C107_canonical_partial t m hm fun ⟨y, hy, hp'⟩ z hz => hs ⟨y, hp.mem_iff.2 hy, hp'⟩ z (hp.mem_iff.2 hz)
  rw [(C20_eq_same_levels s t l m hl hm h).2] at h1
  exact fun x => ⟨(h1 x).1.symm.trans (h2 x).1, (h1 x).2.symm.trans (h2 x).2⟩

/-- Two POP_MPLS with different types are kept in order; a VLAN tag may be pushed before or after. -/
example : NoMix [.pushVlan 0x88a8, .popMpls 0x8847, .popMpls 0x0800, .output 1] ∧
    (mkList [.pushVlan 0x88a8, .popMpls 0x8847, .popMpls 0x0800, .output 1]).eq (mkList [.popMpls 0x8847, .pushVlan 0x88a8, .popMpls 0x0800, .output 1]) = true ∧
    (mkList [.popMpls 0x8847, .popMpls 0x0800]).eq (mkList [.popMpls 0x0800, .popMpls 0x8847]) = false := by
  refine ⟨fun ⟨a, ha, hp⟩ => ?_, by decide +kernel, by decide +kernel⟩
  revert hp
  revert a; decide

/-- **C107**, negation with PBB headers: PUSH_MPLS and PUSH_PBB count as independent, so the two orders give equal lists; but in one of them the label is inside
the PBB header and in the other outside. -/
theorem C107_pbb (e f : Nat) (hne : e ≠ f) : ∃ l m, ActionList.ofList [.pushMpls e, .pushPbb f] = .ok l ∧ ActionList.ofList [.pushPbb f, .pushMpls e] = .ok m ∧
    l.eq m = true ∧ ¬ SameTypes [.pushMpls e, .pushPbb f] [.pushPbb f, .pushMpls e] := by
  have h1 := ofList_known (s := [.pushMpls e, .pushPbb f]) (by intro a ha; simp at ha; rcases ha with rfl | rfl <;> rfl)
  have h2 := ofList_known (s := [.pushPbb f, .pushMpls e]) (by intro a ha; simp at ha; rcases ha with rfl | rfl <;> rfl)
  refine ⟨_, _, h1, h2, ?_, fun h => ?_⟩
  · rw [C20_eq_iff_trace _ _ _ _ h1 h2]
    exact .swap [] [] _ _ _ rfl (.refl _)
  · have := congrArg Frame.type (h ⟨[], 0x0800, []⟩).1
    exact hne this.symm

/-! ### Redundant actions -/

theorem frame_emit_nil {a : Action} (h : a.emits = false) (x : Frame) : x.emit a = [] := by
  cases a <;> simp_all [Action.emits, Frame.emit]

/-- Specification: no PBB headers, and labels not both pushed and popped. -/
structure PlainTags (s : List Action) : Prop where
  pbb : ∀ a ∈ s, a.isPbb = false
  mpls : ∀ e f, Action.pushMpls e ∈ s → Action.popMpls f ∉ s

theorem PlainTags.sublist {s t : List Action} (h : PlainTags s) (ht : t.Sublist s) : PlainTags t :=
  ⟨fun a ha => h.pbb a (ht.subset ha), fun e f he hf => h.mpls e f (ht.subset he) (ht.subset hf)⟩

theorem frame_popVlan_comm {a : Action} (h : a.isPbb = false) (hp : a.pushes ≠ some .vlan) (x : Frame) :
    (x.act a).act .popVlan = (x.act .popVlan).act a := by
  cases a with
  | setField f v =>
    by_cases hf : f = 5
    · subst hf; rfl
    · rw [frame_set hf, frame_set hf]
  | pushVlan e => exact absurd rfl hp
  | pushPbb e => cases h
  | popPbb => cases h
  | _ => rfl

theorem frame_scanPop {xs ys : List Action} (h : scanPop .vlan xs = some ys) (hpbb : ∀ a ∈ xs, a.isPbb = false)
    (hout : xs.Pairwise fun a b => a.emits = true → b.emits = true) (x : Frame) : x.exec xs = (x.act .popVlan).exec ys := by
  induction xs generalizing ys x with
  | nil => cases h
  | cons a xs ih =>
    have hout' := List.pairwise_cons.1 hout
    have ih' := fun ys hy x => ih (ys := ys) hy (fun b hb => hpbb b (List.mem_cons_of_mem _ hb)) hout'.2 x
    have noemit : ∀ zs, scanPop .vlan xs = some zs → ∀ q : Frame, q.emit a = [] := by
      intro zs hz q
      obtain ⟨_, _, b, hb, hbp⟩ := scanPop_sublist hz
      apply frame_emit_nil
      cases he : a.emits with
      | false => rfl
      | true => have := hout'.1 b hb he; rw [pops_not_emits hbp] at this; cases this
    unfold scanPop at h
    split at h
    · cases h
    rename_i hpush
    split at h
    · rename_i hp
      injection h with h; subst h
      have : a = .popVlan := by cases a <;> simp [Action.pops] at hp; rfl
      subst this
      rfl
    have keep : ∀ zs, (scanPop .vlan xs).map (a :: ·) = some zs → x.exec (a :: xs) = (x.act .popVlan).exec zs := by
      intro zs hz
      obtain ⟨ws, hw, rfl⟩ := Option.map_eq_some_iff.1 hz
      simp only [Frame.exec]
      rw [ih' ws hw, noemit ws hw, noemit ws hw, frame_popVlan_comm (hpbb a List.mem_cons_self) hpush]
    split at h
    · rename_i f hset
      split at h
      · rename_i hf
        simp only [Frame.exec]
        rw [noemit ys h, ih' ys h]
        cases a <;> simp [Action.setF] at hset
        subst hset
        rw [frame_set (by rintro rfl; revert hf; decide)]
        simp
      · exact keep _ h
    · exact keep _ h

theorem frame_pass1 {s s' : List Action} (h : pass1 s = some s') (hp : PlainTags s)
    (hout : s.Pairwise fun a b => a.emits = true → b.emits = true) (x : Frame) : x.exec s = x.exec s' := by
  induction s generalizing s' x with
  | nil => cases h
  | cons a xs ih =>
    have hout' := List.pairwise_cons.1 hout
    have keep : (pass1 xs).map (a :: ·) = some s' → x.exec (a :: xs) = x.exec s' := by
      intro hz
      obtain ⟨ws, hw, rfl⟩ := Option.map_eq_some_iff.1 hz
      simp only [Frame.exec]
      rw [ih hw (hp.sublist (List.sublist_cons_self ..)) hout'.2]
    unfold pass1 at h
    split at h
    · rename_i t ht
      split at h
      · rename_i ys hy
        injection h with h; subst h
        obtain ⟨_, _, c, hc, hcp⟩ := scanPop_sublist hy
        have htv : t = .vlan := by
          cases t with
          | vlan => rfl
          | pbb =>
            have := hp.pbb a List.mem_cons_self
            cases a <;> simp [Action.pushes] at ht
            cases this
          | mpls =>
            cases a <;> simp [Action.pushes] at ht
            cases c <;> simp [Action.pops] at hcp
            exact absurd (List.mem_cons_of_mem _ hc) (hp.mpls _ _ List.mem_cons_self)
        subst htv
        simp only [Frame.exec]
        rw [frame_emit_nil (pushes_not_emits ht), frame_scanPop hy (fun b hb => hp.pbb b (List.mem_cons_of_mem _ hb)) hout'.2]
        cases a <;> simp [Action.pushes] at ht
        rfl
      · exact keep h
    · exact keep h

theorem frame_phase1 (n : Nat) (s : List Action) (hp : PlainTags s) (hout : s.Pairwise fun a b => a.emits = true → b.emits = true) (x : Frame) :
    x.exec s = x.exec (phase1 n s) := by
  induction n generalizing s with
  | zero => rfl
  | succ n ih =>
    unfold phase1
    cases h : pass1 s with
    | none => rfl
    | some s' =>
      have hs := (pass1_spec h).1
      rw [frame_pass1 h hp hout, ih s' (hp.sublist hs) (hout.sublist hs)]

theorem frame_phase2 (s : List Action) (x : Frame) : x.exec s = x.exec (phase2 s).2 := by
  induction s generalizing x with
  | nil => rfl
  | cons a xs ih =>
    have keep : x.exec (a :: xs) = x.exec (a :: (phase2 xs).2) := by simp only [Frame.exec, ih]
    unfold phase2
    split
    · exact keep
    · split
      · rename_i f hf
        split
        · rename_i hm
          have : ∃ v, a = .setField f v := by cases a <;> simp [Action.setF] at hf; subst hf; exact ⟨_, rfl⟩
          obtain ⟨v, rfl⟩ := this
          have h5 : f ≠ 5 := by
            rintro rfl
            obtain ⟨t, ht, -⟩ := phase2_popped.1 hm
            cases t <;> revert ht <;> decide
          rw [← ih]
          simp only [Frame.exec, frame_set h5]
          rfl
        · exact keep
      · exact keep

theorem frame_overwritten {f v : Nat} {xs : List Action} (h : overwritten (.setField f v) f xs = .ok true) (x : Frame) :
    (x.act (.setField f v)).exec xs = x.exec xs := by
  by_cases h5 : f = 5
  · subst h5
    induction xs generalizing x with
    | nil => cases h
    | cons a xs ih =>
      unfold overwritten at h
      split at h
      · rename_i hs
        cases a <;> simp [Action.setF] at hs
        subst hs
        rfl
      · split at h
        · cases h
        · cases h
        · rename_i hd
          have he : a.emits = false := by
            cases hb : a.emits with
            | false => rfl
            | true =>
              have hk := (depends_ok_known hd).1
              rw [depends_comm, depends_out hb (by rfl) hk] at hd
              cases hd
          simp only [Frame.exec, frame_emit_nil he]
          rw [← frame_set_comm 5 v a hd, ih _ h]
  · rw [frame_set h5]

theorem frame_phase3 {s s' : List Action} (hk : AllKnown s) (h : phase3 s = .ok s') (x : Frame) : x.exec s = x.exec s' := by
  induction s generalizing s' x with
  | nil => cases h; rfl
  | cons a xs ih =>
    have hk' : AllKnown xs := fun x hx => hk x (List.mem_cons_of_mem _ hx)
    obtain ⟨ys, h1, -, -⟩ := phase3_spec hk'
    unfold phase3 at h
    rw [h1] at h
    split at h
    · cases h
      simp only [Frame.exec, ih hk' h1]
    · rename_i f hf
      have : ∃ v, a = .setField f v := by cases a <;> simp [Action.setF] at hf; subst hf; exact ⟨_, rfl⟩
      obtain ⟨v, rfl⟩ := this
      obtain ⟨b, hb⟩ := overwritten_known (v := v) (by simpa [Action.known] using hk _ List.mem_cons_self) hk'
      rw [hb] at h
      cases b
      · cases h
        simp only [Frame.exec, ih hk' h1]
        rfl
      · cases h
        simp only [Frame.exec, frame_overwritten hb, ih hk' h1]
        rfl

/-- **C107** (partial: no PBB headers, labels not both pushed and popped, see `C107_redundant`; copies are sent at the end) Removing redundant actions
leaves the ethertypes as they were. -/
theorem C107_redundant_partial (s : List Action) (l : ActionList) (hl : ActionList.ofList s = .ok l) (hk : ∀ a ∈ s, a.known = true)
    (hout : s.Pairwise fun a b => a.emits = true → b.emits = true) (hp : PlainTags s) :
    ∃ l', l.removeRedundant = .ok l' ∧ SameTypes l'.iter s := by
  have e := ofList_ok hl
  subst e
  have ht := mkList_iter_trace s
  have hok : RedOK s := by
    refine ⟨hk, fun a ha c hc b _ h1 h2 => ?_, fun a ha c _ b _ h1 _ => ?_, hout⟩
    · cases a <;> simp [Action.pushes] at h1
      cases c <;> simp [Action.pops] at h2
      exact absurd hc (hp.mpls _ _ ha)
    · have := hp.pbb a ha
      cases a <;> simp [Action.isPushPbb] at h1
      cases this
  have hoki := redOK_iter hok
  have hpi : PlainTags (mkList s).iter :=
    ⟨fun a ha => hp.pbb a (ht.perm.mem_iff.2 ha), fun e f he hf => hp.mpls e f (ht.perm.mem_iff.2 he) (ht.perm.mem_iff.2 hf)⟩
  have nomix : ∀ t : List Action, PlainTags t → NoMix t := fun t h ⟨a, ha, h'⟩ => by rw [h.pbb a ha] at h'; cases h'
  obtain ⟨h1, -, -⟩ := phase1_spec (mkList s).iter.length (mkList s).iter (Nat.le_refl _)
  have h4 := phase2_sublist (phase1 (mkList s).iter.length (mkList s).iter)
  have hk2 := ((hoki.sublist h1).sublist h4).known
  obtain ⟨s', h5, h6, -⟩ := phase3_spec hk2
  have hk3 : AllKnown s' := fun x hx => hk2 x (h6.subset hx)
  have h8 := ofList_known hk3
  refine ⟨mkList s', ?_, fun x => ?_⟩
  · unfold ActionList.removeRedundant ActionList.replace
    simp only [h5]
    exact h8
  · have a := C107_canonical_partial s' _ h8 (nomix _ (hpi.sublist (h6.trans (h4.trans h1)))) x
    have b := C107_canonical_partial s _ hl (nomix _ hp) x
    rw [← frame_phase3 hk2 h5, ← frame_phase2, ← frame_phase1 _ _ hpi hoki.out] at a
    exact ⟨a.1.trans b.1, a.2.trans b.2⟩

/-- A tag that is pushed and popped disappears, and so does a type that is set twice; the new label stays. -/
example : PlainTags [.pushVlan 0x8100, .setField 5 0x0800, .popVlan, .setField 5 0x86dd, .pushMpls 0x8847, .output 1] ∧
    ((mkList [.pushVlan 0x8100, .setField 5 0x0800, .popVlan, .setField 5 0x86dd, .pushMpls 0x8847, .output 1]).removeRedundant).map (·.iter) =
      .ok [.setField 5 0x86dd, .pushMpls 0x8847, .output 1] := by
  refine ⟨⟨by decide, ?_⟩, by decide +kernel⟩
  intro e f _ h
  simp at h

/-- **C107**, negation for `remove_redundant`: PUSH_MPLS and POP_MPLS are dropped together, but the second sets the type of the packet. -/
theorem C107_redundant : ∃ (s : List Action) (l l' : ActionList), (∀ a ∈ s, a.known = true ∧ a.emits = false) ∧ NoMix s ∧
    ActionList.ofList s = .ok l ∧ l.removeRedundant = .ok l' ∧ ¬ SameTypes l'.iter s := by
  refine ⟨[.pushMpls 0x8847, .popMpls 0x0800], mkList [.pushMpls 0x8847, .popMpls 0x0800], mkList [], by decide, ?_, by decide +kernel, by decide +kernel, fun h => ?_⟩
  · rintro ⟨a, ha, hp⟩
    revert hp; revert a; decide
  · have := congrArg Frame.type (h ⟨[], 0x0806, []⟩).1
    revert this; decide +kernel

end OFE
