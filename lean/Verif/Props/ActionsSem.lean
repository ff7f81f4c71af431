import Verif.Actions.Sem
import Verif.Actions.Remove

/-! # C55, C56: the dependency table is sound; canonical order has the same effect -/

namespace OFE

section
variable [Writes]

theorem exec_append (s t : List Action) (p : Pkt) :
    exec (s ++ t) p = ((exec t (exec s p).1).1, (exec s p).2 ++ (exec t (exec s p).1).2) := by
  induction s generalizing p with
  | nil => rfl
  | cons a s ih => simp only [List.cons_append, exec, ih, List.append_assoc]

/-- What the table says about set-fields and headers (all 40 fields). -/
theorem table_set : ∀ f, f < 40 →
    (depends (.setField f 0) (.pushVlan 0) = .ok false → vlanF f = false) ∧
    (depends (.setField f 0) .popVlan = .ok false → vlanF f = false) ∧
    (depends (.setField f 0) (.pushMpls 0) = .ok false → mplsF f = false) ∧
    (depends (.setField f 0) (.popMpls 0) = .ok false → mplsF f = false) ∧
    (depends (.setField f 0) (.pushPbb 0) = .ok false → pbbF f = false ∧ f ≠ 7) ∧
    (depends (.setField f 0) .popPbb = .ok false → pbbF f = false) := by decide +kernel

theorem table_set_set (f g v w : Nat) (h : depends (.setField f v) (.setField g w) = .ok false) : f ≠ g := by
  rintro rfl
  by_cases hk : f < 40
  · have : ∀ f, f < 40 → depends (.setField f 0) (.setField f 0) = .ok true := by decide +kernel
    have h1 : depends (.setField f v) (.setField f w) = depends (.setField f 0) (.setField f 0) := rfl
    rw [h1, this f hk] at h; cases h
  · rw [depends_unknown (.inl (by simp [Action.known]; omega))] at h; cases h

theorem depends_comm (a b : Action) : depends a b = depends b a := by
  unfold depends
  cases h1 : actionDeps a.toType <;> cases h2 : actionDeps b.toType <;> try rfl
  rename_i d1 d2
  simp only
  rw [Bool.or_comm (a.isSet && _), Bool.or_comm (d2.contains a.toType)]

theorem push_push {h k : Nat → Bool} (hd : ∀ f, h f = true → k f = false) (fld : Nat → Nat → Nat) :
    pushHdr h (pushHdr k fld) = pushHdr k (pushHdr h fld) := by
  funext f d
  have := hd f
  unfold pushHdr
  cases h1 : h f <;> cases h2 : k f <;> simp_all

theorem push_pop {h k : Nat → Bool} (hd : ∀ f, h f = true → k f = false) (fld : Nat → Nat → Nat) :
    pushHdr h (popHdr k fld) = popHdr k (pushHdr h fld) := by
  funext f d
  have := hd f
  unfold pushHdr popHdr
  cases h1 : h f <;> cases h2 : k f <;> simp_all

theorem pop_pop {h k : Nat → Bool} (hd : ∀ f, h f = true → k f = false) (fld : Nat → Nat → Nat) :
    popHdr h (popHdr k fld) = popHdr k (popHdr h fld) := by
  funext f d
  have := hd f
  unfold popHdr
  cases h1 : h f <;> cases h2 : k f <;> simp_all

theorem push_set {h : Nat → Bool} {f v : Nat} (hd : h f = false) (fld : Nat → Nat → Nat) :
    pushHdr h (fun g d => if g = f ∧ d = 0 then v else fld g d) = fun g d => if g = f ∧ d = 0 then v else pushHdr h fld g d := by
  funext g d
  unfold pushHdr
  by_cases hg : g = f
  · subst hg; simp [hd]
  · simp [hg]

theorem pop_set {h : Nat → Bool} {f v : Nat} (hd : h f = false) (fld : Nat → Nat → Nat) :
    popHdr h (fun g d => if g = f ∧ d = 0 then v else fld g d) = fun g d => if g = f ∧ d = 0 then v else popHdr h fld g d := by
  funext g d
  unfold popHdr
  by_cases hg : g = f
  · subst hg; simp [hd]
  · simp [hg]

theorem vm (f : Nat) (h : vlanF f = true) : mplsF f = false := by
  simp only [vlanF, Bool.or_eq_true, beq_iff_eq] at h; rcases h with rfl | rfl <;> rfl
theorem vp (f : Nat) (h : vlanF f = true) : pbbF f = false := by
  simp only [vlanF, Bool.or_eq_true, beq_iff_eq] at h; rcases h with rfl | rfl <;> rfl
theorem pm (f : Nat) (h : pbbF f = true) : mplsF f = false := by
  simp only [pbbF, Bool.or_eq_true, beq_iff_eq] at h; rcases h with (rfl | rfl) | rfl <;> rfl
theorem mv (f : Nat) (h : mplsF f = true) : vlanF f = false := by
  simp only [mplsF, Bool.or_eq_true, beq_iff_eq] at h; rcases h with (rfl | rfl) | rfl <;> rfl
theorem mp (f : Nat) (h : mplsF f = true) : pbbF f = false := by
  simp only [mplsF, Bool.or_eq_true, beq_iff_eq] at h; rcases h with (rfl | rfl) | rfl <;> rfl

theorem depends_ok_known {a b : Action} {r : Bool} (h : depends a b = .ok r) : a.known = true ∧ b.known = true := by
  cases ha : a.known with
  | false => rw [depends_unknown (.inl ha)] at h; cases h
  | true =>
    cases hb : b.known with
    | false => rw [depends_unknown (.inr hb)] at h; cases h
    | true => exact ⟨rfl, rfl⟩

theorem set_comm (f v : Nat) (b : Action) (h : depends (.setField f v) b = .ok false) (p : Pkt) :
    act (.setField f v) (act b p) = act b (act (.setField f v) p) := by
  have hf : f < 40 := by simpa [Action.known] using (depends_ok_known h).1
  have ht := table_set f hf
  cases b with
  | setField g w =>
    have hne := table_set_set f g v w h
    simp only [act]
    congr 1
    funext k d
    by_cases h1 : k = f
    · subst h1; by_cases hd : d = 0 <;> simp [hne, hd]
    · simp [h1]
  | pushVlan e => simp only [act]; rw [push_set (ht.1 h)]
  | popVlan => simp only [act]; rw [pop_set (ht.2.1 h)]
  | pushMpls e => simp only [act, Pkt.ttl0]; rw [push_set (ht.2.2.1 h)]; rfl
  | popMpls e => simp only [act]; rw [pop_set (ht.2.2.2.1 h)]
  | pushPbb e =>
    have := ht.2.2.2.2.1 h
    simp only [act]
    rw [push_set this.1]
    congr 1
    funext d
    have h7 : ¬ (7 = f) := fun h => this.2 h.symm
    simp [h7]
  | popPbb => simp only [act]; rw [pop_set (ht.2.2.2.2.2 h)]
  | _ => rfl

set_option linter.unusedSimpArgs false in
set_option maxHeartbeats 1000000 in
/-- Independent actions commute on the packet. -/
theorem act_comm (a b : Action) (h : depends a b = .ok false) (p : Pkt) : act a (act b p) = act b (act a p) := by
  cases a with
  | setField f v => exact set_comm f v b h p
  | _ =>
    cases b <;> first
    | rfl
    | (rename_i f v; rw [depends_comm] at h; exact (set_comm f v _ h p).symm)
    | (exfalso; revert h; simp [depends, Action.toType, Action.ty, actionDeps, setAll, setTtl, Action.isSet]; done)
    | (simp only [act, Pkt.ttl0, push_push vm, push_push vp, push_push mp, push_pop vm, push_pop vp, push_pop mp, push_pop mv,
        push_pop pm, pop_pop vm, pop_pop vp, pop_pop mp]; done)
    | (simp only [act, Pkt.ttl0, push_push vm, push_push vp, push_push mp, push_pop vm, push_pop vp, push_pop mp, push_pop mv,
        push_pop pm, pop_pop vm, pop_pop vp, pop_pop mp]; rfl)

theorem emit_comm (a b : Action) (h : depends a b = .ok false) (p : Pkt) :
    (emit a p ++ emit b (act a p)).Perm (emit b p ++ emit a (act b p)) := by
  have key : ∀ a b : Action, depends a b = .ok false → emit a p ≠ [] → act b p = p ∧ act a p = p := by
    intro a b h hne
    have ha : (∃ n, a = .output n) ∨ ∃ g, a = .group g := by
      cases a <;> simp [emit] at hne ⊢
    have hact : act a p = p := by rcases ha with ⟨n, rfl⟩ | ⟨g, rfl⟩ <;> rfl
    refine ⟨?_, hact⟩
    have h15 : actionDeps a.toType = some (setAll.filter fun x => decide (x ≠ .t 15 ∧ x ≠ .t 14)) := by
      rcases ha with ⟨n, rfl⟩ | ⟨g, rfl⟩ <;> rfl
    have hb : (actionDeps b.toType).isSome := by rw [actionDeps_isSome]; exact (depends_ok_known h).2
    obtain ⟨d2, hd2⟩ := Option.isSome_iff_exists.1 hb
    unfold depends at h
    rw [h15, hd2] at h
    simp only at h
    split at h
    · cases h
    rename_i hn
    cases b <;> first
      | rfl
      | (exfalso; revert h; simp [Action.toType, Action.ty, setAll, List.range, List.range.loop]; done)
      | (exfalso; revert hn; simp [Action.isSet, setAll, List.range, List.range.loop]; done)
  by_cases ha : emit a p = []
  · have ha' : ∀ q, emit a q = [] := by cases a <;> simp_all [emit]
    simp only [ha']
    by_cases hb : emit b p = []
    · have hb' : ∀ q, emit b q = [] := by cases b <;> simp_all [emit]
      simp [hb']
    · rw [depends_comm] at h
      rw [(key b a h hb).1]; simp
  · rw [(key a b h ha).1, (key a b h ha).2]
    exact List.perm_append_comm

theorem SameEffect.refl (s : List Action) : SameEffect s s := fun _ => ⟨rfl, .refl _⟩

theorem SameEffect.trans {s t u : List Action} (h1 : SameEffect s t) (h2 : SameEffect t u) : SameEffect s u :=
  fun p => ⟨(h1 p).1.trans (h2 p).1, (h1 p).2.trans (h2 p).2⟩

/-- **C55** Two neighbouring actions that the dependency table calls independent can be swapped anywhere in a list: every packet
ends up the same and the same copies are sent to the same ports and groups (whatever a set-field writes for a value). -/
theorem C55_independent_commute (l r : List Action) (a b : Action) (h : depends a b = .ok false) :
    SameEffect (l ++ a :: b :: r) (l ++ b :: a :: r) := by
  intro p
  rw [exec_append, exec_append]
  simp only [exec]
  rw [act_comm a b h]
  refine ⟨rfl, List.Perm.append_left _ ?_⟩
  rw [← List.append_assoc, ← List.append_assoc]
  exact (emit_comm a b h _).append_right _

end

/-- … and the table is needed: dependent actions need not commute. -/
theorem C55_dependent_differ : depends (.setField 6 5) (.pushVlan 0x8100) = .ok true ∧
    ¬ SameEffect [.setField 6 5, .pushVlan 0x8100] [.pushVlan 0x8100, .setField 6 5] := by
  refine ⟨by decide +kernel, fun h => ?_⟩
  have := congrArg (fun q => q.fld 6 1) (h ⟨fun _ _ => 0, fun _ => 0, 0, fun _ => 0, 0, 0⟩).1
  revert this; decide

example : depends .decMplsTtl (.setNwTtl 3) = .ok false := by decide +kernel
example : depends (.output 1) (.group 4) = .ok false := by decide +kernel

section
variable [Writes]

theorem sameEffect_of_trace {s t : List Action} (h : TraceEq dependsB s t) (hk : AllKnown s) : SameEffect s t := by
  induction h with
  | refl => exact .refl _
  | swap l r a b t hd _ ih =>
    have hka : a.known = true := hk a (by simp)
    have hkb : b.known = true := hk b (by simp)
    refine (C55_independent_commute l r a b (by rw [depends_known hka hkb, hd])).trans (ih ?_)
    intro x hx
    exact hk x (by simp at hx ⊢; grind)

/-- **C56** Executing an action list in its canonical iteration order has the same effect on every packet as executing the actions
in the order in which they were appended. -/
theorem C56_canonical_effect (s : List Action) (l : ActionList) (h : ActionList.ofList s = .ok l) : SameEffect l.iter s := by
  have hl := ofList_ok h
  rcases ofList_ok_known h with hk | ⟨a, rfl⟩
  · subst hl
    exact sameEffect_of_trace ((mkList_iter_trace s).symm dependsB_symm) (allKnown_levels hk)
  · subst hl; exact .refl _

/-- **C56** Lists that compare equal have the same effect on every packet. -/
theorem C56_equal_effect (s t : List Action) (l m : ActionList) (hl : ActionList.ofList s = .ok l)
    (hm : ActionList.ofList t = .ok m) (h : l.eq m = true) : SameEffect s t := by
  have h1 := C56_canonical_effect s l hl
  have h2 := C56_canonical_effect t m hm
  have h3 : l.iter = m.iter := by
    unfold ActionList.eq at h
    split at h
    · cases h
    · exact beq_iff_eq.1 h
  rw [h3] at h1
  exact fun p => ⟨(h1 p).1.symm.trans (h2 p).1, (h1 p).2.symm.trans (h2 p).2⟩

end

example : (mkList [.setField 6 5, .setField 11 7, .output 1]).eq (mkList [.setField 11 7, .setField 6 5, .output 1]) = true := by
  decide +kernel

end OFE
