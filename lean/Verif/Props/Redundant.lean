import Verif.Actions.RedLemmas
import Verif.DictLemmas

/-! # C24, C25: redundancy removal and the per-output view -/

namespace OFE

section
variable [Writes]

/-- **C24** (partial) Redundancy removal leaves the effect of a list on every packet (with any stack of tunnel headers) unchanged, if
* a list with a PUSH_MPLS and a POP_MPLS has no action on MPLS TTLs, and
* a list with a PUSH_PBB and a POP_VLAN has no PUSH_VLAN and no set-field of VLAN_PCP (a PBB header copies that priority).
Copies may be sent at the end of the list (`per_output_actions` calls it so).  Missing: the two kinds of lists excluded, for
which it is false, see `C24_wrong_ttl` and `C24_wrong_pcp`. -/
theorem C24_redundant_partial (s : List Action) (l : ActionList) (hl : ActionList.ofList s = .ok l)
    (hk : ∀ a ∈ s, a.known = true)
    (hout : s.Pairwise fun a b => a.emits = true → b.emits = true)
    (httl : (∃ e, Action.pushMpls e ∈ s) → (∃ e, Action.popMpls e ∈ s) → ∀ a ∈ s, a.mplsTtl = false)
    (hpcp : (∃ e, Action.pushPbb e ∈ s) → Action.popVlan ∈ s → (∀ e, Action.pushVlan e ∉ s) ∧ ∀ v, Action.setField 7 v ∉ s) :
    ∃ l', l.removeRedundant = .ok l' ∧ SameEffect l'.iter s := by
  have hl := ofList_ok hl
  subst hl
  have hok : RedOK s := by
    refine ⟨hk, fun a ha c hc b hb hp hq => ?_, fun a ha c hc b hb hp hq => ?_, hout⟩
    · refine httl ?_ ?_ b hb
      · cases a <;> simp [Action.pushes] at hp
        exact ⟨_, ha⟩
      · cases c <;> simp [Action.pops] at hq
        exact ⟨_, hc⟩
    · have he : ∃ e, Action.pushPbb e ∈ s := by
        cases a <;> simp [Action.isPushPbb] at hp
        exact ⟨_, ha⟩
      have hq' : Action.popVlan ∈ s := by
        cases c <;> simp [Action.pops] at hq
        exact hc
      obtain ⟨h1, h2⟩ := hpcp he hq'
      constructor
      · intro h
        cases b <;> simp [Action.pushes] at h
        exact h1 _ hb
      · intro h
        cases b <;> simp [Action.setF] at h
        subst h
        exact h2 _ hb
  obtain ⟨s', l', h1, h2, h3, h4⟩ := removeRedundant_ok (redOK_iter hok)
  exact ⟨l', h1, h4.trans (C56_canonical_effect s _ (ofList_known hk))⟩

/-- Nothing but actions of the list is left, and no push is followed by a pop of the same tunnel. -/
theorem C24_result_shape (l l' : ActionList) (h : l.removeRedundant = .ok l') (hk : ∀ a ∈ l.iter, a.known = true) :
    (∀ a ∈ l'.iter, a ∈ l.iter) ∧ ∃ s, ActionList.ofList s = .ok l' ∧ s.Sublist l.iter ∧
      s.Pairwise fun a b => ∀ t, a.pushes = some t → b.pops ≠ some t := by
  obtain ⟨h1, h2, _⟩ := phase1_spec l.iter.length l.iter (Nat.le_refl _)
  have h4 := phase2_sublist (phase1 l.iter.length l.iter)
  have hk2 : AllKnown (phase2 (phase1 l.iter.length l.iter)).2 := fun x hx => hk x (h1.subset (h4.subset hx))
  obtain ⟨s', h5, h6, _⟩ := phase3_spec hk2
  unfold ActionList.removeRedundant ActionList.replace at h
  simp only [h5] at h
  change ActionList.ofList s' = .ok l' at h
  have hs : s'.Sublist l.iter := h6.trans (h4.trans h1)
  refine ⟨fun a ha => ?_, s', h, hs, List.Pairwise.sublist (h6.trans h4) h2⟩
  have hl := ofList_ok h
  subst hl
  exact hs.subset ((mkList_iter_trace s').perm.mem_iff.2 ha)

end

example : (mkList [.pushVlan 0x8100, .setField 6 5, .setField 3 9, .popVlan, .setField 6 7, .setField 6 8, .output 1]).removeRedundant =
    .ok (mkList [.setField 3 9, .setField 6 8, .output 1]) := by decide +kernel
example : [Action.pushVlan 0x8100, .setField 6 5, .setField 3 9, .popVlan, .output 1].Pairwise
    fun a b => a.emits = true → b.emits = true := by decide

/-- **C24** is false with TTL actions between a push and its pop: PUSH_MPLS, SET_MPLS_TTL 5, POP_MPLS becomes SET_MPLS_TTL 5, which
changes the inner header. -/
theorem C24_wrong_ttl : ∃ (s : List Action) (l l' : ActionList), (∀ a ∈ s, a.known = true ∧ a.emits = false) ∧
    ActionList.ofList s = .ok l ∧ l.removeRedundant = .ok l' ∧ ¬ SameEffect l'.iter s := by
  refine ⟨[.pushMpls 0x8847, .setMplsTtl 5, .popMpls 0x0800], mkList [.pushMpls 0x8847, .setMplsTtl 5, .popMpls 0x0800],
    mkList [.setMplsTtl 5], by decide, by decide +kernel, by decide +kernel, fun h => ?_⟩
  have := congrArg (fun q => q.mttl 0) (h ⟨fun _ _ => 0, fun _ => 0, 1, fun _ => 0, 0, 0⟩).1
  revert this; decide +kernel

/-- **C24** is false when a PBB header is pushed between setting the VLAN priority and popping the VLAN: SET_FIELD VLAN_PCP 5, PUSH_PBB,
POP_VLAN loses the set-field, whose value PUSH_PBB copies. -/
theorem C24_wrong_pcp : ∃ (s : List Action) (l l' : ActionList), (∀ a ∈ s, a.known = true ∧ a.emits = false) ∧
    ActionList.ofList s = .ok l ∧ l.removeRedundant = .ok l' ∧ ¬ SameEffect l'.iter s := by
  refine ⟨[.setField 7 5, .pushPbb 0x88e7, .popVlan], mkList [.setField 7 5, .pushPbb 0x88e7, .popVlan],
    mkList [.pushPbb 0x88e7, .popVlan], by decide, by decide +kernel, by decide +kernel, fun h => ?_⟩
  have := congrArg (fun q => q.ipcp 0) (h ⟨fun _ _ => 0, fun _ => 0, 1, fun _ => 0, 0, 0⟩).1
  revert this; decide +kernel

/-! ## Per output view -/

section
variable [Writes]

def Action.portOf : Action → Option Nat
  | .output n => some n
  | _ => none

/-- Each output with the packet-changing actions before it (after `m`). -/
def outsOf (m : List Action) : List Action → List (Nat × List Action)
  | [] => []
  | .output n :: xs => (n, m) :: outsOf m xs
  | a :: xs => outsOf (m ++ [a]) xs

/-- The packet-changing actions. -/
def modsOf : List Action → List Action
  | [] => []
  | .output _ :: xs => modsOf xs
  | a :: xs => a :: modsOf xs

theorem exec_nil_emits {m : List Action} (h : ∀ a ∈ m, a.emits = false) (p : Pkt) : (exec m p).2 = [] := by
  induction m generalizing p with
  | nil => rfl
  | cons a m ih =>
    simp only [exec]
    rw [emit_nil (h a List.mem_cons_self), ih fun b hb => h b (List.mem_cons_of_mem _ hb)]; rfl

theorem exec_outs (xs : List Action) (hg : ∀ g, Action.group g ∉ xs) (m : List Action) (hm : ∀ a ∈ m, a.emits = false) (p : Pkt) :
    (exec xs (exec m p).1).2 = (outsOf m xs).map (fun x => (Dest.port x.1, (exec x.2 p).1)) ∧
    (exec xs (exec m p).1).1 = (exec (m ++ modsOf xs) p).1 := by
  induction xs generalizing m with
  | nil => simp [exec, outsOf, modsOf]
  | cons a xs ih =>
    have hg' : ∀ g, Action.group g ∉ xs := fun g h => hg g (List.mem_cons_of_mem _ h)
    have other : a.emits = false → outsOf m (a :: xs) = outsOf (m ++ [a]) xs → modsOf (a :: xs) = a :: modsOf xs →
        (exec (a :: xs) (exec m p).1).2 = (outsOf m (a :: xs)).map (fun x => (Dest.port x.1, (exec x.2 p).1)) ∧
        (exec (a :: xs) (exec m p).1).1 = (exec (m ++ modsOf (a :: xs)) p).1 := by
      intro he h1 h2
      have hstep : (exec (m ++ [a]) p).1 = act a (exec m p).1 := by rw [exec_append]; rfl
      have := ih hg' (m ++ [a]) (by
        intro b hb
        rcases List.mem_append.1 hb with hb | hb
        · exact hm b hb
        · simp at hb; subst hb; exact he)
      rw [hstep] at this
      simp only [exec]
      rw [emit_nil he, h1, h2, List.nil_append, this.1, this.2]
      simp
    cases a with
    | output n =>
      have := ih hg' m hm
      simp only [exec, outsOf, modsOf, act, emit, List.map_cons]
      rw [this.1, this.2]; simp
    | group g => exact absurd List.mem_cons_self (hg g)
    | _ => exact other rfl rfl rfl

theorem cur_append (m : List Action) (a : Action) (hm : AllKnown m) (ha : a.known = true) :
    (mkList m).append a = .ok (mkList (m ++ [a])) := by
  have := foldlM_append_known [a] (by intro x hx; simp at hx; subst hx; exact ha) (mkList m) (allKnown_levels hm)
  simp only [List.foldlM_cons, List.foldlM_nil, bind_pure] at this
  rw [this, ← mkList_append]
  rfl

theorem perOutputLoop_ok (xs : List Action) (hk : AllKnown xs) (hg : ∀ g, Action.group g ∉ xs) (m : List Action) (hm : AllKnown m)
    (res : List (OutKey × ActionList)) (hn : (xs.filterMap Action.portOf).Nodup)
    (hd : ∀ n ∈ xs.filterMap Action.portOf, OutKey.port n ∉ res.map Prod.fst) :
    perOutputLoop xs (mkList m) res = .ok
      (res ++ (outsOf m xs).map (fun x => (OutKey.port x.1, mkList (x.2 ++ [.output x.1]))), mkList (m ++ modsOf xs)) := by
  induction xs generalizing m res with
  | nil => simp [perOutputLoop, outsOf, modsOf]
  | cons a xs ih =>
    have hg' : ∀ g, Action.group g ∉ xs := fun g h => hg g (List.mem_cons_of_mem _ h)
    have hk' : AllKnown xs := fun x hx => hk x (List.mem_cons_of_mem _ hx)
    have ha := hk a List.mem_cons_self
    cases a with
    | output n =>
      simp only [List.filterMap_cons, Action.portOf] at hn hd
      have hn' := List.nodup_cons.1 hn
      have hnr : OutKey.port n ∉ res.map Prod.fst := hd n List.mem_cons_self
      simp only [perOutputLoop, cur_append m (.output n) hm rfl]
      show perOutputLoop xs (mkList m) _ = _
      rw [dictSet_new _ hnr, ih hk' hg' m hm _ hn'.2]
      · simp [outsOf, modsOf]
      · intro k hkm hmem
        rw [List.map_append, List.mem_append] at hmem
        rcases hmem with hmem | hmem
        · exact hd k (List.mem_cons_of_mem _ hkm) hmem
        · simp at hmem; subst hmem; exact hn'.1 (by simpa using hkm)
    | group g => exact absurd List.mem_cons_self (hg g)
    | _ =>
      simp only [List.filterMap_cons, Action.portOf] at hn hd
      simp only [perOutputLoop, cur_append m _ hm ha]
      show perOutputLoop xs (mkList (m ++ [_])) _ = _
      rw [ih hk' hg' (m ++ [_]) (by
        intro b hb
        rcases List.mem_append.1 hb with hb | hb
        · exact hm b hb
        · simp at hb; subst hb; exact ha) res hn hd]
      simp [outsOf, modsOf]

/-- What a tuple of the per-output view stands for. -/
def emitted (items : List (OutKey × List Action)) (p : Pkt) : List (Dest × Pkt) := items.flatMap fun x => (exec x.2 p).2

theorem outsOf_mem {xs m : List Action} {x : Nat × List Action} (h : x ∈ outsOf m xs) :
    (∀ a ∈ x.2, a ∈ m ∨ (a ∈ xs ∧ a.portOf = none)) ∧ Action.output x.1 ∈ xs := by
  induction xs generalizing m with
  | nil => simp [outsOf] at h
  | cons b xs ih =>
    have other : b.portOf = none → x ∈ outsOf (m ++ [b]) xs →
        (∀ a ∈ x.2, a ∈ m ∨ (a ∈ b :: xs ∧ a.portOf = none)) ∧ Action.output x.1 ∈ b :: xs := by
      intro hb hx
      obtain ⟨h1, h2⟩ := ih hx
      refine ⟨fun a ha => ?_, List.mem_cons_of_mem _ h2⟩
      rcases h1 a ha with h | h
      · rcases List.mem_append.1 h with h | h
        · exact .inl h
        · simp at h; subst h; exact .inr ⟨List.mem_cons_self, hb⟩
      · exact .inr ⟨List.mem_cons_of_mem _ h.1, h.2⟩
    cases b with
    | output n =>
      simp only [outsOf, List.mem_cons] at h
      rcases h with rfl | h
      · exact ⟨fun a ha => .inl ha, List.mem_cons_self⟩
      · obtain ⟨h1, h2⟩ := ih h
        refine ⟨fun a ha => ?_, List.mem_cons_of_mem _ h2⟩
        rcases h1 a ha with h | h
        · exact .inl h
        · exact .inr ⟨List.mem_cons_of_mem _ h.1, h.2⟩
    | _ => exact other rfl h

theorem outsOf_keys (m xs : List Action) : (outsOf m xs).map Prod.fst = xs.filterMap Action.portOf := by
  induction xs generalizing m with
  | nil => rfl
  | cons b xs ih => cases b <;> simp [outsOf, Action.portOf, ih, List.filterMap_cons]

theorem modsOf_mem {xs : List Action} {a : Action} (h : a ∈ modsOf xs) : a ∈ xs ∧ a.portOf = none := by
  induction xs with
  | nil => simp [modsOf] at h
  | cons b xs ih =>
    cases b <;> simp only [modsOf, List.mem_cons] at h <;> first
      | (rcases h with rfl | h
         · exact ⟨List.mem_cons_self, rfl⟩
         · exact ⟨List.mem_cons_of_mem _ (ih h).1, (ih h).2⟩)
      | exact ⟨List.mem_cons_of_mem _ (ih h).1, (ih h).2⟩

/-- Conditions on the packet-changing actions, as in `C24_redundant_partial`. -/
structure ModsOK (s : List Action) : Prop where
  known : ∀ a ∈ s, a.known = true
  nogroup : ∀ g, Action.group g ∉ s
  ttl : (∃ e, Action.pushMpls e ∈ s) → (∃ e, Action.popMpls e ∈ s) → ∀ a ∈ s, a.mplsTtl = false
  pcp : (∃ e, Action.pushPbb e ∈ s) → Action.popVlan ∈ s → (∀ e, Action.pushVlan e ∉ s) ∧ ∀ v, Action.setField 7 v ∉ s

theorem ModsOK.perm {s t : List Action} (h : ModsOK s) (ht : ∀ x ∈ t, x ∈ s) : ModsOK t :=
  ⟨fun a ha => h.known a (ht a ha), fun g hg => h.nogroup g (ht _ hg), fun ⟨e, he⟩ ⟨e', he'⟩ a ha => h.ttl ⟨e, ht _ he⟩ ⟨e', ht _ he'⟩ a (ht a ha),
    fun ⟨e, he⟩ hp => ⟨fun e' he' => (h.pcp ⟨e, ht _ he⟩ (ht _ hp)).1 e' (ht _ he'), fun v hv => (h.pcp ⟨e, ht _ he⟩ (ht _ hp)).2 v (ht _ hv)⟩⟩

/-- One entry of the view. -/
theorem entry_ok {s ms : List Action} (h : ModsOK s) (hms : ∀ a ∈ ms, a ∈ s ∧ a.portOf = none) (o : List Action)
    (ho : o = [] ∨ ∃ n, o = [.output n] ∧ Action.output n ∈ s) :
    ∃ l', (mkList (ms ++ o)).removeRedundant = .ok l' ∧ SameEffect l'.iter (ms ++ o) ∧ (∀ a ∈ l'.iter, a ∈ s) ∧
      (l'.iter.filterMap Action.portOf).Nodup := by
  have hsub : ∀ x ∈ ms ++ o, x ∈ s := by
    intro x hx
    rcases List.mem_append.1 hx with hx | hx
    · exact (hms x hx).1
    · rcases ho with rfl | ⟨n, rfl, hn⟩
      · simp at hx
      · simp at hx; subst hx; exact hn
  have hok := h.perm hsub
  have hout : (ms ++ o).Pairwise fun a b => a.emits = true → b.emits = true := ?_
  · obtain ⟨l', e1, e2⟩ := C24_redundant_partial (ms ++ o) _ (ofList_known hok.known) hok.known hout hok.ttl hok.pcp
    have hpm := (mkList_iter_trace (ms ++ o)).perm
    obtain ⟨g1, u, g2, g3, -⟩ := C24_result_shape _ l' e1 fun a ha => hok.known a (hpm.mem_iff.2 ha)
    refine ⟨l', e1, e2, fun a ha => hsub a (hpm.mem_iff.2 (g1 a ha)), ?_⟩
    rw [ofList_ok g2, ← ((mkList_iter_trace u).perm.filterMap _).nodup_iff]
    refine List.Nodup.sublist (g3.filterMap _) ?_
    rw [← (hpm.filterMap _).nodup_iff, List.filterMap_append, List.filterMap_eq_nil_iff.2 fun a ha => (hms a ha).2]
    rcases ho with rfl | ⟨n, rfl, -⟩ <;> simp [Action.portOf]
  have hne : ∀ a ∈ ms, a.emits = false := by
    intro a ha
    obtain ⟨h1, h2⟩ := hms a ha
    have := h.nogroup
    cases a <;> simp_all [Action.emits, Action.portOf]
  refine List.pairwise_append.2 ⟨?_, ?_, fun a ha b hb he => ?_⟩
  · exact List.Pairwise.imp_of_mem (R := fun _ _ => True) (fun {a b} ha _ _ he => by rw [hne a ha] at he; cases he)
      (List.pairwise_of_forall (fun _ _ => trivial))
  · rcases ho with rfl | ⟨n, rfl, _⟩ <;> simp
  · rw [hne a ha] at he; cases he

theorem emitted_append (a b : List (OutKey × List Action)) (p : Pkt) : emitted (a ++ b) p = emitted a p ++ emitted b p := by
  simp [emitted]

theorem perOutputItems_ok {s : List Action} (h : ModsOK s) : ∀ (os : List (Nat × List Action)),
    (∀ x ∈ os, (∀ a ∈ x.2, a ∈ s ∧ a.portOf = none) ∧ Action.output x.1 ∈ s) → ∀ ms, (∀ a ∈ ms, a ∈ s ∧ a.portOf = none) →
    ∃ items tup, perOutputItems (os.map (fun x => (OutKey.port x.1, mkList (x.2 ++ [.output x.1]))) ++ [(.pass, mkList ms)]) =
        .ok (items ++ [(.pass, tup)]) ∧
      items.map Prod.fst = os.map (fun x => OutKey.port x.1) ∧
      (∀ p, emitted items p = os.map (fun x => (Dest.port x.1, (exec x.2 p).1))) ∧
      SameEffect tup ms ∧ ∀ x ∈ items, (∀ a ∈ x.2, a ∈ s) ∧ (x.2.filterMap Action.portOf).Nodup
  | [], _, ms, hms => by
    obtain ⟨l', h1, h2, -⟩ := entry_ok h hms [] (.inl rfl)
    rw [List.append_nil] at h1 h2
    exact ⟨[], l'.iter, by simp only [List.map_nil, List.nil_append, perOutputItems, h1]; rfl, rfl, fun _ => rfl, h2, by simp⟩
  | (n, m) :: os, hos, ms, hms => by
    obtain ⟨items, tup, h1, h2, h3, h4, h5⟩ := perOutputItems_ok h os (fun x hx => hos x (List.mem_cons_of_mem _ hx)) ms hms
    obtain ⟨hm, hn⟩ := hos (n, m) List.mem_cons_self
    obtain ⟨l', e1, e2, e3, e4⟩ := entry_ok h hm [.output n] (.inr ⟨n, rfl, hn⟩)
    refine ⟨(.port n, l'.iter) :: items, tup, ?_, by simp [h2], fun p => ?_, h4, List.forall_mem_cons.2 ⟨⟨e3, e4⟩, h5⟩⟩
    · simp only [List.map_cons, List.cons_append, perOutputItems, e1, h1]; rfl
    · have := (e2 p).2
      have hmn : (exec m p).2 = [] := by
        refine exec_nil_emits (fun a ha => ?_) p
        obtain ⟨h1, h2⟩ := hm a ha
        have := h.nogroup
        cases a <;> simp_all [Action.emits, Action.portOf]
      rw [exec_append, hmn] at this
      simp only [exec, emit, List.nil_append, List.append_nil] at this
      have := List.perm_singleton.1 this
      simp only [emitted, List.flatMap_cons, List.map_cons] at h3 ⊢
      rw [this, h3]; rfl

/-- The per-output view of a list in which every port is listed at most once says what is emitted and what is passed on. -/
theorem perOutput_spec (s : List Action) (h : ModsOK s) (hn : (s.filterMap Action.portOf).Nodup) :
    ∃ items tup, (mkList s).perOutputPt = .ok (items ++ [(.pass, tup)]) ∧ (mkList s).perOutput = .ok items ∧
      (items ++ [(OutKey.pass, tup)]).Nodup ∧ (∀ p, (emitted items p).Perm (exec s p).2) ∧ (∀ p, (exec tup p).1 = (exec s p).1) ∧
      OutKey.pass ∉ items.map Prod.fst ∧ (items.map Prod.fst).Nodup ∧
      ∀ x ∈ items, (∀ a ∈ x.2, a ∈ s) ∧ (x.2.filterMap Action.portOf).Nodup := by
  have hp := (mkList_iter_trace s).perm
  have hi : ModsOK (mkList s).iter := h.perm fun x hx => hp.mem_iff.2 hx
  have hni : ((mkList s).iter.filterMap Action.portOf).Nodup := (hp.filterMap _).nodup_iff.1 hn
  have hloop := perOutputLoop_ok (mkList s).iter hi.known hi.nogroup [] (by simp [AllKnown]) [] hni (by simp)
  rw [List.nil_append, List.nil_append] at hloop
  have hos : ∀ x ∈ outsOf [] (mkList s).iter, (∀ a ∈ x.2, a ∈ (mkList s).iter ∧ a.portOf = none) ∧ Action.output x.1 ∈ (mkList s).iter := by
    intro x hx
    obtain ⟨h1, h2⟩ := outsOf_mem hx
    exact ⟨fun a ha => (h1 a ha).resolve_left (by simp), h2⟩
  obtain ⟨items, tup, h1, h2, h3, h4, h5⟩ := perOutputItems_ok hi _ hos (modsOf (mkList s).iter) fun a ha => modsOf_mem ha
  have hpass : OutKey.pass ∉ items.map Prod.fst := by rw [h2]; simp
  have hpt : (mkList s).perOutputPt = .ok (items ++ [(.pass, tup)]) := by
    unfold ActionList.perOutputPt ActionList.perOutputList
    rw [show ActionList.empty = mkList [] from rfl, hloop]
    show perOutputItems (dictSet .pass _ _) = _
    rw [dictSet_new _ (by simp)]
    exact h1
  have hsame := C56_canonical_effect s _ (ofList_known h.known)
  have hex := fun p => exec_outs (mkList s).iter hi.nogroup [] (by simp) p
  have hnd : ((items ++ [(OutKey.pass, tup)]).map Prod.fst).Nodup := by
    rw [List.map_append, List.nodup_append]
    refine ⟨?_, by simp, ?_⟩
    · rw [h2]
      have : (outsOf [] (mkList s).iter).map (fun x => OutKey.port x.1) =
          ((mkList s).iter.filterMap Action.portOf).map OutKey.port := by rw [← outsOf_keys []]; simp
      rw [this]
      exact List.Pairwise.map OutKey.port (fun a b hab hh => hab (by injection hh)) hni
    · intro a ha b hb hh
      simp at hb; subst hb; subst hh; exact hpass ha
  refine ⟨items, tup, hpt, ?_, List.Nodup.of_map _ hnd, fun p => ?_, fun p => ?_, hpass, ?_, fun x hx => ?_⟩
  · unfold ActionList.perOutput
    rw [hpt]
    show Except.ok (dictDel .pass (items ++ [(.pass, tup)])) = _
    congr 1
    unfold dictDel
    rw [List.filter_append, List.filter_eq_self.2]
    · simp
    · intro x hx
      simp only [decide_eq_true_eq]
      intro he
      exact hpass (List.mem_map.2 ⟨x, hx, he⟩)
  · rw [h3, ← (hex p).1]
    exact (hsame p).2
  · rw [(h4 p).1]
    have := (hex p).2
    rw [List.nil_append] at this
    rw [← this]
    exact (hsame p).1
  · rw [List.map_append] at hnd
    exact (List.nodup_append.1 hnd).1
  · exact ⟨fun a ha => hp.mem_iff.2 ((h5 x hx).1 a ha), (h5 x hx).2⟩

theorem sameItems_perm {a b : List (OutKey × List Action)} (ha : a.Nodup) (hb : b.Nodup) (h : sameItems a b = true) : a.Perm b := by
  simp only [sameItems, Bool.and_eq_true, List.all_eq_true, List.contains_iff_mem] at h
  exact (List.perm_ext_iff_of_nodup ha hb).2 fun x => ⟨fun hx => h.1 x hx, fun hx => h.2 x hx⟩

/-- **C25** (partial) If no port is listed twice in either list, `equiv_equal` lists send the same packets to the same ports for every
packet; and if the views with pass-through are equal the packet passed on is the same as well.  Missing: lists that name a port
twice (false, see `C25_wrong_repeated_port`), groups, and the lists for which C24 fails. -/
theorem C25_per_output_partial (s t : List Action) (l m : ActionList) (hl : ActionList.ofList s = .ok l)
    (hm : ActionList.ofList t = .ok m) (hs : ModsOK s) (ht : ModsOK t)
    (hns : (s.filterMap Action.portOf).Nodup) (hnt : (t.filterMap Action.portOf).Nodup) :
    (l.equivEqual m = .ok true → ∀ p, (exec s p).2.Perm (exec t p).2) ∧
    (∀ a b, l.perOutputPt = .ok a → m.perOutputPt = .ok b → sameItems a b = true → SameEffect s t) ∧
    ∃ r, l.equivEqual m = .ok r := by
  have hl := ofList_ok hl
  have hm := ofList_ok hm
  subst hl hm
  obtain ⟨i1, t1, a1, b1, c1, d1, e1, f1, -⟩ := perOutput_spec s hs hns
  obtain ⟨i2, t2, a2, b2, c2, d2, e2, f2, -⟩ := perOutput_spec t ht hnt
  have heq : (mkList s).equivEqual (mkList t) = .ok (sameItems i1 i2) := by
    unfold ActionList.equivEqual; rw [b1, b2]; rfl
  have hperm : i1.Perm i2 → ∀ p, (exec s p).2.Perm (exec t p).2 := by
    intro hp p
    exact ((d1 p).symm.trans (hp.flatMap_right _)).trans (d2 p)
  refine ⟨fun h => ?_, fun a b ha hb h => ?_, _, heq⟩
  · rw [heq] at h
    injection h with h
    exact hperm (sameItems_perm (List.nodup_append.1 c1).1 (List.nodup_append.1 c2).1 h)
  · rw [a1] at ha; injection ha with ha
    rw [a2] at hb; injection hb with hb
    subst ha hb
    have hp := sameItems_perm c1 c2 h
    have hmem : (OutKey.pass, t1) ∈ i2 ++ [(OutKey.pass, t2)] := hp.mem_iff.1 (by simp)
    have htt : t1 = t2 := by
      rcases List.mem_append.1 hmem with h | h
      · exact absurd (List.mem_map.2 ⟨_, h, rfl⟩) f2
      · simpa using h
    subst htt
    have hp' : i1.Perm i2 := (List.perm_append_right_iff _).1 hp
    exact fun p => ⟨(e1 p).symm.trans (e2 p), hperm hp' p⟩

end

example : ModsOK [.setField 6 5, .output 1, .setField 6 7, .output 2] :=
  ⟨by decide, by simp, by simp, by simp⟩
example : (mkList [.setField 6 5, .output 1, .setField 6 7, .output 2]).equivEqual
    (mkList [.pushVlan 0x8100, .popVlan, .setField 6 5, .output 1, .setField 6 7, .output 2]) = .ok true := by decide +kernel

/-- **C25** is false when a port is listed twice: only the last packet sent to it is looked at. -/
theorem C25_wrong_repeated_port : ∃ (s t : List Action) (l m : ActionList), ActionList.ofList s = .ok l ∧ ActionList.ofList t = .ok m ∧
    ModsOK s ∧ ModsOK t ∧ l.equivEqual m = .ok true ∧ ∀ p, ¬ (exec s p).2.Perm (exec t p).2 := by
  refine ⟨[.output 1, .setField 6 5, .output 1], [.setField 6 5, .output 1], mkList _, mkList _, ofList_known ?_, ofList_known ?_,
    ?_, ?_, by decide +kernel, fun p h => ?_⟩
  · unfold AllKnown; decide
  · unfold AllKnown; decide
  · exact ⟨by decide, by simp, by simp, by simp⟩
  · exact ⟨by decide, by simp, by simp, by simp⟩
  · have := h.length_eq
    simp [exec, emit] at this

end OFE
