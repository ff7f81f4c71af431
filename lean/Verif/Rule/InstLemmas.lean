import Verif.Rule.SetSem
import Verif.Props.Actions

/-!
# Lemmas: merged instructions
-/

namespace OFE

/-- Replace the metadata register. -/
def setMeta (x : Nat) (p : Pkt) : Pkt := { p with fld := fun g d => if g = 2 ∧ d = 0 then x else p.fld g d }

theorem setMeta_setMeta (x y : Nat) (p : Pkt) : setMeta x (setMeta y p) = setMeta x p := by
  unfold setMeta
  congr 1
  funext g d
  by_cases h : g = 2 ∧ d = 0 <;> simp [h]

theorem setMeta_fld (x : Nat) (p : Pkt) : (setMeta x p).fld 2 0 = x := by simp [setMeta]

theorem setMeta_self (p : Pkt) : setMeta (p.fld 2 0) p = p := by
  unfold setMeta
  cases p with
  | mk fld _ _ _ _ _ =>
    simp only [Pkt.mk.injEq, and_true]
    funext g d
    split
    · next h => rw [h.1, h.2]
    · rfl

theorem wire_eq (p : Pkt) : wire p = setMeta 0 p := rfl

theorem wire_setMeta (x : Nat) (p : Pkt) : wire (setMeta x p) = wire p := setMeta_setMeta 0 x p

/-- The value a metadata write leaves. -/
def metaVal (w : MetaW) (x : Nat) : Nat :=
  match w with
  | none => x
  | some (v, none) => v
  | some (v, some m) => (v &&& m) ||| andNot x m

theorem writeMeta_eq (w : MetaW) (p : Pkt) : writeMeta w p = setMeta (metaVal w (p.fld 2 0)) p := by
  rcases w with - | ⟨v, - | m⟩
  · exact (setMeta_self p).symm
  · rfl
  · rfl

theorem metaVal_merge (m1 m2 : MetaW) (x : Nat) : metaVal (mergeMeta m1 m2) x = metaVal m2 (metaVal m1 x) := by
  rcases m1 with - | ⟨v1, - | k1⟩ <;> rcases m2 with - | ⟨v2, - | k2⟩ <;> try rfl
  · simp only [metaVal, mergeMeta]
    rw [Nat.or_comm]
  · simp only [metaVal, mergeMeta]
    apply Nat.eq_of_testBit_eq
    intro i
    simp only [Nat.testBit_or, Nat.testBit_and, testBit_andNot]
    cases v1.testBit i <;> cases k1.testBit i <;> cases v2.testBit i <;> cases k2.testBit i <;> cases x.testBit i <;> rfl

theorem writeMeta_merge (m1 m2 : MetaW) (p : Pkt) : writeMeta (mergeMeta m1 m2) p = writeMeta m2 (writeMeta m1 p) := by
  rw [writeMeta_eq, writeMeta_eq m1, writeMeta_eq m2, metaVal_merge, setMeta_fld, setMeta_setMeta]

theorem act_setMeta {a : Action} (h : ∀ v, a ≠ .setField 2 v) (x : Nat) (p : Pkt) : act a (setMeta x p) = setMeta x (act a p) := by
  cases a <;> simp only [act, setMeta, Pkt.ttl0] <;> try rfl
  case setField f v =>
    have hf : f ≠ 2 := fun e => h v (by rw [e])
    congr 1
    funext g d
    by_cases hg : g = 2 ∧ d = 0
    · obtain ⟨rfl, rfl⟩ := hg
      simp only [and_self, and_true, if_true]
      exact if_neg fun e => hf e.symm
    · simp [hg]
  all_goals
    congr 1
    funext g d
    simp only [pushHdr, popHdr, vlanF, mplsF, pbbF]
    by_cases hg : g = 2 ∧ d = 0
    · obtain ⟨rfl, rfl⟩ := hg; simp
    · by_cases hg2 : g = 2
      · subst hg2; simp
      · simp [hg2]

theorem act_meta {a : Action} (h : ∀ v, a ≠ .setField 2 v) (p : Pkt) : (act a p).fld 2 0 = p.fld 2 0 := by
  have := congrArg (fun q => q.fld 2 0) (act_setMeta h (p.fld 2 0) p)
  rw [setMeta_self] at this
  simp only [setMeta_fld] at this
  exact this

theorem exec_setMeta {l : List Action} (h : NoMeta l) (x : Nat) (p : Pkt) :
    (exec l (setMeta x p)).1 = setMeta x (exec l p).1 ∧ (exec l p).1.fld 2 0 = p.fld 2 0 ∧
      SameSent (exec l (setMeta x p)).2 (exec l p).2 := by
  induction l generalizing p with
  | nil => exact ⟨rfl, rfl, .refl _⟩
  | cons a l ih =>
    have ha : ∀ v, a ≠ .setField 2 v := fun v e => h v (by simp [e])
    have hl : NoMeta l := fun v hv => h v (List.mem_cons_of_mem _ hv)
    obtain ⟨h1, h2, h3⟩ := ih hl (act a p)
    simp only [exec]
    rw [act_setMeta ha]
    refine ⟨h1, h2.trans (act_meta ha p), ?_⟩
    unfold SameSent at *
    rw [List.map_append, List.map_append]
    refine List.Perm.append ?_ h3
    cases a <;> simp [emit, wire_setMeta]

theorem exec_writeMeta {l : List Action} (h : NoMeta l) (w : MetaW) (p : Pkt) :
    (exec l (writeMeta w p)).1 = writeMeta w (exec l p).1 ∧ SameSent (exec l (writeMeta w p)).2 (exec l p).2 := by
  rw [writeMeta_eq]
  obtain ⟨h1, h2, h3⟩ := exec_setMeta h (metaVal w (p.fld 2 0)) p
  rw [h1, writeMeta_eq, h2]
  exact ⟨rfl, h3⟩

theorem SameEffect.symm {s t : List Action} (h : SameEffect s t) : SameEffect t s := fun p => ⟨(h p).1.symm, (h p).2.symm⟩

theorem SameEffect.append {s s' t t' : List Action} (h1 : SameEffect s s') (h2 : SameEffect t t') :
    SameEffect (s ++ t) (s' ++ t') := by
  intro p
  rw [exec_append, exec_append]
  simp only
  rw [(h1 p).1]
  exact ⟨(h2 _).1, (h1 p).2.append (h2 _).2⟩

/-- Instructions as the code builds them. -/
structure InstOK (i : Inst) : Prop where
  apply : ∃ s, (∀ a ∈ s, a.known = true) ∧ ActionList.ofList s = .ok i.apply
  write : ∃ s, (∀ a ∈ s, a.known = true) ∧ actionSetOfList s = .ok i.write

theorem known_iter {s : List Action} {l : ActionList} (hk : AllKnown s) (h : ActionList.ofList s = .ok l) : AllKnown l.iter := by
  have := ofList_ok h
  subst this
  exact allKnown_levels hk

theorem setInv_of {s : List Action} {l : ActionList} (hk : AllKnown s) (h : actionSetOfList s = .ok l) : SetInv s l := by
  obtain ⟨l', h1, h2⟩ := setInv_ofList s [] _ setInv_empty (by simpa [AllKnown] using hk)
  unfold actionSetOfList at h
  rw [h1] at h
  cases h
  simpa using h2

theorem SetInv.known {s : List Action} {l : ActionList} (hk : AllKnown s) (h : SetInv s l) : AllKnown l.iter :=
  fun x hx => hk x ((h.content x).1 (h.iter_perm.mem_iff.1 hx)).1.mem

/-- Merging well-built instructions succeeds. -/
theorem merge_inst {a b : Inst} (ha : InstOK a) (hb : InstOK b) : ∃ r, a.merge b = .ok r ∧ InstOK r ∧ r.goto = b.goto ∧
    SameEffect r.apply.iter (a.apply.iter ++ b.apply.iter) ∧
    ∀ W x, InSet ((if r.clear then [] else W) ++ r.write.iter) x ↔
      InSet ((if b.clear then [] else (if a.clear then [] else W) ++ a.write.iter) ++ b.write.iter) x := by
  obtain ⟨⟨s1, k1, e1⟩, t1, l1, w1⟩ := ha
  obtain ⟨⟨s2, k2, e2⟩, t2, l2, w2⟩ := hb
  have hk2 := known_iter k2 e2
  have hadd : a.apply.add b.apply = ActionList.ofList (s1 ++ b.apply.iter) := by
    unfold ActionList.add ActionList.copy ActionList.ofList
    rw [List.foldlM_append]
    unfold ActionList.ofList at e1
    rw [e1]; rfl
  have hks : AllKnown (s1 ++ b.apply.iter) := by
    intro x hx
    rcases List.mem_append.1 hx with h | h
    · exact k1 x h
    · exact hk2 x h
  have i1 := setInv_of l1 w1
  have i2 := setInv_of l2 w2
  have hkt : AllKnown (t1 ++ b.write.iter) := by
    intro x hx
    rcases List.mem_append.1 hx with h | h
    · exact l1 x h
    · exact i2.known l2 x h
  obtain ⟨lw, ew, iw⟩ := setInv_ofList b.write.iter t1 _ i1 hkt
  have heff : SameEffect (mkList (s1 ++ b.apply.iter)).iter (a.apply.iter ++ b.apply.iter) := by
    refine (C56_canonical_effect _ _ (ofList_known hks)).trans ?_
    exact SameEffect.append (C56_canonical_effect _ _ e1).symm (.refl _)
  unfold Inst.merge
  by_cases hc : b.clear = true
  · simp only [if_pos hc, hadd, ofList_known hks]
    refine ⟨_, rfl, ⟨⟨_, hks, ofList_known hks⟩, t2, l2, w2⟩, rfl, heff, fun W x => ?_⟩
    simp [hc]
  · simp only [if_neg hc, hadd, ofList_known hks, actionSetAdd, ew]
    refine ⟨_, rfl, ⟨⟨_, hks, ofList_known hks⟩, t1 ++ b.write.iter, hkt, ?_⟩, rfl, heff, fun W x => ?_⟩
    · unfold actionSetOfList at w1 ⊢
      rw [List.foldlM_append, w1]; exact ew
    · simp only [Bool.not_eq_true] at hc
      simp only [hc, Bool.or_false]
      have h1 : ∀ x, InSet lw.iter x ↔ InSet (a.write.iter ++ b.write.iter) x := by
        intro x
        rw [setInv_inSet iw]
        have := inSet_congr (u := t1) (v := a.write.iter) (fun y => (setInv_inSet i1 y).symm) [] b.write.iter x
        simpa using this
      have := inSet_congr h1 (if a.clear = true then [] else W) [] x
      simpa using this

end OFE
