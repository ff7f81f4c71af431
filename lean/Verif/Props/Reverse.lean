import Verif.Reverse.Lemmas

/-!
# Properties of the option to reverse fields (C53)
-/

namespace OFE

/-- C53: reversing the fields of two rulesets works and does not change whether they forward every packet in the same way.
Partial: python 2, exact matches, no set-field in the write-actions and no written metadata (`RevOK`; the VLAN id is left alone and is not
restricted).  The statement for all rulesets is false, see below. -/
theorem C53_reverse_partial (A B : List (Rule Nat)) (hA : ∀ r ∈ A, RevOK r) (hB : ∀ r ∈ B, RevOK r) :
    ∃ A' B', reverseFields false A = .ok A' ∧ reverseFields false B = .ok B' ∧ (SameForwarding A B ↔ SameForwarding A' B') := by
  obtain ⟨A', eA, fA⟩ := reverseFields_spec hA
  obtain ⟨B', eB, fB⟩ := reverseFields_spec hB
  have symm : ∀ {A A' : List (Rule Nat)}, List.Forall₂ RevRule A A' → List.Forall₂ RevRule A' A := by
    intro A A' h
    induction h with
    | nil => exact .nil
    | cons a _ ih => exact .cons a.symm ih
  exact ⟨A', B', eA, eB, SameForwarding.rev fA fB, SameForwarding.rev (symm fA) (symm fB)⟩

/-- C53: what the reversed ruleset does to a packet with reversed fields is what the ruleset does to the packet: for every run there is
one, and the copies it sends are the reversed ones.  (With the theorem above, not only equivalence is kept.) -/
theorem C53_mirror_partial (A : List (Rule Nat)) (hA : ∀ r ∈ A, RevOK r) :
    ∃ A', reverseFields false A = .ok A' ∧ ∀ p rs s, Runs A 0 (St.enter p) rs s →
      ∃ rs' s', Runs A' 0 (St.enter (revPkt p)) rs' s' ∧ s'.finish.Perm (s.finish.map fun x => (x.1, revPkt x.2)) := by
  obtain ⟨A', eA, fA⟩ := reverseFields_spec hA
  refine ⟨A', eA, fun p rs s h => ?_⟩
  obtain ⟨rs', s', h1, h2⟩ := rev_runs fA h _ (RevSt.enter p)
  exact ⟨rs', s', h1, h2.finish⟩

/-- C53: reversing twice gives back the number (the specification `revPkt` really permutes the bits of each field). -/
theorem C53_revPkt (p : Pkt) : revPkt (revPkt p) = p ∧
    ∀ g d i, g ≠ 6 → i < width g → ((revPkt p).fld g d).testBit i = (p.fld g d).testBit (width g - 1 - i) := by
  refine ⟨revPkt_revPkt p, fun g d i hg hi => ?_⟩
  simp only [revPkt, if_neg hg, testBit_revLow, if_pos hi]

/-- C53 is false on python 3: every ruleset but the empty one raises. -/
theorem C53_python3_raises (r : Rule Nat) (rules : List (Rule Nat)) : reverseFields true (r :: rules) = .error .attributeError := by
  rfl

/-- Samples: a destination prefix (field 12, IPv4) of the given mask to port 1, the rest to port 2. -/
def revPrefix (mask : Nat) : List (Rule Nat) :=
  [mainRule 10 0 (Match.empty.append 12 0 (some mask)) [.output 1] none, mainRule 0 0 Match.empty [.output 2] none]

theorem runs_single {A : List (Rule Nat)} {t : Nat} {s : St} {rs : List (Rule Nat)} {s2 : St} (h : Runs A t s rs s2)
    (hg : ∀ r ∈ A, r.inst.goto = none) : ∃ r, Hits A t s.pkt r ∧ rs = [r] ∧ s2 = r.inst.run s := by
  cases h with
  | last a b => exact ⟨_, a, rfl, rfl⟩
  | next a b _ => rw [hg _ a.1] at b; cases b

/-- The packet with destination 64.0.0.0 and everything else 0. -/
def revWitness : Pkt := ⟨fun g d => if g = 12 ∧ d = 0 then 0x40000000 else 0, fun _ => 0, 0, fun _ => 0, 0, 0⟩

/-- The two prefixes are forwarded differently. -/
theorem revPrefix_differ : ¬ SameForwarding (revPrefix 0x80000000) (revPrefix 0xC0000000) := by
  intro h
  have hbit : ∀ i, i < 32 → revWitness.hdr.bit 12 i = (0x40000000 : Nat).testBit i := by
    intro i hi
    rw [hdr_bit _ (by decide) (show i < width 12 from hi)]
    rfl
  have hw : width 12 = 32 := by decide
  have h1 : Hits (revPrefix 0x80000000) 0 revWitness (mainRule 10 0 (Match.empty.append 12 0 (some 0x80000000)) [.output 1] none) := by
    refine ⟨by simp [revPrefix], rfl, ?_, ?_⟩
    · intro x hx
      have hx : x ∈ [(12, 0, some 0x80000000)] := hx
      rw [List.mem_singleton] at hx
      subst hx
      intro i hi hm
      simp only at hi hm ⊢
      rw [hw] at hi
      rw [hbit i hi]
      have : ∀ i : Fin 32, (0x80000000 : Nat).testBit i.1 = true → (0x40000000 : Nat).testBit i.1 = (0 : Nat).testBit i.1 := by decide +kernel
      exact this ⟨i, hi⟩ (hm _ rfl)
    · intro r hr _ _
      simp only [revPrefix, List.mem_cons, List.not_mem_nil, or_false] at hr
      rcases hr with rfl | rfl <;> decide +kernel
  have h2 : Hits (revPrefix 0xC0000000) 0 revWitness (mainRule 0 0 Match.empty [.output 2] none) := by
    refine ⟨by simp [revPrefix], rfl, empty_accepts _, ?_⟩
    intro r hr _ ha
    simp only [revPrefix, List.mem_cons, List.not_mem_nil, or_false] at hr
    rcases hr with rfl | rfl
    · exfalso
      have := ha (12, 0, some 0xC0000000) (List.mem_singleton.2 rfl) 30 (by decide +kernel) (by intro m hm; cases hm; decide +kernel)
      simp only at this
      rw [hbit 30 (by omega)] at this
      revert this
      decide +kernel
    · exact Nat.le_refl _
  have := h revWitness _ _ _ _ (.last h1 rfl) (.last h2 rfl)
  have hp := (this.map Prod.fst)
  simp only [List.map_map] at hp
  have e : ∀ n : Nat, ((mainRule 10 0 Match.empty [.output n] none).inst.run (St.enter revWitness)).finish.map Prod.fst = [Dest.port n] := fun n => rfl
  have hp : [Dest.port 1].Perm [Dest.port 2] := hp
  exact absurd hp (by decide)

/-- C53 is false with masks: the new mask is computed from the value, so that 0.0.0.0/1 and 0.0.0.0/2 become the same match although the
rulesets forward 64.0.0.0 differently. -/
theorem C53_masks_lost : ∃ A B A' B', reverseFields false A = .ok A' ∧ reverseFields false B = .ok B' ∧
    ¬ SameForwarding A B ∧ SameForwarding A' B' := by
  have hrev : ∃ R, reverseFields false (revPrefix 0x80000000) = .ok R ∧ reverseFields false (revPrefix 0xC0000000) = .ok R ∧
      R = [mainRule 10 0 ⟨[(12, 0, some 0)], 1 <<< 12, none⟩ [.output 1] none, mainRule 0 0 Match.empty [.output 2] none] := by
    refine ⟨_, ?_, ?_, rfl⟩ <;> decide +kernel
  obtain ⟨R, e1, e2, hR⟩ := hrev
  refine ⟨_, _, R, R, e1, e2, revPrefix_differ, ?_⟩
  · intro p rs s rs' s' hr hr'
    have hg : ∀ r ∈ R, r.inst.goto = none := by rw [hR]; decide +kernel
    have hit : ∀ q r, Hits R 0 q r → r = mainRule 10 0 ⟨[(12, 0, some 0)], 1 <<< 12, none⟩ [.output 1] none := by
      intro q r hr
      obtain ⟨a, b, c, d⟩ := hr
      rw [hR] at a d
      simp only [List.mem_cons, List.not_mem_nil, or_false] at a
      rcases a with rfl | rfl
      · rfl
      · have := d _ List.mem_cons_self rfl (by
          intro x hx
          have hx : x ∈ [(12, 0, some 0)] := hx
          rw [List.mem_singleton] at hx
          subst hx
          intro i _ hm
          have := hm 0 rfl
          simp at this)
        exact absurd this (by decide)
    obtain ⟨r, h1, rfl, rfl⟩ := runs_single hr hg
    obtain ⟨r', h1', rfl, rfl⟩ := runs_single hr' hg
    rw [hit _ _ h1, hit _ _ h1']
    exact sameSent_of_perm (.refl _)

/-- Samples: the destination port (field 14, TCP) set in the apply-actions and in the write-actions. -/
def revApply : List (Rule Nat) := [mainRule 0 0 Match.empty [.setField 14 1, .output 1] none]
def revWrite : List (Rule Nat) :=
  [⟨0, none, 0, Match.empty, ⟨none, ActionList.empty, ⟨[[.setField 14 1], [.output 1]], [.setField 14 1, .output 1]⟩, none, false, none⟩, []⟩]

theorem single_same {r r' : Rule Nat} (hr : r.inst.goto = none) (hr' : r'.inst.goto = none) (ht : r.table = 0) (ht' : r'.table = 0)
    (hm : r.mat = Match.empty) (hm' : r'.mat = Match.empty) :
    SameForwarding [r] [r'] ↔ ∀ p, SameSent (r.inst.run (St.enter p)).finish (r'.inst.run (St.enter p)).finish := by
  have hit : ∀ {r : Rule Nat}, r.table = 0 → r.mat = Match.empty → ∀ p, Hits [r] 0 p r := by
    intro r h1 h2 p
    refine ⟨List.mem_singleton.2 rfl, h1, by rw [h2]; exact empty_accepts p, fun s hs _ _ => ?_⟩
    rw [List.mem_singleton.1 hs]
  constructor
  · intro h p
    exact h p _ _ _ _ (.last (hit ht hm p) hr) (.last (hit ht' hm' p) hr')
  · intro h p rs s rs' s' h1 h2
    obtain ⟨a, a1, rfl, rfl⟩ := runs_single h1 (by simpa using hr)
    obtain ⟨b, b1, rfl, rfl⟩ := runs_single h2 (by simpa using hr')
    rw [List.mem_singleton.1 a1.1, List.mem_singleton.1 b1.1]
    exact h p

/-- C53 is false with set-fields in the write-actions, which are not reversed: before, it makes no difference whether the port is set by
apply- or write-actions; afterwards it does. -/
theorem C53_writes_not_reversed : ∃ A B A' B', reverseFields false A = .ok A' ∧ reverseFields false B = .ok B' ∧
    SameForwarding A B ∧ ¬ SameForwarding A' B' := by
  refine ⟨revApply, revWrite, [mainRule 0 0 Match.empty [.setField 14 0x8000, .output 1] none], revWrite, ?_, ?_, ?_, ?_⟩
  · decide +kernel
  · decide +kernel
  · rw [revApply, revWrite, single_same rfl rfl rfl rfl rfl rfl]
    intro p
    exact sameSent_of_perm (.of_eq rfl)
  · rw [revWrite, single_same rfl rfl rfl rfl rfl rfl]
    intro h
    have := (h revWitness).map fun x => x.2.fld 14 0
    have hp : [0x8000].Perm [1] := this
    exact absurd hp (by decide)

/-- The highest bit of a value that is too wide is the lowest of the reversed one, so it is the lowest bit that decides: an odd value is refused. -/
theorem reverseChecked_odd {f v : Nat} (hf : f < 40) (hv : 2 ^ width f ≤ v) (ho : v % 2 = 1) : reverseChecked f v = .error .assertion := by
  have hb : fieldBits f = some (width f) := by
    have : ∀ f : Fin 40, fieldBits f.1 = some (width f.1) := by decide +kernel
    exact this ⟨f, hf⟩
  have hlog : width f ≤ v.log2 := (Nat.le_log2 (by omega)).2 hv
  unfold reverseChecked
  rw [hb]
  simp only
  rw [if_neg]
  intro h
  have := congrArg (·.testBit v.log2) h
  simp only [Nat.testBit_and, Nat.testBit_two_pow_sub_one, reverseValue, testBit_readBits] at this
  rw [if_neg (by omega), Nat.max_eq_right (by omega)] at this
  simp [show ¬ v.log2 < width f by omega, ho] at this

/-- C53: an odd value that does not fit into its field is refused, in a match and in a set-field. -/
theorem C53_too_wide (f v : Nat) (hf : f < 40) (h6 : f ≠ 6) (hv : 2 ^ width f ≤ v) (ho : v % 2 = 1) :
    reverseAction (.setField f v) = .error .assertion ∧
    ∀ mask items m, reverseMatch ((f, v, mask) :: items) m = .error .assertion := by
  have h := reverseChecked_odd hf hv ho
  constructor
  · simp only [reverseAction, show f ≠ fVid from h6, if_false, h]; rfl
  · intro mask items m
    simp only [reverseMatch, show f ≠ fVid from h6, if_false, h]; rfl

example : reverseAction (.setField 14 0x10001) = .error .assertion := (C53_too_wide 14 0x10001 (by decide) (by decide) (by decide +kernel) (by decide)).1

/-- C53 is not kept by the check in general: the smallest value that does not fit is set without an error, and the same as a
value that does fit. -/
theorem C53_too_wide_accepted : reverseAction (.setField 14 0x10000) = .ok (.setField 14 1) ∧
    reverseAction (.setField 14 0x8000) = .ok (.setField 14 1) := by decide +kernel

/-! ### Examples -/

theorem revOK_of {r : Rule Nat} (hok : RuleOK r) (h : ∀ x ∈ r.mat.items, x.1 = 6 ∨ (x.2.2 = none ∧ x.2.1 < 2 ^ width x.1))
    (hs : ∀ a ∈ r.inst.apply.iter, match a with | .setField f v => f = 6 ∨ v < 2 ^ width f | _ => True)
    (hw : r.inst.write.iter = []) (hm : r.inst.wmeta = none) : RevOK r :=
  ⟨hok, h, fun f v hv => hs _ hv, fun f v hv => (by rw [hw] at hv; cases hv), hm⟩

/-- Two ways to send packets to TCP port 1 on: in two tables with the destination rewritten, and in one. -/
def revX : List (Rule Nat) :=
  [mainRule 5 0 (Match.empty.append 14 1 none) [.setField 12 0x0A000001] (some 1), mainRule 0 0 Match.empty [.output 3] none,
   mainRule 0 1 Match.empty [.output 2] none]
def revY : List (Rule Nat) :=
  [mainRule 5 0 (Match.empty.append 14 1 none) [.setField 12 0x0A000001, .output 2] none, mainRule 0 0 Match.empty [.output 3] none]

theorem revXY_ok : (∀ r ∈ revX, RevOK r) ∧ ∀ r ∈ revY, RevOK r := by
  constructor <;> intro r hr <;> simp only [revX, revY, List.mem_cons, List.not_mem_nil, or_false] at hr
  · rcases hr with rfl | rfl | rfl
    · exact revOK_of (mainRule_ok (inv_append inv_empty _ _ _) (by decide +kernel) (by decide) (by decide +kernel)) (by decide +kernel)
        (by intro a ha; simp [mainRule, ActionList.iter] at ha; subst ha; decide +kernel) rfl rfl
    · exact revOK_of (mainRule_ok inv_empty (by decide +kernel) (by decide) (by decide +kernel)) (by decide +kernel)
        (by intro a ha; simp [mainRule, ActionList.iter] at ha; subst ha; trivial) rfl rfl
    · exact revOK_of (mainRule_ok inv_empty (by decide +kernel) (by decide) (by decide +kernel)) (by decide +kernel)
        (by intro a ha; simp [mainRule, ActionList.iter] at ha; subst ha; trivial) rfl rfl
  · rcases hr with rfl | rfl
    · exact revOK_of (mainRule_ok (inv_append inv_empty _ _ _) (by decide +kernel) (by decide) (by decide +kernel)) (by decide +kernel)
        (by intro a ha; simp [mainRule, ActionList.iter] at ha; rcases ha with rfl | rfl <;> decide +kernel) rfl rfl
    · exact revOK_of (mainRule_ok inv_empty (by decide +kernel) (by decide) (by decide +kernel)) (by decide +kernel)
        (by intro a ha; simp [mainRule, ActionList.iter] at ha; subst ha; trivial) rfl rfl

/-- The hypotheses of `C53_reverse_partial` and `C53_mirror_partial` hold for them, and the reversed rulesets are not the same as before. -/
example : (∃ A' B', reverseFields false revX = .ok A' ∧ reverseFields false revY = .ok B' ∧ (SameForwarding revX revY ↔ SameForwarding A' B')) ∧
    (reverseFields false revY = .ok
      [mainRule 5 0 ⟨[(14, 0x8000, none)], 1 <<< 14, none⟩ [.setField 12 0x80000050, .output 2] none, mainRule 0 0 Match.empty [.output 3] none]) :=
  ⟨C53_reverse_partial _ _ revXY_ok.1 revXY_ok.2, by decide +kernel⟩

end OFE
