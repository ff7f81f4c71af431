import Verif.Main.RevLemmas

/-!
# Properties of the command line tool with the option -r (C98)
-/

namespace OFE

/-- C98: without `-r` the tool is the one of C58, on either version of python. -/
theorem C98_off {ν : Type} (py3 dc : Bool) (files : List (ν × List (Rule Nat))) : mainLines py3 false dc files = mainGroups dc files := by
  have e : ∀ reg, optionForms py3 false dc reg files = canonicalForms dc reg files := by
    induction files with
    | nil => exact fun _ => rfl
    | cons x files ih =>
      intro reg
      obtain ⟨n, A⟩ := x
      rw [optionForms, canonicalForms, show optionForm py3 false dc reg A = canonicalForm dc reg A from rfl]
      cases canonicalForm dc reg A with
      | error _ => rfl
      | ok x => simp only [bind, Except.bind]; rw [ih]
  unfold mainLines mainGroups
  rw [e]

/-- Three files without `-r`. -/
example : mainLines true false true mainFiles = .ok [[0, 2], [1]] := by rw [C98_off, mainFiles_lines]

theorem GoodPipeline.sorted {A : List (Rule Nat)} (h : GoodPipeline A) : GoodPipeline (sortRuleset A) :=
  ⟨h.ok.sorted, fun r hr hg => h.flat r (mem_sortRuleset.1 hr) hg,
    fun P hP => h.plain P ⟨fun r hr => mem_sortRuleset.1 (hP.1 r hr), hP.2⟩⟩

theorem NoTies.sorted {A : List (Rule Nat)} (hn : NoTies A) : NoTies (sortRuleset A) :=
  fun r hr s hs => hn r (mem_sortRuleset.1 hr) s (mem_sortRuleset.1 hs)

theorem RevFull.flip {A A' : List (Rule Nat)} (h : List.Forall₂ RevFull A A') : List.Forall₂ RevRule A' A := by
  induction h with
  | nil => exact .nil
  | cons a _ ih => exact .cons a.rev.symm ih

/-- Entries of two lists of files with the same names. -/
theorem files_there {ν : Type} {R : ν × List (Rule Nat) → ν × List (Rule Nat) → Prop} {files files' : List (ν × List (Rule Nat))}
    (h : List.Forall₂ (fun x y => x.1 = y.1 ∧ R x y) files files') :
    files'.map Prod.fst = files.map Prod.fst ∧ (∀ n A, (n, A) ∈ files → ∃ A', (n, A') ∈ files' ∧ R (n, A) (n, A')) ∧
      ∀ y ∈ files', ∃ x ∈ files, R x y := by
  induction h with
  | nil => simp
  | @cons x y files files' a _ ih =>
    obtain ⟨i1, i2, i3⟩ := ih
    refine ⟨by rw [List.map_cons, List.map_cons, i1, a.1], fun n A hA => ?_, fun z hz => ?_⟩
    · rcases List.mem_cons.1 hA with e | hA
      · obtain ⟨n', A'⟩ := y
        subst e
        obtain ⟨rfl, hr⟩ := a
        exact ⟨A', List.mem_cons_self, hr⟩
      · obtain ⟨A', h1, h2⟩ := i2 n A hA
        exact ⟨A', List.mem_cons_of_mem _ h1, h2⟩
    · rcases List.mem_cons.1 hz with rfl | hz
      · exact ⟨x, List.mem_cons_self, a.2⟩
      · obtain ⟨w, h1, h2⟩ := i3 z hz
        exact ⟨w, List.mem_cons_of_mem _ h1, h2⟩

/-- C98: with `-r` the tool prints every ruleset exactly once, and two rulesets on the same line forward every packet in the same way (the
rulesets as they were given, not the reversed ones).  Partial: python 2, exact matches, no set-field in the write-actions (`RevOK`), and what
C58 asks for.  Without these restrictions it is false, see below. -/
theorem C98_same_line_sound_partial {ν : Type} (dc : Bool) (files : List (ν × List (Rule Nat))) (hnames : (files.map Prod.fst).Nodup)
    (hgood : ∀ x ∈ files, GoodPipeline x.2) (hties : ∀ x ∈ files, NoTies x.2) (hrev : ∀ x ∈ files, ∀ r ∈ x.2, RevOK r) (hlen : 2 ≤ files.length) :
    ∃ lines, mainLines false true dc files = .ok lines ∧ lines.flatten.Perm (files.map Prod.fst) ∧
      ∀ line ∈ lines, ∀ a ∈ line, ∀ b ∈ line, ∀ A B, (a, A) ∈ files → (b, B) ∈ files → SameForwarding A B := by
  obtain ⟨files', h⟩ := prepared_files hrev
  obtain ⟨n1, n2, n3⟩ := files_there h
  have hg : ∀ y ∈ files', GoodPipeline y.2 := fun y hy => by
    obtain ⟨x, hx, -, f⟩ := n3 y hy
    exact RevFull.good f (hgood x hx).sorted
  have ht : ∀ y ∈ files', NoTies y.2 := fun y hy => by
    obtain ⟨x, hx, -, f⟩ := n3 y hy
    exact RevFull.noTies f (hties x hx).sorted
  obtain ⟨lines, e, h1, h2⟩ := C58_same_line_sound_partial dc files' (by rw [n1]; exact hnames) hg ht (by rw [← h.length_eq]; exact hlen)
  refine ⟨lines, ?_, by rw [← n1]; exact h1, fun line hl a ha b hb A B hA hB => ?_⟩
  · rw [← e]
    exact mainLines_eq (h.imp fun x y hxy => ⟨hxy.1, hxy.2.1⟩)
  · obtain ⟨A', hA', -, fA⟩ := n2 a A hA
    obtain ⟨B', hB', -, fB⟩ := n2 b B hB
    have := SameForwarding.rev (RevFull.flip fA) (RevFull.flip fB) (h2 line hl a ha b hb A' B' hA' hB')
    exact fun p rs s rs' s' hr hr' => this p rs s rs' s' hr.sorted hr'.sorted

/-- C98, the other way: for two rulesets on different lines there is a packet that the single tables of the reversed rulesets label
differently. -/
theorem C98_different_lines_partial {ν : Type} (dc : Bool) (files : List (ν × List (Rule Nat))) (hnames : (files.map Prod.fst).Nodup)
    (hgood : ∀ x ∈ files, GoodPipeline x.2) (hrev : ∀ x ∈ files, ∀ r ∈ x.2, RevOK r) (hlen : 2 ≤ files.length) (lines : List (List ν))
    (hl : mainLines false true dc files = .ok lines) (a b : ν) (A B : List (Rule Nat)) (hA : (a, A) ∈ files) (hB : (b, B) ∈ files)
    (hab : ∀ line ∈ lines, ¬ (a ∈ line ∧ b ∈ line)) :
    ∃ A' B' cs ds, reverseFields false (sortRuleset A) = .ok A' ∧ reverseFields false (sortRuleset B) = .ok B' ∧
      toSingleTable A' true = .ok cs ∧ toSingleTable B' true = .ok ds ∧
      ∃ p c d L M, p.Sized ∧ FirstHit cs p c ∧ FirstHit ds p d ∧ c.label = .ok L ∧ d.label = .ok M ∧ L ≠ M := by
  obtain ⟨files', h⟩ := prepared_files hrev
  obtain ⟨n1, n2, n3⟩ := files_there h
  have hg : ∀ y ∈ files', GoodPipeline y.2 := fun y hy => by
    obtain ⟨x, hx, -, f⟩ := n3 y hy
    exact RevFull.good f (hgood x hx).sorted
  rw [mainLines_eq (h.imp fun x y hxy => ⟨hxy.1, hxy.2.1⟩)] at hl
  obtain ⟨A', hA', ⟨eA, sA⟩, -⟩ := n2 a A hA
  obtain ⟨B', hB', ⟨eB, sB⟩, -⟩ := n2 b B hB
  obtain ⟨cs, ds, h1, h2, h3⟩ := C58_different_lines dc files' (by rw [n1]; exact hnames) hg (by rw [← h.length_eq]; exact hlen) lines hl a b A' B'
    hA' hB' hab
  simp only at sA sB
  rw [sA] at h1
  rw [sB] at h2
  exact ⟨A', B', cs, ds, eA, eB, h1, h2, h3⟩

/-- C98: with equal rules in two files, both are on the same line. -/
theorem C98_equal_files_partial {ν : Type} (dc : Bool) (files : List (ν × List (Rule Nat))) (hnames : (files.map Prod.fst).Nodup)
    (hgood : ∀ x ∈ files, GoodPipeline x.2) (hrev : ∀ x ∈ files, ∀ r ∈ x.2, RevOK r) (hlen : 2 ≤ files.length) (lines : List (List ν))
    (hl : mainLines false true dc files = .ok lines) (a b : ν) (A : List (Rule Nat)) (hA : (a, A) ∈ files) (hB : (b, A) ∈ files) :
    ∃ line ∈ lines, a ∈ line ∧ b ∈ line := by
  apply Classical.byContradiction
  intro hno
  obtain ⟨A', B', cs, ds, e1, e2, e3, e4, p, c, d, L, M, -, h1, h2, h3, h4, h5⟩ :=
    C98_different_lines_partial dc files hnames hgood hrev hlen lines hl a b A A hA hB fun line hline h => hno ⟨line, hline, h⟩
  rw [e1] at e2; cases e2
  rw [e3] at e4; cases e4
  obtain rfl : c = d := by
    obtain ⟨x, y, rfl, hc, hx⟩ := h1
    obtain ⟨x', y', e, hd, hx'⟩ := h2
    rcases List.append_eq_append_iff.1 e with ⟨l, e1, e2⟩ | ⟨l, e1, e2⟩
    · cases l with
      | nil => simp only [List.nil_append, List.cons.injEq] at e2; exact e2.1
      | cons w l =>
        simp only [List.cons_append, List.cons.injEq] at e2
        exact absurd (e2.1 ▸ hc) (hx' w (by rw [e1]; simp))
    · cases l with
      | nil => simp only [List.nil_append, List.cons.injEq] at e2; exact e2.1.symm
      | cons w l =>
        simp only [List.cons_append, List.cons.injEq] at e2
        exact absurd (e2.1 ▸ hd) (hx w (by rw [e1]; simp))
  rw [h3] at h4
  cases h4
  exact h5 rfl

/-- C98 is false on python 3: if the first file has any rules, the tool raises instead of printing lines. -/
theorem C98_python3_raises {ν : Type} (dc : Bool) (name : ν) (r : Rule Nat) (rules : List (Rule Nat)) (rest : List (ν × List (Rule Nat))) :
    mainLines true true dc ((name, r :: rules) :: rest) = .error .attributeError := by
  have e : prepareRuleset true true (r :: rules) = .error .attributeError := by
    unfold prepareRuleset
    rw [if_pos rfl]
    cases hs : sortRuleset (r :: rules) with
    | nil => exact absurd (hs ▸ mem_sortRuleset.2 List.mem_cons_self : r ∈ []) (by simp)
    | cons s ss => exact C53_python3_raises s ss
  unfold mainLines
  rw [optionForms]
  unfold optionForm
  rw [e]
  rfl

/-- What is decided by computation about the forms of two files. -/
def twoForms (same : Bool) : Except PyErr (List (Nat × DD Nat)) → Bool
  | .ok [(n, x), (m, y)] => n == 0 && m == 1 && (checkEqualPlain x y == same)
  | _ => false

theorem twoForms_lines {py3 rev dc same : Bool} {A B : List (Rule Nat)}
    (h : twoForms same (optionForms py3 rev dc (Cudd.Reg.init none none) [(0, A), (1, B)]) = true) :
    mainLines py3 rev dc [(0, A), (1, B)] = .ok (if same then [[0, 1]] else [[0], [1]]) := by
  unfold mainLines
  generalize optionForms py3 rev dc (Cudd.Reg.init none none) [(0, A), (1, B)] = forms at h
  unfold twoForms at h
  split at h
  · simp only [Bool.and_eq_true, beq_iff_eq] at h
    obtain ⟨⟨rfl, rfl⟩, hz⟩ := h
    cases same <;> simp [bind, Except.bind, pure, Except.pure, groupEqual, hz]
  · cases h

/-- C98 is false with masks: two rulesets that forward a packet differently are printed on the same line with `-r`, and on different lines
without. -/
theorem C98_masks (dc : Bool) : mainLines false true dc [(0, revPrefix 0x80000000), (1, revPrefix 0xC0000000)] = .ok [[0, 1]] ∧
    mainLines false false dc [(0, revPrefix 0x80000000), (1, revPrefix 0xC0000000)] = .ok [[0], [1]] ∧
    ¬ SameForwarding (revPrefix 0x80000000) (revPrefix 0xC0000000) :=
  ⟨twoForms_lines (same := true) (by cases dc <;> decide +kernel), twoForms_lines (same := false) (by cases dc <;> decide +kernel),
    revPrefix_differ⟩

/-! ### Examples -/

theorem revX_good : GoodPipeline revX ∧ NoTies revX := by
  have hall : ∀ {P : Rule Nat → Prop}, P revX[0] → P revX[1] → P revX[2] → ∀ r ∈ revX, P r := by
    intro P a b c r hr
    simp only [revX, List.mem_cons, List.not_mem_nil, or_false] at hr
    rcases hr with rfl | rfl | rfl <;> assumption
  refine ⟨⟨pipelineOK_of (fun r hr => (revXY_ok.1 r hr).ok) (by decide +kernel) (hall ?_ ?_ ?_) (by decide +kernel), ?_,
    plainPipeline_of (by decide +kernel) (hall ?_ ?_ ?_) (by decide +kernel) (by decide +kernel)⟩, ?_⟩
  iterate 3 (intro a ha v hv; subst hv; simp [revX, mainRule, Rule.acts, ActionList.iter, ActionList.empty] at ha)
  · refine hall ?_ ?_ ?_ <;> intro hg a ha <;> simp [revX, mainRule, ActionList.iter] at ha hg
    subst ha; exact ⟨rfl, rfl, by simp⟩
  iterate 3 (intro a ha; simp [revX, mainRule, Rule.acts, ActionList.iter, ActionList.empty] at ha; subst ha; simp)
  · have : ∀ r ∈ revX, ∀ s ∈ revX, r.table = s.table → r.priority = s.priority → r = s := by decide +kernel
    exact fun r hr s hs a b _ => this r hr s hs a b

theorem revY_good : GoodPipeline revY ∧ NoTies revY := by
  have hall : ∀ {P : Rule Nat → Prop}, P revY[0] → P revY[1] → ∀ r ∈ revY, P r := by
    intro P a b r hr
    simp only [revY, List.mem_cons, List.not_mem_nil, or_false] at hr
    rcases hr with rfl | rfl <;> assumption
  refine ⟨⟨pipelineOK_of (fun r hr => (revXY_ok.2 r hr).ok) (by decide +kernel) (hall ?_ ?_) (by decide +kernel), ?_,
    plainPipeline_of (by decide +kernel) (hall ?_ ?_) (by decide +kernel) (by decide +kernel)⟩, ?_⟩
  iterate 2 (intro a ha v hv; subst hv; simp [revY, mainRule, Rule.acts, ActionList.iter, ActionList.empty] at ha)
  · refine hall ?_ ?_ <;> intro hg <;> simp [revY, mainRule] at hg
  iterate 2 (intro a ha; simp [revY, mainRule, Rule.acts, ActionList.iter, ActionList.empty] at ha; (try rcases ha with rfl | rfl) <;> simp_all)
  · have : ∀ r ∈ revY, ∀ s ∈ revY, r.table = s.table → r.priority = s.priority → r = s := by decide +kernel
    exact fun r hr s hs a b _ => this r hr s hs a b

theorem revXY_files : ∀ x ∈ ([(0, revX), (1, revY)] : List (Nat × List (Rule Nat))), GoodPipeline x.2 ∧ NoTies x.2 ∧ ∀ r ∈ x.2, RevOK r := by
  intro x hx
  simp only [List.mem_cons, List.not_mem_nil, or_false] at hx
  rcases hx with rfl | rfl
  · exact ⟨revX_good.1, revX_good.2, revXY_ok.1⟩
  · exact ⟨revY_good.1, revY_good.2, revXY_ok.2⟩

/-- The hypotheses of `C98_same_line_sound_partial` hold for a two-table and a one-table ruleset; they are printed on one line. -/
example : SameForwarding revX revY := by
  obtain ⟨lines, e, -, h⟩ := C98_same_line_sound_partial true [(0, revX), (1, revY)] (by decide) (fun x hx => (revXY_files x hx).1)
    (fun x hx => (revXY_files x hx).2.1) (fun x hx => (revXY_files x hx).2.2) (by decide)
  rw [twoForms_lines (same := true) (by decide +kernel)] at e
  cases e
  exact h [0, 1] (by simp) 0 (by simp) 1 (by simp) _ _ (by simp) (by simp)

/-- One that sends the rest to port 4. -/
def revZ : List (Rule Nat) :=
  [mainRule 5 0 (Match.empty.append 14 1 none) [.setField 12 0x0A000001, .output 2] none, mainRule 0 0 Match.empty [.output 4] none]

theorem revZ_good : GoodPipeline revZ ∧ ∀ r ∈ revZ, RevOK r := by
  have hall : ∀ {P : Rule Nat → Prop}, P revZ[0] → P revZ[1] → ∀ r ∈ revZ, P r := by
    intro P a b r hr
    simp only [revZ, List.mem_cons, List.not_mem_nil, or_false] at hr
    rcases hr with rfl | rfl <;> assumption
  have hok : ∀ r ∈ revZ, RevOK r := by
    refine hall ?_ ?_
    · exact revXY_ok.2 _ (by simp [revY, revZ])
    · exact revOK_of (mainRule_ok inv_empty (by decide +kernel) (by decide) (by decide +kernel)) (by decide +kernel)
        (by intro a ha; simp [revZ, mainRule, ActionList.iter] at ha; subst ha; trivial) rfl rfl
  refine ⟨⟨pipelineOK_of (fun r hr => (hok r hr).ok) (by decide +kernel) (hall ?_ ?_) (by decide +kernel), ?_,
    plainPipeline_of (by decide +kernel) (hall ?_ ?_) (by decide +kernel) (by decide +kernel)⟩, hok⟩
  iterate 2 (intro a ha v hv; subst hv; simp [revZ, mainRule, Rule.acts, ActionList.iter, ActionList.empty] at ha)
  · refine hall ?_ ?_ <;> intro hg <;> simp [revZ, mainRule] at hg
  iterate 2 (intro a ha; simp [revZ, mainRule, Rule.acts, ActionList.iter, ActionList.empty] at ha; (try rcases ha with rfl | rfl) <;> simp_all)

/-- The hypotheses of `C98_different_lines_partial` hold for two rulesets that differ in a port, printed on two lines. -/
example : ∃ A' B' cs ds, reverseFields false (sortRuleset revY) = .ok A' ∧ reverseFields false (sortRuleset revZ) = .ok B' ∧
    toSingleTable A' true = .ok cs ∧ toSingleTable B' true = .ok ds ∧
    ∃ p c d L M, p.Sized ∧ FirstHit cs p c ∧ FirstHit ds p d ∧ c.label = .ok L ∧ d.label = .ok M ∧ L ≠ M := by
  refine C98_different_lines_partial false [(0, revY), (1, revZ)] (by decide) ?_ ?_ (by decide) [[0], [1]]
    (twoForms_lines (same := false) (by decide +kernel)) 0 1 _ _ (by simp) (by simp) (by simp)
  all_goals
    intro x hx
    simp only [List.mem_cons, List.not_mem_nil, or_false] at hx
    rcases hx with rfl | rfl
  · exact revY_good.1
  · exact revZ_good.1
  · exact revXY_ok.2
  · exact revZ_good.2

/-- The hypotheses of `C98_equal_files_partial` hold for a ruleset and its copy. -/
example : ∃ line ∈ [[0, 1]], 0 ∈ line ∧ 1 ∈ line := by
  refine C98_equal_files_partial false [(0, revX), (1, revX)] (by decide) ?_ ?_ (by decide) [[0, 1]]
    (twoForms_lines (same := true) (by decide +kernel)) 0 1 revX (by simp) (by simp)
  all_goals
    intro x hx
    simp only [List.mem_cons, List.not_mem_nil, or_false] at hx
    rcases hx with rfl | rfl
  · exact revX_good.1
  · exact revX_good.1
  · exact revXY_ok.1
  · exact revXY_ok.1

end OFE
