import Verif.Main.DiffSpec

/-!
# Properties of the command line tool with `-D` (C97)
-/

namespace OFE
open DD

/-- Specification: the packet can take this path through the tables of `A`.  A path is a list of positions in the sorted ruleset. -/
def TakesPath (A : List (Rule Nat)) (p : Pkt) (o : List Nat) : Prop :=
  ∃ rs s, Runs A 0 (St.enter p) rs s ∧ o.map ((sortRuleset A)[·]?) = rs.map some

/-- Specification: the single tables of `A` and `B` label the packet differently. -/
def LabelledApart (A B : List (Rule Nat)) (p : Pkt) : Prop :=
  ∃ cs ds c d L M, toSingleTable (sortRuleset A) true = .ok cs ∧ toSingleTable (sortRuleset B) true = .ok ds ∧
    FirstHit cs p c ∧ FirstHit ds p d ∧ c.label = .ok L ∧ d.label = .ok M ∧ L ≠ M

/-- Specification: this pair of paths is shown. -/
def ShownPair (res : List (List Nat × List (List Nat))) (o x : List Nat) : Prop := ∃ l, (o, l) ∈ res ∧ x ∈ l

theorem Runs.unsorted {A : List (Rule Nat)} {t : Nat} {s s' : St} {rs : List (Rule Nat)} (h : Runs (sortRuleset A) t s rs s') : Runs A t s rs s' := by
  induction h with
  | last h1 h2 => exact .last (Hits.sorted.1 h1) h2
  | next h1 h2 _ ih => exact .next (Hits.sorted.1 h1) h2 ih

/-- The path of the first match is the path taken. -/
theorem path_taken {A : List (Rule Nat)} (g : GoodPipeline A) (sep : Separate A) {cs : List (Rule Nat)}
    (e : toSingleTable (sortRuleset A) true = .ok cs) {p : Pkt} {c : Rule Nat} (hc : FirstHit cs p c) :
    TakesPath A p c.path ∧ (∀ o, TakesPath A p o → o = c.path) ∧
      ∀ rs s, Runs A 0 (St.enter p) rs s → c.path.map ((sortRuleset A)[·]?) = rs.map some := by
  have hflat : FlatPipeline (sortRuleset A) := fun r hr hg => g.flat r (mem_sortRuleset.1 hr) hg
  obtain ⟨cs', e', h⟩ := C31_path_partial _ g.ok.sorted hflat true
  rw [e] at e'; cases e'
  obtain ⟨rs, s, h1, h2, h3⟩ := h p c hc
  have h3 := h3 sep.sorted.noTies
  refine ⟨⟨rs, s, h1.unsorted, h2⟩, ?_, ?_⟩
  · rintro o ⟨rs', s', r1, r2⟩
    cases h3 _ _ r1.sorted
    exact positions_unique sep.sorted (runs_accepts r1) r2 h2
  · intro rs' s' r1
    cases h3 _ _ r1.sorted
    exact h2

theorem mapM_forall {α β : Type} {f : α → Except PyErr β} {P : α → β → Prop} : ∀ {l : List α}, (∀ x ∈ l, ∃ y, f x = .ok y ∧ P x y) →
    ∃ ys, l.mapM f = .ok ys ∧ List.Forall₂ P l ys
  | [], _ => ⟨[], rfl, .nil⟩
  | x :: l, h => by
    obtain ⟨y, e1, h1⟩ := h x List.mem_cons_self
    obtain ⟨ys, e2, h2⟩ := mapM_forall fun z hz => h z (List.mem_cons_of_mem _ hz)
    exact ⟨y :: ys, by rw [List.mapM_cons, e1, e2]; rfl, .cons h1 h2⟩

theorem pairwise_zip_tail {α : Type} {R : α → α → Prop} : ∀ {l : List α}, l.Pairwise R → ∀ x ∈ l.zip l.tail, R x.1 x.2 ∧ x.1 ∈ l ∧ x.2 ∈ l
  | [], _, x, hx => by simp at hx
  | [_], _, x, hx => by simp at hx
  | a :: b :: l, h, x, hx => by
    rw [List.tail_cons, List.zip_cons_cons] at hx
    rcases List.mem_cons.1 hx with rfl | hx
    · exact ⟨(List.pairwise_cons.1 h).1 b (by simp), by simp, by simp⟩
    · obtain ⟨h1, h2, h3⟩ := pairwise_zip_tail (List.pairwise_cons.1 h).2 x hx
      exact ⟨h1, List.mem_cons_of_mem _ h2, List.mem_cons_of_mem _ h3⟩

theorem lookup_of_nodup {ν β : Type} [DecidableEq ν] {l : List (ν × β)} (hn : (l.map Prod.fst).Nodup) {a : ν} {b : β} (h : (a, b) ∈ l) :
    l.lookup a = some b := by
  induction l with
  | nil => cases h
  | cons x l ih =>
    obtain ⟨k, v⟩ := x
    simp only [List.map_cons, List.nodup_cons] at hn
    rcases List.mem_cons.1 h with h | _
    · cases h; simp
    · rename_i hm
      have : a ≠ k := fun e => hn.1 (e ▸ List.mem_map_of_mem (f := Prod.fst) hm)
      rw [List.lookup_cons, beq_eq_false_iff_ne.2 this]
      exact ih hn.2 hm

/-- Two forms that differ: what is shown for the rulesets they belong to. -/
theorem shown_for {s : List Label} {A B : List (Rule Nat)} (gA : GoodPipeline A) (gB : GoodPipeline B) (sA : Separate A)
    (sB : Separate B) {t u : DD Nat} (fA : FormIn s A t) (fB : FormIn s B u) (hne : t ≠ u) {cs ds : List (Rule Nat)}
    (ec : toSingleTable (sortRuleset A) true = .ok cs) (ed : toSingleTable (sortRuleset B) true = .ok ds) :
    ∃ res, conflictingRules (Cudd.difference 1 t u) cs ds = .ok res ∧
      (∀ o x, ShownPair res o x ↔ ∃ p, p.Sized ∧ TakesPath A p o ∧ TakesPath B p x ∧ LabelledApart A B p) ∧
      (∃ o x, ShownPair res o x) ∧
      ∀ p : Pkt, p.Sized → ∀ rs s rs' s', Runs A 0 (St.enter p) rs s → Runs B 0 (St.enter p) rs' s' → ¬ SameSent s.finish s'.finish →
        ∃ o x, ShownPair res o x ∧ o.map ((sortRuleset A)[·]?) = rs.map some ∧ x.map ((sortRuleset B)[·]?) = rs'.map some := by
  obtain ⟨res, e, h⟩ := conflictingRules_spec gA gB sA sB fA fB ec ed
  refine ⟨res, e, fun o x => ?_, ?_, ?_⟩
  · unfold ShownPair
    rw [h o x]
    constructor
    · rintro ⟨p, c, d, hp, ⟨a1, b1, L, M, l1, l2, l3⟩, rfl, rfl⟩
      exact ⟨p, hp, (path_taken gA sA ec a1).1, (path_taken gB sB ed b1).1, cs, ds, c, d, L, M, ec, ed, a1, b1, l1, l2, l3⟩
    · rintro ⟨p, hp, ho, hx, cs', ds', c, d, L, M, e1, e2, a1, b1, l1, l2, l3⟩
      rw [ec] at e1; rw [ed] at e2
      cases e1; cases e2
      exact ⟨p, c, d, hp, ⟨a1, b1, L, M, l1, l2, l3⟩, ((path_taken gA sA ec a1).2.1 o ho).symm, ((path_taken gB sB ed b1).2.1 x hx).symm⟩
  · have hq : ∃ q : Packet, t.lookup totBits q ≠ u.lookup totBits q := by
      by_contra hno
      apply hne
      apply lookup_ext fA.wf.1 fB.wf.1
      intro q
      by_contra hq
      exact hno ⟨q, hq⟩
    obtain ⟨q, hq⟩ := hq
    obtain ⟨c, l, L, i, a1, a2, ⟨-, a3⟩, a4, a5⟩ := fA.packet ec (pktOf q)
    obtain ⟨d, m, M, j, b1, b2, ⟨-, b3⟩, b4, b5⟩ := fB.packet ed (pktOf q)
    refine ⟨c.path, d.path, (h _ _).2 ⟨pktOf q, c, d, pktOf_sized q, ⟨a1, b1, L, M, a3, b3, ?_⟩, rfl, rfl⟩⟩
    rintro rfl
    rw [a5] at b5; cases b5
    rw [lookup_pktOf fA.wf.2, lookup_pktOf fB.wf.2, a4, b4] at hq
    exact hq rfl
  · intro p hp rs st rs' st' hr hr' hns
    obtain ⟨c, l, L, i, a1, a2, ⟨a3, a3'⟩, a4, a5⟩ := fA.packet ec p
    obtain ⟨d, m, M, j, b1, b2, ⟨b3, b3'⟩, b4, b5⟩ := fB.packet ed p
    refine ⟨c.path, d.path, (h _ _).2 ⟨p, c, d, hp, ⟨a1, b1, L, M, a3', b3', ?_⟩, rfl, rfl⟩, (path_taken gA sA ec a1).2.2 rs st hr,
      (path_taken gB sB ed b1).2.2 rs' st' hr'⟩
    rintro rfl
    apply hns
    have h1 := single_run gA sA.noTies ec a1 a2 hr
    have h2 := single_run gB sB.noTies ed b1 b2 hr'
    exact (h1.swap.trans (sameSent_of_perm ((a3.sends p).symm.trans (b3.sends p)))).trans h2

/-- The dict of single tables. -/
theorem singleTables_spec {ν : Type} [DecidableEq ν] {s : List Label} : ∀ {files : List (ν × List (Rule Nat))} {forms : List (ν × DD Nat)},
    List.Forall₂ (fun (x : ν × List (Rule Nat)) (y : ν × DD Nat) => x.1 = y.1 ∧ FormIn s x.2 y.2) files forms → (files.map Prod.fst).Nodup →
    ∃ singles, singleTables files = .ok singles ∧
      ∀ a A, (a, A) ∈ files → ∃ cs, singles.lookup a = some cs ∧ toSingleTable (sortRuleset A) true = .ok cs := by
  intro files forms hF hn
  obtain ⟨singles, e, h⟩ := mapM_forall (P := fun (x y : ν × List (Rule Nat)) => x.1 = y.1 ∧ toSingleTable (sortRuleset x.2) true = .ok y.2)
    (f := fun x : ν × List (Rule Nat) => do return (x.1, ← toSingleTable (sortRuleset x.2) true)) (l := files) (fun x hx => by
      obtain ⟨y, -, hy⟩ : ∃ y, y ∈ forms ∧ FormIn s x.2 y.2 := by
        clear hn
        induction hF with
        | nil => cases hx
        | cons hxy _ ih =>
          rcases List.mem_cons.1 hx with rfl | hx
          · exact ⟨_, List.mem_cons_self, hxy.2⟩
          · obtain ⟨y, h1, h2⟩ := ih hx
            exact ⟨y, List.mem_cons_of_mem _ h1, h2⟩
      obtain ⟨cs, ec, -⟩ := hy.single
      exact ⟨(x.1, cs), by rw [ec]; rfl, rfl, ec⟩)
  refine ⟨singles, e, fun a A hA => ?_⟩
  have hkeys : singles.map Prod.fst = files.map Prod.fst := by
    clear e hF hn hA
    induction h with
    | nil => rfl
    | cons hxy _ ih => rw [List.map_cons, List.map_cons, ih, hxy.1]
  obtain ⟨cs, hm, ec⟩ : ∃ cs, (a, cs) ∈ singles ∧ toSingleTable (sortRuleset A) true = .ok cs := by
    clear e hF hn hkeys
    induction h with
    | nil => cases hA
    | @cons x y _ _ hxy _ ih =>
      obtain ⟨y1, y2⟩ := y
      rcases List.mem_cons.1 hA with rfl | hA
      · obtain rfl : a = y1 := hxy.1
        exact ⟨y2, List.mem_cons_self, hxy.2⟩
      · obtain ⟨cs, h1, h2⟩ := ih hA
        exact ⟨cs, List.mem_cons_of_mem _ h1, h2⟩
  exact ⟨cs, lookup_of_nodup (by rw [hkeys]; exact hn) hm, ec⟩

/-- C97: for the first rulesets of each two successive lines, and for those only, `-D` shows exactly the pairs of paths taken by some packet that the
two single tables label differently; there is such a pair, and every packet that the two rulesets forward differently has its pair of paths shown.
Partial: pipelines as in C58 in which rules of a table with the same priority do not match a common packet. -/
theorem C97_shown_partial {ν : Type} [DecidableEq ν] (dc : Bool) (files : List (ν × List (Rule Nat))) (hnames : (files.map Prod.fst).Nodup)
    (hgood : ∀ x ∈ files, GoodPipeline x.2) (hsep : ∀ x ∈ files, Separate x.2) (hlen : 2 ≤ files.length) :
    ∃ lines outs, mainGroups dc files = .ok lines ∧ mainDifferences dc files = .ok outs ∧
      outs.map (fun x => (some x.1, some x.2.1)) = (lines.zip lines.tail).map (fun x => (x.1.head?, x.2.head?)) ∧
      ∀ a b res, (a, b, res) ∈ outs → ∀ A B, (a, A) ∈ files → (b, B) ∈ files →
        (∀ o x, ShownPair res o x ↔ ∃ p, p.Sized ∧ TakesPath A p o ∧ TakesPath B p x ∧ LabelledApart A B p) ∧
        (∃ o x, ShownPair res o x) ∧
        ∀ p : Pkt, p.Sized → ∀ rs s rs' s', Runs A 0 (St.enter p) rs s → Runs B 0 (St.enter p) rs' s' → ¬ SameSent s.finish s'.finish →
          ∃ o x, ShownPair res o x ∧ o.map ((sortRuleset A)[·]?) = rs.map some ∧ x.map ((sortRuleset B)[·]?) = rs'.map some := by
  obtain ⟨forms, s, e, hF⟩ := canonicalForms_spec dc files [] hgood
  obtain ⟨f1, f2, f3⟩ := forms_of hnames hF
  obtain ⟨singles, es, hs⟩ := singleTables_spec hF hnames
  obtain ⟨g1, g2, g3⟩ := C34_groups forms
  have hfile : ∀ {a t}, (a, t) ∈ forms → ∃ A, (a, A) ∈ files := by
    intro a t h
    have : a ∈ files.map Prod.fst := by rw [f1]; exact List.mem_map_of_mem (f := Prod.fst) h
    obtain ⟨⟨a', A⟩, hA, rfl⟩ := List.mem_map.1 this
    exact ⟨A, hA⟩
  obtain ⟨outs, eo, ho⟩ := mapM_forall (l := (groupEqual checkEqualPlain forms).zip (groupEqual checkEqualPlain forms).tail)
    (f := fun x => showDifference singles x.1 x.2)
    (P := fun x y => (some y.1, some y.2.1) = ((x.1.map Prod.fst).head?, (x.2.map Prod.fst).head?) ∧
      ∀ A B, (y.1, A) ∈ files → (y.2.1, B) ∈ files →
        (∀ o x, ShownPair y.2.2 o x ↔ ∃ p, p.Sized ∧ TakesPath A p o ∧ TakesPath B p x ∧ LabelledApart A B p) ∧
        (∃ o x, ShownPair y.2.2 o x) ∧
        ∀ p : Pkt, p.Sized → ∀ rs s rs' s', Runs A 0 (St.enter p) rs s → Runs B 0 (St.enter p) rs' s' → ¬ SameSent s.finish s'.finish →
          ∃ o x, ShownPair y.2.2 o x ∧ o.map ((sortRuleset A)[·]?) = rs.map some ∧ x.map ((sortRuleset B)[·]?) = rs'.map some)
    (by
      rintro ⟨g, h⟩ hx
      obtain ⟨hR, hg, hh⟩ := pairwise_zip_tail g3 _ hx
      simp only at hR hg hh
      cases g with
      | nil => exact absurd rfl (g2 _ hg).1
      | cons x g =>
        obtain ⟨a, t⟩ := x
        cases h with
        | nil => exact absurd rfl (g2 _ hh).1
        | cons y h =>
          obtain ⟨b, u⟩ := y
          have ma : (a, t) ∈ forms := g1.mem_iff.1 (List.mem_flatten.2 ⟨_, hg, List.mem_cons_self⟩)
          have mb : (b, u) ∈ forms := g1.mem_iff.1 (List.mem_flatten.2 ⟨_, hh, List.mem_cons_self⟩)
          obtain ⟨A, hA⟩ := hfile ma
          obtain ⟨B, hB⟩ := hfile mb
          obtain ⟨cs, lc, ec⟩ := hs a A hA
          obtain ⟨ds, ld, ed⟩ := hs b B hB
          obtain ⟨res, er, hres⟩ := shown_for (hgood _ hA) (hgood _ hB) (hsep _ hA) (hsep _ hB) (f2 _ _ _ ma hA) (f2 _ _ _ mb hB)
            (hR _ List.mem_cons_self _ List.mem_cons_self) ec ed
          refine ⟨(a, b, res), ?_, rfl, fun A' B' hA' hB' => ?_⟩
          · simp only [showDifference, lc, ld, er]; rfl
          · have k1 := lookup_of_nodup hnames hA
            rw [lookup_of_nodup hnames hA'] at k1
            have k2 := lookup_of_nodup hnames hB
            rw [lookup_of_nodup hnames hB'] at k2
            cases k1; cases k2
            exact hres)
  refine ⟨(groupEqual checkEqualPlain forms).map (·.map Prod.fst), outs, ?_, ?_, ?_, ?_⟩
  · unfold mainGroups
    rw [sessionReg_nil, e]
    simp only [bind, Except.bind, pure, Except.pure]
    rw [if_neg (by omega)]
  · unfold mainDifferences
    rw [sessionReg_nil, e, es]
    simp only [bind, Except.bind]
    rw [if_neg (by omega)]
    exact eo
  · rw [← List.map_tail, List.zip_map, List.map_map]
    clear eo
    revert ho
    generalize (groupEqual checkEqualPlain forms).zip (groupEqual checkEqualPlain forms).tail = zs
    intro ho
    induction ho with
    | nil => rfl
    | cons hxy _ ih => rw [List.map_cons, List.map_cons, ih, hxy.1]; rfl
  · intro a b res hm
    clear eo
    revert ho
    generalize (groupEqual checkEqualPlain forms).zip (groupEqual checkEqualPlain forms).tail = zs
    intro ho
    induction ho with
    | nil => cases hm
    | cons hxy _ ih =>
      rcases List.mem_cons.1 hm with rfl | hm
      · exact hxy.2
      · exact ih hm

theorem separate_of {rules : List (Rule Nat)} (h : rules.Pairwise fun r s => r.table = s.table → r.priority ≠ s.priority) : Separate rules :=
  h.imp fun h1 ht hp _ => h1 ht hp

/-- A third ruleset: everything to port 3. -/
def mainW : List (Rule Nat) := [mainRule 0 0 Match.empty [.output 3] none]

theorem mainW_good : GoodPipeline mainW := by
  have hall : ∀ {P : Rule Nat → Prop}, P mainW[0] → ∀ r ∈ mainW, P r := by
    intro P a r hr
    simp only [mainW, List.mem_cons, List.not_mem_nil, or_false] at hr
    rcases hr with rfl; assumption
  refine ⟨pipelineOK_of (hall ?_) (by decide +kernel) (hall ?_) (by decide +kernel), ?_,
    plainPipeline_of (by decide +kernel) (hall ?_) (by decide +kernel) (by decide +kernel)⟩
  · exact mainRule_ok inv_empty (by decide +kernel) (by decide) (by decide +kernel)
  iterate 1 (intro a ha v hv; subst hv; simp [mainW, mainRule, Rule.acts, ActionList.iter, ActionList.empty] at ha)
  · refine hall ?_ <;> intro hg <;> simp [mainW, mainRule] at hg
  iterate 1 (intro a ha; simp [mainW, mainRule, Rule.acts, ActionList.iter, ActionList.empty] at ha; (try rcases ha with rfl | rfl) <;> simp_all)

/-- Three rulesets on three lines. -/
def diffFiles : List (Nat × List (Rule Nat)) := [(0, mainX), (1, mainZ), (2, mainW)]

theorem diffFiles_good : (∀ x ∈ diffFiles, GoodPipeline x.2) ∧ ∀ x ∈ diffFiles, Separate x.2 := by
  have : ∀ x ∈ diffFiles, GoodPipeline x.2 ∧ Separate x.2 := by
    intro x hx
    simp only [diffFiles, List.mem_cons, List.not_mem_nil, or_false] at hx
    rcases hx with rfl | rfl | rfl
    · exact ⟨mainX_good.1, separate_of (by decide +kernel)⟩
    · exact ⟨mainZ_good.1, separate_of (by decide +kernel)⟩
    · exact ⟨mainW_good, separate_of (by decide +kernel)⟩
  exact ⟨fun x hx => (this x hx).1, fun x hx => (this x hx).2⟩

/-- What is decided by computation about the forms of the three files. -/
def diffFormsOK : Except PyErr (List (Nat × DD Nat)) → Bool
  | .ok [(n, x), (m, y), (k, z)] => n == 0 && m == 1 && k == 2 && !checkEqualPlain x z && !checkEqualPlain x y && !checkEqualPlain y z
  | _ => false

theorem diffFiles_lines (dc : Bool) : mainGroups dc diffFiles = .ok [[0], [1], [2]] := by
  have h : diffFormsOK (canonicalForms dc (Cudd.Reg.init none none) diffFiles) = true := by
    cases dc <;> decide +kernel
  unfold mainGroups
  generalize canonicalForms dc (Cudd.Reg.init none none) diffFiles = forms at h
  unfold diffFormsOK at h
  split at h
  · simp only [Bool.and_eq_true, beq_iff_eq, Bool.not_eq_true'] at h
    obtain ⟨⟨⟨⟨⟨rfl, rfl⟩, rfl⟩, hz⟩, hy⟩, hw⟩ := h
    simp [bind, Except.bind, pure, Except.pure, diffFiles, groupEqual, hz, hy, hw]
  · cases h

/-- **C97** Violated (and the help text, which says that the first ruleset is compared with each differing one): of three rulesets on three lines the
first and the third are not compared. -/
theorem C97_not_compared : ∀ dc, mainGroups dc diffFiles = .ok [[0], [1], [2]] ∧
    ∃ outs, mainDifferences dc diffFiles = .ok outs ∧ outs.map (fun x => (x.1, x.2.1)) = [(0, 1), (1, 2)] := by
  intro dc
  refine ⟨diffFiles_lines dc, ?_⟩
  obtain ⟨lines, outs, e1, e2, e3, -⟩ := C97_shown_partial dc diffFiles (by decide) diffFiles_good.1 diffFiles_good.2 (by decide)
  rw [diffFiles_lines] at e1
  cases e1
  refine ⟨outs, e2, ?_⟩
  have h : (outs.map fun x => (x.1, x.2.1)).map (fun x => (some x.1, some x.2)) = [((0 : Nat), (1 : Nat)), (1, 2)].map (fun x => (some x.1, some x.2)) := by
    rw [List.map_map]
    exact e3
  exact (List.map_inj_right (fun a b hab => by
    obtain ⟨a1, a2⟩ := a; obtain ⟨b1, b2⟩ := b
    simp only [Prod.mk.injEq, Option.some.injEq] at hab
    rw [hab.1, hab.2])).1 h

/-- The hypotheses of `C97_shown_partial` hold for these files; something is shown for the first two. -/
example : ∃ outs, mainDifferences true diffFiles = .ok outs ∧ ∃ res, (0, 1, res) ∈ outs ∧ ∃ o x, ShownPair res o x := by
  obtain ⟨lines, outs, e1, e2, e3, h⟩ := C97_shown_partial true diffFiles (by decide) diffFiles_good.1 diffFiles_good.2 (by decide)
  obtain ⟨-, outs', e2', e4⟩ := C97_not_compared true
  rw [e2] at e2'; cases e2'
  refine ⟨outs, e2, ?_⟩
  have : (0, 1) ∈ outs.map (fun x => (x.1, x.2.1)) := by rw [e4]; simp
  obtain ⟨⟨a, b, res⟩, hm, hab⟩ := List.mem_map.1 this
  simp only [Prod.mk.injEq] at hab
  obtain ⟨rfl, rfl⟩ := hab
  exact ⟨res, hm, (h _ _ _ hm _ _ (by simp [diffFiles]; rfl) (by simp [diffFiles]; rfl)).2.1⟩

/-- What is shown for the two-table ruleset and the one that writes VLAN 6 again: the packets of VLAN 6, by their rules in both. -/
example : ((mainDifferences true mainFiles).toOption.map fun l => l.map fun x => x.2.2) = some [[([1, 2], [[1]])]] := by decide +kernel

/-- The rule printed for a position of a path, check_equivalence.py:189-192: the path holds the rule objects, whose priorities were changed in place
by `scale_ruleset`, ruleset.py:117-121 and 136-138.  (Rules filled in by `to_single_table` come after those of the ruleset.) -/
def shownRule (A : List (Rule Nat)) (i : Nat) : Except PyErr (Option (Rule Nat)) := do
  return (← scaleRuleset (sortRuleset A))[i]?

/-- **C97** The rules of the paths are not shown as they are in the file: priorities are scaled, here to a number that is no OpenFlow priority. -/
theorem C97_priorities : ∃ A i r r', GoodPipeline A ∧ (sortRuleset A)[i]? = some r ∧ shownRule A i = .ok (some r') ∧
    { r' with priority := r.priority } = r ∧ r.priority = 10 ∧ r'.priority = 655360 := by
  refine ⟨mainX, 0, mainRule 10 0 (Match.empty.append 6 0x1005 none) [.setField 6 0x1006] (some 1),
    mainRule 655360 0 (Match.empty.append 6 0x1005 none) [.setField 6 0x1006] (some 1), mainX_good.1, rfl, ?_, rfl, rfl, rfl⟩
  rfl

/-- C33: the rules that `to_single_table` returns have pairwise different paths, none of them empty, which is what `C33_find_conflicting_paths`
asks for.  (The rules given to it have no path yet.) -/
theorem C33_single_table_paths (rules cs : List (Rule Nat)) (openflow : Bool) (hp : ∀ r ∈ rules, r.path = [])
    (e : toSingleTable rules openflow = .ok cs) : (cs.map (·.path)).Nodup ∧ [] ∉ cs.map (·.path) := by
  have hprio : ∀ r ∈ rules, r.priority < maxPriority := by
    intro r hr
    by_contra hlt
    rw [toSingleTable, scaleRuleset_assert ⟨r, hr, Nat.le_of_not_lt hlt⟩] at e
    cases e
  have h0 : ∃ r ∈ rules, r.table = 0 := by
    by_contra hno
    rw [toSingleTable, scaleRuleset_ok hprio] at e
    change toSingleTableScaled _ openflow = _ at e
    have hn : 0 ∉ tablesOf (rules.map (scaled (tablesOf rules))) := by
      intro hm
      obtain ⟨r, hr, h⟩ := mem_tablesOf.1 hm
      obtain ⟨r0, hr0, rfl⟩ := List.mem_map.1 hr
      exact hno ⟨r0, hr0, h⟩
    unfold toSingleTableScaled at e
    rw [if_neg hn] at e
    cases e
  obtain ⟨h1, h2⟩ := single_paths hprio h0 hp e
  refine ⟨h1, fun hm => ?_⟩
  obtain ⟨c, hc, h⟩ := List.mem_map.1 hm
  exact h2 c hc h

example : (∀ r ∈ mainX, r.path = []) ∧ (toSingleTable mainX true).toOption.map (·.map (·.path)) = some [[0, 2], [0, 3], [1, 2], [1, 3]] := by
  refine ⟨by decide +kernel, by decide +kernel⟩

/-- C33 does not hold for rules that share a path (as rules that did not come from `to_single_table` do): the later rule's entry replaces the
earlier one's, and the new path 6 that packets of the original path 5 take is not listed. -/
theorem C33_overwritten : ∃ (orig new : List (Nat × Nat)) (res : List (Nat × List Nat)),
    findConflictingPaths 1 9 0 (term 9) orig new = .ok res ∧
    ∃ p, FirstMatch 1 p orig (some 5) ∧ FirstMatch 1 p new (some 6) ∧ ¬ ∃ l, (5, l) ∈ res ∧ 6 ∈ l := by
  refine ⟨[(0b01, 5), (0b10, 5)], [(0b01, 6), (0b10, 7)], [(5, [7])], by decide +kernel, fun _ => false, .hit ?_, .hit ?_, by simp⟩ <;>
    (intro i hi; obtain rfl : i = 0 := by omega) <;> decide

end OFE
