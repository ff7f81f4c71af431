import Verif.Main.Lemmas

/-!
# Properties of the command line tool and of the library's default check, end to end (C58, C59)
-/

namespace OFE
open DD

/-- C58, the order: the rules are sorted by table, then by priority from high to low, and rules with the same table and priority stay in order. -/
theorem C58_sorted {π : Type} (rules : List (Rule π)) : (sortRuleset rules).Perm rules ∧
    (sortRuleset rules).Pairwise (fun r s => r.table < s.table ∨ (r.table = s.table ∧ s.priority ≤ r.priority)) ∧
    ∀ t p, (sortRuleset rules).filter (fun r => r.table = t ∧ r.priority = p) = rules.filter (fun r => r.table = t ∧ r.priority = p) := by
  refine ⟨sortRuleset_perm rules, ?_, fun t p => ?_⟩
  · induction rules with
    | nil => exact List.Pairwise.nil
    | cons r rules ih =>
      change (insertKeyed r (sortRuleset rules)).Pairwise _
      generalize sortRuleset rules = l at ih
      clear rules
      induction l with
      | nil => simp [insertKeyed]
      | cons s l ih2 =>
        rw [List.pairwise_cons] at ih
        rw [insertKeyed]
        split
        · rename_i h
          refine List.pairwise_cons.2 ⟨fun x hx => ?_, List.pairwise_cons.2 ih⟩
          rcases List.mem_cons.1 hx with rfl | hx
          · exact h
          · have := ih.1 x hx; omega
        · rename_i h
          refine List.pairwise_cons.2 ⟨fun x hx => ?_, ih2 ih.2⟩
          rcases List.mem_cons.1 ((insertKeyed_perm r l).mem_iff.1 hx) with rfl | hx
          · omega
          · exact ih.1 x hx
  · induction rules with
    | nil => rfl
    | cons r rules ih =>
      rw [show sortRuleset (r :: rules) = insertKeyed r (sortRuleset rules) from rfl, List.filter_cons, ← ih]
      generalize sortRuleset rules = l
      clear ih rules
      induction l with
      | nil => rw [insertKeyed, List.filter_cons]
      | cons s l ih2 =>
        rw [insertKeyed]
        split
        · rw [List.filter_cons]
        · rename_i h
          rw [List.filter_cons, ih2, List.filter_cons (x := s)]
          by_cases hr : r.table = t ∧ r.priority = p
          · rw [if_pos (show decide (r.table = t ∧ r.priority = p) = true from decide_eq_true hr)]
            rw [if_neg (show ¬ decide (s.table = t ∧ s.priority = p) = true from fun hs => by
              have := of_decide_eq_true hs; omega)]
            rw [if_pos (show decide (r.table = t ∧ r.priority = p) = true from decide_eq_true hr)]
            rw [if_neg (show ¬ decide (s.table = t ∧ s.priority = p) = true from fun hs => by
              have := of_decide_eq_true hs; omega)]
          · rw [if_neg (show ¬ decide (r.table = t ∧ r.priority = p) = true from fun hs => hr (of_decide_eq_true hs))]
            rw [if_neg (show ¬ decide (r.table = t ∧ r.priority = p) = true from fun hs => hr (of_decide_eq_true hs))]

/-- Two tables, two rules with the same priority. -/
example : (sortRuleset [(⟨1, none, 1, .empty, .empty, [0]⟩ : Rule Nat), ⟨1, none, 0, .empty, .empty, [1]⟩, ⟨2, none, 0, .empty, .empty, [2]⟩,
    ⟨1, none, 0, .empty, .empty, [3]⟩]).map (fun r => r.path) = [[2], [1], [3], [0]] := by decide +kernel

/-- Specification: every run of a packet through the tables of `A` sends the packets that every run through those of `B` sends. -/
def SameForwarding (A B : List (Rule Nat)) : Prop :=
  ∀ p rs s rs' s', Runs A 0 (St.enter p) rs s → Runs B 0 (St.enter p) rs' s' → SameSent s.finish s'.finish

theorem sameSent_of_perm {a b : List (Dest × Pkt)} (h : a.Perm b) : SameSent a b := h.map _

theorem SameSent.swap {a b : List (Dest × Pkt)} (h : SameSent a b) : SameSent b a := h.symm

/-- A run through the tables sends what the first match in the single table sends. -/
theorem single_run {A : List (Rule Nat)} (h : GoodPipeline A) (hn : NoTies A) {cs : List (Rule Nat)}
    (e : toSingleTable (sortRuleset A) true = .ok cs) {p : Pkt} {c : Rule Nat} {l : ActionList} (hc : FirstHit cs p c)
    (hl : c.inst.fullActions = .ok l) {rs : List (Rule Nat)} {s : St} (hr : Runs A 0 (St.enter p) rs s) :
    SameSent (exec l.iter p).2 s.finish := by
  have hflat : FlatPipeline (sortRuleset A) := fun r hr hg => h.flat r (mem_sortRuleset.1 hr) hg
  have hnt : NoTies (sortRuleset A) := fun r hr s hs => hn r (mem_sortRuleset.1 hr) s (mem_sortRuleset.1 hs)
  obtain ⟨-, l', e', hs⟩ := C28_every_run_partial _ h.ok.sorted hflat hnt true cs e p c hc rs s hr.sorted
  rw [hl] at e'
  cases e'
  exact hs

/-- Equal forms, equal forwarding. -/
theorem forms_sound {s : List Label} {A B : List (Rule Nat)} (gA : GoodPipeline A) (gB : GoodPipeline B) (nA : NoTies A) (nB : NoTies B)
    {t : DD Nat} (fA : FormIn s A t) (fB : FormIn s B t) : SameForwarding A B := by
  intro p rs st rs' st' hr hr'
  obtain ⟨cs, ec, -⟩ := fA.single
  obtain ⟨ds, ed, -⟩ := fB.single
  obtain ⟨c, l, L, i, a1, a2, ⟨a3, -⟩, a4, a5⟩ := fA.packet ec p
  obtain ⟨d, m, M, j, b1, b2, ⟨b3, -⟩, b4, b5⟩ := fB.packet ed p
  rw [a4] at b4
  cases b4
  cases session_inj s a5 b5
  have h1 := single_run gA nA ec a1 a2 hr
  have h2 := single_run gB nB ed b1 b2 hr'
  have h3 := sameSent_of_perm ((a3.sends p).symm.trans (b3.sends p))
  exact (h1.swap.trans h3).trans h2

/-- The forms the tool computes, with the names they belong to. -/
theorem forms_of {ν : Type} {files : List (ν × List (Rule Nat))} (hnames : (files.map Prod.fst).Nodup) {forms : List (ν × DD Nat)} {s : List Label}
    (h : List.Forall₂ (fun (x : ν × List (Rule Nat)) (y : ν × DD Nat) => x.1 = y.1 ∧ FormIn s x.2 y.2) files forms) :
    files.map Prod.fst = forms.map Prod.fst ∧
    (∀ n t X, (n, t) ∈ forms → (n, X) ∈ files → FormIn s X t) ∧
    ∀ n X, (n, X) ∈ files → ∃ t, (n, t) ∈ forms := by
  induction h with
  | nil => simp
  | @cons x y files forms hxy hrest ih =>
    simp only [List.map_cons, List.nodup_cons] at hnames
    obtain ⟨i1, i2, i3⟩ := ih hnames.2
    refine ⟨by rw [List.map_cons, List.map_cons, i1, hxy.1], fun n t X hn hX => ?_, fun n X hX => ?_⟩
    · rcases List.mem_cons.1 hn with h1 | h1
      · rcases List.mem_cons.1 hX with h2 | h2
        · subst h1; subst h2; exact hxy.2
        · exfalso
          apply hnames.1
          rw [hxy.1, ← h1]
          exact List.mem_map_of_mem h2
      · rcases List.mem_cons.1 hX with h2 | h2
        · exfalso
          apply hnames.1
          rw [← h2, i1]
          exact List.mem_map_of_mem h1
        · exact i2 n t X h1 h2
    · rcases List.mem_cons.1 hX with h2 | h2
      · subst h2
        obtain ⟨n', t⟩ := y
        obtain rfl : n = n' := hxy.1
        exact ⟨t, List.mem_cons_self⟩
      · obtain ⟨t, ht⟩ := i3 n X h2
        exact ⟨t, List.mem_cons_of_mem _ ht⟩

theorem sessionReg_nil : (Cudd.Reg.init none none : LReg) = sessionReg [] := rfl

/-- C58: the tool prints every ruleset exactly once (when there are two or more), for either way of building the forms, and two rulesets on
the same line forward every packet in the same way.  Partial: pipelines as in C28 whose actions can be compared (C47), without ties. -/
theorem C58_same_line_sound_partial {ν : Type} (dc : Bool) (files : List (ν × List (Rule Nat))) (hnames : (files.map Prod.fst).Nodup)
    (hgood : ∀ x ∈ files, GoodPipeline x.2) (hties : ∀ x ∈ files, NoTies x.2) (hlen : 2 ≤ files.length) :
    ∃ lines, mainGroups dc files = .ok lines ∧ lines.flatten.Perm (files.map Prod.fst) ∧
      ∀ line ∈ lines, ∀ a ∈ line, ∀ b ∈ line, ∀ A B, (a, A) ∈ files → (b, B) ∈ files → SameForwarding A B := by
  obtain ⟨forms, s, e, hF⟩ := canonicalForms_spec dc files [] hgood
  obtain ⟨f1, f2, f3⟩ := forms_of hnames hF
  obtain ⟨g1, g2, -⟩ := C34_groups forms
  refine ⟨(groupEqual checkEqualPlain forms).map (·.map Prod.fst), ?_, ?_, ?_⟩
  · unfold mainGroups
    rw [sessionReg_nil, e]
    simp only [bind, Except.bind, pure, Except.pure]
    rw [if_neg (by omega)]
  · rw [f1, ← List.map_flatten]
    exact g1.map _
  · intro line hline a ha b hb A B hA hB
    obtain ⟨g, hg, rfl⟩ := List.mem_map.1 hline
    obtain ⟨⟨a', t⟩, hat, rfl⟩ := List.mem_map.1 ha
    obtain ⟨⟨b', u⟩, hbu, rfl⟩ := List.mem_map.1 hb
    have htu := (g2 g hg).2 _ hat _ hbu
    simp only at htu
    subst htu
    have m1 : (a', t) ∈ forms := g1.mem_iff.1 (List.mem_flatten.2 ⟨g, hg, hat⟩)
    have m2 : (b', t) ∈ forms := g1.mem_iff.1 (List.mem_flatten.2 ⟨g, hg, hbu⟩)
    exact forms_sound (hgood _ hA) (hgood _ hB) (hties _ hA) (hties _ hB) (f2 _ _ _ m1 hA) (f2 _ _ _ m2 hB)

/-- C58, the other way: for two rulesets on different lines there is a packet for which their single tables give different labels. -/
theorem C58_different_lines {ν : Type} (dc : Bool) (files : List (ν × List (Rule Nat))) (hnames : (files.map Prod.fst).Nodup)
    (hgood : ∀ x ∈ files, GoodPipeline x.2) (hlen : 2 ≤ files.length) (lines : List (List ν)) (hl : mainGroups dc files = .ok lines)
    (a b : ν) (A B : List (Rule Nat)) (hA : (a, A) ∈ files) (hB : (b, B) ∈ files) (hab : ∀ line ∈ lines, ¬ (a ∈ line ∧ b ∈ line)) :
    ∃ cs ds, toSingleTable (sortRuleset A) true = .ok cs ∧ toSingleTable (sortRuleset B) true = .ok ds ∧
      ∃ p c d L M, p.Sized ∧ FirstHit cs p c ∧ FirstHit ds p d ∧ c.label = .ok L ∧ d.label = .ok M ∧ L ≠ M := by
  obtain ⟨forms, s, e, hF⟩ := canonicalForms_spec dc files [] hgood
  obtain ⟨f1, f2, f3⟩ := forms_of hnames hF
  have hl' : lines = (groupEqual checkEqualPlain forms).map (·.map Prod.fst) := by
    unfold mainGroups at hl
    rw [sessionReg_nil, e] at hl
    simp only [bind, Except.bind, pure, Except.pure] at hl
    rw [if_neg (by omega)] at hl
    cases hl; rfl
  obtain ⟨t, ht⟩ := f3 a A hA
  obtain ⟨u, hu⟩ := f3 b B hB
  have fA := f2 _ _ _ ht hA
  have fB := f2 _ _ _ hu hB
  have wf : ∀ {X : List (Rule Nat)} {t : DD Nat}, FormIn ([] ++ s) X t → WF totBits 0 t ∧ WF (totBits - fieldPos 39) 0 t := by
    intro X t h
    obtain ⟨_, _, _, _, _, _, _, hf⟩ := h.single
    exact ⟨hf.wf, hf.outer⟩
  have hne : ¬ ∀ p : Pkt, p.Sized → t.lookup totBits p.hdr = u.lookup totBits p.hdr := by
    intro hall
    have hex : ∃ g ∈ groupEqual checkEqualPlain forms, (a, t) ∈ g ∧ (b, u) ∈ g := by
      refine (C34_same_group_iff totBits forms (fun x hx => ?_) (a, t) (b, u) ht hu).2 fun q => ?_
      · have : x.1 ∈ files.map Prod.fst := by rw [f1]; exact List.mem_map_of_mem hx
        obtain ⟨y, hy, hyx⟩ := List.mem_map.1 this
        obtain ⟨n, X⟩ := y
        simp only at hyx
        subst hyx
        exact (wf (f2 _ _ _ hx hy)).1
      · have key : ∀ {t : DD Nat}, WF (totBits - fieldPos 39) 0 t → t.lookup totBits q = t.lookup totBits (pktOf q).hdr := by
          intro t h
          unfold lookup
          apply eval_congr h
          intro i _ hi
          exact (pktOf_hdr q (by omega) (by omega)).symm
        have h1 := key (wf fA).2
        have h2 := key (wf fB).2
        simp only
        rw [h1, h2]
        exact hall _ (pktOf_sized q)
    obtain ⟨g, hg, h1, h2⟩ := hex
    exact hab (g.map Prod.fst) (by rw [hl']; exact List.mem_map_of_mem hg) ⟨List.mem_map_of_mem (f := Prod.fst) h1, List.mem_map_of_mem (f := Prod.fst) h2⟩
  obtain ⟨cs, ec, -⟩ := fA.single
  obtain ⟨ds, ed, -⟩ := fB.single
  refine ⟨cs, ds, ec, ed, ?_⟩
  simp only [not_forall] at hne
  obtain ⟨p, hp, hne⟩ := hne
  obtain ⟨c, l, L, i, a1, a2, ⟨-, a3⟩, a4, a5⟩ := fA.packet ec p
  obtain ⟨d, m, M, j, b1, b2, ⟨-, b3⟩, b4, b5⟩ := fB.packet ed p
  refine ⟨p, c, d, L, M, hp, a1, b1, a3, b3, ?_⟩
  rintro rfl
  rw [a5] at b5
  cases b5
  rw [a4, b4] at hne
  exact hne rfl

/-- C59: the library's way (`to_single_table`, `normalise`, `check_equal` with the default `check_match_redundancy=True`) always answers, and
True means that both pipelines forward every packet in the same way.  The session may have normalised anything before and in between.
Partial: as C58, and header fields hold values of their width. -/
theorem C59_default_check_sound_partial (h0 h1 h2 : List Label) (A B : List (Rule Nat)) (gA : GoodPipeline A) (gB : GoodPipeline B)
    (nA : NoTies A) (nB : NoTies B) {cs ds : List (Rule Nat)} (ea : toSingleTable A true = .ok cs) (eb : toSingleTable B true = .ok ds)
    (hlen : 2 + (h0.length + cs.length + h1.length + ds.length + h2.length) ≤ 2 ^ 26) :
    ∃ a r1 b r2 v, normaliseRules (sessionReg h0) cs = .ok (a, r1) ∧ normaliseRules (r1.runLabels h1).2 ds = .ok (b, r2) ∧
      checkEqual (r2.runLabels h2).2 a b = .ok v ∧
      (v = true → ∀ p : Pkt, p.Sized → ∀ rs s rs' s', Runs A 0 (St.enter p) rs s → Runs B 0 (St.enter p) rs' s' → SameSent s.finish s'.finish) := by
  obtain ⟨pA, tA⟩ := single_plain gA.ok gA.flat gA.plain ea
  obtain ⟨pB, tB⟩ := single_plain gB.ok gB.flat gB.plain eb
  have cover : ∀ {X xs : List (Rule Nat)}, GoodPipeline X → toSingleTable X true = .ok xs → ∀ p : Pkt, ∃ c, FirstHit xs p c := by
    intro X xs g e p
    obtain ⟨xs', e', hall⟩ := C28_single_table_partial X g.ok g.flat true
    rw [e] at e'; cases e'
    obtain ⟨c, -, -, -, h, -⟩ := hall p
    exact ⟨c, h⟩
  have acc : ∀ {xs : List (Rule Nat)} {p : Pkt}, (∃ c, FirstHit xs p c) → ∃ r ∈ xs, r.mat.accepts p := by
    rintro xs p ⟨c, x, y, rfl, h, -⟩
    exact ⟨c, by simp, h⟩
  obtain ⟨a, r1, b, r2, v, n1, n2, n3⟩ := C47_check_total h0 h1 h2 cs ds pA pB (fun r hr s hs => by rw [tA r hr, tA s hs])
    (fun r hr s hs => by rw [tB r hr, tB s hs]) (fun p _ => acc (cover gA ea p)) (fun p _ => acc (cover gB eb p)) hlen
  refine ⟨a, r1, b, r2, v, n1, n2, n3, ?_⟩
  rintro rfl p hp rs s rs' s' hr hr'
  have hS := C47_check_sound_partial h0 h1 h2 cs ds pA pB n1 n2 n3 hlen p hp
  obtain ⟨c, hc⟩ := cover gA ea p
  obtain ⟨d, hd⟩ := cover gB eb p
  obtain ⟨-, l, el, sl⟩ := C28_every_run_partial A gA.ok gA.flat nA true cs ea p c hc rs s hr
  obtain ⟨-, m, em, sm⟩ := C28_every_run_partial B gB.ok gB.flat nB true ds eb p d hd rs' s' hr'
  have h3 := sameSent_of_perm (hS _ _ (.inl ⟨c, l, hc, el, rfl⟩) (.inl ⟨d, m, hd, em, rfl⟩))
  exact (sl.swap.trans h3).trans sm

/-! ### Examples -/

/-- A rule for the examples. -/
def mainRule (prio table : Nat) (mat : Match) (acts : List Action) (goto : Option Nat) : Rule Nat :=
  ⟨prio, none, table, mat, ⟨goto, ⟨acts.map ([·]), acts⟩, ActionList.empty, none, false, none⟩, []⟩

/-- Table 0 changes VLAN 5 to VLAN 6, table 1 sends VLAN 6 to port 2 and the rest to port 3. -/
def mainX : List (Rule Nat) :=
  [mainRule 10 0 (Match.empty.append 6 0x1005 none) [.setField 6 0x1006] (some 1), mainRule 0 0 Match.empty [] (some 1),
   mainRule 10 1 (Match.empty.append 6 0x1006 none) [.output 2] none, mainRule 0 1 Match.empty [.output 3] none]

/-- The same in one table. -/
def mainY : List (Rule Nat) :=
  [mainRule 10 0 (Match.empty.append 6 0x1005 none) [.setField 6 0x1006, .output 2] none,
   mainRule 9 0 (Match.empty.append 6 0x1006 none) [.output 2] none, mainRule 0 0 Match.empty [.output 3] none]

/-- Also the same, but VLAN 6 is written again to packets that have it. -/
def mainZ : List (Rule Nat) :=
  [mainRule 10 0 (Match.empty.append 6 0x1005 none) [.setField 6 0x1006, .output 2] none,
   mainRule 9 0 (Match.empty.append 6 0x1006 none) [.setField 6 0x1006, .output 2] none, mainRule 0 0 Match.empty [.output 3] none]

theorem mainRule_ok {prio table : Nat} {mat : Match} {acts : List Action} {goto : Option Nat} (hi : mat.Inv) (hk : ∀ x ∈ mat.items, x.1 < 40)
    (ha : ∀ a ∈ acts, a.known = true) (he : ActionList.ofList acts = .ok ⟨acts.map ([·]), acts⟩) : RuleOK (mainRule prio table mat acts goto) :=
  ⟨hi, hk, ⟨acts, ha, he⟩, ⟨[], by decide, empty_set⟩⟩

/-- The conditions of `PipelineOK` that can be checked by computation, and the others. -/
theorem pipelineOK_of {rules : List (Rule Nat)} (hok : ∀ r ∈ rules, RuleOK r)
    (hdec : ∀ r ∈ rules, r.priority < maxPriority ∧ r.path = [] ∧ (∀ n ∈ r.inst.goto, r.table < n ∧ ∃ s ∈ rules, s.table = n) ∧
      ∃ s ∈ rules, s.table = r.table ∧ s.mat = Match.empty)
    (hacts : ∀ r ∈ rules, ∀ a ∈ r.acts, ∀ v, a ≠ .setField 2 v) (hz : ∃ r ∈ rules, r.table = 0) : PipelineOK rules where
  ok := hok
  noMeta r hr v hv := hacts r hr _ (List.mem_append_left _ hv) v rfl
  noMetaW r hr v hv := hacts r hr _ (List.mem_append_right _ hv) v rfl
  prio r hr := (hdec r hr).1
  path r hr := (hdec r hr).2.1
  zero := hz
  goto r hr n hn := (hdec r hr).2.2.1 n hn
  covered r hr p := by
    obtain ⟨s, h1, h2, h3⟩ := (hdec r hr).2.2.2
    exact ⟨s, h1, h2, by rw [h3]; exact empty_accepts p⟩

theorem mainX_good : GoodPipeline mainX ∧ NoTies mainX := by
  have hall : ∀ {P : Rule Nat → Prop}, P mainX[0] → P mainX[1] → P mainX[2] → P mainX[3] → ∀ r ∈ mainX, P r := by
    intro P a b c d r hr
    simp only [mainX, List.mem_cons, List.not_mem_nil, or_false] at hr
    rcases hr with rfl | rfl | rfl | rfl <;> assumption
  refine ⟨⟨pipelineOK_of (hall ?_ ?_ ?_ ?_) (by decide +kernel) (hall ?_ ?_ ?_ ?_) (by decide +kernel), ?_,
    plainPipeline_of (by decide +kernel) (hall ?_ ?_ ?_ ?_) (by decide +kernel) (by decide +kernel)⟩, ?_⟩
  · exact mainRule_ok (inv_append inv_empty _ _ _) (by decide +kernel) (by decide) (by decide +kernel)
  · exact mainRule_ok inv_empty (by decide +kernel) (by decide) (by decide +kernel)
  · exact mainRule_ok (inv_append inv_empty _ _ _) (by decide +kernel) (by decide) (by decide +kernel)
  · exact mainRule_ok inv_empty (by decide +kernel) (by decide) (by decide +kernel)
  iterate 4 (intro a ha v hv; subst hv; simp [mainX, mainRule, Rule.acts, ActionList.iter, ActionList.empty] at ha)
  · refine hall ?_ ?_ ?_ ?_ <;> intro _ a ha <;> simp [mainX, mainRule, ActionList.iter] at ha
    · subst ha; exact ⟨rfl, rfl, by simp⟩
    all_goals (simp_all [mainX, mainRule])
  iterate 4 (intro a ha; simp [mainX, mainRule, Rule.acts, ActionList.iter, ActionList.empty] at ha; try (subst ha; simp))
  · have : ∀ r ∈ mainX, ∀ s ∈ mainX, r.table = s.table → r.priority = s.priority → r = s := by decide +kernel
    exact fun r hr s hs a b _ => this r hr s hs a b

theorem mainY_good : GoodPipeline mainY ∧ NoTies mainY := by
  have hall : ∀ {P : Rule Nat → Prop}, P mainY[0] → P mainY[1] → P mainY[2] → ∀ r ∈ mainY, P r := by
    intro P a b c r hr
    simp only [mainY, List.mem_cons, List.not_mem_nil, or_false] at hr
    rcases hr with rfl | rfl | rfl <;> assumption
  refine ⟨⟨pipelineOK_of (hall ?_ ?_ ?_) (by decide +kernel) (hall ?_ ?_ ?_) (by decide +kernel), ?_,
    plainPipeline_of (by decide +kernel) (hall ?_ ?_ ?_) (by decide +kernel) (by decide +kernel)⟩, ?_⟩
  · exact mainRule_ok (inv_append inv_empty _ _ _) (by decide +kernel) (by decide) (by decide +kernel)
  · exact mainRule_ok (inv_append inv_empty _ _ _) (by decide +kernel) (by decide) (by decide +kernel)
  · exact mainRule_ok inv_empty (by decide +kernel) (by decide) (by decide +kernel)
  iterate 3 (intro a ha v hv; subst hv; simp [mainY, mainRule, Rule.acts, ActionList.iter, ActionList.empty] at ha)
  · refine hall ?_ ?_ ?_ <;> intro hg <;> simp [mainY, mainRule] at hg
  iterate 3 (intro a ha; simp [mainY, mainRule, Rule.acts, ActionList.iter, ActionList.empty] at ha; (try rcases ha with rfl | rfl) <;> simp_all)
  · have : ∀ r ∈ mainY, ∀ s ∈ mainY, r.table = s.table → r.priority = s.priority → r = s := by decide +kernel
    exact fun r hr s hs a b _ => this r hr s hs a b

theorem mainZ_good : GoodPipeline mainZ ∧ NoTies mainZ := by
  have hall : ∀ {P : Rule Nat → Prop}, P mainZ[0] → P mainZ[1] → P mainZ[2] → ∀ r ∈ mainZ, P r := by
    intro P a b c r hr
    simp only [mainZ, List.mem_cons, List.not_mem_nil, or_false] at hr
    rcases hr with rfl | rfl | rfl <;> assumption
  refine ⟨⟨pipelineOK_of (hall ?_ ?_ ?_) (by decide +kernel) (hall ?_ ?_ ?_) (by decide +kernel), ?_,
    plainPipeline_of (by decide +kernel) (hall ?_ ?_ ?_) (by decide +kernel) (by decide +kernel)⟩, ?_⟩
  · exact mainRule_ok (inv_append inv_empty _ _ _) (by decide +kernel) (by decide) (by decide +kernel)
  · exact mainRule_ok (inv_append inv_empty _ _ _) (by decide +kernel) (by decide) (by decide +kernel)
  · exact mainRule_ok inv_empty (by decide +kernel) (by decide) (by decide +kernel)
  iterate 3 (intro a ha v hv; subst hv; simp [mainZ, mainRule, Rule.acts, ActionList.iter, ActionList.empty] at ha)
  · refine hall ?_ ?_ ?_ <;> intro hg <;> simp [mainZ, mainRule] at hg
  iterate 3 (intro a ha; simp [mainZ, mainRule, Rule.acts, ActionList.iter, ActionList.empty] at ha; (try rcases ha with rfl | rfl) <;> simp_all)
  · have : ∀ r ∈ mainZ, ∀ s ∈ mainZ, r.table = s.table → r.priority = s.priority → r = s := by decide +kernel
    exact fun r hr s hs a b _ => this r hr s hs a b

/-- Three files: the two-table ruleset, the same in one table, and one with a needless set-field. -/
def mainFiles : List (Nat × List (Rule Nat)) := [(0, mainX), (1, mainZ), (2, mainY)]

theorem mainFiles_good : (∀ x ∈ mainFiles, GoodPipeline x.2) ∧ ∀ x ∈ mainFiles, NoTies x.2 := by
  have : ∀ x ∈ mainFiles, GoodPipeline x.2 ∧ NoTies x.2 := by
    intro x hx
    simp only [mainFiles, List.mem_cons, List.not_mem_nil, or_false] at hx
    rcases hx with rfl | rfl | rfl
    · exact mainX_good
    · exact mainZ_good
    · exact mainY_good
  exact ⟨fun x hx => (this x hx).1, fun x hx => (this x hx).2⟩

/-- What is decided by computation about the forms of the three files. -/
def mainFormsOK : Except PyErr (List (Nat × DD Nat)) → Bool
  | .ok [(n, x), (m, y), (k, z)] => n == 0 && m == 1 && k == 2 && checkEqualPlain x z && !checkEqualPlain x y
  | _ => false

/-- What the tool prints for them. -/
theorem mainFiles_lines (dc : Bool) : mainGroups dc mainFiles = .ok [[0, 2], [1]] := by
  have h : mainFormsOK (canonicalForms dc (Cudd.Reg.init none none) mainFiles) = true := by
    cases dc <;> decide +kernel
  unfold mainGroups
  generalize canonicalForms dc (Cudd.Reg.init none none) mainFiles = forms at h
  unfold mainFormsOK at h
  split at h
  · simp only [Bool.and_eq_true, beq_iff_eq, Bool.not_eq_true'] at h
    obtain ⟨⟨⟨⟨rfl, rfl⟩, rfl⟩, hz⟩, hy⟩ := h
    simp [bind, Except.bind, pure, Except.pure, mainFiles, groupEqual, hz, hy]
  · cases h

/-- The hypotheses of `C58_same_line_sound_partial` hold for the three files; the two-table ruleset and its single table are on the same line. -/
example : SameForwarding mainX mainY := by
  obtain ⟨lines, e, -, h⟩ := C58_same_line_sound_partial true mainFiles (by decide) mainFiles_good.1 mainFiles_good.2 (by decide)
  rw [mainFiles_lines] at e
  cases e
  exact h [0, 2] (by simp) 0 (by simp) 2 (by simp) _ _ (by simp [mainFiles]) (by simp [mainFiles])

/-- The hypotheses of `C58_different_lines` hold for the first two files. -/
example : ∃ cs ds, toSingleTable (sortRuleset mainX) true = .ok cs ∧ toSingleTable (sortRuleset mainZ) true = .ok ds ∧
    ∃ p c d L M, p.Sized ∧ FirstHit cs p c ∧ FirstHit ds p d ∧ c.label = .ok L ∧ d.label = .ok M ∧ L ≠ M :=
  C58_different_lines false mainFiles (by decide) mainFiles_good.1 (by decide) _ (mainFiles_lines false) 0 1 _ _ (by simp [mainFiles])
    (by simp [mainFiles]) (by simp)

/-- What is decided by computation about the default check of two rulesets. -/
def mainCheckOK (A B : List (Rule Nat)) : Bool :=
  match toSingleTable A true, toSingleTable B true with
  | .ok cs, .ok ds =>
    decide (cs.length ≤ 1000 ∧ ds.length ≤ 1000) &&
    match normaliseRules (sessionReg []) cs with
    | .ok (a, r1) =>
      match normaliseRules r1 ds with
      | .ok (b, r2) => checkEqual r2 a b == .ok true
      | .error _ => false
    | .error _ => false
  | _, _ => false

theorem sound_of_mainCheck {A B : List (Rule Nat)} (gA : GoodPipeline A) (gB : GoodPipeline B) (nA : NoTies A) (nB : NoTies B)
    (h : mainCheckOK A B = true) :
    ∀ p : Pkt, p.Sized → ∀ rs s rs' s', Runs A 0 (St.enter p) rs s → Runs B 0 (St.enter p) rs' s' → SameSent s.finish s'.finish := by
  unfold mainCheckOK at h
  split at h
  · rename_i cs ds e1 e2
    simp only [Bool.and_eq_true, decide_eq_true_eq] at h
    obtain ⟨hlen, h⟩ := h
    obtain ⟨a, r1, b, r2, v, n1, n2, n3, hs⟩ := C59_default_check_sound_partial [] [] [] A B gA gB nA nB e1 e2 (by simp only [List.length_nil]; omega)
    rw [n1] at h
    change (match normaliseRules r1 ds with | .ok (b, r2) => checkEqual r2 a b == .ok true | .error _ => false) = true at h
    change normaliseRules r1 ds = _ at n2
    rw [n2] at h
    change (checkEqual r2 a b == .ok true) = true at h
    change checkEqual r2 a b = _ at n3
    rw [n3] at h
    cases v with
    | true => exact hs rfl
    | false => exact absurd h (by decide)
  · cases h

/-- C58 does not hold the other way for packets: the tool separates rulesets that forward every packet in the same way, here because one of
them writes a value the packet already has.  The default check of the library accepts these two (the example of C59). -/
theorem C58_incomplete : ∃ (files : List (Nat × List (Rule Nat))) (A B : List (Rule Nat)),
    (∀ x ∈ files, GoodPipeline x.2) ∧ (∀ x ∈ files, NoTies x.2) ∧ (0, A) ∈ files ∧ (1, B) ∈ files ∧
    (∀ p : Pkt, p.Sized → ∀ rs s rs' s', Runs A 0 (St.enter p) rs s → Runs B 0 (St.enter p) rs' s' → SameSent s.finish s'.finish) ∧
    ∀ dc, ∃ lines, mainGroups dc files = .ok lines ∧ ∀ line ∈ lines, ¬ (0 ∈ line ∧ 1 ∈ line) := by
  refine ⟨mainFiles, mainX, mainZ, mainFiles_good.1, mainFiles_good.2, by simp [mainFiles], by simp [mainFiles], ?_,
    fun dc => ⟨_, mainFiles_lines dc, by simp⟩⟩
  exact sound_of_mainCheck mainX_good.1 mainZ_good.1 mainX_good.2 mainZ_good.2 (by decide +kernel)

example {cs ds : List (Rule Nat)} (ea : toSingleTable mainX true = .ok cs) (eb : toSingleTable mainY true = .ok ds) :=
  C59_default_check_sound_partial [] [] [] mainX mainY mainX_good.1 mainY_good.1 mainX_good.2 mainY_good.2 ea eb

end OFE
