import Verif.Props.Difference
import Verif.Props.MainTunnel

/-!
# C97: option -D on pipelines that push and pop headers
-/

namespace OFE
open DD

/-- Sorting a single table by priority does not change which rule a packet with known headers hits first. -/
theorem sorted_firstHit_t {rules cs : List (Rule Nat)} (h : PipelineOK rules) (hf : TunnelPipeline rules) (hd : Separate rules)
    (e : toSingleTable rules true = .ok cs) (hz : ∀ c ∈ cs, c.table = 0) {p : Pkt} (hp : HeadersKnown rules p) {c : Rule Nat} (hc : FirstHit cs p c) :
    FirstHit (sortRuleset cs) p c := by
  obtain ⟨b, a, hcs, h1, h2⟩ := hc
  have hag := C30_tunnels_agree_partial rules h hf hd true cs e p hp b a c hcs h1 h2
  have hcm : c ∈ sortRuleset cs := mem_sortRuleset.2 (by rw [hcs]; simp)
  obtain ⟨r, hr⟩ := exists_firstHit ⟨c, hcm, h1⟩
  obtain ⟨b', a', e', r1, r2⟩ := hr
  have hrm : r ∈ cs := mem_sortRuleset.1 (by rw [e']; simp)
  have hor : r = c ∨ r ∈ b ++ a := by
    rw [hcs] at hrm
    rcases List.mem_append.1 hrm with hm | hm
    · exact .inr (by simp [hm])
    · rcases List.mem_cons.1 hm with rfl | hm
      · exact .inl rfl
      · exact .inr (by simp [hm])
  rcases hor with rfl | hor
  · exact ⟨b', a', e', r1, r2⟩
  · have hlt := hag r hor r1
    rw [e'] at hcm
    rcases List.mem_append.1 hcm with hm | hm
    · exact absurd h1 (r2 c hm)
    · rcases List.mem_cons.1 hm with rfl | hm
      · omega
      · have hp := (C58_sorted cs).2.1
        rw [e'] at hp
        have := (List.pairwise_cons.1 (List.pairwise_append.1 hp).2.1).1 c hm
        have z1 := hz r hrm
        have z2 := hz c (by rw [hcs]; simp)
        omega

/-- The first match among the entries belongs to the first rule hit. -/
theorem entries_firstHit {rules : List (Rule Nat)} {es : List (Nat × List Nat)} (h : List.Forall₂ PathEntry rules es) {p : Pkt} {o : List Nat}
    (hm : FirstMatch totBits p.hdr es (some o)) : ∃ c, FirstHit rules p c ∧ c.path = o := by
  induction h with
  | nil => cases hm
  | @cons r x rules es hx hrest ih =>
    obtain ⟨w, q⟩ := x
    cases hm with
    | hit hcov => exact ⟨r, ⟨[], rules, rfl, (hx.covers p).1 hcov, by simp⟩, hx.path.symm⟩
    | miss hcov hm =>
      obtain ⟨c, ⟨b, a, e, h1, h2⟩, hc⟩ := ih hm
      refine ⟨c, ⟨r :: b, a, by rw [e]; rfl, h1, fun y hy => ?_⟩, hc⟩
      rcases List.mem_cons.1 hy with rfl | hy
      · exact fun hacc => hcov ((hx.covers p).2 hacc)
      · exact h2 y hy

theorem FormT.wf {s : List Label} {A : List (Rule Nat)} {t : DD Nat} (h : FormT s A t) : WF totBits 0 t ∧ WF (totBits - fieldPos 39) 0 t := by
  obtain ⟨_, _, _, _, _, _, hf⟩ := h
  exact ⟨hf.wf, hf.outer⟩

/-- The single table of a pipeline with pushes and pops. -/
theorem tgood_single {A : List (Rule Nat)} (h : TunnelGood A) {cs : List (Rule Nat)} (e : toSingleTable (sortRuleset A) true = .ok cs) :
    ((∀ c ∈ cs, PlainRule c) ∧ ∀ c ∈ cs, c.table = 0) ∧ (cs.map (·.path)).Nodup ∧ ∀ c ∈ cs, c.path ≠ [] :=
  ⟨tsingle_plain h.sorted.ok h.sorted.tun h.sorted.plain e, single_paths h.ok.sorted.prio h.ok.sorted.zero h.ok.sorted.path e⟩

/-- Specification: the path at which the table sends the packet on. -/
def SentTo (rules : List (Rule Nat)) (p : Pkt) (o : List Nat) : Prop := ∃ c, FirstHit rules p c ∧ c.path = o

/-- What the entries say about a packet that some rule accepts. -/
theorem entries_sentTo {rules : List (Rule Nat)} {es : List (Nat × List Nat)} (h : List.Forall₂ PathEntry rules es) {p : Pkt} {o : List Nat}
    (hp : ∃ c, FirstHit rules p c) : (∃ y, FirstMatch totBits p.hdr es y ∧ y.getD [] = o) ↔ SentTo rules p o := by
  obtain ⟨c, hc⟩ := hp
  constructor
  · rintro ⟨y, hy, rfl⟩
    cases hy.unique (firstHit_entries h hc)
    exact ⟨c, hc, rfl⟩
  · rintro ⟨c, hc, rfl⟩
    exact ⟨_, firstHit_entries h hc, rfl⟩

/-- Every packet hits a rule of the sorted single table. -/
theorem tgood_cover {A : List (Rule Nat)} (h : TunnelGood A) {cs : List (Rule Nat)} (e : toSingleTable (sortRuleset A) true = .ok cs) (p : Pkt) :
    ∃ c, FirstHit (sortRuleset cs) p c := by
  obtain ⟨c, ⟨x, y, hxy, h1, -⟩, -⟩ := C28_tunnels_cover _ h.sorted.ok h.sorted.tun true cs e p
  exact exists_firstHit ⟨c, mem_sortRuleset.2 (by rw [hxy]; simp), h1⟩

/-- What `find_conflicting_paths` returns for two forms, in terms of the rules hit first in the sorted single tables. -/
theorem conflicting_t {s : List Label} {A B : List (Rule Nat)} (gA : TunnelGood A) (gB : TunnelGood B) {t u : DD Nat} (fA : FormT s A t)
    (fB : FormT s B u) {cs ds : List (Rule Nat)} (ec : toSingleTable (sortRuleset A) true = .ok cs) (ed : toSingleTable (sortRuleset B) true = .ok ds) :
    ∃ res, conflictingRules (Cudd.difference 1 t u) cs ds = .ok res ∧
      ∀ o x, ShownPair res o x ↔ ∃ p, p.Sized ∧ SentTo (sortRuleset cs) p o ∧ SentTo (sortRuleset ds) p x ∧
        t.lookup totBits p.hdr ≠ u.lookup totBits p.hdr := by
  obtain ⟨⟨pc, zc⟩, nc, ec0⟩ := tgood_single gA ec
  obtain ⟨⟨pd, zd⟩, nd, ed0⟩ := tgood_single gB ed
  obtain ⟨es, e1, f1⟩ := pathEntries_spec (rules := sortRuleset cs) (fun r hr => pc r (mem_sortRuleset.1 hr)) fun r hr => zc r (mem_sortRuleset.1 hr)
  obtain ⟨es', e2, f2⟩ := pathEntries_spec (rules := sortRuleset ds) (fun r hr => pd r (mem_sortRuleset.1 hr)) fun r hr => zd r (mem_sortRuleset.1 hr)
  have hmem : ∀ {rules : List (Rule Nat)} {es : List (Nat × List Nat)}, List.Forall₂ PathEntry rules es →
      es.map (·.2) = rules.map (·.path) ∧ ∀ e ∈ es, WcValid totBits e.1 ∧ FreeBelow (fieldPos 39) e.1 := by
    intro rules es h
    induction h with
    | nil => simp
    | cons h _ ih =>
      refine ⟨by rw [List.map_cons, List.map_cons, ih.1, h.path], fun e he => ?_⟩
      rcases List.mem_cons.1 he with rfl | he
      · exact ⟨h.valid, h.free⟩
      · exact ih.2 e he
  have hdiff : Cudd.difference 1 t u = DD.difference 1 t u := (Cudd.C05_C07_cudd_same totBits 1 t u fA.wf.1 fB.wf.1).2.2.2
  have hpart := C07_difference_partial totBits 1 t u fA.wf.1 fB.wf.1
  obtain ⟨res, r1, r2⟩ := C33_find_conflicting_paths totBits (by decide) 1 [] es es' (fun e he => ((hmem f1).2 e he).1)
    (fun e he => ((hmem f2).2 e he).1)
    (by rw [(hmem f1).1]; exact ((sortRuleset_perm cs).map _).nodup_iff.2 nc)
    (by
      rw [(hmem f1).1]
      intro hm
      obtain ⟨r, hr, h0⟩ := List.mem_map.1 hm
      exact ec0 r (mem_sortRuleset.1 hr) h0)
    (DD.difference 1 t u) hpart.1 (fun p => by
      cases hv : (DD.difference 1 t u).lookup totBits p with
      | none => exact .inl rfl
      | some x => exact .inr (by rw [(hpart.2.2 p).2.2 x hv]))
  refine ⟨res, ?_, fun o x => ?_⟩
  · unfold conflictingRules
    rw [e1, e2, hdiff]
    exact r1
  · unfold ShownPair
    rw [r2 o x]
    -- a packet that hits a rule of the sorted table has a label
    have hsome : ∀ {X xs : List (Rule Nat)} {v : DD Nat}, FormT s X v → toSingleTable (sortRuleset X) true = .ok xs → ∀ (p : Pkt) (c : Rule Nat),
        FirstHit (sortRuleset xs) p c → ∃ i, v.lookup totBits p.hdr = some i := by
      intro X xs v f e p c hc
      rcases f.packet e p with ⟨_, _, _, i, -, -, -, h, -⟩ | ⟨h, -⟩
      · exact ⟨i, h⟩
      · exact absurd (by obtain ⟨_, _, _, h2, _⟩ := hc; exact h2) (h c (mem_sortRuleset.1 hc.mem))
    constructor
    · rintro ⟨q, hq, ⟨y, hy, hyo⟩, ⟨z, hz, hzx⟩⟩
      have hagree : ∀ i, fieldPos 39 ≤ i → i < totBits → q i = (pktOf q).hdr i := fun i h1 h2 => (pktOf_hdr q h1 h2).symm
      have ho := (entries_sentTo f1 (tgood_cover gA ec _)).1 ⟨y, firstMatch_outer (fun e he => ((hmem f1).2 e he).2) hagree hy, hyo⟩
      have hx := (entries_sentTo f2 (tgood_cover gB ed _)).1 ⟨z, firstMatch_outer (fun e he => ((hmem f2).2 e he).2) hagree hz, hzx⟩
      refine ⟨pktOf q, pktOf_sized q, ho, hx, fun heq => ?_⟩
      obtain ⟨c, hc, -⟩ := ho
      obtain ⟨i, hi⟩ := hsome fA ec _ c hc
      rw [← lookup_pktOf fA.wf.2, ← lookup_pktOf fB.wf.2] at heq
      rw [← lookup_pktOf fA.wf.2] at hi
      rw [(hpart.2.2 q).2.1 i hi (by rw [← heq]; exact hi)] at hq
      cases hq
    · rintro ⟨p, -, a1, b1, hne⟩
      exact ⟨p.hdr, (hpart.2.2 p.hdr).1 hne, (entries_sentTo f1 (tgood_cover gA ec _)).2 a1, (entries_sentTo f2 (tgood_cover gB ed _)).2 b1⟩

/-- The path of the first match is the path taken by a packet with known headers. -/
theorem path_taken_t {A : List (Rule Nat)} (g : TunnelGood A) (sep : Separate A) {cs : List (Rule Nat)}
    (e : toSingleTable (sortRuleset A) true = .ok cs) {p : Pkt} (hp : HeadersKnown A p) :
    ∃ c, FirstHit cs p c ∧ FirstHit (sortRuleset cs) p c ∧ (∀ o, TakesPath A p o ↔ o = c.path) ∧
      ∀ rs s, Runs A 0 (St.enter p) rs s → c.path.map ((sortRuleset A)[·]?) = rs.map some := by
  obtain ⟨cs1, e1, h1⟩ := C28_tunnels_partial _ g.sorted.ok g.sorted.tun true
  rw [e] at e1; cases e1
  obtain ⟨c, -, -, -, hc, -⟩ := h1 p (headersKnown_sorted hp)
  obtain ⟨cs', e', h⟩ := C31_tunnels_partial _ g.sorted.ok g.sorted.tun true
  rw [e] at e'; cases e'
  obtain ⟨rs, s, h1, h2, h3⟩ := h p c (headersKnown_sorted hp) hc
  have h3 := h3 sep.sorted.noTies
  refine ⟨c, hc, sorted_firstHit_t g.sorted.ok g.sorted.tun sep.sorted e (tgood_single g e).1.2 (headersKnown_sorted hp) hc, fun o => ⟨?_, ?_⟩, ?_⟩
  · rintro ⟨rs', s', r1, r2⟩
    cases h3 _ _ r1.sorted
    exact positions_unique sep.sorted (runs_accepts r1) r2 h2
  · rintro rfl
    exact ⟨rs, s, h1.unsorted, h2⟩
  · intro rs' s' r1
    cases h3 _ _ r1.sorted
    exact h2

/-- Specification: the packet is why the pair of paths is shown: the sorted single tables send it to these paths, and the single tables give it
different labels. -/
def Reason (A B : List (Rule Nat)) (p : Pkt) (o x : List Nat) : Prop :=
  ∃ cs ds, toSingleTable (sortRuleset A) true = .ok cs ∧ toSingleTable (sortRuleset B) true = .ok ds ∧
    SentTo (sortRuleset cs) p o ∧ SentTo (sortRuleset ds) p x ∧ ∃ L M, Labels cs p L ∧ Labels ds p M ∧ L ≠ M

/-- What is shown for two forms. -/
theorem shown_for_t {s : List Label} {A B : List (Rule Nat)} (gA : TunnelGood A) (gB : TunnelGood B) (sA : Separate A)
    (sB : Separate B) {t u : DD Nat} (fA : FormT s A t) (fB : FormT s B u) {cs ds : List (Rule Nat)}
    (ec : toSingleTable (sortRuleset A) true = .ok cs) (ed : toSingleTable (sortRuleset B) true = .ok ds) :
    ∃ res, conflictingRules (Cudd.difference 1 t u) cs ds = .ok res ∧
      (∀ o x, ShownPair res o x ↔ ∃ p, p.Sized ∧ Reason A B p o x) ∧
      (∀ p, p.Sized → HeadersKnown A p → HeadersKnown B p → ∀ o x, TakesPath A p o → TakesPath B p x → LabelledApart A B p → ShownPair res o x) ∧
      ∀ p : Pkt, p.Sized → HeadersKnown A p → HeadersKnown B p → ∀ rs s rs' s', Runs A 0 (St.enter p) rs s → Runs B 0 (St.enter p) rs' s' →
        ¬ SameSent s.finish s'.finish →
        ∃ o x, ShownPair res o x ∧ o.map ((sortRuleset A)[·]?) = rs.map some ∧ x.map ((sortRuleset B)[·]?) = rs'.map some := by
  obtain ⟨res, e, h⟩ := conflicting_t gA gB fA fB ec ed
  have labels : ∀ {xs : List (Rule Nat)} {p : Pkt} {c : Rule Nat} {L M : Label}, FirstHit xs p c → c.label = .ok L → Labels xs p M → M = L := by
    rintro xs p c L M h1 h2 ⟨c', h3, h4⟩
    cases h1.unique h3
    rw [h2] at h4; cases h4; rfl
  have some : ∀ {s : List Label} {X xs : List (Rule Nat)} {v : DD Nat}, TunnelGood X → FormT s X v → toSingleTable (sortRuleset X) true = .ok xs →
      ∀ p : Pkt, ∃ c L i, FirstHit xs p c ∧ c.label = .ok L ∧ v.lookup totBits p.hdr = .some i ∧ (sessionReg s).numOf (.some L) = .some i := by
    intro s X xs v g f e p
    rcases f.packet e p with ⟨c, l, L, i, a1, -, ⟨-, a3⟩, a4, a5⟩ | ⟨a1, -⟩
    · exact ⟨c, L, i, a1, a3, a4, a5⟩
    · obtain ⟨c, hc⟩ := tgood_cover g e p
      exact absurd (by obtain ⟨_, _, _, h2, _⟩ := hc; exact h2) (a1 c (mem_sortRuleset.1 hc.mem))
  have key : ∀ p : Pkt, t.lookup totBits p.hdr ≠ u.lookup totBits p.hdr ↔ ∃ L M, Labels cs p L ∧ Labels ds p M ∧ L ≠ M := by
    intro p
    obtain ⟨c, L, i, a1, a3, a4, a5⟩ := some gA fA ec p
    obtain ⟨d, M, j, b1, b3, b4, b5⟩ := some gB fB ed p
    rw [a4, b4]
    constructor
    · intro hij
      refine ⟨L, M, ⟨c, a1, a3⟩, ⟨d, b1, b3⟩, ?_⟩
      rintro rfl
      rw [a5] at b5
      exact hij b5
    · rintro ⟨L', M', hL, hM, hne⟩ hij
      cases labels a1 a3 hL
      cases labels b1 b3 hM
      cases hij
      exact hne (session_inj s a5 b5)
  refine ⟨res, e, fun o x => ?_, ?_, ?_⟩
  · rw [h o x]
    constructor
    · rintro ⟨p, hp, a1, b1, hne⟩
      exact ⟨p, hp, cs, ds, ec, ed, a1, b1, (key p).1 hne⟩
    · rintro ⟨p, hp, cs', ds', e1, e2, a1, b1, hne⟩
      rw [ec] at e1; rw [ed] at e2
      cases e1; cases e2
      exact ⟨p, hp, a1, b1, (key p).2 hne⟩
  · intro p hp kA kB o x ho hx ⟨cs', ds', c', d', L, M, e1, e2, a1, b1, l1, l2, l3⟩
    rw [ec] at e1; rw [ed] at e2
    cases e1; cases e2
    obtain ⟨c, c1, c2, c3, -⟩ := path_taken_t gA sA ec kA
    obtain ⟨d, d1, d2, d3, -⟩ := path_taken_t gB sB ed kB
    cases (c3 o).1 ho
    cases (d3 x).1 hx
    exact (h _ _).2 ⟨p, hp, ⟨c, c2, rfl⟩, ⟨d, d2, rfl⟩, (key p).2 ⟨L, M, ⟨c', a1, l1⟩, ⟨d', b1, l2⟩, l3⟩⟩
  · intro p hp kA kB rs st rs' st' hr hr' hns
    obtain ⟨c, c1, c2, -, c3⟩ := path_taken_t gA sA ec kA
    obtain ⟨d, d1, d2, -, d3⟩ := path_taken_t gB sB ed kB
    refine ⟨c.path, d.path, (h _ _).2 ⟨p, hp, ⟨c, c2, rfl⟩, ⟨d, d2, rfl⟩, fun heq => hns ?_⟩,
      c3 rs st hr, d3 rs' st' hr'⟩
    obtain ⟨l, L, i, a1, a2, a3, a4⟩ := fA.known gA sA.noTies kA hr
    obtain ⟨m, M, j, b1, b2, b3, b4⟩ := fB.known gB sB.noTies kB hr'
    rw [a2, b2] at heq
    cases heq
    cases session_inj s a3 b3
    exact (a4.swap.trans (sameSent_of_perm ((a1.sends p).symm.trans (b1.sends p)))).trans b4

/-- **C97** (partial: pipelines as in `C58_tunnels_partial` in which rules of a table with the same priority do not match a common packet) Also for
rulesets that push and pop headers, `-D` compares the first rulesets of each two successive lines, and those only.  A packet with known headers
that the two forward differently has its pair of paths shown; a pair is shown exactly when there is a packet that the sorted single tables
send to these paths and to which the single tables give different labels.  Missing: for packets with unknown headers the rule hit need not be
the one of a run. -/
theorem C97_tunnels_partial {ν : Type} [DecidableEq ν] (dc : Bool) (files : List (ν × List (Rule Nat))) (hnames : (files.map Prod.fst).Nodup)
    (hgood : ∀ x ∈ files, TunnelGood x.2) (hsep : ∀ x ∈ files, Separate x.2) (hlen : 2 ≤ files.length) :
    ∃ lines outs, mainGroups dc files = .ok lines ∧ mainDifferences dc files = .ok outs ∧
      outs.map (fun x => (some x.1, some x.2.1)) = (lines.zip lines.tail).map (fun x => (x.1.head?, x.2.head?)) ∧
      ∀ a b res, (a, b, res) ∈ outs → ∀ A B, (a, A) ∈ files → (b, B) ∈ files →
        (∀ o x, ShownPair res o x ↔ ∃ p, p.Sized ∧ Reason A B p o x) ∧
        (∀ p, p.Sized → HeadersKnown A p → HeadersKnown B p → ∀ o x, TakesPath A p o → TakesPath B p x → LabelledApart A B p → ShownPair res o x) ∧
        ∀ p : Pkt, p.Sized → HeadersKnown A p → HeadersKnown B p → ∀ rs s rs' s', Runs A 0 (St.enter p) rs s → Runs B 0 (St.enter p) rs' s' →
          ¬ SameSent s.finish s'.finish →
          ∃ o x, ShownPair res o x ∧ o.map ((sortRuleset A)[·]?) = rs.map some ∧ x.map ((sortRuleset B)[·]?) = rs'.map some := by
  obtain ⟨forms, s, e, hF⟩ := canonicalForms_t dc files [] hgood
  obtain ⟨f1, f2, f3⟩ := named_forms hnames hF
  obtain ⟨g1, g2, g3⟩ := C34_groups forms
  have hsingle : ∀ x ∈ files, ∃ cs, toSingleTable (sortRuleset x.2) true = .ok cs := by
    rintro ⟨a, A⟩ hA
    obtain ⟨t, ht⟩ := f3 a A hA
    obtain ⟨cs, ec, -⟩ := f2 _ _ _ ht hA
    exact ⟨cs, ec⟩
  obtain ⟨singles, es, hs0⟩ := mapM_forall (P := fun (x y : ν × List (Rule Nat)) => x.1 = y.1 ∧ toSingleTable (sortRuleset x.2) true = .ok y.2)
    (f := fun x : ν × List (Rule Nat) => do return (x.1, ← toSingleTable (sortRuleset x.2) true)) (l := files) (fun x hx => by
      obtain ⟨cs, ec⟩ := hsingle x hx
      exact ⟨(x.1, cs), by rw [ec]; rfl, rfl, ec⟩)
  obtain ⟨k1, k2, k3⟩ := named_forms (P := fun A cs => toSingleTable (sortRuleset A) true = .ok cs) hnames hs0
  have hs : ∀ a A, (a, A) ∈ files → ∃ cs, singles.lookup a = some cs ∧ toSingleTable (sortRuleset A) true = .ok cs := by
    intro a A hA
    obtain ⟨cs, hm⟩ := k3 a A hA
    exact ⟨cs, lookup_of_nodup (by rw [← k1]; exact hnames) hm, k2 _ _ _ hm hA⟩
  have hfile : ∀ {a t}, (a, t) ∈ forms → ∃ A, (a, A) ∈ files := by
    intro a t h
    have : a ∈ files.map Prod.fst := by rw [f1]; exact List.mem_map_of_mem (f := Prod.fst) h
    obtain ⟨⟨a', A⟩, hA, rfl⟩ := List.mem_map.1 this
    exact ⟨A, hA⟩
  obtain ⟨outs, eo, ho⟩ := mapM_forall (l := (groupEqual checkEqualPlain forms).zip (groupEqual checkEqualPlain forms).tail)
    (f := fun x => showDifference singles x.1 x.2)
    (P := fun x y => (some y.1, some y.2.1) = ((x.1.map Prod.fst).head?, (x.2.map Prod.fst).head?) ∧
      ∀ A B, (y.1, A) ∈ files → (y.2.1, B) ∈ files →
        (∀ o x, ShownPair y.2.2 o x ↔ ∃ p, p.Sized ∧ Reason A B p o x) ∧
        (∀ p, p.Sized → HeadersKnown A p → HeadersKnown B p → ∀ o x, TakesPath A p o → TakesPath B p x → LabelledApart A B p → ShownPair y.2.2 o x) ∧
        ∀ p : Pkt, p.Sized → HeadersKnown A p → HeadersKnown B p → ∀ rs s rs' s', Runs A 0 (St.enter p) rs s → Runs B 0 (St.enter p) rs' s' →
          ¬ SameSent s.finish s'.finish →
          ∃ o x, ShownPair y.2.2 o x ∧ o.map ((sortRuleset A)[·]?) = rs.map some ∧ x.map ((sortRuleset B)[·]?) = rs'.map some)
    (by
      rintro ⟨g, h⟩ hx
      obtain ⟨hR, hg, hh⟩ := pairwise_zip_tail g3 _ hx
      simp only at hR hg hh
      cases g with
      | nil => exact absurd rfl (g2 _ hg).1
      | cons x g =>
        obtain ⟨a, t⟩ := x
        cases h with
        | nil => exact absurd rfl (g2 _ hh).1
        | cons y h =>
          obtain ⟨b, u⟩ := y
          have ma : (a, t) ∈ forms := g1.mem_iff.1 (List.mem_flatten.2 ⟨_, hg, List.mem_cons_self⟩)
          have mb : (b, u) ∈ forms := g1.mem_iff.1 (List.mem_flatten.2 ⟨_, hh, List.mem_cons_self⟩)
          obtain ⟨A, hA⟩ := hfile ma
          obtain ⟨B, hB⟩ := hfile mb
          obtain ⟨cs, lc, ec⟩ := hs a A hA
          obtain ⟨ds, ld, ed⟩ := hs b B hB
          obtain ⟨res, er, hres⟩ := shown_for_t (hgood _ hA) (hgood _ hB) (hsep _ hA) (hsep _ hB) (f2 _ _ _ ma hA) (f2 _ _ _ mb hB) ec ed
          refine ⟨(a, b, res), ?_, rfl, fun A' B' hA' hB' => ?_⟩
          · simp only [showDifference, lc, ld, er]; rfl
          · have k1 := lookup_of_nodup hnames hA
            rw [lookup_of_nodup hnames hA'] at k1
            have k2 := lookup_of_nodup hnames hB
            rw [lookup_of_nodup hnames hB'] at k2
            cases k1; cases k2
            exact hres)
  refine ⟨(groupEqual checkEqualPlain forms).map (·.map Prod.fst), outs, ?_, ?_, ?_, ?_⟩
  · unfold mainGroups
    rw [sessionReg_nil, e]
    simp only [bind, Except.bind, pure, Except.pure]
    rw [if_neg (by omega)]
  · unfold mainDifferences
    rw [sessionReg_nil, e, show singleTables files = .ok singles from es]
    simp only [bind, Except.bind]
    rw [if_neg (by omega)]
    exact eo
  · rw [← List.map_tail, List.zip_map, List.map_map]
    clear eo
    revert ho
    generalize (groupEqual checkEqualPlain forms).zip (groupEqual checkEqualPlain forms).tail = zs
    intro ho
    induction ho with
    | nil => rfl
    | cons hxy _ ih => rw [List.map_cons, List.map_cons, ih, hxy.1]; rfl
  · intro a b res hm
    clear eo
    revert ho
    generalize (groupEqual checkEqualPlain forms).zip (groupEqual checkEqualPlain forms).tail = zs
    intro ho
    induction ho with
    | nil => cases hm
    | cons hxy _ ih =>
      rcases List.mem_cons.1 hm with rfl | hm
      · exact hxy.2
      · exact ih hm

/-! ### Samples -/

theorem tunnelFiles_separate : ∀ x ∈ tunnelFiles, Separate x.2 := by
  intro x hx
  simp only [tunnelFiles, List.mem_cons, List.not_mem_nil, or_false] at hx
  rcases hx with rfl | rfl | rfl
  · exact separate_of (by decide +kernel)
  · exact separate_of (by decide +kernel)
  · exact separate_of (by decide +kernel)

/-- The hypotheses hold for the sample files: the pipeline that pushes and pops is compared with the different one. -/
example : ∃ outs, mainDifferences true tunnelFiles = .ok outs ∧ outs.map (fun x => (some x.1, some x.2.1)) = [(some 0, some 2)] := by
  obtain ⟨lines, outs, e1, e2, e3, -⟩ := C97_tunnels_partial true tunnelFiles (by decide) tunnelFiles_good.1 tunnelFiles_separate (by decide)
  rw [tunnelFiles_lines] at e1
  cases e1
  exact ⟨outs, e2, e3⟩

/-- What is shown: VLAN 5 without address 9, by its rules in both. -/
example : ((mainDifferences true tunnelFiles).toOption.map fun l => l.map fun x => x.2.2) = some [[([0, 3, 6], [[1]])]] := by decide +kernel

end OFE
