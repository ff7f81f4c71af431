import Verif.Props.Main
import Verif.Props.RulesetTunnel
import Verif.Check.TunnelPipeline

/-!
# C58, C59: the command line tool and the default check on pipelines that push and pop headers
-/

namespace OFE
open DD

/-- Specification: a ruleset with pushes and pops that the tool can be used on. -/
structure TunnelGood (rules : List (Rule Nat)) : Prop where
  ok : PipelineOK rules
  tun : TunnelPipeline rules
  plain : PlainPipeline rules

/-- Specification: packets whose headers are known forward alike. -/
def SameForwardingKnown (A B : List (Rule Nat)) : Prop :=
  ∀ p, HeadersKnown A p → HeadersKnown B p → ∀ rs s rs' s', Runs A 0 (St.enter p) rs s → Runs B 0 (St.enter p) rs' s' → SameSent s.finish s'.finish

theorem links_sorted {A : List (Rule Nat)} {t : Nat} {rs : List (Rule Nat)} {g : Option Nat} (h : Links (sortRuleset A) t rs g) : Links A t rs g := by
  induction h with
  | one h1 h2 => exact .one (mem_sortRuleset.1 h1) h2
  | snoc _ h1 h2 ih => exact .snoc ih (mem_sortRuleset.1 h1) h2

theorem pushedKind_sorted {A : List (Rule Nat)} {k : Tun} : PushedKind (sortRuleset A) k ↔ PushedKind A k := by
  unfold PushedKind
  simp only [mem_sortRuleset]

theorem TunnelPipeline.sorted {A : List (Rule Nat)} (h : TunnelPipeline A) : TunnelPipeline (sortRuleset A) :=
  ⟨fun rs n hl => h.counts rs n (links_sorted hl), fun rs n hl k hk b hb => h.hidden rs n (links_sorted hl) k hk b (mem_sortRuleset.1 hb),
    fun k hk r hr => h.exact k (pushedKind_sorted.1 hk) r (mem_sortRuleset.1 hr)⟩

theorem headersKnown_sorted {A : List (Rule Nat)} {p : Pkt} (h : HeadersKnown A p) : HeadersKnown (sortRuleset A) p := by
  intro k hk f hf
  obtain ⟨a, b⟩ := h k (pushedKind_sorted.1 hk) f hf
  exact ⟨a, b.imp id fun b r hr hg => b r (Hits.sorted.1 hr) hg⟩

theorem TunnelGood.sorted {A : List (Rule Nat)} (h : TunnelGood A) : TunnelGood (sortRuleset A) := ⟨h.ok.sorted, h.tun.sorted, h.plain.sorted⟩

theorem NoTies.sorted_t {A : List (Rule Nat)} (hn : NoTies A) : NoTies (sortRuleset A) :=
  fun r hr s hs => hn r (mem_sortRuleset.1 hr) s (mem_sortRuleset.1 hs)

/-- A packet without headers is known to all. -/
theorem zero_known (A : List (Rule Nat)) : HeadersKnown A ⟨fun _ _ => 0, fun _ => 0, 0, fun _ => 0, 0, 0⟩ :=
  fun _ _ _ _ => ⟨fun _ _ => rfl, .inl rfl⟩

/-- What the form of one ruleset is. -/
def FormT (s : List Label) (rules : List (Rule Nat)) (t : DD Nat) : Prop :=
  ∃ cs, toSingleTable (sortRuleset rules) true = .ok cs ∧ InSession s cs t

theorem FormT.more {s : List Label} {rules : List (Rule Nat)} {t : DD Nat} (h : FormT s rules t) (s' : List Label) : FormT (s ++ s') rules t := by
  obtain ⟨cs, e, hi⟩ := h
  exact ⟨cs, e, hi.more s'⟩

theorem canonicalForm_t {rules : List (Rule Nat)} (h : TunnelGood rules) (dc : Bool) (hist : List Label) :
    ∃ t ls, canonicalForm dc (sessionReg hist) rules = .ok (t, sessionReg (hist ++ ls)) ∧ FormT (hist ++ ls) rules t := by
  obtain ⟨cs, e, hall⟩ := C28_tunnels_partial (sortRuleset rules) h.sorted.ok h.sorted.tun true
  obtain ⟨hpl, htab⟩ := tsingle_plain h.sorted.ok h.sorted.tun h.sorted.plain e
  have hne : cs ≠ [] := by
    rintro rfl
    obtain ⟨c, -, -, -, ⟨x, y, hxy, -⟩, -⟩ := hall _ (zero_known _)
    simp at hxy
  obtain ⟨h1, h2⟩ := normaliseRules_spec hpl hist
  obtain ⟨⟨⟨t, reg⟩, h3⟩, h4⟩ := h2 hne fun r hr s hs => by rw [htab r hr, htab s hs]
  obtain ⟨es, rfl, hf⟩ := h1 t reg h3
  refine ⟨t, es.map (·.2), ?_, ⟨cs, e, hist, es, [], by simp, hf⟩⟩
  unfold canonicalForm
  rw [e]
  simp only [bind, Except.bind]
  cases dc
  · rw [if_neg (by simp), h4, h3]
  · rw [if_pos rfl, h3]

theorem canonicalForms_t {ν : Type} (dc : Bool) : ∀ (files : List (ν × List (Rule Nat))) (hist : List Label),
    (∀ x ∈ files, TunnelGood x.2) → ∃ forms s, canonicalForms dc (sessionReg hist) files = .ok forms ∧
      List.Forall₂ (fun (x : ν × List (Rule Nat)) (y : ν × DD Nat) => x.1 = y.1 ∧ FormT (hist ++ s) x.2 y.2) files forms
  | [], hist, _ => ⟨[], [], rfl, .nil⟩
  | (name, rules) :: rest, hist, h => by
    obtain ⟨t, ls, e1, hf⟩ := canonicalForm_t (h (name, rules) List.mem_cons_self) dc hist
    obtain ⟨forms, s, e2, h2⟩ := canonicalForms_t dc rest (hist ++ ls) fun x hx => h x (List.mem_cons_of_mem _ hx)
    refine ⟨(name, t) :: forms, ls ++ s, ?_, .cons ⟨rfl, ?_⟩ ?_⟩
    · unfold canonicalForms
      rw [e1]
      simp only [bind, Except.bind, e2]; rfl
    · rw [← List.append_assoc]; exact hf.more s
    · rw [← List.append_assoc]; exact h2

/-- Names and forms belong together. -/
theorem named_forms {ν β γ : Type} {P : β → γ → Prop} {files : List (ν × β)} (hnames : (files.map Prod.fst).Nodup) {forms : List (ν × γ)}
    (h : List.Forall₂ (fun (x : ν × β) (y : ν × γ) => x.1 = y.1 ∧ P x.2 y.2) files forms) :
    files.map Prod.fst = forms.map Prod.fst ∧ (∀ n t X, (n, t) ∈ forms → (n, X) ∈ files → P X t) ∧ ∀ n X, (n, X) ∈ files → ∃ t, (n, t) ∈ forms := by
  induction h with
  | nil => simp
  | @cons x y files forms hxy hrest ih =>
    simp only [List.map_cons, List.nodup_cons] at hnames
    obtain ⟨i1, i2, i3⟩ := ih hnames.2
    refine ⟨by rw [List.map_cons, List.map_cons, i1, hxy.1], fun n t X hn hX => ?_, fun n X hX => ?_⟩
    · rcases List.mem_cons.1 hn with h1 | h1
      · rcases List.mem_cons.1 hX with h2 | h2
        · subst h1; subst h2; exact hxy.2
        · exfalso
          apply hnames.1
          rw [hxy.1, ← h1]
          exact List.mem_map_of_mem h2
      · rcases List.mem_cons.1 hX with h2 | h2
        · exfalso
          apply hnames.1
          rw [← h2, i1]
          exact List.mem_map_of_mem h1
        · exact i2 n t X h1 h2
    · rcases List.mem_cons.1 hX with h2 | h2
      · subst h2
        obtain ⟨n', t⟩ := y
        obtain rfl : n = n' := hxy.1
        exact ⟨t, List.mem_cons_self⟩
      · obtain ⟨t, ht⟩ := i3 n X h2
        exact ⟨t, List.mem_cons_of_mem _ ht⟩

/-- What the form of a ruleset says about a packet: the label of the first match, or none. -/
theorem FormT.packet {s : List Label} {rules : List (Rule Nat)} {t : DD Nat} (h : FormT s rules t) {cs : List (Rule Nat)}
    (e : toSingleTable (sortRuleset rules) true = .ok cs) (p : Pkt) :
    (∃ c l L i, FirstHit cs p c ∧ c.inst.fullActions = .ok l ∧ (LabelOf l L ∧ c.label = .ok L) ∧ t.lookup totBits p.hdr = some i ∧
      (sessionReg s).numOf (some L) = some i) ∨ ((∀ r ∈ cs, ¬ r.mat.accepts p) ∧ t.lookup totBits p.hdr = none) := by
  obtain ⟨cs', e', h0, es, h1, rfl, hf⟩ := h
  rw [e] at e'; cases e'
  rcases form_packet (h' := h1) hf p with ⟨c, l, L, i, a1, a2, a3, a4, a5, -⟩ | h2
  · exact .inl ⟨c, l, L, i, a1, a2, a3, a4, a5⟩
  · exact .inr h2

/-- What the form says about a known packet. -/
theorem FormT.known {s : List Label} {A : List (Rule Nat)} {t : DD Nat} (h : FormT s A t) (g : TunnelGood A) (hn : NoTies A) {p : Pkt}
    (hp : HeadersKnown A p) {rs : List (Rule Nat)} {st : St} (hr : Runs A 0 (St.enter p) rs st) :
    ∃ (l : ActionList) (L : Label) (i : Nat), LabelOf l L ∧ t.lookup totBits p.hdr = some i ∧ (sessionReg s).numOf (some L) = some i ∧ SameSent (exec l.iter p).2 st.finish := by
  obtain ⟨cs, e, hall⟩ := C28_tunnels_partial (sortRuleset A) g.sorted.ok g.sorted.tun true
  obtain ⟨c, -, -, -, h1, -⟩ := hall p (headersKnown_sorted hp)
  obtain ⟨-, l', e', hs⟩ := C28_tunnels_every_run_partial _ g.sorted.ok g.sorted.tun hn.sorted_t true cs e p (headersKnown_sorted hp) c h1 rs st hr.sorted
  rcases h.packet e p with ⟨c', l, L, i, a1, a2, ⟨a3, -⟩, a4, a5⟩ | ⟨a1, -⟩
  · cases h1.unique a1
    rw [a2] at e'; cases e'
    exact ⟨l', L, i, a3, a4, a5, hs⟩
  · exact absurd (by obtain ⟨_, _, _, h2, _⟩ := h1; exact h2) (a1 c h1.mem)

/-- Equal forms, equal forwarding of known packets. -/
theorem formsT_sound {s : List Label} {A B : List (Rule Nat)} (gA : TunnelGood A) (gB : TunnelGood B) (nA : NoTies A) (nB : NoTies B)
    {t : DD Nat} (fA : FormT s A t) (fB : FormT s B t) : SameForwardingKnown A B := by
  intro p kA kB rs st rs' st' hr hr'
  obtain ⟨l, L, i, a1, a2, a3, a4⟩ := fA.known gA nA kA hr
  obtain ⟨m, M, j, b1, b2, b3, b4⟩ := fB.known gB nB kB hr'
  rw [a2] at b2
  cases b2
  cases session_inj s a3 b3
  exact (a4.swap.trans (sameSent_of_perm ((a1.sends p).symm.trans (b1.sends p)))).trans b4

/-- **C58** (partial: pipelines as in `C28_tunnels_partial` whose actions can be compared, without ties, and packets with known headers) The tool
always prints every ruleset exactly once; two rulesets on the same line forward alike, also when they push and pop headers on the way. -/
theorem C58_tunnels_partial {ν : Type} (dc : Bool) (files : List (ν × List (Rule Nat))) (hnames : (files.map Prod.fst).Nodup)
    (hgood : ∀ x ∈ files, TunnelGood x.2) (hties : ∀ x ∈ files, NoTies x.2) (hlen : 2 ≤ files.length) :
    ∃ lines, mainGroups dc files = .ok lines ∧ lines.flatten.Perm (files.map Prod.fst) ∧
      ∀ line ∈ lines, ∀ a ∈ line, ∀ b ∈ line, ∀ A B, (a, A) ∈ files → (b, B) ∈ files → SameForwardingKnown A B := by
  obtain ⟨forms, s, e, hF⟩ := canonicalForms_t dc files [] hgood
  obtain ⟨f1, f2, f3⟩ := named_forms hnames hF
  obtain ⟨g1, g2, -⟩ := C34_groups forms
  refine ⟨(groupEqual checkEqualPlain forms).map (·.map Prod.fst), ?_, ?_, ?_⟩
  · unfold mainGroups
    rw [sessionReg_nil, e]
    simp only [bind, Except.bind, pure, Except.pure]
    rw [if_neg (by omega)]
  · rw [f1, ← List.map_flatten]
    exact g1.map _
  · intro line hline a ha b hb A B hA hB
    obtain ⟨g, hg, rfl⟩ := List.mem_map.1 hline
    obtain ⟨⟨a', t⟩, hat, rfl⟩ := List.mem_map.1 ha
    obtain ⟨⟨b', u⟩, hbu, rfl⟩ := List.mem_map.1 hb
    have htu := (g2 g hg).2 _ hat _ hbu
    simp only at htu
    subst htu
    have m1 : (a', t) ∈ forms := g1.mem_iff.1 (List.mem_flatten.2 ⟨g, hg, hat⟩)
    have m2 : (b', t) ∈ forms := g1.mem_iff.1 (List.mem_flatten.2 ⟨g, hg, hbu⟩)
    exact formsT_sound (hgood _ hA) (hgood _ hB) (hties _ hA) (hties _ hB) (f2 _ _ _ m1 hA) (f2 _ _ _ m2 hB)

/-- Specification: the single table gives the packet this label. -/
def Labels (cs : List (Rule Nat)) (p : Pkt) (L : Label) : Prop := ∃ c, FirstHit cs p c ∧ c.label = .ok L

/-- **C58** (partial as above) Two rulesets on different lines have single tables that give some packet different labels. -/
theorem C58_tunnels_apart_partial {ν : Type} (dc : Bool) (files : List (ν × List (Rule Nat))) (hnames : (files.map Prod.fst).Nodup)
    (hgood : ∀ x ∈ files, TunnelGood x.2) (hlen : 2 ≤ files.length) (lines : List (List ν)) (hl : mainGroups dc files = .ok lines)
    (a b : ν) (A B : List (Rule Nat)) (hA : (a, A) ∈ files) (hB : (b, B) ∈ files) (hab : ∀ line ∈ lines, ¬ (a ∈ line ∧ b ∈ line)) :
    ∃ cs ds, toSingleTable (sortRuleset A) true = .ok cs ∧ toSingleTable (sortRuleset B) true = .ok ds ∧
      ∃ (p : Pkt) (L M : Label), p.Sized ∧ Labels cs p L ∧ Labels ds p M ∧ L ≠ M := by
  obtain ⟨forms, s, e, hF⟩ := canonicalForms_t dc files [] hgood
  obtain ⟨f1, f2, f3⟩ := named_forms hnames hF
  have hl' : lines = (groupEqual checkEqualPlain forms).map (·.map Prod.fst) := by
    unfold mainGroups at hl
    rw [sessionReg_nil, e] at hl
    simp only [bind, Except.bind, pure, Except.pure] at hl
    rw [if_neg (by omega)] at hl
    cases hl; rfl
  obtain ⟨t, ht⟩ := f3 a A hA
  obtain ⟨u, hu⟩ := f3 b B hB
  have fA := f2 _ _ _ ht hA
  have fB := f2 _ _ _ hu hB
  have wf : ∀ {X : List (Rule Nat)} {t : DD Nat}, FormT ([] ++ s) X t → WF totBits 0 t ∧ WF (totBits - fieldPos 39) 0 t := by
    intro X t h
    obtain ⟨_, _, _, _, _, _, hf⟩ := h
    exact ⟨hf.wf, hf.outer⟩
  have hne : ¬ ∀ p : Pkt, p.Sized → t.lookup totBits p.hdr = u.lookup totBits p.hdr := by
    intro hall
    have hex : ∃ g ∈ groupEqual checkEqualPlain forms, (a, t) ∈ g ∧ (b, u) ∈ g := by
      refine (C34_same_group_iff totBits forms (fun x hx => ?_) (a, t) (b, u) ht hu).2 fun q => ?_
      · have : x.1 ∈ files.map Prod.fst := by rw [f1]; exact List.mem_map_of_mem hx
        obtain ⟨y, hy, hyx⟩ := List.mem_map.1 this
        obtain ⟨n, X⟩ := y
        simp only at hyx
        subst hyx
        exact (wf (f2 _ _ _ hx hy)).1
      · have key : ∀ {t : DD Nat}, WF (totBits - fieldPos 39) 0 t → t.lookup totBits q = t.lookup totBits (pktOf q).hdr := by
          intro t h
          unfold lookup
          apply eval_congr h
          intro i _ hi
          exact (pktOf_hdr q (by omega) (by omega)).symm
        have h1 := key (wf fA).2
        have h2 := key (wf fB).2
        simp only
        rw [h1, h2]
        exact hall _ (pktOf_sized q)
    obtain ⟨g, hg, h1, h2⟩ := hex
    exact hab (g.map Prod.fst) (by rw [hl']; exact List.mem_map_of_mem hg) ⟨List.mem_map_of_mem (f := Prod.fst) h1, List.mem_map_of_mem (f := Prod.fst) h2⟩
  obtain ⟨cs, ec, -⟩ := id fA
  obtain ⟨ds, ed, -⟩ := id fB
  refine ⟨cs, ds, ec, ed, ?_⟩
  simp only [not_forall] at hne
  obtain ⟨p, hp, hne⟩ := hne
  have none : ∀ {X xs : List (Rule Nat)}, TunnelGood X → toSingleTable (sortRuleset X) true = .ok xs → ¬ ∀ r ∈ xs, ¬ r.mat.accepts p := by
    intro X xs g e h
    obtain ⟨c, h1, -⟩ := C28_tunnels_cover _ g.sorted.ok g.sorted.tun true xs e p
    exact h c h1.mem (by obtain ⟨_, _, _, h2, _⟩ := h1; exact h2)
  rcases fA.packet ec p with ⟨c, l, L, i, a1, a2, ⟨-, a3⟩, a4, a5⟩ | ⟨a1, -⟩
  · rcases fB.packet ed p with ⟨d, m, M, j, b1, b2, ⟨-, b3⟩, b4, b5⟩ | ⟨b1, -⟩
    · refine ⟨p, L, M, hp, ⟨c, a1, a3⟩, ⟨d, b1, b3⟩, ?_⟩
      rintro rfl
      rw [a5] at b5; cases b5
      rw [a4, b4] at hne
      exact hne rfl
    · exact absurd b1 (none (hgood _ hB) ed)
  · exact absurd a1 (none (hgood _ hA) ec)

/-- **C59** (partial: as `C58_tunnels_partial`, header fields hold values of their width) The default check always answers, and if it says True,
both pipelines forward alike, also when they push and pop headers on the way. -/
theorem C59_tunnels_partial (h0 h1 h2 : List Label) (A B : List (Rule Nat)) (gA : TunnelGood A) (gB : TunnelGood B)
    (nA : NoTies A) (nB : NoTies B) {cs ds : List (Rule Nat)} (ea : toSingleTable A true = .ok cs) (eb : toSingleTable B true = .ok ds)
    (hlen : 2 + (h0.length + cs.length + h1.length + ds.length + h2.length) ≤ 2 ^ 26) :
    ∃ a r1 b r2 v, normaliseRules (sessionReg h0) cs = .ok (a, r1) ∧ normaliseRules (r1.runLabels h1).2 ds = .ok (b, r2) ∧
      checkEqual (r2.runLabels h2).2 a b = .ok v ∧
      (v = true → ∀ p : Pkt, p.Sized → HeadersKnown A p → HeadersKnown B p →
        ∀ rs s rs' s', Runs A 0 (St.enter p) rs s → Runs B 0 (St.enter p) rs' s' → SameSent s.finish s'.finish) := by
  obtain ⟨pA, tA⟩ := tsingle_plain gA.ok gA.tun gA.plain ea
  obtain ⟨pB, tB⟩ := tsingle_plain gB.ok gB.tun gB.plain eb
  have acc : ∀ {xs : List (Rule Nat)} {p : Pkt}, (∃ c, FirstHit xs p c ∧ c.inst.goto = none) → ∃ r ∈ xs, r.mat.accepts p := by
    rintro xs p ⟨c, ⟨x, y, rfl, h, -⟩, -⟩
    exact ⟨c, by simp, h⟩
  obtain ⟨a, r1, b, r2, v, n1, n2, n3⟩ := C47_check_total h0 h1 h2 cs ds pA pB (fun r hr s hs => by rw [tA r hr, tA s hs])
    (fun r hr s hs => by rw [tB r hr, tB s hs]) (fun p _ => acc (C28_tunnels_cover A gA.ok gA.tun true cs ea p))
    (fun p _ => acc (C28_tunnels_cover B gB.ok gB.tun true ds eb p)) hlen
  refine ⟨a, r1, b, r2, v, n1, n2, n3, ?_⟩
  rintro rfl p hp kA kB rs s rs' s' hr hr'
  have hS := C47_check_sound_partial h0 h1 h2 cs ds pA pB n1 n2 n3 hlen p hp
  obtain ⟨c, hc, -⟩ := C28_tunnels_cover A gA.ok gA.tun true cs ea p
  obtain ⟨d, hd, -⟩ := C28_tunnels_cover B gB.ok gB.tun true ds eb p
  obtain ⟨-, l, el, sl⟩ := C28_tunnels_every_run_partial A gA.ok gA.tun nA true cs ea p kA c hc rs s hr
  obtain ⟨-, m, em, sm⟩ := C28_tunnels_every_run_partial B gB.ok gB.tun nB true ds eb p kB d hd rs' s' hr'
  have h3 := sameSent_of_perm (hS _ _ (.inl ⟨c, l, hc, el, rfl⟩) (.inl ⟨d, m, hd, em, rfl⟩))
  exact (sl.swap.trans h3).trans sm

/-- The pipelines of the theorems without pushes and pops are among these, and all their packets are known. -/
theorem C58_flat_tunnels (A B : List (Rule Nat)) (gA : GoodPipeline A) (gB : GoodPipeline B) :
    TunnelGood A ∧ TunnelGood B ∧ (SameForwardingKnown A B ↔ SameForwarding A B) := by
  obtain ⟨tA, kA⟩ := C28_flat_tunnels A gA.flat
  obtain ⟨tB, kB⟩ := C28_flat_tunnels B gB.flat
  exact ⟨⟨gA.ok, tA, gA.plain⟩, ⟨gB.ok, tB, gB.plain⟩, fun h p => h p (kA p) (kB p), fun h p _ _ => h p⟩

/-! ### Examples -/

/-- The sample of C28 in one table. -/
def tunnelFlat : List (Rule Nat) :=
  [mainRule 12 0 (((Match.empty.append 6 0x1005 none).append 7 0 none).append 12 9 none) [.pushVlan 33024, .setField 6 0x1006, .output 4, .popVlan, .output 3] none,
   mainRule 11 0 ((Match.empty.append 6 0x1005 none).append 7 0 none) [.pushVlan 33024, .setField 6 0x1006, .output 4] none,
   mainRule 10 0 (((Match.empty.append 6 0x1007 none).append 7 0 none).append 12 9 none) [.popVlan, .output 3] none,
   mainRule 9 0 ((Match.empty.append 6 0x1007 none).append 7 0 none) [] none,
   mainRule 0 0 Match.empty [.output 9] none]

/-- The same, but VLAN 5 without address 9 leaves by port 4 with the old VLAN. -/
def tunnelOther : List (Rule Nat) :=
  [mainRule 12 0 (((Match.empty.append 6 0x1005 none).append 7 0 none).append 12 9 none) [.pushVlan 33024, .setField 6 0x1006, .output 4, .popVlan, .output 3] none,
   mainRule 11 0 ((Match.empty.append 6 0x1005 none).append 7 0 none) [.output 4] none,
   mainRule 10 0 (((Match.empty.append 6 0x1007 none).append 7 0 none).append 12 9 none) [.popVlan, .output 3] none,
   mainRule 9 0 ((Match.empty.append 6 0x1007 none).append 7 0 none) [] none,
   mainRule 0 0 Match.empty [.output 9] none]

theorem tunnelPipe_plain : PlainPipeline tunnelPipe := by
  refine plainPipeline_of (by decide +kernel) (tunnelPipe_all ?_ ?_ ?_ ?_ ?_ ?_ ?_) (by decide +kernel) (by decide +kernel)
  all_goals
    intro a ha
    simp [tunnelPipe, Rule.acts, ActionList.iter, ActionList.empty] at ha
    try (rcases ha with rfl | rfl) <;> simp
    try (subst ha; simp)

theorem tunnelPipe_good : TunnelGood tunnelPipe := ⟨tunnelPipe_ok, tunnelPipe_tunnel, tunnelPipe_plain⟩

/-- A ruleset of one table of five rules is as the theorems ask. -/
theorem five_good {R : List (Rule Nat)} (hg : ∀ r ∈ R, r.inst.goto = none) (hok : PipelineOK R) (hp : PlainPipeline R) : GoodPipeline R :=
  ⟨hok, fun r hr h => absurd (hg r hr) h, hp⟩

theorem tunnelFlat_good : GoodPipeline tunnelFlat ∧ NoTies tunnelFlat := by
  have hall : ∀ {P : Rule Nat → Prop}, P tunnelFlat[0] → P tunnelFlat[1] → P tunnelFlat[2] → P tunnelFlat[3] → P tunnelFlat[4] → ∀ r ∈ tunnelFlat, P r := by
    intro P a b c d e r hr
    simp only [tunnelFlat, List.mem_cons, List.not_mem_nil, or_false] at hr
    rcases hr with rfl | rfl | rfl | rfl | rfl <;> assumption
  refine ⟨five_good (by decide +kernel) (pipelineOK_of (hall ?_ ?_ ?_ ?_ ?_) (by decide +kernel) (hall ?_ ?_ ?_ ?_ ?_) (by decide +kernel))
    (plainPipeline_of (by decide +kernel) (hall ?_ ?_ ?_ ?_ ?_) (by decide +kernel) (by decide +kernel)), ?_⟩
  · exact mainRule_ok (inv_append (inv_append (inv_append inv_empty _ _ _) _ _ _) _ _ _) (by decide +kernel) (by decide) (by decide +kernel)
  · exact mainRule_ok (inv_append (inv_append inv_empty _ _ _) _ _ _) (by decide +kernel) (by decide) (by decide +kernel)
  · exact mainRule_ok (inv_append (inv_append (inv_append inv_empty _ _ _) _ _ _) _ _ _) (by decide +kernel) (by decide) (by decide +kernel)
  · exact mainRule_ok (inv_append (inv_append inv_empty _ _ _) _ _ _) (by decide +kernel) (by decide) (by decide +kernel)
  · exact mainRule_ok inv_empty (by decide +kernel) (by decide) (by decide +kernel)
  iterate 5 (intro a ha v hv; subst hv; simp [tunnelFlat, mainRule, Rule.acts, ActionList.iter, ActionList.empty] at ha)
  iterate 5 (intro a ha; simp [tunnelFlat, mainRule, Rule.acts, ActionList.iter, ActionList.empty] at ha; (try rcases ha with rfl | rfl | rfl | rfl | rfl) <;> simp_all)
  · have : ∀ r ∈ tunnelFlat, ∀ s ∈ tunnelFlat, r.table = s.table → r.priority = s.priority → r = s := by decide +kernel
    exact fun r hr s hs a b _ => this r hr s hs a b

theorem tunnelOther_good : GoodPipeline tunnelOther ∧ NoTies tunnelOther := by
  have hall : ∀ {P : Rule Nat → Prop}, P tunnelOther[0] → P tunnelOther[1] → P tunnelOther[2] → P tunnelOther[3] → P tunnelOther[4] → ∀ r ∈ tunnelOther, P r := by
    intro P a b c d e r hr
    simp only [tunnelOther, List.mem_cons, List.not_mem_nil, or_false] at hr
    rcases hr with rfl | rfl | rfl | rfl | rfl <;> assumption
  refine ⟨five_good (by decide +kernel) (pipelineOK_of (hall ?_ ?_ ?_ ?_ ?_) (by decide +kernel) (hall ?_ ?_ ?_ ?_ ?_) (by decide +kernel))
    (plainPipeline_of (by decide +kernel) (hall ?_ ?_ ?_ ?_ ?_) (by decide +kernel) (by decide +kernel)), ?_⟩
  · exact mainRule_ok (inv_append (inv_append (inv_append inv_empty _ _ _) _ _ _) _ _ _) (by decide +kernel) (by decide) (by decide +kernel)
  · exact mainRule_ok (inv_append (inv_append inv_empty _ _ _) _ _ _) (by decide +kernel) (by decide) (by decide +kernel)
  · exact mainRule_ok (inv_append (inv_append (inv_append inv_empty _ _ _) _ _ _) _ _ _) (by decide +kernel) (by decide) (by decide +kernel)
  · exact mainRule_ok (inv_append (inv_append inv_empty _ _ _) _ _ _) (by decide +kernel) (by decide) (by decide +kernel)
  · exact mainRule_ok inv_empty (by decide +kernel) (by decide) (by decide +kernel)
  iterate 5 (intro a ha v hv; subst hv; simp [tunnelOther, mainRule, Rule.acts, ActionList.iter, ActionList.empty] at ha)
  iterate 5 (intro a ha; simp [tunnelOther, mainRule, Rule.acts, ActionList.iter, ActionList.empty] at ha; (try rcases ha with rfl | rfl | rfl | rfl | rfl) <;> simp_all)
  · have : ∀ r ∈ tunnelOther, ∀ s ∈ tunnelOther, r.table = s.table → r.priority = s.priority → r = s := by decide +kernel
    exact fun r hr s hs a b _ => this r hr s hs a b

/-- Three files: the pipeline with pushes and pops, the same in one table, and a different one. -/
def tunnelFiles : List (Nat × List (Rule Nat)) := [(0, tunnelPipe), (1, tunnelFlat), (2, tunnelOther)]

theorem tunnelFiles_good : (∀ x ∈ tunnelFiles, TunnelGood x.2) ∧ ∀ x ∈ tunnelFiles, NoTies x.2 := by
  have : ∀ x ∈ tunnelFiles, TunnelGood x.2 ∧ NoTies x.2 := by
    intro x hx
    simp only [tunnelFiles, List.mem_cons, List.not_mem_nil, or_false] at hx
    rcases hx with rfl | rfl | rfl
    · exact ⟨tunnelPipe_good, tunnelPipe_noTies⟩
    · exact ⟨(C58_flat_tunnels _ _ tunnelFlat_good.1 tunnelFlat_good.1).1, tunnelFlat_good.2⟩
    · exact ⟨(C58_flat_tunnels _ _ tunnelOther_good.1 tunnelOther_good.1).1, tunnelOther_good.2⟩
  exact ⟨fun x hx => (this x hx).1, fun x hx => (this x hx).2⟩

/-- What is decided by computation about the forms of the three files. -/
def tunnelFormsOK : Except PyErr (List (Nat × DD Nat)) → Bool
  | .ok [(n, x), (m, y), (k, z)] => n == 0 && m == 1 && k == 2 && checkEqualPlain x y && !checkEqualPlain x z
  | _ => false

/-- What the tool prints for them. -/
theorem tunnelFiles_lines (dc : Bool) : mainGroups dc tunnelFiles = .ok [[0, 1], [2]] := by
  have h : tunnelFormsOK (canonicalForms dc (Cudd.Reg.init none none) tunnelFiles) = true := by
    cases dc <;> decide +kernel
  unfold mainGroups
  generalize canonicalForms dc (Cudd.Reg.init none none) tunnelFiles = forms at h
  unfold tunnelFormsOK at h
  split at h
  · simp only [Bool.and_eq_true, beq_iff_eq, Bool.not_eq_true'] at h
    obtain ⟨⟨⟨⟨rfl, rfl⟩, rfl⟩, hy⟩, hz⟩ := h
    simp [bind, Except.bind, pure, Except.pure, tunnelFiles, groupEqual, hz, hy]
  · cases h

/-- The hypotheses of `C58_tunnels_partial` hold; the pipeline and its single table are on one line, so they forward the packet with VLAN 5 alike. -/
example : SameForwardingKnown tunnelPipe tunnelFlat ∧ HeadersKnown tunnelPipe samplePushPkt ∧ ∀ p, HeadersKnown tunnelFlat p := by
  refine ⟨?_, tunnelPipe_known, (C28_flat_tunnels _ tunnelFlat_good.1.flat).2⟩
  obtain ⟨lines, e, -, h⟩ := C58_tunnels_partial true tunnelFiles (by decide) tunnelFiles_good.1 tunnelFiles_good.2 (by decide)
  rw [tunnelFiles_lines] at e
  cases e
  exact h [0, 1] (by simp) 0 (by simp) 1 (by simp) _ _ (by simp [tunnelFiles]) (by simp [tunnelFiles])

/-- The hypotheses of `C58_tunnels_apart_partial` hold for the first and the third file. -/
example : ∃ cs ds, toSingleTable (sortRuleset tunnelPipe) true = .ok cs ∧ toSingleTable (sortRuleset tunnelOther) true = .ok ds ∧
    ∃ (p : Pkt) (L M : Label), p.Sized ∧ Labels cs p L ∧ Labels ds p M ∧ L ≠ M :=
  C58_tunnels_apart_partial false tunnelFiles (by decide) tunnelFiles_good.1 (by decide) _ (tunnelFiles_lines false) 0 2 _ _ (by simp [tunnelFiles])
    (by simp [tunnelFiles]) (by simp)

/-- `C59_tunnels_partial` on the pipeline and its single table: the check says True. -/
example : mainCheckOK tunnelPipe tunnelFlat = true ∧ mainCheckOK tunnelPipe tunnelOther = false := by
  constructor <;> decide +kernel

end OFE
