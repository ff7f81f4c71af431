import Verif.Props.MainReverse
import Verif.Props.MainTunnel

/-!
# C98: option -r on pipelines that push and pop headers
-/

namespace OFE

theorem revAct_pushes (a : Action) : (revAct a).pushes = a.pushes ∧ (revAct a).pops = a.pops := by
  cases a with
  | setField f v => rw [revAct_set]; split <;> exact ⟨rfl, rfl⟩
  | _ => exact ⟨rfl, rfl⟩

theorem RevFull.pushCount {r r' : Rule Nat} (h : RevFull r r') (k : Tun) :
    OFE.pushCount k r'.inst.apply.iter = OFE.pushCount k r.inst.apply.iter ∧ OFE.popCount k r'.inst.apply.iter = OFE.popCount k r.inst.apply.iter := by
  unfold OFE.pushCount OFE.popCount
  rw [h.apply.countP_eq, h.apply.countP_eq, List.countP_map, List.countP_map]
  constructor <;> (congr 1; funext a; simp [revAct_pushes])

theorem lookup_revItem (f : Nat) : ∀ l : MItems, (l.map revItem).lookup f = (l.lookup f).map fun v => (revItem (f, v)).2
  | [] => rfl
  | (g, v) :: l => by
    have e : revItem (g, v) = (g, (revItem (g, v)).2) := by unfold revItem; split <;> rfl
    rw [List.map_cons, e, List.lookup_cons, List.lookup_cons, lookup_revItem f l]
    cases h : f == g with
    | false => rfl
    | true =>
      have := eq_of_beq h
      subst this
      rfl

theorem RevFull.lookup {r r' : Rule Nat} (h : RevFull r r') (f : Nat) :
    (r'.mat.items.lookup f = none ↔ r.mat.items.lookup f = none) ∧
    ((∃ v, r'.mat.items.lookup f = some (v, none)) ↔ ∃ v, r.mat.items.lookup f = some (v, none)) := by
  rw [h.items, lookup_revItem]
  cases e : r.mat.items.lookup f with
  | none => simp
  | some x =>
    obtain ⟨v, m⟩ := x
    by_cases hf : f = 6 <;> simp [revItem, hf]

section
variable {A A' : List (Rule Nat)} (h : List.Forall₂ RevFull A A')
include h

theorem RevFull.links {t : Nat} {rs' : List (Rule Nat)} {g : Option Nat} (hl : Links A' t rs' g) : ∃ rs, List.Forall₂ RevFull rs rs' ∧ Links A t rs g := by
  induction hl with
  | @one r' hr ht =>
    obtain ⟨r, hr, f⟩ := RevFull.back h r' hr
    exact ⟨[r], .cons f .nil, by rw [f.rev.goto]; exact .one hr (by rw [← f.rev.table]; exact ht)⟩
  | @snoc rs' n r' _ hr ht ih =>
    obtain ⟨rs, h1, h2⟩ := ih
    obtain ⟨r, hr, f⟩ := RevFull.back h r' hr
    exact ⟨rs ++ [r], List.rel_append h1 (.cons f .nil), by rw [f.rev.goto]; exact .snoc h2 hr (by rw [← f.rev.table]; exact ht)⟩

theorem RevFull.pushedBy (k : Tun) : OFE.pushedBy k A' = OFE.pushedBy k A ∧ OFE.poppedBy k A' = OFE.poppedBy k A := by
  induction h with
  | nil => exact ⟨rfl, rfl⟩
  | @cons r r' A A' f _ ih =>
    unfold OFE.pushedBy OFE.poppedBy at *
    simp only [List.map_cons, List.sum_cons, (f.pushCount k).1, (f.pushCount k).2, ih.1, ih.2, and_self]

theorem RevFull.pushedKind {k : Tun} : PushedKind A' k ↔ PushedKind A k := by
  constructor
  · rintro ⟨r', hr, hg, hc⟩
    obtain ⟨r, hr, f⟩ := RevFull.back h r' hr
    exact ⟨r, hr, by rw [← f.rev.goto]; exact hg, by rw [← (f.pushCount k).1]; exact hc⟩
  · rintro ⟨r, hr, hg, hc⟩
    obtain ⟨r', hr, f⟩ := RevFull.there h r hr
    exact ⟨r', hr, by rw [f.rev.goto]; exact hg, by rw [(f.pushCount k).1]; exact hc⟩

theorem RevFull.tunnel (hA : TunnelPipeline A) : TunnelPipeline A' where
  counts rs' n hl k := by
    obtain ⟨rs, h1, h2⟩ := RevFull.links h hl
    rw [(RevFull.pushedBy h1 k).1, (RevFull.pushedBy h1 k).2]
    exact hA.counts rs n h2 k
  hidden rs' n hl k hk b' hb ht f hf := by
    obtain ⟨rs, h1, h2⟩ := RevFull.links h hl
    rw [(RevFull.pushedBy h1 k).1, (RevFull.pushedBy h1 k).2] at hk
    obtain ⟨b, hb, fb⟩ := RevFull.back h b' hb
    exact (fb.lookup f).1.2 (hA.hidden rs n h2 k hk b hb (by rw [← fb.rev.table]; exact ht) f hf)
  exact k hk r' hr f hf := by
    obtain ⟨r, hr, fr⟩ := RevFull.back h r' hr
    exact (hA.exact k ((RevFull.pushedKind h).1 hk) r hr f hf).imp (fr.lookup f).1.2 (fr.lookup f).2.2

theorem RevFull.tunnelGood (hA : TunnelGood A) : TunnelGood A' := ⟨RevFull.pipeline h hA.ok, RevFull.tunnel h hA.tun, RevFull.plain h hA.plain⟩

omit h in
theorem revPkt_zero {p : Pkt} {f d : Nat} (hp : p.fld f d = 0) : (revPkt p).fld f d = 0 := by
  simp only [revPkt]
  split
  · exact hp
  · rw [hp]
    apply Nat.eq_of_testBit_eq
    intro i
    rw [testBit_revLow]
    split <;> simp

theorem RevFull.known {p : Pkt} (hp : HeadersKnown A p) : HeadersKnown A' (revPkt p) := by
  intro k hk f hf
  obtain ⟨h1, h2⟩ := hp k ((RevFull.pushedKind h).1 hk) f hf
  refine ⟨fun d hd => revPkt_zero (h1 d hd), ?_⟩
  rcases h2 with h2 | h2
  · exact .inl (revPkt_zero h2)
  · refine .inr fun r' hr' hg => ?_
    obtain ⟨a, b, c, d⟩ := hr'
    obtain ⟨r, hr, fr⟩ := RevFull.back h r' a
    refine (fr.lookup f).2.2 (h2 r ⟨hr, by rw [← fr.rev.table]; exact b, (fr.rev.accepts p).1 c, fun s hs ht hacc => ?_⟩ (by rw [← fr.rev.goto]; exact hg))
    obtain ⟨s', hs', fs⟩ := RevFull.there h s hs
    have := d s' hs' (by rw [fs.rev.table]; exact ht) ((fs.rev.accepts p).2 hacc)
    rw [fs.rev.priority, fr.rev.priority] at this
    exact this

end

/-- Forwarding of known packets by the reversed rulesets and by the rulesets. -/
theorem SameForwardingKnown.unrev {A A' B B' : List (Rule Nat)} (hA : List.Forall₂ RevFull A A') (hB : List.Forall₂ RevFull B B')
    (h : SameForwardingKnown A' B') : SameForwardingKnown A B := by
  intro p kA kB rs s rs' s' hr hr'
  obtain ⟨q1, t, k1, k2⟩ := rev_runs (RevFull.toRev hA) hr _ (RevSt.enter p)
  obtain ⟨q2, t', k3, k4⟩ := rev_runs (RevFull.toRev hB) hr' _ (RevSt.enter p)
  have h1 := (h (revPkt p) (RevFull.known hA kA) (RevFull.known hB kB) _ _ _ _ k1 k3)
  have h2 : SameSent (OFE.revSent s.finish) (OFE.revSent s'.finish) :=
    ((sameSent_of_perm k2.finish.symm).trans h1).trans (sameSent_of_perm k4.finish)
  have h3 := h2.revSent
  rw [revSent_revSent, revSent_revSent] at h3
  exact h3

/-- **C98** (partial: python 2, exact matches, no set-field in the write-actions (`RevOK`), and what `C58_tunnels_partial` asks for) With `-r` the tool
prints every ruleset exactly once, and two rulesets on the same line forward packets with known headers alike, also when they push and pop headers on
the way. -/
theorem C98_tunnels_partial {ν : Type} (dc : Bool) (files : List (ν × List (Rule Nat))) (hnames : (files.map Prod.fst).Nodup)
    (hgood : ∀ x ∈ files, TunnelGood x.2) (hties : ∀ x ∈ files, NoTies x.2) (hrev : ∀ x ∈ files, ∀ r ∈ x.2, RevOK r) (hlen : 2 ≤ files.length) :
    ∃ lines, mainLines false true dc files = .ok lines ∧ lines.flatten.Perm (files.map Prod.fst) ∧
      ∀ line ∈ lines, ∀ a ∈ line, ∀ b ∈ line, ∀ A B, (a, A) ∈ files → (b, B) ∈ files → SameForwardingKnown A B := by
  obtain ⟨files', h⟩ := prepared_files hrev
  obtain ⟨n1, n2, n3⟩ := files_there h
  have hg : ∀ y ∈ files', TunnelGood y.2 := fun y hy => by
    obtain ⟨x, hx, -, f⟩ := n3 y hy
    exact RevFull.tunnelGood f (hgood x hx).sorted
  have ht : ∀ y ∈ files', NoTies y.2 := fun y hy => by
    obtain ⟨x, hx, -, f⟩ := n3 y hy
    exact RevFull.noTies f (hties x hx).sorted
  obtain ⟨lines, e, h1, h2⟩ := C58_tunnels_partial dc files' (by rw [n1]; exact hnames) hg ht (by rw [← h.length_eq]; exact hlen)
  refine ⟨lines, ?_, by rw [← n1]; exact h1, fun line hl a ha b hb A B hA hB => ?_⟩
  · rw [← e]
    exact mainLines_eq (h.imp fun x y hxy => ⟨hxy.1, hxy.2.1⟩)
  · obtain ⟨A', hA', -, fA⟩ := n2 a A hA
    obtain ⟨B', hB', -, fB⟩ := n2 b B hB
    have := SameForwardingKnown.unrev fA fB (h2 line hl a ha b hb A' B' hA' hB')
    exact fun p kA kB rs s rs' s' hr hr' => this p (headersKnown_sorted kA) (headersKnown_sorted kB) rs s rs' s' hr.sorted hr'.sorted

/-- **C98** (partial as above), the other way: for two rulesets on different lines the single tables of the reversed rulesets differ for some packet. -/
theorem C98_tunnels_apart_partial {ν : Type} (dc : Bool) (files : List (ν × List (Rule Nat))) (hnames : (files.map Prod.fst).Nodup)
    (hgood : ∀ x ∈ files, TunnelGood x.2) (hrev : ∀ x ∈ files, ∀ r ∈ x.2, RevOK r) (hlen : 2 ≤ files.length) (lines : List (List ν))
    (hl : mainLines false true dc files = .ok lines) (a b : ν) (A B : List (Rule Nat)) (hA : (a, A) ∈ files) (hB : (b, B) ∈ files)
    (hab : ∀ line ∈ lines, ¬ (a ∈ line ∧ b ∈ line)) :
    ∃ A' B' cs ds, reverseFields false (sortRuleset A) = .ok A' ∧ reverseFields false (sortRuleset B) = .ok B' ∧
      toSingleTable A' true = .ok cs ∧ toSingleTable B' true = .ok ds ∧ ∃ (p : Pkt) (L M : Label), p.Sized ∧ Labels cs p L ∧ Labels ds p M ∧ L ≠ M := by
  obtain ⟨files', h⟩ := prepared_files hrev
  obtain ⟨n1, n2, n3⟩ := files_there h
  have hg : ∀ y ∈ files', TunnelGood y.2 := fun y hy => by
    obtain ⟨x, hx, -, f⟩ := n3 y hy
    exact RevFull.tunnelGood f (hgood x hx).sorted
  rw [mainLines_eq (h.imp fun x y hxy => ⟨hxy.1, hxy.2.1⟩)] at hl
  obtain ⟨A', hA', ⟨eA, sA⟩, -⟩ := n2 a A hA
  obtain ⟨B', hB', ⟨eB, sB⟩, -⟩ := n2 b B hB
  obtain ⟨cs, ds, h1, h2, h3⟩ := C58_tunnels_apart_partial dc files' (by rw [n1]; exact hnames) hg (by rw [← h.length_eq]; exact hlen) lines hl a b A' B'
    hA' hB' hab
  simp only at sA sB
  rw [sA] at h1
  rw [sB] at h2
  exact ⟨A', B', cs, ds, eA, eB, h1, h2, h3⟩

/-! ### Examples -/

theorem tunnelFiles_rev : ∀ x ∈ tunnelFiles, ∀ r ∈ x.2, RevOK r := by
  have key : ∀ (A : List (Rule Nat)), (∀ r ∈ A, RuleOK r) → (∀ r ∈ A, ∀ x ∈ r.mat.items, x.1 = 6 ∨ (x.2.2 = none ∧ x.2.1 < 2 ^ width x.1)) →
      (∀ r ∈ A, ∀ a ∈ r.inst.apply.iter, (match a with | .setField f v => decide (f = 6 ∨ v < 2 ^ width f) | _ => true) = true) →
      (∀ r ∈ A, ∀ a ∈ r.inst.write.iter, (match a with | .setField f _ => decide (f = 6) | _ => true) = true) →
      (∀ r ∈ A, r.inst.wmeta = none) → ∀ r ∈ A, RevOK r := fun A h1 h2 h3 h4 h5 r hr =>
    ⟨h1 r hr, h2 r hr, fun f v hv => by simpa using h3 r hr _ hv, fun f v hv => by simpa using h4 r hr _ hv, h5 r hr⟩
  intro x hx
  simp only [tunnelFiles, List.mem_cons, List.not_mem_nil, or_false] at hx
  rcases hx with rfl | rfl | rfl
  · exact key _ tunnelPipe_ok.ok (by decide +kernel) (by decide +kernel) (by decide +kernel) (by decide +kernel)
  · exact key _ tunnelFlat_good.1.ok.ok (by decide +kernel) (by decide +kernel) (by decide +kernel) (by decide +kernel)
  · exact key _ tunnelOther_good.1.ok.ok (by decide +kernel) (by decide +kernel) (by decide +kernel) (by decide +kernel)

/-- What the tool prints with `-r` for the three files. -/
theorem tunnelFiles_rev_lines (dc : Bool) : mainLines false true dc tunnelFiles = .ok [[0, 1], [2]] := by
  have h : tunnelFormsOK (optionForms false true dc (Cudd.Reg.init none none) tunnelFiles) = true := by
    cases dc <;> decide +kernel
  unfold mainLines
  generalize optionForms false true dc (Cudd.Reg.init none none) tunnelFiles = forms at h
  unfold tunnelFormsOK at h
  split at h
  · simp only [Bool.and_eq_true, beq_iff_eq, Bool.not_eq_true'] at h
    obtain ⟨⟨⟨⟨rfl, rfl⟩, rfl⟩, hy⟩, hz⟩ := h
    simp [bind, Except.bind, pure, Except.pure, tunnelFiles, groupEqual, hz, hy]
  · cases h

/-- The hypotheses of `C98_tunnels_partial` hold for the files of `C58_tunnels_partial`; the pipeline and its single table are on one line. -/
example : SameForwardingKnown tunnelPipe tunnelFlat := by
  obtain ⟨lines, e, -, h⟩ := C98_tunnels_partial true tunnelFiles (by decide) tunnelFiles_good.1 tunnelFiles_good.2 tunnelFiles_rev (by decide)
  rw [tunnelFiles_rev_lines] at e
  cases e
  exact h [0, 1] (by simp) 0 (by simp) 1 (by simp) _ _ (by simp [tunnelFiles]) (by simp [tunnelFiles])

/-- The hypotheses of `C98_tunnels_apart_partial` hold for the first and the third file. -/
example : ∃ A' B' cs ds, reverseFields false (sortRuleset tunnelPipe) = .ok A' ∧ reverseFields false (sortRuleset tunnelOther) = .ok B' ∧
    toSingleTable A' true = .ok cs ∧ toSingleTable B' true = .ok ds ∧ ∃ (p : Pkt) (L M : Label), p.Sized ∧ Labels cs p L ∧ Labels ds p M ∧ L ≠ M :=
  C98_tunnels_apart_partial false tunnelFiles (by decide) tunnelFiles_good.1 tunnelFiles_rev (by decide) _ (tunnelFiles_rev_lines false) 0 2 _ _
    (by simp [tunnelFiles]) (by simp [tunnelFiles]) (by simp)

end OFE
