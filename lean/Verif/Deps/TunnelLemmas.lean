import Verif.Deps.TunnelSpec
import Verif.Deps.GotoLemmas
import Verif.Ruleset.TunnelLoop

/-! # Lemmas: the recursion over the tables, with pushes and pops -/

namespace OFE
namespace Deps
variable {π : Type}

/-! ### The simulated egress, whatever the actions -/

theorem innerId_lt {f d g : Nat} (hf : f < 56) (h : innerId f d = some g) : g < 56 := by
  unfold innerId at h
  split at h
  · cases h; exact hf
  · split at h
    · next hd =>
      split at h
      · next k hk =>
        have h8 := (List.findIdx?_eq_some_iff_getElem.1 hk).1
        simp only [List.length_cons, List.length_nil] at h8
        simp only [headerDepth] at hd
        cases h
        omega
      · cases h
    · cases h

/-- A usable match: also on inner fields. -/
def MOK (m : Match) : Prop := m.Inv ∧ ∀ x ∈ m.items, x.1 < 56

theorem rename_mok {m m' : Match} {old new : Nat} (h : MOK m) (hn : new < 56) (e : m.rename old new = .ok m') : MOK m' := by
  unfold Match.rename at e
  cases hx : m.get old with
  | error x => rw [hx] at e; cases e
  | ok x =>
    rw [hx] at e
    have e' : (m.append new x.1 x.2).del old = .ok m' := e
    exact ⟨inv_del (inv_append h.1 _ _ _) e', keys_del e' (keys_append hn h.2)⟩

theorem foldlM_keeps {σ α : Type} {f : σ → α → Except PyErr σ} (G : σ → Prop) (l : List α)
    (h : ∀ x ∈ l, ∀ s s', G s → f s x = .ok s' → G s') : ∀ {s s' : σ}, G s → l.foldlM f s = .ok s' → G s' := by
  induction l with
  | nil => intro s s' hs e; cases e; exact hs
  | cons x l ih =>
    intro s s' hs e
    rw [List.foldlM_cons] at e
    cases hx : f s x with
    | error y => rw [hx] at e; cases e
    | ok t =>
      rw [hx] at e
      exact ih (fun y hy => h y (List.mem_cons_of_mem _ hy)) (h x (by simp) _ _ hs hx) e

theorem demote_mok {m m' : Match} {f n : Nat} (hf : f < 56) (h : MOK m) (e : demote m f n = .ok m') : MOK m' := by
  unfold demote at e
  split at e
  · cases e; exact h
  · refine foldlM_keeps MOK _ (fun d _ s s' hs he => ?_) h e
    unfold demoteOne at he
    split at he
    · cases he; exact hs
    · split at he
      · cases he; exact hs
      · split at he
        · next hg => exact rename_mok hs (innerId_lt hf hg) he
        · cases he

theorem promote_mok {m m' : Match} {f n : Nat} (hf : f < 56) (h : MOK m) (e : promote m f n = .ok m') : MOK m' := by
  unfold promote at e
  split at e
  · cases e; exact h
  · refine foldlM_keeps MOK _ (fun d _ s s' hs he => ?_) h e
    unfold promoteOne at he
    split at he
    · cases he; exact hs
    · split at he
      · cases he
      · split at he
        · cases he
        · split at he
          · next hg => exact rename_mok hs (innerId_lt hf hg) he
          · cases he

theorem delIf_mok {m m' : Match} {f : Nat} (h : MOK m) (e : delIf m f = .ok m') : MOK m' := by
  unfold delIf at e
  split at e
  · exact ⟨inv_del h.1 e, keys_del e h.2⟩
  · cases e; exact h

theorem append_mok {m : Match} {f v : Nat} {mask : Option Nat} (hf : f < 56) (h : MOK m) : MOK (m.append f v mask) :=
  ⟨inv_append h.1 _ _ _, keys_append hf h.2⟩

theorem simPush_mok {x x' : Match × Match} {f : Nat} (hf : f < 56) (h : MOK x.1 ∧ MOK x.2) (e : simPush x f = .ok x') : MOK x'.1 ∧ MOK x'.2 := by
  unfold simPush at e
  cases h1 : demote x.1 f 1 with
  | error y => rw [h1] at e; cases e
  | ok a =>
    cases h2 : demote x.2 f 1 with
    | error y => rw [h1, h2] at e; cases e
    | ok b =>
      rw [h1, h2] at e
      cases e
      exact ⟨append_mok hf (demote_mok hf h.1 h1), append_mok hf (demote_mok hf h.2 h2)⟩

theorem simPop_mok {x x' : Match × Match} {f : Nat} (hf : f < 56) (h : MOK x.1 ∧ MOK x.2) (e : simPop x f = .ok x') : MOK x'.1 ∧ MOK x'.2 := by
  unfold simPop at e
  cases h1 : delIf x.1 f with
  | error y => rw [h1] at e; cases e
  | ok a =>
    cases h2 : delIf x.2 f with
    | error y => rw [h1, h2] at e; cases e
    | ok b =>
      rw [h1, h2] at e
      have e' : (do let sim ← promote a f 1; let rw ← promote b f 1; return (sim, rw) : Except PyErr (Match × Match)) = .ok x' := e
      cases h3 : promote a f 1 with
      | error y => rw [h3] at e'; cases e'
      | ok a' =>
        cases h4 : promote b f 1 with
        | error y => rw [h3, h4] at e'; cases e'
        | ok b' =>
          rw [h3, h4] at e'
          cases e'
          exact ⟨promote_mok hf (delIf_mok h.1 h1) h3, promote_mok hf (delIf_mok h.2 h2) h4⟩

theorem tun_lt56 {t : Tun} {f : Nat} (hf : f ∈ t.fields) : f < 56 := by
  have := tun_lt ((tun_fields t).2 f hf); omega

theorem simStep_mok {x x' : Match × Match} {a : Action} (hk : a.known = true) (h : MOK x.1 ∧ MOK x.2) (e : simStep x a = .ok x') :
    MOK x'.1 ∧ MOK x'.2 := by
  unfold simStep at e
  split at e
  · next f v =>
    have hf : f < 40 := by simpa [Action.known] using hk
    cases e
    exact ⟨append_mok (by omega) h.1, append_mok (by omega) h.2⟩
  · split at e
    · exact foldlM_keeps (fun x => MOK x.1 ∧ MOK x.2) _ (fun f hf s s' hs he => simPush_mok (tun_lt56 hf) hs he) h e
    · split at e
      · exact foldlM_keeps (fun x => MOK x.1 ∧ MOK x.2) _ (fun f hf s s' hs he => simPop_mok (tun_lt56 hf) hs he) h e
      · cases e; exact h

theorem simMeta_mok {x : Match × Match} (w : MetaW) (h : MOK x.1) : MOK (simMeta w x).1 := by
  unfold simMeta
  split
  · exact h
  · simp only
    split <;> exact append_mok (by decide) h

/-- A usable ingress, also on inner fields. -/
def IngressAny (mat : Option Match) : Prop := ∀ m, mat = some m → MOK m

theorem egress_mok {r : Rule π} (hr : RuleOK r) {mat : Option Match} (hm : IngressAny mat) {e : Match} (he : gotoEgress r mat = .ok e) : MOK e := by
  obtain ⟨s, ks, es⟩ := hr.apply
  have hmok : MOK r.mat := ⟨hr.inv, lt56 hr.keys⟩
  have hrest : ∀ start, MOK start → ∀ x, r.inst.apply.iter.foldlM simStep (start, Match.empty) = .ok x → MOK (simMeta r.inst.wmeta x).1 := by
    intro start hs x hx
    exact simMeta_mok _ (foldlM_keeps (fun x => MOK x.1 ∧ MOK x.2) _ (fun a ha s s' hs he => simStep_mok (known_iter ks es a ha) hs he)
      ⟨hs, inv_empty, by simp [Match.empty]⟩ hx).1
  have hfin : ∀ start, MOK start → (do
      let x ← r.inst.apply.iter.foldlM simStep (start, Match.empty)
      return (simMeta r.inst.wmeta x).1 : Except PyErr Match) = .ok e → MOK e := by
    intro start hs h
    cases hx : r.inst.apply.iter.foldlM simStep (start, Match.empty) with
    | error y => rw [hx] at h; cases h
    | ok x => rw [hx] at h; cases h; exact hrest start hs x hx
  cases mat with
  | none =>
    refine hfin r.mat hmok ?_
    rw [← he]
    unfold gotoEgress simEgress
    simp only [bind, Except.bind, pure, Except.pure]
    cases r.inst.apply.iter.foldlM simStep (r.mat, Match.empty) <;> rfl
  | some m =>
    obtain ⟨hmi, hmk⟩ := hm m rfl
    by_cases hemp : m.items.isEmpty = true
    · refine hfin r.mat hmok ?_
      rw [← he]
      unfold gotoEgress simEgress
      simp only [hemp, if_true, bind, Except.bind, pure, Except.pure]
      cases r.inst.apply.iter.foldlM simStep (r.mat, Match.empty) <;> rfl
    · cases hi : r.mat.intersection m with
      | error y =>
        simp [gotoEgress, simEgress, hemp, hi, bind, Except.bind] at he
      | ok i =>
        have hii : MOK i := by
          by_cases hov : ∃ p, MatchesAll r.mat.items p ∧ MatchesAll m.items p
          · obtain ⟨i', e1, h1, h2, -⟩ := C16_intersection r.mat m hr.inv hmi (lt56 hr.keys) hmk hov
            rw [hi] at e1; cases e1
            exact ⟨h1, fun x hx => (h2 x hx).1⟩
          · rw [C16_intersection_disjoint r.mat m hr.inv hmi (lt56 hr.keys) hmk hov] at hi
            cases hi
        refine hfin i hii ?_
        rw [← he]
        unfold gotoEgress simEgress
        simp only [hemp, hi, bind, Except.bind, pure, Except.pure, Bool.false_eq_true, if_false]
        cases r.inst.apply.iter.foldlM simStep (i, Match.empty) <;> rfl

/-! ### What an intersection requires -/

theorem inter_req_none {a b m : Match} (ha : a.Inv) (hb : b.Inv) (hm : m.Inv)
    (hp : ∀ p, MatchesAll m.items p ↔ MatchesAll a.items p ∧ MatchesAll b.items p)
    (hov : ∃ p, MatchesAll a.items p ∧ MatchesAll b.items p) {g k : Nat} (hk : k < width g) (h1 : req a.items g k = none)
    (h2 : req b.items g k = none) : req m.items g k = none := by
  cases hr : req m.items g k with
  | none => rfl
  | some c =>
    exfalso
    obtain ⟨q, qa, qb⟩ := hov
    have key : ∀ {n : Match}, n.Inv → req n.items g k = none → MatchesAll n.items q →
        MatchesAll n.items (Packet.build fun G i => if G = g ∧ i = k then !c else q.bit G i) := by
      intro n hi hn hq
      rw [matchesAll_iff hi.nodup] at hq ⊢
      intro G i e hG he
      rw [build_bit (field_lt hG) hG]
      have : ¬ (G = g ∧ i = k) := fun ⟨x, y⟩ => by subst x; subst y; rw [hn] at he; cases he
      rw [if_neg this]
      exact hq G i e hG he
    have := (matchesAll_iff hm.nodup).1 ((hp _).2 ⟨key ha h1 qa, key hb h2 qb⟩) g k c hk hr
    rw [build_bit (field_lt hk) hk, if_pos ⟨rfl, rfl⟩] at this
    cases c <;> cases this

theorem mok_free {m : Match} (h : ∀ x ∈ m.items, x.1 < 40) {g : Nat} (hg : 40 ≤ g) : m.items.lookup g = none := by
  cases hl : m.items.lookup g with
  | none => rfl
  | some x => have := h _ (mem_of_lookup_eq_some hl); simp only at this; omega

/-- The match that the simulation starts with satisfies the invariant of the simulation. -/
theorem start_inter {r : Rule π} (hr : RuleOK r) {m : Match} {p : Pkt} {c : Nat → Nat} {K : Nat → Prop}
    (hs : SimInv p.fld (m, Match.empty) c K) (hp : r.mat.accepts p) (hx : ∀ f ∈ tunFields, K f → ExactOrFree r.mat f) :
    ∃ i, (if m.items.isEmpty then .ok r.mat else r.mat.intersection m : Except PyErr Match) = .ok i ∧ SimInv p.fld (i, Match.empty) c K := by
  have hmp : m.accepts p := (agrees_iff hs.inv1).1 hs.cov
  have hempD : DepthOK Match.empty c := ⟨fun f hf _ => by simp [Match.empty], fun f hf _ => by simp [Match.empty]⟩
  by_cases hemp : m.items.isEmpty = true
  · refine ⟨r.mat, by rw [if_pos hemp], hr.inv, inv_empty, lt56 hr.keys, by simp [Match.empty], (agrees_iff hr.inv).2 hp, ⟨fun f hf _ => ?_, fun f hf _ => ?_⟩,
      hempD, fun f hf hK => ?_⟩
    · obtain ⟨-, -, -, -, -, -, -, l0, l1, -⟩ := tun_ids f hf; exact mok_free hr.keys l1
    · obtain ⟨-, -, -, -, -, -, -, l0, l1, l1', l2, -⟩ := tun_ids f hf; exact mok_free hr.keys l2
    · obtain ⟨-, -, -, -, -, -, -, l0, l1, l1', l2, -⟩ := tun_ids f hf
      obtain ⟨k0, k1, k2, k3⟩ := hs.known f hf hK
      have hnone : ∀ g, m.items.lookup g = none := fun g => by rw [List.isEmpty_iff.1 hemp]; rfl
      simp only [hnone, true_and, reduceCtorEq, exists_false, false_or] at k0 k1 k2
      refine ⟨?_, .inr ⟨mok_free hr.keys l1, k1⟩, .inr ⟨mok_free hr.keys l2, k2⟩, k3⟩
      rcases hx f hf hK with h | h
      · exact .inr ⟨h, k0⟩
      · exact .inl h
  · have hov : ∃ p, MatchesAll r.mat.items p ∧ MatchesAll m.items p := ⟨p.hdr, hp, hmp⟩
    obtain ⟨i, ei, hii, hni, hi⟩ := C16_intersection r.mat m hr.inv hs.inv1 (lt56 hr.keys) hs.keys1 hov
    have hip : i.accepts p := (hi p.hdr).2 ⟨hp, hmp⟩
    have free : ∀ g, r.mat.items.lookup g = none → m.items.lookup g = none → i.items.lookup g = none := fun g h1 h2 =>
      free_of_req hni fun k hk => inter_req_none hr.inv hs.inv1 hii hi hov hk (req_none h1 k) (req_none h2 k)
    have exactR : ∀ g, g < 56 → (∃ v, r.mat.items.lookup g = some (v, none)) → ∃ v, i.items.lookup g = some (v, none) := by
      rintro g hg ⟨v, h⟩
      refine exact_of_req hg hni fun k hk => ?_
      rw [req_of_sub hii hr.inv ⟨p, hip⟩ (fun q hq => ((hi q.hdr).1 hq).1) hk (e := v.testBit k) (by unfold req; rw [h]; rfl)]
      rfl
    have exactM : ∀ g, g < 56 → (∃ v, m.items.lookup g = some (v, none)) → ∃ v, i.items.lookup g = some (v, none) := by
      rintro g hg ⟨v, h⟩
      refine exact_of_req hg hni fun k hk => ?_
      rw [req_of_sub hii hs.inv1 ⟨p, hip⟩ (fun q hq => ((hi q.hdr).1 hq).2) hk (e := v.testBit k) (by unfold req; rw [h]; rfl)]
      rfl
    refine ⟨i, by rw [if_neg hemp]; exact ei, hii, inv_empty, fun x hx => (hni x hx).1, by simp [Match.empty], (agrees_iff hii).2 hip,
      ⟨fun f hf hc => ?_, fun f hf hc => ?_⟩, hempD, fun f hf hK => ?_⟩
    · obtain ⟨-, -, -, -, -, -, -, l0, l1, -⟩ := tun_ids f hf; exact free _ (mok_free hr.keys l1) (hs.depth1.one f hf hc)
    · obtain ⟨-, -, -, -, -, -, -, l0, l1, l1', l2, -⟩ := tun_ids f hf; exact free _ (mok_free hr.keys l2) (hs.depth1.two f hf hc)
    · obtain ⟨-, -, -, -, -, -, -, l0, l1, l1', l2, l2', -⟩ := tun_ids f hf
      obtain ⟨k0, k1, k2, k3⟩ := hs.known f hf hK
      refine ⟨?_, ?_, ?_, k3⟩
      · rcases k0 with h | ⟨h, hz⟩
        · exact .inl (exactM f (by omega) h)
        · rcases hx f hf hK with h' | h'
          · exact .inr ⟨free f h' h, hz⟩
          · exact .inl (exactR f (by omega) h')
      · rcases k1 with h | ⟨h, hz⟩
        · exact .inl (exactM _ (by omega) h)
        · exact .inr ⟨free _ (mok_free hr.keys l1) h, hz⟩
      · rcases k2 with h | ⟨h, hz⟩
        · exact .inl (exactM _ (by omega) h)
        · exact .inr ⟨free _ (mok_free hr.keys l2) h, hz⟩

/-- Metadata do not matter to the invariant. -/
theorem simInv_meta {p : Pkt} {x : Match × Match} {c : Nat → Nat} {K : Nat → Prop} (h : SimInv p.fld x c K) (w : MetaW) :
    SimInv (writeMeta w p).fld ((simMeta w x).1, Match.empty) c K := by
  have hmok := simMeta_mok (x := x) w ⟨h.inv1, h.keys1⟩
  have hl : ∀ g, g ≠ 2 → (simMeta w x).1.items.lookup g = x.1.items.lookup g := fun g hg => (simMeta_other (sim := x.1) (rw := x.2) hg).1
  have hf : ∀ g d, g ≠ 2 → (writeMeta w p).fld g d = p.fld g d := by
    intro g d hg
    unfold writeMeta
    split
    · rfl
    · simp [hg]
    · simp [hg]
  have ht : ∀ f ∈ tunFields, f ≠ 2 ∧ in1 f ≠ 2 ∧ in2 f ≠ 2 := by decide +kernel
  refine ⟨hmok.1, inv_empty, hmok.2, by simp [Match.empty], simMeta_covers h.cov w, ⟨fun f hf' hc => ?_, fun f hf' hc => ?_⟩,
    ⟨fun f hf _ => by simp [Match.empty], fun f hf _ => by simp [Match.empty]⟩, fun f hf' hK => ?_⟩
  · rw [hl _ (ht f hf').2.1]; exact h.depth1.one f hf' hc
  · rw [hl _ (ht f hf').2.2]; exact h.depth1.two f hf' hc
  · obtain ⟨k0, k1, k2, k3⟩ := h.known f hf' hK
    obtain ⟨t0, t1, t2⟩ := ht f hf'
    exact ⟨by rw [hl f t0, hf f 0 t0]; exact k0, by rw [hl _ t1, hf f 1 t0]; exact k1, by rw [hl _ t2, hf f 2 t0]; exact k2,
      fun d hd => by rw [hf f d t0]; exact k3 d hd⟩

/-! ### Ways -/

/-- How often a field is pushed upon on the way. -/
def pushSum (f : Nat) (l : List (URule π)) : Nat := ((onward l).map fun r => pushesOf f r.inst.apply.iter).sum

/-- What is known while a way is followed: `c` bounds the pushes so far, `K` are the fields that may be pushed upon. -/
structure Way (K : Nat → Prop) (c : Nat → Nat) (mat : Option Match) (p : Pkt) (l : List (URule π)) : Prop where
  fits : ∀ f ∈ tunFields, c f + pushSum f l ≤ 2
  pops : ∀ r ∈ onward l, ∀ a ∈ r.inst.apply.iter, ∀ t, a.pops = some t → ∀ f ∈ t.fields, c f + pushSum f l ≤ 1
  kinds : ∀ r ∈ onward l, ∀ a ∈ r.inst.apply.iter, ∀ t, a.pushes = some t → ∀ f ∈ t.fields, K f
  start : match mat with
    | none => ∀ r, l.head? = some r → ∀ f ∈ tunFields, K f → KnownAt r.2.mat p.fld f
    | some m => SimInv p.fld (m, Match.empty) c K

theorem onward_cons {r : URule π} {l : List (URule π)} {n : Nat} (h : r.2.inst.goto = some n) : onward (r :: l) = r.2 :: onward l := by
  simp [onward, h]

theorem Way.admits {K : Nat → Prop} {c : Nat → Nat} {mat : Option Match} {p : Pkt} {l : List (URule π)} (h : Way K c mat p l) : Admits mat p := by
  intro m e
  subst e
  exact (agrees_iff h.start.inv1).1 h.start.cov

/-- One step on a way: the egress is found and what is known is known of the packet that goes on. -/
theorem way_step {K : Nat → Prop} {c : Nat → Nat} {mat : Option Match} {p : Pkt} {r : URule π} {l : List (URule π)} {n : Nat} (hr : RuleOK r.2)
    (hx : ∀ f ∈ tunFields, K f → ExactOrFree r.2.mat f) (hp : r.2.mat.accepts p) (hg : r.2.inst.goto = some n) (h : Way K c mat p (r :: l)) :
    ∃ e, gotoEgress r.2 mat = .ok e ∧ ∃ c', Way K c' (some e) (r.2.inst.forward p) l := by
  obtain ⟨s, ks, es⟩ := hr.apply
  have hon := onward_cons (l := l) hg
  have hsum : ∀ f, pushSum f (r :: l) = pushesOf f r.2.inst.apply.iter + pushSum f l := fun f => by simp [pushSum, hon]
  have hstart : ∃ i, (match mat with
      | some m => if m.items.isEmpty then .ok r.2.mat else r.2.mat.intersection m
      | none => .ok r.2.mat : Except PyErr Match) = .ok i ∧ SimInv p.fld (i, Match.empty) c K := by
    cases mat with
    | some m => exact start_inter hr h.start hp hx
    | none =>
      refine ⟨r.2.mat, rfl, hr.inv, inv_empty, lt56 hr.keys, by simp [Match.empty], (agrees_iff hr.inv).2 hp, ⟨fun f hf _ => ?_, fun f hf _ => ?_⟩,
        ⟨fun f hf _ => by simp [Match.empty], fun f hf _ => by simp [Match.empty]⟩, fun f hf hK => h.start r rfl f hf hK⟩
      · obtain ⟨-, -, -, -, -, -, -, l0, l1, -⟩ := tun_ids f hf; exact mok_free hr.keys l1
      · obtain ⟨-, -, -, -, -, -, -, l0, l1, l1', l2, -⟩ := tun_ids f hf; exact mok_free hr.keys l2
  obtain ⟨i, ei, hi⟩ := hstart
  have hmem : r.2 ∈ onward (r :: l) := by rw [hon]; simp
  obtain ⟨x, c', e, hs, hc⟩ := simStep_all r.2.inst.apply.iter hi (fun a ha => known_iter ks es a ha) (fun a ha t ht f hf => h.kinds r.2 hmem a ha t ht f hf)
    (fun f hf => by have := h.fits f hf; have := hsum f; omega)
    (fun a ha t ht f hf => by have := h.pops r.2 hmem a ha t ht f hf; have := hsum f; omega)
  refine ⟨(simMeta r.2.inst.wmeta x).1, ?_, c', ?_, ?_, ?_, simInv_meta hs _⟩
  · unfold gotoEgress simEgress
    simp only [bind, Except.bind, pure, Except.pure]
    cases mat with
    | none => simp only at ei ⊢; cases ei; rw [e]
    | some m =>
      simp only at ei ⊢
      split at ei
      · next h => cases ei; rw [if_pos h, e]
      · next h => rw [if_neg h, ei]; simp only [e]
  · intro f hf
    have := h.fits f hf; have := hsum f; have := hc f hf; omega
  · intro r' hr' a ha t ht f hf
    have := h.pops r' (by rw [hon]; exact List.mem_cons_of_mem _ hr') a ha t ht f hf
    have := hsum f; have := hc f ((tun_fields t).2 f hf); omega
  · intro r' hr' a ha t ht f hf
    exact h.kinds r' (by rw [hon]; exact List.mem_cons_of_mem _ hr') a ha t ht f hf

theorem foldlM_grows {σ α β : Type} {f : σ → α → Except PyErr σ} (M : σ → β → Prop) (G : σ → Prop) (Q : α → β → Prop) (l : List α)
    (h : ∀ x ∈ l, ∀ s, G s → ∃ s', f s x = .ok s' ∧ G s' ∧ ∀ e, M s e ∨ Q x e → M s' e) (s : σ) (hs : G s) :
    ∃ s', l.foldlM f s = .ok s' ∧ G s' ∧ ∀ e, (M s e ∨ ∃ x ∈ l, Q x e) → M s' e := by
  induction l generalizing s with
  | nil => exact ⟨s, rfl, hs, by simp⟩
  | cons x l ih =>
    obtain ⟨s1, e1, g1, m1⟩ := h x (by simp) s hs
    obtain ⟨s2, e2, g2, m2⟩ := ih (fun y hy => h y (List.mem_cons_of_mem _ hy)) s1 g1
    refine ⟨s2, by rw [List.foldlM_cons, e1]; exact e2, g2, fun e he => m2 e ?_⟩
    rcases he with he | ⟨y, hy, he⟩
    · exact .inl (m1 e (.inl he))
    · rcases List.mem_cons.1 hy with rfl | hy
      · exact .inl (m1 e (.inr he))
      · exact .inr ⟨y, hy, he⟩

/-- The pairs on a way that can be followed. -/
def Follow (rs : List (URule π)) (K : Nat → Prop) (t : Nat) (mat : Option Match) (parents : List Nat) (r : URule π) (e : Nat × Nat) : Prop :=
  ∃ p l c, Path rs t p (r :: l) ∧ Way K c mat p (r :: l) ∧
    ((e.1 ∈ parents ∧ e.2 ∈ (r :: l).map (·.1)) ∨ [e.1, e.2].Sublist ((r :: l).map (·.1)))

theorem recurse_follow {rs : List (URule π)} (hr : TunnelGoto rs) (depth : Nat) : ∀ (t : Nat) (mat : Option Match) (parents : List Nat)
    (es : List (Nat × Nat)), IngressAny mat → (∃ r ∈ rs, r.2.table = t) → (∀ r ∈ rs, r.2.table < t + depth) →
    ∃ st, recurseGoto (groupTables rs) depth t mat parents (false, es) = .ok st ∧ st.1 = false ∧ (∀ e ∈ es, e ∈ st.2) ∧
      ∀ K : Nat → Prop, (∀ r ∈ rs, ∀ f ∈ tunFields, K f → ExactOrFree r.2.mat f) →
        ∀ e, (∃ r ∈ rs, r.2.table = t ∧ Follow rs K t mat parents r e) → e ∈ st.2 := by
  induction depth with
  | zero =>
    rintro t mat parents es - ⟨r, hr1, hr2⟩ hd
    exact absurd (hd r hr1) (by omega)
  | succ depth ih =>
    intro t mat parents es hm ht hd
    have hsome : ((groupTables rs).lookup t).isNone = false := by
      have := group_isSome rs t
      rw [List.any_eq_true.2 (by obtain ⟨r, h1, h2⟩ := ht; exact ⟨r, h1, by simp [h2]⟩)] at this
      simpa using Option.ne_none_iff_isSome.2 this
    rw [recurseGoto, lookup_group, hsome]
    refine Exists.imp (fun st h => ⟨h.1, h.2.1, fun e he => h.2.2 e (.inl he), fun K hK e ⟨r, h1, h2, h3⟩ =>
        h.2.2 e (.inr ⟨r, by simp [h1, h2], K, hK, h3⟩)⟩)
      (foldlM_grows (fun (s : Bool × List (Nat × Nat)) e => e ∈ s.2) (fun s => s.1 = false)
        (fun r e => ∃ K : Nat → Prop, (∀ r ∈ rs, ∀ f ∈ tunFields, K f → ExactOrFree r.2.mat f) ∧ Follow rs K t mat parents r e)
        (rs.filter fun r => r.2.table == t) ?_ (false, es) rfl)
    rintro r hrm ⟨fl, s⟩ hfl
    simp only at hfl
    subst hfl
    obtain ⟨hrs, hrt⟩ : r ∈ rs ∧ r.2.table = t := by simpa using hrm
    have hok := hr.ok r hrs
    have hin : ∀ {l : List (URule π)} {e : Nat × Nat}, [e.1, e.2].Sublist ((r :: l).map (·.1)) →
        [e.1, e.2].Sublist (l.map (·.1)) ∨ (e.1 = r.1 ∧ e.2 ∈ l.map (·.1)) := by
      intro l e h
      rw [List.map_cons, List.sublist_cons_iff] at h
      refine h.imp_right ?_
      rintro ⟨x, hx, hs⟩
      simp only [List.cons.injEq] at hx
      obtain ⟨h1, rfl⟩ := hx
      exact ⟨h1, List.singleton_sublist.1 hs⟩
    cases hg : r.2.inst.goto with
    | none =>
      have hby : ∀ K e, Follow rs K t mat parents r e → (e.1 ∈ parents ∧ e.2 = r.1) ∧ ∃ p, Admits mat p ∧ r.2.mat.accepts p := by
        rintro K e ⟨p, l, c, hp, hw, h⟩
        cases hp with
        | here _ _ hacc =>
          refine ⟨?_, p, hw.admits, hacc⟩
          rcases h with h | h
          · simpa using h
          · have := hin h; simp at this
        | next _ _ _ hg' _ => rw [hg] at hg'; cases hg'
      have hyes : ∀ e, (e ∈ s ∨ ∃ K : Nat → Prop, (∀ r ∈ rs, ∀ f ∈ tunFields, K f → ExactOrFree r.2.mat f) ∧ Follow rs K t mat parents r e) →
          e ∈ addAll parents r.1 s := by
        rintro e (he | ⟨K, -, he⟩)
        · exact mem_addAll.2 (.inl he)
        · exact mem_addAll.2 (.inr (hby K e he).1)
      cases hmat : mat with
      | none =>
        subst hmat
        exact ⟨_, rfl, rfl, hyes⟩
      | some m =>
        subst hmat
        obtain ⟨hmi, hmk⟩ := hm m rfl
        obtain ⟨wa, ma, ea, -, ca⟩ := getWildcard_spec hmi hmk
        obtain ⟨wb, mb, eb, -, cb⟩ := getWildcard_spec hok.inv (lt56 hok.keys)
        simp only [ea, eb, bind, Except.bind, pure, Except.pure]
        by_cases h0 : wcIntersect totBits wa wb = 0
        · refine ⟨(false, s), by rw [if_pos h0], rfl, ?_⟩
          rintro e (he | ⟨K, -, he⟩)
          · exact he
          · obtain ⟨-, p, h1, h2⟩ := hby K e he
            rw [wcIntersect_eq_zero (by decide)] at h0
            exact absurd ⟨p.hdr, (ca _).2 (h1 m rfl), (cb _).2 h2⟩ h0
        · exact ⟨(false, addAll parents r.1 s), by rw [if_neg h0], rfl, hyes⟩
    | some next =>
      obtain ⟨hlt, hnext⟩ := hr.goto r hrs next hg
      rw [hrt] at hlt
      cases heg : gotoEgress r.2 mat with
      | error x =>
        refine ⟨(false, s), rfl, rfl, ?_⟩
        rintro e (he | ⟨K, hK, p, l, c, hpath, hw, -⟩)
        · exact he
        · have hacc : r.2.mat.accepts p := by cases hpath with
            | here _ _ h => exact h
            | next _ _ h _ _ => exact h
          obtain ⟨e', he', -⟩ := way_step hok (hK r hrs) hacc hg hw
          rw [heg] at he'; cases he'
      | ok eg =>
        obtain ⟨st, s1, s2, s3, s4⟩ := ih next (some eg) (parents ++ [r.1]) (addAll parents r.1 s)
          (fun m h => by cases h; exact egress_mok hok hm heg) hnext (fun x hx => by have := hd x hx; omega)
        refine ⟨st, ?_, s2, ?_⟩
        · simp only
          rw [if_pos (by omega), if_pos hlt]
          exact s1
        · rintro e (he | ⟨K, hK, p, l, c, hpath, hw, h⟩)
          · exact s3 e (mem_addAll.2 (.inl he))
          · cases hpath with
            | here _ _ hacc =>
              refine s3 e (mem_addAll.2 (.inr ?_))
              rcases h with h | h
              · simpa using h
              · have := hin h; simp at this
            | next _ _ hacc hg' hp' =>
              rw [hg] at hg'
              cases hg'
              by_cases hc : e.1 ∈ parents ∧ e.2 = r.1
              · exact s3 e (mem_addAll.2 (.inr hc))
              · obtain ⟨e', he', c', hw'⟩ := way_step hok (hK r hrs) hacc hg hw
                rw [heg] at he'
                cases he'
                have hpair : (e.1 ∈ parents ++ [r.1] ∧ e.2 ∈ l.map (·.1)) ∨ [e.1, e.2].Sublist (l.map (·.1)) := by
                  rcases h with ⟨h1, h2⟩ | h
                  · rw [List.map_cons, List.mem_cons] at h2
                    rcases h2 with h2 | h2
                    · exact absurd ⟨h1, h2⟩ hc
                    · exact .inl ⟨List.mem_append_left _ h1, h2⟩
                  · rcases hin h with h | ⟨h1, h2⟩
                    · exact .inr h
                    · exact .inl ⟨by simp [h1], h2⟩
                refine s4 K hK e ?_
                have hx : ∃ r' l', l = r' :: l' ∧ r' ∈ rs ∧ r'.2.table = next := by
                  cases hp' with
                  | here a b _ => exact ⟨_, _, rfl, a, b⟩
                  | next a b _ _ _ => exact ⟨_, _, rfl, a, b⟩
                obtain ⟨r', l', rfl, a, b⟩ := hx
                exact ⟨r', a, b, _, l', c', hp', hw', hpair⟩

theorem ofRule_ofR_tun (r : URule π) (hr : RuleOK r.2) (hm : NoMeta r.2.inst.apply.iter)
    (h : ∀ k, pushCount k r.2.inst.apply.iter ≤ 2 ∧ (popCount k r.2.inst.apply.iter = 0 ∨ pushCount k r.2.inst.apply.iter ≤ 1)) :
    ∃ d, DRule.ofRule r.1 r.2 = .ok d ∧ OfR r d := by
  obtain ⟨w, m', e, hv, hc⟩ := getWildcard_spec hr.inv (lt56 hr.keys)
  obtain ⟨sim, rw', e1, h1⟩ := simEgress_tun hr hm (fun t => (h t).1) fun t => (h t).2
  have eg : gotoEgress r.2 none = .ok sim := by simp only [gotoEgress, e1, bind, Except.bind, pure, Except.pure]
  obtain ⟨w2, m2, e2, hv2, -⟩ := getWildcard_spec h1.inv h1.keys
  refine ⟨⟨r.1, r.2.priority, r.2.table, w, .ok w2⟩, ?_, rfl, rfl, rfl, hc, ⟨w2, rfl⟩, hv, fun x hx => by cases hx; exact hv2⟩
  simp [DRule.ofRule, e, eg, e2, bind, Except.bind, pure, Except.pure]

theorem mapM_ofR (l : List (URule π)) (h : ∀ r ∈ l, ∃ d, DRule.ofRule r.1 r.2 = .ok d ∧ OfR r d) :
    ∃ ds, (l.mapM fun r => DRule.ofRule r.1 r.2) = .ok ds ∧ (∀ d ∈ ds, ∃ r ∈ l, OfR r d) ∧ ∀ r ∈ l, ∃ d ∈ ds, OfR r d := by
  induction l with
  | nil => exact ⟨[], rfl, by simp, by simp⟩
  | cons r l ih =>
    obtain ⟨d, d1, d2⟩ := h r (by simp)
    obtain ⟨ds, e1, e2, e3⟩ := ih fun x hx => h x (List.mem_cons_of_mem _ hx)
    refine ⟨d :: ds, ?_, ?_, ?_⟩
    · rw [List.mapM_cons, d1, e1]; rfl
    · intro x hx
      rcases List.mem_cons.1 hx with rfl | hx
      · exact ⟨r, by simp, d2⟩
      · obtain ⟨y, hy, h'⟩ := e2 x hx; exact ⟨y, List.mem_cons_of_mem _ hy, h'⟩
    · intro x hx
      rcases List.mem_cons.1 hx with rfl | hx
      · exact ⟨d, by simp, d2⟩
      · obtain ⟨y, hy, h'⟩ := e3 x hx; exact ⟨y, List.mem_cons_of_mem _ hy, h'⟩

end Deps
end OFE
