import Verif.Rule.MergeLemmas2
import Verif.Props.Match
import Verif.Actions.SetLemmas

/-!
# Lemmas: the merged match and the merged instructions
-/

namespace OFE

theorem pushCount_flat {l : List Action} (h : FlatActs l) (t : Tun) : pushCount t l = 0 := by
  unfold pushCount
  rw [List.countP_eq_zero]
  intro a ha
  rw [(h a ha).1]; simp

theorem popCount_flat {l : List Action} (h : FlatActs l) (t : Tun) : popCount t l = 0 := by
  unfold popCount
  rw [List.countP_eq_zero]
  intro a ha
  rw [(h a ha).2.1]; simp

theorem adjust_flat {l : List Action} (h : FlatActs l) (m : Match) :
    [Tun.vlan, .mpls, .pbb].foldlM (adjustTunnel l) m = .ok m := by
  have : ∀ m t, adjustTunnel l m t = .ok m := by
    intro m t
    unfold adjustTunnel
    rw [pushCount_flat h, popCount_flat h]; simp
  simp [List.foldlM_cons, this, bind, Except.bind, pure, Except.pure]

/-- A normalised item requires a bit. -/
theorem normItem_req {x : Nat × Nat × Option Nat} (h : NormItem x) : ∃ k, k < width x.1 ∧ (reqItem x.2.1 x.2.2 k).isSome = true := by
  obtain ⟨f, v, mask⟩ := x
  obtain ⟨h1, h2, h3⟩ := h
  simp only at *
  have hw : 0 < width f := by
    have : ∀ f, f < 56 → 0 < width f := by decide +kernel
    exact this f h1
  cases mask with
  | none => exact ⟨0, hw, rfl⟩
  | some m =>
    obtain ⟨m0, m1, -⟩ := h3 m rfl
    have : ∃ k, m.testBit k = true := by
      by_contra hno
      apply m0
      apply Nat.eq_of_testBit_eq
      intro i
      simp only [not_exists, Bool.not_eq_true] at hno
      rw [hno]; simp
    obtain ⟨k, hk⟩ := this
    refine ⟨k, ?_, by simp [reqItem, hk]⟩
    by_contra hlt
    have := Nat.testBit_lt_two_pow (x := m) (i := k) (by
      have : 2 ^ width f ≤ 2 ^ k := Nat.pow_le_pow_right (by omega) (by omega)
      omega)
    rw [hk] at this; cases this

/-- An intersection of matches on the OpenFlow fields is one. -/
theorem inter_keys {a b m : Match} (ha : a.Inv) (hb : b.Inv) (hka : ∀ x ∈ a.items, x.1 < 40) (hkb : ∀ x ∈ b.items, x.1 < 40)
    (hm : m.Inv) (hnm : ∀ x ∈ m.items, NormItem x)
    (hp : ∀ p, MatchesAll m.items p ↔ MatchesAll a.items p ∧ MatchesAll b.items p)
    (hov : ∃ p, MatchesAll a.items p ∧ MatchesAll b.items p) : ∀ x ∈ m.items, x.1 < 40 := by
  intro x hx
  by_contra hge
  obtain ⟨k, hk, hr⟩ := normItem_req (hnm x hx)
  have hl : m.items.lookup x.1 = some x.2 := lookup_eq_some_of_mem hm.nodup hx
  obtain ⟨c, hc⟩ := Option.isSome_iff_exists.1 hr
  have hreq : req m.items x.1 k = some c := by unfold req; rw [hl]; exact hc
  have none_of : ∀ {n : Match}, (∀ x ∈ n.items, x.1 < 40) → ∀ i, req n.items x.1 i = none := by
    intro n hn i
    unfold req
    have : n.items.lookup x.1 = none := by
      cases hl : n.items.lookup x.1 with
      | none => rfl
      | some y => exact absurd (hn _ (mem_of_lookup_eq_some hl)) (by simpa using hge)
    rw [this]
  obtain ⟨q, qa, qb⟩ := hov
  have key : ∀ {n : Match}, n.Inv → (∀ x ∈ n.items, x.1 < 40) → MatchesAll n.items q →
      MatchesAll n.items (Packet.build fun g i => if g = x.1 then !c else q.bit g i) := by
    intro n hi hn hq
    rw [matchesAll_iff hi.nodup] at hq ⊢
    intro g i b hig hb
    rw [build_bit (field_lt hig) hig]
    by_cases hg : g = x.1
    · subst hg; rw [none_of hn] at hb; cases hb
    · rw [if_neg hg]; exact hq g i b hig hb
  have := (hp _).2 ⟨key ha hka qa, key hb hkb qb⟩
  rw [matchesAll_iff hm.nodup] at this
  have := this x.1 k c hk hreq
  rw [build_bit (field_lt hk) hk, if_pos rfl] at this
  cases c <;> cases this

theorem lt56 {m : Match} (h : ∀ x ∈ m.items, x.1 < 40) : ∀ x ∈ m.items, x.1 < 56 := fun x hx => by have := h x hx; omega

/-- Forwarded packets and the second match, per bit. -/
theorem accepts_forward {i : Inst} (hf : FlatOK i.apply.iter) {b : Match} (hb : b.Inv) (p : Pkt) :
    b.accepts (i.forward p) ↔ ∀ g k c, k < width g → req b.items g k = some c → (rwBit i g k).getD (p.hdr.bit g k) = c := by
  unfold Match.accepts
  rw [matchesAll_iff hb.nodup]
  constructor
  · intro h g k c hk hr
    rw [← forward_bit hf p hk]; exact h g k c hk hr
  · intro h g k c hk hr
    rw [forward_bit hf p hk]; exact h g k c hk hr

/-- The merged match. -/
theorem merged_match {π : Type} {a : Rule π} {b sim rw : Match} (hs : SimOK a sim rw) (hf : FlatOK a.inst.apply.iter)
    (hia : a.mat.Inv) (hka : ∀ x ∈ a.mat.items, x.1 < 40) (hib : b.Inv) (hkb : ∀ x ∈ b.items, x.1 < 40) :
    (∃ c m, sim.overlaps b = .ok true ∧
      (b.copy [] ((rw.items.map (·.1)).filter fun x => (b.items.lookup x).isSome && x != fMeta) >>= fun s => stripMeta s rw) = .ok c ∧
      a.mat.intersection c = .ok m ∧ m.Inv ∧ (∀ x ∈ m.items, x.1 < 40) ∧ (∃ p, m.accepts p) ∧
      ∀ p, m.accepts p ↔ a.mat.accepts p ∧ b.accepts (a.inst.forward p)) ∨
    (sim.overlaps b = .ok false ∧ ∀ p, ¬ (a.mat.accepts p ∧ b.accepts (a.inst.forward p))) := by
  obtain ⟨r, er, hr⟩ := overlaps_iff hs.inv hib (lt56 hs.keys) (lt56 hkb)
  -- a packet accepted by both yields a packet in the overlap
  have hto : (∃ p, a.mat.accepts p ∧ b.accepts (a.inst.forward p)) → r = true := by
    rintro ⟨p, h1, h2⟩
    refine hr.2 ⟨(a.inst.forward p).hdr, ?_, h2⟩
    rw [matchesAll_iff hs.inv.nodup]
    intro g k c hk hc
    rw [hs.req g k hk] at hc
    rw [forward_bit hf p hk]
    cases hrw : rwBit a.inst g k with
    | some d => rw [hrw] at hc; simpa using hc
    | none =>
      rw [hrw, Option.none_or] at hc
      exact (matchesAll_iff hia.nodup).1 h1 g k c hk hc
  cases r with
  | false =>
    right
    refine ⟨er, fun p hp => ?_⟩
    cases hto ⟨p, hp⟩
  | true =>
    left
    obtain ⟨q, q1, q2⟩ := hr.1 rfl
    rw [matchesAll_iff hs.inv.nodup] at q1
    rw [matchesAll_iff hib.nodup] at q2
    obtain ⟨c, ec, hic, hkc, hreq⟩ := second_ok hs hib hkb
    -- where the first rule rewrites, the second match agrees
    have hagree : ∀ g k d e, k < width g → rwBit a.inst g k = some d → req b.items g k = some e → d = e := by
      intro g k d e hk hd he
      rw [← q1 g k d hk (by rw [hs.req g k hk, hd]; rfl)]
      exact q2 g k e hk he
    have hov : ∃ p, MatchesAll a.mat.items p ∧ MatchesAll c.items p := by
      refine ⟨Packet.build fun g k => (req a.mat.items g k).getD (q.bit g k), matches_build hia.nodup _, ?_⟩
      rw [matchesAll_iff hic.nodup]
      intro g k e hk he
      rw [hreq g k hk] at he
      split at he
      · cases he
      · next hno =>
        simp only [Bool.not_eq_true, Option.isSome_eq_false_iff, Option.isNone_iff_eq_none] at hno
        rw [build_bit (field_lt hk) hk]
        cases hra : req a.mat.items g k with
        | none => exact q2 g k e hk he
        | some d =>
          simp only [Option.getD_some]
          rw [← q2 g k e hk he]
          exact (q1 g k d hk (by rw [hs.req g k hk, hno, hra]; rfl)).symm
    obtain ⟨m, em, him, hnm, hm⟩ := C16_intersection a.mat c hia hic (lt56 hka) (lt56 hkc) hov
    have hkm := inter_keys hia hic hka hkc him hnm hm hov
    refine ⟨c, m, er, ec, em, him, hkm, ?_, fun p => ?_⟩
    · obtain ⟨q', h1, h2⟩ := hov
      obtain ⟨p, hp⟩ := exists_pkt q'
      exact ⟨p, (matches_congr him.nodup hp).2 ((hm q').2 ⟨h1, h2⟩)⟩
    · unfold Match.accepts
      rw [hm]
      refine and_congr_right fun _ => ?_
      rw [show MatchesAll b.items (a.inst.forward p).hdr = b.accepts (a.inst.forward p) from rfl, accepts_forward hf hib,
        matchesAll_iff hic.nodup]
      constructor
      · intro h g k e hk he
        cases hrw : rwBit a.inst g k with
        | some d => exact hagree g k d e hk hrw he
        | none => exact h g k e hk (by rw [hreq g k hk, hrw]; simpa using he)
      · intro h g k e hk he
        rw [hreq g k hk] at he
        split at he
        · cases he
        · next hno =>
          simp only [Bool.not_eq_true, Option.isSome_eq_false_iff, Option.isNone_iff_eq_none] at hno
          have := h g k e hk he
          rw [hno] at this
          exact this

end OFE
