import Verif.Deps.GotoLemmas
import Verif.Deps.TunnelLemmas
import Verif.Props.TunnelMerge
import Verif.Rule.TunnelSound

/-! # C106: `egress_overlap` tells whether a packet can go from one rule to another -/

namespace OFE
namespace Deps
variable {π : Type}

/-- Specification: some packet of the ingress that rule `r` matches is matched by `o` after the apply-actions and metadata writes of `r`. -/
def GoesOn (r o : Rule π) (mat : Option Match) : Prop := ∃ p, Admits mat p ∧ r.mat.accepts p ∧ o.mat.accepts (r.inst.forward p)

theorem overlap_of {e m : Match} (he : MOK e) (hi : m.Inv) (hk : ∀ x ∈ m.items, x.1 < 40) :
    ∃ b, e.overlaps m = .ok b ∧ (b = true ↔ ∃ q : Pkt, e.accepts q ∧ m.accepts q) := by
  obtain ⟨b, e1, e2⟩ := overlaps_iff he.1 hi he.2 (lt56 hk)
  refine ⟨b, e1, e2.trans ⟨?_, fun ⟨q, h1, h2⟩ => ⟨_, h1, h2⟩⟩⟩
  rintro ⟨q, h1, h2⟩
  obtain ⟨p, hp⟩ := exists_pkt q
  exact ⟨p, (matches_congr he.1.nodup hp).2 h1, (matches_congr hi.nodup hp).2 h2⟩

/-- **C106** (partial: rules without pushes and pops; some packet of the ingress must reach the first rule, see `C106_disjoint_raises`)
`r.egress_overlap(o, ingress)` is true exactly if some packet of the ingress that `r` matches is then matched by `o`. -/
theorem C106_overlap_partial (r o : Rule π) (hr : RuleOK r) (hf : FlatActs r.inst.apply.iter) (ho : o.mat.Inv) (hk : ∀ x ∈ o.mat.items, x.1 < 40)
    {mat : Option Match} (hm : IngressOK mat) (hin : ∃ p, Admits mat p ∧ r.mat.accepts p) :
    ∃ b, egressOverlap r o mat = .ok b ∧ (b = true ↔ GoesOn r o mat) := by
  rcases egress_ingress hr hf hm with ⟨e, h1, h2, h3, -, h5, h6⟩ | ⟨-, h⟩
  · obtain ⟨b, e1, e2⟩ := overlap_of ⟨h2, lt56 h3⟩ ho hk
    refine ⟨b, by simp only [egressOverlap, h1, bind, Except.bind, e1], e2.trans ⟨?_, ?_⟩⟩
    · rintro ⟨q, hq, hq'⟩
      obtain ⟨p, hp, hp', he⟩ := h6 q hq
      exact ⟨p, hp, hp', (he.accepts ho).2 hq'⟩
    · rintro ⟨p, hp, hp', hq⟩
      exact ⟨_, h5 p hp hp', hq⟩
  · obtain ⟨p, hp, hp'⟩ := hin
    exact absurd hp' (h p hp)

/-- **C106**, negation for ingresses that do not meet the rule: the answer should be false, but an exception is raised. -/
theorem C106_disjoint_raises (r o : Rule π) (hr : RuleOK r) (hf : FlatActs r.inst.apply.iter) {mat : Option Match} (hm : IngressOK mat)
    (hin : ¬ ∃ p, Admits mat p ∧ r.mat.accepts p) : ¬ GoesOn r o mat ∧ ∃ e, egressOverlap r o mat = .error e := by
  refine ⟨fun ⟨p, hp, hp', _⟩ => hin ⟨p, hp, hp'⟩, ?_⟩
  rcases egress_ingress hr hf hm with ⟨e, -, -, -, h, -, -⟩ | ⟨⟨e, he⟩, -⟩
  · exact absurd h hin
  · exact ⟨e, by simp only [egressOverlap, he, bind, Except.bind]⟩

/-- **C106** with pushes and pops (partial: one direction, and only for packets of which the rule knows the headers that it pushes upon): a packet
that goes from `r` to `o` makes `r.egress_overlap(o)` true. -/
theorem C106_tunnels_partial (r o : Rule π) (hr : RuleOK r) (ho : o.mat.Inv) (hk : ∀ x ∈ o.mat.items, x.1 < 40)
    (h2 : ∀ t, pushCount t r.inst.apply.iter ≤ 2)
    (h1 : ∀ t, popCount t r.inst.apply.iter = 0 ∨ pushCount t r.inst.apply.iter ≤ 1)
    (p : Pkt) (hp : r.mat.accepts p) (hkn : PushedKnown r p) (hq : o.mat.accepts (r.inst.forward p)) :
    egressOverlap r o none = .ok true := by
  obtain ⟨e, he, ha⟩ := C32_egress_covers_partial r hr p hp h2 h1 hkn
  obtain ⟨b, e1, e2⟩ := overlap_of (egress_mok hr (by intro m hm; cases hm) he) ho hk
  rw [e2.2 ⟨_, ha, hq⟩] at e1
  simp only [egressOverlap, he, bind, Except.bind, e1]

/-- **C106** with pushes and pops, the other direction (the headers pushed upon are matched without masks or not at all): an answer there is, and
if it is true, some packet goes from `r` to `o`. -/
theorem C106_tunnels_sound (r o : Rule π) (hr : RuleOK r) (ho : o.mat.Inv) (hk : ∀ x ∈ o.mat.items, x.1 < 40) (hm : NoMeta r.inst.apply.iter)
    (h2 : ∀ t, pushCount t r.inst.apply.iter ≤ 2)
    (h1 : ∀ t, popCount t r.inst.apply.iter = 0 ∨ pushCount t r.inst.apply.iter ≤ 1)
    (hx : ∀ t, 0 < pushCount t r.inst.apply.iter → ∀ f ∈ t.fields, ExactOrFree r.mat f) :
    ∃ b, egressOverlap r o none = .ok b ∧ (b = true → GoesOn r o none) := by
  obtain ⟨e, he, hok, hs⟩ := egress_sound hr hm h2 h1 hx
  obtain ⟨b, e1, e2⟩ := overlap_of hok ho hk
  refine ⟨b, by simp only [egressOverlap, he, bind, Except.bind, e1], fun hb => ?_⟩
  obtain ⟨q, hq, hq'⟩ := e2.1 hb
  obtain ⟨p, hp, h⟩ := hs q hq
  refine ⟨p, (by intro m hm; cases hm), hp, (accepts_outer ho hk _).2 fun g k c hg hw hc => ?_⟩
  rw [h g k hg hw]
  exact (accepts_outer ho hk _).1 hq' g k c hg hw hc

/-- **C106**, negation for pushes upon headers that the rule does not know: the packet with VLAN 5 goes on to the rule for VLAN 5, but the answer is
no. -/
theorem C106_push_unknown : RuleOK pushUnknown ∧ RuleOK sampleVlan5 ∧ GoesOn pushUnknown sampleVlan5 none ∧
    egressOverlap pushUnknown sampleVlan5 none = .ok false :=
  ⟨C32_push_unknown.1, C65_push_unknown.2.1, ⟨samplePushPkt, (by intro m hm; cases hm), C65_push_unknown.2.2.2⟩, by decide +kernel⟩

/-- The samples meet the hypotheses of `C106_overlap_partial` (with and without ingress), and the answer depends on the actions: the first rule sets
IPV4_DST 9, whatever its ingress says. -/
example : RuleOK sampleA ∧ FlatActs sampleA.inst.apply.iter ∧ sampleB.mat.Inv ∧ (∀ x ∈ sampleB.mat.items, x.1 < 40) ∧
    IngressOK (some (Match.empty.append 12 8 none)) ∧
    egressOverlap sampleA sampleB none = .ok true ∧ egressOverlap sampleA sampleB (some (Match.empty.append 12 8 none)) = .ok true ∧
    egressOverlap sampleA { sampleB with mat := Match.empty.append 12 8 none } (some (Match.empty.append 12 8 none)) = .ok false :=
  ⟨sampleA_ok, sampleA_flat, sampleB_ok.inv, sampleB_ok.keys,
    fun m h => by cases h; exact ⟨inv_append inv_empty _ _ _, by decide +kernel⟩, by decide +kernel, by decide +kernel, by decide +kernel⟩

/-- An ingress with VLAN 6 does not meet the first rule, which matches VLAN 5. -/
example : egressOverlap sampleA sampleB (some (Match.empty.append 6 0x1006 none)) = .error .keyError := by decide +kernel

/-- With pushes: the rule that pushes a header with VLAN 6 goes on to rules for VLAN 6 and not to rules for VLAN 5. -/
example :
    egressOverlap samplePush { samplePush with mat := Match.empty.append 6 0x1006 none } none = .ok true ∧
    egressOverlap samplePush { samplePush with mat := Match.empty.append 6 0x1005 none } none = .ok false := by decide +kernel

end Deps
end OFE
