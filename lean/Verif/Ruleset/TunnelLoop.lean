import Verif.Ruleset.TunnelSpec
import Verif.Ruleset.Single
import Verif.Props.TunnelMerge

/-!
# Lemmas: the loop over the tables with pushes and pops
-/

namespace OFE

variable {π : Type}

theorem merge_perm {a b r : Inst} (ha : InstOK a) (hb : InstOK b) (h : a.merge b = .ok r) :
    (r.apply.iter).Perm (a.apply.iter ++ b.apply.iter) := by
  obtain ⟨⟨s1, k1, e1⟩, -⟩ := ha
  obtain ⟨⟨s2, k2, e2⟩, -⟩ := hb
  have hk2 := known_iter k2 e2
  have hadd : a.apply.add b.apply = ActionList.ofList (s1 ++ b.apply.iter) := by
    unfold ActionList.add ActionList.copy ActionList.ofList
    rw [List.foldlM_append]
    unfold ActionList.ofList at e1
    rw [e1]; rfl
  have hks : AllKnown (s1 ++ b.apply.iter) := by
    intro x hx
    rcases List.mem_append.1 hx with h | h
    · exact k1 x h
    · exact hk2 x h
  have hap : r.apply = mkList (s1 ++ b.apply.iter) := by
    unfold Inst.merge at h
    simp only [hadd, ofList_known hks, bind, Except.bind, pure, Except.pure] at h
    split at h
    · injection h with h; rw [← h]
    · split at h
      · cases h
      · injection h with h; rw [← h]
  rw [hap]
  refine (mkList_iter_trace (s1 ++ b.apply.iter)).perm.symm.trans (List.Perm.append_right _ ?_)
  rw [ofList_ok e1]
  exact (mkList_iter_trace s1).perm

/-! ### Exactly matched fields -/

theorem exactOrFree_req {m : Match} {f : Nat} (h : ExactOrFree m f) :
    (∀ k, req m.items f k = none) ∨ ∀ k, (req m.items f k).isSome = true := by
  rcases h with h | ⟨v, h⟩
  · exact .inl fun k => req_none h k
  · exact .inr fun k => by unfold req; rw [h]; rfl

theorem free_of_req {m : Match} {f : Nat} (hn : ∀ x ∈ m.items, NormItem x) (h : ∀ k, k < width f → req m.items f k = none) :
    m.items.lookup f = none := by
  cases hl : m.items.lookup f with
  | none => rfl
  | some x =>
    exfalso
    obtain ⟨v, mask⟩ := x
    obtain ⟨h1, h2, h3⟩ := hn _ (mem_of_lookup_eq_some hl)
    simp only at h1 h2 h3
    unfold req at h
    rw [hl] at h
    cases mask with
    | none => exact absurd (h 0 (width_pos _ h1)) (by simp [reqItem])
    | some M =>
      obtain ⟨h0, hlt, -⟩ := h3 M rfl
      obtain ⟨k, hk⟩ := Nat.exists_testBit_of_ne_zero h0
      have hkw : k < width f := by
        apply Classical.byContradiction
        intro hge
        rw [Nat.testBit_lt_two_pow (Nat.lt_of_lt_of_le (by omega : M < 2 ^ width f) (Nat.pow_le_pow_right (by omega) (by omega)))] at hk
        cases hk
      have := h k hkw
      simp [reqItem, hk] at this

theorem exact_of_req {m : Match} {f : Nat} (hf : f < 56) (hn : ∀ x ∈ m.items, NormItem x)
    (h : ∀ k, k < width f → (req m.items f k).isSome = true) : ∃ v, m.items.lookup f = some (v, none) := by
  cases hl : m.items.lookup f with
  | none =>
    have := h 0 (width_pos _ hf)
    rw [req_none hl] at this
    cases this
  | some x =>
    obtain ⟨v, mask⟩ := x
    obtain ⟨h1, h2, h3⟩ := hn _ (mem_of_lookup_eq_some hl)
    simp only at h1 h2 h3
    cases mask with
    | none => exact ⟨v, rfl⟩
    | some M =>
      exfalso
      obtain ⟨h0, hlt, -⟩ := h3 M rfl
      unfold req at h
      rw [hl] at h
      have : M = 2 ^ width f - 1 := by
        apply Nat.eq_of_testBit_eq
        intro i
        rw [Nat.testBit_two_pow_sub_one]
        by_cases hi : i < width f
        · have := h i hi
          simp only [reqItem] at this
          by_cases hb : M.testBit i = true
          · simp [hb, hi]
          · simp [hb] at this
        · rw [Nat.testBit_lt_two_pow (Nat.lt_of_lt_of_le (by omega : M < 2 ^ width f) (Nat.pow_le_pow_right (by omega) (by omega)))]
          simp [hi]
      omega

/-! ### The rules of the condensed list -/

/-- What the loop needs. -/
structure TLoopOK (R : List (Rule π)) : Prop where
  ok : ∀ r ∈ R, RuleOK r
  noMeta : ∀ r ∈ R, NoMeta r.inst.apply.iter
  tun : TunnelPipeline R
  covered : ∀ r ∈ R, ∀ p, ∃ s ∈ R, s.table = r.table ∧ s.mat.accepts p

/-- The rule `c` of the condensed list stands for the rules `rs` in sequence. -/
structure TRep (R : List (Rule π)) (c : Rule π) (rs : List (Rule π)) : Prop where
  ok : RuleOK c
  links : Links R 0 rs c.inst.goto
  noMeta : NoMeta c.inst.apply.iter
  pu : ∀ k, pushCount k c.inst.apply.iter = pushedBy k rs
  po : ∀ k, popCount k c.inst.apply.iter = poppedBy k rs
  path : c.path = rs.flatMap (·.path)
  run : ∀ s, StEq (c.inst.run s) (runAll rs s)
  exact : ∀ k, PushedKind R k → ∀ f ∈ k.fields, ExactOrFree c.mat f
  first : ∀ f ∈ tunFields, ∀ r ∈ rs.head?, (∃ v, r.mat.items.lookup f = some (v, none)) → ∀ k, k < width f → (req c.mat.items f k).isSome = true

theorem Links.mem {R : List (Rule π)} {t : Nat} {rs : List (Rule π)} {g : Option Nat} (h : Links R t rs g) : ∀ r ∈ rs, r ∈ R := by
  induction h with
  | one h _ => simpa using h
  | snoc _ h2 _ ih =>
    intro r hr
    rcases List.mem_append.1 hr with hr | hr
    · exact ih r hr
    · simp at hr; subst hr; exact h2

theorem Links.goes {R : List (Rule π)} {t : Nat} {rs : List (Rule π)} {g : Option Nat} (h : Links R t rs g) (hg : g ≠ none) :
    ∀ r ∈ rs, r.inst.goto ≠ none := by
  induction h with
  | one _ _ => intro r hr; simp at hr; subst hr; exact hg
  | snoc _ _ _ ih =>
    intro r hr
    rcases List.mem_append.1 hr with hr | hr
    · exact ih (by simp) r hr
    · simp at hr; subst hr; exact hg

theorem sum_zero {l : List Nat} (h : ∀ x ∈ l, x = 0) : l.sum = 0 := by
  induction l with
  | nil => rfl
  | cons x l ih =>
    rw [List.sum_cons, h x List.mem_cons_self, ih fun y hy => h y (List.mem_cons_of_mem _ hy)]

theorem Links.ne {R : List (Rule π)} {t : Nat} {rs : List (Rule π)} {g : Option Nat} (h : Links R t rs g) : rs ≠ [] := by
  cases h <;> simp

/-- The kinds that a rule of the list pushes are kinds that rules going on push. -/
theorem TRep.kind {R : List (Rule π)} {c : Rule π} {rs : List (Rule π)} (h : TRep R c rs) (hg : c.inst.goto ≠ none) {k : Tun}
    (hp : 0 < pushCount k c.inst.apply.iter) : PushedKind R k := by
  rw [h.pu] at hp
  apply Classical.byContradiction
  intro hn
  have : ∀ x ∈ rs.map fun r => pushCount k r.inst.apply.iter, x = 0 := by
    intro x hx
    obtain ⟨r, hr, rfl⟩ := List.mem_map.1 hx
    apply Classical.byContradiction
    intro h0
    exact hn ⟨r, h.links.mem r hr, h.links.goes hg r hr, by omega⟩
  have : pushedBy k rs = 0 := sum_zero this
  omega

theorem rep_start {R : List (Rule π)} (h : TLoopOK R) {r : Rule π} (hr : r ∈ R) (ht : r.table = 0) : TRep R r [r] := by
  refine ⟨h.ok r hr, .one hr ht, h.noMeta r hr, fun k => by simp [pushedBy], fun k => by simp [poppedBy], by simp, fun s => .refl _,
    fun k hk f hf => h.tun.exact k hk r hr f hf, fun f hf x hx hv k _ => ?_⟩
  simp at hx
  subst hx
  obtain ⟨v, hv⟩ := hv
  unfold req
  rw [hv]; rfl

/-- What merging gives, and that it does not fail otherwise. -/
theorem merge_t {R : List (Rule π)} (h : TLoopOK R) {c b : Rule π} {rs : List (Rule π)} (hc : TRep R c rs) {n : Nat}
    (hg : c.inst.goto = some n) (hb : b ∈ R) (hbt : b.table = n) (openflow : Bool) :
    (∃ r, c.merge b openflow = .ok r ∧ TRep R { r with path := c.path ++ b.path } (rs ++ [b]) ∧ r.inst.goto = b.inst.goto ∧
      r.priority = c.priority + b.priority ∧ (∀ p, r.mat.accepts p → c.mat.accepts p) ∧
      ∀ p, PushedKnown c p → (r.mat.accepts p ↔ c.mat.accepts p ∧ b.mat.accepts (c.inst.forward p))) ∨
    (c.merge b openflow = .error .noOverlap ∧ ∀ p, PushedKnown c p → ¬ (c.mat.accepts p ∧ b.mat.accepts (c.inst.forward p))) := by
  have hl := hc.links
  rw [hg] at hl
  have hcnt := h.tun.counts rs n hl
  have hhid : ∀ g ∈ tunFields, pushesOf g c.inst.apply.iter < popsOf g c.inst.apply.iter → b.mat.items.lookup g = none := by
    intro g hgt hlt
    obtain ⟨t, ht⟩ := tun_of hgt
    rw [pushesOf_eq t ht, popsOf_eq t ht, hc.pu, hc.po] at hlt
    exact h.tun.hidden rs n hl t hlt b hb hbt g ht
  rcases merge_tun hc.ok (h.ok b hb) hc.noMeta (fun t => by rw [hc.pu]; exact (hcnt t).1)
    (fun t => by rw [hc.pu, hc.po]; exact (hcnt t).2.1) (fun t => by rw [hc.pu, hc.po]; exact (hcnt t).2.2) with
    ⟨m, i, ei, oki, hi, hne, hacc, hk, hreq, hmerge⟩ | ⟨e, hno⟩
  · left
    obtain ⟨hkeys, hmr⟩ := hreq.req hhid
    have hany : m.items.any (fun x => isInner x.1) = false := by
      rw [List.any_eq_false]
      intro x hx
      have := hkeys x hx
      simp [isInner]; omega
    have e := hmerge openflow
    rw [hany, Bool.and_false, if_neg (by decide)] at e
    have hperm := merge_perm hc.ok.inst (h.ok b hb).inst ei
    have hgo := (C27_merge_instructions c b _ hc.ok (h.ok b hb) (h.noMeta b hb) openflow e
      ⟨⟨fun _ _ => 0, fun _ => 0, 0, fun _ => 0, 0, 0⟩, [], []⟩).2.2.2
    refine ⟨_, e, ⟨⟨hi, hkeys, oki.apply, oki.write⟩, ?_, ?_, ?_, ?_, ?_, ?_, ?_, ?_⟩, hgo, rfl, hreq.sub, hacc⟩
    · exact hgo ▸ .snoc hl hb hbt
    · intro v hv
      rcases List.mem_append.1 (hperm.mem_iff.1 hv) with hv | hv
      · exact hc.noMeta v hv
      · exact h.noMeta b hb v hv
    · intro k
      show List.countP _ i.apply.iter = _
      rw [hperm.countP_eq, List.countP_append]
      have := hc.pu k
      unfold pushCount at this
      rw [this]
      simp [pushedBy, pushCount]
    · intro k
      show List.countP _ i.apply.iter = _
      rw [hperm.countP_eq, List.countP_append]
      have := hc.po k
      unfold popCount at this
      rw [this]
      simp [poppedBy, popCount]
    · show c.path ++ b.path = _
      rw [hc.path]; simp
    · intro s
      rw [runAll_append]
      exact (merge_stEq hc.ok (h.ok b hb) (h.noMeta b hb) e s).trans ((hc.run s).run b.inst)
    · intro k hk f hf
      have hft := (tun_fields k).2 f hf
      have hf40 := tun_lt hft
      have hf2 : f ≠ 2 := fun e => by have : (2 : Nat) ∉ tunFields := by decide
                                      exact this (e ▸ hft)
      show ExactOrFree m f
      rcases exactOrFree_req (hc.exact k hk f hf) with ha | ha
      · rcases exactOrFree_req (h.tun.exact k hk b hb f hf) with hb' | hb'
        · left
          refine free_of_req hreq.norm fun j hj => ?_
          rcases hmr f hf40 hf2 with hm | hm
          · rw [hm j hj, ha, hb']; rfl
          · rw [hm j hj, ha]
        · rcases hmr f hf40 hf2 with hm | hm
          · right
            refine exact_of_req (by omega) hreq.norm fun j hj => ?_
            rw [hm j hj, ha]; exact hb' j
          · left
            refine free_of_req hreq.norm fun j hj => ?_
            rw [hm j hj, ha]
      · right
        refine exact_of_req (by omega) hreq.norm fun j hj => ?_
        rcases hmr f hf40 hf2 with hm | hm
        · rw [hm j hj, Option.isSome_or, ha]; rfl
        · rw [hm j hj, ha]
    · intro f hft r hr hv j hj
      have hf40 := tun_lt hft
      have hf2 : f ≠ 2 := fun e => by have : (2 : Nat) ∉ tunFields := by decide
                                      exact this (e ▸ hft)
      have hr' : r ∈ rs.head? := by
        cases rs with
        | nil => exact absurd rfl hl.ne
        | cons x rs => exact hr
      have := hc.first f hft r hr' hv j hj
      show (req m.items f j).isSome = true
      rcases hmr f hf40 hf2 with hm | hm
      · rw [hm j hj, Option.isSome_or, this]; rfl
      · rw [hm j hj, this]
  · exact .inr ⟨e openflow, hno⟩

theorem merged_t {R : List (Rule π)} (h : TLoopOK R) {c b r : Rule π} {rs : List (Rule π)} (hc : TRep R c rs) {n : Nat}
    (hg : c.inst.goto = some n) (hb : b ∈ R) (hbt : b.table = n) {openflow : Bool} (hm : merged? c openflow b = some r) :
    TRep R r (rs ++ [b]) ∧ r.inst.goto = b.inst.goto ∧ (∀ p, r.mat.accepts p → c.mat.accepts p) ∧
      (∀ p, PushedKnown c p → (r.mat.accepts p ↔ c.mat.accepts p ∧ b.mat.accepts (c.inst.forward p))) ∧
      r.priority = c.priority + b.priority := by
  obtain ⟨r0, e, rfl⟩ := merged_some hm
  rcases merge_t h hc hg hb hbt openflow with ⟨r1, e1, h1, h2, h5, h3, h4⟩ | ⟨e1, -⟩
  · rw [e] at e1; cases e1
    exact ⟨h1, h2, h3, h4, h5⟩
  · rw [e] at e1; cases e1

/-- Merging with a table that accepts every packet keeps every packet, whether its headers are known or not. -/
theorem merged_covers {R : List (Rule π)} (h : TLoopOK R) {c : Rule π} {rs : List (Rule π)} (hc : TRep R c rs) {n : Nat}
    (hg : c.inst.goto = some n) (openflow : Bool) (p : Pkt) (hp : c.mat.accepts p) :
    ∃ q : Pkt, ∀ b ∈ R, b.table = n → b.mat.accepts q → ∃ r, merged? c openflow b = some r ∧ r.mat.accepts p := by
  have hl := hc.links
  rw [hg] at hl
  have hcnt := h.tun.counts rs n hl
  have h2 := fun t => by have := (hcnt t).1; rwa [← hc.pu] at this
  have h1 := fun t => by have := (hcnt t).2.1; rwa [← hc.pu, ← hc.po] at this
  have h3 := fun t => by have := (hcnt t).2.2; rwa [← hc.pu, ← hc.po] at this
  obtain ⟨q, hq⟩ := merge_covers hc.ok hc.noMeta h2 h1 h3 p hp
  refine ⟨q, fun b hb hbt hbq => ?_⟩
  obtain ⟨r, e, hr⟩ := hq b (h.ok b hb) hbq
  have e' : c.merge b openflow = .ok r := by
    cases openflow with
    | false => exact e
    | true =>
      rcases merge_t h hc hg hb hbt false with ⟨r1, e1, hrep, -⟩ | ⟨e1, -⟩
      · rw [e] at e1; cases e1
        rcases C65_merge_tunnels_partial c b hc.ok (h.ok b hb) hc.noMeta h2 h1 h3 with ⟨r2, e2, -, -, -, -, -, -, h4⟩ | ⟨e2, -⟩
        · rw [e] at e2; cases e2
          exact (h4 hrep.ok.keys).1
        · rw [e2] at e; cases e
      · rw [e] at e1; cases e1
  exact ⟨{ r with path := c.path ++ b.path }, by unfold merged?; rw [e'], hr⟩

theorem mergeAll_t {R : List (Rule π)} (h : TLoopOK R) {c : Rule π} {rs : List (Rule π)} (hc : TRep R c rs) {n : Nat}
    (hg : c.inst.goto = some n) (openflow : Bool) {l : List (Rule π)} (hl : ∀ b ∈ l, b ∈ R ∧ b.table = n) :
    mergeAll c openflow l = .ok (l.filterMap (merged? c openflow)) := by
  induction l with
  | nil => rfl
  | cons b l ih =>
    have ih := ih fun x hx => hl x (List.mem_cons_of_mem _ hx)
    unfold mergeAll
    obtain ⟨hb, hbt⟩ := hl b List.mem_cons_self
    rcases merge_t h hc hg hb hbt openflow with ⟨r, e, -⟩ | ⟨e, -⟩
    · rw [e]
      simp only [ih, bind, Except.bind, pure, Except.pure, List.filterMap_cons]
      rw [show merged? c openflow b = some { r with path := c.path ++ b.path } from by unfold merged?; rw [e]]
    · rw [e]
      simp only [ih, List.filterMap_cons]
      rw [show merged? c openflow b = none from by unfold merged?; rw [e]]

theorem condense_t {R : List (Rule π)} (h : TLoopOK R) {num : Nat} {openflow : Bool} {first : List (Rule π)}
    (hf : ∀ a ∈ first, ∃ rs, TRep R a rs) :
    condense first (tableRules R num) num openflow =
      .ok (first.flatMap fun a => if a.inst.goto = some num then (tableRules R num).filterMap (merged? a openflow) else [a]) := by
  induction first with
  | nil => rfl
  | cons a rest ih =>
    have ih := ih fun x hx => hf x (List.mem_cons_of_mem _ hx)
    obtain ⟨rs, ha⟩ := hf a List.mem_cons_self
    unfold condense
    rw [ih, List.flatMap_cons]
    by_cases hg : a.inst.goto = some num
    · simp only [if_pos hg, mergeAll_t h ha hg openflow (fun b hb => mem_tableRules.1 hb)]; rfl
    · simp only [if_neg hg]; rfl

/-! ### The packet that is followed -/

theorem leads_head {R : List (Rule π)} {t : Nat} {s : St} {rs : List (Rule π)} {g : Option Nat} (h : Leads R t s rs g) :
    ∃ r, rs.head? = some r ∧ Hits R t s.pkt r ∧ (g ≠ none → r.inst.goto ≠ none) := by
  induction h with
  | @one r h => exact ⟨r, rfl, h, id⟩
  | @snoc rs n r h1 h2 ih =>
    obtain ⟨r0, e, h3, h4⟩ := ih
    refine ⟨r0, ?_, h3, fun _ => h4 (by simp)⟩
    cases rs with
    | nil => cases e
    | cons x rs => exact e

/-- The headers that are pushed upon are known. -/
theorem known_t {R : List (Rule π)} {c : Rule π} {rs : List (Rule π)} (hc : TRep R c rs) {p : Pkt} (hp : HeadersKnown R p)
    (hl : Leads R 0 (St.enter p) rs c.inst.goto) (hg : c.inst.goto ≠ none) : PushedKnown c p := by
  intro k hk f hf
  have hkind := hc.kind hg hk
  obtain ⟨h1, h2⟩ := hp k hkind f hf
  refine ⟨h1, ?_⟩
  have hft := (tun_fields k).2 f hf
  rcases hc.exact k hkind f hf with h3 | h3
  · refine .inr ⟨h3, ?_⟩
    rcases h2 with h2 | h2
    · exact h2
    · exfalso
      obtain ⟨r, hr, hh, hgo⟩ := leads_head hl
      have := hc.first f hft r hr (h2 r hh (hgo hg)) 0 (width_pos _ (by have := tun_lt hft; omega))
      rw [req_none h3] at this
      cases this
  · exact .inl h3

/-- Invariant of the loop: `rem` are the tables still to come. -/
structure TInv (R : List (Rule π)) (rem : List Nat) (l : List (Rule π)) : Prop where
  rep : ∀ c ∈ l, ∃ rs, TRep R c rs
  goto : ∀ c ∈ l, ∀ n, c.inst.goto = some n → n ∈ rem
  first : ∀ p, HeadersKnown R p → ∃ c rs, FirstHit l p c ∧ TRep R c rs ∧ Leads R 0 (St.enter p) rs c.inst.goto
  cover : ∀ p, ∃ c ∈ l, c.mat.accepts p

theorem tinv_start {R : List (Rule π)} (h : TLoopOK R) (ht : ∃ r ∈ R, r.table = 0) {rem : List Nat}
    (hg : ∀ r ∈ R, r.table = 0 → ∀ n, r.inst.goto = some n → n ∈ rem) : TInv R rem (tableRules R 0) := by
  refine ⟨fun c hc => ?_, fun c hc => ?_, fun p _ => ?_, fun p => by
    obtain ⟨r, hr, hrt⟩ := ht
    obtain ⟨s, hs, hst, hsp⟩ := h.covered r hr p
    exact ⟨s, mem_tableRules.2 ⟨hs, hst.trans hrt⟩, hsp⟩⟩
  · have hc := mem_tableRules.1 hc
    exact ⟨[c], rep_start h hc.1 hc.2⟩
  · have hc := mem_tableRules.1 hc
    exact hg c hc.1 hc.2
  · obtain ⟨r, hr, hrt⟩ := ht
    obtain ⟨s, hs, hst, hsp⟩ := h.covered r hr p
    obtain ⟨c, hc⟩ := exists_firstHit (l := tableRules R 0) ⟨s, mem_tableRules.2 ⟨hs, hst.trans hrt⟩, hsp⟩
    have hm := mem_tableRules.1 hc.mem
    exact ⟨c, [c], hc, rep_start h hm.1 hm.2, .one hc.hits⟩

theorem tinv_step {R : List (Rule π)} (h : TLoopOK R) {num : Nat} {rem : List Nat} {l : List (Rule π)}
    (hn : ∃ r ∈ R, r.table = num) (hg : ∀ r ∈ R, r.table = num → ∀ n, r.inst.goto = some n → n ∈ rem)
    (hi : TInv R (num :: rem) l) (openflow : Bool) :
    condense l (tableRules R num) num openflow = .ok (l.flatMap fun a =>
      if a.inst.goto = some num then (tableRules R num).filterMap (merged? a openflow) else [a]) ∧
    TInv R rem (l.flatMap fun a =>
      if a.inst.goto = some num then (tableRules R num).filterMap (merged? a openflow) else [a]) := by
  refine ⟨condense_t h hi.rep, ⟨?_, ?_, ?_, fun p => by
    obtain ⟨c, hc, hp⟩ := hi.cover p
    obtain ⟨rs, hrep⟩ := hi.rep c hc
    by_cases hgo : c.inst.goto = some num
    · obtain ⟨q, hq⟩ := merged_covers h hrep hgo openflow p hp
      obtain ⟨r0, hr0, hrt⟩ := hn
      obtain ⟨s, hs, hst, hsp⟩ := h.covered r0 hr0 q
      obtain ⟨r, hm, hr⟩ := hq s hs (hst.trans hrt) hsp
      refine ⟨r, List.mem_flatMap.2 ⟨c, hc, ?_⟩, hr⟩
      rw [if_pos hgo]
      exact List.mem_filterMap.2 ⟨s, mem_tableRules.2 ⟨hs, hst.trans hrt⟩, hm⟩
    · refine ⟨c, List.mem_flatMap.2 ⟨c, hc, ?_⟩, hp⟩
      rw [if_neg hgo]
      exact List.mem_singleton.2 rfl⟩⟩
  · intro c hc
    obtain ⟨a, ha, hca⟩ := List.mem_flatMap.1 hc
    obtain ⟨rs, hr⟩ := hi.rep a ha
    split at hca
    · next hgo =>
      obtain ⟨b, hb, hm⟩ := List.mem_filterMap.1 hca
      have hb := mem_tableRules.1 hb
      exact ⟨rs ++ [b], (merged_t h hr hgo hb.1 hb.2 hm).1⟩
    · simp at hca; subst hca; exact ⟨rs, hr⟩
  · intro c hc n hcn
    obtain ⟨a, ha, hca⟩ := List.mem_flatMap.1 hc
    obtain ⟨rs, hr⟩ := hi.rep a ha
    split at hca
    · next hgo =>
      obtain ⟨b, hb, hm⟩ := List.mem_filterMap.1 hca
      have hb' := mem_tableRules.1 hb
      have := (merged_t h hr hgo hb'.1 hb'.2 hm).2.1
      rw [hcn] at this
      exact hg b hb'.1 hb'.2 n this.symm
    · next hgo =>
      simp at hca; subst hca
      rcases List.mem_cons.1 (hi.goto c ha n hcn) with rfl | h'
      · exact absurd hcn hgo
      · exact h'
  · intro p hp
    obtain ⟨c, rs, hfm, hrep, hl⟩ := hi.first p hp
    have hsub : ∀ a ∈ l, ∀ x ∈ (if a.inst.goto = some num then (tableRules R num).filterMap (merged? a openflow) else [a]),
        x.mat.accepts p → a.mat.accepts p := by
      intro a ha x hx hxp
      obtain ⟨rs, hr⟩ := hi.rep a ha
      split at hx
      · next hgo =>
        obtain ⟨b, hb, hm⟩ := List.mem_filterMap.1 hx
        have hb' := mem_tableRules.1 hb
        exact (merged_t h hr hgo hb'.1 hb'.2 hm).2.2.1 p hxp
      · simp at hx; subst hx; exact hxp
    by_cases hgo : c.inst.goto = some num
    · have hne : c.inst.goto ≠ none := by rw [hgo]; simp
      have hkn := known_t hrep hp hl hne
      have hcp : c.mat.accepts p := by obtain ⟨_, _, _, h1, _⟩ := hfm; exact h1
      have hfw : c.inst.forward p = (runAll rs (St.enter p)).pkt := (hrep.run (St.enter p)).1
      obtain ⟨r0, hr0, hrt⟩ := hn
      obtain ⟨s, hs, hst, hsp⟩ := h.covered r0 hr0 (c.inst.forward p)
      obtain ⟨b, hb⟩ := exists_firstHit (l := tableRules R num) ⟨s, mem_tableRules.2 ⟨hs, hst.trans hrt⟩, hsp⟩
      have hbR := mem_tableRules.1 hb.mem
      have hbp : b.mat.accepts (c.inst.forward p) := by obtain ⟨_, _, _, h1, _⟩ := hb; exact h1
      obtain ⟨r, hm⟩ : ∃ r, merged? c openflow b = some r := by
        rcases merge_t h hrep hgo hbR.1 hbR.2 openflow with ⟨r, e, -⟩ | ⟨-, hno⟩
        · exact ⟨_, by unfold merged?; rw [e]⟩
        · exact absurd ⟨hcp, hbp⟩ (hno p hkn)
      obtain ⟨f1, f2, f3, f4, -⟩ := merged_t h hrep hgo hbR.1 hbR.2 hm
      have hrp : r.mat.accepts p := (f4 p hkn).2 ⟨hcp, hbp⟩
      refine ⟨r, rs ++ [b], firstHit_flatMap hfm ?_ hsub, f1, ?_⟩
      · rw [if_pos hgo]
        refine firstHit_filterMap hb hm hrp fun x hx y hy hyp => ?_
        have hx' := mem_tableRules.1 hx
        exact (((merged_t h hrep hgo hx'.1 hx'.2 hy).2.2.2.1 p hkn).1 hyp).2
      · rw [f2]
        rw [hgo] at hl
        refine .snoc hl ?_
        rw [← hfw]
        exact hb.hits
    · refine ⟨c, rs, firstHit_flatMap hfm ?_ hsub, hrep, hl⟩
      rw [if_neg hgo]
      refine ⟨[], [], rfl, ?_, by simp⟩
      obtain ⟨_, _, _, h1, _⟩ := hfm; exact h1

theorem tinv_loop {R : List (Rule π)} (h : TLoopOK R) (openflow : Bool) : ∀ (rem : List Nat) (l : List (Rule π)),
    (∀ n ∈ rem, ∃ r ∈ R, r.table = n) → rem.Pairwise (· < ·) →
    (∀ r ∈ R, ∀ m ∈ rem, r.table = m → ∀ n, r.inst.goto = some n → m < n ∧ n ∈ rem) →
    TInv R rem l →
    ∃ l', rem.foldlM (fun acc n => condense acc (tableRules R n) n openflow) l = .ok l' ∧ TInv R [] l'
  | [], l, _, _, _, hi => ⟨l, rfl, hi⟩
  | num :: rem, l, h1, h2, h3, hi => by
    obtain ⟨h2a, h2b⟩ := List.pairwise_cons.1 h2
    obtain ⟨e, hi'⟩ := tinv_step h (h1 num List.mem_cons_self) (fun r hr hrt n hn => by
      obtain ⟨hlt, hm⟩ := h3 r hr num List.mem_cons_self hrt n hn
      rcases List.mem_cons.1 hm with rfl | hm
      · omega
      · exact hm) hi openflow
    obtain ⟨l', e', hi''⟩ := tinv_loop h openflow rem _ (fun n hn => h1 n (List.mem_cons_of_mem _ hn)) h2b (by
      intro r hr m hm hrt n hn
      obtain ⟨hlt, hmem⟩ := h3 r hr m (List.mem_cons_of_mem _ hm) hrt n hn
      refine ⟨hlt, ?_⟩
      rcases List.mem_cons.1 hmem with rfl | hmem
      · have := h2a m hm; omega
      · exact hmem) hi'
    exact ⟨l', by rw [List.foldlM_cons, e]; exact e', hi''⟩

end OFE
