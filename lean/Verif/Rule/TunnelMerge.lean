import Verif.Rule.TunnelSource
import Verif.Props.Tunnel

/-!
# Lemmas: merging a rule behind one that pushes and pops headers
-/

namespace OFE

variable {π : Type}

theorem popsOf_eq (t : Tun) {f : Nat} (hf : f ∈ t.fields) (l : List Action) : popsOf f l = popCount t l := by
  unfold popsOf popCount
  apply List.countP_congr
  intro a _
  cases a.pops with
  | none => simp
  | some t' =>
    have : ∀ t t' : Tun, ∀ f ∈ t.fields, (f ∈ t'.fields ↔ t' = t) := by
      intro t t'; cases t <;> cases t' <;> decide
    simp [this t t' f hf]

theorem pushesOf_other {g : Nat} (hg : g ∉ tunFields) (l : List Action) : pushesOf g l = 0 := by
  unfold pushesOf
  rw [List.countP_eq_zero]
  intro a _
  cases a.pushes with
  | none => simp
  | some t => simpa using fun h => hg ((tun_fields t).2 g h)

theorem popsOf_other {g : Nat} (hg : g ∉ tunFields) (l : List Action) : popsOf g l = 0 := by
  unfold popsOf
  rw [List.countP_eq_zero]
  intro a _
  cases a.pops with
  | none => simp
  | some t => simpa using fun h => hg ((tun_fields t).2 g h)

/-! ### The metadata -/

theorem simMeta_req {i : Inst} {sim rw m0 : Match} (h : sim.items.lookup 2 = m0.items.lookup 2) {k : Nat} (hk : k < width 2) :
    req (simMeta i.wmeta (sim, rw)).1.items 2 k = (rwBit i 2 k).or (req m0.items 2 k) := by
  unfold rwBit
  rw [if_pos rfl]
  cases hw : i.wmeta with
  | none =>
    simp only [simMeta, Option.none_or]
    unfold req; rw [h]
  | some w =>
    obtain ⟨wv, W⟩ := w
    unfold simMeta
    simp only
    split
    · next mv mm wmask h1 =>
      have e1 : sim.items.lookup 2 = some (mv, mm) := h1
      rw [show fMeta = 2 from rfl, req_append (by decide) hk, if_pos rfl]
      unfold OFE.req
      rw [← h, e1]
      unfold reqItem
      simp only
      cases mm with
      | none =>
        simp only [Nat.testBit_or, Nat.testBit_and, testBit_andNot]
        by_cases hm : wmask.testBit k = true <;> simp [hm]
      | some m =>
        simp only [Nat.testBit_or, Nat.testBit_and, testBit_andNot]
        by_cases hm : wmask.testBit k = true <;> simp [hm]
    · rename_i W _ _ hno
      rw [show fMeta = 2 from rfl, req_append (by decide) hk, if_pos rfl]
      cases W with
      | none => simp [reqItem]
      | some wmask =>
        have : m0.items.lookup 2 = none := by
          cases hl : m0.items.lookup 2 with
          | none => rfl
          | some x => exact absurd rfl (hno x.1 x.2 wmask (by rw [show fMeta = 2 from rfl, h, hl]))
        unfold OFE.req
        rw [this]
        simp

theorem simMeta_other {w : MetaW} {sim rw : Match} {g : Nat} (hg : g ≠ 2) :
    (simMeta w (sim, rw)).1.items.lookup g = sim.items.lookup g ∧ (simMeta w (sim, rw)).2.items.lookup g = rw.items.lookup g := by
  unfold simMeta
  split
  · exact ⟨rfl, rfl⟩
  · simp only
    split <;> exact ⟨by rw [lookup_append, if_neg (show g ≠ fMeta from hg)], by rw [lookup_append, if_neg (show g ≠ fMeta from hg)]⟩

/-- What the simulated egress knows. -/
structure TunOK (r : Rule π) (sim rw : Match) : Prop where
  inv : sim.Inv
  invrw : rw.Inv
  keys : ∀ x ∈ sim.items, x.1 < 56
  keysrw : ∀ x ∈ rw.items, x.1 < 56
  slot : ∀ g, g < 40 → g ≠ 2 → Slot r.mat sim rw (pushesOf g r.inst.apply.iter) (popsOf g r.inst.apply.iter) g 0
  reqMeta : ∀ k, k < width 2 → req sim.items 2 k = (rwBit r.inst 2 k).or (req r.mat.items 2 k)
  rwMeta : rw.items.lookup 2 = (match r.inst.wmeta with | none => none | some (v, m) => some (normValue 2 v m))
  pkt : ∀ p g, g < 40 → g ≠ 2 → rw.items.lookup g = none →
    (r.inst.forward p).fld g 0 = p.fld g (popsOf g r.inst.apply.iter - pushesOf g r.inst.apply.iter)
  pktMeta : ∀ p k, ((r.inst.forward p).fld 2 0).testBit k = (rwBit r.inst 2 k).getD ((p.fld 2 0).testBit k)

theorem simEgress_tun {r : Rule π} (hr : RuleOK r) (hm : NoMeta r.inst.apply.iter) (h2 : ∀ t, pushCount t r.inst.apply.iter ≤ 2)
    (h1 : ∀ t, popCount t r.inst.apply.iter = 0 ∨ pushCount t r.inst.apply.iter ≤ 1) :
    ∃ sim rw, simEgress r none = .ok (sim, rw) ∧ TunOK r sim rw := by
  obtain ⟨s, ks, es⟩ := hr.apply
  have hin : ∀ g, 40 ≤ g → r.mat.items.lookup g = none := by
    intro g hg
    cases hl : r.mat.items.lookup g with
    | none => rfl
    | some x => have := hr.keys _ (mem_of_lookup_eq_some hl); simp only at this; omega
  have hstart : SrcInv r.mat (r.mat, Match.empty) (fun _ => 0) (fun _ => 0) := by
    refine ⟨hr.inv, inv_empty, fun y hy => by have := hr.keys y hy; omega, by simp [Match.empty],
      ⟨fun f hf _ => ?_, fun f hf _ => ?_⟩, ⟨fun f hf _ => by simp [Match.empty], fun f hf _ => by simp [Match.empty]⟩, fun g d hs => ?_, rfl,
      by simp [Match.empty]⟩
    · obtain ⟨-, -, -, -, -, -, -, l0, l1, -⟩ := tun_ids f hf; exact hin _ l1
    · obtain ⟨-, -, -, -, -, -, -, l0, l1, l1', l2, -⟩ := tun_ids f hf; exact hin _ l2
    · right
      refine ⟨by simp [Match.empty], by omega, fun i hi => ?_⟩
      by_cases hd : d = 0
      · subst hd; rfl
      · rw [if_neg (by omega)]
        refine req_none (hin _ ?_) i
        rcases hs with ⟨-, h⟩ | ⟨hf, h⟩
        · exact absurd h hd
        · obtain ⟨-, -, -, -, -, -, -, l0, l1, l1', l2, -⟩ := tun_ids g hf
          unfold inAt; rw [if_neg hd]; split <;> assumption
  obtain ⟨x, e, hs, hp⟩ := simStep_src r.inst.apply.iter hstart (fun a ha => known_iter ks es a ha) hm
    (fun f hf => by
      obtain ⟨t, ht⟩ := tun_of hf
      rw [pushesOf_eq t ht]; have := h2 t; omega)
    (fun a ha t ht f hf => by
      rw [pushesOf_eq t hf]
      rcases h1 t with h | h
      · have : 0 < popCount t r.inst.apply.iter := List.countP_pos_iff.2 ⟨a, ha, by simp [ht]⟩
        omega
      · omega)
  simp only [Nat.zero_add] at hs hp
  have hsim : simEgress r none = .ok (simMeta r.inst.wmeta x) := by
    unfold simEgress
    simp only [bind, Except.bind]
    rw [e]
    rfl
  have hpkt : ∀ p : Pkt, SrcPkt p.fld (exec r.inst.apply.iter p).1.fld x.2 (fun f => pushesOf f r.inst.apply.iter) (fun f => popsOf f r.inst.apply.iter) :=
    fun p => hp p.fld p ⟨fun g d _ _ => by simp, fun f _ d _ => by simp⟩
  have hrw2 : (simMeta r.inst.wmeta x).2.items.lookup 2 =
      (match r.inst.wmeta with | none => none | some (v, m) => some (normValue 2 v m)) := by
    cases hw : r.inst.wmeta with
    | none => exact hs.metaRw
    | some w => obtain ⟨wv, W⟩ := w; show (x.2.append 2 wv W).items.lookup 2 = _; rw [lookup_append, if_pos rfl]
  refine ⟨(simMeta r.inst.wmeta x).1, (simMeta r.inst.wmeta x).2, hsim, ?_, ?_, ?_, ?_, fun g hg hg2 => ?_, fun k hk => simMeta_req hs.metaSim hk, hrw2, fun p g hg hg2 hn => ?_, fun p k => ?_⟩
  · unfold simMeta
    split
    · exact hs.inv1
    · simp only; split <;> exact inv_append hs.inv1 _ _ _
  · unfold simMeta
    split
    · exact hs.inv2
    · exact inv_append hs.inv2 _ _ _
  · unfold simMeta
    split
    · exact hs.keys1
    · simp only; split <;> exact keys_append (by decide) hs.keys1
  · unfold simMeta
    split
    · exact hs.keys2
    · exact keys_append (by decide) hs.keys2
  · have := simMeta_other (w := r.inst.wmeta) (sim := x.1) (rw := x.2) hg2
    exact slot_same (g := g) (d := 0) this.1 this.2 (hs.slot g 0 (.inl ⟨hg, rfl⟩))
  · have e2 : (r.inst.forward p).fld g 0 = (exec r.inst.apply.iter p).1.fld g 0 := by
      unfold Inst.forward writeMeta
      split <;> simp [hg2]
    rw [show (simMeta r.inst.wmeta x).2.items.lookup g = _ from (simMeta_other (w := r.inst.wmeta) (sim := x.1) (rw := x.2) hg2).2] at hn
    rw [e2, (hpkt p).slot g 0 (.inl ⟨hg, rfl⟩) hn, Nat.zero_add]
  · have hz : (exec r.inst.apply.iter p).1.fld 2 0 = p.fld 2 0 := by
      rw [(hpkt p).slot 2 0 (.inl ⟨by omega, rfl⟩) hs.metaRw, pushesOf_other (by decide), popsOf_other (by decide)]
    unfold rwBit
    rw [if_pos rfl]
    unfold Inst.forward
    cases hw : r.inst.wmeta with
    | none => simp only [writeMeta, Option.getD_none, hz]
    | some w =>
      obtain ⟨v, m⟩ := w
      cases m with
      | none => simp [writeMeta, reqItem]
      | some m =>
        simp only [writeMeta, reqItem, hz, and_self, if_true, Nat.testBit_or, Nat.testBit_and, testBit_andNot]
        by_cases hm : m.testBit k = true
        · simp [hm]
        · simp [hm]

/-! ### Back to the arriving packet -/

/-- Every field `g` seen `S g` headers further in. -/
def dropBy (S : Nat → Nat) (p : Pkt) : Pkt := { p with fld := fun g d => p.fld g (d + S g) }

theorem dropHdr_eq (f n : Nat) (p : Pkt) : dropHdr f n p = dropBy (fun g => if g = f then n else 0) p := by
  unfold dropHdr dropBy
  congr 1
  funext g d
  by_cases e : g = f <;> simp [e]

theorem dropBy_add (S T : Nat → Nat) (p : Pkt) : dropBy S (dropBy T p) = dropBy (fun g => S g + T g) p := by
  unfold dropBy
  congr 1
  funext g d
  simp only
  rw [Nat.add_assoc]

/-- A match after dropping headers, other matches left alone. -/
structure Dropped (S : Nat → Nat) (fs : List Nat) (m m' : Match) : Prop where
  inv : m'.Inv
  keys : ∀ x ∈ m'.items, x.1 < 56
  same : ∀ g, (∀ f ∈ fs, ∀ d, d ≤ 2 → g ≠ inAt f d) → m'.items.lookup g = m.items.lookup g
  acc : ∀ p, m'.accepts p ↔ m.accepts (dropBy S p)

/-- Only the outermost headers of the field are matched. -/
def OuterOnly (m : Match) (f : Nat) : Prop := ∀ d, 1 ≤ d → d ≤ 2 → m.items.lookup (inAt f d) = none

theorem fold_demote {n : Nat} (hn : 1 ≤ n) : ∀ (fs : List Nat) (m : Match), fs.Nodup → (∀ f ∈ fs, f ∈ tunFields) → m.Inv → (∀ x ∈ m.items, x.1 < 56) →
    (∀ f ∈ fs, OuterOnly m f ∧ ((m.items.lookup f).isSome = true → n ≤ 2)) →
    ∃ m', fs.foldlM (fun m f => demote m f n) m = .ok m' ∧ Dropped (fun g => if g ∈ fs then n else 0) fs m m'
  | [], m, _, _, hi, hk, _ => ⟨m, rfl, hi, hk, fun _ _ => rfl, fun p => by
      have : dropBy (fun g => if g ∈ ([] : List Nat) then n else 0) p = p := by unfold dropBy; simp
      rw [this]⟩
  | f :: fs, m, hnd, hf, hi, hk, ho => by
    obtain ⟨hn1, hn2⟩ := List.nodup_cons.1 hnd
    have hft := hf f List.mem_cons_self
    have hab : ∀ d, d ≤ 2 → 2 < d + n → m.items.lookup (inAt f d) = none := by
      intro d hd hdn
      by_cases hz : d = 0
      · subst hz
        cases hl : m.items.lookup (inAt f 0) with
        | none => rfl
        | some x => have := (ho f List.mem_cons_self).2 (by show (m.items.lookup (inAt f 0)).isSome = true; rw [hl]; rfl); omega
      · exact (ho f List.mem_cons_self).1 d (by omega) hd
    obtain ⟨m1, e1, h1⟩ := demote_fits hft hn hab
    have hne : ∀ g ∈ fs, ∀ d, d ≤ 2 → ∀ d', d' ≤ 2 → inAt g d ≠ inAt f d' := fun g hg d hd d' hd' =>
      inAt_ne hft (.inr ⟨hf g (List.mem_cons_of_mem _ hg), hd⟩) (fun e => hn1 (e ▸ hg)) d' hd'
    obtain ⟨m2, e2, h2⟩ := fold_demote hn fs m1 hn2 (fun g hg => hf g (List.mem_cons_of_mem _ hg)) (h1.inv hi) (h1.keys hk) (by
      intro g hg
      obtain ⟨o1, o2⟩ := ho g (List.mem_cons_of_mem _ hg)
      refine ⟨fun d h1d h2d => ?_, fun hs => ?_⟩
      · rw [h1.same _ (hne g hg d h2d)]; exact o1 d h1d h2d
      · have := h1.same _ (hne g hg 0 (by omega))
        exact o2 (by rw [← hs]; exact congrArg _ this.symm))
    refine ⟨m2, by rw [List.foldlM_cons, e1]; exact e2, h2.inv, h2.keys, fun g hg => ?_, fun p => ?_⟩
    · rw [h2.same g (fun f' hf' => hg f' (List.mem_cons_of_mem _ hf')), h1.same g (hg f List.mem_cons_self)]
    · rw [h2.acc, movedIn_accepts hft hi h1 hab, dropHdr_eq, dropBy_add]
      have : (fun g => (if g = f then n else 0) + if g ∈ fs then n else 0) = fun g => if g ∈ f :: fs then n else 0 := by
        funext g
        by_cases e : g = f
        · subst e; simp [hn1]
        · simp [e]
      rw [this]

theorem promote_none {m : Match} {f n : Nat} (hf : f ∈ tunFields) (hi : m.Inv) (hk : ∀ x ∈ m.items, x.1 < 56)
    (h : ∀ d, d ≤ 2 → m.items.lookup (inAt f d) = none) : promote m f n = .ok m := by
  obtain ⟨-, h2, -⟩ := copies_of hf hi hk
  have : copiesOf m f = [] := by
    rw [List.eq_nil_iff_forall_not_mem]
    intro g hg
    obtain ⟨hs, d, hd, rfl⟩ := h2 g hg
    rw [h d hd] at hs; cases hs
  unfold promote
  split
  · rfl
  · rw [show (m.items.map (·.1)).filter (fun g => (depthOf f g).isSome) = [] from this]; rfl

theorem fold_promote {n : Nat} : ∀ (fs : List Nat) (m : Match), (∀ f ∈ fs, f ∈ tunFields) → m.Inv → (∀ x ∈ m.items, x.1 < 56) →
    (∀ f ∈ fs, ∀ d, d ≤ 2 → m.items.lookup (inAt f d) = none) → fs.foldlM (fun m f => promote m f n) m = .ok m
  | [], _, _, _, _, _ => rfl
  | f :: fs, m, hf, hi, hk, h => by
    rw [List.foldlM_cons, promote_none (hf f List.mem_cons_self) hi hk (h f List.mem_cons_self)]
    exact fold_promote fs m (fun g hg => hf g (List.mem_cons_of_mem _ hg)) hi hk (fun g hg => h g (List.mem_cons_of_mem _ hg))

theorem adjust_one {l : List Action} {m : Match} {t : Tun} (hi : m.Inv) (hk : ∀ x ∈ m.items, x.1 < 56) (ho : ∀ f ∈ t.fields, OuterOnly m f)
    (h : ∀ f ∈ t.fields, (m.items.lookup f).isSome = true → pushCount t l ≤ popCount t l ∧ popCount t l - pushCount t l ≤ 2) :
    ∃ m', adjustTunnel l m t = .ok m' ∧ Dropped (fun g => if g ∈ t.fields then popCount t l - pushCount t l else 0) t.fields m m' := by
  have hid : popCount t l ≤ pushCount t l → Dropped (fun g => if g ∈ t.fields then popCount t l - pushCount t l else 0) t.fields m m := by
    intro hle
    refine ⟨hi, hk, fun _ _ => rfl, fun p => ?_⟩
    have : dropBy (fun g => if g ∈ t.fields then popCount t l - pushCount t l else 0) p = p := by
      unfold dropBy; simp [Nat.sub_eq_zero_of_le hle]
    rw [this]
  unfold adjustTunnel
  by_cases h1 : pushCount t l < popCount t l
  · rw [if_pos h1]
    exact fold_demote (by omega) t.fields m (tun_fields t).1 (tun_fields t).2 hi hk (fun f hf => ⟨ho f hf, fun hs => (h f hf hs).2⟩)
  · rw [if_neg h1]
    by_cases h2 : popCount t l < pushCount t l
    · rw [if_pos h2]
      refine ⟨m, fold_promote t.fields m (tun_fields t).2 hi hk (fun f hf d hd => ?_), hid (by omega)⟩
      by_cases hz : d = 0
      · subst hz
        cases hl : m.items.lookup (inAt f 0) with
        | none => rfl
        | some x => have := (h f hf (by show (m.items.lookup (inAt f 0)).isSome = true; rw [hl]; rfl)).1; omega
      · exact ho f hf d (by omega) hd
    · rw [if_neg h2]
      exact ⟨m, rfl, hid (by omega)⟩

theorem fields_disjoint : ∀ t t' : Tun, t ≠ t' → ∀ f ∈ t.fields, f ∉ t'.fields := by
  intro t t'; cases t <;> cases t' <;> decide

theorem adjust_fold {l : List Action} : ∀ (ts : List Tun) (m : Match), ts.Nodup → m.Inv → (∀ x ∈ m.items, x.1 < 56) →
    (∀ t ∈ ts, ∀ f ∈ t.fields, OuterOnly m f) →
    (∀ t ∈ ts, ∀ f ∈ t.fields, (m.items.lookup f).isSome = true → pushCount t l ≤ popCount t l ∧ popCount t l - pushCount t l ≤ 2) →
    ∃ m' S, ts.foldlM (adjustTunnel l) m = .ok m' ∧ m'.Inv ∧ (∀ x ∈ m'.items, x.1 < 56) ∧ (∀ p, m'.accepts p ↔ m.accepts (dropBy S p)) ∧
      (∀ t ∈ ts, ∀ f ∈ t.fields, S f = popCount t l - pushCount t l) ∧ ∀ f, (∀ t ∈ ts, f ∉ t.fields) → S f = 0
  | [], m, _, hi, hk, _, _ => ⟨m, fun _ => 0, rfl, hi, hk, fun p => by
      have : dropBy (fun _ => 0) p = p := by unfold dropBy; simp
      rw [this], by simp, by simp⟩
  | t :: ts, m, hnd, hi, hk, ho, h => by
    obtain ⟨hn1, hn2⟩ := List.nodup_cons.1 hnd
    obtain ⟨m1, e1, h1⟩ := adjust_one hi hk (ho t List.mem_cons_self) (h t List.mem_cons_self)
    have hne : ∀ t' ∈ ts, ∀ g ∈ t'.fields, ∀ d, d ≤ 2 → ∀ f ∈ t.fields, ∀ d', d' ≤ 2 → inAt g d ≠ inAt f d' := by
      intro t' ht' g hg d hd f hf d' hd'
      refine inAt_ne ((tun_fields t).2 f hf) (.inr ⟨(tun_fields t').2 g hg, hd⟩) (fun e => ?_) d' hd'
      exact fields_disjoint t' t (fun e => hn1 (e ▸ ht')) g hg (e ▸ hf)
    obtain ⟨m2, S, e2, i2, k2, a2, s2, z2⟩ := adjust_fold ts m1 hn2 h1.inv h1.keys
      (fun t' ht' g hg d hd1 hd2 => by rw [h1.same _ (hne t' ht' g hg d hd2)]; exact ho t' (List.mem_cons_of_mem _ ht') g hg d hd1 hd2)
      (fun t' ht' g hg hs => h t' (List.mem_cons_of_mem _ ht') g hg (by
        have := h1.same _ (hne t' ht' g hg 0 (by omega))
        rw [← hs]; exact congrArg _ this.symm))
    refine ⟨m2, fun g => (if g ∈ t.fields then popCount t l - pushCount t l else 0) + S g, by rw [List.foldlM_cons, e1]; exact e2, i2, k2,
      fun p => by rw [a2, h1.acc, dropBy_add], ?_, ?_⟩
    · intro t' ht' f hf
      rcases List.mem_cons.1 ht' with e | ht2
      · subst e
        simp only [if_pos hf]
        rw [z2 f (fun t2 h2 hf2 => fields_disjoint t2 t' (fun e => hn1 (e ▸ h2)) f hf2 hf)]
        rfl
      · simp only
        rw [if_neg (fields_disjoint t' t (fun e => hn1 (e ▸ ht2)) f hf), s2 t' ht2 f hf, Nat.zero_add]
    · intro f hf
      simp only
      rw [if_neg (hf t List.mem_cons_self), z2 f (fun t2 h2 => hf t2 (List.mem_cons_of_mem _ h2))]

/-- All three kinds of headers. -/
theorem adjust_tun {l : List Action} {m : Match} (hi : m.Inv) (hk : ∀ x ∈ m.items, x.1 < 40)
    (h : ∀ f ∈ tunFields, (m.items.lookup f).isSome = true → pushesOf f l ≤ popsOf f l ∧ popsOf f l - pushesOf f l ≤ 2) :
    ∃ m', [Tun.vlan, .mpls, .pbb].foldlM (adjustTunnel l) m = .ok m' ∧ m'.Inv ∧ (∀ x ∈ m'.items, x.1 < 56) ∧
      ∀ p, m'.accepts p ↔ m.accepts (dropBy (fun f => popsOf f l - pushesOf f l) p) := by
  have hin : ∀ g, 40 ≤ g → m.items.lookup g = none := by
    intro g hg
    cases hl : m.items.lookup g with
    | none => rfl
    | some x => have := hk _ (mem_of_lookup_eq_some hl); simp only at this; omega
  obtain ⟨m', S, e, i, k, a, s, z⟩ := adjust_fold (l := l) [Tun.vlan, .mpls, .pbb] m (by decide) hi (fun x hx => by have := hk x hx; omega)
    (fun t _ f hf d h1 h2 => by
      obtain ⟨-, -, -, -, -, -, -, l0, l1, l1', l2, -⟩ := tun_ids f ((tun_fields t).2 f hf)
      apply hin
      unfold inAt; rw [if_neg (by omega)]; split <;> assumption)
    (fun t _ f hf hs => by
      have := h f ((tun_fields t).2 f hf) hs
      rwa [pushesOf_eq t hf, popsOf_eq t hf] at this)
  refine ⟨m', e, i, k, fun p => ?_⟩
  have : S = fun f => popsOf f l - pushesOf f l := by
    funext f
    by_cases hf : f ∈ tunFields
    · obtain ⟨t, ht⟩ := tun_of hf
      rw [s t (by cases t <;> simp) f ht, pushesOf_eq t ht, popsOf_eq t ht]
    · rw [z f (fun t _ h => hf ((tun_fields t).2 f h)), popsOf_other hf, Nat.zero_sub]
  rw [a, this]

/-- Acceptance by a match on the OpenFlow fields. -/
theorem accepts_outer {m : Match} (hi : m.Inv) (hk : ∀ x ∈ m.items, x.1 < 40) (p : Pkt) :
    m.accepts p ↔ ∀ g k e, g < 40 → k < width g → req m.items g k = some e → (p.fld g 0).testBit k = e := by
  rw [← agrees_iff hi]
  constructor
  · intro h g k e hg hkw hr
    have := h g k e hkw hr
    rwa [shown_lt hg] at this
  · intro h g k e hkw hr
    have hg : g < 40 := by
      obtain ⟨x, hx, -⟩ := req_lookup hr
      exact hk _ (mem_of_lookup_eq_some hx)
    rw [shown_lt hg]
    exact h g k e hg hkw hr

/-- A match whose packets all are packets of another requires what that one requires. -/
theorem req_of_sub {m a : Match} (him : m.Inv) (hia : a.Inv) (hne : ∃ p, m.accepts p) (h : ∀ p, m.accepts p → a.accepts p) {g k : Nat}
    (hk : k < width g) {e : Bool} (hr : req a.items g k = some e) : req m.items g k = some e := by
  obtain ⟨p, hp⟩ := hne
  have hpa := (matchesAll_iff hia.nodup).1 (h p hp) g k e hk hr
  cases hm : req m.items g k with
  | some d =>
    have := (matchesAll_iff him.nodup).1 hp g k d hk hm
    rw [← this, hpa]
  | none =>
    exfalso
    obtain ⟨P, hP⟩ := exists_pkt (Packet.build fun G i => if G = g ∧ i = k then !e else p.hdr.bit G i)
    have hPm : m.accepts P := by
      refine (matchesAll_iff him.nodup).2 fun G i d hi hd => ?_
      rw [hP G i hi, build_bit (field_lt hi) hi]
      have : ¬ (G = g ∧ i = k) := fun ⟨x, y⟩ => by subst x; subst y; rw [hm] at hd; cases hd
      rw [if_neg this]
      exact (matchesAll_iff him.nodup).1 hp G i d hi hd
    have := (matchesAll_iff hia.nodup).1 (h P hPm) g k e hk hr
    rw [hP g k hk, build_bit (field_lt hk) hk, if_pos ⟨rfl, rfl⟩] at this
    cases e <;> cases this

/-- What the merged match requires of fields other than the metadata: the first match, and the second where not rewritten, provided
the second does not match on headers that only came out by popping. -/
structure MergedReq (a b : Match) (l : List Action) (m : Match) : Prop where
  norm : ∀ x ∈ m.items, NormItem x
  sub : ∀ p, m.accepts p → a.accepts p
  req : (∀ g ∈ tunFields, pushesOf g l < popsOf g l → b.items.lookup g = none) → (∀ x ∈ m.items, x.1 < 40) ∧
    ∀ g, g < 40 → g ≠ 2 → (∀ k, k < width g → req m.items g k = (req a.items g k).or (req b.items g k)) ∨
      ∀ k, k < width g → req m.items g k = req a.items g k

/-- The merged match. -/
theorem merged_tun {a : Rule π} {b sim rw : Match} (hs : TunOK a sim rw) (hia : a.mat.Inv) (hka : ∀ x ∈ a.mat.items, x.1 < 40)
    (hib : b.Inv) (hkb : ∀ x ∈ b.items, x.1 < 40) (h2 : ∀ t, popCount t a.inst.apply.iter ≤ pushCount t a.inst.apply.iter + 2)
    (hov : sim.overlaps b = .ok true) :
    ∃ c c' m, (b.copy [] ((rw.items.map (·.1)).filter fun x => (b.items.lookup x).isSome && x != fMeta) >>= fun s => stripMeta s rw) = .ok c ∧
      [Tun.vlan, .mpls, .pbb].foldlM (adjustTunnel a.inst.apply.iter) c = .ok c' ∧
      a.mat.intersection c' = .ok m ∧ m.Inv ∧ (∀ x ∈ m.items, x.1 < 56) ∧ (∃ p, m.accepts p) ∧
      (∀ p, (a.mat.accepts p → sim.accepts (a.inst.forward p)) → (m.accepts p ↔ a.mat.accepts p ∧ b.accepts (a.inst.forward p))) ∧
      MergedReq a.mat b a.inst.apply.iter m ∧
      ∀ p, m.accepts p ↔ a.mat.accepts p ∧ ∀ g k e, g < 40 → k < width g → covBit a.inst rw g k = false → req b.items g k = some e →
        (p.fld g (popsOf g a.inst.apply.iter - pushesOf g a.inst.apply.iter)).testBit k = e := by
  obtain ⟨r, er, hr⟩ := overlaps_iff hs.inv hib hs.keys (lt56 hkb)
  rw [er] at hov
  cases hov
  obtain ⟨q, q1, q2⟩ := hr.1 rfl
  rw [matchesAll_iff hs.inv.nodup] at q1
  rw [matchesAll_iff hib.nodup] at q2
  obtain ⟨c, ec, hic, hkc, hreq⟩ := second_gen (i := a.inst) (b := b) hs.invrw hs.rwMeta hib hkb
  have hcov2 : ∀ k, covBit a.inst rw 2 k = (rwBit a.inst 2 k).isSome := by
    intro k; unfold covBit rwBit; rw [if_pos rfl, if_pos rfl]; cases a.inst.wmeta <;> rfl
  have hcov : ∀ g k, g ≠ 2 → covBit a.inst rw g k = (rw.items.lookup g).isSome := by
    intro g k hg; unfold covBit; rw [if_neg hg]
  -- where a header is matched, it is one of the arriving packet
  have hsrc : ∀ g, g < 40 → g ≠ 2 → rw.items.lookup g = none → pushesOf g a.inst.apply.iter ≤ popsOf g a.inst.apply.iter ∧
      ∀ i, i < width g → req sim.items g i = if popsOf g a.inst.apply.iter = pushesOf g a.inst.apply.iter then req a.mat.items g i else none := by
    intro g hg hg2 hn
    rcases hs.slot g hg hg2 with ⟨v, h1, -⟩ | ⟨-, h1, h3⟩
    · rw [show rw.items.lookup (inAt g 0) = rw.items.lookup g from rfl, hn] at h1; cases h1
    · refine ⟨by omega, fun i hi => ?_⟩
      have := h3 i hi
      rw [Nat.zero_add] at this
      exact this
  have hle2 : ∀ g, popsOf g a.inst.apply.iter - pushesOf g a.inst.apply.iter ≤ 2 := by
    intro g
    by_cases hg : g ∈ tunFields
    · obtain ⟨t, ht⟩ := tun_of hg
      rw [pushesOf_eq t ht, popsOf_eq t ht]; have := h2 t; omega
    · rw [popsOf_other hg]; omega
  have htun : ∀ g, popsOf g a.inst.apply.iter - pushesOf g a.inst.apply.iter ≠ 0 → g ∈ tunFields := by
    intro g h
    apply Classical.byContradiction
    intro hg
    rw [popsOf_other hg] at h; omega
  have hcg : ∀ g k e, g ≠ 2 → k < width g → req c.items g k = some e → rw.items.lookup g = none ∧ req b.items g k = some e := by
    intro g k e hg hkw hr
    rw [hreq g k hkw, hcov g k hg] at hr
    by_cases hn : (rw.items.lookup g).isSome = true
    · rw [if_pos hn] at hr; cases hr
    · rw [if_neg hn] at hr; exact ⟨Option.not_isSome_iff_eq_none.1 hn, hr⟩
  have hc2 : ∀ k e, k < width 2 → req c.items 2 k = some e → rwBit a.inst 2 k = none ∧ req b.items 2 k = some e := by
    intro k e hkw hr
    rw [hreq 2 k hkw, hcov2 k] at hr
    by_cases hn : (rwBit a.inst 2 k).isSome = true
    · rw [if_pos hn] at hr; cases hr
    · rw [if_neg hn] at hr; exact ⟨Option.not_isSome_iff_eq_none.1 hn, hr⟩
  have hclook : ∀ f ∈ tunFields, (c.items.lookup f).isSome = true →
      pushesOf f a.inst.apply.iter ≤ popsOf f a.inst.apply.iter ∧ popsOf f a.inst.apply.iter - pushesOf f a.inst.apply.iter ≤ 2 := by
    intro f hf hsome
    refine ⟨?_, hle2 f⟩
    have hf2 : f ≠ 2 := fun e => by have : (2 : Nat) ∉ tunFields := by decide
                                    exact this (e ▸ hf)
    cases hn : rw.items.lookup f with
    | none => exact (hsrc f (tun_lt hf) hf2 hn).1
    | some y =>
      exfalso
      rw [second_gone hs.invrw hib hkb ec hf2 (by rw [hn]; rfl)] at hsome
      cases hsome
  obtain ⟨c', ea, hic', hkc', hacc'⟩ := adjust_tun hic hkc hclook
  have hov' : ∃ p, MatchesAll a.mat.items p ∧ MatchesAll c'.items p := by
    obtain ⟨P, hP⟩ := exists_pkt (Packet.build fun G k => if G < 40 then (req a.mat.items G k).getD (q.bit G k) else q.bit (shown G).1 k)
    have hPa : a.mat.accepts P := by
      rw [accepts_outer hia hka]
      intro g k e hg hkw hre
      have := hP g k hkw
      rw [hdr_bit _ (by omega) hkw, build_bit (by omega) hkw, shown_lt hg, if_pos hg, hre] at this
      exact this
    have hPc : c'.accepts P := by
      rw [hacc', accepts_outer hic hkc]
      intro g k e hg hkw hre
      simp only [dropBy, Nat.zero_add]
      have hqb : req b.items g k = some e := by
        by_cases hg2 : g = 2
        · subst hg2; exact (hc2 k e hkw hre).2
        · exact (hcg g k e hg2 hkw hre).2
      have hq := q2 g k e hkw hqb
      by_cases hz : popsOf g a.inst.apply.iter - pushesOf g a.inst.apply.iter = 0
      · rw [hz]
        have hb := hP g k hkw
        rw [hdr_bit _ (by omega) hkw, build_bit (by omega) hkw, shown_lt hg, if_pos hg] at hb
        simp only at hb
        rw [hb]
        cases hra : req a.mat.items g k with
        | none => exact hq
        | some d =>
          simp only [Option.getD_some]
          rw [← hq]
          symm
          apply q1 g k d hkw
          by_cases hg2 : g = 2
          · subst hg2
            rw [hs.reqMeta k hkw, (hc2 k e hkw hre).1, hra]; rfl
          · obtain ⟨h1, h3⟩ := hsrc g hg hg2 (hcg g k e hg2 hkw hre).1
            rw [h3 k hkw, if_pos (by omega), hra]
      · have hgt := htun g hz
        obtain ⟨-, hsh, hlt, hw, -⟩ := inAt_ids g hgt _ (hle2 g)
        obtain ⟨-, -, -, -, -, -, -, l0, l1, l1', l2, -⟩ := tun_ids g hgt
        have hge : ¬ inAt g (popsOf g a.inst.apply.iter - pushesOf g a.inst.apply.iter) < 40 := by
          unfold inAt; rw [if_neg hz]; split <;> omega
        have hb := hP (inAt g (popsOf g a.inst.apply.iter - pushesOf g a.inst.apply.iter)) k (by rw [hw]; exact hkw)
        rw [hdr_bit _ hlt (by rw [hw]; exact hkw), build_bit hlt (by rw [hw]; exact hkw), if_neg hge, hsh] at hb
        simp only at hb
        rw [hb]; exact hq
    exact ⟨P.hdr, hPa, hPc⟩
  obtain ⟨m, em, him, hnm, hm⟩ := C16_intersection a.mat c' hia hic' (lt56 hka) hkc' hov'
  have hnem : ∃ p, m.accepts p := by
    obtain ⟨q', h1, h3⟩ := hov'
    obtain ⟨p, hp⟩ := exists_pkt q'
    exact ⟨p, (matches_congr him.nodup hp).2 ((hm q').2 ⟨h1, h3⟩)⟩
  have hsub : ∀ p, m.accepts p → a.mat.accepts p := fun p hp => ((hm p.hdr).1 hp).1
  refine ⟨c, c', m, ec, ea, em, him, fun x hx => (hnm x hx).1, hnem, fun p hsim => ?_, ⟨hnm, hsub, fun hfree => ?_⟩, fun p => ?_⟩
  case refine_3 =>
    unfold Match.accepts
    rw [hm]
    refine and_congr_right fun _ => ?_
    rw [show MatchesAll c'.items p.hdr = c'.accepts p from rfl, hacc', accepts_outer hic hkc]
    constructor
    · intro h g k e hg hkw hcv hre
      have := h g k e hg hkw (by rw [hreq g k hkw, hcv]; exact hre)
      simp only [dropBy, Nat.zero_add] at this
      exact this
    · intro h g k e hg hkw hre
      simp only [dropBy, Nat.zero_add]
      rw [hreq g k hkw] at hre
      split at hre
      · cases hre
      · next hcv => exact h g k e hg hkw (by simpa using hcv) hre
  case refine_2 =>
    have hcf : ∀ g k e, k < width g → req c.items g k = some e → popsOf g a.inst.apply.iter - pushesOf g a.inst.apply.iter = 0 := by
      intro g k e hkw hre
      apply Classical.byContradiction
      intro hz
      have hgt := htun g hz
      have hg2 : g ≠ 2 := fun e => by have : (2 : Nat) ∉ tunFields := by decide
                                      exact this (e ▸ hgt)
      have := (hcg g k e hg2 hkw hre).2
      rw [req_none (hfree g hgt (by omega))] at this
      cases this
    have hcacc : ∀ p, c'.accepts p ↔ c.accepts p := by
      intro p
      rw [hacc', accepts_outer hic hkc, accepts_outer hic hkc]
      constructor
      · intro h g k e hg hkw hre
        have := h g k e hg hkw hre
        simp only [dropBy] at this
        rwa [hcf g k e hkw hre] at this
      · intro h g k e hg hkw hre
        simp only [dropBy]
        rw [hcf g k e hkw hre]
        exact h g k e hg hkw hre
    have hmacc : ∀ p, m.accepts p ↔ a.mat.accepts p ∧ c.accepts p := fun p => by
      rw [← hcacc]; exact hm p.hdr
    have hreqm : ∀ g k, k < width g → req m.items g k = (req a.mat.items g k).or (req c.items g k) := by
      intro g k hkw
      cases hra : req a.mat.items g k with
      | some e => exact req_of_sub him hia hnem hsub hkw hra
      | none =>
        cases hrc : req c.items g k with
        | some e => exact req_of_sub him hic hnem (fun p hp => ((hmacc p).1 hp).2) hkw hrc
        | none =>
          cases hrm : req m.items g k with
          | none => rfl
          | some e =>
            exfalso
            obtain ⟨p, hp⟩ := hnem
            obtain ⟨h1, h3⟩ := (hmacc p).1 hp
            obtain ⟨P, hP⟩ := exists_pkt (Packet.build fun G i => if G = g ∧ i = k then !e else p.hdr.bit G i)
            have keep : ∀ {n : Match}, n.Inv → req n.items g k = none → n.accepts p → n.accepts P := by
              intro n hin hn hnp
              refine (matchesAll_iff hin.nodup).2 fun G i d hi hd => ?_
              rw [hP G i hi, build_bit (field_lt hi) hi]
              have : ¬ (G = g ∧ i = k) := fun ⟨x, y⟩ => by subst x; subst y; rw [hn] at hd; cases hd
              rw [if_neg this]
              exact (matchesAll_iff hin.nodup).1 hnp G i d hi hd
            have hPm := (hmacc P).2 ⟨keep hia hra h1, keep hic hrc h3⟩
            have := (matchesAll_iff him.nodup).1 hPm g k e hkw hrm
            rw [hP g k hkw, build_bit (field_lt hkw) hkw, if_pos ⟨rfl, rfl⟩] at this
            cases e <;> cases this
    refine ⟨fun x hx => ?_, fun g hg hg2 => ?_⟩
    · obtain ⟨f, v, mask⟩ := x
      have hn := hnm _ hx
      obtain ⟨hn1, hn2, hn3⟩ := hn
      simp only at hn1 hn2 hn3
      have hlook : m.items.lookup f = some (v, mask) := lookup_eq_some_of_mem him.nodup hx
      have hbit : ∃ k, k < width f ∧ (req m.items f k).isSome = true := by
        unfold req
        rw [hlook]
        cases mask with
        | none => exact ⟨0, width_pos _ hn1, rfl⟩
        | some M =>
          obtain ⟨h0, hlt, -⟩ := hn3 M rfl
          obtain ⟨k, hk⟩ := Nat.exists_testBit_of_ne_zero h0
          refine ⟨k, ?_, by simp [reqItem, hk]⟩
          apply Classical.byContradiction
          intro hge
          rw [Nat.testBit_lt_two_pow (Nat.lt_of_lt_of_le (by omega : M < 2 ^ width f) (Nat.pow_le_pow_right (by omega) (by omega)))] at hk
          cases hk
      obtain ⟨k, hkw, hs1⟩ := hbit
      rw [hreqm f k hkw] at hs1
      show f < 40
      have key : ∀ {n : Match}, (∀ x ∈ n.items, x.1 < 40) → (req n.items f k).isSome = true → f < 40 := by
        intro n hkn hs1
        obtain ⟨e, he⟩ := Option.isSome_iff_exists.1 hs1
        obtain ⟨y, hy, -⟩ := req_lookup he
        exact hkn _ (mem_of_lookup_eq_some hy)
      cases hra : req a.mat.items f k with
      | some e => exact key hka (by rw [hra]; rfl)
      | none =>
        rw [hra] at hs1
        exact key hkc (by rw [Option.none_or] at hs1; exact hs1)
    · by_cases hcv : (rw.items.lookup g).isSome = true
      · right
        intro k hkw
        rw [hreqm g k hkw, hreq g k hkw, hcov g k hg2, if_pos hcv, Option.or_none]
      · left
        intro k hkw
        rw [hreqm g k hkw, hreq g k hkw, hcov g k hg2, if_neg hcv]
  · unfold Match.accepts
    rw [hm]
    refine and_congr_right fun hap => ?_
    have hacs := (agrees_iff hs.inv).2 (hsim hap)
    rw [show MatchesAll c'.items p.hdr = c'.accepts p from rfl, hacc', accepts_outer hic hkc,
      show MatchesAll b.items (a.inst.forward p).hdr = b.accepts (a.inst.forward p) from rfl, accepts_outer hib hkb]
    constructor
    · intro h g k e hg hkw hre
      by_cases hg2 : g = 2
      · subst hg2
        rw [hs.pktMeta]
        cases hw : rwBit a.inst 2 k with
        | some d =>
          simp only [Option.getD_some]
          rw [← q1 2 k d hkw (by rw [hs.reqMeta k hkw, hw]; rfl)]
          exact q2 2 k e hkw hre
        | none =>
          have := h 2 k e hg hkw (by rw [hreq 2 k hkw, hcov2, hw]; exact hre)
          simp only [dropBy] at this
          rw [popsOf_other (by decide), Nat.zero_sub] at this
          exact this
      · cases hn : rw.items.lookup g with
        | none =>
          rw [hs.pkt p g hg hg2 hn]
          have := h g k e hg hkw (by rw [hreq g k hkw, hcov g k hg2, hn]; exact hre)
          simp only [dropBy, Nat.zero_add] at this
          exact this
        | some y =>
          rcases hs.slot g hg hg2 with ⟨v, h1, h3⟩ | ⟨h1, -⟩
          · have hrs : req sim.items g k = some (v.testBit k) := by
              unfold req
              rw [show sim.items.lookup g = some (v, none) from h3]; rfl
            have e1 := hacs g k _ hkw hrs
            rw [shown_lt hg] at e1
            rw [e1, ← q1 g k _ hkw hrs]
            exact q2 g k e hkw hre
          · rw [show rw.items.lookup g = none from h1] at hn; cases hn
    · intro h g k e hg hkw hre
      simp only [dropBy, Nat.zero_add]
      by_cases hg2 : g = 2
      · subst hg2
        obtain ⟨h1, h3⟩ := hc2 k e hkw hre
        have := h 2 k e hg hkw h3
        rw [hs.pktMeta, h1] at this
        rw [popsOf_other (by decide), Nat.zero_sub]
        exact this
      · obtain ⟨h1, h3⟩ := hcg g k e hg2 hkw hre
        have := h g k e hg hkw h3
        rwa [hs.pkt p g hg hg2 h1] at this

end OFE
