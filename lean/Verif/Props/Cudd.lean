import Verif.Cudd.Lemmas

/-!
# Properties C08, C46 (and the CUDD side of C05, C06, C07, C09)
-/

namespace OFE
namespace Cudd
open DD
set_option linter.unusedSectionVars false

/-- C08: on diagrams whose terminals are ids in `(0, 2^26)`, the tagged difference is well formed, empty exactly when the two
diagrams are the same, undefined on every packet on which they agree; on every other packet it holds one
constant below `2^52` (so exactly represented by a double) which decodes to the pair of the two ids (0 where undefined). -/
theorem C08_difftagged (n : Nat) (a b : DD Nat) (ha : WF n 0 a) (hb : WF n 0 b)
    (hsa : ∀ p v, a.lookup n p = some v → 0 < v ∧ v < 2 ^ 26) (hsb : ∀ p v, b.lookup n p = some v → 0 < v ∧ v < 2 ^ 26) :
    WF n 0 (diffTagged a b) ∧ (diffTagged a b = bot ↔ a = b) ∧
    ∀ p, (a.lookup n p = b.lookup n p → (diffTagged a b).lookup n p = none) ∧
         (a.lookup n p ≠ b.lookup n p → ∃ v, (diffTagged a b).lookup n p = some v ∧ v < 2 ^ 52 ∧
            decode v = ((a.lookup n p).getD 0, (b.lookup n p).getD 0)) := by
  have hS : ∀ q, Small (a.eval q) ∧ Small (b.eval q) := by
    intro q
    have h1 := hsa fun i => q (n - 1 - i)
    have h2 := hsb fun i => q (n - 1 - i)
    simp only [lookup] at h1 h2
    rw [← eval_congr ha (q := q)] at h1
    · rw [← eval_congr hb (q := q)] at h2
      · exact ⟨h1, h2⟩
      · intro i _ hi; congr 1; omega
    · intro i _ hi; congr 1; omega
  obtain ⟨w, h⟩ := diffTagged_spec ha hb hS
  refine ⟨w, ⟨fun he => ?_, fun he => ?_⟩, fun p => h fun num => p (n - 1 - num)⟩
  · apply eq_of_eval_eq ha hb
    intro q
    by_contra hne
    obtain ⟨v, hv, _⟩ := (h q).2 hne
    rw [he] at hv; cases hv
  · subst he
    unfold diffTagged apply
    simp [diffTaggedLeaf]

example : WF 2 0 (node 0 (term 7) (term 8)) ∧ WF 2 0 (node 1 bot (term 8)) ∧
    diffTagged (node 0 (term 7) (term 8)) (node 1 bot (term 8)) =
      node 0 (node 1 (term 7) (term (7 + 8 * 2 ^ 26))) (node 1 (term 8) bot) ∧ decode (7 + 8 * 2 ^ 26) = (7, 8) :=
  ⟨by simp [WF], by simp [WF], by decide +kernel, by decide +kernel⟩

/-- With an id of `2^26` or more the packing is no longer injective: the bound in C08 is needed. -/
theorem C08_bound_needed : encode (2 ^ 26) 0 = encode 0 1 ∧ decode (encode (2 ^ 26) 0) = (0, 1) := by
  constructor <;> decide +kernel

section
variable {φ α : Type} [DecidableEq φ]

/-- The action a terminal stands for, `none` for no terminal or an unregistered one. -/
def Reg.actOf (r : Reg φ α) (x : Option Nat) : Option α := x.bind fun i => (r.termTo.lookup i).join

/-- C46: over any history of calls, ids coincide exactly when the friendly actions do (hence never change), 0 is never handed
out and stands for undefined, 1 is handed out only for the difference mark, ids stay below `2 +` number of calls, and decoding
gives the action registered with the first call with that friendly action. -/
theorem C46_registry (fd : φ) (d : α) (h : List (φ × α)) :
    let ids := ((Reg.init fd d).run h).1
    let r := ((Reg.init fd d).run h).2
    ids.length = h.length ∧ r.action 0 = .ok none ∧ r.action 1 = .ok (some d) ∧
    (∀ (i : Nat) f a x, h[i]? = some (f, a) → ids[i]? = some x →
      0 < x ∧ x < 2 + h.length ∧ (x = 1 ↔ f = fd) ∧
      (f ≠ fd → ∃ a0, h.lookup f = some a0 ∧ r.action x = .ok (some a0)) ∧
      ∀ (j : Nat) g b y, h[j]? = some (g, b) → ids[j]? = some y → (x = y ↔ f = g)) := by
  intro ids r
  obtain ⟨I, hl, he, _⟩ := regInv_run (regInv_init fd d) h
  refine ⟨hl, by simp only [Reg.action, r, I.zero], by simp only [Reg.action, r, I.one], ?_⟩
  intro i f a x hi hx
  have h1 := he i (f, a) x hi hx
  obtain ⟨r1, r2, r3⟩ := I.range _ _ h1
  have hs := I.small
  simp only [List.nil_append] at hs
  refine ⟨r1, by omega, ⟨r3, fun e => ?_⟩, fun hne => ?_, fun j g b y hj hy => ?_⟩
  · subst e
    have := I.differs
    simp only at h1
    rw [this] at h1; exact (Option.some.inj h1).symm
  · obtain ⟨a0, e1, e2⟩ := I.first _ _ h1 hne
    exact ⟨a0, by simpa using e1, by simp only [Reg.action, r, e2]⟩
  · have h2 := he j (g, b) y hj hy
    constructor
    · intro e; subst e; exact I.inj _ _ _ h1 h2
    · intro e; subst e
      simp only at h1 h2
      rw [h1] at h2; exact Option.some.inj h2

example : ((Reg.init "d" 99).run [("x", 5), ("y", 6), ("x", 7), ("d", 8)]).1 = [2, 3, 2, 1] ∧
    ((Reg.init "d" 99).run [("x", 5), ("y", 6), ("x", 7), ("d", 8)]).2.action 2 = .ok (some 5) := by
  constructor <;> decide +kernel

/-- C08, decoded: after any history of fewer than `2^26 - 1` calls, for diagrams over handed-out ids, iterating the
tagged difference never fails, gives disjoint wildcards that together cover exactly the packets on which the two diagrams
disagree, and each is labelled with the registered action of the left and of the right diagram for all its packets. -/
theorem C08_difftagged_decoded (n : Nat) (fd : φ) (d : α) (h : List (φ × α)) (hlen : 2 + h.length ≤ 2 ^ 26)
    (a b : DD Nat) (ha : WF n 0 a) (hb : WF n 0 b)
    (hia : ∀ p v, a.lookup n p = some v → v ∈ ((Reg.init fd d).run h).1)
    (hib : ∀ p v, b.lookup n p = some v → v ∈ ((Reg.init fd d).run h).1) :
    let r := ((Reg.init fd d).run h).2
    ∃ l, toWcs r n (diffTagged a b) = .ok l ∧
      l.Pairwise (fun x y => ¬ ∃ p, Covers n x.1 p ∧ Covers n y.1 p) ∧
      (∀ p, a.lookup n p ≠ b.lookup n p ↔ ∃ x ∈ l, Covers n x.1 p) ∧
      ∀ x ∈ l, WcValid n x.1 ∧ ∀ p, Covers n x.1 p →
        x.2.1 = r.actOf (a.lookup n p) ∧ x.2.2 = r.actOf (b.lookup n p) := by
  intro r
  obtain ⟨I, hl, he, _⟩ := regInv_run (regInv_init fd d) h
  have hreg : ∀ v ∈ ((Reg.init fd d).run h).1, 0 < v ∧ v < 2 ^ 26 ∧ ∃ x, r.termTo.lookup v = some (some x) := by
    intro v hv
    obtain ⟨k, hk, hkv⟩ := List.getElem_of_mem hv
    have hk' : k < h.length := by omega
    have h1 := he k h[k] v (List.getElem?_eq_getElem hk') (by rw [← hkv]; exact List.getElem?_eq_getElem hk)
    obtain ⟨r1, r2, r3⟩ := I.range _ _ h1
    have hs := I.small
    simp only [List.nil_append] at hs
    refine ⟨r1, by omega, ?_⟩
    by_cases e : h[k].1 = fd
    · rw [e, I.differs] at h1
      cases h1
      exact ⟨d, I.one⟩
    · obtain ⟨a0, _, e2⟩ := I.first _ _ h1 e
      exact ⟨a0, e2⟩
  have hsa : ∀ p v, a.lookup n p = some v → 0 < v ∧ v < 2 ^ 26 := fun p v hv => by
    have := hreg v (hia p v hv); exact ⟨this.1, this.2.1⟩
  have hsb : ∀ p v, b.lookup n p = some v → 0 < v ∧ v < 2 ^ 26 := fun p v hv => by
    have := hreg v (hib p v hv); exact ⟨this.1, this.2.1⟩
  obtain ⟨w, _, key⟩ := C08_difftagged n a b ha hb hsa hsb
  obtain ⟨t1, t2, t3, t4⟩ := toWcsAux_spec w (wcFull n)
  have t4 := t4 (wcValid_wcFull n) (by simpa using freeBelow_full n)
  -- decoding of one side
  have side : ∀ (c : DD Nat), (∀ p v, c.lookup n p = some v → v ∈ ((Reg.init fd d).run h).1) → ∀ p,
      r.action ((c.lookup n p).getD 0) = .ok (r.actOf (c.lookup n p)) := by
    intro c hc p
    cases hh : c.lookup n p with
    | none => simp only [Reg.action, Option.getD_none, Reg.actOf, Option.bind_none]; rw [I.zero]
    | some v =>
      obtain ⟨_, _, x, hx⟩ := hreg v (hc p v hh)
      simp only [Reg.action, Option.getD_some, Reg.actOf, Option.bind_some]; rw [hx]; rfl
  have one : ∀ x ∈ DD.toWcs n (diffTagged a b), ∀ p, Covers n x.1 p →
      a.lookup n p ≠ b.lookup n p ∧ decode x.2 = ((a.lookup n p).getD 0, (b.lookup n p).getD 0) := by
    intro x hx p hp
    have hlk : (diffTagged a b).lookup n p = some x.2 := (t1 x hx p hp).2
    by_cases e : a.lookup n p = b.lookup n p
    · rw [(key p).1 e] at hlk; cases hlk
    · obtain ⟨v, hv, _, hd⟩ := (key p).2 e
      rw [hv] at hlk
      cases hlk
      exact ⟨e, hd⟩
  have each : ∀ x ∈ DD.toWcs n (diffTagged a b), ∃ la lb, r.action (decode x.2).1 = .ok la ∧
      r.action (decode x.2).2 = .ok lb ∧
      ∀ p, Covers n x.1 p → la = r.actOf (a.lookup n p) ∧ lb = r.actOf (b.lookup n p) := by
    intro x hx
    obtain ⟨p0, hp0⟩ := exists_covers (t4 x hx).noZ
    have h0 := (one x hx p0 hp0).2
    refine ⟨r.actOf (a.lookup n p0), r.actOf (b.lookup n p0), ?_, ?_, fun p hp => ?_⟩
    · rw [h0]; exact side a hia p0
    · rw [h0]; exact side b hib p0
    · have h1 := (one x hx p hp).2
      rw [h0, Prod.mk.injEq] at h1
      have sa := side a hia p0; have sb := side b hib p0
      have sa' := side a hia p; have sb' := side b hib p
      rw [h1.1] at sa; rw [h1.2] at sb
      rw [sa] at sa'; rw [sb] at sb'
      exact ⟨Except.ok.inj sa', Except.ok.inj sb'⟩
  have main : ∀ L : List (Nat × Nat), (∀ x ∈ L, x ∈ DD.toWcs n (diffTagged a b)) →
      ∃ l, (L.mapM fun x => do
          let l ← r.action (decode x.2).1
          let rr ← r.action (decode x.2).2
          return (x.1, l, rr) : Except PyErr (List (Nat × Option α × Option α))) = .ok l ∧
        l.map (·.1) = L.map (·.1) ∧
        ∀ x ∈ l, WcValid n x.1 ∧ ∀ p, Covers n x.1 p →
          x.2.1 = r.actOf (a.lookup n p) ∧ x.2.2 = r.actOf (b.lookup n p) := by
    intro L
    induction L with
    | nil => intro _; exact ⟨[], rfl, rfl, by simp⟩
    | cons x L ih =>
      intro hL
      obtain ⟨l, e1, e2, e3⟩ := ih fun y hy => hL y (List.mem_cons_of_mem _ hy)
      obtain ⟨la, lb, f1, f2, f3⟩ := each x (hL x (by simp))
      refine ⟨(x.1, la, lb) :: l, ?_, by simp [e2], ?_⟩
      · rw [List.mapM_cons, f1, f2, e1]; rfl
      · intro y hy
        rcases List.mem_cons.1 hy with rfl | hy
        · exact ⟨t4 x (hL x (by simp)), f3⟩
        · exact e3 y hy
  obtain ⟨l, e1, e2, e3⟩ := main (DD.toWcs n (diffTagged a b)) fun _ h => h
  refine ⟨l, e1, ?_, fun p => ⟨fun hne => ?_, ?_⟩, e3⟩
  · have t3' : ((DD.toWcs n (diffTagged a b)).map (·.1)).Pairwise (fun x y => ¬ ∃ p, Covers n x p ∧ Covers n y p) :=
      List.pairwise_map.2 t3
    rw [← e2] at t3'
    exact List.pairwise_map.1 t3'
  · obtain ⟨v, hv, _⟩ := (key p).2 hne
    obtain ⟨w', hw', hc⟩ := t2 p v (covers_wcFull n p) hv
    have : w' ∈ l.map (·.1) := by rw [e2]; exact List.mem_map.2 ⟨_, hw', rfl⟩
    obtain ⟨y, hy, rfl⟩ := List.mem_map.1 this
    exact ⟨y, hy, hc⟩
  · rintro ⟨x, hx, hc⟩
    have : x.1 ∈ (DD.toWcs n (diffTagged a b)).map (·.1) := by rw [← e2]; exact List.mem_map.2 ⟨_, hx, rfl⟩
    obtain ⟨y, hy, e⟩ := List.mem_map.1 this
    exact (one y hy p (e ▸ hc)).1

/-- Two terminals registered as 2 and 3, the left diagram undefined on the half where the right one has 3. -/
example : toWcs ((Reg.init "d" 99).run [("x", 5), ("y", 6)]).2 2 (diffTagged (node 0 (term 2) bot) (node 0 (term 2) (term 3))) =
    .ok [(0b1011, none, some 6)] := by decide +kernel

end

variable {α : Type} [DecidableEq α]

/-- C05-C07 for the CUDD back end: its leaf rules are written differently, but on well formed diagrams give the very same
diagrams as the Python operations, so C05, C06 and C07 carry over. -/
theorem C05_C07_cudd_same (n : Nat) (d : α) (a b : DD α) (ha : WF n 0 a) (hb : WF n 0 b) :
    meld a b = DD.meld a b ∧ subtract a b = DD.subtract a b ∧ intersection a b = DD.intersection a b ∧
    difference d a b = DD.difference d a b :=
  ⟨meld_eq ha hb, subtract_eq ha hb, intersection_eq ha hb, difference_eq d a b⟩

example : intersection (node 0 (term 7) (term 8)) (node 1 (term 7) (term 8)) =
    node 0 (node 1 (term 7) bot) (node 1 bot (term 8)) := by decide +kernel

/-- C09 for the CUDD back end: on valid wildcards and on 0 it builds the same diagram. -/
theorem C09_cudd_same (n wc : Nat) (act : α) (hw : wc = 0 ∨ WcValid n wc) : DD.wcToDD n wc act = some (wcToDD n wc act) := by
  unfold DD.wcToDD wcToDD
  split
  · rfl
  · next h0 =>
    rcases hw with h | hw
    · exact absurd h h0
    · exact wcLoop_eq hw.noZ (by omega) (by simp)

/-- The C loop has no assertion: on an invalid wildcard (`z` tbit in a non-zero number) it silently treats the
bit as a don't care, where the Python code stops. -/
theorem C09_cudd_invalid_differs : DD.wcToDD 2 0b0010 7 = none ∧ wcToDD 2 0b0010 7 = wcToDD 2 0b1110 7 := by
  constructor <;> decide +kernel

example : WcValid 3 0b101101 ∧ wcToDD 3 0b101101 7 = node 0 bot (node 2 (term 7) bot) :=
  ⟨⟨by decide, by decide⟩, by decide⟩

end Cudd
end OFE
