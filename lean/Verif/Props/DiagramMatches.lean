import Verif.Bdd.Matches
import Verif.Props.Bdd
import Verif.Props.Cudd
import Verif.Props.Match
import Verif.Props.NodeIndex

/-!
# C102: diagrams are converted to matches
-/

namespace OFE
open DD Cudd

section
variable {α : Type} [DecidableEq α]

/-- Clearing a bit of a field keeps the padding. -/
theorem padFull_clear {w num : Nat} (c : Bool) (hw : PadFull w) (h : num < totBits - 3) :
    PadFull (andNot w ((2 - c.toNat) <<< ((totBits - 1 - num) * 2))) := by
  intro j hj
  have hb : totBits = 1584 := by decide +kernel
  have : ((2 - c.toNat) <<< ((totBits - 1 - num) * 2)).testBit j = false := by
    rw [Nat.testBit_shiftLeft, decide_eq_false (by omega), Bool.false_and]
  rw [testBit_andNot, hw j hj, this]
  rfl

theorem toWcsAux_pad {t : DD α} (ht : AllNums (· < totBits - 3) t) : ∀ w, PadFull w → ∀ x ∈ toWcsAux (totBits - 1) t w, PadFull x.1 := by
  induction t with
  | bot => intro w _ x hx; simp [toWcsAux] at hx
  | term a => intro w hw x hx; simp only [toWcsAux, List.mem_singleton] at hx; rw [hx]; exact hw
  | node num z o hz ho =>
    intro w hw x hx
    obtain ⟨h1, h2, h3⟩ := ht
    simp only [toWcsAux, List.mem_append] at hx
    rcases hx with hx | hx
    · exact hz h2 _ (padFull_clear false hw h1) x hx
    · exact ho h3 _ (padFull_clear true hw h1) x hx

theorem padFull_full : PadFull (wcFull totBits) := by unfold PadFull; decide +kernel

theorem toWcs_pad {t : DD α} (ht : AllNums (· < totBits - 3) t) : ∀ x ∈ toWcs totBits t, PadFull x.1 := toWcsAux_pad ht _ padFull_full

/-- Converting a list of proper wildcards. -/
theorem mapM_matches {β γ : Type} {l : List (Nat × β)} (k : Match → β → γ) (h : ∀ x ∈ l, WcValid totBits x.1 ∧ PadFull x.1) :
    ∃ ms, (l.mapM fun x => (wildcardToMatch x.1).map fun m => k m x.2) = .ok (ms.map fun y => k y.2.1 y.2.2) ∧
      List.Forall₂ (fun x (y : Nat × Match × β) => y.1 = x.1 ∧ y.2.2 = x.2 ∧ wildcardToMatch x.1 = .ok y.2.1 ∧
        ∀ p, Covers totBits x.1 p ↔ MatchesAll y.2.1.items p) l ms := by
  induction l with
  | nil => exact ⟨[], rfl, .nil⟩
  | cons x l ih =>
    obtain ⟨ms, e, f⟩ := ih fun y hy => h y (List.mem_cons_of_mem _ hy)
    obtain ⟨h1, h2⟩ := h x List.mem_cons_self
    obtain ⟨m, em, -, -, -, -, hc⟩ := C16_round_trip x.1 h1 h2
    refine ⟨(x.1, m, x.2) :: ms, ?_, .cons ⟨rfl, rfl, em, hc⟩ f⟩
    rw [List.mapM_cons, em, e]
    rfl

theorem forall₂_mem_left {β γ : Type} {R : β → γ → Prop} {l : List β} {ms : List γ} (f : List.Forall₂ R l ms) : ∀ x ∈ l, ∃ y ∈ ms, R x y := by
  induction f with
  | nil => intro x hx; cases hx
  | cons h _ ih =>
    intro x hx
    rcases List.mem_cons.1 hx with rfl | hx
    · exact ⟨_, List.mem_cons_self, h⟩
    · obtain ⟨y, hy, hr⟩ := ih x hx; exact ⟨y, List.mem_cons_of_mem _ hy, hr⟩

theorem forall₂_mem_right {β γ : Type} {R : β → γ → Prop} {l : List β} {ms : List γ} (f : List.Forall₂ R l ms) : ∀ y ∈ ms, ∃ x ∈ l, R x y := by
  induction f with
  | nil => intro x hx; cases hx
  | cons h _ ih =>
    intro x hx
    rcases List.mem_cons.1 hx with rfl | hx
    · exact ⟨_, List.mem_cons_self, h⟩
    · obtain ⟨y, hy, hr⟩ := ih x hx; exact ⟨y, List.mem_cons_of_mem _ hy, hr⟩

theorem forall₂_pairwise {β γ : Type} {R : β → γ → Prop} {P : β → β → Prop} {Q : γ → γ → Prop} {l : List β} {ms : List γ} (f : List.Forall₂ R l ms)
    (h : ∀ x y x' y', R x y → R x' y' → P x x' → Q y y') (hp : l.Pairwise P) : ms.Pairwise Q := by
  induction f with
  | nil => exact List.Pairwise.nil
  | cons hr f ih =>
    obtain ⟨h1, h2⟩ := List.pairwise_cons.1 hp
    refine List.pairwise_cons.2 ⟨fun y hy => ?_, ih h2⟩
    obtain ⟨x, hx, hr'⟩ := forall₂_mem_right f y hy
    exact h _ _ _ _ hr hr' (h1 x hx)

/-- **C102** cbdd.py: the matches are pairwise disjoint and accept exactly the packets of the diagram. -/
theorem C102_cbdd (t : DD α) (ht : WF totBits 0 t) (hp : AllNums (· < totBits - 3) t) :
    ∃ ms, cbddMatches t = .ok ms ∧ ms.Pairwise (fun m m' => ¬ ∃ p, MatchesAll m.items p ∧ MatchesAll m'.items p) ∧
      ∀ p, (∃ a, t.lookup totBits p = some a) ↔ ∃ m ∈ ms, MatchesAll m.items p := by
  obtain ⟨h1, h2, h3⟩ := C10_bdd_to_wcs totBits t ht
  obtain ⟨ms, e, f⟩ := mapM_matches (fun m (_ : α) => m) fun x hx => ⟨h1 x hx, toWcs_pad hp x hx⟩
  have e' : cbddMatches t = .ok (ms.map fun y => y.2.1) := by
    unfold cbddMatches
    rw [bytesNeeded_eq, ← e]
    congr 1
    funext x
    cases wildcardToMatch x.1 <;> rfl
  refine ⟨_, e', ?_, fun p => ?_⟩
  · rw [List.pairwise_map]
    refine forall₂_pairwise f (fun x y x' y' hr hr' hd => ?_) h2
    rintro ⟨p, a, b⟩
    exact hd ⟨p, (hr.2.2.2 p).2 a, (hr'.2.2.2 p).2 b⟩
  · constructor
    · rintro ⟨a, ha⟩
      obtain ⟨w, hw, hc⟩ := (h3 p a).1 ha
      obtain ⟨y, hy, -, -, -, hr⟩ := forall₂_mem_left f _ hw
      exact ⟨y.2.1, List.mem_map_of_mem hy, (hr p).1 hc⟩
    · rintro ⟨m, hm, hc⟩
      obtain ⟨y, hy, rfl⟩ := List.mem_map.1 hm
      obtain ⟨x, hx, -, -, -, hr⟩ := forall₂_mem_right f y hy
      exact ⟨x.2, (h3 p x.2).2 ⟨x.1, hx, (hr p).2 hc⟩⟩

/-- **C102** Diagrams that any history of calls makes of wildcards with free padding meet the condition on the node numbers. -/
theorem C102_made (d : α) (h : List (Store.Call α)) (hw : ∀ wc act, .wc wc act ∈ h → wc = 0 ∨ PadFull wc) (t : DD α)
    (ht : t ∈ Store.runT totBits d h) : AllNums (· < totBits - 3) t := by
  have key : ∀ u : DD α, (∀ num z o, Sub (node num z o) u → ∃ f bit, indexToField.lookup num = some (f, bit)) → AllNums (· < totBits - 3) u := by
    intro u
    induction u with
    | bot => intro _; trivial
    | term a => intro _; trivial
    | node num z o hz ho =>
      intro hs
      refine ⟨?_, hz fun n' z' o' h' => hs n' z' o' (.zero h'), ho fun n' z' o' h' => hs n' z' o' (.one h')⟩
      obtain ⟨f, b, e⟩ := hs num z o (.self (by simp))
      apply Classical.byContradiction
      intro hge
      rw [(C86_complete.2 num).2 (by omega)] at e
      cases e
  exact key t fun num z o hs => C86_diagrams d h hw t ht num z o hs

/-- **C102** Violated by bdd.py: for every diagram with a packet, TypeError is raised. -/
theorem C102_python (t : DD α) (ht : WF totBits 0 t) (p : Packet) (a : α) (ha : t.lookup totBits p = some a) : pyMatches t = .error .typeError := by
  obtain ⟨w, hw, -⟩ := ((C10_bdd_to_wcs totBits t ht).2.2 p a).1 ha
  unfold pyMatches
  rw [bytesNeeded_eq]
  cases h : toWcs totBits t with
  | nil => rw [h] at hw; cases hw
  | cons x l => rfl

end

theorem allNums_difftagged {P : Nat → Prop} {a b : DD Nat} (ha : AllNums P a) (hb : AllNums P b) : AllNums P (Cudd.diffTagged a b) := by
  refine allNums_apply (fun a b r ha hb h => ?_) a b ha hb
  simp only [Cudd.diffTaggedLeaf] at h
  split at h
  · cases h; trivial
  · split at h
    · cases h; unfold Cudd.addConst; split <;> trivial
    · cases h

/-- **C102** cuddbdd.py, for the tagged difference of two diagrams over registered actions: the matches are pairwise disjoint, accept exactly the packets on which
the diagrams differ, and each comes with the actions that the two diagrams have for its packets. -/
theorem C102_cudd {φ α : Type} [DecidableEq φ] (fd : φ) (d : α) (h : List (φ × α)) (hlen : 2 + h.length ≤ 2 ^ 26) (a b : DD Nat) (ha : WF totBits 0 a)
    (hb : WF totBits 0 b) (hna : AllNums (· < totBits - 3) a) (hnb : AllNums (· < totBits - 3) b)
    (hia : ∀ p v, a.lookup totBits p = some v → v ∈ ((Cudd.Reg.init fd d).run h).1)
    (hib : ∀ p v, b.lookup totBits p = some v → v ∈ ((Cudd.Reg.init fd d).run h).1) :
    ∃ ms, cuddMatches ((Cudd.Reg.init fd d).run h).2 (Cudd.diffTagged a b) = .ok ms ∧
      ms.Pairwise (fun x y => ¬ ∃ p, MatchesAll x.1.items p ∧ MatchesAll y.1.items p) ∧
      (∀ p, a.lookup totBits p ≠ b.lookup totBits p ↔ ∃ x ∈ ms, MatchesAll x.1.items p) ∧
      ∀ x ∈ ms, ∀ p, MatchesAll x.1.items p → x.2.1 = ((Cudd.Reg.init fd d).run h).2.actOf (a.lookup totBits p) ∧
        x.2.2 = ((Cudd.Reg.init fd d).run h).2.actOf (b.lookup totBits p) := by
  obtain ⟨l, e1, e2, e3, e4⟩ := Cudd.C08_difftagged_decoded totBits fd d h hlen a b ha hb hia hib
  have hpad : ∀ x ∈ l, PadFull x.1 := by
    have hd := toWcs_pad (allNums_difftagged hna hnb)
    intro x hx
    have hm : ∀ {l : List (Nat × Nat)} {l'}, (l.mapM fun x => do
        let lf ← ((Cudd.Reg.init fd d).run h).2.action (Cudd.decode x.2).1
        let rr ← ((Cudd.Reg.init fd d).run h).2.action (Cudd.decode x.2).2
        return (x.1, lf, rr)) = Except.ok (ε := PyErr) l' → ∀ y ∈ l', ∃ z ∈ l, z.1 = y.1 := by
      intro l
      induction l with
      | nil => intro l' e y hy; cases e; cases hy
      | cons z l ih =>
        intro l' e y hy
        rw [List.mapM_cons] at e
        cases h1 : ((Cudd.Reg.init fd d).run h).2.action (Cudd.decode z.2).1 with
        | error x => rw [h1] at e; cases e
        | ok la =>
          cases h2 : ((Cudd.Reg.init fd d).run h).2.action (Cudd.decode z.2).2 with
          | error x => rw [h1, h2] at e; cases e
          | ok lb =>
            rw [h1, h2] at e
            simp only [bind, Except.bind, pure, Except.pure] at e
            split at e
            · cases e
            · next l1 hl1 =>
              cases e
              rcases List.mem_cons.1 hy with rfl | hy
              · exact ⟨z, List.mem_cons_self, rfl⟩
              · obtain ⟨z', hz', ez⟩ := ih hl1 y hy
                exact ⟨z', List.mem_cons_of_mem _ hz', ez⟩
    obtain ⟨z, hz, ez⟩ := hm e1 x hx
    rw [← ez]; exact hd z hz
  obtain ⟨ms, e, f⟩ := mapM_matches (fun m (y : Option α × Option α) => (m, y)) fun x hx => ⟨(e4 x hx).1, hpad x hx⟩
  have e' : cuddMatches ((Cudd.Reg.init fd d).run h).2 (Cudd.diffTagged a b) = .ok (ms.map fun y => (y.2.1, y.2.2)) := by
    unfold cuddMatches
    rw [bytesNeeded_eq, e1, ← e]
    simp only [bind, Except.bind]
    congr 1
  refine ⟨_, e', ?_, fun p => ?_, ?_⟩
  · rw [List.pairwise_map]
    refine forall₂_pairwise f (fun x y x' y' hr hr' hd => ?_) e2
    rintro ⟨p, u, v⟩
    exact hd ⟨p, (hr.2.2.2 p).2 u, (hr'.2.2.2 p).2 v⟩
  · rw [e3 p]
    constructor
    · rintro ⟨x, hx, hc⟩
      obtain ⟨y, hy, -, -, -, hr⟩ := forall₂_mem_left f _ hx
      exact ⟨_, List.mem_map_of_mem hy, (hr p).1 hc⟩
    · rintro ⟨m, hm, hc⟩
      obtain ⟨y, hy, rfl⟩ := List.mem_map.1 hm
      obtain ⟨x, hx, -, -, -, hr⟩ := forall₂_mem_right f y hy
      exact ⟨x, hx, (hr p).2 hc⟩
  · intro m hm p hc
    obtain ⟨y, hy, rfl⟩ := List.mem_map.1 hm
    obtain ⟨x, hx, -, hl, -, hr⟩ := forall₂_mem_right f y hy
    have := (e4 x hx).2 p ((hr p).2 hc)
    simp only [hl]
    exact this

/-! ### Samples -/

/-- A diagram on the most significant bit of the first field and on the bit after it, as a history of calls makes it. -/
def sampleDD : DD Nat := node 0 (node 1 bot (term 2)) (term 3)

theorem sampleDD_ok : WF totBits 0 sampleDD ∧ AllNums (· < totBits - 3) sampleDD := by
  have : totBits = 1584 := by decide +kernel
  rw [this]
  simp [sampleDD, WF, AllNums]

/-- For `C102_cbdd`. -/
example : (cbddMatches sampleDD).toOption.map (fun ms => ms.map (·.items)) = some [[(0, 0x40000000, some 0xc0000000)], [(0, 0x80000000, some 0x80000000)]] := by
  decide +kernel

/-- For `C102_python`. -/
example : sampleDD.lookup totBits (fun _ => true) = some 3 ∧ pyMatches sampleDD = .error .typeError ∧ pyMatches (bot : DD Nat) = .ok [] := by
  refine ⟨by decide +kernel, by decide +kernel, by decide +kernel⟩

/-- For `C102_made`: a wildcard with free padding. -/
example : PadFull (wcFull totBits ^^^ 2 ^ (2 * 1583)) ∧
    ∃ t, t ∈ Store.runT totBits 0 [.wc (wcFull totBits ^^^ 2 ^ (2 * 1583)) 7] ∧ t = node 0 bot (term 7) := by
  refine ⟨by unfold PadFull; decide +kernel, _, ?_, rfl⟩
  decide +kernel

/-- For `C102_cudd`: the difference to a diagram for all packets. -/
example : ((Reg.init "d" 99).run [("x", 5), ("y", 6)]).1 = [2, 3] ∧ AllNums (· < totBits - 3) (term 3 : DD Nat) ∧
    (cuddMatches ((Reg.init "d" 99).run [("x", 5), ("y", 6)]).2 (diffTagged sampleDD (term 3))).toOption.map (fun ms => ms.map (·.1.items)) =
      some [[(0, 0, some 0xc0000000)], [(0, 0x40000000, some 0xc0000000)]] ∧
    (cuddMatches ((Reg.init "d" 99).run [("x", 5), ("y", 6)]).2 (diffTagged sampleDD (term 3))).toOption.map (fun ms => ms.map (·.2)) =
      some [(none, some 6), (some 5, some 6)] := by
  refine ⟨by decide +kernel, trivial, by decide +kernel, by decide +kernel⟩

end OFE
