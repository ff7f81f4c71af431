import Verif.Props.Move
import Verif.Rule.TunnelMerge

/-! # C64: the match of the second rule behind pushes of the first -/

namespace OFE

/-- At most one of the two inner headers is matched. -/
theorem promote_each {n : Nat} (hn : 1 ≤ n) : ∀ (fs : List Nat) (m : Match), fs.Nodup → (∀ f ∈ fs, f ∈ tunFields) → m.Inv → (∀ x ∈ m.items, x.1 < 56) →
    (∀ f ∈ fs, m.items.lookup (inAt f 1) = none ∨ m.items.lookup (inAt f 2) = none) →
    ((∃ f ∈ fs, ∃ d, d ≤ 2 ∧ d < n ∧ (m.items.lookup (inAt f d)).isSome = true) → fs.foldlM (fun m f => promote m f n) m = .error .overflow) ∧
    ((∀ f ∈ fs, ∀ d, d ≤ 2 → d < n → m.items.lookup (inAt f d) = none) →
      ∃ m', fs.foldlM (fun m f => promote m f n) m = .ok m' ∧ m'.Inv ∧ (∀ x ∈ m'.items, x.1 < 56) ∧
        ∀ p, m'.accepts (dropBy (fun g => if g ∈ fs then n else 0) p) ↔ m.accepts p)
  | [], m, _, _, hi, hk, _ => ⟨(by rintro ⟨f, hf, -⟩; cases hf), fun _ => ⟨m, rfl, hi, hk, fun p => by
      have : dropBy (fun g => if g ∈ ([] : List Nat) then n else 0) p = p := by unfold dropBy; simp
      rw [this]⟩⟩
  | f :: fs, m, hnd, hf, hi, hk, hone => by
    obtain ⟨hn1, hn2⟩ := List.nodup_cons.1 hnd
    have hft := hf f List.mem_cons_self
    have hord : n = 1 → copiesOf m f ≠ [inAt f 2, inAt f 1] := by
      intro _ hc
      obtain ⟨-, h2, -⟩ := copies_of hft hi hk
      have a1 := (h2 (inAt f 1) (by rw [hc]; simp)).1
      have a2 := (h2 (inAt f 2) (by rw [hc]; simp)).1
      rcases hone f List.mem_cons_self with h | h
      · rw [h] at a1; cases a1
      · rw [h] at a2; cases a2
    have hne : ∀ g ∈ fs, ∀ d, d ≤ 2 → ∀ d', d' ≤ 2 → inAt g d ≠ inAt f d' := fun g hg d hd d' hd' =>
      inAt_ne hft (.inr ⟨hf g (List.mem_cons_of_mem _ hg), hd⟩) (fun e => hn1 (e ▸ hg)) d' hd'
    by_cases hs : ∃ d, d ≤ 2 ∧ d < n ∧ (m.items.lookup (inAt f d)).isSome = true
    · obtain ⟨d, hd, hdn, hl⟩ := hs
      refine ⟨fun _ => ?_, fun h => ?_⟩
      · rw [List.foldlM_cons, promote_refuses hft hi hk hd hdn hl]; rfl
      · rw [h f List.mem_cons_self d hd hdn] at hl; cases hl
    · have hab : ∀ d, d ≤ 2 → d < n → m.items.lookup (inAt f d) = none := by
        intro d hd hdn
        cases hl : m.items.lookup (inAt f d) with
        | none => rfl
        | some x => exact absurd ⟨d, hd, hdn, by rw [hl]; rfl⟩ hs
      obtain ⟨m1, e1, h1⟩ := promote_fits hft hi hk hn hab hord
      have hsame : ∀ g ∈ fs, ∀ d, d ≤ 2 → m1.items.lookup (inAt g d) = m.items.lookup (inAt g d) := fun g hg d hd => h1.same _ (hne g hg d hd)
      obtain ⟨r1, r2⟩ := promote_each hn fs m1 hn2 (fun g hg => hf g (List.mem_cons_of_mem _ hg)) h1.inv h1.keys (by
        intro g hg
        rw [hsame g hg 1 (by omega), hsame g hg 2 (by omega)]
        exact hone g (List.mem_cons_of_mem _ hg))
      refine ⟨?_, fun h => ?_⟩
      · rintro ⟨g, hg, d, hd, hdn, hl⟩
        rw [List.foldlM_cons, e1]
        refine r1 ?_
        rcases List.mem_cons.1 hg with e | hg
        · rw [e, hab d hd hdn] at hl; cases hl
        · exact ⟨g, hg, d, hd, hdn, by rw [hsame g hg d hd]; exact hl⟩
      · obtain ⟨m2, e2, i2, k2, a2⟩ := r2 (fun g hg d hd hdn => by rw [hsame g hg d hd]; exact h g (List.mem_cons_of_mem _ hg) d hd hdn)
        refine ⟨m2, by rw [List.foldlM_cons, e1]; exact e2, i2, k2, fun p => ?_⟩
        rw [← movedOut_accepts hft hi h1 hab p, ← a2, dropHdr_eq, dropBy_add]
        have : (fun g => (if g ∈ fs then n else 0) + if g = f then n else 0) = fun g => if g ∈ f :: fs then n else 0 := by
          funext g
          by_cases e : g = f
          · subst e; simp [hn1]
          · simp [e]
        rw [this]

/-- **C64** (in `merge`; partial: of the two inner headers at most one is matched) When the actions of the first rule push `n` headers more than
they pop, the match of the second rule is refused if it matches one of the first `n` headers; otherwise the match accepts a packet without its
first `n` headers exactly when the match of the second rule accepts the packet. -/
theorem C64_pushes_partial (l : List Action) (m : Match) (t : Tun) (hi : m.Inv) (hk : ∀ x ∈ m.items, x.1 < 56) (hl : popCount t l < pushCount t l)
    (hone : ∀ f ∈ t.fields, 1 ∉ depthsMatched m f ∨ 2 ∉ depthsMatched m f) :
    ((∃ f ∈ t.fields, ∃ d ∈ depthsMatched m f, d < pushCount t l - popCount t l) → adjustTunnel l m t = .error .overflow) ∧
    ((∀ f ∈ t.fields, ∀ d ∈ depthsMatched m f, pushCount t l - popCount t l ≤ d) →
      ∃ m', adjustTunnel l m t = .ok m' ∧ m'.Inv ∧
        ∀ p, m'.accepts (dropBy (fun g => if g ∈ t.fields then pushCount t l - popCount t l else 0) p) ↔ m.accepts p) := by
  have hft := (tun_fields t).2
  have hnone : ∀ f ∈ t.fields, ∀ d, d ≤ 2 → d ∉ depthsMatched m f → m.items.lookup (inAt f d) = none := by
    intro f hf d hd h
    cases hx : m.items.lookup (inAt f d) with
    | none => rfl
    | some x => exact absurd ((depthsMatched_iff (hft f hf) hi hk d).2 ⟨hd, by rw [hx]; rfl⟩) h
  have he : adjustTunnel l m t = t.fields.foldlM (fun m f => promote m f (pushCount t l - popCount t l)) m := by
    unfold adjustTunnel
    rw [if_neg (by omega), if_pos hl]
  rw [he]
  obtain ⟨r1, r2⟩ := promote_each (n := pushCount t l - popCount t l) (by omega) t.fields m (tun_fields t).1 hft hi hk (fun f hf =>
    (hone f hf).imp (hnone f hf 1 (by omega)) (hnone f hf 2 (by omega)))
  refine ⟨?_, fun h => ?_⟩
  · rintro ⟨f, hf, d, hd, hdn⟩
    obtain ⟨h2, hs⟩ := (depthsMatched_iff (hft f hf) hi hk d).1 hd
    exact r1 ⟨f, hf, d, h2, hdn, hs⟩
  · obtain ⟨m', e, i, -, a⟩ := r2 (fun f hf d hd hdn => hnone f hf d hd (fun hm => by have := h f hf d hm; omega))
    exact ⟨m', e, i, a⟩

/-! ### Samples -/

/-- VLAN 6 with priority 3 in the third header. -/
def thirdOnly : Match := (Match.empty.append 41 0x1006 none).append 43 3 none

/-- Behind two pushes the match is on the first header; behind three it is refused. -/
example : thirdOnly.Inv ∧ (∀ x ∈ thirdOnly.items, x.1 < 56) ∧ popCount .vlan [.pushVlan 0x8100, .pushVlan 0x8100] < pushCount .vlan [.pushVlan 0x8100, .pushVlan 0x8100] ∧
    (∀ f ∈ Tun.vlan.fields, 1 ∉ depthsMatched thirdOnly f) ∧
    (adjustTunnel [.pushVlan 0x8100, .pushVlan 0x8100] thirdOnly .vlan).map (·.items) = .ok [(6, 0x1006, none), (7, 3, none)] ∧
    (adjustTunnel [.pushVlan 0x8100, .pushVlan 0x8100, .pushVlan 0x8100] thirdOnly .vlan).map (·.items) = .error .overflow :=
  ⟨inv_append (inv_append inv_empty _ _ _) _ _ _, by decide +kernel, by decide +kernel, by decide +kernel, by decide +kernel, by decide +kernel⟩

end OFE
