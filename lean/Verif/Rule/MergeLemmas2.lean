import Verif.Rule.MergeLemmas

/-!
# Lemmas: merging rules without push and pop, continued
-/

namespace OFE

theorem foldlM_del : ∀ (remove : List Nat), remove.Nodup → ∀ m : Match, m.Inv → (∀ x ∈ m.items, x.1 < 40) →
    (∀ f ∈ remove, (m.items.lookup f).isSome = true) →
    ∃ m', remove.foldlM Match.del m = .ok m' ∧ m'.Inv ∧ (∀ x ∈ m'.items, x.1 < 40) ∧
      ∀ g, m'.items.lookup g = if g ∈ remove then none else m.items.lookup g
  | [], _, m, hi, hk, _ => ⟨m, rfl, hi, hk, by simp⟩
  | f :: rest, hn, m, hi, hk, hp => by
    obtain ⟨m1, e1⟩ := del_ok (hp f List.mem_cons_self)
    have hn' := List.nodup_cons.1 hn
    obtain ⟨m', e2, i2, k2, l2⟩ := foldlM_del rest hn'.2 m1 (inv_del hi e1) (keys_del e1 hk) (by
      intro g hg
      rw [lookup_del e1, if_neg (fun e : g = f => hn'.1 (e ▸ hg))]
      exact hp g (List.mem_cons_of_mem _ hg))
    refine ⟨m', by rw [List.foldlM_cons, e1]; exact e2, i2, k2, fun g => ?_⟩
    rw [l2, lookup_del e1]
    by_cases h1 : g = f <;> by_cases h2 : g ∈ rest <;> simp [h1, h2]

/-- The bits that the first rule wrote, given its metadata write and its rewritten fields. -/
def covBit (i : Inst) (rw : Match) (g k : Nat) : Bool :=
  if g = 2 then (match i.wmeta with | none => none | some (v, m) => reqItem v m k).isSome else (rw.items.lookup g).isSome

/-- The second match after removing what the first rule rewrites. -/
theorem second_gen {b rw : Match} {i : Inst} (hinv : rw.Inv)
    (hmeta : rw.items.lookup 2 = (match i.wmeta with | none => none | some (v, m) => some (normValue 2 v m)))
    (hi : b.Inv) (hk : ∀ x ∈ b.items, x.1 < 40) :
    ∃ c, (b.copy [] ((rw.items.map (·.1)).filter fun x => (b.items.lookup x).isSome && x != fMeta) >>= fun s => stripMeta s rw) =
        .ok c ∧ c.Inv ∧ (∀ x ∈ c.items, x.1 < 40) ∧
      ∀ g k, k < width g → req c.items g k = if covBit i rw g k then none else req b.items g k := by
  obtain ⟨c1, e1, i1, k1, l1⟩ := foldlM_del ((rw.items.map (·.1)).filter fun x => (b.items.lookup x).isSome && x != fMeta)
    (hinv.nodup.filter _) b hi hk (by
      intro f hf
      simp only [List.mem_filter, Bool.and_eq_true] at hf
      exact hf.2.1)
  have hcopy : b.copy [] ((rw.items.map (·.1)).filter fun x => (b.items.lookup x).isSome && x != fMeta) = .ok c1 := by
    unfold Match.copy
    rw [e1]; rfl
  have hmem : ∀ g, g ≠ 2 → (g ∈ (rw.items.map (·.1)).filter (fun x => (b.items.lookup x).isSome && x != fMeta) ↔
      (rw.items.lookup g).isSome = true ∧ (b.items.lookup g).isSome = true) := by
    intro g hg
    rw [List.mem_filter, ← lookup_isSome_iff]
    simp only [Bool.and_eq_true, bne_iff_ne, ne_eq]
    constructor
    · rintro ⟨h1, h2, -⟩; exact ⟨h1, h2⟩
    · rintro ⟨h1, h2⟩; exact ⟨h1, h2, hg⟩
  have hreq1 : ∀ g k, g ≠ 2 → req c1.items g k = if covBit i rw g k then none else req b.items g k := by
    intro g k hg
    unfold req
    rw [l1]
    simp only [hmem g hg, covBit, if_neg hg]
    cases hb : b.items.lookup g <;> cases hs : rw.items.lookup g <;> simp
  have hl2 : c1.items.lookup 2 = b.items.lookup 2 := by
    rw [l1, if_neg]
    simp [fMeta]
  simp only [hcopy, bind, Except.bind]
  unfold stripMeta
  rw [show fMeta = 2 from rfl, hl2, hmeta]
  cases hb2 : b.items.lookup 2 with
  | none =>
    refine ⟨c1, rfl, i1, k1, fun g k hk => ?_⟩
    by_cases hg : g = 2
    · subst hg
      unfold req
      rw [hl2, hb2]; simp
    · exact hreq1 g k hg
  | some sb =>
    obtain ⟨sv, sm⟩ := sb
    cases hw : i.wmeta with
    | none =>
      refine ⟨c1, rfl, i1, k1, fun g k hk => ?_⟩
      by_cases hg : g = 2
      · subst hg
        unfold req covBit
        rw [hl2, hb2, hw]; simp
      · exact hreq1 g k hg
    | some w =>
      obtain ⟨wv, W⟩ := w
      have hsome : (c1.items.lookup 2).isSome = true := by rw [hl2, hb2]; rfl
      obtain ⟨c2, e2⟩ := del_ok hsome
      have hdel : (∀ k, k < width 2 → (reqItem wv W k).isSome = true) →
          ∃ c, c1.del 2 = .ok c ∧ c.Inv ∧ (∀ x ∈ c.items, x.1 < 40) ∧
            ∀ g k, k < width g → req c.items g k = if covBit i rw g k then none else req b.items g k := by
        intro hall
        refine ⟨c2, e2, inv_del i1 e2, keys_del e2 k1, fun g k hk => ?_⟩
        rw [req_del e2]
        by_cases hg : g = 2
        · subst hg
          have := hall k hk
          simp [covBit, hw, this]
        · rw [if_neg hg, hreq1 g k hg]
      have hnorm : ∀ k, k < width 2 → reqItem (normValue 2 wv W).1 (normValue 2 wv W).2 k = reqItem wv W k :=
        fun k hk => reqItem_norm (by decide) hk
      simp only
      cases hnv : normValue 2 wv W with
      | mk v' m' =>
        rw [hnv] at hnorm
        cases m' with
        | none =>
          refine hdel fun k hk => ?_
          rw [← hnorm k hk]; rfl
        | some wmask =>
          simp only at hnorm ⊢
          split
          · refine ⟨_, rfl, inv_append i1 _ _ _, keys_append (by decide) k1, fun g k hk => ?_⟩
            rw [req_append (by decide) hk]
            by_cases hg : g = 2
            · subst hg
              rw [if_pos rfl]
              have hw2 : width 2 = 64 := by decide +kernel
              have hsm : (sm.getD 0xFFFFFFFFFFFFFFFF).testBit k = (reqItem sv sm k).isSome := by
                cases sm with
                | none =>
                  rw [show (0xFFFFFFFFFFFFFFFF : Nat) = 2 ^ 64 - 1 from rfl, Option.getD_none, Nat.testBit_two_pow_sub_one]
                  simp [reqItem]; omega
                | some m => simp only [reqItem, Option.getD_some]; by_cases hb : m.testBit k = true <;> simp [hb]
              have hwm : wmask.testBit k = (reqItem wv W k).isSome := by
                rw [← hnorm k hk]; simp only [reqItem]; by_cases hb : wmask.testBit k = true <;> simp [hb]
              have hreqb : req b.items 2 k = reqItem sv sm k := by unfold req; rw [hb2]
              have hval : ∀ c, reqItem sv sm k = some c → c = sv.testBit k := by
                intro c hc
                cases sm with
                | none => simp [reqItem] at hc; exact hc.symm
                | some m =>
                  simp only [reqItem] at hc
                  split at hc
                  · simpa using hc.symm
                  · cases hc
              simp only [covBit, if_true, hw, hreqb]
              show (if (andNot (sm.getD 0xFFFFFFFFFFFFFFFF) wmask).testBit k = true then
                some ((sv &&& andNot (sm.getD 0xFFFFFFFFFFFFFFFF) wmask).testBit k) else none) = _
              simp only [testBit_andNot, Nat.testBit_and]
              rw [hsm, hwm]
              cases h1 : reqItem sv sm k with
              | none => simp
              | some c =>
                have := hval c h1
                cases h2 : reqItem wv W k <;> simp [this]
            · rw [if_neg hg, hreq1 g k hg]
          · next hz =>
            simp only [ne_eq, Decidable.not_not] at hz
            refine ⟨c2, e2, inv_del i1 e2, keys_del e2 k1, fun g k hk => ?_⟩
            rw [req_del e2]
            by_cases hg : g = 2
            · subst hg
              rw [if_pos rfl]
              have hw2 : width 2 = 64 := by decide +kernel
              have hwm : wmask.testBit k = (reqItem wv W k).isSome := by
                rw [← hnorm k hk]; simp only [reqItem]; by_cases hb : wmask.testBit k = true <;> simp [hb]
              have hzk : (andNot (sm.getD 0xFFFFFFFFFFFFFFFF) wmask).testBit k = false := by rw [hz]; simp
              rw [testBit_andNot] at hzk
              simp only [covBit, if_true, hw]
              split
              · rfl
              · next hno =>
                rw [hwm] at hzk
                simp only [Bool.not_eq_true] at hno
                rw [hno] at hzk
                simp only [Bool.not_false, Bool.and_true] at hzk
                unfold req
                rw [hb2]
                cases sm with
                | none =>
                  rw [show (0xFFFFFFFFFFFFFFFF : Nat) = 2 ^ 64 - 1 from rfl, Option.getD_none, Nat.testBit_two_pow_sub_one] at hzk
                  simp at hzk; omega
                | some m => simp only [Option.getD_some] at hzk; simp [reqItem, hzk]
            · rw [if_neg hg, hreq1 g k hg]

theorem stripMeta_lookup {s rw c : Match} (h : stripMeta s rw = .ok c) {g : Nat} (hg : g ≠ 2) : c.items.lookup g = s.items.lookup g := by
  unfold stripMeta at h
  split at h
  · split at h
    · rw [lookup_del h, if_neg (show g ≠ fMeta from hg)]
    · simp only at h
      split at h
      · cases h; rw [lookup_append, if_neg (show g ≠ fMeta from hg)]
      · rw [lookup_del h, if_neg (show g ≠ fMeta from hg)]
  · cases h; rfl

/-- Fields rewritten by the first rule are no longer matched. -/
theorem second_gone {b rw c : Match} (hinv : rw.Inv) (hi : b.Inv) (hk : ∀ x ∈ b.items, x.1 < 40)
    (h : (b.copy [] ((rw.items.map (·.1)).filter fun x => (b.items.lookup x).isSome && x != fMeta) >>= fun s => stripMeta s rw) = .ok c)
    {g : Nat} (hg : g ≠ 2) (hr : (rw.items.lookup g).isSome = true) : c.items.lookup g = none := by
  obtain ⟨c1, e1, -, -, l1⟩ := foldlM_del ((rw.items.map (·.1)).filter fun x => (b.items.lookup x).isSome && x != fMeta)
    (hinv.nodup.filter _) b hi hk (by
      intro f hf
      simp only [List.mem_filter, Bool.and_eq_true] at hf
      exact hf.2.1)
  have hcopy : b.copy [] ((rw.items.map (·.1)).filter fun x => (b.items.lookup x).isSome && x != fMeta) = .ok c1 := by
    unfold Match.copy
    rw [e1]; rfl
  rw [hcopy] at h
  rw [stripMeta_lookup h hg, l1]
  split
  · rfl
  · next hno =>
    cases hb : b.items.lookup g with
    | none => rfl
    | some y =>
      refine absurd (List.mem_filter.2 ⟨lookup_isSome_iff.1 hr, ?_⟩) hno
      rw [hb]
      simpa [fMeta] using hg

theorem second_ok {π : Type} {a : Rule π} {b sim rw : Match} (hs : SimOK a sim rw)
    (hi : b.Inv) (hk : ∀ x ∈ b.items, x.1 < 40) :
    ∃ c, (b.copy [] ((rw.items.map (·.1)).filter fun x => (b.items.lookup x).isSome && x != fMeta) >>= fun s => stripMeta s rw) =
        .ok c ∧ c.Inv ∧ (∀ x ∈ c.items, x.1 < 40) ∧
      ∀ g k, k < width g → req c.items g k = if (rwBit a.inst g k).isSome then none else req b.items g k := by
  obtain ⟨c, e, h1, h2, h3⟩ := second_gen (b := b) hs.invrw hs.rwMeta hi hk
  refine ⟨c, e, h1, h2, fun g k hg => ?_⟩
  rw [h3 g k hg]
  have : covBit a.inst rw g k = (rwBit a.inst g k).isSome := by
    unfold covBit rwBit
    by_cases h : g = 2
    · rw [if_pos h, if_pos h]; cases a.inst.wmeta <;> rfl
    · rw [if_neg h, if_neg h, Option.isSome_map, Bool.eq_iff_iff]; exact hs.rwSome g h
  rw [this]

end OFE
