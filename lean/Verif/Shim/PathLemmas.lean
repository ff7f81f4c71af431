import Verif.Shim.Paths
import Verif.Shim.NormLemmas

/-! # Lemmas: every key takes a side on every match -/

namespace OFE
namespace Shim

variable {n : Nat} {α π : Type}

/-- The shim was built with a decision for each of `fs`. -/
def Over (n : Nat) (s : Shim) (fs : List Nat) : Prop := ∃ A, Can n s A ∧ ∀ f ∈ fs, ∃ b, (f, b) ∈ A

open Classical in
theorem mergeRules_over {ord : List Nat → List Nat} (hn : 0 < n) (hord : ∀ l, (ord l).Perm l) {fs gs : List Nat} (hfs : fs.Nodup)
    (hv : ∀ f ∈ fs, WcValid n f) {rules : List (Shim × α)} (hr : ∀ r ∈ rules, Over n r.1 gs) {D : List (Shim × α)}
    (e : mergeRules n ord rules fs = .ok D) : ∀ x ∈ D, Over n x.1 (gs ++ fs) := by
  let H : Shim → List (Nat × Bool) := fun s => if h : Over n s gs then h.choose else []
  have hH : ∀ r ∈ rules, Can n r.1 (H r.1) ∧ ∀ f ∈ gs, ∃ b, (f, b) ∈ H r.1 := by
    intro r h
    have h := hr r h
    have : H r.1 = h.choose := by simp only [H, dif_pos h]
    rw [this]
    exact h.choose_spec
  obtain ⟨D', e', k, g⟩ := mergeRules_spec hn hord H hfs hv rules (fun r h => (hH r h).1)
  rw [e] at e'
  cases e'
  intro x hx
  obtain ⟨l1, r, l2, er, -, ⟨σ, hσ⟩, -⟩ := (g x.1 x.2).1 (get_of_mem k hx)
  have hm : r ∈ rules := by rw [er]; simp
  refine ⟨_, hσ, fun f hf => ?_⟩
  rcases List.mem_append.1 hf with hf | hf
  · obtain ⟨b, hb⟩ := (hH r hm).2 f hf
    exact ⟨b, List.mem_append_left _ hb⟩
  · exact ⟨σ f, List.mem_append_right _ (mem_signs.2 ⟨hf, rfl⟩)⟩

theorem normalise_over {ord : List Nat → List Nat} (hn : 0 < n) (hord : ∀ l, (ord l).Perm l) (rules : List (Nat × α)) (hv : ∀ r ∈ rules, WcValid n r.1)
    {D : List (Shim × α)} {F : List Nat} (e : normalise n ord rules = .ok (D, F)) :
    (∀ x ∈ D, Over n x.1 F) ∧ F.Nodup ∧ ∀ w, w ∈ F ↔ ∃ r ∈ rules, r.1 = w := by
  obtain ⟨M, eM, hM, -⟩ := shimMap_spec (ord := ord) hn rules hv
  obtain ⟨fn, fm⟩ := mem_fields rules
  unfold normalise at e
  rw [eM] at e
  simp only [bind, Except.bind] at e
  cases hm : mergeRules n ord M (ord (rules.foldl (fun s x => Deps.setAdd x.1 s) [])) with
  | error x => rw [hm] at e; cases e
  | ok D' =>
    rw [hm] at e
    cases e
    refine ⟨fun x hx => ?_, fn, fm⟩
    obtain ⟨A, h1, h2⟩ := mergeRules_over (gs := []) hn hord ((hord _).nodup_iff.2 fn) (fun f hf => by
      obtain ⟨r, hr, rfl⟩ := (fm f).1 ((hord _).mem_iff.1 hf); exact hv r hr) (fun r hr => by
      obtain ⟨w, -, hc⟩ := hM r hr; exact ⟨_, hc, fun _ h => by cases h⟩) hm x hx
    exact ⟨A, h1, fun f hf => h2 f (by simpa using (hord _).mem_iff.2 hf)⟩

/-- The keys that are compared have taken a side on the matches of both rulesets. -/
theorem mergeBoth_over {ord : List Nat → List Nat} (hn : 0 < n) (hord : ∀ l, (ord l).Perm l) {r1 r2 : List (Nat × α)} (h1 : ∀ r ∈ r1, WcValid n r.1)
    (h2 : ∀ r ∈ r2, WcValid n r.1) {n1 n2 : List (Shim × α) × List Nat} {w1 w2 : List (Shim × α)} (e1 : normalise n ord r1 = .ok n1)
    (e2 : normalise n ord r2 = .ok n2) (e : mergeBoth n ord n1 n2 = .ok (w1, w2)) :
    ∀ x ∈ w1, Over n x.1 (r1.map (·.1) ++ r2.map (·.1)) := by
  obtain ⟨D1, F1⟩ := n1
  obtain ⟨D2, F2⟩ := n2
  obtain ⟨o1, d1, m1⟩ := normalise_over hn hord r1 h1 e1
  obtain ⟨o2, d2, m2⟩ := normalise_over hn hord r2 h2 e2
  unfold mergeBoth at e
  simp only at e
  cases a1 : mergeRules n ord D1 (ord (F2.filter fun x => !F1.contains x)) with
  | error x => rw [a1] at e; cases e
  | ok W1 =>
    rw [a1] at e
    simp only [bind, Except.bind] at e
    cases a2 : mergeRules n ord D2 (ord (F1.filter fun x => !F2.contains x)) with
    | error x => rw [a2] at e; cases e
    | ok W2 =>
      rw [a2] at e
      simp only at e
      cases b1 : del nothing W1 with
      | error x => rw [b1] at e; cases e
      | ok V1 =>
        rw [b1] at e
        simp only at e
        cases b2 : del nothing W2 with
        | error x => rw [b2] at e; cases e
        | ok V2 =>
          rw [b2] at e
          cases e
          intro x hx
          have hW : x ∈ W1 := by
            unfold del at b1
            split at b1
            · cases b1; exact (List.mem_filter.1 hx).1
            · cases b1
          obtain ⟨A, c1, c2⟩ := mergeRules_over hn hord ((hord _).nodup_iff.2 (d2.filter _)) (fun f hf => by
            obtain ⟨r, hr, rfl⟩ := (m2 f).1 (List.mem_filter.1 ((hord _).mem_iff.1 hf)).1
            exact h2 r hr) o1 a1 x hW
          refine ⟨A, c1, fun f hf => c2 f ?_⟩
          rw [List.mem_append, (hord _).mem_iff, List.mem_filter, m1, m2]
          by_cases hF : f ∈ F1
          · exact .inl ((m1 f).1 hF)
          · refine .inr ⟨?_, by simpa using hF⟩
            rcases List.mem_append.1 hf with hf | hf
            · obtain ⟨r, hr, rfl⟩ := List.mem_map.1 hf
              exact absurd ((m1 r.1).2 ⟨r, hr, rfl⟩) hF
            · obtain ⟨r, hr, rfl⟩ := List.mem_map.1 hf
              exact ⟨r, hr, rfl⟩

theorem matchesWc_iff (hn : 0 < n) {m w : Nat} (hm : WcValid n m) : m = wcIntersect n m w ↔ ∀ p, Covers n m p → Covers n w p := by
  constructor
  · intro h p hp
    rw [h, covers_wcIntersect hn] at hp
    exact hp.2
  · intro h
    obtain ⟨p, hp⟩ := exists_covers hm.noZ
    have hv : WcValid n (wcIntersect n m w) := wcValid_wcIntersect hm fun h0 => (wcIntersect_eq_zero hn m w).1 h0 ⟨p, hp, h p hp⟩
    refine wcIsSubset_antisymm ((wcIsSubset_iff hm).2 fun p hp => ?_) ((wcIsSubset_iff hv).2 fun p hp => ?_)
    · rw [covers_wcIntersect hn]; exact ⟨hp, h p hp⟩
    · rw [covers_wcIntersect hn] at hp; exact hp.1

/-- The rules whose match contains what the shim includes. -/
theorem collectPaths_spec (hn : 0 < n) {s : Shim} {m : Nat} (hs : s.inc = some m) (hm : WcValid n m) (rules : List (Nat × π)) :
    ∃ l, collectPaths n s rules = .ok l ∧ (∀ x ∈ l, x.2 = s ∧ ∃ r ∈ rules, r.2 = x.1 ∧ ∀ p, Covers n m p → Covers n r.1 p) ∧
      ∀ r ∈ rules, (∀ p, Covers n m p → Covers n r.1 p) → ∃ x ∈ l, x.1 = r.2 := by
  have gen : ∀ (rs : List (Nat × π)) (acc : List (π × Shim)), (∀ r ∈ rs, r ∈ rules) →
      (∀ x ∈ acc, x.2 = s ∧ ∃ r ∈ rules, r.2 = x.1 ∧ ∀ p, Covers n m p → Covers n r.1 p) →
      ∃ l, rs.foldlM (fun acc r => do
        if ← matchesWc n s r.1 then return acc ++ [(r.2, ← intersection n s r.1)] else return acc) acc = Except.ok (ε := PyErr) l ∧
      (∀ x ∈ l, x.2 = s ∧ ∃ r ∈ rules, r.2 = x.1 ∧ ∀ p, Covers n m p → Covers n r.1 p) ∧
      (∀ x ∈ acc, x ∈ l) ∧ ∀ r ∈ rs, (∀ p, Covers n m p → Covers n r.1 p) → ∃ x ∈ l, x.1 = r.2 := by
    intro rs
    induction rs with
    | nil => intro acc _ h; exact ⟨acc, rfl, h, fun _ h => h, fun _ h => by cases h⟩
    | cons r rs ih =>
      intro acc hr h
      have hmatch : matchesWc n s r.1 = .ok (decide (m = wcIntersect n m r.1)) := by rw [matchesWc, hs]
      have hint : intersection n s r.1 = .ok { s with inc := some (wcIntersect n m r.1) } := by rw [intersection, hs]
      by_cases hc : m = wcIntersect n m r.1
      · have hss : { s with inc := some (wcIntersect n m r.1) } = s := by rw [← hc, ← hs]
        obtain ⟨l, e, h1, h2, h3⟩ := ih (acc ++ [(r.2, s)]) (fun x hx => hr x (List.mem_cons_of_mem _ hx)) (fun x hx => by
          rcases List.mem_append.1 hx with hx | hx
          · exact h x hx
          · rw [List.mem_singleton.1 hx]
            exact ⟨rfl, r, hr r List.mem_cons_self, rfl, (matchesWc_iff hn hm).1 hc⟩)
        refine ⟨l, ?_, h1, fun x hx => h2 x (List.mem_append_left _ hx), fun y hy hyc => ?_⟩
        · rw [List.foldlM_cons, hmatch, hint, decide_eq_true hc, hss]
          exact e
        · rcases List.mem_cons.1 hy with rfl | hy
          · exact ⟨(y.2, s), h2 _ (by simp), rfl⟩
          · exact h3 y hy hyc
      · obtain ⟨l, e, h1, h2, h3⟩ := ih acc (fun x hx => hr x (List.mem_cons_of_mem _ hx)) h
        refine ⟨l, ?_, h1, h2, fun y hy hyc => ?_⟩
        · rw [List.foldlM_cons, hmatch, decide_eq_false hc]
          exact e
        · rcases List.mem_cons.1 hy with rfl | hy
          · exact absurd ((matchesWc_iff hn hm).2 hyc) hc
          · exact h3 y hy hyc
  obtain ⟨l, e, h1, -, h3⟩ := gen rules [] (fun _ h => h) (fun _ h => by cases h)
  exact ⟨l, e, h1, h3⟩

/-- `o` is mapped to a set with `x`. -/
def Maps (r : List (π × List π)) (o x : π) : Prop := ∃ s, (o, s) ∈ r ∧ x ∈ s

variable [DecidableEq π]

theorem mem_foldl_setAdd (ns : List π) (s : List π) (x : π) : x ∈ ns.foldl (fun s x => Deps.setAdd x s) s ↔ x ∈ s ∨ x ∈ ns := by
  induction ns generalizing s with
  | nil => simp
  | cons y ns ih => rw [List.foldl_cons, ih, Deps.mem_setAdd, List.mem_cons]; tauto

theorem maps_addConflicts (o : π) (ns : List π) (r : List (π × List π)) (hk : (r.map (·.1)).Nodup) :
    ((addConflicts o ns r).map (·.1)).Nodup ∧ (∀ k, k ∈ (addConflicts o ns r).map (·.1) ↔ k ∈ r.map (·.1) ∨ k = o) ∧
    ∀ k x, Maps (addConflicts o ns r) k x ↔ Maps r k x ∨ (k = o ∧ x ∈ ns) := by
  induction r with
  | nil =>
    refine ⟨by simp [addConflicts], fun k => by simp [addConflicts], fun k x => ?_⟩
    simp only [addConflicts, Maps, List.mem_singleton, Prod.mk.injEq, List.not_mem_nil, false_and, exists_false, false_or]
    constructor
    · rintro ⟨s, ⟨rfl, rfl⟩, h⟩
      rw [mem_foldl_setAdd] at h
      exact ⟨rfl, by simpa using h⟩
    · rintro ⟨rfl, h⟩
      exact ⟨_, ⟨rfl, rfl⟩, by rw [mem_foldl_setAdd]; exact .inr h⟩
  | cons e r ih =>
    obtain ⟨o', s⟩ := e
    rw [List.map_cons, List.nodup_cons] at hk
    obtain ⟨i1, i2, i3⟩ := ih hk.2
    rw [addConflicts]
    split
    · rename_i ho
      subst ho
      refine ⟨by rw [List.map_cons, List.nodup_cons]; exact hk, fun k => by simp only [List.map_cons, List.mem_cons]; tauto, fun k x => ?_⟩
      simp only [Maps, List.mem_cons, Prod.mk.injEq]
      constructor
      · rintro ⟨t, ⟨rfl, rfl⟩ | h, hx⟩
        · rw [mem_foldl_setAdd] at hx
          rcases hx with hx | hx
          · exact .inl ⟨s, .inl ⟨rfl, rfl⟩, hx⟩
          · exact .inr ⟨rfl, hx⟩
        · exact .inl ⟨t, .inr h, hx⟩
      · rintro (⟨t, ⟨rfl, rfl⟩ | h, hx⟩ | ⟨rfl, hx⟩)
        · exact ⟨_, .inl ⟨rfl, rfl⟩, by rw [mem_foldl_setAdd]; exact .inl hx⟩
        · exact ⟨t, .inr h, hx⟩
        · exact ⟨_, .inl ⟨rfl, rfl⟩, by rw [mem_foldl_setAdd]; exact .inr hx⟩
    · rename_i ho
      refine ⟨?_, fun k => ?_, fun k x => ?_⟩
      · rw [List.map_cons, List.nodup_cons]
        refine ⟨fun hc => ?_, i1⟩
        rcases (i2 _).1 hc with h | h
        · exact hk.1 h
        · exact ho h.symm
      · rw [List.map_cons, List.mem_cons, i2, List.map_cons, List.mem_cons]; tauto
      · have c : ∀ r' : List (π × List π), Maps ((o', s) :: r') k x ↔ (k = o' ∧ x ∈ s) ∨ Maps r' k x := by
          intro r'
          simp only [Maps, List.mem_cons, Prod.mk.injEq]
          constructor
          · rintro ⟨t, ⟨rfl, rfl⟩ | h, hx⟩
            · exact .inl ⟨rfl, hx⟩
            · exact .inr ⟨t, h, hx⟩
          · rintro (⟨rfl, hx⟩ | ⟨t, h, hx⟩)
            · exact ⟨s, .inl ⟨rfl, rfl⟩, hx⟩
            · exact ⟨t, .inr h, hx⟩
        rw [c, c, i3]; tauto

/-- What the result maps: the pairs of rules whose matches contain what one of the shims includes. -/
theorem findConflictingPaths_spec (hn : 0 < n) (diff : List Shim) (hd : ∀ s ∈ diff, ∃ m, s.inc = some m ∧ WcValid n m) (orig new : List (Nat × π)) :
    ∃ res, findConflictingPaths n diff orig new = .ok res ∧ (res.map (·.1)).Nodup ∧
      (∀ o, o ∈ res.map (·.1) ↔ ∃ s ∈ diff, ∃ m, s.inc = some m ∧ ∃ r ∈ orig, r.2 = o ∧ ∀ p, Covers n m p → Covers n r.1 p) ∧
      ∀ o x, Maps res o x ↔ ∃ s ∈ diff, ∃ m, s.inc = some m ∧ (∃ r ∈ orig, r.2 = o ∧ ∀ p, Covers n m p → Covers n r.1 p) ∧
        ∃ r ∈ new, r.2 = x ∧ ∀ p, Covers n m p → Covers n r.1 p := by
  have inner : ∀ (s : Shim) (m : Nat), s.inc = some m → WcValid n m → ∀ (l : List (π × Shim)) (r : List (π × List π)), (r.map (·.1)).Nodup → (∀ x ∈ l, x.2 = s) →
      ∃ res, l.foldlM (fun r o => do return addConflicts o.1 ((← collectPaths n o.2 new).map (·.1)) r) r = Except.ok (ε := PyErr) res ∧ (res.map (·.1)).Nodup ∧
        (∀ o, o ∈ res.map (·.1) ↔ o ∈ r.map (·.1) ∨ ∃ y ∈ l, y.1 = o) ∧
        ∀ o x, Maps res o x ↔ Maps r o x ∨ ((∃ y ∈ l, y.1 = o) ∧ ∃ q ∈ new, q.2 = x ∧ ∀ p, Covers n m p → Covers n q.1 p) := by
    intro s m hs hm l
    induction l with
    | nil => intro r hr _; exact ⟨r, rfl, hr, fun o => by simp, fun o x => by simp⟩
    | cons y l ih =>
      intro r hr hl
      obtain ⟨nl, e, h1, h2⟩ := collectPaths_spec hn hs hm new
      obtain ⟨a1, a2, a3⟩ := maps_addConflicts y.1 (nl.map (·.1)) r hr
      obtain ⟨res, e', i1, i2, i3⟩ := ih _ a1 (fun z hz => hl z (List.mem_cons_of_mem _ hz))
      have hy : collectPaths n y.2 new = .ok nl := by rw [hl y List.mem_cons_self]; exact e
      have hnl : ∀ x, x ∈ nl.map (·.1) ↔ ∃ q ∈ new, q.2 = x ∧ ∀ p, Covers n m p → Covers n q.1 p := by
        intro x
        rw [List.mem_map]
        constructor
        · rintro ⟨z, hz, rfl⟩; exact (h1 z hz).2
        · rintro ⟨q, hq, rfl, hc⟩; exact h2 q hq hc
      refine ⟨res, ?_, i1, fun o => ?_, fun o x => ?_⟩
      · rw [List.foldlM_cons, hy]; exact e'
      · rw [i2, a2]
        simp only [List.mem_cons, exists_eq_or_imp]
        simp only [eq_comm (a := o) (b := y.1)]; tauto
      · rw [i3, a3, hnl, eq_comm (a := o)]
        generalize (∃ q ∈ new, q.2 = x ∧ ∀ p, Covers n m p → Covers n q.1 p) = Q
        simp only [List.mem_cons, exists_eq_or_imp]
        tauto
  have outer : ∀ (ds : List Shim) (r : List (π × List π)), (∀ s ∈ ds, ∃ m, s.inc = some m ∧ WcValid n m) → (r.map (·.1)).Nodup →
      ∃ res, ds.foldlM (fun r s => do
        (← collectPaths n s orig).foldlM (fun r o => do return addConflicts o.1 ((← collectPaths n o.2 new).map (·.1)) r) r) r = Except.ok (ε := PyErr) res ∧
        (res.map (·.1)).Nodup ∧
        (∀ o, o ∈ res.map (·.1) ↔ o ∈ r.map (·.1) ∨ ∃ s ∈ ds, ∃ m, s.inc = some m ∧ ∃ r ∈ orig, r.2 = o ∧ ∀ p, Covers n m p → Covers n r.1 p) ∧
        ∀ o x, Maps res o x ↔ Maps r o x ∨ ∃ s ∈ ds, ∃ m, s.inc = some m ∧ (∃ r ∈ orig, r.2 = o ∧ ∀ p, Covers n m p → Covers n r.1 p) ∧
          ∃ r ∈ new, r.2 = x ∧ ∀ p, Covers n m p → Covers n r.1 p := by
    intro ds
    induction ds with
    | nil => intro r _ hr; exact ⟨r, rfl, hr, fun o => by simp, fun o x => by simp⟩
    | cons s ds ih =>
      intro r hd hr
      obtain ⟨m, hs, hm⟩ := hd s List.mem_cons_self
      obtain ⟨l, e, h1, h2⟩ := collectPaths_spec hn hs hm orig
      obtain ⟨r', e', i1, i2, i3⟩ := inner s m hs hm l r hr (fun x hx => (h1 x hx).1)
      obtain ⟨res, e'', j1, j2, j3⟩ := ih r' (fun s hs => hd s (List.mem_cons_of_mem _ hs)) i1
      have hl : ∀ o, (∃ y ∈ l, y.1 = o) ↔ ∃ r ∈ orig, r.2 = o ∧ ∀ p, Covers n m p → Covers n r.1 p := by
        intro o
        constructor
        · rintro ⟨y, hy, rfl⟩; exact (h1 y hy).2
        · rintro ⟨q, hq, rfl, hc⟩; exact h2 q hq hc
      have hone : ∀ P : Nat → Prop, (∃ m', s.inc = some m' ∧ P m') ↔ P m := by
        intro P; rw [hs]; simp
      refine ⟨res, ?_, j1, fun o => ?_, fun o x => ?_⟩
      · rw [List.foldlM_cons, e]
        change (l.foldlM _ r >>= _) = _
        rw [e']; exact e''
      · rw [j2, i2, hl]
        simp only [List.mem_cons, exists_eq_or_imp]
        rw [hone, or_assoc]
      · rw [j3, i3, hl]
        simp only [List.mem_cons, exists_eq_or_imp]
        rw [hone, or_assoc]
  obtain ⟨res, e, h1, h2, h3⟩ := outer diff [] hd List.nodup_nil
  exact ⟨res, e, h1, fun o => by rw [h2]; simp, fun o x => by rw [h3]; simp [Maps]⟩

end Shim
end OFE
