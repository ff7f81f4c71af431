import Verif.Shim.MergeLemmas
import Verif.Deps.Dag
import Mathlib.Data.List.Perm.Subperm

/-! # What normalised rules stand for -/

namespace OFE
namespace Shim

variable {n : Nat} {α : Type}

theorem first_snoc {β : Type} {C : β → Prop} {l : List (β × α)} {x : β × α} {a : α} :
    First C (l ++ [x]) a ↔ First C l a ∨ (C x.1 ∧ x.2 = a ∧ ∀ y ∈ l, ¬ C y.1) := by
  constructor
  · rintro ⟨b, y, aft, e, h1, h2, h3⟩
    rcases List.eq_nil_or_concat aft with rfl | ⟨aft', z, rfl⟩
    · obtain ⟨rfl, e2⟩ := List.append_inj' (show l ++ [x] = b ++ [y] from e) rfl
      cases e2
      exact .inr ⟨h1, h2, h3⟩
    · have e' : l ++ [x] = (b ++ y :: aft') ++ [z] := by rw [e]; simp
      exact .inl ⟨b, y, aft', (List.append_inj' e' rfl).1, h1, h2, h3⟩
  · rintro (⟨b, y, aft, rfl, h⟩ | ⟨h1, h2, h3⟩)
    · exact ⟨b, y, aft ++ [x], by simp, h⟩
    · exact ⟨l, x, [], rfl, h1, h2, h3⟩

theorem first_exists {β : Type} {C : β → Prop} {l : List (β × α)} : (∃ a, First C l a) ↔ ∃ x ∈ l, C x.1 := by
  constructor
  · rintro ⟨a, b, x, aft, rfl, h, -⟩
    exact ⟨x, by simp, h⟩
  · intro h
    obtain ⟨l1, x, l2, e, h1, h2⟩ := exists_first (P := fun x : β × α => C x.1) h
    exact ⟨x.2, l1, x, l2, e, h1, rfl, h2⟩

theorem first_unique {β : Type} {C : β → Prop} {l : List (β × α)} {a b : α} (h : First C l a) (h' : First C l b) : a = b := by
  obtain ⟨l1, x, l2, e, h1, rfl, h2⟩ := h
  obtain ⟨m1, y, m2, e', h1', rfl, h2'⟩ := h'
  rw [e] at e'
  rcases List.append_eq_append_iff.1 e' with ⟨c, e1, e2⟩ | ⟨c, e1, e2⟩
  · cases c with
    | nil => simp only [List.nil_append, List.cons.injEq] at e2; rw [e2.1]
    | cons z c =>
      simp only [List.cons_append, List.cons.injEq] at e2
      exact absurd h1 (h2' x (by rw [e1, ← e2.1]; simp))
  · cases c with
    | nil => simp only [List.nil_append, List.cons.injEq] at e2; rw [e2.1]
    | cons z c =>
      simp only [List.cons_append, List.cons.injEq] at e2
      exact absurd h1' (h2 y (by rw [e1, ← e2.1]; simp))

theorem shimMap_spec {ord : List Nat → List Nat} (hn : 0 < n) (rules : List (Nat × α)) (hv : ∀ r ∈ rules, WcValid n r.1) :
    ∃ M, shimMap n ord rules = .ok M ∧ (∀ x ∈ M, ∃ r ∈ rules, Can n x.1 [(r.1, true)]) ∧ ∀ p a, First (fun s : Shim => s.Has n p) M a ↔ Picks n rules p a := by
  have has_iff : ∀ (s : Shim) (w : Nat), Can n s [(w, true)] → ∀ p, s.Has n p ↔ Covers n w p := by
    intro s w h p
    rw [h.has p]
    simp [Pos]
  have gen : ∀ (l done : List (Nat × α)) (M : List (Shim × α)), (∀ r ∈ l, WcValid n r.1) → (∀ x ∈ M, ∃ r ∈ done, Can n x.1 [(r.1, true)]) →
      (∀ p a, First (fun s : Shim => s.Has n p) M a ↔ Picks n done p a) →
      ∃ M', l.foldlM (fun d r => do return setNew (← ofWc n ord r.1) r.2 d) M = .ok M' ∧ (∀ x ∈ M', ∃ r ∈ done ++ l, Can n x.1 [(r.1, true)]) ∧
        ∀ p a, First (fun s : Shim => s.Has n p) M' a ↔ Picks n (done ++ l) p a := by
    intro l
    induction l with
    | nil => intro done M _ h1 h2; exact ⟨M, rfl, by rwa [List.append_nil], by rwa [List.append_nil]⟩
    | cons r l ih =>
      intro done M hl h1 h2
      obtain ⟨s, e, hs⟩ := ofWc_can (ord := ord) hn (hl r List.mem_cons_self)
      have hmatch : ∀ p, (∃ x ∈ M, x.1.Has n p) ↔ ∃ x ∈ done, Covers n x.1 p := by
        intro p
        have e1 := first_exists (C := fun s : Shim => s.Has n p) (l := M)
        have e2 := first_exists (C := fun w => Covers n w p) (l := done)
        rw [← e1, ← e2]
        exact exists_congr fun a => h2 p a
      obtain ⟨M', e', k1, k2⟩ := ih (done ++ [r]) (setNew s r.2 M) (fun x hx => hl x (List.mem_cons_of_mem _ hx)) (by
          intro x hx
          unfold setNew at hx
          split at hx
          · obtain ⟨r', hr', hc⟩ := h1 x hx
            exact ⟨r', by simp [hr'], hc⟩
          · rcases set_keys s r.2 M x hx with hk | ⟨y, hy, hk⟩
            · exact ⟨r, by simp, by rw [hk]; exact hs⟩
            · obtain ⟨r', hr', hc⟩ := h1 y hy
              exact ⟨r', by simp [hr'], by rw [← hk]; exact hc⟩) (by
          intro p a
          unfold setNew
          split
          · rename_i hg
            obtain ⟨v, hv'⟩ := Option.isSome_iff_exists.1 hg
            obtain ⟨x, hx, he, -⟩ := get_some hv'
            rw [h2]
            unfold Picks
            rw [first_snoc]
            constructor
            · exact .inl
            · rintro (h | ⟨h3, -, h4⟩)
              · exact h
              · exfalso
                obtain ⟨y, hy, hc⟩ := (hmatch p).1 ⟨x, hx, (has_congr he p).1 ((has_iff s r.1 hs p).2 h3)⟩
                exact h4 y hy hc
          · rename_i hns
            have happ : ∀ d : List (Shim × α), ¬ (get s d).isSome = true → set s r.2 d = d ++ [(s, r.2)] := by
              intro d
              induction d with
              | nil => intro _; rfl
              | cons y d ih' =>
                intro h
                rw [get_cons] at h
                split at h
                · exact absurd rfl h
                · rename_i hy
                  rw [set, if_neg hy, ih' h]; rfl
            rw [happ M hns]
            unfold Picks
            rw [first_snoc, first_snoc, h2, has_iff s r.1 hs p]
            unfold Picks
            have : (∀ y ∈ M, ¬ y.1.Has n p) ↔ ∀ y ∈ done, ¬ Covers n y.1 p := by
              have := not_congr (hmatch p)
              push Not at this
              exact this
            rw [this])
      refine ⟨M', ?_, by simpa using k1, by simpa using k2⟩
      rw [List.foldlM_cons, e]
      exact e'
  obtain ⟨M, e, h1, h2⟩ := gen rules [] [] hv (fun _ h => by cases h) (by
    intro p a
    constructor
    · rintro ⟨b, x, aft, h, -⟩; simp at h
    · rintro ⟨b, x, aft, h, -⟩; simp at h)
  exact ⟨M, e, by simpa using h1, by simpa using h2⟩

/-- A dict of shims stands for the rules: a packet lies in a key exactly if it is matched, and all keys in which it lies have the action of the first match. -/
structure Represents (n : Nat) (rules : List (Nat × α)) (D : List (Shim × α)) : Prop where
  kn : KN D
  can : ∀ x ∈ D, ∃ A, Can n x.1 A
  complete : ∀ p a, Picks n rules p a → ∃ x ∈ D, x.1.Has n p
  sound : ∀ x ∈ D, ∀ p, x.1.Has n p → Picks n rules p x.2

theorem mem_fields (rules : List (Nat × α)) : (rules.foldl (fun s x => Deps.setAdd x.1 s) []).Nodup ∧
    ∀ w, w ∈ rules.foldl (fun s x => Deps.setAdd x.1 s) [] ↔ ∃ r ∈ rules, r.1 = w := by
  have gen : ∀ (l : List (Nat × α)) (s : List Nat), s.Nodup → (l.foldl (fun s x => Deps.setAdd x.1 s) s).Nodup ∧
      ∀ w, w ∈ l.foldl (fun s x => Deps.setAdd x.1 s) s ↔ w ∈ s ∨ ∃ r ∈ l, r.1 = w := by
    intro l
    induction l with
    | nil => intro s hs; exact ⟨hs, fun w => by simp⟩
    | cons x l ih =>
      intro s hs
      obtain ⟨h1, h2⟩ := ih (Deps.setAdd x.1 s) (Deps.nodup_setAdd hs)
      refine ⟨h1, fun w => ?_⟩
      rw [List.foldl_cons, h2 w, Deps.mem_setAdd]
      simp only [List.mem_cons, exists_eq_or_imp]
      tauto
  obtain ⟨h1, h2⟩ := gen rules [] List.nodup_nil
  exact ⟨h1, fun w => by rw [h2]; simp⟩

theorem zero_mono {A B : List (Nat × Bool)} {s s' : Shim} (h : Can n s A) (h' : Can n s' (A ++ B)) (hz : s.zero = true) : s'.zero = true := by
  rw [h'.zero_iff]
  have hp : ∀ p, Pos n (A ++ B) p → Pos n A p := fun p h w hw => h w (List.mem_append_left _ hw)
  rcases h.zero_iff.1 hz with ⟨e, he, hc⟩ | hno
  · exact .inl ⟨e, List.mem_append_left _ he, fun p h => hc p (hp p h)⟩
  · exact .inr fun ⟨p, h⟩ => hno ⟨p, hp p h⟩

open Classical in
/-- The first phase. -/
theorem normalise_spec {ord : List Nat → List Nat} (hn : 0 < n) (hord : ∀ l, (ord l).Perm l) (rules : List (Nat × α)) (hv : ∀ r ∈ rules, WcValid n r.1) :
    ∃ D F, normalise n ord rules = .ok (D, F) ∧ Represents n rules D ∧ F.Nodup ∧ (∀ w, w ∈ F ↔ ∃ r ∈ rules, r.1 = w) ∧
      (rules ≠ [] → ∃ x ∈ D, x.1.zero = true) := by
  obtain ⟨M, eM, hM, hfirst⟩ := shimMap_spec (ord := ord) hn rules hv
  obtain ⟨fn, fm⟩ := mem_fields rules
  generalize hF : rules.foldl (fun s x => Deps.setAdd x.1 s) [] = F at fn fm
  let H : Shim → List (Nat × Bool) := fun s => if h : ∃ w ∈ F, Can n s [(w, true)] then [(h.choose, true)] else []
  have hH : ∀ r ∈ M, ∃ w ∈ F, H r.1 = [(w, true)] ∧ Can n r.1 [(w, true)] := by
    intro r hr
    obtain ⟨r0, hr0, hc⟩ := hM r hr
    have h : ∃ w ∈ F, Can n r.1 [(w, true)] := ⟨r0.1, (fm _).2 ⟨r0, hr0, rfl⟩, hc⟩
    exact ⟨h.choose, h.choose_spec.1, by simp only [H, dif_pos h], h.choose_spec.2⟩
  have hFv : ∀ f ∈ ord F, WcValid n f := by
    intro f hf
    obtain ⟨r, hr, rfl⟩ := (fm f).1 ((hord _).mem_iff.1 hf)
    exact hv r hr
  have hFn : (ord F).Nodup := (hord F).nodup_iff.2 fn
  obtain ⟨D, eD, kD, gD⟩ := mergeRules_spec hn hord H hFn hFv M (fun r hr => by
    obtain ⟨w, -, h1, h2⟩ := hH r hr; rw [h1]; exact h2)
  have exists_key : ∀ r ∈ M, ∀ σ, ∃ x ∈ D, Can n x.1 (H r.1 ++ signs (ord F) σ) := by
    intro r hr σ
    obtain ⟨w, -, h1, h2⟩ := hH r hr
    obtain ⟨k, hk⟩ := exists_can hn σ (ord F) h2 hFv
    rw [← h1] at hk
    obtain ⟨l1, y, l2, e', hy, h3⟩ := exists_first (P := fun r : Shim × α => ∃ σ, Can n k (H r.1 ++ signs (ord F) σ)) ⟨r, hr, σ, hk⟩
    obtain ⟨x, hx, he, -⟩ := get_some ((gD k y.2).2 ⟨l1, y, l2, e', rfl, hy, h3⟩)
    exact ⟨x, hx, hk.of_eqv he⟩
  refine ⟨D, F, ?_, ⟨kD, ?_, ?_, ?_⟩, fn, fm, ?_⟩
  · unfold normalise
    rw [hF, eM]
    simp only [bind, Except.bind]
    rw [eD]; rfl
  · intro x hx
    obtain ⟨l1, r, l2, -, -, ⟨σ, hσ⟩, -⟩ := (gD x.1 x.2).1 (get_of_mem kD hx)
    exact ⟨_, hσ⟩
  · intro p a hp
    obtain ⟨b, r, aft, e, h1, -⟩ := (hfirst p a).2 hp
    have hr : r ∈ M := by rw [e]; simp
    obtain ⟨w, hw, hHr, hcr⟩ := hH r hr
    have hwp : Covers n w p := (hcr.has p).1 h1 |>.1 w (by simp)
    obtain ⟨x, hx, hc⟩ := exists_key r hr (fun f => decide (Covers n f p))
    refine ⟨x, hx, (hc.has p).2 ⟨fun w' hw' => ?_, fun e' he' => ?_⟩⟩
    · rw [hHr] at hw'
      rcases List.mem_append.1 hw' with h | h
      · simp at h; rw [h]; exact hwp
      · exact of_decide_eq_true (mem_signs.1 h).2.symm
    · rw [hHr] at he'
      rcases List.mem_append.1 he' with h | h
      · simp at h
      · exact of_decide_eq_false (mem_signs.1 h).2.symm
  · intro x hx p hp
    obtain ⟨l1, r, l2, e, hval, ⟨σ, hσ⟩, hmin⟩ := (gD x.1 x.2).1 (get_of_mem kD hx)
    rw [← hfirst p x.2]
    have hr : r ∈ M := by rw [e]; simp
    obtain ⟨w, hw, hHr, hcr⟩ := hH r hr
    obtain ⟨p1, p2⟩ := (hσ.has p).1 hp
    have hwp : Covers n w p := p1 w (by rw [hHr]; simp)
    have hsig : ∀ f ∈ F, Covers n f p → σ f = true := by
      intro f hf hc
      by_contra hne
      rw [Bool.not_eq_true] at hne
      exact p2 f (List.mem_append_right _ (mem_signs.2 ⟨(hord _).mem_iff.2 hf, hne.symm⟩)) hc
    refine ⟨l1, r, l2, e, (hcr.has p).2 ⟨fun w' hw' => ?_, fun e' he' => (by simp at he')⟩, hval.symm, fun y hy hyp => hmin y hy ⟨σ, ?_⟩⟩
    · simp at hw'; rw [hw']; exact hwp
    · have hyM : y ∈ M := by rw [e]; simp [hy]
      obtain ⟨w', hw', hHy, hcy⟩ := hH y hyM
      have hwp' : Covers n w' p := (hcy.has p).1 hyp |>.1 w' (by simp)
      refine hσ.congr fun z => ?_
      have inS : ∀ v, v ∈ F → Covers n v p → (v, true) ∈ signs (ord F) σ := fun v hv' hc =>
        mem_signs.2 ⟨(hord _).mem_iff.2 hv', (hsig v hv' hc).symm⟩
      rw [hHr, hHy, List.mem_append, List.mem_append, List.mem_singleton, List.mem_singleton]
      constructor
      · rintro (rfl | h)
        · exact .inr (inS w hw hwp)
        · exact .inr h
      · rintro (rfl | h)
        · exact .inr (inS w' hw' hwp')
        · exact .inr h
  · intro hne
    obtain ⟨r0, hr0⟩ := List.exists_mem_of_ne_nil rules hne
    obtain ⟨p, hp⟩ := exists_covers (hv r0 hr0).noZ
    obtain ⟨a, ha⟩ := (first_exists (C := fun w => Covers n w p)).2 ⟨r0, hr0, hp⟩
    obtain ⟨b, r, aft, e, -⟩ := (hfirst p a).2 ha
    have hr : r ∈ M := by rw [e]; simp
    obtain ⟨w, hw, hHr, hcr⟩ := hH r hr
    obtain ⟨x, hx, hc⟩ := exists_key r hr (fun _ => false)
    refine ⟨x, hx, hc.zero_iff.2 (.inl ⟨w, List.mem_append_right _ (mem_signs.2 ⟨(hord _).mem_iff.2 hw, rfl⟩), fun p hp => hp w ?_⟩)⟩
    rw [hHr]; simp

open Classical in
/-- Merging with more fields. -/
theorem merge_represents {ord : List Nat → List Nat} (hn : 0 < n) (hord : ∀ l, (ord l).Perm l) {rules : List (Nat × α)} {D : List (Shim × α)}
    (hD : Represents n rules D) {fs : List Nat} (hfs : fs.Nodup) (hv : ∀ f ∈ fs, WcValid n f) :
    ∃ D', mergeRules n ord D fs = .ok D' ∧ Represents n rules D' ∧ ((∃ x ∈ D, x.1.zero = true) → ∃ x ∈ D', x.1.zero = true) := by
  let H : Shim → List (Nat × Bool) := fun s => if h : ∃ A, Can n s A then h.choose else []
  have hH : ∀ r ∈ D, Can n r.1 (H r.1) := by
    intro r hr
    have h := hD.can r hr
    simp only [H, dif_pos h]
    exact h.choose_spec
  obtain ⟨D', eD, kD, gD⟩ := mergeRules_spec hn hord H hfs hv D hH
  have exists_key : ∀ r ∈ D, ∀ σ, ∃ x ∈ D', Can n x.1 (H r.1 ++ signs fs σ) := by
    intro r hr σ
    obtain ⟨k, hk⟩ := exists_can hn σ fs (hH r hr) hv
    obtain ⟨l1, y, l2, e', hy, h3⟩ := exists_first (P := fun r : Shim × α => ∃ σ, Can n k (H r.1 ++ signs fs σ)) ⟨r, hr, σ, hk⟩
    obtain ⟨x, hx, he, -⟩ := get_some ((gD k y.2).2 ⟨l1, y, l2, e', rfl, hy, h3⟩)
    exact ⟨x, hx, hk.of_eqv he⟩
  refine ⟨D', eD, ⟨kD, ?_, ?_, ?_⟩, ?_⟩
  · intro x hx
    obtain ⟨l1, r, l2, -, -, ⟨σ, hσ⟩, -⟩ := (gD x.1 x.2).1 (get_of_mem kD hx)
    exact ⟨_, hσ⟩
  · intro p a hp
    obtain ⟨r, hr, hrp⟩ := hD.complete p a hp
    obtain ⟨x, hx, hc⟩ := exists_key r hr (fun f => decide (Covers n f p))
    obtain ⟨q1, q2⟩ := ((hH r hr).has p).1 hrp
    refine ⟨x, hx, (hc.has p).2 ⟨fun w' hw' => ?_, fun e' he' => ?_⟩⟩
    · rcases List.mem_append.1 hw' with h | h
      · exact q1 w' h
      · exact of_decide_eq_true (mem_signs.1 h).2.symm
    · rcases List.mem_append.1 he' with h | h
      · exact q2 e' h
      · exact of_decide_eq_false (mem_signs.1 h).2.symm
  · intro x hx p hp
    obtain ⟨l1, r, l2, e, hval, ⟨σ, hσ⟩, -⟩ := (gD x.1 x.2).1 (get_of_mem kD hx)
    have hr : r ∈ D := by rw [e]; simp
    obtain ⟨p1, p2⟩ := (hσ.has p).1 hp
    rw [hval]
    exact hD.sound r hr p (((hH r hr).has p).2 ⟨fun w hw => p1 w (List.mem_append_left _ hw), fun e' he' => p2 e' (List.mem_append_left _ he')⟩)
  · rintro ⟨r, hr, hz⟩
    obtain ⟨x, hx, hc⟩ := exists_key r hr (fun _ => true)
    exact ⟨x, hx, zero_mono (hH r hr) hc hz⟩

theorem del_represents {rules : List (Nat × α)} {D : List (Shim × α)} (hD : Represents n rules D) (hz : ∃ x ∈ D, x.1.zero = true) :
    ∃ D', del nothing D = .ok D' ∧ Represents n rules D' := by
  obtain ⟨x, hx, hxz⟩ := hz
  have he : eqv nothing x.1 = true := by rw [eqv_iff]; exact .inl ⟨rfl, hxz⟩
  have hs : (get nothing D).isSome = true := by rw [get_congr he, get_of_mem hD.kn hx]; rfl
  refine ⟨_, by rw [del, if_pos hs], hD.kn.filter _, fun y hy => hD.can y (List.mem_filter.1 hy).1, fun p a hp => ?_,
    fun y hy => hD.sound y (List.mem_filter.1 hy).1⟩
  obtain ⟨y, hy, hyp⟩ := hD.complete p a hp
  refine ⟨y, List.mem_filter.2 ⟨hy, ?_⟩, hyp⟩
  rw [Bool.not_eq_true']
  cases hc : eqv nothing y.1 with
  | false => rfl
  | true =>
    rcases eqv_iff.1 hc with ⟨-, h⟩ | ⟨h, -⟩
    · rw [hyp.1] at h; cases h
    · cases h

theorem mergeBoth_spec {ord : List Nat → List Nat} (hn : 0 < n) (hord : ∀ l, (ord l).Perm l) (r1 r2 : List (Nat × α)) (h1 : ∀ r ∈ r1, WcValid n r.1)
    (h2 : ∀ r ∈ r2, WcValid n r.1) (e1 : r1 ≠ []) (e2 : r2 ≠ []) :
    ∃ n1 n2 w1 w2, normalise n ord r1 = .ok n1 ∧ normalise n ord r2 = .ok n2 ∧ mergeBoth n ord n1 n2 = .ok (w1, w2) ∧ Represents n r1 w1 ∧ Represents n r2 w2 := by
  obtain ⟨D1, F1, n1, R1, N1, M1, Z1⟩ := normalise_spec hn hord r1 h1
  obtain ⟨D2, F2, n2, R2, N2, M2, Z2⟩ := normalise_spec hn hord r2 h2
  have val : ∀ f, f ∈ F1 ∨ f ∈ F2 → WcValid n f := by
    rintro f (hf | hf)
    · obtain ⟨r, hr, rfl⟩ := (M1 f).1 hf; exact h1 r hr
    · obtain ⟨r, hr, rfl⟩ := (M2 f).1 hf; exact h2 r hr
  obtain ⟨W1, m1, S1, Y1⟩ := merge_represents (ord := ord) hn hord R1 (fs := ord (F2.filter fun x => !F1.contains x)) ((hord _).nodup_iff.2 (N2.filter _))
    (fun f hf => val f (.inr (List.mem_filter.1 ((hord _).mem_iff.1 hf)).1))
  obtain ⟨W2, m2, S2, Y2⟩ := merge_represents (ord := ord) hn hord R2 (fs := ord (F1.filter fun x => !F2.contains x)) ((hord _).nodup_iff.2 (N1.filter _))
    (fun f hf => val f (.inl (List.mem_filter.1 ((hord _).mem_iff.1 hf)).1))
  obtain ⟨V1, d1, T1⟩ := del_represents S1 (Y1 (Z1 e1))
  obtain ⟨V2, d2, T2⟩ := del_represents S2 (Y2 (Z2 e2))
  refine ⟨_, _, V1, V2, n1, n2, ?_, T1, T2⟩
  unfold mergeBoth
  simp only
  rw [m1, m2]
  simp only [bind, Except.bind]
  rw [d1, d2]
  rfl

/-- Equal dicts have the same keys, in both directions. -/
theorem dictEqv_spec [DecidableEq α] {d1 d2 : List (Shim × α)} (k1 : KN d1) (h : dictEqv d1 d2 = true) :
    (∀ x ∈ d1, ∃ y ∈ d2, eqv x.1 y.1 = true ∧ y.2 = x.2) ∧ ∀ y ∈ d2, ∃ x ∈ d1, eqv x.1 y.1 = true ∧ y.2 = x.2 := by
  simp only [dictEqv, Bool.and_eq_true, beq_iff_eq, List.all_eq_true, decide_eq_true_eq] at h
  obtain ⟨hl, hg⟩ := h
  have fw : ∀ x ∈ d1, ∃ y ∈ d2, eqv x.1 y.1 = true ∧ y.2 = x.2 := fun x hx => get_some (hg x hx)
  refine ⟨fw, ?_⟩
  -- the image of the first dict
  have img : ∀ (l : List (Shim × α)), KN l → (∀ x ∈ l, x ∈ d1) → ∃ L : List (Shim × α), L.length = l.length ∧ L.Nodup ∧ (∀ y ∈ L, y ∈ d2) ∧
      ∀ y ∈ L, ∃ x ∈ l, eqv x.1 y.1 = true ∧ y.2 = x.2 := by
    intro l
    induction l with
    | nil => intro _ _; exact ⟨[], rfl, List.nodup_nil, fun _ h => (by cases h), fun _ h => (by cases h)⟩
    | cons x l ih =>
      intro hk hm
      obtain ⟨hx, hk'⟩ := List.pairwise_cons.1 hk
      obtain ⟨L, l1, l2, l3, l4⟩ := ih hk' (fun y hy => hm y (List.mem_cons_of_mem _ hy))
      obtain ⟨y, hy, he, hv⟩ := fw x (hm x List.mem_cons_self)
      refine ⟨y :: L, by simp [l1], List.nodup_cons.2 ⟨fun hyL => ?_, l2⟩, fun z hz => ?_, fun z hz => ?_⟩
      · obtain ⟨x', hx', he', -⟩ := l4 y hyL
        exact hx x' hx' (eqv_trans he (eqv_symm he'))
      · rcases List.mem_cons.1 hz with rfl | hz
        · exact hy
        · exact l3 z hz
      · rcases List.mem_cons.1 hz with rfl | hz
        · exact ⟨x, List.mem_cons_self, he, hv⟩
        · obtain ⟨x', hx', h'⟩ := l4 z hz
          exact ⟨x', List.mem_cons_of_mem _ hx', h'⟩
  obtain ⟨L, l1, l2, l3, l4⟩ := img d1 k1 (fun _ h => h)
  have hperm : L.Perm d2 := (List.subperm_of_subset l2 (fun x hx => l3 x hx)).perm_of_length_le (by rw [l1, hl])
  exact fun y hy => l4 y (hperm.mem_iff.2 hy)

end Shim
end OFE
