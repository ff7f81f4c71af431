import Verif.Shim.Lemmas

/-! # Merging rules, dicts keyed by shims -/

namespace OFE
namespace Shim

variable {n : Nat} {α : Type}

/-! ## Dicts -/

/-- Keys are distinct. -/
def KN (d : List (Shim × α)) : Prop := d.Pairwise fun a b => ¬ eqv a.1 b.1 = true

theorem eqv_congr {a b c : Shim} (h : eqv a b = true) : eqv a c = eqv b c := by
  rw [Bool.eq_iff_iff]
  exact ⟨fun h' => eqv_trans (eqv_symm h) h', fun h' => eqv_trans h h'⟩

theorem get_cons (k : Shim) (x : Shim × α) (d : List (Shim × α)) : get k (x :: d) = if eqv k x.1 then some x.2 else get k d := by
  unfold get
  rw [List.find?_cons]
  cases eqv k x.1 <;> rfl

theorem get_congr {k k' : Shim} (h : eqv k k' = true) (d : List (Shim × α)) : get k d = get k' d := by
  induction d with
  | nil => rfl
  | cons x d ih => rw [get_cons, get_cons, eqv_congr h, ih]

theorem get_some {k : Shim} {v : α} {d : List (Shim × α)} (h : get k d = some v) : ∃ x ∈ d, eqv k x.1 = true ∧ x.2 = v := by
  induction d with
  | nil => cases h
  | cons x d ih =>
    rw [get_cons] at h
    split at h
    · rename_i hk; cases h; exact ⟨x, List.mem_cons_self, hk, rfl⟩
    · obtain ⟨y, hy, h1⟩ := ih h
      exact ⟨y, List.mem_cons_of_mem _ hy, h1⟩

theorem get_none {k : Shim} {d : List (Shim × α)} : get k d = none ↔ ∀ x ∈ d, ¬ eqv k x.1 = true := by
  induction d with
  | nil => exact ⟨fun _ _ h => (by cases h), fun _ => rfl⟩
  | cons x d ih =>
    rw [get_cons, List.forall_mem_cons, ← ih]
    by_cases h : eqv k x.1 = true
    · simp [h]
    · simp [h]

theorem get_of_mem {d : List (Shim × α)} (hd : KN d) {x : Shim × α} (hx : x ∈ d) : get x.1 d = some x.2 := by
  induction d with
  | nil => cases hx
  | cons y d ih =>
    obtain ⟨h1, h2⟩ := List.pairwise_cons.1 hd
    rw [get_cons]
    rcases List.mem_cons.1 hx with rfl | hx
    · rw [if_pos (eqv_refl _)]
    · rw [if_neg (fun h => h1 x hx (eqv_symm h)), ih h2 hx]

theorem set_keys (k : Shim) (v : α) : ∀ (d : List (Shim × α)), ∀ y ∈ set k v d, y.1 = k ∨ ∃ x ∈ d, x.1 = y.1
  | [], y, hy => by rw [set, List.mem_singleton] at hy; exact .inl (by rw [hy])
  | (k', v') :: d, y, hy => by
    rw [set] at hy
    split at hy
    · rcases List.mem_cons.1 hy with rfl | hy
      · exact .inr ⟨_, List.mem_cons_self, rfl⟩
      · exact .inr ⟨y, List.mem_cons_of_mem _ hy, rfl⟩
    · rcases List.mem_cons.1 hy with rfl | hy
      · exact .inr ⟨_, List.mem_cons_self, rfl⟩
      · rcases set_keys k v d y hy with h | ⟨x, hx, h⟩
        · exact .inl h
        · exact .inr ⟨x, List.mem_cons_of_mem _ hx, h⟩

theorem kn_set (k : Shim) (v : α) : ∀ {d : List (Shim × α)}, KN d → KN (set k v d)
  | [], _ => List.pairwise_singleton _ _
  | (k', v') :: d, h => by
    obtain ⟨h1, h2⟩ := List.pairwise_cons.1 h
    rw [set]
    split
    · exact List.pairwise_cons.2 ⟨h1, h2⟩
    · rename_i hk
      refine List.pairwise_cons.2 ⟨fun y hy he => ?_, kn_set k v h2⟩
      rcases set_keys k v d y hy with h' | ⟨x, hx, h'⟩
      · rw [h'] at he; exact hk (eqv_symm he)
      · rw [← h'] at he; exact h1 x hx he

theorem get_set (k : Shim) (v : α) (k' : Shim) : ∀ (d : List (Shim × α)), get k' (set k v d) = if eqv k' k then some v else get k' d
  | [] => by rw [set, get_cons]
  | (k1, v1) :: d => by
    rw [set]
    by_cases h1 : eqv k k1 = true
    · rw [if_pos h1, get_cons, get_cons]
      by_cases h2 : eqv k' k = true
      · rw [if_pos h2, if_pos (eqv_trans h2 h1)]
      · have : ¬ eqv k' k1 = true := fun h => h2 (eqv_trans h (eqv_symm h1))
        rw [if_neg h2, if_neg this, if_neg this]
    · rw [if_neg h1, get_cons, get_cons, get_set k v k' d]
      by_cases h2 : eqv k' k = true
      · have : ¬ eqv k' k1 = true := fun h => h1 (eqv_trans (eqv_symm h2) h)
        simp only [if_pos h2, if_neg this]
      · simp only [if_neg h2]

theorem kn_setNew (k : Shim) (v : α) {d : List (Shim × α)} (h : KN d) : KN (setNew k v d) := by
  unfold setNew
  split
  · exact h
  · exact kn_set k v h

theorem get_setNew (k : Shim) (v : α) (k' : Shim) (d : List (Shim × α)) :
    get k' (setNew k v d) = match get k' d with | some v' => some v' | none => if eqv k' k then some v else none := by
  unfold setNew
  by_cases h : (get k d).isSome = true
  · rw [if_pos h]
    cases h' : get k' d with
    | some v' => rfl
    | none =>
      have : ¬ eqv k' k = true := by
        intro he
        rw [← get_congr he, h'] at h
        cases h
      simp [this]
  · rw [if_neg h, get_set]
    have hn : get k d = none := by
      cases h' : get k d with
      | none => rfl
      | some v' => rw [h'] at h; exact absurd rfl h
    by_cases he : eqv k' k = true
    · rw [if_pos he, get_congr he, hn]; simp [he]
    · rw [if_neg he]
      cases get k' d <;> simp [he]

theorem update_spec : ∀ (res group : List (Shim × α)), KN group → KN (res.foldl (fun z x => set x.1 x.2 z) group) ∧
    (KN res → ∀ k, get k (res.foldl (fun z x => set x.1 x.2 z) group) = match get k res with | some v => some v | none => get k group)
  | [], group, h => ⟨h, fun _ _ => rfl⟩
  | x :: res, group, h => by
    obtain ⟨h1, h2⟩ := update_spec res (set x.1 x.2 group) (kn_set _ _ h)
    refine ⟨h1, fun hk k => ?_⟩
    obtain ⟨k1, k2⟩ := List.pairwise_cons.1 hk
    rw [List.foldl_cons, h2 k2 k, get_cons, get_set]
    by_cases he : eqv k x.1 = true
    · have : get k res = none := get_none.2 fun y hy hc => k1 y hy (eqv_trans (eqv_symm he) hc)
      rw [this, if_pos he]
      simp [he]
    · rw [if_neg he]
      cases get k res <;> simp [he]

theorem Can.of_eqv {s s' : Shim} {A : List (Nat × Bool)} (h : Can n s A) (he : Shim.eqv s s' = true) : Can n s' A := by
  rw [eqv_iff] at he
  rcases he with ⟨h1, h2⟩ | ⟨h1, h2, h3, h4⟩
  · exact ⟨by have := h.zero_iff; rw [h1] at this; rw [h2]; exact this, fun hc => (by rw [h2] at hc; cases hc), fun hc => (by rw [h2] at hc; cases hc)⟩
  · exact ⟨by have := h.zero_iff; rw [h1] at this; rw [h2]; exact this, fun _ => (by rw [← h3]; exact h.inc h1), fun _ e => (by rw [← h4]; exact h.exc h1 e)⟩

/-! ## Groups of one rule -/

/-- A history of fields with chosen signs. -/
def signs (fs : List Nat) (σ : Nat → Bool) : List (Nat × Bool) := fs.map fun f => (f, σ f)

theorem mem_signs {fs : List Nat} {σ : Nat → Bool} {w : Nat} {b : Bool} : (w, b) ∈ signs fs σ ↔ w ∈ fs ∧ b = σ w := by
  unfold signs
  rw [List.mem_map]
  constructor
  · rintro ⟨f, hf, he⟩; cases he; exact ⟨hf, rfl⟩
  · rintro ⟨h1, rfl⟩; exact ⟨w, h1, rfl⟩

/-- The keys of a group are the shims for all choices of signs. -/
structure GroupOK (n : Nat) (G : List (Shim × α)) (v : α) (A : List (Nat × Bool)) (fs : List Nat) : Prop where
  kn : KN G
  val : ∀ x ∈ G, x.2 = v
  sound : ∀ x ∈ G, ∃ σ, Can n x.1 (A ++ signs fs σ)
  complete : ∀ σ, ∃ x ∈ G, Can n x.1 (A ++ signs fs σ)

theorem GroupOK.get {G : List (Shim × α)} {v : α} {A : List (Nat × Bool)} {fs : List Nat} (h : GroupOK n G v A fs) (k : Shim) (v' : α) :
    get k G = some v' ↔ v' = v ∧ ∃ σ, Can n k (A ++ signs fs σ) := by
  constructor
  · intro hg
    obtain ⟨x, hx, he, rfl⟩ := get_some hg
    obtain ⟨σ, hσ⟩ := h.sound x hx
    exact ⟨h.val x hx, σ, hσ.of_eqv (eqv_symm he)⟩
  · rintro ⟨rfl, σ, hσ⟩
    obtain ⟨x, hx, hc⟩ := h.complete σ
    rw [get_congr (hσ.eqv hc), get_of_mem h.kn hx, h.val x hx]

theorem splitBy_ok {ord : List Nat → List Nat} (hn : 0 < n) (hord : ∀ l, (ord l).Perm l) {G : List (Shim × α)} {v : α} {A : List (Nat × Bool)} {fs : List Nat}
    (h : GroupOK n G v A fs) {a : Nat} (ha : WcValid n a) (hf : a ∉ fs) : ∃ G', splitBy n ord v a G = .ok G' ∧ GroupOK n G' v A (fs ++ [a]) := by
  have snoc : ∀ σ, signs (fs ++ [a]) σ = signs fs σ ++ [(a, σ a)] := by intro σ; simp [signs]
  -- over a prefix of the group
  have gen : ∀ (l : List (Shim × α)) (d : List (Shim × α)), (∀ z ∈ l, z ∈ G) → KN d → (∀ x ∈ d, x.2 = v ∧ ∃ σ, Can n x.1 (A ++ signs (fs ++ [a]) σ)) →
      ∃ d', l.foldlM (fun d z => do
        let neg ← add n ord z.1 a false
        let pos ← add n ord z.1 a true
        return setNew neg v (setNew pos v d)) d = .ok d' ∧ KN d' ∧ (∀ x ∈ d', x.2 = v ∧ ∃ σ, Can n x.1 (A ++ signs (fs ++ [a]) σ)) ∧
        (∀ k, (Shim.get k d).isSome → (Shim.get k d').isSome) ∧
        ∀ z ∈ l, ∀ σ, Can n z.1 (A ++ signs fs σ) → ∃ x ∈ d', Can n x.1 (A ++ signs (fs ++ [a]) σ) := by
    intro l
    induction l with
    | nil => intro d _ h1 h2; exact ⟨d, rfl, h1, h2, fun _ h => h, fun _ h => (by cases h)⟩
    | cons z l ih =>
      intro d hl h1 h2
      obtain ⟨σ, hσ⟩ := h.sound z (hl z List.mem_cons_self)
      obtain ⟨neg, e1, c1⟩ := add_can hn hord hσ ha false
      obtain ⟨pos, e2, c2⟩ := add_can hn hord hσ ha true
      have sg : ∀ (τ : Nat → Bool) (b : Bool), A ++ signs fs τ ++ [(a, b)] = A ++ signs (fs ++ [a]) (fun f => if f = a then b else τ f) := by
        intro τ b
        rw [snoc, List.append_assoc, if_pos rfl]
        congr 2
        unfold signs
        refine List.map_congr_left fun f hf' => ?_
        simp only [if_neg (fun hc : f = a => hf (hc ▸ hf'))]
      have newval : ∀ (k : Shim) (d : List (Shim × α)), (∀ x ∈ d, x.2 = v ∧ ∃ σ, Can n x.1 (A ++ signs (fs ++ [a]) σ)) → (∃ σ, Can n k (A ++ signs (fs ++ [a]) σ)) →
          ∀ x ∈ setNew k v d, x.2 = v ∧ ∃ σ, Can n x.1 (A ++ signs (fs ++ [a]) σ) := by
        intro k d hd hk x hx
        unfold setNew at hx
        split at hx
        · exact hd x hx
        · rename_i hns
          have : set k v d = d ++ [(k, v)] := by
            clear hd hx
            induction d with
            | nil => rfl
            | cons y d ih' =>
              rw [get_cons] at hns
              split at hns
              · exact absurd rfl hns
              · rename_i hy
                rw [set, if_neg hy, ih' hns]; rfl
          rw [this] at hx
          rcases List.mem_append.1 hx with hx | hx
          · exact hd x hx
          · rw [List.mem_singleton.1 hx]; exact ⟨rfl, hk⟩
      obtain ⟨d', e, k1, k2, k3, k4⟩ := ih (setNew neg v (setNew pos v d)) (fun y hy => hl y (List.mem_cons_of_mem _ hy)) (kn_setNew _ _ (kn_setNew _ _ h1))
        (newval neg _ (newval pos d h2 ⟨_, by rw [← sg]; exact c2⟩) ⟨_, by rw [← sg]; exact c1⟩)
      refine ⟨d', ?_, k1, k2, fun k hk => k3 k ?_, fun y hy τ hτ => ?_⟩
      · rw [List.foldlM_cons, e1, e2]
        exact e
      · rw [get_setNew, get_setNew]
        cases hg : Shim.get k d with
        | none => rw [hg] at hk; cases hk
        | some v' => rfl
      · rcases List.mem_cons.1 hy with rfl | hy
        · -- the key for the sign of `a`
          have key : ∃ s, (Shim.get s d').isSome = true ∧ Can n s (A ++ signs (fs ++ [a]) τ) := by
            obtain ⟨s', es, cs⟩ := add_can hn hord hτ ha (τ a)
            have cs' : Can n s' (A ++ signs (fs ++ [a]) τ) := by rw [snoc, ← List.append_assoc]; exact cs
            refine ⟨s', k3 s' ?_, cs'⟩
            rw [get_setNew, get_setNew]
            cases hb : τ a with
            | true =>
              rw [hb, e2] at es
              cases es
              cases Shim.get pos d <;> simp [eqv_refl]
            | false =>
              rw [hb, e1] at es
              cases es
              cases Shim.get neg d with
              | some v' => rfl
              | none => by_cases hq : eqv neg pos = true <;> simp [hq, eqv_refl]
          obtain ⟨s, hs, cs⟩ := key
          obtain ⟨v', hv'⟩ := Option.isSome_iff_exists.1 hs
          obtain ⟨x, hx, he, -⟩ := get_some hv'
          exact ⟨x, hx, cs.of_eqv he⟩
        · exact k4 y hy τ hτ
  obtain ⟨G', e, k1, k2, -, k4⟩ := gen G [] (fun _ h => h) List.Pairwise.nil (fun _ h => by cases h)
  refine ⟨G', e, k1, fun x hx => (k2 x hx).1, fun x hx => (k2 x hx).2, fun σ => ?_⟩
  obtain ⟨z, hz, hc⟩ := h.complete σ
  exact k4 z hz σ hc

theorem group_ok {ord : List Nat → List Nat} (hn : 0 < n) (hord : ∀ l, (ord l).Perm l) {k : Shim} {v : α} {A : List (Nat × Bool)} (hk : Can n k A) :
    ∀ (fs done : List Nat) (G : List (Shim × α)), (done ++ fs).Nodup → (∀ f ∈ fs, WcValid n f) → GroupOK n G v A done →
    ∃ G', fs.foldlM (fun g a => splitBy n ord v a g) G = .ok G' ∧ GroupOK n G' v A (done ++ fs)
  | [], done, G, _, _, h => ⟨G, rfl, by rwa [List.append_nil]⟩
  | f :: fs, done, G, hnd, hv, h => by
    have hf : f ∉ done := by
      intro hc
      have := (List.nodup_append.1 hnd).2.2 f hc f List.mem_cons_self
      exact this rfl
    obtain ⟨G1, e1, h1⟩ := splitBy_ok hn hord h (hv f List.mem_cons_self) hf
    obtain ⟨G2, e2, h2⟩ := group_ok hn hord hk fs (done ++ [f]) G1 (by rw [List.append_assoc]; exact hnd) (fun g hg => hv g (List.mem_cons_of_mem _ hg)) h1
    refine ⟨G2, by rw [List.foldlM_cons, e1]; exact e2, by rw [List.append_assoc] at h2; exact h2⟩

theorem group_start {k : Shim} {v : α} {A : List (Nat × Bool)} (hk : Can n k A) : GroupOK n [(k, v)] v A [] := by
  refine ⟨List.pairwise_singleton _ _, fun x hx => ?_, fun x hx => ?_, fun σ => ?_⟩
  · rw [List.mem_singleton.1 hx]
  · rw [List.mem_singleton.1 hx]; exact ⟨fun _ => true, by simpa [signs] using hk⟩
  · exact ⟨_, List.mem_singleton.2 rfl, by simpa [signs] using hk⟩

theorem exists_first {β : Type} {P : β → Prop} : ∀ {l : List β}, (∃ x ∈ l, P x) → ∃ l1 x l2, l = l1 ++ x :: l2 ∧ P x ∧ ∀ y ∈ l1, ¬ P y
  | [], h => by obtain ⟨x, hx, -⟩ := h; cases hx
  | x :: l, h => by
    by_cases hx : P x
    · exact ⟨[], x, l, rfl, hx, fun _ h => by cases h⟩
    · obtain ⟨l1, y, l2, e, h1, h2⟩ := exists_first (l := l) (by
        obtain ⟨y, hy, hp⟩ := h
        rcases List.mem_cons.1 hy with rfl | hy
        · exact absurd hp hx
        · exact ⟨y, hy, hp⟩)
      refine ⟨x :: l1, y, l2, by rw [e]; rfl, h1, fun z hz => ?_⟩
      rcases List.mem_cons.1 hz with rfl | hz
      · exact hx
      · exact h2 z hz

/-- The value of a key of `merge_rules` is that of the first rule whose group has the key. -/
theorem mergeRules_spec {ord : List Nat → List Nat} (hn : 0 < n) (hord : ∀ l, (ord l).Perm l) (H : Shim → List (Nat × Bool)) {fs : List Nat} (hfs : fs.Nodup)
    (hv : ∀ f ∈ fs, WcValid n f) (rules : List (Shim × α)) (hr : ∀ r ∈ rules, Can n r.1 (H r.1)) :
    ∃ D, mergeRules n ord rules fs = .ok D ∧ KN D ∧ ∀ k v, get k D = some v ↔ ∃ l1 r l2, rules = l1 ++ r :: l2 ∧ v = r.2 ∧
      (∃ σ, Can n k (H r.1 ++ signs fs σ)) ∧ ∀ r' ∈ l1, ¬ ∃ σ, Can n k (H r'.1 ++ signs fs σ) := by
  have gen : ∀ (l done : List (Shim × α)) (D : List (Shim × α)), (∀ r ∈ l, Can n r.1 (H r.1)) → KN D →
      (∀ k v, get k D = some v ↔ ∃ l1 r l2, done = l1 ++ r :: l2 ∧ v = r.2 ∧ (∃ σ, Can n k (H r.1 ++ signs fs σ)) ∧ ∀ r' ∈ l1, ¬ ∃ σ, Can n k (H r'.1 ++ signs fs σ)) →
      ∃ D', l.foldlM (fun resulting r => do
        let group ← fs.foldlM (fun g a => splitBy n ord r.2 a g) [r]
        return resulting.foldl (fun z (x : Shim × α) => set x.1 x.2 z) group) D = .ok D' ∧ KN D' ∧
        ∀ k v, get k D' = some v ↔ ∃ l1 r l2, done ++ l = l1 ++ r :: l2 ∧ v = r.2 ∧ (∃ σ, Can n k (H r.1 ++ signs fs σ)) ∧
          ∀ r' ∈ l1, ¬ ∃ σ, Can n k (H r'.1 ++ signs fs σ) := by
    intro l
    induction l with
    | nil => intro done D _ h1 h2; exact ⟨D, rfl, h1, by rwa [List.append_nil]⟩
    | cons x l ih =>
      intro done D hl h1 h2
      have hx := hl x List.mem_cons_self
      obtain ⟨G, e, hG⟩ := group_ok (v := x.2) hn hord hx fs [] [x] hfs hv (group_start (v := x.2) hx)
      rw [List.nil_append] at hG
      obtain ⟨u1, u2⟩ := update_spec D G hG.kn
      have hnone : ∀ k, get k D = none ↔ ∀ r ∈ done, ¬ ∃ σ, Can n k (H r.1 ++ signs fs σ) := by
        intro k
        constructor
        · intro h0 r hr' hσ
          obtain ⟨l1, y, l2, e', hy, h3⟩ := exists_first (P := fun r : Shim × α => ∃ σ, Can n k (H r.1 ++ signs fs σ)) ⟨r, hr', hσ⟩
          rw [(h2 k y.2).2 ⟨l1, y, l2, e', rfl, hy, h3⟩] at h0
          cases h0
        · intro h0
          cases hg : get k D with
          | none => rfl
          | some v =>
            obtain ⟨l1, r, l2, e', -, h3, -⟩ := (h2 k v).1 hg
            exact absurd h3 (h0 r (by rw [e']; simp))
      obtain ⟨D', e2, k1, k2⟩ := ih (done ++ [x]) (D.foldl (fun z (y : Shim × α) => set y.1 y.2 z) G) (fun r hr' => hl r (List.mem_cons_of_mem _ hr')) u1 (by
        intro k v
        rw [u2 h1 k]
        cases hg : get k D with
        | some v' =>
          simp only
          rw [← hg, h2 k v]
          constructor
          · rintro ⟨l1, r, l2, e', h3⟩
            exact ⟨l1, r, l2 ++ [x], by rw [e']; simp, h3⟩
          · rintro ⟨l1, r, l2, e', h3, h4, h5⟩
            rcases List.eq_nil_or_concat l2 with rfl | ⟨l2', y, rfl⟩
            · exfalso
              have e'' : done ++ [x] = l1 ++ [r] := e'
              obtain ⟨rfl, e3⟩ := List.append_inj' e'' rfl
              obtain ⟨m1, s, m2, e4, -, h6, -⟩ := (h2 k v').1 hg
              exact h5 s (by rw [e4]; simp) h6
            · refine ⟨l1, r, l2', ?_, h3, h4, h5⟩
              have e'' : done ++ [x] = (l1 ++ r :: l2') ++ [y] := by rw [e']; simp
              exact (List.append_inj' e'' rfl).1
        | none =>
          simp only
          rw [hG.get k v]
          have h0 := (hnone k).1 hg
          constructor
          · rintro ⟨rfl, hσ⟩
            exact ⟨done, x, [], rfl, rfl, hσ, h0⟩
          · rintro ⟨l1, r, l2, e', h3, h4, h5⟩
            have hmem : r ∈ done ++ [x] := by rw [e']; simp
            rcases List.mem_append.1 hmem with hm | hm
            · exact absurd h4 (h0 r hm)
            · rw [List.mem_singleton.1 hm] at h3 h4
              exact ⟨h3, h4⟩)
      refine ⟨D', ?_, k1, ?_⟩
      · rw [List.foldlM_cons, e]
        exact e2
      · rw [List.append_assoc] at k2
        exact k2
  obtain ⟨D, e, h1, h2⟩ := gen rules [] [] hr List.Pairwise.nil (by
    intro k v
    constructor
    · intro h; cases h
    · rintro ⟨l1, r, l2, h, -⟩; simp at h)
  exact ⟨D, e, h1, by rw [List.nil_append] at h2; exact h2⟩

/-- A shim for every choice of signs. -/
theorem exists_can (hn : 0 < n) (σ : Nat → Bool) : ∀ (fs : List Nat) {k : Shim} {A : List (Nat × Bool)}, Can n k A → (∀ f ∈ fs, WcValid n f) →
    ∃ k', Can n k' (A ++ signs fs σ)
  | [], k, A, h, _ => ⟨k, by simpa [signs] using h⟩
  | f :: fs, k, A, h, hv => by
    obtain ⟨k1, -, h1⟩ := add_can hn (ord := id) (fun _ => List.Perm.refl _) h (hv f List.mem_cons_self) (σ f)
    obtain ⟨k2, h2⟩ := exists_can hn σ fs h1 (fun g hg => hv g (List.mem_cons_of_mem _ hg))
    exact ⟨k2, by simpa [signs] using h2⟩

end Shim
end OFE
