import Verif.Select.Lemmas

/-! # The loop of the selection -/

namespace OFE
namespace Groups

variable {ν : Type} [DecidableEq ν]
variable {t : Tree.Links ν} {rs : List ν} {cls : ν → ν → Prop} {le : ν → ν → Bool} {s s' : Sel ν} {ord : Sel ν → List ν → List ν}

/-- The chosen rules are of the same classes. -/
def SameCls (cls : ν → ν → Prop) (s s' : Sel ν) : Prop := (∀ a ∈ s'.assigned, ∃ b ∈ s.assigned, cls a b) ∧ ∀ b ∈ s.assigned, ∃ a ∈ s'.assigned, cls b a

theorem SameCls.refl (h : SelInv rs cls s) (G : Graph t rs cls le) : SameCls cls s s :=
  ⟨fun a ha => ⟨a, ha, G.refl _ (h.keyMem (h.keys a ha))⟩, fun a ha => ⟨a, ha, G.refl _ (h.keyMem (h.keys a ha))⟩⟩

theorem SameCls.trans (G : Graph t rs cls le) {s1 s2 s3 : Sel ν} (h : SameCls cls s1 s2) (h' : SameCls cls s2 s3) : SameCls cls s1 s3 := by
  refine ⟨fun a ha => ?_, fun b hb => ?_⟩
  · obtain ⟨b, hb, h1⟩ := h'.1 a ha
    obtain ⟨c, hc, h2⟩ := h.1 b hb
    exact ⟨c, hc, G.cut _ _ _ h1 h2⟩
  · obtain ⟨a, ha, h1⟩ := h.2 b hb
    obtain ⟨c, hc, h2⟩ := h'.2 a ha
    exact ⟨c, hc, G.cut _ _ _ h1 h2⟩

theorem switch_same (h : SelInv rs cls s) (G : Graph t rs cls le) {new : ν} (hnew : new ∈ rs) (e : switchAssigned s new = .ok s') : SameCls cls s s' := by
  obtain ⟨-, -, -, -, ha, -⟩ := switch_spec h G hnew e
  refine ⟨fun a ha' => ?_, fun b hb => ?_⟩
  · rcases (ha a).1 ha' with ⟨h1, -⟩ | ⟨rfl, b, hb, hc⟩
    · exact ⟨a, h1, G.refl _ (h.keyMem (h.keys a h1))⟩
    · exact ⟨b, hb, G.symm _ _ hc⟩
  · by_cases hc : cls b new
    · exact ⟨new, (ha new).2 (.inr ⟨rfl, b, hb, hc⟩), hc⟩
    · exact ⟨b, (ha b).2 (.inl ⟨hb, hc⟩), G.refl _ (h.keyMem (h.keys b hb))⟩

theorem checkFull_full (h : SelInv rs cls s) (G : Graph t rs cls le) {o : ν} {x : List ν × List ν} (e : checkFull t s o = .ok x) (hs : sameSet x.1 x.2 = true) :
    Full t s o := by
  unfold checkFull at e
  have hok := groupsOf_ok (r2g := s.r2g) (l := t.chi o ++ t.par o) (fun y hy => h.isSome (G.range o y (List.mem_append.1 hy)))
  simp only [bind, Except.bind, pure, Except.pure] at e
  rw [hok] at e
  cases e
  rw [sameSet_iff] at hs
  intro d hd g hg hga
  have := (hs g).1 (List.mem_filter.2 ⟨List.mem_filterMap.2 ⟨d, List.mem_append.2 hd, hg⟩, by simpa using hga⟩)
  exact List.mem_append.1 (List.mem_filter.1 this).1

theorem keepFull_mem {t : Tree.Links ν} {s : Sel ν} : ∀ {l r : List ν}, keepFull t s l = .ok r → ∀ o ∈ r, o ∈ l ∧ ∃ x, checkFull t s o = .ok x ∧ sameSet x.1 x.2 = true
  | [], r, h => by cases h; intro x hx; cases hx
  | y :: ys, r, h => by
    rw [keepFull] at h
    cases h1 : checkFull t s y with
    | error e => rw [h1] at h; cases h
    | ok x =>
      rw [h1] at h
      simp only [bind, Except.bind] at h
      cases h2 : keepFull t s ys with
      | error e => rw [h2] at h; cases h
      | ok r' =>
        rw [h2] at h
        simp only [pure, Except.pure, Except.ok.injEq] at h
        subst h
        intro o ho
        split at ho
        · rename_i hs
          rcases List.mem_cons.1 ho with rfl | ho
          · exact ⟨List.mem_cons_self, x, h1, hs⟩
          · obtain ⟨h3, h4⟩ := keepFull_mem h2 o ho
            exact ⟨List.mem_cons_of_mem _ h3, h4⟩
        · obtain ⟨h3, h4⟩ := keepFull_mem h2 o ho
          exact ⟨List.mem_cons_of_mem _ h3, h4⟩

theorem allowed_full (h : SelInv rs cls s) (G : Graph t rs cls le) {g : ν} {l : List ν} (e : allowedOptions t s g = .ok l) : ∀ o ∈ l, o ∈ rs ∧ Full t s o := by
  unfold allowedOptions at e
  cases h1 : getKey s.r2g g with
  | error x => rw [h1] at e; cases e
  | ok k =>
    rw [h1] at e
    simp only [bind, Except.bind] at e
    cases h2 : getKey s.groups k with
    | error x => rw [h2] at e; cases e
    | ok opts =>
      rw [h2] at e
      intro o ho
      obtain ⟨h3, x, h4, h5⟩ := keepFull_mem e o ho
      exact ⟨h.mem.2 ⟨_, mem_of_lookup_eq_some (getKey_ok h2), h3⟩, checkFull_full h G h4 h5⟩

theorem moveAll_spec (G : Graph t rs cls le) (hord : ∀ s l, (ord s l).Perm l) (diff : ν) : ∀ (l : List ν) {s s' : Sel ν}, SelInv rs cls s → Cons t s →
    moveAll t ord diff l s = .ok s' → SelInv rs cls s' ∧ Cons t s' ∧ SameCls cls s s'
  | [], s, s', h, hc, e => by cases e; exact ⟨h, hc, SameCls.refl h G⟩
  | r :: rest, s, s', h, hc, e => by
    rw [moveAll] at e
    cases h1 : allowedOptions t s r with
    | error x => rw [h1] at e; cases e
    | ok a =>
      rw [h1] at e
      simp only [bind, Except.bind] at e
      cases h2 : ord s (a.filter fun x => decide (x ∈ t.chi diff)) with
      | nil => rw [h2] at e; cases e
      | cons c cs =>
        rw [h2] at e
        simp only at e
        have hca : c ∈ a := (List.mem_filter.1 ((hord s _).mem_iff.1 (by rw [h2]; exact List.mem_cons_self))).1
        obtain ⟨hcr, hcf⟩ := allowed_full h G h1 c hca
        cases h3 : switchAssigned s c with
        | error x => rw [h3] at e; cases e
        | ok s1 =>
          rw [h3] at e
          obtain ⟨i1, i2, i3⟩ := moveAll_spec G hord diff rest (switch_spec h G hcr h3).1 (switch_cons h G hc hcr (.inl hcf) h3) e
          exact ⟨i1, i2, (switch_same h G hcr h3).trans G i3⟩

/-- The result of the search: a choice, full and of the same classes as before. -/
theorem shift_spec (G : Graph t rs cls le) (hord : ∀ s l, (ord s l).Perm l) (h : SelInv rs cls s) (hc : Cons t s) :
    ∀ (ds : List (ν × List ν)) {o : ν} {s' : Sel ν}, shift t ord s ds = .ok (o, s') →
      (∃ d ∈ ds, d.1 = o) ∧ SelInv rs cls s' ∧ Cons t s' ∧ SameCls cls s s' ∧ o ∈ s'.groups.map (·.1) ∧ Full t s' o
  | [], _, _, e => by cases e
  | (diff, d) :: rest, o, s', e => by
    rw [shift] at e
    cases h1 : canMove t s diff (ord s d) with
    | error x => rw [h1] at e; cases e
    | ok b =>
      rw [h1] at e
      simp only [bind, Except.bind] at e
      cases b with
      | false =>
        obtain ⟨⟨x, hx, hx'⟩, h2⟩ := shift_spec G hord h hc rest (by simpa using e)
        exact ⟨⟨x, List.mem_cons_of_mem _ hx, hx'⟩, h2⟩
      | true =>
        rw [if_pos rfl] at e
        cases h2 : moveAll t ord diff (ord s d) s with
        | error x => rw [h2] at e; cases e
        | ok s1 =>
          rw [h2] at e
          simp only at e
          obtain ⟨i1, i2, i3⟩ := moveAll_spec G hord diff _ h hc h2
          cases h3 : allowedOptions t s1 diff with
          | error x => rw [h3] at e; cases e
          | ok a =>
            rw [h3] at e
            simp only at e
            by_cases hm : diff ∈ a
            · rw [if_pos hm] at e
              obtain ⟨hr, hf⟩ := allowed_full i1 G h3 diff hm
              cases h4 : switchAssigned s1 diff with
              | error x => rw [h4] at e; cases e
              | ok s2 =>
                rw [h4] at e
                cases e
                obtain ⟨j1, j2, -⟩ := switch_spec i1 G hr h4
                exact ⟨⟨_, List.mem_cons_self, rfl⟩, j1, switch_cons i1 G i2 hr (.inl hf) h4, i3.trans G (switch_same i1 G hr h4), j2,
                  switch_full i1 G hr hf h4⟩
            · rw [if_neg hm] at e; cases e

/-- The state when `rem` are the groups still to assign. -/
structure LoopInv (t : Tree.Links ν) (rs : List ν) (cls : ν → ν → Prop) (le : ν → ν → Bool) (s : Sel ν) (rem : List ν) : Prop where
  inv : SelInv rs cls s
  cons : Cons t s
  order : ∀ a ∈ s.assigned, ∀ k ∈ rem, le k a = true
  cover : ∀ x ∈ rs, (∃ k ∈ rem, cls x k) ∨ ∃ a ∈ s.assigned, cls x a

theorem firstOption_spec {t : Tree.Links ν} {s : Sel ν} : ∀ {l : List ν} {o : ν}, firstOption t s l = .ok (some o) →
    o ∈ l ∧ ∃ x, checkOption t s o = .ok x ∧ sameSet x.1 x.2 = true
  | [], _, h => by cases h
  | y :: ys, o, h => by
    rw [firstOption] at h
    cases h1 : checkOption t s y with
    | error x => rw [h1] at h; cases h
    | ok x =>
      rw [h1] at h
      simp only [bind, Except.bind] at h
      by_cases h2 : sameSet x.1 x.2 = true
      · rw [if_pos h2] at h
        cases h
        exact ⟨List.mem_cons_self, x, h1, h2⟩
      · rw [if_neg h2] at h
        obtain ⟨h3, h4⟩ := firstOption_spec h
        exact ⟨List.mem_cons_of_mem _ h3, h4⟩

/-- If nothing above is chosen yet, it suffices to look at the rules below. -/
theorem checkOption_full (h : SelInv rs cls s) (G : Graph t rs cls le) {o : ν} (hle : ∀ a ∈ s.assigned, le o a = true) {x : List ν × List ν}
    (e : checkOption t s o = .ok x) (hs : sameSet x.1 x.2 = true) : Full t s o := by
  unfold checkOption at e
  have hok := groupsOf_ok (r2g := s.r2g) (l := t.chi o) (fun y hy => h.isSome (G.range o y (.inl hy)))
  simp only [bind, Except.bind, pure, Except.pure] at e
  rw [hok] at e
  cases e
  rw [sameSet_iff] at hs
  intro d hd g hg hga
  rcases hd with hd | hd
  · have := (hs g).1 (List.mem_filterMap.2 ⟨d, hd, hg⟩)
    exact .inl (List.mem_filter.1 this).1
  · exfalso
    have h1 := (h.look (G.range o d (.inr hd)) hg).1
    have h2 := G.below d o ((G.sym d o).2 hd)
    rw [G.trans _ _ _ (hle g hga) (G.rank _ _ (G.symm _ _ h1))] at h2
    cases h2

omit [DecidableEq ν] in
theorem mapM_fst {f : ν → Except PyErr (List ν)} : ∀ {l : List ν} {ds : List (ν × List ν)}, (l.mapM fun o => do return (o, ← f o)) = .ok ds → ∀ d ∈ ds, d.1 ∈ l
  | [], ds, h => by rw [List.mapM_nil] at h; cases h; intro d hd; cases hd
  | y :: ys, ds, h => by
    rw [List.mapM_cons] at h
    cases h1 : f y with
    | error e => rw [h1] at h; cases h
    | ok v =>
      cases h2 : ys.mapM (fun o => do return (o, ← f o)) with
      | error e => rw [h1] at h; simp only [bind, Except.bind, pure, Except.pure] at h h2; rw [h2] at h; cases h
      | ok r =>
        rw [h1] at h; simp only [bind, Except.bind, pure, Except.pure] at h h2; rw [h2] at h; cases h
        intro d hd
        rcases List.mem_cons.1 hd with rfl | hd
        · exact List.mem_cons_self
        · exact List.mem_cons_of_mem _ (mapM_fst (by simpa only [bind, Except.bind, pure, Except.pure] using h2) d hd)

/-- One turn. -/
theorem assignOne_spec (G : Graph t rs cls le) (hord : ∀ s l, (ord s l).Perm l) {k : ν} {rem : List ν} (hrem : ∀ k' ∈ rem, le k' k = true)
    (h : LoopInv t rs cls le s (k :: rem)) (e : assignOne t ord s k = .ok s') : LoopInv t rs cls le s' rem := by
  unfold assignOne at e
  cases h1 : getKey s.groups k with
  | error x => rw [h1] at e; cases e
  | ok opts =>
    rw [h1] at e
    simp only [bind, Except.bind] at e
    have hmem := mem_of_lookup_eq_some (getKey_ok h1)
    have hopt : ∀ o ∈ opts, o ∈ rs ∧ cls o k := fun o ho =>
      ⟨h.inv.mem.2 ⟨_, hmem, ho⟩, (h.inv.same _ _).1 ⟨_, hmem, ho, h.inv.headMem hmem⟩⟩
    -- what remains once the choice is found
    have fin : ∀ (o : ν) (s1 : Sel ν), o ∈ opts → SelInv rs cls s1 → Cons t s1 → SameCls cls s s1 → o ∈ s1.groups.map (·.1) → Full t s1 o →
        LoopInv t rs cls le { s1 with assigned := o :: s1.assigned } rem := by
      intro o s1 ho i1 i2 i3 i4 i5
      obtain ⟨j1, j2⟩ := add_cons i1 G i2 i4 i5
      refine ⟨j1, j2, ?_, ?_⟩
      · intro a ha k' hk'
        rcases List.mem_cons.1 ha with rfl | ha2
        · exact G.trans _ _ _ (hrem k' hk') (G.rank _ _ (G.symm _ _ (hopt _ ho).2))
        · obtain ⟨b, hb, hab⟩ := i3.1 a ha2
          exact G.trans _ _ _ (h.order b hb k' (List.mem_cons_of_mem _ hk')) (G.rank _ _ (G.symm _ _ hab))
      · intro x hx
        rcases h.cover x hx with ⟨k', hk', hxk⟩ | ⟨a, ha, hxa⟩
        · rcases List.mem_cons.1 hk' with rfl | hk'
          · exact .inr ⟨o, List.mem_cons_self, G.cut _ _ _ hxk (G.symm _ _ (hopt o ho).2)⟩
          · exact .inl ⟨k', hk', hxk⟩
        · obtain ⟨b, hb, hab⟩ := i3.2 a ha
          exact .inr ⟨b, List.mem_cons_of_mem _ hb, G.cut _ _ _ hxa hab⟩
    cases h2 : firstOption t s opts with
    | error x => rw [h2] at e; cases e
    | ok r =>
      rw [h2] at e
      cases r with
      | some o =>
        simp only at e
        obtain ⟨ho, x, hx1, hx2⟩ := firstOption_spec h2
        have hfull := checkOption_full h.inv G
          (fun a ha => G.trans _ _ _ (G.rank _ _ (hopt o ho).2) (h.order a ha k List.mem_cons_self)) hx1 hx2
        cases h3 : switchAssigned s o with
        | error x => rw [h3] at e; cases e
        | ok s1 =>
          rw [h3] at e
          cases e
          have hr := (hopt o ho).1
          obtain ⟨j1, j2, -⟩ := switch_spec h.inv G hr h3
          exact fin o s1 ho j1 (switch_cons h.inv G h.cons hr (.inl hfull) h3) (switch_same h.inv G hr h3) j2 (switch_full h.inv G hr hfull h3)
      | none =>
        simp only at e
        cases h3 : opts.mapM (fun o => do return (o, ← difference t s o)) with
        | error x => simp only [bind, Except.bind] at h3; rw [h3] at e; cases e
        | ok ds =>
          have h3' := h3
          simp only [bind, Except.bind] at h3
          rw [h3] at e
          simp only at e
          cases h4 : shift t ord s (Deps.sortBy (fun a b => decide (a.2.length ≤ b.2.length)) ds) with
          | error x => rw [h4] at e; cases e
          | ok y =>
            obtain ⟨o, s1⟩ := y
            rw [h4] at e
            cases e
            obtain ⟨⟨d, hd, rfl⟩, i1, i2, i3, i4, i5⟩ := shift_spec G hord h.inv h.cons _ h4
            exact fin d.1 s1 (mapM_fst h3' d ((Deps.sortBy_perm _ ds).mem_iff.1 hd)) i1 i2 i3 i4 i5

theorem loop_spec (G : Graph t rs cls le) (hord : ∀ s l, (ord s l).Perm l) : ∀ (rem : List ν) {s s' : Sel ν}, rem.Pairwise (fun a b => le b a = true) →
    LoopInv t rs cls le s rem → rem.foldlM (assignOne t ord) s = .ok s' → LoopInv t rs cls le s' []
  | [], s, s', _, h, e => by cases e; exact h
  | k :: rem, s, s', hp, h, e => by
    rw [List.pairwise_cons] at hp
    rw [List.foldlM_cons] at e
    cases h1 : assignOne t ord s k with
    | error x => rw [h1] at e; cases e
    | ok s1 =>
      rw [h1] at e
      exact loop_spec G hord rem hp.2 (assignOne_spec G hord hp.1 h h1) e

/-- The state before the loop. -/
theorem first_inv (G : Graph t rs cls le) {x : List (ν × List ν) × List (ν × ν)} (h : SelInv rs cls ⟨x.1, x.2, []⟩) {g : ν} {rest : List ν} (hgk : g ∈ x.1.map (·.1))
    (hle : ∀ k ∈ rest, le k g = true) (hall : ∀ k ∈ x.1.map (·.1), k = g ∨ k ∈ rest) : LoopInv t rs cls le ⟨x.1, x.2, [g]⟩ rest := by
  refine ⟨⟨h.perm, h.head, h.r2g, h.same, ?_⟩, ?_, ?_, ?_⟩
  · intro a ha; rw [List.mem_singleton.1 ha]; exact hgk
  · intro a ha d hd c hc hca
    rw [List.mem_singleton.1 ha] at hd ⊢
    rw [List.mem_singleton.1 hca] at hc ⊢
    exact absurd (G.symm _ _ (h.look (G.range _ _ hd) hc).1) (G.apart hd)
  · intro a ha k hk; rw [List.mem_singleton.1 ha]; exact hle k hk
  · intro y hy
    obtain ⟨gy, hgy⟩ := h.isSome hy
    obtain ⟨h1, -, h3⟩ := h.look hy hgy
    rcases hall _ h3 with rfl | h4
    · exact .inr ⟨_, List.mem_singleton.2 rfl, h1⟩
    · exact .inl ⟨_, h4, h1⟩

/-- What the selection returns: the same classes, and representatives that keep all dependencies. -/
theorem select_spec (G : Graph t rs cls le) (hord : ∀ s l, (ord s l).Perm l) {x : List (ν × List ν) × List (ν × ν)} (h : SelInv rs cls ⟨x.1, x.2, []⟩)
    (e : selectCompressed le t ord x = .ok s) : SelInv rs cls s ∧ (∀ g ∈ s.groups, g.1 ∈ s.assigned) ∧
      ∀ a b, b ∈ t.chi a → ∀ a' b', s.r2g.lookup a = some a' → s.r2g.lookup b = some b' → b' ∈ t.chi a' := by
  unfold selectCompressed at e
  have hperm := (List.reverse_perm (Deps.sortBy le (x.1.map (·.1)))).trans (Deps.sortBy_perm le _)
  have hsort := Deps.sortBy_sorted le G.total G.trans (x.1.map (·.1))
  rw [← List.pairwise_reverse] at hsort
  split at e
  · cases e
  · rename_i g rest heq
    rw [heq] at hsort hperm
    rw [List.pairwise_cons] at hsort
    have hgk : g ∈ x.1.map (·.1) := hperm.mem_iff.1 List.mem_cons_self
    have h0 : LoopInv t rs cls le ⟨x.1, x.2, [g]⟩ rest := first_inv G h hgk hsort.1 fun k hk => List.mem_cons.1 (hperm.mem_iff.2 hk)
    have hl := loop_spec G hord rest hsort.2 h0 e
    have hall : ∀ y ∈ rs, ∀ k, s.r2g.lookup y = some k → k ∈ s.assigned := by
      intro y hy k hk
      rcases hl.cover y hy with ⟨_, hc, -⟩ | ⟨a, ha, hya⟩
      · cases hc
      · have := hl.inv.rep G (hl.inv.keys a ha) hya
        rw [hk, Option.some.injEq] at this
        rw [this]; exact ha
    refine ⟨hl.inv, ?_, ?_⟩
    · intro k hk
      exact hall _ (hl.inv.mem.2 ⟨k, hk, hl.inv.headMem hk⟩) _ (hl.inv.r2g k hk _ (hl.inv.headMem hk))
    · intro a b hab a' b' ha hb
      have hbr := G.range a b (.inl hab)
      have har := G.range b a (.inr ((G.sym a b).1 hab))
      have ca := (hl.inv.look har ha).1
      have cb := (hl.inv.look hbr hb).1
      obtain ⟨d, hd, hbd⟩ := G.stable a a' ca b (.inl hab)
      have hd' := G.range a' d hd
      have hk : s.r2g.lookup d = some b' := hl.inv.rep G (hl.inv.look hbr hb).2.2 (G.cut _ _ _ (G.symm _ _ hbd) cb)
      rcases hl.cons a' (hall a har a' ha) d hd b' hk (hall b hbr b' hb) with h1 | h1
      · exact h1
      · exfalso
        have h2 := G.below b' a' ((G.sym b' a').2 h1)
        have h3 : le a b = true := (G.total a b).resolve_right (by rw [G.below a b hab]; decide)
        rw [G.trans _ _ _ (G.rank _ _ (G.symm _ _ ca)) (G.trans _ _ _ h3 (G.rank _ _ cb))] at h2
        cases h2

end Groups
end OFE
