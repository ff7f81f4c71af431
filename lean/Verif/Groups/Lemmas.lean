import Verif.Groups.Spec
import Verif.Deps.Lemmas
import Verif.Tree.Lemmas
import Verif.DictLemmas

/-! # Lemmas about groups of similar rules -/

namespace OFE
namespace Groups

/-! ## The order of keys -/

theorem typeCode_length (a : TypeKey) : (typeCode a).length = 3 := by cases a <;> rfl

theorem typeCode_inj {a b : TypeKey} (h : typeCode a = typeCode b) : a = b := by
  cases a <;> cases b <;> simp [typeCode] at h
  · rw [h.2]
  · rw [h.2]

theorem flatMap_typeCode_inj : ∀ {a b : List TypeKey}, a.flatMap typeCode = b.flatMap typeCode → a = b
  | [], [], _ => rfl
  | [], y :: ys, h => by
    have := congrArg List.length h
    simp [typeCode_length] at this
    omega
  | x :: xs, [], h => by
    have := congrArg List.length h
    simp [typeCode_length] at this
  | x :: xs, y :: ys, h => by
    rw [List.flatMap_cons, List.flatMap_cons] at h
    obtain ⟨h1, h2⟩ := List.append_inj h (by rw [typeCode_length, typeCode_length])
    rw [typeCode_inj h1, flatMap_typeCode_inj h2]

theorem simCode_inj {a b : SimKey} (h : simCode a = simCode b) : a = b := by
  obtain ⟨t, p, m, g, l⟩ := a
  obtain ⟨t', p', m', g', l'⟩ := b
  simp only [simCode, List.cons_append, List.nil_append, List.cons.injEq, Int.natCast_inj, Int.neg_inj] at h
  obtain ⟨rfl, rfl, rfl, rfl, h⟩ := h
  rw [flatMap_typeCode_inj h]

variable {ν : Type}

/-- If no comparison raises, sorting is sorting by a total order. -/
theorem insertM_ok {lt : ν → ν → Except PyErr Bool} {x : ν} : ∀ {l : List ν}, (∀ y ∈ l, ∃ b, lt y x = .ok b) → ∃ l', insertM lt x l = .ok l'
  | [], _ => ⟨_, rfl⟩
  | y :: ys, h => by
    obtain ⟨b, hb⟩ := h y List.mem_cons_self
    obtain ⟨l', hl'⟩ := insertM_ok (l := ys) (fun z hz => h z (List.mem_cons_of_mem _ hz))
    cases b
    · exact ⟨x :: y :: ys, by rw [insertM, hb]; rfl⟩
    · exact ⟨y :: l', by rw [insertM, hb, hl']; rfl⟩

theorem insertM_perm {lt : ν → ν → Except PyErr Bool} {x : ν} : ∀ {l l' : List ν}, insertM lt x l = .ok l' → l'.Perm (x :: l)
  | [], l', h => by cases h; exact List.Perm.refl _
  | y :: ys, l', h => by
    rw [insertM] at h
    cases hb : lt y x with
    | error e => rw [hb] at h; cases h
    | ok b =>
      cases b
      · rw [hb] at h; cases h; exact List.Perm.refl _
      · cases hr : insertM lt x ys with
        | error e => rw [hb, hr] at h; cases h
        | ok r =>
          rw [hb, hr] at h; cases h
          exact ((insertM_perm hr).cons y).trans (List.Perm.swap _ _ _)

theorem sortM_cons {lt : ν → ν → Except PyErr Bool} {x : ν} {l : List ν} : sortM lt (x :: l) = sortM lt l >>= insertM lt x := by
  rw [sortM, List.foldrM_cons]; rfl

theorem sortM_perm {lt : ν → ν → Except PyErr Bool} : ∀ {l l' : List ν}, sortM lt l = .ok l' → l'.Perm l
  | [], l', h => by cases h; exact List.Perm.refl _
  | x :: l, l', h => by
    rw [sortM_cons] at h
    cases hr : sortM lt l with
    | error e => rw [hr] at h; cases h
    | ok r =>
      rw [hr] at h
      exact (insertM_perm h).trans ((sortM_perm hr).cons x)

theorem sortM_ok {lt : ν → ν → Except PyErr Bool} : ∀ {l : List ν}, l.Pairwise (fun a b => ∃ c, lt b a = .ok c) → ∃ l', sortM lt l = .ok l'
  | [], _ => ⟨[], rfl⟩
  | x :: l, h => by
    obtain ⟨h1, h2⟩ := List.pairwise_cons.1 h
    obtain ⟨r, hr⟩ := sortM_ok h2
    obtain ⟨l', hl'⟩ := insertM_ok (lt := lt) (x := x) (l := r) (fun y hy => h1 y ((sortM_perm hr).mem_iff.1 hy))
    exact ⟨l', by rw [sortM_cons, hr]; exact hl'⟩

theorem insertM_sorted {lt : ν → ν → Except PyErr Bool} {code : ν → List Int} (hlt : ∀ a b c, lt a b = .ok c → c = decide (code a < code b)) {x : ν} :
    ∀ {l l' : List ν}, insertM lt x l = .ok l' → l.Pairwise (fun a b => code a ≤ code b) → l'.Pairwise (fun a b => code a ≤ code b)
  | [], l', h, _ => by cases h; exact List.pairwise_singleton _ _
  | y :: ys, l', h, hs => by
    rw [insertM] at h
    obtain ⟨h1, h2⟩ := List.pairwise_cons.1 hs
    cases hb : lt y x with
    | error e => rw [hb] at h; cases h
    | ok b =>
      have hc := hlt _ _ _ hb
      cases b
      · rw [hb] at h; cases h
        have hxy : code x ≤ code y := List.not_lt.1 (of_decide_eq_false hc.symm)
        refine List.pairwise_cons.2 ⟨fun z hz => ?_, hs⟩
        rcases List.mem_cons.1 hz with rfl | hz
        · exact hxy
        · exact List.le_trans hxy (h1 z hz)
      · have hyx : code y < code x := of_decide_eq_true hc.symm
        cases hr : insertM lt x ys with
        | error e => rw [hb, hr] at h; cases h
        | ok r =>
          rw [hb, hr] at h; cases h
          refine List.pairwise_cons.2 ⟨fun z hz => ?_, insertM_sorted hlt hr h2⟩
          rcases List.mem_cons.1 ((insertM_perm hr).mem_iff.1 hz) with rfl | hz
          · exact List.le_of_lt hyx
          · exact h1 z hz

theorem sortM_sorted {lt : ν → ν → Except PyErr Bool} {code : ν → List Int} (hlt : ∀ a b c, lt a b = .ok c → c = decide (code a < code b)) :
    ∀ {l l' : List ν}, sortM lt l = .ok l' → l'.Pairwise (fun a b => code a ≤ code b)
  | [], l', h => by cases h; exact List.Pairwise.nil
  | x :: l, l', h => by
    rw [sortM_cons] at h
    cases hr : sortM lt l with
    | error e => rw [hr] at h; cases h
    | ok r =>
      rw [hr] at h
      exact insertM_sorted hlt h (sortM_sorted hlt hr)

theorem keyLt_code {a b : SimKey} {c : Bool} (h : keyLt a b = .ok c) : c = decide (simCode a < simCode b) := by
  unfold keyLt at h
  split at h
  · cases h
  · cases h; rfl

/-! ## Runs -/

section
variable {κ : Type} [DecidableEq κ] {key : ν → κ}

theorem runs_spec : ∀ (l : List ν), (runs key l).flatten = l ∧ (∀ r ∈ runs key l, r ≠ []) ∧ (∀ r ∈ runs key l, ∀ a ∈ r, ∀ b ∈ r, key a = key b)
  | [] => ⟨rfl, fun _ h => (by cases h), fun _ h => (by cases h)⟩
  | x :: l => by
    obtain ⟨h1, h2, h3⟩ := runs_spec l
    rw [runs]
    split
    · rename_i y ys rest he
      rw [he] at h1 h2 h3
      split
      · rename_i hk
        refine ⟨by rw [← h1]; rfl, fun r hr => ?_, fun r hr a ha b hb => ?_⟩
        · rcases List.mem_cons.1 hr with rfl | hr
          · exact List.cons_ne_nil _ _
          · exact h2 r (List.mem_cons_of_mem _ hr)
        · rcases List.mem_cons.1 hr with rfl | hr
          · have key_y : ∀ c ∈ x :: y :: ys, key c = key y := by
              intro c hc
              rcases List.mem_cons.1 hc with rfl | hc
              · exact hk
              · exact h3 _ List.mem_cons_self c hc y List.mem_cons_self
            rw [key_y a ha, key_y b hb]
          · exact h3 r (List.mem_cons_of_mem _ hr) a ha b hb
      · refine ⟨by rw [← h1]; rfl, fun r hr => ?_, fun r hr a ha b hb => ?_⟩
        · rcases List.mem_cons.1 hr with rfl | hr
          · exact List.cons_ne_nil _ _
          · exact h2 r hr
        · rcases List.mem_cons.1 hr with rfl | hr
          · rw [List.mem_singleton.1 ha, List.mem_singleton.1 hb]
          · exact h3 r hr a ha b hb
    · refine ⟨by rw [List.flatten_cons, h1]; rfl, fun r hr => ?_, fun r hr a ha b hb => ?_⟩
      · rcases List.mem_cons.1 hr with rfl | hr
        · exact List.cons_ne_nil _ _
        · exact h2 r hr
      · rcases List.mem_cons.1 hr with rfl | hr
        · rw [List.mem_singleton.1 ha, List.mem_singleton.1 hb]
        · exact h3 r hr a ha b hb

theorem runs_apart {code : ν → List Int} (hc : ∀ a b, code a = code b ↔ key a = key b) : ∀ (l : List ν), l.Pairwise (fun a b => code a ≤ code b) →
    (runs key l).Pairwise fun r s => ∀ a ∈ r, ∀ b ∈ s, key a ≠ key b
  | [], _ => List.Pairwise.nil
  | x :: l, h => by
    obtain ⟨hx, hl⟩ := List.pairwise_cons.1 h
    have ih := runs_apart hc l hl
    have hf := (runs_spec (key := key) l).1
    rw [runs]
    split
    · rename_i y ys rest he
      rw [he] at ih hf
      obtain ⟨i1, i2⟩ := List.pairwise_cons.1 ih
      split
      · rename_i hk
        refine List.pairwise_cons.2 ⟨fun s hs a ha b hb => ?_, i2⟩
        rcases List.mem_cons.1 ha with rfl | ha
        · rw [hk]; exact i1 s hs y List.mem_cons_self b hb
        · exact i1 s hs a ha b hb
      · rename_i hk
        refine List.pairwise_cons.2 ⟨fun s hs a ha b hb hab => ?_, ih⟩
        rw [List.mem_singleton.1 ha] at hab
        have hbl : b ∈ l := by rw [← hf]; exact List.mem_flatten.2 ⟨s, hs, hb⟩
        have hl' : l = y :: (ys ++ rest.flatten) := by rw [← hf]; rfl
        have hyl : y ∈ l := by rw [hl']; exact List.mem_cons_self
        have hyb : code y ≤ code b := by
          rw [hl'] at hbl hl
          rcases List.mem_cons.1 hbl with rfl | hbl
          · exact List.le_refl _
          · exact (List.pairwise_cons.1 hl).1 b hbl
        have := (hc x b).2 hab
        rw [← this] at hyb
        exact hk ((hc _ _).1 (List.le_antisymm (hx y hyl) hyb))
    · rename_i he
      refine List.pairwise_cons.2 ⟨fun s hs a ha b hb hab => ?_, ih⟩
      cases hr : runs key l with
      | nil => rw [hr] at hs; cases hs
      | cons r rest =>
        cases r with
        | nil => exact (runs_spec (key := key) l).2.1 [] (by rw [hr]; exact List.mem_cons_self) rfl
        | cons y ys => exact he y ys rest hr

end

/-! ## Splitting -/

variable [DecidableEq ν]

theorem sameSet_iff {a b : List ν} : sameSet a b = true ↔ ∀ x, x ∈ a ↔ x ∈ b := by
  simp only [sameSet, Bool.and_eq_true, List.all_eq_true, decide_eq_true_eq]
  exact ⟨fun h x => ⟨h.1 x, h.2 x⟩, fun h => ⟨fun x => (h x).1, fun x => (h x).2⟩⟩

/-- The same frozensets. -/
def EqKey (k k' : List ν × List ν) : Prop := (∀ x, x ∈ k.1 ↔ x ∈ k'.1) ∧ ∀ x, x ∈ k.2 ↔ x ∈ k'.2

/-- Parts so far: what is in them has the part's key, and keys differ. -/
structure PartsOK (K : ν → List ν × List ν) (done : List ν) (ps : List ((List ν × List ν) × List ν)) : Prop where
  perm : (ps.flatMap (·.2)).Perm done
  ne : ∀ p ∈ ps, p.2 ≠ []
  mem : ∀ p ∈ ps, ∀ r ∈ p.2, EqKey (K r) p.1
  apart : ps.Pairwise fun p q => ¬ EqKey p.1 q.1

theorem EqKey.symm {a b : List ν × List ν} (h : EqKey a b) : EqKey b a := ⟨fun x => (h.1 x).symm, fun x => (h.2 x).symm⟩
theorem EqKey.trans {a b c : List ν × List ν} (h : EqKey a b) (h' : EqKey b c) : EqKey a c := ⟨fun x => (h.1 x).trans (h'.1 x), fun x => (h.2 x).trans (h'.2 x)⟩

theorem splitAdd_keys (k : List ν × List ν) (r : ν) : ∀ (ps : List ((List ν × List ν) × List ν)), ∀ q ∈ splitAdd k r ps, q.1 = k ∨ ∃ p ∈ ps, p.1 = q.1
  | [], q, hq => by
    rw [splitAdd, List.mem_singleton] at hq
    subst hq; exact .inl rfl
  | (k', l) :: rest, q, hq => by
    rw [splitAdd] at hq
    split at hq
    · rcases List.mem_cons.1 hq with rfl | hq
      · exact .inr ⟨_, List.mem_cons_self, rfl⟩
      · exact .inr ⟨q, List.mem_cons_of_mem _ hq, rfl⟩
    · rcases List.mem_cons.1 hq with rfl | hq
      · exact .inr ⟨_, List.mem_cons_self, rfl⟩
      · rcases splitAdd_keys k r rest q hq with h | ⟨p, hp, h⟩
        · exact .inl h
        · exact .inr ⟨p, List.mem_cons_of_mem _ hp, h⟩

theorem splitAdd_ok {K : ν → List ν × List ν} (r : ν) : ∀ {ps : List ((List ν × List ν) × List ν)} {done : List ν}, PartsOK K done ps →
    PartsOK K (done ++ [r]) (splitAdd (K r) r ps)
  | [], done, h => by
    have : done = [] := List.perm_nil.1 h.perm.symm
    subst this
    refine ⟨List.Perm.refl _, ?_, ?_, List.pairwise_singleton _ _⟩
    · intro p hp
      rw [splitAdd, List.mem_singleton] at hp
      subst hp; exact List.cons_ne_nil _ _
    · intro p hp s hs
      rw [splitAdd, List.mem_singleton] at hp
      subst hp
      rw [List.mem_singleton] at hs
      subst hs
      exact ⟨fun _ => Iff.rfl, fun _ => Iff.rfl⟩
  | (k', l) :: rest, done, h => by
    obtain ⟨h1, h2, h3, h4⟩ := h
    obtain ⟨h5, h6⟩ := List.pairwise_cons.1 h4
    rw [splitAdd]
    split
    · rename_i hs
      rw [Bool.and_eq_true, sameSet_iff, sameSet_iff] at hs
      refine ⟨?_, ?_, ?_, ?_⟩
      · rw [List.flatMap_cons] at h1 ⊢
        refine List.Perm.trans ?_ (h1.append_right [r])
        rw [List.append_assoc, List.append_assoc]
        exact (List.Perm.refl l).append List.perm_append_comm
      · intro p hp
        rcases List.mem_cons.1 hp with rfl | hp
        · simp
        · exact h2 p (List.mem_cons_of_mem _ hp)
      · intro p hp s hs'
        rcases List.mem_cons.1 hp with rfl | hp
        · rcases List.mem_append.1 hs' with hs' | hs'
          · exact h3 (k', l) List.mem_cons_self s hs'
          · rw [List.mem_singleton.1 hs']; exact hs
        · exact h3 p (List.mem_cons_of_mem _ hp) s hs'
      · exact List.pairwise_cons.2 ⟨h5, h6⟩
    · rename_i hs
      rw [Bool.and_eq_true, sameSet_iff, sameSet_iff] at hs
      have ih := splitAdd_ok (K := K) r (ps := rest) (done := rest.flatMap (·.2)) ⟨List.Perm.refl _, fun p hp => h2 p (List.mem_cons_of_mem _ hp),
        fun p hp => h3 p (List.mem_cons_of_mem _ hp), h6⟩
      refine ⟨?_, ?_, ?_, ?_⟩
      · rw [List.flatMap_cons] at h1 ⊢
        refine List.Perm.trans ((List.Perm.refl l).append ih.perm) ?_
        rw [← List.append_assoc]
        exact h1.append_right [r]
      · intro p hp
        rcases List.mem_cons.1 hp with rfl | hp
        · exact h2 (k', l) List.mem_cons_self
        · exact ih.ne p hp
      · intro p hp
        rcases List.mem_cons.1 hp with rfl | hp
        · exact h3 (k', l) List.mem_cons_self
        · exact ih.mem p hp
      · refine List.pairwise_cons.2 ⟨fun q hq he => ?_, ih.apart⟩
        rcases splitAdd_keys _ _ _ q hq with hk | ⟨p, hp, hk⟩
        · rw [hk] at he; exact hs he.symm
        · rw [← hk] at he; exact h5 p hp he

theorem groupsOf_ok {r2g : List (ν × ν)} : ∀ {l : List ν}, (∀ x ∈ l, ∃ g, r2g.lookup x = some g) → groupsOf r2g l = .ok (l.filterMap (r2g.lookup ·))
  | [], _ => rfl
  | x :: l, h => by
    obtain ⟨g, hg⟩ := h x List.mem_cons_self
    have ih := groupsOf_ok (l := l) (fun y hy => h y (List.mem_cons_of_mem _ hy))
    unfold groupsOf at ih ⊢
    rw [List.mapM_cons, hg, List.filterMap_cons_some (f := fun y => r2g.lookup y) hg, ih]
    rfl

/-- The pair of frozensets of a rule. -/
def pcKey (t : Tree.Links ν) (r2g : List (ν × ν)) (r : ν) : List ν × List ν := ((t.par r).filterMap (r2g.lookup ·), (t.chi r).filterMap (r2g.lookup ·))

theorem splitGroup_spec {t : Tree.Links ν} {r2g : List (ν × ν)} {rules : List ν}
    (h : ∀ r ∈ rules, (∀ x ∈ t.par r, ∃ g, r2g.lookup x = some g) ∧ ∀ x ∈ t.chi r, ∃ g, r2g.lookup x = some g) :
    ∃ parts, splitGroup t r2g rules = .ok parts ∧ parts.flatten.Perm rules ∧ (∀ p ∈ parts, p ≠ []) ∧
      (∀ p ∈ parts, ∀ r ∈ p, ∀ s ∈ p, EqKey (pcKey t r2g r) (pcKey t r2g s)) ∧
      ∀ p ∈ parts, ∀ r ∈ p, ∀ s ∈ rules, EqKey (pcKey t r2g r) (pcKey t r2g s) → s ∈ p := by
  have gen : ∀ (l : List ν) (done : List ν) (ps), (∀ r ∈ l, r ∈ rules) → PartsOK (pcKey t r2g) done ps →
      ∃ ps', l.foldlM (fun acc r => do
        let p ← groupsOf r2g (t.par r)
        let c ← groupsOf r2g (t.chi r)
        return splitAdd (p, c) r acc) ps = .ok ps' ∧ PartsOK (pcKey t r2g) (done ++ l) ps' := by
    intro l
    induction l with
    | nil => intro done ps _ hp; exact ⟨ps, rfl, by rwa [List.append_nil]⟩
    | cons x l ih =>
      intro done ps hm hp
      obtain ⟨a, b⟩ := h x (hm x List.mem_cons_self)
      obtain ⟨ps', e, hps⟩ := ih (done ++ [x]) _ (fun r hr => hm r (List.mem_cons_of_mem _ hr)) (splitAdd_ok x hp)
      refine ⟨ps', ?_, by rwa [List.append_assoc] at hps⟩
      rw [List.foldlM_cons, groupsOf_ok a, groupsOf_ok b]
      exact e
  obtain ⟨ps, e, hps⟩ := gen rules [] [] (fun _ h => h) ⟨List.Perm.refl _, fun _ h => (by cases h), fun _ h => (by cases h), List.Pairwise.nil⟩
  rw [List.nil_append] at hps
  refine ⟨ps.map (·.2), by rw [splitGroup, e]; rfl, ?_, ?_, ?_, ?_⟩
  · rw [← List.flatMap_def]; exact hps.perm
  · intro p hp
    obtain ⟨q, hq, rfl⟩ := List.mem_map.1 hp
    exact hps.ne q hq
  · intro p hp r hr s hs
    obtain ⟨q, hq, rfl⟩ := List.mem_map.1 hp
    exact (hps.mem q hq r hr).trans (hps.mem q hq s hs).symm
  · intro p hp r hr s hs he
    obtain ⟨q, hq, rfl⟩ := List.mem_map.1 hp
    obtain ⟨q', hq', hs'⟩ := List.mem_flatMap.1 (hps.perm.mem_iff.2 hs)
    have e2 : EqKey q.1 q'.1 := ((hps.mem q hq r hr).symm.trans he).trans (hps.mem q' hq' s hs')
    have hall : ∀ a ∈ ps, ∀ b ∈ ps, a ≠ b → ¬ EqKey a.1 b.1 := by
      intro a ha b hb hne
      have hsym : ps.Pairwise fun p q => ¬ EqKey p.1 q.1 ∧ ¬ EqKey q.1 p.1 := hps.apart.imp (fun {x y} hab => ⟨hab, fun h => hab h.symm⟩)
      clear e hps gen hp hq hq'
      induction ps with
      | nil => cases ha
      | cons c l ih =>
        obtain ⟨c1, c2⟩ := List.pairwise_cons.1 hsym
        rcases List.mem_cons.1 ha with rfl | ha'
        · rcases List.mem_cons.1 hb with rfl | hb'
          · exact absurd rfl hne
          · exact (c1 b hb').1
        · rcases List.mem_cons.1 hb with rfl | hb'
          · exact (c1 a ha').2
          · exact ih ha' hb' c2
    by_cases hqq : q = q'
    · rw [hqq]; exact hs'
    · exact absurd e2 (hall q hq q' hq' hqq)

/-! ## Groups -/

theorem lookup_foldl_dictSet (g : ν) : ∀ (l : List ν) (m : List (ν × ν)) (x : ν),
    (l.foldl (fun m r => dictSet r g m) m).lookup x = if x ∈ l then some g else m.lookup x
  | [], m, x => by simp
  | y :: l, m, x => by
    rw [List.foldl_cons, lookup_foldl_dictSet g l, lookup_dictSet]
    by_cases h : x ∈ l
    · simp [h]
    · by_cases h' : x = y <;> simp [h, h']

theorem addGroups_spec : ∀ (parts : List (List ν)) (s : List (ν × List ν) × List (ν × ν)), (∀ p ∈ parts, p ≠ []) → parts.flatten.Nodup →
    (∀ x ∈ parts.flatten, x ∉ s.1.map (·.1)) →
    ∃ s', parts.foldlM addGroup s = .ok s' ∧ s'.1.map (·.2) = s.1.map (·.2) ++ parts ∧ (∀ g ∈ s'.1, g ∈ s.1 ∨ g.2.head? = some g.1) ∧
      (∀ p ∈ parts, ∀ r ∈ p, s'.2.lookup r = p.head?) ∧ ∀ r, r ∉ parts.flatten → s'.2.lookup r = s.2.lookup r
  | [], s, _, _, _ => ⟨s, rfl, by simp, fun g hg => .inl hg, fun _ h => (by cases h), fun _ _ => rfl⟩
  | [] :: parts, s, h, _, _ => absurd rfl (h [] List.mem_cons_self)
  | (g :: l) :: parts, s, h, hn, hd => by
    rw [List.flatten_cons] at hn
    obtain ⟨n1, n2, n3⟩ := List.nodup_append.1 hn
    have hg : g ∉ s.1.map (·.1) := hd g (by simp)
    have hs1 : dictSet g (g :: l) s.1 = s.1 ++ [(g, g :: l)] := dictSet_new _ hg
    obtain ⟨s', e, e1, e2, e3, e4⟩ := addGroups_spec parts (dictSet g (g :: l) s.1, (g :: l).foldl (fun m r => dictSet r g m) s.2)
      (fun p hp => h p (List.mem_cons_of_mem _ hp)) n2 (by
        intro x hx
        rw [hs1, List.map_append]
        simp only [List.map_cons, List.map_nil, List.mem_append, List.mem_singleton, not_or]
        exact ⟨hd x (by rw [List.flatten_cons]; exact List.mem_append_right _ hx), fun he => n3 g List.mem_cons_self x hx he.symm⟩)
    refine ⟨s', by rw [List.foldlM_cons]; exact e, ?_, ?_, ?_, ?_⟩
    · rw [e1, hs1]; simp
    · intro x hx
      rcases e2 x hx with hx | hx
      · simp only at hx
        rw [hs1] at hx
        rcases List.mem_append.1 hx with hx | hx
        · exact .inl hx
        · rw [List.mem_singleton.1 hx]; exact .inr rfl
      · exact .inr hx
    · intro p hp r hr
      rcases List.mem_cons.1 hp with rfl | hp
      · rw [e4 r (fun hc => n3 r hr r hc rfl), lookup_foldl_dictSet, if_pos hr]; rfl
      · exact e3 p hp r hr
    · intro r hr
      rw [List.flatten_cons, List.mem_append, not_or] at hr
      rw [e4 r hr.2, lookup_foldl_dictSet, if_neg hr.1]

/-- The state between rounds. -/
structure Inv (key : ν → SimKey) (t : Tree.Links ν) (rs : List ν) (s : List (ν × List ν) × List (ν × ν)) : Prop where
  perm : (s.1.map (·.2)).flatten.Perm rs
  head : ∀ g ∈ s.1, g.2.head? = some g.1
  r2g : ∀ g ∈ s.1, ∀ r ∈ g.2, s.2.lookup r = some g.1
  alike : ∀ g ∈ s.1, ∀ a ∈ g.2, ∀ b ∈ g.2, key a = key b
  coarse : ∀ S, Stable (fun a b => key a = key b) t.par t.chi S → ∀ a b, S a b → a ∈ rs → b ∈ rs → Together s.1 a b

variable {key : ν → SimKey} {t : Tree.Links ν} {rs : List ν}

theorem Inv.mem {s : List (ν × List ν) × List (ν × ν)} (h : Inv key t rs s) {r : ν} : r ∈ rs ↔ ∃ g ∈ s.1, r ∈ g.2 := by
  rw [← h.perm.mem_iff, List.mem_flatten]
  constructor
  · rintro ⟨l, hl, hr⟩
    obtain ⟨g, hg, rfl⟩ := List.mem_map.1 hl
    exact ⟨g, hg, hr⟩
  · rintro ⟨g, hg, hr⟩
    exact ⟨g.2, List.mem_map_of_mem hg, hr⟩

theorem Inv.isSome {s : List (ν × List ν) × List (ν × ν)} (h : Inv key t rs s) {r : ν} (hr : r ∈ rs) : ∃ g, s.2.lookup r = some g := by
  obtain ⟨g, hg, hr⟩ := h.mem.1 hr
  exact ⟨g.1, h.r2g g hg r hr⟩

/-- In the same group exactly if the same group is recorded. -/
theorem Inv.together {s : List (ν × List ν) × List (ν × ν)} (h : Inv key t rs s) (hn : rs.Nodup) {a b : ν} (ha : a ∈ rs) (hb : b ∈ rs) :
    Together s.1 a b ↔ s.2.lookup a = s.2.lookup b := by
  constructor
  · rintro ⟨g, hg, h1, h2⟩
    rw [h.r2g g hg a h1, h.r2g g hg b h2]
  · intro he
    obtain ⟨g, hg, h1⟩ := h.mem.1 ha
    obtain ⟨g', hg', h2⟩ := h.mem.1 hb
    rw [h.r2g g hg a h1, h.r2g g' hg' b h2, Option.some.injEq] at he
    have m1 : g.1 ∈ g.2 := List.mem_of_mem_head? (by rw [h.head g hg]; rfl)
    have m2 : g.1 ∈ g'.2 := by rw [he]; exact List.mem_of_mem_head? (by rw [h.head g' hg']; rfl)
    have hf : (s.1.map (·.2)).flatten.Nodup := h.perm.nodup_iff.2 hn
    have : g.2 = g'.2 := by
      have hp := (List.nodup_flatten.1 hf).2
      by_contra hne
      obtain ⟨i, hi, e1⟩ := List.mem_iff_getElem.1 (List.mem_map_of_mem (f := (·.2)) hg)
      obtain ⟨j, hj, e2⟩ := List.mem_iff_getElem.1 (List.mem_map_of_mem (f := (·.2)) hg')
      have hij : i ≠ j := by
        intro hij; subst hij; exact hne (e1.symm.trans e2)
      rcases Nat.lt_or_gt_of_ne hij with hlt | hlt
      · have := List.pairwise_iff_getElem.1 hp i j hi hj hlt
        rw [e1, e2] at this
        exact this m1 m2
      · have := List.pairwise_iff_getElem.1 hp j i hj hi hlt
        rw [e1, e2] at this
        exact this m2 m1
    exact ⟨g, hg, h1, by rw [this]; exact h2⟩

theorem pcKey_of_stable {s : List (ν × List ν) × List (ν × ν)} (h : Inv key t rs s) (hn : rs.Nodup) (hp : ∀ r ∈ rs, ∀ x ∈ t.par r, x ∈ rs)
    (hc : ∀ r ∈ rs, ∀ x ∈ t.chi r, x ∈ rs) {S : ν → ν → Prop} (hS : Stable (fun a b => key a = key b) t.par t.chi S) {a b : ν} (hab : S a b) (ha : a ∈ rs) (hb : b ∈ rs) :
    EqKey (pcKey t s.2 a) (pcKey t s.2 b) := by
  have lk : ∀ x y, S x y → x ∈ rs → y ∈ rs → s.2.lookup x = s.2.lookup y := fun x y hxy hx hy => (h.together hn hx hy).1 (h.coarse S hS x y hxy hx hy)
  obtain ⟨p1, p2⟩ := hS.parents a b hab
  obtain ⟨c1, c2⟩ := hS.children a b hab
  refine ⟨fun x => ?_, fun x => ?_⟩
  · simp only [pcKey, List.mem_filterMap]
    constructor
    · rintro ⟨p, hpa, hx⟩
      obtain ⟨q, hq, hpq⟩ := p1 p hpa
      exact ⟨q, hq, by rw [← lk p q hpq (hp a ha p hpa) (hp b hb q hq)]; exact hx⟩
    · rintro ⟨q, hqb, hx⟩
      obtain ⟨p, hpp, hpq⟩ := p2 q hqb
      exact ⟨p, hpp, by rw [lk p q hpq (hp a ha p hpp) (hp b hb q hqb)]; exact hx⟩
  · simp only [pcKey, List.mem_filterMap]
    constructor
    · rintro ⟨p, hpa, hx⟩
      obtain ⟨q, hq, hpq⟩ := c1 p hpa
      exact ⟨q, hq, by rw [← lk p q hpq (hc a ha p hpa) (hc b hb q hq)]; exact hx⟩
    · rintro ⟨q, hqb, hx⟩
      obtain ⟨p, hpp, hpq⟩ := c2 q hqb
      exact ⟨p, hpp, by rw [lk p q hpq (hc a ha p hpp) (hc b hb q hqb)]; exact hx⟩

/-- What the search for a split returns. -/
theorem findSplit_spec {s : List (ν × List ν) × List (ν × ν)} (h : Inv key t rs s) (hp : ∀ r ∈ rs, ∀ x ∈ t.par r, x ∈ rs)
    (hc : ∀ r ∈ rs, ∀ x ∈ t.chi r, x ∈ rs) : ∀ (gs : List (ν × List ν)), (∀ g ∈ gs, g ∈ s.1) →
    (findSplit t s.2 gs = .ok none ∧ ∀ g ∈ gs, ∀ a ∈ g.2, ∀ b ∈ g.2, EqKey (pcKey t s.2 a) (pcKey t s.2 b)) ∨
    (∃ g ∈ gs, ∃ parts, findSplit t s.2 gs = .ok (some (g.1, parts)) ∧ 1 < parts.length ∧ parts.flatten.Perm g.2 ∧ (∀ p ∈ parts, p ≠ []) ∧
      ∀ p ∈ parts, ∀ r ∈ p, ∀ x ∈ g.2, EqKey (pcKey t s.2 r) (pcKey t s.2 x) → x ∈ p)
  | [], _ => .inl ⟨rfl, fun _ h => by cases h⟩
  | (g, rules) :: gs, hm => by
    have ih := findSplit_spec h hp hc gs (fun x hx => hm x (List.mem_cons_of_mem _ hx))
    have hg := hm (g, rules) List.mem_cons_self
    have hin : ∀ r ∈ rules, r ∈ rs := fun r hr => h.mem.2 ⟨_, hg, hr⟩
    have go : findSplit t s.2 ((g, rules) :: gs) = findSplit t s.2 gs → (∀ a ∈ rules, ∀ b ∈ rules, EqKey (pcKey t s.2 a) (pcKey t s.2 b)) →
        (findSplit t s.2 ((g, rules) :: gs) = .ok none ∧ ∀ x ∈ (g, rules) :: gs, ∀ a ∈ x.2, ∀ b ∈ x.2, EqKey (pcKey t s.2 a) (pcKey t s.2 b)) ∨
        (∃ x ∈ (g, rules) :: gs, ∃ parts, findSplit t s.2 ((g, rules) :: gs) = .ok (some (x.1, parts)) ∧ 1 < parts.length ∧ parts.flatten.Perm x.2 ∧
          (∀ p ∈ parts, p ≠ []) ∧ ∀ p ∈ parts, ∀ r ∈ p, ∀ y ∈ x.2, EqKey (pcKey t s.2 r) (pcKey t s.2 y) → y ∈ p) := by
      intro he hall
      rw [he]
      rcases ih with ⟨e, ha⟩ | ⟨x, hx, parts, e, r⟩
      · refine .inl ⟨e, fun x hx => ?_⟩
        rcases List.mem_cons.1 hx with rfl | hx
        · exact hall
        · exact ha x hx
      · exact .inr ⟨x, List.mem_cons_of_mem _ hx, parts, e, r⟩
    by_cases h1 : rules.length = 1
    · refine go (by rw [findSplit, if_pos h1]) ?_
      obtain ⟨r, rfl⟩ := List.length_eq_one_iff.1 h1
      intro a ha b hb
      rw [List.mem_singleton.1 ha, List.mem_singleton.1 hb]
      exact ⟨fun _ => Iff.rfl, fun _ => Iff.rfl⟩
    · obtain ⟨parts, e, e1, e2, e3, e4⟩ := splitGroup_spec (t := t) (r2g := s.2) (rules := rules)
        (fun r hr => ⟨fun x hx => h.isSome (hp r (hin r hr) x hx), fun x hx => h.isSome (hc r (hin r hr) x hx)⟩)
      by_cases h2 : 1 < parts.length
      · refine .inr ⟨_, List.mem_cons_self, parts, ?_, h2, e1, e2, e4⟩
        rw [findSplit, if_neg h1, e]
        simp only [bind, Except.bind, if_pos h2]
        rfl
      · refine go ?_ ?_
        · rw [findSplit, if_neg h1, e]
          simp only [bind, Except.bind, if_neg h2]
        · intro a ha b hb
          obtain ⟨p, hp', ha'⟩ := List.mem_flatten.1 (e1.mem_iff.2 ha)
          obtain ⟨q, hq', hb'⟩ := List.mem_flatten.1 (e1.mem_iff.2 hb)
          have : p = q := by
            match parts, h2, hp', hq' with
            | [x], _, hp', hq' => rw [List.mem_singleton.1 hp', List.mem_singleton.1 hq']
            | _ :: _ :: _, h2, _, _ => simp at h2
          subst this
          exact e3 p hp' a ha' b hb'

theorem flatten_length_ge : ∀ (l : List (List ν)), (∀ p ∈ l, p ≠ []) → l.length ≤ l.flatten.length
  | [], _ => Nat.le_refl _
  | p :: l, h => by
    have := flatten_length_ge l (fun q hq => h q (List.mem_cons_of_mem _ hq))
    have hp : p.length ≠ 0 := fun h0 => h p List.mem_cons_self (List.length_eq_zero_iff.1 h0)
    rw [List.flatten_cons, List.length_append, List.length_cons]
    omega

theorem refine_step {s : List (ν × List ν) × List (ν × ν)} (h : Inv key t rs s) (hn : rs.Nodup) (hp : ∀ r ∈ rs, ∀ x ∈ t.par r, x ∈ rs)
    (hc : ∀ r ∈ rs, ∀ x ∈ t.chi r, x ∈ rs) {g : ν × List ν} (hg : g ∈ s.1) {parts : List (List ν)} (hl : 1 < parts.length) (hperm : parts.flatten.Perm g.2)
    (hne : ∀ p ∈ parts, p ≠ [])
    (hcl : ∀ p ∈ parts, ∀ r ∈ p, ∀ x ∈ g.2, EqKey (pcKey t s.2 r) (pcKey t s.2 x) → x ∈ p) :
    ∃ s', parts.foldlM addGroup (dictDel g.1 s.1, s.2) = .ok s' ∧ Inv key t rs s' ∧ s.1.length < s'.1.length := by
  have hflat : (s.1.map (·.2)).flatten.Nodup := h.perm.nodup_iff.2 hn
  obtain ⟨A, B, hAB⟩ := List.append_of_mem hg
  have hself : ∀ x ∈ s.1, x.1 ∈ x.2 := fun x hx => List.mem_of_mem_head? (by rw [h.head x hx]; rfl)
  have hfl : (s.1.map (·.2)).flatten.Perm (g.2 ++ ((A ++ B).map (·.2)).flatten) := by
    rw [hAB]
    simp only [List.map_append, List.map_cons, List.flatten_append, List.flatten_cons]
    rw [← List.append_assoc, ← List.append_assoc]
    exact List.perm_append_comm.append_right _
  obtain ⟨n1, n2, n3⟩ := List.nodup_append.1 (hfl.nodup_iff.1 hflat)
  have hsub : ∀ x ∈ A ++ B, x ∈ s.1 := by
    intro x hx
    rw [hAB]
    rcases List.mem_append.1 hx with hx | hx
    · exact List.mem_append_left _ hx
    · exact List.mem_append_right _ (List.mem_cons_of_mem _ hx)
  have hother : ∀ x ∈ A ++ B, ∀ r ∈ x.2, r ∉ g.2 := by
    intro x hx r hr hr'
    exact n3 r hr' r (List.mem_flatten.2 ⟨x.2, List.mem_map_of_mem hx, hr⟩) rfl
  have hk : ∀ x ∈ A ++ B, x.1 ≠ g.1 := by
    intro x hx he
    exact hother x hx x.1 (hself x (hsub x hx)) (by rw [he]; exact hself g hg)
  have hdel : dictDel g.1 s.1 = A ++ B := by
    rw [hAB]
    unfold dictDel
    rw [List.filter_append, List.filter_cons_of_neg (by simp), ← List.filter_append]
    exact List.filter_eq_self.2 (fun x hx => by simpa using hk x hx)
  rw [hdel]
  have hmemp : ∀ x, x ∈ parts.flatten ↔ x ∈ g.2 := fun x => hperm.mem_iff
  obtain ⟨s', e, e1, e2, e3, e4⟩ := addGroups_spec parts (A ++ B, s.2) hne (hperm.nodup_iff.2 n1) (by
    intro x hx hx'
    obtain ⟨y, hy, rfl⟩ := List.mem_map.1 hx'
    exact hother y hy y.1 (hself y (hsub y hy)) ((hmemp _).1 hx))
  simp only at e1 e2 e4
  -- a group of the new state is an old one or a part
  have hcase : ∀ x ∈ s'.1, (x ∈ A ++ B ∨ x.2.head? = some x.1) ∧ ((∃ y ∈ A ++ B, y.2 = x.2) ∨ x.2 ∈ parts) := by
    intro x hx
    refine ⟨e2 x hx, ?_⟩
    have : x.2 ∈ s'.1.map (·.2) := List.mem_map_of_mem hx
    rw [e1] at this
    rcases List.mem_append.1 this with hm | hm
    · obtain ⟨y, hy, he⟩ := List.mem_map.1 hm
      exact .inl ⟨y, hy, he⟩
    · exact .inr hm
  have hhead : ∀ x ∈ s'.1, x.2.head? = some x.1 := by
    intro x hx
    rcases (hcase x hx).1 with hx' | hx'
    · exact h.head x (hsub x hx')
    · exact hx'
  have hpg : ∀ p ∈ parts, ∀ r ∈ p, r ∈ g.2 := fun p hp' r hr => (hmemp r).1 (List.mem_flatten.2 ⟨p, hp', hr⟩)
  refine ⟨s', e, ⟨?_, hhead, ?_, ?_, ?_⟩, ?_⟩
  · rw [e1, List.flatten_append]
    exact (List.perm_append_comm.trans (hperm.append_right _)).trans (hfl.symm.trans h.perm)
  · intro x hx r hr
    rcases (hcase x hx).2 with ⟨y, hy, he⟩ | hm
    · rw [← he] at hr
      rw [e4 r (fun hc' => hother y hy r hr ((hmemp r).1 hc')), h.r2g y (hsub y hy) r hr, ← h.head y (hsub y hy), he, hhead x hx]
    · rw [e3 x.2 hm r hr, hhead x hx]
  · intro x hx a ha b hb
    rcases (hcase x hx).2 with ⟨y, hy, he⟩ | hm
    · rw [← he] at ha hb
      exact h.alike y (hsub y hy) a ha b hb
    · exact h.alike g hg a (hpg _ hm a ha) b (hpg _ hm b hb)
  · intro S hS a b hab ha hb
    obtain ⟨y, hy, h1, h2⟩ := h.coarse S hS a b hab ha hb
    have find : ∀ l, l ∈ s'.1.map (·.2) → a ∈ l → b ∈ l → Together s'.1 a b := by
      intro l hl' h1 h2
      obtain ⟨z, hz, rfl⟩ := List.mem_map.1 hl'
      exact ⟨z, hz, h1, h2⟩
    rw [hAB] at hy
    rcases List.mem_append.1 hy with hy | hy
    · exact find y.2 (by rw [e1]; exact List.mem_append_left _ (List.mem_map_of_mem (List.mem_append_left _ hy))) h1 h2
    · rcases List.mem_cons.1 hy with rfl | hy
      · obtain ⟨p, hp', ha'⟩ := List.mem_flatten.1 ((hmemp a).2 h1)
        exact find p (by rw [e1]; exact List.mem_append_right _ hp') ha' (hcl p hp' a ha' b h2 (pcKey_of_stable h hn hp hc hS hab ha hb))
      · exact find y.2 (by rw [e1]; exact List.mem_append_left _ (List.mem_map_of_mem (List.mem_append_right _ hy))) h1 h2
  · have l1 := congrArg List.length e1
    simp only [List.length_map, List.length_append] at l1
    rw [hAB, l1]
    simp only [List.length_append, List.length_cons]
    omega

/-- The groups before the loop. -/
theorem initial_spec (uid : ν → Nat) (hn : rs.Nodup) {sorted : List ν} (hs : sortM (fun a b => keyLt (key a) (key b)) rs = .ok sorted) :
    ∃ s, ((runs key sorted).map (Deps.sortBy (pcLe uid t))).foldlM addGroup ([], []) = .ok s ∧ Inv key t rs s := by
  have hperm := sortM_perm hs
  have hsort : sorted.Pairwise fun a b => simCode (key a) ≤ simCode (key b) :=
    sortM_sorted (code := fun a => simCode (key a)) (fun a b c h => keyLt_code h) hs
  obtain ⟨r1, r2, r3⟩ := runs_spec (key := key) sorted
  have r4 := runs_apart (key := key) (code := fun a => simCode (key a)) (fun a b => ⟨simCode_inj, fun h => by rw [h]⟩) sorted hsort
  have sb : ∀ l : List ν, (Deps.sortBy (pcLe uid t) l).Perm l := fun l => Deps.sortBy_perm _ l
  have hflat : ∀ L : List (List ν), (L.map (Deps.sortBy (pcLe uid t))).flatten.Perm L.flatten := by
    intro L
    induction L with
    | nil => exact List.Perm.refl _
    | cons p L ih => exact (sb p).append ih
  have hfl : ((runs key sorted).map (Deps.sortBy (pcLe uid t))).flatten.Perm rs := (hflat (runs key sorted)).trans (by rw [r1]; exact hperm)
  obtain ⟨s, e, e1, e2, e3, e4⟩ := addGroups_spec ((runs key sorted).map (Deps.sortBy (pcLe uid t))) ([], []) (by
      intro p hp he
      obtain ⟨q, hq, rfl⟩ := List.mem_map.1 hp
      have := sb q
      rw [he] at this
      exact r2 q hq (List.perm_nil.1 this.symm)) (hfl.nodup_iff.2 hn) (by simp)
  simp only [List.map_nil, List.nil_append] at e1
  have hhead : ∀ x ∈ s.1, x.2.head? = some x.1 := by
    intro x hx
    rcases e2 x hx with h | h
    · cases h
    · exact h
  have hrun : ∀ x ∈ s.1, ∃ r ∈ runs key sorted, x.2.Perm r := by
    intro x hx
    have : x.2 ∈ s.1.map (·.2) := List.mem_map_of_mem hx
    rw [e1] at this
    obtain ⟨r, hr, he⟩ := List.mem_map.1 this
    exact ⟨r, hr, by rw [← he]; exact sb r⟩
  refine ⟨s, e, by rw [e1]; exact hfl, hhead, ?_, ?_, ?_⟩
  · intro x hx r hr
    rw [e3 x.2 (by rw [← e1]; exact List.mem_map_of_mem hx) r hr, hhead x hx]
  · intro x hx a ha b hb
    obtain ⟨r, hr, hp⟩ := hrun x hx
    exact r3 r hr a (hp.mem_iff.1 ha) b (hp.mem_iff.1 hb)
  · intro S hS a b hab ha hb
    have hk := hS.alike a b hab
    have inrun : ∀ c ∈ rs, ∃ r ∈ runs key sorted, c ∈ r := by
      intro c hc
      have : c ∈ (runs key sorted).flatten := by rw [r1]; exact hperm.mem_iff.2 hc
      obtain ⟨r, h1, h2⟩ := List.mem_flatten.1 this
      exact ⟨r, h1, h2⟩
    obtain ⟨r, hr, har⟩ := inrun a ha
    obtain ⟨q, hq, hbq⟩ := inrun b hb
    have hrq : r = q := by
      by_contra hne
      obtain ⟨i, hi, e5⟩ := List.mem_iff_getElem.1 hr
      obtain ⟨j, hj, e6⟩ := List.mem_iff_getElem.1 hq
      have hij : i ≠ j := by
        intro hij; subst hij; exact hne (e5.symm.trans e6)
      rcases Nat.lt_or_gt_of_ne hij with hlt | hlt
      · have := List.pairwise_iff_getElem.1 r4 i j hi hj hlt
        rw [e5, e6] at this
        exact this a har b hbq hk
      · have := List.pairwise_iff_getElem.1 r4 j i hj hi hlt
        rw [e5, e6] at this
        exact this b hbq a har hk.symm
    subst hrq
    have hm : Deps.sortBy (pcLe uid t) r ∈ s.1.map (·.2) := by rw [e1]; exact List.mem_map_of_mem hr
    obtain ⟨g, hg, he⟩ := List.mem_map.1 hm
    exact ⟨g, hg, by rw [he]; exact (sb r).mem_iff.2 har, by rw [he]; exact (sb r).mem_iff.2 hbq⟩

/-- The loop ends in a stable state. -/
theorem refine_spec (hn : rs.Nodup) (hp : ∀ r ∈ rs, ∀ x ∈ t.par r, x ∈ rs) (hc : ∀ r ∈ rs, ∀ x ∈ t.chi r, x ∈ rs) :
    ∀ (fuel : Nat) (s : List (ν × List ν) × List (ν × ν)), Inv key t rs s → rs.length < fuel + s.1.length →
    ∃ s', refine t fuel s = .ok s' ∧ Inv key t rs s' ∧ ∀ g ∈ s'.1, ∀ a ∈ g.2, ∀ b ∈ g.2, EqKey (pcKey t s'.2 a) (pcKey t s'.2 b)
  | 0, s, h, hf => by
    exfalso
    have h1 := flatten_length_ge (s.1.map (·.2)) (by
      intro p hp'
      obtain ⟨g, hg, rfl⟩ := List.mem_map.1 hp'
      intro he
      have := h.head g hg
      rw [he] at this
      cases this)
    rw [h.perm.length_eq, List.length_map] at h1
    omega
  | fuel + 1, s, h, hf => by
    rcases findSplit_spec h hp hc s.1 (fun _ h => h) with ⟨e, ha⟩ | ⟨g, hg, parts, e, h1, h2, h3, h4⟩
    · exact ⟨s, by rw [refine, e]; rfl, h, ha⟩
    · obtain ⟨s1, e1, hi, hlt⟩ := refine_step h hn hp hc hg h1 h2 h3 h4
      obtain ⟨s2, e2, r⟩ := refine_spec hn hp hc fuel s1 hi (by omega)
      refine ⟨s2, ?_, r⟩
      rw [refine, e]
      simp only [bind, Except.bind]
      rw [e1]
      exact e2

end Groups
end OFE
