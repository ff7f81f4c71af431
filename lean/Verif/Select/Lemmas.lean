import Verif.Select.Model
import Verif.Groups.Lemmas
import Mathlib.Tactic.ByContra

/-! # Lemmas about the selection of rules -/

namespace OFE
namespace Groups

variable {ν : Type} [DecidableEq ν]

/-- `y` depends on `x` or `x` on `y`. -/
def Adj (t : Tree.Links ν) (x y : ν) : Prop := y ∈ t.chi x ∨ y ∈ t.par x

/-- What is used about the dependencies and the classes of similar rules. -/
structure Graph (t : Tree.Links ν) (rs : List ν) (cls : ν → ν → Prop) (le : ν → ν → Bool) : Prop where
  nodup : rs.Nodup
  sym : ∀ x y, y ∈ t.chi x ↔ x ∈ t.par y
  range : ∀ x y, Adj t x y → y ∈ rs
  clsRange : ∀ x y, cls x y → x ∈ rs
  stable : ∀ x y, cls x y → ∀ d, Adj t x d → ∃ d', Adj t y d' ∧ cls d d'
  below : ∀ x y, y ∈ t.chi x → le y x = false
  rank : ∀ x y, cls x y → le x y = true
  total : ∀ a b, le a b = true ∨ le b a = true
  trans : ∀ a b c, le a b = true → le b c = true → le a c = true
  refl : ∀ x ∈ rs, cls x x
  symm : ∀ x y, cls x y → cls y x
  cut : ∀ x y z, cls x y → cls y z → cls x z

/-- The state between rounds. -/
structure SelInv (rs : List ν) (cls : ν → ν → Prop) (s : Sel ν) : Prop where
  perm : (s.groups.map (·.2)).flatten.Perm rs
  head : ∀ g ∈ s.groups, g.2.head? = some g.1
  r2g : ∀ g ∈ s.groups, ∀ r ∈ g.2, s.r2g.lookup r = some g.1
  same : ∀ a b, Together s.groups a b ↔ cls a b
  keys : ∀ a ∈ s.assigned, a ∈ s.groups.map (·.1)

/-- Chosen rules keep all dependencies with chosen rules. -/
def Cons (t : Tree.Links ν) (s : Sel ν) : Prop :=
  ∀ a ∈ s.assigned, ∀ d, Adj t a d → ∀ g, s.r2g.lookup d = some g → g ∈ s.assigned → Adj t a g

/-- The rule has all dependencies with chosen rules that its group has. -/
def Full (t : Tree.Links ν) (s : Sel ν) (o : ν) : Prop := ∀ d, Adj t o d → ∀ g, s.r2g.lookup d = some g → g ∈ s.assigned → Adj t o g

section
variable {t : Tree.Links ν} {rs : List ν} {cls : ν → ν → Prop} {le : ν → ν → Bool} {s : Sel ν}

theorem Graph.adj_symm (G : Graph t rs cls le) {x y : ν} (h : Adj t x y) : Adj t y x := by
  rcases h with h | h
  · exact .inr ((G.sym x y).1 h)
  · exact .inl ((G.sym y x).2 h)

theorem Graph.apart (G : Graph t rs cls le) {x y : ν} (h : Adj t x y) : ¬ cls x y := by
  intro hc
  rcases h with h | h
  · have := G.below x y h
    rw [G.rank y x (G.symm _ _ hc)] at this; cases this
  · have := G.below y x ((G.sym y x).2 h)
    rw [G.rank x y hc] at this; cases this

theorem SelInv.mem (h : SelInv rs cls s) {r : ν} : r ∈ rs ↔ ∃ g ∈ s.groups, r ∈ g.2 := by
  rw [← h.perm.mem_iff, List.mem_flatten]
  constructor
  · rintro ⟨l, hl, hr⟩
    obtain ⟨g, hg, rfl⟩ := List.mem_map.1 hl
    exact ⟨g, hg, hr⟩
  · rintro ⟨g, hg, hr⟩
    exact ⟨g.2, List.mem_map_of_mem hg, hr⟩

theorem SelInv.headMem (h : SelInv rs cls s) {g : ν × List ν} (hg : g ∈ s.groups) : g.1 ∈ g.2 :=
  List.mem_of_mem_head? (by rw [h.head g hg]; rfl)

/-- The recorded key of a rule is a key and of its class. -/
theorem SelInv.look (h : SelInv rs cls s) {x g : ν} (hx : x ∈ rs) (e : s.r2g.lookup x = some g) : cls x g ∧ s.r2g.lookup g = some g ∧ g ∈ s.groups.map (·.1) := by
  obtain ⟨gr, hg, hr⟩ := h.mem.1 hx
  have := h.r2g gr hg x hr
  rw [e, Option.some.injEq] at this
  subst this
  exact ⟨(h.same _ _).1 ⟨gr, hg, hr, h.headMem hg⟩, h.r2g gr hg _ (h.headMem hg), List.mem_map_of_mem hg⟩

/-- A key is recorded for all of its class. -/
theorem SelInv.rep (h : SelInv rs cls s) (G : Graph t rs cls le) {a x : ν} (ha : a ∈ s.groups.map (·.1)) (hx : cls x a) : s.r2g.lookup x = some a := by
  obtain ⟨gr, hg, rfl⟩ := List.mem_map.1 ha
  obtain ⟨g', hg', h1, h2⟩ := (h.same _ _).2 hx
  rw [h.r2g g' hg' x h1, ← h.r2g g' hg' _ h2, h.r2g gr hg _ (h.headMem hg)]

theorem SelInv.isSome (h : SelInv rs cls s) {x : ν} (hx : x ∈ rs) : ∃ g, s.r2g.lookup x = some g := by
  obtain ⟨gr, hg, hr⟩ := h.mem.1 hx
  exact ⟨_, h.r2g gr hg x hr⟩

theorem SelInv.nodupKeys (h : SelInv rs cls s) (G : Graph t rs cls le) : (s.groups.map (·.1)).Nodup := by
  have hn : (s.groups.map (·.2)).flatten.Nodup := h.perm.nodup_iff.2 G.nodup
  have hp := (List.nodup_flatten.1 hn).2
  rw [List.pairwise_map] at hp
  rw [List.Nodup, List.pairwise_map]
  refine hp.imp_of_mem ?_
  intro a b ha hb hd e
  exact hd (h.headMem ha) (e ▸ h.headMem hb)

theorem SelInv.keyMem (h : SelInv rs cls s) {a : ν} (ha : a ∈ s.groups.map (·.1)) : a ∈ rs := by
  obtain ⟨gr, hg, rfl⟩ := List.mem_map.1 ha
  exact h.mem.2 ⟨gr, hg, h.headMem hg⟩

omit [DecidableEq ν] in
theorem getKey_ok [DecidableEq ν] {β : Type} {d : List (ν × β)} {k : ν} {v : β} (h : getKey d k = .ok v) : d.lookup k = some v := by
  unfold getKey at h
  split at h <;> cases h
  assumption

/-- Moving a later element to the front in exchange for the first. -/
theorem swap_perm {o new : ν} {rest : List ν} (h : new ∈ rest) : (new :: rest.set (rest.idxOf new) o).Perm (o :: rest) := by
  induction rest with
  | nil => cases h
  | cons y ys ih =>
    by_cases e : y = new
    · subst e
      rw [List.idxOf_cons_self]
      exact .swap _ _ _
    · have h' : new ∈ ys := (List.mem_cons.1 h).resolve_left (Ne.symm e)
      rw [List.idxOf_cons_ne _ e, List.set_cons_succ]
      exact (List.Perm.swap _ _ _).trans (((ih h').cons y).trans (.swap _ _ _))

/-- What a change of the choice does. -/
theorem switch_spec (h : SelInv rs cls s) (G : Graph t rs cls le) {new : ν} (hnew : new ∈ rs) {s' : Sel ν} (e : switchAssigned s new = .ok s') :
    SelInv rs cls s' ∧ new ∈ s'.groups.map (·.1) ∧ (∀ x, cls x new → s'.r2g.lookup x = some new) ∧ (∀ x, ¬ cls x new → s'.r2g.lookup x = s.r2g.lookup x) ∧
    (∀ a, a ∈ s'.assigned ↔ (a ∈ s.assigned ∧ ¬ cls a new) ∨ (a = new ∧ ∃ b ∈ s.assigned, cls b new)) ∧
    ∀ k ∈ s.groups.map (·.1), ¬ cls k new → k ∈ s'.groups.map (·.1) := by
  unfold switchAssigned at e
  obtain ⟨old, ho⟩ := h.isSome hnew
  obtain ⟨h1, h2, h3⟩ := h.look hnew ho
  have hg : getKey s.r2g new = .ok old := by rw [getKey, ho]
  rw [hg] at e
  simp only [bind, Except.bind] at e
  by_cases hon : old = new
  · rw [if_pos hon] at e
    cases e
    subst hon
    refine ⟨h, h3, fun x hx => h.rep G h3 hx, fun _ _ => rfl, fun a => ?_, fun k hk _ => hk⟩
    constructor
    · intro ha
      by_cases hc : cls a old
      · have := h.rep G (h.keys a ha) (G.symm _ _ hc)
        rw [ho, Option.some.injEq] at this
        subst this
        exact .inr ⟨rfl, _, ha, hc⟩
      · exact .inl ⟨ha, hc⟩
    · rintro (⟨ha, -⟩ | ⟨rfl, b, hb, hc⟩)
      · exact ha
      · have := h.rep G (h.keys b hb) (G.symm _ _ hc)
        rw [ho, Option.some.injEq] at this
        rw [this]; exact hb
  · rw [if_neg hon] at e
    cases hopts : getKey s.groups old with
    | error x => rw [hopts] at e; cases e
    | ok opts =>
      rw [hopts] at e
      have hmem := mem_of_lookup_eq_some (getKey_ok hopts)
      have hhead := h.head _ hmem
      cases opts with
      | nil => cases e
      | cons o rest =>
        simp only [List.head?_cons, Option.some.injEq] at hhead
        subst hhead
        simp only at e
        by_cases hin : new ∈ o :: rest
        · rw [if_pos hin, if_neg hon] at e
          simp only [pure, Except.pure] at e
          have hrest : new ∈ rest := (List.mem_cons.1 hin).resolve_left (Ne.symm hon)
          -- members of the class
          have hcls : ∀ x, cls x new ↔ x ∈ o :: rest := by
            intro x
            constructor
            · intro hx
              obtain ⟨g', hg', hx1, hx2⟩ := (h.same _ _).2 hx
              have e1 := h.r2g g' hg' new hx2
              rw [ho, Option.some.injEq] at e1
              have e2 : g' = (o, o :: rest) := by
                have := lookup_eq_some_of_mem (h.nodupKeys G) hg'
                rw [← e1, getKey_ok hopts, Option.some.injEq] at this
                exact Prod.ext e1.symm this.symm
              rw [e2] at hx1; exact hx1
            · intro hx
              exact (h.same _ _).1 ⟨_, hmem, hx, hin⟩
          have hnk : new ∉ s.groups.map (·.1) := by
            intro hk
            have := h.rep G hk (G.refl _ hnew)
            rw [ho, Option.some.injEq] at this
            exact hon this
          have hnk' : new ∉ (dictDel o s.groups).map (·.1) := by
            rw [mem_keys_dictDel]; exact fun hc => hnk hc.2
          have hsw := swap_perm (o := o) hrest
          have hdel : ∀ g, g ∈ dictDel o s.groups ↔ g ∈ s.groups ∧ g.1 ≠ o := by
            intro g; unfold dictDel; rw [List.mem_filter]; simp
          have hkeyo : ∀ g ∈ s.groups, g.1 = o → g = (o, o :: rest) := by
            intro g hg' e1
            have := lookup_eq_some_of_mem (h.nodupKeys G) hg'
            rw [e1, getKey_ok hopts, Option.some.injEq] at this
            exact Prod.ext e1 this.symm
          have hnot : ∀ g ∈ s.groups, g.1 ≠ o → ∀ x ∈ g.2, ¬ cls x new := by
            intro g hg' hne x hx hc
            have e1 := h.r2g g hg' x hx
            rw [h.r2g _ hmem x ((hcls x).1 hc), Option.some.injEq] at e1
            exact hne e1.symm
          injection e with e
          subst e
          simp only
          rw [dictSet_new _ hnk']
          have hr2g : ∀ x, ((o :: rest).foldl (fun m r => dictSet r new m) s.r2g).lookup x = if x ∈ o :: rest then some new else s.r2g.lookup x := fun x =>
            lookup_foldl_dictSet new (o :: rest) s.r2g x
          have hasg : ∀ a, a ∈ (if o ∈ s.assigned then new :: s.assigned.filter (fun x => decide (x ≠ o)) else s.assigned) ↔
              (a ∈ s.assigned ∧ ¬ cls a new) ∨ (a = new ∧ ∃ b ∈ s.assigned, cls b new) := by
            intro a
            have hao : ∀ b ∈ s.assigned, cls b new → b = o := by
              intro b hb hc
              have := h.rep G (h.keys b hb) (G.symm _ _ hc)
              rw [ho, Option.some.injEq] at this
              exact this.symm
            have hoc : cls o new := (hcls o).2 List.mem_cons_self
            split
            · rename_i hoa
              simp only [List.mem_cons, List.mem_filter, decide_eq_true_eq]
              constructor
              · rintro (rfl | ⟨ha, hne⟩)
                · exact .inr ⟨rfl, o, hoa, hoc⟩
                · exact .inl ⟨ha, fun hc => hne (hao a ha hc)⟩
              · rintro (⟨ha, hc⟩ | ⟨rfl, -⟩)
                · exact .inr ⟨ha, fun e' => hc (e' ▸ hoc)⟩
                · exact .inl rfl
            · rename_i hoa
              constructor
              · intro ha
                exact .inl ⟨ha, fun hc => hoa (hao a ha hc ▸ ha)⟩
              · rintro (⟨ha, -⟩ | ⟨-, b, hb, hc⟩)
                · exact ha
                · exact absurd (hao b hb hc ▸ hb) hoa
          have hperm : (((dictDel o s.groups ++ [(new, new :: rest.set (rest.idxOf new) o)]).map (·.2)).flatten).Perm rs := by
            refine List.Perm.trans ?_ h.perm
            have split1 : ∀ (l : List (ν × List ν)), (l.map (·.1)).Nodup → (o, o :: rest) ∈ l → (((dictDel o l).map (·.2)).flatten ++ (o :: rest)).Perm (l.map (·.2)).flatten := by
              intro l
              induction l with
              | nil => intro _ hm; cases hm
              | cons y ys ih =>
                intro hnd hm
                rw [List.map_cons, List.nodup_cons] at hnd
                rcases List.mem_cons.1 hm with rfl | hm
                · have : dictDel o ((o, o :: rest) :: ys) = ys := by
                    unfold dictDel
                    rw [List.filter_cons_of_neg (by simp), List.filter_eq_self]
                    intro z hz
                    simp only [ne_eq, decide_not, Bool.not_eq_eq_eq_not, Bool.not_true, decide_eq_false_iff_not]
                    intro e'; exact hnd.1 (by rw [show ((o, o :: rest) : ν × List ν).1 = z.1 from e'.symm]; exact List.mem_map_of_mem (f := (·.1)) hz)
                  rw [this, List.map_cons, List.flatten_cons]
                  exact List.perm_append_comm
                · have hy : y.1 ≠ o := by
                    intro e'; exact hnd.1 (e' ▸ List.mem_map_of_mem (f := (·.1)) hm)
                  have : dictDel o (y :: ys) = y :: dictDel o ys := by
                    unfold dictDel
                    rw [List.filter_cons_of_pos (by simp [hy])]
                  rw [this, List.map_cons, List.flatten_cons, List.map_cons, List.flatten_cons, List.append_assoc]
                  exact (ih hnd.2 hm).append_left _
            refine List.Perm.trans ?_ (split1 s.groups (h.nodupKeys G) hmem)
            rw [List.map_append, List.flatten_append]
            refine List.Perm.append_left _ ?_
            simpa using hsw
          have hmemg : ∀ g, g ∈ dictDel o s.groups ++ [(new, new :: rest.set (rest.idxOf new) o)] ↔
              (g ∈ s.groups ∧ g.1 ≠ o) ∨ g = (new, new :: rest.set (rest.idxOf new) o) := by
            intro g; rw [List.mem_append, hdel, List.mem_singleton]
          refine ⟨⟨hperm, ?_, ?_, ?_, ?_⟩, ?_, ?_, ?_, hasg, ?_⟩
          · intro g hg'
            rcases (hmemg g).1 hg' with ⟨hg', -⟩ | rfl
            · exact h.head g hg'
            · rfl
          · intro g hg' r hr
            simp only
            rw [hr2g]
            rcases (hmemg g).1 hg' with ⟨hg', hne⟩ | rfl
            · rw [if_neg (fun hc => hnot g hg' hne r hr ((hcls r).2 hc))]
              exact h.r2g g hg' r hr
            · rw [if_pos (hsw.mem_iff.1 hr)]
          · intro a b
            rw [← h.same]
            constructor
            · rintro ⟨g, hg', h1', h2'⟩
              rcases (hmemg g).1 hg' with ⟨hg', -⟩ | rfl
              · exact ⟨g, hg', h1', h2'⟩
              · exact ⟨_, hmem, hsw.mem_iff.1 h1', hsw.mem_iff.1 h2'⟩
            · rintro ⟨g, hg', h1', h2'⟩
              by_cases hgo : g.1 = o
              · rw [hkeyo g hg' hgo] at h1' h2'
                exact ⟨_, (hmemg _).2 (.inr rfl), hsw.mem_iff.2 h1', hsw.mem_iff.2 h2'⟩
              · exact ⟨g, (hmemg g).2 (.inl ⟨hg', hgo⟩), h1', h2'⟩
          · intro a ha
            rcases (hasg a).1 ha with ⟨ha, hc⟩ | ⟨rfl, -⟩
            · obtain ⟨g, hg', rfl⟩ := List.mem_map.1 (h.keys a ha)
              refine List.mem_map_of_mem ((hmemg g).2 (.inl ⟨hg', fun e' => hc ?_⟩))
              rw [e']; exact (hcls o).2 List.mem_cons_self
            · exact List.mem_map_of_mem (f := (·.1)) ((hmemg (a, _)).2 (.inr rfl))
          · exact List.mem_map_of_mem (f := (·.1)) ((hmemg (new, _)).2 (.inr rfl))
          · intro x hx
            rw [hr2g, if_pos ((hcls x).1 hx)]
          · intro x hx
            rw [hr2g, if_neg (fun hc => hx ((hcls x).2 hc))]
          · intro k hk hc
            obtain ⟨g, hg', rfl⟩ := List.mem_map.1 hk
            exact List.mem_map_of_mem ((hmemg g).2 (.inl ⟨hg', fun e' => hc (by rw [e']; exact (hcls o).2 List.mem_cons_self)⟩))
        · rw [if_neg hin] at e; cases e

/-- Changing to a rule that has all its group's dependencies keeps the choices consistent. -/
theorem switch_cons (h : SelInv rs cls s) (G : Graph t rs cls le) (hc : Cons t s) {new : ν} (hnew : new ∈ rs) (hf : Full t s new ∨ ∀ b ∈ s.assigned, ¬ cls b new)
    {s' : Sel ν} (e : switchAssigned s new = .ok s') : Cons t s' := by
  obtain ⟨h', hk', hr1, hr2, ha, -⟩ := switch_spec h G hnew e
  intro a ha' d hd g hg hga
  rcases (ha a).1 ha' with ⟨a1, a2⟩ | ⟨rfl, b, hb, hbc⟩
  · by_cases hdn : cls d new
    · rw [hr1 d hdn, Option.some.injEq] at hg
      subst hg
      rcases (ha _).1 hga with ⟨-, x⟩ | ⟨-, b, hb, hbc⟩
      · exact absurd (G.refl _ hnew) x
      · rcases hf with hf | hf
        · obtain ⟨a', ha'', hcc⟩ := G.stable d _ hdn a (G.adj_symm hd)
          exact G.adj_symm (hf a' ha'' a (h.rep G (h.keys a a1) (G.symm _ _ hcc)) a1)
        · exact absurd hbc (hf b hb)
    · rw [hr2 d hdn] at hg
      refine hc a a1 d hd g hg ?_
      rcases (ha g).1 hga with ⟨x, -⟩ | ⟨rfl, -⟩
      · exact x
      · exact absurd (h.look (G.range _ _ hd) hg).1 hdn
  · rcases hf with hf | hf
    · have hdn : ¬ cls d a := fun x => G.apart hd (G.symm _ _ x)
      rw [hr2 d hdn] at hg
      refine hf d hd g hg ?_
      rcases (ha g).1 hga with ⟨x, -⟩ | ⟨rfl, -⟩
      · exact x
      · exact absurd (h.look (G.range _ _ hd) hg).1 hdn
    · exact absurd hbc (hf b hb)

/-- Being full is not changed by choosing the rule itself. -/
theorem switch_full (h : SelInv rs cls s) (G : Graph t rs cls le) {new : ν} (hnew : new ∈ rs) (hf : Full t s new)
    {s' : Sel ν} (e : switchAssigned s new = .ok s') : Full t s' new := by
  obtain ⟨h', hk', hr1, hr2, ha, -⟩ := switch_spec h G hnew e
  intro d hd g hg hga
  have hdn : ¬ cls d new := fun x => G.apart hd (G.symm _ _ x)
  rw [hr2 d hdn] at hg
  refine hf d hd g hg ?_
  rcases (ha g).1 hga with ⟨x, -⟩ | ⟨rfl, -⟩
  · exact x
  · exact absurd (h.look (G.range _ _ hd) hg).1 hdn

/-- Adding a choice. -/
theorem add_cons (h : SelInv rs cls s) (G : Graph t rs cls le) (hc : Cons t s) {o : ν} (ho : o ∈ s.groups.map (·.1)) (hf : Full t s o) :
    SelInv rs cls { s with assigned := o :: s.assigned } ∧ Cons t { s with assigned := o :: s.assigned } := by
  refine ⟨⟨h.perm, h.head, h.r2g, h.same, ?_⟩, ?_⟩
  · intro a ha
    rcases List.mem_cons.1 ha with rfl | ha
    · exact ho
    · exact h.keys a ha
  · intro a ha d hd g hg hga
    simp only at hg
    have hdg := (h.look (G.range _ _ hd) hg).1
    rcases List.mem_cons.1 ha with rfl | ha2
    · rcases List.mem_cons.1 hga with rfl | hga2
      · exact absurd (G.symm _ _ hdg) (G.apart hd)
      · exact hf d hd g hg hga2
    · rcases List.mem_cons.1 hga with rfl | hga2
      · obtain ⟨a', ha'', hcc⟩ := G.stable d _ hdg a (G.adj_symm hd)
        exact G.adj_symm (hf a' ha'' a (h.rep G (h.keys a ha2) (G.symm _ _ hcc)) ha2)
      · exact hc a ha2 d hd g hg hga2

end

end Groups
end OFE
