import Verif.Actions.GroupView
import Verif.Props.Redundant
import Mathlib.Data.List.Forall2

/-!
# Lemmas: the per-output view of actions with groups
-/

namespace OFE

/-- Without groups this is the view of `Redundant.lean`. -/
theorem perOutputLoopG_flat (grp : Nat → Except PyErr (List (OutKey × ActionList))) (xs : List Action) (h : ∀ g, Action.group g ∉ xs) (cur : ActionList)
    (res : List (OutKey × ActionList)) : perOutputLoopG grp xs cur res = perOutputLoop xs cur res := by
  induction xs generalizing cur res with
  | nil => rfl
  | cons a xs ih =>
    have h' : ∀ g, Action.group g ∉ xs := fun g hg => h g (List.mem_cons_of_mem _ hg)
    have := fun c r => ih h' c r
    cases a with
    | group g => exact absurd List.mem_cons_self (h g)
    | _ => simp only [perOutputLoopG, perOutputLoop, this]

theorem perOutputPtG_flat (heap : Nat → Option GroupVal) (k : Nat) (l : ActionList) (h : ∀ g, Action.group g ∉ l.iter) :
    l.perOutputPtG heap k = l.perOutputPt := by
  unfold ActionList.perOutputPtG ActionList.perOutputPt ActionList.perOutputList
  cases k <;> simp only [perOutputIter, perOutputLoopG_flat _ _ h]

/-- The outputs with the packet-changing actions before them, after `m`; `O g` has those of a group. -/
def outsWith (O : Nat → List (Nat × List Action)) (m : List Action) : List Action → List (Nat × List Action)
  | [] => []
  | .output n :: xs => (n, m) :: outsWith O m xs
  | .group g :: xs => (O g).map (fun x => (x.1, m ++ x.2)) ++ outsWith O m xs
  | a :: xs => outsWith O (m ++ [a]) xs

/-- The outputs that a list with groups reaches. -/
def outsG (heap : Nat → Option GroupVal) : Nat → List Action → List (Nat × List Action)
  | 0, xs => outsWith (fun _ => []) [] xs
  | k + 1, xs => outsWith (fun g => match heap g with | none => [] | some G => G.buckets.flatMap (outsG heap k)) [] xs

/-- The packet-changing actions, GROUP and OUTPUT left out. -/
def modsG : List Action → List Action
  | [] => []
  | .output _ :: xs => modsG xs
  | .group _ :: xs => modsG xs
  | a :: xs => a :: modsG xs

/-- An entry of the dict stands for an output. -/
def OutEntry (e : OutKey × ActionList) (x : Nat × List Action) : Prop :=
  e.1 = .port x.1 ∧ e.2.levels = (mkList (x.2 ++ [.output x.1])).levels

/-- The dict stands for a list of outputs; `'pass'` may be anywhere. -/
structure ViewOf (res : List (OutKey × ActionList)) (outs : List (Nat × List Action)) : Prop where
  entries : List.Forall₂ OutEntry (dictDel .pass res) outs
  known : ∀ e ∈ res, AllKnown e.2.iter
  keys : (res.map Prod.fst).Nodup

theorem dictDel_set_same {κ ν : Type} [DecidableEq κ] (k : κ) (v : ν) (d : List (κ × ν)) : dictDel k (dictSet k v d) = dictDel k d := by
  induction d with
  | nil => simp [dictSet, dictDel]
  | cons x d ih =>
    obtain ⟨k2, v2⟩ := x
    unfold dictSet
    by_cases h : k2 = k
    · simp [dictDel, h]
    · rw [if_neg h]
      unfold dictDel at ih ⊢
      rw [List.filter_cons_of_pos (by simpa using h), List.filter_cons_of_pos (by simpa using h), ih]

theorem dictDel_set_ne {κ ν : Type} [DecidableEq κ] {j k : κ} (hne : j ≠ k) (v : ν) (d : List (κ × ν)) :
    dictDel k (dictSet j v d) = dictSet j v (dictDel k d) := by
  induction d with
  | nil => simp [dictSet, dictDel, hne]
  | cons x d ih =>
    obtain ⟨k2, v2⟩ := x
    by_cases h : k2 = j
    · subst h
      unfold dictDel at ih ⊢
      rw [List.filter_cons_of_pos (by simpa using hne)]
      have e : dictSet k2 v ((k2, v2) :: d) = (k2, v) :: d := by simp [dictSet]
      rw [e, List.filter_cons_of_pos (by simpa using hne)]
      simp [dictSet]
    · have e : dictSet j v ((k2, v2) :: d) = (k2, v2) :: dictSet j v d := by simp [dictSet, h]
      rw [e]
      unfold dictDel at ih ⊢
      by_cases h2 : k2 = k
      · rw [List.filter_cons_of_neg (by simpa using h2), List.filter_cons_of_neg (by simpa using h2), ih]
      · rw [List.filter_cons_of_pos (by simpa using h2), List.filter_cons_of_pos (by simpa using h2), ih]
        simp [dictSet, h]

theorem mem_dictSet_or {κ ν : Type} [DecidableEq κ] {k : κ} {v : ν} {d : List (κ × ν)} {e : κ × ν} (h : e ∈ dictSet k v d) : e = (k, v) ∨ e ∈ d := by
  induction d with
  | nil => simpa [dictSet] using h
  | cons x d ih =>
    obtain ⟨k2, v2⟩ := x
    unfold dictSet at h
    split at h
    · next hk =>
      subst hk
      rcases List.mem_cons.1 h with h | h
      · exact .inl h
      · exact .inr (List.mem_cons_of_mem _ h)
    · rcases List.mem_cons.1 h with h | h
      · exact .inr (h ▸ List.mem_cons_self)
      · exact (ih h).imp id (List.mem_cons_of_mem _)

theorem forall2_keys {res : List (OutKey × ActionList)} {outs : List (Nat × List Action)} (h : List.Forall₂ OutEntry res outs) :
    res.map Prod.fst = outs.map fun x => OutKey.port x.1 := by
  induction h with
  | nil => rfl
  | cons h _ ih => rw [List.map_cons, List.map_cons, ih, h.1]

theorem ViewOf.pass {res : List (OutKey × ActionList)} {outs : List (Nat × List Action)} (h : ViewOf res outs) {v : ActionList} (hv : AllKnown v.iter) :
    ViewOf (dictSet .pass v res) outs :=
  ⟨by rw [dictDel_set_same]; exact h.entries, fun e he => by
    rcases mem_dictSet_or he with rfl | he
    · exact hv
    · exact h.known e he, nodup_dictSet _ _ h.keys⟩

theorem ViewOf.port {res : List (OutKey × ActionList)} {outs : List (Nat × List Action)} (h : ViewOf res outs) {v : ActionList} {x : Nat × List Action}
    (hx : v.levels = (mkList (x.2 ++ [.output x.1])).levels) (hv : AllKnown v.iter) (hn : x.1 ∉ outs.map Prod.fst) :
    ViewOf (dictSet (.port x.1) v res) (outs ++ [x]) := by
  refine ⟨?_, fun e he => ?_, nodup_dictSet _ _ h.keys⟩
  · rw [dictDel_set_ne (by simp), dictSet_new]
    · exact List.rel_append h.entries (.cons ⟨rfl, hx⟩ .nil)
    · rw [forall2_keys h.entries]
      intro hm
      obtain ⟨y, hy, e⟩ := List.mem_map.1 hm
      injection e with e
      exact hn (List.mem_map.2 ⟨y, hy, e⟩)
  · rcases mem_dictSet_or he with rfl | he
    · exact hv
    · exact h.known e he

theorem viewOf_nil : ViewOf [] [] := ⟨.nil, by simp, by simp⟩

theorem viewOf_cons_pass {v : ActionList} {gr : List (OutKey × ActionList)} {og : List (Nat × List Action)} (h : ViewOf ((.pass, v) :: gr) og) : ViewOf gr og :=
  ⟨by simpa [dictDel] using h.entries, fun e he => h.known e (List.mem_cons_of_mem _ he), (List.nodup_cons.1 h.keys).2⟩

theorem viewOf_cons_port {n : Nat} {v : ActionList} {gr : List (OutKey × ActionList)} {og : List (Nat × List Action)}
    (h : ViewOf ((.port n, v) :: gr) og) : ∃ m og', og = (n, m) :: og' ∧ v.levels = (mkList (m ++ [.output n])).levels ∧ ViewOf gr og' := by
  have h1 := h.entries
  have : dictDel .pass ((.port n, v) :: gr) = (.port n, v) :: dictDel .pass gr := by simp [dictDel]
  rw [this] at h1
  cases h1 with
  | cons h1 h2 =>
    rename_i x og'
    obtain ⟨e1, e2⟩ := h1
    injection e1 with e1
    subst e1
    exact ⟨x.2, og', rfl, e2, h2, fun e he => h.known e (List.mem_cons_of_mem _ he), (List.nodup_cons.1 h.keys).2⟩

theorem cur_add {m : List Action} {v : ActionList} (hm : AllKnown m) (hv : AllKnown v.iter) : (mkList m).add v = .ok (mkList (m ++ v.iter)) := by
  have h1 := ofList_known hm
  have h2 := ofList_known (s := m ++ v.iter) fun a ha => (List.mem_append.1 ha).elim (hm a) (hv a)
  unfold ActionList.ofList at h1 h2
  rw [List.foldlM_append, h1] at h2
  exact h2

theorem levels_add {m t : List Action} {v : ActionList} (h : v.levels = (mkList t).levels) :
    (mkList (m ++ v.iter)).levels = (mkList (m ++ t)).levels := by
  have : v.iter = (mkList t).iter := by unfold ActionList.iter; rw [h]
  rw [this]
  refine levelsOf_inj lt_strictTotal dependsB_symm _ _ ((levelsOf_eq_iff lt_strictTotal dependsB_symm _ _).2 ?_)
  exact ((mkList_iter_trace t).symm dependsB_symm).append_left m

theorem known_mk {s : List Action} (h : AllKnown s) : AllKnown (mkList s).iter := allKnown_levels h

/-- Merging the view of a group after `m`. -/
theorem mergeView_ok {m : List Action} (hm : AllKnown m) : ∀ (gr : List (OutKey × ActionList)) (og : List (Nat × List Action)) (res : List (OutKey × ActionList))
    (outs : List (Nat × List Action)), ViewOf gr og → ViewOf res outs → ((outs ++ og).map Prod.fst).Nodup →
    ∃ res', mergeView (mkList m) gr res = .ok res' ∧ ViewOf res' (outs ++ og.map fun x => (x.1, m ++ x.2))
  | [], og, res, outs, h, hr, hn => by
    have : og = [] := by
      have := h.entries
      simp only [dictDel, List.filter_nil] at this
      cases this; rfl
    subst this
    exact ⟨res, rfl, by simpa using hr⟩
  | (k, v) :: gr, og, res, outs, h, hr, hn => by
    have hv : AllKnown v.iter := h.known _ List.mem_cons_self
    have hmv : AllKnown (m ++ v.iter) := fun a ha => (List.mem_append.1 ha).elim (hm a) (hv a)
    cases k with
    | pass =>
      obtain ⟨res', e, h'⟩ := mergeView_ok hm gr og (dictSet .pass (mkList (m ++ v.iter)) res) outs (viewOf_cons_pass h) (hr.pass (known_mk hmv)) hn
      exact ⟨res', by simp only [mergeView, cur_add hm hv]; exact e, h'⟩
    | port n =>
      obtain ⟨t, og', rfl, e2, h2⟩ := viewOf_cons_port h
      have hx : (mkList (m ++ v.iter)).levels = (mkList ((m ++ t) ++ [.output n])).levels := by rw [levels_add e2, List.append_assoc]
      have hn' : n ∉ outs.map Prod.fst := by
        rw [List.map_append, List.map_cons] at hn
        intro hmem
        exact (List.nodup_append.1 hn).2.2 n hmem n List.mem_cons_self rfl
      obtain ⟨res', e, h'⟩ := mergeView_ok hm gr og' (dictSet (.port n) (mkList (m ++ v.iter)) res) (outs ++ [(n, m ++ t)]) h2
        (hr.port (x := (n, m ++ t)) hx (known_mk hmv) hn') (by simpa using hn)
      refine ⟨res', by simp only [mergeView, cur_add hm hv]; exact e, ?_⟩
      simpa using h'

theorem dictUpdate_ok : ∀ (gr : List (OutKey × ActionList)) (og : List (Nat × List Action)) (res : List (OutKey × ActionList))
    (outs : List (Nat × List Action)), ViewOf gr og → ViewOf res outs → ((outs ++ og).map Prod.fst).Nodup → ViewOf (dictUpdate res gr) (outs ++ og)
  | [], og, res, outs, h, hr, hn => by
    have : og = [] := by
      have := h.entries
      simp only [dictDel, List.filter_nil] at this
      cases this; rfl
    subst this
    simpa [dictUpdate] using hr
  | (k, v) :: gr, og, res, outs, h, hr, hn => by
    have hv : AllKnown v.iter := h.known _ List.mem_cons_self
    cases k with
    | pass => exact dictUpdate_ok gr og (dictSet .pass v res) outs (viewOf_cons_pass h) (hr.pass hv) hn
    | port n =>
      obtain ⟨t, og', rfl, e2, h2⟩ := viewOf_cons_port h
      have hn' : n ∉ outs.map Prod.fst := by
        rw [List.map_append, List.map_cons] at hn
        intro hmem
        exact (List.nodup_append.1 hn).2.2 n hmem n List.mem_cons_self rfl
      have := dictUpdate_ok gr og' (dictSet (.port n) v res) (outs ++ [(n, t)]) h2 (hr.port (x := (n, t)) e2 hv hn') (by simpa using hn)
      rw [List.append_assoc] at this
      exact this

theorem bucketsView_ok {view : List Action → Except PyErr (List (OutKey × ActionList))} {O : List Action → List (Nat × List Action)} :
    ∀ (bs : List (List Action)) (acc : List (OutKey × ActionList)) (outs : List (Nat × List Action)), (∀ b ∈ bs, ∃ r, view b = .ok r ∧ ViewOf r (O b)) →
    ViewOf acc outs → ((outs ++ bs.flatMap O).map Prod.fst).Nodup → ∃ r, bucketsView view bs acc = .ok r ∧ ViewOf r (outs ++ bs.flatMap O)
  | [], acc, outs, _, h, _ => ⟨acc, rfl, by simpa using h⟩
  | b :: bs, acc, outs, hb, h, hn => by
    obtain ⟨r, e, hr⟩ := hb b List.mem_cons_self
    rw [List.flatMap_cons, ← List.append_assoc] at hn
    have h1 := dictUpdate_ok r _ acc outs hr h (hn.sublist (by rw [List.map_append (l₂ := bs.flatMap O)]; exact List.sublist_append_left _ _))
    obtain ⟨r', e', h'⟩ := bucketsView_ok bs _ _ (fun c hc => hb c (List.mem_cons_of_mem _ hc)) h1 hn
    exact ⟨r', by simp only [bucketsView, e]; exact e', by rw [List.flatMap_cons, ← List.append_assoc]; exact h'⟩

/-- The loop, given the views of the groups. -/
theorem loopG_ok {grp : Nat → Except PyErr (List (OutKey × ActionList))} {O : Nat → List (Nat × List Action)} :
    ∀ (xs : List Action) (m : List Action) (res : List (OutKey × ActionList)) (outs : List (Nat × List Action)), AllKnown xs → AllKnown m →
    (∀ g, Action.group g ∈ xs → (((O g).map Prod.fst).Nodup → ∃ r, grp g = .ok r ∧ ViewOf r (O g))) →
    ViewOf res outs → ((outs ++ outsWith O m xs).map Prod.fst).Nodup →
    ∃ res', perOutputLoopG grp xs (mkList m) res = .ok (res', mkList (m ++ modsG xs)) ∧ ViewOf res' (outs ++ outsWith O m xs)
  | [], m, res, outs, _, _, _, h, _ => ⟨res, by simp [perOutputLoopG, modsG], by simpa [outsWith] using h⟩
  | a :: xs, m, res, outs, hk, hm, hg, h, hn => by
    have hk' : AllKnown xs := fun x hx => hk x (List.mem_cons_of_mem _ hx)
    have hg' : ∀ g, Action.group g ∈ xs → (((O g).map Prod.fst).Nodup → ∃ r, grp g = .ok r ∧ ViewOf r (O g)) := fun g hx => hg g (List.mem_cons_of_mem _ hx)
    have ha := hk a List.mem_cons_self
    have hma : AllKnown (m ++ [a]) := fun x hx => (List.mem_append.1 hx).elim (hm x) fun hx => by rw [List.mem_singleton.1 hx]; exact ha
    cases a with
    | output n =>
      simp only [outsWith] at hn
      have hn' : n ∉ outs.map Prod.fst := by
        rw [List.map_append, List.map_cons] at hn
        intro hmem
        exact (List.nodup_append.1 hn).2.2 n hmem n List.mem_cons_self rfl
      obtain ⟨res', e, h'⟩ := loopG_ok xs m (dictSet (.port n) (mkList (m ++ [.output n])) res) (outs ++ [(n, m)]) hk' hm hg'
        (h.port (x := (n, m)) rfl (known_mk hma) hn') (by simpa using hn)
      refine ⟨res', ?_, by simpa [outsWith] using h'⟩
      simp only [perOutputLoopG, cur_append m _ hm ha, modsG]
      exact e
    | group g =>
      simp only [outsWith] at hn
      rw [← List.append_assoc] at hn
      have hkeys : (O g).map Prod.fst = ((O g).map fun x => (x.1, m ++ x.2)).map Prod.fst := by simp
      have hn1 : ((outs ++ O g).map Prod.fst).Nodup := by
        rw [List.map_append, hkeys, ← List.map_append]
        exact hn.sublist (by rw [List.map_append (l₂ := outsWith O m xs)]; exact List.sublist_append_left _ _)
      obtain ⟨r, er, hr⟩ := hg g List.mem_cons_self (by rw [List.map_append] at hn1; exact (List.nodup_append.1 hn1).2.1)
      obtain ⟨res1, e1, h1⟩ := mergeView_ok hm r (O g) res outs hr h hn1
      obtain ⟨res', e, h'⟩ := loopG_ok xs m res1 _ hk' hm hg' h1 hn
      refine ⟨res', ?_, by simpa [outsWith] using h'⟩
      simp only [perOutputLoopG, er, modsG]
      show (do let res ← mergeView (mkList m) r res; perOutputLoopG grp xs (mkList m) res) = _
      rw [e1]; exact e
    | _ =>
      simp only [outsWith] at hn
      obtain ⟨res', e, h'⟩ := loopG_ok xs (m ++ [_]) res outs hk' hma hg' h hn
      refine ⟨res', ?_, by simpa [outsWith] using h'⟩
      simp only [perOutputLoopG, cur_append m _ hm ha, modsG]
      simp only [List.append_assoc, List.singleton_append] at e
      exact e

/-! ### What the outputs are made of -/

theorem modsG_mem {xs : List Action} {a : Action} (h : a ∈ modsG xs) : a ∈ xs ∧ a.emits = false := by
  induction xs with
  | nil => simp [modsG] at h
  | cons b xs ih =>
    cases b <;> simp only [modsG, List.mem_cons] at h <;> first
      | (rcases h with rfl | h
         · exact ⟨List.mem_cons_self, rfl⟩
         · exact ⟨List.mem_cons_of_mem _ (ih h).1, (ih h).2⟩)
      | exact ⟨List.mem_cons_of_mem _ (ih h).1, (ih h).2⟩

/-- The groups of a depth-`k` list with their actions. -/
def reachedWith (R : Nat → List Action) (xs : List Action) : List Action :=
  xs.flatMap fun a => match a with | .group g => R g | a => [a]

def groupActs (heap : Nat → Option GroupVal) : Nat → Nat → List Action
  | 0, g => [.group g]
  | k + 1, g => match heap g with | none => [.group g] | some G => G.buckets.flatMap (reached heap k)

def groupOuts (heap : Nat → Option GroupVal) : Nat → Nat → List (Nat × List Action)
  | 0, _ => []
  | k + 1, g => match heap g with | none => [] | some G => G.buckets.flatMap (outsG heap k)

theorem reached_eq (heap : Nat → Option GroupVal) (k : Nat) (xs : List Action) : reached heap k xs = reachedWith (groupActs heap k) xs := by
  cases k with
  | zero =>
    simp only [reached, reachedWith]
    induction xs with
    | nil => rfl
    | cons a xs ih => rw [List.flatMap_cons, ← ih]; cases a <;> rfl
  | succ k =>
    simp only [reached, reachedWith]
    congr 1

theorem outsG_eq (heap : Nat → Option GroupVal) (k : Nat) (xs : List Action) : outsG heap k xs = outsWith (groupOuts heap k) [] xs := by
  cases k <;> rfl

theorem mem_reachedWith {R : Nat → List Action} {xs : List Action} {a : Action} :
    a ∈ reachedWith R xs ↔ (a ∈ xs ∧ ∀ g, a ≠ .group g) ∨ ∃ g, Action.group g ∈ xs ∧ a ∈ R g := by
  unfold reachedWith
  rw [List.mem_flatMap]
  constructor
  · rintro ⟨b, hb, h⟩
    cases b with
    | group g => exact .inr ⟨g, hb, h⟩
    | _ => simp only [List.mem_singleton] at h; subst h; exact .inl ⟨hb, by simp⟩
  · rintro (⟨h1, h2⟩ | ⟨g, h1, h2⟩)
    · refine ⟨a, h1, ?_⟩
      cases a <;> simp_all
    · exact ⟨_, h1, h2⟩

theorem reachedWith_cons (R : Nat → List Action) (a : Action) (xs : List Action) :
    reachedWith R (a :: xs) = (match a with | .group g => R g | a => [a]) ++ reachedWith R xs := rfl

theorem outsWith_keys {O : Nat → List (Nat × List Action)} {R : Nat → List Action} : ∀ (xs m : List Action),
    (∀ g, Action.group g ∈ xs → (O g).map Prod.fst = (R g).filterMap Action.portOf) →
    (outsWith O m xs).map Prod.fst = (reachedWith R xs).filterMap Action.portOf
  | [], _, _ => rfl
  | a :: xs, m, h => by
    have ih := fun m => outsWith_keys xs m fun g hg => h g (List.mem_cons_of_mem _ hg)
    rw [reachedWith_cons, List.filterMap_append]
    cases a with
    | output n => simp [outsWith, ih, Action.portOf]
    | group g => simp [outsWith, ih, ← h g List.mem_cons_self]
    | _ => simp [outsWith, ih, Action.portOf]

theorem outsWith_mem {O : Nat → List (Nat × List Action)} {R : Nat → List Action} : ∀ (xs m : List Action),
    (∀ g, Action.group g ∈ xs → ∀ y ∈ O g, (∀ a ∈ y.2, a ∈ R g ∧ a.emits = false) ∧ Action.output y.1 ∈ R g) →
    ∀ y ∈ outsWith O m xs, (∀ a ∈ y.2, a ∈ m ∨ (a ∈ reachedWith R xs ∧ a.emits = false)) ∧ Action.output y.1 ∈ reachedWith R xs
  | [], _, _ => by simp [outsWith]
  | a :: xs, m, h => by
    have ih := fun m => outsWith_mem xs m fun g hg => h g (List.mem_cons_of_mem _ hg)
    intro y hy
    rw [reachedWith_cons]
    have lift : ∀ {z : List Action}, ((∀ a ∈ y.2, a ∈ m ∨ (a ∈ reachedWith R xs ∧ a.emits = false)) ∧ Action.output y.1 ∈ reachedWith R xs) →
        (∀ a ∈ y.2, a ∈ m ∨ (a ∈ z ++ reachedWith R xs ∧ a.emits = false)) ∧ Action.output y.1 ∈ z ++ reachedWith R xs :=
      fun ⟨h1, h2⟩ => ⟨fun a ha => (h1 a ha).imp id fun h => ⟨List.mem_append_right _ h.1, h.2⟩, List.mem_append_right _ h2⟩
    cases a with
    | output n =>
      simp only [outsWith, List.mem_cons] at hy
      rcases hy with rfl | hy
      · exact ⟨fun a ha => .inl ha, by simp⟩
      · exact lift (ih m y hy)
    | group g =>
      simp only [outsWith, List.mem_append, List.mem_map] at hy
      rcases hy with ⟨z, hz, rfl⟩ | hy
      · obtain ⟨h1, h2⟩ := h g List.mem_cons_self z hz
        refine ⟨fun a ha => ?_, List.mem_append_left _ h2⟩
        rcases List.mem_append.1 ha with ha | ha
        · exact .inl ha
        · exact .inr ⟨List.mem_append_left _ (h1 a ha).1, (h1 a ha).2⟩
      · exact lift (ih m y hy)
    | _ =>
      simp only [outsWith] at hy
      obtain ⟨h1, h2⟩ := ih _ y hy
      refine ⟨fun a ha => ?_, List.mem_append_right _ h2⟩
      rcases h1 a ha with h | h
      · rcases List.mem_append.1 h with h | h
        · exact .inl h
        · exact .inr (by rw [List.mem_singleton.1 h]; exact ⟨by simp, rfl⟩)
      · exact .inr ⟨List.mem_append_right _ h.1, h.2⟩

theorem outs_step (heap : Nat → Option GroupVal) (k : Nat) (h : ∀ g, (groupOuts heap k g).map Prod.fst = (groupActs heap k g).filterMap Action.portOf ∧
      ∀ y ∈ groupOuts heap k g, (∀ a ∈ y.2, a ∈ groupActs heap k g ∧ a.emits = false) ∧ Action.output y.1 ∈ groupActs heap k g) (xs : List Action) :
      (outsG heap k xs).map Prod.fst = (reached heap k xs).filterMap Action.portOf ∧
        ∀ y ∈ outsG heap k xs, (∀ a ∈ y.2, a ∈ reached heap k xs ∧ a.emits = false) ∧ Action.output y.1 ∈ reached heap k xs := by
  rw [outsG_eq, reached_eq]
  refine ⟨outsWith_keys xs [] fun g _ => (h g).1, fun y hy => ?_⟩
  obtain ⟨h1, h2⟩ := outsWith_mem xs [] (fun g _ => (h g).2) y hy
  exact ⟨fun a ha => (h1 a ha).resolve_left (by simp), h2⟩

theorem outs_spec (heap : Nat → Option GroupVal) : ∀ (k : Nat) (xs : List Action), (outsG heap k xs).map Prod.fst = (reached heap k xs).filterMap Action.portOf ∧
    ∀ y ∈ outsG heap k xs, (∀ a ∈ y.2, a ∈ reached heap k xs ∧ a.emits = false) ∧ Action.output y.1 ∈ reached heap k xs
  | 0, xs => outs_step heap 0 (fun g => ⟨rfl, by simp [groupOuts]⟩) xs
  | k + 1, xs => by
    refine outs_step heap (k + 1) (fun g => ?_) xs
    simp only [groupOuts, groupActs]
    cases heap g with
    | none => exact ⟨rfl, by simp⟩
    | some G =>
      simp only
      have ih := outs_spec heap k
      refine ⟨?_, fun y hy => ?_⟩
      · rw [List.map_flatMap, List.filterMap_flatMap]
        congr 1
        funext b
        exact (ih b).1
      · obtain ⟨b, hb, hy⟩ := List.mem_flatMap.1 hy
        obtain ⟨h1, h2⟩ := (ih b).2 y hy
        exact ⟨fun a ha => ⟨List.mem_flatMap.2 ⟨b, hb, (h1 a ha).1⟩, (h1 a ha).2⟩, List.mem_flatMap.2 ⟨b, hb, h2⟩⟩

theorem reached_sub {heap : Nat → Option GroupVal} {k g : Nat} {G : GroupVal} {xs b : List Action} (hg : Action.group g ∈ xs) (hG : heap g = some G)
    (hb : b ∈ G.buckets) : ∀ a ∈ reached heap k b, a ∈ reached heap (k + 1) xs := by
  intro a ha
  rw [reached_eq heap (k + 1), mem_reachedWith]
  refine .inr ⟨g, hg, ?_⟩
  simp only [groupActs, hG]
  exact List.mem_flatMap.2 ⟨b, hb, ha⟩

theorem known_of_reached {heap : Nat → Option GroupVal} {k : Nat} {xs : List Action} (h : ModsOK (reached heap k xs)) : AllKnown xs := by
  intro a ha
  by_cases hg : ∃ g, a = .group g
  · obtain ⟨g, rfl⟩ := hg; rfl
  · refine h.known a ?_
    rw [reached_eq, mem_reachedWith]
    exact .inl ⟨ha, fun g e => hg ⟨g, e⟩⟩

theorem group_of_reached {heap : Nat → Option GroupVal} {k g : Nat} {xs : List Action} (h : ModsOK (reached heap k xs)) (hg : Action.group g ∈ xs) :
    ∃ k' G, k = k' + 1 ∧ heap g = some G := by
  cases k with
  | zero => exact absurd hg (h.nogroup g)
  | succ k =>
    cases hG : heap g with
    | some G => exact ⟨k, G, rfl, rfl⟩
    | none =>
      refine absurd ?_ (h.nogroup g)
      rw [reached_eq, mem_reachedWith]
      exact .inr ⟨g, hg, by simp [groupActs, hG]⟩

theorem mods_reached {heap : Nat → Option GroupVal} {k : Nat} {xs : List Action} : ∀ a ∈ modsG xs, a ∈ reached heap k xs ∧ a.emits = false := by
  intro a ha
  obtain ⟨h1, h2⟩ := modsG_mem ha
  refine ⟨?_, h2⟩
  rw [reached_eq, mem_reachedWith]
  exact .inl ⟨h1, fun g e => by subst e; cases h2⟩

/-- The mapping from ports to action lists has the outputs that are reached. -/
theorem perOutputIter_ok (heap : Nat → Option GroupVal) : ∀ (k : Nat) (xs : List Action), ModsOK (reached heap k xs) →
    ((outsG heap k xs).map Prod.fst).Nodup →
    ∃ res, perOutputIter heap k xs = .ok (dictSet .pass (mkList (modsG xs)) res) ∧ ViewOf res (outsG heap k xs)
  | 0, xs, h, hn => by
    have hk := known_of_reached h
    rw [outsG_eq] at hn
    obtain ⟨res, e, hv⟩ := loopG_ok (grp := fun _ => .error .fuel) xs [] [] [] hk (by simp [AllKnown])
      (fun g hg _ => absurd hg (h.nogroup g)) viewOf_nil hn
    refine ⟨res, ?_, by rw [outsG_eq]; exact hv⟩
    unfold perOutputIter
    rw [show ActionList.empty = mkList [] from rfl, e]
    rfl
  | k + 1, xs, h, hn => by
    have hk := known_of_reached h
    rw [outsG_eq] at hn
    obtain ⟨res, e, hv⟩ := loopG_ok (grp := groupRes heap (perOutputIter heap k)) xs [] [] [] hk (by simp [AllKnown])
      (fun g hg hnd => by
        obtain ⟨-, G, -, hG⟩ := group_of_reached h hg
        simp only [groupOuts, hG] at hnd ⊢
        have hb : ∀ b ∈ G.buckets, ∃ r, perOutputIter heap k b = .ok r ∧ ViewOf r (outsG heap k b) := by
          intro b hb
          have hm : ModsOK (reached heap k b) := h.perm (reached_sub hg hG hb)
          obtain ⟨r, er, hr⟩ := perOutputIter_ok heap k b hm (by
            refine hnd.sublist (List.Sublist.map _ ?_)
            obtain ⟨l, r, e⟩ := List.append_of_mem hb
            rw [e, List.flatMap_append, List.flatMap_cons]
            exact (List.sublist_append_left _ _).trans (List.sublist_append_right _ _))
          exact ⟨_, er, hr.pass (known_mk fun a ha => hm.known a (mods_reached a ha).1)⟩
        obtain ⟨r, er, hr⟩ := bucketsView_ok G.buckets [] [] hb viewOf_nil (by simpa using hnd)
        exact ⟨r, by simp only [groupRes, hG]; exact er, by simpa using hr⟩) viewOf_nil hn
    refine ⟨res, ?_, by rw [outsG_eq]; exact hv⟩
    unfold perOutputIter
    rw [show ActionList.empty = mkList [] from rfl, e]
    rfl

section
variable [Writes]

/-- What is sent, given what the groups send. -/
theorem exec_outsWith {O : Nat → List (Nat × List Action)} {D : Dest × Pkt → List (Dest × Pkt)} (hp : ∀ n q, D (.port n, q) = [(.port n, q)]) (p : Pkt) :
    ∀ (xs m : List Action), (∀ g, Action.group g ∈ xs → ∀ q, D (.group g, q) = (O g).map fun x => (Dest.port x.1, (exec x.2 q).1)) →
    (exec xs (exec m p).1).2.flatMap D = (outsWith O m xs).map (fun x => (Dest.port x.1, (exec x.2 p).1)) ∧
    (exec xs (exec m p).1).1 = (exec (m ++ modsG xs) p).1
  | [], m, _ => by simp [exec, outsWith, modsG]
  | a :: xs, m, h => by
    have ih := fun m => exec_outsWith hp p xs m fun g hg => h g (List.mem_cons_of_mem _ hg)
    have other : emit a (exec m p).1 = [] → outsWith O m (a :: xs) = outsWith O (m ++ [a]) xs → modsG (a :: xs) = a :: modsG xs →
        (exec (a :: xs) (exec m p).1).2.flatMap D = (outsWith O m (a :: xs)).map (fun x => (Dest.port x.1, (exec x.2 p).1)) ∧
        (exec (a :: xs) (exec m p).1).1 = (exec (m ++ modsG (a :: xs)) p).1 := by
      intro he h1 h2
      have hstep : (exec (m ++ [a]) p).1 = act a (exec m p).1 := by rw [exec_append]; rfl
      have := ih (m ++ [a])
      rw [hstep] at this
      simp only [exec]
      rw [he, h1, h2, List.nil_append, this.1, this.2]
      simp
    cases a with
    | output n =>
      have := ih m
      simp only [exec, outsWith, modsG, act, emit, List.map_cons, List.flatMap_append, List.flatMap_cons, List.flatMap_nil, List.append_nil, hp]
      rw [this.1, this.2]; simp
    | group g =>
      have := ih m
      simp only [exec, outsWith, modsG, act, emit, List.map_append, List.map_map, List.flatMap_append, List.flatMap_cons, List.flatMap_nil, List.append_nil]
      rw [h g List.mem_cons_self, this.1, this.2]
      refine ⟨?_, rfl⟩
      congr 1
      refine List.map_congr_left fun x _ => ?_
      simp only [Function.comp, exec_append]
    | _ => exact other rfl rfl rfl

theorem deliver_outs (heap : Nat → Option GroupVal) (pick : Nat → Nat) (ht : ∀ g G, heap g = some G → G.RunsAll) : ∀ (k : Nat) (xs : List Action) (p : Pkt),
    (exec xs p).2.flatMap (deliver heap pick k) = (outsG heap k xs).map (fun x => (Dest.port x.1, (exec x.2 p).1)) ∧ (exec xs p).1 = (exec (modsG xs) p).1
  | 0, xs, p => by
    rw [outsG_eq]
    have := exec_outsWith (O := groupOuts heap 0) (D := deliver heap pick 0) (fun n q => by simp [deliver]) p xs [] (fun g _ q => by simp [deliver, groupOuts])
    exact this
  | k + 1, xs, p => by
    rw [outsG_eq]
    have := exec_outsWith (O := groupOuts heap (k + 1)) (D := deliver heap pick (k + 1)) (fun n q => by simp [deliver]) p xs [] (fun g _ q => by
      simp only [deliver, groupOuts]
      cases hG : heap g with
      | none => rfl
      | some G =>
        have hr : G.run (pick g) = G.buckets := if_pos (ht g G hG)
        simp only [hr, List.map_flatMap]
        congr 1
        funext b
        exact (deliver_outs heap pick ht k b q).1)
    exact this

/-- The tuples of the view. -/
theorem itemsG_ok {s ms : List Action} (h : ModsOK s) (hms : ∀ a ∈ ms, a ∈ s ∧ a.emits = false) : ∀ (res : List (OutKey × ActionList))
    (outs : List (Nat × List Action)), ViewOf res outs → (∀ y ∈ outs, (∀ a ∈ y.2, a ∈ s ∧ a.emits = false) ∧ Action.output y.1 ∈ s) →
    (∀ v, (OutKey.pass, v) ∈ res → v = mkList ms) →
    ∃ items, perOutputItems res = .ok items ∧ items.map Prod.fst = res.map Prod.fst ∧
      (∀ p, emitted (dictDel .pass items) p = outs.map fun x => (Dest.port x.1, (exec x.2 p).1)) ∧ ∀ t, (OutKey.pass, t) ∈ items → SameEffect t ms
  | [], outs, hv, _, _ => by
    have : outs = [] := by
      have := hv.entries
      simp only [dictDel, List.filter_nil] at this
      cases this; rfl
    subst this
    exact ⟨[], rfl, rfl, fun p => rfl, by simp⟩
  | (.pass, v) :: res, outs, hv, ho, hp => by
    obtain ⟨items, e, hk, he, ht⟩ := itemsG_ok h hms res outs (viewOf_cons_pass hv) ho fun v hv => hp v (List.mem_cons_of_mem _ hv)
    have hv' := hp v List.mem_cons_self
    subst hv'
    have hpo : ∀ a ∈ ms, a ∈ s ∧ a.portOf = none := fun a ha => ⟨(hms a ha).1, by have := (hms a ha).2; cases a <;> simp_all [Action.emits, Action.portOf]⟩
    obtain ⟨l', e1, e2, -⟩ := entry_ok h hpo [] (.inl rfl)
    rw [List.append_nil] at e1 e2
    refine ⟨(.pass, l'.iter) :: items, by simp only [perOutputItems, e1, e]; rfl, by simp [hk], fun p => ?_, fun t hm => ?_⟩
    · have : dictDel .pass ((OutKey.pass, l'.iter) :: items) = dictDel .pass items := by simp [dictDel]
      rw [this]; exact he p
    · rcases List.mem_cons.1 hm with hm | hm
      · cases hm; exact e2
      · exact ht t hm
  | (.port n, v) :: res, outs, hv, ho, hp => by
    obtain ⟨m, outs', rfl, e2, h2⟩ := viewOf_cons_port hv
    obtain ⟨items, e, hk, he, ht⟩ := itemsG_ok h hms res outs' h2 (fun y hy => ho y (List.mem_cons_of_mem _ hy)) fun v hv => hp v (List.mem_cons_of_mem _ hv)
    obtain ⟨hm, hn⟩ := ho (n, m) List.mem_cons_self
    have hpo : ∀ a ∈ m, a ∈ s ∧ a.portOf = none := fun a ha => ⟨(hm a ha).1, by have := (hm a ha).2; cases a <;> simp_all [Action.emits, Action.portOf]⟩
    obtain ⟨l', e1, e3, -⟩ := entry_ok h hpo [.output n] (.inr ⟨n, rfl, hn⟩)
    have hr : v.removeRedundant = .ok l' := by
      have : v.iter = (mkList (m ++ [.output n])).iter := by unfold ActionList.iter; rw [e2]
      unfold ActionList.removeRedundant at e1 ⊢
      rw [this]; exact e1
    refine ⟨(.port n, l'.iter) :: items, by simp only [perOutputItems, hr, e]; rfl, by simp [hk], fun p => ?_, fun t hm => ?_⟩
    · have : dictDel .pass ((OutKey.port n, l'.iter) :: items) = (OutKey.port n, l'.iter) :: dictDel .pass items := by simp [dictDel]
      rw [this]
      have h5 := (e3 p).2
      rw [exec_append, exec_nil_emits (fun a ha => (hm a ha).2) p] at h5
      simp only [exec, emit, List.nil_append, List.append_nil] at h5
      have h5 := List.perm_singleton.1 h5
      have h6 := he p
      simp only [emitted, List.flatMap_cons, List.map_cons] at h6 ⊢
      rw [h5, h6]; rfl
    · rcases List.mem_cons.1 hm with hm | hm
      · cases hm
      · exact ht t hm

end

end OFE
