import Verif.Deps.Dag

/-!
# The batch algorithm
-/

namespace OFE
namespace Deps
open DD

variable {n : Nat}

/-- The graph holds exactly the dependencies of `rs` for the children in `done`. -/
def ExactOn (n : Nat) (rs done : List DRule) (g : Dag) : Prop :=
  ∀ r c p, g.on n r c p ↔ r ∈ done ∧ c ∈ rs ∧ FallsTo n rs r c p

theorem exact_deps {rs : List DRule} {g : Dag} (hg : Good n g) (h : ExactOn n rs rs g) : ExactDeps n rs g.reaches := by
  intro r c
  have h1 := hg.some_iff r c
  refine ⟨fun b hb => ?_, ?_⟩
  · obtain ⟨p, hp⟩ := h1.1 (by simp [hb])
    have := (h r c p).1 hp
    refine ⟨this.1, this.2.1, fun p' => ?_⟩
    have h' := h r c p'
    unfold Dag.on at h'
    rw [hb] at h'
    simp only [Option.some.injEq, exists_eq_left', this.1, this.2.1, true_and] at h'
    exact h'
  · rw [h1]
    constructor
    · rintro ⟨p, hp⟩
      have := (h r c p).1 hp
      exact ⟨this.1, this.2.1, p, this.2.2⟩
    · rintro ⟨a, b, p, hp⟩
      exact ⟨p, (h r c p).2 ⟨a, b, hp⟩⟩

/-- Among rules of which those of equal priority do not overlap, searching by falling priority finds the packets that fall through. -/
theorem arrives_iff {rs ps : List DRule} (hps : ps.Pairwise fun a b => b.priority ≤ a.priority) {R c : DRule} {packets : BDD} {p : Packet}
    (hpk : Holds n packets p ↔ R.hits n p) (hc : c.priority < R.priority)
    (hties : ∀ r ∈ ps, ∀ s ∈ ps, r.priority = s.priority → r ≠ s → ¬ ∃ p, r.hits n p ∧ s.hits n p)
    (hsub : ∀ q ∈ ps, q ∈ rs ∧ q.priority < R.priority)
    (hsup : ∀ q ∈ rs, q.priority < R.priority → R.hits n p → q.hits n p → (∀ x ∈ rs, q.priority < x.priority → x.priority < R.priority → ¬ x.hits n p) → q ∈ ps) :
    Arrives n packets ps c p ↔ c ∈ ps ∧ FallsTo n rs R c p := by
  unfold Arrives FallsTo
  rw [hpk]
  constructor
  · rintro ⟨h1, h2, h3, h4⟩
    refine ⟨h2, hc, h1, h3, ?_⟩
    -- a highest rule in between that is hit would be in `ps`
    have key : ∀ k, ∀ q ∈ rs, c.priority < q.priority → q.priority < R.priority → R.priority - q.priority ≤ k → ¬ q.hits n p := by
      intro k
      induction k with
      | zero => intro q _ _ hlt hk; omega
      | succ k ih =>
        intro q hq hcq hqR hk hit
        have hin : q ∈ ps := hsup q hq hqR h1 hit fun x hx hqx hxR => ih x hx (by omega) hxR (by omega)
        exact h4 q ((before_desc hps h2 q).2 hin hcq) hit
    exact fun q hq h5 h6 => key _ q hq h5 h6 (Nat.le_refl _)
  · rintro ⟨h2, -, h1, h3, h4⟩
    refine ⟨h1, h2, h3, fun q hq hit => ?_⟩
    obtain ⟨q1, q2, q3⟩ := (before_desc hps h2 q).1 hq
    obtain ⟨q4, q5⟩ := hsub q q1
    by_cases e : q.priority = c.priority
    · exact hties q q1 c h2 e q2 ⟨p, hit, h3⟩
    · exact h4 q q4 (by omega) q5 hit

theorem potential_eq {rs : List DRule} (h : TableOK n rs) {R : DRule} (hR : R ∈ rs) (q : DRule) :
    q ∈ potential rs R ↔ q ∈ rs ∧ q.priority < R.priority := by
  unfold potential
  simp only [List.mem_filter, decide_eq_true_eq]
  constructor
  · rintro ⟨h1, h2 | h2⟩
    · exact ⟨h1, h2⟩
    · have := h.table q h1 R hR; omega
  · rintro ⟨h1, h2⟩; exact ⟨h1, .inl h2⟩

theorem startWc_same {R : DRule} {P : List DRule} (hne : P ≠ []) (h : ∀ q ∈ P, q.table = R.table) : startWc R P = .ok R.wc := by
  cases P with
  | nil => exact absurd rfl hne
  | cons q P => simp [startWc, h q (by simp)]

/-- One round of the batch algorithm. -/
theorem addParents_batch (hn : 0 < n) {rs : List DRule} (h : TableOK n rs) {R : DRule} (hR : R ∈ rs)
    (he : (∀ q ∈ rs, ¬ q.priority < R.priority) → ∃ w, R.egress = .ok w) {done : List DRule} {g : Dag} (hg : Good n g) (hx : ExactOn n rs done g) :
    ∃ g', addParents n R (potential rs R) g = .ok g' ∧ Good n g' ∧ ExactOn n rs (done ++ [R]) g' := by
  by_cases hP : potential rs R = []
  · have hno : ∀ q ∈ rs, ¬ q.priority < R.priority := by
      intro q hq hlt
      have := (potential_eq h hR q).2 ⟨hq, hlt⟩
      rw [hP] at this; cases this
    obtain ⟨w, hw⟩ := he hno
    refine ⟨g, ?_, hg, fun r c p => ?_⟩
    · rw [addParents, hP]
      simp [startWc, hw, descending, sortBy, parentsLoop, bind, Except.bind, pure, Except.pure]
    · rw [hx]
      constructor
      · rintro ⟨a, b, d⟩; exact ⟨List.mem_append_left _ a, b, d⟩
      · rintro ⟨a, b, d⟩
        rcases List.mem_append.1 a with a | a
        · exact ⟨a, b, d⟩
        · rw [List.mem_singleton] at a; subst a
          exact absurd d.1 (hno c b)
  · have hs := startWc_same hP fun q hq => h.table q ((potential_eq h hR q).1 hq).1 R hR
    have hw := holds_bdd hn (h.valid R hR)
    have hps := descending_sorted (potential rs R)
    obtain ⟨g1, g2⟩ := parentsLoop_spec hn R (ps := descending (potential rs R))
      (fun q hq => h.valid q ((potential_eq h hR q).1 (mem_descending.1 hq)).1) hw.1 hg
    have harr : ∀ c p, Arrives n (R.bdd n) (descending (potential rs R)) c p ↔ c ∈ rs ∧ FallsTo n rs R c p := by
      intro c p
      have hm : ∀ q, q ∈ descending (potential rs R) ↔ q ∈ rs ∧ q.priority < R.priority := fun q =>
        mem_descending.trans (potential_eq h hR q)
      by_cases hc : c.priority < R.priority
      · rw [arrives_iff (rs := rs) hps (hw.2 p) hc (fun r hr s hs => h.ties r ((hm r).1 hr).1 s ((hm s).1 hs).1) (fun q hq => (hm q).1 hq)
          (fun q hq hlt _ _ _ => (hm q).2 ⟨hq, hlt⟩), hm]
        simp [hc]
      · constructor
        · intro ha; exact absurd ((hm c).1 ha.2.1).2 hc
        · intro ha; exact absurd ha.2.1 hc
    refine ⟨_, by rw [addParents, hs]; rfl, g1, fun r c p => ?_⟩
    change (parentsLoop n R (R.bdd n) _ g).on n r c p ↔ _
    rw [g2, hx]
    simp only [harr]
    by_cases e : r = R
    · subst e
      simp only [true_and, List.mem_append, List.mem_singleton, or_true]
      constructor
      · rintro (a | ⟨-, a⟩)
        · exact a
        · exact a.2
      · intro a; exact .inl a
    · simp [e]

theorem batch_fold (hn : 0 < n) {rs : List DRule} (h : TableOK n rs)
    (he : ∀ r ∈ rs, (∀ q ∈ rs, ¬ q.priority < r.priority) → ∃ w, r.egress = .ok w) (todo : List DRule) (hsub : ∀ r ∈ todo, r ∈ rs) {done : List DRule}
    {g : Dag} (hg : Good n g) (hx : ExactOn n rs done g) :
    ∃ g', todo.foldlM (fun g R => addParents n R (potential rs R) g) g = .ok g' ∧ Good n g' ∧ ExactOn n rs (done ++ todo) g' := by
  induction todo generalizing g done with
  | nil => exact ⟨g, rfl, hg, by simpa using hx⟩
  | cons R todo ih =>
    obtain ⟨g1, e1, hg1, hx1⟩ := addParents_batch hn h (hsub R (by simp)) (he R (hsub R (by simp))) hg hx
    obtain ⟨g2, e2, hg2, hx2⟩ := ih (fun r hr => hsub r (List.mem_cons_of_mem _ hr)) hg1 hx1
    refine ⟨g2, ?_, hg2, by simpa using hx2⟩
    rw [List.foldlM_cons, e1]
    exact e2

theorem batch_exact (hn : 0 < n) {rs : List DRule} (hne : rs ≠ []) (h : TableOK n rs)
    (he : ∀ r ∈ rs, (∀ q ∈ rs, ¬ q.priority < r.priority) → ∃ w, r.egress = .ok w) :
    ∃ g, buildTableDeps n rs = .ok g.reaches ∧ Good n g ∧ ExactOn n rs rs g := by
  obtain ⟨g, e, hg, hx⟩ := batch_fold hn h he rs (fun _ h => h) good_empty (done := [])
    (by intro r c p; simp [Dag.on])
  refine ⟨g, ?_, hg, by simpa using hx⟩
  rw [buildTableDeps, if_neg (by simpa using hne), e]
  rfl

/-- Exact graphs have the very same diagrams. -/
theorem exact_unique {rs rs' : List DRule} (hm : ∀ r, r ∈ rs ↔ r ∈ rs') {g g' : Dag} (hg : Good n g) (hg' : Good n g')
    (h : ExactOn n rs rs g) (h' : ExactOn n rs' rs' g') (e : Edge) : g.reaches.lookup e = g'.reaches.lookup e := by
  obtain ⟨r, c⟩ := e
  have hon : ∀ p, g.on n r c p ↔ g'.on n r c p := by
    intro p
    rw [h, h', hm, hm]
    unfold FallsTo
    simp only [hm]
  have h1 := hg.some_iff r c
  have h2 := hg'.some_iff r c
  cases e1 : g.reaches.lookup ⟨r, c⟩ with
  | none =>
    cases e2 : g'.reaches.lookup ⟨r, c⟩ with
    | none => rfl
    | some b =>
      obtain ⟨p, hp⟩ := h2.1 (by simp [e2])
      have := h1.2 ⟨p, (hon p).2 hp⟩
      simp [e1] at this
  | some b =>
    cases e2 : g'.reaches.lookup ⟨r, c⟩ with
    | none =>
      obtain ⟨p, hp⟩ := h1.1 (by simp [e1])
      have := h2.2 ⟨p, (hon p).1 hp⟩
      simp [e2] at this
    | some b' =>
      refine congrArg some (bdd_ext (hg.labels _ _ e1).1 (hg'.labels _ _ e2).1 fun p => ?_)
      have := hon p
      unfold Dag.on at this
      rw [e1, e2] at this
      simpa using this

end Deps
end OFE
