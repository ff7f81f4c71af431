import Verif.Hs.Spec
import Verif.Props.Wildcard
import Verif.Deps.Batch

/-! # Header spaces denote packet sets -/

namespace OFE
namespace HSpace

variable {n : Nat}

theorem has_addHs (h : HSpace) (wc : Nat) (p : Packet) : (h.addHs wc).Has n p ↔ h.Has n p ∨ Covers n wc p := by
  simp only [Has, addHs, List.mem_append, List.mem_singleton]
  constructor
  · rintro ⟨x, hx | rfl, h1, h2⟩
    · exact .inl ⟨x, hx, h1, h2⟩
    · exact .inr h1
  · rintro (⟨x, hx, h1, h2⟩ | h1)
    · exact ⟨x, .inl hx, h1, h2⟩
    · exact ⟨_, .inr rfl, h1, by simp⟩

theorem not_covers_meet (hn : 0 < n) {isect : Nat} {ds : List Nat} {p : Packet} (hp : Covers n isect p) :
    (∀ d ∈ meet n isect ds, ¬ Covers n d p) ↔ ∀ d ∈ ds, ¬ Covers n d p := by
  simp only [meet, List.mem_filter, List.mem_map, decide_eq_true_eq]
  constructor
  · intro h d hd hc
    have hcov := (covers_wcIntersect hn isect d p).2 ⟨hp, hc⟩
    refine h _ ⟨⟨d, hd, rfl⟩, fun h0 => ?_⟩ hcov
    rw [h0] at hcov; exact not_covers_zero hn p hcov
  · rintro h _ ⟨⟨d, hd, rfl⟩, -⟩ hc
    exact h d hd ((covers_wcIntersect hn isect d p).1 hc).2

theorem has_intersect (hn : 0 < n) (a b : HSpace) (p : Packet) : (intersect n a b).Has n p ↔ a.Has n p ∧ b.Has n p := by
  constructor
  · rintro ⟨z, hz, h1, h2⟩
    simp only [intersect, List.mem_flatMap] at hz
    obtain ⟨x, hx, y, hy, hz⟩ := hz
    split at hz
    · rw [List.mem_singleton] at hz
      subst hz
      simp only at h1 h2
      have hc := (covers_wcIntersect hn _ _ p).1 h1
      have h3 : ∀ d ∈ meet n (wcIntersect n x.1 y.1) x.2, ¬ Covers n d p := fun d hd => h2 d (List.mem_append_left _ hd)
      have h4 : ∀ d ∈ meet n (wcIntersect n x.1 y.1) y.2, ¬ Covers n d p := fun d hd => h2 d (List.mem_append_right _ hd)
      exact ⟨⟨x, hx, hc.1, (not_covers_meet hn h1).1 h3⟩, ⟨y, hy, hc.2, (not_covers_meet hn h1).1 h4⟩⟩
    · cases hz
  · rintro ⟨⟨x, hx, h1, h2⟩, y, hy, h3, h4⟩
    have hc := (covers_wcIntersect hn x.1 y.1 p).2 ⟨h1, h3⟩
    have hne : wcIntersect n x.1 y.1 ≠ 0 := by
      intro h0; rw [h0] at hc; exact not_covers_zero hn p hc
    refine ⟨(wcIntersect n x.1 y.1, meet n (wcIntersect n x.1 y.1) x.2 ++ meet n (wcIntersect n x.1 y.1) y.2), ?_, hc, ?_⟩
    · simp only [intersect, List.mem_flatMap]
      exact ⟨x, hx, y, hy, by simp [hne]⟩
    · intro d hd
      rcases List.mem_append.1 hd with hd | hd
      · exact (not_covers_meet hn hc).2 h2 d hd
      · exact (not_covers_meet hn hc).2 h4 d hd

theorem has_diffHs (hn : 0 < n) (h : HSpace) (wc : Nat) (p : Packet) : (h.diffHs n wc).Has n p ↔ h.Has n p ∧ ¬ Covers n wc p := by
  simp only [Has, diffHs, List.mem_map]
  constructor
  · rintro ⟨_, ⟨x, hx, rfl⟩, h1, h2⟩
    by_cases hne : wcIntersect n x.1 wc ≠ 0
    · simp only [if_pos hne] at h1 h2
      refine ⟨⟨x, hx, h1, fun d hd => h2 d (List.mem_append_left _ hd)⟩, fun hc => ?_⟩
      exact h2 (wcIntersect n x.1 wc) (by simp) ((covers_wcIntersect hn _ _ p).2 ⟨h1, hc⟩)
    · simp only [if_neg hne] at h1 h2
      refine ⟨⟨x, hx, h1, h2⟩, fun hc => ?_⟩
      have := (covers_wcIntersect hn x.1 wc p).2 ⟨h1, hc⟩
      rw [not_not.1 hne] at this; exact not_covers_zero hn p this
  · rintro ⟨⟨x, hx, h1, h2⟩, h3⟩
    refine ⟨_, ⟨x, hx, rfl⟩, ?_⟩
    split
    · refine ⟨h1, fun d hd => ?_⟩
      rcases List.mem_append.1 hd with hd | hd
      · exact h2 d hd
      · rw [List.mem_singleton] at hd
        subst hd
        exact fun hc => h3 ((covers_wcIntersect hn _ _ p).1 hc).2
    · exact ⟨h1, h2⟩

theorem has_cleanUp (h : HSpace) (p : Packet) : h.cleanUp.Has n p ↔ h.Has n p := by
  simp only [Has, cleanUp, List.mem_flatMap]
  constructor
  · rintro ⟨z, ⟨x, hx, hz⟩, h1, h2⟩
    split at hz
    · cases hz
    · rw [List.mem_singleton] at hz
      subst hz
      refine ⟨x, hx, h1, fun d hd hc => ?_⟩
      obtain ⟨w, hw, hc'⟩ := (C14_compress_wildcard_list n x.2 p).1.2 ⟨d, hd, hc⟩
      exact h2 w hw hc'
  · rintro ⟨x, hx, h1, h2⟩
    refine ⟨(x.1, compressList x.2), ⟨x, hx, ?_⟩, h1, fun d hd hc => ?_⟩
    · rw [if_neg]
      · simp
      · simp only [List.any_eq_true, not_exists, not_and]
        intro d hd hs
        exact h2 d hd (covers_mono hs h1)
    · obtain ⟨w, hw, hc'⟩ := (C14_compress_wildcard_list n x.2 p).1.1 ⟨d, hd, hc⟩
      exact h2 w hw hc'

end HSpace

namespace Deps
open DD
variable {n : Nat}

/-- Labels of the two algorithms stand for the same packets, and no edge is missing. -/
def SameLabels (n : Nat) (g : Dag) (h : Reaches HSpace) : Prop :=
  ∀ r c, ((g.reaches.lookup ⟨r, c⟩).isSome → (h.lookup ⟨r, c⟩).isSome) ∧
    ∀ l, h.lookup ⟨r, c⟩ = some l → ∀ p, l.Has n p ↔ g.on n r c p

theorem parentsLoopHs_keys (hn : 0 < n) (R : DRule) {ps : List DRule} (hv : ∀ q ∈ ps, WcValid n q.wc) {packets : BDD} (hp : WF n 0 packets)
    {hs : HSpace} (heq : ∀ p, hs.Has n p ↔ Holds n packets p) {g : Dag} {h : Reaches HSpace}
    (hk : ∀ e, (g.reaches.lookup e).isSome → (h.lookup e).isSome) (e : Edge) :
    ((parentsLoop n R packets ps g).reaches.lookup e).isSome → ((parentsLoopHs n R hs ps h).lookup e).isSome := by
  induction ps generalizing packets hs g h with
  | nil => exact hk e
  | cons q ps ih =>
    obtain ⟨hqw, hqh⟩ := holds_bdd hn (hv q (by simp))
    have hv' : ∀ q ∈ ps, WcValid n q.wc := fun x hx => hv x (List.mem_cons_of_mem _ hx)
    have hi := holds_inter hp hqw
    have hs' := holds_sub hp hqw
    have hI : ∀ p, ((HSpace.intersect n hs (HSpace.addHs [] q.wc)).cleanUp).Has n p ↔ Holds n (Cudd.intersection packets (q.bdd n)) p := by
      intro p
      rw [HSpace.has_cleanUp, HSpace.has_intersect hn, HSpace.has_addHs, hi, hqh, heq]
      simp [HSpace.Has, DRule.hits]
    have hD : ∀ p, (hs.diffHs n q.wc).Has n p ↔ Holds n (Cudd.subtract packets (q.bdd n)) p := by
      intro p
      rw [HSpace.has_diffHs hn, hs', hqh, heq]; rfl
    have mono : ∀ (ps : List DRule) (hs : HSpace) (h : Reaches HSpace) (e : Edge), (h.lookup e).isSome → ((parentsLoopHs n R hs ps h).lookup e).isSome := by
      intro ps
      induction ps with
      | nil => intro _ _ _ h; exact h
      | cons x ps ih2 =>
        intro hs h e he
        rw [parentsLoopHs]
        split
        · exact ih2 _ _ _ he
        · refine ih2 _ _ _ ?_
          rw [lookup_dictSet]; split
          · rfl
          · exact he
    rw [parentsLoop, parentsLoopHs]
    simp only
    by_cases h0 : Cudd.intersection packets (q.bdd n) = bot
    · rw [if_pos h0]
      split
      · exact ih hv' hp heq hk
      · refine ih hv' hp (fun p => ?_) fun e' he' => ?_
        · rw [hD, hs']
          constructor
          · exact fun h => h.1
          · intro h
            refine ⟨h, fun h2 => ?_⟩
            have := (hi p).2 ⟨h, h2⟩
            rw [h0] at this; exact not_holds_bot p this
        · rw [lookup_dictSet]; split
          · rfl
          · exact hk e' he'
    · rw [if_neg h0]
      have hne : ¬ ((HSpace.intersect n hs (HSpace.addHs [] q.wc)).cleanUp).isEmpty = true := by
        intro hemp
        obtain ⟨p, hpp⟩ := (ne_bot_iff (wf_inter hp hqw)).1 h0
        obtain ⟨x, hx, -⟩ := (hI p).2 hpp
        have : (HSpace.intersect n hs (HSpace.addHs [] q.wc)).cleanUp = [] := by
          simpa [HSpace.isEmpty] using hemp
        rw [this] at hx; cases hx
      rw [if_neg hne]
      have hset : ∀ e', ((g.setEdge R q (Cudd.intersection packets (q.bdd n))).reaches.lookup e').isSome →
          ((dictSet ⟨R, q⟩ ((HSpace.intersect n hs (HSpace.addHs [] q.wc)).cleanUp) h).lookup e').isSome := by
        intro e' he'
        simp only [Dag.setEdge, lookup_dictSet] at he' ⊢
        split
        · rfl
        · next hne => rw [if_neg hne] at he'; exact hk e' he'
      split
      · intro he; exact mono _ _ _ _ (hset e he)
      · exact ih hv' (wf_sub hp hqw) hD hset

theorem parentsLoopHs_labels (hn : 0 < n) (R : DRule) {ps : List DRule} (hv : ∀ q ∈ ps, WcValid n q.wc) (hnd : ps.Nodup) {packets : BDD}
    (hp : WF n 0 packets) {hs : HSpace} (heq : ∀ p, hs.Has n p ↔ Holds n packets p) {h : Reaches HSpace} (r c : DRule) (l : HSpace)
    (hl : (parentsLoopHs n R hs ps h).lookup ⟨r, c⟩ = some l) :
    (r = R ∧ c ∈ ps ∧ ∀ p, l.Has n p ↔ Arrives n packets ps c p) ∨
    ((r = R → ∀ p, ¬ Arrives n packets ps c p) ∧ h.lookup ⟨r, c⟩ = some l) := by
  induction ps generalizing packets hs h with
  | nil =>
    right
    exact ⟨fun _ p hA => by simp [Arrives] at hA, hl⟩
  | cons q ps ih =>
    rw [List.nodup_cons] at hnd
    obtain ⟨hqw, hqh⟩ := holds_bdd hn (hv q (by simp))
    have hv' : ∀ q ∈ ps, WcValid n q.wc := fun x hx => hv x (List.mem_cons_of_mem _ hx)
    have hi := holds_inter hp hqw
    have hs' := holds_sub hp hqw
    have hI : ∀ p, ((HSpace.intersect n hs (HSpace.addHs [] q.wc)).cleanUp).Has n p ↔ Holds n packets p ∧ q.hits n p := by
      intro p
      rw [HSpace.has_cleanUp, HSpace.has_intersect hn, HSpace.has_addHs, heq]
      simp [HSpace.Has, DRule.hits]
    have hD : ∀ p, (hs.diffHs n q.wc).Has n p ↔ Holds n (Cudd.subtract packets (q.bdd n)) p := by
      intro p
      rw [HSpace.has_diffHs hn, hs', hqh, heq]; rfl
    have hAself : ∀ p, Arrives n packets (q :: ps) q p ↔ Holds n packets p ∧ q.hits n p := by
      intro p; unfold Arrives; rw [before_self]; simp
    have hAne : ∀ p, c ≠ q → (Arrives n packets (q :: ps) c p ↔ Arrives n (Cudd.subtract packets (q.bdd n)) ps c p) := by
      intro p e
      unfold Arrives
      rw [before_cons (Ne.symm e), hs', hqh]
      constructor
      · rintro ⟨a1, a2, a3, a4⟩
        exact ⟨⟨a1, a4 q (by simp)⟩, (List.mem_cons.1 a2).resolve_left e, a3, fun x hx => a4 x (List.mem_cons_of_mem _ hx)⟩
      · rintro ⟨⟨a1, a1'⟩, a2, a3, a4⟩
        refine ⟨a1, List.mem_cons_of_mem _ a2, a3, fun x hx => ?_⟩
        rcases List.mem_cons.1 hx with rfl | hx
        · exact a1'
        · exact a4 x hx
    have hAself' : ∀ p, ¬ Arrives n (Cudd.subtract packets (q.bdd n)) ps q p := fun p hA => hnd.1 hA.2.1
    rw [parentsLoopHs] at hl
    split at hl
    · next hemp =>
      have hemp' : (HSpace.intersect n hs (HSpace.addHs [] q.wc)).cleanUp = [] := by simpa [HSpace.isEmpty] using hemp
      have hno : ∀ p, ¬ (Holds n packets p ∧ q.hits n p) := by
        intro p hh
        obtain ⟨x, hx, -⟩ := (hI p).2 hh
        rw [hemp'] at hx; cases hx
      have hsame : ∀ p, Holds n (Cudd.subtract packets (q.bdd n)) p ↔ Holds n packets p := by
        intro p
        rw [hs', hqh]
        exact ⟨fun h => h.1, fun h => ⟨h, fun h2 => hno p ⟨h, h2⟩⟩⟩
      rcases ih hv' hnd.2 (wf_sub hp hqw) (fun p => (heq p).trans (hsame p).symm) hl with ⟨h1, h2, h3⟩ | ⟨h1, h2⟩
      · left
        have hcq : c ≠ q := by rintro rfl; exact hnd.1 h2
        exact ⟨h1, List.mem_cons_of_mem _ h2, fun p => by rw [h3, hAne p hcq]⟩
      · right
        refine ⟨fun hr p hA => ?_, h2⟩
        by_cases hcq : c = q
        · subst hcq; exact hno p ((hAself p).1 hA)
        · exact h1 hr p ((hAne p hcq).1 hA)
    · rcases ih hv' hnd.2 (wf_sub hp hqw) hD hl with ⟨h1, h2, h3⟩ | ⟨h1, h2⟩
      · left
        have hcq : c ≠ q := by rintro rfl; exact hnd.1 h2
        exact ⟨h1, List.mem_cons_of_mem _ h2, fun p => by rw [h3, hAne p hcq]⟩
      · rw [lookup_dictSet] at h2
        split at h2
        · next e =>
          left
          rw [Edge.mk.injEq] at e
          obtain ⟨rfl, rfl⟩ := e
          cases h2
          exact ⟨rfl, by simp, fun p => by rw [hI, hAself]⟩
        · next e =>
          right
          refine ⟨fun hr p hA => ?_, h2⟩
          have hcq : c ≠ q := by rintro rfl; exact e (by rw [hr])
          exact h1 hr p ((hAne p hcq).1 hA)

theorem descending_nodup {P : List DRule} (h : P.Nodup) : (descending P).Nodup := (sortBy_perm _ P).nodup_iff.2 h

/-- One rule: both algorithms start from the same wildcard. -/
theorem start_same (hn : 0 < n) {w : Nat} (hw : WcValid n w) : WF n 0 (ofWc n w) ∧ ∀ p, (HSpace.addHs [] w).Has n p ↔ Holds n (ofWc n w) p := by
  obtain ⟨h1, h2⟩ := holds_ofWc hn hw
  refine ⟨h1, fun p => ?_⟩
  rw [HSpace.has_addHs, h2]
  simp [HSpace.Has]

theorem startWc_valid {R : DRule} {P : List DRule} (hw : WcValid n R.wc) (he : ∀ w, R.egress = .ok w → WcValid n w) {w : Nat}
    (h : startWc R P = .ok w) : WcValid n w := by
  unfold startWc at h
  split at h
  · split at h
    · cases h; exact hw
    · exact he w h
  · exact he w h

theorem hs_fold_keys (hn : 0 < n) {rs : List DRule} (hv : ∀ r ∈ rs, WcValid n r.wc) (he : ∀ r ∈ rs, ∀ w, r.egress = .ok w → WcValid n w)
    (todo : List DRule) (hsub : ∀ r ∈ todo, r ∈ rs) {g g' : Dag} {h : Reaches HSpace} (hk : ∀ e, (g.reaches.lookup e).isSome → (h.lookup e).isSome)
    (hg : todo.foldlM (fun g R => addParents n R (potential rs R) g) g = .ok g') :
    ∃ h', todo.foldlM (fun g R => addParentsHs n R (potential rs R) g) h = .ok h' ∧ ∀ e, (g'.reaches.lookup e).isSome → (h'.lookup e).isSome := by
  induction todo generalizing g h with
  | nil => cases hg; exact ⟨h, rfl, hk⟩
  | cons R todo ih =>
    rw [List.foldlM_cons] at hg ⊢
    have hR := hsub R (by simp)
    cases hs : startWc R (potential rs R) with
    | error e => simp only [addParents, hs, bind, Except.bind] at hg; cases hg
    | ok w =>
      simp only [addParents, addParentsHs, hs, bind, Except.bind, pure, Except.pure] at hg ⊢
      obtain ⟨s1, s2⟩ := start_same hn (startWc_valid (hv R hR) (he R hR) hs)
      exact ih (fun r hr => hsub r (List.mem_cons_of_mem _ hr))
        (parentsLoopHs_keys hn R (fun q hq => hv q (List.mem_of_mem_filter (mem_descending.1 hq))) s1 s2 hk) hg

theorem hs_fold_labels (hn : 0 < n) {rs : List DRule} (hnd : rs.Nodup) (hv : ∀ r ∈ rs, WcValid n r.wc)
    (he : ∀ r ∈ rs, ∀ w, r.egress = .ok w → WcValid n w) (todo : List DRule) (hsub : ∀ r ∈ todo, r ∈ rs) (hnt : todo.Nodup)
    {g g' : Dag} {h h' : Reaches HSpace} (hgood : Good n g) (hnew : ∀ r ∈ todo, ∀ c, h.lookup ⟨r, c⟩ = none) (hgn : ∀ r ∈ todo, ∀ c p, ¬ g.on n r c p)
    (hlab : ∀ r c l, h.lookup ⟨r, c⟩ = some l → ∀ p, l.Has n p ↔ g.on n r c p)
    (hg : todo.foldlM (fun g R => addParents n R (potential rs R) g) g = .ok g')
    (hh : todo.foldlM (fun g R => addParentsHs n R (potential rs R) g) h = .ok h') :
    ∀ r c l, h'.lookup ⟨r, c⟩ = some l → ∀ p, l.Has n p ↔ g'.on n r c p := by
  induction todo generalizing g h with
  | nil => cases hg; cases hh; exact hlab
  | cons R todo ih =>
    rw [List.foldlM_cons] at hg hh
    rw [List.nodup_cons] at hnt
    have hR := hsub R (by simp)
    cases hs : startWc R (potential rs R) with
    | error e => simp only [addParents, hs, bind, Except.bind] at hg; cases hg
    | ok w =>
      simp only [addParents, addParentsHs, hs, bind, Except.bind, pure, Except.pure] at hg hh
      obtain ⟨s1, s2⟩ := start_same hn (startWc_valid (hv R hR) (he R hR) hs)
      have hv' : ∀ q ∈ descending (potential rs R), WcValid n q.wc := fun q hq => hv q (List.mem_of_mem_filter (mem_descending.1 hq))
      have hnd' : (descending (potential rs R)).Nodup := descending_nodup (hnd.filter _)
      obtain ⟨hg1, o1⟩ := parentsLoop_spec hn R hv' s1 hgood
      have key := parentsLoopHs_labels hn R hv' hnd' s1 s2 (h := h)
      refine ih (fun r hr => hsub r (List.mem_cons_of_mem _ hr)) hnt.2 hg1 ?_ ?_ ?_ hg hh
      · intro r hr c
        cases hl : (parentsLoopHs n R (HSpace.addHs [] w) (descending (potential rs R)) h).lookup ⟨r, c⟩ with
        | none => rfl
        | some l =>
          rcases key r c l hl with ⟨h1, -⟩ | ⟨-, h2⟩
          · exact absurd (h1 ▸ hr) hnt.1
          · rw [hnew r (List.mem_cons_of_mem _ hr) c] at h2; cases h2
      · intro r hr c p hon
        rcases (o1 r c p).1 hon with ⟨h1, -⟩ | ⟨-, h2⟩
        · exact absurd (h1 ▸ hr) hnt.1
        · exact hgn r (List.mem_cons_of_mem _ hr) c p h2
      · intro r c l hl p
        rw [o1]
        rcases key r c l hl with ⟨h1, h2, h3⟩ | ⟨h1, h2⟩
        · subst h1
          rw [h3]
          have := hgn r (by simp) c p
          tauto
        · have hrR : r ≠ R := by
            rintro rfl
            rw [hnew r (by simp) c] at h2; cases h2
          rw [hlab r c l h2 p]
          simp [hrR]

end Deps
end OFE
