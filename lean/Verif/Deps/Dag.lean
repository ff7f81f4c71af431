import Verif.Deps.Lemmas

/-!
# The dependency graph as a family of packet sets, and `add_parents_bdd`
-/

namespace OFE
namespace Deps
open DD

variable {n : Nat}

/-- The packets recorded on an edge (none if there is no edge). -/
def Dag.on (n : Nat) (g : Dag) (r c : DRule) (p : Packet) : Prop := ∃ b, g.reaches.lookup ⟨r, c⟩ = some b ∧ Holds n b p

/-- Labels are proper diagrams and not empty, and `parent_to_edge` lists the children of each edge's parent. -/
structure Good (n : Nat) (g : Dag) : Prop where
  labels : ∀ e b, g.reaches.lookup e = some b → WF n 0 b ∧ b ≠ bot
  kids : ∀ r c, r ∈ g.kids c ↔ (g.reaches.lookup ⟨r, c⟩).isSome
  nodup : ∀ c, (g.kids c).Nodup

theorem Good.some_iff {g : Dag} (h : Good n g) (r c : DRule) : (g.reaches.lookup ⟨r, c⟩).isSome ↔ ∃ p, g.on n r c p := by
  constructor
  · intro hs
    obtain ⟨b, hb⟩ := Option.isSome_iff_exists.1 hs
    obtain ⟨p, hp⟩ := (ne_bot_iff (h.labels _ _ hb).1).1 (h.labels _ _ hb).2
    exact ⟨p, b, hb, hp⟩
  · rintro ⟨p, b, hb, -⟩
    simp [hb]

theorem good_empty : Good n ⟨[], []⟩ := ⟨by simp, by simp [Dag.kids], by simp [Dag.kids]⟩

theorem nodup_setAdd {α : Type} [DecidableEq α] {x : α} {s : List α} (h : s.Nodup) : (setAdd x s).Nodup := by
  unfold setAdd
  split
  · exact h
  · next hx => exact List.nodup_append.2 ⟨h, by simp, by simp only [List.mem_singleton]; rintro a ha _ rfl rfl; exact hx ha⟩

theorem kids_set (g : Dag) (R : Reaches BDD) (c : DRule) (l : List DRule) (d : DRule) :
    (⟨R, dictSet c l g.children⟩ : Dag).kids d = if d = c then l else g.kids d := by
  unfold Dag.kids
  rw [lookup_dictSet]
  split <;> rfl

theorem good_setEdge {g : Dag} (h : Good n g) {r c : DRule} {b : BDD} (hb : WF n 0 b) (hne : b ≠ bot) : Good n (g.setEdge r c b) := by
  refine ⟨fun e b' he => ?_, fun r' c' => ?_, fun c' => ?_⟩
  · simp only [Dag.setEdge, lookup_dictSet] at he
    split at he
    · cases he; exact ⟨hb, hne⟩
    · exact h.labels _ _ he
  · simp only [Dag.setEdge]
    rw [kids_set, lookup_dictSet]
    by_cases e : c' = c
    · subst e
      rw [if_pos rfl, mem_setAdd, h.kids]
      by_cases e' : r' = r
      · subst e'; simp
      · simp [e', Edge.mk.injEq]
    · rw [if_neg e, h.kids, if_neg (by simp [e])]
  · simp only [Dag.setEdge]
    rw [kids_set]
    split
    · exact nodup_setAdd (h.nodup _)
    · exact h.nodup _

theorem on_setEdge {g : Dag} {r c : DRule} {b : BDD} (r' c' : DRule) (p : Packet) :
    (g.setEdge r c b).on n r' c' p ↔ if r' = r ∧ c' = c then Holds n b p else g.on n r' c' p := by
  unfold Dag.on
  simp only [Dag.setEdge, lookup_dictSet, Edge.mk.injEq]
  split
  · constructor
    · rintro ⟨b', e, h⟩; cases e; exact h
    · intro h; exact ⟨b, rfl, h⟩
  · rfl

/-- The rules in front of `c`. -/
def before (ps : List DRule) (c : DRule) : List DRule := ps.takeWhile fun q => decide (q ≠ c)

/-- The packets that arrive at `c` when `ps` is searched in order. -/
def Arrives (n : Nat) (packets : BDD) (ps : List DRule) (c : DRule) (p : Packet) : Prop :=
  Holds n packets p ∧ c ∈ ps ∧ c.hits n p ∧ ∀ q ∈ before ps c, ¬ q.hits n p

theorem before_self (c : DRule) (ps : List DRule) : before (c :: ps) c = [] := by simp [before]
theorem before_cons {q c : DRule} (h : q ≠ c) (ps : List DRule) : before (q :: ps) c = q :: before ps c := by simp [before, h]

theorem parentsLoop_spec (hn : 0 < n) (R : DRule) {ps : List DRule} (hv : ∀ q ∈ ps, WcValid n q.wc) {packets : BDD}
    (hp : WF n 0 packets) {g : Dag} (hg : Good n g) :
    Good n (parentsLoop n R packets ps g) ∧ ∀ r c p, (parentsLoop n R packets ps g).on n r c p ↔
      (r = R ∧ Arrives n packets ps c p) ∨ (¬ (r = R ∧ ∃ p', Arrives n packets ps c p') ∧ g.on n r c p) := by
  induction ps generalizing packets g with
  | nil =>
    refine ⟨hg, fun r c p => ?_⟩
    simp [parentsLoop, Arrives]
  | cons q ps ih =>
    obtain ⟨hqw, hqh⟩ := holds_bdd hn (hv q (by simp))
    have hi := holds_inter hp hqw
    have hs := holds_sub hp hqw
    have hiw := wf_inter hp hqw
    have hsw := wf_sub hp hqw
    have hv' : ∀ q ∈ ps, WcValid n q.wc := fun x hx => hv x (List.mem_cons_of_mem _ hx)
    unfold parentsLoop
    simp only
    by_cases h0 : Cudd.intersection packets (q.bdd n) = bot
    · rw [if_pos h0]
      have hno : ∀ p, ¬ (Holds n packets p ∧ q.hits n p) := by
        intro p ⟨h1, h2⟩
        have := (hi p).2 ⟨h1, (hqh p).2 h2⟩
        rw [h0] at this
        exact not_holds_bot p this
      obtain ⟨g1, g2⟩ := ih hv' hp hg
      have hA : ∀ c p, Arrives n packets (q :: ps) c p ↔ Arrives n packets ps c p := by
        intro c p
        unfold Arrives
        by_cases e : q = c
        · subst e
          constructor
          · rintro ⟨a1, -, a3, -⟩; exact absurd ⟨a1, a3⟩ (hno p)
          · rintro ⟨a1, -, a3, -⟩; exact absurd ⟨a1, a3⟩ (hno p)
        · rw [before_cons e]
          constructor
          · rintro ⟨a1, a2, a3, a4⟩
            exact ⟨a1, (List.mem_cons.1 a2).resolve_left fun h => e h.symm, a3, fun x hx => a4 x (List.mem_cons_of_mem _ hx)⟩
          · rintro ⟨a1, a2, a3, a4⟩
            refine ⟨a1, List.mem_cons_of_mem _ a2, a3, fun x hx => ?_⟩
            rcases List.mem_cons.1 hx with rfl | hx
            · exact fun h => hno p ⟨a1, h⟩
            · exact a4 x hx
      refine ⟨g1, fun r c p => ?_⟩
      simp only [hA]
      exact g2 r c p
    · rw [if_neg h0]
      have hA : ∀ c p, c ≠ q → (Arrives n packets (q :: ps) c p ↔ Arrives n (Cudd.subtract packets (q.bdd n)) ps c p) := by
        intro c p e
        unfold Arrives
        rw [before_cons (Ne.symm e), hs, hqh]
        constructor
        · rintro ⟨a1, a2, a3, a4⟩
          exact ⟨⟨a1, a4 q (by simp)⟩, (List.mem_cons.1 a2).resolve_left e, a3, fun x hx => a4 x (List.mem_cons_of_mem _ hx)⟩
        · rintro ⟨⟨a1, a1'⟩, a2, a3, a4⟩
          refine ⟨a1, List.mem_cons_of_mem _ a2, a3, fun x hx => ?_⟩
          rcases List.mem_cons.1 hx with rfl | hx
          · exact a1'
          · exact a4 x hx
      have hAq : ∀ p, Arrives n packets (q :: ps) q p ↔ Holds n (Cudd.intersection packets (q.bdd n)) p := by
        intro p
        unfold Arrives
        rw [before_self, hi, hqh]
        simp
      have hAq' : ∀ p, ¬ Arrives n (Cudd.subtract packets (q.bdd n)) ps q p := by
        rintro p ⟨a1, -, a3, -⟩
        exact ((hs p).1 a1).2 ((hqh p).2 a3)
      have hex : ∃ p', Arrives n packets (q :: ps) q p' := by
        obtain ⟨p', h'⟩ := (ne_bot_iff hiw).1 h0
        exact ⟨p', (hAq p').2 h'⟩
      have hg' : Good n (g.setEdge R q (Cudd.intersection packets (q.bdd n))) := good_setEdge hg hiw h0
      by_cases h1 : Cudd.subtract packets (q.bdd n) = bot
      · rw [if_pos h1]
        refine ⟨hg', fun r c p => ?_⟩
        have hz : ∀ c p, ¬ Arrives n (Cudd.subtract packets (q.bdd n)) ps c p := by
          rintro c p ⟨a1, -⟩; rw [h1] at a1; exact not_holds_bot p a1
        rw [on_setEdge]
        by_cases ec : c = q
        · subst ec
          by_cases er : r = R
          · subst er; simp [hAq, hex]
            intro h; exact absurd hex (by simpa [hAq] using h)
          · simp [er]
        · simp [ec, hA c _ ec, hz]
      · rw [if_neg h1]
        obtain ⟨g1, g2⟩ := ih hv' hsw hg'
        refine ⟨g1, fun r c p => ?_⟩
        rw [g2, on_setEdge]
        by_cases ec : c = q
        · subst ec
          by_cases er : r = R
          · subst er; simp [hAq', hAq]
            intro h; exact absurd hex (by simpa [hAq] using h)
          · simp [er]
        · simp [ec, hA c _ ec]

/-- The rules in front of `c` in a list of falling priority. -/
theorem before_desc {ps : List DRule} (h : ps.Pairwise fun a b => b.priority ≤ a.priority) {c : DRule} (hc : c ∈ ps) (q : DRule) :
    (q ∈ before ps c → q ∈ ps ∧ q ≠ c ∧ c.priority ≤ q.priority) ∧ (q ∈ ps → c.priority < q.priority → q ∈ before ps c) := by
  induction ps with
  | nil => cases hc
  | cons x ps ih =>
    rw [List.pairwise_cons] at h
    by_cases e : x = c
    · subst e
      rw [before_self]
      refine ⟨by simp, fun hq hlt => ?_⟩
      rcases List.mem_cons.1 hq with rfl | hq
      · omega
      · have := h.1 q hq; omega
    · have hc' := (List.mem_cons.1 hc).resolve_left (Ne.symm e)
      obtain ⟨i1, i2⟩ := ih h.2 hc'
      rw [before_cons e]
      constructor
      · intro hq
        rcases List.mem_cons.1 hq with rfl | hq
        · exact ⟨by simp, e, h.1 c hc'⟩
        · obtain ⟨a, b, d⟩ := i1 hq
          exact ⟨List.mem_cons_of_mem _ a, b, d⟩
      · intro hq hlt
        rcases List.mem_cons.1 hq with rfl | hq
        · simp
        · exact List.mem_cons_of_mem _ (i2 hq hlt)

end Deps
end OFE
