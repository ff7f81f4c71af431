import Verif.Check.Lemmas
import Verif.Props.Ruleset

/-!
# Properties of the default equality check (C47)
-/

namespace OFE
open DD

/-- What a diagram in a session says about a packet. -/
theorem form_packet {π : Type} {rules : List (Rule π)} {es : List (Nat × Label)} {h h' : List Label} {t : DD Nat}
    (hf : FormOf rules es ((sessionReg h).runLabels (es.map (·.2))).1 t) (p : Pkt) :
    (∃ c l L i, FirstHit rules p c ∧ c.inst.fullActions = .ok l ∧ (LabelOf l L ∧ c.label = .ok L) ∧ t.lookup totBits p.hdr = some i ∧
      (sessionReg (h ++ es.map (·.2) ++ h')).numOf (some L) = some i ∧
      (sessionReg (h ++ es.map (·.2) ++ h')).actOf (t.lookup totBits p.hdr) = some (some L)) ∨
    ((∀ r ∈ rules, ¬ r.mat.accepts p) ∧ t.lookup totBits p.hdr = none) := by
  obtain ⟨-, -, s3⟩ := session_ids h (es.map (·.2)) h'
  rcases firstMatch_rule hf.entries hf.len p (hf.first p.hdr) with ⟨c, e, i, h1, h2, h3, h4⟩ | h1
  · obtain ⟨l, e1, e2⟩ := h2.label
    obtain ⟨g1, g2⟩ := s3 _ _ h3
    exact .inl ⟨c, l, e.2, i, h1, e1, ⟨e2, h2.lab⟩, h4, g1, by rw [h4]; exact g2⟩
  · exact .inr h1

theorem form_ids {π : Type} {rules : List (Rule π)} {es : List (Nat × Label)} {h h' : List Label} {t : DD Nat}
    (hf : FormOf rules es ((sessionReg h).runLabels (es.map (·.2))).1 t) (p : Packet) (v : Nat)
    (hv : t.lookup totBits p = some v) : v ∈ sessionIds (h ++ es.map (·.2) ++ h') := by
  refine (session_ids h (es.map (·.2)) h').2.1 v ?_
  have := hf.first p
  rw [hv] at this
  exact lookup_mem this

/-- The paths the check looks at. -/
theorem checkEqual_paths {π : Type} {A B : List (Rule π)} {ea eb : List (Nat × Label)} {ia ib : List Nat} {a b : DD Nat}
    (s : List Label) (hlen : 2 + s.length ≤ 2 ^ 26) (fa : FormOf A ea ia a) (fb : FormOf B eb ib b)
    (hia : ∀ p v, a.lookup totBits p = some v → v ∈ sessionIds s) (hib : ∀ p v, b.lookup totBits p = some v → v ∈ sessionIds s) :
    ∃ l, checkEqual (sessionReg s) a b = pathsLoop l ∧
      (∀ p, a.lookup totBits p ≠ b.lookup totBits p ↔ ∃ x ∈ l, Covers totBits x.1 p) ∧
      ∀ x ∈ l, (WcValid totBits x.1 ∧ FreeBelow (fieldPos 39) x.1) ∧ ∀ p, Covers totBits x.1 p →
        x.2.1 = (sessionReg s).actOf (a.lookup totBits p) ∧ x.2.2 = (sessionReg s).actOf (b.lookup totBits p) := by
  obtain ⟨l, h1, -, h2, h3⟩ := Cudd.C08_difftagged_decoded totBits (none : Option Label) (none : Option Label)
    (s.map fun l => (some l, some l)) (by rw [List.length_map]; exact hlen) a b fa.wf fb.wf hia hib
  obtain ⟨d1, d2⟩ := comparePaths_decoded (sessionReg s) _ _ h1
  refine ⟨l, d1, h2, fun x hx => ⟨⟨(h3 x hx).1, ?_⟩, (h3 x hx).2⟩⟩
  have hx1 : x.1 ∈ (DD.toWcs totBits (Cudd.diffTagged a b)).map (·.1) := by
    rw [← d2]; exact List.mem_map_of_mem hx
  obtain ⟨y, hy, hyx⟩ := List.mem_map.1 hx1
  rw [← hyx]
  obtain ⟨I, hl, he, -⟩ := Cudd.regInv_run (Cudd.regInv_init (none : Option Label) (none : Option Label)) (s.map fun l => (some l, some l))
  have hreg : ∀ v ∈ sessionIds s, 0 < v ∧ v < 2 ^ 26 := by
    intro v hv
    obtain ⟨k, hk, hkv⟩ := List.getElem_of_mem hv
    have hl' : (sessionIds s).length = s.length := by rw [List.length_map] at hl; exact hl
    have hk' : k < (s.map fun l => ((some l, some l) : Option Label × Option Label)).length := by rw [List.length_map]; omega
    have h1 := he k _ v (List.getElem?_eq_getElem hk') (by rw [← hkv]; exact List.getElem?_eq_getElem hk)
    obtain ⟨r1, r2, -⟩ := I.range _ _ h1
    have hs := I.small
    simp only [List.nil_append, List.length_map] at hs
    exact ⟨r1, by omega⟩
  have small : ∀ {t : DD Nat}, WF totBits 0 t → (∀ p v, t.lookup totBits p = some v → v ∈ sessionIds s) → ∀ q v, t.eval q = some v →
      0 < v ∧ v < 2 ^ 26 := by
    intro t ht hi q v hv
    apply hreg
    apply hi (fun i => q (totBits - 1 - i))
    rw [← hv]
    unfold lookup
    apply eval_congr ht
    intro i _ hi'
    change q (totBits - 1 - (totBits - 1 - i)) = q i
    congr 1; omega
  obtain ⟨wf, -⟩ := Cudd.diffTagged_spec fa.outer fb.outer fun q => ⟨small fa.wf hia q, small fb.wf hib q⟩
  exact toWcsAux_free wf (by decide) (fun i hi => freeBelow_full _ i (lt_of_lt_of_le hi (by decide))) y hy

/-- C47, labels: two labels are equal exactly when they are equal as sets of (port, actions) pairs. -/
theorem C47_label_frozenset (l l' : Label) (h : (l.map Prod.fst).Nodup) (h' : (l'.map Prod.fst).Nodup) :
    canonLabel l = canonLabel l' ↔ ∀ x, x ∈ l ↔ x ∈ l' := by
  have hinj : ∀ {a b : OutKey}, a.rank = b.rank → a = b := by
    intro a b e
    cases a <;> cases b <;> simp [OutKey.rank] at e ⊢
    exact e
  have hs : ∀ m : Label, (canonLabel m).Pairwise fun x y => x.1.rank ≤ y.1.rank := by
    intro m
    induction m with
    | nil => exact List.Pairwise.nil
    | cons x m ih =>
      change (insertKey x (canonLabel m)).Pairwise _
      generalize canonLabel m = k at ih
      clear m
      induction k with
      | nil => simp [insertKey]
      | cons y k ih2 =>
        rw [List.pairwise_cons] at ih
        simp only [insertKey]
        split
        · rename_i hxy
          refine List.pairwise_cons.2 ⟨fun z hz => ?_, List.pairwise_cons.2 ih⟩
          rcases List.mem_cons.1 hz with rfl | hz
          · exact hxy
          · exact Nat.le_trans hxy (ih.1 z hz)
        · rename_i hxy
          refine List.pairwise_cons.2 ⟨fun z hz => ?_, ih2 ih.2⟩
          rcases List.mem_cons.1 ((insertKey_perm x k).mem_iff.1 hz) with rfl | hz
          · omega
          · exact ih.1 z hz
  constructor
  · intro e x
    rw [← (canonLabel_perm l).mem_iff, ← (canonLabel_perm l').mem_iff, e]
  · intro e
    have hnd : ∀ {m : Label}, (m.map Prod.fst).Nodup → m.Nodup := fun hm => List.Nodup.of_map _ hm
    have hp : l.Perm l' := (List.perm_ext_iff_of_nodup (hnd h) (hnd h')).2 e
    refine List.Perm.eq_of_pairwise (le := fun x y => x.1.rank ≤ y.1.rank) ?_ (hs l) (hs l')
      (((canonLabel_perm l).trans hp).trans (canonLabel_perm l').symm)
    intro a b ha hb h1 h2
    have ha' := (canonLabel_perm l).mem_iff.1 ha
    have hb' : b ∈ l := (e b).2 ((canonLabel_perm l').mem_iff.1 hb)
    have hk : a.1 = b.1 := hinj (Nat.le_antisymm h1 h2)
    clear * - h ha' hb' hk
    induction l with
    | nil => cases ha'
    | cons x l ih =>
      rw [List.map_cons, List.nodup_cons] at h
      rcases List.mem_cons.1 ha' with ea | ea <;> rcases List.mem_cons.1 hb' with eb | eb
      · rw [ea, eb]
      · exact absurd (List.mem_map.2 ⟨b, eb, by rw [← hk, ea]⟩) h.1
      · exact absurd (List.mem_map.2 ⟨a, ea, by rw [hk, eb]⟩) h.1
      · exact ih h.2 ea eb

/-- Port 0 and packets that are passed on are kept apart, in any order. -/
example : canonLabel [(.port 0, []), (.pass, [.popVlan])] = canonLabel [(.pass, [.popVlan]), (.port 0, [])] :=
  (C47_label_frozenset _ _ (by decide) (by decide)).2 (by intro x; simp only [List.mem_cons, List.not_mem_nil, or_false]; tauto)

/-- C47: when the default check answers True, both rulesets send the same packets.  Between the two calls of `normalise`, and between them
and `check_equal`, the session may normalise anything else (`h0`, `h1`, `h2`).

Partial: for rulesets in single-table form whose rules are `PlainRule`s (no groups, no port named twice in one rule, not the combinations of
actions for which C24 fails, VLAN ids written with their present bit); the session hands out fewer than 2^26 numbers. -/
theorem C47_check_sound_partial {π : Type} (h0 h1 h2 : List Label) (A B : List (Rule π)) (hA : ∀ r ∈ A, PlainRule r)
    (hB : ∀ r ∈ B, PlainRule r) {a b : DD Nat} {r1 r2 : LReg} (ea : normaliseRules (sessionReg h0) A = .ok (a, r1))
    (eb : normaliseRules (r1.runLabels h1).2 B = .ok (b, r2)) (hc : checkEqual (r2.runLabels h2).2 a b = .ok true)
    (hlen : 2 + (h0.length + A.length + h1.length + B.length + h2.length) ≤ 2 ^ 26) :
    ∀ p : Pkt, p.Sized → ∀ out out', Sends A p out → Sends B p out' → out.Perm out' := by
  obtain ⟨esA, rfl, fa⟩ := (normaliseRules_spec hA h0).1 a r1 ea
  rw [sessionReg_run] at eb
  obtain ⟨esB, rfl, fb⟩ := (normaliseRules_spec hB _).1 b r2 eb
  rw [sessionReg_run] at hc
  set s := h0 ++ esA.map (·.2) ++ h1 ++ esB.map (·.2) ++ h2 with hs
  have hs' : s = h0 ++ esA.map (·.2) ++ (h1 ++ esB.map (·.2) ++ h2) := by rw [hs]; simp only [List.append_assoc]
  have hl : 2 + s.length ≤ 2 ^ 26 := by
    have := fa.entries.length_eq
    have := fb.entries.length_eq
    simp only [hs, List.length_append, List.length_map]
    omega
  obtain ⟨l, e1, e2, e3⟩ := checkEqual_paths s hl fa fb (fun p v hv => by rw [hs']; exact form_ids fa p v hv) fun p v hv => form_ids fb p v hv
  rw [e1] at hc
  have hpaths := pathsLoop_true hc
  intro p hp out out' ho ho'
  have pa := form_packet (h' := h1 ++ esB.map (·.2) ++ h2) fa p
  have pb := form_packet (h' := h2) fb p
  rw [← hs'] at pa
  rw [← hs] at pb
  -- what each side sends, given what its diagram says
  have key : ∀ {R : List (Rule π)} {o : List (Dest × Pkt)} {c : Rule π} {l : ActionList} {L : Label}, Sends R p o → FirstHit R p c →
      c.inst.fullActions = .ok l → LabelOf l L → o.Perm (emitted L p) := by
    rintro R o c l L (⟨c', l', g1, g2, rfl⟩ | ⟨g1, -⟩) g3 g4 g5
    · cases FirstHit.unique g1 g3
      rw [g2] at g4
      cases g4
      exact (g5.sends p).symm
    · obtain ⟨x, y, rfl, g6, -⟩ := g3
      exact absurd g6 (g1 c (by simp))
  have key' : ∀ {R : List (Rule π)} {o : List (Dest × Pkt)}, Sends R p o → (∀ r ∈ R, ¬ r.mat.accepts p) → o = [] := by
    rintro R o (⟨c', l', ⟨x, y, rfl, g6, -⟩, -, -⟩ | ⟨-, g⟩) g3
    · exact absurd g6 (g3 c' (by simp))
    · exact g
  by_cases hd : a.lookup totBits p.hdr = b.lookup totBits p.hdr
  · rcases pa with ⟨c, k, L, i, a1, a2, ⟨a3, a3'⟩, a4, a5, -⟩ | ⟨a1, a2⟩
    · rcases pb with ⟨c', k', M, j, b1, b2, ⟨b3, b3'⟩, b4, b5, -⟩ | ⟨-, b2⟩
      · rw [a4, b4] at hd
        cases hd
        cases session_inj s a5 b5
        exact (key ho a1 a2 a3).trans (key ho' b1 b2 b3).symm
      · rw [a4, b2] at hd; cases hd
    · rcases pb with ⟨c', k', M, j, -, -, -, b4, -, -⟩ | ⟨b1, -⟩
      · rw [a2, b4] at hd; cases hd
      · rw [key' ho a1, key' ho' b1]
  · obtain ⟨x, hx, hcov⟩ := (e2 p.hdr).1 hd
    obtain ⟨⟨hv, hfree⟩, hlab⟩ := e3 x hx
    obtain ⟨l1, l2⟩ := hlab _ hcov
    obtain ⟨m, m1, m2⟩ := hpaths x hx
    obtain ⟨m', m1', hno⟩ := matchSets_noOp hv hfree
    rw [m1] at m1'
    cases m1'
    rw [l1, l2] at m2
    rcases pa with ⟨c, k, L, i, a1, a2, ⟨a3, a3'⟩, a4, a5, a6⟩ | ⟨a1, a2⟩
    · rcases pb with ⟨c', k', M, j, b1, b2, ⟨b3, b3'⟩, b4, b5, b6⟩ | ⟨-, b2⟩
      · rw [a6, b6] at m2
        obtain ⟨r, f1, f2⟩ := comparePath_total (hno p hp hcov) a3.tup b3.tup a3.nodup b3.nodup
        rw [f1] at m2
        cases m2
        exact ((key ho a1 a2 a3).trans (f2 rfl)).trans (key ho' b1 b2 b3).symm
      · rw [a6, b2] at m2; cases m2
    · rw [a2] at m2
      cases m2

/-- C47, no failures: if both rulesets are in a single table and match every packet, the check answers. -/
theorem C47_check_total {π : Type} (h0 h1 h2 : List Label) (A B : List (Rule π)) (hA : ∀ r ∈ A, PlainRule r)
    (hB : ∀ r ∈ B, PlainRule r) (tA : ∀ r ∈ A, ∀ s ∈ A, r.table = s.table) (tB : ∀ r ∈ B, ∀ s ∈ B, r.table = s.table)
    (cA : ∀ p : Pkt, p.Sized → ∃ r ∈ A, r.mat.accepts p) (cB : ∀ p : Pkt, p.Sized → ∃ r ∈ B, r.mat.accepts p)
    (hlen : 2 + (h0.length + A.length + h1.length + B.length + h2.length) ≤ 2 ^ 26) :
    ∃ a r1 b r2 v, normaliseRules (sessionReg h0) A = .ok (a, r1) ∧ normaliseRules (r1.runLabels h1).2 B = .ok (b, r2) ∧
      checkEqual (r2.runLabels h2).2 a b = .ok v := by
  have hne : ∀ {R : List (Rule π)}, (∀ p : Pkt, p.Sized → ∃ r ∈ R, r.mat.accepts p) → R ≠ [] := by
    rintro R h rfl
    obtain ⟨r, hr, -⟩ := h (pktOf fun _ => false) (pktOf_sized _)
    cases hr
  obtain ⟨⟨a, r1⟩, ea⟩ := ((normaliseRules_spec hA h0).2 (hne cA) tA).1
  obtain ⟨esA, rfl, fa⟩ := (normaliseRules_spec hA h0).1 a r1 ea
  obtain ⟨⟨b, r2⟩, eb⟩ := ((normaliseRules_spec hB (h0 ++ esA.map (·.2) ++ h1)).2 (hne cB) tB).1
  obtain ⟨esB, rfl, fb⟩ := (normaliseRules_spec hB _).1 b r2 eb
  refine ⟨a, sessionReg (h0 ++ esA.map (·.2)), b, sessionReg (h0 ++ esA.map (·.2) ++ h1 ++ esB.map (·.2)), ?_⟩
  set s := h0 ++ esA.map (·.2) ++ h1 ++ esB.map (·.2) ++ h2 with hs
  have hs' : s = h0 ++ esA.map (·.2) ++ (h1 ++ esB.map (·.2) ++ h2) := by rw [hs]; simp only [List.append_assoc]
  have hl : 2 + s.length ≤ 2 ^ 26 := by
    have := fa.entries.length_eq
    have := fb.entries.length_eq
    simp only [hs, List.length_append, List.length_map]
    omega
  obtain ⟨l, e1, e2, e3⟩ := checkEqual_paths s hl fa fb (fun p v hv => by rw [hs']; exact form_ids fa p v hv) fun p v hv => form_ids fb p v hv
  obtain ⟨v, hv⟩ : ∃ v, pathsLoop l = .ok v := by
    refine pathsLoop_total fun x hx => ?_
    obtain ⟨⟨hv, hfree⟩, hlab⟩ := e3 x hx
    obtain ⟨m, m1, hno⟩ := matchSets_noOp hv hfree
    obtain ⟨p, hp, hcov⟩ := exists_covered hv hfree
    obtain ⟨l1, l2⟩ := hlab _ hcov
    have pa := form_packet (h' := h1 ++ esB.map (·.2) ++ h2) fa p
    have pb := form_packet (h' := h2) fb p
    rw [← hs'] at pa
    rw [← hs] at pb
    rcases pa with ⟨c, k, L, i, a1, a2, ⟨a3, a3'⟩, a4, a5, a6⟩ | ⟨a1, -⟩
    · rcases pb with ⟨c', k', M, j, b1, b2, ⟨b3, b3'⟩, b4, b5, b6⟩ | ⟨b1, -⟩
      · obtain ⟨r, f1, -⟩ := comparePath_total (hno p hp hcov) a3.tup b3.tup a3.nodup b3.nodup
        exact ⟨m, r, m1, by rw [l1, l2, a6, b6]; exact f1⟩
      · obtain ⟨r, hr, hr'⟩ := cB p hp
        exact absurd hr' (b1 r hr)
    · obtain ⟨r, hr, hr'⟩ := cA p hp
      exact absurd hr' (a1 r hr)
  exact ⟨v, ea, by rw [sessionReg_run]; exact eb, by rw [sessionReg_run, ← hs, e1]; exact hv⟩

/-- C47, the other way for equal labels: if every packet gets the same label from both rulesets (or is matched by neither), the check
answers True. -/
theorem C47_check_complete_labels {π : Type} (h0 h1 h2 : List Label) (A B : List (Rule π)) (hA : ∀ r ∈ A, PlainRule r)
    (hB : ∀ r ∈ B, PlainRule r) {a b : DD Nat} {r1 r2 : LReg} (ea : normaliseRules (sessionReg h0) A = .ok (a, r1))
    (eb : normaliseRules (r1.runLabels h1).2 B = .ok (b, r2))
    (hsame : ∀ p : Pkt, p.Sized → (∃ c d L, FirstHit A p c ∧ FirstHit B p d ∧ c.label = .ok L ∧ d.label = .ok L) ∨
      ((∀ r ∈ A, ¬ r.mat.accepts p) ∧ ∀ r ∈ B, ¬ r.mat.accepts p))
    (hlen : 2 + (h0.length + A.length + h1.length + B.length + h2.length) ≤ 2 ^ 26) :
    checkEqual (r2.runLabels h2).2 a b = .ok true := by
  obtain ⟨esA, rfl, fa⟩ := (normaliseRules_spec hA h0).1 a r1 ea
  rw [sessionReg_run] at eb
  obtain ⟨esB, rfl, fb⟩ := (normaliseRules_spec hB _).1 b r2 eb
  rw [sessionReg_run]
  set s := h0 ++ esA.map (·.2) ++ h1 ++ esB.map (·.2) ++ h2 with hs
  have hs' : s = h0 ++ esA.map (·.2) ++ (h1 ++ esB.map (·.2) ++ h2) := by rw [hs]; simp only [List.append_assoc]
  have hl : 2 + s.length ≤ 2 ^ 26 := by
    have := fa.entries.length_eq
    have := fb.entries.length_eq
    simp only [hs, List.length_append, List.length_map]
    omega
  obtain ⟨l, e1, e2, e3⟩ := checkEqual_paths s hl fa fb (fun p v hv => by rw [hs']; exact form_ids fa p v hv) fun p v hv => form_ids fb p v hv
  cases l with
  | nil => exact e1
  | cons x l =>
    exfalso
    obtain ⟨⟨hv, hfree⟩, -⟩ := e3 x (by simp)
    obtain ⟨p, hp, hcov⟩ := exists_covered hv hfree
    apply (e2 p.hdr).2 ⟨x, by simp, hcov⟩
    have pa := form_packet (h' := h1 ++ esB.map (·.2) ++ h2) fa p
    have pb := form_packet (h' := h2) fb p
    rw [← hs'] at pa
    rw [← hs] at pb
    have none_hit : ∀ {R : List (Rule π)} {c : Rule π}, FirstHit R p c → (∀ r ∈ R, ¬ r.mat.accepts p) → False := by
      rintro R c ⟨x, y, rfl, g, -⟩ h
      exact h c (by simp) g
    rcases hsame p hp with ⟨c, d, L, s1, s2, s3, s4⟩ | ⟨s1, s2⟩
    · rcases pa with ⟨c', -, L', i, a1, -, ⟨-, a3⟩, a4, a5, -⟩ | ⟨a1, -⟩
      · rcases pb with ⟨d', -, M', j, b1, -, ⟨-, b3⟩, b4, b5, -⟩ | ⟨b1, -⟩
        · cases FirstHit.unique s1 a1
          cases FirstHit.unique s2 b1
          rw [s3] at a3; cases a3
          rw [s4] at b3; cases b3
          rw [a5] at b5; cases b5
          rw [a4, b4]
        · exact (none_hit s2 b1).elim
      · exact (none_hit s1 a1).elim
    · rcases pa with ⟨c', -, -, -, a1, -⟩ | ⟨-, a2⟩
      · exact (none_hit a1 s1).elim
      · rcases pb with ⟨d', -, -, -, b1, -⟩ | ⟨-, b2⟩
        · exact (none_hit b1 s2).elim
        · rw [a2, b2]

/-! ### Examples -/

/-- A rule of table 0 that applies `acts` (already in canonical order, one per level). -/
def checkRule (mat : Match) (acts : List Action) : Rule Unit :=
  ⟨0, none, 0, mat, ⟨none, ⟨acts.map ([·]), acts⟩, ActionList.empty, none, false, none⟩, []⟩

/-- Packets of VLAN 5 get VLAN 5 again; everything goes to port 1. -/
def checkA : List (Rule Unit) :=
  [checkRule (Match.empty.append 6 0x1005 none) [.setField 6 0x1005, .output 1], checkRule Match.empty [.output 1]]

/-- Everything goes to port 1. -/
def checkB : List (Rule Unit) := [checkRule Match.empty [.output 1]]

/-- Only packets of VLAN 5 go to port 1. -/
def checkC : List (Rule Unit) := [checkRule (Match.empty.append 6 0x1005 none) [.output 1]]

/-- Packets without VLAN header get VLAN id 0, written without the present bit. -/
def checkD : List (Rule Unit) :=
  [checkRule (Match.empty.append 6 0 none) [.setField 6 0, .output 1], checkRule Match.empty [.output 1]]

/-- `normalise` of both in a fresh session and `check_equal`. -/
def runCheck (A B : List (Rule Unit)) : Except PyErr Bool := do
  let x ← normaliseRules (sessionReg []) A
  let y ← normaliseRules x.2 B
  checkEqual y.2 x.1 y.1

theorem empty_set : actionSetOfList [] = .ok ActionList.empty := by decide +kernel

theorem plain_checkRule {mat : Match} {acts : List Action} (hi : mat.Inv) (hk : ∀ x ∈ mat.items, x.1 < 40)
    (ha : ∀ a ∈ acts, a.known = true) (he : ActionList.ofList acts = .ok ⟨acts.map ([·]), acts⟩)
    (hp : PlainActs ((checkRule mat acts).inst.apply.iter ++ (checkRule mat acts).inst.write.iter)) : PlainRule (checkRule mat acts) :=
  ⟨⟨hi, hk, ⟨acts, ha, he⟩, ⟨[], by decide, empty_set⟩⟩, hp⟩

theorem checkA_plain : ∀ r ∈ checkA, PlainRule r := by
  intro r hr
  simp only [checkA, List.mem_cons, List.not_mem_nil, or_false] at hr
  rcases hr with rfl | rfl
  · refine plain_checkRule (inv_append inv_empty _ _ _) (by decide +kernel) (by decide) (by decide +kernel) ⟨?_, by decide +kernel, ?_, ?_, ?_⟩ <;>
      simp [checkRule, ActionList.iter, ActionList.empty]
  · refine plain_checkRule inv_empty (by decide +kernel) (by decide) (by decide +kernel) ⟨?_, by decide +kernel, ?_, ?_, ?_⟩ <;>
      simp [checkRule, ActionList.iter, ActionList.empty]

theorem checkB_plain : ∀ r ∈ checkB, PlainRule r := fun r hr => checkA_plain r (List.mem_cons_of_mem _ hr)

theorem checkC_plain : ∀ r ∈ checkC, PlainRule r := by
  intro r hr
  simp only [checkC, List.mem_cons, List.not_mem_nil, or_false] at hr
  subst hr
  refine plain_checkRule (inv_append inv_empty _ _ _) (by decide +kernel) (by decide) (by decide +kernel) ⟨?_, by decide +kernel, ?_, ?_, ?_⟩ <;>
      simp [checkRule, ActionList.iter, ActionList.empty]

/-- `C47_check_sound_partial` applies: the check answers True for rulesets with different labels. -/
example : ∃ a r1 b r2, normaliseRules (sessionReg []) checkA = .ok (a, r1) ∧
    normaliseRules (r1.runLabels []).2 checkB = .ok (b, r2) ∧ a ≠ b ∧ checkEqual (r2.runLabels []).2 a b = .ok true ∧
    ∀ p : Pkt, p.Sized → ∀ out out', Sends checkA p out → Sends checkB p out' → out.Perm out' := by
  have h : (match normaliseRules (sessionReg []) checkA with
    | .error _ => false
    | .ok x => match normaliseRules (x.2.runLabels []).2 checkB with
      | .error _ => false
      | .ok y => decide (x.1 ≠ y.1) && decide (checkEqual (y.2.runLabels []).2 x.1 y.1 = .ok true)) = true := by decide +kernel
  cases e1 : normaliseRules (sessionReg []) checkA with
  | error x => rw [e1] at h; cases h
  | ok x =>
    rw [e1] at h
    dsimp only at h
    cases e2 : normaliseRules (x.2.runLabels []).2 checkB with
    | error y => rw [e2] at h; cases h
    | ok y =>
      rw [e2] at h
      simp only [Bool.and_eq_true, decide_eq_true_eq] at h
      exact ⟨x.1, x.2, y.1, y.2, rfl, e2, h.1, h.2, C47_check_sound_partial [] [] [] checkA checkB checkA_plain checkB_plain e1 e2 h.2 (by decide)⟩

theorem empty_accepts (p : Pkt) : Match.empty.accepts p := by
  intro x hx
  cases hx

/-- `C47_check_total` applies. -/
example : ∃ a r1 b r2 v, normaliseRules (sessionReg []) checkA = .ok (a, r1) ∧ normaliseRules (r1.runLabels []).2 checkB = .ok (b, r2) ∧
    checkEqual (r2.runLabels []).2 a b = .ok v :=
  C47_check_total [] [] [] checkA checkB checkA_plain checkB_plain (by decide) (by decide)
    (fun p _ => ⟨_, by simp only [checkA]; exact List.mem_cons_of_mem _ List.mem_cons_self, empty_accepts p⟩)
    (fun p _ => ⟨_, by simp only [checkB]; exact List.mem_cons_self, empty_accepts p⟩) (by decide)

/-- `C47_check_complete_labels` applies: the rules are the same but for one that is never needed. -/
example {a b : DD Nat} {r1 r2 : LReg} (ea : normaliseRules (sessionReg []) (checkC ++ checkB) = .ok (a, r1))
    (eb : normaliseRules (r1.runLabels []).2 checkB = .ok (b, r2)) : checkEqual (r2.runLabels []).2 a b = .ok true := by
  refine C47_check_complete_labels [] [] [] _ checkB (fun r hr => ?_) checkB_plain ea eb (fun p _ => .inl ?_) (by decide)
  · rcases List.mem_append.1 hr with h | h
    · exact checkC_plain r h
    · exact checkB_plain r h
  · by_cases hp : (Match.empty.append 6 0x1005 none).accepts p
    · exact ⟨_, _, [(.port 1, [.output 1])], ⟨[], checkB, rfl, hp, by simp⟩, ⟨[], [], rfl, empty_accepts p, by simp⟩, by decide +kernel, by decide +kernel⟩
    · refine ⟨_, _, [(.port 1, [.output 1])], ⟨checkC, [], rfl, empty_accepts p, ?_⟩, ⟨[], [], rfl, empty_accepts p, by simp⟩, by decide +kernel, by decide +kernel⟩
      intro r hr
      simp only [checkC, List.mem_singleton] at hr
      subst hr
      exact hp

/-- C47 needs rulesets that match every packet to get an answer: with a packet that only one of them matches, the check fails with a
TypeError (`dict(None)`) instead of answering False. -/
theorem C47_missing_raises : (∀ r ∈ checkC, PlainRule r) ∧ (∀ r ∈ checkB, PlainRule r) ∧ runCheck checkC checkB = .error .typeError ∧
    runCheck checkB checkC = .error .typeError :=
  ⟨checkC_plain, checkB_plain, by decide +kernel, by decide +kernel⟩

/-- **C47 is violated** without the condition on VLAN ids: SET_FIELD VLAN_VID 0 sends tagged packets (VLAN ids are written with the present bit,
as in rule.py:203) but is taken for no change of packets that have no VLAN header. -/
theorem C47_vid_convention : (∀ r ∈ checkD, RuleOK r) ∧ runCheck checkD checkB = .ok true ∧
    ∃ p : Pkt, p.Sized ∧ ∃ out out', Sends checkD p out ∧ Sends checkB p out' ∧ ¬ out.Perm out' := by
  refine ⟨?_, by decide +kernel, pktOf fun _ => false, pktOf_sized _, _, _,
    .inl ⟨_, ⟨[[.setField 6 0], [.output 1]], [.setField 6 0, .output 1]⟩, ⟨[], _, rfl, ?_, by simp⟩, by decide +kernel, rfl⟩,
    .inl ⟨_, ⟨[[.output 1]], [.output 1]⟩, ⟨[], _, rfl, empty_accepts _, by simp⟩, by decide +kernel, rfl⟩, ?_⟩
  · intro r hr
    simp only [checkD, List.mem_cons, List.not_mem_nil, or_false] at hr
    rcases hr with rfl | rfl
    · exact ⟨inv_append inv_empty _ _ _, by decide +kernel, ⟨[.setField 6 0, .output 1], by decide, by decide +kernel⟩, ⟨[], by decide, by decide +kernel⟩⟩
    · exact ⟨inv_empty, by decide +kernel, ⟨[.output 1], by decide, by decide +kernel⟩, ⟨[], by decide, by decide +kernel⟩⟩
  · intro x hx i hi _
    have hx' : x ∈ [(6, 0, (none : Option Nat))] := hx
    simp only [List.mem_singleton] at hx'
    subst hx'
    rw [hdr_bit _ (by decide) hi]
    have h0 : (pktOf fun _ => false).fld (shown 6).1 (shown 6).2 = 0 := by decide +kernel
    rw [h0]
  · intro h
    have h' := (h.map fun x => x.2.fld 6 0).mem_iff (a := 0x1000)
    revert h'
    decide +kernel

end OFE
