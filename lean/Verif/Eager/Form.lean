import Verif.Eager.Lemmas
import Verif.Props.Ruleset

/-!
# The canonical form with the eager treatment of set-fields
-/

namespace OFE
open DD

theorem dc_form {es : List (Nat × Label)} (hes : ∀ e ∈ es, WcValid totBits e.1 ∧ FreeBelow (fieldPos 39) e.1) {ids : List Nat}
    (hlen : ids.length = es.length) (hne : es ≠ []) :
    ∃ t, normaliseDC totBits plain (numbered es ids) = .ok t ∧ WF totBits 0 t ∧
      ∀ p, FirstMatch totBits p (List.zipWith (fun (e : Nat × Label) id => (e.1, id)) es ids) (t.lookup totBits p) := by
  have hok : RulesOK totBits plain (numbered es ids) := by
    refine ⟨?_, ?_⟩
    · have : ∀ r ∈ numbered es ids, r.table = 0 := by
        intro x hx
        unfold numbered at hx
        obtain ⟨k, hk, rfl⟩ := List.getElem_of_mem hx
        rw [List.getElem_zipWith]
      intro r hr s hs
      rw [this r hr, this s hs]
    · rw [numbered_entries]
      intro x hx
      obtain ⟨e, he, hxe⟩ := mem_numbered x hx
      rw [hxe]; exact (hes e he).1
  obtain ⟨t, g1, g2, -, g3⟩ := normaliseDC_spec (by decide) hok (numbered_ne hlen hne)
  rw [numbered_entries] at g3
  exact ⟨t, g1, g2, g3⟩

theorem firstMatch_zip {n : Nat} {p : Packet} : ∀ {es : List (Nat × Label)} {ids : List Nat} {x : Option Nat}, ids.length = es.length →
    FirstMatch n p (List.zipWith (fun (e : Nat × Label) id => (e.1, id)) es ids) x →
    (∃ L i, (L, i) ∈ (es.map (·.2)).zip ids ∧ x = some i ∧ FirstMatch n p es (some L)) ∨ (x = none ∧ FirstMatch n p es none)
  | [], ids, x, _, h => by
    simp only [List.zipWith_nil_left] at h
    cases h; exact .inr ⟨rfl, .nil⟩
  | e :: es, [], x, hl, _ => by simp at hl
  | (w, L) :: es, i :: ids, x, hl, h => by
    simp only [List.zipWith_cons_cons] at h
    cases h with
    | hit hc => exact .inl ⟨L, i, by simp, rfl, .hit hc⟩
    | miss hc h =>
      rcases firstMatch_zip (by simpa using hl) h with ⟨M, j, h1, h2, h3⟩ | ⟨h1, h2⟩
      · exact .inl ⟨M, j, by simp only [List.map_cons, List.zip_cons_cons]; exact List.mem_cons_of_mem _ h1, h2, .miss hc h3⟩
      · exact .inr ⟨h1, .miss hc h2⟩

theorem firstMatch_append_left {α : Type} {n : Nat} {p : Packet} {as bs : List (Nat × α)} {x : α} (h : FirstMatch n p as (some x)) :
    FirstMatch n p (as ++ bs) (some x) := by
  generalize hy : some x = y at h
  induction h with
  | nil => cases hy
  | hit hc => cases hy; exact .hit hc
  | miss hc _ ih => exact .miss hc (ih hy)

theorem firstMatch_append_right {α : Type} {n : Nat} {p : Packet} {as bs : List (Nat × α)} {x : Option α}
    (hn : ∀ e ∈ as, ¬ Covers n e.1 p) (h : FirstMatch n p bs x) : FirstMatch n p (as ++ bs) x := by
  induction as with
  | nil => exact h
  | cons e as ih => exact .miss (hn e List.mem_cons_self) (ih fun e he => hn e (List.mem_cons_of_mem _ he))

theorem firstMatch_mem {α : Type} {n : Nat} {p : Packet} {as : List (Nat × α)} {x : α} (h : FirstMatch n p as (some x)) :
    ∃ e ∈ as, Covers n e.1 p ∧ e.2 = x := by
  generalize hy : some x = y at h
  induction h with
  | nil => cases hy
  | hit hc => cases hy; exact ⟨_, List.mem_cons_self, hc, rfl⟩
  | miss hc _ ih =>
    obtain ⟨e, h1, h2⟩ := ih hy
    exact ⟨e, List.mem_cons_of_mem _ h1, h2⟩

/-- The first entry for a packet over all rules has the stripped label of the first rule. -/
theorem firstMatch_stripped {π : Type} {rules : List (Rule π)} {ess : List (List (Nat × Label))} (h : List.Forall₂ ExpandOf rules ess)
    {p : Pkt} (hp : p.Sized) {x : Option Label} (hx : Stripped rules p x) : FirstMatch totBits p.hdr ess.flatten x := by
  induction h with
  | nil =>
    rcases hx with ⟨c, L, ⟨a, b, hab, -⟩, -⟩ | ⟨-, rfl⟩
    · simp at hab
    · exact .nil
  | @cons r es rules ess h1 _ ih =>
    rw [List.flatten_cons]
    by_cases hacc : r.mat.accepts p
    · obtain ⟨l, L, -, e2, -, hL⟩ := h1.label
      rcases hx with ⟨c, M, hc, hM, rfl⟩ | ⟨hn, -⟩
      · cases FirstHit.unique hc ⟨[], rules, rfl, hacc, by simp⟩
        rw [e2] at hM; cases hM
        exact firstMatch_append_left ((hL p hp).1 hacc)
      · exact absurd hacc (hn r List.mem_cons_self)
    · refine firstMatch_append_right (fun e he hc => hacc ((h1.covers p).1 ⟨e, he, hc⟩)) (ih ?_)
      rcases hx with ⟨c, M, ⟨a, b, hab, h2, h3⟩, hM, rfl⟩ | ⟨hn, rfl⟩
      · refine .inl ⟨c, M, ?_, hM, rfl⟩
        cases a with
        | nil => simp only [List.nil_append, List.cons.injEq] at hab; exact absurd h2 (hab.1 ▸ hacc)
        | cons y a =>
          simp only [List.cons_append, List.cons.injEq] at hab
          exact ⟨a, b, hab.2, h2, fun z hz => h3 z (List.mem_cons_of_mem _ hz)⟩
      · exact .inr ⟨fun s hs => hn s (List.mem_cons_of_mem _ hs), rfl⟩

/-- Every packet has a stripped description. -/
theorem exists_stripped {π : Type} {rules : List (Rule π)} {ess : List (List (Nat × Label))} (h : List.Forall₂ ExpandOf rules ess) (p : Pkt) :
    ∃ x, Stripped rules p x := by
  classical
  induction h with
  | nil => exact ⟨none, .inr ⟨by simp, rfl⟩⟩
  | @cons r es rules ess h1 _ ih =>
    by_cases hacc : r.mat.accepts p
    · obtain ⟨l, L, -, e2, -, -⟩ := h1.label
      exact ⟨_, .inl ⟨r, L, ⟨[], rules, rfl, hacc, by simp⟩, e2, rfl⟩⟩
    · obtain ⟨x, hx⟩ := ih
      rcases hx with ⟨c, M, ⟨a, b, rfl, h2, h3⟩, hM, rfl⟩ | ⟨hn, rfl⟩
      · refine ⟨_, .inl ⟨c, M, ⟨r :: a, b, rfl, h2, fun z hz => ?_⟩, hM, rfl⟩⟩
        rcases List.mem_cons.1 hz with rfl | hz
        · exact hacc
        · exact h3 z hz
      · refine ⟨none, .inr ⟨fun s hs => ?_, rfl⟩⟩
        rcases List.mem_cons.1 hs with rfl | hs
        · exact hacc
        · exact hn s hs

theorem normaliseSetFields_ne {π : Type} {order : List (Nat × Nat) → List (Nat × Nat)} {r : Rule π} {es : List (Nat × Label)}
    (h : normaliseSetFields order r = .ok es) : es ≠ [] := by
  unfold normaliseSetFields at h
  simp only [bind, Except.bind] at h
  split at h
  · cases h
  split at h
  · cases h
  split at h
  · cases h
  cases h
  simp

/-- The diagram `t` of the rules in session `s`. -/
structure EagerForm {π : Type} (rules : List (Rule π)) (s : List Label) (t : DD Nat) : Prop where
  wf : WF totBits 0 t
  free : ∀ p q : Packet, (∀ i, fieldPos 39 ≤ i → i < totBits → p i = q i) → t.lookup totBits p = t.lookup totBits q
  found : ∀ p : Pkt, p.Sized → ∀ L, Stripped rules p (some L) → ∃ i, t.lookup totBits p.hdr = some i ∧ (sessionReg s).numOf (some L) = some i
  missed : ∀ p : Pkt, p.Sized → Stripped rules p none → t.lookup totBits p.hdr = none
  total : ∀ p, ∃ x, Stripped rules p x

theorem normaliseEager_spec {π : Type} {rules : List (Rule π)} (h : ∀ r ∈ rules, EagerRule r)
    {order : List (Nat × Nat) → List (Nat × Nat)} (ho : ∀ l, (order l).Perm l) (hist : List Label) :
    (∀ t reg, normaliseEager order (sessionReg hist) rules = .ok (t, reg) → ∃ ls, reg = sessionReg (hist ++ ls) ∧
      ∀ h', EagerForm rules (hist ++ ls ++ h') t) ∧
    (rules ≠ [] → (∀ r ∈ rules, ∀ s ∈ rules, r.table = s.table) → ∃ x, normaliseEager order (sessionReg hist) rules = .ok x) := by
  obtain ⟨ess, e1, e2⟩ := mapM_forall2 (f := normaliseSetFields order) (R := ExpandOf) (l := rules)
    fun r hr => normaliseSetFields_spec (h r hr) ho
  have hes : ∀ e ∈ ess.flatten, WcValid totBits e.1 ∧ FreeBelow (fieldPos 39) e.1 := by
    have : ∀ {rs : List (Rule π)} {xs : List (List (Nat × Label))}, List.Forall₂ ExpandOf rs xs → ∀ e ∈ xs.flatten,
        WcValid totBits e.1 ∧ FreeBelow (fieldPos 39) e.1 := by
      intro rs xs hx
      induction hx with
      | nil => simp
      | cons h1 _ ih =>
        intro e he
        rw [List.flatten_cons] at he
        rcases List.mem_append.1 he with he | he
        · exact h1.valid e he
        · exact ih e he
    exact this e2
  set es := ess.flatten with hesd
  have hlen : ((sessionReg hist).runLabels (es.map (·.2))).1.length = es.length := by
    have := (session_ids hist (es.map (·.2)) []).1
    simpa using this
  have hb : bytesNeeded * 8 = totBits := by decide +kernel
  have hone : oneTable (rules.map fun r => (⟨r.table, 0, ()⟩ : NRule Unit)) = true →
      normaliseEager order (sessionReg hist) rules = (normaliseDC totBits plain (numbered es ((sessionReg hist).runLabels (es.map (·.2))).1)).map
        fun t => (t, ((sessionReg hist).runLabels (es.map (·.2))).2) := by
    intro h1
    unfold normaliseEager
    rw [if_pos h1, e1]
    simp only [bind, Except.bind, hb]
    rw [show List.zipWith (fun (e : Nat × Label) id => (⟨0, e.1, id⟩ : NRule Nat)) ess.flatten
      ((sessionReg hist).runLabels (ess.flatten.map fun x => x.2)).1 = numbered es ((sessionReg hist).runLabels (es.map (·.2))).1 from rfl]
    cases normaliseDC totBits plain (numbered es ((sessionReg hist).runLabels (es.map (·.2))).1) <;> rfl
  refine ⟨fun t reg hn => ?_, fun hne htab => ?_⟩
  · by_cases h1 : oneTable (rules.map fun r => (⟨r.table, 0, ()⟩ : NRule Unit)) = true
    · rw [hone h1] at hn
      have hne : es ≠ [] := by
        intro h0
        rw [h0] at hn
        cases hd : normaliseDC totBits plain (numbered [] ((sessionReg hist).runLabels (([] : List (Nat × Label)).map (·.2))).1) with
        | error x => rw [hd] at hn; cases hn
        | ok t' => exact normaliseDC_nil hd
      obtain ⟨t', g1, g2, g3⟩ := dc_form hes hlen hne
      rw [g1] at hn
      simp only [Except.map, Except.ok.injEq, Prod.mk.injEq] at hn
      obtain ⟨rfl, rfl⟩ := hn
      refine ⟨es.map (·.2), sessionReg_run .., fun h' => ⟨g2, fun p q hpq => ?_, fun p hp L hL => ?_, fun p hp hL => ?_, exists_stripped e2⟩⟩
      · refine FirstMatch.unique (firstMatch_free (m := fieldPos 39) (fun x hx => ?_) hpq (g3 p)) (g3 q)
        obtain ⟨e, he, hxe⟩ := mem_numbered x hx
        rw [hxe]; exact (hes e he).2
      · have hm := firstMatch_stripped e2 hp hL
        rcases firstMatch_zip hlen (g3 p.hdr) with ⟨M, i, k1, k2, k3⟩ | ⟨-, k2⟩
        · obtain rfl := Option.some.inj (hm.unique k3)
          exact ⟨i, k2, ((session_ids hist (es.map (·.2)) h').2.2 _ _ k1).1⟩
        · cases hm.unique k2
      · have hm := firstMatch_stripped e2 hp hL
        rcases firstMatch_zip hlen (g3 p.hdr) with ⟨M, i, -, -, k3⟩ | ⟨k1, -⟩
        · cases hm.unique k3
        · exact k1
    · unfold normaliseEager at hn
      rw [if_neg h1] at hn; cases hn
  · have h1 : oneTable (rules.map fun r => (⟨r.table, 0, ()⟩ : NRule Unit)) = true := by
      rw [oneTable_iff]
      intro a ha b hb
      obtain ⟨r, hr, rfl⟩ := List.mem_map.1 ha
      obtain ⟨s, hs, rfl⟩ := List.mem_map.1 hb
      exact htab r hr s hs
    have hesne : es ≠ [] := by
      cases e2 with
      | nil => exact absurd rfl hne
      | @cons r es' rs' ess' h2 _ =>
        intro h0
        rw [hesd, List.flatten_cons, List.append_eq_nil_iff] at h0
        obtain ⟨es'', k1, -⟩ := normaliseSetFields_spec (h r List.mem_cons_self) ho
        rw [List.mapM_cons, k1] at e1
        simp only [bind, Except.bind] at e1
        split at e1
        · cases e1
        cases e1
        rw [h0.1] at k1
        exact normaliseSetFields_ne k1 rfl
    obtain ⟨t', g1, -⟩ := dc_form hes hlen hesne
    exact ⟨(t', _), by rw [hone h1, g1]; rfl⟩

end OFE
