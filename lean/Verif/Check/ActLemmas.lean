import Verif.Check.Model
import Verif.Check.Spec
import Verif.Check.DDLemmas
import Verif.Ruleset.Single

/-!
# Comparing two action lists after a match
-/

namespace OFE

/-- A set-field that leaves just the value. -/
@[reducible] def rawWrites : Writes := ⟨fun _ v => v⟩

theorem exec_raw {s : List Action} (h : ∀ v, Action.setField 6 v ∈ s → 0x1000 ||| v = v) (p : Pkt) :
    @exec rawWrites s p = exec s p := by
  induction s generalizing p with
  | nil => rfl
  | cons a s ih =>
    have ha : @act rawWrites a p = act a p := by
      cases a with
      | setField f v =>
        simp only [act]
        have : v = wrote f v := by
          unfold wrote
          split
          · next e => subst e; exact (h v List.mem_cons_self).symm
          · rfl
        show { p with fld := fun g d => if g = f ∧ d = 0 then v else p.fld g d } =
          { p with fld := fun g d => if g = f ∧ d = 0 then wrote f v else p.fld g d }
        rw [← this]
      | _ => rfl
    simp only [exec]
    rw [ha, ih fun v hv => h v (List.mem_cons_of_mem _ hv)]

/-- Set-fields to the values the packet has. -/
def NoOp (S : List Action) (p : Pkt) : Prop := ∀ a ∈ S, ∃ f v, a = .setField f v ∧ f < 40 ∧ p.fld f 0 = v

theorem noOp_exec {S : List Action} {p : Pkt} (h : NoOp S p) : @exec rawWrites S p = (p, []) := by
  induction S with
  | nil => rfl
  | cons a S ih =>
    obtain ⟨f, v, rfl, -, hv⟩ := h a List.mem_cons_self
    have ha : @act rawWrites (.setField f v) p = p := by
      simp only [act]
      have : (fun g d => if g = f ∧ d = 0 then v else p.fld g d) = p.fld := by
        funext g d
        split
        · next e => rw [e.1, e.2, hv]
        · rfl
      show { p with fld := fun g d => if g = f ∧ d = 0 then v else p.fld g d } = p
      rw [this]
    simp only [exec]
    rw [ha, ih fun b hb => h b (List.mem_cons_of_mem _ hb)]
    rfl

/-- Actions of one port of a label. -/
structure TupOK (t : List Action) : Prop where
  known : ∀ a ∈ t, a.known = true
  acts : PlainActs t

theorem PlainActs.of_subset {s t : List Action} (h : PlainActs s) (hs : ∀ a ∈ t, a ∈ s) (hn : (t.filterMap Action.portOf).Nodup) :
    PlainActs t :=
  ⟨fun g hg => h.nogroup g (hs _ hg), hn, fun ⟨e, he⟩ ⟨f, hf⟩ a ha => h.ttl ⟨e, hs _ he⟩ ⟨f, hs _ hf⟩ a (hs a ha),
    fun ⟨e, he⟩ hp => h.pbb ⟨e, hs _ he⟩ (hs _ hp), fun v hv => h.vid v (hs _ hv)⟩

theorem PlainActs.mods {s : List Action} (h : PlainActs s) (hk : ∀ a ∈ s, a.known = true) : ModsOK s :=
  ⟨hk, h.nogroup, h.ttl, fun he hp => absurd hp (h.pbb he)⟩

theorem noOp_mods {S t : List Action} {p : Pkt} (hS : NoOp S p) (ht : TupOK t) :
    ModsOK (S ++ t) ∧ ((S ++ t).filterMap Action.portOf).Nodup ∧ AllKnown (S ++ t) := by
  have hk : AllKnown (S ++ t) := by
    intro a ha
    rcases List.mem_append.1 ha with h | h
    · obtain ⟨f, v, rfl, hf, -⟩ := hS a h
      simpa [Action.known] using hf
    · exact ht.known a h
  have hin : ∀ a, a ∈ S ++ t → (∀ f v, a ≠ .setField f v) → a ∈ t := by
    intro a ha hne
    rcases List.mem_append.1 ha with h | h
    · obtain ⟨f, v, rfl, -⟩ := hS a h
      exact absurd rfl (hne f v)
    · exact h
  refine ⟨⟨hk, fun g hg => ht.acts.nogroup g (hin _ hg (by simp)), fun ⟨e, he⟩ ⟨f, hf⟩ a ha => ?_, fun ⟨e, he⟩ hp => ?_⟩, ?_, hk⟩
  · rcases List.mem_append.1 ha with h | h
    · obtain ⟨f, v, rfl, -⟩ := hS a h; rfl
    · exact ht.acts.ttl ⟨e, hin _ he (by simp)⟩ ⟨f, hin _ hf (by simp)⟩ a h
  · exact absurd (hin _ hp (by simp)) (ht.acts.pbb ⟨e, hin _ he (by simp)⟩)
  · rw [List.filterMap_append, List.filterMap_eq_nil_iff.2, List.nil_append]
    · exact ht.acts.ports
    · intro a ha
      obtain ⟨f, v, rfl, -⟩ := hS a ha; rfl

theorem copy_add {s t : List Action} (hk : AllKnown (s ++ t)) : (mkList s).copy t [] = .ok (mkList (s ++ t)) := by
  have h1 := ofList_known (s := s) fun a ha => hk a (by simp [ha])
  have h2 := ofList_known hk
  unfold ActionList.ofList at h1 h2
  rw [List.foldlM_append, h1] at h2
  exact h2

/-- Per port: what the list prefixed with no-ops sends is what the list sends. -/
theorem view_of_prefixed {S t : List Action} {p : Pkt} (hS : NoOp S p) (ht : TupOK t) :
    ∃ items, (mkList S).copy t [] = .ok (mkList (S ++ t)) ∧ (mkList (S ++ t)).perOutput = .ok items ∧ items.Nodup ∧
      (@emitted rawWrites items p).Perm (exec t p).2 := by
  obtain ⟨h1, h2, h3⟩ := noOp_mods hS ht
  obtain ⟨items, tup, -, b, c, d, -⟩ := @perOutput_spec rawWrites (S ++ t) h1 h2
  refine ⟨items, copy_add h3, b, (List.nodup_append.1 c).1, (d p).trans ?_⟩
  rw [@exec_append rawWrites, noOp_exec hS, exec_raw ht.acts.vid]
  exact List.Perm.refl _

theorem comparePorts_total {S : List Action} {p : Pkt} (hS : NoOp S p) {L R : Label} (hL : ∀ x ∈ L, TupOK x.2) (hR : ∀ x ∈ R, TupOK x.2)
    (ks : List OutKey) (hk : ∀ k ∈ ks, k ∈ L.map Prod.fst ∧ k ∈ R.map Prod.fst) :
    ∃ b, comparePorts (mkList S) L R ks = .ok b ∧
      (b = true → ∀ k ∈ ks, ∃ l r, L.lookup k = some l ∧ R.lookup k = some r ∧ (exec l p).2.Perm (exec r p).2) := by
  induction ks with
  | nil => exact ⟨true, rfl, by simp⟩
  | cons k ks ih =>
    obtain ⟨b, e, ih⟩ := ih fun k hk' => hk k (List.mem_cons_of_mem _ hk')
    obtain ⟨k1, k2⟩ := hk k List.mem_cons_self
    have find : ∀ {X : Label}, k ∈ X.map Prod.fst → (∀ x ∈ X, TupOK x.2) → ∃ l, X.lookup k = some l ∧ TupOK l := by
      intro X hX hT
      cases hl : X.lookup k with
      | none =>
        rw [List.lookup_eq_none_iff] at hl
        obtain ⟨x, hx, e⟩ := List.mem_map.1 hX
        have := hl x hx
        rw [e] at this
        simp at this
      | some l =>
        obtain ⟨a, b, rfl, -⟩ := List.lookup_eq_some_iff.1 hl
        exact ⟨l, rfl, hT (k, l) (by simp)⟩
    obtain ⟨l, l1, l2⟩ := find k1 hL
    obtain ⟨r, r1, r2⟩ := find k2 hR
    obtain ⟨il, a1, a2, a3, a4⟩ := view_of_prefixed hS l2
    obtain ⟨ir, b1, b2, b3, b4⟩ := view_of_prefixed hS r2
    have hstep : comparePorts (mkList S) L R (k :: ks) = if sameItems il ir then .ok b else .ok false := by
      simp only [comparePorts, l1, r1, a1, b1, bind, Except.bind, a2, b2, e]
      rfl
    by_cases hs : sameItems il ir = true
    · refine ⟨b, by rw [hstep, if_pos hs], fun hb k' hk' => ?_⟩
      rcases List.mem_cons.1 hk' with rfl | hk'
      · refine ⟨l, r, l1, r1, a4.symm.trans (List.Perm.trans ?_ b4)⟩
        exact (sameItems_perm a3 b3 hs).flatMap_right _
      · exact ih hb k' hk'
    · exact ⟨false, by rw [hstep, if_neg hs], by simp⟩

theorem emitted_keys {L : Label} (hn : (L.map Prod.fst).Nodup) (p : Pkt) :
    emitted L p = (L.map Prod.fst).flatMap fun k => (exec ((L.lookup k).getD []) p).2 := by
  unfold emitted
  rw [List.flatMap_map]
  have key : ∀ x ∈ L, L.lookup x.1 = some x.2 := by
    intro x hx
    exact lookup_eq_some_of_mem hn hx
  apply List.flatMap_congr
  intro x hx
  rw [key x hx]; rfl

theorem sameKeys_iff {L R : Label} : sameKeys L R = true ↔ ∀ k, k ∈ L.map Prod.fst ↔ k ∈ R.map Prod.fst := by
  unfold sameKeys
  simp only [Bool.and_eq_true, List.all_eq_true, List.contains_iff_mem]
  exact ⟨fun h k => ⟨h.1 k, h.2 k⟩, fun h => ⟨fun k => (h k).1, fun k => (h k).2⟩⟩

theorem comparePath_total {m : Match} {p : Pkt} (hS : NoOp (matchSets m) p) {L R : Label} (hL : ∀ x ∈ L, TupOK x.2)
    (hR : ∀ x ∈ R, TupOK x.2) (nL : (L.map Prod.fst).Nodup) (nR : (R.map Prod.fst).Nodup) :
    ∃ b, comparePath m (some (some L)) (some (some R)) = .ok b ∧ (b = true → (emitted L p).Perm (emitted R p)) := by
  unfold comparePath
  by_cases hk : sameKeys L R = true
  · simp only [hk, if_true]
    have hkn : AllKnown (matchSets m) := by
      intro a ha
      obtain ⟨f, v, rfl, hf, -⟩ := hS a ha
      simpa [Action.known] using hf
    rw [ofList_known hkn]
    have hk' := sameKeys_iff.1 hk
    obtain ⟨b, e, hb⟩ := comparePorts_total hS hL hR (L.map Prod.fst) fun k h => ⟨h, (hk' k).1 h⟩
    by_cases h0 : (mkList (matchSets m)).len = 0
    · exact ⟨false, by simp only [bind, Except.bind, h0, if_true]; rfl, by simp⟩
    · refine ⟨b, by simp only [bind, Except.bind, h0, if_false]; exact e, fun h => ?_⟩
      rw [emitted_keys nL, emitted_keys nR]
      have hp : (L.map Prod.fst).Perm (R.map Prod.fst) := (List.perm_ext_iff_of_nodup nL nR).2 hk'
      refine List.Perm.trans ?_ (hp.flatMap_right _)
      apply List.Perm.flatMap_left
      intro k hkm
      obtain ⟨l, r, l1, r1, hp⟩ := hb h k hkm
      rw [l1, r1]; exact hp
  · simp only [Bool.not_eq_true] at hk
    exact ⟨false, by simp [hk], by simp⟩

end OFE
