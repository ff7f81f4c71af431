import Verif.Main.Model
import Verif.Check.Pipeline
import Verif.Props.Check

/-!
# Lemmas for the command line tool
-/

namespace OFE
open DD

theorem insertKeyed_perm {π : Type} (r : Rule π) (l : List (Rule π)) : (insertKeyed r l).Perm (r :: l) := by
  induction l with
  | nil => exact .refl _
  | cons s ss ih =>
    rw [insertKeyed]
    split
    · exact .refl _
    · exact (ih.cons s).trans (.swap ..)

theorem sortRuleset_perm {π : Type} (rules : List (Rule π)) : (sortRuleset rules).Perm rules := by
  induction rules with
  | nil => exact .refl _
  | cons r rules ih => exact (insertKeyed_perm r _).trans (ih.cons r)

theorem mem_sortRuleset {π : Type} {rules : List (Rule π)} {r : Rule π} : r ∈ sortRuleset rules ↔ r ∈ rules :=
  (sortRuleset_perm rules).mem_iff

theorem Hits.sorted {π : Type} {rules : List (Rule π)} {t : Nat} {p : Pkt} {r : Rule π} : Hits (sortRuleset rules) t p r ↔ Hits rules t p r := by
  unfold Hits
  simp only [mem_sortRuleset]

theorem Runs.sorted {π : Type} {rules : List (Rule π)} {t : Nat} {s s' : St} {rs : List (Rule π)} (h : Runs rules t s rs s') :
    Runs (sortRuleset rules) t s rs s' := by
  induction h with
  | last h1 h2 => exact .last (Hits.sorted.2 h1) h2
  | next h1 h2 _ ih => exact .next (Hits.sorted.2 h1) h2 ih

theorem PipelineOK.sorted {π : Type} {rules : List (Rule π)} (h : PipelineOK rules) : PipelineOK (sortRuleset rules) := by
  have m : ∀ {r : Rule π}, r ∈ sortRuleset rules → r ∈ rules := fun hr => mem_sortRuleset.1 hr
  refine ⟨fun r hr => h.ok r (m hr), fun r hr => h.noMeta r (m hr), fun r hr => h.noMetaW r (m hr), fun r hr => h.prio r (m hr),
    fun r hr => h.path r (m hr), ?_, fun r hr n hn => ?_, fun r hr p => ?_⟩
  · obtain ⟨r, h1, h2⟩ := h.zero
    exact ⟨r, mem_sortRuleset.2 h1, h2⟩
  · obtain ⟨h1, s, h2, h3⟩ := h.goto r (m hr) n hn
    exact ⟨h1, s, mem_sortRuleset.2 h2, h3⟩
  · obtain ⟨s, h1, h2⟩ := h.covered r (m hr) p
    exact ⟨s, mem_sortRuleset.2 h1, h2⟩

theorem PlainPipeline.sorted {π : Type} {rules : List (Rule π)} (h : PlainPipeline rules) : PlainPipeline (sortRuleset rules) :=
  fun P hP => h P ⟨fun r hr => mem_sortRuleset.1 (hP.1 r hr), hP.2⟩

/-- A ruleset the tool can be used on. -/
structure GoodPipeline (rules : List (Rule Nat)) : Prop where
  ok : PipelineOK rules
  flat : FlatPipeline rules
  plain : PlainPipeline rules

/-- `t` is the form of the single table `cs` in a session with labels `s`. -/
def InSession (s : List Label) (cs : List (Rule Nat)) (t : DD Nat) : Prop :=
  ∃ h es h', s = h ++ es.map (·.2) ++ h' ∧ FormOf cs es ((sessionReg h).runLabels (es.map (·.2))).1 t

theorem InSession.more {s : List Label} {cs : List (Rule Nat)} {t : DD Nat} (h : InSession s cs t) (s' : List Label) :
    InSession (s ++ s') cs t := by
  obtain ⟨h0, es, h1, rfl, hf⟩ := h
  exact ⟨h0, es, h1 ++ s', by simp only [List.append_assoc], hf⟩

/-- What the form of one ruleset is. -/
structure FormIn (s : List Label) (rules : List (Rule Nat)) (t : DD Nat) : Prop where
  single : ∃ cs, toSingleTable (sortRuleset rules) true = .ok cs ∧ (∀ p, ∃ c, FirstHit cs p c) ∧ InSession s cs t

theorem FormIn.more {s : List Label} {rules : List (Rule Nat)} {t : DD Nat} (h : FormIn s rules t) (s' : List Label) :
    FormIn (s ++ s') rules t := by
  obtain ⟨cs, e, hc, hi⟩ := h.single
  exact ⟨cs, e, hc, hi.more s'⟩

theorem canonicalForm_spec {rules : List (Rule Nat)} (h : GoodPipeline rules) (dc : Bool) (hist : List Label) :
    ∃ t ls, canonicalForm dc (sessionReg hist) rules = .ok (t, sessionReg (hist ++ ls)) ∧ FormIn (hist ++ ls) rules t := by
  have hflat : FlatPipeline (sortRuleset rules) := fun r hr hg => h.flat r (mem_sortRuleset.1 hr) hg
  obtain ⟨cs, e, hall⟩ := C28_single_table_partial (sortRuleset rules) h.ok.sorted hflat true
  obtain ⟨hpl, htab⟩ := single_plain h.ok.sorted hflat h.plain.sorted e
  have hhit : ∀ p, ∃ c, FirstHit cs p c := fun p => by
    obtain ⟨c, -, -, -, h1, -⟩ := hall p
    exact ⟨c, h1⟩
  have hne : cs ≠ [] := by
    rintro rfl
    obtain ⟨c, x, y, hxy, -⟩ := hhit (pktOf fun _ => false)
    simp at hxy
  obtain ⟨h1, h2⟩ := normaliseRules_spec hpl hist
  obtain ⟨⟨⟨t, reg⟩, h3⟩, h4⟩ := h2 hne fun r hr s hs => by rw [htab r hr, htab s hs]
  obtain ⟨es, rfl, hf⟩ := h1 t reg h3
  refine ⟨t, es.map (·.2), ?_, ⟨cs, e, hhit, hist, es, [], by simp, hf⟩⟩
  unfold canonicalForm
  rw [e]
  simp only [bind, Except.bind]
  cases dc
  · rw [if_neg (by simp), h4, h3]
  · rw [if_pos rfl, h3]

theorem canonicalForms_spec {ν : Type} (dc : Bool) : ∀ (files : List (ν × List (Rule Nat))) (hist : List Label),
    (∀ x ∈ files, GoodPipeline x.2) → ∃ forms s, canonicalForms dc (sessionReg hist) files = .ok forms ∧
      List.Forall₂ (fun (x : ν × List (Rule Nat)) (y : ν × DD Nat) => x.1 = y.1 ∧ FormIn (hist ++ s) x.2 y.2) files forms
  | [], hist, _ => ⟨[], [], rfl, .nil⟩
  | (name, rules) :: rest, hist, h => by
    obtain ⟨t, ls, e1, hf⟩ := canonicalForm_spec (h (name, rules) List.mem_cons_self) dc hist
    obtain ⟨forms, s, e2, h2⟩ := canonicalForms_spec dc rest (hist ++ ls) fun x hx => h x (List.mem_cons_of_mem _ hx)
    refine ⟨(name, t) :: forms, ls ++ s, ?_, .cons ⟨rfl, ?_⟩ ?_⟩
    · unfold canonicalForms
      rw [e1]
      simp only [bind, Except.bind, e2]; rfl
    · rw [← List.append_assoc]; exact hf.more s
    · rw [← List.append_assoc]; exact h2

/-- What the form of a ruleset says about a packet. -/
theorem FormIn.packet {s : List Label} {rules : List (Rule Nat)} {t : DD Nat} (h : FormIn s rules t) {cs : List (Rule Nat)}
    (e : toSingleTable (sortRuleset rules) true = .ok cs) (p : Pkt) :
    ∃ c l L i, FirstHit cs p c ∧ c.inst.fullActions = .ok l ∧ (LabelOf l L ∧ c.label = .ok L) ∧ t.lookup totBits p.hdr = some i ∧
      (sessionReg s).numOf (some L) = some i := by
  obtain ⟨cs', e', hhit, h0, es, h1, rfl, hf⟩ := h.single
  rw [e] at e'; cases e'
  rcases form_packet (h' := h1) hf p with ⟨c, l, L, i, a1, a2, a3, a4, a5, -⟩ | ⟨a1, -⟩
  · exact ⟨c, l, L, i, a1, a2, a3, a4, a5⟩
  · obtain ⟨c, x, y, rfl, h2, -⟩ := hhit p
    exact absurd h2 (a1 c (by simp))

end OFE
