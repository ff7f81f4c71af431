import Verif.Normalise.Lemmas
import Verif.Props.Bdd

/-!
# Properties C01, C02, C03, C33, C34 at the level of diagrams

`FirstMatch n p l x` is the specification of forwarding: `x` is the label of the first entry of `l` covering packet `p`.
`RulesOK` says that all rules are in one table and their wildcards are well formed.
-/

namespace OFE
open DD
set_option linter.unusedSectionVars false
variable {α : Type} [DecidableEq α]

/-- C03: both normalisation strategies produce a diagram that gives every packet the actions of the first rule covering it,
and nothing when no rule covers it.  `expand` is the per-rule expansion (identity, or `normalise_set_fields`). -/
theorem C03_normalise_first_match (n : Nat) (hn : 0 < n) (expand : NRule α → List (Nat × α)) (rules : List (NRule α))
    (h : RulesOK n expand rules) :
    (∃ t, normaliseNaive n expand rules = .ok t ∧ ∀ p, FirstMatch n p (entries expand rules) (t.lookup n p)) ∧
    (entries expand rules ≠ [] →
      ∃ t, normaliseDC n expand rules = .ok t ∧ ∀ p, FirstMatch n p (entries expand rules) (t.lookup n p)) := by
  constructor
  · obtain ⟨t, h1, _, _, h2⟩ := normaliseNaive_spec hn h
    exact ⟨t, h1, h2⟩
  · intro hne
    obtain ⟨t, h1, _, _, h2⟩ := normaliseDC_spec hn h hne
    exact ⟨t, h1, h2⟩

/-- C02: the two strategies return the same diagram for every non-empty ruleset. -/
theorem C02_strategies_agree (n : Nat) (hn : 0 < n) (expand : NRule α → List (Nat × α)) (rules : List (NRule α))
    (h : RulesOK n expand rules) (hne : entries expand rules ≠ []) :
    ∃ t, normaliseDC n expand rules = .ok t ∧ normaliseNaive n expand rules = .ok t := by
  obtain ⟨t, h1, h2, h3, _⟩ := normaliseDC_spec hn h hne
  obtain ⟨t', h1', h2', h3', _⟩ := normaliseNaive_spec hn h
  have : t = t' := eq_of_eval_eq h2 h2' fun q => by rw [h3, h3']
  subst this
  exact ⟨t, h1, h1'⟩

/-- C02: on the empty ruleset they differ: divide-and-conquer raises `AssertionError`, the naive one returns the empty
diagram. -/
theorem C02_empty (n : Nat) (expand : NRule α → List (Nat × α)) :
    normaliseDC n expand [] = .error .assertion ∧ normaliseNaive n expand [] = .ok bot := by
  constructor
  · simp [normaliseDC, oneTable, entries, bind, Except.bind, pure, Except.pure, pairLoop]
  · simp [normaliseNaive, oneTable, entries, pure, Except.pure]

/-- C02: rules from different tables are refused by both. -/
theorem C02_mixed_tables (n : Nat) (expand : NRule α → List (Nat × α)) (rules : List (NRule α)) (r s : NRule α)
    (hr : r ∈ rules) (hs : s ∈ rules) (h : r.table ≠ s.table) :
    normaliseDC n expand rules = .error .assertion ∧ normaliseNaive n expand rules = .error .assertion := by
  have : ¬ oneTable rules = true := fun ht => h ((oneTable_iff _).1 ht r hr s hs)
  constructor
  · unfold normaliseDC; rw [if_neg this]
  · unfold normaliseNaive; rw [if_neg this]

example : normaliseDC 1 plain [⟨3, 1, 'a'⟩, ⟨3, 2, 'b'⟩] ≠ .error .assertion ∧
    normaliseDC 1 plain [⟨3, 1, 'a'⟩, ⟨4, 2, 'b'⟩] = .error .assertion := by
  constructor <;> simp [normaliseDC, oneTable, plain, entries, wcToDDE, DD.wcToDD, DD.wcLoop, pairLoop, pairUp, bind, Except.bind, pure, Except.pure]

/-- C02: an entry with an impossible bit (neither 0 nor 1) is refused by both, wherever it stands (by the assertion of bdd.py:244; the loop in C takes
such a bit as free, see Props/Cudd.lean). -/
theorem C02_malformed (n : Nat) (expand : NRule α → List (Nat × α)) (rules : List (NRule α)) (e : Nat × α) (he : e ∈ entries expand rules)
    (h0 : e.1 ≠ 0) (hz : ∃ i, i < n ∧ e.1.testBit (2 * i) = false ∧ e.1.testBit (2 * i + 1) = false) :
    normaliseDC n expand rules = .error .assertion ∧ normaliseNaive n expand rules = .error .assertion := by
  have hbad : wcToDDE n e.1 e.2 = .error .assertion := by
    rw [wcToDDE, (C09_wc_to_bdd_empty n e.1 e.2).2 h0 hz]
  have any : ∀ x : Nat × α, wcToDDE n x.1 x.2 = .error .assertion ∨ ∃ t, wcToDDE n x.1 x.2 = .ok t := by
    intro x; unfold wcToDDE; split
    · exact .inr ⟨_, rfl⟩
    · exact .inl rfl
  constructor
  · have : ∀ l : List (Nat × α), e ∈ l → (l.mapM fun e => wcToDDE n e.1 e.2) = .error .assertion := by
      intro l
      induction l with
      | nil => simp
      | cons x l ih =>
        intro hm
        rw [List.mapM_cons]
        rcases any x with h | ⟨t, h⟩
        · rw [h]; rfl
        · rcases List.mem_cons.1 hm with rfl | hm
          · rw [hbad] at h; cases h
          · rw [h, ih hm]; rfl
    unfold normaliseDC
    split
    · rw [this _ he]; rfl
    · rfl
  · have : ∀ (l : List (Nat × α)) t0, e ∈ l →
        l.foldlM (fun bdd e => do return DD.meld bdd (← wcToDDE n e.1 e.2)) t0 = (.error .assertion : Except PyErr (DD α)) := by
      intro l
      induction l with
      | nil => simp
      | cons x l ih =>
        intro t0 hm
        rw [List.foldlM_cons]
        rcases any x with h | ⟨t, h⟩
        · rw [h]; rfl
        · rcases List.mem_cons.1 hm with rfl | hm
          · rw [hbad] at h; cases h
          · rw [h]; exact ih _ hm
    unfold normaliseNaive
    split
    · exact this _ _ he
    · rfl

example : normaliseDC 2 plain [⟨0, 0b1111, 'a'⟩, ⟨0, 0b0100, 'b'⟩] = .error .assertion ∧
    normaliseNaive 2 plain [⟨0, 0b1111, 'a'⟩, ⟨0, 0b0100, 'b'⟩] = .error .assertion :=
  C02_malformed 2 plain _ (0b0100, 'b') (by decide) (by decide) ⟨0, by decide, by decide, by decide⟩

/-- C01: `check_equal(.., check_match_redundancy=False)` on the canonical forms is true exactly when every packet gets the
same actions from the first matching rule of each ruleset (or matches neither). -/
theorem C01_check_equal_exact (n : Nat) (hn : 0 < n) (A B : List (NRule α))
    (hA : RulesOK n plain A) (hB : RulesOK n plain B) (hneA : A ≠ []) (hneB : B ≠ []) :
    ∃ a b, normaliseDC n plain A = .ok a ∧ normaliseDC n plain B = .ok b ∧
      (checkEqualPlain a b = true ↔
        ∀ p x y, FirstMatch n p (A.map fun r => (r.wc, r.acts)) x → FirstMatch n p (B.map fun r => (r.wc, r.acts)) y →
          x = y) := by
  have hent : ∀ R : List (NRule α), entries plain R = R.map fun r => (r.wc, r.acts) := by
    intro R
    unfold entries
    induction R with
    | nil => rfl
    | cons r R ih => rw [List.flatMap_cons, ih]; rfl
  obtain ⟨a, h1, h2, _, h3⟩ := normaliseDC_spec hn hA (by rw [hent]; simpa using hneA)
  obtain ⟨b, h1', h2', _, h3'⟩ := normaliseDC_spec hn hB (by rw [hent]; simpa using hneB)
  rw [hent] at h3 h3'
  refine ⟨a, b, h1, h1', ?_⟩
  simp only [checkEqualPlain, decide_eq_true_eq]
  constructor
  · rintro rfl p x y hx hy
    rw [hx.unique (h3 p), hy.unique (h3' p)]
  · intro h
    exact lookup_ext h2 h2' fun p => h p _ _ (h3 p) (h3' p)

/-- Two rulesets over two header bits, the same function written differently: `00 -> 1, 0x -> 2, xx -> 3` and
`01 -> 2, 1x -> 3, xx -> 1`. -/
def exA : List (NRule Nat) := [⟨0, 0b0101, 1⟩, ⟨0, 0b0111, 2⟩, ⟨0, 0b1111, 3⟩]
/-- See `exA`. -/
def exB : List (NRule Nat) := [⟨0, 0b0110, 2⟩, ⟨0, 0b1011, 3⟩, ⟨0, 0b1111, 1⟩]

example : RulesOK 2 plain exA ∧ RulesOK 2 plain exB := by
  refine ⟨⟨by decide, ?_⟩, ⟨by decide, ?_⟩⟩ <;>
  · intro e he
    simp only [entries, plain, exA, exB, List.flatMap_cons, List.flatMap_nil, List.singleton_append, List.mem_cons,
      List.not_mem_nil, or_false] at he
    rcases he with rfl | rfl | rfl <;> exact ⟨by decide, by decide⟩

example : normaliseDC 2 plain exA = normaliseDC 2 plain exB ∧
    normaliseDC 2 plain exA = .ok (node 0 (node 1 (term 1) (term 2)) (term 3)) ∧
    normaliseDC 2 plain exA ≠ normaliseDC 2 plain exA.reverse := by
  decide +kernel

/-- C33: `_collect_paths` splits a difference (a diagram that only marks packets) into disjoint, non-empty pieces; a packet
is in a piece attributed to `π` exactly when it is marked and `π` is the path of the first rule covering it, or the
empty path when no rule covers it. -/
theorem C33_collect_paths {π : Type} (n : Nat) (hn : 0 < n) (d : α) (noPath : π) (rules : List (Nat × π))
    (hw : ∀ r ∈ rules, WcValid n r.1) (bdd : DD α) (hb : WF n 0 bdd)
    (hm : ∀ p, bdd.lookup n p = none ∨ bdd.lookup n p = some d) :
    ∃ out, collectPaths n d noPath bdd rules = .ok out ∧
      out.Pairwise (fun x y => ¬ ∃ p, x.2.lookup n p = some d ∧ y.2.lookup n p = some d) ∧
      (∀ x ∈ out, x.2 ≠ bot) ∧
      (∀ p path, (∃ t, (path, t) ∈ out ∧ t.lookup n p = some d) ↔
        bdd.lookup n p = some d ∧ ∃ x, FirstMatch n p rules x ∧ x.getD noPath = path) := by
  have hm' : Marks d bdd := by
    intro q
    have := hm fun i => q (n - 1 - i)
    simp only [lookup] at this
    rwa [← eval_congr hb (q := q)] at this
    intro i _ hi
    congr 1; omega
  obtain ⟨out, h1, h2, h3, h4, _⟩ := collectPaths_spec hn noPath hw hb hm'
  exact ⟨out, h1, h4, fun x hx => (h2 x hx).2.2, h3⟩

/-- C33: `find_conflicting_paths` maps an original path to exactly those new paths that some marked packet taking the original
path takes in the new ruleset.  Stated for rulesets whose rules carry pairwise different, non-empty paths
(a repeated path would overwrite its dictionary entry). -/
theorem C33_find_conflicting_paths {π : Type} [DecidableEq π] (n : Nat) (hn : 0 < n) (d : α) (noPath : π)
    (orig new : List (Nat × π)) (hwo : ∀ r ∈ orig, WcValid n r.1) (hwn : ∀ r ∈ new, WcValid n r.1)
    (hnd : (orig.map (·.2)).Nodup) (hnp : noPath ∉ orig.map (·.2))
    (diff : DD α) (hb : WF n 0 diff) (hm : ∀ p, diff.lookup n p = none ∨ diff.lookup n p = some d) :
    ∃ res, findConflictingPaths n d noPath diff orig new = .ok res ∧
      ∀ path path', (∃ l, (path, l) ∈ res ∧ path' ∈ l) ↔
        ∃ p, diff.lookup n p = some d ∧
          (∃ x, FirstMatch n p orig x ∧ x.getD noPath = path) ∧
          (∃ y, FirstMatch n p new y ∧ y.getD noPath = path') := by
  have hm' : Marks d diff := by
    intro q
    have := hm fun i => q (n - 1 - i)
    simp only [lookup] at this
    rwa [← eval_congr hb (q := q)] at this
    intro i _ hi
    congr 1; omega
  obtain ⟨out, h1, h2, h3, _, h5⟩ := collectPaths_spec hn noPath hwo hb hm'
  have hnodup : (out.map (·.1)).Nodup := by
    apply h5.nodup
    rw [List.nodup_append]
    refine ⟨hnd, by simp, ?_⟩
    intro a ha b hb
    simp only [List.mem_singleton] at hb
    subst hb
    rintro rfl
    exact hnp ha
  -- the loop over the pieces
  have loop : ∀ (parts : List (π × DD α)) (acc : List (π × List π)),
      (∀ x ∈ parts, WF n 0 x.2 ∧ Marks d x.2 ∧ x.2 ≠ bot) →
      (acc.map (·.1) ++ parts.map (·.1)).Nodup →
      ∃ res, parts.foldlM (fun (res : List (π × List π)) (x : π × DD α) => (do
          let news ← collectPaths n d noPath x.2 new
          return dictSet x.1 (news.map (·.1)) res : Except PyErr (List (π × List π)))) acc = .ok res ∧
        ∀ path path', (∃ l, (path, l) ∈ res ∧ path' ∈ l) ↔
          (∃ l, (path, l) ∈ acc ∧ path' ∈ l) ∨
          ∃ t, (path, t) ∈ parts ∧ ∃ p, t.lookup n p = some d ∧ ∃ y, FirstMatch n p new y ∧ y.getD noPath = path' := by
    intro parts
    induction parts with
    | nil => intro acc _ _; exact ⟨acc, rfl, by simp⟩
    | cons x parts ih =>
      intro acc hp hnd
      obtain ⟨px, tx⟩ := x
      obtain ⟨w1, w2, w3⟩ := hp (px, tx) (by simp)
      obtain ⟨news, g1, g2, g3, _, _⟩ := collectPaths_spec hn noPath hwn w1 w2
      have hk : px ∉ acc.map (·.1) := by
        rw [List.nodup_append] at hnd
        intro hmem
        exact hnd.2.2 px hmem px (by simp) rfl
      have hset : dictSet px (news.map (·.1)) acc = acc ++ [(px, news.map (·.1))] := mem_dictSet (v := news.map (·.1)) hk
      obtain ⟨res, r1, r2⟩ := ih (acc ++ [(px, news.map (·.1))]) (fun x hx => hp x (by simp [hx])) (by
        simpa using hnd)
      refine ⟨res, ?_, fun path path' => ?_⟩
      · rw [List.foldlM_cons, g1]
        simp only [bind, Except.bind, pure, Except.pure, hset]
        exact r1
      · rw [r2]
        have hnews : ∀ path', path' ∈ news.map (·.1) ↔
            ∃ p, tx.lookup n p = some d ∧ ∃ y, FirstMatch n p new y ∧ y.getD noPath = path' := by
          intro path'
          constructor
          · intro h
            obtain ⟨⟨a, t⟩, hmem, rfl⟩ := List.mem_map.1 h
            obtain ⟨v1, v2, v3⟩ := g2 _ hmem
            -- a non-empty piece contains a packet
            have : ∃ p, t.lookup n p = some d := by
              by_contra hno
              apply v3
              apply lookup_ext v1 (t := bot) trivial
              intro p
              rcases v2 (fun num => p (n - 1 - num)) with h | h
              · exact h
              · exact absurd ⟨p, h⟩ hno
            obtain ⟨p, hp⟩ := this
            have := (g3 p a).1 ⟨t, hmem, hp⟩
            exact ⟨p, this⟩
          · rintro ⟨p, hp⟩
            obtain ⟨t, ht, _⟩ := (g3 p path').2 hp
            exact List.mem_map.2 ⟨_, ht, rfl⟩
        constructor
        · rintro (⟨l, hl, hl'⟩ | ⟨t, ht, h⟩)
          · rcases List.mem_append.1 hl with hl | hl
            · exact Or.inl ⟨l, hl, hl'⟩
            · simp only [List.mem_singleton, Prod.mk.injEq] at hl
              obtain ⟨rfl, rfl⟩ := hl
              exact Or.inr ⟨tx, by simp, (hnews path').1 hl'⟩
          · exact Or.inr ⟨t, by simp [ht], h⟩
        · rintro (⟨l, hl, hl'⟩ | ⟨t, ht, h⟩)
          · exact Or.inl ⟨l, by simp [hl], hl'⟩
          · rcases List.mem_cons.1 ht with ht | ht
            · simp only [Prod.mk.injEq] at ht
              obtain ⟨rfl, rfl⟩ := ht
              exact Or.inl ⟨_, by simp, (hnews path').2 h⟩
            · exact Or.inr ⟨t, ht, h⟩
  obtain ⟨res, r1, r2⟩ := loop out [] h2 (by simpa using hnodup)
  refine ⟨res, ?_, fun path path' => ?_⟩
  · unfold findConflictingPaths
    rw [h1]
    exact r1
  · rw [r2]
    constructor
    · rintro (⟨l, hl, _⟩ | ⟨t, ht, p, hp, hy⟩)
      · simp at hl
      · obtain ⟨a1, a2⟩ := (h3 p path).1 ⟨t, ht, hp⟩
        exact ⟨p, a1, a2, hy⟩
    · rintro ⟨p, a1, a2, hy⟩
      obtain ⟨t, ht, hp⟩ := (h3 p path).2 ⟨a1, a2⟩
      exact Or.inr ⟨t, ht, p, hp, hy⟩

/-- Marked: packets starting with 1.  Original rules `x1` (path 10), `xx` (path 11); new rules `11` (path 20), `x0` (path 21). -/
example : findConflictingPaths 2 99 0 (node 0 bot (term 99)) [(0b1110, 10), (0b1111, 11)] [(0b1010, 20), (0b1101, 21)] =
    .ok [(10, [20]), (11, [21])] := by decide +kernel

/-- C34: the printed groups partition the given rulesets (every ruleset is printed exactly once), members of one group have
equal canonical forms, members of different groups different ones. -/
theorem C34_groups {ν : Type} (l : List (ν × DD α)) :
    ((groupEqual checkEqualPlain l).flatten).Perm l ∧
    (∀ g ∈ groupEqual checkEqualPlain l, g ≠ [] ∧ ∀ x ∈ g, ∀ y ∈ g, x.2 = y.2) ∧
    (groupEqual checkEqualPlain l).Pairwise (fun g h => ∀ x ∈ g, ∀ y ∈ h, x.2 ≠ y.2) := by
  induction l using groupEqual.induct (eq := checkEqualPlain (α := α)) with
  | case1 => simp [groupEqual]
  | case2 original others ih =>
    obtain ⟨h1, h2, h3⟩ := ih
    have hp : (others.filter (fun o => checkEqualPlain original.2 o.2) ++
        others.filter (fun o => !checkEqualPlain original.2 o.2)).Perm others := List.filter_append_perm _ _
    refine ⟨?_, ?_, ?_⟩
    · rw [groupEqual, List.flatten_cons, List.cons_append]
      exact (List.Perm.cons _ ((h1.append_left _).trans hp))
    · rw [groupEqual]
      intro g hg
      rcases List.mem_cons.1 hg with rfl | hg
      · refine ⟨by simp, ?_⟩
        have : ∀ x ∈ original :: others.filter (fun o => checkEqualPlain original.2 o.2), x.2 = original.2 := by
          intro x hx
          rcases List.mem_cons.1 hx with rfl | hx
          · rfl
          · have := (List.mem_filter.1 hx).2
            simp only [checkEqualPlain, decide_eq_true_eq] at this
            exact this.symm
        intro x hx y hy
        rw [this x hx, this y hy]
      · exact h2 g hg
    · rw [groupEqual, List.pairwise_cons]
      refine ⟨?_, h3⟩
      intro g hg x hx y hy
      have hx' : x.2 = original.2 := by
        rcases List.mem_cons.1 hx with rfl | hx
        · rfl
        · have := (List.mem_filter.1 hx).2
          simp only [checkEqualPlain, decide_eq_true_eq] at this
          exact this.symm
      have hy' : y ∈ others.filter (fun o => !checkEqualPlain original.2 o.2) :=
        h1.subset (List.mem_flatten.2 ⟨g, hg, hy⟩)
      have := (List.mem_filter.1 hy').2
      simp only [checkEqualPlain, Bool.not_eq_true', decide_eq_false_iff_not] at this
      rw [hx']
      exact this

/-- C34: in terms of forwarding.  Two rulesets land in the same group exactly when they forward every packet identically. -/
theorem C34_same_group_iff {ν : Type} (n : Nat) (l : List (ν × DD α)) (hw : ∀ x ∈ l, WF n 0 x.2)
    (x y : ν × DD α) (hx : x ∈ l) (hy : y ∈ l) :
    (∃ g ∈ groupEqual checkEqualPlain l, x ∈ g ∧ y ∈ g) ↔ ∀ p, x.2.lookup n p = y.2.lookup n p := by
  obtain ⟨h1, h2, h3⟩ := C34_groups l
  constructor
  · rintro ⟨g, hg, hxg, hyg⟩ p
    rw [(h2 g hg).2 x hxg y hyg]
  · intro h
    have he := lookup_ext (hw x hx) (hw y hy) h
    obtain ⟨g, hg, hxg⟩ := List.mem_flatten.1 (h1.symm.subset hx)
    obtain ⟨g', hg', hyg⟩ := List.mem_flatten.1 (h1.symm.subset hy)
    by_cases hgg : g = g'
    · subst hgg; exact ⟨g, hg, hxg, hyg⟩
    · exfalso
      obtain ⟨i, hi, rfl⟩ := List.getElem_of_mem hg
      obtain ⟨j, hj, rfl⟩ := List.getElem_of_mem hg'
      rw [List.pairwise_iff_getElem] at h3
      rcases Nat.lt_trichotomy i j with hij | hij | hij
      · exact h3 i j hi hj hij x hxg y hyg he
      · subst hij; exact hgg rfl
      · exact h3 j i hj hi hij y hyg x hxg he.symm

example : groupEqual checkEqualPlain [("a", term 1), ("b", term 2), ("c", term 1), ("d", bot)] =
    [[("a", term 1), ("c", term 1)], [("b", term 2)], [("d", (bot : DD Nat))]] := by decide +kernel

end OFE
