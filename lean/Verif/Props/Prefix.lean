import Verif.Deps.PrefixLemmas
import Verif.Props.Indirect

/-! # C37: dependencies of prefix tables -/

namespace OFE
namespace Deps
open DD

variable {n W : Nat} {field : Packet → Nat} {pre : DRule → Prefix W} {rs : List PRule}

/-- **C37** For every prefix table the chain algorithm returns exactly one edge for each rule but the default route, to the rule of the longest prefix that
properly covers it, labelled with the packets of the rule; with wildcards as with diagrams.  This is the very result of the general
algorithm (if the egress of the default route, which that algorithm computes but does not use, is defined). -/
theorem C37_prefix_direct (n W : Nat) (hn : 0 < n) (field : Packet → Nat) (pre : DRule → Prefix W) (rs : List PRule) (h : PrefixTable n W field pre rs) :
    ∃ bdds wcs, buildPrefixBdd n rs = .ok bdds ∧ buildPrefixWc n rs = .ok wcs ∧
      (∀ r c b, bdds.lookup ⟨r, c⟩ = some b ↔ (∃ x ∈ rs, x.rule = r) ∧ IsParent pre rs r c ∧ b = r.bdd n) ∧
      (∀ r c w, wcs.lookup ⟨r, c⟩ = some w ↔ (∃ x ∈ rs, x.rule = r) ∧ IsParent pre rs r c ∧ w = r.wc) ∧
      (∀ r ∈ rs, (pre r.rule).len ≠ 0 → ∃ c, IsParent pre rs r.rule c ∧ ∀ c', IsParent pre rs r.rule c' → c' = c) ∧
      (∀ r ∈ rs, (pre r.rule).len = 0 → ∀ c, ¬ IsParent pre rs r.rule c) ∧
      ((∀ d ∈ rs, (pre d.rule).len = 0 → ∃ w, d.rule.egress = .ok w) →
        ∃ batch, buildTableDeps n (rs.map (·.rule)) = .ok batch ∧ ∀ e, bdds.lookup e = batch.lookup e) := by
  have hm : ∀ r ∈ rs, ∀ s ∈ rs, (meetsWc n r.rule s.rule = true ↔ ∃ p, r.rule.hits n p ∧ s.rule.hits n p) ∧
      (meetsBdd n r.rule s.rule = true ↔ ∃ p, r.rule.hits n p ∧ s.rule.hits n p) := by
    intro r hr s hs
    simp only [meetsWc, meetsBdd, decide_eq_true_eq]
    exact test_same hn (h.valid r hr) (h.valid s hs)
  obtain ⟨c1, n1, m1, v1, e1⟩ := buildPrefix_spec h (meets := meetsBdd n) (fun r hr s hs => (hm r hr s hs).2) (addTop fun r => r.bdd n) []
  obtain ⟨c2, n2, m2, v2, e2⟩ := buildPrefix_spec h (meets := meetsWc n) (fun r hr s hs => (hm r hr s hs).1) (addTop fun r => r.wc) []
  have hlen : ∀ {r c : DRule}, IsParent pre rs r c → (pre r).len ≠ 0 := fun hp h0 => by have := hp.2.1.1; omega
  have key : ∀ (covs : List (DRule × List DRule)), (∀ r, r ∈ covs.map (·.1) ↔ r ∈ rs.map (·.rule) ∧ (pre r).len ≠ 0) →
      (∀ x ∈ covs, Cover pre (rs.map (·.rule)) x.1 x.2) → ∀ r c,
      ((∃ x ∈ covs, x.1 = r ∧ x.2.head? = some c) ↔ (∃ x ∈ rs, x.rule = r) ∧ IsParent pre rs r c) := by
    intro covs hm hv r c
    constructor
    · rintro ⟨x, hx, rfl, hh⟩
      exact ⟨by simpa using ((hm x.1).1 (List.mem_map_of_mem hx)).1, (cover_head (hv x hx) c).1 hh⟩
    · rintro ⟨⟨x, hx, rfl⟩, hp⟩
      obtain ⟨y, hy, hy'⟩ := List.mem_map.1 ((hm x.rule).2 ⟨List.mem_map_of_mem hx, hlen hp⟩)
      exact ⟨y, hy, hy', (cover_head (hv y hy) c).2 (hy' ▸ hp)⟩
  have bl : ∀ r c b, (c1.foldl (fun g x => addTop (fun r => r.bdd n) x.1 x.2 g) []).lookup ⟨r, c⟩ = some b ↔
      (∃ x ∈ rs, x.rule = r) ∧ IsParent pre rs r c ∧ b = r.bdd n := by
    intro r c b
    rw [lookup_addTop, ← and_assoc, ← key c1 m1 v1 r c]
    split <;> rename_i hh
    · exact ⟨fun e => ⟨hh, (Option.some.inj e).symm⟩, fun e => by rw [e.2]⟩
    · simp [hh]
  have ndefault : ∀ r ∈ rs, (pre r.rule).len = 0 → ∀ c, ¬ IsParent pre rs r.rule c := fun r hr h0 c hp => hlen hp h0
  refine ⟨_, _, e1, e2, bl, fun r c b => ?_, fun r hr h0 => ?_, ndefault, fun hd => ?_⟩
  · rw [lookup_addTop, ← and_assoc, ← key c2 m2 v2 r c]
    split <;> rename_i hh
    · exact ⟨fun e => ⟨hh, (Option.some.inj e).symm⟩, fun e => by rw [e.2]⟩
    · simp [hh]
  · obtain ⟨y, hy, hy'⟩ := List.mem_map.1 ((m1 r.rule).2 ⟨List.mem_map_of_mem hr, h0⟩)
    have hc := v1 y hy
    rw [hy'] at hc
    cases hl : y.2 with
    | nil =>
      rw [hl] at hc
      obtain ⟨d, hd, hd0, -, -⟩ := h.default
      have hab : (pre d.rule).Above (pre r.rule) := by
        refine ⟨by omega, ?_⟩
        unfold Prefix.Has
        rw [hd0, Nat.sub_zero, Nat.div_eq_of_lt (pre r.rule).small, Nat.div_eq_of_lt (pre d.rule).small]
      have := (hc.2 d.rule).2 ⟨List.mem_map_of_mem hd, hab⟩
      cases this
    | cons c l =>
      rw [hl] at hc
      refine ⟨c, (cover_head hc c).1 rfl, fun c' hp => ?_⟩
      have := (cover_head hc c').2 hp
      simpa using this.symm
  · have hne : rs.map (·.rule) ≠ [] := by
      obtain ⟨d, hd, -⟩ := h.default
      exact List.ne_nil_of_mem (List.mem_map_of_mem hd)
    obtain ⟨g, eg, hg, hx⟩ := batch_exact hn hne (prefix_tableOK h) (fun r hr hno => by
      obtain ⟨r', hr', rfl⟩ := List.mem_map.1 hr
      apply hd r' hr'
      by_contra h0
      obtain ⟨d, hd, hd0, -, -⟩ := h.default
      have hab : (pre d.rule).Above (pre r'.rule) := by
        refine ⟨by omega, ?_⟩
        unfold Prefix.Has
        rw [hd0, Nat.sub_zero, Nat.div_eq_of_lt (pre r'.rule).small, Nat.div_eq_of_lt (pre d.rule).small]
      exact hno d.rule (List.mem_map_of_mem hd) (h.prio d hd r' hr' hab))
    refine ⟨g.reaches, eg, fun e => ?_⟩
    obtain ⟨r, c⟩ := e
    have hex := exact_deps hg hx r c
    have hsame : ∀ p, FallsTo n (rs.map (·.rule)) r c p ∧ r ∈ rs.map (·.rule) ∧ c ∈ rs.map (·.rule) ↔
        ((∃ x ∈ rs, x.rule = r) ∧ IsParent pre rs r c) ∧ r.hits n p := by
      intro p
      constructor
      · rintro ⟨hf, hr, hc⟩
        obtain ⟨r', hr', rfl⟩ := List.mem_map.1 hr
        obtain ⟨c', hc', rfl⟩ := List.mem_map.1 hc
        obtain ⟨a, b⟩ := (fallsTo_parent h hr' hc' p).1 hf
        exact ⟨⟨⟨r', hr', rfl⟩, a⟩, b⟩
      · rintro ⟨⟨⟨r', hr', rfl⟩, hp⟩, hh⟩
        obtain ⟨⟨c', hc', rfl⟩, -⟩ := id hp
        exact ⟨(fallsTo_parent h hr' hc' p).2 ⟨hp, hh⟩, List.mem_map_of_mem hr', List.mem_map_of_mem hc'⟩
    cases eb : (c1.foldl (fun g x => addTop (fun r => r.bdd n) x.1 x.2 g) []).lookup ⟨r, c⟩ with
    | none =>
      cases ec : g.reaches.lookup ⟨r, c⟩ with
      | none => rfl
      | some b =>
        exfalso
        obtain ⟨hr, hc, p, hp⟩ := hex.2.1 (by simp [ec])
        obtain ⟨⟨a1, a2⟩, -⟩ := (hsame p).1 ⟨hp, hr, hc⟩
        have := (bl r c _).2 ⟨a1, a2, rfl⟩
        rw [eb] at this; cases this
    | some b =>
      obtain ⟨a1, a2, rfl⟩ := (bl r c b).1 eb
      obtain ⟨r', hr', rfl⟩ := a1
      obtain ⟨p, hp⟩ := h.occurs (pre r'.rule).addr (pre r'.rule).small
      have hrp : r'.rule.hits n p := (h.hits r' hr' p).2 (by rw [hp]; exact (pre r'.rule).has_addr)
      obtain ⟨f1, f2, f3⟩ := (hsame p).2 ⟨⟨⟨r', hr', rfl⟩, a2⟩, hrp⟩
      obtain ⟨b', hb'⟩ := Option.isSome_iff_exists.1 (hex.2.2 ⟨f2, f3, p, f1⟩)
      rw [hb']
      obtain ⟨wb, hb⟩ := holds_bdd hn (h.valid r' hr')
      refine congrArg some (bdd_ext wb (hg.labels _ _ hb').1 fun q => ?_)
      rw [(hex.1 b' hb').2.2 q, hb q]
      constructor
      · intro hq
        exact ((hsame q).2 ⟨⟨⟨r', hr', rfl⟩, a2⟩, hq⟩).1
      · intro hq
        exact ((hsame q).1 ⟨hq, f2, f3⟩).2

theorem mem_addChain (covs : List (DRule × List DRule)) : ∀ (g : List Edge) (e : Edge),
    e ∈ covs.foldl (fun g x => g ++ x.2.reverse.map fun c => (⟨x.1, c⟩ : Edge)) g ↔ e ∈ g ∨ ∃ x ∈ covs, x.1 = e.child ∧ e.parent ∈ x.2 := by
  induction covs with
  | nil => intro g e; simp
  | cons x covs ih =>
    intro g e
    rw [List.foldl_cons, ih]
    simp only [List.mem_append, List.mem_map, List.mem_reverse, List.exists_mem_cons_iff, or_assoc]
    refine or_congr_right (or_congr_left ?_)
    constructor
    · rintro ⟨c, hc, rfl⟩; exact ⟨rfl, hc⟩
    · rintro ⟨h1, h2⟩; exact ⟨e.parent, h2, by cases e; simp_all⟩

theorem nodup_addChain (covs : List (DRule × List DRule)) (hn : (covs.map (·.1)).Nodup) (hl : ∀ x ∈ covs, x.2.Nodup) : ∀ (g : List Edge), g.Nodup →
    (∀ e ∈ g, e.child ∉ covs.map (·.1)) → (covs.foldl (fun g x => g ++ x.2.reverse.map fun c => (⟨x.1, c⟩ : Edge)) g).Nodup := by
  induction covs with
  | nil => intro g hg _; exact hg
  | cons x covs ih =>
    intro g hg hd
    rw [List.map_cons, List.nodup_cons] at hn
    rw [List.foldl_cons]
    refine ih hn.2 (fun y hy => hl y (List.mem_cons_of_mem _ hy)) _ ?_ ?_
    · rw [List.nodup_append]
      refine ⟨hg, ?_, ?_⟩
      · exact List.Nodup.map (fun a b hab => by cases hab; rfl) (List.nodup_reverse.2 (hl x (by simp)))
      · intro e he f hf
        rintro rfl
        obtain ⟨c, -, rfl⟩ := List.mem_map.1 hf
        exact hd _ he (by simp)
    · intro e he
      rcases List.mem_append.1 he with he | he
      · exact fun h' => hd e he (List.mem_cons_of_mem _ h')
      · obtain ⟨c, -, rfl⟩ := List.mem_map.1 he
        exact hn.1

/-- **C37**, indirect dependencies: the chain algorithm lists every pair of a rule and a rule whose prefix properly covers it, each once; the same edges as the general algorithm. -/
theorem C37_prefix_indirect (n W : Nat) (hn : 0 < n) (field : Packet → Nat) (pre : DRule → Prefix W) (rs : List PRule) (h : PrefixTable n W field pre rs) :
    ∃ es, buildPrefixAll n rs = .ok es ∧ es.Nodup ∧
      (∀ r c, ⟨r, c⟩ ∈ es ↔ r ∈ rs.map (·.rule) ∧ c ∈ rs.map (·.rule) ∧ (pre c).Above (pre r)) ∧
      ((∀ d ∈ rs, (pre d.rule).len = 0 → ∃ w, d.rule.egress = .ok w) →
        ∃ es', buildIndirect n (rs.map (·.rule)) = .ok es' ∧ es.Perm es') := by
  obtain ⟨covs, hnd, hmem, hcov, e⟩ := buildPrefix_spec h (meets := meetsWc n) (fun r hr s hs => by
    simp only [meetsWc, decide_eq_true_eq]
    exact (test_same hn (h.valid r hr) (h.valid s hs)).1) (fun r chain (g : List Edge) => g ++ chain.reverse.map fun c => ⟨r, c⟩) []
  have hm : ∀ r c, (⟨r, c⟩ : Edge) ∈ covs.foldl (fun g x => g ++ x.2.reverse.map fun c => (⟨x.1, c⟩ : Edge)) [] ↔
      r ∈ rs.map (·.rule) ∧ c ∈ rs.map (·.rule) ∧ (pre c).Above (pre r) := by
    intro r c
    rw [mem_addChain]
    constructor
    · rintro (h0 | ⟨x, hx, h1, h2⟩)
      · cases h0
      · simp only at h1 h2
        subst h1
        exact ⟨((hmem x.1).1 (List.mem_map_of_mem hx)).1, ((hcov x hx).2 c).1 h2⟩
    · rintro ⟨hr, hc, hab⟩
      obtain ⟨x, hx, hx'⟩ := List.mem_map.1 ((hmem r).2 ⟨hr, by have := hab.1; omega⟩)
      exact .inr ⟨x, hx, hx', ((hcov x hx).2 c).2 ⟨hc, hx' ▸ hab⟩⟩
  have hnd2 : (covs.foldl (fun g x => g ++ x.2.reverse.map fun c => (⟨x.1, c⟩ : Edge)) []).Nodup :=
    nodup_addChain covs hnd (fun x hx => (hcov x hx).1.imp fun hab he => by rw [he] at hab; exact absurd hab.1 (Nat.lt_irrefl _)) [] (by simp) (by simp)
  refine ⟨_, e, hnd2, hm, fun hd => ?_⟩
  obtain ⟨es', e', n', m'⟩ := buildIndirect_spec hn (rs := rs.map (·.rule)) (prefix_tableOK h).table (fun r hr hno => by
    obtain ⟨r', hr', rfl⟩ := List.mem_map.1 hr
    apply hd r' hr'
    by_contra h0
    obtain ⟨d, hd, hd0, -, -⟩ := h.default
    have hab : (pre d.rule).Above (pre r'.rule) := by
      refine ⟨by omega, ?_⟩
      unfold Prefix.Has
      rw [hd0, Nat.sub_zero, Nat.div_eq_of_lt (pre r'.rule).small, Nat.div_eq_of_lt (pre d.rule).small]
    exact hno d.rule (List.mem_map_of_mem hd) (h.prio d hd r' hr' hab))
  refine ⟨es', e', (List.perm_ext_iff_of_nodup hnd2 n').2 fun ⟨r, c⟩ => ?_⟩
  rw [hm, m']
  constructor
  · rintro ⟨hr, hc, hab⟩
    obtain ⟨r', hr', rfl⟩ := List.mem_map.1 hr
    obtain ⟨c', hc', rfl⟩ := List.mem_map.1 hc
    exact ⟨hr, hc, h.prio c' hc' r' hr' hab, (shares_iff h hr' hc').2 ⟨_, (pre r'.rule).has_addr, hab.2⟩⟩
  · rintro ⟨hr, hc, hlt, hsh⟩
    obtain ⟨r', hr', rfl⟩ := List.mem_map.1 hr
    obtain ⟨c', hc', rfl⟩ := List.mem_map.1 hc
    refine ⟨hr, hc, ?_⟩
    obtain ⟨x, x1, x2⟩ := (shares_iff h hr' hc').1 hsh
    rcases Prefix.share x1 x2 with h' | h' | ⟨h', h''⟩
    · have := h.prio r' hr' c' hc' h'; omega
    · exact h'
    · rw [h.distinct r' hr' c' hc' h'' h'] at hlt; omega

/-! ### Sample: two-bit addresses, the prefixes `*`, `1*`, `10`, `01` -/

def pD : DRule := ⟨0, 0, 0, 0b1111, .ok 0b1111⟩
def pA : DRule := ⟨1, 1, 0, 0b1011, .ok 0b1011⟩
def pB : DRule := ⟨2, 2, 0, 0b1001, .ok 0b1001⟩
def pC : DRule := ⟨3, 2, 0, 0b0110, .ok 0b0110⟩
def pTable : List PRule := [⟨pB, some 2⟩, ⟨pC, some 1⟩, ⟨pA, some 2⟩, ⟨pD, some 0⟩]

def pPre (r : DRule) : Prefix 2 :=
  if r = pA then ⟨2, 1, by decide, by decide, by decide⟩
  else if r = pB then ⟨2, 2, by decide, by decide, by decide⟩
  else if r = pC then ⟨1, 2, by decide, by decide, by decide⟩
  else ⟨0, 0, by decide, by decide, by decide⟩

def pField (p : Packet) : Nat := 2 * (p 1).toNat + (p 0).toNat

theorem pTable_ok : PrefixTable 2 2 pField pPre pTable where
  nodup := by decide
  hits := by
    have key : ∀ r ∈ pTable, ∀ b0 b1 : Bool, ((∀ k, k < 2 → r.rule.wc.testBit (2 * k + (if k = 0 then b0 else b1).toNat) = true) ↔
        (pPre r.rule).Has (2 * b1.toNat + b0.toNat)) := by
      unfold Prefix.Has; decide +kernel
    intro r hr p
    unfold pField DRule.hits Covers
    rw [← key r hr (p 0) (p 1)]
    refine forall_congr' fun k => forall_congr' fun hk => ?_
    match k, hk with
    | 0, _ => simp
    | 1, _ => simp
  occurs := by
    intro x hx
    refine ⟨fun k => x.testBit k, ?_⟩
    revert x
    unfold pField
    decide
  bound := by
    intro p
    unfold pField
    have h1 := Bool.toNat_lt (p 0)
    have h2 := Bool.toNat_lt (p 1)
    omega
  dst := by decide
  distinct := by decide
  prio := by unfold Prefix.Above Prefix.Has; decide +kernel
  valid := by
    intro r hr
    apply wcValid_small
    revert r
    decide
  table := by decide
  default := ⟨⟨pD, some 0⟩, by decide, by decide, rfl, by decide⟩

example : (buildPrefixWc 2 pTable = .ok [(⟨pC, pD⟩, pC.wc), (⟨pA, pD⟩, pA.wc), (⟨pB, pA⟩, pB.wc)]) ∧
    (buildPrefixBdd 2 pTable).map (·.map (·.1)) = .ok [⟨pC, pD⟩, ⟨pA, pD⟩, ⟨pB, pA⟩] ∧
    buildPrefixAll 2 pTable = .ok [⟨pC, pD⟩, ⟨pA, pD⟩, ⟨pB, pD⟩, ⟨pB, pA⟩] := by decide +kernel

/-- A default route written as a match on nothing has no `IPV4_DST` entry, and the sort raises. -/
theorem C37_no_dst (n : Nat) (r : PRule) (h : r.dst = none) (rs : List PRule) : buildPrefixBdd n (r :: rs) = .error .keyError ∧
    buildPrefixWc n (r :: rs) = .error .keyError ∧ buildPrefixAll n (r :: rs) = .error .keyError := by
  have : prefixSort (r :: rs) = .error .keyError := by simp [prefixSort, List.mapM_cons, h, bind, Except.bind]
  simp [buildPrefixBdd, buildPrefixWc, buildPrefixAll, buildPrefix, this, bind, Except.bind]

end Deps
end OFE
