import Verif.Deps.PrefixSpec
import Verif.Deps.IndirectLemmas

/-! # Lemmas: prefix tables -/

namespace OFE
namespace Deps
open DD
variable {n W : Nat}

namespace Prefix

/-- First address behind the prefix. -/
def hi (f : Prefix W) : Nat := f.addr + 2 ^ (W - f.len)

theorem has_iff (f : Prefix W) (x : Nat) : f.Has x ↔ f.addr ≤ x ∧ x < f.hi := by
  obtain ⟨k, hk⟩ := f.aligned
  unfold Has hi
  have hpos : 0 < 2 ^ (W - f.len) := Nat.two_pow_pos _
  generalize 2 ^ (W - f.len) = s at *
  rw [hk, Nat.mul_div_cancel_left _ hpos]
  constructor
  · rintro rfl
    have := Nat.div_add_mod x s
    have := Nat.mod_lt x hpos
    omega
  · rintro ⟨h1, h2⟩
    apply Nat.div_eq_of_lt_le
    · rw [Nat.mul_comm]; exact h1
    · rw [Nat.mul_comm, Nat.mul_add, Nat.mul_one]; exact h2

theorem has_addr (f : Prefix W) : f.Has f.addr := rfl

theorem addr_lt_hi (f : Prefix W) : f.addr < f.hi := by
  have : 0 < 2 ^ (W - f.len) := Nat.two_pow_pos _
  unfold hi; omega

theorem has_lt (f : Prefix W) {x : Nat} (h : f.Has x) : x < 2 ^ W := by
  obtain ⟨k, hk⟩ := f.aligned
  have h2 := ((has_iff f x).1 h).2
  have h3 := f.small
  have hW : 2 ^ W = 2 ^ (W - f.len) * 2 ^ f.len := by rw [← Nat.pow_add, Nat.sub_add_cancel f.lenLe]
  have hpos : 0 < 2 ^ (W - f.len) := Nat.two_pow_pos _
  unfold hi at h2
  rw [hk] at h2 h3
  rw [hW] at h3 ⊢
  have h4 : k + 1 ≤ 2 ^ f.len := Nat.lt_of_mul_lt_mul_left h3
  calc x < 2 ^ (W - f.len) * (k + 1) := by rw [Nat.mul_add, Nat.mul_one]; exact h2
    _ ≤ _ := Nat.mul_le_mul_left _ h4

/-- A shorter prefix does not distinguish addresses of a longer one. -/
theorem has_same {f g : Prefix W} (hl : f.len ≤ g.len) {y z : Nat} (hy : g.Has y) (hz : g.Has z) : f.Has y ↔ f.Has z := by
  have key : ∀ x, x / 2 ^ (W - f.len) = x / 2 ^ (W - g.len) / 2 ^ (g.len - f.len) := by
    intro x
    rw [Nat.div_div_eq_div_mul, ← Nat.pow_add]
    congr 2
    have := g.lenLe
    omega
  unfold Has at *
  rw [key y, key z, hy, hz]

theorem eq_addr {f g : Prefix W} (hl : f.len = g.len) {x : Nat} (hf : f.Has x) (hg : g.Has x) : f.addr = g.addr := by
  obtain ⟨k, hk⟩ := f.aligned
  obtain ⟨j, hj⟩ := g.aligned
  have hpos : 0 < 2 ^ (W - g.len) := Nat.two_pow_pos _
  unfold Has at hf hg
  rw [hl] at hf hk
  rw [hk, Nat.mul_div_cancel_left _ hpos] at hf
  rw [hj, Nat.mul_div_cancel_left _ hpos] at hg
  rw [hk, hj, ← hf, ← hg]

theorem above_has {f g : Prefix W} (h : f.Above g) {x : Nat} (hx : g.Has x) : f.Has x := (has_same (Nat.le_of_lt h.1) g.has_addr hx).1 h.2

/-- Prefixes that share an address are equal or one is above the other. -/
theorem share {f g : Prefix W} {x : Nat} (hf : f.Has x) (hg : g.Has x) : f.Above g ∨ g.Above f ∨ (f.len = g.len ∧ f.addr = g.addr) := by
  rcases Nat.lt_trichotomy f.len g.len with h | h | h
  · exact .inl ⟨h, (has_same (Nat.le_of_lt h) hg g.has_addr).1 hf⟩
  · exact .inr (.inr ⟨h, eq_addr h hf hg⟩)
  · exact .inr (.inl ⟨h, (has_same (Nat.le_of_lt h) hf f.has_addr).1 hg⟩)

theorem Above.trans {f g h : Prefix W} (h1 : f.Above g) (h2 : g.Above h) : f.Above h := ⟨Nat.lt_trans h1.1 h2.1, above_has h1 h2.2⟩

theorem above_le {f g : Prefix W} (h : f.Above g) : f.addr ≤ g.addr := ((has_iff _ _).1 h.2).1

end Prefix

section loop

variable {pre : DRule → Prefix W}

/-- What the loop needs to know of the rules. -/
structure LoopRules (pre : DRule → Prefix W) (meets : DRule → DRule → Bool) (all : List DRule) : Prop where
  meets : ∀ c ∈ all, ∀ r ∈ all, (meets c r = true ↔ ∃ x, (pre c).Has x ∧ (pre r).Has x)
  distinct : ∀ r ∈ all, ∀ s ∈ all, (pre r).addr = (pre s).addr → (pre r).len = (pre s).len → r = s
  prio : ∀ r ∈ all, ∀ s ∈ all, (pre r).Above (pre s) → r.priority < s.priority

/-- The order of the sorted rules. -/
def Ordered (pre : DRule → Prefix W) (a b : DRule) : Prop := (pre a).addr < (pre b).addr ∨ ((pre a).addr = (pre b).addr ∧ a.priority ≤ b.priority)

theorem above_of_meets {all : List DRule} {meets : DRule → DRule → Bool} (h : LoopRules pre meets all) {c r : DRule} (hc : c ∈ all) (hr : r ∈ all)
    (hne : c ≠ r) (ho : Ordered pre c r) (hm : meets c r = true) : (pre c).Above (pre r) := by
  obtain ⟨x, h1, h2⟩ := (h.meets c hc r hr).1 hm
  rcases Prefix.share h1 h2 with h' | h' | ⟨h', h''⟩
  · exact h'
  · have hp := h.prio r hr c hc h'
    have hl := Prefix.above_le h'
    rcases ho with ho | ⟨-, ho⟩ <;> omega
  · exact absurd (h.distinct c hc r hr h'' h') hne

/-- The chain before a rule: nested, and holding every earlier rule that reaches up to the remaining ones. -/
structure ChainInv (pre : DRule → Prefix W) (d : DRule) (done rest chain : List DRule) : Prop where
  nested : chain.Pairwise fun c c' => (pre c').Above (pre c)
  sub : ∀ c ∈ chain, c ∈ done
  gone : ∀ c ∈ done, c ∉ chain → ∀ r ∈ rest, (pre c).hi ≤ (pre r).addr
  default : d ∈ chain

theorem popChain_spec {all : List DRule} {meets : DRule → DRule → Bool} (h : LoopRules pre meets all) {d r : DRule} {chain : List DRule}
    (hr : r ∈ all) (hc : ∀ c ∈ chain, c ∈ all) (hne : ∀ c ∈ chain, c ≠ r) (ho : ∀ c ∈ chain, Ordered pre c r)
    (hn : chain.Pairwise fun c c' => (pre c').Above (pre c)) (hd : d ∈ chain) (hall : ∀ x, (pre d).Has x ∨ ¬ (pre r).Has x) :
    ∃ popped kept, popChain meets r chain = .ok kept ∧ chain = popped ++ kept ∧ d ∈ kept ∧ (∀ c ∈ popped, (pre c).hi ≤ (pre r).addr) ∧
      ∀ c ∈ kept, (pre c).Above (pre r) := by
  induction chain with
  | nil => cases hd
  | cons c cs ih =>
    rw [List.pairwise_cons] at hn
    rw [popChain]
    have hca := hc c (by simp)
    by_cases hm : meets c r = true
    · rw [if_pos hm]
      have hab := above_of_meets h hca hr (hne c (by simp)) (ho c (by simp)) hm
      refine ⟨[], c :: cs, rfl, rfl, hd, by simp, fun x hx => ?_⟩
      rcases List.mem_cons.1 hx with rfl | hx
      · exact hab
      · exact (hn.1 x hx).trans hab
    · rw [if_neg hm]
      have hgone : (pre c).hi ≤ (pre r).addr := by
        by_contra hlt
        apply hm
        rw [h.meets c hca r hr]
        refine ⟨(pre r).addr, (Prefix.has_iff _ _).2 ⟨?_, by omega⟩, (pre r).has_addr⟩
        rcases ho c (by simp) with h' | ⟨h', -⟩ <;> omega
      have hd' : d ∈ cs := by
        rcases List.mem_cons.1 hd with rfl | h'
        · exfalso
          apply hm
          rw [h.meets d hca r hr]
          exact ⟨_, (hall _).resolve_right (not_not.2 (pre r).has_addr), (pre r).has_addr⟩
        · exact h'
      obtain ⟨popped, kept, e, e2, e3, e4, e5⟩ := ih (fun x hx => hc x (List.mem_cons_of_mem _ hx)) (fun x hx => hne x (List.mem_cons_of_mem _ hx))
        (fun x hx => ho x (List.mem_cons_of_mem _ hx)) hn.2 hd'
      refine ⟨c :: popped, kept, e, by rw [e2]; rfl, e3, fun x hx => ?_, e5⟩
      rcases List.mem_cons.1 hx with rfl | hx
      · exact hgone
      · exact e4 x hx

/-- The rules above `r`, the longest first. -/
def Cover (pre : DRule → Prefix W) (all : List DRule) (r : DRule) (l : List DRule) : Prop :=
  (l.Pairwise fun c c' => (pre c').Above (pre c)) ∧ ∀ c, c ∈ l ↔ c ∈ all ∧ (pre c).Above (pre r)

theorem prefixLoop_spec {β : Type} {meets : DRule → DRule → Bool} (add : DRule → List DRule → β → β) {d : DRule} (hd : ∀ x, x < 2 ^ W → (pre d).Has x)
    (rest : List DRule) : ∀ (done chain : List DRule) (g : β), LoopRules pre meets (done ++ rest) → (done ++ rest).Nodup →
    (done ++ rest).Pairwise (Ordered pre) → ChainInv pre d done rest chain →
    ∃ covs : List (DRule × List DRule), covs.map (·.1) = rest ∧ (∀ x ∈ covs, Cover pre (done ++ rest) x.1 x.2) ∧
      prefixLoop meets add rest chain g = .ok (covs.foldl (fun g x => add x.1 x.2 g) g) := by
  induction rest with
  | nil => intro done chain g _ _ _ _; exact ⟨[], rfl, by simp, rfl⟩
  | cons r rest ih =>
    intro done chain g h hnd ho hinv
    have hr : r ∈ done ++ r :: rest := by simp
    have hnd' := hnd
    rw [List.nodup_append] at hnd'
    obtain ⟨hn1, hn2, hn3⟩ := hnd'
    rw [List.pairwise_append] at ho
    have hord : ∀ c ∈ chain, Ordered pre c r := fun c hc => ho.2.2 c (hinv.sub c hc) r (by simp)
    obtain ⟨popped, kept, e, e2, e3, e4, e5⟩ := popChain_spec h hr (fun c hc => List.mem_append_left _ (hinv.sub c hc))
      (fun c hc => hn3 c (hinv.sub c hc) r (by simp)) hord hinv.nested hinv.default
      (fun x => by
        by_cases hx : (pre r).Has x
        · exact .inl (hd x (Prefix.has_lt _ hx))
        · exact .inr hx)
    have hkeptnested : kept.Pairwise fun c c' => (pre c').Above (pre c) := by
      have := hinv.nested
      rw [e2, List.pairwise_append] at this
      exact this.2.1
    have hcover : Cover pre (done ++ r :: rest) r kept := by
      refine ⟨hkeptnested, fun c => ⟨fun hc => ⟨?_, e5 c hc⟩, ?_⟩⟩
      · exact List.mem_append_left _ (hinv.sub c (by rw [e2]; exact List.mem_append_right _ hc))
      · rintro ⟨hc, hab⟩
        have hdone : c ∈ done := by
          rcases List.mem_append.1 hc with hc | hc
          · exact hc
          · exfalso
            rcases List.mem_cons.1 hc with rfl | hc
            · exact absurd hab.1 (Nat.lt_irrefl _)
            · have h1 := (List.pairwise_cons.1 ho.2.1).1 c hc
              have h2 := Prefix.above_le hab
              have h3 := h.prio c (by simp [hc]) r hr hab
              rcases h1 with h1 | ⟨-, h1⟩ <;> omega
        have hreach := ((Prefix.has_iff _ _).1 hab.2).2
        have hin : c ∈ chain := by
          by_contra hno
          have := hinv.gone c hdone hno r (by simp)
          omega
        rw [e2] at hin
        rcases List.mem_append.1 hin with hp | hk
        · have := e4 c hp; omega
        · exact hk
    have hassoc : done ++ r :: rest = (done ++ [r]) ++ rest := by simp
    have hinv' : ChainInv pre d (done ++ [r]) rest (r :: kept) := by
      refine ⟨List.pairwise_cons.2 ⟨e5, hkeptnested⟩, fun c hc => ?_, fun c hc hno s hs => ?_, List.mem_cons_of_mem _ e3⟩
      · rcases List.mem_cons.1 hc with rfl | hc
        · simp
        · exact List.mem_append_left _ (hinv.sub c (by rw [e2]; exact List.mem_append_right _ hc))
      · rcases List.mem_append.1 hc with hc | hc
        · by_cases hch : c ∈ chain
          · rw [e2] at hch
            rcases List.mem_append.1 hch with hp | hk
            · have h1 := e4 c hp
              have h2 := (List.pairwise_cons.1 ho.2.1).1 s hs
              rcases h2 with h2 | ⟨h2, -⟩ <;> omega
            · exact absurd (List.mem_cons_of_mem _ hk) hno
          · exact hinv.gone c hc hch s (List.mem_cons_of_mem _ hs)
        · simp only [List.mem_singleton] at hc
          subst hc
          exact absurd (by simp) hno
    obtain ⟨covs, c1, c2, c3⟩ := ih (done ++ [r]) (r :: kept) (add r kept g) (by rw [← hassoc]; exact h) (by rw [← hassoc]; exact hnd)
      (by rw [← hassoc, List.pairwise_append]; exact ho) hinv'
    refine ⟨(r, kept) :: covs, by simp [c1], fun x hx => ?_, ?_⟩
    · rcases List.mem_cons.1 hx with rfl | hx
      · exact hcover
      · rw [hassoc]; exact c2 x hx
    · rw [prefixLoop, e]
      exact c3

end loop

theorem mapM_ok {α β : Type} {f : α → Except PyErr β} {g : α → β} : ∀ (l : List α), (∀ x ∈ l, f x = .ok (g x)) → l.mapM f = .ok (l.map g)
  | [], _ => rfl
  | x :: l, h => by
    rw [List.mapM_cons, h x (by simp), mapM_ok l fun y hy => h y (List.mem_cons_of_mem _ hy)]
    rfl

section table
variable {field : Packet → Nat} {pre : DRule → Prefix W} {rs : List PRule}

theorem shares_iff (h : PrefixTable n W field pre rs) {r s : PRule} (hr : r ∈ rs) (hs : s ∈ rs) :
    (∃ p, r.rule.hits n p ∧ s.rule.hits n p) ↔ ∃ x, (pre r.rule).Has x ∧ (pre s.rule).Has x := by
  constructor
  · rintro ⟨p, h1, h2⟩
    exact ⟨_, (h.hits r hr p).1 h1, (h.hits s hs p).1 h2⟩
  · rintro ⟨x, h1, h2⟩
    obtain ⟨p, rfl⟩ := h.occurs x (Prefix.has_lt _ h1)
    exact ⟨p, (h.hits r hr p).2 h1, (h.hits s hs p).2 h2⟩

theorem rules_nodup (h : PrefixTable n W field pre rs) : (rs.map (·.rule)).Nodup := by
  refine List.Nodup.map_on (fun a ha b hb e => ?_) h.nodup
  have h1 := h.dst a ha
  have h2 := h.dst b hb
  cases a; cases b
  simp only at *
  subst e
  rw [h1, h2]

/-- The common part: the sort puts the default route first, and the loop sees for each other rule the rules above it. -/
theorem buildPrefix_spec (h : PrefixTable n W field pre rs) {β : Type} {meets : DRule → DRule → Bool}
    (hm : ∀ r ∈ rs, ∀ s ∈ rs, (meets r.rule s.rule = true ↔ ∃ p, r.rule.hits n p ∧ s.rule.hits n p)) (add : DRule → List DRule → β → β) (init : β) :
    ∃ covs : List (DRule × List DRule), (covs.map (·.1)).Nodup ∧
      (∀ r, r ∈ covs.map (·.1) ↔ r ∈ rs.map (·.rule) ∧ (pre r).len ≠ 0) ∧
      (∀ x ∈ covs, Cover pre (rs.map (·.rule)) x.1 x.2) ∧
      buildPrefix n meets add init rs = .ok (covs.foldl (fun g x => add x.1 x.2 g) init) := by
  obtain ⟨d, hd, hd0, hdp, hdw⟩ := h.default
  let le : Nat × DRule → Nat × DRule → Bool := fun a b => decide (a.1 < b.1 ∨ (a.1 = b.1 ∧ a.2.priority ≤ b.2.priority))
  let keyed := rs.map fun r => ((pre r.rule).addr, r.rule)
  let s := sortBy le keyed
  have hsort : prefixSort rs = .ok (s.map (·.2)) := by
    unfold prefixSort
    rw [mapM_ok (g := fun r : PRule => ((pre r.rule).addr, r.rule)) rs fun r hr => by rw [h.dst r hr]]
    rfl
  have hperm : s.Perm keyed := sortBy_perm le keyed
  have hperm2 : (s.map (·.2)).Perm (rs.map (·.rule)) := by
    have := hperm.map (·.2)
    simpa [keyed, Function.comp_def] using this
  have hkey : ∀ x ∈ s, x.1 = (pre x.2).addr := by
    intro x hx
    have := hperm.mem_iff.1 hx
    simp only [keyed, List.mem_map] at this
    obtain ⟨r, -, rfl⟩ := this
    rfl
  have hord : (s.map (·.2)).Pairwise (Ordered pre) := by
    have hs := sortBy_sorted le (fun a b => by simp only [le, decide_eq_true_eq]; omega)
      (fun a b c => by simp only [le, decide_eq_true_eq]; omega) keyed
    rw [List.pairwise_map]
    refine hs.imp_of_mem fun {a b} ha hb hab => ?_
    simp only [le, decide_eq_true_eq] at hab
    unfold Ordered
    rw [← hkey a ha, ← hkey b hb]
    exact hab
  have hnd : (s.map (·.2)).Nodup := hperm2.nodup_iff.2 (rules_nodup h)
  have hdall : ∀ x, x < 2 ^ W → (pre d.rule).Has x := by
    intro x hx
    unfold Prefix.Has
    rw [hd0, Nat.sub_zero, Nat.div_eq_of_lt hx, Nat.div_eq_of_lt (pre d.rule).small]
  have hloop : LoopRules pre meets (s.map (·.2)) := by
    have get : ∀ x ∈ s.map (·.2), ∃ r ∈ rs, r.rule = x := fun x hx => by simpa using hperm2.mem_iff.1 hx
    refine ⟨fun c hc r hr => ?_, fun c hc r hr => ?_, fun c hc r hr => ?_⟩
    · obtain ⟨c', h1, rfl⟩ := get c hc
      obtain ⟨r', h2, rfl⟩ := get r hr
      rw [hm c' h1 r' h2, shares_iff h h1 h2]
    · obtain ⟨c', h1, rfl⟩ := get c hc
      obtain ⟨r', h2, rfl⟩ := get r hr
      exact h.distinct c' h1 r' h2
    · obtain ⟨c', h1, rfl⟩ := get c hc
      obtain ⟨r', h2, rfl⟩ := get r hr
      exact h.prio c' h1 r' h2
  have hdm : d.rule ∈ s.map (·.2) := hperm2.mem_iff.2 (List.mem_map_of_mem hd)
  have habove : ∀ x ∈ s.map (·.2), x ≠ d.rule → (pre d.rule).Above (pre x) := by
    intro x hx hne
    refine ⟨?_, hdall _ (pre x).small⟩
    rw [hd0]
    by_contra h0
    have hx0 : (pre x).len = 0 := by omega
    refine hne (hloop.distinct x hx _ hdm ?_ (by omega))
    exact Prefix.eq_addr (by omega) (pre x).has_addr (hdall _ (pre x).small)
  have hlen0 : ∀ x ∈ s.map (·.2), ((pre x).len ≠ 0 ↔ x ≠ d.rule) := by
    intro x hx
    constructor
    · rintro h' rfl; exact h' hd0
    · intro hne h0
      have := (habove x hx hne).1
      omega
  -- the first rule is the default route
  cases hsm : s.map (·.2) with
  | nil => rw [hsm] at hdm; cases hdm
  | cons d' rest =>
    rw [hsm] at hnd hord hloop hdm habove hlen0
    have hdd : d' = d.rule := by
      rcases List.mem_cons.1 hdm with h' | h'
      · exact h'.symm
      · exfalso
        have hne : d' ≠ d.rule := fun e => (List.nodup_cons.1 hnd).1 (e ▸ h')
        have hab := habove d' (by simp) hne
        have h1 := hloop.prio d.rule (by simp [h']) d' (by simp) hab
        have h2 := Prefix.above_le hab
        have h3 := (List.pairwise_cons.1 hord).1 d.rule h'
        rcases h3 with h3 | ⟨-, h3⟩ <;> omega
    subst hdd
    obtain ⟨covs, c1, c2, c3⟩ := prefixLoop_spec add (d := d.rule) hdall rest [d.rule] [d.rule] init (by simpa using hloop) (by simpa using hnd)
      (by simpa using hord) ⟨by simp, by simp, by simp, by simp⟩
    refine ⟨covs, by rw [c1]; exact (List.nodup_cons.1 hnd).2, fun r => ?_, fun x hx => ?_, ?_⟩
    · have hmem := hperm2.mem_iff (a := r)
      rw [hsm] at hmem
      rw [c1, ← hmem]
      constructor
      · intro hr
        exact ⟨List.mem_cons_of_mem _ hr, (hlen0 r (List.mem_cons_of_mem _ hr)).2 fun e => (List.nodup_cons.1 hnd).1 (e ▸ hr)⟩
      · rintro ⟨hr, h0⟩
        exact (List.mem_cons.1 hr).resolve_left ((hlen0 r hr).1 h0)
    · have := c2 x hx
      refine ⟨this.1, fun c => ?_⟩
      rw [this.2 c]
      have hmem := hperm2.mem_iff (a := c)
      rw [hsm] at hmem
      rw [← hmem]
      simp
    · unfold buildPrefix
      simp only [hsort, hsm, bind, Except.bind]
      rw [if_neg (by simp [hdp]), if_neg (by simp [hdw]), c3]

/-- The first of the rules above `r` is its parent. -/
theorem cover_head {r : DRule} {l : List DRule} (hl : Cover pre (rs.map (·.rule)) r l) (c : DRule) :
    l.head? = some c ↔ IsParent pre rs r c := by
  constructor
  · intro hh
    cases l with
    | nil => cases hh
    | cons c' l =>
      simp only [List.head?_cons, Option.some.injEq] at hh
      subst hh
      obtain ⟨h1, h2⟩ := (hl.2 c').1 (by simp)
      refine ⟨by simpa using h1, h2, fun x hx hab => ?_⟩
      have := (hl.2 x.rule).2 ⟨List.mem_map_of_mem hx, hab⟩
      rcases List.mem_cons.1 this with h' | h'
      · rw [h']
      · exact Nat.le_of_lt ((List.pairwise_cons.1 hl.1).1 _ h').1
  · rintro ⟨⟨x, hx, rfl⟩, h2, h3⟩
    have hm := (hl.2 x.rule).2 ⟨List.mem_map_of_mem hx, h2⟩
    cases l with
    | nil => cases hm
    | cons c' l =>
      rcases List.mem_cons.1 hm with h' | h'
      · rw [h']; rfl
      · exfalso
        have h4 := ((List.pairwise_cons.1 hl.1).1 _ h').1
        obtain ⟨h5, h6⟩ := (hl.2 c').1 (by simp)
        obtain ⟨y, hy, rfl⟩ := List.mem_map.1 h5
        have := h3 y hy h6
        omega

theorem lookup_addTop {γ : Type} (label : DRule → γ) (covs : List (DRule × List DRule)) : ∀ (g : Reaches γ) (e : Edge),
    (covs.foldl (fun g x => addTop label x.1 x.2 g) g).lookup e =
      if ∃ x ∈ covs, x.1 = e.child ∧ x.2.head? = some e.parent then some (label e.child) else g.lookup e := by
  induction covs with
  | nil => intro g e; simp
  | cons x covs ih =>
    intro g e
    rw [List.foldl_cons, ih]
    by_cases h : ∃ x ∈ covs, x.1 = e.child ∧ x.2.head? = some e.parent
    · rw [if_pos h, if_pos]
      obtain ⟨y, hy, h'⟩ := h
      exact ⟨y, List.mem_cons_of_mem _ hy, h'⟩
    · rw [if_neg h]
      obtain ⟨r, l⟩ := x
      cases l with
      | nil =>
        rw [if_neg]
        · rfl
        · rintro ⟨y, hy, h1, h2⟩
          rcases List.mem_cons.1 hy with rfl | hy
          · cases h2
          · exact h ⟨y, hy, h1, h2⟩
      | cons c l =>
        simp only [addTop, lookup_dictSet]
        by_cases he : e = ⟨r, c⟩
        · subst he
          rw [if_pos rfl, if_pos]
          exact ⟨_, List.mem_cons_self, rfl, rfl⟩
        · rw [if_neg he, if_neg]
          rintro ⟨y, hy, h1, h2⟩
          rcases List.mem_cons.1 hy with rfl | hy
          · simp only [List.head?_cons, Option.some.injEq] at h2
            exact he (by cases e; simp_all)
          · exact h ⟨y, hy, h1, h2⟩

/-- In a prefix table a rule falls to its parent, with all its packets. -/
theorem fallsTo_parent (h : PrefixTable n W field pre rs) {r c : PRule} (hr : r ∈ rs) (hc : c ∈ rs) (p : Packet) :
    FallsTo n (rs.map (·.rule)) r.rule c.rule p ↔ IsParent pre rs r.rule c.rule ∧ r.rule.hits n p := by
  have cmp : ∀ {a b : PRule}, a ∈ rs → b ∈ rs → a.rule.priority < b.rule.priority → a.rule.hits n p → b.rule.hits n p →
      (pre a.rule).Above (pre b.rule) := by
    intro a b ha hb hlt h1 h2
    rcases Prefix.share ((h.hits a ha p).1 h1) ((h.hits b hb p).1 h2) with h' | h' | ⟨h', h''⟩
    · exact h'
    · have := h.prio b hb a ha h'; omega
    · have := h.distinct a ha b hb h'' h'
      rw [this] at hlt; omega
  constructor
  · rintro ⟨hlt, h1, h2, h3⟩
    have hab := cmp hc hr hlt h2 h1
    refine ⟨⟨⟨c, hc, rfl⟩, hab, fun x hx hx' => ?_⟩, h1⟩
    by_contra hgt
    have hxp : x.rule.hits n p := (h.hits x hx p).2 (Prefix.above_has hx' ((h.hits r hr p).1 h1))
    have hcx : (pre c.rule).Above (pre x.rule) := by
      rcases Prefix.share ((h.hits c hc p).1 h2) ((h.hits x hx p).1 hxp) with h' | h' | ⟨h', -⟩
      · exact h'
      · have := h'.1; omega
      · omega
    exact h3 x.rule (List.mem_map_of_mem hx) (h.prio c hc x hx hcx) (h.prio x hx r hr hx') hxp
  · rintro ⟨⟨-, hab, hmax⟩, h1⟩
    have h2 : c.rule.hits n p := (h.hits c hc p).2 (Prefix.above_has hab ((h.hits r hr p).1 h1))
    refine ⟨h.prio c hc r hr hab, h1, h2, fun q hq l1 l2 hqp => ?_⟩
    obtain ⟨x, hx, rfl⟩ := List.mem_map.1 hq
    have hcx := cmp hc hx l1 h2 hqp
    have hxr := cmp hx hr l2 hqp h1
    have := hmax x hx hxr
    have := hcx.1
    omega

theorem prefix_tableOK (h : PrefixTable n W field pre rs) : TableOK n (rs.map (·.rule)) := by
  have get : ∀ x ∈ rs.map (·.rule), ∃ r ∈ rs, r.rule = x := fun x hx => by simpa using hx
  refine ⟨fun r hr => ?_, fun r hr s hs => ?_, fun r hr s hs hp hne => ?_⟩
  · obtain ⟨r', h1, rfl⟩ := get r hr; exact h.valid r' h1
  · obtain ⟨r', h1, rfl⟩ := get r hr
    obtain ⟨s', h2, rfl⟩ := get s hs
    exact h.table r' h1 s' h2
  · obtain ⟨r', h1, rfl⟩ := get r hr
    obtain ⟨s', h2, rfl⟩ := get s hs
    rw [shares_iff h h1 h2]
    rintro ⟨x, x1, x2⟩
    rcases Prefix.share x1 x2 with h' | h' | ⟨h', h''⟩
    · have := h.prio _ h1 _ h2 h'; omega
    · have := h.prio _ h2 _ h1 h'; omega
    · exact hne (h.distinct _ h1 _ h2 h'' h')

end table
end Deps
end OFE
