import Verif.Eager.Form
import Verif.Props.Check

/-!
# Properties of the eager treatment of set-fields that change nothing (C48)
-/

namespace OFE
open DD

/-- C48: the expansion of a rule matches the packets the rule matches, and whichever entry a packet matches, it is treated as the rule treats it
(so also in whatever order the entries of the same number of fields come).

Partial: for rules within the limits of C47, no set-field of which depends on any action but other set-fields of the same field (in particular
without pushes and pops that move the field: there the expansion is wrong, `C48_wrong_pop`), and which write values of the width of the field. -/
theorem C48_expansion_partial {π : Type} (r : Rule π) (h : EagerRule r) (order : List (Nat × Nat) → List (Nat × Nat)) (ho : ∀ l, (order l).Perm l) :
    ∃ es, normaliseSetFields order r = .ok es ∧ (∀ p : Pkt, (∃ e ∈ es, Covers totBits e.1 p.hdr) ↔ r.mat.accepts p) ∧
      ∃ l, r.inst.fullActions = .ok l ∧ ∀ p : Pkt, p.Sized → ∀ e ∈ es, Covers totBits e.1 p.hdr → (emitted e.2 p).Perm (exec l.iter p).2 := by
  obtain ⟨es, e, hx⟩ := normaliseSetFields_spec h ho
  obtain ⟨l, L, e1, -, -, hL⟩ := hx.label
  exact ⟨es, e, hx.covers, l, e1, fun p hp => (hL p hp).2⟩

/-- C48: the first entry a packet matches has exactly the set-fields that change something. -/
theorem C48_reduced_partial {π : Type} (r : Rule π) (h : EagerRule r) (order : List (Nat × Nat) → List (Nat × Nat)) (ho : ∀ l, (order l).Perm l) :
    ∃ es L, normaliseSetFields order r = .ok es ∧ r.label = .ok L ∧
      ∀ p : Pkt, p.Sized → r.mat.accepts p → FirstMatch totBits p.hdr es (some (stripNoOps p L)) := by
  obtain ⟨es, e, hx⟩ := normaliseSetFields_spec h ho
  obtain ⟨l, L, -, e2, -, hL⟩ := hx.label
  exact ⟨es, L, e, e2, fun p hp => (hL p hp).1⟩

/-- What both forms say about a packet. -/
theorem eager_lookup {π : Type} {A B : List (Rule π)} {s : List Label} {a b : DD Nat} (fa : EagerForm A s a) (fb : EagerForm B s b) {p : Pkt}
    (hp : p.Sized) {x y : Option Label} (hx : Stripped A p x) (hy : Stripped B p y) :
    a.lookup totBits p.hdr = b.lookup totBits p.hdr ↔ x = y := by
  cases x with
  | none =>
    rw [fa.missed p hp hx]
    cases y with
    | none => rw [fb.missed p hp hy]; simp
    | some M =>
      obtain ⟨j, h1, -⟩ := fb.found p hp M hy
      rw [h1]; simp
  | some L =>
    obtain ⟨i, h1, h2⟩ := fa.found p hp L hx
    rw [h1]
    cases y with
    | none => rw [fb.missed p hp hy]; simp
    | some M =>
      obtain ⟨j, h3, h4⟩ := fb.found p hp M hy
      rw [h3]
      constructor
      · intro h; cases h
        rw [session_inj s h2 h4]
      · intro h; cases h
        rw [h2] at h4; rw [h4]

/-- C48: the forms of two rulesets are equal exactly if for every packet both do the same, leaving out set-fields that change nothing.  The
orders in which python goes through the sets of set-fields may differ. -/
theorem C48_forms_equal_iff_partial {π : Type} (oA oB : List (Nat × Nat) → List (Nat × Nat)) (hoA : ∀ l, (oA l).Perm l) (hoB : ∀ l, (oB l).Perm l)
    (h0 h1 : List Label) (A B : List (Rule π)) (hA : ∀ r ∈ A, EagerRule r) (hB : ∀ r ∈ B, EagerRule r) {a b : DD Nat} {r1 r2 : LReg}
    (ea : normaliseEager oA (sessionReg h0) A = .ok (a, r1)) (eb : normaliseEager oB (r1.runLabels h1).2 B = .ok (b, r2)) :
    a = b ↔ ∀ p : Pkt, p.Sized → ∀ x y, Stripped A p x → Stripped B p y → x = y := by
  obtain ⟨la, rfl, fa⟩ := (normaliseEager_spec hA hoA h0).1 a r1 ea
  rw [sessionReg_run] at eb
  obtain ⟨lb, rfl, fb⟩ := (normaliseEager_spec hB hoB _).1 b r2 eb
  have fa' := fa (h1 ++ lb)
  have fb' := fb []
  rw [← List.append_assoc] at fa'
  rw [List.append_nil] at fb'
  constructor
  · rintro rfl p hp x y hx hy
    exact (eager_lookup fa' fb' hp hx hy).1 rfl
  · intro hall
    refine lookup_ext fa'.wf fb'.wf fun q => ?_
    rw [fa'.free q (pktOf q).hdr fun i k1 k2 => (pktOf_hdr q k1 k2).symm, fb'.free q (pktOf q).hdr fun i k1 k2 => (pktOf_hdr q k1 k2).symm]
    obtain ⟨x, hx⟩ := fa'.total (pktOf q)
    obtain ⟨y, hy⟩ := fb'.total (pktOf q)
    exact (eager_lookup fa' fb' (pktOf_sized q) hx hy).2 (hall _ (pktOf_sized q) x y hx hy)

/-- What a ruleset sends, by the stripped description. -/
theorem sends_stripped {π : Type} {rules : List (Rule π)} (h : ∀ r ∈ rules, EagerRule r) {p : Pkt} (hp : p.Sized) {out : List (Dest × Pkt)}
    (hs : Sends rules p out) {x : Option Label} (hx : Stripped rules p x) : out.Perm ((x.map fun L => emitted L p).getD []) := by
  rcases hx with ⟨c, L, hc, e1, rfl⟩ | ⟨hn, rfl⟩
  · rcases hs with ⟨d, l, hd, e2, rfl⟩ | ⟨hn, -⟩
    · cases FirstHit.unique hc hd
      obtain ⟨u, v, huv, hacc, -⟩ := hc
      have hr : EagerRule c := h c (by rw [huv]; simp)
      obtain ⟨es, -, hx⟩ := normaliseSetFields_spec hr (order := id) fun l => .refl l
      obtain ⟨l', L', f1, f2, -, f4⟩ := hx.label
      rw [e1] at f2; cases f2
      rw [e2] at f1; cases f1
      have hfm := (f4 p hp).1 hacc
      obtain ⟨e, he, k1, k2⟩ := firstMatch_mem hfm
      have := (f4 p hp).2 e he k1
      rw [k2] at this
      exact this.symm
    · obtain ⟨u, v, huv, hacc, -⟩ := hc
      exact absurd hacc (hn c (by rw [huv]; simp))
  · rcases hs with ⟨d, l, ⟨u, v, huv, hacc, -⟩, -, -⟩ | ⟨-, rfl⟩
    · exact absurd hacc (hn d (by rw [huv]; simp))
    · exact .refl _

/-- C48: rulesets with equal forms send the same packets. -/
theorem C48_sound_partial {π : Type} (oA oB : List (Nat × Nat) → List (Nat × Nat)) (hoA : ∀ l, (oA l).Perm l) (hoB : ∀ l, (oB l).Perm l)
    (h0 h1 : List Label) (A B : List (Rule π)) (hA : ∀ r ∈ A, EagerRule r) (hB : ∀ r ∈ B, EagerRule r) {a : DD Nat} {r1 r2 : LReg}
    (ea : normaliseEager oA (sessionReg h0) A = .ok (a, r1)) (eb : normaliseEager oB (r1.runLabels h1).2 B = .ok (a, r2)) :
    ∀ p : Pkt, p.Sized → ∀ out out', Sends A p out → Sends B p out' → out.Perm out' := by
  intro p hp out out' hs hs'
  have hiff := (C48_forms_equal_iff_partial oA oB hoA hoB h0 h1 A B hA hB ea eb).1 rfl p hp
  obtain ⟨la, -, fa⟩ := (normaliseEager_spec hA hoA h0).1 _ _ ea
  obtain ⟨x, hx⟩ := (fa []).total p
  obtain ⟨y, hy⟩ : ∃ y, Stripped B p y := by
    obtain ⟨la, rfl, -⟩ := (normaliseEager_spec hA hoA h0).1 _ _ ea
    rw [sessionReg_run] at eb
    obtain ⟨lb, -, fb⟩ := (normaliseEager_spec hB hoB _).1 _ _ eb
    exact (fb []).total p
  have := hiff x y hx hy
  subst this
  exact (sends_stripped hA hp hs hx).trans (sends_stripped hB hp hs' hy).symm

/-- C48, no failures: rules of one table have a form. -/
theorem C48_total_partial {π : Type} (order : List (Nat × Nat) → List (Nat × Nat)) (ho : ∀ l, (order l).Perm l) (hist : List Label)
    (rules : List (Rule π)) (h : ∀ r ∈ rules, EagerRule r) (hne : rules ≠ []) (ht : ∀ r ∈ rules, ∀ s ∈ rules, r.table = s.table) :
    ∃ t reg, normaliseEager order (sessionReg hist) rules = .ok (t, reg) := by
  obtain ⟨⟨t, reg⟩, e⟩ := (normaliseEager_spec h ho hist).2 hne ht
  exact ⟨t, reg, e⟩

/-! ### Examples -/

/-- 1.1.1.0/24: set 1.1.1.1 (the first ruleset of the documentation). -/
def eagerA : List (Rule Unit) := [checkRule (Match.empty.append 12 0x01010100 (some 0xFFFFFF00)) [.setField 12 0x01010101, .output 1]]

/-- 1.1.1.1: nothing; 1.1.1.0/24: set 1.1.1.1 (the second ruleset of the documentation). -/
def eagerB : List (Rule Unit) :=
  [checkRule (Match.empty.append 12 0x01010101 none) [.output 1],
   checkRule (Match.empty.append 12 0x01010100 (some 0xFFFFFF00)) [.setField 12 0x01010101, .output 1]]

theorem eager_of {mat : Match} {acts : List Action} (hp : PlainRule (checkRule mat acts))
    (hf : ∀ f v, Action.setField f v ∈ acts → ∀ a ∈ acts, a.emits = false → a.setF ≠ some f → depends (.setField f v) a = .ok false)
    (hr : ∀ f v, Action.setField f v ∈ acts → v < 2 ^ width f) : EagerRule (checkRule mat acts) := by
  have h : (checkRule mat acts).acts = acts := by
    have : (acts.map fun x => [x]).flatten = acts := by clear hp hf hr; induction acts <;> simp_all
    simp [checkRule, Rule.acts, ActionList.iter, ActionList.empty, this]
  exact ⟨hp, by rw [h]; exact hf, by rw [h]; exact hr⟩

theorem eagerB_ok : ∀ r ∈ eagerB, EagerRule r := by
  intro r hr
  simp only [eagerB, List.mem_cons, List.not_mem_nil, or_false] at hr
  rcases hr with rfl | rfl
  · refine eager_of (plain_checkRule (inv_append inv_empty _ _ _) (by decide +kernel) (by decide) (by decide +kernel) ⟨?_, by decide +kernel, ?_, ?_, ?_⟩) ?_ ?_ <;>
      simp [checkRule, ActionList.iter, ActionList.empty]
  · refine eager_of (plain_checkRule (inv_append inv_empty _ _ _) (by decide +kernel) (by decide) (by decide +kernel) ⟨?_, by decide +kernel, ?_, ?_, ?_⟩) ?_ ?_ <;>
      simp [checkRule, ActionList.iter, ActionList.empty, Action.emits, Action.setF]
    decide

theorem eagerA_ok : ∀ r ∈ eagerA, EagerRule r := fun r hr => eagerB_ok r (List.mem_cons_of_mem _ hr)

/-- The forms of both rulesets, in one session. -/
def runEager (A B : List (Rule Unit)) : Except PyErr (DD Nat × DD Nat) := do
  let x ← normaliseEager id (sessionReg []) A
  let y ← normaliseEager id x.2 B
  return (x.1, y.1)

/-- The same check without the eager treatment (C47's forms). -/
def runPlain (A B : List (Rule Unit)) : Except PyErr (DD Nat × DD Nat) := do
  let x ← normaliseRules (sessionReg []) A
  let y ← normaliseRules x.2 B
  return (x.1, y.1)

/-- The rulesets of the documentation have the same form, though not without the eager treatment; the theorems apply. -/
example : ∃ a r1 r2, normaliseEager id (sessionReg []) eagerA = .ok (a, r1) ∧ normaliseEager id (r1.runLabels []).2 eagerB = .ok (a, r2) ∧
    (∃ x y, runPlain eagerA eagerB = .ok (x, y) ∧ x ≠ y) ∧
    ∀ p : Pkt, p.Sized → ∀ out out', Sends eagerA p out → Sends eagerB p out' → out.Perm out' := by
  have h : (match normaliseEager id (sessionReg []) eagerA with
    | .error _ => false
    | .ok x => match normaliseEager id (x.2.runLabels []).2 eagerB with
      | .error _ => false
      | .ok y => decide (x.1 = y.1)) = true := by decide +kernel
  have h2 : (match runPlain eagerA eagerB with
    | .error _ => false
    | .ok x => decide (x.1 ≠ x.2)) = true := by decide +kernel
  have h3 : ∃ x y, runPlain eagerA eagerB = .ok (x, y) ∧ x ≠ y := by
    cases e : runPlain eagerA eagerB with
    | error x => rw [e] at h2; cases h2
    | ok x => rw [e] at h2; exact ⟨x.1, x.2, rfl, by simpa using h2⟩
  cases e1 : normaliseEager id (sessionReg []) eagerA with
  | error x => rw [e1] at h; cases h
  | ok x =>
    rw [e1] at h
    dsimp only at h
    cases e2 : normaliseEager id (x.2.runLabels []).2 eagerB with
    | error y => rw [e2] at h; cases h
    | ok y =>
      rw [e2] at h
      simp only [decide_eq_true_eq] at h
      have e2' : normaliseEager id (x.2.runLabels []).2 eagerB = .ok (x.1, y.2) := by rw [e2, h]
      exact ⟨x.1, x.2, y.2, rfl, e2', h3, C48_sound_partial id id (fun _ => .refl _) (fun _ => .refl _) [] [] eagerA eagerB eagerA_ok eagerB_ok e1 e2'⟩

/-- The expansion of the rule of the documentation: the address that is set, without the set-field, then the prefix. -/
example : ∃ w w', normaliseSetFields id (checkRule (Match.empty.append 12 0x01010100 (some 0xFFFFFF00)) [.setField 12 0x01010101, .output 1]) =
    .ok [(w, [(.port 1, [.output 1])]), (w', [(.port 1, [.setField 12 0x01010101, .output 1])])] ∧
    wcIntersect totBits w w' = w ∧ w ≠ w' :=
  ⟨((match (Match.empty.append 12 0x01010101 none).getWildcard with | .ok w => w.1 | .error _ => 0)),
    ((match (Match.empty.append 12 0x01010100 (some 0xFFFFFF00)).getWildcard with | .ok w => w.1 | .error _ => 0)),
    by decide +kernel, by decide +kernel, by decide +kernel⟩

/-- `C48_forms_equal_iff_partial` the other way: different forms. -/
example : ∃ x y, runEager eagerA checkB = .ok (x, y) ∧ x ≠ y := by
  have h2 : (match runEager eagerA checkB with
    | .error _ => false
    | .ok x => decide (x.1 ≠ x.2)) = true := by decide +kernel
  cases e : runEager eagerA checkB with
  | error x => rw [e] at h2; cases h2
  | ok x => rw [e] at h2; exact ⟨x.1, x.2, rfl, by simpa using h2⟩

/-! ### The documented bug -/

/-- Packets of VLAN 5 lose that header; the next one gets VLAN 5. -/
def popSet : List (Rule Unit) := [checkRule (Match.empty.append 6 0x1005 none) [.popVlan, .setField 6 0x1005, .output 1]]

/-- Packets of VLAN 5 lose that header. -/
def popOnly : List (Rule Unit) := [checkRule (Match.empty.append 6 0x1005 none) [.popVlan, .output 1]]

/-- VLAN 5 outside, VLAN 7 inside. -/
def twoTags : Pkt where
  fld f d := if f = 6 then (if d = 0 then 0x1005 else if d = 1 then 0x1007 else 0) else 0
  ipcp _ := 0
  mplsN := 0
  mttl _ := 0
  nwTtl := 0
  queue := 0

/-- **C48 is violated** when headers are popped (or pushed) before the set-field: the set-field is dropped because of the value of the *outer*
header.  The two rulesets have equal forms but send different packets.  (The docstring knows: "Does not correctly account for vlan_vid as the tag
depth is not considered".) -/
theorem C48_wrong_pop : (∀ r ∈ popSet, PlainRule r) ∧ (∀ r ∈ popOnly, PlainRule r) ∧
    (∃ a r1 r2, normaliseEager id (sessionReg []) popSet = .ok (a, r1) ∧ normaliseEager id r1 popOnly = .ok (a, r2)) ∧
    ∃ p : Pkt, p.Sized ∧ ∃ out out', Sends popSet p out ∧ Sends popOnly p out' ∧ ¬ out.Perm out' := by
  have hacc : (Match.empty.append 6 0x1005 none).accepts twoTags := by
    intro x hx i hi _
    have hx' : x ∈ [(6, 0x1005, (none : Option Nat))] := hx
    simp only [List.mem_singleton] at hx'
    subst hx'
    rw [hdr_bit _ (by decide) hi]
    have h0 : twoTags.fld (shown 6).1 (shown 6).2 = 0x1005 := by decide +kernel
    rw [h0]
  refine ⟨?_, ?_, ?_, twoTags, ?_, _, _,
    .inl ⟨_, ⟨[[.popVlan], [.setField 6 0x1005], [.output 1]], [.popVlan, .setField 6 0x1005, .output 1]⟩, ⟨[], _, rfl, hacc, by simp⟩, by decide +kernel, rfl⟩,
    .inl ⟨_, ⟨[[.popVlan], [.output 1]], [.popVlan, .output 1]⟩, ⟨[], _, rfl, hacc, by simp⟩, by decide +kernel, rfl⟩, ?_⟩
  · intro r hr
    simp only [popSet, List.mem_singleton] at hr
    subst hr
    refine plain_checkRule (inv_append inv_empty _ _ _) (by decide +kernel) (by decide) (by decide +kernel) ⟨?_, by decide +kernel, ?_, ?_, ?_⟩ <;>
      simp [checkRule, ActionList.iter, ActionList.empty]
  · intro r hr
    simp only [popOnly, List.mem_singleton] at hr
    subst hr
    refine plain_checkRule (inv_append inv_empty _ _ _) (by decide +kernel) (by decide) (by decide +kernel) ⟨?_, by decide +kernel, ?_, ?_, ?_⟩ <;>
      simp [checkRule, ActionList.iter, ActionList.empty]
  · have h : (match normaliseEager id (sessionReg []) popSet with
      | .error _ => false
      | .ok x => match normaliseEager id x.2 popOnly with
        | .error _ => false
        | .ok y => decide (x.1 = y.1)) = true := by decide +kernel
    cases e1 : normaliseEager id (sessionReg []) popSet with
    | error x => rw [e1] at h; cases h
    | ok x =>
      rw [e1] at h
      dsimp only at h
      cases e2 : normaliseEager id x.2 popOnly with
      | error y => rw [e2] at h; cases h
      | ok y =>
        rw [e2] at h
        simp only [decide_eq_true_eq] at h
        exact ⟨x.1, x.2, y.2, rfl, by rw [e2, h]⟩
  · intro f hf
    simp only [twoTags, if_true]
    split
    · next h => subst h; decide
    · exact Nat.two_pow_pos _
  · intro h
    have h' := (h.map fun x => x.2.fld 6 0).mem_iff (a := 0x1005)
    revert h'
    decide +kernel

example := C48_total_partial id (fun _ => List.Perm.refl _) [] eagerA eagerA_ok (by decide) (by decide)

end OFE
