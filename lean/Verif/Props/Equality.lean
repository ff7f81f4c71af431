import Verif.Rule.Equality
import Verif.Rule.Spec
import Verif.Match.MatchLemmas
import Verif.Props.Match
import Verif.DictLemmas

/-! # C68: equality and hashes of rules -/

namespace OFE

/-! ### Helper lemmas -/

theorem actionEq_iff {a b : ActionList} : a.eq b = true ↔ a.len = b.len ∧ a.iter = b.iter := by
  unfold ActionList.eq
  by_cases h : a.len = b.len <;> simp [h]

theorem instEq_iff {a b : Inst} : a.eq b = true ↔ a.goto = b.goto ∧ a.wmeta = b.wmeta ∧ a.clear = b.clear ∧
    a.apply.eq b.apply = true ∧ a.write.eq b.write = true ∧ a.meter = b.meter := by
  unfold Inst.eq
  simp only [Bool.and_eq_true, beq_iff_eq, and_assoc]

theorem ruleEq_iff {π : Type} {a b : Rule π} : a.eq b = true ↔ a.priority = b.priority ∧ a.cookie = b.cookie ∧
    a.mat.eq b.mat = true ∧ a.inst.eq b.inst = true ∧ a.table = b.table := by
  unfold Rule.eq
  simp only [Bool.and_eq_true, beq_iff_eq, and_assoc]

theorem matchEq_iff {a b : Match} (ha : a.Inv) (hb : b.Inv) : a.eq b = true ↔ ∀ k, a.items.lookup k = b.items.lookup k := by
  unfold Match.eq
  constructor
  · intro h
    split at h
    · exact (dictEq_iff ha.nodup hb.nodup).1 h
    · cases h
  · intro h
    rw [if_pos, (dictEq_iff ha.nodup hb.nodup).2 h]
    apply Nat.eq_of_testBit_eq
    intro i
    rw [ha.req, hb.req, decide_eq_decide, ← lookup_isSome_iff, ← lookup_isSome_iff, h i]

theorem matchEq_mem {a b : Match} (ha : a.Inv) (hb : b.Inv) (h : a.eq b = true) (x : Nat × Nat × Option Nat) :
    x ∈ a.items ↔ x ∈ b.items := by
  obtain ⟨k, v⟩ := x
  rw [mem_dict_iff ha.nodup, mem_dict_iff hb.nodup, (matchEq_iff ha hb).1 h]

theorem matchesAll_congr {a b : MItems} (h : ∀ x, x ∈ a ↔ x ∈ b) (p : Packet) : MatchesAll a p ↔ MatchesAll b p :=
  ⟨fun g x hx => g x ((h x).2 hx), fun g x hx => g x ((h x).1 hx)⟩

theorem toWildcard_congr {a b : MItems} (ha : (a.map (·.1)).Nodup) (hb : (b.map (·.1)).Nodup) (h : ∀ x, x ∈ a ↔ x ∈ b) :
    toWildcard a = toWildcard b := by
  obtain ⟨w, e, c, v⟩ := C15_unknown_field a
  obtain ⟨w', e', c', v'⟩ := C15_unknown_field b
  rw [e, e', wc_ext (v ha).1 (v' hb).1 fun p => by rw [c, c']; simp only [h]]

theorem matchHash_eq (h : Hashes) {m : Match} (hm : m.Inv) : m.hashOf h = (toWildcard m.items).map h.nat := by
  rw [← getWildcard_eq hm]
  unfold Match.hashOf
  cases m.getWildcard <;> rfl

/-- The caches hold what would be computed now. -/
structure Cached.Fresh (h : Hashes) (c : Cached) : Prop where
  memo : ∀ v, c.memo = some v → v = c.list.hashOf h
  per : ∀ v, c.per = some v → ∃ pt, c.list.perOutputPt = .ok pt ∧ c.perPt = some pt ∧ v = dictDel .pass pt

theorem fresh_clear (h : Hashes) (l : ActionList) : Cached.Fresh h ⟨l, none, none, none⟩ := ⟨by simp, by simp⟩

theorem bind_ok_iff {ε α β : Type} {x : Except ε α} {f : α → Except ε β} {b : β} :
    (x >>= f) = .ok b ↔ ∃ a, x = .ok a ∧ f a = .ok b := by
  cases x with
  | error e => simp [bind, Except.bind]
  | ok a => simp [bind, Except.bind]

theorem fresh_append {h : Hashes} {isSet : Bool} {c d : Cached} {a : Action} (e : c.append isSet a = .ok d) : d.Fresh h := by
  unfold Cached.append at e
  obtain ⟨l, -, e⟩ := bind_ok_iff.1 e
  cases e
  exact fresh_clear h l

theorem fresh_remove {h : Hashes} {c d : Cached} {a : Action} (e : c.remove a = .ok d) : d.Fresh h := by
  unfold Cached.remove at e
  obtain ⟨l, -, e⟩ := bind_ok_iff.1 e
  cases e
  exact fresh_clear h l

theorem fresh_foldlM {α : Type} {h : Hashes} {f : Cached → α → Except PyErr Cached}
    (hf : ∀ c a d, c.Fresh h → f c a = .ok d → d.Fresh h) :
    ∀ (l : List α) {c d : Cached}, c.Fresh h → l.foldlM f c = .ok d → d.Fresh h := by
  intro l
  induction l with
  | nil => intro c d hc e; cases e; exact hc
  | cons x l ih =>
    intro c d hc e
    rw [List.foldlM_cons] at e
    obtain ⟨c', e1, e2⟩ := bind_ok_iff.1 e
    exact ih (hf _ _ _ hc e1) e2

theorem fresh_hash {h : Hashes} {c : Cached} (hc : c.Fresh h) : (c.hash h).2.Fresh h ∧ (c.hash h).1 = c.list.hashOf h ∧
    (c.hash h).2.list = c.list := by
  unfold Cached.hash
  split
  · next v hv => exact ⟨hc, hc.memo v hv, rfl⟩
  · exact ⟨⟨by simp, hc.per⟩, rfl, rfl⟩

theorem fresh_perOutput {h : Hashes} {c d : Cached} {pt : Bool} {r : Option (List (OutKey × List Action))} (hc : c.Fresh h)
    (e : c.perOutput pt = .ok (r, d)) : d.Fresh h ∧ d.list = c.list ∧
      ∃ v, c.list.perOutputPt = .ok v ∧ r = some (if pt then v else dictDel .pass v) := by
  unfold Cached.perOutput at e
  obtain ⟨c', e1, e2⟩ := bind_ok_iff.1 e
  cases e2
  unfold Cached.fill at e1
  cases hp : c.per with
  | some v =>
    rw [hp] at e1
    cases e1
    obtain ⟨w, h1, h2, h3⟩ := hc.per v hp
    refine ⟨hc, rfl, w, h1, ?_⟩
    rw [h2, hp, h3]
    cases pt <;> rfl
  | none =>
    rw [hp] at e1
    obtain ⟨w, e4, e3⟩ := bind_ok_iff.1 e1
    cases e3
    refine ⟨⟨hc.memo, ?_⟩, rfl, w, e4, by cases pt <;> rfl⟩
    intro v hv
    cases hv
    exact ⟨w, e4, rfl, rfl⟩

theorem fresh_step {h : Hashes} {isSet : Bool} {c d : Cached} {op : ListOp} (hc : c.Fresh h) (e : c.step h isSet op = .ok d) :
    d.Fresh h := by
  cases op with
  | append a => exact fresh_append e
  | remove a => exact fresh_remove e
  | replace new => exact fresh_foldlM (fun _ _ _ _ => fresh_append) new (fresh_clear h _) e
  | dup => cases e; exact hc
  | copy add remove =>
    change c.copy isSet add remove = _ at e
    unfold Cached.copy at e
    split at e
    · obtain ⟨new, -, e⟩ := bind_ok_iff.1 e
      exact fresh_foldlM (fun _ _ _ _ => fresh_append) _ (fresh_clear h _) e
    · obtain ⟨c', e1, e2⟩ := bind_ok_iff.1 e
      exact fresh_foldlM (fun _ _ _ _ => fresh_append) _ (fresh_foldlM (fun _ _ _ _ => fresh_remove) remove
        (show c.dup.Fresh h from hc) e1) e2
  | hash => cases e; exact (fresh_hash hc).1
  | perOutput pt =>
    obtain ⟨⟨r, c'⟩, e1, e2⟩ := bind_ok_iff.1 e
    cases e2
    exact (fresh_perOutput hc e1).1

/-! ### The properties -/

/-- C68: equality of action lists, of instructions, of matches and of rules is reflexive, symmetric and transitive. -/
theorem C68_equivalence {π : Type} :
    Equivalence (fun a b : ActionList => a.eq b = true) ∧ Equivalence (fun a b : Inst => a.eq b = true) ∧
    Equivalence (fun a b : {m : Match // m.Inv} => a.1.eq b.1 = true) ∧
    Equivalence (fun a b : {r : Rule π // r.mat.Inv} => a.1.eq b.1 = true) := by
  have hA : Equivalence (fun a b : ActionList => a.eq b = true) := by
    refine ⟨fun a => actionEq_iff.2 ⟨rfl, rfl⟩, fun {a b} h => ?_, fun {a b c} h g => ?_⟩
    · have := actionEq_iff.1 h; exact actionEq_iff.2 ⟨this.1.symm, this.2.symm⟩
    · have h := actionEq_iff.1 h
      have g := actionEq_iff.1 g
      exact actionEq_iff.2 ⟨h.1.trans g.1, h.2.trans g.2⟩
  have hI : Equivalence (fun a b : Inst => a.eq b = true) := by
    refine ⟨fun a => instEq_iff.2 ⟨rfl, rfl, rfl, hA.1 _, hA.1 _, rfl⟩, fun {a b} h => ?_, fun {a b c} h g => ?_⟩
    · obtain ⟨h1, h2, h3, h4, h5, h6⟩ := instEq_iff.1 h
      exact instEq_iff.2 ⟨h1.symm, h2.symm, h3.symm, hA.2 h4, hA.2 h5, h6.symm⟩
    · obtain ⟨h1, h2, h3, h4, h5, h6⟩ := instEq_iff.1 h
      obtain ⟨g1, g2, g3, g4, g5, g6⟩ := instEq_iff.1 g
      exact instEq_iff.2 ⟨h1.trans g1, h2.trans g2, h3.trans g3, hA.3 h4 g4, hA.3 h5 g5, h6.trans g6⟩
  have hM : Equivalence (fun a b : {m : Match // m.Inv} => a.1.eq b.1 = true) := by
    refine ⟨fun a => (matchEq_iff a.2 a.2).2 fun _ => rfl, fun {a b} h => ?_, fun {a b c} h g => ?_⟩
    · exact (matchEq_iff b.2 a.2).2 fun k => ((matchEq_iff a.2 b.2).1 h k).symm
    · exact (matchEq_iff a.2 c.2).2 fun k => ((matchEq_iff a.2 b.2).1 h k).trans ((matchEq_iff b.2 c.2).1 g k)
  refine ⟨hA, hI, hM, fun a => ruleEq_iff.2 ⟨rfl, rfl, hM.1 ⟨_, a.2⟩, hI.1 _, rfl⟩, fun {a b} h => ?_, fun {a b c} h g => ?_⟩
  · obtain ⟨h1, h2, h3, h4, h5⟩ := ruleEq_iff.1 h
    exact ruleEq_iff.2 ⟨h1.symm, h2.symm, hM.2 (x := ⟨_, a.2⟩) (y := ⟨_, b.2⟩) h3, hI.2 h4, h5.symm⟩
  · obtain ⟨h1, h2, h3, h4, h5⟩ := ruleEq_iff.1 h
    obtain ⟨g1, g2, g3, g4, g5⟩ := ruleEq_iff.1 g
    exact ruleEq_iff.2 ⟨h1.trans g1, h2.trans g2, hM.3 (x := ⟨_, a.2⟩) (y := ⟨_, b.2⟩) (z := ⟨_, c.2⟩) h3 g3, hI.3 h4 g4, h5.trans g5⟩

/-- Two matches on the same fields, filled in the other order. -/
def eqA : Match := (Match.empty.append 3 0x11 none).append 6 0x1005 none
/-- Two matches on the same fields, filled in the other order. -/
def eqB : Match := (Match.empty.append 6 0x1005 none).append 3 0x11 none

example : eqA.Inv ∧ eqB.Inv ∧ eqA ≠ eqB ∧ eqA.eq eqB = true ∧ eqA.eq (eqB.append 6 0x1006 none) = false :=
  ⟨inv_append (inv_append inv_empty _ _ _) _ _ _, inv_append (inv_append inv_empty _ _ _) _ _ _, by decide, by decide, by decide⟩

/-- C68: whatever python's hash functions are, equal action lists, equal instructions, equal matches and equal rules have equal hashes.
If a field has no place in the header (its wildcard cannot be built), asking for the hash raises the same exception for both. -/
theorem C68_hash {π : Type} (h : Hashes) :
    (∀ a b : ActionList, a.eq b = true → a.hashOf h = b.hashOf h) ∧
    (∀ a b : Inst, a.eq b = true → a.hashOf = b.hashOf) ∧
    (∀ a b : Match, a.Inv → b.Inv → a.eq b = true → a.hashOf h = b.hashOf h) ∧
    (∀ a b : Rule π, a.mat.Inv → b.mat.Inv → a.eq b = true → a.hashOf h = b.hashOf h) := by
  have hM : ∀ a b : Match, a.Inv → b.Inv → a.eq b = true → a.hashOf h = b.hashOf h := by
    intro a b ha hb he
    rw [matchHash_eq h ha, matchHash_eq h hb, toWildcard_congr ha.nodup hb.nodup (matchEq_mem ha hb he)]
  refine ⟨fun a b he => ?_, fun _ _ _ => rfl, hM, fun a b ha hb he => ?_⟩
  · unfold ActionList.hashOf
    rw [(actionEq_iff.1 he).2]
  · obtain ⟨h1, h2, h3, -, h5⟩ := ruleEq_iff.1 he
    unfold Rule.hashOf
    rw [h1, h2, h5, hM _ _ ha hb h3]
    rfl

/-- C68: a rule on known fields has a hash, and it does not depend on what was cached: the match whose wildcard was asked for before
and the one filled from scratch have the hash of the wildcard that describes the match. -/
theorem C68_hash_value (h : Hashes) (m : Match) (hm : m.Inv) (hk : ∀ x ∈ m.items, x.1 < 56) :
    ∃ w, m.hashOf h = .ok (h.nat w) ∧ WcValid totBits w ∧ ∀ p, Covers totBits w p ↔ MatchesAll m.items p := by
  obtain ⟨w, e, -⟩ := toWildcard_ok hk
  refine ⟨w, by rw [matchHash_eq h hm, e]; rfl, toWildcard_valid hk hm.nodup e, covers_toWildcard hk e⟩

/-- Two rules equal to `==`, with matches and actions filled in different orders. -/
def eqRuleA : Rule Nat :=
  ⟨10, some 7, 0, eqA, ⟨some 2, ⟨[[.setField 3 1, .setField 4 2], [.output 1]], [.setField 4 2, .setField 3 1, .output 1]⟩,
    ⟨[[.setQueue 3]], [.setQueue 3]⟩, none, false, none⟩, [1]⟩
/-- Two rules equal to `==`, with matches and actions filled in different orders. -/
def eqRuleB : Rule Nat :=
  ⟨10, some 7, 0, eqB, ⟨some 2, ⟨[[.setField 3 1, .setField 4 2], [.output 1]], [.setField 3 1, .setField 4 2, .output 1]⟩,
    ⟨[[.setQueue 3]], [.setQueue 3]⟩, none, false, none⟩, [2]⟩

example : ActionList.ofList [.setField 4 2, .setField 3 1, .output 1] = .ok eqRuleA.inst.apply ∧
    ActionList.ofList [.setField 3 1, .setField 4 2, .output 1] = .ok eqRuleB.inst.apply ∧ eqRuleA.eq eqRuleB = true ∧
    eqRuleA.mat.Inv ∧ eqRuleB.mat.Inv :=
  ⟨by decide +kernel, by decide +kernel, by decide +kernel, inv_append (inv_append inv_empty _ _ _) _ _ _,
    inv_append (inv_append inv_empty _ _ _) _ _ _⟩

/-- C68: equal rules stand in the same place of the same table, accept the same packets, and do the same to every switch state: the same
packet, the same copies sent, the same writes into the action set, the same next table and meter. -/
theorem C68_same {π : Type} (a b : Rule π) (ha : a.mat.Inv) (hb : b.mat.Inv) (h : a.eq b = true) :
    a.table = b.table ∧ a.priority = b.priority ∧ (∀ p : Pkt, a.mat.accepts p ↔ b.mat.accepts p) ∧
    (∀ s, a.inst.run s = b.inst.run s) ∧ a.inst.goto = b.inst.goto ∧ a.inst.meter = b.inst.meter := by
  obtain ⟨h1, -, h3, h4, h5⟩ := ruleEq_iff.1 h
  obtain ⟨g1, g2, g3, g4, g5, g6⟩ := instEq_iff.1 h4
  refine ⟨h5, h1, fun p => matchesAll_congr (matchEq_mem ha hb h3) _, fun s => ?_, g1, g6⟩
  unfold Inst.run Inst.forward
  rw [(actionEq_iff.1 g4).2, (actionEq_iff.1 g5).2, g2, g3]

/-- C68: however an action list or an action set came to be — appending, removing, replacing, copying with and without changes, with
hashes and per-output actions asked for at any moment in between and caches copied along — the hash it reports is the hash of the actions
it holds now, and the per-output actions it reports are those of the actions it holds now. -/
theorem C68_cache (h : Hashes) (isSet : Bool) (ops : List ListOp) (c : Cached) (e : Cached.runOps h isSet ops = .ok c) :
    (c.hash h).1 = h.tuple (c.list.iter.map h.action) ∧
    ∀ pt r d, c.perOutput pt = .ok (r, d) → ∃ v, (if pt then c.list.perOutputPt else c.list.perOutput) = .ok v ∧ r = some v := by
  have hc : c.Fresh h := fresh_foldlM (fun _ _ _ => fresh_step) ops (fresh_clear h _) e
  refine ⟨(fresh_hash hc).2.1, fun pt r d e => ?_⟩
  obtain ⟨-, -, v, h1, h2⟩ := fresh_perOutput hc e
  refine ⟨_, ?_, h2⟩
  cases pt with
  | true => exact h1
  | false => simp only [ActionList.perOutput, h1]; rfl

/-- C68: asking for the hash or for the per-output actions changes nothing that can be seen: not the actions, and not what is answered
afterwards. -/
theorem C68_cache_reads (h : Hashes) (isSet : Bool) (ops : List ListOp) (c d : Cached) (op : ListOp)
    (hop : op = .hash ∨ ∃ pt, op = .perOutput pt) (e : Cached.runOps h isSet ops = .ok c) (e2 : c.step h isSet op = .ok d) :
    d.list = c.list ∧ (d.hash h).1 = (c.hash h).1 ∧ ∀ pt, (d.perOutput pt).map (·.1) = (c.perOutput pt).map (·.1) := by
  have hc : c.Fresh h := fresh_foldlM (fun _ _ _ => fresh_step) ops (fresh_clear h _) e
  have hd := fresh_step hc e2
  have hl : d.list = c.list := by
    rcases hop with rfl | ⟨pt, rfl⟩
    · cases e2; exact (fresh_hash hc).2.2
    · obtain ⟨⟨r, c'⟩, e1, e3⟩ := bind_ok_iff.1 e2
      cases e3
      exact (fresh_perOutput hc e1).2.1
  refine ⟨hl, by rw [(fresh_hash hd).2.1, (fresh_hash hc).2.1, hl], fun pt => ?_⟩
  have key : ∀ x : Cached, x.Fresh h →
      (x.perOutput pt).map (·.1) = x.list.perOutputPt.map fun v => some (if pt then v else dictDel .pass v) := by
    intro x hx
    cases hr : x.perOutput pt with
    | ok y =>
      obtain ⟨-, -, v, h1, h2⟩ := fresh_perOutput hx (r := y.1) (d := y.2) hr
      rw [h1]
      show Except.ok y.1 = _
      rw [h2]
      rfl
    | error err =>
      unfold Cached.perOutput Cached.fill at hr
      cases hp : x.per with
      | some v => rw [hp] at hr; cases hr
      | none =>
        rw [hp] at hr
        cases hq : x.list.perOutputPt with
        | error e' => rw [hq] at hr; cases hr; rfl
        | ok v => rw [hq] at hr; cases hr
  rw [key d hd, key c hc, hl]

/-- Toy hashes for the example. -/
def toyHashes : Hashes := ⟨fun n => n, -1, fun l => l.foldl (fun a x => 31 * a + x) 7, fun a => a.ty⟩

/-- The list is hashed, copied, changed, asked again, and so on. -/
def eqOps : List ListOp :=
  [.append (.setField 3 1), .append (.output 1), .hash, .perOutput true, .dup, .append (.setNwTtl 4), .hash, .copy [.output 2] [.output 1],
    .hash, .perOutput false, .remove (.setField 3 1), .hash]

example : (Cached.runOps toyHashes false eqOps).map (fun c => (c.list.orig, c.memo.isSome)) = .ok ([.setNwTtl 4, .output 2], true) := by
  decide +kernel
example : (Cached.runOps toyHashes true eqOps).isOk = true := by decide +kernel

end OFE
