import Verif.Store.Args

/-! # C94: calls that are refused change nothing -/

namespace OFE.Args

/-! ### Specification -/

/-- Specification: a branch may be a node, a termination, None or left out. -/
def BranchOK : Option Val → Prop
  | none => True
  | some .none => True
  | some (.node _) => True
  | some _ => False

/-- Specification: a number that fits 64 bits. -/
def LongOK : Val → Prop
  | .int n => -9223372036854775808 ≤ n ∧ n < 9223372036854775808
  | _ => False

/-- Specification: the branch that an argument stands for. -/
inductive Branch : Option Val → Option Nat → Prop where
  | absent : Branch none none
  | null : Branch (some .none) none
  | node (a) : Branch (some (.node a)) (some a)

/-- Specification: `has_none` is true iff a branch is missing or its `has_none` is true. -/
def NoneRight (heap : Nat → NodeObj) (x : NodeObj) : Prop :=
  x.hasNone ≠ 0 ↔ (∀ a, x.zero = some a → (heap a).hasNone ≠ 0) ∨ (∀ a, x.one = some a → (heap a).hasNone ≠ 0)

/-! ### Lemmas -/

theorem parseLong_ok {v : Val} : LongOK v ↔ ∃ n, parseLong v = .ok n ∧ v = .int n := by
  cases v with
  | int n =>
    simp only [LongOK, parseLong]
    constructor
    · intro h; exact ⟨n, if_pos (by omega), rfl⟩
    · rintro ⟨m, h, h2⟩
      split at h
      · omega
      · cases h
  | _ => simp [LongOK, parseLong]

theorem parseLong_err {v : Val} (h : ¬ LongOK v) : ∃ e, parseLong v = .error e := by
  cases hv : parseLong v with
  | error e => exact ⟨e, rfl⟩
  | ok n =>
    cases v with
    | int m =>
      refine absurd ?_ h
      simp only [parseLong] at hv
      simp only [LongOK]
      split at hv
      · omega
      · cases hv
    | _ => simp [parseLong] at hv

theorem orChar_ne (a b : Int) : orChar a b ≠ 0 ↔ a ≠ 0 ∨ b ≠ 0 := by
  unfold orChar
  split
  · rename_i h; simp; omega
  · split
    · rename_i h; simp [h]
    · rename_i h; simp; omega

theorem branch_new {v : Option Val} (h : BranchOK v) :
    ∃ r, setBranch (noneToNull v) none = some r ∧ argAddr (noneToNull v) = r ∧ Branch v r := by
  match v, h with
  | none, _ => exact ⟨none, rfl, rfl, .absent⟩
  | some .none, _ => exact ⟨none, rfl, rfl, .null⟩
  | some (.node a), _ => exact ⟨some a, rfl, rfl, .node a⟩

theorem branch_bad {v : Option Val} (h : ¬ BranchOK v) (old : Option Nat) : setBranch (noneToNull v) old = none := by
  match v with
  | none => exact absurd trivial h
  | some .none => exact absurd trivial h
  | some (.node a) => exact absurd trivial h
  | some (.int n) => rfl
  | some (.other a) => rfl

theorem branch_any {v : Option Val} (h : BranchOK v) (old : Option Nat) : ∃ r, setBranch (noneToNull v) old = some r := by
  match v, h with
  | none, _ => exact ⟨old, rfl⟩
  | some .none, _ => exact ⟨old, rfl⟩
  | some (.node a), _ => exact ⟨some a, rfl⟩

theorem noneOf_ne (heap : Nat → NodeObj) (r : Option Nat) : noneOf heap r ≠ 0 ↔ ∀ a, r = some a → (heap a).hasNone ≠ 0 := by
  cases r with
  | none => simp [noneOf]
  | some a => simp [noneOf]

/-! ### C94 -/

/-- C94: `BDDNode(num, zero, one)` is refused exactly if num is no number of 64 bits or a branch is neither a node nor None, and otherwise has the
values that were given and the right `has_none`. -/
theorem C94_node_call (heap : Nat → NodeObj) (num : Val) (zero one : Option Val) :
    ((∃ e, nodeCall heap num zero one = .error e) ↔ ¬ (LongOK num ∧ BranchOK zero ∧ BranchOK one)) ∧
    ∀ x, nodeCall heap num zero one = .ok x → num = .int x.num ∧ Branch zero x.zero ∧ Branch one x.one ∧ NoneRight heap x := by
  by_cases hn : LongOK num
  · obtain ⟨n, hp, rfl⟩ := parseLong_ok.1 hn
    by_cases hz : BranchOK zero
    · obtain ⟨z, z1, z2, z3⟩ := branch_new hz
      by_cases ho : BranchOK one
      · obtain ⟨o, o1, o2, o3⟩ := branch_new ho
        have e : nodeCall heap (.int n) zero one = .ok ⟨n, z, o, orChar (noneOf heap z) (noneOf heap o)⟩ := by
          simp [nodeCall, nodeInit, hp, nodeNew, z1, o1, z2, o2]
        rw [e]
        refine ⟨⟨fun ⟨_, h⟩ => by simp at h, fun h => absurd ⟨hn, hz, ho⟩ h⟩, fun x hx => ?_⟩
        cases hx
        refine ⟨rfl, z3, o3, ?_⟩
        simp only [NoneRight, orChar_ne, noneOf_ne]
      · have e : nodeCall heap (.int n) zero one = .error .systemError := by
          simp [nodeCall, nodeInit, hp, nodeNew, z1, branch_bad ho]
        rw [e]
        exact ⟨⟨fun _ h => ho h.2.2, fun _ => ⟨_, rfl⟩⟩, fun x hx => by cases hx⟩
    · have e : nodeCall heap (.int n) zero one = .error .systemError := by
        simp [nodeCall, nodeInit, hp, nodeNew, branch_bad hz]
      rw [e]
      exact ⟨⟨fun _ h => hz h.2.1, fun _ => ⟨_, rfl⟩⟩, fun x hx => by cases hx⟩
  · obtain ⟨er, hp⟩ := parseLong_err hn
    have e : nodeCall heap num zero one = .error er := by simp [nodeCall, nodeInit, hp]
    rw [e]
    exact ⟨⟨fun _ h => hn h.1, fun _ => ⟨_, rfl⟩⟩, fun x hx => by cases hx⟩

/-- C94 for `n.__init__(…)` on a node that exists: it raises exactly if an argument is wrong, and then leaves it as it was.
Missing: where zero is right and one is wrong, zero has changed (`C94_half`); what is accepted can leave `has_none` wrong (`C94_again`). -/
theorem C94_node_init_partial (heap : Nat → NodeObj) (self : NodeObj) (num : Val) (zero one : Option Val) :
    ((nodeInit heap self num zero one).1 ≠ none ↔ ¬ (LongOK num ∧ BranchOK zero ∧ BranchOK one)) ∧
    (¬ (LongOK num ∧ BranchOK zero) ∨ (¬ BranchOK one ∧ (zero = none ∨ zero = some .none)) → (nodeInit heap self num zero one).2 = self) := by
  by_cases hn : LongOK num
  · obtain ⟨n, hp, rfl⟩ := parseLong_ok.1 hn
    by_cases hz : BranchOK zero
    · obtain ⟨z, z1⟩ := branch_any hz self.zero
      by_cases ho : BranchOK one
      · obtain ⟨o, o1⟩ := branch_any ho self.one
        simp [nodeInit, hp, z1, o1, hn, hz, ho]
      · refine ⟨by simp [nodeInit, hp, z1, branch_bad ho, ho], ?_⟩
        rintro (h | ⟨-, rfl | rfl⟩)
        · exact absurd ⟨hn, hz⟩ h
        · have e : setBranch (noneToNull none) self.zero = some self.zero := rfl
          simp [nodeInit, hp, branch_bad ho, e]
        · have e : setBranch (noneToNull (some .none)) self.zero = some self.zero := rfl
          simp [nodeInit, hp, branch_bad ho, e]
    · simp [nodeInit, hp, branch_bad hz, hn, hz]
  · obtain ⟨er, hp⟩ := parseLong_err hn
    simp [nodeInit, hp, hn]

/-- C94 fails for a node that exists: `n.__init__(5, m, 3)` raises, and not an exception of its own, but n has the new branch. -/
theorem C94_half (heap : Nat → NodeObj) : ∃ self num zero one, (nodeInit heap self num zero one).1 = some .systemError ∧
    (nodeInit heap self num zero one).2 ≠ self :=
  ⟨⟨1, some 10, some 11, 0⟩, .int 5, some (.node 12), some (.int 3), rfl, by simp [nodeInit, parseLong, noneToNull, setBranch]⟩

/-- C94 fails for what is accepted: `n.__init__(5)` keeps the branches of n and says that they have a missing one. -/
theorem C94_again : ∃ (heap : Nat → NodeObj) (self : NodeObj), NoneRight heap self ∧ (nodeInit heap self (.int 5) none none).1 = none ∧
    ¬ NoneRight heap (nodeInit heap self (.int 5) none none).2 := by
  refine ⟨fun _ => ⟨1, none, none, 0⟩, ⟨1, some 10, some 11, 0⟩, ?_, rfl, ?_⟩
  · simp [NoneRight]
  · simp [NoneRight, nodeInit, parseLong, noneToNull, setBranch, argAddr, noneOf, orChar]

/-- C94: `BDDTermination(action, friendly)` takes two values of any kind; other numbers of arguments raise TypeError and change nothing. -/
theorem C94_term (self : TermObj) (args : List Val) :
    (args.length ≠ 2 → termInit self args = (some .typeError, self)) ∧
    ∀ a f, args = [a, f] → termInit self args = (none, ⟨some a, some f⟩) := by
  refine ⟨fun h => ?_, fun a f h => by rw [h]; rfl⟩
  match args with
  | [] => rfl
  | [_] => rfl
  | [_, _] => exact absurd rfl h
  | _ :: _ :: _ :: _ => rfl

/-- C94 for set_cleanup_threshold: it raises exactly if there is not one number of 64 bits that is not negative; a threshold that is accepted is set, and what is no
such number leaves the old one.  Missing: negative numbers, which raise and are set nevertheless (`C94_negative`). -/
theorem C94_threshold_partial (old : Int) (args : List Val) :
    ((setThreshold old args).1 = none ↔ ∃ n : Int, args = [.int n] ∧ 0 ≤ n ∧ n < 9223372036854775808) ∧
    (∀ n : Int, args = [.int n] → (setThreshold old args).1 = none → (setThreshold old args).2 = n) ∧
    ((setThreshold old args).1 ≠ none → (∀ n : Int, n < 0 → args ≠ [.int n]) → (setThreshold old args).2 = old) := by
  match args with
  | [] => simp [setThreshold]
  | _ :: _ :: _ => simp [setThreshold]
  | [v] =>
    by_cases hv : LongOK v
    · obtain ⟨n, hp, rfl⟩ := parseLong_ok.1 hv
      simp only [LongOK] at hv
      by_cases h0 : n < 0
      · simp only [setThreshold, hp, h0, if_true]
        refine ⟨by simp; omega, by simp, fun _ h => absurd rfl (h n h0)⟩
      · simp only [setThreshold, hp, h0, if_false]
        refine ⟨by simp; omega, fun m h _ => by simpa using h, by simp⟩
    · obtain ⟨e, hp⟩ := parseLong_err hv
      simp only [setThreshold, hp]
      refine ⟨⟨by simp, ?_⟩, by simp, by simp⟩
      rintro ⟨n, h, h1, h2⟩
      simp only [List.cons.injEq, and_true] at h
      subst h
      exact absurd (by simp only [LongOK]; omega) hv

/-- C94 fails: a negative threshold raises ValueError and is set; from then on every operation cleans the table, whatever its size. -/
theorem C94_negative (old n : Int) (h : n < 0) (hn : -9223372036854775808 ≤ n) :
    setThreshold old [.int n] = (some .valueError, n) ∧ ∀ size, cleans n size = true := by
  have hp : parseLong (.int n) = .ok n := by simp only [parseLong]; exact if_pos (by omega)
  refine ⟨by simp [setThreshold, hp, h], fun size => ?_⟩
  simp only [cleans, Bool.and_eq_true, bne_iff_ne, decide_eq_true_eq]
  omega

/-- C94: a threshold that was accepted: 0 switches cleaning off, otherwise a table of more nodes is cleaned and a smaller one is not. -/
theorem C94_cleans (old n : Int) (h : (setThreshold old [.int n]).1 = none) (size : Nat) :
    cleans (setThreshold old [.int n]).2 size = true ↔ n ≠ 0 ∧ n < size := by
  rw [(C94_threshold_partial old [.int n]).2.1 n rfl h]
  simp [cleans]

/-- C94: the functions on diagrams refuse what is neither a diagram nor None with TypeError, before anything is cleaned or built. -/
theorem C94_ops {σ : Type} (go : Option Nat → Option Nat → σ → Option Nat × σ) (clean : σ → σ) (args : List Val) (s : σ) :
    ((∀ a b, args = [a, b] → ¬ (BranchOK (some a) ∧ BranchOK (some b))) → opCall go clean args s = (.error .typeError, s)) ∧
    ∀ a b x y, args = [a, b] → Branch (some a) x → Branch (some b) y → opCall go clean args s = (.ok (go x y (clean s)).1, (go x y (clean s)).2) := by
  constructor
  · intro h
    match args with
    | [] => rfl
    | [_] => rfl
    | _ :: _ :: _ :: _ => rfl
    | [a, b] =>
      have := h a b rfl
      cases a <;> cases b <;> first | rfl | exact absurd ⟨trivial, trivial⟩ this
  · rintro a b x y rfl ha hb
    cases ha <;> cases hb <;> rfl

/-- A heap whose even addresses are complete nodes. -/
def someHeap : Nat → NodeObj := fun a => ⟨7, none, none, if a % 2 = 0 then 0 else 1⟩

example : nodeCall someHeap (.int 5) (some (.node 4)) (some (.node 6)) = .ok ⟨5, some 4, some 6, 0⟩ ∧
    nodeCall someHeap (.int 5) (some (.node 4)) none = .ok ⟨5, some 4, none, 1⟩ ∧
    nodeCall someHeap (.int 5) (some (.node 4)) (some (.int 6)) = .error .systemError ∧
    nodeCall someHeap (.other 5) none none = .error .typeError := ⟨rfl, rfl, rfl, rfl⟩
example : (nodeInit someHeap ⟨1, some 2, none, 1⟩ (.int 5) (some .none) (some (.int 3))).2 = ⟨1, some 2, none, 1⟩ := rfl
example : setThreshold 9 [.int 1000] = (none, 1000) ∧ setThreshold 9 [.node 3] = (some .typeError, 9) ∧
    setThreshold 9 [.int (-4)] = (some .valueError, -4) := ⟨rfl, rfl, rfl⟩
example : cleans 1000 1001 = true ∧ cleans 1000 1000 = false ∧ cleans 0 1001 = false := by decide
example : opCall (fun a _ (n : Nat) => (a, n + 1)) (fun n => 2 * n) [.node 4, .none] 7 = (.ok (some 4), 15) ∧
    opCall (fun a _ (n : Nat) => (a, n + 1)) (fun n => 2 * n) [.node 4, .int 3] 7 = (.error .typeError, 7) := ⟨rfl, rfl⟩

end OFE.Args
