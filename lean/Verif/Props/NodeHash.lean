import Verif.Store.Hash

/-! # C91: hashes of diagram nodes agree with equality -/

namespace OFE.NodeHash

variable {α φ : Type}

/-! ### Specification -/

/-- Specification: equal objects have the same hash. -/
def Agree {β η : Type} (P : β → Prop) (eq : β → β → Bool) (hash : β → η) : Prop := ∀ a b, P a → P b → eq a b = true → hash a = hash b

/-- Specification: what python asks of objects: equal ones are both unhashable or have the same hash, which is not -1. -/
structure Proper (o : PyObj α φ) : Prop where
  agree : ∀ a b, o.eq a b = true → o.hash a = o.hash b
  notErr : ∀ a h, o.hash a = some h → BitVec.ofInt 64 h ≠ -1#64

/-- Specification: a number that diagrams of fewer than 10^12 bits have. -/
def PyNode.Small : PyNode α φ → Prop
  | .node n _ _ => n < 1000000000000
  | .term _ _ => True

/-- Specification: as `PyNode.Small`, and the action of a termination can be hashed. -/
def PyNode.Hashable (o : PyObj α φ) : PyNode α φ → Prop
  | .node n _ _ => n < 1000000000000
  | .term a _ => (o.hash a).isSome

/-- Specification: a number that diagrams of fewer than 10^12 bits have. -/
def CxxNode.Small : CxxNode α φ → Prop
  | .node n _ _ => n.toInt < 1000000000000
  | .term _ _ => True

/-! ### Lemmas -/

theorem find_some {β η : Type} [DecidableEq η] {eq : β → β → Bool} {hash : β → η} {tab : List (η × β)} {key x : β}
    (h : find eq hash tab key = some x) : (∃ e ∈ tab, e.2 = x) ∧ eq x key = true := by
  simp only [find, Option.map_eq_some_iff] at h
  obtain ⟨e, he, rfl⟩ := h
  have h1 := List.find?_some he
  rw [Bool.and_eq_true] at h1
  exact ⟨⟨e, List.mem_of_find?_eq_some he, rfl⟩, h1.2⟩

theorem find_none {β η : Type} [DecidableEq η] {eq : β → β → Bool} {hash : β → η} {tab : List (η × β)} {key : β}
    (h : find eq hash tab key = none) : ∀ e ∈ tab, e.1 = hash key → eq e.2 key = false := by
  simp only [find, Option.map_eq_none_iff, List.find?_eq_none] at h
  intro e he h1
  have := h e he
  simpa [h1] using this

/-- What the table looks like if hashes agree with equality. -/
structure TabOK {β η : Type} (P : β → Prop) (eq : β → β → Bool) (hash : β → η) (tab : List (η × β)) : Prop where
  own : ∀ e ∈ tab, e.1 = hash e.2 ∧ P e.2
  once : tab.Pairwise fun e e' => eq e.2 e'.2 = false

theorem TabOK.intern {β η : Type} [DecidableEq η] {P : β → Prop} {eq : β → β → Bool} {hash : β → η} (ha : Agree P eq hash)
    {tab : List (η × β)} (h : TabOK P eq hash tab) {key : β} (hk : P key) : TabOK P eq hash (NodeHash.intern eq hash tab key).2 := by
  unfold NodeHash.intern
  cases hf : find eq hash tab key with
  | some x => exact h
  | none =>
    refine ⟨?_, ?_⟩
    · intro e he
      rcases List.mem_append.1 he with he | he
      · exact h.own e he
      · rw [List.mem_singleton.1 he]; exact ⟨rfl, hk⟩
    · rw [List.pairwise_append]
      refine ⟨h.once, by simp, fun e he e' he' => ?_⟩
      rw [List.mem_singleton.1 he']
      by_cases h1 : e.1 = hash key
      · exact find_none hf e he h1
      · rw [← Bool.not_eq_true]
        intro h2
        exact h1 ((h.own e he).1.trans (ha _ _ (h.own e he).2 hk h2))

theorem TabOK.internAll {β η : Type} [DecidableEq η] {P : β → Prop} {eq : β → β → Bool} {hash : β → η} (ha : Agree P eq hash) :
    ∀ (keys : List β) (tab : List (η × β)), TabOK P eq hash tab → (∀ k ∈ keys, P k) →
      TabOK P eq hash (keys.foldl (fun tab key => (NodeHash.intern eq hash tab key).2) tab)
  | [], _, h, _ => h
  | k :: keys, tab, h, hk => by
    rw [List.foldl_cons]
    exact TabOK.internAll ha keys _ (h.intern ha (hk k (by simp))) fun k' h' => hk k' (by simp [h'])

/-! ### C91 -/

/-- C91: in a table into which objects whose hashes agree with equality were put, an equal object is found if there is one, and no two are equal. -/
theorem C91_table {β η : Type} [DecidableEq η] (P : β → Prop) (eq : β → β → Bool) (hash : β → η) (ha : Agree P eq hash) (keys : List β)
    (hk : ∀ k ∈ keys, P k) :
    ((internAll eq hash keys).map (·.2)).Pairwise (fun a b => eq a b = false) ∧
    ∀ key, P key → (∃ k ∈ (internAll eq hash keys).map (·.2), eq k key = true) →
      ∃ k ∈ (internAll eq hash keys).map (·.2), eq k key = true ∧ intern eq hash (internAll eq hash keys) key = (k, internAll eq hash keys) := by
  have h : TabOK P eq hash (internAll eq hash keys) := TabOK.internAll ha keys [] ⟨by simp, by simp⟩ hk
  refine ⟨by rw [List.pairwise_map]; exact h.once, ?_⟩
  rintro key hkey ⟨k, hm, he⟩
  obtain ⟨e, hem, rfl⟩ := List.mem_map.1 hm
  cases hf : find eq hash (internAll eq hash keys) key with
  | none =>
    have := find_none hf e hem ((h.own e hem).1.trans (ha _ _ (h.own e hem).2 hkey he))
    rw [he] at this; cases this
  | some x =>
    obtain ⟨⟨e', he', rfl⟩, h2⟩ := find_some hf
    exact ⟨e'.2, List.mem_map.2 ⟨e', he', rfl⟩, h2, by simp [intern, hf]⟩

/-- C91 for C++: equal nodes have the same hash.  Missing: nodes with the number of terminations (`C91_big`) and actions that are equal although only one
of them can be hashed (`C91_mixed`). -/
theorem C91_cxx_partial (o : PyObj α φ) (ho : Proper o) : Agree CxxNode.Small (cxxEq o) (cxxHash o) := by
  have big : cxxTermNum.toInt = 1000000000000 := by decide
  rintro (⟨n, z, e⟩ | ⟨a, f⟩) (⟨n', z', e'⟩ | ⟨b, g⟩) ha hb h
  · simp only [cxxEq, CxxNode.base, Bool.and_eq_true, beq_iff_eq] at h
    obtain ⟨⟨rfl, rfl⟩, rfl⟩ := h
    rfl
  · simp only [cxxEq, CxxNode.base, Bool.and_eq_true, beq_iff_eq] at h
    have h1 : n.toInt < 1000000000000 := ha
    rw [h.1.1, big] at h1
    exact absurd h1 (by omega)
  · simp only [cxxEq, CxxNode.base, Bool.and_eq_true, beq_iff_eq] at h
    have h1 : n'.toInt < 1000000000000 := hb
    rw [← h.1.1, big] at h1
    exact absurd h1 (by omega)
  · simp only [cxxHash, termHash, ho.agree a b h]

/-- C91: no hash of the C++ module is -1. -/
theorem C91_never_error (o : PyObj α φ) (x : CxxNode α φ) : cxxHash o x ≠ -1#64 := by
  have key : ∀ y : BitVec 64, longHash y ≠ -1#64 := by
    intro y
    unfold longHash
    split
    · decide
    · assumption
  cases x with
  | node n z e =>
    simp only [cxxHash, nodeHash]
    exact key _
  | term a f =>
    simp only [cxxHash, termHash]
    split
    · assumption
    · decide

/-- C91: where an action can be hashed, its hash is used; where it cannot, the hash is 0 in C++ whatever the friendly name is. -/
theorem C91_cxx_value (o : PyObj α φ) (ho : Proper o) (a : α) (f : φ) :
    cxxHash o (.term a f) = BitVec.ofInt 64 ((o.hash a).getD 0) := by
  simp only [cxxHash, termHash, cHash]
  cases h : o.hash a with
  | none => simp
  | some v =>
    have := ho.notErr a v h
    exact if_pos this

/-- C91 for bdd.py: equal nodes have the same hash.  Missing: actions that cannot be hashed (`C91_unhashable`) and the number of terminations. -/
theorem C91_python_partial (o : PyObj α φ) (ho : Proper o) (none : Nat) (tuple : Int → Nat → Nat → Int) :
    Agree (PyNode.Hashable o) (pyEq o none) (pyHash o tuple) := by
  rintro (⟨n, z, e⟩ | ⟨a, f⟩) (⟨n', z', e'⟩ | ⟨b, g⟩) ha hb h
  · simp only [pyEq, Bool.and_eq_true, beq_iff_eq] at h
    obtain ⟨⟨rfl, rfl⟩, rfl⟩ := h
    rfl
  · simp only [pyEq, Bool.and_eq_true, beq_iff_eq, termNumH] at h
    have h1 : n < 1000000000000 := ha
    omega
  · cases h
  · obtain ⟨v, hv⟩ := Option.isSome_iff_exists.1 ha
    have hw : o.hash b = some v := (ho.agree a b h).symm.trans hv
    simp [pyHash, hv, hw]

/-- C91 for bdd.py, also for actions that cannot be hashed: it holds where equal actions have friendly names with equal hashes. -/
theorem C91_python_friendly_partial (o : PyObj α φ) (ho : Proper o) (none : Nat) (tuple : Int → Nat → Nat → Int) (friendly : α → φ)
    (hf : ∀ a b, o.eq a b = true → o.fhash (friendly a) = o.fhash (friendly b)) :
    Agree (fun x => x.Small ∧ ∀ a f, x = .term a f → f = friendly a) (pyEq o none) (pyHash o tuple) := by
  rintro (⟨n, z, e⟩ | ⟨a, f⟩) (⟨n', z', e'⟩ | ⟨b, g⟩) ⟨ha, ha'⟩ ⟨hb, hb'⟩ h
  · simp only [pyEq, Bool.and_eq_true, beq_iff_eq] at h
    obtain ⟨⟨rfl, rfl⟩, rfl⟩ := h
    rfl
  · simp only [pyEq, Bool.and_eq_true, beq_iff_eq, termNumH] at h
    have h1 : n < 1000000000000 := ha
    omega
  · cases h
  · have e1 := ha' a f rfl
    have e2 := hb' b g rfl
    subst e1 e2
    simp only [pyHash, ho.agree a b h, hf a b h]

/-- Lists, which cannot be hashed, with a friendly name. -/
def lists : PyObj (List Nat) Bool := ⟨fun a b => a == b, fun _ => none, fun f => some (if f then 1 else 2)⟩

theorem lists_proper : Proper lists := ⟨fun _ _ _ => rfl, fun _ _ h => by simp [lists] at h⟩

/-- C91 fails in bdd.py for actions that cannot be hashed: two equal terminations with different friendly names are both put into the table.
In C++ there is one. -/
theorem C91_unhashable (tuple : Int → Nat → Nat → Int) :
    ∃ a b : PyNode (List Nat) Bool, pyEq lists 0 a b = true ∧ pyHash lists tuple a ≠ pyHash lists tuple b ∧
      (internAll (pyEq lists 0) (pyHash lists tuple) [a, b]).length = 2 ∧
      (internAll (cxxEq lists) (cxxHash lists) [.term [1] true, .term [1] false]).length = 1 :=
  ⟨.term [1] true, .term [1] false, rfl, by simp [pyHash, lists], rfl, by decide⟩

/-- Sets: `true` is a frozenset, `false` an equal set, which cannot be hashed. -/
def sets : PyObj Bool Unit := ⟨fun _ _ => true, fun a => if a then some 7 else none, fun _ => some 3⟩

/-- C91 fails in both for a set and a frozenset of the same actions. -/
theorem C91_mixed (tuple : Int → Nat → Nat → Int) :
    (internAll (pyEq sets 0) (pyHash sets tuple) [.term true (), .term false ()]).length = 2 ∧
    (internAll (cxxEq sets) (cxxHash sets) [.term true (), .term false ()]).length = 2 :=
  ⟨rfl, by decide⟩

/-- C91 fails for a node with the number of terminations and no branches: it equals every termination, in bdd.py only from the left. -/
theorem C91_big (o : PyObj α φ) (a : α) (f : φ) (none : Nat) :
    pyEq o none (.node 1000000000000 none none) (.term a f) = true ∧ pyEq o none (.term a f) (.node 1000000000000 none none) = false ∧
    cxxEq o (.node 1000000000000#64 0#64 0#64) (.term a f) = true ∧ cxxEq o (.term a f) (.node 1000000000000#64 0#64 0#64) = true ∧
    (o.hash a = some 5 → cxxHash o (.node 1000000000000#64 0#64 0#64) ≠ cxxHash o (.term a f)) := by
  refine ⟨by simp [pyEq, termNumH], rfl, by simp [cxxEq, CxxNode.base, cxxTermNum], by simp [cxxEq, CxxNode.base, cxxTermNum], fun h => ?_⟩
  simp only [cxxHash, termHash, h]
  decide

/-- Numbers as actions. -/
def nums : PyObj Nat Unit := ⟨fun a b => a == b, fun a => some (a % 1000 : Nat), fun _ => none⟩

theorem nums_proper : Proper nums := by
  refine ⟨fun a b h => ?_, fun a h e => ?_⟩
  · have : a = b := by simpa [nums] using h
    rw [this]
  · simp only [nums, Option.some.injEq] at e
    subst e
    intro h
    have h0 : BitVec.ofNat 64 (a % 1000) = -1#64 := h
    have h1 : (BitVec.ofNat 64 (a % 1000)).toNat = (-1#64).toNat := by rw [h0]
    have h2 : a % 1000 < 1000 := Nat.mod_lt _ (by omega)
    rw [BitVec.toNat_ofNat, Nat.mod_eq_of_lt (by omega), show (-1#64).toNat = 18446744073709551615 from rfl] at h1
    omega

example : Proper nums ∧ PyNode.Hashable nums (.term 3 () : PyNode Nat Unit) ∧ PyNode.Hashable nums (.node 4 100 200 : PyNode Nat Unit) ∧
    CxxNode.Small (.node 4#64 100#64 200#64 : CxxNode Nat Unit) :=
  ⟨nums_proper, rfl, by show (4 : Int) < _; decide, by show (4#64 : BitVec 64).toInt < _; decide⟩
/-- Terminations 3 and 1003 have the same hash and are kept apart; the second 3 is found. -/
example : ((internAll (cxxEq nums) (cxxHash nums) [.term 3 (), .term 1003 (), .node 2#64 64#64 0#64, .term 3 ()]).map (·.1)) =
    [3#64, 3#64, cxxHash nums (.node 2#64 64#64 0#64)] := by decide +kernel
example : cxxHash nums (.node 2#64 64#64 0#64) ≠ cxxHash nums (.node 2#64 0#64 64#64) := by decide +kernel
example : ∀ a b, lists.eq a b = true → lists.fhash ((fun l => l.isEmpty) a) = lists.fhash ((fun l => l.isEmpty) b) := by
  intro a b h
  have : a = b := by simpa [lists] using h
  rw [this]

end OFE.NodeHash
