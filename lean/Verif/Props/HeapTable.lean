import Verif.Heap.CallLemmas
import Mathlib.Data.List.Perm.Subperm

/-!
# C78: the C++ node table under collection and address reuse

`runC e n d h` runs the calls `h` on a freshly imported `_cbdd` with `cbdd.py`; `e` has the open choices: what the caches drop and when, at which free address
an object is made, and which argument is evaluated first.  The result is the module state and the roots of all diagrams built, `none` for those let go.
`BDD.__eq__` (cbdd.py:112-113) compares the identity of the roots.
-/

namespace OFE
namespace Heap
open Store (Ref Obj Op Memo RuleEntry termNum)
open DD
variable {α : Type} [DecidableEq α] {n : Nat}

/-- **C78** No history fails: no freed object is read, no digit past the end of a wildcard.  Each diagram that the caller still holds sends every packet to the
action given by the plain tree operations (whose meaning is C05-C07 and C09), whatever was collected, wherever new objects were allocated, whatever the caches
dropped, in whatever order arguments were evaluated. -/
theorem C78_refines (h0 : 0 < n) (hn : n ≤ termNum) (d : α) {e : Env} (he : e.Sound) (h : List (CCall α)) (hf : ∀ c ∈ h, c.Fine n) :
    ∃ s slots, runC e n d h = .ok (s, slots) ∧ slots.length = (runTC n d h).length ∧
      ∀ i : Nat, (slots[i]? = some none ↔ (runTC n d h)[i]? = some none) ∧
        ∀ r, slots[i]? = some (some r) → ∃ t, (runTC n d h)[i]? = some (some t) ∧ ∀ p x, WalkC s.mem n p r x ↔ t.lookup n p = x := by
  obtain ⟨⟨s, slots⟩, e1, hi, hs⟩ := runC_spec (d := d) he h0 hn h hf
  refine ⟨s, slots, e1, hs.1, fun i => ⟨(hs.2 i).1, fun r hr => ?_⟩⟩
  rcases hs.get i with ⟨h1, h2⟩ | ⟨h1, h2⟩ | ⟨r', t, h1, h2, h3⟩
  · simp only at h1; rw [hr] at h1; cases h1
  · simp only at h1; rw [hr] at h1; cases h1
  · simp only at h1; rw [hr] at h1; cases h1
    exact ⟨t, h2, fun p x => walkC_iff h3 p x⟩

/-- **C78** Of two diagrams held at the same time the roots are the same object exactly when they send every packet to the same action. -/
theorem C78_identity (h0 : 0 < n) (hn : n ≤ termNum) (d : α) {e : Env} (he : e.Sound) (h : List (CCall α)) (hf : ∀ c ∈ h, c.Fine n)
    {s : CSt α} {slots : List (Option Ref)} (hr : runC e n d h = .ok (s, slots)) {a b : Ref} (ha : some a ∈ slots) (hb : some b ∈ slots) :
    a = b ↔ ∀ p x, WalkC s.mem n p a x ↔ WalkC s.mem n p b x := by
  obtain ⟨y, e1, hi, hs⟩ := runC_spec (d := d) he h0 hn h hf
  rw [hr] at e1
  cases e1
  have get : ∀ {r : Ref}, some r ∈ slots → ∃ t, Rep s.mem r t := by
    intro r hr
    obtain ⟨i, hi, e⟩ := List.getElem_of_mem hr
    have hr : slots[i]? = some (some r) := by rw [List.getElem?_eq_getElem hi, e]
    rcases hs.get i with ⟨h1, h2⟩ | ⟨h1, h2⟩ | ⟨r', t, h1, h2, h3⟩
    · simp only at h1; rw [hr] at h1; cases h1
    · simp only at h1; rw [hr] at h1; cases h1
    · simp only at h1; rw [hr] at h1; cases h1; exact ⟨t, h3⟩
  obtain ⟨t, ht⟩ := get ha
  obtain ⟨t', ht'⟩ := get hb
  constructor
  · rintro rfl p x; rfl
  · intro hw
    apply (ht.eq_iff hi ht').2
    apply lookup_ext (hi.wfRep ht) (hi.wfRep ht')
    intro p
    have := (hw p (t.lookup n p)).1 ((walkC_iff ht p _).2 rfl)
    exact ((walkC_iff ht' p _).1 this).symm

/-- Specification: what the program can still get at: the roots, `IS_DIFFERING`, the arguments and results in the operation caches, the diagrams in the rule cache,
and what these refer to. -/
inductive Live (s : CSt α) (roots : List Ref) : Addr → Prop where
  | root {x} : some x ∈ roots → Live s roots x
  | differing : Live s roots s.differing
  | memo {m x} : m ∈ s.memo → (m.a = some x ∨ m.b = some x ∨ m.r = some x) → Live s roots x
  | rule {m x} : m ∈ s.rules → m.r = some x → Live s roots x
  | zero {x num y o h} : Live s roots x → s.mem x = some (.node num (some y) o h) → Live s roots y
  | one {x num z y h} : Live s roots x → s.mem x = some (.node num z (some y) h) → Live s roots y

theorem live_iff {s : CSt α} {d : α} (hi : InvC n d s) {roots : List Ref} (hr : ∀ r ∈ roots, ∃ t, Rep s.mem r t) (x : Addr) :
    InUse (toTbl s roots) (extRefs s roots) x ↔ Live s roots x := by
  constructor
  · intro h
    induction h with
    | @root x _ hx =>
      by_cases h1 : x = s.differing
      · exact h1 ▸ .differing
      by_cases h2 : 0 < roots.count (some x)
      · exact .root (List.count_pos_iff.1 h2)
      by_cases h3 : 0 < (s.rules.map (·.r)).count (some x)
      · obtain ⟨m, hm, e⟩ := List.mem_map.1 (List.count_pos_iff.1 h3)
        exact .rule hm e
      · have h4 : 0 < (s.memo.map fun m => [m.a, m.b, m.r].count (some x)).sum := by
          unfold extRefs at hx; rw [if_neg h1] at hx; omega
        by_cases h5 : ∃ m ∈ s.memo, some x ∈ [m.a, m.b, m.r]
        · obtain ⟨m, hm, h5⟩ := h5
          refine .memo hm ?_
          simp only [List.mem_cons, List.not_mem_nil, or_false] at h5
          rcases h5 with h5 | h5 | h5
          · exact .inl h5.symm
          · exact .inr (.inl h5.symm)
          · exact .inr (.inr h5.symm)
        · exfalso
          have : (s.memo.map fun m => [m.a, m.b, m.r].count (some x)).sum = 0 := by
            have hz : ∀ k ∈ s.memo.map fun m => [m.a, m.b, m.r].count (some x), k = 0 := by
              intro k hk
              obtain ⟨m, hm, rfl⟩ := List.mem_map.1 hk
              exact List.count_eq_zero.2 fun h => h5 ⟨m, hm, h⟩
            generalize (s.memo.map fun m => [m.a, m.b, m.r].count (some x)) = l at hz
            induction l with
            | nil => rfl
            | cons k l ih =>
              rw [List.sum_cons, hz k (by simp), ih fun k hk => hz k (by simp [hk])]
          omega
    | @child a y _ hc ih =>
      obtain ⟨-, hk⟩ := child_iff.1 hc
      rw [kidsOf_toTbl] at hk
      cases hm : s.mem a with
      | none => rw [hm] at hk; cases hk
      | some ob =>
        rw [hm] at hk
        cases ob with
        | term => cases hk
        | node num z o hh =>
          rcases List.mem_append.1 hk with h | h
          · have : z = some y := by simpa using h
            exact .zero ih (this ▸ hm)
          · have : o = some y := by simpa using h
            exact .one ih (this ▸ hm)
  · intro h
    have inT : ∀ {x : Addr} {t : DD α}, Rep s.mem (some x) t → x ∈ s.table := fun h => h.mem_table hi
    induction h with
    | root h =>
      obtain ⟨t, ht⟩ := hr _ h
      exact .root (inT ht) (ext_root h)
    | differing => exact .root ((hi.tab _).2 (by rw [hi.diff]; rfl)) (by unfold extRefs; rw [if_pos rfl]; omega)
    | memo hm h =>
      obtain ⟨ta, tb, h1, h2, h3⟩ := hi.memo _ hm
      refine .root ?_ (ext_memo hm ?_)
      · rcases h with h | h | h
        · exact inT (h ▸ h1)
        · exact inT (h ▸ h2)
        · exact inT (h ▸ h3)
      · rcases h with h | h | h <;> simp [h]
    | rule hm h =>
      obtain ⟨act, t, -, -, -, h4⟩ := hi.rules _ hm
      exact .root (inT (h ▸ h4)) (ext_rule hm h)
    | zero _ hm ih => exact .child ih (child_iff.2 ⟨(hi.tab _).2 (by rw [hm]; rfl), by rw [kidsOf_toTbl, hm]; simp [objKids]⟩)
    | one _ hm ih => exact .child ih (child_iff.2 ⟨(hi.tab _).2 (by rw [hm]; rfl), by rw [kidsOf_toTbl, hm]; simp [objKids]⟩)

/-- **C78** In every state that a history reaches, the table has exactly the allocated objects, without duplicates: no two with the same number and children, nor
with the same action; the counts are those that C77 asks for, so that a collection at this point ends without an error; it keeps exactly what the program can
still get at. -/
theorem C78_collects (h0 : 0 < n) (hn : n ≤ termNum) (d : α) {e : Env} (he : e.Sound) (h : List (CCall α)) (hf : ∀ c ∈ h, c.Fine n)
    {s : CSt α} {slots : List (Option Ref)} (hr : runC e n d h = .ok (s, slots)) :
    s.table.Nodup ∧ (∀ x, x ∈ s.table ↔ (s.mem x).isSome) ∧
      (∀ x y ox oy, s.mem x = some ox → s.mem y = some oy → sameObj ox oy = true → x = y) ∧
      ∃ s', runC e n d (h ++ [.gc]) = .ok (s', slots) ∧ (∀ x, x ∈ s'.table ↔ Live s (held slots) x) ∧ (∀ x, Live s (held slots) x → s'.mem x = s.mem x) ∧
        ∀ x, ¬ Live s (held slots) x → s'.mem x = none := by
  obtain ⟨y, e1, hi, hs⟩ := runC_spec (d := d) he h0 hn h hf
  rw [hr] at e1
  cases e1
  have hroots : ∀ r ∈ held slots, ∃ t, Rep s.mem r t := by
    intro r hr
    unfold held at hr
    obtain ⟨o, ho, e2⟩ := List.mem_filterMap.1 hr
    simp only [id] at e2
    subst e2
    obtain ⟨i, hi, e⟩ := List.getElem_of_mem ho
    have hr : slots[i]? = some (some r) := by rw [List.getElem?_eq_getElem hi, e]
    rcases hs.get i with ⟨h1, h2⟩ | ⟨h1, h2⟩ | ⟨r', t, h1, h2, h3⟩
    · simp only at h1; rw [hr] at h1; cases h1
    · simp only at h1; rw [hr] at h1; cases h1
    · simp only at h1; rw [hr] at h1; cases h1; exact ⟨t, h3⟩
  refine ⟨hi.nodup, hi.tab, ?_, ?_⟩
  · intro x y ox oy hx hy hxy
    cases ox with
    | term a =>
      cases oy with
      | term b =>
        have : a = b := by simpa [sameObj] using hxy
        subst this
        exact hi.uniqT hx hy
      | node => cases hxy
    | node num z o hh =>
      cases oy with
      | term => cases hxy
      | node num' z' o' hh' =>
        have : (num = num' ∧ z = z') ∧ o = o' := by simpa [sameObj] using hxy
        obtain ⟨⟨rfl, rfl⟩, rfl⟩ := this
        exact hi.uniqN hx hy
  · obtain ⟨s', e2, hm, hi', -, -, ht, -⟩ := collect_spec' hi (held slots)
    refine ⟨s', ?_, fun x => (ht x).trans (live_iff hi hroots x), fun x hx => ?_, fun x hx => ?_⟩
    · unfold runC at hr ⊢
      rw [List.foldlM_append, hr]
      simp [bind, Except.bind, stepC, e2, pure, Except.pure]
    · exact hm x ((live_iff hi hroots x).2 hx)
    · cases hx' : s'.mem x with
      | none => rfl
      | some o => exact absurd ((live_iff hi hroots x).1 ((ht x).1 ((hi'.tab x).2 (by rw [hx']; rfl)))) hx

/-- **C78** Nothing leaks: when the caller holds no diagram and the caches are empty, a collection leaves only `IS_DIFFERING`. -/
theorem C78_no_leak (h0 : 0 < n) (hn : n ≤ termNum) (d : α) {e : Env} (he : e.Sound) (h : List (CCall α)) (hf : ∀ c ∈ h, c.Fine n)
    {s : CSt α} {slots : List (Option Ref)} (hr : runC e n d h = .ok (s, slots)) (hs : ∀ x ∈ slots, x = none) (hm : s.memo = []) (hu : s.rules = []) :
    ∃ s', runC e n d (h ++ [.gc]) = .ok (s', slots) ∧ s'.table = [s.differing] := by
  obtain ⟨-, -, -, s', e1, h1, h2, -⟩ := C78_collects h0 hn d he h hf hr
  refine ⟨s', e1, ?_⟩
  obtain ⟨y, e2, hi, -⟩ := runC_spec (d := d) he h0 hn h hf
  rw [hr] at e2
  cases e2
  have hf' : ∀ c ∈ h ++ [CCall.gc], c.Fine n := by
    intro c hc
    rcases List.mem_append.1 hc with hc | hc
    · exact hf c hc
    · rw [List.mem_singleton.1 hc]; trivial
  obtain ⟨nd, -⟩ := C78_collects h0 hn d he _ hf' e1
  have hheld : held slots = [] := by
    unfold held
    rw [List.filterMap_eq_nil_iff]
    exact fun x hx => hs x hx
  have hl : ∀ x, Live s (held slots) x ↔ x = s.differing := by
    intro x
    constructor
    · intro hx
      induction hx with
      | root h => rw [hheld] at h; cases h
      | differing => rfl
      | memo h => rw [hm] at h; cases h
      | rule h => rw [hu] at h; cases h
      | zero _ h ih => rw [ih, hi.diff] at h; cases h
      | one _ h ih => rw [ih, hi.diff] at h; cases h
    · rintro rfl; exact .differing
  have hmem : ∀ x, x ∈ s'.table ↔ x = s.differing := fun x => (h1 x).trans (hl x)
  match hT : s'.table with
  | [] => have := (hmem s.differing).2 rfl; rw [hT] at this; cases this
  | [a] => rw [(hmem a).1 (by rw [hT]; simp)]
  | a :: b :: l =>
    have ha := (hmem a).1 (by rw [hT]; simp)
    have hb := (hmem b).1 (by rw [hT]; simp)
    rw [hT, ha, hb] at nd
    simp at nd

/-! ### Examples -/

/-- The lowest free address. -/
def lowest (l : List Addr) : Addr := ((List.range (l.length + 1)).find? (· ∉ l)).getD 0

theorem lowest_free (l : List Addr) : lowest l ∉ l := by
  unfold lowest
  cases h : (List.range (l.length + 1)).find? (· ∉ l) with
  | some x => simpa using List.find?_some h
  | none =>
    exfalso
    have : List.range (l.length + 1) ⊆ l := by
      intro x hx
      simpa using (List.find?_eq_none.1 h) x hx
    have := (List.subperm_of_subset List.nodup_range this).length_le
    rw [List.length_range] at this
    omega

/-- Caches that keep everything; each object at the lowest free address. -/
def envKeep : Env := ⟨fun _ l => l, fun _ l => l, fun _ l => lowest l, false⟩
/-- Caches that keep nothing; each object at the lowest free address; the last argument is evaluated first. -/
def envDrop : Env := ⟨fun _ _ => [], fun _ _ => [], fun _ l => lowest l, true⟩

example : envKeep.Sound ∧ envDrop.Sound :=
  ⟨⟨fun _ _ _ h => h, fun _ _ _ h => h, fun _ l => lowest_free l⟩,
    ⟨fun _ _ _ h => by simp [envDrop] at h, fun _ _ _ h => by simp [envDrop] at h, fun _ l => lowest_free l⟩⟩

/-- A history over two bits: `0x -> 7`, `1x -> 8`, let the first go, collect, `x1 -> 9`, `1x -> 8` again, meld, difference with itself and with the other. -/
def heapHistory : List (CCall Nat) :=
  [.wc 0b0111 7, .wc 0b1011 8, .release 0, .gc, .wc 0b1110 9, .wc 0b1011 8, .op .meld 3 2, .op .difference 4 4, .op .difference 4 3]

example : ∀ c ∈ heapHistory, c.Fine 2 := by
  intro c hc
  simp only [heapHistory, List.mem_cons, List.not_mem_nil, or_false] at hc
  have v : ∀ w ∈ [0b0111, 0b1011, 0b1110], WcValid 2 w := by
    intro w hw
    simp only [List.mem_cons, List.not_mem_nil, or_false] at hw
    rcases hw with rfl | rfl | rfl <;> refine ⟨by decide, fun b hb => ?_⟩ <;> (have : b = 0 ∨ b = 1 := by omega) <;> rcases this with rfl | rfl <;> decide
  rcases hc with rfl | rfl | rfl | rfl | rfl | rfl | rfl | rfl | rfl
  · exact .inr (v _ (by simp))
  · exact .inr (v _ (by simp))
  · trivial
  · trivial
  · exact .inr (v _ (by simp))
  · exact .inr (v _ (by simp))
  all_goals trivial

/-- The slots and the table after a history. -/
def shown (e : Env) (h : List (CCall Nat)) : Option (List (Option Ref) × List Addr) :=
  match runC e 2 99 h with
  | .ok (s, slots) => some (slots, s.table)
  | .error _ => none

/-- With caches that drop everything the addresses 1 and 2 are freed and given to `x1 -> 9`; diagrams 1 and 3 are the same object; caches that keep the rule
also keep its nodes. -/
example : shown envDrop heapHistory = some ([none, some (some 4), some (some 2), some (some 4), some (some 5), some none, some (some 7)], [0, 3, 4, 1, 2, 5, 6, 7]) ∧
    shown envDrop (heapHistory.take 4) = some ([none, some (some 4)], [0, 3, 4]) ∧
    shown envKeep (heapHistory.take 4) = some ([none, some (some 4)], [0, 1, 2, 3, 4]) := by decide +kernel

/-- Everything let go: only `IS_DIFFERING` is left. -/
example : shown envDrop (heapHistory ++ [.release 1, .release 2, .release 3, .release 4, .release 5, .release 6, .gc]) =
    some ([none, none, none, none, none, none, none], [0]) := by decide +kernel

/-- **C78** Beyond the property: for a wildcard with an empty bit pair the C++ loop differs from bdd.py, which refuses it (bdd.py:243).  It takes the pair 00 (no
packet) for 11 (any packet): the wildcard `1z`, which no packet matches, and `1x` give the same diagram.  If the topmost digit is missing, memory past the
integer is read. -/
theorem C78_empty_bit : shown envKeep [.wc 0b1000 7, .wc 0b1011 7] = some ([some (some 2), some (some 2)], [0, 1, 2]) ∧ wcToDD 2 0b1000 (7 : Nat) = none ∧
    (match runC envKeep 16 99 [.wc (4 ^ 15 - 1) 7] with | .ok _ => none | .error e => some e) = some PyErr.runtimeError := by decide +kernel

end Heap
end OFE
