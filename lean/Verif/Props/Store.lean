import Verif.Store.Lemmas
import Verif.Normalise.Lemmas

/-!
# Property C04 (and C01 on the shared node table)

`run e n d h` runs the calls `h` on a freshly imported `bdd.py` whose caches evict according to `e`; it returns the module
state and the roots of all diagrams built.  `BDD.__eq__` (bdd.py:115-116) compares the identity of the roots, i.e. `=` on
references.  `Walk` is the meaning of a reference: follow the packet's bits from object to object.
-/

namespace OFE
namespace Store
open DD
variable {α : Type} [DecidableEq α]

/-- C04: after any history, with any cache eviction schedule, two diagrams are the same object exactly when they send
every packet to the same action. -/
theorem C04_identity_is_function_equality (n : Nat) (hn : n ≤ termNum) (d : α) (e : Evict) (he : e.Sound)
    (h : List (Call α)) (r r' : Ref) (hr : r ∈ (run e n d h).2) (hr' : r' ∈ (run e n d h).2) :
    r = r' ↔ ∀ p x, Walk (run e n d h).1.nodes n p r x ↔ Walk (run e n d h).1.nodes n p r' x := by
  obtain ⟨hi, hroots⟩ := run_spec (d := d) he hn h
  have get : ∀ r ∈ (run e n d h).2, ∃ t, Rep (run e n d h).1.nodes r t := by
    intro r hr
    obtain ⟨i, hi, rfl⟩ := List.getElem_of_mem hr
    rcases hroots.get i with ⟨h1, _⟩ | ⟨r, t, h1, _, h3⟩
    · rw [List.getElem?_eq_getElem hi] at h1; cases h1
    · rw [List.getElem?_eq_getElem hi] at h1; cases h1; exact ⟨t, h3⟩
  obtain ⟨t, ht⟩ := get r hr
  obtain ⟨t', ht'⟩ := get r' hr'
  constructor
  · rintro rfl p x; rfl
  · intro hw
    apply (ht.eq_iff hi ht').2
    apply lookup_ext (hi.wfRep ht) (hi.wfRep ht')
    intro p
    have := (hw p (t.lookup n p)).1 ((walk_iff ht p _).2 rfl)
    exact ((walk_iff ht' p _).1 this).symm

/-- C04: every diagram gives every packet exactly one result (following references terminates and is unambiguous). -/
theorem C04_walk_total (n : Nat) (hn : n ≤ termNum) (d : α) (e : Evict) (he : e.Sound)
    (h : List (Call α)) (r : Ref) (hr : r ∈ (run e n d h).2) (p : Packet) :
    ∃! x, Walk (run e n d h).1.nodes n p r x := by
  obtain ⟨hi, hroots⟩ := run_spec (d := d) he hn h
  obtain ⟨i, hi, rfl⟩ := List.getElem_of_mem hr
  rcases hroots.get i with ⟨h1, _⟩ | ⟨r, t, h1, _, h3⟩
  · rw [List.getElem?_eq_getElem hi] at h1; cases h1
  · rw [List.getElem?_eq_getElem hi] at h1; cases h1
    exact ⟨_, (walk_iff h3 p _).2 rfl, fun y hy => ((walk_iff h3 p _).1 hy).symm⟩

/-- C04: sharing, memoisation and eviction are invisible.  The `i`-th diagram of a history means exactly the `i`-th tree of
the same history run with the plain tree operations, whose meaning is given by C05-C07 and C09. -/
theorem C04_refines_trees (n : Nat) (hn : n ≤ termNum) (d : α) (e : Evict) (he : e.Sound) (h : List (Call α)) :
    (run e n d h).2.length = (runT n d h).length ∧
    ∀ (i : Nat) r t, (run e n d h).2[i]? = some r → (runT n d h)[i]? = some t →
      ∀ p x, Walk (run e n d h).1.nodes n p r x ↔ t.lookup n p = x := by
  obtain ⟨hi, hroots⟩ := run_spec (d := d) he hn h
  refine ⟨hroots.length_eq, ?_⟩
  intro i r t h1 h2 p x
  rcases hroots.get i with ⟨h3, _⟩ | ⟨r', t', h3, h4, h5⟩
  · rw [h1] at h3; cases h3
  · rw [h1] at h3; rw [h2] at h4; cases h3; cases h4
    exact walk_iff h5 p x

/-- Two eviction policies: never evict, and keep nothing. -/
def keepAll : Evict := ⟨fun _ l => l, fun _ l => l⟩
/-- See `keepAll`. -/
def keepNone : Evict := ⟨fun _ _ => [], fun _ _ => []⟩

example : keepAll.Sound ∧ keepNone.Sound :=
  ⟨⟨fun _ _ _ h => h, fun _ _ _ h => h⟩, ⟨fun _ _ _ h => by simp [keepNone] at h, fun _ _ _ h => by simp [keepNone] at h⟩⟩

/-- A history over two bits: `0x -> 7`, `xx -> 8`, their meld both ways round, the same function built differently
(`1x -> 8`, meld), the difference of the two melds.  With and without caches the 3rd and the 6th root are the same object, and
the failing call (`wc` with a `z` tbit) yields no root. -/
def exHistory : List (Call Nat) :=
  [.wc 0b0111 7, .wc 0b1111 8, .op .meld 0 1, .op .meld 1 0, .wc 0b0011 9, .wc 0b1011 8, .op .meld 0 4, .op .difference 2 5,
   .op .difference 2 3]

example : (run keepAll 2 99 exHistory).2 = [some 2, some 3, some 4, some 3, some 6, some 4, none, some 7] ∧
    (run keepNone 2 99 exHistory).2 = [some 2, some 3, some 4, some 3, some 6, some 4, none, some 7] := by decide +kernel

/-- The calls `normalise_naive` (normalisebdd.py:145-172) makes for a list of (wildcard, actions) entries: `cur` is the index
of the diagram so far, `next` the index the next diagram gets. -/
def naiveCalls : Nat → Nat → List (Nat × α) → List (Call α)
  | _, _, [] => []
  | cur, next, (w, a) :: rest => .wc w a :: .op .meld cur next :: naiveCalls (next + 1) (next + 2) rest

theorem runT_naive (n : Nat) (d : α) (l : List (Nat × α)) (hv : ∀ x ∈ l, ∃ t, wcToDD n x.1 x.2 = some t)
    (ts : List (DD α)) (cur : Nat) (t : DD α) (hc : ts[cur]? = some t) :
    ∃ ext, (naiveCalls cur ts.length l).foldl (stepT n d) ts = ts ++ ext ∧ ext.length = 2 * l.length ∧
      (ts ++ ext)[if l = [] then cur else ts.length + 2 * l.length - 1]? =
        some (l.foldl (fun acc x => match wcToDD n x.1 x.2 with | some u => meld acc u | none => acc) t) := by
  induction l generalizing ts cur t with
  | nil => exact ⟨[], by simp [naiveCalls], rfl, by simpa using hc⟩
  | cons x l ih =>
    obtain ⟨w, a⟩ := x
    obtain ⟨u, hu⟩ := hv (w, a) (by simp)
    simp only at hu
    have hcur : cur < ts.length := by
      rw [List.getElem?_eq_some_iff] at hc; exact hc.1
    have e1 : stepT n d ts (.wc w a) = ts ++ [u] := by simp [stepT, hu]
    have e2 : stepT n d (ts ++ [u]) (.op .meld cur ts.length) = ts ++ [u] ++ [meld t u] := by
      have h1 : (ts ++ [u])[cur]? = some t := by rw [List.getElem?_append_left hcur]; exact hc
      simp [stepT, h1, Op.tree]
    have hl : (ts ++ [u] ++ [meld t u]).length = ts.length + 2 := by simp
    obtain ⟨ext, h1, h2, h3⟩ := ih (fun y hy => hv y (by simp [hy])) (ts ++ [u] ++ [meld t u]) (ts.length + 1) (meld t u)
      (by simp)
    refine ⟨u :: meld t u :: ext, ?_, by simp [h2]; omega, ?_⟩
    · simp only [naiveCalls, List.foldl_cons, e1, e2]
      rw [hl] at h1
      rw [h1]; simp
    · have : ts ++ u :: meld t u :: ext = ts ++ [u] ++ [meld t u] ++ ext := by simp
      rw [this, List.foldl_cons, hu]
      simp only at h3 ⊢
      rw [← h3, hl]
      congr 1
      by_cases hle : l = []
      · subst hle; simp
      · simp [hle]; omega

theorem naive_fold (n : Nat) (hn : 0 < n) (l : List (Nat × α)) (hv : ∀ x ∈ l, WcValid n x.1) (t : DD α) (p : Packet) (y : Option α)
    (ht : WF n 0 t)
    (hf : FirstMatch n p l y) :
    WF n 0 (l.foldl (fun acc x => match wcToDD n x.1 x.2 with | some u => meld acc u | none => acc) t) ∧
    (l.foldl (fun acc x => match wcToDD n x.1 x.2 with | some u => meld acc u | none => acc) t).lookup n p =
      (t.lookup n p).or y := by
  induction l generalizing t y with
  | nil =>
    cases hf
    exact ⟨ht, by simp⟩
  | cons x l ih =>
    obtain ⟨w, a⟩ := x
    obtain ⟨u, hu, hwu, _, _, h4, h5⟩ := wcToDD_spec hn a (hv (w, a) (by simp))
    have hm : (meld t u).lookup n p = (t.lookup n p).or (u.lookup n p) := eval_meld ht hwu _
    simp only [List.foldl_cons, hu]
    have hv' : ∀ x ∈ l, WcValid n x.1 := fun y hy => hv y (by simp [hy])
    cases hf with
    | hit hc =>
      obtain ⟨y', hy'⟩ := FirstMatch.exists n p l
      obtain ⟨g1, g2⟩ := ih hv' (meld t u) y' (wf_meld ht hwu) hy'
      refine ⟨g1, ?_⟩
      rw [g2, hm, (h5 p).2 hc]
      cases t.lookup n p <;> rfl
    | miss hc hr =>
      obtain ⟨g1, g2⟩ := ih hv' (meld t u) y (wf_meld ht hwu) hr
      refine ⟨g1, ?_⟩
      rw [g2, hm]
      rcases h4 p with h | h
      · exact absurd ((h5 p).1 h) hc
      · rw [h]; simp

/-- C01 on the shared node table: normalise two rulesets one after the other with `normalise_naive` in one process, after any
earlier history `h0`, with any cache eviction; comparing the identity of the two roots decides whether the rulesets
forward all packets identically. -/
theorem C01_store_check_equal (n : Nat) (h0n : 0 < n) (hn : n ≤ termNum) (d : α) (e : Evict) (he : e.Sound)
    (h0 : List (Call α)) (A B : List (Nat × α)) (hA : ∀ x ∈ A, WcValid n x.1) (hB : ∀ x ∈ B, WcValid n x.1)
    (hneA : A ≠ []) (hneB : B ≠ []) :
    let k := (run e n d h0).2.length
    let progA := .wc 0 d :: naiveCalls k (k + 1) A
    let k' := k + 1 + 2 * A.length
    let progB := .wc 0 d :: naiveCalls k' (k' + 1) B
    let roots := (run e n d (h0 ++ progA ++ progB)).2
    ∃ a b, roots[k' - 1]? = some a ∧ roots[k' + 2 * B.length]? = some b ∧
      (a = b ↔ ∀ p x y, FirstMatch n p A x → FirstMatch n p B y → x = y) := by
  intro k progA k' progB roots
  have hk : (runT n d h0).length = k := (C04_refines_trees n hn d e he h0).1.symm
  have hvA : ∀ x ∈ A, ∃ t, wcToDD n x.1 x.2 = some t := fun x hx => by
    obtain ⟨t, h, _⟩ := wcToDD_spec h0n x.2 (hA x hx); exact ⟨t, h⟩
  have hvB : ∀ x ∈ B, ∃ t, wcToDD n x.1 x.2 = some t := fun x hx => by
    obtain ⟨t, h, _⟩ := wcToDD_spec h0n x.2 (hB x hx); exact ⟨t, h⟩
  have hwc0 : ∀ ts : List (DD α), stepT n d ts (.wc 0 d) = ts ++ [bot] := by
    intro ts; simp [stepT, wcToDD]
  -- ruleset A
  obtain ⟨extA, a1, a2, a3⟩ := runT_naive n d A hvA (runT n d h0 ++ [bot]) k bot (by rw [← hk]; simp)
  -- ruleset B
  obtain ⟨extB, b1, b2, b3⟩ := runT_naive n d B hvB (runT n d h0 ++ [bot] ++ extA ++ [bot]) k' bot (by
    have : (runT n d h0 ++ [bot] ++ extA).length = k' := by simp [hk, a2, k']; omega
    rw [← this]; simp)
  have hlenA : (runT n d h0 ++ [bot]).length = k + 1 := by simp [hk]
  have hlenB : (runT n d h0 ++ [bot] ++ extA ++ [bot]).length = k' + 1 := by simp [hk, a2, k']; omega
  rw [hlenA] at a1 a3
  rw [hlenB] at b1 b3
  rw [if_neg hneA] at a3
  rw [if_neg hneB] at b3
  have hrun : runT n d (h0 ++ progA ++ progB) = runT n d h0 ++ [bot] ++ extA ++ [bot] ++ extB := by
    unfold runT at a1 b1 ⊢
    rw [List.foldl_append, List.foldl_append, List.foldl_cons, List.foldl_cons, hwc0 (List.foldl _ _ h0), a1, hwc0]
    exact b1
  obtain ⟨hlen, hwalk⟩ := C04_refines_trees n hn d e he (h0 ++ progA ++ progB)
  have hApos : 0 < A.length := List.length_pos_iff.2 hneA
  have hBpos : 0 < B.length := List.length_pos_iff.2 hneB
  have hta : (runT n d (h0 ++ progA ++ progB))[k' - 1]? = some (A.foldl (fun acc x => match wcToDD n x.1 x.2 with
      | some u => meld acc u | none => acc) bot) := by
    rw [hrun, List.append_assoc, List.getElem?_append_left (by simp [hk, a2, k'])]
    have : k' - 1 = k + 1 + 2 * A.length - 1 := rfl
    rw [this]; exact a3
  have htb : (runT n d (h0 ++ progA ++ progB))[k' + 2 * B.length]? = some (B.foldl (fun acc x => match wcToDD n x.1 x.2 with
      | some u => meld acc u | none => acc) bot) := by
    rw [hrun]
    have : k' + 2 * B.length = k' + 1 + 2 * B.length - 1 := by omega
    rw [this]; exact b3
  have hroot : ∀ (i : Nat) t, (runT n d (h0 ++ progA ++ progB))[i]? = some t → ∃ r, roots[i]? = some r := by
    intro i t h
    rw [List.getElem?_eq_some_iff] at h
    exact ⟨roots[i]'(by rw [hlen]; exact h.1), List.getElem?_eq_getElem _⟩
  obtain ⟨a, ha⟩ := hroot _ _ hta
  obtain ⟨b, hb⟩ := hroot _ _ htb
  refine ⟨a, b, ha, hb, ?_⟩
  rw [C04_identity_is_function_equality n hn d e he (h0 ++ progA ++ progB) a b (List.mem_of_getElem? ha)
    (List.mem_of_getElem? hb)]
  have wa := hwalk _ _ _ ha hta
  have wb := hwalk _ _ _ hb htb
  constructor
  · intro h p x y hx hy
    obtain ⟨_, ex⟩ := naive_fold n h0n A hA bot p x trivial hx
    obtain ⟨_, ey⟩ := naive_fold n h0n B hB bot p y trivial hy
    have hx' := (wa p x).2 (by rw [ex]; rfl)
    have := (wb p x).1 ((h p x).1 hx')
    rw [ey] at this
    exact this.symm
  · intro h p x
    obtain ⟨x', hx'⟩ := FirstMatch.exists n p A
    obtain ⟨y', hy'⟩ := FirstMatch.exists n p B
    obtain ⟨_, ex⟩ := naive_fold n h0n A hA bot p x' trivial hx'
    obtain ⟨_, ey⟩ := naive_fold n h0n B hB bot p y' trivial hy'
    rw [wa, wb, ex, ey, h p x' y' hx' hy']

/-- The rulesets of `exA`/`exB` in `Props.Normalise`, normalised one after the other with empty caches: same root. -/
example :
    let A : List (Nat × Nat) := [(0b0101, 1), (0b0111, 2), (0b1111, 3)]
    let B : List (Nat × Nat) := [(0b0110, 2), (0b1011, 3), (0b1111, 1)]
    let roots := (run keepNone 2 99 (.wc 0 99 :: naiveCalls 0 1 A ++ .wc 0 99 :: naiveCalls 7 8 B)).2
    roots[6]? = some (some 9) ∧ roots[13]? = some (some 9) := by decide +kernel

example := C04_identity_is_function_equality 2 (by decide) 99 keepNone ⟨fun _ _ _ h => by simp [keepNone] at h, fun _ _ _ h => by simp [keepNone] at h⟩
  exHistory (some 4) (some 3) (by decide +kernel) (by decide +kernel)

end Store
end OFE
