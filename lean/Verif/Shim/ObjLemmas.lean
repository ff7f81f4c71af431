import Verif.Shim.Print

/-!
# Lemmas for shims as objects
-/

namespace OFE
namespace Shim

/-- Specification: shims as values; an operation on one of them replaces it. -/
def valStep (n : Nat) (ord : List Nat → List Nat) (vs : List Shim) : Op → Except PyErr (List Shim)
  | .make none => .ok (vs ++ [nothing])
  | .make (some w) => (ofWc n ord w).map fun s => vs ++ [s]
  | .dup i => match vs[i]? with
    | none => .ok vs
    | some s => .ok (vs ++ [s])
  | .add i wc b => match vs[i]? with
    | none => .ok vs
    | some s => (add n ord s wc b).map fun s => vs.set i s
  | .inter i w => match vs[i]? with
    | none => .ok vs
    | some s => (intersection n s w).map fun s => vs ++ [s]

/-- Specification: a program over values. -/
def valRun (n : Nat) (ord : List Nat → List Nat) (vs : List Shim) : List Op → List Shim × List (Option PyErr)
  | [] => (vs, [])
  | op :: ops =>
    match valStep n ord vs op with
    | .ok vs' => let r := valRun n ord vs' ops; (r.1, none :: r.2)
    | .error e => let r := valRun n ord vs ops; (r.1, some e :: r.2)

/-- Specification: what an object is worth. -/
def valueOf (sets : List (List Nat)) (o : Obj) : Shim := ⟨o.zero.getD false, o.inc.getD none, sets.getD o.exc []⟩

/-- Every object has a set of its own. -/
structure Mem.Ok (h : Mem) : Prop where
  lt : ∀ o ∈ h.objs, o.exc < h.sets.length
  own : (h.objs.map (·.exc)).Nodup

/-- What a method may do: change the object and its own set. -/
structure Kept (sets sets' : List (List Nat)) (r : Nat) : Prop where
  len : sets.length ≤ sets'.length
  same : ∀ i, i < sets.length → i ≠ r → sets'.getD i [] = sets.getD i []

theorem Kept.refl (sets : List (List Nat)) (r : Nat) : Kept sets sets r := ⟨Nat.le_refl _, fun _ _ _ => rfl⟩

theorem remove_all (rem l : List Nat) : rem.foldl (fun s x => s.filter (· ≠ x)) l = l.filter fun x => !rem.contains x := by
  induction rem generalizing l with
  | nil => exact (List.filter_eq_self.2 (by simp)).symm
  | cons r rem ih =>
    rw [List.foldl_cons, ih, List.filter_filter]
    apply List.filter_congr
    intro x _
    rw [Bool.eq_iff_iff]
    simp [and_comm]

theorem fold_zero (f : Nat → Bool) (l : List Nat) (o : Obj) :
    l.foldl (fun o x => if f x then { o with zero := some true } else o) o = if l.any f then { o with zero := some true } else o := by
  induction l generalizing o with
  | nil => rfl
  | cons x l ih =>
    rw [List.foldl_cons, ih, List.any_cons]
    cases f x <;> cases l.any f <;> rfl

theorem any_perm {f : Nat → Bool} {l l' : List Nat} (h : l.Perm l') : l.any f = l'.any f := by
  rw [Bool.eq_iff_iff, List.any_eq_true, List.any_eq_true]
  exact ⟨fun ⟨x, hx, e⟩ => ⟨x, h.mem_iff.1 hx, e⟩, fun ⟨x, hx, e⟩ => ⟨x, h.mem_iff.2 hx, e⟩⟩

/-- `add` changes the object as it changes the value, and no other set. -/
theorem addTo_spec {n : Nat} {ord : List Nat → List Nat} (hord : ∀ l, (ord l).Perm l) (h : Mem) (o : Obj) (ho : o.exc < h.sets.length) (wc : Nat) (b : Bool) :
    (∃ e, h.addTo n ord o wc b = .error e ∧ add n ord (valueOf h.sets o) wc b = .error e) ∨
    ∃ sets' o', h.addTo n ord o wc b = .ok (sets', o') ∧ add n ord (valueOf h.sets o) wc b = .ok (valueOf sets' o') ∧ o'.exc = o.exc ∧
      sets'.length = h.sets.length ∧ Kept h.sets sets' o.exc := by
  have k := Kept.refl h.sets o.exc
  unfold Mem.addTo add Obj.getZero Obj.getInc Mem.exc
  cases hz : o.zero.getD false with
  | true =>
    right
    refine ⟨h.sets, o, by simp, ?_, rfl, rfl, k⟩
    simp [valueOf, hz]
  | false =>
    cases b with
    | true =>
      right
      cases hi : o.inc.getD none with
      | none =>
        by_cases hw : wc = 0
        · exact ⟨h.sets, { o with inc := some (some wc), zero := some true }, by simp only [Bool.false_eq_true, if_false, if_true, hw], by simp [valueOf, hz, hi, hw], rfl, rfl, k⟩
        · exact ⟨h.sets, { o with inc := some (some wc) }, by simp only [Bool.false_eq_true, if_false, if_true, hw], by simp [valueOf, hz, hi, hw], rfl, rfl, k⟩
      | some m =>
        by_cases hw : wcIntersect n m wc = 0
        · exact ⟨h.sets, { o with inc := some (some (wcIntersect n m wc)), zero := some true }, by simp only [Bool.false_eq_true, if_false, if_true, hw], by simp [valueOf, hz, hi, hw], rfl, rfl, k⟩
        · simp only [Bool.false_eq_true, if_false, if_true, hw, fold_zero, any_perm (hord (h.sets.getD o.exc []))]
          refine ⟨h.sets, _, rfl, ?_, ?_, rfl, k⟩
          · simp only [valueOf, hz, hi, Bool.false_eq_true, if_false, hw]
            split
            · next e => rw [e]; rfl
            · next e => simp only [Bool.not_eq_true] at e; rw [e]; simp [hz]
          · split <;> rfl
    | false =>
      cases hi : o.inc.getD none with
      | none =>
        left
        exact ⟨.typeError, by simp, by simp [valueOf, hz, hi]⟩
      | some m =>
        by_cases hw : wcIsSubset m wc = true
        · right
          exact ⟨h.sets, { o with zero := some true }, by simp only [Bool.false_eq_true, if_false, if_true, hw], by simp [valueOf, hz, hi, hw], rfl, rfl, k⟩
        · simp only [Bool.false_eq_true, if_false, hw, valueOf, hz, hi]
          cases hs : scan wc (ord (h.sets.getD o.exc [])) [] with
          | error e => left; exact ⟨e, rfl, rfl⟩
          | ok r =>
            right
            cases r with
            | none =>
              refine ⟨h.sets, o, rfl, ?_, rfl, rfl, k⟩
              simp only [bind, Except.bind, pure, Except.pure, hz, hi]
            | some rem =>
              refine ⟨_, o, rfl, ?_, rfl, by simp, ⟨by simp, fun i hl hne => ?_⟩⟩
              · simp only [bind, Except.bind, pure, Except.pure, hz, hi, remove_all]
                rw [List.getD_eq_getElem?_getD, List.getD_eq_getElem?_getD, List.getElem?_set_self ho]
                simp
              · rw [List.getD_eq_getElem?_getD, List.getElem?_set_ne (Ne.symm hne), List.getD_eq_getElem?_getD]

theorem valueOf_kept {sets sets' : List (List Nat)} {r : Nat} (k : Kept sets sets' r) {o : Obj} (ho : o.exc < sets.length) (hr : o.exc ≠ r) :
    valueOf sets' o = valueOf sets o := by
  unfold valueOf
  rw [k.same _ ho hr]

theorem kept_new (sets : List (List Nat)) (more : List (List Nat)) (r : Nat) : Kept sets (sets ++ more) r :=
  ⟨by simp, fun i hi _ => by rw [List.getD_eq_getElem?_getD, List.getElem?_append_left hi, List.getD_eq_getElem?_getD]⟩

/-- A new object with a set of its own. -/
theorem Mem.Ok.push {h : Mem} (hh : h.Ok) {sets : List (List Nat)} {o : Obj} (k : Kept h.sets sets h.sets.length) (h1 : h.sets.length ≤ o.exc) (h2 : o.exc < sets.length) :
    Mem.Ok ⟨sets, h.objs ++ [o]⟩ ∧ (h.objs ++ [o]).map (valueOf sets) = h.objs.map (valueOf h.sets) ++ [valueOf sets o] := by
  refine ⟨⟨fun x hx => ?_, ?_⟩, ?_⟩
  · rcases List.mem_append.1 hx with hx | hx
    · exact Nat.lt_of_lt_of_le (hh.lt x hx) k.len
    · rw [List.mem_singleton.1 hx]; exact h2
  · simp only [List.map_append, List.map_cons, List.map_nil]
    refine List.nodup_append.2 ⟨hh.own, by simp, fun a ha b hb => ?_⟩
    obtain ⟨x, hx, rfl⟩ := List.mem_map.1 ha
    rw [List.mem_singleton.1 hb]
    have := hh.lt x hx
    omega
  · rw [List.map_append]
    congr 1
    apply List.map_congr_left
    intro x hx
    have := hh.lt x hx
    exact valueOf_kept k this (by omega)

theorem Mem.dup_spec (h : Mem) (o : Obj) :
    ∃ sets o', h.dup o = .ok (sets, o') ∧ Kept h.sets sets h.sets.length ∧ h.sets.length ≤ o'.exc ∧ o'.exc < sets.length ∧
      ∀ i, valueOf sets { o' with inc := some i } = { valueOf h.sets o with inc := i } ∧ valueOf sets o' = valueOf h.sets o := by
  refine ⟨h.sets ++ [[], h.exc o], ⟨some o.getZero, some o.getInc, h.sets.length + 1⟩, ?_, kept_new _ _ _, by simp, by simp, fun i => ⟨?_, ?_⟩⟩
  · simp [Mem.dup, Mem.init, Mem.newSet, bind, Except.bind, pure, Except.pure]
  · simp [valueOf, Mem.exc, Obj.getZero]
  · simp [valueOf, Mem.exc, Obj.getZero, Obj.getInc]

theorem getElem?_values {h : Mem} {i : Nat} : (h.objs.map (valueOf h.sets))[i]? = h.objs[i]?.map (valueOf h.sets) := List.getElem?_map ..

/-- One operation on objects is the operation on values. -/
theorem step_spec {n : Nat} {ord : List Nat → List Nat} (hord : ∀ l, (ord l).Perm l) {h : Mem} (hh : h.Ok) (op : Op) :
    (∃ e, h.step n ord op = .error e ∧ valStep n ord (h.objs.map (valueOf h.sets)) op = .error e) ∨
    ∃ h', h.step n ord op = .ok h' ∧ h'.Ok ∧ valStep n ord (h.objs.map (valueOf h.sets)) op = .ok (h'.objs.map (valueOf h'.sets)) := by
  cases op with
  | make wc =>
    cases wc with
    | none =>
      right
      have hp := hh.push (sets := h.sets ++ [[]]) (o := ⟨some true, none, h.sets.length⟩) (kept_new _ _ _) (Nat.le_refl _) (by simp)
      refine ⟨⟨h.sets ++ [[]], h.objs ++ [⟨some true, none, h.sets.length⟩]⟩, rfl, hp.1, ?_⟩
      rw [hp.2]
      simp [valStep, valueOf, nothing]
    | some w =>
      rcases addTo_spec (n := n) hord ⟨h.sets ++ [[]], h.objs⟩ ⟨none, none, h.sets.length⟩ (by simp) w true with ⟨e, e1, e2⟩ | ⟨sets', o', e1, e2, e3, e4, k⟩
      · left
        refine ⟨e, ?_, ?_⟩
        · simp only [Mem.step, Mem.init, Mem.newSet, e1]; rfl
        · have e2' : ofWc n ord w = .error e := by simpa [ofWc, valueOf] using e2
          simp only [valStep, e2', Except.map]
      · right
        have e2' : ofWc n ord w = .ok (valueOf sets' o') := by simpa [ofWc, valueOf] using e2
        simp only at e3 e4 k
        simp only [List.length_append, List.length_singleton] at e4
        have k' : Kept h.sets sets' h.sets.length := by
          refine ⟨by omega, fun i hi hne => ?_⟩
          rw [k.same i (by simp; omega) hne]
          rw [List.getD_eq_getElem?_getD, List.getElem?_append_left hi, List.getD_eq_getElem?_getD]
        have hp := hh.push k' (o := o') (by omega) (by omega)
        refine ⟨⟨sets', h.objs ++ [o']⟩, ?_, hp.1, ?_⟩
        · simp only [Mem.step, Mem.init, Mem.newSet, e1]; rfl
        · rw [hp.2]
          simp only [valStep, e2', Except.map]
  | dup i =>
    simp only [Mem.step, valStep, getElem?_values]
    cases hi : h.objs[i]? with
    | none => right; exact ⟨h, rfl, hh, rfl⟩
    | some o =>
      right
      obtain ⟨sets, o', e, k, h1, h2, hv⟩ := h.dup_spec o
      have hp := hh.push k h1 h2
      refine ⟨⟨sets, h.objs ++ [o']⟩, by simp only [e]; rfl, hp.1, ?_⟩
      rw [hp.2, (hv none).2]
      rfl
  | inter i w =>
    simp only [Mem.step, valStep, getElem?_values]
    cases hi : h.objs[i]? with
    | none => right; exact ⟨h, rfl, hh, rfl⟩
    | some o =>
      obtain ⟨sets, o', e, k, h1, h2, hv⟩ := h.dup_spec o
      cases hc : o.getInc with
      | none =>
        left
        refine ⟨.typeError, by simp only [e, bind, Except.bind, hc], ?_⟩
        have : (valueOf h.sets o).inc = none := hc
        simp only [Option.map_some, intersection, this, Except.map]
      | some m =>
        right
        have hp := hh.push (o := { o' with inc := some (some (wcIntersect n m w)) }) k h1 h2
        refine ⟨_, by simp only [e, bind, Except.bind, hc]; rfl, hp.1, ?_⟩
        rw [hp.2, (hv _).1]
        have : (valueOf h.sets o).inc = some m := hc
        simp only [Option.map_some, intersection, this, Except.map]
  | add i wc b =>
    simp only [Mem.step, valStep, getElem?_values]
    cases hi : h.objs[i]? with
    | none => right; exact ⟨h, rfl, hh, rfl⟩
    | some o =>
      have hlt := hh.lt o (List.mem_of_getElem? hi)
      rcases addTo_spec (n := n) hord h o hlt wc b with ⟨e, e1, e2⟩ | ⟨sets', o', e1, e2, e3, e4, k⟩
      · left; exact ⟨e, by simp only [e1]; rfl, by simp only [Option.map_some, e2, Except.map]⟩
      · right
        obtain ⟨hi', hio⟩ := List.getElem?_eq_some_iff.1 hi
        have hm : (h.objs.set i o').map (·.exc) = h.objs.map (·.exc) := by
          rw [List.map_set, e3]
          apply List.ext_getElem?
          intro j
          rw [List.getElem?_set]
          split
          · next hj => subst hj; simp [hi', hio]
          · rfl
        refine ⟨⟨sets', h.objs.set i o'⟩, by simp only [e1]; rfl, ⟨fun x hx => ?_, by rw [hm]; exact hh.own⟩, ?_⟩
        · have : x.exc ∈ h.objs.map (·.exc) := by rw [← hm]; exact List.mem_map_of_mem hx
          obtain ⟨y, hy, ey⟩ := List.mem_map.1 this
          rw [← ey]
          simp only [e4]
          exact hh.lt y hy
        · simp only [Option.map_some, e2, Except.map]
          congr 1
          rw [List.map_set]
          apply List.ext_getElem?
          intro j
          rw [List.getElem?_set, List.getElem?_set]
          by_cases hj : i = j
          · simp [hj]
          · rw [if_neg hj, if_neg hj, List.getElem?_map, List.getElem?_map]
            cases hx : h.objs[j]? with
            | none => rfl
            | some x =>
              have hxm := List.mem_of_getElem? hx
              have : x.exc ≠ o.exc := by
                intro he
                apply hj
                have a : (h.objs.map (·.exc))[i]? = some o.exc := by rw [List.getElem?_map, hi]; rfl
                have b : (h.objs.map (·.exc))[j]? = some o.exc := by rw [List.getElem?_map, hx, ← he]; rfl
                exact (List.getElem?_inj (by simpa using hi') hh.own).1 (a.trans b.symm)
              simp only [Option.map_some]
              rw [valueOf_kept k (hh.lt x hxm) this]

theorem run_spec {n : Nat} {ord : List Nat → List Nat} (hord : ∀ l, (ord l).Perm l) (ops : List Op) {h : Mem} (hh : h.Ok) :
    (h.run n ord ops).1.Ok ∧ valRun n ord (h.objs.map (valueOf h.sets)) ops = ((h.run n ord ops).1.objs.map (valueOf (h.run n ord ops).1.sets), (h.run n ord ops).2) := by
  induction ops generalizing h with
  | nil => exact ⟨hh, rfl⟩
  | cons op ops ih =>
    rcases step_spec (n := n) hord hh op with ⟨e, e1, e2⟩ | ⟨h', e1, hh', e2⟩
    · obtain ⟨i1, i2⟩ := ih hh
      simp only [Mem.run, valRun, e1, e2, i2]
      exact ⟨i1, trivial⟩
    · obtain ⟨i1, i2⟩ := ih hh'
      simp only [Mem.run, valRun, e1, e2, i2]
      exact ⟨i1, trivial⟩

end Shim
end OFE
