import Verif.Cudd.Iter
import Verif.Bdd.Spec

namespace OFE
namespace Cudd
open DD

variable {α : Type}

theorem cubes_length {size : Nat} (t : DD α) : ∀ c ∈ cubes size t, c.1.length = size := by
  induction t with
  | bot => simp [cubes]
  | term a => simp [cubes]
  | node i z o hz ho =>
    intro c hc
    simp only [cubes, List.mem_append, List.mem_map] at hc
    rcases hc with ⟨d, hd, rfl⟩ | ⟨d, hd, rfl⟩
    · simpa using hz d hd
    · simpa using ho d hd

theorem cubes_two {n size : Nat} (t : DD α) : ∀ {k : Nat}, WF n k t → ∀ c ∈ cubes size t, ∀ j, j < k → j < size →
    c.1[j]? = some 2 := by
  induction t with
  | bot => simp [cubes]
  | term a =>
    intro k _ c hc j _ hs
    simp only [cubes, List.mem_singleton] at hc
    subst hc
    simp [List.getElem?_replicate, hs]
  | node i z o hz ho =>
    intro k hw c hc j hj hs
    obtain ⟨h1, h2, _, h4, h5⟩ := hw
    simp only [cubes, List.mem_append, List.mem_map] at hc
    rcases hc with ⟨d, hd, rfl⟩ | ⟨d, hd, rfl⟩
    · have := hz h4 d hd j (by omega) hs
      simp only [List.getElem?_set]
      rw [if_neg (by omega)]; exact this
    · have := ho h5 d hd j (by omega) hs
      simp only [List.getElem?_set]
      rw [if_neg (by omega)]; exact this

theorem cubeWc_set0 {bits : Nat} : ∀ (l : List Nat) (i k wc : Nat), k < l.length → (∀ j, j ≤ k → l[j]? = some 2) →
    i + k ≤ bits →
    cubeWc bits i (l.set k 0) wc = cubeWc bits i l (andNot wc (2 <<< ((bits - (i + k)) * 2))) := by
  intro l
  induction l with
  | nil => intro i k wc h; simp at h
  | cons c l ih =>
    intro i k wc hk h2 hb
    have hc : c = 2 := by simpa using h2 0 (by omega)
    subst hc
    cases k with
    | zero =>
      simp only [Nat.add_zero] at hb
      simp [cubeWc, cubeStep, hb]
    | succ k =>
      have := ih (i + 1) k wc (by simpa using hk) (fun j hj => by simpa using h2 (j + 1) (by omega)) (by omega)
      simp only [List.set_cons_succ, cubeWc, cubeStep]
      simp only [show ((2 : Nat) = 0) = False from by simp, show ((2 : Nat) = 1) = False from by simp, if_false]
      rw [this, show i + 1 + k = i + (k + 1) from by omega]

theorem cubeWc_set1 {bits : Nat} : ∀ (l : List Nat) (i k wc : Nat), k < l.length → (∀ j, j ≤ k → l[j]? = some 2) →
    i + k ≤ bits →
    cubeWc bits i (l.set k 1) wc = cubeWc bits i l (andNot wc (1 <<< ((bits - (i + k)) * 2))) := by
  intro l
  induction l with
  | nil => intro i k wc h; simp at h
  | cons c l ih =>
    intro i k wc hk h2 hb
    have hc : c = 2 := by simpa using h2 0 (by omega)
    subst hc
    cases k with
    | zero =>
      simp only [Nat.add_zero] at hb
      simp [cubeWc, cubeStep, hb]
    | succ k =>
      have := ih (i + 1) k wc (by simpa using hk) (fun j hj => by simpa using h2 (j + 1) (by omega)) (by omega)
      simp only [List.set_cons_succ, cubeWc, cubeStep]
      simp only [show ((2 : Nat) = 0) = False from by simp, show ((2 : Nat) = 1) = False from by simp, if_false]
      rw [this, show i + 1 + k = i + (k + 1) from by omega]

theorem cubeWc_replicate {bits : Nat} : ∀ (m i wc : Nat), cubeWc bits i (List.replicate m 2) wc = .ok wc := by
  intro m
  induction m with
  | zero => intro i wc; rfl
  | succ m ih => intro i wc; simp [List.replicate_succ, cubeWc, cubeStep, ih]

/-- The cubes read one after the other are the recursive listing of paths. -/
theorem cubes_toWcsAux {m n size : Nat} (t : DD α) (hn : m ≤ n) (hs : m ≤ size) : ∀ {k : Nat}, WF m k t → ∀ wc,
    (cubes size t).map (fun c => (cubeWc (n - 1) 0 c.1 wc, c.2)) =
      (toWcsAux (n - 1) t wc).map (fun x => ((.ok x.1 : Except PyErr Nat), x.2)) := by
  induction t with
  | bot => intros; rfl
  | term a => intro k _ wc; simp [cubes, toWcsAux, cubeWc_replicate]
  | node i z o hz ho =>
    intro k hw wc
    obtain ⟨h1, h2, _, h4, h5⟩ := hw
    simp only [cubes, toWcsAux, List.map_append, List.map_map]
    congr 1
    · rw [← hz h4]
      apply List.map_congr_left
      intro c hc
      simp only [Function.comp_apply]
      rw [cubeWc_set0 c.1 0 i wc (by rw [cubes_length z c hc]; omega)
        (fun j hj => cubes_two z h4 c hc j (by omega) (by omega)) (by omega), Nat.zero_add]
    · rw [← ho h5]
      apply List.map_congr_left
      intro c hc
      simp only [Function.comp_apply]
      rw [cubeWc_set1 c.1 0 i wc (by rw [cubes_length o c hc]; omega)
        (fun j hj => cubes_two o h5 c hc j (by omega) (by omega)) (by omega), Nat.zero_add]

theorem sizeRec_toWcsAux (bits : Nat) (t : DD α) : ∀ wc, (toWcsAux bits t wc).length = sizeRec t := by
  induction t with
  | bot => intro; rfl
  | term a => intro; rfl
  | node i z o hz ho => intro wc; simp [toWcsAux, sizeRec, hz, ho]

theorem cubes_length_sizeRec (size : Nat) (t : DD α) : (cubes size t).length = sizeRec t := by
  induction t with
  | bot => rfl
  | term a => rfl
  | node i z o hz ho => simp [cubes, sizeRec, hz, ho]

/-- Reading a cube of the generator. -/
def cubeOut (size bits wc : Nat) (c : List Nat × Nat) : Except PyErr (Option (Nat × Nat × Nat)) :=
  match cubeRead size bits c.1 wc with
  | .error e => .error e
  | .ok w => .ok (some (w, (decode c.2).1, (decode c.2).2))

theorem next_nil {size : Nat} {it : Iter} (h : it.pending size = []) : it.next size = (.ok none, { it with gen := none }) := by
  simp [Iter.next, h]

theorem next_cons {size : Nat} {it : Iter} {c cs} (h : it.pending size = c :: cs) :
    it.next size = (cubeOut size it.bits it.wc c, { it with gen := some cs }) := by
  simp only [Iter.next, h, cubeOut]
  split <;> simp_all

theorem nexts_pending {size : Nat} : ∀ (cs : List (List Nat × Nat)) (it : Iter), it.pending size = cs →
    it.nexts size (cs.length + 1) = (cs.map (cubeOut size it.bits it.wc) ++ [.ok none], { it with gen := none }) := by
  intro cs
  induction cs with
  | nil => intro it h; simp [Iter.nexts, next_nil h]
  | cons c cs ih =>
    intro it h
    have := ih { it with gen := some cs } rfl
    simp only [List.length_cons, Iter.nexts] at this ⊢
    simp only [next_cons h]
    rw [Prod.mk.injEq] at this ⊢
    simp only [List.map_cons, List.cons_append]
    exact ⟨congrArg _ this.1, this.2⟩

theorem nexts_add {size : Nat} : ∀ (j k : Nat) (it : Iter),
    it.nexts size (j + k) = ((it.nexts size j).1 ++ ((it.nexts size j).2.nexts size k).1, ((it.nexts size j).2.nexts size k).2) := by
  intro j
  induction j with
  | zero => intro k it; simp [Iter.nexts]
  | succ j ih =>
    intro k it
    rw [show j + 1 + k = (j + k) + 1 from by omega]
    simp only [Iter.nexts, ih, List.cons_append]

theorem collect_pending {size : Nat} : ∀ (l : List (Nat × Nat × Nat)) (cs : List (List Nat × Nat)) (it : Iter) (k : Nat),
    it.pending size = cs → cs.map (cubeOut size it.bits it.wc) = l.map (fun x => .ok (some x)) → l.length < k →
    it.collect size k = .ok l := by
  intro l
  induction l with
  | nil =>
    intro cs it k h he hk
    cases cs with
    | cons c cs => simp at he
    | nil =>
      cases k with
      | zero => omega
      | succ k => simp [Iter.collect, next_nil h]
  | cons x l ih =>
    intro cs it k h he hk
    cases cs with
    | nil => simp at he
    | cons c cs =>
      simp only [List.map_cons, List.cons.injEq] at he
      cases k with
      | zero => omega
      | succ k =>
        have := ih cs { it with gen := some cs } k rfl he.2 (by simp at hk; omega)
        simp [Iter.collect, next_cons h, he.1, this]

theorem cubes_out {m n size : Nat} {t : DD Nat} (hw : WF m 0 t) (hn : m ≤ n) (hs : m ≤ size) (wc : Nat) :
    (cubes size t).map (cubeOut size (n - 1) wc) =
      (toWcsAux (n - 1) t wc).map (fun x => .ok (some (x.1, (decode x.2).1, (decode x.2).2))) := by
  have h := congrArg (List.map (fun y : Except PyErr Nat × Nat =>
    (match y.1 with | .error e => .error e | .ok w => .ok (some (w, (decode y.2).1, (decode y.2).2)) :
      Except PyErr (Option (Nat × Nat × Nat))))) (cubes_toWcsAux t hn hs hw wc)
  simp only [List.map_map] at h
  rw [show (toWcsAux (n - 1) t wc).map (fun x => (.ok (some (x.1, (decode x.2).1, (decode x.2).2)) :
      Except PyErr (Option (Nat × Nat × Nat)))) = _ from h.symm]
  apply List.map_congr_left
  intro c hc
  have hl := cubes_length t c hc
  rw [cubeOut, cubeRead, if_neg (by omega), List.take_of_length_le (by omega)]
  rfl

end Cudd
end OFE
