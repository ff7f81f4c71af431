import Verif.Store.Walk
import Verif.Store.WalkSpec
import Verif.Store.Lemmas
import Mathlib.Data.List.Dedup
import Mathlib.Data.List.Perm.Subperm

/-! # Lemmas on visiting nodes -/

namespace OFE
namespace Store
open DD
set_option linter.unusedSectionVars false
variable {α : Type} [DecidableEq α]

/-- A list, newest first, in which every node is new and comes after its children. -/
inductive Topo (nodes : List (Obj α)) : List Nat → Prop where
  | nil : Topo nodes []
  | cons {i l} : i ∉ l → (∀ b c, Branch nodes i b c → c ∈ l) → Topo nodes l → Topo nodes (i :: l)

theorem Topo.nodup {nodes : List (Obj α)} {l : List Nat} (h : Topo nodes l) : l.Nodup := by
  induction h with
  | nil => exact List.nodup_nil
  | cons h1 _ _ ih => exact List.nodup_cons.2 ⟨h1, ih⟩

theorem Topo.suffix {nodes : List (Obj α)} {l l' : List Nat} (h : Topo nodes (l ++ l')) : Topo nodes l' := by
  induction l with
  | nil => exact h
  | cons i l ih => cases h with | cons _ _ h => exact ih h

theorem Topo.closed {nodes : List (Obj α)} {l : List Nat} (h : Topo nodes l) {i j : Nat} (hi : i ∈ l) (hr : Reach nodes i j) : j ∈ l := by
  have key : ∀ i b c, i ∈ l → Branch nodes i b c → c ∈ l := by
    intro i b c hi hb
    obtain ⟨l1, l2, rfl⟩ := List.append_of_mem hi
    cases h.suffix with
    | cons _ h2 _ => exact List.mem_append_right _ (List.mem_cons_of_mem _ (h2 b c hb))
  induction hr with
  | self => exact hi
  | step _ hb ih => exact key _ _ _ ih hb

theorem Reach.trans {nodes : List (Obj α)} {i j k : Nat} (h : Reach nodes i j) (h' : Reach nodes j k) : Reach nodes i k := by
  induction h' with
  | self => exact h
  | step _ hb ih => exact .step ih hb

/-- What a walk is to do: yield nodes that are new and reachable. -/
def Walked (nodes : List (Obj α)) (r : Ref) (vis : List Nat) (res : Option (List Nat × List Nat)) : Prop :=
  ∃ l, res = some (l, l.reverse ++ vis) ∧ Topo nodes (l.reverse ++ vis) ∧ (∀ i, r = some i → i ∈ l.reverse ++ vis) ∧ ∀ j ∈ l, NodeOf nodes r j

theorem walkFrom_spec {nodes : List (Obj α)} (hlt : ∀ {i num : Nat} {z o : Ref} {h : Bool}, nodes[i]? = some (.node num z o h) → rank z ≤ i ∧ rank o ≤ i)
    (f i : Nat) (hf : i < f) (hi : i < nodes.length) (vis : List Nat) (ht : Topo nodes vis) : Walked nodes (some i) vis (walkFrom nodes f i vis) := by
  induction f generalizing i vis with
  | zero => omega
  | succ f ih =>
    by_cases hv : i ∈ vis
    · exact ⟨[], by simp [walkFrom, hv], by simpa using ht, fun j hj => by cases hj; simpa using hv, by simp⟩
    · obtain ⟨x, hx⟩ : ∃ x, nodes[i]? = some x := ⟨nodes[i], List.getElem?_eq_getElem hi⟩
      cases x with
      | term a =>
        refine ⟨[i], by simp [walkFrom, hv, hx], ?_, fun j hj => by cases hj; simp, fun j hj => ?_⟩
        · refine .cons hv (fun b c hb => ?_) ht
          cases hb with
          | zero h => rw [hx] at h; cases h
          | one h => rw [hx] at h; cases h
        · simp only [List.mem_singleton] at hj
          exact ⟨i, rfl, by rw [hj]; exact .self⟩
      | node num z o h =>
        obtain ⟨hz, ho⟩ := hlt hx
        have part : ∀ r : Ref, rank r ≤ i → ∀ v, Topo nodes v → Walked nodes r v (walkChild (walkFrom nodes f) r v) := by
          intro r hr v hv
          cases r with
          | none => exact ⟨[], rfl, by simpa using hv, by simp, by simp⟩
          | some c =>
            simp only [rank] at hr
            exact ih c (by omega) (by omega) v hv
        obtain ⟨l, e1, t1, m1, r1⟩ := part z hz vis ht
        obtain ⟨l', e2, t2, m2, r2⟩ := part o ho _ t1
        have e3 : walkFrom nodes (f + 1) i vis = some (l ++ l' ++ [i], i :: (l'.reverse ++ (l.reverse ++ vis))) := by
          rw [walkFrom]
          simp only [if_neg hv, hx, e1, e2, Option.bind_some, Option.map_some]
        refine ⟨l ++ l' ++ [i], by rw [e3]; simp, ?_, fun j hj => by cases hj; simp, fun j hj => ?_⟩
        · simp only [List.reverse_append, List.reverse_cons, List.reverse_nil, List.nil_append, List.append_assoc, List.cons_append]
          refine .cons ?_ ?_ t2
          · intro hm
            simp only [List.mem_append, List.mem_reverse] at hm
            have lower : ∀ c : Nat, (some c = z ∨ some c = o) → Reach nodes c i → False := by
              have mono : ∀ a b, Reach nodes a b → b ≤ a := by
                intro a b hab
                induction hab with
                | self => omega
                | step _ hb ih' =>
                  cases hb with
                  | zero hh => have := (hlt hh).1; simp only [rank] at this; omega
                  | one hh => have := (hlt hh).2; simp only [rank] at this; omega
              intro c hc hr
              have := mono _ _ hr
              rcases hc with rfl | rfl <;> simp only [rank] at hz ho <;> omega
            rcases hm with hm | hm | hm
            · obtain ⟨c, hc, hr⟩ := r2 i hm
              exact lower c (.inr hc.symm) hr
            · obtain ⟨c, hc, hr⟩ := r1 i hm
              exact lower c (.inl hc.symm) hr
            · exact hv hm
          · intro b c hb
            cases hb with
            | zero hh =>
              rw [hx] at hh; cases hh
              exact List.mem_append_right _ (m1 c rfl)
            | one hh =>
              rw [hx] at hh; cases hh
              exact m2 c rfl
        · simp only [List.mem_append, List.mem_singleton] at hj
          have up : ∀ {b c}, Branch nodes i b c → Reach nodes i c := fun hb => .step .self hb
          rcases hj with (hj | hj) | rfl
          · obtain ⟨c, rfl, hr⟩ := r1 j hj
            exact ⟨i, rfl, (up (.zero hx)).trans hr⟩
          · obtain ⟨c, rfl, hr⟩ := r2 j hj
            exact ⟨i, rfl, (up (.one hx)).trans hr⟩
          · exact ⟨_, rfl, .self⟩

theorem walk_spec {nodes : List (Obj α)} (hlt : ∀ {i num : Nat} {z o : Ref} {h : Bool}, nodes[i]? = some (.node num z o h) → rank z ≤ i ∧ rank o ≤ i)
    (root : Ref) (hr : rank root ≤ nodes.length) : ∃ l, walk nodes root = some l ∧ Topo nodes l.reverse ∧ ∀ i, i ∈ l ↔ NodeOf nodes root i := by
  cases root with
  | none => exact ⟨[], rfl, .nil, by simp [NodeOf]⟩
  | some r =>
    simp only [rank] at hr
    obtain ⟨l, e, t, m, h⟩ := walkFrom_spec hlt (r + 1) r (by omega) (by omega) [] .nil
    simp only [List.append_nil] at t m
    refine ⟨l, by simp [walk, e], t, fun i => ⟨h i, ?_⟩⟩
    rintro ⟨r', hr', hi⟩
    cases hr'
    exact List.mem_reverse.1 (t.closed (m r rfl) hi)

/-! ## Nodes and trees -/

theorem Rep.reach {nodes : List (Obj α)} {r : Ref} {t : DD α} (h : Rep nodes r t) {i : Nat} (hi : NodeOf nodes r i) :
    ∃ s, Rep nodes (some i) s ∧ Sub s t := by
  obtain ⟨r', rfl, hr⟩ := hi
  have ne : ∀ {i s}, Rep nodes (some i) s → s ≠ DD.bot := by
    intro i s hs; cases hs <;> simp
  have down : ∀ {s t : DD α}, Sub s t → ∀ u, Sub u s → Sub u t := by
    intro s t hst
    induction hst with
    | self _ => exact fun u hu => hu
    | zero _ ih => exact fun u hu => .zero (ih u hu)
    | one _ ih => exact fun u hu => .one (ih u hu)
  induction hr with
  | self => exact ⟨t, h, .self (ne h)⟩
  | step _ hb ih =>
    obtain ⟨s, hs, hst⟩ := ih
    cases hb with
    | zero hh =>
      cases hs with
      | term h2 => rw [hh] at h2; cases h2
      | node h2 a b => rw [hh] at h2; cases h2; exact ⟨_, a, down hst _ (.zero (.self (ne a)))⟩
    | one hh =>
      cases hs with
      | term h2 => rw [hh] at h2; cases h2
      | node h2 a b => rw [hh] at h2; cases h2; exact ⟨_, b, down hst _ (.one (.self (ne b)))⟩

theorem Rep.sub {nodes : List (Obj α)} {r : Ref} {t : DD α} (h : Rep nodes r t) {s : DD α} (hs : Sub s t) :
    ∃ i, Rep nodes (some i) s ∧ NodeOf nodes r i := by
  have lift : ∀ {i b c j : Nat} {bb : Bool}, Branch nodes i bb c → Reach nodes c j → Reach nodes i j := fun hb hr => (Reach.step .self hb).trans hr
  induction h with
  | bot => cases hs with | self h => exact absurd rfl h
  | @term i a h1 => cases hs; exact ⟨i, .term h1, i, rfl, .self⟩
  | @node i num z o hn tz to' h1 a b i1 i2 =>
    cases hs with
    | self _ => exact ⟨i, .node h1 a b, i, rfl, .self⟩
    | zero hs =>
      obtain ⟨j, hj, c, rfl, hr⟩ := i1 hs
      exact ⟨j, hj, i, rfl, (Reach.step .self (.zero h1)).trans hr⟩
    | one hs =>
      obtain ⟨j, hj, c, rfl, hr⟩ := i2 hs
      exact ⟨j, hj, i, rfl, (Reach.step .self (.one h1)).trans hr⟩

end Store

namespace DD
set_option linter.unusedSectionVars false
variable {α : Type} [DecidableEq α]

theorem mem_under {s t : DD α} : s ∈ under t → s = bot ∨ Sub s t := by
  induction t with
  | bot => intro h; simp only [under, List.mem_singleton] at h; exact .inl h
  | term a => intro h; simp only [under, List.mem_singleton] at h; subst h; exact .inr (.self (by simp))
  | node num z o iz io =>
    intro h
    simp only [under, List.mem_cons, List.mem_append] at h
    rcases h with rfl | h | h
    · exact .inr (.self (by simp))
    · exact (iz h).imp id .zero
    · exact (io h).imp id .one

theorem sub_under {s t : DD α} (h : Sub s t) : s ∈ under t := by
  induction h with
  | self h => cases s with
    | bot => exact absurd rfl h
    | term => simp [under]
    | node => simp [under]
  | zero _ ih => simp [under, ih]
  | one _ ih => simp [under, ih]

theorem sub_ne_bot {s t : DD α} (h : Sub s t) : s ≠ bot := by
  induction h with
  | self h => exact h
  | zero _ ih => exact ih
  | one _ ih => exact ih

/-- Without the nodes that do nothing. -/
def reduce : DD α → DD α
  | bot => bot
  | term a => term a
  | node num z o => mk num (reduce z) (reduce o)

theorem eval_reduce (t : DD α) (q : Nat → Bool) : (reduce t).eval q = t.eval q := by
  induction t with
  | bot => rfl
  | term a => rfl
  | node num z o iz io => rw [reduce, eval_mk, iz, io]; rfl

/-- An ordered tree, in which nodes may do nothing. -/
def Ord (n : Nat) : Nat → DD α → Prop
  | _, bot => True
  | _, term _ => True
  | k, node num z o => k ≤ num ∧ num < n ∧ Ord n (num + 1) z ∧ Ord n (num + 1) o

theorem wf_reduce {n k : Nat} {t : DD α} (h : Ord n k t) : WF n k (reduce t) := by
  induction t generalizing k with
  | bot => trivial
  | term a => trivial
  | node num z o iz io => exact wf_mk h.1 h.2.1 (iz h.2.2.1) (io h.2.2.2)

theorem sub_reduce {s t : DD α} (h : Sub s (reduce t)) : ∃ s', Sub s' t ∧ reduce s' = s := by
  induction t with
  | bot => exact absurd rfl (by cases h with | self h => exact h)
  | term a => cases h; exact ⟨term a, .self (by simp), rfl⟩
  | node num z o iz io =>
    simp only [reduce, mk] at h
    split at h
    · obtain ⟨s', h1, h2⟩ := iz h
      exact ⟨s', .zero h1, h2⟩
    · rename_i hne
      cases h with
      | self _ => exact ⟨node num z o, .self (by simp), by simp [reduce, mk, hne]⟩
      | zero h => obtain ⟨s', h1, h2⟩ := iz h; exact ⟨s', .zero h1, h2⟩
      | one h => obtain ⟨s', h1, h2⟩ := io h; exact ⟨s', .one h1, h2⟩

/-- The tree under every reduced diagram of the function. -/
theorem reduce_eq {n : Nat} {t t' : DD α} (h : WF n 0 t) (h' : Ord n 0 t') (he : ∀ p, t'.lookup n p = t.lookup n p) : reduce t' = t :=
  lookup_ext (wf_reduce h') h fun p => by
    rw [← he]
    exact eval_reduce _ _

end DD

namespace Store
open DD
variable {α : Type} [DecidableEq α]

theorem OrdFrom.rep {nodes : List (Obj α)} {n k : Nat} {r : Ref} (h : OrdFrom nodes n k r) : ∃ t, Rep nodes r t ∧ Ord n k t := by
  induction h with
  | none => exact ⟨DD.bot, .bot, trivial⟩
  | term h => exact ⟨_, .term h, trivial⟩
  | node h h1 h2 _ _ iz io =>
    obtain ⟨tz, a1, a2⟩ := iz
    obtain ⟨to', b1, b2⟩ := io
    exact ⟨_, .node h a1 b1, h1, h2, a2, b2⟩

/-- The nodes that a walk yields stand for the trees under the root, each once. -/
theorem walk_trees {n : Nat} {d : α} {s : St α} (hi : Inv n d s) {r : Ref} {t : DD α} (h : Rep s.nodes r t) :
    ∃ l, walk s.nodes r = some l ∧ l.Nodup ∧ (∀ i, i ∈ l ↔ NodeOf s.nodes r i) ∧ ∀ ts : List (DD α), ts.Nodup → (∀ u, u ∈ ts ↔ Sub u t) →
      l.length = ts.length := by
  obtain ⟨l, e, ht, hm⟩ := walk_spec hi.lt r h.rank_le
  refine ⟨l, e, List.nodup_reverse.1 ht.nodup, hm, fun ts hn hts => ?_⟩
  have hex : ∀ i, ∃ u, NodeOf s.nodes r i → Rep s.nodes (some i) u ∧ Sub u t := by
    intro i
    by_cases hi' : NodeOf s.nodes r i
    · obtain ⟨u, h1, h2⟩ := h.reach hi'
      exact ⟨u, fun _ => ⟨h1, h2⟩⟩
    · exact ⟨bot, fun h => absurd h hi'⟩
  choose tree htree using hex
  have h1 : (l.map tree).Nodup := by
    rw [List.nodup_map_iff_inj_on (List.nodup_reverse.1 ht.nodup)]
    intro i hi1 j hj1 hij
    have a := (htree i ((hm i).1 hi1)).1
    have b := (htree j ((hm j).1 hj1)).1
    rw [hij] at a
    exact Option.some.inj (a.inj hi b)
  have h2 : (l.map tree).Perm ts := by
    refine (List.perm_ext_iff_of_nodup h1 hn).2 fun u => ?_
    rw [hts, List.mem_map]
    constructor
    · rintro ⟨i, hi1, rfl⟩
      exact (htree i ((hm i).1 hi1)).2
    · intro hu
      obtain ⟨i, h3, h4⟩ := h.sub hu
      exact ⟨i, (hm i).2 h4, ((htree i h4).1).functional h3⟩
  rw [← h2.length_eq, List.length_map]

end Store
end OFE
