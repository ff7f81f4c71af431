import Verif.Tree.Spec
import Verif.Deps.IndirectLemmas
import Mathlib.Data.List.Basic
import Mathlib.Data.List.Nodup

/-! # Lemmas: dependency trees -/

namespace OFE
namespace Tree

variable {ν : Type}

theorem Anc.trans {par : ν → List ν} {a b c : ν} (h : Anc par a b) (h' : Anc par b c) : Anc par a c := by
  induction h with
  | parent hp => exact .up hp h'
  | up hp _ ih => exact .up hp (ih h')

theorem Anc.mono {par par' : ν → List ν} (h : ∀ n p, p ∈ par n → p ∈ par' n) {a b : ν} (ha : Anc par a b) : Anc par' a b := by
  induction ha with
  | parent hp => exact .parent (h _ _ hp)
  | up hp _ ih => exact .up (h _ _ hp) ih

theorem Anc.lt {par : ν → List ν} {height : ν → Nat} (h : ∀ n p, p ∈ par n → height p < height n) {a b : ν} (ha : Anc par a b) : height b < height a := by
  induction ha with
  | parent hp => exact h _ _ hp
  | up hp _ ih => exact Nat.lt_trans ih (h _ _ hp)

theorem anc_iff {par : ν → List ν} {n a : ν} : Anc par n a ↔ a ∈ par n ∨ ∃ p ∈ par n, Anc par p a := by
  constructor
  · intro h
    cases h with
    | parent hp => exact .inl hp
    | up hp h => exact .inr ⟨_, hp, h⟩
  · rintro (h | ⟨p, h, h'⟩)
    · exact .parent h
    · exact .up h h'

theorem foldlM_collect {α β : Type} {f : α → Except PyErr (List β)} (P : α → β → Prop) : ∀ (l : List α) (s : List β),
    (∀ x ∈ l, ∃ ys, f x = .ok ys ∧ ∀ y, y ∈ ys ↔ P x y) →
    ∃ r, l.foldlM (fun acc x => do return acc ++ (← f x)) s = .ok r ∧ ∀ y, y ∈ r ↔ y ∈ s ∨ ∃ x ∈ l, P x y
  | [], s, _ => ⟨s, rfl, by simp⟩
  | x :: l, s, h => by
    obtain ⟨ys, h1, h2⟩ := h x (by simp)
    obtain ⟨r, h3, h4⟩ := foldlM_collect P l (s ++ ys) fun z hz => h z (List.mem_cons_of_mem _ hz)
    refine ⟨r, ?_, fun y => ?_⟩
    · rw [List.foldlM_cons]
      simp only [h1, bind, Except.bind, pure, Except.pure] at h3 ⊢
      exact h3
    · rw [h4, List.mem_append, h2, List.exists_mem_cons_iff, or_assoc]

section
variable [DecidableEq ν]

theorem getParents_spec {par : ν → List ν} {height : ν → Nat} (h : ∀ n p, p ∈ par n → height p < height n) (fuel : Nat) :
    ∀ n, height n < fuel → ∃ l, getParents par fuel n = .ok l ∧ ∀ a, a ∈ l ↔ Anc par n a := by
  induction fuel with
  | zero => intro n hn; omega
  | succ fuel ih =>
    intro n hn
    obtain ⟨r, h1, h2⟩ := foldlM_collect (f := getParents par fuel) (Anc par) (par n) (par n) fun p hp => ih p (by have := h n p hp; omega)
    exact ⟨r, h1, fun a => by rw [h2, anc_iff]⟩

/-- Removing a list of parents. -/
theorem unlink_all {height : ν → Nat} (n : ν) (items : List ν) : ∀ (t : Links ν), LinksOK height t → items.Nodup → (∀ x ∈ items, x ∈ t.par n) →
    ∃ t', items.foldlM (unlink n) t = .ok t' ∧ LinksOK height t' ∧ (∀ m, m ≠ n → t'.par m = t.par m) ∧ (t'.par n).Sublist (t.par n) ∧
      ∀ p, p ∈ t'.par n ↔ p ∈ t.par n ∧ p ∉ items := by
  induction items with
  | nil => intro t ht _ _; exact ⟨t, rfl, ht, fun _ _ => rfl, List.Sublist.refl _, by simp⟩
  | cons x items ih =>
    intro t ht hnd hsub
    rw [List.nodup_cons] at hnd
    have hx := hsub x (by simp)
    have hc := (ht.mirror n x).1 hx
    let t1 : Links ν := ⟨setAt t.par n ((t.par n).erase x), setAt t.chi x ((t.chi x).erase n)⟩
    have e1 : unlink n t x = .ok t1 := by simp [unlink, listRemove, hx, hc, bind, Except.bind, pure, Except.pure, t1]
    have hmem : ∀ p, p ∈ (t.par n).erase x ↔ p ≠ x ∧ p ∈ t.par n := fun p => (ht.nodupP n).mem_erase_iff
    have hmemc : ∀ m, m ∈ (t.chi x).erase n ↔ m ≠ n ∧ m ∈ t.chi x := fun m => (ht.nodupC x).mem_erase_iff
    have ok1 : LinksOK height t1 := by
      refine ⟨fun m p => ?_, fun m => ?_, fun m => ?_, fun m p => ?_⟩
      · simp only [t1, setAt]
        by_cases h1 : m = n <;> by_cases h2 : p = x
        · subst h1 h2; simp [hmem, hmemc]
        · subst h1; rw [if_pos rfl, if_neg h2, hmem, ← ht.mirror]; simp [h2]
        · subst h2; rw [if_neg h1, if_pos rfl, hmemc, ht.mirror]; simp [h1]
        · rw [if_neg h1, if_neg h2, ht.mirror]
      · simp only [t1, setAt]
        split
        · exact (ht.nodupP n).erase x
        · exact ht.nodupP m
      · simp only [t1, setAt]
        split
        · exact (ht.nodupC x).erase n
        · exact ht.nodupC m
      · simp only [t1, setAt]
        split
        · rename_i he
          subst he
          intro h
          exact ht.height _ _ ((hmem p).1 h).2
        · exact ht.height m p
    have hp1 : t1.par n = (t.par n).erase x := by simp [t1, setAt]
    obtain ⟨t', e2, ok2, k2, s2, m2⟩ := ih t1 ok1 hnd.2 fun y hy => by
      rw [hp1, hmem]
      exact ⟨fun h => hnd.1 (h ▸ hy), hsub y (List.mem_cons_of_mem _ hy)⟩
    refine ⟨t', by rw [List.foldlM_cons, e1]; exact e2, ok2, fun m hm => ?_, ?_, fun p => ?_⟩
    · rw [k2 m hm]; simp [t1, setAt, hm]
    · rw [hp1] at s2
      exact s2.trans List.erase_sublist
    · rw [m2, hp1, hmem]
      simp only [List.mem_cons, not_or]
      constructor
      · rintro ⟨⟨a, b⟩, c⟩; exact ⟨b, a, c⟩
      · rintro ⟨b, a, c⟩; exact ⟨⟨a, b⟩, c⟩

theorem simplifyNode_spec {height : ν → Nat} {ord : List ν → List ν} (hord : ∀ l, (ord l).Perm l) {limit : Nat} (hl : ∀ n, height n ≤ limit) {t : Links ν}
    (ht : LinksOK height t) (n : ν) :
    ∃ t', simplifyNode ord limit t n = .ok t' ∧ LinksOK height t' ∧ (∀ m, m ≠ n → t'.par m = t.par m) ∧ (t'.par n).Sublist (t.par n) ∧
      (∀ p, p ∈ t'.par n ↔ Direct t.par n p) ∧ ∀ a b, Anc t'.par a b ↔ Anc t.par a b := by
  obtain ⟨above, e1, h1⟩ := foldlM_collect (f := getParents t.par limit) (Anc t.par) (t.par n) [] fun p hp =>
    getParents_spec ht.height limit p (by have := ht.height n p hp; have := hl n; omega)
  let mine := (t.par n).foldl (fun s x => Deps.setAdd x s) []
  have hmine : ∀ x, x ∈ mine ↔ x ∈ t.par n := by
    intro x
    have := Deps.mem_foldl_setAdd (fun _ : ν => True) id (t.par n) [] x
    simpa [mine] using this
  have hnd : mine.Nodup := by
    have := Deps.foldl_nodup (fun _ : ν => True) id (t.par n) [] List.nodup_nil
    simpa [mine] using this
  let items := ord (mine.filter fun x => decide (x ∈ above))
  have hperm := hord (mine.filter fun x => decide (x ∈ above))
  have hitems : ∀ x, x ∈ items ↔ x ∈ t.par n ∧ ∃ q ∈ t.par n, Anc t.par q x := by
    intro x
    rw [hperm.mem_iff, List.mem_filter, hmine, decide_eq_true_eq, h1]
    simp
  obtain ⟨t', e2, ok, k, s, m⟩ := unlink_all n items t ht (hperm.nodup_iff.2 (hnd.filter _)) fun x hx => ((hitems x).1 hx).1
  have hdir : ∀ p, p ∈ t'.par n ↔ Direct t.par n p := by
    intro p
    rw [m, hitems]
    unfold Direct
    constructor
    · rintro ⟨a, b⟩; exact ⟨a, fun q hq hr => b ⟨a, q, hq, hr⟩⟩
    · rintro ⟨a, b⟩; exact ⟨a, fun ⟨_, q, hq, hr⟩ => b q hq hr⟩
  have hsub : ∀ x p, p ∈ t'.par x → p ∈ t.par x := by
    intro x p hp
    by_cases hx : x = n
    · subst hx; exact ((m p).1 hp).1
    · rw [k x hx] at hp; exact hp
  have low : ∀ a b, height a < height n → Anc t.par a b → Anc t'.par a b := by
    intro a b ha hab
    induction hab with
    | @parent x p hp =>
      refine .parent ?_
      rw [k x (fun h => by subst h; omega)]
      exact hp
    | @up x p a' hp _ ih =>
      refine .up (p := p) ?_ (ih (by have := ht.height x p hp; omega))
      rw [k x (fun h => by subst h; omega)]
      exact hp
  have here : ∀ j p, height n - height p ≤ j → p ∈ t.par n → Anc t'.par n p := by
    intro j
    induction j with
    | zero => intro p hj hp; have := ht.height n p hp; omega
    | succ j ih =>
      intro p hj hp
      by_cases hq : ∃ q ∈ t.par n, Anc t.par q p
      · obtain ⟨q, hq1, hq2⟩ := hq
        have h2 := ht.height n q hq1
        have h3 := hq2.lt ht.height
        exact (ih q (by omega) hq1).trans (low q p h2 hq2)
      · exact .parent ((hdir p).2 ⟨hp, fun q hq1 hq2 => hq ⟨q, hq1, hq2⟩⟩)
  refine ⟨t', ?_, ok, k, s, hdir, fun a b => ⟨Anc.mono hsub, fun hab => ?_⟩⟩
  · unfold simplifyNode
    simp only [bind, Except.bind] at e1 ⊢
    rw [e1]
    exact e2
  · have edge : ∀ x p, p ∈ t.par x → Anc t'.par x p := by
      intro x p hp
      by_cases hx : x = n
      · subst hx; exact here _ p (Nat.le_refl _) hp
      · exact .parent (by rw [k x hx]; exact hp)
    induction hab with
    | parent hp => exact edge _ _ hp
    | up hp _ ih => exact (edge _ _ hp).trans ih

theorem simplifyTree_spec {height : ν → Nat} {ord : List ν → List ν} (hord : ∀ l, (ord l).Perm l) {limit : Nat} (hl : ∀ n, height n ≤ limit) (t0 : Links ν)
    (nodes : List ν) : ∀ (t : Links ν) (done : ν → Prop), LinksOK height t → (∀ m, (t.par m).Sublist (t0.par m)) →
    (∀ a b, Anc t.par a b ↔ Anc t0.par a b) → (∀ m, done m → ∀ p, p ∈ t.par m ↔ Direct t0.par m p) → (∀ m, ¬ done m → t.par m = t0.par m) →
    ∃ t', simplifyTree ord limit nodes t = .ok t' ∧ LinksOK height t' ∧ (∀ m, (t'.par m).Sublist (t0.par m)) ∧
      (∀ a b, Anc t'.par a b ↔ Anc t0.par a b) ∧ (∀ m, done m ∨ m ∈ nodes → ∀ p, p ∈ t'.par m ↔ Direct t0.par m p) ∧
      ∀ m, ¬ (done m ∨ m ∈ nodes) → t'.par m = t0.par m := by
  induction nodes with
  | nil => intro t done h1 h2 h3 h4 h5; exact ⟨t, rfl, h1, h2, h3, by simpa using h4, by simpa using h5⟩
  | cons n nodes ih =>
    intro t done h1 h2 h3 h4 h5
    obtain ⟨t1, e1, ok1, k1, s1, d1, a1⟩ := simplifyNode_spec hord hl h1 n
    have hD : ∀ p, Direct t.par n p ↔ Direct t0.par n p := by
      intro p
      by_cases hd : done n
      · constructor
        · intro h; exact (h4 n hd p).1 h.1
        · intro h
          refine ⟨(h4 n hd p).2 h, fun q hq hr => ?_⟩
          exact h.2 q ((h4 n hd q).1 hq).1 ((h3 q p).1 hr)
      · unfold Direct
        rw [h5 n hd]
        simp only [h3]
    have hs1 : ∀ m, (t1.par m).Sublist (t0.par m) := by
      intro m
      by_cases hm : m = n
      · subst hm; exact s1.trans (h2 m)
      · rw [k1 m hm]; exact h2 m
    obtain ⟨t', e2, r1, r2, r3, r4, r5⟩ := ih t1 (fun m => done m ∨ m = n) ok1 hs1 (fun a b => (a1 a b).trans (h3 a b))
      (fun m hm p => by
        by_cases hmn : m = n
        · subst hmn; rw [d1, hD]
        · rw [k1 m hmn]; exact h4 m (hm.resolve_right hmn) p)
      (fun m hm => by
        rw [not_or] at hm
        rw [k1 m hm.2, h5 m hm.1])
    refine ⟨t', ?_, r1, r2, r3, fun m hm => r4 m ?_, fun m hm => r5 m ?_⟩
    · unfold simplifyTree at e2 ⊢
      rw [List.foldlM_cons, e1]
      exact e2
    · rw [List.mem_cons] at hm; tauto
    · rw [List.mem_cons] at hm; tauto

theorem nodeToTree_spec (deps : List (ν × ν)) (nodes : List ν) (hin : ∀ e ∈ deps, e.1 ∈ nodes ∧ e.2 ∈ nodes) :
    ∃ t, nodeToTree deps nodes = .ok t ∧ (∀ n, t.par n = (deps.filter fun e => decide (e.2 = n)).map (·.1)) ∧
      ∀ n, t.chi n = (deps.filter fun e => decide (e.1 = n)).map (·.2) := by
  have key : ∀ (l : List (ν × ν)) (s : Links ν), (∀ e ∈ l, e.1 ∈ nodes ∧ e.2 ∈ nodes) →
      ∃ t, l.foldlM (fun t e => if e.1 ∈ nodes ∧ e.2 ∈ nodes then (.ok ⟨setAt t.par e.2 (t.par e.2 ++ [e.1]), setAt t.chi e.1 (t.chi e.1 ++ [e.2])⟩ : Except PyErr (Links ν))
        else .error .attributeError) s = .ok t ∧ (∀ n, t.par n = s.par n ++ (l.filter fun e => decide (e.2 = n)).map (·.1)) ∧
      ∀ n, t.chi n = s.chi n ++ (l.filter fun e => decide (e.1 = n)).map (·.2) := by
    intro l
    induction l with
    | nil => intro s _; exact ⟨s, rfl, by simp, by simp⟩
    | cons e l ih =>
      intro s h
      obtain ⟨t, e1, p1, c1⟩ := ih ⟨setAt s.par e.2 (s.par e.2 ++ [e.1]), setAt s.chi e.1 (s.chi e.1 ++ [e.2])⟩ fun x hx => h x (List.mem_cons_of_mem _ hx)
      refine ⟨t, ?_, fun n => ?_, fun n => ?_⟩
      · rw [List.foldlM_cons, if_pos (h e (by simp))]
        exact e1
      · rw [p1, List.filter_cons]
        simp only [setAt, decide_eq_true_eq]
        by_cases hn : n = e.2
        · subst hn; simp
        · rw [if_neg hn, if_neg (Ne.symm hn)]
      · rw [c1, List.filter_cons]
        simp only [setAt, decide_eq_true_eq]
        by_cases hn : n = e.1
        · subst hn; simp
        · rw [if_neg hn, if_neg (Ne.symm hn)]
  obtain ⟨t, e1, p1, c1⟩ := key deps ⟨fun _ => [], fun _ => []⟩ hin
  exact ⟨t, e1, by simpa using p1, by simpa using c1⟩

end
end Tree
end OFE
