import Verif.Ttp.Spec
import Verif.Ryu.InstLemmas

/-!
# Lemmas on table type patterns: what can be read is read like the corresponding Ryu message
-/

namespace OFE.Ttp
open Ryu

/-- The number of an action name (proof device, see `wireActions`). -/
def codeOf (name : String) : Nat :=
  match ["OUTPUT", "COPY_TTL_OUT", "COPY_TTL_IN", "SET_MPLS_TTL", "DEC_MPLS_TTL", "PUSH_VLAN", "POP_VLAN", "PUSH_MPLS", "POP_MPLS", "SET_QUEUE", "GROUP",
    "SET_NW_TTL", "DEC_NW_TTL", "PUSH_PBB", "POP_PBB"].zip [0, 11, 12, 15, 16, 17, 18, 19, 20, 21, 22, 23, 24, 26, 27] |>.lookup name with
  | some n => n
  | none => 99

/-- The corresponding Ryu action (proof device). -/
def trAct : TAct → RAct
  | .plain name arg => .plain (codeOf name) arg
  | .setField (.field f) (.num v) => .setField f (.num v)
  | .setField (.field f) (.text t) => .setField f (.text t)
  | .setField _ _ => .plain 99 0

/-- The corresponding Ryu instruction (proof device). -/
def trInst : TInst → RInst
  | .goto (some (.num n)) => .goto n
  | .goto _ => .other 0
  | .clear => .actions 5 []
  | .apply l => .actions 4 (l.map trAct)
  | .write l => .actions 3 (l.map trAct)
  | .other _ => .other 0

theorem codes : ttpActions.map (fun x => (codeOf x.1, x.2)) = wireActions := by
  simp [ttpActions, wireActions, codeOf, List.lookup]

theorem tr_means {a : TAct} {b : Action} (h : TMeans a b) : ActMeans (trAct a) b := by
  cases h with
  | @plain name f arg h =>
    have : (codeOf name, f) ∈ wireActions := by
      rw [← codes]
      exact List.mem_map.2 ⟨(name, f), h, rfl⟩
    exact .plain arg this
  | num => exact .num _ _
  | text h hk => exact .text h hk

theorem tr_read {a : TAct} (h : TReadable a) : Readable (trAct a) ∧ ∃ b, actionFromTtp a = .ok (some b) ∧ actionFromRyu (trAct a) = .ok b := by
  cases h with
  | @plain name f arg h hn =>
    have hm : TMeans (.plain name arg) (f arg) := .plain arg h
    refine ⟨⟨f arg, tr_means hm, ?_⟩, f arg, ?_, actMeans_read (tr_means hm)⟩
    · simp only [ttpActions, List.mem_cons, List.not_mem_nil, or_false, Prod.mk.injEq] at h
      rcases h with h | h | h | h | h | h | h | h | h | h | h | h | h | h | h <;> obtain ⟨rfl, rfl⟩ := h <;> rfl
    · simp only [ttpActions, List.mem_cons, List.not_mem_nil, or_false, Prod.mk.injEq] at h
      rcases h with h | h | h | h | h | h | h | h | h | h | h | h | h | h | h <;> obtain ⟨rfl, rfl⟩ := h <;>
        first | exact absurd rfl hn | rfl
  | num f v hf => exact ⟨⟨_, .num f v, by simp [Action.known, hf]⟩, _, rfl, rfl⟩

theorem tr_actions (app : ActionList → Action → Except PyErr ActionList) {l : List TAct} (h : ∀ a ∈ l, TReadable a) :
    actionsFromTtp app l = actionsFromRyu app (l.map trAct) := by
  unfold actionsFromTtp actionsFromRyu
  generalize ActionList.empty = x
  induction l generalizing x with
  | nil => rfl
  | cons a l ih =>
    obtain ⟨-, b, e1, e2⟩ := tr_read (h a List.mem_cons_self)
    rw [List.map_cons, List.foldlM_cons, List.foldlM_cons]
    simp only [e1, e2, bind, Except.bind, appendOpt]
    cases app x b with
    | error e => rfl
    | ok y => exact ih (fun a ha => h a (List.mem_cons_of_mem _ ha)) y

theorem tr_fine {x : TInst} (h : x.Fine) : (trInst x).Fine := by
  cases x with
  | goto found => obtain ⟨n, rfl⟩ := h; trivial
  | clear => intro a ha; cases ha
  | apply l =>
    intro a ha
    obtain ⟨b, hb, rfl⟩ := List.mem_map.1 ha
    exact (tr_read (h b hb)).1
  | write l =>
    intro a ha
    obtain ⟨b, hb, rfl⟩ := List.mem_map.1 ha
    exact (tr_read (h b hb)).1
  | other => cases h

theorem tr_step (i : Inst) {x : TInst} (h : x.Fine) : ttpInstStep (i, true) x = (instStep i (trInst x)).map fun j => (j, true) := by
  cases x with
  | goto found => obtain ⟨n, rfl⟩ := h; rfl
  | clear => simp [ttpInstStep, trInst, instStep, itWrite, itApply, itClear, Except.map]
  | apply l =>
    simp only [ttpInstStep, trInst, instStep, tr_actions _ h]
    rw [if_neg (by decide), if_pos (by trivial)]
    cases actionsFromRyu ActionList.append (l.map trAct) <;> rfl
  | write l =>
    simp only [ttpInstStep, trInst, instStep, tr_actions _ h]
    rw [if_pos (by trivial)]
    cases actionsFromRyu actionSetAppend (l.map trAct) <;> rfl
  | other => cases h

theorem tr_fold {l : List TInst} (h : ∀ x ∈ l, x.Fine) : ∀ i, l.foldlM ttpInstStep (i, true) = ((l.map trInst).foldlM instStep i).map fun j => (j, true) := by
  induction l with
  | nil => intro i; rfl
  | cons x l ih =>
    intro i
    rw [List.map_cons, List.foldlM_cons, List.foldlM_cons, tr_step i (h x List.mem_cons_self)]
    cases instStep i (trInst x) with
    | error e => rfl
    | ok j => exact ih (fun y hy => h y (List.mem_cons_of_mem _ hy)) j

theorem filterMap_tr {β γ : Type} (f : RInst → Option γ) (g : TInst → Option β) (k : β → γ) (h : ∀ x, f (trInst x) = (g x).map k) (l : List TInst) :
    (l.map trInst).filterMap f = (l.filterMap g).map k := by
  induction l with
  | nil => rfl
  | cons x l ih =>
    rw [List.map_cons, List.filterMap_cons, List.filterMap_cons, h]
    cases g x <;> simp [ih]

theorem forall₂_tr {l : List TAct} {s : List Action} (h : List.Forall₂ TMeans l s) : List.Forall₂ ActMeans (l.map trAct) s := by
  induction h with
  | nil => exact .nil
  | cons h _ ih => exact .cons (tr_means h) ih

theorem tr_prog {l : List TInst} {q : Prog} (h : TProgOf l q) : ProgOf (l.map trInst) q := by
  have ha : ∀ x, RInst.applied (trInst x) = (TInst.applied x).map (List.map trAct) := by
    intro x; rcases x with (_ | (_ | _ | _)) | _ | _ | _ | _ <;> rfl
  have hw : ∀ x, RInst.written (trInst x) = (TInst.written x).map (List.map trAct) := by
    intro x; rcases x with (_ | (_ | _ | _)) | _ | _ | _ | _ <;> rfl
  have hm : ∀ x, RInst.metadata (trInst x) = (none : Option Nat).map fun v => (v, v) := by
    intro x; rcases x with (_ | (_ | _ | _)) | _ | _ | _ | _ <;> rfl
  have hn : ∀ x, RInst.next (trInst x) = (TInst.next x).map id := by
    intro x; rcases x with (_ | (_ | _ | _)) | _ | _ | _ | _ <;> rfl
  have hc : ∀ x, RInst.clears (trInst x) = TInst.clears x := by
    intro x; rcases x with (_ | (_ | _ | _)) | _ | _ | _ | _ <;> rfl
  have hget : ∀ o : Option (List TAct), (o.map (List.map trAct)).getD [] = (o.getD []).map trAct := by
    intro o; cases o <;> rfl
  constructor
  · rw [filterMap_tr _ _ _ ha, List.getLast?_map, hget]
    exact forall₂_tr h.apply
  · rw [filterMap_tr _ _ _ hw, List.getLast?_map, hget]
    exact forall₂_tr h.write
  · rw [h.clear, List.any_map]
    congr 1
    funext x
    exact (hc x).symm
  · rw [h.wmeta, filterMap_tr _ (fun _ => none) _ hm]
    simp
  · rw [h.goto, filterMap_tr _ _ _ hn]
    simp

/-- The entry of a match that a field becomes. -/
def TField.triple (x : TField) : Nat × Nat × Option Nat :=
  (x.field, (match x.value with | .num v => v | _ => 0), (match x.mask with | .num k => some k | _ => none))

theorem fields_ok : ∀ {l : List TField} (m : Match), (∀ x ∈ l, (∃ v, x.value = .num v) ∧ ((∃ k, x.mask = .num k) ∨ x.mask = .none)) →
    l.foldlM fieldStep m = .ok ((l.map TField.triple).foldl (fun m x => m.append x.1 x.2.1 x.2.2) m)
  | [], m, _ => rfl
  | x :: l, m, h => by
    have ih := fields_ok (l := l)
    obtain ⟨⟨v, hv⟩, hk⟩ := h x List.mem_cons_self
    have e : fieldStep m x = .ok (m.append x.triple.1 x.triple.2.1 x.triple.2.2) := by
      rcases hk with ⟨k, hk⟩ | hk <;> simp [fieldStep, TField.triple, hv, hk]
    rw [List.foldlM_cons, e]
    simp only [bind, Except.bind, List.map_cons, List.foldl_cons]
    exact ih _ fun y hy => h y (List.mem_cons_of_mem _ hy)

theorem accepts_triple {x : TField} (h : (∃ v, x.value = .num v) ∧ ((∃ k, x.mask = .num k) ∨ x.mask = .none)) (p : Pkt) :
    x.accepts p ↔ MatchesField p.hdr x.triple := by
  obtain ⟨⟨v, hv⟩, hk⟩ := h
  rcases hk with ⟨k, hk⟩ | hk <;> simp [TField.accepts, TField.triple, hv, hk]

end OFE.Ttp
