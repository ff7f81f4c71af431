import Verif.Actions.SetLemmas
import Verif.Props.ActionsSem

/-! # C23: action sets -/

namespace OFE

/-- **C23** After appending any sequence `s` of actions with table entries to an empty `ActionSet`:
* an action is in the set exactly when it is the last of its type in `s` (for set-fields: of its field), except that an OUTPUT is
  in only if `s` contains no GROUP (GROUP displaces OUTPUT, a later OUTPUT is ignored);
* there is at most one action per type (per field);
* the actions are held in the OpenFlow action-set order;
* iterating the set has, for every packet, the effect of executing that order. -/
theorem C23_action_set (s : List Action) (hk : ∀ a ∈ s, a.known = true) :
    ∃ l, actionSetOfList s = .ok l ∧
      (∀ a, a ∈ l.iter ↔ (∃ before after, s = before ++ a :: after ∧ ∀ b ∈ after, b.toType ≠ a.toType) ∧
        ((∃ n, a = .output n) → ∀ g, Action.group g ∉ s)) ∧
      l.orig.Pairwise (fun a b => a.toType ≠ b.toType ∧ a.ty ≤ b.ty) ∧
      l.iter.Perm l.orig ∧ SameEffect l.iter l.orig ∧ ActionList.ofList l.orig = .ok l := by
  obtain ⟨l, h1, h2⟩ := setInv_ofList s [] _ setInv_empty (by simpa [AllKnown] using hk)
  rw [List.nil_append] at h2
  have hko : AllKnown l.orig := fun x hx => hk x ((h2.content x).1 hx).1.mem
  have hl : ActionList.ofList l.orig = .ok l := by
    rw [ofList_known hko]
    cases l with
    | mk lv o => simp only [mkList, Except.ok.injEq, ActionList.mk.injEq, and_true]; exact h2.levels.symm
  refine ⟨l, h1, fun a => ?_, h2.slots.and h2.sorted, h2.iter_perm, C56_canonical_effect _ _ hl, hl⟩
  rw [h2.iter_perm.mem_iff, h2.content]
  have e1 : (a.isOutput = true) ↔ ∃ n, a = .output n := by cases a <;> simp [Action.isOutput]
  have e2 : (∀ g ∈ s, g.isGroup = false) ↔ ∀ g, Action.group g ∉ s := by
    constructor
    · intro h g hg; have := h _ hg; simp [Action.isGroup] at this
    · intro h g hg; cases g <;> simp [Action.isGroup]; exact h _ hg
  rw [e1, e2]; rfl

example : actionSetOfList [.output 1, .setField 6 5, .pushVlan 0x8100, .setField 6 7, .group 3, .output 9, .setField 3 2] =
    .ok ⟨[[.pushVlan 0x8100, .setField 3 2], [.setField 6 7], [.group 3]],
      [.pushVlan 0x8100, .setField 6 7, .setField 3 2, .group 3]⟩ := by decide +kernel

end OFE
