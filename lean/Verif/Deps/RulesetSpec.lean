import Verif.Deps.PathSpec

/-! # Specification: direct dependencies in a pipeline -/

namespace OFE
namespace Deps

variable {π : Type}

/-- The packet, in the table of `s`, meets `s` first: it matches `s` and no rule of that table with a higher priority. -/
def FirstAt (rs : List (URule π)) (s : URule π) (p : Pkt) : Prop :=
  s ∈ rs ∧ s.2.mat.accepts p ∧ ∀ q ∈ rs, q.2.table = s.2.table → s.2.priority < q.2.priority → ¬ q.2.mat.accepts p

/-- Taking `r` away, the packet goes on to `s` of the same table: it matches both and no rule in between. -/
def NextBelow (rs : List (URule π)) (r s : URule π) (p : Pkt) : Prop :=
  r ∈ rs ∧ s ∈ rs ∧ r.2.table = s.2.table ∧ s.2.priority < r.2.priority ∧ r.2.mat.accepts p ∧ s.2.mat.accepts p ∧
    ∀ q ∈ rs, q.2.table = s.2.table → s.2.priority < q.2.priority → q.2.priority < r.2.priority → ¬ q.2.mat.accepts p

/-- The packet matches `r`, and as `r` hands it on it meets `s` first in the table that `r` goes to. -/
def GoesTo (rs : List (URule π)) (r s : URule π) (p : Pkt) : Prop :=
  r ∈ rs ∧ r.2.mat.accepts p ∧ r.2.inst.goto = some s.2.table ∧ FirstAt rs s (r.2.inst.forward p)

/-- Well-built rules without push and pop, each with a number of its own; gotos lead to later tables; rules of one table and priority do not overlap. -/
structure DirectOK (rs : List (URule π)) : Prop where
  ok : ∀ r ∈ rs, RuleOK r.2
  flat : ∀ r ∈ rs, FlatActs r.2.inst.apply.iter
  ids : (rs.map (·.1)).Nodup
  goto : ∀ r ∈ rs, ∀ n, r.2.inst.goto = some n → r.2.table < n
  ties : ∀ r ∈ rs, ∀ s ∈ rs, r.2.table = s.2.table → r.2.priority = s.2.priority → r.1 ≠ s.1 → ¬ ∃ p, r.2.mat.accepts p ∧ s.2.mat.accepts p

/-- In the table of `d`, `d` is the lowest rule and the only one that matches every packet. -/
structure MissRule (rs : List (URule π)) (d : URule π) : Prop where
  mem : d ∈ rs
  all : ∀ p, d.2.mat.accepts p
  low : ∀ r ∈ rs, r.2.table = d.2.table → r.1 ≠ d.1 → d.2.priority < r.2.priority ∧ ∃ p, ¬ r.2.mat.accepts p

/-- The rules that a packet entering table `t` is handled by, one per table along gotos, up to the last or to any before. -/
inductive Run (rs : List (URule π)) : Nat → Pkt → List (URule π) → Prop where
  | last {t p r} : r.2.table = t → FirstAt rs r p → Run rs t p [r]
  | step {t p r n l} : r.2.table = t → FirstAt rs r p → r.2.inst.goto = some n → Run rs n (r.2.inst.forward p) l → Run rs t p (r :: l)

end Deps
end OFE
