import Verif.Ovs.Doc

/-!
# Specification: groups and files of Open vSwitch (ovs-ofctl(8), Group Syntax)
-/

namespace OFE.Ovs
open Fmt

/-- Specification: the types of groups. -/
def docTypes : List (List Char) := ["all".toList, "select".toList, "indirect".toList, "ff".toList, "fast_failover".toList]

/-- Specification: the parameters of a bucket other than its actions. -/
def docBucketKeys : List (List Char) := ["weight".toList, "watch_port".toList, "watch_group".toList, "bucket_id".toList]

/-- Specification: weight:5 or weight=5 -/
inductive DocBucketArg : List Char → Prop
  | mk {key t : List Char} {sep : Char} {n : Nat} : key ∈ docBucketKeys → sep = ':' ∨ sep = '=' → Denotes .num t n → DocBucketArg (key ++ sep :: t)

/-- Specification: weight:5,actions=dec_ttl,output:1 and the actions it stands for. -/
inductive DocBucket (g : Nat → Option Nat) : List Char → List Action → Prop
  | mk {ps ts : List (List Char)} {ass : List (List Action)} : (∀ p ∈ ps, DocBucketArg p) → List.Forall₂ (DocAct g) ts ass →
      DocBucket g ((ps.map (· ++ [','])).flatten ++ ("actions=".toList ++ joinWith ',' ts)) ass.flatten

/-- Specification: group_id=1,type=select,bucket=weight:5,actions=output:1,bucket=actions=output:2 and its number, type and buckets. -/
inductive DocGroup (g : Nat → Option Nat) : List Char → Nat → List Char → List (List Action) → Prop
  | mk {t ty : List Char} {n : Nat} {bts : List (List Char)} {ass : List (List Action)} : Denotes .num t n → ty ∈ docTypes → bts ≠ [] →
      List.Forall₂ (DocBucket g) bts ass →
      DocGroup g ("group_id=".toList ++ (t ++ (",type=".toList ++ (ty ++ (bts.map (",bucket=".toList ++ ·)).flatten)))) n ty ass

/-- Specification: a line with white space around it. -/
def Padded (line l : List Char) : Prop :=
  ∃ a b, line = a ++ (l ++ b) ∧ (∀ c ∈ a ++ b, c ∈ [' ', '\t', '\r']) ∧ ∀ c, l.head? = some c ∨ l.getLast? = some c → c ∉ [' ', '\t', '\n', '\r', '\x0b', '\x0c']

/-- Specification: the lines of a file, those of them that are groups, and those that are flows. -/
inductive DocFile : List (List Char) → List (List Char) → List (List Char) → Prop
  | nil : DocFile [] [] []
  | group {line l : List Char} {ls gs fs : List (List Char)} : Padded line l → "group_id=".toList <:+: l → DocFile ls gs fs → DocFile (line :: ls) (l :: gs) fs
  | flow {line l : List Char} {ls gs fs : List (List Char)} : Padded line l → "actions=".toList <:+: l → ¬ "group_id=".toList <:+: l → DocFile ls gs fs →
      DocFile (line :: ls) gs (l :: fs)
  | other {line : List Char} {ls gs fs : List (List Char)} : ¬ "actions=".toList <:+: line → ¬ "group_id=".toList <:+: line → DocFile ls gs fs →
      DocFile (line :: ls) gs fs

/-- Specification: group lines with different numbers, each referring to earlier ones only; their numbers, types and buckets. -/
inductive DocGroups : List (List Char) → List (Nat × List Char × List (List Action)) → Prop
  | nil : DocGroups [] []
  | snoc {gs : List (List Char)} {xs : List (Nat × List Char × List (List Action))} {l ty : List Char} {n : Nat} {ass : List (List Action)} :
      DocGroups gs xs → n ∉ xs.map (·.1) → DocGroup (fun k => if k ∈ xs.map (·.1) then some k else none) l n ty ass →
      DocGroups (gs ++ [l]) (xs ++ [(n, ty, ass)])

end OFE.Ovs
