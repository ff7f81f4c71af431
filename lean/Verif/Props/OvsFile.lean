import Verif.Ovs.FileWrite
import Verif.Props.OvsRead
import Verif.Rule.SetSem

/-!
# C69: files of flows and groups are read line by line, groups first

The documented form is in `Ovs/FileDoc.lean`.  What is partial: a group without buckets, a bucket that refers to a group further down, upper case in a
bucket, a bucket without `actions=`, lists of fields, and weights; what happens to them is at the end.  Groups are not written (`C66`).
-/

namespace OFE.Ovs
open Fmt

theorem set_effect {as : List Action} {b : ActionList} (hk : AllKnown as) (e : actionSetOfList as = .ok b) : SameEffect (finalSet as) b.iter := by
  obtain ⟨l, e', h⟩ := setInv_ofList as [] .empty setInv_empty (by simpa using hk)
  rw [show List.foldlM actionSetAppend ActionList.empty as = .ok b from e] at e'
  cases e'
  exact setInv_effect (by simpa using h) hk

theorem sets_effect {l : List ActionList} {ass : List (List Action)} (hk : ∀ as ∈ ass, ∀ a ∈ as, a.known = true)
    (h : List.Forall₂ (fun b as => actionSetOfList as = .ok b) l ass) : List.Forall₂ (fun b as => SameEffect (finalSet as) b.iter) l ass := by
  induction h with
  | nil => exact .nil
  | cons e _ ih => exact .cons (set_effect (hk _ List.mem_cons_self) e) (ih fun x hx => hk x (List.mem_cons_of_mem _ hx))

/-- C69: a documented group line is read as the number, the type and the buckets that it documents. -/
theorem C69_group_partial (groups : List (Nat × Nat)) (line ty : List Char) (n : Nat) (ass : List (List Action))
    (h : DocGroup (fun n => groups.lookup n) line n ty ass) :
    ∃ bs, parseGroup groups line = .ok ⟨some n, some ty, bs⟩ ∧ List.Forall₂ (fun b as => SameEffect (finalSet as) b.iter) bs ass := by
  have hk := docGroup_known h
  obtain ⟨bs, hb⟩ := actionSets_exist hk
  exact ⟨bs, docGroup_reads h hb, sets_effect hk hb⟩

theorem text1 : Denotes .num "1".toList 1 := .dec (ds := [1]) (by decide) (.cons rfl .nil) (.inl (by decide))
theorem text2 : Denotes .num "2".toList 2 := .dec (ds := [2]) (by decide) (.cons rfl .nil) (.inl (by decide))

/-- A group with two buckets, the first of them with a weight and in an order that an action set does not keep. -/
theorem groupSample_doc (g : Nat → Option Nat) : DocGroup g "group_id=1,type=select,bucket=weight:5,actions=output:2,dec_ttl,bucket=actions=output:0x2a".toList 1
    "select".toList [[.output 2, .decNwTtl], [.output 42]] :=
  .mk (t := "1".toList) (ty := "select".toList) (bts := ["weight:5,actions=output:2,dec_ttl".toList, "actions=output:0x2a".toList]) text1 (by decide) (by decide)
    (.cons (.mk (ps := ["weight:5".toList]) (ts := ["output:2".toList, "dec_ttl".toList]) (ass := [[.output 2], [.decNwTtl]])
        (fun p hp => by
          rw [List.mem_singleton] at hp; subst hp
          exact .mk (key := "weight".toList) (sep := ':') (by decide) (.inl rfl) text5)
        (.cons (.output text2) (.cons (.plain (by decide)) .nil)))
      (.cons (.mk (ps := []) (ts := ["output:0x2a".toList]) (ass := [[.output 42]]) (by simp) (.cons (.output text2a) .nil)) .nil))

example : ∃ bs, parseGroup [] "group_id=1,type=select,bucket=weight:5,actions=output:2,dec_ttl,bucket=actions=output:0x2a".toList =
      .ok ⟨some 1, some "select".toList, bs⟩ ∧
    List.Forall₂ (fun b as => SameEffect (finalSet as) b.iter) bs [[.output 2, .decNwTtl], [.output 42]] :=
  C69_group_partial [] _ _ _ _ (groupSample_doc _)

/-- C69: what the whole file gives: the rules of the flow lines, in their order, each read with all groups of the file, and the groups as documented. -/
theorem C69_file_partial {π : Type} (ls gl fl : List (List Char)) (xs : List (Nat × List Char × List (List Action))) (rs : List (Rule π))
    (hf : DocFile ls gl fl) (hg : DocGroups gl xs)
    (hr : List.Forall₂ (fun l r => ruleFromOvs (π := π) ((xs.map (·.1)).map fun n => (n, n)) l = .ok r) fl rs) :
    ∃ ys, rulesetFromOvs (π := π) ls = .ok (rs, ys) ∧ List.Forall₂ (fun x y => y.1 = some x.1 ∧ y.2.number = some x.1 ∧ y.2.type = some x.2.1 ∧
      List.Forall₂ (fun b as => SameEffect (finalSet as) b.iter) y.2.buckets x.2.2) xs ys := by
  obtain ⟨ys, e, hy, hk⟩ := docGroups_read hg
  refine ⟨ys, ?_, ?_⟩
  · unfold rulesetFromOvs
    rw [docFile_lines hf]
    simp only [bind, Except.bind, e]
    rw [known_read hy]
    have : fl.mapM (fun l => ruleFromOvs (π := π) ((xs.map (·.1)).map fun n => (n, n)) l) = .ok rs := by
      clear hf
      induction hr with
      | nil => rfl
      | cons e1 _ ih => rw [List.mapM_cons, e1, ih]; rfl
    rw [this]
    rfl
  · clear e hg hr
    induction hy with
    | nil => exact .nil
    | cons h _ ih => exact .cons ⟨h.1, h.2.1, h.2.2.1, sets_effect (hk _ List.mem_cons_self) h.2.2.2⟩ (ih fun x hx => hk x (List.mem_cons_of_mem _ hx))

/-- The groups of the sample file. -/
def groupsSample : List (Nat × List Char × List (List Action)) := [(1, "select".toList, [[.output 2, .decNwTtl], [.output 42]]), (2, "all".toList, [[.group 1]])]

/-- A flow line before the groups that it uses, a comment, an indented group, and a group that uses the other one. -/
def fileSample : List (List Char) := ["  priority=5,tcp actions=group:2 ".toList, "# comment".toList,
  "\tgroup_id=1,type=select,bucket=weight:5,actions=output:2,dec_ttl,bucket=actions=output:0x2a".toList, "group_id=2,type=all,bucket=actions=group:1".toList]

theorem hasText_no {p s : List Char} (h : hasText p s = false) : ¬ p <:+: s := fun hi => by
  rw [hasText_iff.2 hi] at h; cases h

theorem fileSample_doc : DocFile fileSample ["group_id=1,type=select,bucket=weight:5,actions=output:2,dec_ttl,bucket=actions=output:0x2a".toList,
    "group_id=2,type=all,bucket=actions=group:1".toList] ["priority=5,tcp actions=group:2".toList] := by
  refine .flow ⟨[' ', ' '], [' '], by decide +kernel, by decide +kernel, ?_⟩ (hasText_iff.1 (by decide +kernel)) (hasText_no (by decide +kernel))
    (.other (hasText_no (by decide +kernel)) (hasText_no (by decide +kernel))
      (.group ⟨['\t'], [], by decide +kernel, by decide +kernel, ?_⟩ (hasText_iff.1 (by decide +kernel))
        (.group ⟨[], [], by decide +kernel, by decide +kernel, ?_⟩ (hasText_iff.1 (by decide +kernel)) .nil)))
  · rintro c (h | h)
    · rw [show "priority=5,tcp actions=group:2".toList.head? = some 'p' from by decide +kernel] at h; cases h; decide
    · rw [show "priority=5,tcp actions=group:2".toList.getLast? = some '2' from by decide +kernel] at h; cases h; decide
  · rintro c (h | h)
    · rw [show "group_id=1,type=select,bucket=weight:5,actions=output:2,dec_ttl,bucket=actions=output:0x2a".toList.head? = some 'g' from by decide +kernel] at h
      cases h; decide
    · rw [show "group_id=1,type=select,bucket=weight:5,actions=output:2,dec_ttl,bucket=actions=output:0x2a".toList.getLast? = some 'a' from by decide +kernel] at h
      cases h; decide
  · rintro c (h | h)
    · rw [show "group_id=2,type=all,bucket=actions=group:1".toList.head? = some 'g' from by decide +kernel] at h; cases h; decide
    · rw [show "group_id=2,type=all,bucket=actions=group:1".toList.getLast? = some '1' from by decide +kernel] at h; cases h; decide

theorem groupsSample_doc : DocGroups ["group_id=1,type=select,bucket=weight:5,actions=output:2,dec_ttl,bucket=actions=output:0x2a".toList,
    "group_id=2,type=all,bucket=actions=group:1".toList] groupsSample :=
  .snoc (gs := ["group_id=1,type=select,bucket=weight:5,actions=output:2,dec_ttl,bucket=actions=output:0x2a".toList])
    (xs := [(1, "select".toList, [[.output 2, .decNwTtl], [.output 42]])])
    (.snoc (gs := []) (xs := []) .nil (by simp) (groupSample_doc _)) (by decide)
    (.mk (t := "2".toList) (ty := "all".toList) (bts := ["actions=group:1".toList]) text2 (by decide) (by decide)
      (.cons (.mk (ps := []) (ts := ["group:1".toList]) (ass := [[.group 1]]) (by simp) (.cons (.group (x := 1) text1 rfl) .nil)) .nil))

/-- The flow of the sample file. -/
def flowSample : Rule Nat := ⟨5, none, 0, (Match.empty.append 5 0x0800 none).append 10 6 none, { Inst.empty with apply := mkList [.group 2] }, []⟩

theorem flowSample_read : ruleFromOvs (π := Nat) [(1, 1), (2, 2)] "priority=5,tcp actions=group:2".toList = .ok flowSample := by
  unfold ruleFromOvs
  have : splitOn "actions=".toList "priority=5,tcp actions=group:2".toList = ["priority=5,tcp ".toList, "group:2".toList] := by
    have := splitOn_first (a := 'a') (q := "ctions=".toList) (u := "priority=5,tcp ".toList) (s := "group:2".toList) (by decide) (hasText_no (by decide +kernel))
    rw [splitOn_absent (s := "group:2".toList) (hasText_no (by decide +kernel))] at this
    exact this
  rw [this]
  decide +kernel

example : ∃ ys, rulesetFromOvs fileSample = .ok ([flowSample], ys) ∧ List.Forall₂ (fun x y => y.1 = some x.1 ∧ y.2.number = some x.1 ∧ y.2.type = some x.2.1 ∧
      List.Forall₂ (fun b as => SameEffect (finalSet as) b.iter) y.2.buckets x.2.2) groupsSample ys :=
  C69_file_partial _ _ _ _ _ fileSample_doc groupsSample_doc (.cons flowSample_read .nil)

/-- C69: a number that is used twice stops the reader. -/
theorem C69_duplicate {π : Type} (ls gl gl' fl : List (List Char)) (xs : List (Nat × List Char × List (List Action))) (l ty : List Char) (n : Nat)
    (ass : List (List Action)) (hf : DocFile ls (gl ++ l :: gl') fl) (hg : DocGroups gl xs) (hn : n ∈ xs.map (·.1))
    (hl : DocGroup (fun k => if k ∈ xs.map (·.1) then some k else none) l n ty ass) : rulesetFromOvs (π := π) ls = .error .assertion := by
  obtain ⟨ys, e, hy, -⟩ := docGroups_read hg
  have hl' : DocGroup (fun k => (known ys).lookup k) l n ty ass := by
    have : (fun k => (known ys).lookup k) = fun k => if k ∈ xs.map (·.1) then some k else none := by
      funext k; rw [known_read hy, lookup_diag]
    rw [this]; exact hl
  obtain ⟨bs, eb, -⟩ := C69_group_partial _ _ _ _ _ hl'
  have hin : (ys.lookup (some n)).isSome = true := by
    have hk := isRead_keys hy
    cases hlk : ys.lookup (some n) with
    | some _ => rfl
    | none =>
      rw [List.lookup_eq_none_iff] at hlk
      obtain ⟨x, hx, rfl⟩ := List.mem_map.1 hn
      have : some x.1 ∈ ys.map (·.1) := by rw [hk]; exact List.mem_map.2 ⟨x, hx, rfl⟩
      obtain ⟨y, hy', e'⟩ := List.mem_map.1 this
      have := hlk y hy'
      rw [e'] at this
      simp at this
  unfold rulesetFromOvs
  rw [docFile_lines hf]
  simp only [List.foldlM_append, List.foldlM_cons, e, bind, Except.bind, addGroup, eb, hin, if_true]

example : rulesetFromOvs (π := Nat) ["group_id=1,type=select,bucket=weight:5,actions=output:2,dec_ttl,bucket=actions=output:0x2a".toList,
    "group_id=1,type=select,bucket=weight:5,actions=output:2,dec_ttl,bucket=actions=output:0x2a".toList] = .error .assertion := by
  have hp : Padded "group_id=1,type=select,bucket=weight:5,actions=output:2,dec_ttl,bucket=actions=output:0x2a".toList
      "group_id=1,type=select,bucket=weight:5,actions=output:2,dec_ttl,bucket=actions=output:0x2a".toList := by
    refine ⟨[], [], by simp, by simp, ?_⟩
    rintro c (h | h)
    · rw [show "group_id=1,type=select,bucket=weight:5,actions=output:2,dec_ttl,bucket=actions=output:0x2a".toList.head? = some 'g' from by decide +kernel] at h
      cases h; decide
    · rw [show "group_id=1,type=select,bucket=weight:5,actions=output:2,dec_ttl,bucket=actions=output:0x2a".toList.getLast? = some 'a' from by decide +kernel] at h
      cases h; decide
  exact C69_duplicate _ ["group_id=1,type=select,bucket=weight:5,actions=output:2,dec_ttl,bucket=actions=output:0x2a".toList] [] [] 
    [(1, "select".toList, [[.output 2, .decNwTtl], [.output 42]])] _ _ 1 _
    (.group hp (hasText_iff.1 (by decide +kernel)) (.group hp (hasText_iff.1 (by decide +kernel)) .nil)) (.snoc (gs := []) (xs := []) .nil (by simp) (groupSample_doc _)) (by decide)
    (groupSample_doc _)

/-- C69: rules that are written to a file are read back, in the same order, as equal rules (with the cookie 0 where there was none). -/
theorem C69_round_trip_partial {π : Type} (rs : List (Rule π)) (h : ∀ r ∈ rs, WritableRule r) :
    ∃ text rs', rulesetToOvs rs = .ok text ∧ rulesetFromOvs (π := π) (fileLines text) = .ok (rs', []) ∧
      List.Forall₂ (fun r' r => r'.eq { r with cookie := some (r.cookie.getD 0) } = true) rs' rs := by
  have key : ∃ ts rs', rs.mapM ruleToOvs = .ok ts ∧ (∀ t ∈ ts, '\n' ∉ t) ∧ DocFile (ts ++ [[]]) [] ts ∧
      List.Forall₂ (fun l r => ruleFromOvs (π := π) [] l = .ok r) ts rs' ∧
      List.Forall₂ (fun r' r => r'.eq { r with cookie := some (r.cookie.getD 0) } = true) rs' rs := by
    induction rs with
    | nil => exact ⟨[], [], rfl, by simp, .other (by decide) (by decide) .nil, .nil, .nil⟩
    | cons r rs ih =>
      obtain ⟨ts, rs', e, hn, hd, hf, hq⟩ := ih fun x hx => h x (List.mem_cons_of_mem _ hx)
      obtain ⟨t, r', et, er, eq⟩ := C66_round_trip_partial [] r (h r List.mem_cons_self)
      obtain ⟨s1, s2, s3, s4⟩ := rule_shape (h r List.mem_cons_self) et
      refine ⟨t :: ts, r' :: rs', by rw [List.mapM_cons, et, e]; rfl, ?_, .flow s2 s3 s4 hd, .cons er hf, .cons eq hq⟩
      intro x hx
      rcases List.mem_cons.1 hx with rfl | hx
      · exact s1
      · exact hn x hx
  obtain ⟨ts, rs', e, hn, hd, hf, hq⟩ := key
  obtain ⟨ys, ey, hy⟩ := C69_file_partial _ _ _ [] rs' hd .nil hf
  cases hy
  refine ⟨_, rs', by unfold rulesetToOvs; rw [e]; rfl, ?_, hq⟩
  rw [fileLines_join hn]
  exact ey

example : ∃ text rs', rulesetToOvs [ovsSample, { ovsSample with priority := 6 }] = .ok text ∧ rulesetFromOvs (π := Nat) (fileLines text) = .ok (rs', []) ∧
      List.Forall₂ (fun r' r => r'.eq { r with cookie := some (r.cookie.getD 0) } = true) rs' [ovsSample, { ovsSample with priority := 6 }] :=
  C69_round_trip_partial _ fun r hr => by
    simp only [List.mem_cons, List.not_mem_nil, or_false] at hr
    rcases hr with rfl | rfl
    · exact ovsSample_writable
    · exact ⟨ovsSample_writable.mat, ovsSample_writable.fields, ovsSample_writable.apply, ovsSample_writable.write, ovsSample_writable.meter⟩

/-! ### What is not read as documented -/

/-- A group without buckets, which OpenFlow allows, is never read. -/
theorem C69_no_bucket (groups : List (Nat × Nat)) (line : List Char) (h : ¬ "bucket=".toList <:+: line) (g : Grp) : parseGroup groups line ≠ .ok g := by
  unfold parseGroup
  rw [splitOn_absent h]
  simp only
  cases (splitSep (strip line)).foldlM groupItem ⟨none, none, []⟩ <;> intro e <;> cases e

example : parseGroup [] "group_id=1,type=all".toList = .error .nameError := by
  unfold parseGroup
  rw [splitOn_absent (hasText_no (by decide +kernel))]
  decide +kernel

/-- A line whose buckets come first, with nothing but separators before them, is refused. -/
theorem C69_buckets_only (groups : List (Nat × Nat)) (a b : List Char) (ha : ∀ c ∈ a, isSep c = true) :
    parseGroup groups (a ++ ("bucket=".toList ++ b)) = .error .valueError := by
  have hl : ¬ "bucket=".toList <:+: a := fun h => absurd (ha 'b' (h.subset (by decide))) (by decide)
  unfold parseGroup
  have := splitOn_first (a := 'b') (q := "ucket=".toList) (u := a) (s := b) (by decide) hl
  rw [show splitOn "bucket=".toList (a ++ ("bucket=".toList ++ b)) = a :: splitOn "bucket=".toList b from this]
  have hd : dropEnd a = [] := by
    unfold dropEnd
    have : ∀ l : List Char, (∀ c ∈ l, isSep c = true) → l.dropWhile isSep = [] := by
      intro l
      induction l with
      | nil => intro _; rfl
      | cons c l ih => intro h; rw [List.dropWhile_cons_of_pos (h c (by simp))]; exact ih fun x hx => h x (by simp [hx])
    rw [this _ fun c hc => ha c (List.mem_reverse.1 hc)]; rfl
  cases e : splitOn "bucket=".toList b with
  | nil => 
    unfold splitOn at e
    repeat' split at e
    all_goals cases e
  | cons x xs =>
    simp only [hd]
    rw [show (splitSep (strip [])).foldlM groupItem ⟨none, none, []⟩ = .error .valueError from by decide +kernel]
    rfl
example : parseGroup [] " , bucket=actions=output:1".toList = .error .valueError :=
  C69_buckets_only [] " , ".toList "actions=output:1".toList (by decide)

theorem parseBucket_text (groups : List (Nat × Nat)) {u s : List Char} (hu : hasText "actions=".toList u = false) (hs : hasText "actions=".toList s = false) :
    parseBucket groups (u ++ ("actions=".toList ++ s)) = actionsFromOvs groups actionSetAppend s := by
  unfold parseBucket
  rw [if_pos (hasText_iff.2 ⟨u, s, by rw [List.append_assoc]⟩)]
  have := splitOn_first (a := 'a') (q := "ctions=".toList) (u := u) (s := s) (by decide) (hasText_no hu)
  rw [show splitOn ('a' :: "ctions=".toList) s = [s] from splitOn_absent (hasText_no hs)] at this
  rw [show splitOn "actions=".toList (u ++ ("actions=".toList ++ s)) = [u, s] from this]

theorem parseGroup_one (groups : List (Nat × Nat)) {a b : List Char} (ha : hasText "bucket=".toList a = false) (hb : hasText "bucket=".toList b = false) :
    parseGroup groups (a ++ ("bucket=".toList ++ b)) = (do
      let g ← (splitSep (strip (dropEnd a))).foldlM groupItem ⟨none, none, []⟩
      let x ← parseBucket groups (strip (b.dropWhile isSep))
      return { g with buckets := g.buckets ++ [x] }) := by
  unfold parseGroup
  have := splitOn_first (a := 'b') (q := "ucket=".toList) (u := a) (s := b) (by decide) (hasText_no ha)
  rw [show splitOn ('b' :: "ucket=".toList) b = [b] from splitOn_absent (hasText_no hb)] at this
  rw [show splitOn "bucket=".toList (a ++ ("bucket=".toList ++ b)) = [a, b] from this]
  simp only [bucketPieces, List.mapM_cons, List.mapM_nil, bind, Except.bind]
  cases (splitSep (strip (dropEnd a))).foldlM groupItem ⟨none, none, []⟩ with
  | error e => rfl
  | ok g =>
    simp only
    cases parseBucket groups (strip (b.dropWhile isSep)) <;> rfl

/-- A bucket that refers to a group on a later line: the same two lines are read in one order and not in the other. -/
theorem C69_forward : rulesetFromOvs (π := Nat) ["group_id=1,type=all,bucket=actions=group:2".toList, "group_id=2,type=all,bucket=actions=output:1".toList] =
    .error .keyError ∧
    ∃ gs, rulesetFromOvs (π := Nat) ["group_id=2,type=all,bucket=actions=output:1".toList, "group_id=1,type=all,bucket=actions=group:2".toList] = .ok ([], gs) ∧
      gs.map (·.1) = [some 2, some 1] := by
  have h1 : ∀ groups, parseGroup groups "group_id=1,type=all,bucket=actions=group:2".toList =
      (actionsFromOvs groups actionSetAppend "group:2".toList).map fun x => ⟨some 1, some "all".toList, [x]⟩ := fun groups => by
    rw [show "group_id=1,type=all,bucket=actions=group:2".toList = "group_id=1,type=all,".toList ++ ("bucket=".toList ++ "actions=group:2".toList) from by decide +kernel,
      parseGroup_one groups (by decide +kernel) (by decide +kernel),
      show strip ("actions=group:2".toList.dropWhile isSep) = [] ++ ("actions=".toList ++ "group:2".toList) from by decide +kernel,
      parseBucket_text groups (by decide) (by decide +kernel),
      show (splitSep (strip (dropEnd "group_id=1,type=all,".toList))).foldlM groupItem ⟨none, none, []⟩ = .ok ⟨some 1, some "all".toList, []⟩ from by decide +kernel]
    cases actionsFromOvs groups actionSetAppend "group:2".toList <;> rfl
  have h2 : ∀ groups, parseGroup groups "group_id=2,type=all,bucket=actions=output:1".toList =
      (actionsFromOvs groups actionSetAppend "output:1".toList).map fun x => ⟨some 2, some "all".toList, [x]⟩ := fun groups => by
    rw [show "group_id=2,type=all,bucket=actions=output:1".toList = "group_id=2,type=all,".toList ++ ("bucket=".toList ++ "actions=output:1".toList) from by decide +kernel,
      parseGroup_one groups (by decide +kernel) (by decide +kernel),
      show strip ("actions=output:1".toList.dropWhile isSep) = [] ++ ("actions=".toList ++ "output:1".toList) from by decide +kernel,
      parseBucket_text groups (by decide) (by decide +kernel),
      show (splitSep (strip (dropEnd "group_id=2,type=all,".toList))).foldlM groupItem ⟨none, none, []⟩ = .ok ⟨some 2, some "all".toList, []⟩ from by decide +kernel]
    cases actionsFromOvs groups actionSetAppend "output:1".toList <;> rfl
  constructor
  · unfold rulesetFromOvs
    rw [show sortLines ["group_id=1,type=all,bucket=actions=group:2".toList, "group_id=2,type=all,bucket=actions=output:1".toList] =
      (["group_id=1,type=all,bucket=actions=group:2".toList, "group_id=2,type=all,bucket=actions=output:1".toList], []) from by decide +kernel]
    simp only [List.foldlM_cons, addGroup, h1]
    rw [show actionsFromOvs (known []) actionSetAppend "group:2".toList = .error .keyError from by decide +kernel]
    rfl
  · refine ⟨[(some 2, ⟨some 2, some "all".toList, [mkList [.output 1]]⟩), (some 1, ⟨some 1, some "all".toList, [mkList [.group 2]]⟩)], ?_, rfl⟩
    unfold rulesetFromOvs
    rw [show sortLines ["group_id=2,type=all,bucket=actions=output:1".toList, "group_id=1,type=all,bucket=actions=group:2".toList] =
      (["group_id=2,type=all,bucket=actions=output:1".toList, "group_id=1,type=all,bucket=actions=group:2".toList], []) from by decide +kernel]
    simp only [List.foldlM_cons, List.foldlM_nil, addGroup, h1, h2]
    rw [show actionsFromOvs (known []) actionSetAppend "output:1".toList = .ok (mkList [.output 1]) from by decide +kernel]
    simp only [bind, Except.bind, Except.map, List.lookup_nil, Option.isSome_none, Bool.false_eq_true, if_false, pure, Except.pure]
    rw [show actionsFromOvs (known (dictSet (some 2) ⟨some 2, some "all".toList, [mkList [.output 1]]⟩ [])) actionSetAppend "group:2".toList = .ok (mkList [.group 2]) from by decide +kernel]
    rfl

/-- The actions of a bucket are not put into lower case, as those of a flow are: a bucket that sends to the controller is read as one that does nothing. -/
theorem C69_upper : parseBucket [] "actions=CONTROLLER:65535".toList = .ok .empty ∧ parseBucket [] "actions=controller:65535".toList = .ok (mkList [.output 0xfffffffd]) ∧
    (instFromOvs [] "CONTROLLER:65535".toList).map (·.apply) = .ok (mkList [.output 0xfffffffd]) := by
  refine ⟨?_, ?_, by decide +kernel⟩
  · rw [show "actions=CONTROLLER:65535".toList = [] ++ ("actions=".toList ++ "CONTROLLER:65535".toList) from by decide +kernel,
      parseBucket_text [] (by decide) (by decide +kernel)]
    decide +kernel
  · rw [show "actions=controller:65535".toList = [] ++ ("actions=".toList ++ "controller:65535".toList) from by decide +kernel,
      parseBucket_text [] (by decide) (by decide +kernel)]
    decide +kernel

/-- `actions=` may be left out in a bucket; the bucket is then read as one that does nothing. -/
theorem C69_bare_bucket : parseBucket [] "output:1".toList = .ok .empty ∧ parseBucket [] "actions=output:1".toList = .ok (mkList [.output 1]) := by
  constructor
  · decide +kernel
  · rw [show "actions=output:1".toList = [] ++ ("actions=".toList ++ "output:1".toList) from by decide +kernel, parseBucket_text [] (by decide) (by decide +kernel)]
    decide +kernel

/-- Whatever stands before `actions=` in a bucket is dropped: weights and watched ports do not make groups different. -/
theorem C69_weights (groups : List (Nat × Nat)) (u v s : List Char) (hu : ¬ "actions=".toList <:+: u) (hv : ¬ "actions=".toList <:+: v)
    (hs : ¬ "actions=".toList <:+: s) : parseBucket groups (u ++ ("actions=".toList ++ s)) = parseBucket groups (v ++ ("actions=".toList ++ s)) := by
  have no : ∀ {t : List Char}, ¬ "actions=".toList <:+: t → hasText "actions=".toList t = false := fun h => by
    rw [Bool.eq_false_iff]; exact fun e => h (hasText_iff.1 e)
  rw [parseBucket_text groups (no hu) (no hs), parseBucket_text groups (no hv) (no hs)]

example : parseBucket [] ("weight:1,".toList ++ ("actions=".toList ++ "output:1".toList)) = parseBucket [] ("weight:9,watch_port:3,".toList ++ ("actions=".toList ++ "output:1".toList)) :=
  C69_weights [] _ _ _ (hasText_no (by decide +kernel)) (hasText_no (by decide +kernel)) (hasText_no (by decide +kernel))

/-- The documented list of fields to hash is an error. -/
theorem C69_fields : parseGroup [] ("group_id=1,type=select,selection_method=hash,fields=ip_src,ip_dst,".toList ++ ("bucket=".toList ++ "actions=output:1".toList)) =
    .error .valueError := by
  rw [parseGroup_one [] (by decide +kernel) (by decide +kernel)]
  decide +kernel

end OFE.Ovs
