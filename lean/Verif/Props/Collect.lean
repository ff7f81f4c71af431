import Verif.Collect.Model
import Verif.DictLemmas
import Verif.Props.SaveLoad

/-!
# C96: collected state has every answer that was given
-/

namespace OFE.Collect

/-- Specification: what should be stored for a request: the one reply, the body of the one part, or the bodies of all parts in their order; nothing if there is
none of these.  The reply None to a plain request is stored as None. -/
inductive Stored {α : Type} (sw : Switch α) (key : String) : Kind → Option (Value α) → Prop
  | reply {a : α} : sw.plain key = .ok (some a) → Stored sw key .plain (some (.item a))
  | noReply : sw.plain key = .ok none → Stored sw key .plain (some .null)
  | failed : sw.plain key = .raises → Stored sw key .plain none
  | part {a : α} : sw.single key = .ok (some [a]) → Stored sw key .single (some (.item a))
  | noPart : (∀ a, sw.single key ≠ .ok (some [a])) → Stored sw key .single none
  | parts {l : List (List α)} : sw.many key = .ok (some l) → Stored sw key .many (some (.list l.flatten))
  | noParts : (∀ l, sw.many key ≠ .ok (some l)) → Stored sw key .many none

/-- Specification: no request ends with an exception that does not derive from `Exception`. -/
def NoExit {α : Type} (sw : Switch α) : Prop := ∀ key, sw.plain key ≠ .exits ∧ sw.single key ≠ .exits ∧ sw.many key ≠ .exits

/-- What a block leaves in the collection. -/
def kept {α : Type} : Out (Value α) → Option (Value α)
  | .ok v => some v
  | _ => none

theorem stored_ask {α : Type} {sw : Switch α} (key : String) (kind : Kind) : ask sw key kind ≠ .exits → Stored sw key kind (kept (ask sw key kind)) := by
  cases kind with
  | plain =>
    unfold ask
    cases e : sw.plain key with
    | ok o =>
      cases o with
      | none => exact fun _ => .noReply e
      | some a => exact fun _ => .reply e
    | raises => exact fun _ => .failed e
    | exits => intro h; exact absurd rfl h
  | single =>
    unfold ask
    cases e : sw.single key with
    | ok o =>
      match o with
      | none => exact fun _ => .noPart fun a h => by rw [e] at h; cases h
      | some [] => exact fun _ => .noPart fun a h => by rw [e] at h; cases h
      | some [a] => exact fun _ => .part e
      | some (a :: b :: l) => exact fun _ => .noPart fun a h => by rw [e] at h; cases h
    | raises => exact fun _ => .noPart fun a h => by rw [e] at h; cases h
    | exits => intro h; exact absurd rfl h
  | many =>
    unfold ask
    cases e : sw.many key with
    | ok o =>
      cases o with
      | none => exact fun _ => .noParts fun l h => by rw [e] at h; cases h
      | some l => exact fun _ => .parts e
    | raises => exact fun _ => .noParts fun l h => by rw [e] at h; cases h
    | exits => intro h; exact absurd rfl h

theorem ask_noExit {α : Type} {sw : Switch α} (h : NoExit sw) (key : String) (kind : Kind) : ask sw key kind ≠ .exits := by
  obtain ⟨h1, h2, h3⟩ := h key
  cases kind with
  | plain =>
    unfold ask
    cases e : sw.plain key with
    | ok o => cases o <;> intro h <;> cases h
    | raises => intro h; cases h
    | exits => exact absurd e h1
  | single =>
    unfold ask
    cases e : sw.single key with
    | ok o =>
      match o with
      | none => intro h; cases h
      | some [] => intro h; cases h
      | some [a] => intro h; cases h
      | some (a :: b :: l) => intro h; cases h
    | raises => intro h; cases h
    | exits => exact absurd e h2
  | many =>
    unfold ask
    cases e : sw.many key with
    | ok o => cases o <;> intro h <;> cases h
    | raises => intro h; cases h
    | exits => exact absurd e h3

theorem collect_spec {α : Type} {sw : Switch α} (h : NoExit sw) : ∀ (l : List (String × Kind)) (c : Coll α), (l.map (·.1)).Nodup →
    (collect sw l c).2 = true ∧ (∀ x ∈ l, c.lookup x.1 = none → (collect sw l c).1.lookup x.1 = kept (ask sw x.1 x.2)) ∧
      ∀ k, k ∉ l.map (·.1) → (collect sw l c).1.lookup k = c.lookup k
  | [], c, _ => ⟨rfl, by simp, fun _ _ => rfl⟩
  | (key, kind) :: l, c, hn => by
    rw [List.map_cons, List.nodup_cons] at hn
    have step : ∃ c', collect sw ((key, kind) :: l) c = collect sw l c' ∧ (c.lookup key = none → c'.lookup key = kept (ask sw key kind)) ∧
        ∀ k, k ≠ key → c'.lookup k = c.lookup k := by
      cases e : ask sw key kind with
      | ok v =>
        refine ⟨dictSet key v c, by simp only [collect, e], fun _ => ?_, fun k hk => ?_⟩
        · rw [lookup_dictSet, if_pos rfl]; rfl
        · rw [lookup_dictSet, if_neg hk]
      | raises => exact ⟨c, by simp only [collect, e], fun hc => by rw [hc]; rfl, fun _ _ => rfl⟩
      | exits => exact absurd e (ask_noExit h key kind)
    obtain ⟨c', e1, e2, e3⟩ := step
    obtain ⟨i1, i2, i3⟩ := collect_spec h l c' hn.2
    rw [e1]
    refine ⟨i1, fun x hx hc => ?_, fun k hk => ?_⟩
    · rcases List.mem_cons.1 hx with rfl | hx
      · rw [i3 _ hn.1, e2 hc]
      · refine i2 x hx ?_
        rw [e3 _ (fun he => hn.1 (he ▸ List.mem_map.2 ⟨x, hx, rfl⟩)), hc]
    · rw [List.map_cons, List.mem_cons, not_or] at hk
      rw [i3 k hk.2, e3 k hk.1]

theorem run_before {α : Type} (dumps : Coll α → Bool) : ∀ (l : List (Event α)), (∀ e ∈ l, e = .leave) → run dumps l = .start
  | [], _ => rfl
  | e :: l, h => by
    have he := h e List.mem_cons_self
    subst he
    exact run_before dumps l fun e he => h e (List.mem_cons_of_mem _ he)

theorem run_after {α : Type} (dumps : Coll α → Bool) (a : App α) (h : a.done = true) : ∀ (l : List (Event α)), l.foldl (handle dumps) a = a
  | [] => rfl
  | e :: l => by
    rw [List.foldl_cons]
    have : handle dumps a e = a := by
      cases e with
      | leave => rfl
      | enter sw => simp only [handle, h, if_true]
    rw [this]
    exact run_after dumps a h l

theorem handle_start {α : Type} (dumps : Coll α → Bool) (sw : Switch α) : handle dumps .start (.enter sw) = finish dumps .absent (collect sw requests []) := by
  simp only [handle, App.start, Bool.false_eq_true, if_false]

theorem finish_done {α : Type} (dumps : Coll α → Bool) (file : File α) (x : Coll α × Bool) : (finish dumps file x).done = true := by
  obtain ⟨c, b⟩ := x
  cases b <;> rfl

theorem run_first {α : Type} (dumps : Coll α → Bool) (before after : List (Event α)) (sw : Switch α) (hb : ∀ e ∈ before, e = .leave) :
    run dumps (before ++ .enter sw :: after) = handle dumps .start (.enter sw) := by
  have h1 : run dumps (before ++ .enter sw :: after) = after.foldl (handle dumps) (handle dumps (run dumps before) (.enter sw)) := by
    unfold run
    rw [List.foldl_append, List.foldl_cons]
  rw [h1, run_before dumps before hb]
  refine run_after dumps _ ?_ after
  rw [handle_start]
  exact finish_done _ _ _

/-- C96: whatever switches come and go, the file is the collection of the first that came: under the name of each request what should be stored for it, whatever
became of the other requests, and nothing else.

Partial: an answer in more than one part to a request for a single item is dropped (`C96_two_parts`), an exception that does not derive from `Exception` loses
everything (`C96_exit`), and other switches are not asked (`C96_first_only`). -/
theorem C96_collected_partial {α : Type} (dumps : Coll α → Bool) (before after : List (Event α)) (sw : Switch α) (hb : ∀ e ∈ before, e = .leave)
    (hx : NoExit sw) (hd : ∀ c, dumps c = true) :
    ∃ c, (run dumps (before ++ .enter sw :: after)).file = .state c ∧ (∀ x ∈ requests, Stored sw x.1 x.2 (c.lookup x.1)) ∧
      ∀ k, k ∉ requests.map (·.1) → c.lookup k = none := by
  rw [run_first dumps before after sw hb]
  obtain ⟨h1, h2, h3⟩ := collect_spec hx requests [] (by decide)
  refine ⟨(collect sw requests []).1, ?_, fun x hxr => ?_, fun k hk => ?_⟩
  · rw [handle_start]
    cases e : collect sw requests [] with
    | mk c b =>
      rw [e] at h1
      cases h1
      simp only [finish, hd, if_true]
  · rw [h2 x hxr rfl]
    exact stored_ask x.1 x.2 (ask_noExit hx _ _)
  · rw [h3 k hk]
    rfl

/-- C96: all sixteen requests of OpenFlow 1.3 that the script knows are made, under their own names. -/
theorem C96_requests : requests.length = 16 ∧ (requests.map (·.1)).Nodup := by decide

theorem lookup_asPickle {π : Type} (c : Coll (Save.PElem π)) (k : String) :
    (c.map fun x => (x.1, x.2.iter)).lookup k = (c.lookup k).map (·.iter) := by
  induction c with
  | nil => rfl
  | cons x c ih =>
    obtain ⟨k', v⟩ := x
    rw [List.map_cons, List.lookup_cons, List.lookup_cons, ih]
    cases k == k' <;> rfl

/-- C96: the collected flows load as the ruleset of the flow messages in all parts of the answer, whatever became of the other requests; without an answer it
is a KeyError. -/
theorem C96_flows {π : Type} (dumps : Coll (Save.PElem π) → Bool) (before after : List (Event (Save.PElem π))) (sw : Switch (Save.PElem π))
    (hb : ∀ e ∈ before, e = .leave) (hx : NoExit sw) (hd : ∀ c, dumps c = true) :
    ∃ c, (run dumps (before ++ .enter sw :: after)).file = .state c ∧
      (∀ parts : List (List Ryu.RFlow), sw.many "flow_stats" = .ok (some (parts.map (·.map .flow))) →
        Save.rulesetFromPickle (asPickle c) = (parts.flatten.mapM (Ryu.ruleFromRyu (π := π))).map (·.map .rule)) ∧
      ((∀ l, sw.many "flow_stats" ≠ .ok (some l)) → Save.rulesetFromPickle (asPickle c) = .error .keyError) := by
  obtain ⟨c, h1, h2, -⟩ := C96_collected_partial dumps before after sw hb hx hd
  have h : Stored sw "flow_stats" .many (c.lookup "flow_stats") := h2 ("flow_stats", .many) (by decide)
  refine ⟨c, h1, fun parts hp => ?_, fun hn => ?_⟩
  · refine (Save.C92_dict _).2 _ ?_
    rw [lookup_asPickle]
    generalize c.lookup "flow_stats" = o at h
    cases h with
    | parts hl =>
      rw [hp] at hl
      cases hl
      rw [List.map_flatten]
      rfl
    | noParts hl => exact absurd hp (hl _)
  · refine (Save.C92_dict _).1 ?_
    rw [lookup_asPickle]
    generalize c.lookup "flow_stats" = o at h
    cases h with
    | parts hl => exact absurd hl (hn _)
    | noParts hl => rfl

/-! ### What is not so -/

/-- C96 is false of requests for a single item that are answered in several parts: the answer is dropped. -/
theorem C96_two_parts {α : Type} (sw : Switch α) (key : String) (a b : α) (rest : List α) (h : sw.single key = .ok (some (a :: b :: rest))) (v : Option (Value α))
    (hs : Stored sw key .single v) : v = none := by
  cases hs with
  | part h' => rw [h] at h'; cases h'
  | noPart _ => rfl

/-- C96 is false if an exception that does not derive from `Exception` comes up in any request: there is no file, and there will be none, even if all other
requests are answered. -/
theorem C96_exit {α : Type} (dumps : Coll α → Bool) (before after : List (Event α)) (sw : Switch α) (hb : ∀ e ∈ before, e = .leave)
    (x : String × Kind) (hx : x ∈ requests) (he : ask sw x.1 x.2 = .exits) : (run dumps (before ++ .enter sw :: after)).file = .absent := by
  rw [run_first dumps before after sw hb, handle_start]
  have : ∀ (l : List (String × Kind)) (c : Coll α), x ∈ l → (collect sw l c).2 = false := by
    intro l
    induction l with
    | nil => intro c h; cases h
    | cons y l ih =>
      intro c h
      unfold collect
      rcases List.mem_cons.1 h with rfl | h
      · rw [he]
      · cases ask sw y.1 y.2 with
        | ok v => exact ih _ h
        | raises => exact ih _ h
        | exits => rfl
  have hf := this requests [] hx
  cases e : collect sw requests [] with
  | mk c b =>
    rw [e] at hf
    cases hf
    rfl

/-- Only the first switch is asked: what comes after it changes nothing. -/
theorem C96_first_only {α : Type} (dumps : Coll α → Bool) (before after after' : List (Event α)) (sw : Switch α) (hb : ∀ e ∈ before, e = .leave) :
    run dumps (before ++ .enter sw :: after) = run dumps (before ++ .enter sw :: after') := by
  rw [run_first _ _ _ _ hb, run_first _ _ _ _ hb]

/-! ### Examples -/

/-- A switch that answers the request for flows in two parts and that for its description in one, does not know meters, and answers all others with no parts. -/
def someSwitch : Switch Nat :=
  ⟨fun k => if k = "config" then .ok (some 1) else .ok none, fun k => if k = "desc" then .ok (some [2]) else .raises,
    fun k => if k = "flow_stats" then .ok (some [[3, 4], [5]]) else if k = "meter_stats" then .raises else .ok (some [])⟩

theorem someSwitch_noExit : NoExit someSwitch := fun key => by
  unfold someSwitch
  refine ⟨?_, ?_, ?_⟩ <;> simp only <;> (repeat' split) <;> (intro h; cases h)

example : ∃ c, (run (fun _ => true) ([.leave] ++ .enter someSwitch :: [.leave, .enter someSwitch])).file = .state c ∧
    (∀ x ∈ requests, Stored someSwitch x.1 x.2 (c.lookup x.1)) ∧ ∀ k, k ∉ requests.map (·.1) → c.lookup k = none :=
  C96_collected_partial _ _ _ _ (by simp) someSwitch_noExit (by simp)

example : (run (fun _ => true) [.leave, .enter someSwitch]).file =
    .state [("switch_features", .null), ("config", .item 1), ("desc", .item 2), ("flow_stats", .list [3, 4, 5]), ("table_stats", .list []),
      ("port_stats", .list []), ("port_desc", .list []), ("queue_stats", .list []), ("group_stats", .list []), ("group_desc", .list []),
      ("meter_config", .list []), ("table_features", .list []), ("queue_config", .null)] := by decide +kernel

example : (run (fun _ => true) ([] ++ .enter { someSwitch with single := fun k => if k = "meter_features" then .exits else .raises } :: [.enter someSwitch])).file =
    .absent :=
  C96_exit _ _ _ _ (by simp) ("meter_features", .single) (by decide) (by decide +kernel)

example (v : Option (Value Nat)) (h : Stored { someSwitch with single := fun _ => .ok (some [1, 2]) } "desc" .single v) : v = none :=
  C96_two_parts _ _ 1 2 [] rfl v h

/-- A switch with two flows in two parts, and nothing else. -/
def flowSwitch : Switch (Save.PElem Nat) :=
  ⟨fun _ => .raises, fun _ => .raises, fun k => if k = "flow_stats" then .ok (some ([[⟨5, some 42, 2, none, none⟩], [⟨6, some 1, 0, none, none⟩]].map (·.map .flow))) else .raises⟩

example : ∃ c, (run (fun _ => true) ([] ++ .enter flowSwitch :: [])).file = .state c ∧
    Save.rulesetFromPickle (asPickle c) = ([⟨5, some 42, 2, none, none⟩, ⟨6, some 1, 0, none, none⟩].mapM (Ryu.ruleFromRyu (π := Nat))).map (·.map .rule) := by
  obtain ⟨c, h1, h2, -⟩ := C96_flows (fun _ => true) [] [] flowSwitch (by simp) (fun key => by
    unfold flowSwitch
    refine ⟨?_, ?_, ?_⟩ <;> simp only <;> (repeat' split) <;> (intro h; cases h)) (by simp)
  exact ⟨c, h1, h2 [[⟨5, some 42, 2, none, none⟩], [⟨6, some 1, 0, none, none⟩]] rfl⟩

end OFE.Collect
