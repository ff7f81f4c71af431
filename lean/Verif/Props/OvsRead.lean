import Verif.Ovs.DocLine
import Verif.Rule.InstLemmas

/-!
# C67: Open vSwitch text is read as Open vSwitch means it

The documented meaning is in `Ovs/Doc.lean`.  What is partial: the notations that are not in the tables of `Ovs/Doc.lean`.  Those that are read as something
else than documented, or left out without an error, are at the end.
-/

namespace OFE.Ovs
open Fmt

/-- C67: a match made of documented items accepts the packets that every item accepts. -/
theorem C67_match_partial (s : List Char) (l : List (List Char × List (Nat × Nat × Option Nat))) (hs : Pieces s (l.map (·.1)))
    (hl : ∀ x ∈ l, DocItem x.1 x.2) (hn : ((l.flatMap (·.2)).map (·.1)).Nodup) :
    ∃ m, matchFromOvs s = .ok m ∧ m.Inv ∧ ∀ p, m.accepts p ↔ ∀ x ∈ l, ∀ c ∈ x.2, MatchesField p.hdr c := by
  refine ⟨(l.flatMap (·.2)).foldl (fun m x => m.append x.1 x.2.1 x.2.2) .empty, ?_, inv_foldl _ _ inv_empty, fun p => ?_⟩
  · unfold matchFromOvs
    rw [pieces_items hs, foldlM_items hl]
  · rw [accepts_doc hn fun x hx => ?_]
    · constructor
      · intro h x hx c hc
        exact h c (List.mem_flatMap.2 ⟨x, hx, hc⟩)
      · intro h c hc
        obtain ⟨x, hx, hc⟩ := List.mem_flatMap.1 hc
        exact h x hx c hc
    · obtain ⟨y, hy, hx⟩ := List.mem_flatMap.1 hx
      exact (docItem_reads (hl y hy)).bits x hx

/-- 80 -/
theorem text80 : Denotes .num "80".toList 80 := .dec (ds := [8, 0]) (by decide) (.cons rfl (.cons rfl .nil)) (.inl (by decide))

/-- 10.0.0.0 -/
theorem text10 : Denotes .v4 "10.0.0.0".toList 0x0a000000 := by
  have h0 : IsByte "0".toList 0 := ⟨by decide, by decide, [0], .cons rfl .nil, rfl⟩
  exact .ipv4 (ps := ["10".toList, "0".toList, "0".toList, "0".toList]) (ns := [10, 0, 0, 0]) rfl
    (.cons ⟨by decide, by decide, [1, 0], .cons rfl (.cons rfl .nil), rfl⟩ (.cons h0 (.cons h0 (.cons h0 .nil))))

/-- 8 -/
theorem text8 : Denotes .num "8".toList 8 := .dec (ds := [8]) (by decide) (.cons rfl .nil) (.inl (by decide))

/-- 5 -/
theorem text5 : Denotes .num "5".toList 5 := .dec (ds := [5]) (by decide) (.cons rfl .nil) (.inl (by decide))

/-- 0x2a -/
theorem text2a : Denotes .num "0x2a".toList 42 := .hex (ds := [2, 10]) (by decide) (.cons (.inl rfl) (.cons (.inl rfl) .nil))

/-- 01:80:c2:00:00:0e -/
theorem textMac : Denotes .mac "01:80:c2:00:00:0e".toList 0x0180c200000e :=
  .mac (ps := ["01".toList, "80".toList, "c2".toList, "00".toList, "00".toList, "0e".toList]) (ns := [1, 0x80, 0xc2, 0, 0, 0xe]) rfl
    (.cons ⟨'0', '1', 0, 1, rfl, .inl rfl, .inl rfl, rfl⟩ (.cons ⟨'8', '0', 8, 0, rfl, .inl rfl, .inl rfl, rfl⟩
    (.cons ⟨'c', '2', 12, 2, rfl, .inl rfl, .inl rfl, rfl⟩ (.cons ⟨'0', '0', 0, 0, rfl, .inl rfl, .inl rfl, rfl⟩
    (.cons ⟨'0', '0', 0, 0, rfl, .inl rfl, .inl rfl, rfl⟩ (.cons ⟨'0', 'e', 0, 14, rfl, .inl rfl, .inl rfl, rfl⟩ .nil))))))

/-- The items of `tcp,nw_src=10.0.0.0/8 tcp_dst=80,dl_vlan=5`. -/
def itemsSample : List (List Char × List (Nat × Nat × Option Nat)) := [("tcp".toList, [(5, 0x0800, none), (10, 6, none)]),
  ("nw_src=10.0.0.0/8".toList, [(11, 0x0a000000, some 0xff000000)]), ("tcp_dst=80".toList, [(14, 80, none)]), ("dl_vlan=5".toList, [(6, 0x1005, none)])]

theorem itemsSample_doc : ∀ x ∈ itemsSample, DocItem x.1 x.2 := by
  intro x hx
  simp only [itemsSample, List.mem_cons, List.not_mem_nil, or_false] at hx
  rcases hx with rfl | rfl | rfl | rfl
  · exact .word (l := [(5, 0x0800), (10, 6)]) (by decide +kernel)
  · exact .prefix4 (key := "nw_src".toList) (f := 11) (by decide +kernel) (by decide) text10 text8 (by decide)
  · exact .field (key := "tcp_dst".toList) (f := 14) (by decide +kernel) text80 (by decide)
  · exact .dlVlan text5 (by decide)

example : ∃ m, matchFromOvs "tcp,nw_src=10.0.0.0/8 tcp_dst=80,dl_vlan=5".toList = .ok m ∧ m.Inv ∧
    ∀ p, m.accepts p ↔ ∀ x ∈ itemsSample, ∀ c ∈ x.2, MatchesField p.hdr c :=
  C67_match_partial _ itemsSample
    (.cons (t := "tcp".toList) (c := ',') (s := "nw_src=10.0.0.0/8 tcp_dst=80,dl_vlan=5".toList) (by decide) (by decide) (by decide)
      (.cons (t := "nw_src=10.0.0.0/8".toList) (c := ' ') (s := "tcp_dst=80,dl_vlan=5".toList) (by decide) (by decide) (by decide)
        (.cons (t := "tcp_dst=80".toList) (c := ',') (s := "dl_vlan=5".toList) (by decide) (by decide) (by decide) (.last (by decide) (by decide)))))
    itemsSample_doc (by decide)

theorem docToks_forall {g : Nat → Option Nat} {us : List (List Char)} {ms : List Mean} (h : DocToks g us ms) : List.Forall₂ (DocTok g) us ms := by
  induction h with
  | nil => exact .nil
  | last hd => exact .cons hd .nil
  | cons hd _ _ ih => exact .cons hd ih

/-- C67: what a switch does with the instructions that are read is what the text documents: the packet and the metadata that go on, the copies sent, the
action set, and the table that is next. -/
theorem C67_instructions_partial (groups : List (Nat × Nat)) (s : List Char) (us : List (List Char)) (ms : List Mean) (hs : s.map Char.toLower = joinWith ',' us)
    (h : DocToks (fun n => groups.lookup n) us ms) : ∃ i, instFromOvs groups s = .ok i ∧
      (∀ st : St, (i.run st).pkt = writeMeta (ms.filterMap Mean.metadata).getLast? (exec (ms.flatMap Mean.applied) st.pkt).1 ∧
        (i.run st).sent.Perm (st.sent ++ (exec (ms.flatMap Mean.applied) st.pkt).2) ∧
        (finalSet (i.run st).writes).Perm
          (finalSet ((if i.clear then [] else st.writes) ++ (ms.filterMap Mean.written).getLast?.getD []))) ∧
      (i.clear = true ↔ Mean.clear ∈ ms) ∧ i.goto = (ms.filterMap Mean.next).getLast? ∧ i.meter = none := by
  obtain ⟨i, e, hi⟩ := instFromOvs_doc hs (docToks_forall h)
  have heff := C56_canonical_effect _ _ hi.apply
  have hwk : ∀ a ∈ (ms.filterMap Mean.written).getLast?.getD [], a.known = true := by
    intro a ha
    cases hw : (ms.filterMap Mean.written).getLast? with
    | none => rw [hw] at ha; cases ha
    | some as =>
      rw [hw] at ha
      obtain ⟨m, hm, hw'⟩ := List.mem_filterMap.1 (List.mem_of_getLast? hw)
      have hfine : m.fine := by
        have hf := docToks_forall h
        clear h hs hi heff hw e
        induction hf with
        | nil => cases hm
        | cons hd _ ih =>
          rcases List.mem_cons.1 hm with rfl | hm
          · exact (docTok_reads hd).fine
          · exact ih hm
      cases m with
      | write bs => cases hw'; exact hfine a ha
      | _ => cases hw'
  obtain ⟨l, el, hset⟩ := setInv_ofList _ [] .empty setInv_empty (by rw [List.nil_append]; exact hwk)
  rw [List.nil_append] at hset
  have hw := hi.write
  unfold actionSetOfList at hw
  rw [el] at hw
  cases hw
  refine ⟨i, e, fun st => ⟨?_, ?_, ?_⟩, hi.clear, hi.goto, hi.meter⟩
  · simp only [Inst.run, Inst.forward, hi.wmeta, (heff st.pkt).1]
  · simp only [Inst.run]
    exact List.Perm.append_left _ (heff st.pkt).2
  · simp only [Inst.run]
    refine finalSet_perm fun x => ?_
    have := inSet_congr (u := i.write.iter) (fun y => setInv_inSet hset y) (if i.clear = true then [] else st.writes) [] x
    simpa using this

/-- The parts of `mod_dl_dst:01:80:c2:00:00:0e,LOCAL,clear_actions,write_actions(set_mpls_ttl(5),group:8),write_metadata:0x2a/5,goto_table:8`. -/
def toksSample : List (List Char) := ["mod_dl_dst:01:80:c2:00:00:0e".toList, "local".toList, "clear_actions".toList,
  "write_actions(set_mpls_ttl(5),group:8)".toList, "write_metadata:0x2a/5".toList, "goto_table:8".toList]

/-- What they mean. -/
def meansSample : List Mean := [.acts [.setField 3 0x0180c200000e], .acts [.output 0xfffffffe], .clear, .write [.setMplsTtl 5, .group 70], .wmeta 42 (some 5), .goto 8]

theorem toksSample_doc : DocToks (fun n => [(8, 70)].lookup n) toksSample meansSample :=
  .cons (.act (.modField (key := "mod_dl_dst:".toList) (f := 3) (by decide +kernel) textMac)) rfl
    (.cons (.act (.portName (by decide +kernel))) rfl (.cons .clear rfl
    (.cons (.write (ts := ["set_mpls_ttl(5)".toList, "group:8".toList]) (ass := [[.setMplsTtl 5], [.group 70]])
      (.cons (.mplsTtl text5) (.cons (.group text8 rfl) .nil))) rfl (.cons (.wmask text2a text5) rfl (.last (.goto text8))))))

example : ∃ i, instFromOvs [(8, 70)] "mod_dl_dst:01:80:c2:00:00:0e,LOCAL,clear_actions,write_actions(set_mpls_ttl(5),group:8),write_metadata:0x2a/5,goto_table:8".toList
    = .ok i ∧ (∀ st : St, (i.run st).pkt = writeMeta (some (42, some 5)) (exec [.setField 3 0x0180c200000e, .output 0xfffffffe] st.pkt).1 ∧
        (i.run st).sent.Perm (st.sent ++ (exec [.setField 3 0x0180c200000e, .output 0xfffffffe] st.pkt).2) ∧
        (finalSet (i.run st).writes).Perm (finalSet ((if i.clear then [] else st.writes) ++ [.setMplsTtl 5, .group 70]))) ∧
      (i.clear = true ↔ Mean.clear ∈ meansSample) ∧ i.goto = some 8 ∧ i.meter = none :=
  C67_instructions_partial [(8, 70)] _ toksSample meansSample (by decide +kernel) toksSample_doc

example : ∃ i, instFromOvs [] "controller(max_len=8),output:5".toList = .ok i ∧ i.clear = false := by
  obtain ⟨i, e, _, hc, _⟩ := C67_instructions_partial [] "controller(max_len=8),output:5".toList ["controller(max_len=8)".toList, "output:5".toList]
    [.acts [.output 0xfffffffd], .acts [.output 5]] (by decide +kernel)
    (.cons (.act (.controllerMax (u := "8".toList) text8)) rfl (.last (.act (.output (t := "5".toList) text5))))
  exact ⟨i, e, by simpa using hc⟩

/-- C67: a flow made of documented arguments: the fields, the priority (32768 if not given), the table (0), the cookie and the instructions. -/
theorem C67_flow_partial {π : Type} (groups : List (Nat × Nat)) (u s : List Char) (l : List (List Char × Arg)) (us : List (List Char)) (ms : List Mean)
    (hu : Pieces u (l.map (·.1))) (hl : ∀ x ∈ l, DocArg x.1 x.2) (hn : ((l.flatMap (·.2.asked)).map (·.1)).Nodup) (hs : s.map Char.toLower = joinWith ',' us)
    (h : DocToks (fun n => groups.lookup n) us ms) (h1 : ¬ "actions=".toList <:+: u) (h2 : ¬ "actions=".toList <:+: s) :
    ∃ r i, ruleFromOvs (π := π) groups (u ++ ("actions=".toList ++ s)) = .ok r ∧ instFromOvs groups s = .ok i ∧ r.inst = i ∧ r.mat.Inv ∧
      (∀ p, r.mat.accepts p ↔ ∀ x ∈ l, ∀ c ∈ x.2.asked, MatchesField p.hdr c) ∧
      r.priority = (l.filterMap (·.2.priorityNo)).getLast?.getD 0x8000 ∧ r.table = (l.filterMap (·.2.tableNo)).getLast?.getD 0 ∧
      r.cookie = (l.filterMap (·.2.cookieNo)).getLast? := by
  obtain ⟨i, e, -⟩ := instFromOvs_doc hs (docToks_forall h)
  let r0 : Rule π := ⟨0x8000, none, 0, .empty, .empty, []⟩
  obtain ⟨p1, p2, p3, p4, p5⟩ := docArgs_parts (l.map (·.2)) r0
  have hfold : (l.map (·.2)).foldl (fun r x => x.doTo r) r0 = l.foldl (fun r x => x.2.doTo r) r0 := by rw [List.foldl_map]
  rw [hfold] at p1 p2 p3 p4 p5
  rw [List.flatMap_map] at p1
  rw [List.filterMap_map] at p2 p3 p4
  have hread : (items u).foldlM flowArgument r0 = .ok (l.foldl (fun r x => x.2.doTo r) r0) := by
    rw [pieces_items hu]; exact docArgs_fold hl r0
  refine ⟨{ (l.foldl (fun r x => x.2.doTo r) r0) with inst := i }, i, ?_, e, rfl, ?_, fun p => ?_, p3, p2, by rw [Option.or_none] at p4; exact p4⟩
  · unfold ruleFromOvs
    rw [show "actions=".toList = pat from rfl, splitOn_two h1 h2]
    simp only
    rw [show (items u).foldlM flowArgument (⟨0x8000, none, 0, .empty, .empty, []⟩ : Rule π) = .ok (l.foldl (fun r x => x.2.doTo r) r0) from hread]
    simp only [bind, Except.bind]
    by_cases hse : s = []
    · subst hse
      have hi : i = .empty := by cases e; rfl
      rw [if_pos (by rfl), hi, show Inst.empty = (l.foldl (fun r x => x.2.doTo r) r0).inst from p5.symm]
      rfl
    · rw [if_neg (by simpa using hse), e]
      rfl
  · simp only [p1]; exact inv_foldl _ _ inv_empty
  · simp only [p1]
    rw [show r0.mat = Match.empty from rfl, accepts_doc hn fun x hx => ?_]
    · constructor
      · intro h x hx c hc
        exact h c (List.mem_flatMap.2 ⟨x, hx, hc⟩)
      · intro h c hc
        obtain ⟨x, hx, hc⟩ := List.mem_flatMap.1 hc
        exact h x hx c hc
    · obtain ⟨y, hy, hx⟩ := List.mem_flatMap.1 hx
      exact docArg_bits (hl y hy) x hx

/-- The arguments of ` cookie=0x2a, duration=1.5s, table=5, priority=80,tcp,nw_src=10.0.0.0/8,tcp_dst=80,dl_vlan=5 actions=...`. -/
def argsSample : List (List Char × Arg) := [("cookie=0x2a".toList, .cookie 42), ("duration=1.5s".toList, .nothing), ("table=5".toList, .table 5),
  ("priority=80".toList, .priority 80), ("tcp".toList, .fields [(5, 0x0800, none), (10, 6, none)]),
  ("nw_src=10.0.0.0/8".toList, .fields [(11, 0x0a000000, some 0xff000000)]), ("tcp_dst=80".toList, .fields [(14, 80, none)])]

theorem argsSample_doc : ∀ x ∈ argsSample, DocArg x.1 x.2 := by
  intro x hx
  simp only [argsSample, List.mem_cons, List.not_mem_nil, or_false] at hx
  rcases hx with rfl | rfl | rfl | rfl | rfl | rfl | rfl
  · exact .cookie text2a
  · exact .skipped (key := "duration".toList) (t := "1.5s".toList) (by decide +kernel) (by decide) (by decide)
  · exact .table text5
  · exact .priority text80
  · exact .item (itemsSample_doc ("tcp".toList, [(5, 0x0800, none), (10, 6, none)]) (by decide +kernel))
  · exact .item (itemsSample_doc ("nw_src=10.0.0.0/8".toList, [(11, 0x0a000000, some 0xff000000)]) (by decide +kernel))
  · exact .item (itemsSample_doc ("tcp_dst=80".toList, [(14, 80, none)]) (by decide +kernel))

theorem infix_mem {p s : List Char} {c : Char} (hc : c ∈ p) (hs : c ∉ s) : ¬ p <:+: s := by
  rintro ⟨a, b, rfl⟩
  exact hs (by simp [hc])

example : ∃ r i, ruleFromOvs (π := Nat) [(8, 70)] (" cookie=0x2a, duration=1.5s, table=5, priority=80,tcp,nw_src=10.0.0.0/8,tcp_dst=80 ".toList ++
      ("actions=".toList ++ "mod_dl_dst:01:80:c2:00:00:0e,LOCAL,clear_actions,write_actions(set_mpls_ttl(5),group:8),write_metadata:0x2a/5,goto_table:8".toList)) = .ok r ∧
    instFromOvs [(8, 70)] "mod_dl_dst:01:80:c2:00:00:0e,LOCAL,clear_actions,write_actions(set_mpls_ttl(5),group:8),write_metadata:0x2a/5,goto_table:8".toList = .ok i ∧
    r.inst = i ∧ r.mat.Inv ∧ (∀ p, r.mat.accepts p ↔ ∀ x ∈ argsSample, ∀ c ∈ x.2.asked, MatchesField p.hdr c) ∧ r.priority = 80 ∧ r.table = 5 ∧ r.cookie = some 42 :=
  C67_flow_partial [(8, 70)] _ _ argsSample toksSample meansSample
    (.sep (c := ' ') (by decide) (.cons (t := "cookie=0x2a".toList) (c := ',') (by decide) (by decide) (by decide)
      (.sep (c := ' ') (by decide) (.cons (t := "duration=1.5s".toList) (c := ',') (by decide) (by decide) (by decide)
        (.sep (c := ' ') (by decide) (.cons (t := "table=5".toList) (c := ',') (by decide) (by decide) (by decide)
          (.sep (c := ' ') (by decide) (.cons (t := "priority=80".toList) (c := ',') (by decide) (by decide) (by decide)
            (.cons (t := "tcp".toList) (c := ',') (by decide) (by decide) (by decide)
              (.cons (t := "nw_src=10.0.0.0/8".toList) (c := ',') (by decide) (by decide) (by decide)
                (.cons (t := "tcp_dst=80".toList) (c := ' ') (s := []) (by decide) (by decide) (by decide) .nil)))))))))))
    argsSample_doc (by decide) (by decide +kernel) toksSample_doc (by decide +kernel) (infix_mem (c := '=') (by decide) (by decide +kernel))

/-! ### What is not read as documented -/

/-- C67: a table, a priority or a cookie with a mask is refused: Open vSwitch has no such flows (a mask of the cookie only selects flows). -/
theorem C67_masked {π : Type} (r : Rule π) (item key : List Char) (value : Option (List Char)) (m : List Char)
    (h : splitItem item = .ok (key, value, some m)) (hm : m ≠ []) (hk : key ∈ ["table_id".toList, "table".toList, "priority".toList, "cookie".toList]) :
    flowArgument r item = .error .assertion := by
  have hp : plainNumber value (some m) = .error .assertion := by
    unfold plainNumber
    rw [if_neg (by simpa using hm)]
  simp only [List.mem_cons, List.not_mem_nil, or_false] at hk
  unfold flowArgument
  rw [h]
  simp only [bind, Except.bind, hp]
  rcases hk with rfl | rfl | rfl | rfl
  · rw [if_pos (by decide)]
  · rw [if_pos (by decide)]
  · rw [if_neg (by decide), if_pos (by decide)]
  · rw [if_neg (by decide), if_neg (by decide), if_neg (by decide), if_neg (by decide), if_pos (by decide)]

example : flowArgument (π := Nat) ⟨5, none, 0, .empty, .empty, []⟩ "priority=5/3".toList = .error .assertion :=
  C67_masked _ _ "priority".toList (some "5".toList) "3".toList (by decide +kernel) (by decide) (by decide)

/-- `tp_dst` is the port of the protocol of the flow; it is read as the TCP port.  So is `mod_tp_dst`. -/
theorem C67_tp_dst : matchFromOvs "udp,tp_dst=53".toList = matchFromOvs "udp,tcp_dst=53".toList ∧
    matchFromOvs "udp,tp_dst=53".toList ≠ matchFromOvs "udp,udp_dst=53".toList ∧
    instFromOvs [] "mod_tp_dst:53".toList = instFromOvs [] "set_field:53->tcp_dst".toList := by decide +kernel

/-- `icmp_type` is the type of the ICMP version of the flow; it is read as the one of ICMP for IPv4. -/
theorem C67_icmp6_type : matchFromOvs "icmp6,icmp_type=135".toList ≠ matchFromOvs "icmp6,icmpv6_type=135".toList ∧
    ∃ m, matchFromOvs "icmp6,icmp_type=135".toList = .ok m ∧ m.items = [(5, 0x86dd, none), (10, 58, none), (19, 135, none)] := by
  exact ⟨by decide +kernel, _, rfl, by decide +kernel⟩

/-- The prefix length of an IPv6 address with two colons is read as a mask: fe80::/10 matches the addresses whose bits 1 and 3 are zero.  The same for the
target of a neighbour discovery, whatever the address. -/
theorem C67_prefix6 : (∃ m, matchFromOvs "ipv6_src=fe80::/10".toList = .ok m ∧ m.items = [(26, 0, some 10)]) ∧
    ∃ m, matchFromOvs "nd_target=2001:db8::1:0/112".toList = .ok m ∧ m.items = [(31, 0, some 112)] := by
  exact ⟨⟨_, rfl, by decide +kernel⟩, _, rfl, by decide +kernel⟩

/-- Documented keys that are not known are left out without an error: the rule matches more than written.  The rest of the match stays. -/
theorem C67_left_out : ∀ t ∈ ["nw_tos=32".toList, "nw_ttl=1".toList, "nw_frag=later".toList, "ip_frag=later".toList, "ct_state=+trk".toList, "tcp_flags=2".toList,
    "mpls_ttl=1".toList, "reg0=5".toList], matchFromOvs t = .ok .empty ∧ matchFromOvs ("udp,tcp_dst=80/0xff ".toList ++ t) = matchFromOvs "udp,tcp_dst=80/0xff".toList ∧
    matchFromOvs "udp,tcp_dst=80/0xff".toList ≠ .ok .empty := by decide +kernel

/-- `vlan_tci`: the priority is in the bits 13 to 15; the value is shifted by 9, so that the match is on a number that no packet has.  Without a mask the code
fails. -/
theorem C67_vlan_tci : (∃ m, matchFromOvs "vlan_tci=0xe000/0xe000".toList = .ok m ∧ m.items = [(7, 0x70, none)]) ∧ width 7 = 3 ∧
    matchFromOvs "vlan_tci=0x1005".toList = .error .typeError := by
  exact ⟨⟨_, rfl, by decide +kernel⟩, by decide, rfl⟩

/-- The port LOCAL has a number (0xfffffffe); in a match its name is read as the bytes of the text. -/
theorem C67_local : ∃ m, matchFromOvs "in_port=LOCAL".toList = .ok m ∧ m.items = [(0, 0x4c4f43414c, none)] := by
  exact ⟨_, rfl, by decide +kernel⟩

/-- `mod_nw_tos` is about the whole byte; the field has the upper six bits, and the value is not shifted. -/
theorem C67_nw_tos : ∃ i, instFromOvs [] "mod_nw_tos:32".toList = .ok i ∧ i.apply.iter = [.setField 8 32] ∧ i.apply.iter ≠ [.setField 8 (32 >>> 2)] := by
  exact ⟨_, rfl, by decide +kernel⟩

/-- A table of two digits is not understood; the instruction is dropped without an error, and so is all that follows. -/
theorem C67_resubmit : instFromOvs [] "resubmit(,10)".toList = .ok .empty ∧ instFromOvs [] "resubmit(,10),output:1".toList = .ok .empty := by
  exact ⟨rfl, rfl⟩

/-- The actions that follow a resubmit are executed when the packet comes back; they are read as if they came before it. -/
theorem C67_resubmit_order : instFromOvs [] "resubmit(,1),output:2".toList = instFromOvs [] "output:2,goto_table:1".toList := by decide +kernel

/-- An action that is not understood ends the list without an error: the rule does less than written. -/
theorem C67_dropped : ∀ t ∈ ["in_port".toList, "mod_vlan_vid:5".toList, "set_vlan_pcp:1".toList, "dec_ttl(1,2)".toList, "move:nxm_of_eth_src[]->nxm_of_eth_dst[]".toList,
    "load:5->nxm_of_in_port[]".toList, "enqueue:1:2".toList, "learn(table=1)".toList, "note:00".toList, "meter:3".toList, "exit".toList],
    instFromOvs [] (t ++ ",output:1".toList) = .ok .empty := by decide +kernel

end OFE.Ovs
