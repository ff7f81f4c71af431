import Verif.Fmt.Model
import Verif.Rule.Model

/-!
# Rules as Open vSwitch text

Model of `ofequivalence/convert_ovs.py`.  Texts are lists of characters without newlines.  The regular expressions are modelled by functions that
take the longest run of the class of characters in question: what has to follow such a run is never in the class, so a shorter run never helps.
Warnings that are logged are left out.  Groups are numbers (see `Action`).
-/

namespace OFE.Ovs
open Fmt

/-! ### Tables -/

/-- `SHORTHANDS`, convert_ovs.py:38-53 -/
def shorthands : List (List Char × List (Nat × Nat)) := [
  ("icmp".toList, [(5, 0x0800), (10, 1)]), ("icmp6".toList, [(5, 0x86dd), (10, 58)]), ("tcp".toList, [(5, 0x0800), (10, 6)]),
  ("tcp6".toList, [(5, 0x86dd), (10, 6)]), ("udp".toList, [(5, 0x0800), (10, 17)]), ("udp6".toList, [(5, 0x86dd), (10, 17)]),
  ("sctp".toList, [(5, 0x0800), (10, 132)]), ("sctp6".toList, [(5, 0x86dd), (10, 132)]), ("ip".toList, [(5, 0x0800)]),
  ("ipv6".toList, [(5, 0x86dd)]), ("arp".toList, [(5, 0x0806)]), ("rarp".toList, [(5, 0x8035)]), ("mpls".toList, [(5, 0x8847)]),
  ("mplsm".toList, [(5, 0x8848)])]

/-- `FIELD_TO_OVS`, convert_ovs.py:59-97, by field id.  The entry `IPV6_FLABAL` is misspelt, so IPV6_FLABEL (id 28) has none. -/
def fieldToOvs : List (Nat × List Char) := [
  (0, "in_port".toList), (2, "metadata".toList), (3, "eth_dst".toList), (4, "eth_src".toList), (5, "eth_type".toList), (6, "vlan_vid".toList),
  (7, "vlan_pcp".toList), (8, "ip_dscp".toList), (9, "ip_ecn".toList), (10, "ip_proto".toList), (11, "ip_src".toList), (12, "ip_dst".toList),
  (13, "tcp_src".toList), (14, "tcp_dst".toList), (15, "udp_src".toList), (16, "udp_dst".toList), (17, "sctp_src".toList),
  (18, "sctp_dst".toList), (19, "icmp_type".toList), (20, "icmp_code".toList), (21, "arp_op".toList), (22, "arp_spa".toList),
  (23, "arp_tpa".toList), (24, "arp_sha".toList), (25, "arp_tha".toList), (26, "ipv6_src".toList), (27, "ipv6_dst".toList),
  (29, "icmpv6_type".toList), (30, "icmpv6_code".toList), (31, "nd_target".toList), (32, "nd_sll".toList), (33, "nd_tll".toList),
  (34, "mpls_label".toList), (35, "mpls_tc".toList), (36, "mpls_bos".toList), (38, "tunnel_id".toList)]

/-- The keys of `FORMATTERS`, format_utils.py:67-73. -/
inductive Form where
  | decimal | hex | ethernet | ipv6 | ipv4
deriving DecidableEq, Repr

/-- `oxm_fields[f].format`, openflow_desc.py:194-236; fields added on the fly are decimal. -/
def fieldForm (f : Nat) : Form :=
  if f ∈ [2, 5, 28, 38] then .hex
  else if f ∈ [3, 4, 24, 25, 32, 33, 50, 51, 52, 53] then .ethernet
  else if f ∈ [11, 12, 22, 23] then .ipv4
  else if f ∈ [26, 27, 31] then .ipv6
  else .decimal

/-- `FORMATTERS[...](value, None)`, format_utils.py:25-73 -/
def Form.text : Form → Nat → List Char
  | .decimal => formatDecimal | .hex => formatHex | .ethernet => formatEthernet | .ipv6 => formatIpv6 | .ipv4 => formatIpv4

/-- `akas`, convert_ovs.py:106-127 -/
def akas : List (List Char × List Char) := [
  ("in_port_oxm".toList, "in_port".toList), ("dl_src".toList, "eth_src".toList), ("dl_dst".toList, "eth_dst".toList),
  ("dl_type".toList, "eth_type".toList), ("dl_vlan_pcp".toList, "vlan_pcp".toList), ("nw_ecn".toList, "ip_ecn".toList),
  ("nw_proto".toList, "ip_proto".toList), ("nw_src".toList, "ipv4_src".toList), ("nw_dst".toList, "ipv4_dst".toList),
  ("ip_src".toList, "ipv4_src".toList), ("ip_dst".toList, "ipv4_dst".toList), ("tp_src".toList, "tcp_src".toList),
  ("tp_dst".toList, "tcp_dst".toList), ("icmp_type".toList, "icmpv4_type".toList), ("icmp_code".toList, "icmpv4_code".toList),
  ("ipv6_label".toList, "ipv6_flabel".toList), ("nd_target".toList, "ipv6_nd_target".toList), ("nd_sll".toList, "ipv6_nd_sll".toList),
  ("nd_tll".toList, "ipv6_nd_tll".toList), ("tun_id".toList, "tunnel_id".toList)]

/-- `_parse_field_name`, convert_ovs.py:100-134: the id of the field. -/
def parseFieldName (key : List Char) : Option Nat :=
  let key := ((akas.lookup key).getD key).map Char.toUpper
  (allFields.map fun x => x.1.toList).findIdx? (· == key)

/-- `ofp_port_no`, openflow_desc.py:401-411, without the prefix `OFPP_`. -/
def ofpPortNo : List (List Char × Nat) := [
  ("MAX".toList, 0xffffff00), ("IN_PORT".toList, 0xfffffff8), ("TABLE".toList, 0xfffffff9), ("NORMAL".toList, 0xfffffffa),
  ("FLOOD".toList, 0xfffffffb), ("ALL".toList, 0xfffffffc), ("CONTROLLER".toList, 0xfffffffd), ("LOCAL".toList, 0xfffffffe),
  ("ANY".toList, 0xffffffff)]

/-- `_parse_port`, convert_ovs.py:137-151 -/
def parsePort (port : List Char) : Except PyErr Nat :=
  match ofpPortNo.lookup (port.map Char.toUpper) with
  | some n => .ok n
  | none => readAuto port

/-! ### Tokens -/

/-- `\s` (ASCII) -/
def isSpace (c : Char) : Bool := c == ' ' || c == '\t' || c == '\n' || c == '\r' || c == '\x0b' || c == '\x0c'

/-- `[^,()\s]` -/
def isArg (c : Char) : Bool := !(c == ',' || c == '(' || c == ')' || isSpace c)

/-- `[^,()\s/]` -/
def isVal (c : Char) : Bool := isArg c && !(c == '/')

/-- `[a-zA-Z0-9]` -/
def isWord (c : Char) : Bool := ('a' ≤ c && c ≤ 'z') || ('A' ≤ c && c ≤ 'Z') || ('0' ≤ c && c ≤ '9')

/-- `[a-zA-Z_0-9]` -/
def isName (c : Char) : Bool := isWord c || c == '_'

/-- A literal at the beginning of the text: what follows it. -/
def dropLit : List Char → List Char → Option (List Char)
  | [], s => some s
  | _ :: _, [] => none
  | a :: as, b :: bs => if a = b then dropLit as bs else none

/-- The end of the framed expression, `\s*(?:,|$)(.*)`, convert_ovs.py:154-161. -/
def endTok (s : List Char) : Option (List Char) :=
  match s.dropWhile isSpace with
  | [] => some []
  | c :: r => if c = ',' then some r else none

/-- `_match_token(lit, s)`, convert_ovs.py:154-161, for a literal. -/
def tokLit (lit s : List Char) : Option (List Char) := (dropLit lit (s.dropWhile isSpace)).bind endTok

/-- `_match_token(lit + "([cls]*)", s)`, or with `+` in place of `*` (`ne`). -/
def tokArg (cls : Char → Bool) (lit : List Char) (ne : Bool) (s : List Char) : Option (List Char × List Char) :=
  (dropLit lit (s.dropWhile isSpace)).bind fun r =>
    if ne && (r.takeWhile cls).isEmpty then none else (endTok (r.dropWhile cls)).map fun rest => (r.takeWhile cls, rest)

/-- `_match_token(lit + r"\(([cls]+)\)", s)`; `lit` includes the opening bracket. -/
def tokParen (cls : Char → Bool) (lit s : List Char) : Option (List Char × List Char) :=
  (dropLit lit (s.dropWhile isSpace)).bind fun r =>
    if (r.takeWhile cls).isEmpty then none
    else match r.dropWhile cls with
      | c :: r' => if c = ')' then (endTok r').map fun rest => (r.takeWhile cls, rest) else none
      | [] => none

/-- `output\(\s*port=([^,()\s]+)\s*,\s*max_len=[^,()]+\)`, convert_ovs.py:266 -/
def tokOutputMax (s : List Char) : Option (List Char × List Char) :=
  (dropLit "output(".toList (s.dropWhile isSpace)).bind fun r =>
    (dropLit "port=".toList (r.dropWhile isSpace)).bind fun r =>
      if (r.takeWhile isArg).isEmpty then none
      else (dropLit [','] ((r.dropWhile isArg).dropWhile isSpace)).bind fun r' =>
        (tokParen (fun c => !(c == ',' || c == '(' || c == ')')) "max_len=".toList r').map fun x => (r.takeWhile isArg, x.2)

/-- Splits at the last arrow, if all that follows it is a name: the two groups of `(..+)->([a-zA-Z_0-9]+)` at the end of the text. -/
def splitArrow (t : List Char) : Option (List Char × List Char) :=
  match t.reverse.dropWhile isName with
  | '>' :: '-' :: v => if v.isEmpty || (t.reverse.takeWhile isName).isEmpty then none else some (v.reverse, (t.reverse.takeWhile isName).reverse)
  | _ => none

/-! ### Actions -/

/-- `key_map` without the last entry, convert_ovs.py:241-246 -/
def keyMap : List (List Char × List Action) := [
  ("drop".toList, []), ("pop_vlan".toList, [.popVlan]), ("strip_vlan".toList, [.popVlan]), ("dec_ttl".toList, [.decNwTtl]),
  ("dec_mpls_ttl".toList, [.decMplsTtl])]

/-- `(?:controller|controller:[^,()]+|controller\([^()]+\))`, convert_ovs.py:247 -/
def tokController (s : List Char) : Option (List Char) :=
  match tokLit "controller".toList s with
  | some r => some r
  | none =>
    match tokArg (fun c => !(c == ',' || c == '(' || c == ')')) "controller:".toList true s with
    | some x => some x.2
    | none => (tokParen (fun c => !(c == '(' || c == ')')) "controller(".toList s).map (·.2)

/-- How the argument of an entry of `key_value_map` is written: `:x*`, `:x+` or `(x+)`. -/
inductive Shape where
  | star | plus | paren
deriving DecidableEq

/-- `key_value_map`, convert_ovs.py:264-307, without `output(port=...,max_len=...)`, which is dealt with in `parseNextAction`; it is
the only entry that begins with `output(`, so the order does not matter. -/
def keyValueMap (groups : List (Nat × Nat)) : List (List Char × Shape × (List Char → Except PyErr Action)) := [
  ("output:".toList, .star, fun v => (parsePort v).map .output),
  ("group:".toList, .star, fun v => do
    match groups.lookup (← readAuto v) with
    | some g => return .group g
    | none => throw .keyError),
  ("push_vlan:".toList, .star, fun v => (readAuto v).map .pushVlan),
  ("push_mpls:".toList, .star, fun v => (readAuto v).map .pushMpls),
  ("pop_mpls:".toList, .star, fun v => (readAuto v).map .popMpls),
  ("set_queue:".toList, .plus, fun v => (readAuto v).map .setQueue),
  ("mod_dl_dst:".toList, .plus, fun v => (normaliseString v).map (.setField 3)),
  ("mod_dl_src:".toList, .plus, fun v => (normaliseString v).map (.setField 4)),
  ("mod_nw_dst:".toList, .plus, fun v => (normaliseString v).map (.setField 12)),
  ("mod_nw_src:".toList, .plus, fun v => (normaliseString v).map (.setField 11)),
  ("mod_nw_tos:".toList, .plus, fun v => (normaliseString v).map (.setField 8)),
  ("mod_nw_ecn:".toList, .plus, fun v => (normaliseString v).map (.setField 9)),
  ("mod_nw_ttl:".toList, .plus, fun v => (normaliseString v).map .setNwTtl),
  ("mod_nw_ttl(".toList, .paren, fun v => (normaliseString v).map .setNwTtl),
  ("set_nw_ttl:".toList, .plus, fun v => (normaliseString v).map .setNwTtl),
  ("set_nw_ttl(".toList, .paren, fun v => (normaliseString v).map .setNwTtl),
  ("set_mpls_ttl:".toList, .plus, fun v => (normaliseString v).map .setMplsTtl),
  ("set_mpls_ttl(".toList, .paren, fun v => (normaliseString v).map .setMplsTtl),
  ("mod_tp_dst:".toList, .plus, fun v => (normaliseString v).map (.setField 14)),
  ("mod_tp_src:".toList, .plus, fun v => (normaliseString v).map (.setField 13))]

/-- One entry of `key_value_map` tried, convert_ovs.py:309-312. -/
def tryEntry (s : List Char) (e : List Char × Shape × (List Char → Except PyErr Action)) :
    Option ((List Char → Except PyErr Action) × List Char × List Char) :=
  match e.2.1 with
  | .star => (tokArg isArg e.1 false s).map fun x => (e.2.2, x)
  | .plus => (tokArg isArg e.1 true s).map fun x => (e.2.2, x)
  | .paren => (tokParen isArg e.1 s).map fun x => (e.2.2, x)

/-- The first text that has the form of a set-field or load: value, destination, rest; convert_ovs.py:317-321.  A mask is an AssertionError (324);
that the rest of the action has the right form behind a mask is not looked at here. -/
def tokSet (s : List Char) : Except PyErr (Option (List Char × List Char × List Char)) :=
  match dropLit "set_field:".toList (s.dropWhile isSpace) with
  | some r =>
    if (r.dropWhile isVal).head? = some '/' then .error .assertion
    else .ok ((splitArrow (r.takeWhile isVal)).bind fun x => (endTok (r.dropWhile isVal)).map fun rest => (x.1, x.2, rest))
  | none =>
    match dropLit "load:".toList (s.dropWhile isSpace) with
    | some r => .ok ((splitArrow (r.takeWhile isVal)).bind fun x => (endTok (r.dropWhile isVal)).map fun rest => (x.1, x.2, rest))
    | none => .ok none

/-- The action of a set-field, convert_ovs.py:325-337. -/
def setAction (value dst : List Char) : Except PyErr Action := do
  let v ← normaliseString value
  if dst = "mpls_ttl".toList then return .setMplsTtl v
  if dst = "nw_ttl".toList then return .setNwTtl v
  match parseFieldName dst with
  | some f => return .setField f (if dst = "vlan_vid".toList then v &&& 0xfff else v)
  | none => throw .assertion

/-- The last resort: a port, convert_ovs.py:345-354. -/
def plainPort (s : List Char) : Except PyErr (Option (List Action × List Char)) :=
  match tokArg isWord [] false s with
  | none => .ok none
  | some (p, rest) =>
    match parsePort p with
    | .ok n => .ok (some ([.output n], rest))
    | .error .valueError => .ok none
    | .error e => .error e

/-- `_parse_next_action`, convert_ovs.py:223-356: the actions to append and what remains, or none. -/
def parseNextAction (groups : List (Nat × Nat)) (s : List Char) : Except PyErr (Option (List Action × List Char)) :=
  match keyMap.findSome? fun e => (tokLit e.1 s).map fun rest => (e.2, rest) with
  | some x => .ok (some x)
  | none =>
    match tokController s with
    | some rest => .ok (some ([.output 0xfffffffd], rest))
    | none =>
      match tokOutputMax s with
      | some (v, rest) => do return some ([.output (← parsePort v)], rest)
      | none =>
        match (keyValueMap groups).findSome? (tryEntry s) with
        | some (f, v, rest) => do return some ([← f v], rest)
        | none => do
          match ← tokSet s with
          | some (v, dst, rest) => return some ([← setAction v dst], rest)
          | none => plainPort s

/-- `actions_from_ovs`, convert_ovs.py:359-382, with `append` of the list or the set.  An action that is not understood ends the loop with a
warning.  Every turn takes at least one character. -/
def actionsLoop (groups : List (Nat × Nat)) (app : ActionList → Action → Except PyErr ActionList) : Nat → List Char → ActionList → Except PyErr ActionList
  | 0, _, _ => .error .fuel
  | fuel + 1, s, l =>
    if s.isEmpty then .ok l
    else do
      match ← parseNextAction groups s with
      | some (as, rest) => actionsLoop groups app fuel rest (← as.foldlM app l)
      | none => return l

/-- `actions_from_ovs(s, groups, type_)`, convert_ovs.py:359-382 -/
def actionsFromOvs (groups : List (Nat × Nat)) (app : ActionList → Action → Except PyErr ActionList) (s : List Char) : Except PyErr ActionList :=
  actionsLoop groups app (s.length + 1) s .empty

/-! ### Instructions -/

/-- The text up to the bracket that closes, with at most one level of brackets inside, none of them empty: the group of
`write_actions\(((?:[^()]*(?:\([^()]+\))?[^()]*)+)\)`, convert_ovs.py:184.  `open_` is the number of characters since the inner bracket. -/
def closing : Option Nat → List Char → Option (List Char × List Char)
  | _, [] => none
  | none, c :: r =>
    if c = ')' then some ([], r) else (closing (if c = '(' then some 0 else none) r).map fun x => (c :: x.1, x.2)
  | some n, c :: r =>
    if c = '(' ∨ (c = ')' ∧ n = 0) then none else (closing (if c = ')' then none else some (n + 1)) r).map fun x => (c :: x.1, x.2)

/-- `_match_token` of the expression for write_actions. -/
def tokWrite (s : List Char) : Option (List Char × List Char) :=
  (dropLit "write_actions(".toList (s.dropWhile isSpace)).bind fun r =>
    (closing none r).bind fun x => (endTok x.2).map fun rest => (x.1, rest)

/-- `write_metadata:([^,()\s/]+)(?:/([^,()\s]+))?`, convert_ovs.py:192 -/
def tokMeta (s : List Char) : Option (List Char × Option (List Char) × List Char) :=
  (dropLit "write_metadata:".toList (s.dropWhile isSpace)).bind fun r =>
    if (r.takeWhile isVal).isEmpty then none
    else match r.dropWhile isVal with
      | '/' :: r' => if (r'.takeWhile isArg).isEmpty then none
          else (endTok (r'.dropWhile isArg)).map fun rest => (r.takeWhile isVal, some (r'.takeWhile isArg), rest)
      | r' => (endTok r').map fun rest => (r.takeWhile isVal, none, rest)

/-- `resubmit\((?:in_port)?,([^,()\s])\)`, convert_ovs.py:211: a table of one character. -/
def tokResubmit (s : List Char) : Option (List Char × List Char) :=
  (dropLit "resubmit(".toList (s.dropWhile isSpace)).bind fun r =>
    (dropLit [','] ((dropLit "in_port".toList r).getD r)).bind fun
      | c :: ')' :: r' => if isArg c then (endTok r').map fun rest => ([c], rest) else none
      | _ => none

/-- `_parse_next_instruction`, convert_ovs.py:164-220 -/
def parseNextInst (groups : List (Nat × Nat)) (s : List Char) (inst : Inst) : Except PyErr (Option (Inst × List Char)) :=
  match tokLit "clear_actions".toList s with
  | some rest => .ok (some ({ inst with clear := true }, rest))
  | none =>
    match tokWrite s with
    | some (acts, rest) => do return some ({ inst with write := ← actionsFromOvs groups actionSetAppend acts }, rest)
    | none =>
      match tokMeta s with
      | some (v, mask, rest) => do
        let m ← mask.mapM normaliseString
        let v ← normaliseString v
        return some ({ inst with wmeta := some (v, m) }, rest)
      | none =>
        match tokArg isArg "goto_table:".toList true s with
        | some (t, rest) => do return some ({ inst with goto := some (← normaliseString t) }, rest)
        | none =>
          match tokResubmit s with
          | some (t, rest) => do return some ({ inst with goto := some (← normaliseString t) }, rest)
          | none => .ok none

/-- The loop of `instructions_from_ovs`, convert_ovs.py:401-416. -/
def instLoop (groups : List (Nat × Nat)) : Nat → List Char → Inst → Except PyErr Inst
  | 0, _, _ => .error .fuel
  | fuel + 1, s, inst =>
    if s.isEmpty then .ok inst
    else do
      match ← parseNextInst groups s inst with
      | some (inst, rest) => instLoop groups fuel rest inst
      | none =>
        match ← parseNextAction groups s with
        | some (as, rest) => instLoop groups fuel rest { inst with apply := ← as.foldlM ActionList.append inst.apply }
        | none => return inst

/-- `instructions_from_ovs`, convert_ovs.py:385-418 -/
def instFromOvs (groups : List (Nat × Nat)) (s : List Char) : Except PyErr Inst :=
  instLoop groups (s.length + 1) (s.map Char.toLower) .empty

/-! ### Matches -/

/-- The numbers of value and mask, convert_ovs.py:430-448.  A missing number behind `=` or `/` is an error here (the code puts the empty text into the
match, and fails when it computes the wildcard). -/
def readValues (key : List Char) : Option (List Char) → Option (List Char) → Except PyErr (Option Nat × Option Nat)
  | none, none => .ok (none, none)
  | none, some _ => .error .typeError
  | some v, none => if v.isEmpty then .error .typeError else do return (some (← normaliseString v), none)
  | some v, some m =>
    if v.isEmpty || m.isEmpty then .error .typeError
    else do
      if v.count '.' = 3 ∧ '.' ∉ m then
        let n ← normaliseString m
        if n ≤ 32 then
          let a ← normaliseString v
          return (some a, some ((2 ^ n - 1) <<< (32 - n)))
      if 2 < v.count ':' ∧ '6' ∈ key ∧ ':' ∉ m then
        let n ← normaliseString m
        if n ≤ 128 then
          let a ← normaliseString v
          return (some a, some ((2 ^ n - 1) <<< (128 - n)))
      let a ← normaliseString v
      let b ← normaliseString m
      return (some a, some b)

/-- `_add_match`, convert_ovs.py:421-484: the match with the field added, or none if the key is not known.  A field without a value is an error
here (the code puts None into the match, and fails when it computes the wildcard). -/
def addMatch (key : List Char) (value mask : Option (List Char)) (m : Match) : Except PyErr (Option Match) := do
  let (v, k) ← readValues key value mask
  match shorthands.lookup key with
  | some l => if v = none ∧ k = none then return some (l.foldl (fun m x => m.append x.1 x.2 none) m) else throw .assertion
  | none =>
    if key = "dl_vlan".toList then
      match v, k with
      | some v, none => return some (if v = 0xffff then m.append 6 0 none else m.append 6 (v &&& 0x1fff ||| 0x1000) none)
      | none, none => throw .typeError
      | _, some _ => throw .assertion
    else if key = "vlan_vid".toList then
      match v with
      | some v => return some (m.append 6 (v &&& 0x1fff) (k.map (· &&& 0x1fff)))
      | none => throw .typeError
    else if key = "vlan_tci".toList then
      match v, k with
      | some v, some k =>
        let m := if k &&& 0x1fff ≠ 0 then m.append 6 (v &&& 0x1fff) (some (k &&& 0x1fff)) else m
        if k &&& 0xe000 ≠ 0 then
          if k &&& 0xe000 = 0xe000 then return some (m.append 7 (v >>> 9) none) else throw .assertion
        else return some m
      | _, _ => throw .typeError
    else match parseFieldName key with
      | some f =>
        match v with
        | some v => return some (m.append f v k)
        | none => throw .typeError
      | none => return none

/-- The pieces between white space and commas, `re.split(r'[\s,]+', ...)` without the empty ones, convert_ovs.py:581-583, 616-618. -/
def items : List Char → List (List Char)
  | [] => []
  | c :: r =>
    if isSpace c || c == ',' then items r
    else match r with
      | [] => [[c]]
      | d :: _ =>
        if isSpace d || d == ',' then [c] :: items r
        else match items r with
          | [] => [[c]]
          | h :: t => (c :: h) :: t

/-- `key[=value[/mask]]`, convert_ovs.py:584-591, 619-627.  More than one `=` or `/` is a ValueError. -/
def splitItem (item : List Char) : Except PyErr (List Char × Option (List Char) × Option (List Char)) :=
  match splitAt '=' item with
  | [k] => .ok (k, none, none)
  | [k, v] =>
    match splitAt '/' v with
    | [v] => .ok (k, some v, none)
    | [v, m] => .ok (k, some v, some m)
    | _ => .error .valueError
  | _ => .error .valueError

/-- One turn of the loop of `match_from_ovs`, convert_ovs.py:581-591; unknown keys are ignored. -/
def matchItem (m : Match) (item : List Char) : Except PyErr Match := do
  let x ← splitItem item
  return (← addMatch x.1 x.2.1 x.2.2 m).getD m

/-- `match_from_ovs`, convert_ovs.py:569-593 -/
def matchFromOvs (s : List Char) : Except PyErr Match := (items s).foldlM matchItem .empty

/-! ### Rules -/

/-- The keys that are skipped, convert_ovs.py:506-509. -/
def skippedKeys : List (List Char) := ["duration".toList, "n_packets".toList, "n_bytes".toList, "idle_timeout".toList, "hard_timeout".toList,
  "importance".toList, "send_flow_rem".toList, "no_packet_counts".toList, "no_byte_counts".toList, "reset_counts".toList, "idle_age".toList]

/-- `assert not mask` and `normalise_string(value)`, convert_ovs.py:500-505, 513-515; `int(None, 0)` is a TypeError. -/
def plainNumber (value mask : Option (List Char)) : Except PyErr Nat :=
  if (mask.getD []).isEmpty then
    match value with
    | some v => normaliseString v
    | none => .error .typeError
  else .error .assertion

/-- `_parse_flow_argument`, convert_ovs.py:487-522; the result is not used by the caller. -/
def flowArgument {π : Type} (r : Rule π) (item : List Char) : Except PyErr (Rule π) := do
  let (key, value, mask) ← splitItem item
  if key = "table_id".toList ∨ key = "table".toList then return { r with table := ← plainNumber value mask }
  else if key = "priority".toList then return { r with priority := ← plainNumber value mask }
  else if key ∈ skippedKeys then return r
  else if key = "out_group".toList ∨ key = "out_port".toList ∨ key = "check_overlap".toList then return r
  else if key = "cookie".toList then return { r with cookie := some (← plainNumber value mask) }
  else
    let m ← addMatch key value mask r.mat
    return { r with mat := m.getD r.mat }

/-- `line.split(pat)`: the parts. -/
def splitOn (pat : List Char) : List Char → List (List Char)
  | [] => [[]]
  | c :: r =>
    if (dropLit pat (c :: r)).isSome then [] :: splitOn pat ((c :: r).drop (max 1 pat.length))
    else match splitOn pat r with
      | [] => [[c]]
      | h :: t => (c :: h) :: t
termination_by s => s.length
decreasing_by
  · simp only [List.length_drop, List.length_cons]; omega
  · simp

/-- `rule_from_ovs`, convert_ovs.py:596-631; a line that does not contain `actions=` exactly once is a ValueError. -/
def ruleFromOvs {π : Type} (groups : List (Nat × Nat)) (line : List Char) : Except PyErr (Rule π) :=
  match splitOn "actions=".toList line with
  | [fields, actions] => do
    let r ← (items fields).foldlM flowArgument (⟨0x8000, none, 0, .empty, .empty, []⟩ : Rule π)
    if actions.isEmpty then return r else return { r with inst := ← instFromOvs groups actions }
  | _ => .error .valueError

/-! ### Writing -/

/-- One turn of the loop of `actions_to_ovs`, convert_ovs.py:641-673.  `NotImplementedError` is a runtime error. -/
def actionToOvs : Action → Except PyErr (List Char)
  | .output p => .ok ("output:".toList ++ digits 10 p)
  | .setMplsTtl v => .ok ("set_mpls_ttl:".toList ++ digits 10 v)
  | .decMplsTtl => .ok "dec_mpls_ttl".toList
  | .pushVlan e => .ok ("push_vlan:".toList ++ formatHex e)
  | .popVlan => .ok "pop_vlan".toList
  | .pushMpls e => .ok ("push_mpls:".toList ++ formatHex e)
  | .popMpls e => .ok ("pop_mpls:".toList ++ formatHex e)
  | .setQueue q => .ok ("set_queue:".toList ++ digits 10 q)
  | .setNwTtl v => .ok ("set_nw_ttl:".toList ++ digits 10 v)
  | .decNwTtl => .ok "dec_ttl".toList
  | .setField f v =>
    match fieldToOvs.lookup f with
    | some name => .ok ("set_field:".toList ++ ((fieldForm f).text (if f = fVid then v ||| 0x1000 else v) ++ ("->".toList ++ name)))
    | none => .error .runtimeError
  | _ => .error .runtimeError

/-- `actions_to_ovs`, convert_ovs.py:634-674 -/
def actionsToOvs (l : List Action) : Except PyErr (List Char) := (l.mapM actionToOvs).map (joinWith ',')

/-- `instructions_to_ovs`, convert_ovs.py:677-700.  The meter is not written. -/
def instToOvs (i : Inst) : Except PyErr (List Char) := do
  let apply ← if i.apply.len = 0 then pure [] else (actionsToOvs i.apply.iter).map ([·])
  let clear := if i.clear then ["clear_actions".toList] else []
  let write ← if i.write.len = 0 then pure [] else (actionsToOvs i.write.iter).map fun t => ["write_actions(".toList ++ (t ++ ")".toList)]
  let wmeta := match i.wmeta with
    | none => []
    | some (v, none) => ["write_metadata:".toList ++ digits 10 v]
    | some (v, some m) => ["write_metadata:".toList ++ (digits 10 v ++ '/' :: digits 10 m)]
  let goto := match i.goto with
    | none => []
    | some t => ["goto_table:".toList ++ digits 10 t]
  return joinWith ',' (apply ++ clear ++ write ++ wmeta ++ goto)

/-- One turn of the second loop of `match_to_ovs`, convert_ovs.py:725-730. -/
def fieldText (x : Nat × Nat × Option Nat) : Except PyErr (List Char) :=
  match fieldToOvs.lookup x.1 with
  | some name => .ok (name ++ '=' :: withMask (fieldForm x.1).text x.2.1 x.2.2)
  | none => .error .runtimeError

/-- `match_to_ovs`, convert_ovs.py:703-731.  The first loop compares a triple with a pair (line 716), which is never true: no shorthand is
written. -/
def matchToOvs (m : Match) : Except PyErr (List Char) := (m.items.mapM fieldText).map (joinWith ',')

/-- `rule_to_ovs`, convert_ovs.py:734-750 -/
def ruleToOvs {π : Type} (r : Rule π) : Except PyErr (List Char) := do
  let m ← matchToOvs r.mat
  let i ← instToOvs r.inst
  return "cookie=".toList ++ formatHex (r.cookie.getD 0) ++ (", table=".toList ++ digits 10 r.table) ++ (", priority=".toList ++ digits 10 r.priority)
    ++ ',' :: (m ++ (" actions=".toList ++ i))

end OFE.Ovs
