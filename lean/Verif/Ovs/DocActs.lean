import Verif.Ovs.DocMatch

/-!
# Actions as documented are read
-/

namespace OFE.Ovs
open Fmt

/-- A text that is read as the actions, as an action and within instructions and within brackets. -/
structure DReads (groups : List (Nat × Nat)) (t : List Char) (as : List Action) : Prop where
  ne : t ≠ []
  act : ∀ rest out, Tail rest out → parseNextAction groups (t ++ rest) = .ok (some (as, out))
  inst : ∀ rest out, Tail rest out → ∀ i, parseNextInst groups (t ++ rest) i = .ok none
  close : ∀ r, closing none (t ++ r) = (closing none r).map fun x => (t ++ x.1, x.2)

/-- A text without brackets does not matter for the bracket that closes. -/
theorem closing_skip : ∀ {t : List Char}, (∀ c ∈ t, c ≠ '(' ∧ c ≠ ')') → ∀ r, closing none (t ++ r) = (closing none r).map fun x => (t ++ x.1, x.2)
  | [], _, r => by simp
  | c :: t, h, r => by
    obtain ⟨h1, h2⟩ := h c List.mem_cons_self
    rw [List.cons_append, closing, if_neg h2, if_neg h1, closing_skip (fun d hd => h d (List.mem_cons_of_mem _ hd)) r, Option.map_map]
    rfl

theorem closing_inner : ∀ {t : List Char} {n : Nat}, (t = [] → 0 < n) → (∀ c ∈ t, c ≠ '(' ∧ c ≠ ')') →
    ∀ r, closing (some n) (t ++ ')' :: r) = (closing none r).map fun x => (t ++ ')' :: x.1, x.2)
  | [], n, h0, _, r => by
    rw [List.nil_append, closing, if_neg (by have := h0 rfl; simp; omega), if_pos rfl]
    rfl
  | c :: t, n, _, h, r => by
    obtain ⟨h1, h2⟩ := h c List.mem_cons_self
    rw [List.cons_append, closing, if_neg (by simp [h1, h2]), if_neg h2, closing_inner (by simp) (fun d hd => h d (List.mem_cons_of_mem _ hd)) r, Option.map_map]
    rfl

theorem closing_bracket {a t : List Char} (ha : ∀ c ∈ a, c ≠ '(' ∧ c ≠ ')') (hne : t ≠ []) (ht : ∀ c ∈ t, c ≠ '(' ∧ c ≠ ')') (r : List Char) :
    closing none ((a ++ '(' :: (t ++ [')'])) ++ r) = (closing none r).map fun x => ((a ++ '(' :: (t ++ [')'])) ++ x.1, x.2) := by
  rw [show (a ++ '(' :: (t ++ [')'])) ++ r = a ++ ('(' :: (t ++ ')' :: r)) from by simp, closing_skip ha, closing, if_neg (by decide), if_pos rfl,
    closing_inner (fun e => absurd e hne) ht, Option.map_map, Option.map_map]
  congr 1
  funext x
  simp

theorem arg_noparen {t : List Char} (h : ∀ c ∈ t, isArg c = true) : ∀ c ∈ t, c ≠ '(' ∧ c ≠ ')' := by
  intro c hc
  have := h c hc
  constructor <;> rintro rfl <;> exact absurd this (by decide)

theorem append_noparen {a t : List Char} (ha : ∀ c ∈ a, c ≠ '(' ∧ c ≠ ')') (ht : ∀ c ∈ t, c ≠ '(' ∧ c ≠ ')') : ∀ c ∈ a ++ t, c ≠ '(' ∧ c ≠ ')' := by
  intro c hc
  rcases List.mem_append.1 hc with h | h
  · exact ha c h
  · exact ht c h

theorem valText_arg {t : List Char} {v : Nat} (h : ValText t v) : t ≠ [] ∧ ∀ c ∈ t, isArg c = true :=
  ⟨h.ne, fun c hc => (docChar_facts c (h.chars c hc)).2.1⟩

theorem denotes_arg {k : Kind} {t : List Char} {v : Nat} (h : Denotes k t v) : t ≠ [] ∧ ∀ c ∈ t, isArg c = true := valText_arg (denotes_facts h).1

theorem denotes_read {k : Kind} {t : List Char} {v : Nat} (h : Denotes k t v) : normaliseString t = .ok v := (denotes_facts h).1.read

theorem entry_hit {lit t rest out : List Char} {sh : Shape} {f : List Char → Except PyErr Action} (hsh : sh = .star ∨ sh = .plus)
    (hlit : (lit ++ (t ++ rest)).dropWhile isSpace = lit ++ (t ++ rest)) (ht : t ≠ [] ∧ ∀ c ∈ t, isArg c = true) (h : Tail rest out) :
    tryEntry (lit ++ (t ++ rest)) (lit, sh, f) = some (f, t, out) := by
  unfold tryEntry
  rcases hsh with rfl | rfl
  · simp only [tokArg_hit (ne := false) hlit ht rfl h, Option.map_some]
  · simp only [tokArg_hit (ne := true) hlit ht rfl h, Option.map_some]

/-- An action with an argument behind a colon. -/
theorem dreads_kv {groups : List (Nat × Nat)} {lit t : List Char} {sh : Shape} {f : List Char → Except PyErr Action} {a : Action} (n : Nat)
    (ht : t ≠ [] ∧ ∀ c ∈ t, isArg c = true) (hl : lit ≠ [] ∧ ∀ c ∈ lit, c ≠ '(' ∧ c ≠ ')')
    (h1 : ∀ x, (keyMap.findSome? fun e => (tokLit e.1 (lit ++ x)).map fun rest => (e.2, rest)) = none) (h2 : ∀ x, tokController (lit ++ x) = none)
    (h3 : ∀ x, tokOutputMax (lit ++ x) = none) (h4 : ∀ x, (((keyValueMap groups).take n).all fun e => (tryEntry (lit ++ x) e).isNone) = true)
    (h5 : (keyValueMap groups)[n]? = some (lit, sh, f)) (hsh : sh = .star ∨ sh = .plus) (hsp : ∀ x, (lit ++ x).dropWhile isSpace = lit ++ x)
    (hf : f t = .ok a) (hi : ∀ x i, parseNextInst groups (lit ++ x) i = .ok none) : DReads groups (lit ++ t) [a] := by
  refine ⟨by simp [hl.1], fun rest out h => ?_, fun rest out _ i => ?_, closing_skip (append_noparen hl.2 (arg_noparen ht.2))⟩
  · rw [List.append_assoc, parse_kv n (h1 _) (h2 _) (h3 _) (h4 _) h5 (v := t) (out := out), hf]
    · rfl
    · exact entry_hit hsh (hsp _) ht h
  · rw [List.append_assoc]; exact hi _ i

theorem dreads_lit {groups : List (Nat × Nat)} {lit : List Char} {as : List Action} (n : Nat)
    (hl : lit ≠ [] ∧ ∀ c ∈ lit, c ≠ '(' ∧ c ≠ ')') (h4 : ∀ x, ((keyMap.take n).all fun e => (tokLit e.1 (lit ++ x)).isNone) = true)
    (h5 : keyMap[n]? = some (lit, as)) (hsp : ∀ x, (lit ++ x).dropWhile isSpace = lit ++ x) (hi : ∀ x i, parseNextInst groups (lit ++ x) i = .ok none) :
    DReads groups lit as :=
  ⟨hl.1, fun rest _ h => parse_lit n (h4 rest) h5 (tokLit_hit (hsp rest) h), fun rest _ _ i => hi rest i, closing_skip hl.2⟩

theorem dreads_drop (groups : List (Nat × Nat)) : DReads groups "drop".toList [] :=
  dreads_lit 0 (by decide) (fun _ => rfl) rfl (fun _ => rfl) (fun _ _ => rfl)

theorem dreads_plain (groups : List (Nat × Nat)) {t : List Char} {a : Action} (h : (t, a) ∈ docPlain) : DReads groups t [a] := by
  simp only [docPlain, List.mem_cons, List.not_mem_nil, or_false, Prod.mk.injEq] at h
  rcases h with ⟨rfl, rfl⟩ | ⟨rfl, rfl⟩ | ⟨rfl, rfl⟩ | ⟨rfl, rfl⟩
  · exact dreads_lit 1 (by decide) (fun _ => rfl) rfl (fun _ => rfl) (fun _ _ => rfl)
  · exact dreads_lit 2 (by decide) (fun _ => rfl) rfl (fun _ => rfl) (fun _ _ => rfl)
  · exact dreads_lit 3 (by decide) (fun _ => rfl) rfl (fun _ => rfl) (fun _ _ => rfl)
  · exact dreads_lit 4 (by decide) (fun _ => rfl) rfl (fun _ => rfl) (fun _ _ => rfl)

/-! ### Ports -/

theorem num_head {t : List Char} {v : Nat} (h : Denotes .num t v) :
    (∃ c r, t = c :: r ∧ c ∈ "0123456789".toList) ∧ ∀ c ∈ t, isWord c = true := by
  have hw : ∀ c ∈ "0123456789abcdefABCDEF".toList, isWord c = true := by decide
  cases h with
  | @dec _ ds hne hd hz =>
    refine ⟨?_, fun c hc => hw c (hexes_char (decs_hexes hd) c hc)⟩
    cases hd with
    | nil => exact absurd rfl hne
    | @cons c d p ds hc hrest => exact ⟨c, p, rfl, List.mem_of_getElem? hc⟩
  | @hex p ds hne hd =>
    refine ⟨⟨'0', _, rfl, by decide⟩, fun c hc => ?_⟩
    rcases List.mem_cons.1 hc with rfl | hc
    · decide
    · rcases List.mem_cons.1 hc with rfl | hc
      · decide
      · exact hw c (hexes_char hd c hc)

theorem port_lookup {c : Char} (hc : c ∈ "0123456789".toList) (t : List Char) : ofpPortNo.lookup ((c :: t).map Char.toUpper) = none := by
  rw [List.map_cons]
  have this := (show ∀ c ∈ "0123456789".toList, c.toUpper ∉ ['M', 'I', 'T', 'N', 'F', 'A', 'C', 'L'] by decide) c hc
  generalize c.toUpper = u at this
  generalize List.map Char.toUpper t = w
  simp only [List.mem_cons, List.not_mem_nil, or_false, not_or] at this
  obtain ⟨h1, h2, h3, h4, h5, h6, h7, h8⟩ := this
  have hne : ∀ (a : Char) (s : List Char), u ≠ a → ((u :: w) == (a :: s)) = false := by
    intro a s hh
    rw [beq_eq_false_iff_ne]
    intro e; exact hh (List.cons.inj e).1
  simp only [ofpPortNo, List.lookup]
  rw [show "MAX".toList = 'M' :: "AX".toList from rfl, show "IN_PORT".toList = 'I' :: "N_PORT".toList from rfl,
    show "TABLE".toList = 'T' :: "ABLE".toList from rfl, show "NORMAL".toList = 'N' :: "ORMAL".toList from rfl,
    show "FLOOD".toList = 'F' :: "LOOD".toList from rfl, show "ALL".toList = 'A' :: "LL".toList from rfl,
    show "CONTROLLER".toList = 'C' :: "ONTROLLER".toList from rfl, show "LOCAL".toList = 'L' :: "OCAL".toList from rfl,
    show "ANY".toList = 'A' :: "NY".toList from rfl]
  simp only [hne _ _ h1, hne _ _ h2, hne _ _ h3, hne _ _ h4, hne _ _ h5, hne _ _ h6, hne _ _ h7, hne _ _ h8]

theorem port_num {t : List Char} {v : Nat} (h : Denotes .num t v) : parsePort t = .ok v := by
  obtain ⟨⟨c, r, rfl, hc⟩, -⟩ := num_head h
  unfold parsePort
  rw [port_lookup hc]
  exact auto_num h

theorem port_name : ∀ x ∈ docPorts, parsePort x.1 = .ok x.2 ∧ x.1 ≠ [] ∧ ∀ c ∈ x.1, isArg c = true := by decide +kernel

theorem dreads_output (groups : List (Nat × Nat)) {t : List Char} {v : Nat} (ht : t ≠ [] ∧ ∀ c ∈ t, isArg c = true) (h : parsePort t = .ok v) :
    DReads groups ("output:".toList ++ t) [.output v] :=
  dreads_kv 0 ht (by decide) (fun _ => rfl) (fun _ => rfl) (fun _ => rfl) (fun _ => rfl) rfl (.inl rfl) (fun _ => rfl)
    (by rw [h]; rfl) (fun _ _ => rfl)

theorem plain_port {t rest out : List Char} {v : Nat} (hsp : (t ++ rest).dropWhile isSpace = t ++ rest) (hne : t ≠ []) (hw : ∀ c ∈ t, isWord c = true)
    (hp : parsePort t = .ok v) (h : Tail rest out) : plainPort (t ++ rest) = .ok (some ([.output v], out)) := by
  have := tokArg_hit (cls := isWord) (lit := []) (ne := false) (t := t) (rest := rest) hsp ⟨hne, hw⟩ rfl h
  rw [List.nil_append] at this
  unfold plainPort
  rw [this]
  simp only [hp]

theorem digit_next (groups : List (Nat × Nat)) {c : Char} (hc : c ∈ "0123456789".toList) (x : List Char) :
    parseNextAction groups (c :: x) = plainPort (c :: x) ∧ (∀ i, parseNextInst groups (c :: x) i = .ok none) ∧ (c :: x).dropWhile isSpace = c :: x := by
  rw [show "0123456789".toList = ['0', '1', '2', '3', '4', '5', '6', '7', '8', '9'] from rfl] at hc
  simp only [List.mem_cons, List.not_mem_nil, or_false] at hc
  rcases hc with rfl | rfl | rfl | rfl | rfl | rfl | rfl | rfl | rfl | rfl <;> exact ⟨rfl, fun _ => rfl, rfl⟩

theorem dreads_port (groups : List (Nat × Nat)) {t : List Char} {v : Nat} (h : Denotes .num t v) : DReads groups t [.output v] := by
  have hp := port_num h
  have ha := denotes_arg h
  obtain ⟨⟨c, r, rfl, hc⟩, hw⟩ := num_head h
  refine ⟨by simp, fun rest out ht => ?_, fun rest out _ i => ?_, closing_skip (arg_noparen ha.2)⟩
  · obtain ⟨h1, -, h3⟩ := digit_next groups hc (r ++ rest)
    rw [List.cons_append, h1]
    exact plain_port (t := c :: r) h3 (by simp) hw hp ht
  · exact (digit_next groups hc (r ++ rest)).2.1 i

theorem dreads_portName (groups : List (Nat × Nat)) {t : List Char} {v : Nat} (h : (t, v) ∈ docBarePorts) : DReads groups t [.output v] := by
  simp only [docBarePorts, List.mem_cons, List.not_mem_nil, or_false, Prod.mk.injEq] at h
  rcases h with ⟨rfl, rfl⟩ | ⟨rfl, rfl⟩ | ⟨rfl, rfl⟩ | ⟨rfl, rfl⟩
  · exact ⟨by decide, fun rest out ht => (show parseNextAction groups ("normal".toList ++ rest) = plainPort ("normal".toList ++ rest) from rfl).trans
      (plain_port rfl (by decide) (by decide) (by decide) ht), fun _ _ _ _ => rfl, closing_skip (by decide)⟩
  · exact ⟨by decide, fun rest out ht => (show parseNextAction groups ("flood".toList ++ rest) = plainPort ("flood".toList ++ rest) from rfl).trans
      (plain_port rfl (by decide) (by decide) (by decide) ht), fun _ _ _ _ => rfl, closing_skip (by decide)⟩
  · exact ⟨by decide, fun rest out ht => (show parseNextAction groups ("all".toList ++ rest) = plainPort ("all".toList ++ rest) from rfl).trans
      (plain_port rfl (by decide) (by decide) (by decide) ht), fun _ _ _ _ => rfl, closing_skip (by decide)⟩
  · exact ⟨by decide, fun rest out ht => (show parseNextAction groups ("local".toList ++ rest) = plainPort ("local".toList ++ rest) from rfl).trans
      (plain_port rfl (by decide) (by decide) (by decide) ht), fun _ _ _ _ => rfl, closing_skip (by decide)⟩

theorem dreads_controller (groups : List (Nat × Nat)) : DReads groups "controller".toList [.output 0xfffffffd] := by
  refine ⟨by decide, fun rest out ht => ?_, fun _ _ _ _ => rfl, closing_skip (by decide)⟩
  unfold parseNextAction
  rw [show (keyMap.findSome? fun e => (tokLit e.1 ("controller".toList ++ rest)).map fun rest => (e.2, rest)) = none from rfl]
  unfold tokController
  rw [tokLit_hit rfl ht]

theorem dreads_controllerLen (groups : List (Nat × Nat)) {u : List Char} {n : Nat} (h : Denotes .num u n) :
    DReads groups ("controller:".toList ++ u) [.output 0xfffffffd] := by
  have ha := denotes_arg h
  refine ⟨by simp, fun rest out ht => ?_, fun _ _ _ _ => rfl, closing_skip (append_noparen (by decide) (arg_noparen ha.2))⟩
  have hc : ∀ c ∈ u, (fun c => !(c == ',' || c == '(' || c == ')')) c = true := by
    intro c hc
    have := ha.2 c hc
    simp only [isArg, Bool.not_eq_true', Bool.or_eq_false_iff] at this
    simp only [this, Bool.or_self, Bool.not_false]
  have hit := tokArg_hit (cls := fun c => !(c == ',' || c == '(' || c == ')')) (lit := "controller:".toList) (ne := true) (t := u) (rest := rest) rfl
    ⟨ha.1, hc⟩ rfl ht
  rw [List.append_assoc]
  generalize u ++ rest = r at hit
  unfold parseNextAction
  rw [show (keyMap.findSome? fun e => (tokLit e.1 ("controller:".toList ++ r)).map fun rest => (e.2, rest)) = none from rfl]
  unfold tokController
  rw [show tokLit "controller".toList ("controller:".toList ++ r) = none from rfl, hit]

theorem tokParen_hit {cls : Char → Bool} {lit t rest out : List Char}
    (hlit : (lit ++ (t ++ ')' :: rest)).dropWhile isSpace = lit ++ (t ++ ')' :: rest)) (ht : t ≠ [] ∧ ∀ c ∈ t, cls c = true) (hcls : cls ')' = false)
    (h : Tail rest out) : tokParen cls lit (lit ++ (t ++ ')' :: rest)) = some (t, out) := by
  obtain ⟨h1, h2⟩ := while_stop ht.2 (rest := ')' :: rest) fun c hc => by
    simp only [List.head?_cons, Option.mem_def, Option.some.injEq] at hc
    subst hc; exact hcls
  unfold tokParen
  rw [hlit, dropLit_append]
  simp only [Option.bind_some, h1, h2, endTok_tail h, Option.map_some]
  rw [if_neg (by simp [ht.1]), if_pos (by trivial)]

theorem dreads_controllerMax (groups : List (Nat × Nat)) {u : List Char} {n : Nat} (h : Denotes .num u n) :
    DReads groups ("controller(max_len=".toList ++ (u ++ ")".toList)) [.output 0xfffffffd] := by
  have ha := denotes_arg h
  have e : "controller(max_len=".toList ++ (u ++ ")".toList) = "controller".toList ++ '(' :: (("max_len=".toList ++ u) ++ [')']) := by
    rw [show "controller(max_len=".toList = "controller".toList ++ '(' :: "max_len=".toList from rfl, show ")".toList = [')'] from rfl]
    simp only [List.append_assoc, List.cons_append]
  rw [e]
  refine ⟨by simp, fun rest out ht => ?_, fun _ _ _ _ => rfl, closing_bracket (by decide) (by simp) (append_noparen (by decide) (arg_noparen ha.2))⟩
  have hc : ∀ c ∈ "max_len=".toList ++ u, (fun c => !(c == '(' || c == ')')) c = true := by
    intro c hc
    rcases List.mem_append.1 hc with hc | hc
    · exact (show ∀ c ∈ "max_len=".toList, (!(c == '(' || c == ')')) = true by decide) c hc
    · have := ha.2 c hc
      simp only [isArg, Bool.not_eq_true', Bool.or_eq_false_iff] at this
      simp only [this, Bool.or_self, Bool.not_false]
  have hit := tokParen_hit (cls := fun c => !(c == '(' || c == ')')) (lit := "controller(".toList) (t := "max_len=".toList ++ u) (rest := rest) rfl
    ⟨by simp, hc⟩ rfl ht
  have e2 : "controller".toList ++ '(' :: (("max_len=".toList ++ u) ++ [')']) ++ rest = "controller(".toList ++ (("max_len=".toList ++ u) ++ ')' :: rest) := by
    rw [show "controller(".toList = "controller".toList ++ ['('] from rfl]
    simp only [List.append_assoc, List.cons_append, List.nil_append]
  rw [e2]
  generalize ("max_len=".toList ++ u) ++ ')' :: rest = r at hit
  unfold parseNextAction
  rw [show (keyMap.findSome? fun e => (tokLit e.1 ("controller(".toList ++ r)).map fun rest => (e.2, rest)) = none from rfl]
  unfold tokController
  rw [show tokLit "controller".toList ("controller(".toList ++ r) = none from rfl,
    show tokArg (fun c => !(c == ',' || c == '(' || c == ')')) "controller:".toList true ("controller(".toList ++ r) = none from rfl, hit]
  rfl

theorem tokOutputMax_hit {t u rest out : List Char} (ht : t ≠ [] ∧ ∀ c ∈ t, isArg c = true) (hu : u ≠ [] ∧ ∀ c ∈ u, isArg c = true) (h : Tail rest out) :
    tokOutputMax ("output(".toList ++ ("port=".toList ++ (t ++ (',' :: ("max_len=".toList ++ (u ++ ')' :: rest)))))) = some (t, out) := by
  obtain ⟨h1, h2⟩ := while_stop ht.2 (rest := ',' :: ("max_len=".toList ++ (u ++ ')' :: rest))) fun c hc => by
    simp only [List.head?_cons, Option.mem_def, Option.some.injEq] at hc
    subst hc; rfl
  have hc : ∀ c ∈ u, (fun c => !(c == ',' || c == '(' || c == ')')) c = true := by
    intro c hc
    have := hu.2 c hc
    simp only [isArg, Bool.not_eq_true', Bool.or_eq_false_iff] at this
    simp only [this, Bool.or_self, Bool.not_false]
  have hp := tokParen_hit (cls := fun c => !(c == ',' || c == '(' || c == ')')) (lit := "max_len=".toList) (t := u) (rest := rest) rfl ⟨hu.1, hc⟩ rfl h
  generalize "max_len=".toList ++ (u ++ ')' :: rest) = s at h1 h2 hp
  generalize hx : t ++ ',' :: s = x at h1 h2
  unfold tokOutputMax
  rw [show ("output(".toList ++ ("port=".toList ++ x)).dropWhile isSpace = "output(".toList ++ ("port=".toList ++ x) from rfl, dropLit_append]
  simp only [Option.bind_some]
  rw [show ("port=".toList ++ x).dropWhile isSpace = "port=".toList ++ x from rfl, dropLit_append]
  simp only [Option.bind_some, h1, h2]
  rw [if_neg (by simp [ht.1]), show dropLit [','] ((',' :: s).dropWhile isSpace) = some s from rfl]
  simp only [Option.bind_some, hp, Option.map_some]

theorem dreads_outputMax (groups : List (Nat × Nat)) {t u : List Char} {v n : Nat} (h : Denotes .num t v) (h' : Denotes .num u n) :
    DReads groups ("output(port=".toList ++ (t ++ (",max_len=".toList ++ (u ++ ")".toList)))) [.output v] := by
  have ha := denotes_arg h
  have hb := denotes_arg h'
  have e : "output(port=".toList ++ (t ++ (",max_len=".toList ++ (u ++ ")".toList))) =
      "output".toList ++ '(' :: (("port=".toList ++ (t ++ (",max_len=".toList ++ u))) ++ [')']) := by
    rw [show "output(port=".toList = "output".toList ++ '(' :: "port=".toList from rfl, show ")".toList = [')'] from rfl]
    simp only [List.append_assoc, List.cons_append]
  rw [e]
  refine ⟨by simp, fun rest out ht => ?_, fun _ _ _ _ => rfl, closing_bracket (by decide) (by simp) ?_⟩
  · have hit := tokOutputMax_hit ha hb ht
    have e2 : "output".toList ++ '(' :: (("port=".toList ++ (t ++ (",max_len=".toList ++ u))) ++ [')']) ++ rest =
        "output(".toList ++ ("port=".toList ++ (t ++ (',' :: ("max_len=".toList ++ (u ++ ')' :: rest))))) := by
      rw [show "output(".toList = "output".toList ++ ['('] from rfl, show ",max_len=".toList = ',' :: "max_len=".toList from rfl]
      simp only [List.append_assoc, List.cons_append, List.nil_append]
    rw [e2]
    generalize "port=".toList ++ (t ++ (',' :: ("max_len=".toList ++ (u ++ ')' :: rest)))) = r at hit
    unfold parseNextAction
    rw [show (keyMap.findSome? fun e => (tokLit e.1 ("output(".toList ++ r)).map fun rest => (e.2, rest)) = none from rfl,
      show tokController ("output(".toList ++ r) = none from rfl, hit]
    simp only [port_num h, bind, Except.bind]
    rfl
  · exact append_noparen (by decide) (append_noparen (arg_noparen ha.2) (append_noparen (by decide) (arg_noparen hb.2)))

/-! ### The other actions -/

theorem dreads_group (groups : List (Nat × Nat)) {t : List Char} {n x : Nat} (h : Denotes .num t n) (hx : groups.lookup n = some x) :
    DReads groups ("group:".toList ++ t) [.group x] :=
  dreads_kv 1 (denotes_arg h) (by decide) (fun _ => rfl) (fun _ => rfl) (fun _ => rfl) (fun _ => rfl) rfl (.inl rfl) (fun _ => rfl)
    (by rw [auto_num h]; simp only [bind, Except.bind, hx]; rfl) (fun _ _ => rfl)

theorem dreads_num (groups : List (Nat × Nat)) {key t : List Char} {a : NumAct} {v : Nat} (hk : (key, a) ∈ docNumActs) (h : Denotes .num t v) :
    DReads groups (key ++ t) [a.act v] := by
  have ha := denotes_arg h
  have hr := denotes_read h
  have hr' := auto_num h
  simp only [docNumActs, List.mem_cons, List.not_mem_nil, or_false, Prod.mk.injEq] at hk
  rcases hk with ⟨rfl, rfl⟩ | ⟨rfl, rfl⟩ | ⟨rfl, rfl⟩ | ⟨rfl, rfl⟩ | ⟨rfl, rfl⟩ | ⟨rfl, rfl⟩
  · exact dreads_kv 2 ha (by decide) (fun _ => rfl) (fun _ => rfl) (fun _ => rfl) (fun _ => rfl) rfl (.inl rfl) (fun _ => rfl) (by rw [hr']; rfl) (fun _ _ => rfl)
  · exact dreads_kv 3 ha (by decide) (fun _ => rfl) (fun _ => rfl) (fun _ => rfl) (fun _ => rfl) rfl (.inl rfl) (fun _ => rfl) (by rw [hr']; rfl) (fun _ _ => rfl)
  · exact dreads_kv 4 ha (by decide) (fun _ => rfl) (fun _ => rfl) (fun _ => rfl) (fun _ => rfl) rfl (.inl rfl) (fun _ => rfl) (by rw [hr']; rfl) (fun _ _ => rfl)
  · exact dreads_kv 5 ha (by decide) (fun _ => rfl) (fun _ => rfl) (fun _ => rfl) (fun _ => rfl) rfl (.inr rfl) (fun _ => rfl) (by rw [hr']; rfl) (fun _ _ => rfl)
  · exact dreads_kv 12 ha (by decide) (fun _ => rfl) (fun _ => rfl) (fun _ => rfl) (fun _ => rfl) rfl (.inr rfl) (fun _ => rfl) (by rw [hr]; rfl) (fun _ _ => rfl)
  · exact dreads_kv 16 ha (by decide) (fun _ => rfl) (fun _ => rfl) (fun _ => rfl) (fun _ => rfl) rfl (.inr rfl) (fun _ => rfl) (by rw [hr]; rfl) (fun _ _ => rfl)

theorem dreads_mod (groups : List (Nat × Nat)) {key t : List Char} {f v : Nat} {k : Kind} (hk : (key, f) ∈ docSetActs) (h : Denotes k t v) :
    DReads groups (key ++ t) [.setField f v] := by
  have ha := denotes_arg h
  have hr := denotes_read h
  simp only [docSetActs, List.mem_cons, List.not_mem_nil, or_false, Prod.mk.injEq] at hk
  rcases hk with ⟨rfl, rfl⟩ | ⟨rfl, rfl⟩ | ⟨rfl, rfl⟩ | ⟨rfl, rfl⟩ | ⟨rfl, rfl⟩
  · exact dreads_kv 6 ha (by decide) (fun _ => rfl) (fun _ => rfl) (fun _ => rfl) (fun _ => rfl) rfl (.inr rfl) (fun _ => rfl) (by rw [hr]; rfl) (fun _ _ => rfl)
  · exact dreads_kv 7 ha (by decide) (fun _ => rfl) (fun _ => rfl) (fun _ => rfl) (fun _ => rfl) rfl (.inr rfl) (fun _ => rfl) (by rw [hr]; rfl) (fun _ _ => rfl)
  · exact dreads_kv 8 ha (by decide) (fun _ => rfl) (fun _ => rfl) (fun _ => rfl) (fun _ => rfl) rfl (.inr rfl) (fun _ => rfl) (by rw [hr]; rfl) (fun _ _ => rfl)
  · exact dreads_kv 9 ha (by decide) (fun _ => rfl) (fun _ => rfl) (fun _ => rfl) (fun _ => rfl) rfl (.inr rfl) (fun _ => rfl) (by rw [hr]; rfl) (fun _ _ => rfl)
  · exact dreads_kv 11 ha (by decide) (fun _ => rfl) (fun _ => rfl) (fun _ => rfl) (fun _ => rfl) rfl (.inr rfl) (fun _ => rfl) (by rw [hr]; rfl) (fun _ _ => rfl)

theorem dreads_mplsTtl (groups : List (Nat × Nat)) {t : List Char} {v : Nat} (h : Denotes .num t v) :
    DReads groups ("set_mpls_ttl(".toList ++ (t ++ ")".toList)) [.setMplsTtl v] := by
  have ha := denotes_arg h
  refine ⟨by simp, fun rest out ht => ?_, fun _ _ _ _ => rfl, ?_⟩
  · have hit := tokParen_hit (cls := isArg) (lit := "set_mpls_ttl(".toList) (t := t) (rest := rest) rfl ha rfl ht
    rw [show "set_mpls_ttl(".toList ++ (t ++ ")".toList) ++ rest = "set_mpls_ttl(".toList ++ (t ++ ')' :: rest) from by
      rw [show ")".toList = [')'] from rfl]; simp]
    generalize t ++ ')' :: rest = r at hit
    rw [parse_kv (sh := .paren) (lit := "set_mpls_ttl(".toList) (f := fun v => (normaliseString v).map .setMplsTtl) 17 rfl rfl rfl rfl rfl (v := t) (out := out)]
    · rw [denotes_read h]; rfl
    · unfold tryEntry
      simp only [hit, Option.map_some]
  · have := closing_bracket (a := "set_mpls_ttl".toList) (t := t) (by decide) ha.1 (arg_noparen ha.2)
    exact this

theorem dreads_set (groups : List (Nat × Nat)) {t name : List Char} {a : Action} (ht : t ≠ [] ∧ ∀ c ∈ t, isVal c = true)
    (hn : name ≠ [] ∧ ∀ c ∈ name, isName c = true ∧ isVal c = true) (hset : setAction t name = .ok a) :
    DReads groups ("set_field:".toList ++ (t ++ ("->".toList ++ name))) [a] := by
  have hval : ∀ c ∈ t ++ ("->".toList ++ name), isVal c = true := by
    intro c hc
    rcases List.mem_append.1 hc with h | h
    · exact ht.2 c h
    · rcases List.mem_append.1 h with h | h
      · exact (show ∀ c ∈ "->".toList, isVal c = true by decide) c h
      · exact (hn.2 c h).2
  have harg : ∀ c ∈ t ++ ("->".toList ++ name), isArg c = true := fun c hc => by
    have := hval c hc
    unfold isVal at this
    rw [Bool.and_eq_true] at this
    exact this.1
  refine ⟨by simp, fun rest out h => ?_, fun rest out _ i => by rw [List.append_assoc]; rfl, closing_skip (append_noparen (by decide) (arg_noparen harg))⟩
  obtain ⟨h1, h2⟩ := while_stop hval (rest := rest) fun c hc => by rw [tail_head h c hc]; rfl
  have htok : tokSet ("set_field:".toList ++ ((t ++ ("->".toList ++ name)) ++ rest)) = .ok (some (t, name, out)) := by
    unfold tokSet
    rw [show ("set_field:".toList ++ ((t ++ ("->".toList ++ name)) ++ rest)).dropWhile isSpace =
      "set_field:".toList ++ ((t ++ ("->".toList ++ name)) ++ rest) from rfl, dropLit_append]
    simp only [h1, h2]
    rw [if_neg]
    · rw [splitArrow_eq ht.1 hn.1 fun c hc => (hn.2 c hc).1, endTok_tail h]; rfl
    · cases h <;> simp
  rw [List.append_assoc]
  generalize hr : (t ++ ("->".toList ++ name)) ++ rest = r at htok
  unfold parseNextAction
  rw [show (keyMap.findSome? fun e => (tokLit e.1 ("set_field:".toList ++ r)).map fun rest => (e.2, rest)) = none from rfl,
    show tokController ("set_field:".toList ++ r) = none from rfl, show tokOutputMax ("set_field:".toList ++ r) = none from rfl,
    show (keyValueMap groups).findSome? (tryEntry ("set_field:".toList ++ r)) = none from rfl]
  simp only [htok, bind, Except.bind, hset]; rfl

theorem denotes_val {k : Kind} {t : List Char} {v : Nat} (h : Denotes k t v) : t ≠ [] ∧ ∀ c ∈ t, isVal c = true :=
  ⟨(denotes_facts h).1.ne, fun c hc => (docChar_facts c ((denotes_facts h).1.chars c hc)).1⟩

theorem setAction_field {t name : List Char} {f v : Nat} {k : Kind} (hn : (name, f) ∈ docFields) (h : Denotes k t v) :
    setAction t name = .ok (.setField f (if f = 6 then v &&& 0xfff else v)) := by
  obtain ⟨n1, -, -, -, n5, -, -, -, -, -, -, -, n13, n14⟩ := docFields_facts _ hn
  simp only at n1 n5 n13 n14
  unfold setAction
  rw [denotes_read h]
  simp only [bind, Except.bind, n1]
  rw [if_neg n13, if_neg n14]
  simp only [pure, Except.pure]
  congr 2
  by_cases h6 : f = 6
  · rw [if_pos (n5.2 h6), if_pos h6]
  · rw [if_neg fun e => h6 (n5.1 e), if_neg h6]

theorem docAct_reads {groups : List (Nat × Nat)} {t : List Char} {as : List Action} (h : DocAct (fun n => groups.lookup n) t as) :
    DReads groups t as ∧ ∀ a ∈ as, a.known = true := by
  have hfk : ∀ x ∈ docFields, x.2 < 40 := by decide +kernel
  cases h with
  | drop => exact ⟨dreads_drop groups, by simp⟩
  | plain hm =>
    refine ⟨dreads_plain groups hm, ?_⟩
    have : ∀ x ∈ docPlain, x.2.known = true := by decide
    simpa using this _ hm
  | output hd => exact ⟨dreads_output groups (denotes_arg hd) (port_num hd), by simp [Action.known]⟩
  | outputName hm => exact ⟨dreads_output groups (port_name _ hm).2 (port_name _ hm).1, by simp [Action.known]⟩
  | outputMax hd hd' => exact ⟨dreads_outputMax groups hd hd', by simp [Action.known]⟩
  | port hd => exact ⟨dreads_port groups hd, by simp [Action.known]⟩
  | portName hm => exact ⟨dreads_portName groups hm, by simp [Action.known]⟩
  | controller => exact ⟨dreads_controller groups, by simp [Action.known]⟩
  | controllerLen hd => exact ⟨dreads_controllerLen groups hd, by simp [Action.known]⟩
  | controllerMax hd => exact ⟨dreads_controllerMax groups hd, by simp [Action.known]⟩
  | group hd hg => exact ⟨dreads_group groups hd hg, by simp [Action.known]⟩
  | @num key t a v hm hd => exact ⟨dreads_num groups hm hd, by cases a <;> simp [Action.known, NumAct.act]⟩
  | mplsTtl hd => exact ⟨dreads_mplsTtl groups hd, by simp [Action.known]⟩
  | @modField key t f v hm hd =>
    refine ⟨dreads_mod groups hm hd, ?_⟩
    have : ∀ x ∈ docSetActs, x.2 < 40 := by decide
    simpa [Action.known] using this _ hm
  | @setField name t f v hm hf hd =>
    obtain ⟨-, -, -, -, -, -, -, -, -, n10, -, n12, -⟩ := docFields_facts _ hm
    refine ⟨dreads_set groups (denotes_val hd) ⟨n12, fun c hc => (n10 c hc).2.2.2⟩ ?_, by simpa [Action.known] using hfk _ hm⟩
    rw [setAction_field hm hd, if_neg hf]
  | @setVlan t v hd h1 h2 =>
    have hm : ("vlan_vid".toList, 6) ∈ docFields := by decide
    refine ⟨dreads_set groups (denotes_val hd) (by decide) ?_, by simp [Action.known]⟩
    rw [setAction_field hm hd, if_pos rfl, show (0xfff : Nat) = 2 ^ 12 - 1 from rfl, Nat.and_two_pow_sub_one_eq_mod, show v % 2 ^ 12 = v - 0x1000 from by omega]
  | @setTtl t v hd =>
    refine ⟨dreads_set groups (denotes_val hd) (by decide) ?_, by simp [Action.known]⟩
    unfold setAction
    rw [denotes_read hd]
    rfl
  | @setMplsTtl t v hd =>
    refine ⟨dreads_set groups (denotes_val hd) (by decide) ?_, by simp [Action.known]⟩
    unfold setAction
    rw [denotes_read hd]
    rfl

end OFE.Ovs
