import Verif.Ovs.FileModel
import Verif.Ovs.FileDoc
import Verif.Ovs.DocLine

/-!
# Groups and files of Open vSwitch: lemmas
-/

namespace OFE.Ovs
open Fmt

/-! ### Texts within texts -/

theorem hasText_iff {p s : List Char} : hasText p s = true ↔ p <:+: s := by
  induction s with
  | nil => simp [hasText, List.infix_nil]
  | cons c s ih =>
    rw [hasText, Bool.or_eq_true, ih, List.infix_cons_iff]
    refine or_congr ⟨fun h => ?_, fun h => ?_⟩ .rfl
    · obtain ⟨r, hr⟩ := Option.isSome_iff_exists.1 h
      exact ⟨r, (dropLit_some hr).symm⟩
    · obtain ⟨r, hr⟩ := h
      rw [← hr, dropLit_append]
      rfl

theorem dropLit_none_of {p s : List Char} (h : ¬ p <:+ s ∧ ¬ p <:+: s ∨ ¬ p <:+: s) : dropLit p s = none := by
  have h : ¬ p <:+: s := h.elim (·.2) id
  cases e : dropLit p s with
  | none => rfl
  | some r => exact absurd ⟨[], r, by rw [dropLit_some e]; simp⟩ h

theorem splitOn_step {p : List Char} {c : Char} {r : List Char} (h : dropLit p (c :: r) = none) {x : List Char} {t : List (List Char)}
    (e : splitOn p r = x :: t) : splitOn p (c :: r) = (c :: x) :: t := by
  rw [splitOn, h, if_neg (by simp), e]

theorem splitOn_absent {p s : List Char} (h : ¬ p <:+: s) : splitOn p s = [s] := by
  induction s with
  | nil => rw [splitOn]
  | cons c s ih => exact splitOn_step (dropLit_none_of (.inr h)) (ih fun hi => h (hi.trans (List.suffix_cons c s).isInfix))

/-- A pattern whose first character does not come again is found where it is written first. -/
theorem splitOn_first {a : Char} {q u s : List Char} (ha : a ∉ q) (hu : ¬ (a :: q) <:+: u) :
    splitOn (a :: q) (u ++ ((a :: q) ++ s)) = u :: splitOn (a :: q) s := by
  induction u with
  | nil =>
    rw [List.nil_append, List.cons_append, splitOn, show dropLit (a :: q) (a :: (q ++ s)) = some s from dropLit_append (a :: q) s, if_pos (by rfl)]
    congr 2
    rw [show max 1 (a :: q).length = (a :: q).length from by simp, ← List.cons_append, List.drop_left]
  | cons c u ih =>
    have h1 := ih fun hi => hu (hi.trans (List.suffix_cons c u).isInfix)
    rw [List.cons_append]
    refine splitOn_step ?_ h1
    cases ed : dropLit (a :: q) (c :: (u ++ ((a :: q) ++ s))) with
    | none => rfl
    | some w =>
      exfalso
      have e2 : (c :: u) ++ ((a :: q) ++ s) = (a :: q) ++ w := dropLit_some ed
      rcases List.append_eq_append_iff.1 e2 with ⟨x, h2, h3⟩ | ⟨x, h2, h3⟩
      · cases x with
        | nil => rw [List.append_nil] at h2; exact hu (by rw [h2]; exact List.infix_rfl)
        | cons y x =>
          rw [List.cons_append] at h3
          injection h3 with h3 h4
          subst h3
          rw [List.cons_append] at h2
          injection h2 with h5 h6
          exact ha (by rw [h6]; simp)
      · exact hu ⟨[], x, by rw [h2]; simp⟩

/-- Each `=` is preceded by one of the words. -/
def EqEnds (K : List (List Char)) (s : List Char) : Prop := ∀ u v, s = u ++ '=' :: v → ∃ k ∈ K, k <:+ u

theorem EqEnds.of_no {K : List (List Char)} {s : List Char} (h : '=' ∉ s) : EqEnds K s := by
  rintro u v rfl
  exact absurd (by simp) h

theorem EqEnds.append {K : List (List Char)} {s t : List Char} (hs : EqEnds K s) (ht : EqEnds K t) : EqEnds K (s ++ t) := by
  intro u v e
  rcases List.append_eq_append_iff.1 e with ⟨x, h1, h2⟩ | ⟨x, h1, h2⟩
  · obtain ⟨k, hk, hx⟩ := ht x v h2
    exact ⟨k, hk, h1 ▸ hx.trans (List.suffix_append s x)⟩
  · cases x with
    | nil =>
      obtain ⟨k, hk, hx⟩ := ht [] v (by simpa using h2.symm)
      have : u = s := by simpa using h1.symm
      exact ⟨k, hk, hx.trans (List.nil_suffix)⟩
    | cons y x =>
      rw [List.cons_append] at h2
      injection h2 with h2 h3
      subst h2
      exact hs u x h1

theorem EqEnds.word {K : List (List Char)} {k w : List Char} (hk : k ∈ K) (hw : k <:+ w) (h : '=' ∉ w) : EqEnds K (w ++ ['=']) := by
  intro u v e
  have : u = w := by
    rcases List.append_eq_append_iff.1 e with ⟨x, h1, h2⟩ | ⟨x, h1, h2⟩
    · cases x with
      | nil => simpa using h1
      | cons y x =>
        rw [List.cons_append] at h2
        injection h2 with h2 h3
        exact absurd h3 (by simp)
    · cases x with
      | nil => simpa using h1.symm
      | cons y x =>
        rw [List.cons_append] at h2
        injection h2 with h2 h3
        subst h2
        exact absurd (by rw [h1]; simp) h
  exact ⟨k, hk, this ▸ hw⟩

theorem EqEnds.flatten {K : List (List Char)} {l : List (List Char)} (h : ∀ s ∈ l, EqEnds K s) : EqEnds K l.flatten := by
  induction l with
  | nil => exact .of_no (by simp)
  | cons s l ih => exact (h s List.mem_cons_self).append (ih fun x hx => h x (List.mem_cons_of_mem _ hx))

theorem EqEnds.join {K : List (List Char)} : ∀ {l : List (List Char)}, (∀ s ∈ l, EqEnds K s) → EqEnds K (joinWith ',' l)
  | [], _ => .of_no (by simp [joinWith])
  | [s], h => h s List.mem_cons_self
  | s :: t :: l, h => by
    rw [joinWith]
    exact (h s List.mem_cons_self).append (EqEnds.append (s := [',']) (.of_no (by decide)) (EqEnds.join fun x hx => h x (List.mem_cons_of_mem _ hx)))

theorem EqEnds.mono {K K' : List (List Char)} {s : List Char} (h : EqEnds K s) (hk : ∀ k ∈ K, k ∈ K') : EqEnds K' s := fun u v e => by
  obtain ⟨k, h1, h2⟩ := h u v e
  exact ⟨k, hk k h1, h2⟩

/-- A pattern that ends with `=` and with none of the words before is not there. -/
theorem EqEnds.absent {K : List (List Char)} {s p : List Char} (h : EqEnds K s) (hp : ∀ k ∈ K, ¬ k <:+ p ∧ ¬ p <:+ k) : ¬ (p ++ ['=']) <:+: s := by
  rintro ⟨a, b, e⟩
  obtain ⟨k, hk, hs⟩ := h (a ++ p) b (by rw [← e]; simp)
  rcases List.suffix_or_suffix_of_suffix hs (List.suffix_append a p) with h1 | h1
  · exact (hp k hk).1 h1
  · exact (hp k hk).2 h1

/-! ### Stripping -/

theorem dropWhile_head {P : Char → Bool} {s : List Char} (h : ∀ c, s.head? = some c → P c = false) : s.dropWhile P = s := by
  cases s with
  | nil => rfl
  | cons c s => rw [List.dropWhile_cons, if_neg (by simp [h c rfl])]

theorem dropWhile_pad {P : Char → Bool} {a s : List Char} (ha : ∀ c ∈ a, P c = true) (h : ∀ c, s.head? = some c → P c = false) :
    (a ++ s).dropWhile P = s := by
  induction a with
  | nil => exact dropWhile_head h
  | cons c a ih =>
    rw [List.cons_append, List.dropWhile_cons, if_pos (ha c List.mem_cons_self)]
    exact ih fun d hd => ha d (List.mem_cons_of_mem _ hd)

theorem dropEnd_eq {s b : List Char} (hb : ∀ c ∈ b, isSep c = true) (h : ∀ c, s.getLast? = some c → isSep c = false) : dropEnd (s ++ b) = s := by
  unfold dropEnd
  rw [List.reverse_append, dropWhile_pad (by simpa using hb) (by simpa using h), List.reverse_reverse]

theorem strip_pad {s a b : List Char} (ha : ∀ c ∈ a ++ b, isSpace c = true) (h : ∀ c, s.head? = some c ∨ s.getLast? = some c → isSpace c = false) :
    strip (a ++ (s ++ b)) = s := by
  unfold strip
  cases s with
  | nil =>
    have e : (a ++ ([] ++ b)).dropWhile isSpace = [] := by
      have := dropWhile_pad (P := isSpace) (a := a ++ b) (s := []) ha (by simp)
      simpa using this
    rw [e]
    rfl
  | cons c s =>
    rw [dropWhile_pad (fun d hd => ha d (List.mem_append_left _ hd)) (by intro d hd; exact h d (.inl (by simpa using hd))), List.reverse_append,
      dropWhile_pad (by intro d hd; exact ha d (List.mem_append_right _ (by simpa using hd))) (by intro d hd; rw [List.head?_reverse] at hd; exact h d (.inr hd)), List.reverse_reverse]

theorem strip_id {s : List Char} (h : ∀ c, s.head? = some c ∨ s.getLast? = some c → isSpace c = false) : strip s = s := by
  have := strip_pad (a := []) (b := []) (by simp) h
  simpa using this

/-- `strip` gives a part of the line. -/
theorem strip_infix (s : List Char) : strip s <:+: s := by
  unfold strip
  have h1 : (s.dropWhile isSpace).reverse.dropWhile isSpace <:+ (s.dropWhile isSpace).reverse := List.dropWhile_suffix _
  have h2 := List.reverse_prefix.2 h1
  rw [List.reverse_reverse] at h2
  exact h2.isInfix.trans (List.dropWhile_suffix _).isInfix

/-! ### Buckets -/

/-- The words before `=` in a bucket, apart from `actions`. -/
def bucketWords : List (List Char) := ["weight".toList, "watch_port".toList, "watch_group".toList, "bucket_id".toList, "output(port".toList, "max_len".toList]

/-- No white space, `=` only where it belongs, and no separator at the end. -/
structure DText (t : List Char) : Prop where
  ends : EqEnds bucketWords t
  last : ∀ c, t.getLast? = some c → isSep c = false
  first : ∀ c, t.head? = some c → isSep c = false

theorem sep_of_docChar : ∀ c ∈ docChars, isSep c = false := by decide

theorem denotes_chars {k : Kind} {t : List Char} {v : Nat} (h : Denotes k t v) : t ≠ [] ∧ ∀ c ∈ t, c ∈ docChars := ⟨(denotes_facts h).1.ne, (denotes_facts h).1.chars⟩

theorem denotes_noeq {k : Kind} {t : List Char} {v : Nat} (h : Denotes k t v) : '=' ∉ t := fun hm =>
  (docChar_facts _ ((denotes_chars h).2 _ hm)).2.2.2.1 rfl

theorem mem_of_last {t : List Char} {c : Char} (h : t.getLast? = some c) : c ∈ t := List.mem_of_getLast? h

theorem mem_of_first {t : List Char} {c : Char} (h : t.head? = some c) : c ∈ t := List.mem_of_head? h

/-- A literal without `=`, then a number. -/
theorem dText_lit {lit t : List Char} {k : Kind} {v : Nat} (hd : Denotes k t v) (h : '=' ∉ lit) (hf : ∀ c, lit.head? = some c → isSep c = false) : DText (lit ++ t) := by
  obtain ⟨hne, hc⟩ := denotes_chars hd
  refine ⟨.of_no ?_, fun c h => ?_, fun c h => ?_⟩
  · rw [List.mem_append, not_or]; exact ⟨h, denotes_noeq hd⟩
  · rw [List.getLast?_append_of_ne_nil _ hne] at h
    exact sep_of_docChar c (hc c (mem_of_last h))
  · cases lit with
    | nil => exact sep_of_docChar c (hc c (mem_of_first h))
    | cons x lit => exact hf c h

theorem dText_plain {t : List Char} (h : '=' ∉ t ∧ (t.getLast?.all fun c => !isSep c) = true ∧ (t.head?.all fun c => !isSep c) = true) : DText t := by
  refine ⟨.of_no h.1, fun c hc => ?_, fun c hc => ?_⟩
  · have := h.2.1; rw [hc] at this; simpa using this
  · have := h.2.2; rw [hc] at this; simpa using this

theorem docFields_text : ∀ x ∈ docFields, '=' ∉ x.1 ∧ x.1 ≠ [] ∧ ∀ c ∈ x.1, isSep c = false := by decide

theorem dText_setField {name t : List Char} {k : Kind} {v : Nat} (hd : Denotes k t v) (hn : '=' ∉ name ∧ name ≠ [] ∧ ∀ c ∈ name, isSep c = false) :
    DText ("set_field:".toList ++ (t ++ ("->".toList ++ name))) := by
  refine ⟨.of_no ?_, fun c h => ?_, fun c h => ?_⟩
  · simp only [List.mem_append, not_or]
    exact ⟨by decide, denotes_noeq hd, by decide, hn.1⟩
  · rw [← List.append_assoc, ← List.append_assoc, List.getLast?_append_of_ne_nil _ hn.2.1] at h
    exact hn.2.2 c (mem_of_last h)
  · cases h; decide

theorem docAct_text {g : Nat → Option Nat} {t : List Char} {as : List Action} (h : DocAct g t as) : DText t := by
  cases h with
  | drop => exact dText_plain (by decide)
  | @plain _ a hm =>
    have : ∀ x ∈ docPlain, '=' ∉ x.1 ∧ (x.1.getLast?.all fun c => !isSep c) = true ∧ (x.1.head?.all fun c => !isSep c) = true := by decide
    exact dText_plain (this _ hm)
  | output hd => exact dText_lit hd (by decide) (by intro c h; cases h; decide)
  | @outputName t v hm =>
    have : ∀ x ∈ docPorts, '=' ∉ "output:".toList ++ x.1 ∧ (("output:".toList ++ x.1).getLast?.all fun c => !isSep c) = true ∧
      (("output:".toList ++ x.1).head?.all fun c => !isSep c) = true := by decide
    exact dText_plain (this _ hm)
  | @outputMax t u v n hd hd' =>
    refine ⟨?_, fun c h => ?_, fun c h => by cases h; decide⟩
    · have h1 : EqEnds bucketWords ("output(port".toList ++ ['=']) := .word (k := "output(port".toList) (by decide) List.suffix_rfl (by decide)
      have h2 : EqEnds bucketWords (",max_len".toList ++ ['=']) := .word (k := "max_len".toList) (by decide) (by decide) (by decide)
      exact h1.append ((EqEnds.of_no (denotes_noeq hd)).append (h2.append ((EqEnds.of_no (denotes_noeq hd')).append (.of_no (by decide)))))
    · rw [← List.append_assoc, ← List.append_assoc, ← List.append_assoc, List.getLast?_append_of_ne_nil _ (by decide)] at h
      cases h; decide
  | port hd => exact dText_lit (lit := []) hd (by decide) (by simp)
  | @portName t v hm =>
    have : ∀ x ∈ docBarePorts, '=' ∉ x.1 ∧ (x.1.getLast?.all fun c => !isSep c) = true ∧ (x.1.head?.all fun c => !isSep c) = true := by decide
    exact dText_plain (this _ hm)
  | controller => exact dText_plain (by decide)
  | controllerLen hd => exact dText_lit hd (by decide) (by intro c h; cases h; decide)
  | @controllerMax u n hd =>
    refine ⟨?_, fun c h => ?_, fun c h => by cases h; decide⟩
    · have h1 : EqEnds bucketWords ("controller(max_len".toList ++ ['=']) := .word (k := "max_len".toList) (by decide) (by decide) (by decide)
      exact h1.append ((EqEnds.of_no (denotes_noeq hd)).append (.of_no (by decide)))
    · rw [← List.append_assoc, List.getLast?_append_of_ne_nil _ (by decide)] at h
      cases h; decide
  | group hd => exact dText_lit hd (by decide) (by intro c h; cases h; decide)
  | @num key t a v hm hd =>
    have : ∀ x ∈ docNumActs, '=' ∉ x.1 ∧ (x.1.head?.all fun c => !isSep c) = true := by decide
    refine dText_lit hd (this _ hm).1 fun c hc => ?_
    have h := (this _ hm).2
    simp only [hc] at h
    simpa using h
  | @mplsTtl t v hd =>
    refine ⟨.of_no ?_, fun c h => ?_, fun c h => by cases h; decide⟩
    · simp only [List.mem_append, not_or]
      exact ⟨by decide, denotes_noeq hd, by decide⟩
    · rw [← List.append_assoc, List.getLast?_append_of_ne_nil _ (by decide)] at h
      cases h; decide
  | @modField key t f v hm hd =>
    have : ∀ x ∈ docSetActs, '=' ∉ x.1 ∧ (x.1.head?.all fun c => !isSep c) = true := by decide
    refine dText_lit hd (this _ hm).1 fun c hc => ?_
    have h := (this _ hm).2
    simp only [hc] at h
    simpa using h
  | setField hm _ hd => exact dText_setField hd (docFields_text _ hm)
  | setVlan hd => exact dText_setField hd (by decide)
  | setTtl hd => exact dText_setField hd (by decide)
  | setMplsTtl hd => exact dText_setField hd (by decide)

theorem docActs_text {g : Nat → Option Nat} {ts : List (List Char)} {ass : List (List Action)} (h : List.Forall₂ (DocAct g) ts ass) : ∀ t ∈ ts, DText t := by
  induction h with
  | nil => simp
  | cons hd _ ih =>
    intro t ht
    rcases List.mem_cons.1 ht with rfl | ht
    · exact docAct_text hd
    · exact ih t ht

theorem join_last {l : List (List Char)} (h : ∀ t ∈ l, t ≠ [] ∧ ∀ c, t.getLast? = some c → isSep c = false) :
    ∀ c, (joinWith ',' l).getLast? = some c → isSep c = false := by
  induction l with
  | nil => simp [joinWith]
  | cons t l ih =>
    cases l with
    | nil => exact (h t List.mem_cons_self).2
    | cons u l =>
      intro c hc
      rw [joinWith, List.getLast?_append_of_ne_nil _ (by simp), List.getLast?_cons] at hc
      have ih := ih fun x hx => h x (List.mem_cons_of_mem _ hx)
      cases hl : (joinWith ',' (u :: l)).getLast? with
      | some d => rw [hl] at hc; cases hc; exact ih d hl
      | none =>
        rw [List.getLast?_eq_none_iff] at hl
        have hu := (h u (by simp)).1
        cases l with
        | nil => exact absurd hl hu
        | cons w l =>
          rw [joinWith] at hl
          exact absurd hl (by simp)

theorem bucketArg_text {p : List Char} (h : DocBucketArg p) : EqEnds bucketWords (p ++ [',']) ∧ (∀ c, p.head? = some c → isSep c = false) ∧ p ≠ [] := by
  obtain @⟨key, t, sep, n, hk, hs, hd⟩ := h
  have hkey : ∀ k ∈ docBucketKeys, k ∈ bucketWords ∧ '=' ∉ k ∧ k ≠ [] ∧ (k.head?.all fun c => !isSep c) = true := by decide
  obtain ⟨h1, h2, h3, h4⟩ := hkey key hk
  refine ⟨?_, fun c hc => ?_, by simp⟩
  · have ht : EqEnds bucketWords (t ++ [',']) := (EqEnds.of_no (denotes_noeq hd)).append (.of_no (by decide))
    rcases hs with rfl | rfl
    · rw [show (key ++ ':' :: t) ++ [','] = (key ++ [':']) ++ (t ++ [',']) from by simp]
      refine (EqEnds.of_no ?_).append ht
      rw [List.mem_append, not_or]; exact ⟨h2, by decide⟩
    · rw [show (key ++ '=' :: t) ++ [','] = (key ++ ['=']) ++ (t ++ [',']) from by simp]
      exact (EqEnds.word h1 List.suffix_rfl h2).append ht
  · cases key with
    | nil => exact absurd rfl h3
    | cons x key => cases hc; simpa using h4

/-- A bucket is read: its text has no separators at its ends, and `=` only behind the known words. -/
theorem docBucket_reads {groups : List (Nat × Nat)} {t : List Char} {as : List Action} (h : DocBucket (fun n => groups.lookup n) t as) :
    parseBucket groups t = as.foldlM actionSetAppend .empty ∧ (∀ a ∈ as, a.known = true) ∧ EqEnds ("actions".toList :: bucketWords) t ∧
      ∀ c, t.head? = some c ∨ t.getLast? = some c → isSep c = false := by
  obtain @⟨ps, ts, ass, hps, hts⟩ := h
  obtain ⟨h1, h2⟩ := forall₂_docActs hts
  have htx := docActs_text hts
  have hjoin : EqEnds bucketWords (joinWith ',' ts) := EqEnds.join fun t ht => (htx t ht).ends
  have hpre : EqEnds bucketWords (ps.map (· ++ [','])).flatten := EqEnds.flatten fun s hs => by
    obtain ⟨p, hp, rfl⟩ := List.mem_map.1 hs
    exact (bucketArg_text (hps p hp)).1
  have hno : ∀ k ∈ bucketWords, ¬ k <:+ "actions".toList ∧ ¬ "actions".toList <:+ k := by decide
  have hlast : ∀ c, (joinWith ',' ts).getLast? = some c → isSep c = false := join_last fun t ht => ⟨docActs_ne h1 t ht, (htx t ht).last⟩
  refine ⟨?_, h2, ?_, fun c hc => ?_⟩
  · unfold parseBucket
    rw [if_pos (hasText_iff.2 ⟨(ps.map (· ++ [','])).flatten, joinWith ',' ts, by simp⟩)]
    have := splitOn_first (a := 'a') (q := "ctions=".toList) (u := (ps.map (· ++ [','])).flatten) (s := joinWith ',' ts) (by decide) (hpre.absent hno)
    rw [show ('a' :: "ctions=".toList) = "actions=".toList from rfl, splitOn_absent (p := "actions=".toList) (hjoin.absent hno)] at this
    rw [this]
    exact docActs_from h1
  · have hw : EqEnds ("actions".toList :: bucketWords) ("actions".toList ++ ['=']) := .word (k := "actions".toList) (by decide) List.suffix_rfl (by decide)
    exact (hpre.mono fun k hk => List.mem_cons_of_mem _ hk).append (hw.append (hjoin.mono fun k hk => List.mem_cons_of_mem _ hk))
  · rcases hc with hc | hc
    · cases ps with
      | nil => cases hc; decide
      | cons p ps =>
        obtain ⟨-, h4, h5⟩ := bucketArg_text (hps p List.mem_cons_self)
        cases p with
        | nil => exact absurd rfl h5
        | cons x p => exact h4 c hc
    · rw [← List.append_assoc] at hc
      cases hl : joinWith ',' ts with
      | nil =>
        rw [hl, List.append_nil, List.getLast?_append_of_ne_nil _ (by decide)] at hc
        cases hc; decide
      | cons x l =>
        rw [List.getLast?_append_of_ne_nil _ (by rw [hl]; simp)] at hc
        exact hlast c hc

/-! ### Groups -/

/-- The words before `=` in a group. -/
def groupWords : List (List Char) := "group_id".toList :: "type".toList :: "actions".toList :: bucketWords

theorem splitOn_buckets {groups : List (Nat × Nat)} {bts : List (List Char)} {ass : List (List Action)}
    (h : List.Forall₂ (DocBucket fun n => groups.lookup n) bts ass) : ∀ u, EqEnds groupWords u → bts ≠ [] →
      ∃ b rest, splitOn "bucket=".toList (u ++ (bts.map (",bucket=".toList ++ ·)).flatten) = (u ++ [',']) :: b :: rest ∧ bucketPieces (b :: rest) = bts := by
  have hno : ∀ k ∈ groupWords, ¬ k <:+ "bucket".toList ∧ ¬ "bucket".toList <:+ k := by decide
  induction h with
  | nil => intro u _ hn; exact absurd rfl hn
  | @cons b as bts ass hb hrest ih =>
    intro u hu _
    obtain ⟨-, -, hb1, hb2⟩ := docBucket_reads hb
    have hb3 : EqEnds groupWords b := hb1.mono (by decide)
    have hu' : EqEnds groupWords (u ++ [',']) := hu.append (.of_no (by decide))
    have e : u ++ ((b :: bts).map (",bucket=".toList ++ ·)).flatten =
        (u ++ [',']) ++ ("bucket=".toList ++ (b ++ (bts.map (",bucket=".toList ++ ·)).flatten)) := by
      rw [List.map_cons, List.flatten_cons, show ",bucket=".toList = [','] ++ "bucket=".toList from rfl]
      simp only [List.append_assoc]
    have hs := splitOn_first (a := 'b') (q := "ucket=".toList) (u := u ++ [',']) (s := b ++ (bts.map (",bucket=".toList ++ ·)).flatten) (by decide) (hu'.absent hno)
    rw [show ('b' :: "ucket=".toList) = "bucket=".toList from rfl] at hs
    rw [e, hs]
    have hd : b.dropWhile isSep = b := dropWhile_head fun c hc => hb2 c (.inl hc)
    cases bts with
    | nil =>
      refine ⟨b, [], ?_, ?_⟩
      · rw [List.map_nil, List.flatten_nil, List.append_nil, splitOn_absent (p := "bucket=".toList) (hb3.absent hno)]
      · rw [bucketPieces, hd]
    | cons b' bts =>
      obtain ⟨x, rest, e1, e2⟩ := ih b hb3 (by simp)
      refine ⟨b ++ [','], x :: rest, by rw [e1], ?_⟩
      rw [bucketPieces, e2]
      · have hb0 : b ≠ [] := by
          obtain ⟨hps, hts⟩ := hb
          simp
        have hd' : (b ++ [',']).dropWhile isSep = b ++ [','] := dropWhile_head fun c hc => by
          cases b with
          | nil => exact absurd rfl hb0
          | cons y b => exact hb2 c (.inl hc)
        rw [hd', dropEnd_eq (by decide) fun c hc => hb2 c (.inr hc)]
      · simp

theorem docTypes_text : ∀ ty ∈ docTypes, '=' ∉ ty ∧ ty ≠ [] ∧ ∀ c ∈ ty, isSep c = false := by decide

theorem mapM_buckets {groups : List (Nat × Nat)} {bts : List (List Char)} {ass : List (List Action)} {l : List ActionList}
    (h : List.Forall₂ (DocBucket fun n => groups.lookup n) bts ass) (hl : List.Forall₂ (fun b as => actionSetOfList as = .ok b) l ass) :
    bts.mapM (fun p => parseBucket groups (strip p)) = .ok l := by
  induction h generalizing l with
  | nil => cases hl; rfl
  | @cons b as bts ass hb _ ih =>
    cases hl with
    | @cons x _ l _ hx hl =>
      obtain ⟨h1, -, -, h2⟩ := docBucket_reads hb
      have hs : strip b = b := strip_id fun c hc => by
        have := h2 c hc
        simp only [isSep, Bool.or_eq_false_iff] at this
        exact this.1
      rw [List.mapM_cons, hs, h1, ih hl]
      rw [show List.foldlM actionSetAppend ActionList.empty as = .ok x from hx]
      rfl

theorem docGroup_reads {groups : List (Nat × Nat)} {line ty : List Char} {n : Nat} {ass : List (List Action)} {l : List ActionList}
    (h : DocGroup (fun n => groups.lookup n) line n ty ass) (hl : List.Forall₂ (fun b as => actionSetOfList as = .ok b) l ass) :
    parseGroup groups line = .ok ⟨some n, some ty, l⟩ := by
  obtain @⟨t, ty, n, bts, ass, hd, hty, hne, hb⟩ := h
  obtain ⟨hty1, hty2, hty3⟩ := docTypes_text ty hty
  obtain ⟨ht1, ht2⟩ := denotes_chars hd
  let u := "group_id=".toList ++ (t ++ (",type=".toList ++ ty))
  have hu : EqEnds groupWords u := by
    have h1 : EqEnds groupWords ("group_id".toList ++ ['=']) := .word (k := "group_id".toList) (by decide) List.suffix_rfl (by decide)
    have h2 : EqEnds groupWords (",type".toList ++ ['=']) := .word (k := "type".toList) (by decide) (by decide) (by decide)
    exact h1.append ((EqEnds.of_no (denotes_noeq hd)).append (h2.append (.of_no hty1)))
  obtain ⟨b, rest, e1, e2⟩ := splitOn_buckets hb u hu hne
  have hline : "group_id=".toList ++ (t ++ (",type=".toList ++ (ty ++ (bts.map (",bucket=".toList ++ ·)).flatten))) =
      u ++ (bts.map (",bucket=".toList ++ ·)).flatten := by
    simp only [u, List.append_assoc]
  have hulast : ∀ c, u.getLast? = some c → isSep c = false := fun c hc => by
    simp only [u] at hc
    rw [← List.append_assoc, ← List.append_assoc, List.getLast?_append_of_ne_nil _ hty2] at hc
    exact hty3 c (mem_of_last hc)
  have hufirst : ∀ c, u.head? = some c → isSep c = false := fun c hc => by cases hc; decide
  have hsep : ∀ {c}, isSep c = false → isSpace c = false := fun h => by
    simp only [isSep, Bool.or_eq_false_iff] at h
    exact h.1
  have hstrip : strip u = u := strip_id fun c hc => hc.elim (fun hc => hsep (hufirst c hc)) fun hc => hsep (hulast c hc)
  have hpieces : Pieces u ["group_id=".toList ++ t, "type=".toList ++ ty] := by
    have hnos : ∀ {c}, isSep c = false → c ∉ [',', ' ', '\t', '\n', '\r', '\x0b', '\x0c'] := by
      intro c hc hm
      have : ∀ d ∈ [',', ' ', '\t', '\n', '\r', '\x0b', '\x0c'], isSep d = true := by decide
      rw [this c hm] at hc
      cases hc
    have e : u = ("group_id=".toList ++ t) ++ ',' :: ("type=".toList ++ ty) := by
      simp only [u, show ",type=".toList = ',' :: "type=".toList from rfl, List.append_assoc, List.cons_append]
    rw [e]
    refine .cons (by simp) (fun d hm => ?_) (by decide) (.last (by simp) fun d hm => ?_)
    · rcases List.mem_append.1 hm with hm | hm
      · exact (show ∀ d ∈ "group_id=".toList, d ∉ [',', ' ', '\t', '\n', '\r', '\x0b', '\x0c'] by decide) d hm
      · exact hnos (sep_of_docChar d (ht2 d hm))
    · rcases List.mem_append.1 hm with hm | hm
      · exact (show ∀ d ∈ "type=".toList, d ∉ [',', ' ', '\t', '\n', '\r', '\x0b', '\x0c'] by decide) d hm
      · exact hnos (hty3 d hm)
  have hsplit : splitSep u = ["group_id=".toList ++ t, "type=".toList ++ ty] := by
    unfold splitSep
    rw [if_neg (by simp [u]), pieces_items hpieces, if_neg (by rw [show u.take 1 = ['g'] from rfl]; decide), if_neg]
    · rfl
    · intro hany
      obtain ⟨c, hc, hs⟩ := List.any_eq_true.1 hany
      have : u.getLast? = some c := by
        rw [← List.head?_reverse]
        cases hr : u.reverse with
        | nil => rw [hr] at hc; simp at hc
        | cons x r => rw [hr] at hc; simp at hc; simp [hc]
      rw [hulast c this] at hs
      cases hs
  have hg1 : groupItem ⟨none, none, []⟩ ("group_id=".toList ++ t) = .ok ⟨some n, none, []⟩ := by
    unfold groupItem
    rw [show "group_id=".toList ++ t = "group_id".toList ++ '=' :: t from rfl, splitAt_part (by decide), splitAt_none (denotes_noeq hd)]
    simp only [if_pos, denotes_read hd]
    rfl
  have hg2 : groupItem ⟨some n, none, []⟩ ("type=".toList ++ ty) = .ok ⟨some n, some ty, []⟩ := by
    unfold groupItem
    rw [show "type=".toList ++ ty = "type".toList ++ '=' :: ty from rfl, splitAt_part (by decide), splitAt_none hty1]
    simp only
    rw [if_neg (by decide), if_pos trivial]
  unfold parseGroup
  rw [hline, e1]
  simp only
  rw [dropEnd_eq (by decide) hulast, hstrip, hsplit, e2, mapM_buckets hb hl, List.foldlM_cons, hg1]
  simp only [bind, Except.bind]
  rw [List.foldlM_cons, hg2]
  rfl

/-! ### Files -/

theorem padded_strip {line l : List Char} (h : Padded line l) : strip line = l := by
  obtain ⟨a, b, rfl, h1, h2⟩ := h
  refine strip_pad (fun c hc => ?_) fun c hc => ?_
  · exact (show ∀ c ∈ [' ', '\t', '\r'], isSpace c = true by decide) c (h1 c hc)
  · have h2 := h2 c hc
    simp only [List.mem_cons, List.not_mem_nil, or_false, not_or] at h2
    simp [isSpace, h2]

theorem docFile_lines {ls gs fs : List (List Char)} (h : DocFile ls gs fs) : sortLines ls = (gs, fs) := by
  unfold sortLines
  induction h with
  | nil => rfl
  | @group line l ls gs fs hp hg hf ih =>
    injection ih with i1 i2
    have e := hasText_iff.2 hg
    simp only [List.map_cons, padded_strip hp, List.filter_cons, e, if_pos, i1, i2, Bool.not_true, Bool.false_and, Bool.false_eq_true, if_false]
  | @flow line l ls gs fs hp ha hg hf ih =>
    injection ih with i1 i2
    have e := hasText_iff.2 ha
    have e' : hasText "group_id=".toList l = false := by
      rw [← Bool.not_eq_true, hasText_iff]; exact hg
    simp only [List.map_cons, padded_strip hp, List.filter_cons, e, e', if_pos, i1, i2, Bool.not_false, Bool.true_and, Bool.false_eq_true, if_false]
  | @other line ls gs fs ha hg hf ih =>
    injection ih with i1 i2
    have e : hasText "actions=".toList (strip line) = false := by
      rw [← Bool.not_eq_true, hasText_iff]; exact fun hi => ha (hi.trans (strip_infix line))
    have e' : hasText "group_id=".toList (strip line) = false := by
      rw [← Bool.not_eq_true, hasText_iff]; exact fun hi => hg (hi.trans (strip_infix line))
    simp only [List.map_cons, List.filter_cons, e, e', i1, i2, Bool.and_false, Bool.false_eq_true, if_false]

/-- The groups read for the numbers, types and buckets. -/
def IsRead (x : Nat × List Char × List (List Action)) (y : Option Nat × Grp) : Prop :=
  y.1 = some x.1 ∧ y.2.number = some x.1 ∧ y.2.type = some x.2.1 ∧ List.Forall₂ (fun b as => actionSetOfList as = .ok b) y.2.buckets x.2.2

theorem known_read {xs : List (Nat × List Char × List (List Action))} {ys : List (Option Nat × Grp)} (h : List.Forall₂ IsRead xs ys) :
    known ys = (xs.map (·.1)).map fun n => (n, n) := by
  induction h with
  | nil => rfl
  | @cons x y xs ys hx _ ih =>
    unfold known at *
    rw [List.filterMap_cons, hx.1]
    simp only [Option.map_some, List.map_cons, ih]

theorem lookup_diag (l : List Nat) (k : Nat) : (l.map fun n => (n, n)).lookup k = if k ∈ l then some k else none := by
  induction l with
  | nil => rfl
  | cons n l ih =>
    rw [List.map_cons, List.lookup_cons]
    by_cases h : k = n
    · subst h; simp
    · rw [beq_eq_false_iff_ne.2 h]
      simp only [ih, List.mem_cons, h, false_or]

theorem actionSets_exist {ass : List (List Action)} (h : ∀ as ∈ ass, ∀ a ∈ as, a.known = true) :
    ∃ l, List.Forall₂ (fun b as => actionSetOfList as = .ok b) l ass := by
  induction ass with
  | nil => exact ⟨[], .nil⟩
  | cons as ass ih =>
    obtain ⟨l, hl⟩ := ih fun x hx => h x (List.mem_cons_of_mem _ hx)
    obtain ⟨b, hb, -⟩ := setInv_ofList as [] .empty setInv_empty (by simpa [AllKnown] using h as List.mem_cons_self)
    exact ⟨b :: l, .cons hb hl⟩

theorem docGroup_known {groups : List (Nat × Nat)} {line ty : List Char} {n : Nat} {ass : List (List Action)}
    (h : DocGroup (fun n => groups.lookup n) line n ty ass) : ∀ as ∈ ass, ∀ a ∈ as, a.known = true := by
  obtain @⟨t, ty, n, bts, ass, hd, hty, hne, hb⟩ := h
  clear hne
  induction hb with
  | nil => simp
  | cons hb _ ih =>
    intro as has
    rcases List.mem_cons.1 has with rfl | has
    · exact (docBucket_reads hb).2.1
    · exact ih as has

theorem isRead_keys {xs : List (Nat × List Char × List (List Action))} {ys : List (Option Nat × Grp)} (h : List.Forall₂ IsRead xs ys) :
    ys.map (·.1) = xs.map fun x => some x.1 := by
  induction h with
  | nil => rfl
  | cons hx _ ih => rw [List.map_cons, List.map_cons, ih, hx.1]

theorem docGroups_read {gs : List (List Char)} {xs : List (Nat × List Char × List (List Action))} (h : DocGroups gs xs) :
    ∃ ys, gs.foldlM addGroup [] = .ok ys ∧ List.Forall₂ IsRead xs ys ∧ ∀ x ∈ xs, ∀ as ∈ x.2.2, ∀ a ∈ as, a.known = true := by
  induction h with
  | nil => exact ⟨[], rfl, .nil, by simp⟩
  | @snoc gs xs l ty n ass hgs hn hg ih =>
    obtain ⟨ys, e, hf, hk⟩ := ih
    have ek := known_read hf
    have hg' : DocGroup (fun k => (known ys).lookup k) l n ty ass := by
      have : (fun k => (known ys).lookup k) = fun k => if k ∈ xs.map (·.1) then some k else none := by
        funext k; rw [ek, lookup_diag]
      rw [this]; exact hg
    have hka := docGroup_known hg'
    obtain ⟨bs, hbs⟩ := actionSets_exist hka
    have hnew : some n ∉ ys.map (·.1) := by
      rw [isRead_keys hf]
      intro hm
      obtain ⟨x, hx, ex⟩ := List.mem_map.1 hm
      cases ex
      exact hn (List.mem_map.2 ⟨x, hx, rfl⟩)
    have hnone : ys.lookup (some n) = none := by
      rw [List.lookup_eq_none_iff]
      intro p hp
      rw [bne_iff_ne]
      intro e
      exact hnew (List.mem_map.2 ⟨p, hp, e.symm⟩)
    refine ⟨ys ++ [(some n, ⟨some n, some ty, bs⟩)], ?_, ?_, ?_⟩
    · rw [List.foldlM_append, e]
      simp only [bind, Except.bind]
      rw [List.foldlM_cons]
      unfold addGroup
      rw [docGroup_reads hg' hbs]
      simp only [bind, Except.bind]
      rw [if_neg (by rw [hnone]; simp)]
      simp only [pure, Except.pure, dictSet_new _ hnew]
      rfl
    · exact List.rel_append hf (.cons ⟨rfl, rfl, rfl, hbs⟩ .nil)
    · intro x hx
      rcases List.mem_append.1 hx with hx | hx
      · exact hk x hx
      · rw [List.mem_singleton] at hx
        subst hx
        exact hka

end OFE.Ovs
