import Verif.Files.Spec

/-! # C87: functions on files -/

namespace OFE
namespace Files

variable {ε ρ : Type}

theorem place_of {v : Val} {arg : Option (String × Nat)} {args args' : List Val} {kwargs kwargs' : List (String × Val)} {v' : Val}
    (h : Replaced v v' arg args kwargs args' kwargs') :
    ∃ p, place (ε := ε) arg args kwargs = .ok (p, v) ∧ ∀ u, Replaced v u arg args kwargs (update p u args kwargs).1 (update p u args kwargs).2 := by
  cases h with
  | first rest => exact ⟨.pos 0, rfl, fun u => .first rest kwargs⟩
  | position name before rest =>
    refine ⟨.pos before.length, by simp [place], fun u => ?_⟩
    have : (before ++ v :: rest).set before.length u = before ++ u :: rest := by simp
    simp only [update, this]
    exact .position name before rest kwargs
  | keyword name i _ _ _ h1 h2 _ =>
    refine ⟨.kw name, by simp only [place, List.getElem?_eq_none h1, h2], fun u => .keyword name i _ _ _ h1 h2 fun k => ?_⟩
    simp only [update, lookup_dictSet]

theorem call_eq (f : Func ε ρ) (a : List Val) (k : List (String × Val)) (w : World) : call f (a, k) w = (passOn (f a k w).1, (f a k w).2) := by
  unfold call
  cases h : f a k w with
  | mk r w' => cases r <;> rfl

theorem app_new (w : List Handle) (h : Handle) : (w ++ [h])[w.length]? = some h := List.getElem?_concat_length
theorem app_old (w l : List Handle) {i : Nat} (hi : i < w.length) : (w ++ l)[i]? = w[i]? := List.getElem?_append_left hi
theorem app_new2 (w : List Handle) (g h : Handle) : (w ++ [g, h])[w.length + 1]? = some h := by
  rw [List.getElem?_append_right (by omega)]; simp

theorem setClosed_get (w : World) (i k : Nat) : (setClosed w i)[k]? = if k = i then w[k]?.map (fun h => { h with closed := true }) else w[k]? := by
  unfold setClosed
  rw [List.getElem?_modify]
  by_cases h : k = i
  · subst h; simp
  · have : ¬ i = k := fun e => h e.symm
    simp [h, this]

theorem setDetached_get (w : World) (i k : Nat) : (setDetached w i)[k]? = if k = i then w[k]?.map (fun h => { h with detached := true }) else w[k]? := by
  unfold setDetached
  rw [List.getElem?_modify]
  by_cases h : k = i
  · subst h; simp
  · have : ¬ i = k := fun e => h e.symm
    simp [h, this]

/-- The objects that are opened for a path: one, or two for compressed text. -/
theorem openFor_spec (can : List Char → Mode → Bool) (compression : Bool) (w : World) (s : List Char) (m : Mode) (hc : can s m = true) :
    ∃ (j : Nat) (w1 : World) (h : Handle), openFor (ε := ε) can compression w (.str s) m = .ok (j, w1) ∧ w1[j]? = some h ∧ Suits m h ∧ (h.gz = true ↔ compression = true ∧ Compressed s) ∧
      (∀ i < w.length, w1[i]? = w[i]?) ∧ w.length ≤ j ∧ w.length ≤ w1.length ∧ (∀ i, w.length ≤ i → i < w1.length → i = j ∨ h.inner = some i) ∧
      ∀ b, h.inner = some b → w.length ≤ b ∧ b < w1.length := by
  have hsuf : (".gz".toList.isSuffixOf s || ".bz2".toList.isSuffixOf s) = true ↔ Compressed s := by
    rw [Bool.or_eq_true, List.isSuffixOf_iff_suffix, List.isSuffixOf_iff_suffix]
    exact or_congr ⟨fun ⟨t, h⟩ => ⟨t, h.symm⟩, fun ⟨t, h⟩ => ⟨t, h.symm⟩⟩ ⟨fun ⟨t, h⟩ => ⟨t, h.symm⟩, fun ⟨t, h⟩ => ⟨t, h.symm⟩⟩
  have plain : openFor (ε := ε) can compression w (.str s) m = openPlain can w s m → (¬ (compression = true ∧ Compressed s)) →
      ∃ (j : Nat) (w1 : World) (h : Handle), openFor (ε := ε) can compression w (.str s) m = .ok (j, w1) ∧ w1[j]? = some h ∧ Suits m h ∧ (h.gz = true ↔ compression = true ∧ Compressed s) ∧
      (∀ i < w.length, w1[i]? = w[i]?) ∧ w.length ≤ j ∧ w.length ≤ w1.length ∧ (∀ i, w.length ≤ i → i < w1.length → i = j ∨ h.inner = some i) ∧
      ∀ b, h.inner = some b → w.length ≤ b ∧ b < w1.length := by
    intro e hn
    refine ⟨w.length, w ++ [⟨m.binary, !m.write, m.write, false, false, false, none⟩], _, by rw [e, openPlain, if_pos hc]; rfl, app_new _ _, ?_, ?_, ?_, ?_, ?_, ?_, ?_⟩
    · refine ⟨rfl, rfl, rfl, ?_⟩
      cases m.write <;> rfl
    · simp only [Bool.false_eq_true, false_iff]; exact hn
    · intro i hi; exact app_old _ _ hi
    · exact Nat.le_refl _
    · simp
    · intro i h1 h2
      simp at h2
      left; omega
    · simp
  cases compression with
  | false => exact plain rfl (by simp)
  | true =>
    by_cases hs : Compressed s
    · have e : openFor (ε := ε) can true w (.str s) m = if m.binary then .ok (new w ⟨true, !m.write, m.write, true, false, false, none⟩)
          else .ok (wrap (new w ⟨true, !m.write, m.write, true, false, false, none⟩).2 (new w ⟨true, !m.write, m.write, true, false, false, none⟩).1) := by
        simp only [openFor, if_true, openCompressed, if_pos (hsuf.2 hs), hc]
      cases hb : m.binary with
      | true =>
        refine ⟨w.length, w ++ [⟨true, !m.write, m.write, true, false, false, none⟩], _, by rw [e, hb]; rfl, app_new _ _, ?_, ?_, ?_, ?_, ?_, ?_, ?_⟩
        · refine ⟨rfl, rfl, hb.symm, ?_⟩
          cases m.write <;> rfl
        · simp [hs]
        · intro i hi; exact app_old _ _ hi
        · exact Nat.le_refl _
        · simp
        · intro i h1 h2
          simp at h2
          left; omega
        · simp
      | false =>
        refine ⟨w.length + 1, w ++ [⟨true, !m.write, m.write, true, false, false, none⟩, ⟨false, !m.write, m.write, true, false, false, some w.length⟩], _,
          by rw [e, hb]; simp [wrap, new], app_new2 _ _ _, ?_, ?_, ?_, ?_, ?_, ?_, ?_⟩
        · refine ⟨rfl, rfl, hb.symm, ?_⟩
          cases m.write <;> rfl
        · simp [hs]
        · intro i hi; exact app_old _ _ hi
        · omega
        · simp
        · intro i h1 h2
          simp at h2
          simp only [Option.some.injEq]
          omega
        · simp
    · refine plain ?_ (by simp [hs])
      simp only [openFor, if_true, openCompressed]
      rw [if_neg fun h => hs (hsuf.1 h)]

/-- **C87** for paths (partial: the function must not detach its handle, see `C87_detach`, and the path must be a string, see `C87_pathlike`.)  By position or by
keyword, the function is called once, with an open handle of the decorator's mode in place of the path, which decompresses (compresses) if the path names a
compressed file and the decorator asks for it; its result or exception is passed on, what was opened for it is closed, and other files are left as the
function left them. -/
theorem C87_path_partial (can : List Char → Mode → Bool) (m : Mode) (compression : Bool) (arg : Option (String × Nat)) (f : Func ε ρ) (args : List Val)
    (kwargs : List (String × Val)) (w : World) (s : List Char) (hc : can s m = true) {a0 : List Val} {k0 : List (String × Val)} {u : Val}
    (hr : Replaced (.str s) u arg args kwargs a0 k0) :
    ∃ (j : Nat) (w1 : World) (h : Handle) (args' : List Val) (kwargs' : List (String × Val)), Replaced (.str s) (.handle j) arg args kwargs args' kwargs' ∧ w.length ≤ j ∧ w1[j]? = some h ∧ Suits m h ∧
      (h.gz = true ↔ compression = true ∧ Compressed s) ∧ (∀ i < w.length, w1[i]? = w[i]?) ∧
      ∀ (r : Except ε ρ) (w2 : World), f args' kwargs' w1 = (r, w2) → Keeps w1 w2 → (∀ h2 : Handle, w2[j]? = some h2 → h2.detached = false) →
        ∃ w3 : World, asFileHandle can m compression arg f args kwargs w = (passOn r, w3) ∧ (∀ i, w.length ≤ i → i < w1.length → ∃ h3 : Handle, w3[i]? = some h3 ∧ h3.closed = true) ∧
          ∀ i, ¬ (w.length ≤ i ∧ i < w1.length) → w3[i]? = w2[i]? := by
  obtain ⟨p, hp, hup⟩ := place_of (ε := ε) hr
  obtain ⟨j, w1, h, h1, h2, h3, h4, h5, h6, h7, h8, h9⟩ := openFor_spec (ε := ε) can compression w s m hc
  have hj : j < w1.length := (List.getElem?_eq_some_iff.1 h2).1
  refine ⟨j, w1, h, _, _, hup (.handle j), h6, h2, h3, h4, h5, fun r w2 hf hk hd => ?_⟩
  obtain ⟨h', g1, -, -, -, -, g2, -, -⟩ := hk j h h2
  have hcall : call f (update p (.handle j) args kwargs) w1 = (passOn r, w2) := by
    have := call_eq f (update p (.handle j) args kwargs).1 (update p (.handle j) args kwargs).2 w1
    rw [hf] at this
    exact this
  have e : asFileHandle can m compression arg f args kwargs w = after (fun w => close w j) (passOn r, w2) := by
    simp only [asFileHandle, hp, withPath, h1, hcall]
  have hclose : close (ε := ε) w2 j = match h.inner with | none => .ok (setClosed w2 j) | some b => .ok (setClosed (setClosed w2 j) b) := by
    simp only [close, g1, hd h' g1, Bool.false_eq_true, if_false, g2]
    cases h.inner <;> rfl
  have old : ∀ i, i < w1.length → ∃ x, w2[i]? = some x := by
    intro i hi
    obtain ⟨y, hy, -⟩ := hk i _ (List.getElem?_eq_getElem hi)
    exact ⟨y, hy⟩
  cases hin : h.inner with
  | none =>
    rw [hin] at hclose h8
    refine ⟨setClosed w2 j, by rw [e, after]; simp only [hclose], fun i hi1 hi2 => ?_, fun i hi => ?_⟩
    · obtain ⟨x, hx⟩ := old i hi2
      rcases h8 i hi1 hi2 with rfl | hb
      · exact ⟨_, by rw [setClosed_get, if_pos rfl, hx]; rfl, rfl⟩
      · cases hb
    · rw [setClosed_get, if_neg]
      rintro rfl
      exact hi ⟨h6, hj⟩
  | some b =>
    rw [hin] at hclose h8
    refine ⟨setClosed (setClosed w2 j) b, by rw [e, after]; simp only [hclose], fun i hi1 hi2 => ?_, fun i hi => ?_⟩
    · obtain ⟨x, hx⟩ := old i hi2
      rw [setClosed_get, setClosed_get, hx]
      rcases h8 i hi1 hi2 with rfl | hb
      · by_cases hib : i = b <;> simp [hib]
      · simp only [Option.some.injEq] at hb
        subst hb
        simp only [if_true]
        split <;> simp
    · rw [setClosed_get, setClosed_get, if_neg, if_neg]
      · rintro rfl
        exact hi ⟨h6, hj⟩
      · rintro rfl
        exact hi (h9 i hin)

/-- **C87** for paths: a file that cannot be opened raises, and the function is not called. -/
theorem C87_not_found (can : List Char → Mode → Bool) (m : Mode) (compression : Bool) (arg : Option (String × Nat)) (f : Func ε ρ) (args : List Val)
    (kwargs : List (String × Val)) (w : World) (s : List Char) (hc : can s m = false) {a0 : List Val} {k0 : List (String × Val)} {u : Val}
    (hr : Replaced (.str s) u arg args kwargs a0 k0) : asFileHandle can m compression arg f args kwargs w = (.error .notFound, w) := by
  obtain ⟨p, hp, -⟩ := place_of (ε := ε) hr
  cases compression <;> simp [asFileHandle, hp, withPath, openFor, openCompressed, openPlain, hc]

/-- **C87** for handles of the right kind: the function is called with the handle itself, and everything is as the function leaves it. -/
theorem C87_handle (can : List Char → Mode → Bool) (m : Mode) (compression : Bool) (arg : Option (String × Nat)) (f : Func ε ρ) (args : List Val)
    (kwargs : List (String × Val)) (w : World) (i : Nat) (h : Handle) (hi : w[i]? = some h) (hs : Suits m h) {a0 : List Val} {k0 : List (String × Val)} {u : Val}
    (hr : Replaced (.handle i) u arg args kwargs a0 k0) :
    ∃ args' kwargs', Replaced (.handle i) (.handle i) arg args kwargs args' kwargs' ∧
      asFileHandle can m compression arg f args kwargs w = (passOn (f args' kwargs' w).1, (f args' kwargs' w).2) := by
  obtain ⟨p, hp, hup⟩ := place_of (ε := ε) hr
  refine ⟨_, _, hup (.handle i), ?_⟩
  obtain ⟨s1, s2, s3, s4⟩ := hs
  have had : adapt (ε := ε) m w i = .ok ((i, false), w) := by
    simp only [adapt, hi, s1, s2, Bool.false_eq_true, if_false, s4, Bool.not_true, s3]
    cases m.binary <;> rfl
  simp only [asFileHandle, hp, withHandle, had, Bool.false_eq_true, if_false]
  exact call_eq f _ _ w

/-- **C87** for binary handles where text is wanted (partial: the function must not close or detach its handle, see `C87_closes`).  The function is called with
an open text handle on top of the caller's; its result or exception is passed on, and the caller's handle is as the function left it. -/
theorem C87_wrapped_partial (can : List Char → Mode → Bool) (m : Mode) (compression : Bool) (arg : Option (String × Nat)) (f : Func ε ρ) (args : List Val)
    (kwargs : List (String × Val)) (w : World) (i : Nat) (h : Handle) (hi : w[i]? = some h) (hs : Suits ⟨m.write, true⟩ h) (hm : m.binary = false)
    {a0 : List Val} {k0 : List (String × Val)} {u : Val} (hr : Replaced (.handle i) u arg args kwargs a0 k0) :
    ∃ (j : Nat) (w1 : World) (h1 : Handle) (args' : List Val) (kwargs' : List (String × Val)), Replaced (.handle i) (.handle j) arg args kwargs args' kwargs' ∧ w.length ≤ j ∧ w1[j]? = some h1 ∧ Suits m h1 ∧ h1.inner = some i ∧
      (∀ k < w.length, w1[k]? = w[k]?) ∧
      ∀ (r : Except ε ρ) (w2 : World) (h2 : Handle), f args' kwargs' w1 = (r, w2) → w2[j]? = some h2 → h2.closed = false → h2.detached = false →
        ∃ w3 : World, asFileHandle can m compression arg f args kwargs w = (passOn r, w3) ∧ ∀ k, k ≠ j → w3[k]? = w2[k]? := by
  obtain ⟨p, hp, hup⟩ := place_of (ε := ε) hr
  obtain ⟨s1, s2, s3, s4⟩ := hs
  simp only at s3 s4
  have hil : i < w.length := (List.getElem?_eq_some_iff.1 hi).1
  have hw : wrap w i = (w.length, w ++ [⟨false, h.readable, h.writable, h.gz, false, false, some i⟩]) := by
    have : w.getD i ⟨true, false, false, false, true, false, none⟩ = h := by rw [List.getD_eq_getElem?_getD, hi]; rfl
    simp only [wrap, this, new]
  have had : adapt (ε := ε) m w i = .ok ((w.length, true), w ++ [⟨false, h.readable, h.writable, h.gz, false, false, some i⟩]) := by
    simp only [adapt, hi, s1, s2, Bool.false_eq_true, if_false, s4, Bool.not_true, s3, hm, Bool.not_false, Bool.and_true, if_true, hw]
  refine ⟨w.length, _, ⟨false, h.readable, h.writable, h.gz, false, false, some i⟩, _, _, hup (.handle w.length), Nat.le_refl _, app_new _ _, ⟨rfl, rfl, hm.symm, s4⟩, rfl, fun k hk => app_old _ _ hk,
    fun r w2 h2 hf g1 g2 g3 => ?_⟩
  have hcall : call f (update p (.handle w.length) args kwargs) (w ++ [⟨false, h.readable, h.writable, h.gz, false, false, some i⟩]) = (passOn r, w2) := by
    have := call_eq f (update p (.handle w.length) args kwargs).1 (update p (.handle w.length) args kwargs).2
      (w ++ [⟨false, h.readable, h.writable, h.gz, false, false, some i⟩])
    rw [hf] at this
    exact this
  refine ⟨setDetached w2 w.length, ?_, fun k hk => by rw [setDetached_get, if_neg hk]⟩
  simp only [asFileHandle, hp, withHandle, had, if_true, hcall, after, detach, g1, g2, g3, Bool.false_eq_true, if_false]

/-- **C87 is violated**: a handle of text is refused where bytes are wanted. -/
theorem C87_text_refused (can : List Char → Mode → Bool) (m : Mode) (compression : Bool) (arg : Option (String × Nat)) (f : Func ε ρ) (args : List Val)
    (kwargs : List (String × Val)) (w : World) (i : Nat) (h : Handle) (hi : w[i]? = some h) (hs : Suits ⟨m.write, false⟩ h) (hm : m.binary = true)
    {a0 : List Val} {k0 : List (String × Val)} {u : Val} (hr : Replaced (.handle i) u arg args kwargs a0 k0) :
    asFileHandle can m compression arg f args kwargs w = (.error .notImplemented, w) := by
  obtain ⟨p, hp, -⟩ := place_of (ε := ε) hr
  obtain ⟨s1, s2, s3, s4⟩ := hs
  simp only at s3 s4
  simp [asFileHandle, hp, withHandle, adapt, hi, s1, s2, s3, s4, hm]

/-- Handles that are closed, or open for the other direction, raise, and the function is not called. -/
theorem C87_wrong_handle (can : List Char → Mode → Bool) (m : Mode) (compression : Bool) (arg : Option (String × Nat)) (f : Func ε ρ) (args : List Val)
    (kwargs : List (String × Val)) (w : World) (i : Nat) (h : Handle) (hi : w[i]? = some h) (hs : ¬ Suits ⟨m.write, h.binary⟩ h)
    {a0 : List Val} {k0 : List (String × Val)} {u : Val} (hr : Replaced (.handle i) u arg args kwargs a0 k0) :
    ∃ e, asFileHandle can m compression arg f args kwargs w = (.error e, w) ∧ (e = .closedFile ∨ e = .detachedFile ∨ e = .unsupported) := by
  obtain ⟨p, hp, -⟩ := place_of (ε := ε) hr
  simp only [Suits, true_and] at hs
  cases h1 : h.detached with
  | true => exact ⟨_, by simp only [asFileHandle, hp, withHandle, adapt, hi, h1, if_true], .inr (.inl rfl)⟩
  | false =>
    cases h2 : h.closed with
    | true => exact ⟨_, by simp only [asFileHandle, hp, withHandle, adapt, hi, h1, h2, if_true, Bool.false_eq_true, if_false], .inl rfl⟩
    | false =>
      have h3 : (if m.write = true then h.writable else h.readable) = false := by
        cases hx : (if m.write = true then h.writable else h.readable) with
        | false => rfl
        | true => exact absurd ⟨h2, h1, hx⟩ hs
      exact ⟨_, by simp only [asFileHandle, hp, withHandle, adapt, hi, h1, h2, h3, if_true, Bool.false_eq_true, if_false, Bool.not_false], .inr (.inr rfl)⟩

/-- **C87 is violated**: a file given by keyword raises IndexError unless the decorator names the argument. -/
theorem C87_keyword (can : List Char → Mode → Bool) (m : Mode) (compression : Bool) (f : Func ε ρ) (kwargs : List (String × Val)) (w : World) :
    asFileHandle can m compression none f [] kwargs w = (.error .indexError, w) := rfl

/-- **C87 is violated**: without the argument KeyError or IndexError is raised (where Python raises TypeError), also if the function has a default for it. -/
theorem C87_missing (can : List Char → Mode → Bool) (m : Mode) (compression : Bool) (name : String) (i : Nat) (f : Func ε ρ) (args : List Val)
    (kwargs : List (String × Val)) (hi : args.length ≤ i) (hk : kwargs.lookup name = none) (w : World) :
    asFileHandle can m compression (some (name, i)) f args kwargs w = (.error .keyError, w) := by
  simp [asFileHandle, place, List.getElem?_eq_none hi, hk]

/-- **C87 is violated**: paths that are not strings have no `endswith`. -/
theorem C87_pathlike (can : List Char → Mode → Bool) (m : Mode) (arg : Option (String × Nat)) (f : Func ε ρ) (args : List Val) (kwargs : List (String × Val))
    (w : World) {a0 : List Val} {k0 : List (String × Val)} {u : Val} (hr : Replaced .other u arg args kwargs a0 k0) :
    asFileHandle can m true arg f args kwargs w = (.error .attributeError, w) := by
  obtain ⟨p, hp, -⟩ := place_of (ε := ε) hr
  simp [asFileHandle, hp, withPath, openFor]

/-! ## Samples -/

/-- A function that closes the handle it is given and returns 5. -/
def closing : Func String Nat := fun args _ w =>
  match args with
  | .handle i :: _ => (.ok 5, ((close (ε := String) w i).toOption).getD w)
  | _ => (.error "no file", w)

/-- A function that detaches its handle and returns 5. -/
def detaching : Func String Nat := fun args _ w =>
  match args with
  | .handle i :: _ => (.ok 5, ((detach (ε := String) w i).toOption).getD w)
  | _ => (.error "no file", w)

/-- A function that returns whether its second argument, by position or keyword, is a text handle for writing; it raises otherwise. -/
def saving : Func String Bool := fun args kwargs w =>
  match (args[1]?).or (kwargs.lookup "file") with
  | some (.handle i) => (.ok ((w[i]?.map fun h => !h.binary && h.writable && !h.closed).getD false), w)
  | _ => (.error "no file", w)

/-- **C87 is violated**: if the function closes the text handle that was put on the caller's, its result is lost: `detach` raises ValueError; and the caller's
handle is closed. -/
theorem C87_closes (can : List Char → Mode → Bool) (compression : Bool) :
    (closing [.handle 0] [] [⟨false, true, false, false, false, false, none⟩]).1 = .ok 5 ∧
    asFileHandle can ⟨false, false⟩ compression none closing [.handle 0] [] [⟨true, true, false, false, false, false, none⟩] =
      (.error .closedFile, [⟨true, true, false, false, true, false, none⟩, ⟨false, true, false, false, true, false, some 0⟩]) ∧
    (asFileHandle can ⟨false, false⟩ compression none closing [.handle 0] [] [⟨false, true, false, false, false, false, none⟩]).1 = .ok 5 := by
  refine ⟨by decide +kernel, ?_, ?_⟩ <;> cases compression <;> rfl

/-- **C87 is violated**: if the function detaches the handle opened for it, its result is lost, and the file stays open. -/
theorem C87_detach (can : List Char → Mode → Bool) (h : can "a.gz".toList ⟨false, false⟩ = true) :
    asFileHandle can ⟨false, false⟩ true none detaching [.str "a.gz".toList] [] [] =
      (.error .detachedFile, [⟨true, true, false, true, false, false, none⟩, ⟨false, true, false, true, false, true, some 0⟩]) := by
  simp only [asFileHandle, place, List.getElem?_cons_zero, withPath, openFor, if_true, openCompressed, h, Bool.false_eq_true, if_false]
  rfl

/-- The hypotheses of the theorems hold for a ruleset saved to a compressed file, by position and by keyword: it is written to a text handle, and both objects
are closed afterwards. -/
example : (Replaced (.str "r.gz".toList) (.handle 1) (some ("file", 1)) [.other, .str "r.gz".toList] [] [.other, .handle 1] []) ∧
    Replaced (.str "r.gz".toList) (.handle 1) (some ("file", 1)) [.other] [("file", .str "r.gz".toList)] [.other] [("file", .handle 1)] ∧
    asFileHandle (fun _ _ => true) ⟨true, false⟩ true (some ("file", 1)) saving [.other] [("file", .str "r.gz".toList)] [] =
      (.ok true, [⟨true, false, true, true, true, false, none⟩, ⟨false, false, true, true, true, false, some 0⟩]) ∧
    asFileHandle (fun _ _ => true) ⟨true, false⟩ true (some ("file", 1)) saving [.other, .str "r.gz".toList] [] [] =
      (.ok true, [⟨true, false, true, true, true, false, none⟩, ⟨false, false, true, true, true, false, some 0⟩]) := by
  refine ⟨.position "file" [.other] [] [], .keyword _ _ _ _ _ (by decide) (by decide +kernel) fun k => ?_, by decide +kernel, by decide +kernel⟩
  by_cases hk : k = "file"
  · subst hk; decide +kernel
  · have : (k == "file") = false := by simpa using hk
    simp [List.lookup, this, hk]

/-- A binary handle for writing, which suits 'wb' and is wrapped for 'w'; a closed one suits neither; a text handle is refused for 'wb'. -/
example : Suits ⟨true, true⟩ ⟨true, false, true, false, false, false, none⟩ ∧ ¬ Suits ⟨true, true⟩ ⟨true, false, true, false, true, false, none⟩ ∧
    Suits ⟨true, false⟩ ⟨false, false, true, false, false, false, none⟩ ∧
    Replaced (.handle 0) (.handle 1) (some ("file", 1)) [.other, .handle 0] [] [.other, .handle 1] [] ∧
    asFileHandle (fun _ _ => false) ⟨true, false⟩ true (some ("file", 1)) saving [.other, .handle 0] [] [⟨true, false, true, false, false, false, none⟩] =
      (.ok true, [⟨true, false, true, false, false, false, none⟩, ⟨false, false, true, false, false, true, some 0⟩]) ∧
    asFileHandle (fun _ _ => false) ⟨true, true⟩ true (some ("file", 1)) saving [.other, .handle 0] [] [⟨true, false, true, false, false, false, none⟩] =
      (.ok false, [⟨true, false, true, false, false, false, none⟩]) :=
  ⟨by unfold Suits; decide, by unfold Suits; decide, by unfold Suits; decide, .position "file" [.other] [] [], by decide +kernel, by decide +kernel⟩

/-- A path object. -/
example : Replaced .other .other none [.other] [] [.other] [] := .first [] []

end Files
end OFE
