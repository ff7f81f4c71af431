import Verif.Shim.PrintLemmas
import Verif.Shim.ObjLemmas
import Verif.Shim.Lemmas
import Verif.Props.Match
import Verif.Props.Shim

/-!
# C101: shims print, hash and copy as they compare
-/

namespace OFE
namespace Shim
open Fmt

/-- **C101** The text of a shim can be read, and what is read describes exactly the packets the shim stands for: those that the included match accepts and no
excluded one. -/
theorem C101_reads {s : Shim} (h : Printable s) (hz : s.zero = false) :
    ∃ t i es, str s = .ok t ∧ readShim t = some (i, es) ∧ ∀ p, s.Has totBits p ↔ MatchesAll i p ∧ ∀ e ∈ es, ¬ MatchesAll e p := by
  rcases h with h | ⟨⟨m, hi, hm⟩, he, -⟩
  · rw [h] at hz; cases hz
  obtain ⟨es, hr, hp⟩ := readShim_full hm he
  refine ⟨_, _, es, str_ok hz hi hm he, hr, fun p => ?_⟩
  have fo : ∀ w, WcGood w → (Covers totBits w p ↔ MatchesAll (fieldsOf w) p) := by
    intro w hw
    obtain ⟨m, -, -, -, -, h5, h6⟩ := C16_round_trip w hw.valid hw.pad
    rw [wildcardToFields_eq hw.pad] at h5
    rw [Except.ok.inj h5]
    exact h6 p
  constructor
  · rintro ⟨-, h1, h2⟩
    refine ⟨(fo m hm).1 (h1 m hi), fun e hem => ?_⟩
    obtain ⟨w, hw, rfl⟩ := List.mem_map.1 (hp.mem_iff.1 hem)
    exact fun hc => h2 w hw ((fo w (he w hw)).2 hc)
  · rintro ⟨h1, h2⟩
    refine ⟨hz, fun w hw => ?_, fun e hem hc => ?_⟩
    · rw [hi] at hw; cases hw; exact (fo m hm).2 h1
    · exact h2 _ (hp.mem_iff.2 (List.mem_map_of_mem hem)) ((fo e (he e hem)).1 hc)

/-- **C101** Every shim that is empty has the text `empty`, which no other shim has. -/
theorem C101_empty {s : Shim} (h : Printable s) : str s = .ok "empty".toList ↔ s.zero = true := by
  constructor
  · intro e
    rcases h with h | ⟨⟨m, hi, hm⟩, he, -⟩
    · exact h
    · cases hz : s.zero with
      | true => rfl
      | false =>
        rw [str_ok hz hi hm he] at e
        have := Except.ok.inj e
        simp [fullText] at this
  · intro hz; unfold str; rw [hz]; rfl

/-- **C101** Two shims have the same text exactly if they are equal. -/
theorem C101_same_text {a b : Shim} (ha : Printable a) (hb : Printable b) : str a = str b ↔ eqv a b = true := by
  rw [eqv_true]
  cases hz : a.zero with
  | true =>
    rw [(C101_empty ha).2 hz, eq_comm, C101_empty hb]
    simp
  | false =>
    cases hz' : b.zero with
    | true =>
      rw [(C101_empty hb).2 hz', C101_empty ha, hz]
      simp
    | false =>
      rcases ha with h | ⟨⟨m, hi, hm⟩, he, hn⟩
      · rw [h] at hz; cases hz
      rcases hb with h | ⟨⟨m', hi', hm'⟩, he', hn'⟩
      · rw [h] at hz'; cases hz'
      rw [str_ok hz hi hm he, str_ok hz' hi' hm' he', hi, hi']
      constructor
      · intro e
        right
        have e := Except.ok.inj e
        obtain ⟨es, hr, hp⟩ := readShim_full hm he
        obtain ⟨es', hr', hp'⟩ := readShim_full hm' he'
        rw [e, hr'] at hr
        simp only [Option.some.injEq, Prod.mk.injEq] at hr
        have inj : ∀ w w', WcGood w → WcGood w' → fieldsOf w = fieldsOf w' → w = w' := by
          intro w w' h h' e
          apply textOf_inj h h'
          unfold textOf; rw [e]
        refine ⟨rfl, rfl, by rw [inj m m' hm hm' hr.1.symm], fun x => ?_⟩
        have hpp : (a.exc.map fieldsOf).Perm (b.exc.map fieldsOf) := by rw [hr.2] at hp'; exact hp.symm.trans hp'
        constructor
        · intro hx
          obtain ⟨y, hy, ey⟩ := List.mem_map.1 (hpp.mem_iff.1 (List.mem_map_of_mem hx))
          rw [← inj y x (he' y hy) (he x hx) ey]; exact hy
        · intro hx
          obtain ⟨y, hy, ey⟩ := List.mem_map.1 (hpp.mem_iff.2 (List.mem_map_of_mem hx))
          rw [← inj y x (he y hy) (he' x hx) ey]; exact hy
      · rintro (⟨h, -⟩ | ⟨-, -, h1, h2⟩)
        · cases h
        · cases h1
          unfold fullText
          rw [sortTexts_congr (((List.perm_ext_iff_of_nodup hn hn').2 h2).map textOf)]

theorem good_intersect {m w : Nat} (hm : WcGood m) (hw : WcGood w) (h : wcIntersect totBits m w ≠ 0) : WcGood (wcIntersect totBits m w) := by
  refine ⟨wcValid_wcIntersect hm.valid h, fun j hj => ?_⟩
  unfold wcIntersect at h ⊢
  simp only at h ⊢
  split at h
  · exact absurd rfl h
  · next hz => rw [if_neg hz, Nat.testBit_and, hm.pad j hj, hw.pad j hj]; rfl

/-- **C101** The constructor and `add` make shims that can be printed. -/
theorem C101_add_printable {ord : List Nat → List Nat} {s s' : Shim} (hs : Printable s) {w : Nat} (hw : WcGood w) (b : Bool) (e : add totBits ord s w b = .ok s') :
    Printable s' := by
  unfold add at e
  cases hz : s.zero with
  | true => rw [hz] at e; cases e; exact .inl hz
  | false =>
    rcases hs with h | ⟨⟨m, hi, hm⟩, he, hn⟩
    · rw [h] at hz; cases hz
    simp only [hz, hi, Bool.false_eq_true, if_false] at e
    cases b with
    | true =>
      simp only [if_true] at e
      split at e
      · cases e; exact .inl rfl
      · next h0 => cases e; exact .inr ⟨⟨_, rfl, good_intersect hm hw h0⟩, he, hn⟩
    | false =>
      simp only [Bool.false_eq_true, if_false] at e
      split at e
      · cases e; exact .inl rfl
      · cases hsc : scan w (ord s.exc) [] with
        | error x => rw [hsc] at e; cases e
        | ok r =>
          rw [hsc] at e
          cases r with
          | none => cases e; exact .inr ⟨⟨m, hi, hm⟩, he, hn⟩
          | some rem =>
            cases e
            refine .inr ⟨⟨m, rfl, hm⟩, fun x hx => ?_, Deps.nodup_setAdd (hn.filter _)⟩
            rcases Deps.mem_setAdd.1 hx with rfl | hx
            · exact hw
            · exact he x (List.mem_filter.1 hx).1

/-- **C101** Every history of constructor and `add` with proper wildcards gives a shim that prints; histories with the same calls give the same text. -/
theorem C101_history {ord ord' : List Nat → List Nat} (hord : ∀ l, (ord l).Perm l) (hord' : ∀ l, (ord' l).Perm l) {w : Nat} (hw : WcGood w)
    (calls calls' : List (Nat × Bool)) (hc : ∀ c ∈ calls, WcGood c.1) (hsame : ∀ c, c ∈ calls ↔ c ∈ calls') :
    ∃ s s' t, (ofWc totBits ord w >>= fun s => calls.foldlM (fun s c => add totBits ord s c.1 c.2) s) = .ok s ∧
      (ofWc totBits ord' w >>= fun s => calls'.foldlM (fun s c => add totBits ord' s c.1 c.2) s) = .ok s' ∧ str s = .ok t ∧ str s' = .ok t := by
  obtain ⟨s, s', e, e', q⟩ := C44_order (n := totBits) valid_bits.2 hord hord' hw.valid calls calls' (fun c h => (hc c h).valid) hsame
  have made : ∀ {o : List Nat → List Nat} {l : List (Nat × Bool)} {r : Shim}, (∀ c ∈ l, WcGood c.1) →
      (ofWc totBits o w >>= fun s => l.foldlM (fun s c => add totBits o s c.1 c.2) s) = .ok r → Printable r := by
    intro o l r hl er
    have h0 : ∃ s0, ofWc totBits o w = .ok s0 ∧ Printable s0 := by
      refine ⟨_, rfl, ?_⟩
      by_cases h0 : w = 0
      · exact .inl (by simp [h0])
      · exact .inr ⟨⟨w, rfl, hw⟩, by simp, by simp⟩
    obtain ⟨s0, e0, p0⟩ := h0
    rw [e0] at er
    replace er : l.foldlM (fun s c => add totBits o s c.1 c.2) s0 = .ok r := er
    clear e0
    induction l generalizing s0 with
    | nil => cases er; exact p0
    | cons c l ih =>
      rw [List.foldlM_cons] at er
      cases ea : add totBits o s0 c.1 c.2 with
      | error x => rw [ea] at er; cases er
      | ok s1 =>
        rw [ea] at er
        exact ih (fun x hx => hl x (List.mem_cons_of_mem _ hx)) s1 (C101_add_printable p0 (hl c List.mem_cons_self) c.2 ea) er
  have p := made hc e
  have p' := made (fun c h => hc c ((hsame c).2 h)) e'
  have st := (C101_same_text p p').2 q
  have : ∃ t, str s = .ok t := by
    cases hz : s.zero with
    | true => exact ⟨_, (C101_empty p).2 hz⟩
    | false => obtain ⟨t, -, -, h, -⟩ := C101_reads p hz; exact ⟨t, h⟩
  obtain ⟨t, ht⟩ := this
  exact ⟨s, s', t, e, e', ht, by rw [← st, ht]⟩

/-- **C101** Equal shims have equal hashes, if the hash of a set does not depend on the order of its members. -/
theorem C101_hash {η : Type} (hb : Bool → η) (hi : Option Nat → η) (hs : List Nat → η) (hp : η → η → η) (hset : ∀ l l', l.Perm l' → hs l = hs l') {a b : Shim}
    (ha : a.zero = true ∨ a.exc.Nodup) (hb' : b.zero = true ∨ b.exc.Nodup) (h : eqv a b = true) : hash hb hi hs hp a = hash hb hi hs hp b := by
  unfold hash
  rcases eqv_true.1 h with ⟨h1, h2⟩ | ⟨h1, h2, h3, h4⟩
  · rw [h1, h2]; rfl
  · rw [h1, h2, h3]
    rw [h1] at ha; rw [h2] at hb'
    simp only [Bool.false_eq_true, false_or] at ha hb'
    simp only [Bool.false_eq_true, if_false]
    rw [hset _ _ ((List.perm_ext_iff_of_nodup ha hb').2 h4)]

/-- **C101** Whatever is done with shims as objects, each of them is at all times worth what it would be if every object were a value of its own, also where
exceptions are raised; in particular a change to a copy or to its original does not change the other. -/
theorem C101_objects {n : Nat} {ord : List Nat → List Nat} (hord : ∀ l, (ord l).Perm l) (ops : List Op) :
    valRun n ord [] ops = (((Mem.mk [] []).run n ord ops).1.objs.map (valueOf ((Mem.mk [] []).run n ord ops).1.sets), ((Mem.mk [] []).run n ord ops).2) :=
  (run_spec hord ops (h := ⟨[], []⟩) ⟨by simp, by simp⟩).2

/-- **C101** After a program, `dup` gives an object equal to the original. -/
theorem C101_dup {n : Nat} {ord : List Nat → List Nat} (hord : ∀ l, (ord l).Perm l) (ops : List Op) (i : Nat) (o : Obj)
    (ho : ((Mem.mk [] []).run n ord ops).1.objs[i]? = some o) :
    ∃ h' o', ((Mem.mk [] []).run n ord ops).1.step n ord (.dup i) = .ok h' ∧ h'.objs = ((Mem.mk [] []).run n ord ops).1.objs ++ [o'] ∧
      eqv (valueOf h'.sets o) (valueOf h'.sets o') = true ∧ o'.exc ≠ o.exc := by
  have hh := (run_spec (n := n) hord ops (h := ⟨[], []⟩) ⟨by simp, by simp⟩).1
  generalize ((Mem.mk [] []).run n ord ops).1 = h at *
  obtain ⟨sets, o', e, k, h1, h2, hv⟩ := h.dup_spec o
  have hlt := hh.lt o (List.mem_of_getElem? ho)
  refine ⟨⟨sets, h.objs ++ [o']⟩, o', by simp only [Mem.step, ho, e]; rfl, rfl, ?_, by omega⟩
  simp only
  rw [(hv none).2, valueOf_kept k hlt (by omega), eqv_true]
  cases (valueOf h.sets o).zero <;> simp

/-! ### Samples and what is not true -/

/-- Sample wildcards: of the matches on TCP, on TCP to port 80, on UDP, and on a masked destination address. -/
def tcp : Nat := (toWildcard [(10, 6, none)]).toOption.getD 0
/-- TCP to port 80. -/
def web : Nat := (toWildcard [(10, 6, none), (14, 80, none)]).toOption.getD 0
/-- UDP. -/
def udp : Nat := (toWildcard [(10, 17, none)]).toOption.getD 0
/-- A network of destinations. -/
def net : Nat := (toWildcard [(12, 0x0a000000, some 0xff000000)]).toOption.getD 0

theorem good_of {m : MItems} {w : Nat} (hm : (∀ x ∈ m, x.1 < 56) ∧ (m.map (·.1)).Nodup) (h : toWildcard m = .ok w) : WcGood w :=
  ⟨toWildcard_valid hm.1 hm.2 h, toWildcard_pad hm.1 h⟩

theorem good_samples : WcGood tcp ∧ WcGood web ∧ WcGood udp ∧ WcGood net :=
  ⟨good_of (m := [(10, 6, none)]) (by decide) (by decide +kernel), good_of (m := [(10, 6, none), (14, 80, none)]) (by decide) (by decide +kernel),
    good_of (m := [(10, 17, none)]) (by decide) (by decide +kernel), good_of (m := [(12, 0x0a000000, some 0xff000000)]) (by decide) (by decide +kernel)⟩

/-- A shim with two excluded wildcards. -/
def sampleShim : Shim := ⟨false, some tcp, [web, net]⟩

theorem sampleShim_printable : Printable sampleShim := by
  refine .inr ⟨⟨tcp, rfl, good_samples.1⟩, fun e he => ?_, by decide +kernel⟩
  simp only [sampleShim, List.mem_cons, List.not_mem_nil, or_false] at he
  rcases he with h | h <;> rw [h]
  · exact good_samples.2.1
  · exact good_samples.2.2.2

/-- For `C101_reads`, `C101_same_text`: the text, which is the same for the other order of the excludes. -/
example : Printable sampleShim ∧ sampleShim.zero = false ∧
    (str sampleShim).toOption.map String.ofList = some "(IP_PROTO=6) !(IPV4_DST=167772160/4278190080) !(TCP_DST=80,IP_PROTO=6) " ∧
    str ⟨false, some tcp, [net, web]⟩ = str sampleShim ∧ str ⟨false, some tcp, [web]⟩ ≠ str sampleShim := by
  refine ⟨sampleShim_printable, rfl, ?_, ?_, ?_⟩ <;> decide +kernel

example : ((str sampleShim).toOption.bind readShim) =
    some ([(10, 6, none)], [[(12, 0x0a000000, some 0xff000000)], [(14, 80, none), (10, 6, none)]]) := by decide +kernel

/-- For `C101_empty`. -/
example : Printable nothing ∧ str nothing = .ok "empty".toList := ⟨.inl rfl, rfl⟩

/-- For `C101_add_printable` and `C101_history`. -/
example : (ofWc totBits id tcp >>= fun s => [(web, false), (net, false)].foldlM (fun s c => add totBits id s c.1 c.2) s) = .ok sampleShim ∧
    (ofWc totBits List.reverse tcp >>= fun s => [(web, false), (net, false), (web, false)].foldlM (fun s c => add totBits List.reverse s c.1 c.2) s) =
      .ok ⟨false, some tcp, [net, web]⟩ := by
  constructor <;> decide +kernel

/-- For `C101_hash`: the sum as hash of a set. -/
example : (∀ l l' : List Nat, l.Perm l' → l.sum = l'.sum) ∧ eqv sampleShim ⟨false, some tcp, [net, web]⟩ = true ∧
    hash Bool.toNat (·.getD 0) List.sum (· * 31 + ·) sampleShim = hash Bool.toNat (·.getD 0) List.sum (· * 31 + ·) ⟨false, some tcp, [net, web]⟩ := by
  refine ⟨fun l l' h => h.sum_nat, by decide +kernel, by decide +kernel⟩

/-- A program for `C101_objects` and `C101_dup`: a copy is narrowed, the original excludes more, and an exception is raised by a shim without an included
wildcard. -/
def sampleOps : List Op := [.make (some tcp), .add 0 web false, .dup 0, .add 0 net false, .add 1 web true, .make none, .inter 2 tcp, .inter 0 net]

example : ((Mem.mk [] []).run totBits id sampleOps).1.objs.map (valueOf ((Mem.mk [] []).run totBits id sampleOps).1.sets) =
      [⟨false, some tcp, [web, net]⟩, ⟨true, some web, [web]⟩, nothing, ⟨false, some (wcIntersect totBits tcp net), [web, net]⟩] ∧
    ((Mem.mk [] []).run totBits id sampleOps).2 = [none, none, none, none, none, none, some .typeError, none] ∧
    (((Mem.mk [] []).run totBits id sampleOps).1.objs[0]?).isSome = true := by
  refine ⟨?_, ?_, ?_⟩ <;> decide +kernel

/-- **C101** Violated by `intersection`: with a match that shares no packet with the shim it gives a shim without packets that is not marked as empty, is not
equal to the empty shim, and cannot be printed (KeyError). -/
theorem C101_disjoint : ∃ s, intersection totBits sampleShim udp = .ok s ∧ (∀ p, ¬ s.Has totBits p) ∧ eqv s nothing = false ∧ str s = .error .keyError := by
  have e : wcIntersect totBits tcp udp = 0 := by decide +kernel
  refine ⟨⟨false, some 0, [web, net]⟩, ?_, ?_, by decide, by decide +kernel⟩
  · unfold intersection sampleShim; simp only [e]
  · rintro p ⟨-, h, -⟩
    have := h 0 rfl
    have := this 0 (by decide)
    simp at this

end Shim
end OFE
