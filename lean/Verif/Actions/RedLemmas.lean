import Verif.Actions.Redundant
import Verif.Props.ActionsSem

/-! # Redundancy removal: lemmas -/

namespace OFE

section
variable [Writes]

/-- The action sends a copy of the packet. -/
def Action.emits : Action → Bool
  | .output _ | .group _ => true
  | _ => false

/-- The action reads or writes the TTL of an MPLS header. -/
def Action.mplsTtl : Action → Bool
  | .copyTtlIn | .copyTtlOut | .decMplsTtl | .setMplsTtl _ => true
  | _ => false

def Action.isPushPbb : Action → Bool
  | .pushPbb _ => true
  | _ => false

theorem emit_nil {a : Action} (h : a.emits = false) (p : Pkt) : emit a p = [] := by
  cases a <;> simp_all [Action.emits, emit]

/-- Effect of a pop. -/
def popEff : Tun → Pkt → Pkt
  | .vlan => act .popVlan
  | .mpls => act (.popMpls 0)
  | .pbb => act .popPbb

theorem act_pop {a : Action} {t : Tun} (h : a.pops = some t) (p : Pkt) : act a p = popEff t p := by
  cases a <;> simp [Action.pops] at h <;> subst h <;> rfl

theorem pop_pushHdr (h : Nat → Bool) (fld : Nat → Nat → Nat) : popHdr h (pushHdr h fld) = fld := by
  funext f d
  unfold popHdr pushHdr
  cases h f <;> simp

theorem popEff_push {a : Action} {t : Tun} (h : a.pushes = some t) (p : Pkt) : popEff t (act a p) = p := by
  cases a <;> simp [Action.pushes] at h <;> subst h <;> simp only [popEff, act, pop_pushHdr]
  · cases p; simp
  · cases p; simp

theorem popEff_set {f : Nat} {t : Tun} (h : f ∈ t.fields) (v : Nat) (p : Pkt) :
    popEff t (act (.setField f v) p) = popEff t p := by
  have key : ∀ hdr : Nat → Bool, hdr f = true → popHdr hdr (fun g d => if g = f ∧ d = 0 then Writes.wr f v else p.fld g d) = popHdr hdr p.fld := by
    intro hdr hh
    funext g d
    unfold popHdr
    by_cases hg : g = f
    · subst hg; simp [hh]
    · simp [hg]
  cases t <;> simp only [popEff, act] <;> rw [key] <;>
    (simp [Tun.fields] at h; rcases h with rfl | rfl | rfl) <;> rfl

theorem popEff_comm {a : Action} {t : Tun} (h1 : a.pushes ≠ some t) (h2 : ∀ f, a.setF = some f → f ∉ t.fields)
    (h3 : t = .mpls → a.mplsTtl = false) (h4 : t = .vlan → a.isPushPbb = false) (p : Pkt) :
    popEff t (act a p) = act a (popEff t p) := by
  have hset : ∀ f v, a = .setField f v → popEff t (act a p) = act a (popEff t p) := by
    rintro f v rfl
    have hf := h2 f rfl
    cases t
    · simp only [popEff, act]; rw [pop_set]
      simp [Tun.fields] at hf; simp [vlanF, hf]
    · simp only [popEff, act]; rw [pop_set]
      simp [Tun.fields] at hf; simp [mplsF, hf]
    · simp only [popEff, act]; rw [pop_set]
      simp [Tun.fields] at hf; simp [pbbF, hf]
  cases a with
  | setField f v => exact hset f v rfl
  | pushVlan e =>
    cases t with
    | vlan => exact absurd rfl h1
    | mpls => simp only [popEff, act, push_pop vm]
    | pbb => simp only [popEff, act, push_pop vp]
  | pushMpls e =>
    cases t with
    | mpls => exact absurd rfl h1
    | vlan => simp only [popEff, act, push_pop mv]; rfl
    | pbb => simp only [popEff, act, push_pop mp]; rfl
  | pushPbb e =>
    cases t with
    | pbb => exact absurd rfl h1
    | vlan => simp [Action.isPushPbb] at h4
    | mpls => simp only [popEff, act, push_pop pm]; rfl
  | popVlan =>
    cases t with
    | vlan => rfl
    | mpls => simp only [popEff, act, pop_pop vm]
    | pbb => simp only [popEff, act, pop_pop vp]
  | popMpls e =>
    cases t with
    | vlan => simp only [popEff, act, pop_pop mv]
    | mpls => rfl
    | pbb => simp only [popEff, act, pop_pop mp]
  | popPbb =>
    cases t with
    | vlan => simp only [popEff, act, pop_pop vp]
    | mpls => simp only [popEff, act, pop_pop pm]
    | pbb => rfl
  | copyTtlIn => cases t <;> [rfl; simp [Action.mplsTtl] at h3; rfl]
  | copyTtlOut => cases t <;> [rfl; simp [Action.mplsTtl] at h3; rfl]
  | decMplsTtl => cases t <;> [rfl; simp [Action.mplsTtl] at h3; rfl]
  | setMplsTtl v => cases t <;> [rfl; simp [Action.mplsTtl] at h3; rfl]
  | decNwTtl => cases t <;> rfl
  | setNwTtl v => cases t <;> rfl
  | setQueue q => cases t <;> rfl
  | group g => rfl
  | output n => rfl

/-- Conditions under which redundancy removal is sound: actions known; with a PUSH_MPLS and a POP_MPLS no action on MPLS TTLs; with a PUSH_PBB (which
copies the VLAN priority) and a POP_VLAN no PUSH_VLAN and no set-field of VLAN_PCP; copies are only sent at the end. -/
structure RedOK (s : List Action) : Prop where
  known : ∀ a ∈ s, a.known = true
  ttl : ∀ a ∈ s, ∀ c ∈ s, ∀ b ∈ s, a.pushes = some .mpls → c.pops = some .mpls → b.mplsTtl = false
  pcp : ∀ a ∈ s, ∀ c ∈ s, ∀ b ∈ s, a.isPushPbb = true → c.pops = some .vlan → b.pushes ≠ some .vlan ∧ b.setF ≠ some 7
  out : s.Pairwise fun a b => a.emits = true → b.emits = true

theorem RedOK.sublist {s t : List Action} (h : RedOK s) (ht : t.Sublist s) : RedOK t :=
  ⟨fun a ha => h.known a (ht.subset ha), fun a ha c hc b hb => h.ttl a (ht.subset ha) c (ht.subset hc) b (ht.subset hb),
    fun a ha c hc b hb => h.pcp a (ht.subset ha) c (ht.subset hc) b (ht.subset hb), h.out.sublist ht⟩

theorem scanPop_sublist {t : Tun} {xs ys : List Action} (h : scanPop t xs = some ys) :
    ys.Sublist xs ∧ ys.length < xs.length ∧ ∃ b ∈ xs, b.pops = some t := by
  induction xs generalizing ys with
  | nil => cases h
  | cons a xs ih =>
    unfold scanPop at h
    split at h
    · cases h
    split at h
    · rename_i hp
      injection h with h; subst h
      exact ⟨List.sublist_cons_self .., by simp, a, List.mem_cons_self, hp⟩
    have keep : ∀ zs, (scanPop t xs).map (a :: ·) = some zs → zs.Sublist (a :: xs) ∧ zs.length < (a :: xs).length ∧
        ∃ b ∈ a :: xs, b.pops = some t := by
      intro zs hz
      obtain ⟨ws, hw, rfl⟩ := Option.map_eq_some_iff.1 hz
      obtain ⟨h1, h2, b, hb, h3⟩ := ih hw
      exact ⟨h1.cons_cons a, by simp; omega, b, List.mem_cons_of_mem _ hb, h3⟩
    split at h
    · split at h
      · obtain ⟨h1, h2, b, hb, h3⟩ := ih h
        exact ⟨h1.cons a, by simp; omega, b, List.mem_cons_of_mem _ hb, h3⟩
      · exact keep _ h
    · exact keep _ h

theorem pops_not_emits {a : Action} {t : Tun} (h : a.pops = some t) : a.emits = false := by
  cases a <;> simp_all [Action.pops, Action.emits]

theorem scanPop_sound {t : Tun} {xs ys : List Action} (h : scanPop t xs = some ys) (hout : xs.Pairwise fun a b => a.emits = true → b.emits = true)
    (h3 : t = .mpls → ∀ a ∈ xs, a.mplsTtl = false) (h4 : t = .vlan → ∀ a ∈ xs, a.isPushPbb = false) (p : Pkt) :
    exec xs p = exec ys (popEff t p) := by
  induction xs generalizing ys p with
  | nil => cases h
  | cons a xs ih =>
    have hout' := List.pairwise_cons.1 hout
    have ih' := fun ys hy p => ih (ys := ys) hy hout'.2 (fun ht b hb => h3 ht b (List.mem_cons_of_mem _ hb))
      (fun ht b hb => h4 ht b (List.mem_cons_of_mem _ hb)) p
    have noemit : ∀ zs, scanPop t xs = some zs → emit a = fun _ => [] := by
      intro zs hz
      obtain ⟨_, _, b, hb, hbp⟩ := scanPop_sublist hz
      funext q
      apply emit_nil
      cases he : a.emits with
      | false => rfl
      | true => have := hout'.1 b hb he; rw [pops_not_emits hbp] at this; cases this
    unfold scanPop at h
    split at h
    · cases h
    rename_i hpush
    split at h
    · rename_i hp
      injection h with h; subst h
      simp only [exec]
      rw [act_pop hp, emit_nil (pops_not_emits hp)]; simp
    rename_i hpop
    have keep : (∀ f, a.setF = some f → f ∉ t.fields) → ∀ zs, (scanPop t xs).map (a :: ·) = some zs →
        exec (a :: xs) p = exec zs (popEff t p) := by
      intro hf zs hz
      obtain ⟨ws, hw, rfl⟩ := Option.map_eq_some_iff.1 hz
      simp only [exec]
      rw [ih' ws hw, noemit ws hw, popEff_comm hpush hf (fun ht => h3 ht a List.mem_cons_self) (fun ht => h4 ht a List.mem_cons_self)]
    split at h
    · rename_i f hset
      split at h
      · rename_i hf
        simp only [exec]
        rw [noemit ys h, ih' ys h]
        cases a <;> simp [Action.setF] at hset
        subst hset
        rw [popEff_set hf]; simp
      · rename_i hf
        exact keep (fun g hg => by rw [hset] at hg; injection hg with hg; subst hg; exact hf) _ h
    · rename_i hset
      exact keep (fun g hg => by rw [hset] at hg; cases hg) _ h

theorem pushes_not_emits {a : Action} {t : Tun} (h : a.pushes = some t) : a.emits = false := by
  cases a <;> simp_all [Action.pushes, Action.emits]

theorem pass1_spec {s s' : List Action} (h : pass1 s = some s') :
    s'.Sublist s ∧ s'.length < s.length ∧ (RedOK s → ∀ p, exec s p = exec s' p) := by
  induction s generalizing s' with
  | nil => cases h
  | cons a xs ih =>
    have keep : (pass1 xs).map (a :: ·) = some s' → s'.Sublist (a :: xs) ∧ s'.length < (a :: xs).length ∧
        (RedOK (a :: xs) → ∀ p, exec (a :: xs) p = exec s' p) := by
      intro hz
      obtain ⟨ws, hw, rfl⟩ := Option.map_eq_some_iff.1 hz
      obtain ⟨h1, h2, h3⟩ := ih hw
      refine ⟨h1.cons_cons a, by simp; omega, fun hok p => ?_⟩
      simp only [exec]
      rw [h3 (hok.sublist (List.sublist_cons_self ..))]
    unfold pass1 at h
    split at h
    · rename_i t ht
      split at h
      · rename_i ys hy
        injection h with h; subst h
        obtain ⟨h1, h2, c, hc, hcp⟩ := scanPop_sublist hy
        refine ⟨h1.cons a, by simp; omega, fun hok p => ?_⟩
        simp only [exec]
        rw [emit_nil (pushes_not_emits ht), scanPop_sound hy (List.pairwise_cons.1 hok.out).2 ?_ ?_, popEff_push ht]
        · simp
        · rintro rfl b hb
          exact hok.ttl a List.mem_cons_self c (List.mem_cons_of_mem _ hc) b (List.mem_cons_of_mem _ hb) ht hcp
        · rintro rfl b hb
          cases hb' : b.isPushPbb with
          | false => rfl
          | true => exact absurd ht (hok.pcp b (List.mem_cons_of_mem _ hb) c (List.mem_cons_of_mem _ hc) a List.mem_cons_self hb' hcp).1
      · exact keep h
    · exact keep h

/-- No push of a tunnel is followed by a pop of it. -/
def PopsFirst (s : List Action) : Prop := s.Pairwise fun a b => ∀ t, a.pushes = some t → b.pops ≠ some t

theorem scanPop_none {t : Tun} {xs : List Action} (h : scanPop t xs = none) (hp : PopsFirst xs) : ∀ b ∈ xs, b.pops ≠ some t := by
  induction xs with
  | nil => simp
  | cons a xs ih =>
    have hp' := List.pairwise_cons.1 hp
    unfold scanPop at h
    split at h
    · rename_i ha
      intro b hb
      rcases List.mem_cons.1 hb with rfl | hb
      · intro hbp; cases b <;> simp_all [Action.pushes, Action.pops]
      · exact hp'.1 b hb t ha
    split at h
    · cases h
    rename_i hpop
    have keep : scanPop t xs = none → ∀ b ∈ a :: xs, b.pops ≠ some t := by
      intro hn b hb
      rcases List.mem_cons.1 hb with rfl | hb
      · exact hpop
      · exact ih hn hp'.2 b hb
    split at h
    · split at h
      · exact keep h
      · exact keep (by simpa using h)
    · exact keep (by simpa using h)

theorem pass1_none {s : List Action} (h : pass1 s = none) : PopsFirst s := by
  induction s with
  | nil => exact .nil
  | cons a xs ih =>
    unfold pass1 at h
    split at h
    · rename_i t ht
      split at h
      · cases h
      rename_i hs
      have hp := ih (by simpa using h)
      refine List.pairwise_cons.2 ⟨fun b hb t' ht' => ?_, hp⟩
      rw [ht] at ht'; injection ht' with ht'; subst ht'
      exact scanPop_none hs hp b hb
    · rename_i ht
      have hp := ih (by simpa using h)
      exact List.pairwise_cons.2 ⟨fun b hb t' ht' => (by rw [ht] at ht'; cases ht'), hp⟩

theorem phase1_spec (n : Nat) (s : List Action) (hn : s.length ≤ n) :
    (phase1 n s).Sublist s ∧ PopsFirst (phase1 n s) ∧ (RedOK s → ∀ p, exec s p = exec (phase1 n s) p) := by
  induction n generalizing s with
  | zero =>
    have : s = [] := List.length_eq_zero_iff.1 (by omega)
    subst this
    exact ⟨.refl _, .nil, fun _ _ => rfl⟩
  | succ n ih =>
    unfold phase1
    cases h : pass1 s with
    | none => exact ⟨.refl _, pass1_none h, fun _ _ => rfl⟩
    | some s' =>
      obtain ⟨h1, h2, h3⟩ := pass1_spec h
      obtain ⟨i1, i2, i3⟩ := ih s' (by omega)
      exact ⟨i1.trans h1, i2, fun hok p => (h3 hok p).trans (i3 (hok.sublist h1) p)⟩

/-! ## Phase 2 -/

theorem phase2_sublist (s : List Action) : (phase2 s).2.Sublist s := by
  induction s with
  | nil => exact .refl _
  | cons a xs ih =>
    unfold phase2
    split
    · exact ih.cons_cons a
    · split
      · split
        · exact ih.cons a
        · exact ih.cons_cons a
      · exact ih.cons_cons a

theorem phase2_popped {s : List Action} {f : Nat} : f ∈ (phase2 s).1 ↔ ∃ t, f ∈ t.fields ∧ ∃ b ∈ s, b.pops = some t := by
  induction s with
  | nil => simp [phase2]
  | cons a xs ih =>
    have other : a.pops = none → (f ∈ (phase2 xs).1 ↔ ∃ t, f ∈ t.fields ∧ ∃ b ∈ a :: xs, b.pops = some t) := by
      intro ha
      rw [ih]
      constructor
      · rintro ⟨t, h1, b, h2, h3⟩; exact ⟨t, h1, b, List.mem_cons_of_mem _ h2, h3⟩
      · rintro ⟨t, h1, b, h2, h3⟩
        rcases List.mem_cons.1 h2 with rfl | h2
        · rw [ha] at h3; cases h3
        · exact ⟨t, h1, b, h2, h3⟩
    unfold phase2
    split
    · rename_i t ht
      simp only [List.mem_append]
      rw [ih]
      constructor
      · rintro (⟨t', h1, b, h2, h3⟩ | h)
        · exact ⟨t', h1, b, List.mem_cons_of_mem _ h2, h3⟩
        · exact ⟨t, h, a, List.mem_cons_self, ht⟩
      · rintro ⟨t', h1, b, h2, h3⟩
        rcases List.mem_cons.1 h2 with rfl | h2
        · rw [ht] at h3; injection h3 with h3; subst h3; exact .inr h1
        · exact .inl ⟨t', h1, b, h2, h3⟩
    · rename_i ha
      split
      · split <;> exact other ha
      · exact other ha

theorem depends_set_false {f v : Nat} {t : Tun} (hf : f ∈ t.fields) {a : Action} (hk : a.known = true) (he : a.emits = false)
    (h1 : a.pushes ≠ some t) (h2 : a.pops ≠ some t) (h3 : a.setF ≠ some f) (h4 : f = 7 → a.isPushPbb = false) :
    depends (.setField f v) a = .ok false := by
  have hcases : f = 6 ∨ f = 7 ∨ f = 34 ∨ f = 35 ∨ f = 36 ∨ f = 3 ∨ f = 4 ∨ f = 37 := by
    cases t <;> simp [Tun.fields] at hf <;> omega
  have e : depends (.setField f v) a = depends (.setField f 0) a := rfl
  rw [e]
  cases a with
  | setField g w =>
    have hg : g < 40 := by simpa [Action.known] using hk
    have hne : g ≠ f := fun hh => h3 (by simp [Action.setF, hh])
    have e2 : depends (.setField f 0) (.setField g w) = depends (.setField f 0) (.setField g 0) := rfl
    rw [e2]
    have : ∀ f ∈ [6, 7, 34, 35, 36, 3, 4, 37], ∀ g, g < 40 → g ≠ f →
      depends (.setField f 0) (.setField g 0) = .ok false := by decide +kernel
    exact this f (by simp; omega) g hg hne
  | output n => simp [Action.emits] at he
  | group n => simp [Action.emits] at he
  | _ =>
    cases t <;> simp [Tun.fields] at hf <;> simp [Action.pushes, Action.pops, Action.isPushPbb] at h1 h2 h4 <;>
    (rcases hf with rfl | rfl | rfl) <;> first
      | rfl
      | (simp at h4)

/-- Setting a field of a header that is popped before being looked at has no effect. -/
theorem set_popped {f v : Nat} {t : Tun} (hf : f ∈ t.fields) {xs : List Action} (hok : RedOK (.setField f v :: xs))
    (hp : PopsFirst xs) (hpop : ∃ b ∈ xs, b.pops = some t) (p : Pkt) : exec xs (act (.setField f v) p) = exec xs p := by
  induction xs generalizing p with
  | nil => simp at hpop
  | cons a xs ih =>
    have hout' := List.pairwise_cons.1 hok.out
    have houta := List.pairwise_cons.1 hout'.2
    have hp' := List.pairwise_cons.1 hp
    simp only [exec]
    by_cases hap : a.pops = some t
    · rw [act_pop hap, act_pop hap, popEff_set hf, emit_nil (pops_not_emits hap), emit_nil (pops_not_emits hap)]
    · have hpop' : ∃ b ∈ xs, b.pops = some t := by
        obtain ⟨b, hb, hbp⟩ := hpop
        rcases List.mem_cons.1 hb with rfl | hb
        · exact absurd hbp hap
        · exact ⟨b, hb, hbp⟩
      have hapush : a.pushes ≠ some t := by
        intro h
        obtain ⟨b, hb, hbp⟩ := hpop'
        exact hp'.1 b hb t h hbp
      have hae : a.emits = false := by
        obtain ⟨b, hb, hbp⟩ := hpop'
        cases he : a.emits with
        | false => rfl
        | true => have := houta.1 b hb he; rw [pops_not_emits hbp] at this; cases this
      rw [emit_nil hae, emit_nil hae]
      by_cases hs : a.setF = some f
      · have : ∃ w, a = .setField f w := by cases a <;> simp [Action.setF] at hs; subst hs; exact ⟨_, rfl⟩
        obtain ⟨w, rfl⟩ := this
        have : act (.setField f w) (act (.setField f v) p) = act (.setField f w) p := by
          simp only [act]; congr 1; funext g d; split <;> rfl
        rw [this]
      · have hd : depends (.setField f v) a = .ok false := by
          refine depends_set_false hf (hok.known a (by simp)) hae hapush hap hs ?_
          rintro rfl
          cases hb' : a.isPushPbb with
          | false => rfl
          | true =>
            obtain ⟨c, hc, hcp⟩ := hpop'
            have ht : t = .vlan := by cases t <;> simp [Tun.fields] at hf ⊢
            subst ht
            exact absurd rfl (hok.pcp a (by simp) c (by simp [hc]) _ List.mem_cons_self hb' hcp).2
        rw [← set_comm f v a hd]
        have hok' : RedOK (.setField f v :: xs) := hok.sublist (List.Sublist.cons_cons _ (List.sublist_cons_self ..))
        rw [ih hok' hp'.2 hpop']

theorem phase2_sound {s : List Action} (hok : RedOK s) (hp : PopsFirst s) (p : Pkt) : exec s p = exec (phase2 s).2 p := by
  induction s generalizing p with
  | nil => rfl
  | cons a xs ih =>
    have hok' := hok.sublist (List.sublist_cons_self a xs)
    have hp' := (List.pairwise_cons.1 hp).2
    have keep : exec (a :: xs) p = exec (a :: (phase2 xs).2) p := by
      simp only [exec]; rw [ih hok' hp']
    unfold phase2
    split
    · exact keep
    · split
      · rename_i f hf
        split
        · rename_i hm
          obtain ⟨t, ht, hb⟩ := phase2_popped.1 hm
          have : ∃ v, a = .setField f v := by cases a <;> simp [Action.setF] at hf; subst hf; exact ⟨_, rfl⟩
          obtain ⟨v, rfl⟩ := this
          rw [← ih hok' hp' p]
          show (((exec xs (act (.setField f v) p)).1, [] ++ (exec xs (act (.setField f v) p)).2)) = _
          rw [set_popped ht hok hp' hb]; simp
        · exact keep
      · exact keep

/-! ## Phase 3 -/

theorem overwritten_sound {f v : Nat} {xs : List Action} (h : overwritten (.setField f v) f xs = .ok true) (p : Pkt) :
    exec xs (act (.setField f v) p) = exec xs p := by
  induction xs generalizing p with
  | nil => cases h
  | cons a xs ih =>
    unfold overwritten at h
    split at h
    · rename_i hs
      have : ∃ w, a = .setField f w := by cases a <;> simp [Action.setF] at hs; subst hs; exact ⟨_, rfl⟩
      obtain ⟨w, rfl⟩ := this
      have : act (.setField f w) (act (.setField f v) p) = act (.setField f w) p := by
        simp only [act]; congr 1; funext g d; split <;> rfl
      simp only [exec, this]; rfl
    · split at h
      · cases h
      · cases h
      · rename_i hd
        have he : ∀ q, emit a q = [] := by
          intro q
          apply emit_nil
          cases hb : a.emits with
          | false => rfl
          | true =>
            exfalso
            have hk := depends_ok_known hd
            have : dependsB (.setField f v) a = true := by
              have h1 : ∃ x, x = a ∧ x.emits = true := ⟨a, rfl, hb⟩
              have hs := actionDeps_isSome (.setField f v)
              rw [hk.1] at hs
              obtain ⟨d, hd'⟩ := Option.isSome_iff_exists.1 hs
              cases a <;> simp [Action.emits] at hb <;> (unfold dependsB depends; rw [hd']; rfl)
            rw [dependsB, hd] at this; cases this
        simp only [exec, he]
        rw [← set_comm f v a hd, ih h]

theorem overwritten_known {f v : Nat} {xs : List Action} (hf : f < 40) (hk : AllKnown xs) :
    ∃ b, overwritten (.setField f v) f xs = .ok b := by
  induction xs with
  | nil => exact ⟨_, rfl⟩
  | cons a xs ih =>
    unfold overwritten
    split
    · exact ⟨_, rfl⟩
    · rw [depends_known (by simpa [Action.known] using hf) (hk a List.mem_cons_self)]
      cases dependsB (.setField f v) a
      · exact ih fun x hx => hk x (List.mem_cons_of_mem _ hx)
      · exact ⟨_, rfl⟩

theorem phase3_spec {s : List Action} (hk : AllKnown s) : ∃ s', phase3 s = .ok s' ∧ s'.Sublist s ∧ ∀ p, exec s p = exec s' p := by
  induction s with
  | nil => exact ⟨[], rfl, .refl _, fun _ => rfl⟩
  | cons a xs ih =>
    have hk' : AllKnown xs := fun x hx => hk x (List.mem_cons_of_mem _ hx)
    obtain ⟨ys, h1, h2, h3⟩ := ih hk'
    have keep : ∀ p, exec (a :: xs) p = exec (a :: ys) p := by intro p; simp only [exec, h3]
    unfold phase3
    split
    · rw [h1]; exact ⟨_, rfl, h2.cons_cons a, keep⟩
    · rename_i f hf
      have : ∃ v, a = .setField f v := by cases a <;> simp [Action.setF] at hf; subst hf; exact ⟨_, rfl⟩
      obtain ⟨v, rfl⟩ := this
      obtain ⟨b, hb⟩ := overwritten_known (v := v) (by simpa [Action.known] using hk _ List.mem_cons_self) hk'
      rw [hb, h1]
      refine ⟨_, rfl, ?_⟩
      cases b
      · exact ⟨h2.cons_cons _, keep⟩
      · refine ⟨h2.cons _, fun p => ?_⟩
        show ((exec xs (act (.setField f v) p)).1, [] ++ (exec xs (act (.setField f v) p)).2) = _
        rw [overwritten_sound hb, List.nil_append]; exact h3 p

/-- Under the conditions, redundancy removal succeeds and leaves the effect of the iteration unchanged. -/
theorem removeRedundant_ok {l : ActionList} (hok : RedOK l.iter) :
    ∃ s l', l.removeRedundant = .ok l' ∧ ActionList.ofList s = .ok l' ∧ s.Sublist l.iter ∧ SameEffect l'.iter l.iter := by
  obtain ⟨h1, h2, h3⟩ := phase1_spec l.iter.length l.iter (Nat.le_refl _)
  have hok1 := hok.sublist h1
  have h4 := phase2_sublist (phase1 l.iter.length l.iter)
  have hok2 := hok1.sublist h4
  obtain ⟨s', h5, h6, h7⟩ := phase3_spec hok2.known
  have hk : AllKnown s' := fun x hx => hok2.known x (h6.subset hx)
  have h8 := ofList_known hk
  refine ⟨s', mkList s', ?_, h8, h6.trans (h4.trans h1), fun p => ?_⟩
  · unfold ActionList.removeRedundant ActionList.replace
    simp only [h5]
    exact h8
  · have he : exec l.iter p = exec s' p := by
      rw [h3 hok p, phase2_sound hok1 h2 p, h7 p]
    have := C56_canonical_effect s' _ h8 p
    rw [he]; exact this

theorem depends_out {a b : Action} (ha : a.emits = true) (hb : b.emits = false) (hk : b.known = true) : depends a b = .ok true := by
  have hka : a.known = true := by cases a <;> simp_all [Action.emits, Action.known]
  rw [depends_known hka hk]
  cases h : dependsB a b with
  | true => rfl
  | false =>
    exfalso
    cases a <;> simp [Action.emits] at ha
    · cases b <;> first
        | (simp [Action.emits] at hb; done)
        | (revert h; simp [dependsB, depends, Action.toType, Action.ty, actionDeps, setAll, List.range, List.range.loop]; done)
        | skip
      rename_i f v
      have hs := actionDeps_isSome (.setField f v)
      rw [hk] at hs
      obtain ⟨d, hd'⟩ := Option.isSome_iff_exists.1 hs
      unfold dependsB depends at h
      rw [hd'] at h
      revert h; simp [Action.toType, Action.ty, actionDeps, setAll, List.range, List.range.loop, Action.isSet]
    · cases b <;> first
        | (simp [Action.emits] at hb; done)
        | (revert h; simp [dependsB, depends, Action.toType, Action.ty, actionDeps, setAll, List.range, List.range.loop]; done)
        | skip
      rename_i f v
      have hs := actionDeps_isSome (.setField f v)
      rw [hk] at hs
      obtain ⟨d, hd'⟩ := Option.isSome_iff_exists.1 hs
      unfold dependsB depends at h
      rw [hd'] at h
      revert h; simp [Action.toType, Action.ty, actionDeps, setAll, List.range, List.range.loop, Action.isSet]

/-- The conditions do not depend on the order of independent actions. -/
theorem redOK_iter {s : List Action} (hok : RedOK s) : RedOK (mkList s).iter := by
  have ht := mkList_iter_trace s
  have hm : ∀ x, x ∈ (mkList s).iter → x ∈ s := fun x hx => ht.perm.mem_iff.2 hx
  refine ⟨fun a ha => hok.known a (hm a ha), fun a ha c hc b hb => hok.ttl a (hm a ha) c (hm c hc) b (hm b hb),
    fun a ha c hc b hb => hok.pcp a (hm a ha) c (hm c hc) b (hm b hb), ?_⟩
  rw [List.pairwise_iff_forall_sublist]
  intro a b hab hae
  cases hbe : b.emits with
  | true => rfl
  | false =>
    exfalso
    have hbm : b ∈ s := hm b (hab.subset (by simp))
    have hd := depends_out hae hbe (hok.known b hbm)
    have hf := ht.filter_pair dependsB_symm a b (by simp [dependsB, hd])
    have h1 : [a, b].Sublist ((mkList s).iter.filter fun z => decide (z = a ∨ z = b)) := by
      have := hab.filter fun z => decide (z = a ∨ z = b)
      simpa using this
    rw [← hf] at h1
    have h2 : [a, b].Sublist s := h1.trans List.filter_sublist
    have := (List.pairwise_iff_forall_sublist.1 hok.out) h2 hae
    rw [hbe] at this; cases this

end

end OFE
