import Verif.Deps.PathSpec
import Verif.Deps.IndirectLemmas

/-! # Lemmas: the recursion over the tables -/

namespace OFE
namespace Deps
variable {π : Type}

/-- Two packets show the same header bits. -/
def HdrEq (p q : Pkt) : Prop := ∀ g i, i < width g → p.hdr.bit g i = q.hdr.bit g i

theorem HdrEq.accepts {p q : Pkt} (h : HdrEq p q) {m : Match} (hm : m.Inv) : m.accepts p ↔ m.accepts q := matches_congr hm.nodup h

theorem HdrEq.forward {p q : Pkt} (h : HdrEq p q) {i : Inst} (hf : FlatOK i.apply.iter) : HdrEq (i.forward p) (i.forward q) := by
  intro g k hk
  rw [forward_bit hf p hk, forward_bit hf q hk, h g k hk]

theorem Path.congr {rs : List (URule π)} (hr : GotoOK rs) {t : Nat} {p : Pkt} {l : List (URule π)} (hp : Path rs t p l) :
    ∀ {q : Pkt}, HdrEq p q → Path rs t q l := by
  induction hp with
  | here h1 h2 h3 => exact fun he => .here h1 h2 ((he.accepts (hr.ok _ h1).inv).1 h3)
  | next h1 h2 h3 h4 _ ih =>
    exact fun he => .next h1 h2 ((he.accepts (hr.ok _ h1).inv).1 h3) h4 (ih (he.forward (flatOK_of (hr.ok _ h1) (hr.flat _ h1))))

/-- The ingress admits the packet. -/
def Admits (mat : Option Match) (p : Pkt) : Prop := ∀ m, mat = some m → m.accepts p

/-- A usable ingress. -/
def IngressOK (mat : Option Match) : Prop := ∀ m, mat = some m → m.Inv ∧ ∀ x ∈ m.items, x.1 < 40

/-- The simulated egress without ingress is the exact image. -/
theorem egress_image {r : Rule π} (hi : r.mat.Inv) (hk : ∀ x ∈ r.mat.items, x.1 < 40) (hf : FlatOK r.inst.apply.iter) :
    ∃ e, gotoEgress r none = .ok e ∧ e.Inv ∧ (∀ x ∈ e.items, x.1 < 40) ∧ (∀ p, r.mat.accepts p → e.accepts (r.inst.forward p)) ∧
      ∀ q, e.accepts q → ∃ p, r.mat.accepts p ∧ HdrEq (r.inst.forward p) q := by
  obtain ⟨sim, rw', e, hs⟩ := simEgress_ok hi hk hf
  refine ⟨sim, by simp only [gotoEgress, e, bind, Except.bind, pure, Except.pure], hs.inv, hs.keys, fun p hp => ?_, fun q hq => ?_⟩
  · unfold Match.accepts at hp ⊢
    rw [matchesAll_iff hs.inv.nodup]
    rw [matchesAll_iff hi.nodup] at hp
    intro g k c hgk hc
    rw [hs.req g k hgk] at hc
    rw [forward_bit hf p hgk]
    cases hrw : rwBit r.inst g k with
    | some d => rw [hrw] at hc; simpa using hc
    | none =>
      rw [hrw, Option.none_or] at hc
      exact hp g k c hgk hc
  · obtain ⟨p, hp⟩ := exists_pkt (Packet.build fun g k => (req r.mat.items g k).getD (q.hdr.bit g k))
    refine ⟨p, (matches_congr hi.nodup hp).2 (matches_build hi.nodup _), fun g k hgk => ?_⟩
    rw [forward_bit hf p hgk, hp g k hgk, build_bit (field_lt hgk) hgk]
    unfold Match.accepts at hq
    rw [matchesAll_iff hs.inv.nodup] at hq
    have hreq := hs.req g k hgk
    cases hrw : rwBit r.inst g k with
    | some d =>
      rw [hrw, Option.some_or] at hreq
      exact (hq g k d hgk hreq).symm
    | none =>
      rw [hrw, Option.none_or] at hreq
      cases hm : req r.mat.items g k with
      | none => rfl
      | some d =>
        rw [hm] at hreq
        exact (hq g k d hgk hreq).symm

/-- With an ingress: fails exactly if no packet of the ingress matches, and otherwise is the exact image. -/
theorem egress_ingress {r : Rule π} (hr : RuleOK r) (hf : FlatActs r.inst.apply.iter) {mat : Option Match} (hm : IngressOK mat) :
    (∃ e, gotoEgress r mat = .ok e ∧ e.Inv ∧ (∀ x ∈ e.items, x.1 < 40) ∧
      (∃ p, Admits mat p ∧ r.mat.accepts p) ∧
      (∀ p, Admits mat p → r.mat.accepts p → e.accepts (r.inst.forward p)) ∧
      ∀ q, e.accepts q → ∃ p, Admits mat p ∧ r.mat.accepts p ∧ HdrEq (r.inst.forward p) q) ∨
    ((∃ e, gotoEgress r mat = .error e) ∧ ∀ p, Admits mat p → ¬ r.mat.accepts p) := by
  have hfo := flatOK_of hr hf
  have sat : ∃ p, r.mat.accepts p := by
    obtain ⟨p, hp⟩ := exists_pkt (Packet.build fun g k => (req r.mat.items g k).getD false)
    exact ⟨p, (matches_congr hr.inv.nodup hp).2 (matches_build hr.inv.nodup _)⟩
  cases mat with
  | none =>
    obtain ⟨e, h1, h2, h3, h4, h5⟩ := egress_image hr.inv hr.keys hfo
    have hA : ∀ p, Admits none p := fun p m h => by cases h
    refine .inl ⟨e, h1, h2, h3, ?_, fun p _ => h4 p, fun q hq => ?_⟩
    · obtain ⟨p, hp⟩ := sat; exact ⟨p, hA p, hp⟩
    · obtain ⟨p, h, h'⟩ := h5 q hq; exact ⟨p, hA p, h, h'⟩
  | some m =>
    obtain ⟨hmi, hmk⟩ := hm m rfl
    have hA : ∀ p, Admits (some m) p ↔ m.accepts p := fun p => ⟨fun h => h m rfl, fun h m' e => by cases e; exact h⟩
    by_cases hemp : m.items.isEmpty = true
    · have hg : gotoEgress r (some m) = gotoEgress r none := by simp [gotoEgress, simEgress, hemp]
      have hall : ∀ p, m.accepts p := by
        intro p x hx
        rw [List.isEmpty_iff.1 hemp] at hx; cases hx
      obtain ⟨e, h1, h2, h3, h4, h5⟩ := egress_image hr.inv hr.keys hfo
      refine .inl ⟨e, by rw [hg]; exact h1, h2, h3, ?_, fun p _ => h4 p, fun q hq => ?_⟩
      · obtain ⟨p, hp⟩ := sat; exact ⟨p, (hA p).2 (hall p), hp⟩
      · obtain ⟨p, h, h'⟩ := h5 q hq; exact ⟨p, (hA p).2 (hall p), h, h'⟩
    · by_cases hov : ∃ p, MatchesAll r.mat.items p ∧ MatchesAll m.items p
      · obtain ⟨i, ei, hii, hni, hi⟩ := C16_intersection r.mat m hr.inv hmi (lt56 hr.keys) (lt56 hmk) hov
        have hki := inter_keys hr.inv hmi hr.keys hmk hii hni hi hov
        have hg : gotoEgress r (some m) = gotoEgress { r with mat := i } none := by
          simp [gotoEgress, simEgress, hemp, ei, bind, Except.bind]
        have hia : ∀ p : Pkt, i.accepts p ↔ r.mat.accepts p ∧ m.accepts p := fun p => hi p.hdr
        obtain ⟨e, h1, h2, h3, h4, h5⟩ := egress_image (r := { r with mat := i }) hii hki hfo
        refine .inl ⟨e, by rw [hg]; exact h1, h2, h3, ?_, fun p ha hp => h4 p ((hia p).2 ⟨hp, (hA p).1 ha⟩), fun q hq => ?_⟩
        · obtain ⟨p0, hp0⟩ := hov
          obtain ⟨p, hp⟩ := exists_pkt p0
          exact ⟨p, (hA p).2 ((matches_congr hmi.nodup hp).2 hp0.2), (matches_congr hr.inv.nodup hp).2 hp0.1⟩
        · obtain ⟨p, h, h'⟩ := h5 q hq
          exact ⟨p, (hA p).2 ((hia p).1 h).2, ((hia p).1 h).1, h'⟩
      · refine .inr ⟨⟨.keyError, ?_⟩, fun p ha hp => hov ⟨p.hdr, hp, (hA p).1 ha⟩⟩
        have := C16_intersection_disjoint r.mat m hr.inv hmi (lt56 hr.keys) (lt56 hmk) hov
        simp [gotoEgress, simEgress, hemp, this, bind, Except.bind]

/-! ### Tables -/

theorem lookup_group_aux (l : List (URule π)) (t : Nat) : ∀ d : List (Nat × List (URule π)),
    ((l.foldl (fun d r => dictSet r.2.table ((d.lookup r.2.table).getD [] ++ [r]) d) d).lookup t).getD [] =
      (d.lookup t).getD [] ++ l.filter (fun r => r.2.table == t) ∧
    (((l.foldl (fun d r => dictSet r.2.table ((d.lookup r.2.table).getD [] ++ [r]) d) d).lookup t).isSome =
      ((d.lookup t).isSome || l.any fun r => r.2.table == t)) := by
  induction l with
  | nil => intro d; simp
  | cons r l ih =>
    intro d
    rw [List.foldl_cons]
    obtain ⟨h1, h2⟩ := ih (dictSet r.2.table ((d.lookup r.2.table).getD [] ++ [r]) d)
    rw [h1, h2, lookup_dictSet]
    by_cases h : t = r.2.table
    · subst h
      simp
    · have h' : (r.2.table == t) = false := by simpa using fun e => h e.symm
      simp [h, h']

theorem lookup_group (rs : List (URule π)) (t : Nat) : ((groupTables rs).lookup t).getD [] = rs.filter (fun r => r.2.table == t) := by
  have := (lookup_group_aux rs t []).1
  simpa [groupTables] using this

theorem group_isSome (rs : List (URule π)) (t : Nat) : ((groupTables rs).lookup t).isSome = rs.any fun r => r.2.table == t := by
  have := (lookup_group_aux rs t []).2
  simpa [groupTables] using this

theorem group_nodup (rs : List (URule π)) : ((groupTables rs).map (·.1)).Nodup := by
  unfold groupTables
  have : ∀ (l : List (URule π)) (d : List (Nat × List (URule π))), (d.map (·.1)).Nodup →
      ((l.foldl (fun d r => dictSet r.2.table ((d.lookup r.2.table).getD [] ++ [r]) d) d).map (·.1)).Nodup := by
    intro l
    induction l with
    | nil => exact fun d h => h
    | cons r l ih => exact fun d h => ih _ (nodup_dictSet _ _ h)
  exact this rs [] (by simp)

theorem mem_group {rs : List (URule π)} {t : Nat} {l : List (URule π)} (h : (t, l) ∈ groupTables rs) :
    l = rs.filter (fun r => r.2.table == t) ∧ ∃ r ∈ rs, r.2.table = t := by
  have hl := lookup_eq_some_of_mem (group_nodup rs) h
  refine ⟨by have := lookup_group rs t; rw [hl] at this; exact this, ?_⟩
  have := group_isSome rs t
  rw [hl] at this
  have h2 : rs.any (fun r => r.2.table == t) = true := this.symm
  simpa using h2

theorem group_of_rule {rs : List (URule π)} {r : URule π} (h : r ∈ rs) :
    (r.2.table, rs.filter (fun s => s.2.table == r.2.table)) ∈ groupTables rs := by
  have h1 := group_isSome rs r.2.table
  have h2 := lookup_group rs r.2.table
  cases hl : (groupTables rs).lookup r.2.table with
  | none =>
    rw [hl] at h1
    have : rs.any (fun s => s.2.table == r.2.table) = true := List.any_eq_true.2 ⟨r, h, by simp⟩
    rw [this] at h1; cases h1
  | some l =>
    rw [hl] at h2
    rw [← h2]
    exact mem_of_lookup_eq_some hl

/-! ### The recursion -/

theorem mem_addAll {parents : List Nat} {b : Nat} {es : List (Nat × Nat)} {e : Nat × Nat} :
    e ∈ addAll parents b es ↔ e ∈ es ∨ (e.1 ∈ parents ∧ e.2 = b) := by
  unfold addAll
  have := mem_foldl_setAdd (fun _ : Nat => True) (fun a => (a, b)) parents es e
  simp only [if_true, true_and] at this
  rw [this]
  refine or_congr_right ⟨?_, ?_⟩
  · rintro ⟨x, hx, rfl⟩; exact ⟨hx, rfl⟩
  · rintro ⟨hx, h⟩; exact ⟨e.1, hx, by rw [← h]⟩

/-- The pairs that a way of a packet from table `t` on gives, after the rules `parents`. -/
def Reach (rs : List (URule π)) (t : Nat) (mat : Option Match) (parents : List Nat) (e : Nat × Nat) : Prop :=
  ∃ p l, Admits mat p ∧ Path rs t p l ∧ ((e.1 ∈ parents ∧ e.2 ∈ l.map (·.1)) ∨ [e.1, e.2].Sublist (l.map (·.1)))

/-- The part of `Reach` that begins with a certain rule. -/
def ReachBy (rs : List (URule π)) (t : Nat) (mat : Option Match) (parents : List Nat) (r : URule π) (e : Nat × Nat) : Prop :=
  ∃ p l, Admits mat p ∧ Path rs t p (r :: l) ∧ ((e.1 ∈ parents ∧ e.2 ∈ (r :: l).map (·.1)) ∨ [e.1, e.2].Sublist ((r :: l).map (·.1)))

theorem reach_iff {rs : List (URule π)} {t : Nat} {mat : Option Match} {parents : List Nat} {e : Nat × Nat} :
    Reach rs t mat parents e ↔ ∃ r ∈ rs.filter (fun r => r.2.table == t), ReachBy rs t mat parents r e := by
  constructor
  · rintro ⟨p, l, h1, h2, h3⟩
    cases h2 with
    | here a b c => exact ⟨_, by simp [a, b], p, [], h1, .here a b c, h3⟩
    | next a b c d e => exact ⟨_, by simp [a, b], p, _, h1, .next a b c d e, h3⟩
  · rintro ⟨r, -, p, l, h1, h2, h3⟩
    exact ⟨p, r :: l, h1, h2, h3⟩

theorem Path.ne_nil {rs : List (URule π)} {t : Nat} {p : Pkt} {l : List (URule π)} (h : Path rs t p l) : l ≠ [] := by cases h <;> simp

theorem recurseGoto_spec {rs : List (URule π)} (hr : GotoOK rs) (depth : Nat) : ∀ (t : Nat) (mat : Option Match) (parents : List Nat)
    (es : List (Nat × Nat)), IngressOK mat → (∃ r ∈ rs, r.2.table = t) → (∀ r ∈ rs, r.2.table < t + depth) →
    ∃ st, recurseGoto (groupTables rs) depth t mat parents (false, es) = .ok st ∧ st.1 = false ∧
      ∀ e, e ∈ st.2 ↔ e ∈ es ∨ Reach rs t mat parents e := by
  induction depth with
  | zero =>
    rintro t mat parents es - ⟨r, hr1, hr2⟩ hd
    exact absurd (hd r hr1) (by omega)
  | succ depth ih =>
    intro t mat parents es hm ht hd
    have hsome : ((groupTables rs).lookup t).isNone = false := by
      have := group_isSome rs t
      rw [List.any_eq_true.2 (by obtain ⟨r, h1, h2⟩ := ht; exact ⟨r, h1, by simp [h2]⟩)] at this
      simpa using Option.ne_none_iff_isSome.2 this
    rw [recurseGoto, lookup_group, hsome]
    refine Exists.imp (fun st h => ⟨h.1, h.2.1, fun e => by rw [h.2.2, reach_iff]⟩)
      (foldlM_adds (fun (s : Bool × List (Nat × Nat)) e => e ∈ s.2) (fun s => s.1 = false)
        (ReachBy rs t mat parents) (rs.filter fun r => r.2.table == t) ?_ (false, es) rfl)
    · rintro r hrm ⟨fl, s⟩ hfl
      simp only at hfl
      subst hfl
      obtain ⟨hrs, hrt⟩ : r ∈ rs ∧ r.2.table = t := by simpa using hrm
      have hok := hr.ok r hrs
      have hin : ∀ {l : List (URule π)} {e : Nat × Nat}, [e.1, e.2].Sublist ((r :: l).map (·.1)) ↔
          [e.1, e.2].Sublist (l.map (·.1)) ∨ (e.1 = r.1 ∧ e.2 ∈ l.map (·.1)) := by
        intro l e
        rw [List.map_cons, List.sublist_cons_iff]
        refine or_congr_right ⟨?_, ?_⟩
        · rintro ⟨x, hx, hs⟩
          simp only [List.cons.injEq] at hx
          obtain ⟨h1, rfl⟩ := hx
          exact ⟨h1, List.singleton_sublist.1 hs⟩
        · rintro ⟨h1, h2⟩
          exact ⟨[e.2], by rw [h1], List.singleton_sublist.2 h2⟩
      cases hg : r.2.inst.goto with
      | none =>
        -- the last rule of a way
        have hby : ∀ e, ReachBy rs t mat parents r e ↔ (e.1 ∈ parents ∧ e.2 = r.1) ∧ ∃ p, Admits mat p ∧ r.2.mat.accepts p := by
          intro e
          constructor
          · rintro ⟨p, l, ha, hp, h⟩
            cases hp with
            | here _ _ hacc =>
              refine ⟨?_, p, ha, hacc⟩
              rcases h with h | h
              · simpa using h
              · rw [hin] at h; simp at h
            | next _ _ _ hg' _ => rw [hg] at hg'; cases hg'
          · rintro ⟨⟨h1, h2⟩, p, ha, hacc⟩
            exact ⟨p, [], ha, .here hrs hrt hacc, .inl ⟨h1, by simp [h2]⟩⟩
        have hyes : (∃ p, Admits mat p ∧ r.2.mat.accepts p) → ∀ e, e ∈ addAll parents r.1 s ↔ e ∈ s ∨ ReachBy rs t mat parents r e := by
          intro hex e
          rw [mem_addAll, hby, and_iff_left hex]
        cases hmat : mat with
        | none =>
          subst hmat
          refine ⟨_, rfl, rfl, hyes ?_⟩
          obtain ⟨p, hp⟩ := exists_pkt (Packet.build fun g k => (req r.2.mat.items g k).getD false)
          exact ⟨p, fun m h => (by cases h), (matches_congr hok.inv.nodup hp).2 (matches_build hok.inv.nodup _)⟩
        | some m =>
          subst hmat
          obtain ⟨hmi, hmk⟩ := hm m rfl
          obtain ⟨wa, ma, ea, -, ca⟩ := getWildcard_spec hmi (lt56 hmk)
          obtain ⟨wb, mb, eb, -, cb⟩ := getWildcard_spec hok.inv (lt56 hok.keys)
          have hiff : wcIntersect totBits wa wb ≠ 0 ↔ ∃ p, Admits (some m) p ∧ r.2.mat.accepts p := by
            rw [Ne, wcIntersect_eq_zero (by decide), not_not]
            constructor
            · rintro ⟨p0, h1, h2⟩
              obtain ⟨p, hp⟩ := exists_pkt p0
              exact ⟨p, fun m' e => by cases e; exact (matches_congr hmi.nodup hp).2 ((ca p0).1 h1),
                (matches_congr hok.inv.nodup hp).2 ((cb p0).1 h2)⟩
            · rintro ⟨p, h1, h2⟩
              exact ⟨p.hdr, (ca _).2 (h1 m rfl), (cb _).2 h2⟩
          simp only [ea, eb, bind, Except.bind, pure, Except.pure]
          by_cases h0 : wcIntersect totBits wa wb = 0
          · refine ⟨(false, s), by rw [if_pos h0], rfl, fun e => ?_⟩
            rw [hby]
            have : ¬ ∃ p, Admits (some m) p ∧ r.2.mat.accepts p := fun h => hiff.2 h h0
            simp [this]
          · exact ⟨(false, addAll parents r.1 s), by rw [if_neg h0], rfl, hyes (hiff.1 h0)⟩
      | some next =>
        obtain ⟨hlt, hnext⟩ := hr.goto r hrs next hg
        rw [hrt] at hlt
        rcases egress_ingress hok (hr.flat r hrs) hm with ⟨eg, e1, e2, e3, e4, e5, e6⟩ | ⟨⟨er, e1⟩, e2⟩
        · obtain ⟨st, s1, s2, s3⟩ := ih next (some eg) (parents ++ [r.1]) (addAll parents r.1 s)
            (fun m h => by cases h; exact ⟨e2, e3⟩) hnext (fun x hx => by have := hd x hx; omega)
          refine ⟨st, ?_, s2, fun e => ?_⟩
          · simp only [e1]
            rw [if_pos (by omega), if_pos hlt]
            exact s1
          · rw [s3, mem_addAll, or_assoc]
            refine or_congr_right ?_
            constructor
            · rintro (⟨h1, h2⟩ | ⟨q, l, hq, hpath, h⟩)
              · obtain ⟨p, ha, hacc⟩ := e4
                exact ⟨p, [], ha, .here hrs hrt hacc, .inl ⟨h1, by simp [h2]⟩⟩
              · obtain ⟨p, ha, hacc, heq⟩ := e6 q (hq eg rfl)
                have hpath' : Path rs next (r.2.inst.forward p) l := hpath.congr hr fun g i hi => (heq g i hi).symm
                refine ⟨p, l, ha, .next hrs hrt hacc hg hpath', ?_⟩
                rw [hin]
                rcases h with ⟨h1, h2⟩ | h
                · rcases List.mem_append.1 h1 with h1 | h1
                  · exact .inl ⟨h1, List.mem_cons_of_mem _ h2⟩
                  · exact .inr (.inr ⟨by simpa using h1, h2⟩)
                · exact .inr (.inl h)
            · rintro ⟨p, l, ha, hpath, h⟩
              cases hpath with
              | here _ _ hacc =>
                left
                rcases h with h | h
                · simpa using h
                · rw [hin] at h; simp at h
              | next _ _ hacc hg' hp' =>
                rw [hg] at hg'
                cases hg'
                rw [hin] at h
                by_cases hc : e.1 ∈ parents ∧ e.2 = r.1
                · exact .inl hc
                · right
                  refine ⟨_, l, fun m h => by cases h; exact e5 p ha hacc, hp', ?_⟩
                  rcases h with ⟨h1, h2⟩ | h | ⟨h1, h2⟩
                  · rw [List.map_cons, List.mem_cons] at h2
                    rcases h2 with h2 | h2
                    · exact absurd ⟨h1, h2⟩ hc
                    · exact .inl ⟨List.mem_append_left _ h1, h2⟩
                  · exact .inr h
                  · exact .inl ⟨by simp [h1], h2⟩
        · refine ⟨(false, s), by simp only [e1], rfl, fun e => ?_⟩
          have : ¬ ReachBy rs t mat parents r e := by
            rintro ⟨p, l, ha, hpath, -⟩
            cases hpath with
            | here _ _ hacc => exact e2 p ha hacc
            | next _ _ hacc _ _ => exact e2 p ha hacc
          simp [this]

/-- A rule and what the algorithms within a table see of it. -/
structure OfR (r : URule π) (d : DRule) : Prop where
  uid : d.uid = r.1
  priority : d.priority = r.2.priority
  table : d.table = r.2.table
  hits : ∀ p, d.hits totBits p ↔ MatchesAll r.2.mat.items p
  egress : ∃ w, d.egress = .ok w
  valid : WcValid totBits d.wc
  validE : ∀ w, d.egress = .ok w → WcValid totBits w

theorem ofRule_ofR (r : URule π) (hr : RuleOK r.2) (hf : FlatActs r.2.inst.apply.iter) : ∃ d, DRule.ofRule r.1 r.2 = .ok d ∧ OfR r d := by
  obtain ⟨w, m', e, hv, hc⟩ := getWildcard_spec hr.inv (lt56 hr.keys)
  obtain ⟨eg, h1, h2, h3, -⟩ := egress_image hr.inv hr.keys (flatOK_of hr hf)
  obtain ⟨w2, m2, e2, hv2, -⟩ := getWildcard_spec h2 (lt56 h3)
  refine ⟨⟨r.1, r.2.priority, r.2.table, w, .ok w2⟩, ?_, rfl, rfl, rfl, hc, ⟨w2, rfl⟩, hv, fun x hx => by cases hx; exact hv2⟩
  simp [DRule.ofRule, e, h1, e2, bind, Except.bind, pure, Except.pure]

theorem mapM_ofRule {t : Nat} (l : List (URule π)) (h : ∀ r ∈ l, RuleOK r.2 ∧ FlatActs r.2.inst.apply.iter ∧ r.2.table = t) :
    ∃ ds, (l.mapM fun r => DRule.ofRule r.1 r.2) = .ok ds ∧ (∀ d ∈ ds, ∃ r ∈ l, OfR r d) ∧ ∀ r ∈ l, ∃ d ∈ ds, OfR r d := by
  induction l with
  | nil => exact ⟨[], rfl, by simp, by simp⟩
  | cons r l ih =>
    obtain ⟨d, d1, d2⟩ := ofRule_ofR r (h r (by simp)).1 (h r (by simp)).2.1
    obtain ⟨ds, e1, e2, e3⟩ := ih fun x hx => h x (List.mem_cons_of_mem _ hx)
    refine ⟨d :: ds, ?_, ?_, ?_⟩
    · rw [List.mapM_cons, d1, e1]; rfl
    · intro x hx
      rcases List.mem_cons.1 hx with rfl | hx
      · exact ⟨r, by simp, d2⟩
      · obtain ⟨y, hy, h'⟩ := e2 x hx; exact ⟨y, List.mem_cons_of_mem _ hy, h'⟩
    · intro x hx
      rcases List.mem_cons.1 hx with rfl | hx
      · exact ⟨d, by simp, d2⟩
      · obtain ⟨y, hy, h'⟩ := e3 x hx; exact ⟨y, List.mem_cons_of_mem _ hy, h'⟩

end Deps
end OFE
