import Verif.Store.WalkLemmas
import Verif.Props.Store

/-! # C82: a diagram's nodes are visited and counted once -/

namespace OFE
namespace DD
variable {α : Type}

/-- Specification: the same diagram with other names for the actions, as the CUDD back end numbers them. -/
def relabel {β : Type} (f : α → β) : DD α → DD β
  | bot => bot
  | term a => term (f a)
  | node num z o => node num (z.relabel f) (o.relabel f)

end DD

namespace Store
open DD
variable {α : Type} [DecidableEq α]

theorem root_rep {n : Nat} {d : α} {e : Evict} (he : e.Sound) (hn : n ≤ termNum) {h : List (Call α)} {r : Ref} (hr : r ∈ (run e n d h).2) :
    ∃ t, Rep (run e n d h).1.nodes r t := by
  obtain ⟨-, hroots⟩ := run_spec (d := d) he hn h
  obtain ⟨i, hi, rfl⟩ := List.getElem_of_mem hr
  rcases hroots.get i with ⟨h1, _⟩ | ⟨r, t, h1, _, h3⟩
  · rw [List.getElem?_eq_getElem hi] at h1; cases h1
  · rw [List.getElem?_eq_getElem hi] at h1; cases h1
    exact ⟨t, h3⟩

/-- **C82** After any history, with any cache eviction schedule, `walk` yields the nodes that can be reached from the root, each once, and children before
their parents. -/
theorem C82_walk (n : Nat) (hn : n ≤ termNum) (d : α) (e : Evict) (he : e.Sound) (h : List (Call α)) (r : Ref) (hr : r ∈ (run e n d h).2) :
    ∃ l, walk (run e n d h).1.nodes r = some l ∧ l.Nodup ∧ (∀ i, i ∈ l ↔ NodeOf (run e n d h).1.nodes r i) ∧
      ∀ l1 i l2, l = l1 ++ i :: l2 → ∀ b c, Branch (run e n d h).1.nodes i b c → c ∈ l1 := by
  obtain ⟨hi, -⟩ := run_spec (d := d) he hn h
  obtain ⟨t, ht⟩ := root_rep he hn hr
  obtain ⟨l, h1, h2, h3⟩ := walk_spec hi.lt r ht.rank_le
  refine ⟨l, h1, List.nodup_reverse.1 h2.nodup, h3, fun l1 i l2 hl b c hb => ?_⟩
  rw [hl, List.reverse_append, List.reverse_cons, List.append_assoc] at h2
  cases h2.suffix with
  | cons _ h4 _ => exact List.mem_reverse.1 (by simpa using h4 b c hb)

/-- **C82** `len` is the number of nodes, and no ordered diagram of the same function has fewer: not one in this table or any other, with repeated nodes, or
with nodes that do nothing. -/
theorem C82_minimal (n : Nat) (hn : n ≤ termNum) (d : α) (e : Evict) (he : e.Sound) (h : List (Call α)) (r : Ref) (hr : r ∈ (run e n d h).2)
    (nodes : List (Obj α)) (r' : Ref) (ho : OrdFrom nodes n 0 r') (hw : ∀ p x, Walk (run e n d h).1.nodes n p r x ↔ Walk nodes n p r' x)
    (l' : List Nat) (hl' : ∀ i, NodeOf nodes r' i → i ∈ l') : ∃ k, len (run e n d h).1.nodes r = some k ∧ k ≤ l'.length := by
  obtain ⟨hi, -⟩ := run_spec (d := d) he hn h
  obtain ⟨t, ht⟩ := root_rep he hn hr
  obtain ⟨t', ht', hord⟩ := ho.rep
  have hred : reduce t' = t := reduce_eq (hi.wfRep ht) hord fun p =>
    (walk_iff ht' p _).1 ((hw p _).1 ((walk_iff ht p _).2 rfl))
  obtain ⟨l, h1, h2, h3, h4⟩ := walk_trees hi ht
  refine ⟨l.length, by simp [len, h1], ?_⟩
  have hex : ∀ i, ∃ j, i ∈ l → NodeOf nodes r' j ∧ ∃ u s, Rep nodes (some j) u ∧ Rep (run e n d h).1.nodes (some i) s ∧ reduce u = s := by
    intro i
    by_cases hil : i ∈ l
    · obtain ⟨s, hs, hst⟩ := ht.reach ((h3 i).1 hil)
      rw [← hred] at hst
      obtain ⟨u, hu, hus⟩ := sub_reduce hst
      obtain ⟨j, hj1, hj2⟩ := ht'.sub hu
      exact ⟨j, fun _ => ⟨hj2, u, s, hj1, hs, hus⟩⟩
    · exact ⟨0, fun hc => absurd hc hil⟩
  choose g hg using hex
  have hinj : (l.map g).Nodup := by
    rw [List.nodup_map_iff_inj_on h2]
    intro a ha b hb hab
    obtain ⟨-, u, s, k1, k2, k3⟩ := hg a ha
    obtain ⟨-, u', s', k1', k2', k3'⟩ := hg b hb
    rw [hab] at k1
    have := k1.functional k1'
    subst this
    rw [k3] at k3'
    subst k3'
    exact Option.some.inj (k2.inj hi k2')
  have hsub : l.map g ⊆ l' := by
    intro j hj
    obtain ⟨i, hil, rfl⟩ := List.mem_map.1 hj
    exact hl' _ (hg i hil).1
  have := (List.subperm_of_subset hinj hsub).length_le
  rwa [List.length_map] at this

theorem relabel_inj {β : Type} {f : α → β} (hf : Function.Injective f) : Function.Injective (relabel f : DD α → DD β) := by
  intro s t h
  induction s generalizing t with
  | bot => cases t <;> simp_all [relabel]
  | term a => cases t <;> simp_all [relabel, hf.eq_iff]
  | node num z o iz io =>
    cases t with
    | bot => simp [relabel] at h
    | term => simp [relabel] at h
    | node m z' o' =>
      simp only [relabel, node.injEq] at h
      rw [h.1, iz h.2.1, io h.2.2]

theorem under_relabel {β : Type} (f : α → β) (t : DD α) [DecidableEq β] : under (t.relabel f) = (under t).map (relabel f) := by
  induction t with
  | bot => rfl
  | term => rfl
  | node num z o iz io => simp [relabel, under, iz, io]

theorem sharingSize_relabel {β : Type} [DecidableEq β] {f : α → β} (hf : Function.Injective f) (ts : List (DD α)) :
    sharingSize (ts.map (relabel f)) = sharingSize ts := by
  unfold sharingSize
  have : (ts.map (relabel f)).flatMap under = (ts.flatMap under).map (relabel f) := by
    induction ts with
    | nil => rfl
    | cons t ts ih => simp [ih, under_relabel]
  rw [this, List.dedup_map_of_injective (relabel_inj hf), List.length_map]

/-- **C82** All back ends agree on the length: that of a diagram of the python back ends is what the CUDD back end gives for the same calls, where actions
are numbers. -/
theorem C82_same_length (n : Nat) (hn : n ≤ termNum) (d : α) (e : Evict) (he : e.Sound) (h : List (Call α)) (i : Nat) (r : Ref) (t : DD α)
    (hr : (run e n d h).2[i]? = some r) (ht : (runT n d h)[i]? = some t) (f : α → Nat) (hf : Function.Injective f) :
    len (run e n d h).1.nodes r = some (cuddLen (some (t.relabel f))) := by
  obtain ⟨hi, hroots⟩ := run_spec (d := d) he hn h
  have hrep : Rep (run e n d h).1.nodes r t := by
    rcases hroots.get i with ⟨h3, _⟩ | ⟨r', t', h3, h4, h5⟩
    · rw [hr] at h3; cases h3
    · rw [hr] at h3; rw [ht] at h4; cases h3; cases h4; exact h5
  obtain ⟨l, h1, -, -, h4⟩ := walk_trees hi hrep
  have e1 : cuddLen (some (t.relabel f)) = cuddLen (some t) := by
    have := sharingSize_relabel hf [t, bot]
    simp only [cuddLen]
    rw [← this]
    rfl
  rw [e1, len, h1, Option.map_some, Option.some.injEq]
  have hnd : (([t, bot].flatMap under).dedup).Nodup := List.nodup_dedup _
  have hb : bot ∈ ([t, bot].flatMap under).dedup := by simp [under]
  have hlen := h4 (([t, bot].flatMap under).dedup.erase bot) (hnd.erase _) (fun u => by
    rw [hnd.mem_erase_iff, List.mem_dedup]
    simp only [List.flatMap_cons, List.flatMap_nil, List.append_nil, List.mem_append, under, List.mem_singleton]
    constructor
    · rintro ⟨hne, hu | hu⟩
      · exact (mem_under hu).resolve_left hne
      · exact absurd hu hne
    · intro hu
      exact ⟨sub_ne_bot hu, .inl (sub_under hu)⟩)
  rw [hlen, List.length_erase_of_mem hb]
  rfl

/-- **C82** `shared_size` of one diagram is not its length if some packet has no action: it counts the constant BK. -/
theorem C82_shared_size (t : DD α) : sharedSize [some t] = cuddLen (some t) + (if t.hasNone then 1 else 0) := by
  have hb : bot ∈ under t ↔ t.hasNone = true := by
    induction t with
    | bot => simp [under, hasNone]
    | term => simp [under, hasNone]
    | node num z o iz io => simp [under, hasNone, iz, io]
  have e1 : sharedSize [some t] = (under t).dedup.length := by simp [sharedSize, sharingSize]
  have e2 : cuddLen (some t) = (under t ++ [bot]).dedup.length - 1 := by simp [cuddLen, sharingSize, under]
  rw [e1, e2]
  have hnd := List.nodup_dedup (under t)
  by_cases h : bot ∈ under t
  · rw [if_pos (hb.1 h)]
    have hp : (under t ++ [bot]).dedup.Perm (under t).dedup :=
      (List.perm_ext_iff_of_nodup (List.nodup_dedup _) hnd).2 fun u => by
        simp only [List.mem_dedup, List.mem_append, List.mem_singleton]
        exact ⟨fun hh => hh.elim id fun e => e ▸ h, .inl⟩
    have : 0 < (under t).dedup.length := List.length_pos_of_mem (List.mem_dedup.2 h)
    rw [hp.length_eq]
    omega
  · rw [if_neg (fun hh => h (hb.2 hh))]
    have hp : (under t ++ [bot]).dedup.Perm (bot :: (under t).dedup) :=
      (List.perm_ext_iff_of_nodup (List.nodup_dedup _) (List.nodup_cons.2 ⟨fun hh => h (List.mem_dedup.1 hh), hnd⟩)).2 fun u => by
        simp only [List.mem_dedup, List.mem_append, List.mem_cons, List.not_mem_nil, or_false]
        exact or_comm
    rw [hp.length_eq]
    simp

/-- **C82** `to_dot` writes one line for each node and one for each branch. -/
theorem C82_to_dot (friendly : α → String) (ident : Nat → Nat) (n : Nat) (hn : n ≤ termNum) (d : α) (e : Evict) (he : e.Sound) (h : List (Call α)) (r : Ref)
    (hr : r ∈ (run e n d h).2) :
    ∃ (l : List Nat) (bs : List (Nat × Bool × Nat)), l.Nodup ∧ bs.Nodup ∧ (∀ i, i ∈ l ↔ NodeOf (run e n d h).1.nodes r i) ∧
      (∀ i b c, (i, b, c) ∈ bs ↔ NodeOf (run e n d h).1.nodes r i ∧ Branch (run e n d h).1.nodes i b c) ∧
      toDot friendly ident (run e n d h).1.nodes r = some (["graph BDD {"] ++
        l.flatMap (fun i => ["n" ++ toString (ident i), match (run e n d h).1.nodes[i]? with
          | some (.term a) => "[label=\"" ++ friendly a ++ "\",shape=box];"
          | some (.node num _ _ _) => "[label=\"" ++ toString num ++ "\",shape=circle];"
          | none => ""]) ++
        bs.flatMap (fun x => ["n" ++ toString (ident x.1), "--", "n" ++ toString (ident x.2.2),
          if x.2.1 then "[label=1];" else "[label=0,style=dashed];"]) ++ ["}"]) := by
  obtain ⟨hi, -⟩ := run_spec (d := d) he hn h
  obtain ⟨t, ht⟩ := root_rep he hn hr
  obtain ⟨l, h1, h2, h3, -⟩ := walk_trees hi ht
  generalize (run e n d h).1.nodes = nodes at *
  let br : Nat → List (Nat × Bool × Nat) := fun i => match nodes[i]? with
    | some (.node _ z o _) => (z.toList.map fun c => (i, false, c)) ++ (o.toList.map fun c => (i, true, c))
    | _ => []
  have hbr : ∀ i j b c, (j, b, c) ∈ br i ↔ j = i ∧ Branch nodes i b c := by
    intro i j b c
    have eb : br i = match nodes[i]? with
      | some (.node _ z o _) => (z.toList.map fun c => (i, false, c)) ++ (o.toList.map fun c => (i, true, c))
      | _ => [] := rfl
    rw [eb]
    constructor
    · intro hm
      split at hm
      · rename_i num z o hh hx
        simp only [List.mem_append, List.mem_map, Prod.mk.injEq, Option.mem_toList] at hm
        rcases hm with ⟨x, hz, rfl, rfl, rfl⟩ | ⟨x, hz, rfl, rfl, rfl⟩
        · subst hz; exact ⟨rfl, .zero hx⟩
        · subst hz; exact ⟨rfl, .one hx⟩
      · cases hm
    · rintro ⟨rfl, hb⟩
      cases hb with
      | zero hx => simp [hx]
      | one hx => simp [hx]
  refine ⟨l, l.flatMap br, h2, ?_, h3, fun i b c => ?_, ?_⟩
  · rw [List.nodup_flatMap]
    refine ⟨fun i _ => ?_, h2.imp fun hij => ?_⟩
    · dsimp only [br]
      split
      · rename_i z o _ _
        cases z <;> cases o <;> simp
      · exact List.nodup_nil
    · rintro ⟨j, b, c⟩ ha hb
      exact hij (((hbr _ _ _ _).1 ha).1.symm.trans ((hbr _ _ _ _).1 hb).1)
  · rw [List.mem_flatMap, ← h3 i]
    constructor
    · rintro ⟨j, hj, hb⟩
      obtain ⟨rfl, hb⟩ := (hbr _ _ _ _).1 hb
      exact ⟨hj, hb⟩
    · rintro ⟨hj, hb⟩
      exact ⟨i, hj, (hbr _ _ _ _).2 ⟨rfl, hb⟩⟩
  · simp only [toDot, h1, bind, Option.bind, pure, Option.some.injEq]
    congr 1
    rw [List.flatMap_assoc]
    have e1 : ∀ i ∈ l, dotNode friendly ident nodes i = ["n" ++ toString (ident i), match nodes[i]? with
        | some (.term a) => "[label=\"" ++ friendly a ++ "\",shape=box];"
        | some (.node num _ _ _) => "[label=\"" ++ toString num ++ "\",shape=circle];"
        | none => ""] := by
      intro i hil
      obtain ⟨s, hs, -⟩ := ht.reach ((h3 i).1 hil)
      unfold dotNode
      cases hs with
      | term hx => simp [hx]
      | node hx _ _ => simp [hx]
    have e2 : ∀ i, dotBranches ident nodes i = (br i).flatMap fun x => ["n" ++ toString (ident x.1), "--", "n" ++ toString (ident x.2.2),
        if x.2.1 then "[label=1];" else "[label=0,style=dashed];"] := by
      intro i
      unfold dotBranches
      dsimp only [br]
      cases nodes[i]? with
      | none => rfl
      | some x =>
        cases x with
        | term a => rfl
        | node num z o hh => cases z <;> cases o <;> rfl
    rw [List.flatMap_congr e1, List.flatMap_congr fun i _ => e2 i]

/-! ## Examples -/

example : (2 : Nat) ≤ termNum ∧ keepNone.Sound ∧ some 4 ∈ (run keepNone 2 99 exHistory).2 ∧
    walk (run keepNone 2 99 exHistory).1.nodes (some 4) = some [1, 3, 4] := by
  refine ⟨by decide, ⟨fun _ _ _ h => by simp [keepNone] at h, fun _ _ _ h => by simp [keepNone] at h⟩, by decide +kernel, by decide +kernel⟩

/-- Another diagram of the same function, with a node that does nothing and a termination that is there twice. -/
example : OrdFrom [.term 7, .term 8, .term 8, .node 1 (some 1) (some 2) false, .node 0 (some 0) (some 3) false] 2 0 (some 4) ∧
    ∀ p x, Walk (run keepNone 2 99 exHistory).1.nodes 2 p (some 4) x ↔
      Walk [.term 7, .term 8, .term 8, .node 1 (some 1) (some 2) false, .node 0 (some 0) (some 3) false] 2 p (some 4) x := by
  refine ⟨.node (by rfl) (by decide) (by decide) (.term (by rfl)) (.node (by rfl) (by decide) (by decide) (.term (by rfl)) (.term (by rfl))), fun p x => ?_⟩
  rw [walk_iff (t := node 0 (term 7) (term 8)) (.node (num := 0) (z := some 1) (o := some 3) (h := false) (by decide +kernel) (.term (by decide +kernel)) (.term (by decide +kernel))) p x,
    walk_iff (t := node 0 (term 7) (node 1 (term 8) (term 8))) (.node (by rfl) (.term (by rfl)) (.node (by rfl) (.term (by rfl)) (.term (by rfl)))) p x]
  simp [DD.lookup, DD.eval]

/-- A node that is reached twice is counted once. -/
def sharedHistory : List (Call Nat) := [.wc 0b0110 7, .wc 0b1001 7, .op .meld 0 1]

example : (run keepAll 2 99 sharedHistory).2[2]? = some (some 6) ∧ walk (run keepAll 2 99 sharedHistory).1.nodes (some 6) = some [1, 2, 4, 6] ∧
    len (run keepAll 2 99 sharedHistory).1.nodes (some 6) = some 4 ∧
    (runT 2 99 sharedHistory)[2]? = some (node 0 (node 1 bot (term 7)) (node 1 (term 7) bot)) ∧
    cuddLen (some (relabel (· + 1) (node 0 (node 1 bot (term 7)) (node 1 (term 7) bot)))) = 4 ∧
    sharedSize [some (node 0 (node 1 bot (term 7)) (node 1 (term 7) bot))] = 5 := by
  decide +kernel

example : Function.Injective fun x : Nat => x + 1 := fun a b h => by simpa using h

example : cuddLen (none : Option (DD Nat)) = 0 ∧ sharedSize [(none : Option (DD Nat))] = 1 := by decide +kernel

/-- The node table and what is written for it. -/
example : toDot (fun a => toString a) id (run keepAll 2 99 [.wc 0b0111 7]).1.nodes (some 2) =
    some ["graph BDD {", "n1", "[label=\"7\",shape=box];", "n2", "[label=\"0\",shape=circle];", "n2", "--", "n1", "[label=0,style=dashed];", "}"] := by
  decide +kernel

end Store
end OFE
