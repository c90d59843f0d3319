import Verif.Build.Lemmas
import Verif.BatchNorm.Lemmas

/-!
# Building: each line of a script is a joint schedule
-/

namespace Verif.Build

variable {α β : Type} {W : List Nat}

theorem Joint.unless {V : List Nat} {r : Nat → Run α} {a : Nat → α} {G : List Op} (h : Joint V r a G)
    (hV : ∀ w ∈ V, w ∈ W) : Joint W (fun w => if w ∉ V then pure (a w) else r w) a G :=
  (h.only hV).congr fun w _ => by by_cases hw : w ∈ V <;> simp [hw]

/-- Two steps, without result. -/
theorem Joint.seq {r s : Nat → Run Unit} {G H : List Op} (h : Joint W r (fun _ => ()) G)
    (h' : Joint W s (fun _ => ()) H) : Joint W (fun w => r w >>= fun _ => s w) (fun _ => ()) (G ++ H) :=
  Joint.bind (f := fun w _ => s w) h h'

theorem Joint.skip : Joint W (fun _ => (pure () : Run Unit)) (fun _ => ()) [] := Joint.nothing fun _ => ()

theorem Joint.on (c : Comm) (k : Kind) : Joint c.members (fun _ => Build.call (.on c) k) (fun _ => ()) [⟨.on c, k⟩] :=
  Joint.call (c := .on c) fun _ => Iff.rfl

theorem Joint.create (c : Comm) (g : List Nat) (t : Nat) (k : Kind) :
    Joint g (fun _ => Build.call (.create c g t) k) (fun _ => ()) [⟨.create c g t, k⟩] :=
  Joint.call (c := .create c g t) fun _ => Iff.rfl

/-! ## Partitions -/

theorem groupIncl_sub {m ranks g : List Nat} (h : groupIncl m ranks = some g) : ∀ w ∈ g, w ∈ m := by
  unfold groupIncl at h
  split at h
  · rename_i hr
    cases h
    intro w hw
    obtain ⟨r, hr', rfl⟩ := List.mem_map.1 hw
    have := hr.2 r hr'
    rw [List.getD_eq_getElem?_getD, List.getElem?_eq_getElem this]
    exact List.getElem_mem _
  · cases h

theorem inclusive_joint {c : Comm} {n ranks g : List Nat} (h : groupIncl c.members ranks = some g) :
    Joint c.members (inclusive c n ranks) (fun _ => ⟨n, g⟩) [⟨.create c g 0, .make n⟩] := by
  have h1 : Joint g (fun _ => (do call (.create c g 0) (.make n); pure ⟨n, g⟩ : Run Comm)) (fun _ => ⟨n, g⟩)
      ([⟨.create c g 0, .make n⟩] ++ []) :=
    Joint.bind (f := fun _ _ => (pure ⟨n, g⟩ : Run Comm)) (Joint.create c g 0 _) (Joint.nothing fun _ => (⟨n, g⟩ : Comm))
  refine (h1.only (groupIncl_sub h)).congr fun w hw => ?_
  unfold inclusive
  simp only [h, not_true_eq_false, if_false, hw]

theorem union_joint {n : List Nat} {P Q U : Part} (h : createUnion P Q = some U) (hU : ∀ w ∈ U.members, w ∈ W)
    (world : Comm) : Joint W (union world n P Q) (fun _ => U) [⟨.create world U.members 0, .make n⟩] := by
  have h1 : Joint U.members (fun _ => (do call (.create world U.members 0) (.make n); pure U : Run Part)) (fun _ => U)
      ([⟨.create world U.members 0, .make n⟩] ++ []) :=
    Joint.bind (f := fun _ _ => (pure U : Run Part)) (Joint.create world U.members 0 _) (Joint.nothing fun _ => U)
  refine (h1.only hU).congr fun w hw => ?_
  unfold union
  simp only [h]

theorem cartesian_joint {c : Comm} {n shape : List Nat} (hp : ∀ k ∈ shape, 0 < k) (hs : shape.prod = c.members.length)
    (hc : ∀ w ∈ c.members, w ∈ W) : Joint W (cartesian c n shape) (fun _ => ()) [⟨.on c, .cart shape n⟩] := by
  have h1 : Joint c.members (fun _ => (do call (.on c) (.cart shape n); pure () : Run Unit)) (fun _ => ())
      ([⟨.on c, .cart shape n⟩] ++ []) :=
    Joint.seq (Joint.on c _) Joint.skip
  refine (h1.only hc).congr fun w _ => ?_
  unfold cartesian
  have e : createCartesian ⟨c.members, none⟩ shape = some ⟨c.members, shape, none⟩ := if_pos ⟨hp, hs⟩
  simp only [e]

theorem deactivate_joint {c : Comm} (hc : ∀ w ∈ c.members, w ∈ W) :
    Joint W (deactivate c) (fun _ => ()) [⟨.on c, .free⟩] :=
  (Joint.on c _).only hc

theorem four_joint (c : Comm) (r : Nat) : ∃ G, Joint c.members (fun _ => fourBcasts c r) (fun _ => ()) G :=
  ⟨_, Joint.seq (Joint.on c _) (Joint.seq (Joint.on c _) (Joint.seq (Joint.on c _) (Joint.on c _)))⟩

theorem shareOwn_joint {c : Comm} (hc : ∀ w ∈ c.members, w ∈ W) :
    ∃ G, Joint W (shareOwn c) (fun _ => ()) G := by
  obtain ⟨G, h⟩ := four_joint c 0
  exact ⟨G, h.unless hc⟩

theorem shareFrom_joint {c : Comm} {d : List Nat} (hd : d ≠ []) (hdc : ∀ w ∈ d, w ∈ c.members)
    (hc : ∀ w ∈ c.members, w ∈ W) : ∃ G, Joint W (shareFrom c d) (fun _ => ()) G := by
  obtain ⟨x, xs, rfl⟩ := List.exists_cons_of_ne_nil hd
  obtain ⟨r, hr⟩ := Option.isSome_iff_exists.1 (rankOf_isSome.2 (hdc x (by simp)))
  obtain ⟨G, h⟩ := four_joint c r
  refine ⟨_, (Joint.unless (W := W) (Joint.seq (Joint.on c .allgather) h) hc).congr fun w _ => ?_⟩
  unfold shareFrom
  simp only [List.head?_cons, Option.bind_some, hr]

/-- A partition in a partition. -/
theorem inner_joint {c : Comm} {n ranks shape : List Nat} {Q : Cart}
    (h : ((createInclusive ⟨c.members, none⟩ ranks).bind fun P => createCartesian P shape) = some Q) :
    ∃ G, Joint c.members (inner c n ranks shape) (fun _ => ()) G := by
  obtain ⟨P, h1, h2⟩ := Option.bind_eq_some_iff.1 h
  obtain ⟨g, h3, rfl⟩ := Option.map_eq_some_iff.1 h1
  have h3 : groupIncl c.members ranks = some g := h3
  unfold createCartesian at h2
  split at h2
  · rename_i hs
    have hsub := groupIncl_sub h3
    exact ⟨_, Joint.bind (inclusive_joint h3) (Joint.seq (cartesian_joint (c := ⟨n ++ [0], g⟩) hs.1 hs.2 hsub)
      (deactivate_joint (c := ⟨n ++ [0], g⟩) hsub))⟩
  · cases h2

/-! ## Broadcast, sum-reduce, all-sum-reduce -/

/-- The partitions found on a worker. -/
def found (run : Nat → Res SendRecv) (w : Nat) : SendRecv :=
  match run w with
  | .value s => s
  | _ => ⟨none, none, []⟩

/-- Creations with agreed groups, in the order of their tags. -/
theorem creations_joint {run : Nat → Res SendRecv} {U roots : List Nat} (h : ConsistentGroups run U roots)
    (hall : ∀ w ∈ U, ∃ sr, run w = .value sr) (hin : ∀ w sr, run w = .value sr → w ∈ U)
    (hinc : ∀ w sr, run w = .value sr → sr.creations.Pairwise fun p q => p.1 < q.1)
    (f : Nat × List Nat → Op) (hf : ∀ p, (f p).chan.members = p.2) :
    ∃ G, Joint U (fun w => (⟨(found run w).creations.map f, some ()⟩ : Run Unit)) (fun _ => ()) G := by
  have hfound : ∀ w ∈ U, run w = .value (found run w) := by
    intro w hw
    obtain ⟨sr, e⟩ := hall w hw
    unfold found
    rw [e]
  let grp (t : Nat) : Option (Nat × List Nat) :=
    U.findSome? fun w => (found run w).creations.find? fun p => p.1 == t
  let L := (List.range U.length).filterMap grp
  have hgrp : ∀ {t p}, grp t = some p → p.1 = t ∧ ∃ w ∈ U, p ∈ (found run w).creations := by
    intro t p e
    obtain ⟨w, hw, e'⟩ := List.exists_of_findSome?_eq_some e
    exact ⟨by simpa using List.find?_some e', w, hw, List.mem_of_find?_eq_some e'⟩
  have hL : ∀ p, p ∈ L ↔ ∃ w ∈ U, p ∈ (found run w).creations := by
    intro p
    constructor
    · intro hp
      obtain ⟨t, -, e⟩ := List.mem_filterMap.1 hp
      exact (hgrp e).2
    · rintro ⟨w, hw, hp⟩
      obtain ⟨t, g⟩ := p
      obtain ⟨-, -, ⟨r, -, -, ht⟩, -⟩ := h.same w _ t g (hfound w hw) hp
      refine List.mem_filterMap.2 ⟨t, List.mem_range.2 (List.getElem?_eq_some_iff.1 ht).1, ?_⟩
      have hs : (grp t).isSome := by
        rw [List.findSome?_isSome_iff]
        exact ⟨w, hw, List.find?_isSome.2 ⟨_, hp, by simp⟩⟩
      obtain ⟨q, e⟩ := Option.isSome_iff_exists.1 hs
      obtain ⟨e1, w', hw', hq⟩ := hgrp e
      obtain ⟨t', g'⟩ := q
      obtain rfl : t' = t := e1
      rw [e, h.tags w _ w' _ t' g g' (hfound w hw) (hfound w' hw') hp hq]
  have hsort : L.Pairwise fun p q => p.1 < q.1 := by
    refine List.Pairwise.filterMap _ ?_ List.pairwise_lt_range
    intro a a' haa b hb b' hb'
    rw [(hgrp hb).1, (hgrp hb').1]
    exact haa
  refine ⟨L.map f, ?_, ?_, fun _ _ => rfl⟩
  · intro o ho u hu
    obtain ⟨p, hp, rfl⟩ := List.mem_map.1 ho
    rw [hf] at hu
    obtain ⟨w, hw, hp⟩ := (hL p).1 hp
    obtain ⟨-, -, -, h4⟩ := h.same w _ p.1 p.2 (hfound w hw) hp
    obtain ⟨sr', e, -⟩ := h4 u hu
    exact hin u sr' e
  · intro w hw
    have e : mine w (L.map f) = (L.filter fun p => decide (w ∈ p.2)).map f := by
      unfold mine
      rw [List.filter_map]
      congr 1
      refine List.filter_congr fun p _ => ?_
      simp only [Function.comp, hf]
    rw [e]
    show List.map f _ = _
    congr 1
    have p1 := hinc w _ (hfound w hw)
    have p2 : (L.filter fun p => decide (w ∈ p.2)).Pairwise fun p q => p.1 < q.1 := hsort.filter _
    have n1 : (found run w).creations.Nodup := p1.imp fun {a b} hab e => by subst e; omega
    have n2 : (L.filter fun p => decide (w ∈ p.2)).Nodup := p2.imp fun {a b} hab e => by subst e; omega
    refine List.Perm.eq_of_pairwise (fun a b _ _ h1 h2 => by omega) p1 p2 ((List.perm_ext_iff_of_nodup n1 n2).2 fun p => ?_)
    rw [List.mem_filter, hL]
    constructor
    · intro hp
      exact ⟨⟨w, hw, hp⟩, by simpa using (h.same w _ p.1 p.2 (hfound w hw) hp).2.1⟩
    · rintro ⟨⟨w', hw', hp⟩, hm⟩
      obtain ⟨-, -, -, h4⟩ := h.same w' _ p.1 p.2 (hfound w' hw') hp
      obtain ⟨sr', e, hp'⟩ := h4 w (by simpa using hm)
      rw [hfound w hw] at e
      cases e
      exact hp'

theorem WF_ne_nil {P : Cart} (h : P.WF) : P.members ≠ [] := by
  obtain ⟨x, -, hx⟩ := h.head
  exact List.ne_nil_of_mem hx

theorem pair_joint (world : Comm) (n : List Nat) {Px Py : CPart} {run : Nat → Res SendRecv} {roots : List Nat}
    (hx : Px.cart.WF) (hy : Py.cart.WF) (hroot : ∃ r, Px.cart.root = some r ∧ Py.cart.root = some r)
    (hxW : ∀ w ∈ Px.cart.members, w ∈ W) (hyW : ∀ w ∈ Py.cart.members, w ∈ W)
    (h : ConsistentGroups run (groupUnion Px.cart.members Py.cart.members) roots)
    (hall : ∀ w, w ∈ Px.cart.members ∨ w ∈ Py.cart.members → ∃ sr, run w = .value sr)
    (hin : ∀ w sr, run w = .value sr → w ∈ Px.cart.members ∨ w ∈ Py.cart.members)
    (hinc : ∀ w sr, run w = .value sr → sr.creations.Pairwise fun p q => p.1 < q.1) :
    ∃ G, Joint W (pairPartitions world n Px Py run) (fun _ => ()) G := by
  set U := groupUnion Px.cart.members Py.cart.members with hU
  have hUW : ∀ w ∈ U, w ∈ W := fun w hw => (mem_groupUnion.1 hw).elim (hxW w) (hyW w)
  obtain ⟨r, r1, r2⟩ := hroot
  have hu : createUnion Px.part Py.part = some ⟨U, some r⟩ := by
    unfold createUnion CPart.part
    simp only [r1, r2, identicalComm, beq_self_eq_true, Bool.not_true, Bool.false_eq_true, if_false, hU]
  let c : Comm := ⟨n ++ [0], U⟩
  have hcc : ∀ w ∈ c.members, w ∈ U := fun w hw => hw
  obtain ⟨G1, h1⟩ := shareFrom_joint (W := U) (c := c) (WF_ne_nil hx) (fun w hw => mem_groupUnion.2 (.inl hw)) hcc
  obtain ⟨G2, h2⟩ := shareFrom_joint (W := U) (c := c) (WF_ne_nil hy) (fun w hw => mem_groupUnion.2 (.inr hw)) hcc
  obtain ⟨G3, h3⟩ := creations_joint h (fun w hw => hall w (mem_groupUnion.1 hw)) (fun w sr e => mem_groupUnion.2 (hin w sr e))
    hinc (fun p => ⟨.create c p.2 p.1, .make (n ++ [1, p.1])⟩) fun _ => rfl
  have h4 := Joint.bind (union_joint (W := U) (n := n ++ [0]) hu hcc world) (f := fun w _ => shareFrom c Px.cart.members w >>= fun _ =>
    shareFrom c Py.cart.members w >>= fun _ => call (.on c) .allgather >>= fun _ => call (.on c) .allgather >>= fun _ =>
    (⟨(found run w).creations.map fun p => ⟨.create c p.2 p.1, .make (n ++ [1, p.1])⟩, some ()⟩ : Run Unit) >>= fun _ =>
      deactivate c w) (Joint.seq h1 (Joint.seq h2 (Joint.seq (Joint.on c _) (Joint.seq (Joint.on c _)
        (Joint.seq h3 (deactivate_joint hcc))))))
  refine ⟨_, (h4.only hUW).congr fun w hw => ?_⟩
  unfold pairPartitions
  by_cases hm : w ∈ U
  · have hm' := mem_groupUnion.1 hm
    obtain ⟨sr, e⟩ := hall w hm'
    rw [if_neg (by tauto), if_pos hm]
    have e' : found run w = sr := by
      unfold found
      rw [e]
    have hres := (union_joint (W := U) (n := n ++ [0]) hu hcc world).res w hm
    rw [bind_eq hres, bind_eq hres, e']
    simp only [e]
    rfl
  · rw [if_pos (by rw [hU, mem_groupUnion] at hm; tauto), if_neg hm]

theorem broadcastSetup_joint (world : Comm) (n : List Nat) {Px Py : CPart} {ts td : Bool}
    (h : BcastValid Px.cart Py.cart ts td) (hxW : ∀ w ∈ Px.cart.members, w ∈ W) (hyW : ∀ w ∈ Py.cart.members, w ∈ W) :
    ∃ G, Joint W (broadcastSetup world n Px Py ts td) (fun _ => ()) G := by
  by_cases hs : sameComm Px Py ts td
  · exact ⟨[], Joint.skip.congr fun w _ => by unfold broadcastSetup; rw [if_pos hs]⟩
  · have hin : ∀ w sr, broadcastPartitions Px.cart Py.cart ts td w = .value sr →
        w ∈ Px.cart.members ∨ w ∈ Py.cart.members := by
      intro w sr e
      by_contra hn
      rw [broadcast_inactive (by tauto) (by tauto)] at e
      cases e
    obtain ⟨G, hG⟩ := pair_joint world n h.wfs h.wfd h.root hxW hyW (C20_broadcast_groups _ _ ts td h)
      (fun w hw => (broadcast_eq h hw).imp fun sr hh => hh.1) hin (fun w sr e => by
        obtain ⟨sr', h1, h2⟩ := broadcast_eq h (hin w sr e)
        rw [h1] at e
        cases e
        exact h2.order)
    exact ⟨G, hG.congr fun w _ => by unfold broadcastSetup; rw [if_neg hs]⟩

theorem sumReduceSetup_joint (world : Comm) (n : List Nat) {Px Py : CPart} {ts td : Bool}
    (h : BcastValid Py.cart Px.cart td ts) (hxW : ∀ w ∈ Px.cart.members, w ∈ W) (hyW : ∀ w ∈ Py.cart.members, w ∈ W) :
    ∃ G, Joint W (sumReduceSetup world n Px Py ts td) (fun _ => ()) G := by
  by_cases hs : sameComm Px Py ts td
  · exact ⟨[], Joint.skip.congr fun w _ => by unfold sumReduceSetup; rw [if_pos hs]⟩
  · have hin : ∀ w sr, reductionPartitions Px.cart Py.cart ts td w = .value sr →
        w ∈ Px.cart.members ∨ w ∈ Py.cart.members := by
      intro w sr e
      by_contra hn
      rw [reduction_inactive (by tauto) (by tauto)] at e
      cases e
    obtain ⟨G, hG⟩ := pair_joint world n h.wfd h.wfs (h.root.imp fun r hr => ⟨hr.2, hr.1⟩) hxW hyW
      (C20_reduction_groups _ _ ts td h)
      (fun w hw => (reduction_eq h hw).imp fun sr hh => hh.1) hin (fun w sr e => by
        obtain ⟨sr', h1, h2⟩ := reduction_eq h (hin w sr e)
        rw [h1] at e
        cases e
        exact h2.order)
    exact ⟨G, hG.congr fun w _ => by unfold sumReduceSetup; rw [if_neg hs]⟩

/-- Groups that do not overlap: the calls of one group after the other. -/
theorem groups_joint {M : List Nat} (hM : M.Nodup) (g : Nat → List Nat) (hself : ∀ w ∈ M, w ∈ g w) (hsub : ∀ w ∈ M, ∀ u ∈ g w, u ∈ M)
    (hsame : ∀ w ∈ M, ∀ u ∈ g w, g u = g w) {r : Nat → Run Unit} {B : List Nat → List Op}
    (h : ∀ w ∈ M, Joint (g w) r (fun _ => ()) (B (g w))) : ∃ G, Joint M r (fun _ => ()) G := by
  let H := M.filter fun w => (g w).head? == some w
  have hhead : ∀ w ∈ M, ∃ v ∈ H, g v = g w := by
    intro w hw
    obtain ⟨x, xs, e⟩ := List.exists_cons_of_ne_nil (List.ne_nil_of_mem (hself w hw))
    have hx : x ∈ g w := by rw [e]; simp
    refine ⟨x, List.mem_filter.2 ⟨hsub w hw x hx, ?_⟩, hsame w hw x hx⟩
    rw [hsame w hw x hx, e]
    simp
  refine ⟨H.flatMap fun v => B (g v), ?_, ?_, ?_⟩
  · intro o ho u hu
    obtain ⟨v, hv, ho⟩ := List.mem_flatMap.1 ho
    have hvM := (List.mem_filter.1 hv).1
    exact hsub v hvM u ((h v hvM).sub o ho u hu)
  · intro w hw
    obtain ⟨v, hv, e⟩ := hhead w hw
    have hvM := (List.mem_filter.1 hv).1
    have hwv : w ∈ g v := by rw [e]; exact hself w hw
    rw [(h v hvM).ops w hwv]
    have hother : ∀ u ∈ H, u ≠ v → mine w (B (g u)) = [] := by
      intro u hu hne
      refine List.filter_eq_nil_iff.2 fun o ho => ?_
      have huM := (List.mem_filter.1 hu).1
      simp only [decide_eq_true_eq]
      intro hm
      have h1 := (h u huM).sub o ho w hm
      have e2 : g u = g v := by rw [e, hsame u huM w h1]
      have a1 := (List.mem_filter.1 hu).2
      have a2 := (List.mem_filter.1 hv).2
      rw [e2] at a1
      rw [beq_iff_eq] at a1 a2
      rw [a1] at a2
      exact hne (by simpa using a2)
    have hflat : ∀ l : List Nat, (∀ u ∈ l, u ∈ H) → l.Nodup → v ∈ l → mine w (l.flatMap fun v => B (g v)) = mine w (B (g v)) := by
      intro l
      induction l with
      | nil => simp
      | cons x l ih =>
        intro hl hnd hm
        rw [List.flatMap_cons, mine_append]
        rw [List.nodup_cons] at hnd
        by_cases hx : x = v
        · subst hx
          have : mine w (l.flatMap fun v => B (g v)) = [] := by
            unfold mine
            rw [List.filter_flatMap, List.flatMap_eq_nil_iff]
            intro u hu
            exact hother u (hl u (by simp [hu])) fun e => hnd.1 (e ▸ hu)
          rw [this, List.append_nil]
        · rw [hother x (hl x (by simp)) hx, List.nil_append]
          exact ih (fun u hu => hl u (by simp [hu])) hnd.2 ((List.mem_cons.1 hm).resolve_left fun e => hx e.symm)
    exact (hflat H (fun _ hu => hu) (hM.filter _) hv).symm
  · intro w hw
    exact (h w hw).res w (hself w hw)

theorem allReduceSetup_joint (n : List Nat) {P : CPart} {axes : List Int} (hP : P.cart.WF)
    (hax : ∀ d ∈ axes, d < P.cart.shape.length) (hW : ∀ w ∈ P.cart.members, w ∈ W) :
    ∃ G, Joint W (allReduceSetup n P axes) (fun _ => ()) G := by
  by_cases hone : P.cart.members.length = 1
  · refine ⟨[], Joint.skip.congr fun w _ => ?_⟩
    unfold allReduceSetup
    rw [if_pos hone]
    split <;> rfl
  · have key := fun w (hw : w ∈ P.cart.members) => C25_groups P.cart hP axes hax w hw
    let g (w : Nat) : List Nat := match allreductionPartition P.cart axes w with
      | .value C => C.members
      | _ => []
    let B (m : List Nat) : List Op := [⟨.create P.comm m 0, .make (n ++ [0])⟩] ++
      ([⟨.on ⟨n ++ [0], m⟩, .cart (keptShape P.cart axes) (n ++ [1])⟩] ++ [⟨.on ⟨n ++ [0], m⟩, .free⟩])
    have hg : ∀ w ∈ P.cart.members, ∃ C, allreductionPartition P.cart axes w = .value C ∧ C.WF ∧ g w = C.members ∧
        C.shape = keptShape P.cart axes := by
      intro w hw
      obtain ⟨C, e, hC, -⟩ := key w hw
      refine ⟨C, e, hC, ?_, ?_⟩
      · show (match allreductionPartition P.cart axes w with | .value C => C.members | _ => []) = _
        rw [e]
      · rw [allreduction_eq hP hax hw] at e
        cases e
        rfl
    have hmem : ∀ w ∈ P.cart.members, ∀ u, u ∈ g w → u ∈ P.cart.members ∧ g u = g w := by
      intro w hw u hu
      obtain ⟨C, e, -, h3, -, h5⟩ := key w hw
      obtain ⟨C', e', -, e2, -⟩ := hg w hw
      rw [e] at e'
      cases e'
      rw [e2] at hu
      refine ⟨((h3 u).1 hu).1, ?_⟩
      show (match allreductionPartition P.cart axes u with | .value C => C.members | _ => []) = _
      rw [h5 u hu, e2]
    obtain ⟨G, hG⟩ := groups_joint (r := allReduceSetup n P axes) (B := B) hP.nodup g (fun w hw => by
        obtain ⟨C, e, -, h3, h4, h5⟩ := key w hw
        obtain ⟨C', e', -, e2, -⟩ := hg w hw
        rw [e] at e'
        cases e'
        rw [e2]
        exact h4) (fun w hw u hu => (hmem w hw u hu).1) (fun w hw u hu => (hmem w hw u hu).2) (by
        intro w hw
        obtain ⟨C, e, hC, e2, e3⟩ := hg w hw
        rw [e2]
        have hj : Joint C.members (fun w => call (.create P.comm C.members 0) (.make (n ++ [0])) >>= fun _ =>
            cartesian ⟨n ++ [0], C.members⟩ (n ++ [1]) C.shape w >>= fun _ => deactivate ⟨n ++ [0], C.members⟩ w)
            (fun _ => ()) (B C.members) := by
          show Joint _ _ _ ([_] ++ ([⟨_, .cart (keptShape P.cart axes) _⟩] ++ _))
          rw [← e3]
          exact Joint.seq (Joint.create P.comm C.members 0 _) (Joint.seq
            (cartesian_joint (c := ⟨n ++ [0], C.members⟩) hC.pos hC.size.symm fun _ h => h)
            (deactivate_joint (c := ⟨n ++ [0], C.members⟩) fun _ h => h))
        refine hj.congr fun u hu => ?_
        obtain ⟨C1, e1, -, h3, -, h5⟩ := key w hw
        rw [e] at e1
        cases e1
        unfold allReduceSetup
        rw [if_neg (not_not.2 ((h3 u).1 hu).1), if_neg hone, h5 u hu])
    refine ⟨G, (hG.unless hW).congr fun w _ => ?_⟩
    by_cases hw : w ∈ P.cart.members
    · rw [if_neg (not_not.2 hw)]
    · rw [if_pos hw]
      unfold allReduceSetup
      rw [if_pos hw]

end Verif.Build
