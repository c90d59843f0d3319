import Verif.Repartition.Model
import Verif.Slicing.Props
import Verif.Decomp.Props
import Verif.Partition.Props
import Verif.Buffer.Props
import Verif.Exchange.Props

/-! # Lemmas about repartition -/

namespace Verif

open Exchange

/-- Coordinates of a member. -/
def Cart.coord (P : Cart) (v : Nat) : List Nat := getCoords P.shape (P.members.idxOf v)

theorem Cart.index_eq {P : Cart} {v : Nat} (hv : v ∈ P.members) : P.index v = some (P.coord v) := by
  simp [Cart.index, rankOf, hv, cartesianIndex, Cart.coord]

theorem Cart.index_none {P : Cart} {v : Nat} (hv : v ∉ P.members) : P.index v = none := by
  simp [Cart.index, rankOf, hv]

/-- Closed form of one overlap. -/
def ovl (U s e : List Nat) (LB : Layout) (PB : Cart) (w v : Nat) : Overlap :=
  match intersectionSlice s e (LB.startAt (PB.coord v)) (LB.stopAt (PB.coord v)) with
  | none => ⟨none, [], .none⟩
  | some sl => ⟨some sl, sliceShape sl, if v = w then .self else .rank (U.idxOf v)⟩

theorem gatheredRanks_eq (U : List Nat) (P : Cart) : gatheredRanks U P =
    U.map fun v => match rankOf P.members v with
      | some r => [(r : Int)]
      | none => [-1] := by
  unfold gatheredRanks
  apply C29_allgather
  intro w _
  cases rankOf P.members w <;> rfl

theorem whereFirst_gathered {U : List Nat} {P : Cart} (hP : P.members.Nodup)
    {v : Nat} (hv : v ∈ P.members) (hvU : v ∈ U) :
    whereFirst (gatheredRanks U P) (P.members.idxOf v) = some (U.idxOf v) := by
  rw [gatheredRanks_eq]
  let f : Nat → List Int := fun v => match rankOf P.members v with
      | some r => [(r : Int)]
      | none => [-1]
  have hf : f v = [((P.members.idxOf v : Nat) : Int)] := by simp [f, rankOf, hv]
  have hinj : ∀ x ∈ U, f x = f v → x = v := by
    intro x _ hx
    rw [hf] at hx
    simp only [f] at hx
    cases hr : rankOf P.members x with
    | none => rw [hr] at hx; simp at hx
    | some r =>
      rw [hr] at hx
      have hr' : r = P.members.idxOf v := by simp at hx; omega
      have h1 := (rankOf_eq_some hP).1 hr
      have h2 : rankOf P.members v = some (P.members.idxOf v) := by simp [rankOf, hv]
      rw [rankOf_eq_some hP, ← hr', h1] at h2
      exact Option.some.inj h2
  unfold whereFirst
  change (if [((P.members.idxOf v : Nat) : Int)] ∈ U.map f then _ else _) = _
  rw [← hf, if_pos (List.mem_map.2 ⟨v, hvU, rfl⟩)]
  congr 1
  exact idxOf_map_of_inj f hvU hinj

theorem overlapList_eq {U s e : List Nat} {PB : Cart} {LB : Layout} {os oe : Table} {D : Nat}
    (hB : PB.WF) (hsub : ∀ v ∈ PB.members, v ∈ U)
    (hos : ∀ v ∈ PB.members, tableRow D os (PB.coord v) = LB.startAt (PB.coord v))
    (hoe : ∀ v ∈ PB.members, tableRow D oe (PB.coord v) = LB.stopAt (PB.coord v)) (w : Nat) :
    overlapList D s e PB.shape os oe (PB.index w) (gatheredRanks U PB) =
      some (PB.members.map (ovl U s e LB PB w)) := by
  unfold overlapList
  have hz : (rangeIndex PB.shape).zipIdx = PB.members.map fun v => (PB.coord v, PB.members.idxOf v) := by
    rw [← map_coords_members hB.nodup hB.size]
    apply List.ext_getElem
    · simp
    · intro i h1 h2
      have hi : i < PB.members.length := by simpa using h2
      simp only [List.getElem_zipIdx, List.getElem_map, Cart.coord, Nat.zero_add,
        hB.nodup.idxOf_getElem]
  rw [hz]
  rw [mapM_eq_some _ (fun p => ovl U s e LB PB w (PB.members.getD p.2 0)), List.map_map]
  · congr 1
    apply List.map_congr_left
    intro v hv
    simp only [Function.comp]
    rw [List.getD_eq_getElem?_getD, List.getElem?_eq_getElem (List.idxOf_lt_length_of_mem hv),
      List.getElem_idxOf]
    rfl
  · intro p hp
    obtain ⟨v, hv, rfl⟩ := List.mem_map.1 hp
    have hg : PB.members.getD (PB.members.idxOf v) 0 = v := by
      rw [List.getD_eq_getElem?_getD, List.getElem?_eq_getElem (List.idxOf_lt_length_of_mem hv),
        List.getElem_idxOf]
      rfl
    simp only [hg, hos v hv, hoe v hv, ovl]
    cases intersectionSlice s e (LB.startAt (PB.coord v)) (LB.stopAt (PB.coord v)) with
    | none => rfl
    | some sl =>
      simp only
      by_cases hw : v = w
      · subst hw
        rw [if_pos (Cart.index_eq hv), if_pos rfl]
      · have hne : PB.index w ≠ some (PB.coord v) := by
          intro h
          by_cases hwB : w ∈ PB.members
          · rw [Cart.index_eq hwB] at h
            exact hw (coords_inj hB hv hwB (Option.some.inj h).symm)
          · rw [Cart.index_none hwB] at h; cases h
        rw [if_neg hne, if_neg hw, whereFirst_gathered hB.nodup hv (hsub v hv)]
        rfl

/-! ## A transfer between two layouts in closed form -/

/-- Standing assumptions of a transfer. -/
structure XferOK (U : List Nat) (PA PB : Cart) (LA LB : Layout) : Prop where
  nodup : U.Nodup
  wfA : PA.WF
  wfB : PB.WF
  shA : LA.pshape = PA.shape
  shB : LB.pshape = PB.shape
  glob : LA.global = LB.global
  subA : ∀ v ∈ PA.members, v ∈ U
  subB : ∀ v ∈ PB.members, v ∈ U

theorem XferOK.symm {U : List Nat} {PA PB : Cart} {LA LB : Layout} (h : XferOK U PA PB LA LB) :
    XferOK U PB PA LB LA :=
  ⟨h.nodup, h.wfB, h.wfA, h.shB, h.shA, h.glob.symm, h.subB, h.subA⟩

/-- The overlaps worker `w` of `PA` has with the members of `PB`. -/
def ovls (U : List Nat) (PA : Cart) (LA : Layout) (PB : Cart) (LB : Layout) (w : Nat) :
    List Overlap :=
  PB.members.map (ovl U (LA.startAt (PA.coord w)) (LA.stopAt (PA.coord w)) LB PB w)

/-- The requests those overlaps lead to. -/
def reqOf (U : List Nat) (PA : Cart) (LA : Layout) (PB : Cart) (LB : Layout) (w v : Nat) :
    Option Nat :=
  if (intersectionSlice (LA.startAt (PA.coord w)) (LA.stopAt (PA.coord w))
      (LB.startAt (PB.coord v)) (LB.stopAt (PB.coord v))).isSome ∧ v ≠ w then some (U.idxOf v)
  else none

theorem requestsOf_ovls {U : List Nat} {PA PB : Cart} {LA LB : Layout} {w : Nat}
    {bs : List (Option Nat)}
    (hb : bs.map Option.isSome = (ovls U PA LA PB LB w).map Overlap.needsBuffer) :
    requestsOf (ovls U PA LA PB LB w) bs = PB.members.map (reqOf U PA LA PB LB w) := by
  have hlen : bs.length = PB.members.length := by
    have := congrArg List.length hb
    simpa [ovls] using this
  apply List.ext_getElem
  · simp [requestsOf, ovls, hlen]
  · intro i h1 h2
    have hi : i < PB.members.length := by simpa using h2
    have hbi : (bs[i]'(by omega)).isSome =
        (ovl U (LA.startAt (PA.coord w)) (LA.stopAt (PA.coord w)) LB PB w
          (PB.members[i])).needsBuffer := by
      have := congrArg (fun l => l[i]?) hb
      simp only [ovls, List.getElem?_map, List.getElem?_eq_getElem hi,
        List.getElem?_eq_getElem (show i < bs.length by omega), Option.map_some,
        Option.some.injEq] at this
      exact this
    simp only [requestsOf, ovls, List.getElem_zipWith, List.getElem_map, hbi]
    unfold ovl reqOf Overlap.needsBuffer
    cases intersectionSlice (LA.startAt (PA.coord w)) (LA.stopAt (PA.coord w))
      (LB.startAt (PB.coord (PB.members[i]))) (LB.stopAt (PB.coord (PB.members[i]))) with
    | none => simp
    | some sl =>
      by_cases hw : PB.members[i] = w
      · simp [hw]
      · simp [hw, Partner.rank?]

/-- What the transfer needs to know about the per-worker data left by setup. -/
structure XData (U : List Nat) (PA PB : Cart) (LA LB : Layout) (snd rcv : Nat → List Overlap)
    (sb rb : Nat → List (Option Nat)) : Prop where
  hsnd : ∀ w ∈ PA.members, snd w = ovls U PA LA PB LB w
  hrcv : ∀ w ∈ PB.members, rcv w = ovls U PB LB PA LA w
  hsb : ∀ w ∈ PA.members, (sb w).map Option.isSome = (snd w).map Overlap.needsBuffer
  hrb : ∀ w ∈ PB.members, (rb w).map Option.isSome = (rcv w).map Overlap.needsBuffer

/-- The one-phase program of a transfer. -/
def xprog {α : Type} (zero : α) (U : List Nat) (PA PB : Cart) (snd rcv : Nat → List Overlap)
    (sb rb : Nat → List (Option Nat)) (_ r : Nat) : Phase (XSt α) (List Nat → α) :=
  xferPhase zero (PA.members.contains (U.getD r 0)) (PB.members.contains (U.getD r 0))
    (snd (U.getD r 0)) (rcv (U.getD r 0)) (sb (U.getD r 0)) (rb (U.getD r 0))

section
variable {α : Type} {zero : α} {U : List Nat} {PA PB : Cart} {LA LB : Layout}
  {snd rcv : Nat → List Overlap} {sb rb : Nat → List (Option Nat)}

theorem xprog_sends (h : XData U PA PB LA LB snd rcv sb rb) (p r : Nat) :
    (xprog zero U PA PB snd rcv sb rb p r).sends =
      if U.getD r 0 ∈ PA.members then PB.members.map (reqOf U PA LA PB LB (U.getD r 0)) else [] := by
  unfold xprog xferPhase
  by_cases hw : U.getD r 0 ∈ PA.members
  · simp only [List.contains_iff_mem, hw, if_true]
    have := h.hsb _ hw
    rw [h.hsnd _ hw] at this ⊢
    exact requestsOf_ovls this
  · simp only [List.contains_iff_mem, hw, if_false]

theorem xprog_recvs (h : XData U PA PB LA LB snd rcv sb rb) (p r : Nat) :
    (xprog zero U PA PB snd rcv sb rb p r).recvs =
      if U.getD r 0 ∈ PB.members then PA.members.map (reqOf U PB LB PA LA (U.getD r 0)) else [] := by
  unfold xprog xferPhase
  by_cases hw : U.getD r 0 ∈ PB.members
  · simp only [List.contains_iff_mem, hw, if_true]
    have := h.hrb _ hw
    rw [h.hrcv _ hw] at this ⊢
    exact requestsOf_ovls this
  · simp only [List.contains_iff_mem, hw, if_false]

theorem coord_len {P : Cart} {L : Layout} (hs : L.pshape = P.shape) (v : Nat) :
    (P.coord v).length = L.length := by
  rw [Cart.coord, length_getCoords, ← hs, L.length_pshape]

theorem XferOK.len (h : XferOK U PA PB LA LB) : LA.length = LB.length := by
  rw [← LA.length_global, ← LB.length_global, h.glob]

theorem inter_isSome_comm (h : XferOK U PA PB LA LB) (w v : Nat) :
    (intersectionSlice (LA.startAt (PA.coord w)) (LA.stopAt (PA.coord w))
      (LB.startAt (PB.coord v)) (LB.stopAt (PB.coord v))).isSome ↔
    (intersectionSlice (LB.startAt (PB.coord v)) (LB.stopAt (PB.coord v))
      (LA.startAt (PA.coord w)) (LA.stopAt (PA.coord w))).isSome := by
  have a1 := LA.length_startAt (coord_len h.shA w)
  have a2 := LA.length_stopAt (coord_len h.shA w)
  have b1 := LB.length_startAt (coord_len h.shB v)
  have b2 := LB.length_stopAt (coord_len h.shB v)
  have hl := h.len
  have := (C03_symmetric (LA.startAt (PA.coord w)) (LA.stopAt (PA.coord w))
      (LB.startAt (PB.coord v)) (LB.stopAt (PB.coord v)) (by omega) (by omega) (by omega)).1
  rw [← not_iff_not, Bool.not_eq_true, Bool.not_eq_true, Option.isSome_eq_false_iff,
    Option.isSome_eq_false_iff, Option.isNone_iff_eq_none, Option.isNone_iff_eq_none]
  exact this

theorem mem_reqs {d : Nat} (hd : d < U.length) (w : Nat) :
    some d ∈ PB.members.map (reqOf U PA LA PB LB w) ↔
      U.getD d 0 ∈ PB.members ∧ reqOf U PA LA PB LB w (U.getD d 0) = some d := by
  have hget : U.getD d 0 = U[d] := by simp [List.getD_eq_getElem?_getD, hd]
  constructor
  · intro h
    obtain ⟨v, hv, hr⟩ := List.mem_map.1 h
    have hv' : U.idxOf v = d := by
      unfold reqOf at hr; split at hr
      · exact Option.some.inj hr
      · cases hr
    have : U.getD d 0 = v := by
      rw [hget]; subst hv'; exact List.getElem_idxOf hd
    rw [this]
    exact ⟨hv, hr⟩
  · rintro ⟨h1, h2⟩
    exact List.mem_map.2 ⟨_, h1, h2⟩

theorem count_map_le_one {β γ : Type} [BEq γ] [LawfulBEq γ] {l : List β} (hnd : l.Nodup) (f : β → γ) (c : γ)
    (hinj : ∀ x ∈ l, ∀ y ∈ l, f x = c → f y = c → x = y) : (l.map f).count c ≤ 1 := by
  induction l with
  | nil => simp
  | cons x xs ih =>
    obtain ⟨hx, hxs⟩ := List.nodup_cons.1 hnd
    rw [List.map_cons, List.count_cons]
    have ih' := ih hxs fun a ha b hb => hinj a (by simp [ha]) b (by simp [hb])
    by_cases hc : f x = c
    · have h0 : (xs.map f).count c = 0 := by
        rw [List.count_eq_zero]
        intro hm
        obtain ⟨y, hy, hyc⟩ := List.mem_map.1 hm
        exact hx (hinj x (by simp) y (by simp [hy]) hc hyc ▸ hy)
      rw [h0]; split <;> omega
    · have : (f x == c) = false := by simpa using hc
      simp only [this]
      simpa using ih'

theorem reqOf_some {w v d : Nat} (h : reqOf U PA LA PB LB w v = some d) : U.idxOf v = d := by
  unfold reqOf at h; split at h
  · exact Option.some.inj h
  · cases h

theorem getD_idxOf {l : List Nat} {v : Nat} (hv : v ∈ l) : l.getD (l.idxOf v) 0 = v := by
  rw [List.getD_eq_getElem?_getD, List.getElem?_eq_getElem (List.idxOf_lt_length_of_mem hv),
    List.getElem_idxOf]
  rfl

theorem idxOf_getD {l : List Nat} (hnd : l.Nodup) {r : Nat} (hr : r < l.length) :
    l.idxOf (l.getD r 0) = r := by
  rw [List.getD_eq_getElem?_getD, List.getElem?_eq_getElem hr, Option.getD_some,
    hnd.idxOf_getElem]

theorem reqs_once (hsub : ∀ v ∈ PB.members, v ∈ U) (hB : PB.members.Nodup) (w d : Nat) :
    (PB.members.map (reqOf U PA LA PB LB w)).count (some d) ≤ 1 := by
  apply count_map_le_one hB
  intro x hx y hy h1 h2
  have e1 := reqOf_some h1
  have e2 := reqOf_some h2
  exact (List.idxOf_inj (hsub x hx)).1 (by omega)

theorem xfer_matched (ok : XferOK U PA PB LA LB) (h : XData U PA PB LA LB snd rcv sb rb) :
    Matched (xprog zero U PA PB snd rcv sb rb) U.length 1 where
  agree := by
    intro p _ s hs d hd
    rw [xprog_sends h, xprog_recvs h]
    by_cases hw : U.getD s 0 ∈ PA.members
    · rw [if_pos hw, mem_reqs hd]
      by_cases hv : U.getD d 0 ∈ PB.members
      · rw [if_pos hv, mem_reqs hs]
        have hc := inter_isSome_comm ok (U.getD s 0) (U.getD d 0)
        unfold reqOf
        rw [idxOf_getD ok.nodup hd, idxOf_getD ok.nodup hs]
        by_cases he : U.getD d 0 = U.getD s 0
        · rw [if_neg (fun h => h.2 he), if_neg (fun h => h.2 he.symm)]; simp
        · have he' : ¬ U.getD s 0 = U.getD d 0 := fun h => he h.symm
          by_cases hi : (intersectionSlice (LA.startAt (PA.coord (U.getD s 0)))
              (LA.stopAt (PA.coord (U.getD s 0))) (LB.startAt (PB.coord (U.getD d 0)))
              (LB.stopAt (PB.coord (U.getD d 0)))).isSome
          · rw [if_pos ⟨hi, he⟩, if_pos ⟨hc.1 hi, he'⟩]; exact ⟨fun _ => ⟨hw, rfl⟩, fun _ => ⟨hv, rfl⟩⟩
          · rw [if_neg (fun h => hi h.1), if_neg (fun h => hi (hc.2 h.1))]; simp
      · rw [if_neg hv]
        simp only [List.not_mem_nil, iff_false]
        exact fun h => hv h.1
    · rw [if_neg hw]
      simp only [List.not_mem_nil, false_iff]
      split
      · intro hm
        exact hw ((mem_reqs hs _).1 hm).1
      · simp
  sends_once := by
    intro p _ s _ d
    rw [xprog_sends h]
    split
    · exact reqs_once ok.subB ok.wfB.nodup _ _
    · simp
  recvs_once := by
    intro p _ s _ d
    rw [xprog_recvs h]
    split
    · exact reqs_once ok.subA ok.wfA.nodup _ _
    · simp
  sends_range := by
    intro p _ s _ d hm
    rw [xprog_sends h] at hm
    split at hm
    · obtain ⟨v, hv, hr⟩ := List.mem_map.1 hm
      rw [← reqOf_some hr]
      exact List.idxOf_lt_length_of_mem (ok.subB v hv)
    · simp at hm
  recvs_range := by
    intro p _ s _ d hm
    rw [xprog_recvs h] at hm
    split at hm
    · obtain ⟨v, hv, hr⟩ := List.mem_map.1 hm
      rw [← reqOf_some hr]
      exact List.idxOf_lt_length_of_mem (ok.subA v hv)
    · simp at hm

/-- Slices of different sources within one block are disjoint. -/
theorem slices_disjoint (ok : XferOK U PA PB LA LB) {w u u' : Nat}
    (hu : u ∈ PA.members) (hu' : u' ∈ PA.members) {sl sl' : Slices}
    (h1 : (ovl U (LB.startAt (PB.coord w)) (LB.stopAt (PB.coord w)) LA PA w u).sl = some sl)
    (h2 : (ovl U (LB.startAt (PB.coord w)) (LB.stopAt (PB.coord w)) LA PA w u').sl = some sl')
    {l : List Nat} (hl : InSlices sl l) (hl' : InSlices sl' l) : u = u' := by
  have hl0 := ok.len
  have key : ∀ {u : Nat} {sl : Slices}, u ∈ PA.members →
      (ovl U (LB.startAt (PB.coord w)) (LB.stopAt (PB.coord w)) LA PA w u).sl = some sl →
      InSlices sl l → InBox (LA.startAt (PA.coord u)) (LA.stopAt (PA.coord u))
        (shiftBy (LB.startAt (PB.coord w)) l) := by
    intro u sl hu h hl
    unfold ovl at h
    split at h
    · cases h
    · rename_i sl0 hsl
      simp only [Option.some.injEq] at h
      subst h
      have a1 := LA.length_startAt (coord_len ok.shA u)
      have a2 := LA.length_stopAt (coord_len ok.shA u)
      have b1 := LB.length_startAt (coord_len ok.shB w)
      have b2 := LB.length_stopAt (coord_len ok.shB w)
      exact ((C03_slice_cells _ _ _ _ (by omega) (by omega) (by omega) _ hsl l).1 hl).2.2
  have k1 := key hu h1 hl
  have k2 := key hu' h2 hl'
  have ib1 : InBounds (PA.coord u) LA.pshape := by rw [ok.shA]; exact coords_inBounds ok.wfA hu
  have ib2 : InBounds (PA.coord u') LA.pshape := by rw [ok.shA]; exact coords_inBounds ok.wfA hu'
  have hg := (LA.unique_owner (shiftBy (LB.startAt (PB.coord w)) l)).2 _ ib1 k1
  obtain ⟨i, _, hi⟩ := (LA.unique_owner _).1 hg
  have e1 := hi _ ⟨ib1, k1⟩
  have e2 := hi _ ⟨ib2, k2⟩
  exact coords_inj ok.wfA hu hu' (e1.trans e2.symm)

theorem xfer_commutes (ok : XferOK U PA PB LA LB) (h : XData U PA PB LA LB snd rcv sb rb) :
    Commutes (xprog zero U PA PB snd rcv sb rb) U.length 1 := by
  intro p _ r _ i j a b hij hi hj m m' x
  rw [xprog_recvs h] at hi hj
  split at hi
  · rename_i hw
    simp only [hw, if_true] at hj
    simp only [xprog, xferPhase, h.hrcv _ hw]
    simp only [List.getElem?_map, Option.map_eq_some_iff] at hi hj
    obtain ⟨u, hu, hu2⟩ := hi
    obtain ⟨u', hu', hu2'⟩ := hj
    have hne : u ≠ u' := by
      intro he; subst he
      rw [List.getElem?_eq_some_iff] at hu hu'
      obtain ⟨q1, e1⟩ := hu
      obtain ⟨q2, e2⟩ := hu'
      exact hij ((ok.wfA.nodup).getElem_inj_iff.1 (e1.trans e2.symm))
    simp only [ovls, List.getElem?_map, hu, hu', Option.map_some]
    cases ho : ovl U (LB.startAt (PB.coord (U.getD r 0))) (LB.stopAt (PB.coord (U.getD r 0))) LA PA
      (U.getD r 0) u with
    | mk s1 _ _ =>
      cases ho' : ovl U (LB.startAt (PB.coord (U.getD r 0))) (LB.stopAt (PB.coord (U.getD r 0))) LA
        PA (U.getD r 0) u' with
      | mk s2 _ _ =>
        cases s1 with
        | none => cases s2 <;> rfl
        | some sl =>
          cases s2 with
          | none => rfl
          | some sl' =>
            simp only [XSt.mk.injEq, true_and]
            funext l
            simp only [writeSlice]
            by_cases h1 : InSlices sl l
            · have h2 : ¬ InSlices sl' l := by
                intro h2
                exact hne (slices_disjoint ok (List.mem_of_getElem? hu) (List.mem_of_getElem? hu')
                  (by rw [ho]) (by rw [ho']) h1 h2)
              simp [h1, h2]
            · simp [h1]
  · simp at hi

/-! ### The result -/

theorem zipWith_shift {s l : List Nat} : ∀ {t : List Nat}, s.length = t.length → t.length = l.length →
    (∀ i, t.getD i 0 ≤ l.getD i 0) →
    shiftBy s (shiftBy t (List.zipWith (· - ·) l t)) = shiftBy s l := by
  induction s generalizing l with
  | nil => intro t h1 _ _; cases t <;> simp_all [shiftBy]
  | cons a as ih =>
    intro t h1 h2 h3
    cases t with
    | nil => simp at h1
    | cons b bs =>
      cases l with
      | nil => simp at h2
      | cons c cs =>
        simp only [List.zipWith_cons_cons, shiftBy, List.cons.injEq]
        have h0 := h3 0
        simp at h0
        refine ⟨by omega, ih (by simpa using h1) (by simpa using h2) fun i => ?_⟩
        simpa using h3 (i + 1)

theorem shift_assoc (a b c : List Nat) : shiftBy (shiftBy a b) c = shiftBy a (shiftBy b c) := by
  induction a generalizing b c with
  | nil => simp [shiftBy]
  | cons x xs ih =>
    cases b with
    | nil => simp [shiftBy]
    | cons y ys =>
      cases c with
      | nil => simp [shiftBy]
      | cons z zs => simp [shiftBy, ih, Nat.add_assoc]

theorem inSlices_le {sl : Slices} {l : List Nat} (h : InSlices sl l) :
    (sl.map Prod.fst).length = l.length ∧ ∀ i, (sl.map Prod.fst).getD i 0 ≤ l.getD i 0 := by
  induction sl generalizing l with
  | nil => cases l with
    | nil => simp
    | cons _ _ => exact h.elim
  | cons p ps ih =>
    cases l with
    | nil => exact h.elim
    | cons c cs =>
      obtain ⟨h1, h2⟩ := h
      obtain ⟨e1, e2⟩ := ih h2
      refine ⟨by simpa using e1, fun i => ?_⟩
      cases i with
      | zero => simpa using h1.1
      | succ i => simpa using e2 i

/-- What a receiver writes for one source is the right value. -/
theorem moved_value (ok : XferOK U PA PB LA LB) {X : List Nat → α} {w u : Nat} {a b : List Nat → α}
    (ha : ∀ l, InBounds l (LA.shapeAt (PA.coord u)) → a l = X (shiftBy (LA.startAt (PA.coord u)) l))
    {slA slB : Slices}
    (hA : intersectionSlice (LA.startAt (PA.coord u)) (LA.stopAt (PA.coord u))
      (LB.startAt (PB.coord w)) (LB.stopAt (PB.coord w)) = some slA)
    (hB : intersectionSlice (LB.startAt (PB.coord w)) (LB.stopAt (PB.coord w))
      (LA.startAt (PA.coord u)) (LA.stopAt (PA.coord u)) = some slB) (l : List Nat) :
    writeSlice slB (readSlice slA a) b l =
      if InBox (LA.startAt (PA.coord u)) (LA.stopAt (PA.coord u))
          (shiftBy (LB.startAt (PB.coord w)) l) ∧ InBounds l (LB.shapeAt (PB.coord w)) then
        X (shiftBy (LB.startAt (PB.coord w)) l)
      else b l := by
  have a1 := LA.length_startAt (coord_len ok.shA u)
  have a2 := LA.length_stopAt (coord_len ok.shA u)
  have b1 := LB.length_startAt (coord_len ok.shB w)
  have b2 := LB.length_stopAt (coord_len ok.shB w)
  have hl0 := ok.len
  have hcells := C03_slice_cells _ _ _ _ (by omega) (by omega) (by omega) _ hB l
  have hsym := (C03_symmetric (LA.startAt (PA.coord u)) (LA.stopAt (PA.coord u))
      (LB.startAt (PB.coord w)) (LB.stopAt (PB.coord w)) (by omega) (by omega) (by omega)).2 _ _ hA hB
  have hsh := LB.inBox_shift (l := l) (coord_len ok.shB w)
  unfold writeSlice
  by_cases hin : InSlices slB l
  · obtain ⟨h1, h2, h3⟩ := hcells.1 hin
    rw [if_pos hin, if_pos ⟨h3, hsh.1 ⟨by omega, h2⟩⟩]
    obtain ⟨hlen, hle⟩ := inSlices_le hin
    have heq : shiftBy (LA.startAt (PA.coord u)) (shiftBy (slA.map Prod.fst)
        (List.zipWith (· - ·) l (slB.map Prod.fst))) = shiftBy (LB.startAt (PB.coord w)) l := by
      rw [← shift_assoc, hsym.2, shift_assoc]
      exact zipWith_shift (by omega) hlen hle
    have hlen2 : (shiftBy (slA.map Prod.fst)
        (List.zipWith (· - ·) l (slB.map Prod.fst))).length = LA.length := by
      have hsl : slA.length = slB.length := by
        have := congrArg List.length hsym.1
        simpa [sliceShape] using this
      rw [length_shiftBy]
      · simp at hlen ⊢; omega
      · simp at hlen ⊢; omega
    unfold readSlice
    rw [ha, heq]
    rw [← LA.inBox_shift (coord_len ok.shA u)]
    exact ⟨hlen2, by rw [heq]; exact h3⟩
  · rw [if_neg hin, if_neg]
    rintro ⟨h3, h2⟩
    obtain ⟨e1, e2⟩ := hsh.2 h2
    exact hin (hcells.2 ⟨by omega, e2, h3⟩)

theorem find_self {v w : Nat} (hw : w ∈ PB.members) {s e : List Nat}
    (hvw : v = w) :
    (PB.members.map (ovl U s e LB PB v)).find? (fun o => decide (o.partner = .self)) =
      if (ovl U s e LB PB v w).partner = .self then some (ovl U s e LB PB v w) else none := by
  subst hvw
  have hnot : ∀ x, x ≠ v → (ovl U s e LB PB v x).partner ≠ .self := by
    intro x hx
    unfold ovl
    split
    · simp
    · simp [hx]
  generalize PB.members = ms at hw
  induction ms with
  | nil => simp at hw
  | cons x xs ih =>
    rw [List.map_cons, List.find?_cons]
    by_cases hx : x = v
    · subst hx
      by_cases hp : (ovl U s e LB PB x x).partner = .self
      · simp [hp]
      · simp only [hp, decide_false, if_false]
        rw [List.find?_eq_none]
        intro o ho
        obtain ⟨y, hy, rfl⟩ := List.mem_map.1 ho
        by_cases hyx : y = x
        · subst hyx; simpa using hp
        · simpa using hnot y hyx
    · simp only [hnot x hx, decide_false]
      exact ih (by simpa [Ne.symm hx] using hw)

/-- The result of a transfer in the reference semantics: the receiver holds its block of the global
tensor. -/
theorem xfer_lock (ok : XferOK U PA PB LA LB) (h : XData U PA PB LA LB snd rcv sb rb)
    (X : List Nat → α) (st0 : Nat → XSt α)
    (hst : ∀ u ∈ PA.members, ∀ l, InBounds l (LA.shapeAt (PA.coord u)) →
      (st0 (U.idxOf u)).inp l = X (shiftBy (LA.startAt (PA.coord u)) l))
    {w : Nat} (hw : w ∈ PB.members) (l : List Nat) (hl : InBounds l (LB.shapeAt (PB.coord w))) :
    (lock (xprog zero U PA PB snd rcv sb rb) st0 1 (U.idxOf w)).out l =
      X (shiftBy (LB.startAt (PB.coord w)) l) := by
  have hgw : U.getD (U.idxOf w) 0 = w := getD_idxOf (ok.subB w hw)
  have hrec : (xprog zero U PA PB snd rcv sb rb 0 (U.idxOf w)).recvs =
      PA.members.map (reqOf U PB LB PA LA w) := by
    rw [xprog_recvs h, hgw, if_pos hw]
  -- the owner of the cell
  have hbox : InBox (LB.startAt (PB.coord w)) (LB.stopAt (PB.coord w))
      (shiftBy (LB.startAt (PB.coord w)) l) := ((LB.inBox_shift (coord_len ok.shB w)).2 hl).2
  have hgl : InBounds (shiftBy (LB.startAt (PB.coord w)) l) LA.global := by
    rw [ok.glob]
    exact (LB.unique_owner _).2 _ (by rw [ok.shB]; exact coords_inBounds ok.wfB hw) hbox
  obtain ⟨c, ⟨hc1, hc2⟩, _⟩ := (LA.unique_owner _).1 hgl
  obtain ⟨u0, hu0, hcu⟩ : ∃ u0 ∈ PA.members, PA.coord u0 = c := by
    rw [ok.shA] at hc1
    have hlt : flatC PA.shape c < PA.members.length := by rw [ok.wfA.size]; exact flatC_lt hc1
    refine ⟨PA.members[flatC PA.shape c], List.getElem_mem hlt, ?_⟩
    rw [Cart.coord, ok.wfA.nodup.idxOf_getElem, getCoords_flatC hc1]
  subst hcu
  -- one write
  have hwrite : ∀ u ∈ PA.members, u ≠ w → ∀ (k : Nat), PA.members[k]? = some u → ∀ x : XSt α,
      ((match (xprog zero U PA PB snd rcv sb rb 0 (U.idxOf w)).recvs[k]? with
        | some (some s) =>
          (xprog zero U PA PB snd rcv sb rb 0 (U.idxOf w)).unpack k
            ((xprog zero U PA PB snd rcv sb rb 0 s).pack
              ((xprog zero U PA PB snd rcv sb rb 0 s).sends.idxOf (some (U.idxOf w)))
              (lock (xprog zero U PA PB snd rcv sb rb) st0 0 s)) x
        | _ => x).out l) =
      if InBox (LA.startAt (PA.coord u)) (LA.stopAt (PA.coord u))
        (shiftBy (LB.startAt (PB.coord w)) l) then X (shiftBy (LB.startAt (PB.coord w)) l)
      else x.out l := by
    intro u hu huw k hk x
    rw [hrec, List.getElem?_map, hk, Option.map_some]
    have a1 := LA.length_startAt (coord_len ok.shA u)
    have a2 := LA.length_stopAt (coord_len ok.shA u)
    have b1 := LB.length_startAt (coord_len ok.shB w)
    have b2 := LB.length_stopAt (coord_len ok.shB w)
    have hl0 := ok.len
    cases hB : intersectionSlice (LB.startAt (PB.coord w)) (LB.stopAt (PB.coord w))
        (LA.startAt (PA.coord u)) (LA.stopAt (PA.coord u)) with
    | none =>
      have hno := (C03_none_iff _ _ _ _ (by omega) (by omega) (by omega)).1 hB
      have hr : reqOf U PB LB PA LA w u = none := by simp [reqOf, hB]
      rw [hr, if_neg]
      exact fun hin => hno ⟨_, hbox, hin⟩
    | some slB =>
      have hr : reqOf U PB LB PA LA w u = some (U.idxOf u) := by simp [reqOf, hB, huw]
      rw [hr]
      simp only
      have hgu : U.getD (U.idxOf u) 0 = u := getD_idxOf (ok.subA u hu)
      obtain ⟨slA, hA⟩ : ∃ slA, intersectionSlice (LA.startAt (PA.coord u)) (LA.stopAt (PA.coord u))
          (LB.startAt (PB.coord w)) (LB.stopAt (PB.coord w)) = some slA := by
        have := (inter_isSome_comm ok u w).2 (by rw [hB]; rfl)
        exact Option.isSome_iff_exists.1 this
      have hr2 : reqOf U PA LA PB LB u w = some (U.idxOf w) := by
        simp [reqOf, hA, Ne.symm huw]
      have hslot : (xprog zero U PA PB snd rcv sb rb 0 (U.idxOf u)).sends.idxOf (some (U.idxOf w)) =
          PB.members.idxOf w := by
        rw [xprog_sends h, hgu, if_pos hu, ← hr2]
        refine idxOf_map_of_inj (reqOf U PA LA PB LB u) hw fun y hy he => ?_
        rw [hr2] at he
        exact (List.idxOf_inj (ok.subB y hy)).1 (reqOf_some he)
      rw [hslot]
      have hsnd : (snd u)[PB.members.idxOf w]? = some ⟨some slA, sliceShape slA,
          .rank (U.idxOf w)⟩ := by
        rw [h.hsnd u hu, ovls, List.getElem?_map,
          List.getElem?_eq_getElem (List.idxOf_lt_length_of_mem hw), List.getElem_idxOf,
          Option.map_some]
        simp [ovl, hA, Ne.symm huw]
      have hrcv : (rcv w)[k]? = some ⟨some slB, sliceShape slB, .rank (U.idxOf u)⟩ := by
        rw [h.hrcv w hw, ovls, List.getElem?_map, hk, Option.map_some]
        simp [ovl, hB, huw]
      have hlk : lock (xprog zero U PA PB snd rcv sb rb) st0 0 (U.idxOf u) = st0 (U.idxOf u) := by
        rw [lock]
      rw [hlk]
      simp only [xprog, xferPhase, hgu, hgw, hsnd, hrcv]
      rw [moved_value ok (X := X) (w := w) (u := u) (hst u hu) hA hB]
      simp [hl]
  have hwself : ∀ (k : Nat), PA.members[k]? = some w → ∀ x : XSt α,
      (match (xprog zero U PA PB snd rcv sb rb 0 (U.idxOf w)).recvs[k]? with
        | some (some s) =>
          (xprog zero U PA PB snd rcv sb rb 0 (U.idxOf w)).unpack k
            ((xprog zero U PA PB snd rcv sb rb 0 s).pack
              ((xprog zero U PA PB snd rcv sb rb 0 s).sends.idxOf (some (U.idxOf w)))
              (lock (xprog zero U PA PB snd rcv sb rb) st0 0 s)) x
        | _ => x) = x := by
    intro k hk x
    rw [hrec, List.getElem?_map, hk, Option.map_some]
    have hr : reqOf U PB LB PA LA w w = none := by simp [reqOf]
    rw [hr]
  -- the local work
  have hwork : w ∈ PA.members → InBox (LA.startAt (PA.coord w)) (LA.stopAt (PA.coord w))
      (shiftBy (LB.startAt (PB.coord w)) l) → ∀ x : XSt α, x.inp = (st0 (U.idxOf w)).inp →
      ((xprog zero U PA PB snd rcv sb rb 0 (U.idxOf w)).work x).out l =
        X (shiftBy (LB.startAt (PB.coord w)) l) := by
    intro hwA hin x hx
    have a1 := LA.length_startAt (coord_len ok.shA w)
    have a2 := LA.length_stopAt (coord_len ok.shA w)
    have b1 := LB.length_startAt (coord_len ok.shB w)
    have b2 := LB.length_stopAt (coord_len ok.shB w)
    have hl0 := ok.len
    obtain ⟨slA, hA⟩ : ∃ slA, intersectionSlice (LA.startAt (PA.coord w)) (LA.stopAt (PA.coord w))
        (LB.startAt (PB.coord w)) (LB.stopAt (PB.coord w)) = some slA := by
      rw [← Option.isSome_iff_exists, Option.isSome_iff_ne_none]
      intro hn
      exact (C03_none_iff _ _ _ _ (by omega) (by omega) (by omega)).1 hn ⟨_, hin, hbox⟩
    obtain ⟨slB, hB⟩ := Option.isSome_iff_exists.1 ((inter_isSome_comm ok w w).1 (by rw [hA]; rfl))
    have f1 := find_self (U := U) (LB := LB) (s := LA.startAt (PA.coord w))
      (e := LA.stopAt (PA.coord w)) hw (rfl : w = w)
    have f2 := find_self (U := U) (LB := LA) (s := LB.startAt (PB.coord w))
      (e := LB.stopAt (PB.coord w)) hwA (rfl : w = w)
    have o1 : ovl U (LA.startAt (PA.coord w)) (LA.stopAt (PA.coord w)) LB PB w w =
        ⟨some slA, sliceShape slA, .self⟩ := by simp [ovl, hA]
    have o2 : ovl U (LB.startAt (PB.coord w)) (LB.stopAt (PB.coord w)) LA PA w w =
        ⟨some slB, sliceShape slB, .self⟩ := by simp [ovl, hB]
    rw [o1] at f1
    rw [o2] at f2
    simp only [if_true] at f1 f2
    have hwA' : PA.members.contains w = true := by simpa using hwA
    have hwB' : PB.members.contains w = true := by simpa using hw
    simp only [xprog, xferPhase, hgw, hwA', hwB', if_true, Bool.and_true, selfCopy,
      h.hsnd w hwA, h.hrcv w hw, ovls, f1, f2]
    rw [moved_value ok (X := X) (w := w) (u := w) (by rw [hx]; exact hst w hwA) hA hB]
    simp [hin, hl]
  -- put together
  rw [lock]
  rw [hrec, List.length_map]
  have hfold : ∀ (n : Nat), n ≤ PA.members.length → ∀ x0 : XSt α,
      (((∃ k, k < n ∧ ∃ u, PA.members[k]? = some u ∧ u ≠ w ∧
          InBox (LA.startAt (PA.coord u)) (LA.stopAt (PA.coord u))
            (shiftBy (LB.startAt (PB.coord w)) l)) ∨
        x0.out l = X (shiftBy (LB.startAt (PB.coord w)) l)) →
      ((List.range n).foldl (fun x k =>
        match (PA.members.map (reqOf U PB LB PA LA w))[k]? with
        | some (some s) =>
          (xprog zero U PA PB snd rcv sb rb 0 (U.idxOf w)).unpack k
            ((xprog zero U PA PB snd rcv sb rb 0 s).pack
              ((xprog zero U PA PB snd rcv sb rb 0 s).sends.idxOf (some (U.idxOf w)))
              (lock (xprog zero U PA PB snd rcv sb rb) st0 0 s)) x
        | _ => x) x0).out l = X (shiftBy (LB.startAt (PB.coord w)) l)) := by
    intro n
    induction n with
    | zero =>
      intro _ x0 hor
      rcases hor with ⟨k, hk, _⟩ | hx
      · omega
      · exact hx
    | succ n ih =>
      intro hn x0 hor
      rw [List.range_succ, List.foldl_append]
      simp only [List.foldl_cons, List.foldl_nil]
      have hk : PA.members[n]? = some PA.members[n] := List.getElem?_eq_getElem (by omega)
      rw [← hrec]
      by_cases hun : PA.members[n] = w
      · rw [hwself n (by rw [hk, hun])]
        rw [hrec]
        apply ih (by omega)
        rcases hor with ⟨k, hkn, u, hu, huw, hin⟩ | hx
        · left
          refine ⟨k, ?_, u, hu, huw, hin⟩
          rcases Nat.lt_succ_iff_lt_or_eq.1 hkn with h | h
          · exact h
          · subst h
            rw [hk] at hu
            exact absurd (Option.some.inj hu ▸ hun) huw
        · exact Or.inr hx
      · rw [hwrite _ (List.getElem_mem (by omega)) hun n hk]
        split
        · rfl
        · rename_i hnin
          rw [hrec]
          apply ih (by omega)
          rcases hor with ⟨k, hkn, u, hu, huw, hin⟩ | hx
          · left
            refine ⟨k, ?_, u, hu, huw, hin⟩
            rcases Nat.lt_succ_iff_lt_or_eq.1 hkn with h | h
            · exact h
            · subst h
              rw [hk] at hu
              exact absurd (Option.some.inj hu ▸ hin) hnin
          · exact Or.inr hx
  apply hfold PA.members.length (Nat.le_refl _)
  by_cases huw : u0 = w
  · right
    subst huw
    exact hwork hu0 hc2 _ (by rw [lock])
  · left
    exact ⟨PA.members.idxOf u0, List.idxOf_lt_length_of_mem hu0, u0, by
      rw [List.getElem?_eq_getElem (List.idxOf_lt_length_of_mem hu0), List.getElem_idxOf], huw, hc2⟩

end

end Verif
