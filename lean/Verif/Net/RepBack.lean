import Verif.Net.DenseBack

/-!
# Networks: the adjoint of repartition

`functional/repartition.py:214-351` as a program of the network machine.
-/

namespace Verif.Net

open Exchange (lock)

variable {F β : Type}

/-- The gradients at the beginning of the exchange. -/
def repBackStart (Px Py : Cart) (B : Bufs β) (T : List (NSt F)) : Nat → NSt F → Phase (NSt F) (NMsg F) :=
  localPhase fun w x =>
    if w ∈ groupUnion Px.members Py.members then
      match T[0]?.bind fun A => repAt Px Py B A w with
      | some _ => arrLens.set ⟨x.t.val, x.t.val⟩ x
      | none => { x with err := true }
    else x

/-- `functional/repartition.py:279-343`: the roles of the partitions are exchanged, the lists of overlaps and the
buffers are those of setup. -/
def repBackStep [Zero F] (Px Py : Cart) (B : Bufs β) (T : List (NSt F)) (w : Nat) : Exchange.Phase (XSt F) (List Nat → F) :=
  match T[0]?.bind fun A => repAt Px Py B A w with
  | some s => xferPhase 0 (Py.members.contains w) (Px.members.contains w) s.yx s.xy s.ybufs s.xbufs
  | none => xferPhase 0 false false [] [] [] []

/-- The same as a phase of the network; all messages have one tag. -/
def repBackPhase [Zero F] (c : Nat) (Px Py : Cart) (B : Bufs β) (T : List (NSt F)) : Nat → NSt F → Phase (NSt F) (NMsg F) :=
  liftPhase (groupUnion Px.members Py.members) (fun _ => c) (fun _ => c) arrLens arrInj .none fun w _ => repBackStep Px Py B T w

/-- The result (`functional/repartition.py:270-277, 308-310, 345-351`): an array of the shape of the input, or a tensor
without entries. -/
def repBackResult [AddCommMonoid F] (Px Py : Cart) (pb : Bool) (A x : NSt F) (w : Nat) : Option (Tensor F × Bool) :=
  match zeroVolume pb x.t, assembleGlobal Px (some (groupUnion Px.members Py.members)) A.info w with
  | some z, .value gs =>
    some (if w ∈ Px.members then ⟨A.t.shape, gs.dtype, x.arr.out⟩ else ⟨z.shape, gs.dtype, z.val⟩, A.rg)
  | _, _ => none

/-- The end of the adjoint: the result becomes the gradient (`functional/repartition.py:268-275`, `345-351`). -/
def repBackEnd [AddCommMonoid F] (Px Py : Cart) (pb : Bool) (T : List (NSt F)) : Nat → NSt F → Phase (NSt F) (NMsg F) :=
  localPhase fun w x =>
    if w ∈ groupUnion Px.members Py.members then
      match T[0]?.bind fun A => repBackResult Px Py pb A x w with
      | some y => tenLens.set y x
      | none => { x with err := true }
    else x

/-- `functional/repartition.py:214-351` `backward`.  The tape: after setup, before setup. -/
def repBack [AddCommMonoid F] (c : Nat) (Px Py : Cart) (pb : Bool) (B : Bufs β) : CProg (List (NSt F)) (NSt F) (NMsg F) :=
  [repBackStart Px Py B, repBackPhase c Px Py B, repBackEnd Px Py pb]

/-- The forward pass, cut. -/
def repCuts [AddCommMonoid F] (c : Nat) (Px Py : Cart) (pb : Bool) (B : Bufs β) : List (Prog (NSt F) (NMsg F)) :=
  [setupUnionProg c Px (groupUnion Px.members Py.members),
    [flagPhase c (groupUnion Px.members Py.members) (Px.members.getD 0 0), repStart Px Py B, repPhase c Px Py B,
      repEnd Px Py pb B]]

variable [AddCommMonoid F] {W : List Nat} {Px Py : Cart} {L : Layout} {t : TorchDtype} {X Y : List Nat → F}
  {S G : Nat → NSt F} {T : Nat → List (NSt F)}

theorem repCuts_flatten (c : Nat) (pb : Bool) (B : Bufs β) :
    (repCuts c Px Py pb B : List (Prog (NSt F) (NMsg F))).flatten = repProg c Px Py pb B := by
  simp [repCuts, repProg]

theorem repBack_run (c : Nat) (pb : Bool) (B : Bufs β) (hf : RepFits Px Py L) (hx : ∀ w ∈ Px.members, w ∈ W)
    (hy : ∀ w ∈ Py.members, w ∈ W) (h : Holds W Px L t X S)
    (hG : HoldsG W Py (Layout.balanced Py.shape L.global) t Y G)
    (hT : ∀ w ∈ W, ∃ rest, T w = snaps (repCuts c Px Py pb B) S w ++ rest) :
    ProgOK W ((repBack c Px Py pb B).at T) G ∧ HoldsG W Px L t Y (run ((repBack c Px Py pb B).at T) G) := by
  obtain ⟨U, hUe⟩ : ∃ U, U = groupUnion Px.members Py.members := ⟨_, rfl⟩
  have hmemU : ∀ w, w ∈ U ↔ w ∈ Px.members ∨ w ∈ Py.members := fun w => by rw [hUe]; exact mem_groupUnion
  have hU : ∀ w ∈ U, w ∈ W := fun w hw => ((hmemU w).1 hw).elim (hx w) (hy w)
  obtain ⟨rg, hrg⟩ := h.parts
  have hv : RepValid Px Py L (gathered Px S) t rg := by
    refine ⟨hf.wfx, hf.wfy, hf.layout, hf.dims, hf.pos, hf.ones, fun v hv idx hi => ?_⟩
    rw [Cart.index_eq hv] at hi
    cases hi
    rw [gathered_own hv, hrg v hv]
  obtain ⟨Sx, hS⟩ := (C13_setup_succeeds hv B.junk B.ops).1
  have hroot : Px.members.getD 0 0 ∈ Px.members ∧ Px.members.head? = some (Px.members.getD 0 0) := by
    obtain ⟨w0, h0, hm⟩ := hf.wfx.head
    have e : Px.members.getD 0 0 = w0 := by
      rw [List.head?_eq_getElem?] at h0
      rw [List.getD_eq_getElem?_getD, h0]
      rfl
    exact ⟨e ▸ hm, e ▸ h0⟩
  -- the tape
  obtain ⟨-, f1, i1⟩ := setupUnion_run c hf.wfx hU (fun w hw => (hmemU w).2 (Or.inl hw)) S
  have hsn : ∀ w, snaps (repCuts c Px Py pb B) S w = [run (setupUnionProg c Px U) S w, S w] := fun w => by
    subst hUe
    rfl
  simp only [hsn] at hT
  generalize run (setupUnionProg c Px U) S = S1 at f1 i1 hT
  have hT0 : ∀ w ∈ W, (T w)[0]? = some (S1 w) := by
    intro w hw
    obtain ⟨rest, e⟩ := hT w hw
    rw [e]
    rfl
  have hat : ∀ w ∈ U, ((T w)[0]?.bind fun A => repAt Px Py B A w) = some (Sx w) := by
    intro w hw
    rw [hT0 w (hU w hw), Option.bind_some]
    unfold repAt
    rw [i1 w hw, hS w (hUe ▸ hw)]
  -- start
  let p1 : Nat → NSt F → Phase (NSt F) (NMsg F) := fun u => repBackStart Px Py B (T u) u
  let p2 : Nat → NSt F → Phase (NSt F) (NMsg F) := fun u => repBackPhase c Px Py B (T u) u
  let p3 : Nat → NSt F → Phase (NSt F) (NMsg F) := fun u => repBackEnd Px Py pb (T u) u
  have o1 : PhaseOK W p1 G := localPhase_ok fun w y => (p1 w y).work y
  have r1 : ∀ w ∈ W, sync p1 G w = if w ∈ U then arrLens.set ⟨(G w).t.val, (G w).t.val⟩ (G w) else G w := by
    intro w hw
    show (if w ∈ groupUnion Px.members Py.members then _ else _) = _
    rw [← hUe]
    split
    · next hm => rw [hat w hm]
    · rfl
  generalize hG1 : sync p1 G = G1 at r1
  -- exchange
  have hd := hS.bwd hv
  have ok := hv.ok.symm
  have hnd : U.Nodup := hUe ▸ nodup_groupUnion hf.wfx.nodup hf.wfy.nodup
  let prog : Nat → Nat → Exchange.Phase (XSt F) (List Nat → F) := repBackward 0 Px Py Sx
  have hM : Exchange.Matched prog U.length 1 := by
    have := xfer_matched (zero := (0 : F)) ok hd
    subst hUe
    exact this
  have hC : Exchange.Commutes prog U.length 1 := by
    have := xfer_commutes (zero := (0 : F)) ok hd
    subst hUe
    exact this
  have e2 : p2 = liftPhase U (fun _ => c) (fun _ => c) arrLens arrInj .none fun w _ => repBackStep Px Py B (T w) w := by
    subst hUe
    rfl
  have hph : PhaseOf W U (fun _ => c) (fun _ => c) (fun w _ => repBackStep Px Py B (T w) w) G1 prog 1 0 := by
    refine ⟨hnd, hU, by omega, hM, hC, fun r hr hs => ?_, fun _ _ _ _ _ _ _ _ => rfl, fun r hr => ?_⟩
    · have e := xprog_recvs (zero := (0 : F)) hd 0 r
      rw [← hUe] at e
      have hs' : some r ∈ (xprog (0 : F) U Py Px (fun w => (Sx w).yx) (fun w => (Sx w).xy) (fun w => (Sx w).ybufs)
        (fun w => (Sx w).xbufs) 0 r).recvs := by
        subst hUe
        exact hs
      rw [e] at hs'
      split at hs'
      · have := ((mem_reqs hr _).1 hs').2
        unfold reqOf at this
        rw [if_neg fun h => h.2 rfl] at this
        cases this
      · simp at hs'
    · have hm := getD_mem (M := U) hr
      show repBackStep Px Py B _ _ = _
      rw [repBackStep, hat _ hm]
      subst hUe
      rfl
  have o2 : PhaseOK W p2 G1 := by
    rw [e2]
    exact liftPhase_ok hph.ok
  let st0 : Nat → XSt F := fun r => ⟨(G (U.getD r 0)).t.val, (G (U.getD r 0)).t.val⟩
  have r2 : ∀ w ∈ W, sync p2 G1 w =
      if w ∈ U then arrLens.set (lock prog st0 1 (U.idxOf w)) (G1 w) else G1 w := by
    intro w hw
    rw [e2]
    split
    · next hm =>
      refine hph.sync (st0 := st0) (fun r hr => ?_) hm
      have hm' := getD_mem (M := U) hr
      rw [r1 _ (hU _ hm'), if_pos hm', arrLens.get_set]
      rfl
    · next hm => exact liftPhase_sync_out hm
  generalize hG2 : sync p2 G1 = G2 at r2
  -- result
  have hkeep : ∀ w ∈ U, (G2 w).t = (G w).t ∧ (G2 w).err = (G w).err ∧ (G2 w).arr = lock prog st0 1 (U.idxOf w) := by
    intro w hw
    rw [r2 w (hU w hw), if_pos hw, r1 w (hU w hw), if_pos hw]
    exact ⟨rfl, rfl, rfl⟩
  have hres : ∀ w ∈ U, ∃ z, zeroVolume pb (G w).t = some z ∧ z.shape ≠ [] ∧
      ((T w)[0]?.bind fun A => repBackResult Px Py pb A (G2 w) w) =
      some (if w ∈ Px.members then ⟨(S w).t.shape, t, (lock prog st0 1 (U.idxOf w)).out⟩ else ⟨z.shape, t, z.val⟩, (S1 w).rg) := by
    intro w hw
    obtain ⟨a1, a2, a3⟩ := hkeep w hw
    have hz : ∃ z, zeroVolume pb (G w).t = some z ∧ z.shape ≠ [] := by
      have hb := hG.batch w (hU w hw)
      unfold zeroVolume
      cases pb with
      | false => exact ⟨_, rfl, by simp⟩
      | true =>
        cases hs : (G w).t.shape with
        | nil => exact absurd hs hb
        | cons b bs => exact ⟨_, rfl, by simp⟩
    obtain ⟨z, hz, hz'⟩ := hz
    refine ⟨z, hz, hz', ?_⟩
    have hgl := (C08_global_structure Px hf.wfx L hf.layout (gathered Px S) t rg hv.loc _ _ hroot.2
      ((hmemU _).2 (Or.inl hroot.1))).2.1 w (Or.inl hw)
    rw [hT0 w (hU w hw), Option.bind_some]
    unfold repBackResult
    rw [a1, hz, i1 w hw, ← hUe, hgl, a3, (f1 w (hU w hw)).1]
  have o3 : PhaseOK W p3 G2 := localPhase_ok fun w y => (p3 w y).work y
  have r3 : ∀ w ∈ W, sync p3 G2 w = if w ∈ U then
      match (T w)[0]?.bind fun A => repBackResult Px Py pb A (G2 w) w with
      | some y => tenLens.set y (G2 w)
      | none => { G2 w with err := true }
    else G2 w := by
    intro w hw
    show (if w ∈ groupUnion Px.members Py.members then _ else _) = _
    rw [← hUe]
  generalize hG3 : sync p3 G2 = G3 at r3
  have hrun : run ((repBack c Px Py pb B).at T) G = G3 := by
    show sync p3 (sync p2 (sync p1 G)) = G3
    rw [hG1, hG2, hG3]
  have hout : ∀ w ∈ W, w ∉ U → (G3 w).t = (G w).t ∧ (G3 w).err = (G w).err := by
    intro w hw hn
    rw [r3 w hw, if_neg hn, r2 w hw, if_neg hn, r1 w hw, if_neg hn]
    exact ⟨rfl, rfl⟩
  have hin : ∀ w ∈ Px.members, G3 w = tenLens.set (⟨(S w).t.shape, t, (lock prog st0 1 (U.idxOf w)).out⟩, (S1 w).rg) (G2 w) := by
    intro w hw
    have hwU := (hmemU w).2 (Or.inl hw)
    obtain ⟨z, -, -, e⟩ := hres w hwU
    rw [r3 w (hU w hwU), if_pos hwU, e, if_pos hw]
  constructor
  · show PhaseOK W p1 G ∧ PhaseOK W p2 (sync p1 G) ∧ PhaseOK W p3 (sync p2 (sync p1 G)) ∧ True
    rw [hG1, hG2]
    exact ⟨o1, o2, o3, trivial⟩
  · rw [hrun]
    refine ⟨fun w hw => ?_, fun w hw => ?_, fun v hv => ?_, fun v hv' l hl => ?_⟩
    · rw [← hG.calm w hw]
      by_cases hm : w ∈ U
      · obtain ⟨z, -, -, e⟩ := hres w hm
        rw [r3 w hw, if_pos hm, e]
        exact (hkeep w hm).2.1
      · exact (hout w hw hm).2
    · by_cases hm : w ∈ U
      · obtain ⟨z, -, hz', e⟩ := hres w hm
        rw [r3 w hw, if_pos hm, e]
        by_cases hwx : w ∈ Px.members
        · rw [if_pos hwx]
          exact h.batch w hw
        · rw [if_neg hwx]
          exact hz'
      · rw [(hout w hw hm).1]
        exact hG.batch w hw
    · rw [hin v hv]
      exact ⟨congrArg Prod.fst (hrg v hv), rfl⟩
    · rw [hin v hv']
      show (lock prog st0 1 (U.idxOf v)).out l = _
      have := xfer_lock (zero := (0 : F)) ok hd Y st0 (fun u hu l hl => ?_) hv' l hl
      · rw [← this, ← hUe]
        subst hUe
        rfl
      · show (G (U.getD _ 0)).t.val l = _
        rw [← hUe, getD_idxOf ((hmemU u).2 (Or.inr hu))]
        exact hG.data u hu l hl

end Verif.Net
