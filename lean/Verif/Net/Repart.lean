import Verif.Net.Window
import Verif.Repartition.Props

/-!
# Networks: repartition

`nn/repartition.py` with `functional/repartition.py` of the MPI backend as a program of the network machine.
-/

namespace Verif.Net

open Exchange (lock)

variable {F β : Type}

/-- What setup stores on worker `w`, computed from the structures it knows; `none`: an exception. -/
def repAt (Px Py : Cart) (B : Bufs β) (x : NSt F) (w : Nat) : Option RepSetup :=
  match repSetup Px Py x.info ((Mgr.init : Mgr β).run B.junk (B.ops w)) B.junk w with
  | .value s => some s
  | _ => none

/-- `functional/repartition.py:112-126`: `Bcast` of `requires_grad` over the union. -/
def flagPhase (c : Nat) (U : List Nat) (root : Nat) : Nat → NSt F → Phase (NSt F) (NMsg F) :=
  collPhase c (fun w => decide (w ∈ U)) (fun _ => U) (fun _ x => .info fun _ => x.own) (fun _ => [root])
    fun _ (ms : List (NMsg F)) x =>
    match ms with
    | .info f :: _ => { x with str := f 0 }
    | _ => x

/-- The arrays at the beginning of the exchange. -/
def repStart (Px Py : Cart) (B : Bufs β) : Nat → NSt F → Phase (NSt F) (NMsg F) :=
  localPhase fun w x =>
    if w ∈ groupUnion Px.members Py.members then
      match repAt Px Py B x w with
      | some _ => arrLens.set ⟨x.t.val, x.t.val⟩ x
      | none => { x with err := true }
    else x

/-- `functional/repartition.py:142-205`: messages, local copy, unpacking. -/
def repStep [Zero F] (Px Py : Cart) (B : Bufs β) (w : Nat) (x : NSt F) : Exchange.Phase (XSt F) (List Nat → F) :=
  match repAt Px Py B x w with
  | some s => xferPhase 0 (Px.members.contains w) (Py.members.contains w) s.xy s.yx s.xbufs s.ybufs
  | none => xferPhase 0 false false [] [] [] []

/-- The same as a phase of the network; all messages have one tag. -/
def repPhase [Zero F] (c : Nat) (Px Py : Cart) (B : Bufs β) : Nat → NSt F → Phase (NSt F) (NMsg F) :=
  liftPhase (groupUnion Px.members Py.members) (fun _ => c) (fun _ => c) arrLens arrInj .none (repStep Px Py B)

/-- The result (`functional/repartition.py:132-139, 207-212`): an array of the shape found in setup, or a tensor
without entries.  A 0-dimensional input is an error if the batch size is to be preserved. -/
def repResult [AddCommMonoid F] (Px Py : Cart) (pb : Bool) (B : Bufs β) (w : Nat) (x : NSt F) : Option (Tensor F × Bool) :=
  match zeroVolume pb x.t, assembleGlobal Px (some (groupUnion Px.members Py.members)) x.info w, repAt Px Py B x w with
  | some z, .value gs, some s =>
    if w ∈ Py.members then s.outShape.map fun sh => (⟨sh, gs.dtype, x.arr.out⟩, x.str.2.2)
    else some (⟨z.shape, gs.dtype, z.val⟩, x.rg)
  | _, _, _ => none

/-- The end of the forward pass: the result becomes the current tensor. -/
def repEnd [AddCommMonoid F] (Px Py : Cart) (pb : Bool) (B : Bufs β) : Nat → NSt F → Phase (NSt F) (NMsg F) :=
  localPhase fun w x =>
    if w ∈ groupUnion Px.members Py.members then
      match repResult Px Py pb B w x with
      | some y => tenLens.set y x
      | none => { x with err := true }
    else x

/-- Setup (`nn/repartition.py:132-284`) and forward (`nn/repartition.py:329-359`, `functional/repartition.py:104-212`). -/
def repProg [AddCommMonoid F] (c : Nat) (Px Py : Cart) (pb : Bool) (B : Bufs β) : Prog (NSt F) (NMsg F) :=
  setupUnionProg c Px (groupUnion Px.members Py.members) ++
    [flagPhase c (groupUnion Px.members Py.members) (Px.members.getD 0 0), repStart Px Py B, repPhase c Px Py B,
      repEnd Px Py pb B]

/-- The requirements of the layer that do not depend on data. -/
structure RepFits (Px Py : Cart) (L : Layout) : Prop where
  wfx : Px.WF
  wfy : Py.WF
  layout : L.pshape = Px.shape
  dims : Py.shape.length = Px.shape.length
  pos : Px.shape ≠ []
  ones : ∀ d, L.global.getD d 0 = 1 → Py.shape.getD d 0 = 1

section
variable [AddCommMonoid F] {W : List Nat} {Px Py : Cart} {L : Layout} {t : TorchDtype} {X : List Nat → F} {S : Nat → NSt F}

theorem rep_run_all (c : Nat) (pb : Bool) (B : Bufs β) (hf : RepFits Px Py L) (hx : ∀ w ∈ Px.members, w ∈ W)
    (hy : ∀ w ∈ Py.members, w ∈ W) (h : Holds W Px L t X S) :
    ProgOK W (repProg c Px Py pb B) S ∧
      Holds W Py (Layout.balanced Py.shape L.global) t X (run (repProg c Px Py pb B) S) ∧
      (pb = true → ∀ w ∈ W, w ∉ Py.members →
        (run (repProg c Px Py pb B) S w).t.shape.head? = (S w).t.shape.head?) := by
  obtain ⟨U, hUe⟩ : ∃ U, U = groupUnion Px.members Py.members := ⟨_, rfl⟩
  have hmemU : ∀ w, w ∈ U ↔ w ∈ Px.members ∨ w ∈ Py.members := fun w => by rw [hUe]; exact mem_groupUnion
  have hU : ∀ w ∈ U, w ∈ W := fun w hw => ((hmemU w).1 hw).elim (hx w) (hy w)
  obtain ⟨rg, hrg⟩ := h.parts
  have hv : RepValid Px Py L (gathered Px S) t rg := by
    refine ⟨hf.wfx, hf.wfy, hf.layout, hf.dims, hf.pos, hf.ones, fun v hv idx hi => ?_⟩
    rw [Cart.index_eq hv] at hi
    cases hi
    rw [gathered_own hv, hrg v hv]
  obtain ⟨Sx, hS⟩ := (C13_setup_succeeds hv B.junk B.ops).1
  have hroot : Px.members.getD 0 0 ∈ Px.members ∧ Px.members.head? = some (Px.members.getD 0 0) := by
    obtain ⟨w0, h0, hm⟩ := hf.wfx.head
    have e : Px.members.getD 0 0 = w0 := by
      rw [List.head?_eq_getElem?] at h0
      rw [List.getD_eq_getElem?_getD, h0]
      rfl
    exact ⟨e ▸ hm, e ▸ h0⟩
  have hat : ∀ w ∈ U, ∀ x : NSt F, x.info = gathered Px S → repAt Px Py B x w = some (Sx w) := by
    intro w hw x hi
    unfold repAt
    rw [hi, hS w (hUe ▸ hw)]
  -- setup
  obtain ⟨o1, f1, i1⟩ := setupUnion_run c hf.wfx hU (fun w hw => (hmemU w).2 (Or.inl hw)) S
  generalize hS1 : run (setupUnionProg c Px U) S = S1 at f1 i1
  -- requires_grad
  have hg : Grouped W (fun w => decide (w ∈ U)) (fun _ => U) fun _ => [Px.members.getD 0 0] :=
    grouped_const hU fun u hu => by rw [List.mem_singleton.1 hu]; exact (hmemU _).2 (Or.inl hroot.1)
  have o2 : PhaseOK W (flagPhase c U (Px.members.getD 0 0)) S1 := collPhase_ok hg
  have r2 : ∀ w ∈ W, sync (flagPhase c U (Px.members.getD 0 0)) S1 w =
      if w ∈ U then { S1 w with str := (S (Px.members.getD 0 0)).own } else S1 w := by
    intro w hw
    unfold flagPhase
    rw [collPhase_sync hg hw]
    by_cases hm : w ∈ U
    · rw [if_pos (decide_eq_true hm), if_pos hm, ← f1.own (hx _ hroot.1)]
      rfl
    · rw [if_neg (by simpa using hm), if_neg hm]
  generalize hS2 : sync (flagPhase c U (Px.members.getD 0 0)) S1 = S2 at r2
  -- start
  have o3 : PhaseOK W (repStart Px Py B) S2 := localPhase_ok _
  have r3 : ∀ w ∈ W, sync (repStart Px Py B) S2 w =
      if w ∈ U then arrLens.set ⟨(S w).t.val, (S w).t.val⟩ (S2 w) else S2 w := by
    intro w hw
    show (if w ∈ groupUnion Px.members Py.members then _ else _) = _
    rw [← hUe]
    split
    · next hm =>
      rw [hat w hm (S2 w) (by rw [r2 w hw, if_pos hm]; exact i1 w hm)]
      show arrLens.set ⟨(S2 w).t.val, (S2 w).t.val⟩ (S2 w) = _
      rw [show (S2 w).t = (S w).t by rw [r2 w hw, if_pos hm]; exact (f1 w hw).1]
    · rfl
  generalize hS3 : sync (repStart Px Py B) S2 = S3 at r3
  have hinfo3 : ∀ w ∈ U, (S3 w).info = gathered Px S := fun w hw => by
    rw [r3 w (hU w hw), if_pos hw, r2 w (hU w hw), if_pos hw]
    exact i1 w hw
  -- exchange
  have hd := hS.fwd hv
  have hnd : U.Nodup := hUe ▸ nodup_groupUnion hf.wfx.nodup hf.wfy.nodup
  let prog : Nat → Nat → Exchange.Phase (XSt F) (List Nat → F) := repForward 0 Px Py Sx
  have hM : Exchange.Matched prog U.length 1 := by
    have := xfer_matched (zero := (0 : F)) hv.ok hd
    rw [← hUe] at this
    subst hUe
    exact this
  have hC : Exchange.Commutes prog U.length 1 := by
    have := xfer_commutes (zero := (0 : F)) hv.ok hd
    subst hUe
    exact this
  have hph : PhaseOf W U (fun _ => c) (fun _ => c) (repStep Px Py B) S3 prog 1 0 := by
    refine ⟨hnd, hU, by omega, hM, hC, fun r hr hs => ?_, fun _ _ _ _ _ _ _ _ => rfl, fun r hr => ?_⟩
    · have e := xprog_recvs (zero := (0 : F)) hd 0 r
      rw [← hUe] at e
      have hs' : some r ∈ (xprog (0 : F) U Px Py (fun w => (Sx w).xy) (fun w => (Sx w).yx) (fun w => (Sx w).xbufs)
        (fun w => (Sx w).ybufs) 0 r).recvs := by
        subst hUe
        exact hs
      rw [e] at hs'
      split at hs'
      · have := ((mem_reqs hr _).1 hs').2
        unfold reqOf at this
        rw [if_neg fun h => h.2 rfl] at this
        cases this
      · simp at hs'
    · have hm := getD_mem (M := U) hr
      show repStep Px Py B _ _ = _
      rw [repStep, hat _ hm _ (hinfo3 _ hm)]
      subst hUe
      rfl
  have o4 : PhaseOK W (repPhase c Px Py B) S3 := by
    unfold repPhase
    rw [← hUe]
    exact liftPhase_ok hph.ok
  let st0 : Nat → XSt F := fun r => ⟨(S (U.getD r 0)).t.val, (S (U.getD r 0)).t.val⟩
  have r4 : ∀ w ∈ W, sync (repPhase c Px Py B) S3 w =
      if w ∈ U then arrLens.set (lock prog st0 1 (U.idxOf w)) (S3 w) else S3 w := by
    intro w hw
    unfold repPhase
    rw [← hUe]
    split
    · next hm =>
      refine hph.sync (st0 := st0) (fun r hr => ?_) hm
      have hm' := getD_mem (M := U) hr
      rw [r3 _ (hU _ hm'), if_pos hm', arrLens.get_set]
      rfl
    · next hm => exact liftPhase_sync_out hm
  generalize hS4 : sync (repPhase c Px Py B) S3 = S4 at r4
  -- result
  have hkeep : ∀ w ∈ U, (S4 w).t = (S w).t ∧ (S4 w).rg = (S w).rg ∧ (S4 w).err = (S w).err ∧
      (S4 w).info = gathered Px S ∧ (S4 w).str = (S (Px.members.getD 0 0)).own ∧
      (S4 w).arr = lock prog st0 1 (U.idxOf w) := by
    intro w hw
    rw [r4 w (hU w hw), if_pos hw, r3 w (hU w hw), if_pos hw, r2 w (hU w hw), if_pos hw]
    obtain ⟨a1, a2, a3, -⟩ := f1 w (hU w hw)
    exact ⟨a1, a2, a3, i1 w hw, rfl, rfl⟩
  have hres : ∀ w ∈ U, ∃ z, zeroVolume pb (S w).t = some z ∧ z.shape ≠ [] ∧ repResult Px Py pb B w (S4 w) =
      some (if w ∈ Py.members then (⟨(Layout.balanced Py.shape L.global).shapeAt (Py.coord w), t,
        (lock prog st0 1 (U.idxOf w)).out⟩, rg) else (⟨z.shape, t, z.val⟩, (S w).rg)) := by
    intro w hw
    obtain ⟨a1, a2, a3, a4, a5, a6⟩ := hkeep w hw
    have hz : ∃ z, zeroVolume pb (S w).t = some z ∧ z.shape ≠ [] := by
      have hb := h.batch w (hU w hw)
      unfold zeroVolume
      cases pb with
      | false => exact ⟨_, rfl, by simp⟩
      | true =>
        cases hs : (S w).t.shape with
        | nil => exact absurd hs hb
        | cons b bs => exact ⟨_, rfl, by simp⟩
    obtain ⟨z, hz, hz'⟩ := hz
    refine ⟨z, hz, hz', ?_⟩
    have hgl := (C08_global_structure Px hf.wfx L hf.layout (gathered Px S) t rg hv.loc _ _ hroot.2
      ((hmemU _).2 (Or.inl hroot.1))).2.1 w (Or.inl hw)
    unfold repResult
    rw [a1, hz, a4, ← hUe, hgl, hat w hw (S4 w) a4]
    dsimp only
    split
    · next hm =>
      have hsp := (hS.spec hv (hUe ▸ hw)).2.2.2.2
      rw [if_pos hm] at hsp
      rw [hsp, a5, a6, hrg _ hroot.1]
      rfl
    · rw [a2]
  have o5 : PhaseOK W (repEnd Px Py pb B) S4 := localPhase_ok _
  have r5 : ∀ w ∈ W, sync (repEnd Px Py pb B) S4 w = if w ∈ U then
      match repResult Px Py pb B w (S4 w) with
      | some y => tenLens.set y (S4 w)
      | none => { S4 w with err := true }
    else S4 w := by
    intro w hw
    show (if w ∈ groupUnion Px.members Py.members then _ else _) = _
    rw [← hUe]
  generalize hS5 : sync (repEnd Px Py pb B) S4 = S5 at r5
  have hrun : run (repProg c Px Py pb B) S = S5 := by
    unfold repProg
    rw [← hUe, run_append, hS1]
    show sync (repEnd Px Py pb B) (sync (repPhase c Px Py B) (sync (repStart Px Py B)
      (sync (flagPhase c U (Px.members.getD 0 0)) S1))) = S5
    rw [hS2, hS3, hS4, hS5]
  have hout : ∀ w ∈ W, w ∉ U → (S5 w).t = (S w).t ∧ (S5 w).err = (S w).err := by
    intro w hw hn
    rw [r5 w hw, if_neg hn, r4 w hw, if_neg hn, r3 w hw, if_neg hn, r2 w hw, if_neg hn]
    exact ⟨(f1 w hw).1, (f1 w hw).2.2.1⟩
  have hin : ∀ w ∈ Py.members, S5 w = tenLens.set (⟨(Layout.balanced Py.shape L.global).shapeAt (Py.coord w), t,
        (lock prog st0 1 (U.idxOf w)).out⟩, rg) (S4 w) := by
    intro w hw
    have hwU := (hmemU w).2 (Or.inr hw)
    obtain ⟨z, -, -, e⟩ := hres w hwU
    rw [r5 w (hU w hwU), if_pos hwU, e, if_pos hw]
  have hlen : Py.shape.length = L.global.length := by
    rw [hf.dims, ← hf.layout, L.length_pshape, L.length_global]
  refine ⟨?_, ?_, ?_⟩
  · unfold repProg
    rw [← hUe, progOK_append, hS1]
    refine ⟨o1, o2, ?_⟩
    rw [hS2]
    refine ⟨o3, ?_⟩
    rw [hS3]
    refine ⟨o4, ?_⟩
    rw [hS4]
    exact ⟨o5, trivial⟩
  · rw [hrun]
    refine ⟨fun w hw => ?_, fun w hw => ?_, ⟨rg, fun v hv => ?_⟩, fun v hv' l hl => ?_⟩
    · rw [← h.calm w hw]
      by_cases hm : w ∈ U
      · obtain ⟨z, -, -, e⟩ := hres w hm
        rw [r5 w hw, if_pos hm, e]
        exact (hkeep w hm).2.2.1
      · exact (hout w hw hm).2
    · by_cases hm : w ∈ U
      · obtain ⟨z, -, hz', e⟩ := hres w hm
        rw [r5 w hw, if_pos hm, e]
        by_cases hwy : w ∈ Py.members
        · rw [if_pos hwy]
          show (Layout.balanced Py.shape L.global).shapeAt (Py.coord w) ≠ []
          intro e0
          have hps := Layout.balanced_pshape hlen
          have := Layout.length_shapeAt (coord_len hps w)
          rw [e0, ← Layout.length_pshape, hps, hf.dims] at this
          exact hf.pos (List.length_eq_zero_iff.1 this.symm)
        · rw [if_neg hwy]
          exact hz'
      · rw [(hout w hw hm).1]
        exact h.batch w hw
    · rw [hin v hv]
      rfl
    · rw [hin v hv']
      show (lock prog st0 1 (U.idxOf v)).out l = _
      have := xfer_lock (zero := (0 : F)) hv.ok hd X st0 (fun u hu l hl => ?_) hv' l hl
      · rw [← this, ← hUe]
        subst hUe
        rfl
      · show (S (U.getD _ 0)).t.val l = _
        rw [← hUe, getD_idxOf ((hmemU u).2 (Or.inl hu))]
        exact h.data u hu l hl
  · intro hpb w hw hn
    rw [hrun]
    by_cases hm : w ∈ U
    · obtain ⟨z, hz, -, e⟩ := hres w hm
      rw [r5 w hw, if_pos hm, e, if_neg hn]
      show z.shape.head? = _
      rw [hpb] at hz
      unfold zeroVolume at hz
      rw [if_pos rfl] at hz
      split at hz
      · next hs =>
        rw [← Option.some.inj hz, hs]
        rfl
      · cases hz
    · rw [(hout w hw hm).1]

theorem rep_run (c : Nat) (pb : Bool) (B : Bufs β) (hf : RepFits Px Py L) (hx : ∀ w ∈ Px.members, w ∈ W)
    (hy : ∀ w ∈ Py.members, w ∈ W) (h : Holds W Px L t X S) :
    ProgOK W (repProg c Px Py pb B) S ∧
      Holds W Py (Layout.balanced Py.shape L.global) t X (run (repProg c Px Py pb B) S) :=
  let h := rep_run_all c pb B hf hx hy h
  ⟨h.1, h.2.1⟩

end

end Verif.Net
