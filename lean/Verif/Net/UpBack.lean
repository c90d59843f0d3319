import Verif.Net.Up
import Verif.Net.WinBack
import Verif.Grad.UpProps

/-!
# Networks: backward of the interpolation

Autograd goes through `upsampling.py:273-284` in reverse order: backward pass of the local interpolation, gradient of the
selection, adjoint of the halo exchange, gradient of the padding.
-/

namespace Verif.Net

open Exchange (lock)

variable {F β : Type}

section
variable [Field F] [LinearOrder F] [FloorRing F]

/-- Backward pass of the local interpolation (`upsampling.py:283`,
`functional/interpolate/interpolate.py:103-145`) and gradient of the selection (`upsampling.py:282`, PyTorch's code).  The
first entry of the tape was kept before the interpolation. -/
def upBackStart (P : Cart) (size : Option (List Nat)) (p : InterpParams F) (B : Bufs β) (T : List (NSt F)) :
    Nat → NSt F → Phase (NSt F) (NMsg F) :=
  localPhase fun w x =>
    if w ∈ P.members then
      match T[0]?.bind fun A => (upAt P size p B A w).bind fun US =>
        (interpBackward p US.1.xs US.1.xe US.1.gx US.1.ys US.1.gy x.t).map fun z => (A, US.1, z) with
      | some (A, U, z) => { x with
          arr := { x.arr with inp := U.selectGrad (U.padInput A.t.shape A.t.val).1 z.val } }
      | none => { x with err := true }
    else x

/-- One dimension of the adjoint of the halo exchange on worker `w` (`functional/halo_exchange.py:96-138`); dimensions
in decreasing order. -/
def upBackStep (P : Cart) (size : Option (List Nat)) (p : InterpParams F) (B : Bufs β) (d : Nat) (T : List (NSt F))
    (w : Nat) : Exchange.Phase (List Nat → F) (List Nat → F) :=
  match T[0]?.bind fun A => upAt P size p B A w with
  | some (_, S) => haloBwdPhase S (P.shape.length - 1 - d)
  | none => idle

/-- The same as a phase of the network, with the tags of the messages (`functional/halo_exchange.py:117-123`). -/
def upBackPhase (c : Nat) (P : Cart) (size : Option (List Nat)) (p : InterpParams F) (B : Bufs β) (d : Nat)
    (T : List (NSt F)) : Nat → NSt F → Phase (NSt F) (NMsg F) :=
  liftPhase P.members (fun k => 2 * c + haloTag true (if k = 0 then .lbulk else .rbulk))
    (fun j => 2 * c + haloTag false (if j = 0 then .lghost else .rghost)) inpLens arrInj .none
    fun w _ => upBackStep P size p B d T w

/-- Gradient of the padding (`upsampling.py:273-279`). -/
def upBackEnd (P : Cart) (size : Option (List Nat)) (p : InterpParams F) (B : Bufs β) (T : List (NSt F)) :
    Nat → NSt F → Phase (NSt F) (NMsg F) :=
  localPhase fun w x =>
    if w ∈ P.members then
      match T[0]?.bind fun A => (upAt P size p B A w).map fun US => (A, US.1) with
      | some (A, U) => { x with t := ⟨A.t.shape, A.t.dtype, U.padGrad A.t.shape x.arr.inp⟩ }
      | none => { x with err := true }
    else x

/-- Backward of `upsampling.py:259-284`. -/
def upBack (c : Nat) (P : Cart) (size : Option (List Nat)) (p : InterpParams F) (B : Bufs β) :
    CProg (List (NSt F)) (NSt F) (NMsg F) :=
  upBackStart P size p B :: ((List.range (haloPhases P)).map (upBackPhase c P size p B) ++ [upBackEnd P size p B])

end

section
variable [Field F] [LinearOrder F] [FloorRing F] [IsStrictOrderedRing F] {W : List Nat} {P : Cart}
  {size : Option (List Nat)} {p : InterpParams F} {gx gy : List Nat} {S G : Nat → NSt F} {X Y : List Nat → F}
  {t : TorchDtype} {rg : Bool} {T : Nat → List (NSt F)}

omit [LinearOrder F] [FloorRing F] [IsStrictOrderedRing F] in
/-- The shape of the padded tensor. -/
theorem upPad_shape (U : UpSetup) (shape : List Nat) (x y : List Nat → F) :
    (U.padInput shape x).1 = (U.padInput shape y).1 := by
  unfold UpSetup.padInput
  dsimp only
  split <;> rfl

/-- The backward pass leaves on every worker what any execution of the adjoint exchange alone leaves (`UpBack`). -/
theorem upBack_exchange (c : Nat) (B : Bufs β) (hW : ∀ w ∈ P.members, w ∈ W)
    (i1 : ∀ w ∈ P.members, (S w).info = gathered P S)
    (h : UpInput P gx (gathered P S) (fun w => (S w).t.val) X t rg) (ht : t = .float32 ∨ t = .float64)
    (hc : UpCase P size p gx gy) (ho : HasOutputs P gy)
    (hd : GradLike P gy t fun r => (G (P.members.getD r 0)).t)
    (hT : ∀ w ∈ W, (T w)[0]? = some (run (upExchange c P size p B) S w)) :
    ProgOK W ((upBack c P size p B).at T) G ∧
    (∀ w ∈ W, (run ((upBack c P size p B).at T) G w).err = (G w).err) ∧
    (∀ w ∈ W, w ∉ P.members → run ((upBack c P size p B).at T) G w = G w) ∧
    ∃ U Sx k g gl k' g', UpRun P size p (gathered P S) (fun w => (S w).t.val) B.dt B.junk B.ops true k U Sx g ∧
      UpBack P p (gathered P S) U Sx (fun r => (G (P.members.getD r 0)).t) gl true k' g' ∧
      ∀ r, r < P.members.length → (g'.ws r).phase = haloPhases P ∧
        (run ((upBack c P size p B).at T) G (P.members.getD r 0)).t =
          ⟨(S (P.members.getD r 0)).t.shape, (S (P.members.getD r 0)).t.dtype, upGrad P (gathered P S) U g' r⟩ := by
  obtain ⟨-, f1, U, Sx, k, g, R, -⟩ := upExchange_run c B hW i1 h hc
  obtain ⟨gl, g0, B0⟩ := C65_starts h ht hc ho R hd true
  obtain ⟨k', g', Bk, -, hfin⟩ := C65_completes h hc R B0
  obtain ⟨A, hA⟩ : ∃ A, A = run (upExchange c P size p B) S := ⟨_, rfl⟩
  rw [← hA] at f1 hT
  have hloc : ∀ r, r < P.members.length → (gathered P S (P.members.getD r 0)).1 = (S (P.members.getD r 0)).t.shape := by
    intro r hr
    rw [gathered_own (getD_mem hr)]
    rfl
  choose! a ha using f1
  have hat : ∀ r, r < P.members.length → upAt P size p B (A (P.members.getD r 0)) (P.members.getD r 0) = some (U r, Sx r) := by
    intro r hr
    have hm := getD_mem (M := P.members) hr
    refine upAt_eq h.wf.nodup R hr ?_ ?_
    · rw [ha _ (hW _ hm)]
      exact i1 _ hm
    · rw [ha _ (hW _ hm), hloc r hr]
      rfl
  have hTat : ∀ r, r < P.members.length → ((T (P.members.getD r 0))[0]?.bind fun A => upAt P size p B A (P.members.getD r 0)) =
      some (U r, Sx r) := by
    intro r hr
    rw [hT _ (hW _ (getD_mem hr)), Option.bind_some, hat r hr]
  have hok : (upPlan P p gx gy).OK := upPlan_ok_always h.wf h.len hc
  have dn := (R.setUp h (R.facts h hc)).done hok.wf
  have hM := HaloPlan.bwd_matched (α := F) hok dn
  have hC := HaloPlan.bwd_commutes (α := F) (H := upPlan P p gx gy) (S := Sx)
  let st0 : Nat → List Nat → F := fun r => (U r).selectGrad (upPaddedShape F P (gathered P S) U r) (gl r).val
  -- start
  let p1 : Nat → NSt F → Phase (NSt F) (NMsg F) := fun u => upBackStart P size p B (T u) u
  have o1 : PhaseOK W p1 G := localPhase_ok fun w y => (p1 w y).work y
  have r1 : ∀ w ∈ W, sync p1 G w = if w ∈ P.members then { G w with
      arr := { (G w).arr with inp := st0 (P.members.idxOf w) } } else G w := by
    intro w hw
    show (if w ∈ P.members then _ else _) = _
    split
    · next hm =>
      have hr := List.idxOf_lt_length_of_mem hm
      have e1 := hat _ hr
      have e2 := Bk.loc _ hr
      rw [getD_idxOf hm] at e1 e2
      have hps : upPaddedShape F P (gathered P S) U (P.members.idxOf w) =
          ((U (P.members.idxOf w)).padInput (S w).t.shape (S w).t.val).1 := by
        unfold upPaddedShape
        rw [hloc _ hr, getD_idxOf hm]
        exact upPad_shape _ _ _ _
      have hAt : (A w).t = (S w).t := by rw [ha w hw]; rfl
      rw [hT w hw, Option.bind_some, e1, Option.bind_some]
      dsimp only
      rw [e2, Option.map_some]
      simp only [st0]
      rw [hps, hAt]
    · rfl
  generalize hG1 : sync p1 G = G1 at r1
  -- exchange
  let px : Nat → Nat → NSt F → Phase (NSt F) (NMsg F) := fun d u => upBackPhase c P size p B d (T u) u
  have hex : ∀ d, d ≤ haloPhases P → ProgOK W ((List.range d).map px) G1 ∧
      ∀ w ∈ W, run ((List.range d).map px) G1 w =
        if w ∈ P.members then inpLens.set (lock (haloBackward P.shape.length Sx) st0 d (P.members.idxOf w)) (G1 w) else G1 w := by
    intro d
    induction d with
    | zero =>
      intro _
      refine ⟨trivial, fun w hw => ?_⟩
      show G1 w = _
      rw [r1 w hw]
      split <;> rfl
    | succ d ih =>
      intro hp
      obtain ⟨q1, q2⟩ := ih (by omega)
      rw [List.range_succ, List.map_append, progOK_append, run_append]
      generalize run ((List.range d).map px) G1 = Gp at q2 ⊢
      have hD : d < (upPlan P p gx gy).D := Nat.lt_of_lt_of_le hp (upPlan P p gx gy).phases_le
      have hph : PhaseOf W P.members (fun k => 2 * c + haloTag true (if k = 0 then .lbulk else .rbulk))
          (fun j => 2 * c + haloTag false (if j = 0 then .lghost else .rghost))
          (fun w _ => upBackStep P size p B d (T w) w) Gp (haloBackward P.shape.length Sx) (haloPhases P) d := by
        refine ⟨h.wf.nodup, hW, hp, hM, hC, fun r hr => halo_noself_back hok dn hD hr,
          fun r hr s hs k j hk hj => congrArg _ (halo_tags_back hok dn hD hr hs hk hj), fun r hr => ?_⟩
        show upBackStep P size p B d _ _ = _
        rw [upBackStep, hTat r hr]
        rfl
      refine ⟨⟨q1, liftPhase_ok hph.ok, trivial⟩, fun w hw => ?_⟩
      show sync (px d) Gp w = _
      split
      · next hm =>
        refine (hph.sync (st0 := st0) (fun r hr => ?_) hm).trans ?_
        · have hm' := getD_mem hr
          rw [q2 _ (hW _ hm'), if_pos hm', idxOf_getD h.wf.nodup hr]
          rfl
        · rw [q2 w hw, if_pos hm]
          rfl
      · next hm =>
        refine (liftPhase_sync_out hm).trans ?_
        rw [q2 w hw, if_neg hm]
  obtain ⟨o2, r2⟩ := hex _ (Nat.le_refl _)
  generalize hG2 : run ((List.range (haloPhases P)).map px) G1 = G2 at r2
  -- end
  let p3 : Nat → NSt F → Phase (NSt F) (NMsg F) := fun u => upBackEnd P size p B (T u) u
  have o3 : PhaseOK W p3 G2 := localPhase_ok fun w y => (p3 w y).work y
  have r3 : ∀ w ∈ W, sync p3 G2 w = if w ∈ P.members then { G2 w with
      t := ⟨(S w).t.shape, (S w).t.dtype, (U (P.members.idxOf w)).padGrad (S w).t.shape (G2 w).arr.inp⟩ } else G2 w := by
    intro w hw
    show (if w ∈ P.members then _ else _) = _
    split
    · next hm =>
      have hr := List.idxOf_lt_length_of_mem hm
      have e1 := hat _ hr
      rw [getD_idxOf hm] at e1
      rw [hT w hw, Option.bind_some, e1, Option.map_some]
      have hAt : (A w).t = (S w).t := by rw [ha w hw]; rfl
      dsimp only
      rw [hAt]
    · rfl
  have hprog : (upBack c P size p B).at T = p1 :: ((List.range (haloPhases P)).map px ++ [p3]) := by
    simp only [upBack, CProg.at, List.map_cons, List.map_append, List.map_map, List.map_nil]
    rfl
  have hrun : run ((upBack c P size p B).at T) G = sync p3 G2 := by
    rw [hprog]
    show run ((List.range (haloPhases P)).map px ++ [p3]) (sync p1 G) = _
    rw [hG1, run_append, hG2]
    rfl
  rw [hrun]
  refine ⟨?_, fun w hw => ?_, fun w hw hn => ?_, U, Sx, k, g, gl, k', g', R, Bk, fun r hr => ⟨hfin r hr, ?_⟩⟩
  · rw [hprog]
    refine ⟨o1, ?_⟩
    rw [hG1, progOK_append, hG2]
    exact ⟨o2, o3, trivial⟩
  · rw [r3 w hw, r2 w hw, r1 w hw]
    by_cases hm : w ∈ P.members <;> simp [hm, inpLens]
  · rw [r3 w hw, if_neg hn, r2 w hw, if_neg hn, r1 w hw, if_neg hn]
  · have hm := getD_mem (M := P.members) hr
    rw [r3 _ (hW _ hm), if_pos hm, r2 _ (hW _ hm), if_pos hm]
    have hf := Exchange.async_final hM hC Bk.exec hr (hfin r hr)
    unfold upGrad
    rw [hf, hloc r hr, idxOf_getD h.wf.nodup hr]
    rfl

theorem upBack_run (c : Nat) (B : Bufs β) (ht : t = .float32 ∨ t = .float64) (hc : UpCase P size p gx gy)
    (ho : HasOutputs P gy) (hf : (upPlan P p gx gy).Fits) (hP : P.WF) (hl : gx.length = P.shape.length)
    (hW : ∀ w ∈ P.members, w ∈ W) (h : Holds W P (Layout.balanced P.shape gx) t X S)
    (hG : HoldsG W P (Layout.balanced P.shape gy) t Y G)
    (hT : ∀ w ∈ W, ∃ rest, T w = snaps (upCuts c P size p B) S w ++ rest) :
    ProgOK W ((upBack c P size p B).at T) G ∧
    HoldsG W P (Layout.balanced P.shape gx) t (torchInterpGrad p gx gy Y) (run ((upBack c P size p B).at T) G) := by
  obtain ⟨rg, hrg⟩ := h.parts
  obtain ⟨-, f1, -⟩ := setup_run c hW S
  obtain ⟨i1, h1⟩ := h.upInput_setup hP hl hW hrg (c := c) rfl
  have hsn : ∀ w, snaps (upCuts c P size p B) S w = [run (upExchange c P size p B) (run (setupProg c P) S) w,
    run (setupProg c P) S w, S w] := fun _ => rfl
  simp only [hsn] at hT
  generalize run (setupProg c P) S = S1 at f1 i1 h1 hT
  have hco : ∀ r, r < P.members.length → P.coord (P.members.getD r 0) = getCoords P.shape r := fun r hr => by
    unfold Cart.coord
    rw [idxOf_getD hP.nodup hr]
  have hd : GradLike P gy t fun r => (G (P.members.getD r 0)).t := fun r hr => by
    have := hG.parts _ (getD_mem hr)
    rw [hco r hr] at this
    exact ⟨this.2, this.1⟩
  obtain ⟨o, e1, e2, U, Sx, k, g, gl, k', g', R, Bk, hr⟩ := upBack_exchange c B hW i1 h1 ht hc ho hd (T := T) (fun w hw => by
    obtain ⟨rest, e⟩ := hT w hw
    rw [e]
    rfl)
  refine ⟨o, HoldsG.finish h hG e1 (fun w hw hn => by rw [e2 w hw hn]) fun r hr' => ?_⟩
  obtain ⟨p1, p2⟩ := hr r hr'
  rw [p2, (f1 _ (hW _ (getD_mem hr'))).1]
  exact ⟨rfl, rfl, C65_partial h1 ht hc ho hf R hd (HoldsG.outGrads hP hG) Bk hr' p1⟩

end

end Verif.Net
