import Verif.Net.DenseBack
import Verif.Net.Window
import Verif.Grad.Props

/-!
# Networks: backward of the sliding-window layers

Autograd goes through `conv_feature.py:380-393` and `pooling.py:289-302` in reverse order: gradient of the local
operator, of the selection, adjoint of the halo exchange (`functional/halo_exchange.py:77-140`), gradient of the padding.
-/

namespace Verif.Net

open Exchange (lock)

variable {F β : Type}

/-- Gradients of the local operator and of the selection (`conv_feature.py:391-393`, `pooling.py:299-302`); PyTorch's
code.  `gl`: the gradient of the operator's input; `pg`: what becomes of the gradients of the parameters.  The first
entry of the tape was kept before the operator. -/
def winBackStart [Zero F] (P : Cart) (Q : WinParams) (v : F) (B : Bufs β)
    (gl : NSt F → List Nat × (List Nat → F) → Tensor F → List Nat → F)
    (pg : NSt F → List Nat × (List Nat → F) → Tensor F → (Nat → Tensor F × Bool) → Nat → Tensor F × Bool)
    (T : List (NSt F)) : Nat → NSt F → Phase (NSt F) (NMsg F) :=
  localPhase fun w x =>
    if w ∈ P.members then
      match T[0]?.bind fun A => (haloAt P Q v B A w).bind fun US => (windowInput P Q v A w).map fun I => (A, US.1, I) with
      | some (A, U, I) => { x with
          arr := { x.arr with inp := U.selectGrad (U.padInput v A.t.shape A.t.val).1 (gl A I x.t) }
          par := pg A I x.t x.par }
      | none => { x with err := true }
    else x

/-- One dimension of the adjoint of the halo exchange on worker `w` (`functional/halo_exchange.py:96-138`); dimensions
in decreasing order. -/
def haloBackStep [Zero F] [Add F] (P : Cart) (Q : WinParams) (v : F) (B : Bufs β) (p : Nat) (T : List (NSt F)) (w : Nat) :
    Exchange.Phase (List Nat → F) (List Nat → F) :=
  match T[0]?.bind fun A => haloAt P Q v B A w with
  | some (_, S) => haloBwdPhase S (P.shape.length - 1 - p)
  | none => idle

/-- The same as a phase of the network, with the tags of the messages (`functional/halo_exchange.py:117-123`). -/
def haloBackPhase [Zero F] [Add F] (c : Nat) (P : Cart) (Q : WinParams) (v : F) (B : Bufs β) (p : Nat) (T : List (NSt F)) :
    Nat → NSt F → Phase (NSt F) (NMsg F) :=
  liftPhase P.members (fun k => 2 * c + haloTag true (if k = 0 then .lbulk else .rbulk))
    (fun j => 2 * c + haloTag false (if j = 0 then .lghost else .rghost)) inpLens arrInj .none
    fun w _ => haloBackStep P Q v B p T w

/-- Gradient of the padding (`conv_feature.py:380-388`, `pooling.py:289-296`). -/
def winBackEnd (P : Cart) (Q : WinParams) (v : F) (B : Bufs β) (T : List (NSt F)) : Nat → NSt F → Phase (NSt F) (NMsg F) :=
  localPhase fun w x =>
    if w ∈ P.members then
      match T[0]?.bind fun A => (haloAt P Q v B A w).map fun US => (A, US.1) with
      | some (A, U) => { x with t := ⟨A.t.shape, A.t.dtype, U.padGrad A.t.shape x.arr.inp⟩ }
      | none => { x with err := true }
    else x

/-- Backward of exchange and local operator. -/
def winBack [Zero F] [Add F] (c : Nat) (P : Cart) (Q : WinParams) (v : F) (B : Bufs β)
    (gl : NSt F → List Nat × (List Nat → F) → Tensor F → List Nat → F)
    (pg : NSt F → List Nat × (List Nat → F) → Tensor F → (Nat → Tensor F × Bool) → Nat → Tensor F × Bool) :
    CProg (List (NSt F)) (NSt F) (NMsg F) :=
  winBackStart P Q v B gl pg :: ((List.range (haloPhases P)).map (haloBackPhase c P Q v B) ++ [winBackEnd P Q v B])

section
variable {H : HaloPlan} {S : Nat → HaloSetup}

theorem halo_noself_back [Zero F] [Add F] (h : H.OK) (dn : H.Done S) {p r : Nat} (hp : p < H.D) (hr : r < H.n) :
    some r ∉ (haloBackward (α := F) H.D S p r).recvs := by
  obtain ⟨-, -, q1, q2⟩ := HaloPlan.nb_spec (i := H.D - 1 - p) h dn hr (by omega)
  show some r ∉ [(S r).req (H.D - 1 - p) .lbulk, (S r).req (H.D - 1 - p) .rbulk]
  rw [HaloPlan.mem_pair]
  rintro (e | e)
  · have := (q1 r ((HaloPlan.req_eq S _ r _ r).1 e).2).2.1
    omega
  · have := (q2 r ((HaloPlan.req_eq S _ r _ r).1 e).2).2.1
    omega

theorem halo_tags_back [Zero F] [Add F] (h : H.OK) (dn : H.Done S) {p r s k j : Nat} (hp : p < H.D) (hr : r < H.n)
    (hs : s < H.n) (hk : (haloBackward (α := F) H.D S p r).recvs[k]? = some (some s))
    (hj : (haloBackward (α := F) H.D S p s).sends[j]? = some (some r)) :
    haloTag true (if k = 0 then .lbulk else .rbulk) = haloTag false (if j = 0 then .lghost else .rghost) := by
  obtain ⟨-, -, q1, q2⟩ := HaloPlan.nb_spec (i := H.D - 1 - p) h dn hr (by omega)
  obtain ⟨-, -, q3, q4⟩ := HaloPlan.nb_spec (i := H.D - 1 - p) h dn hs (by omega)
  rcases pair_get hk with ⟨k0, e⟩ | ⟨k0, e⟩ <;> rcases pair_get hj with ⟨j0, e'⟩ | ⟨j0, e'⟩
  · have a := (q1 s ((HaloPlan.req_eq S _ r _ s).1 e).2).2.1
    have b := (q3 r ((HaloPlan.req_eq S _ s _ r).1 e').2).2.1
    omega
  · rw [if_pos k0, if_neg j0]; rfl
  · rw [if_neg k0, if_pos j0]; rfl
  · have a := (q2 s ((HaloPlan.req_eq S _ r _ s).1 e).2).2.1
    have b := (q4 r ((HaloPlan.req_eq S _ s _ r).1 e').2).2.1
    omega

end

section
variable [CommSemiring F] {W : List Nat} {P : Cart} {Q : WinParams} {L : Layout} {S G : Nat → NSt F} {X : List Nat → F}
  {t : TorchDtype} {rg : Bool} {T : Nat → List (NSt F)}

/-- The backward pass leaves on every worker what any execution of the adjoint exchange alone leaves (`WinBack`). -/
theorem winBack_run (c : Nat) (v : F) (B : Bufs β) (hW : ∀ w ∈ P.members, w ∈ W)
    (i1 : ∀ w ∈ P.members, (S w).info = gathered P S)
    (h : WinInput P Q L (gathered P S) (fun w => (S w).t.val) X t rg)
    (gl : NSt F → List Nat × (List Nat → F) → Tensor F → List Nat → F)
    (pg : NSt F → List Nat × (List Nat → F) → Tensor F → (Nat → Tensor F × Bool) → Nat → Tensor F × Bool)
    (hT : ∀ w ∈ W, (T w)[0]? = some (run (exchangeProg c P Q v B) S w)) :
    ProgOK W ((winBack c P Q v B gl pg).at T) G ∧
    (∀ w ∈ W, (run ((winBack c P Q v B gl pg).at T) G w).err = (G w).err) ∧
    (∀ w ∈ W, w ∉ P.members → run ((winBack c P Q v B gl pg).at T) G w = G w) ∧
    ∃ (a : Nat → List Nat → F) (U : Nat → WinSetup) (Sx : Nat → HaloSetup) (k : Nat)
      (g : Exchange.GState (List Nat → F) (List Nat → F)),
      WinRun P Q v (gathered P S) (fun w => (S w).t.val) B.dt B.junk B.ops true k U Sx g ∧
      (∀ r, r < P.members.length → (g.ws r).phase = haloPhases P) ∧
      ∀ gr : Nat → List Nat → F, (∀ r, r < P.members.length → gr r = gl (inpLens.set (a r) (S (P.members.getD r 0)))
        (localInput P v (gathered P S) (fun w => (S w).t.val) U g r) (G (P.members.getD r 0)).t) →
      ∃ k' g', WinBack P (gathered P S) U Sx gr true k' g' ∧ ∀ r, r < P.members.length → (g'.ws r).phase = haloPhases P ∧
        (run ((winBack c P Q v B gl pg).at T) G (P.members.getD r 0)).t =
          ⟨(S (P.members.getD r 0)).t.shape, (S (P.members.getD r 0)).t.dtype, inputGrad P (gathered P S) U g' r⟩ ∧
        (run ((winBack c P Q v B gl pg).at T) G (P.members.getD r 0)).par = pg (inpLens.set (a r) (S (P.members.getD r 0)))
          (localInput P v (gathered P S) (fun w => (S w).t.val) U g r) (G (P.members.getD r 0)).t (G (P.members.getD r 0)).par := by
  obtain ⟨-, f1, U, Sx, k, g, R, hr1⟩ := exchange_run c v B hW i1 h
  obtain ⟨A, hA⟩ : ∃ A, A = run (exchangeProg c P Q v B) S := ⟨_, rfl⟩
  rw [← hA] at f1 hr1 hT
  have hloc : ∀ r, r < P.members.length → (gathered P S (P.members.getD r 0)).1 = (S (P.members.getD r 0)).t.shape := by
    intro r hr
    rw [gathered_own (getD_mem hr)]
    rfl
  choose! a ha using f1
  suffices key : ∀ gr : Nat → List Nat → F, (∀ r, r < P.members.length → gr r =
      gl (inpLens.set (a (P.members.getD r 0)) (S (P.members.getD r 0)))
        (localInput P v (gathered P S) (fun w => (S w).t.val) U g r) (G (P.members.getD r 0)).t) →
      ProgOK W ((winBack c P Q v B gl pg).at T) G ∧
      (∀ w ∈ W, (run ((winBack c P Q v B gl pg).at T) G w).err = (G w).err) ∧
      (∀ w ∈ W, w ∉ P.members → run ((winBack c P Q v B gl pg).at T) G w = G w) ∧
      ∃ k' g', WinBack P (gathered P S) U Sx gr true k' g' ∧ ∀ r, r < P.members.length → (g'.ws r).phase = haloPhases P ∧
        (run ((winBack c P Q v B gl pg).at T) G (P.members.getD r 0)).t =
          ⟨(S (P.members.getD r 0)).t.shape, (S (P.members.getD r 0)).t.dtype, inputGrad P (gathered P S) U g' r⟩ ∧
        (run ((winBack c P Q v B gl pg).at T) G (P.members.getD r 0)).par =
          pg (inpLens.set (a (P.members.getD r 0)) (S (P.members.getD r 0)))
          (localInput P v (gathered P S) (fun w => (S w).t.val) U g r) (G (P.members.getD r 0)).t (G (P.members.getD r 0)).par by
    obtain ⟨k1, k2, k3, -⟩ := key _ fun _ _ => rfl
    exact ⟨k1, k2, k3, fun r => a (P.members.getD r 0), U, Sx, k, g, R, fun r hr => (hr1 r hr).1,
      fun gr hgr => (key gr hgr).2.2.2⟩
  intro gr hgr
  have hat : ∀ r, r < P.members.length → haloAt P Q v B (A (P.members.getD r 0)) (P.members.getD r 0) = some (U r, Sx r) := by
    intro r hr
    rw [ha _ (hW _ (getD_mem hr))]
    unfold haloAt
    show (winSetup P Q (S _).info _).bind _ = _
    rw [i1 _ (getD_mem hr), R.setup r hr, Option.bind_some, idxOf_getD h.wf.nodup hr]
    have := R.halo r hr
    rw [hloc r hr] at this
    show (haloSetup _ _ _ _ _ ((U r).padInput v (S (P.members.getD r 0)).t.shape (S (P.members.getD r 0)).t.val).1 _).map _ = _
    rw [this]
    rfl
  have hTat : ∀ r, r < P.members.length → ((T (P.members.getD r 0))[0]?.bind fun A => haloAt P Q v B A (P.members.getD r 0)) =
      some (U r, Sx r) := by
    intro r hr
    rw [hT _ (hW _ (getD_mem hr)), Option.bind_some, hat r hr]
  obtain ⟨T0, hT0, hUr, hshape, hval, hSx⟩ := R.facts h
  have hok : (winPlan P Q L).OK := plan_ok_always (winDims_plan h)
  have dn := hSx.done hok.wf
  have hM := HaloPlan.bwd_matched (α := F) hok dn
  have hC := HaloPlan.bwd_commutes (α := F) (H := winPlan P Q L) (S := Sx)
  let I : Nat → List Nat × (List Nat → F) := fun r => localInput P v (gathered P S) (fun w => (S w).t.val) U g r
  let st0 : Nat → List Nat → F := fun r => (U r).selectGrad (winPaddedShape P (gathered P S) U r) (gr r)
  obtain ⟨k', g', Bk, -, hfin⟩ := C60_completes (gl := gr) h R (eager' := true) (k' := 0)
    (g' := Exchange.GState.init st0) (Exchange.Exec.refl _)
  -- start
  let p1 : Nat → NSt F → Phase (NSt F) (NMsg F) := fun u => winBackStart P Q v B gl pg (T u) u
  have o1 : PhaseOK W p1 G := localPhase_ok fun w y => (p1 w y).work y
  have r1 : ∀ w ∈ W, sync p1 G w = if w ∈ P.members then { G w with
      arr := { (G w).arr with inp := st0 (P.members.idxOf w) }
      par := pg (inpLens.set (a w) (S w)) (I (P.members.idxOf w)) (G w).t (G w).par } else G w := by
    intro w hw
    show (if w ∈ P.members then _ else _) = _
    split
    · next hm =>
      have hr := List.idxOf_lt_length_of_mem hm
      have e1 := hat _ hr
      have e2 := (hr1 _ hr).2
      rw [getD_idxOf hm] at e1 e2
      have hps : winPaddedShape P (gathered P S) U (P.members.idxOf w) =
          ((U (P.members.idxOf w)).padInput v (S w).t.shape (S w).t.val).1 := by
        unfold winPaddedShape
        rw [hloc _ hr, getD_idxOf hm]
        unfold WinSetup.padInput
        split <;> rfl
      rw [hT w hw, Option.bind_some, e1, Option.bind_some, e2, Option.map_some]
      simp only [st0]
      rw [hps, hgr _ hr, getD_idxOf hm, ← ha w hw]
      have ht : (A w).t = (S w).t := by rw [ha w hw]; rfl
      rw [ht]
    · rfl
  generalize hG1 : sync p1 G = G1 at r1
  -- exchange
  let px : Nat → Nat → NSt F → Phase (NSt F) (NMsg F) := fun p u => haloBackPhase c P Q v B p (T u) u
  have hex : ∀ p, p ≤ haloPhases P → ProgOK W ((List.range p).map px) G1 ∧
      ∀ w ∈ W, run ((List.range p).map px) G1 w =
        if w ∈ P.members then inpLens.set (lock (haloBackward P.shape.length Sx) st0 p (P.members.idxOf w)) (G1 w) else G1 w := by
    intro p
    induction p with
    | zero =>
      intro _
      refine ⟨trivial, fun w hw => ?_⟩
      show G1 w = _
      rw [r1 w hw]
      split <;> rfl
    | succ p ih =>
      intro hp
      obtain ⟨q1, q2⟩ := ih (by omega)
      rw [List.range_succ, List.map_append, progOK_append, run_append]
      generalize run ((List.range p).map px) G1 = Gp at q2 ⊢
      have hD : p < (winPlan P Q L).D := Nat.lt_of_lt_of_le hp (winPlan P Q L).phases_le
      have hph : PhaseOf W P.members (fun k => 2 * c + haloTag true (if k = 0 then .lbulk else .rbulk))
          (fun j => 2 * c + haloTag false (if j = 0 then .lghost else .rghost))
          (fun w _ => haloBackStep P Q v B p (T w) w) Gp (haloBackward P.shape.length Sx) (haloPhases P) p := by
        refine ⟨h.wf.nodup, hW, hp, hM, hC, fun r hr => halo_noself_back hok dn hD hr,
          fun r hr s hs k j hk hj => congrArg _ (halo_tags_back hok dn hD hr hs hk hj), fun r hr => ?_⟩
        show haloBackStep P Q v B p _ _ = _
        rw [haloBackStep, hTat r hr]
        rfl
      refine ⟨⟨q1, liftPhase_ok hph.ok, trivial⟩, fun w hw => ?_⟩
      show sync (px p) Gp w = _
      split
      · next hm =>
        refine (hph.sync (st0 := st0) (fun r hr => ?_) hm).trans ?_
        · have hm' := getD_mem hr
          rw [q2 _ (hW _ hm'), if_pos hm', idxOf_getD h.wf.nodup hr]
          rfl
        · rw [q2 w hw, if_pos hm]
          rfl
      · next hm =>
        refine (liftPhase_sync_out hm).trans ?_
        rw [q2 w hw, if_neg hm]
  obtain ⟨o2, r2⟩ := hex _ (Nat.le_refl _)
  generalize hG2 : run ((List.range (haloPhases P)).map px) G1 = G2 at r2
  -- end
  let p3 : Nat → NSt F → Phase (NSt F) (NMsg F) := fun u => winBackEnd P Q v B (T u) u
  have o3 : PhaseOK W p3 G2 := localPhase_ok fun w y => (p3 w y).work y
  have r3 : ∀ w ∈ W, sync p3 G2 w = if w ∈ P.members then { G2 w with
      t := ⟨(S w).t.shape, (S w).t.dtype, (U (P.members.idxOf w)).padGrad (S w).t.shape (G2 w).arr.inp⟩ } else G2 w := by
    intro w hw
    show (if w ∈ P.members then _ else _) = _
    split
    · next hm =>
      have hr := List.idxOf_lt_length_of_mem hm
      have e1 := hat _ hr
      rw [getD_idxOf hm] at e1
      rw [hT w hw, Option.bind_some, e1, Option.map_some]
      have ht : (A w).t = (S w).t := by rw [ha w hw]; rfl
      dsimp only
      rw [ht]
    · rfl
  have hprog : (winBack c P Q v B gl pg).at T = p1 :: ((List.range (haloPhases P)).map px ++ [p3]) := by
    simp only [winBack, CProg.at, List.map_cons, List.map_append, List.map_map, List.map_nil]
    rfl
  have hrun : run ((winBack c P Q v B gl pg).at T) G = sync p3 G2 := by
    rw [hprog]
    show run ((List.range (haloPhases P)).map px ++ [p3]) (sync p1 G) = _
    rw [hG1, run_append, hG2]
    rfl
  rw [hrun]
  refine ⟨?_, fun w hw => ?_, fun w hw hn => ?_, k', g', Bk, fun r hr => ⟨hfin r hr, ?_, ?_⟩⟩
  · rw [hprog]
    refine ⟨o1, ?_⟩
    rw [hG1, progOK_append, hG2]
    exact ⟨o2, o3, trivial⟩
  · rw [r3 w hw, r2 w hw, r1 w hw]
    by_cases hm : w ∈ P.members <;> simp [hm, inpLens]
  · rw [r3 w hw, if_neg hn, r2 w hw, if_neg hn, r1 w hw, if_neg hn]
  · have hm := getD_mem (M := P.members) hr
    rw [r3 _ (hW _ hm), if_pos hm, r2 _ (hW _ hm), if_pos hm]
    have hf := Exchange.async_final hM hC Bk hr (hfin r hr)
    unfold inputGrad
    rw [hf, hloc r hr, idxOf_getD h.wf.nodup hr]
    rfl
  · have hm := getD_mem (M := P.members) hr
    rw [r3 _ (hW _ hm), if_pos hm, r2 _ (hW _ hm), if_pos hm, r1 _ (hW _ hm), if_pos hm, idxOf_getD h.wf.nodup hr]
    rfl

omit [CommSemiring F] in
/-- The gradient of the input has the parts of the input. -/
theorem HoldsG.finish {Y : List Nat → F} {L' : Layout} {G' : Nat → NSt F} {P' : Cart} (h : Holds W P L t X S)
    (hG : HoldsG W P' L' t Y G) {Z : List Nat → F}
    (herr : ∀ w ∈ W, (G' w).err = (G w).err)
    (hout : ∀ w ∈ W, w ∉ P.members → (G' w).t = (G w).t)
    (hin : ∀ r, r < P.members.length → (G' (P.members.getD r 0)).t.shape = (S (P.members.getD r 0)).t.shape ∧
      (G' (P.members.getD r 0)).t.dtype = (S (P.members.getD r 0)).t.dtype ∧
      ∀ l, InBounds l (L.shapeAt (getCoords P.shape r)) → (G' (P.members.getD r 0)).t.val l =
        Z (shiftBy (L.startAt (getCoords P.shape r)) l)) : HoldsG W P L t Z G' := by
  obtain ⟨rg, hrg⟩ := h.parts
  have hin' : ∀ v ∈ P.members, (G' v).t.shape = (S v).t.shape ∧ (G' v).t.dtype = (S v).t.dtype ∧
      ∀ l, InBounds l (L.shapeAt (P.coord v)) → (G' v).t.val l = Z (shiftBy (L.startAt (P.coord v)) l) := fun v hv => by
    have := hin _ (List.idxOf_lt_length_of_mem hv)
    rwa [getD_idxOf hv] at this
  refine ⟨fun w hw => (herr w hw).trans (hG.calm w hw), fun w hw => ?_, fun v hv => ?_, fun v hv => (hin' v hv).2.2⟩
  · by_cases hm : w ∈ P.members
    · rw [(hin' w hm).1]
      exact h.batch w hw
    · rw [hout w hw hm]
      exact hG.batch w hw
  · obtain ⟨a, b, -⟩ := hin' v hv
    rw [a, b]
    exact ⟨congrArg Prod.fst (hrg v hv), congrArg (·.2.1) (hrg v hv)⟩

omit [CommSemiring F] in
theorem HoldsG.outGrads {Y : List Nat → F} {N : List Nat} (hP : P.WF) (hG : HoldsG W P (Layout.balanced P.shape N) t Y G) :
    OutGrads P N (fun r => (G (P.members.getD r 0)).t.val) Y := by
  intro r hr o ho
  have e : P.coord (P.members.getD r 0) = getCoords P.shape r := by
    unfold Cart.coord
    rw [idxOf_getD hP.nodup hr]
  have := hG.data _ (getD_mem hr) o
  rw [e] at this
  exact this ho

end

/-! ## Average pooling -/

section
variable [Field F] {W : List Nat} {P : Cart} {Q : WinParams} {L : Layout} {S G : Nat → NSt F} {X Y : List Nat → F}
  {t : TorchDtype} {T : Nat → List (NSt F)} {nd : Nat} {pk ps pp pd : List Nat}

/-- The forward pass of `DistributedAvgPool*`, cut. -/
def avgCuts (c : Nat) (P : Cart) (Q : WinParams) (B : Bufs β) : List (Prog (NSt F) (NMsg F)) :=
  [setupProg c P, exchangeProg c P Q 0 B, [winOpPhase P Q 0 fun x I =>
    some (⟨torchPoolShape Q.noPad I.1, x.t.dtype, torchAvgPool Q.noPad I.1 I.2⟩, x.rg)]]

/-- Backward of `pooling.py:276-302` for `DistributedAvgPool*`. -/
def avgBack (c : Nat) (P : Cart) (Q : WinParams) (B : Bufs β) : CProg (List (NSt F)) (NSt F) (NMsg F) :=
  winBack c P Q 0 B (fun _ I y => torchAvgPoolGrad Q.noPad I.1 y.val) fun _ _ _ p => p

theorem avgCuts_flatten (c : Nat) (B : Bufs β) : (avgCuts c P Q B : List (Prog (NSt F) (NMsg F))).flatten = avgProg c P Q B := by
  simp [avgCuts, avgProg]

theorem avgBack_run (c : Nat) (B : Bufs β) (hQ : poolParams true nd pk ps pp pd = some Q)
    (hD : P.shape.length = nd + 2) (hP : P.WF) (hL : L.pshape = P.shape) (hl : WinLimits P Q L)
    (hW : ∀ w ∈ P.members, w ∈ W) (h : Holds W P L t X S)
    (hG : HoldsG W P (Layout.balanced P.shape (torchPoolShape Q L.global)) t Y G)
    (hT : ∀ w ∈ W, ∃ rest, T w = snaps (avgCuts c P Q B) S w ++ rest) :
    ProgOK W ((avgBack c P Q B).at T) G ∧ HoldsG W P L t (torchAvgPoolGrad Q L.global Y) (run ((avgBack c P Q B).at T) G) := by
  obtain ⟨rg, hrg⟩ := h.parts
  obtain ⟨-, f1, i1⟩ := setup_run c hW S
  have hsn : ∀ w, snaps (avgCuts c P Q B) S w = [run (exchangeProg c P Q 0 B) (run (setupProg c P) S) w,
    run (setupProg c P) S w, S w] := fun _ => rfl
  simp only [hsn] at hT
  generalize run (setupProg c P) S = S1 at f1 i1 hT
  have hg : gathered P S1 = gathered P S := f1.gathered hW
  have h1 : WinInput P Q L (gathered P S1) (fun w => (S1 w).t.val) X t rg := by
    have := h.winInput hP hL (pool_plen hQ hD) hrg
    refine ⟨this.wf, this.layout, this.plen, hg ▸ this.loc, fun v hv => ?_⟩
    rw [(f1 v (hW v hv)).1]
    exact this.data v hv
  obtain ⟨o, e1, e2, a, U, Sx, k, g, R, hf, hb⟩ := winBack_run (G := G) (T := T) c 0 B hW
    (fun w hw => (i1 w hw).trans hg.symm) h1 (fun _ I y => torchAvgPoolGrad Q.noPad I.1 y.val) (fun _ _ _ p => p)
    (fun w hw => by
      obtain ⟨rest, e⟩ := hT w hw
      rw [e]
      rfl)
  obtain ⟨k', g', Bk, hr⟩ := hb _ fun _ _ => rfl
  refine ⟨o, HoldsG.finish h hG e1 (fun w hw hn => by unfold avgBack; rw [e2 w hw hn]) fun r hr' => ?_⟩
  obtain ⟨p1, p2, -⟩ := hr r hr'
  unfold avgBack
  rw [p2, (f1 _ (hW _ (getD_mem hr'))).1]
  exact ⟨rfl, rfl, C60_average hQ hD h1 hl R (HoldsG.outGrads hP hG) Bk hr' p1⟩

end

end Verif.Net
