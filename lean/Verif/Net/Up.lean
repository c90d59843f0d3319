import Verif.Net.Window
import Verif.Interp.Props

/-!
# Networks: interpolation

`DistributedUpsample` (`nn/upsampling.py`) as a program of the network machine.
-/

namespace Verif.Net

open Exchange (lock)

variable {F β : Type}

section
variable [Field F] [LinearOrder F] [FloorRing F]

/-- What setup stores on worker `w`, computed from the structures it knows: `upSetup`, and the setup of the halo layer
(called with the padded input).  `none`: an exception. -/
def upAt (P : Cart) (size : Option (List Nat)) (p : InterpParams F) (B : Bufs β) (x : NSt F) (w : Nat) :
    Option (UpSetup × HaloSetup) :=
  (upSetup P size p x.info w).bind fun U =>
    (haloSetup P U.info.widths B.dt ((Mgr.init : Mgr β).run B.junk (B.ops (P.members.idxOf w))) B.junk
      (U.padInput x.t.shape x.t.val).1 (P.members.idxOf w)).map fun S => (U, S)

/-- Padding: `upsampling.py:273-279`. -/
def upPadPhase (P : Cart) (size : Option (List Nat)) (p : InterpParams F) (B : Bufs β) :
    Nat → NSt F → Phase (NSt F) (NMsg F) :=
  localPhase fun w x =>
    if w ∈ P.members then
      match upAt P size p B x w with
      | some (U, _) => { x with arr := { x.arr with inp := (U.padInput x.t.shape x.t.val).2 } }
      | none => { x with err := true }
    else x

/-- Dimension `d` of the halo exchange on worker `w` (`upsampling.py:281`, `functional/halo_exchange.py:32-72`). -/
def upStep (P : Cart) (size : Option (List Nat)) (p : InterpParams F) (B : Bufs β) (d : Nat) (w : Nat) (x : NSt F) :
    Exchange.Phase (List Nat → F) (List Nat → F) :=
  match upAt P size p B x w with
  | some (_, S) => haloFwdPhase S d
  | none => idle

/-- The same as a phase of the network, with the tags of the messages. -/
def upHaloPhase (c : Nat) (P : Cart) (size : Option (List Nat)) (p : InterpParams F) (B : Bufs β) (d : Nat) :
    Nat → NSt F → Phase (NSt F) (NMsg F) :=
  liftPhase P.members (fun k => 2 * c + haloTag true (if k = 0 then .lghost else .rghost))
    (fun j => 2 * c + haloTag false (if j = 0 then .lbulk else .rbulk)) inpLens arrInj .none
    (upStep P size p B d)

/-- Padding and exchange. -/
def upExchange (c : Nat) (P : Cart) (size : Option (List Nat)) (p : InterpParams F) (B : Bufs β) : Prog (NSt F) (NMsg F) :=
  upPadPhase P size p B :: (List.range (haloPhases P)).map (upHaloPhase c P size p B)

/-- Selection and local interpolation on worker `w` (`upsampling.py:282-283`). -/
def upOp (P : Cart) (size : Option (List Nat)) (p : InterpParams F) (x : NSt F) (w : Nat) : Option (Tensor F) :=
  (upSetup P size p x.info w).bind fun U =>
    let I := U.select (U.padInput x.t.shape x.t.val).1 x.arr.inp
    interpForward p U.xs U.gx U.ys U.ye U.gy ⟨I.1, x.t.dtype, I.2⟩

/-- The same as a phase. -/
def upOpPhase (P : Cart) (size : Option (List Nat)) (p : InterpParams F) : Nat → NSt F → Phase (NSt F) (NMsg F) :=
  localPhase fun w x =>
    if w ∈ P.members then
      match upOp P size p x w with
      | some y => tenLens.set (y, x.rg) x
      | none => { x with err := true }
    else x

/-- `upsampling.py:259-284` `forward`, with the setup that precedes it (`upsampling.py:116-220`), cut. -/
def upCuts (c : Nat) (P : Cart) (size : Option (List Nat)) (p : InterpParams F) (B : Bufs β) :
    List (Prog (NSt F) (NMsg F)) :=
  [setupProg c P, upExchange c P size p B, [upOpPhase P size p]]

end

section
variable [Field F] [LinearOrder F] [FloorRing F] [IsStrictOrderedRing F] {W : List Nat} {P : Cart}
  {size : Option (List Nat)} {p : InterpParams F} {gx gy : List Nat} {S : Nat → NSt F} {X : List Nat → F} {t : TorchDtype}
  {rg : Bool} {B : Bufs β}

omit [IsStrictOrderedRing F] in
/-- What setup stores does not depend on the entries of the tensor or the exchanged array. -/
theorem upAt_eq {localS : Nat → Info} {x' : Nat → List Nat → F} {U : Nat → UpSetup} {Sx : Nat → HaloSetup} {k : Nat}
    {g : Exchange.GState (List Nat → F) (List Nat → F)} {eager : Bool} (hnd : P.members.Nodup)
    (R : UpRun P size p localS x' B.dt B.junk B.ops eager k U Sx g) {x : NSt F} {r : Nat} (hr : r < P.members.length)
    (hi : x.info = localS) (ht : ((U r).padInput x.t.shape x.t.val).1 =
      ((U r).padInput (localS (P.members.getD r 0)).1 (x' (P.members.getD r 0))).1) :
    upAt P size p B x (P.members.getD r 0) = some (U r, Sx r) := by
  unfold upAt
  rw [hi, R.setup r hr, Option.bind_some, idxOf_getD hnd hr, ht, R.halo r hr]
  rfl

/-- After padding and exchange every worker has what it has after any execution of the exchange alone (`UpRun`). -/
theorem upExchange_run (c : Nat) (B : Bufs β) (hW : ∀ w ∈ P.members, w ∈ W)
    (i1 : ∀ w ∈ P.members, (S w).info = gathered P S)
    (h : UpInput P gx (gathered P S) (fun w => (S w).t.val) X t rg) (hc : UpCase P size p gx gy) :
    ProgOK W (upExchange c P size p B) S ∧
    (∀ w ∈ W, ∃ a, run (upExchange c P size p B) S w = inpLens.set a (S w)) ∧
    ∃ U Sx k g, UpRun P size p (gathered P S) (fun w => (S w).t.val) B.dt B.junk B.ops true k U Sx g ∧
      ∀ r, r < P.members.length → (g.ws r).phase = haloPhases P ∧
        upOp P size p (run (upExchange c P size p B) S (P.members.getD r 0)) (P.members.getD r 0) =
          upForward P p (gathered P S) (fun w => (S w).t.val) U g r := by
  obtain ⟨U, Sx, R0⟩ := C50_starts h hc B.dt B.junk B.ops true
  obtain ⟨k, g, R, -, hfin⟩ := C50_completes h hc R0
  have hok : (upPlan P p gx gy).OK := upPlan_ok_always h.wf h.len hc
  have dn := (R.setUp h (R.facts h hc)).done hok.wf
  have hM := HaloPlan.fwd_matched (α := F) hok dn
  have hC := HaloPlan.fwd_commutes (α := F) hok dn
  have hloc : ∀ r, r < P.members.length → (gathered P S (P.members.getD r 0)).1 = (S (P.members.getD r 0)).t.shape := by
    intro r hr
    unfold gathered
    rw [if_pos (getD_mem hr)]
    rfl
  have hat : ∀ (x : NSt F) r, r < P.members.length → x.info = gathered P S → x.t = (S (P.members.getD r 0)).t →
      upAt P size p B x (P.members.getD r 0) = some (U r, Sx r) := fun x r hr hi ht =>
    upAt_eq h.wf.nodup R hr hi (by rw [ht, hloc r hr])
  -- padding
  have o2 : PhaseOK W (upPadPhase P size p B) S := localPhase_ok _
  let st0 : Nat → List Nat → F := fun r => ((U r).padInput (gathered P S (P.members.getD r 0)).1
    (S (P.members.getD r 0)).t.val).2
  have hS2 : ∀ w ∈ W, sync (upPadPhase P size p B) S w =
      if w ∈ P.members then { S w with arr := { (S w).arr with inp := st0 (P.members.idxOf w) } } else S w := by
    intro w hw
    show (if w ∈ P.members then _ else _) = _
    split
    · next hm =>
      have hr := List.idxOf_lt_length_of_mem hm
      have := hat (S w) (P.members.idxOf w) hr (i1 w hm) (by rw [getD_idxOf hm])
      rw [getD_idxOf hm] at this
      rw [this]
      simp only [st0]
      rw [hloc _ hr, getD_idxOf hm]
    · rfl
  generalize hS2' : sync (upPadPhase P size p B) S = S2 at hS2
  -- exchange
  have hex : ∀ d, d ≤ haloPhases P → ProgOK W ((List.range d).map (upHaloPhase c P size p B)) S2 ∧
      ∀ w ∈ W, run ((List.range d).map (upHaloPhase c P size p B)) S2 w =
        if w ∈ P.members then inpLens.set (lock (haloForward Sx) st0 d (P.members.idxOf w)) (S w) else S w := by
    intro d
    induction d with
    | zero => intro _; exact ⟨trivial, hS2⟩
    | succ d ih =>
      intro hp
      obtain ⟨q1, q2⟩ := ih (by omega)
      rw [List.range_succ, List.map_append, progOK_append, run_append]
      generalize run ((List.range d).map (upHaloPhase c P size p B)) S2 = Sp at q2 ⊢
      have hD : d < (upPlan P p gx gy).D := Nat.lt_of_lt_of_le hp (upPlan P p gx gy).phases_le
      have hph : PhaseOf W P.members (fun k => 2 * c + haloTag true (if k = 0 then .lghost else .rghost))
          (fun j => 2 * c + haloTag false (if j = 0 then .lbulk else .rbulk))
          (upStep P size p B d) Sp (haloForward Sx) (haloPhases P) d := by
        refine ⟨h.wf.nodup, hW, hp, hM, hC, fun r hr => halo_noself hok dn hD hr,
          fun r hr s hs k j hk hj => congrArg _ (halo_tags hok dn hD hr hs hk hj), fun r hr => ?_⟩
        have hm := getD_mem hr
        have e := q2 _ (hW _ hm)
        rw [if_pos hm] at e
        have := hat (Sp (P.members.getD r 0)) r hr (by rw [e]; exact i1 _ hm) (by rw [e]; rfl)
        show upStep P size p B d _ _ = _
        rw [upStep, this]
        rfl
      refine ⟨⟨q1, liftPhase_ok hph.ok, trivial⟩, fun w hw => ?_⟩
      show sync (upHaloPhase c P size p B d) Sp w = _
      split
      · next hm =>
        refine (hph.sync (st0 := st0) (fun r hr => ?_) hm).trans ?_
        · have hm' := getD_mem hr
          rw [q2 _ (hW _ hm'), if_pos hm', idxOf_getD h.wf.nodup hr]
          rfl
        · rw [q2 w hw, if_pos hm]
          rfl
      · next hm =>
        refine (liftPhase_sync_out hm).trans ?_
        rw [q2 w hw, if_neg hm]
  obtain ⟨o3, hS3⟩ := hex _ (Nat.le_refl _)
  have hrun : ∀ w, run (upExchange c P size p B) S w =
      run ((List.range (haloPhases P)).map (upHaloPhase c P size p B)) S2 w := by
    intro w
    show run _ (sync (upPadPhase P size p B) S) w = _
    rw [hS2']
  refine ⟨⟨o2, by rw [hS2']; exact o3⟩, fun w hw => ?_, U, Sx, k, g, R, fun r hr => ⟨hfin r hr, ?_⟩⟩
  · rw [hrun, hS3 w hw]
    split
    · exact ⟨_, rfl⟩
    · exact ⟨_, (inpLens.set_get _).symm⟩
  · have hm := getD_mem hr
    rw [hrun, hS3 _ (hW _ hm), if_pos hm, upOp]
    obtain ⟨w, hw⟩ : ∃ w, w = P.members.getD r 0 := ⟨_, rfl⟩
    have hdt : (gathered P S w).2.1 = (S w).t.dtype := by
      rw [hw, gathered_dtype hr]
    rw [← hw] at hm ⊢
    show (upSetup P size p (S w).info w).bind (fun V => interpForward p V.xs V.gx V.ys V.ye V.gy
      ⟨(V.select (V.padInput (S w).t.shape (S w).t.val).1 (lock (haloForward Sx) st0 (haloPhases P) (P.members.idxOf w))).1,
        (S w).t.dtype,
        (V.select (V.padInput (S w).t.shape (S w).t.val).1 (lock (haloForward Sx) st0 (haloPhases P) (P.members.idxOf w))).2⟩) = _
    rw [i1 _ hm, hw, R.setup r hr, Option.bind_some, idxOf_getD h.wf.nodup hr]
    have hf := Exchange.async_final hM hC R.exec hr (hfin r hr)
    unfold upForward
    rw [← hw]
    dsimp only
    rw [hf, hdt, show (gathered P S w).1 = (S w).t.shape by rw [hw, hloc r hr]]
    rfl

omit [LinearOrder F] [FloorRing F] [IsStrictOrderedRing F] [Field F] in
theorem Holds.upInput (h : Holds W P (Layout.balanced P.shape gx) t X S) (hP : P.WF) (hl : gx.length = P.shape.length)
    (hrg : ∀ v ∈ P.members, (S v).own = ((Layout.balanced P.shape gx).shapeAt (P.coord v), t, rg)) :
    UpInput P gx (gathered P S) (fun w => (S w).t.val) X t rg := by
  refine ⟨hP, hl, fun v hv idx hi => ?_, fun v hv idx hi l hl => ?_⟩
  · rw [Cart.index_eq hv] at hi
    cases hi
    rw [gathered_own hv, hrg v hv]
  · rw [Cart.index_eq hv] at hi
    cases hi
    exact h.data v hv l hl

omit [LinearOrder F] [FloorRing F] [IsStrictOrderedRing F] [Field F] in
/-- The same after setup. -/
theorem Holds.upInput_setup {S1 : Nat → NSt F} {c : Nat} (h : Holds W P (Layout.balanced P.shape gx) t X S) (hP : P.WF)
    (hl : gx.length = P.shape.length) (hW : ∀ w ∈ P.members, w ∈ W)
    (hrg : ∀ v ∈ P.members, (S v).own = ((Layout.balanced P.shape gx).shapeAt (P.coord v), t, rg))
    (hS1 : run (setupProg c P) S = S1) :
    (∀ w ∈ P.members, (S1 w).info = gathered P S1) ∧ UpInput P gx (gathered P S1) (fun w => (S1 w).t.val) X t rg := by
  obtain ⟨-, f1, i1⟩ := setup_run c hW S
  rw [hS1] at f1 i1
  have hg : gathered P S1 = gathered P S := f1.gathered hW
  have := h.upInput hP hl hrg
  refine ⟨fun w hw => (i1 w hw).trans hg.symm, this.wf, this.len, hg ▸ this.loc, fun v hv => ?_⟩
  rw [(f1 v (hW v hv)).1]
  exact this.data v hv

theorem up_run (c : Nat) (B : Bufs β) (ht : t = .float32 ∨ t = .float64) (hc : UpCase P size p gx gy)
    (hf : (upPlan P p gx gy).Fits) (hP : P.WF) (hl : gx.length = P.shape.length) (hW : ∀ w ∈ P.members, w ∈ W)
    (h : Holds W P (Layout.balanced P.shape gx) t X S) :
    ProgOK W (upCuts c P size p B).flatten S ∧ Holds W P (Layout.balanced P.shape gy) t (torchInterp p gx gy X)
      (run (upCuts c P size p B).flatten S) := by
  obtain ⟨rg, hrg⟩ := h.parts
  obtain ⟨o1, f1, -⟩ := setup_run c hW S
  obtain ⟨i1, h1⟩ := h.upInput_setup hP hl hW hrg (c := c) rfl
  have hfl : (upCuts c P size p B).flatten = setupProg c P ++ (upExchange c P size p B ++ [upOpPhase P size p]) := by
    simp [upCuts]
  generalize hS1 : run (setupProg c P) S = S1 at f1 i1 h1
  obtain ⟨o2, f2, U, Sx, k, g, R, hr2⟩ := upExchange_run c B hW i1 h1 hc
  generalize hS2 : run (upExchange c P size p B) S1 = S2 at f2 hr2
  have hrun : run (upCuts c P size p B).flatten S = sync (upOpPhase P size p) S2 := by
    rw [hfl, run_append, run_append, hS1, hS2]
    rfl
  have hphase : ∀ w, sync (upOpPhase P size p) S2 w = if w ∈ P.members then
      match upOp P size p (S2 w) w with
      | some y => tenLens.set (y, (S2 w).rg) (S2 w)
      | none => { S2 w with err := true }
    else S2 w := fun _ => rfl
  have hin : ∀ r, r < P.members.length → ∃ y, sync (upOpPhase P size p) S2 (P.members.getD r 0) =
      tenLens.set (y, rg) (S2 (P.members.getD r 0)) ∧
      ∀ x, HoldsAt P (Layout.balanced P.shape gy) t rg (torchInterp p gx gy X) r (tenLens.set (y, rg) x) := by
    intro r hr
    obtain ⟨p1, p2⟩ := hr2 r hr
    have hm := getD_mem (M := P.members) hr
    obtain ⟨y, y1, y2, y3, y4⟩ := C50_partial h1 ht hc hf R hr p1
    obtain ⟨a, ha⟩ := f2 _ (hW _ hm)
    have hrg2 : (S2 (P.members.getD r 0)).rg = rg := by
      rw [ha]
      show (S1 (P.members.getD r 0)).rg = rg
      rw [(f1 _ (hW _ hm)).2.1]
      exact congrArg (·.2.2) (hrg _ hm)
    refine ⟨y, ?_, fun x => ⟨Prod.ext y3 (Prod.ext y2 rfl), fun o ho => y4 o (y3 ▸ ho)⟩⟩
    rw [hphase, if_pos hm, p2, y1, hrg2]
  refine ⟨?_, ?_⟩
  · rw [hfl, progOK_append, progOK_append, hS1, hS2]
    exact ⟨o1, o2, localPhase_ok _, trivial⟩
  · rw [hrun]
    refine h.finish (rg := rg) (Layout.balanced_pshape (hl.symm.trans hc.out.shape.2.symm))
      (fun e => by have := hc.dims; rw [e] at this; simp at this) (fun w hw => ?_) (fun w hw hn => ?_) fun r hr => ?_
    · obtain ⟨a, ha⟩ := f2 w hw
      have he : (S2 w).err = (S w).err := by rw [ha]; exact (f1 w hw).2.2.1
      by_cases hm : w ∈ P.members
      · obtain ⟨y, e, -⟩ := hin _ (List.idxOf_lt_length_of_mem hm)
        rw [getD_idxOf hm] at e
        rw [e]
        exact he
      · rw [hphase, if_neg hm]
        exact he
    · obtain ⟨a, ha⟩ := f2 w hw
      rw [hphase, if_neg hn, ha]
      exact (f1 w hw).1
    · obtain ⟨y, e, hx⟩ := hin r hr
      rw [e]
      exact hx _

end

end Verif.Net
