import Verif.Net.Setup
import Verif.Window.Limits

/-!
# Networks: halo exchange

The common part of the sliding-window layers up to the local operator - setup, padding, halo exchange - as a program
of the network machine: `conv_feature.py:238-306, 380-391`, `pooling.py:151-217, 289-299`.
-/

namespace Verif.Net

open Exchange (lock)

variable {F β : Type}

/-- Type and history of the buffer managers. -/
structure Bufs (β : Type) where
  dt : NpKey
  junk : Nat → β
  ops : Nat → List (MgrOp β)

/-- What setup stores on worker `w`, computed from the structures it knows: `winSetup`, and the setup of the halo
layer (called with the padded input).  `none`: an exception. -/
def haloAt (P : Cart) (Q : WinParams) (v : F) (B : Bufs β) (x : NSt F) (w : Nat) : Option (WinSetup × HaloSetup) :=
  (winSetup P Q x.info w).bind fun U =>
    (haloSetup P U.info.widths B.dt ((Mgr.init : Mgr β).run B.junk (B.ops (P.members.idxOf w))) B.junk
      (U.padInput v x.t.shape x.t.val).1 (P.members.idxOf w)).map fun S => (U, S)

/-- Padding: `conv_feature.py:380-388`, `pooling.py:289-296`. -/
def padPhase (P : Cart) (Q : WinParams) (v : F) (B : Bufs β) : Nat → NSt F → Phase (NSt F) (NMsg F) :=
  localPhase fun w x =>
    if w ∈ P.members then
      match haloAt P Q v B x w with
      | some (U, _) => { x with arr := { x.arr with inp := (U.padInput v x.t.shape x.t.val).2 } }
      | none => { x with err := true }
    else x

/-- Nothing to exchange. -/
def idle {τ : Type} : Exchange.Phase τ τ := ⟨[], [], fun _ x => x, id, fun _ _ x => x⟩

/-- Dimension `p` of the halo exchange on worker `w` (`functional/halo_exchange.py:32-72`). -/
def haloStep (P : Cart) (Q : WinParams) (v : F) (B : Bufs β) (p : Nat) (w : Nat) (x : NSt F) :
    Exchange.Phase (List Nat → F) (List Nat → F) :=
  match haloAt P Q v B x w with
  | some (_, S) => haloFwdPhase S p
  | none => idle

/-- The same as a phase of the network, with the tags of the messages. -/
def haloPhase (c : Nat) (P : Cart) (Q : WinParams) (v : F) (B : Bufs β) (p : Nat) :
    Nat → NSt F → Phase (NSt F) (NMsg F) :=
  liftPhase P.members (fun k => 2 * c + haloTag true (if k = 0 then .lghost else .rghost))
    (fun j => 2 * c + haloTag false (if j = 0 then .lbulk else .rbulk)) inpLens arrInj .none
    (haloStep P Q v B p)

/-- Padding and exchange. -/
def exchangeProg (c : Nat) (P : Cart) (Q : WinParams) (v : F) (B : Bufs β) : Prog (NSt F) (NMsg F) :=
  padPhase P Q v B :: (List.range (haloPhases P)).map (haloPhase c P Q v B)

/-- The input of the local operator (`conv_feature.py:391`, `pooling.py:299`). -/
def windowInput (P : Cart) (Q : WinParams) (v : F) (x : NSt F) (w : Nat) : Option (List Nat × (List Nat → F)) :=
  (winSetup P Q x.info w).map fun U => U.select (U.padInput v x.t.shape x.t.val).1 x.arr.inp

section
variable {H : HaloPlan} {S : Nat → HaloSetup}

theorem halo_noself (h : H.OK) (dn : H.Done S) {p r : Nat} (hp : p < H.D) (hr : r < H.n) :
    some r ∉ (haloForward (α := F) S p r).recvs := by
  obtain ⟨-, -, q1, q2⟩ := HaloPlan.nb_spec h dn hr hp
  show some r ∉ [(S r).req p .lghost, (S r).req p .rghost]
  rw [HaloPlan.mem_pair]
  rintro (e | e)
  · have := (q1 r ((HaloPlan.req_eq S p r _ r).1 e).2).2.1
    omega
  · have := (q2 r ((HaloPlan.req_eq S p r _ r).1 e).2).2.1
    omega

theorem pair_get {α : Type} {a b : Option α} {k : Nat} {s : α} (h : [a, b][k]? = some (some s)) :
    (k = 0 ∧ a = some s) ∨ (k ≠ 0 ∧ b = some s) := by
  match k with
  | 0 => exact Or.inl ⟨rfl, by simpa using h⟩
  | 1 => exact Or.inr ⟨by omega, by simpa using h⟩
  | k + 2 => simp at h

theorem halo_tags (h : H.OK) (dn : H.Done S) {p r s k j : Nat} (hp : p < H.D) (hr : r < H.n) (hs : s < H.n)
    (hk : (haloForward (α := F) S p r).recvs[k]? = some (some s))
    (hj : (haloForward (α := F) S p s).sends[j]? = some (some r)) :
    haloTag true (if k = 0 then .lghost else .rghost) = haloTag false (if j = 0 then .lbulk else .rbulk) := by
  obtain ⟨-, -, q1, q2⟩ := HaloPlan.nb_spec h dn hr hp
  obtain ⟨-, -, q3, q4⟩ := HaloPlan.nb_spec h dn hs hp
  rcases pair_get hk with ⟨k0, e⟩ | ⟨k0, e⟩ <;> rcases pair_get hj with ⟨j0, e'⟩ | ⟨j0, e'⟩
  · have a := (q1 s ((HaloPlan.req_eq S p r _ s).1 e).2).2.1
    have b := (q3 r ((HaloPlan.req_eq S p s _ r).1 e').2).2.1
    omega
  · rw [if_pos k0, if_neg j0]; rfl
  · rw [if_neg k0, if_pos j0]; rfl
  · have a := (q2 s ((HaloPlan.req_eq S p r _ s).1 e).2).2.1
    have b := (q4 r ((HaloPlan.req_eq S p s _ r).1 e').2).2.1
    omega

end

section
variable {W : List Nat} {P : Cart} {Q : WinParams} {L : Layout} {S : Nat → NSt F} {X : List Nat → F} {t : TorchDtype}
  {rg : Bool} {v : F} {B : Bufs β}

/-- After padding and exchange every worker has what it has after any execution of the exchange alone (`WinRun`). -/
theorem exchange_run (c : Nat) (v : F) (B : Bufs β) (hW : ∀ w ∈ P.members, w ∈ W)
    (i1 : ∀ w ∈ P.members, (S w).info = gathered P S)
    (h : WinInput P Q L (gathered P S) (fun w => (S w).t.val) X t rg) :
    ProgOK W (exchangeProg c P Q v B) S ∧
    (∀ w ∈ W, ∃ a, run (exchangeProg c P Q v B) S w = inpLens.set a (S w)) ∧
    ∃ U Sx k g, WinRun P Q v (gathered P S) (fun w => (S w).t.val) B.dt B.junk B.ops true k U Sx g ∧
      ∀ r, r < P.members.length → (g.ws r).phase = haloPhases P ∧
        windowInput P Q v (run (exchangeProg c P Q v B) S (P.members.getD r 0)) (P.members.getD r 0) =
          some (localInput P v (gathered P S) (fun w => (S w).t.val) U g r) := by
  obtain ⟨U, Sx, R0⟩ := C39_starts h v B.dt B.junk B.ops true
  obtain ⟨k, g, R, -, hfin⟩ := C39_completes h R0
  obtain ⟨T, hT, hUr, hshape, hval, hSx⟩ := R.facts h
  have hok : (winPlan P Q L).OK := plan_ok_always (winDims_plan h)
  have dn := hSx.done hok.wf
  have hM := HaloPlan.fwd_matched (α := F) hok dn
  have hC := HaloPlan.fwd_commutes (α := F) hok dn
  have hloc : ∀ r, r < P.members.length → (gathered P S (P.members.getD r 0)).1 = (S (P.members.getD r 0)).t.shape := by
    intro r hr
    unfold gathered
    rw [if_pos (getD_mem hr)]
    rfl
  have hat : ∀ (x : NSt F) r, r < P.members.length → x.info = gathered P S → x.t = (S (P.members.getD r 0)).t →
      haloAt P Q v B x (P.members.getD r 0) = some (U r, Sx r) := by
    intro x r hr hi ht
    unfold haloAt
    rw [hi, R.setup r hr, Option.bind_some, idxOf_getD h.wf.nodup hr, ht]
    have := R.halo r hr
    rw [hloc r hr] at this
    rw [this]
    rfl
  -- padding
  have o2 : PhaseOK W (padPhase P Q v B) S := localPhase_ok _
  let st0 : Nat → List Nat → F := fun r => ((U r).padInput v (gathered P S (P.members.getD r 0)).1
    (S (P.members.getD r 0)).t.val).2
  have hS2 : ∀ w ∈ W, sync (padPhase P Q v B) S w =
      if w ∈ P.members then { S w with arr := { (S w).arr with inp := st0 (P.members.idxOf w) } } else S w := by
    intro w hw
    show (if w ∈ P.members then _ else _) = _
    split
    · next hm =>
      have hr := List.idxOf_lt_length_of_mem hm
      have := hat (S w) (P.members.idxOf w) hr (i1 w hm) (by rw [getD_idxOf hm])
      rw [getD_idxOf hm] at this
      rw [this]
      simp only [st0]
      rw [hloc _ hr, getD_idxOf hm]
    · rfl
  generalize hS2' : sync (padPhase P Q v B) S = S2 at hS2
  -- exchange
  have hex : ∀ p, p ≤ haloPhases P → ProgOK W ((List.range p).map (haloPhase c P Q v B)) S2 ∧
      ∀ w ∈ W, run ((List.range p).map (haloPhase c P Q v B)) S2 w =
        if w ∈ P.members then inpLens.set (lock (haloForward Sx) st0 p (P.members.idxOf w)) (S w) else S w := by
    intro p
    induction p with
    | zero => intro _; exact ⟨trivial, hS2⟩
    | succ p ih =>
      intro hp
      obtain ⟨q1, q2⟩ := ih (by omega)
      rw [List.range_succ, List.map_append, progOK_append, run_append]
      generalize run ((List.range p).map (haloPhase c P Q v B)) S2 = Sp at q2 ⊢
      have hD : p < (winPlan P Q L).D := Nat.lt_of_lt_of_le hp (winPlan P Q L).phases_le
      have hph : PhaseOf W P.members (fun k => 2 * c + haloTag true (if k = 0 then .lghost else .rghost))
          (fun j => 2 * c + haloTag false (if j = 0 then .lbulk else .rbulk))
          (haloStep P Q v B p) Sp (haloForward Sx) (haloPhases P) p := by
        refine ⟨h.wf.nodup, hW, hp, hM, hC, fun r hr => halo_noself hok dn hD hr,
          fun r hr s hs k j hk hj => congrArg _ (halo_tags hok dn hD hr hs hk hj), fun r hr => ?_⟩
        have hm := getD_mem hr
        have e := q2 _ (hW _ hm)
        rw [if_pos hm] at e
        have := hat (Sp (P.members.getD r 0)) r hr (by rw [e]; exact i1 _ hm) (by rw [e]; rfl)
        show haloStep P Q v B p _ _ = _
        rw [haloStep, this]
        rfl
      refine ⟨⟨q1, liftPhase_ok hph.ok, trivial⟩, fun w hw => ?_⟩
      show sync (haloPhase c P Q v B p) Sp w = _
      split
      · next hm =>
        refine (hph.sync (st0 := st0) (fun r hr => ?_) hm).trans ?_
        · have hm' := getD_mem hr
          rw [q2 _ (hW _ hm'), if_pos hm', idxOf_getD h.wf.nodup hr]
          rfl
        · rw [q2 w hw, if_pos hm]
          rfl
      · next hm =>
        refine (liftPhase_sync_out hm).trans ?_
        rw [q2 w hw, if_neg hm]
  obtain ⟨o3, hS3⟩ := hex _ (Nat.le_refl _)
  have hrun : ∀ w, run (exchangeProg c P Q v B) S w = run ((List.range (haloPhases P)).map (haloPhase c P Q v B)) S2 w := by
    intro w
    show run _ (sync (padPhase P Q v B) S) w = _
    rw [hS2']
  refine ⟨⟨o2, by rw [hS2']; exact o3⟩, fun w hw => ?_, U, Sx, k, g, R, fun r hr => ⟨hfin r hr, ?_⟩⟩
  · rw [hrun, hS3 w hw]
    split
    · exact ⟨_, rfl⟩
    · exact ⟨_, (inpLens.set_get _).symm⟩
  · have hm := getD_mem hr
    rw [hrun, hS3 _ (hW _ hm), if_pos hm, windowInput]
    obtain ⟨w, hw⟩ : ∃ w, w = P.members.getD r 0 := ⟨_, rfl⟩
    rw [← hw] at hm ⊢
    show (winSetup P Q (S w).info w).map (fun V => V.select (V.padInput v (S w).t.shape (S w).t.val).1
      (lock (haloForward Sx) st0 (haloPhases P) (P.members.idxOf w))) = _
    rw [i1 _ hm, hw, R.setup r hr, Option.map_some, idxOf_getD h.wf.nodup hr]
    have hf := Exchange.async_final hM hC R.exec hr (hfin r hr)
    unfold localInput
    rw [hf, hloc r hr]
    rfl

end

end Verif.Net
