import Verif.Net.Update
import Verif.Net.LiveProps

/-!
# Networks: calls and training steps in any order

A worker's program calls a network again and again.  It may use the result, or compute the gradients and change its
parameters.  The modules keep what their setup has found (`Verif.Net.Cache`).
-/

namespace Verif.Net

variable {F β : Type}

section
variable [Field F]

/-! ## Programs -/

/-- What a worker does with the network. -/
inductive Job (F : Type) where
  /-- it calls the network; `x w` is the input of worker `w` -/
  | eval (x : Nat → Tensor F)
  /-- it calls the network, computes the gradient of its part of the output from it, goes back and changes its parameters -/
  | train (x : Nat → Tensor F) (seed : Nat → Tensor F → Tensor F) (opt : F → F → F)

/-- The inputs. -/
def Job.x : Job F → Nat → Tensor F
  | .eval x => x
  | .train x _ _ => x

/-- Does the job go back? -/
def Job.back : Job F → Bool
  | .eval _ => false
  | .train _ _ _ => true

/-- A worker with its input; `rg` is the input's `requires_grad`. -/
def feed (x : Tensor F) (rg : Bool) : NSt F :=
  ⟨x, rg, false, fun _ => noInfo, noInfo, ⟨fun _ => 0, fun _ => 0⟩, fun _ => (⟨[], .float32, fun _ => 0⟩, false)⟩

/-- A worker before the first call; no module is set up (`nn/module.py:29-30`). -/
def LSt.fresh (θ : Nat → Nat → Tensor F) : LSt F :=
  ⟨⟨feed ⟨[0], .float32, fun _ => 0⟩ false, [], []⟩, θ, fun _ => none, false, false, [], [], fun _ => 0⟩

/-- The worker has a new input.  Gradients of earlier steps are gone (`zero_grad`). -/
def startPhase (x : Nat → Tensor F) (rg : Nat → Bool) : Nat → LSt F → Phase (LSt F) (NMsg F) :=
  localPhase fun w c => { c with b := ⟨feed (x w) (rg w), [], []⟩, bad := c.bad || c.b.s.err }

/-- The result is stored. -/
def outPhase : Nat → LSt F → Phase (LSt F) (NMsg F) := localPhase fun _ c => { c with outs := c.outs ++ [c.b.s.t] }

/-- The gradient of the output, computed by every worker from its part of the output. -/
def lossPhase (seed : Nat → Tensor F → Tensor F) : Nat → LSt F → Phase (LSt F) (NMsg F) :=
  localPhase fun w c => { c with b := { c.b with s := { c.b.s with t := seed w c.b.s.t } } }

/-- The parameters change (`tests/layers/test_batchnorm.py:241-244`). -/
def updPhase (opt : F → F → F) : Nat → LSt F → Phase (LSt F) (NMsg F) := localPhase fun _ c =>
  { c with θ := fun i => stepPar opt (c.θ i) ((c.b.grads[i]?).getD fun _ => none) }

/-- The backward pass with the parameters a worker has. -/
def loopBack (P : Cart) (ls : List (TLayer F β)) (rg : Nat → Bool) : Prog (LSt F) (NMsg F) :=
  (family (fun θ => netBackL P rg (netWith P (fun _ => θ) 0 ls)) (netBackL P rg ls).length).map (ctxPhase LSt.θ bLens)

/-- The program of a job. -/
def jobProg (P : Cart) (ls : List (TLayer F β)) (rg : Nat → Bool) : Job F → Prog (LSt F) (NMsg F)
  | .eval x => startPhase x rg :: (callProg 0 (netPieces P 0 ls) ++ [outPhase])
  | .train x seed opt => startPhase x rg :: (callProg 0 (netPieces P 0 ls) ++ lossPhase seed ::
      (loopBack P ls rg ++ [updPhase opt]))

/-- All jobs, one after the other. -/
def jobsProg (P : Cart) (ls : List (TLayer F β)) (rg : Nat → Bool) (js : List (Job F)) : Prog (LSt F) (NMsg F) :=
  js.flatMap (jobProg P ls rg)

/-! ## Specification: the sequential network -/

/-- What is done with the sequential network. -/
inductive Task (F : Type) where
  /-- it is called with the input `X` of shape `s` -/
  | eval (s : List Nat) (X : List Nat → F)
  /-- it is called with the input `X` of shape `s`, the gradient of the output `Z` is `Y Z`, and its parameters change -/
  | train (s : List Nat) (X : List Nat → F) (Y : (List Nat → F) → List Nat → F) (opt : F → F → F)

/-- The shape of the input. -/
def Task.shape : Task F → List Nat
  | .eval s _ => s
  | .train s _ _ _ => s

/-- The network after a task. -/
def Task.next (ls : List (TLayer F β)) : Task F → List (TLayer F β)
  | .eval _ _ => ls
  | .train s X Y opt => updNet opt ls (s, X) (Y (tseqNet ls (s, X)).2)

/-- The result of a task, with the shape of its input. -/
def Task.out (ls : List (TLayer F β)) : Task F → List (List Nat × (List Nat → F))
  | .eval s X => [(s, (tseqNet ls (s, X)).2)]
  | .train _ _ _ _ => []

/-- The network after some tasks. -/
def netAfter (ls : List (TLayer F β)) (ts : List (Task F)) : List (TLayer F β) := ts.foldl Task.next ls

/-- The results of some tasks, with the shapes of their inputs. -/
def outsOf : List (TLayer F β) → List (Task F) → List (List Nat × (List Nat → F))
  | _, [] => []
  | ls, t :: ts => t.out ls ++ outsOf (t.next ls) ts

/-- The workers' job is a task of the sequential network; `L s` and `L' s` are the layouts of the input and of the output if
the input has shape `s`. -/
def Job.Does (W : List Nat) (P : Cart) (L : List Nat → Layout) (P' : Cart) (L' : List Nat → Layout) (t : TorchDtype)
    (rg : Nat → Bool) : Job F → Task F → Prop
  | .eval x, .eval s X => (L s).global = s ∧ Holds W P (L s) t X fun w => feed (x w) (rg w)
  | .train x seed opt, .train s X Y opt' => (L s).global = s ∧ Holds W P (L s) t X (fun w => feed (x w) (rg w)) ∧
    (∀ Z, SeedsGrad W P' (L' s) t Z (Y Z) seed) ∧ opt = opt'
  | _, _ => False

/-- The worker holds its parts of the results. -/
def HoldsOuts (P : Cart) (L : List Nat → Layout) (t : TorchDtype) (w : Nat) (outs : List (Tensor F))
    (Z : List (List Nat × (List Nat → F))) : Prop :=
  List.Forall₂ (fun z Z => w ∈ P.members → z.shape = (L Z.1).shapeAt (P.coord w) ∧ z.dtype = t ∧
    ∀ l, InBounds l ((L Z.1).shapeAt (P.coord w)) → z.val l = Z.2 (shiftBy ((L Z.1).startAt (P.coord w)) l)) outs Z

/-! ## One job -/

variable {W : List Nat} {P P' : Cart} {L L' : List Nat → Layout} {ls G : List (TLayer F β)} {t : TorchDtype}
  {rg : Nat → Bool} {T T₀ : Nat → Nat → Nat → Tensor F} {C : Nat → LSt F} {M : Nat → Nat → Option Mem}
  {Zs : List (List Nat × (List Nat → F))}

/-- What the modules keep after a call with the input `x`, if they all do their setup. -/
def keeps (P : Cart) (ls : List (TLayer F β)) (T₀ : Nat → Nat → Nat → Tensor F) (x : Nat → Tensor F) (rg : Nat → Bool) :
    List (Nat → Option Mem) :=
  memsOf (netMods P (netWith P T₀ 0 ls)) fun w => feed (x w) (rg w)

/-- The new memories replace the old ones. -/
def renew (M : Nat → Nat → Option Mem) (ms : List (Nat → Option Mem)) (q : Nat) : Nat → Option Mem := (ms[q]?).getD (M q)

/-- The workers decide alike about the setup of every module in every job; `M q u` is what module `q` keeps on worker `u` at
the beginning. -/
def Alike (P : Cart) (ls : List (TLayer F β)) (T₀ : Nat → Nat → Nat → Tensor F) (rg : Nat → Bool) :
    (Nat → Nat → Option Mem) → List (Job F) → Prop
  | _, [] => True
  | M, j :: js => (∀ k mem, (keeps P ls T₀ j.x rg)[k]? = some mem → Decides (M k) mem) ∧
    Alike P ls T₀ rg (renew M (keeps P ls T₀ j.x rg)) js

/-- Between two jobs. -/
structure Ready (W : List Nat) (P : Cart) (ls : List (TLayer F β)) (P' : Cart) (L' : List Nat → Layout) (t : TorchDtype)
    (T₀ : Nat → Nat → Nat → Tensor F) (M : Nat → Nat → Option Mem) (G : List (TLayer F β))
    (Zs : List (List Nat × (List Nat → F))) (C : Nat → LSt F) : Prop where
  stores : StoresNet P (fun w => (C w).θ) 0 G
  kin : List.Forall₂ Kin ls G
  bare : ∀ w i p, ((C w).θ i p).bare = (T₀ w i p).bare
  cold : ∀ u, (C u).cold = false
  cache : ∀ u q, (C u).cache q = M q u
  calm : ∀ w ∈ W, (C w).bad = false ∧ (C w).b.s.err = false
  outs : ∀ w ∈ W, HoldsOuts P' L' t w (C w).outs Zs

theorem feed_bare {x y : Tensor F} {rg : Bool} (h : x.bare = y.bare) : (feed x rg).bare = (feed y rg).bare :=
  bare_eq.2 ⟨h, rfl, rfl, rfl, rfl, fun _ => ⟨rfl, rfl⟩⟩

omit [Field F] in
theorem kins_trans {a b : List (TLayer F β)} (h : List.Forall₂ Kin a b) : ∀ {c}, List.Forall₂ Kin b c → List.Forall₂ Kin a c := by
  induction h with
  | nil => exact fun h => h
  | cons h _ ih => intro c hc; cases hc with | cons h' hs => exact .cons (h.trans h') (ih hs)

/-- The forward pass. -/
theorem Ready.call {K K' : Layout} (hC : Ready W P ls P' L' t T₀ M G Zs C) (hn : TNetFits W P K ls P' K') (hP : P.WF)
    (hL : K.pshape = P.shape) (hW : ∀ w ∈ P.members, w ∈ W) {x : Nat → Tensor F} {X : List Nat → F}
    (hx : ∀ k mem, (keeps P ls T₀ x rg)[k]? = some mem → Decides (M k) mem)
    (hX : Holds W P K t X fun w => feed (x w) (rg w)) :
    ProgOK W (callProg 0 (netPieces P 0 ls)) (sync (startPhase x rg) C) ∧
    (∀ u, ∃ cache, run (callProg 0 (netPieces P 0 ls)) (sync (startPhase x rg) C) u = { C u with
        b := ⟨run (netCuts P (netWith P (fun w => (C w).θ) 0 G)).flatten (fun w => feed (x w) (rg w)) u,
          snaps (netCuts P (netWith P (fun w => (C w).θ) 0 G)) (fun w => feed (x w) (rg w)) u, []⟩
        bad := (C u).bad || (C u).b.s.err
        cache := cache } ∧
      ∀ k, cache k = renew M (keeps P ls T₀ x rg) k u) ∧
    Holds W P' K' t (tseqNet G (K.global, X)).2
      (run (netCuts P (netWith P (fun w => (C w).θ) 0 G)).flatten fun w => feed (x w) (rg w)) := by
  have hn' := hn.kin hC.kin hC.stores
  obtain ⟨ok, hH⟩ := (hn'.forward (t := t) (X := X) (s := K.global) ⟨hP, hL, hW, rfl⟩).2 _ hX
  rw [StoresNet.seq G P 0 _ hC.stores] at hH
  have ek : memsOf (netMods P (netWith P (fun w => (C w).θ) 0 ls)) (fun w => feed (x w) (rg w)) = keeps P ls T₀ x rg :=
    mems_like (netMods_like hC.bare ls P 0) fun _ => rfl
  have em : (netMods P (netWith P (fun w => (C w).θ) 0 ls)).map Mod.prog = netCuts P (netWith P (fun w => (C w).θ) 0 G) := by
    rw [← netMods_prog, netMods_kin hC.kin]
  obtain ⟨a1, a2⟩ := callProg_run (W := W) (netPieces_resolve ls P 0 (oneTypes_kin hC.kin P 0 hC.stores)) (netMods_tidy _ P) 0
    (sync (startPhase x rg) C) (fun _ => rfl) (by rw [em]; exact ok) (by
      intro k mem hk
      have e : (fun u => (sync (startPhase x rg) C u).cache (0 + k)) = M k := by
        funext u
        rw [Nat.zero_add]
        exact hC.cache u k
      rw [e]
      exact hx k mem (by rw [← ek]; exact hk)) hC.cold
  refine ⟨a1, fun u => ?_, hH⟩
  obtain ⟨cache, r1, -, r3⟩ := a2 u
  refine ⟨cache, ?_, fun k => ?_⟩
  · rw [r1, em]
    show LSt.mk ⟨_, _ ++ [], _⟩ _ _ _ _ _ _ _ = _
    rw [List.append_nil]
    rfl
  · have := r3 k
    rw [Nat.zero_add] at this
    rw [this, renew, ← ek]
    have e : (fun u => (sync (startPhase x rg) C u).cache k) = M k := funext fun u => hC.cache u k
    rw [e]
    rfl

/-- The backward pass. -/
theorem loopBack_run {K K' : Layout} (hn : TNetFits W P K ls P' K') (hP : P.WF) (hL : K.pshape = P.shape) (hW : ∀ w ∈ P.members, w ∈ W)
    (hu : (∀ w ∈ W, rg w = true) ∨ (∀ w ∈ W, rg w = false) ∧ Covers W P ls) (hk : List.Forall₂ Kin ls G)
    (hs : StoresNet P (fun w => (C w).θ) 0 G) {X Y : List Nat → F} {S : Nat → NSt F} (hS : Holds W P K t X S)
    (hG : HoldsG W P' K' t Y fun w => (C w).b.s)
    (hT : ∀ w ∈ W, (C w).b.tape = snaps (netCuts P (netWith P (fun w => (C w).θ) 0 G)) S w) :
    ∃ prog, Agree W (loopBack P ls rg) prog ∧ ProgOK W prog C ∧
      ∃ b : Nat → BSt F, (∀ u, run prog C u = { C u with b := b u }) ∧ (∀ w ∈ W, (b w).s.err = false) ∧
      ∃ grs, NetGrads P (netWith P (fun w => (C w).θ) 0 G) (K.global, X) Y grs ∧
        ∀ w, (b w).grads = grs.map (fun gr => gr w) ++ (C w).b.grads := by
  have hn' := hn.kin hk hs
  have hpl : Placed W P K K.global := ⟨hP, hL, hW, rfl⟩
  by_cases hr : ∀ w ∈ W, rg w = true
  · have e := netBackL_live (W := W) (F := F) (β := β)
    have hag := family_agree (n := (netBackL P rg ls).length) (W := W)
      (fun θ => e (netWith P (fun _ => θ) 0 ls) P hr) LSt.θ bLens
    have hl : (netBackL P rg ls).length = (netBack P (netWith P (fun w => (C w).θ) 0 ls)).length := by
      rw [← netBackL_size (T := fun w => (C w).θ) ls P 0 rg]
      exact (e _ P hr).length_eq
    have hat := family_at (T := fun w => (C w).θ) (fun θ => netBack P (netWith P (fun _ => θ) 0 ls)) hl
      fun u => netBack_at (T := fun w => (C w).θ) u ls P 0
    rw [← netBack_kin hk] at hat
    obtain ⟨a1, a2, -, a3⟩ := hn'.backward (rest := fun _ => []) hpl hS hG fun w hw => by rw [hT w hw, List.append_nil]
    obtain ⟨b1, b2⟩ := ctx_run (W := W) (ctx := LSt.θ) (L := bLens (F := F)) (fun _ _ => rfl)
      (family (fun θ => netBack P (netWith P (fun _ => θ) 0 ls)) (netBackL P rg ls).length) C
    rw [hat] at b1 b2
    exact ⟨_, hag, b1 a1, _, b2, a2.calm, a3⟩
  · obtain ⟨hd, hc⟩ := hu.resolve_left hr
    have e : ∀ T, Agree W (netBackL P rg (netWith P T 0 ls)) (deadBack P (netWith P T 0 ls)) := fun T =>
      netBackL_dead _ P hd ((covers_with ls P 0).2 hc)
    have hag := family_agree (n := (netBackL P rg ls).length) (W := W) (fun θ => e fun _ => θ) LSt.θ bLens
    have hl : (netBackL P rg ls).length = (deadBack P (netWith P (fun w => (C w).θ) 0 ls)).length := by
      rw [← netBackL_size (T := fun w => (C w).θ) ls P 0 rg]
      exact (e _).length_eq
    have hat := family_at (T := fun w => (C w).θ) (fun θ => deadBack P (netWith P (fun _ => θ) 0 ls)) hl
      fun u => deadBack_at (T := fun w => (C w).θ) u ls P 0
    rw [← deadBack_kin hk] at hat
    obtain ⟨a1, a2, a3⟩ := hn'.backward_dead (rest := fun _ => []) hpl hS hG fun w hw => by rw [hT w hw, List.append_nil]
    obtain ⟨b1, b2⟩ := ctx_run (W := W) (ctx := LSt.θ) (L := bLens (F := F)) (fun _ _ => rfl)
      (family (fun θ => deadBack P (netWith P (fun _ => θ) 0 ls)) (netBackL P rg ls).length) C
    rw [hat] at b1 b2
    exact ⟨_, hag, b1 a1, _, b2, a2, a3⟩

omit [Field F] in
theorem out_sync (C : Nat → LSt F) (u : Nat) : sync outPhase C u = { C u with outs := (C u).outs ++ [(C u).b.s.t] } := rfl

omit [Field F] in
theorem loss_sync (seed : Nat → Tensor F → Tensor F) (C : Nat → LSt F) (u : Nat) : sync (lossPhase seed) C u = { C u with
    b := { (C u).b with s := { (C u).b.s with t := seed u (C u).b.s.t } } } := rfl

omit [Field F] in
theorem upd_sync (opt : F → F → F) (C : Nat → LSt F) (u : Nat) : sync (updPhase opt) C u = { C u with
    θ := fun i => stepPar opt ((C u).θ i) (((C u).b.grads[i]?).getD fun _ => none) } := rfl

/-- The end of a training step: the backward pass from the gradient of the output, and the change of the parameters. -/
theorem Ready.finish {K K' : Layout} (hC : Ready W P ls P' L' t T₀ M G Zs C) (hn : TNetFits W P K ls P' K') (hP : P.WF)
    (hL : K.pshape = P.shape) (hW : ∀ w ∈ P.members, w ∈ W)
    (hu : (∀ w ∈ W, rg w = true) ∨ (∀ w ∈ W, rg w = false) ∧ Covers W P ls) {x : Nat → Tensor F} {X Y : List Nat → F}
    (hX : Holds W P K t X fun w => feed (x w) (rg w)) (opt : F → F → F) {M' : Nat → Nat → Option Mem} {D : Nat → LSt F}
    (hθ : ∀ u, (D u).θ = (C u).θ) (hG : HoldsG W P' K' t Y fun w => (D w).b.s)
    (hT : ∀ w ∈ W, (D w).b.tape = snaps (netCuts P (netWith P (fun w => (C w).θ) 0 G)) (fun w => feed (x w) (rg w)) w)
    (hg : ∀ u, (D u).b.grads = []) (hcold : ∀ u, (D u).cold = false) (hM : ∀ u q, (D u).cache q = M' q u)
    (hbad : ∀ w ∈ W, (D w).bad = false) (hout : ∀ w ∈ W, (D w).outs = (C w).outs) :
    ∃ prog, Agree W (loopBack P ls rg) prog ∧ ProgOK W (prog ++ [updPhase opt]) D ∧
      Ready W P ls P' L' t T₀ M' (updNet opt G (K.global, X) Y) Zs (run (prog ++ [updPhase opt]) D) ∧
      ∀ u, (run (prog ++ [updPhase opt]) D u).losses = (D u).losses := by
  have hθ' : (fun w => (D w).θ) = fun w => (C w).θ := funext hθ
  obtain ⟨prog, hag, ok, b, hb, hcalm, grs, hgs, hgr⟩ := loopBack_run (C := D) (X := X) (Y := Y)
    (S := fun w => feed (x w) (rg w)) hn hP hL hW hu hC.kin (by rw [hθ']; exact hC.stores) hX hG
    fun w hw => by rw [hθ', hT w hw]
  rw [hθ'] at hgs
  have hrun : ∀ u, run (prog ++ [updPhase opt]) D u = { D u with
      b := b u
      θ := fun i => stepPar opt ((C u).θ i) (((b u).grads[i]?).getD fun _ => none) } := by
    intro u
    rw [run_append]
    show sync (updPhase opt) (run prog D) u = _
    rw [upd_sync, hb u]
    dsimp only
    rw [hθ u]
  refine ⟨prog, hag, progOK_append.2 ⟨ok, localPhase_ok _, trivial⟩,
    ⟨?_, ?_, fun w i p => ?_, fun u => ?_, fun u q => ?_, fun w hw => ?_, fun w hw => ?_⟩, fun u => by rw [hrun u]⟩
  · refine StoresNet.step opt G hC.stores (hn.kin hC.kin hC.stores) hgs fun w j _ => ?_
    rw [hrun w, Nat.sub_zero]
    dsimp only
    rw [hgr w, hg w, List.append_nil, List.getElem?_map]
    cases grs[j]? <;> rfl
  · exact kins_trans hC.kin (kin_updNet ..)
  · rw [hrun w]
    dsimp only
    rw [stepPar_bare]
    exact hC.bare w i p
  · rw [hrun u]
    exact hcold u
  · rw [hrun u]
    exact hM u q
  · rw [hrun w]
    exact ⟨hbad w hw, hcalm w hw⟩
  · rw [hrun w]
    show HoldsOuts P' L' t w (D w).outs Zs
    rw [hout w hw]
    exact hC.outs w hw

/-- One job. -/
theorem Ready.job (hC : Ready W P ls P' L' t T₀ M G Zs C) {j : Job F} {k : Task F}
    (hn : TNetFits W P (L k.shape) ls P' (L' k.shape)) (hP : P.WF) (hL : (L k.shape).pshape = P.shape)
    (hW : ∀ w ∈ P.members, w ∈ W)
    (hu : j.back = true → (∀ w ∈ W, rg w = true) ∨ (∀ w ∈ W, rg w = false) ∧ Covers W P ls)
    (hj : j.Does W P L P' L' t rg k) (hx : ∀ k mem, (keeps P ls T₀ j.x rg)[k]? = some mem → Decides (M k) mem) :
    ∃ prog, Agree W (jobProg P ls rg j) prog ∧ ProgOK W prog C ∧
      Ready W P ls P' L' t T₀ (renew M (keeps P ls T₀ j.x rg)) (k.next G) (Zs ++ k.out G) (run prog C) ∧
      ∀ u, (run prog C u).losses = (C u).losses := by
  cases j with
  | eval x =>
    cases k with
    | train => exact hj.elim
    | eval s X =>
      obtain ⟨hs, hj⟩ := hj
      obtain ⟨o1, r1, hH⟩ := hC.call (x := x) hn hP hL hW hx hj
      change Holds W P' (L' s) t (tseqNet G ((L s).global, X)).2 _ at hH
      rw [hs] at hH
      choose cache r1 m1 using r1
      refine ⟨_, Agree.refl _, ⟨localPhase_ok _, progOK_append.2 ⟨o1, localPhase_ok _, trivial⟩⟩, ?_⟩
      have hrun : ∀ u, run (jobProg P ls rg (.eval x)) C u = { C u with
          b := ⟨run (netCuts P (netWith P (fun w => (C w).θ) 0 G)).flatten (fun w => feed (x w) (rg w)) u,
            snaps (netCuts P (netWith P (fun w => (C w).θ) 0 G)) (fun w => feed (x w) (rg w)) u, []⟩
          bad := (C u).bad || (C u).b.s.err
          cache := cache u
          outs := (C u).outs ++ [(run (netCuts P (netWith P (fun w => (C w).θ) 0 G)).flatten (fun w => feed (x w) (rg w)) u).t] } := by
        intro u
        show run (callProg 0 (netPieces P 0 ls) ++ [outPhase]) (sync (startPhase x rg) C) u = _
        rw [run_append]
        show sync outPhase _ u = _
        rw [out_sync, r1 u]
      have hθ : (fun w => (run (jobProg P ls rg (.eval x)) C w).θ) = fun w => (C w).θ := by
        funext u
        rw [hrun u]
      refine ⟨⟨by rw [hθ]; exact hC.stores, hC.kin, fun w i p => ?_, fun u => ?_, fun u q => ?_, fun w hw => ?_,
        fun w hw => ?_⟩, fun u => by rw [hrun u]⟩
      · rw [hrun w]
        exact hC.bare w i p
      · rw [hrun u]
        exact hC.cold u
      · rw [hrun u]
        exact m1 u q
      · rw [hrun w]
        exact ⟨by simp [hC.calm w hw], hH.calm w hw⟩
      · rw [hrun w]
        refine List.rel_append (hC.outs w hw) (.cons (fun hm => ?_) .nil)
        obtain ⟨rg', hrg⟩ := hH.parts
        exact ⟨congrArg Prod.fst (hrg w hm), congrArg (·.2.1) (hrg w hm), hH.data w hm⟩
  | train x seed opt =>
    cases k with
    | eval => exact hj.elim
    | train s X Yf opt' =>
      obtain ⟨hs, hX, hseed, rfl⟩ := hj
      obtain ⟨o1, r1, hH⟩ := hC.call (x := x) hn hP hL hW hx hX
      change Holds W P' (L' s) t (tseqNet G ((L s).global, X)).2 _ at hH
      rw [hs] at hH
      choose cache r1 m1 using r1
      obtain ⟨D, hD⟩ : ∃ D, D = sync (lossPhase seed) (run (callProg 0 (netPieces P 0 ls)) (sync (startPhase x rg) C)) := ⟨_, rfl⟩
      have hDu : ∀ u, D u = { C u with
          b := ⟨{ run (netCuts P (netWith P (fun w => (C w).θ) 0 G)).flatten (fun w => feed (x w) (rg w)) u with
              t := seed u (run (netCuts P (netWith P (fun w => (C w).θ) 0 G)).flatten (fun w => feed (x w) (rg w)) u).t },
            snaps (netCuts P (netWith P (fun w => (C w).θ) 0 G)) (fun w => feed (x w) (rg w)) u, []⟩
          bad := (C u).bad || (C u).b.s.err
          cache := cache u } := by
        intro u
        rw [hD]
        rw [loss_sync, r1 u]
      have hsD : (fun w => (D w).b.s) = fun w =>
          { run (netCuts P (netWith P (fun w => (C w).θ) 0 G)).flatten (fun w => feed (x w) (rg w)) w with
              t := seed w (run (netCuts P (netWith P (fun w => (C w).θ) 0 G)).flatten (fun w => feed (x w) (rg w)) w).t } := by
        funext u
        rw [hDu u]
      obtain ⟨prog, hag, ok, hR, hl⟩ := hC.finish (M' := renew M (keeps P ls T₀ x rg)) (D := D) (Y := Yf (tseqNet G (s, X)).2)
        (K := L s) (K' := L' s) hn hP hL hW (hu rfl) hX opt (fun u => by rw [hDu u])
        (by rw [hsD]; exact (hseed _).holdsG hH) (fun w hw => by rw [hDu w]) (fun u => by rw [hDu u])
        (fun u => by rw [hDu u]; exact hC.cold u) (fun u q => by rw [hDu u]; exact m1 u q)
        (fun w hw => by rw [hDu w]; simp [hC.calm w hw]) fun w hw => by rw [hDu w]
      rw [hs] at hR
      have hrun : run (startPhase x rg :: (callProg 0 (netPieces P 0 ls) ++ lossPhase seed :: (prog ++ [updPhase opt]))) C =
          run (prog ++ [updPhase opt]) D := by
        show run (callProg 0 (netPieces P 0 ls) ++ lossPhase seed :: (prog ++ [updPhase opt])) (sync (startPhase x rg) C) = _
        rw [run_append, hD]
        rfl
      refine ⟨startPhase x rg :: (callProg 0 (netPieces P 0 ls) ++ lossPhase seed :: (prog ++ [updPhase opt])), ?_, ?_, ?_, ?_⟩
      · exact .cons (fun _ _ => rfl) ((Agree.refl _).append (.cons (fun _ _ => rfl) (hag.append (Agree.refl _))))
      · refine ⟨localPhase_ok _, progOK_append.2 ⟨o1, localPhase_ok _, ?_⟩⟩
        rw [← hD]
        exact ok
      · rw [hrun, show Zs ++ Task.out G (.train s X Yf opt) = Zs from List.append_nil _]
        exact hR
      · intro u
        rw [hrun, hl u, hDu u]

/-! ## All jobs -/

theorem Ready.jobs (hP : P.WF) (hW : ∀ w ∈ P.members, w ∈ W) {js : List (Job F)} {ks : List (Task F)}
    (hu : (∃ j ∈ js, j.back = true) → (∀ w ∈ W, rg w = true) ∨ (∀ w ∈ W, rg w = false) ∧ Covers W P ls)
    (hj : List.Forall₂ (Job.Does W P L P' L' t rg) js ks) : ∀ {M : Nat → Nat → Option Mem} {G : List (TLayer F β)}
    {Zs : List (List Nat × (List Nat → F))} {C : Nat → LSt F},
    Ready W P ls P' L' t T₀ M G Zs C → Alike P ls T₀ rg M js →
    (∀ k ∈ ks, (L k.shape).pshape = P.shape ∧ TNetFits W P (L k.shape) ls P' (L' k.shape)) →
    ∃ prog M', Agree W (jobsProg P ls rg js) prog ∧ ProgOK W prog C ∧
      Ready W P ls P' L' t T₀ M' (netAfter G ks) (Zs ++ outsOf G ks) (run prog C) := by
  induction hj with
  | nil =>
    intro M G Zs C hC _ _
    refine ⟨[], M, .nil, trivial, ?_⟩
    rw [outsOf, List.append_nil]
    exact hC
  | @cons j k js ks h _ ih =>
    intro M G Zs C hC hx hn
    have hk := hn k List.mem_cons_self
    obtain ⟨p, a1, a2, a3, -⟩ := hC.job hk.2 hP hk.1 hW (fun hb => hu ⟨j, List.mem_cons_self, hb⟩) h hx.1
    obtain ⟨q, M', b1, b2, b3⟩ := ih (fun ⟨j', h1, h2⟩ => hu ⟨j', List.mem_cons_of_mem _ h1, h2⟩) a3 hx.2
      fun k' h' => hn k' (List.mem_cons_of_mem _ h')
    refine ⟨p ++ q, M', ?_, progOK_append.2 ⟨a2, b2⟩, ?_⟩
    · show Agree W (jobProg P ls rg j ++ jobsProg P ls rg js) _
      exact a1.append b1
    · rw [run_append, outsOf, ← List.append_assoc]
      exact b3

/-- Before the first job. -/
theorem Ready.init (h : StoresNet P T₀ 0 ls) : Ready W P ls P' L' t T₀ (fun _ _ => none) ls [] fun w => LSt.fresh (T₀ w) :=
  ⟨h, List.forall₂_same.2 fun l _ => Kin.refl l, fun _ _ _ => rfl, fun _ => rfl, fun _ _ => rfl, fun _ _ => ⟨rfl, rfl⟩,
    fun _ _ => .nil⟩

/-! ## Deciding alike -/

/-- At the beginning all modules do their setup. -/
theorem decides_first (mem : Nat → Option Mem) : Decides (fun _ => none) mem :=
  ⟨fun _ _ => rfl, .inl fun _ _ _ h => by cases h⟩

theorem Decides.refl (mem : Nat → Option Mem) : Decides mem mem := ⟨fun _ h => h, .inr rfl⟩

theorem keeps_like {x y : Nat → Tensor F} (h : ∀ w, (x w).bare = (y w).bare) : keeps P ls T₀ x rg = keeps P ls T₀ y rg :=
  mems_like (netMods_like (fun _ _ _ => rfl) ls P 0) fun w => feed_bare (h w)

/-- Inputs of one structure. -/
theorem alike_same {σ : Nat → Tensor F} {js : List (Job F)} (h : ∀ j ∈ js, ∀ w, (j.x w).bare = (σ w).bare) :
    Alike P ls T₀ rg (fun _ _ => none) js := by
  have key : ∀ (js : List (Job F)) M, (∀ j ∈ js, ∀ w, (j.x w).bare = (σ w).bare) →
      (∀ k mem, (keeps P ls T₀ σ rg)[k]? = some mem → M k = (fun _ => none) ∨ M k = mem) → Alike P ls T₀ rg M js := by
    intro js
    induction js with
    | nil => exact fun _ _ _ => trivial
    | cons j js ih =>
      intro M hj hM
      have e := keeps_like (P := P) (ls := ls) (T₀ := T₀) (rg := rg) (hj j List.mem_cons_self)
      refine ⟨fun k mem hk => ?_, ih _ (fun j' h' => hj j' (List.mem_cons_of_mem _ h')) fun k mem hk => .inr ?_⟩
      · rw [e] at hk
        rcases hM k mem hk with h | h
        · rw [h]; exact decides_first mem
        · rw [h]; exact Decides.refl mem
      · rw [renew, e, hk, Option.getD_some]
  exact key js _ h fun _ _ _ => .inl rfl

end

end Verif.Net
