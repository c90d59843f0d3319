import Verif.Net.Loss
import Verif.Net.Batch

/-!
# Networks: training with a distributed loss

A worker's program calls the network and the loss, goes back from the loss through the network and changes its parameters.
-/

namespace Verif.Net

variable {F β : Type} [Field F]

/-! ## Programs -/

/-- A piece without parameters. -/
def Mod.const (m : Mod F) : CMod F := ⟨m.key, m.act, m.part, m.setup.map fun ph _ => ph, m.rest.map fun ph _ => ph⟩

/-- The pieces of a call of the loss with the targets `tgt`. -/
def lossPieces (N : NetLoss F) (tgt : Nat → Tensor F) : List (Nat × CMod F) := (lossMods N tgt).map fun m => (0, m.const)

/-- What a worker does with the network and the loss. -/
inductive Act (F : Type) where
  /-- it uses the network only -/
  | job (j : Job F)
  /-- it calls the network with the input `x w`, then the loss with the target `tgt w`, goes back from the loss and changes its
  parameters -/
  | learn (x tgt : Nat → Tensor F) (opt : F → F → F)

/-- The inputs. -/
def Act.x : Act F → Nat → Tensor F
  | .job j => j.x
  | .learn x _ _ => x

/-- Does it go back? -/
def Act.back : Act F → Bool
  | .job j => j.back
  | .learn _ _ _ => true

/-- The loss is stored, on the workers that have one. -/
def notePhase (N : NetLoss F) : Nat → LSt F → Phase (LSt F) (NMsg F) := localPhase fun w c =>
  if w ∈ N.M.P.members then { c with losses := c.losses ++ [(c.b.s.par 0).1] } else c

/-- The adjoint of the loss is done. -/
def forgetPhase (n : Nat) : Nat → LSt F → Phase (LSt F) (NMsg F) := localPhase fun _ c =>
  { c with b := { c.b with tape := c.b.tape.drop n } }

/-- The program of an act.  The modules of the loss have the numbers after those of the network. -/
def actProg (P : Cart) (ls : List (TLayer F β)) (rg : Nat → Bool) (N : NetLoss F) : Act F → Prog (LSt F) (NMsg F)
  | .job j => jobProg P ls rg j
  | .learn x tgt opt => startPhase x rg :: (callProg 0 (netPieces P 0 ls) ++
      (callProg (netPieces P 0 ls).length (lossPieces N tgt) ++ notePhase N ::
        ((lossBack N tgt).map (ctxPhase (fun c : LSt F => c.b.tape) sLens) ++ forgetPhase (lossPieces N tgt).length ::
          (loopBack P ls rg ++ [updPhase opt]))))

/-- All acts, one after the other. -/
def actsProg (P : Cart) (ls : List (TLayer F β)) (rg : Nat → Bool) (N : NetLoss F) (as : List (Act F)) : Prog (LSt F) (NMsg F) :=
  as.flatMap (actProg P ls rg N)

/-! ## Specification: the sequential network with PyTorch's loss -/

/-- What is done with the sequential network and the loss. -/
inductive Plan (F : Type) where
  | task (k : Task F)
  /-- the network is called with the input `X` of shape `s`, the target of the loss is `T`, and the parameters change -/
  | learn (s : List Nat) (X : List Nat → F) (T : Tensor F) (opt : F → F → F)

/-- The shape of the input. -/
def Plan.shape : Plan F → List Nat
  | .task k => k.shape
  | .learn s _ _ _ => s

/-- The output of the network. -/
def outTensor (t : TorchDtype) (ls : List (TLayer F β)) (s : List Nat) (X : List Nat → F) : Tensor F :=
  ⟨(tseqNet ls (s, X)).1, t, (tseqNet ls (s, X)).2⟩

/-- The network after a plan. -/
def Plan.next (dell : F → F → F) (red : String) (t : TorchDtype) (ls : List (TLayer F β)) : Plan F → List (TLayer F β)
  | .task k => k.next ls
  | .learn s X T opt => updNet opt ls (s, X) (torchLossGrad dell red (outTensor t ls s X) T ⟨[], t, fun _ => 1⟩).val

/-- The result of a plan. -/
def Plan.out (ls : List (TLayer F β)) : Plan F → List (List Nat × (List Nat → F))
  | .task k => k.out ls
  | .learn _ _ _ _ => []

/-- The loss of a plan; `none` would be an exception. -/
def Plan.loss (ell : F → F → F) (red : String) (t : TorchDtype) (ls : List (TLayer F β)) : Plan F → List (Option (Tensor F))
  | .task _ => []
  | .learn s X T _ => [torchLoss ell red (outTensor t ls s X) T]

/-- The network after some plans. -/
def planned (dell : F → F → F) (red : String) (t : TorchDtype) (ls : List (TLayer F β)) (ps : List (Plan F)) : List (TLayer F β) :=
  ps.foldl (Plan.next dell red t) ls

/-- The results of some plans. -/
def planOuts (dell : F → F → F) (red : String) (t : TorchDtype) :
    List (TLayer F β) → List (Plan F) → List (List Nat × (List Nat → F))
  | _, [] => []
  | ls, p :: ps => p.out ls ++ planOuts dell red t (p.next dell red t ls) ps

/-- The losses of some plans. -/
def planLosses (ell dell : F → F → F) (red : String) (t : TorchDtype) : List (TLayer F β) → List (Plan F) → List (Option (Tensor F))
  | _, [] => []
  | ls, p :: ps => p.loss ell red t ls ++ planLosses ell dell red t (p.next dell red t ls) ps

/-- The workers' act is a plan; they hold their blocks of the input and of the target. -/
def Act.Does (W : List Nat) (P : Cart) (L : List Nat → Layout) (P' : Cart) (L' : List Nat → Layout) (t : TorchDtype)
    (rg : Nat → Bool) : Act F → Plan F → Prop
  | .job j, .task k => j.Does W P L P' L' t rg k
  | .learn x tgt opt, .learn s X T opt' => (L s).global = s ∧ Holds W P (L s) t X (fun w => feed (x w) (rg w)) ∧
    Blocks P' (L' s) T tgt ∧ opt = opt'
  | _, _ => False

/-- The losses stored by worker `w`: those of the sequential network on the first worker of the partition, 0 on the others. -/
def HoldsLosses (P : Cart) (w : Nat) (z : List (Tensor F)) (l : List (Option (Tensor F))) : Prop :=
  (P.members.head? = some w → z.map some = l) ∧
  (w ∈ P.members → P.members.head? ≠ some w → z = l.map fun _ => ⟨[], .float32, fun _ => 0⟩)

/-! ## What the modules keep -/

/-- The output of the network with the parameters `T₀`. -/
def netOut (P : Cart) (ls : List (TLayer F β)) (T₀ : Nat → Nat → Nat → Tensor F) (x : Nat → Tensor F) (rg : Nat → Bool) :
    Nat → NSt F := run (netCuts P (netWith P T₀ 0 ls)).flatten fun w => feed (x w) (rg w)

/-- What the modules keep after an act, if they all do their setup. -/
def actKeeps (P : Cart) (ls : List (TLayer F β)) (T₀ : Nat → Nat → Nat → Tensor F) (rg : Nat → Bool) (N : NetLoss F) :
    Act F → List (Nat → Option Mem)
  | .job j => keeps P ls T₀ j.x rg
  | .learn x tgt _ => keeps P ls T₀ x rg ++ memsOf (lossMods N tgt) (netOut P ls T₀ x rg)

/-- The workers decide alike about the setup of every module in every act. -/
def ActAlike (P : Cart) (ls : List (TLayer F β)) (T₀ : Nat → Nat → Nat → Tensor F) (rg : Nat → Bool) (N : NetLoss F) :
    (Nat → Nat → Option Mem) → List (Act F) → Prop
  | _, [] => True
  | M, a :: as => (∀ k mem, (actKeeps P ls T₀ rg N a)[k]? = some mem → Decides (M k) mem) ∧
    ActAlike P ls T₀ rg N (renew M (actKeeps P ls T₀ rg N a)) as

variable {W : List Nat} {P P' : Cart} {L L' : List Nat → Layout} {ls G : List (TLayer F β)} {t : TorchDtype}
  {rg : Nat → Bool} {T₀ : Nat → Nat → Nat → Tensor F} {C : Nat → LSt F} {M : Nat → Nat → Option Mem}
  {Zs : List (List Nat × (List Nat → F))} {N : NetLoss F} {kl : Bool} {red : String} {w0 : Nat}

omit [Field F] in
theorem const_resolves (T : Nat → Nat → Tensor F) (m : Mod F) : Resolves T m.const m := by
  refine ⟨rfl, rfl, rfl, ?_, ?_⟩
  · simp only [Mod.const, CProg.at, List.map_map]
    exact List.map_id' _
  · simp only [Mod.const, CProg.at, List.map_map]
    exact List.map_id' _

theorem lossPieces_resolve (T : Nat → Nat → Nat → Tensor F) (N : NetLoss F) (tgt : Nat → Tensor F) :
    List.Forall₂ (fun c m => Resolves (fun u => T u c.1) c.2 m) (lossPieces N tgt) (lossMods N tgt) :=
  List.forall₂_map_left_iff.2 (List.forall₂_same.2 fun m _ => const_resolves _ m)

omit [Field F] in
theorem normMod_tidy (N : NetLoss F) : ModTidy (normMod N) := by
  refine ⟨fun ph hp => ?_, fun _ _ _ => own_tidy, fun ph hp => ?_⟩
  · have hp : ph ∈ normProg N := hp
    unfold normProg at hp
    show TidyPh (fun _ => if N.M.scaled then .info else .none) ph
    cases hs : N.M.scaled with
    | false => rw [hs] at hp; cases hp
    | true =>
      rw [hs, if_pos rfl, List.mem_singleton] at hp
      subst hp
      exact gather_tidy _ _ _
  · have hp : ph ∈ normProg N := hp
    unfold normProg at hp
    split at hp
    · rw [List.mem_singleton.1 hp]
      exact coll_idle fun _ h => h
    · cases hp

theorem lossMods_tidy (N : NetLoss F) (tgt : Nat → Tensor F) : ∀ m ∈ lossMods N tgt, ModTidy m := by
  simp only [lossMods, List.mem_cons, List.not_mem_nil, or_false, forall_eq_or_imp, forall_eq]
  exact ⟨normMod_tidy N, plain_tidy _, reduce_tidy _ _ (par_tidy 0), plain_tidy _⟩

theorem torchLoss_like (ell : F → F → F) (M : LossLayer) {x y a b : Tensor F} (h : x.bare = y.bare) (h' : a.shape = b.shape) :
    (torchLoss ell M.localReduction x a).map Tensor.bare = (torchLoss ell M.localReduction y b).map Tensor.bare := by
  obtain ⟨es, ed⟩ := tensor_bare.1 h
  unfold torchLoss
  rw [es, h']
  split
  · unfold LossLayer.localReduction
    by_cases hr : M.reduction = "none"
    · rw [if_pos hr]
      exact congrArg some (tensor_bare.2 ⟨rfl, ed⟩)
    · rw [if_neg hr]
      exact congrArg some (tensor_bare.2 ⟨rfl, ed⟩)
  · rfl

theorem corrector_like {x y : Tensor F} (h : x.bare = y.bare) : (correctorForward x).bare = (correctorForward y).bare := by
  unfold correctorForward
  rw [(tensor_bare.1 h).1]
  split
  · rfl
  · exact h

theorem pre_like (N : NetLoss F) (w : Nat) {x y : NSt F} (h : x.bare = y.bare) :
    (N.pre w x).map Tensor.bare = (N.pre w y).map Tensor.bare := by
  obtain ⟨-, -, -, hi, -, hp⟩ := bare_eq.1 h
  obtain ⟨es, ed⟩ := tensor_bare.1 (hp 0).1
  unfold NetLoss.pre NetLoss.factor
  rw [hi]
  split
  · rw [Option.map_map, Option.map_map]
    congr 1
    funext n
    exact tensor_bare.2 ⟨congrArg (List.drop 1) es, ed⟩
  · exact congrArg some (hp 0).1

theorem lossMods_like (N : NetLoss F) {tgt tgt' : Nat → Tensor F} (h : ∀ w ∈ N.M.P.members, (tgt w).shape = (tgt' w).shape) :
    List.Forall₂ ModLike (lossMods N tgt) (lossMods N tgt') := by
  refine .cons ⟨fun _ _ e => bare_own e, rfl, rfl, ?_, .nil⟩ (.cons (plain_like1 (local_like fun w x y e => ?_))
    (.cons (reduceMod_like _ _ (like_par 0)) (.cons (plain_like1 (local_like fun w x y e => ?_)) .nil)))
  · show ProgLike (normProg N) (normProg N)
    unfold normProg
    split
    · exact .cons (gather_like _ _ _) .nil
    · exact .nil
  · split
    · next hw =>
      have hl := torchLoss_like N.ell N.M (bare_eq.1 e).1 (h w hw)
      cases h1 : torchLoss N.ell N.M.localReduction x.t (tgt w) with
      | none =>
        rw [h1] at hl
        rw [Option.map_eq_none_iff.1 hl.symm]
        exact set_err e true
      | some a =>
        rw [h1] at hl
        obtain ⟨b, h2, hb⟩ := Option.map_eq_some_iff.1 hl.symm
        rw [h2]
        dsimp only
        rw [(bare_eq.1 e).2.1]
        exact (like_par 0).set _ _ _ _ _ (tensor_bare.2 ⟨rfl, (tensor_bare.1 hb).2.symm⟩) e
    · exact e
  · split
    · have hl := pre_like N w e
      cases h1 : N.pre w x with
      | none =>
        rw [h1] at hl
        rw [Option.map_eq_none_iff.1 hl.symm]
        exact set_err e true
      | some a =>
        rw [h1] at hl
        obtain ⟨b, h2, hb⟩ := Option.map_eq_some_iff.1 hl.symm
        rw [h2]
        dsimp only
        rw [((bare_eq.1 e).2.2.2.2.2 0).2]
        exact (like_par 0).set _ _ _ _ _ (corrector_like hb.symm) e
    · exact e

omit [Field F] in
theorem mods_run_like {ms ms' : List (Mod F)} (h : List.Forall₂ ModLike ms ms') :
    ProgLike (ms.map Mod.prog).flatten (ms'.map Mod.prog).flatten := by
  induction h with
  | nil => exact .nil
  | cons h _ ih => exact List.rel_append (List.rel_append h.setup h.rest) ih

/-! ## One act -/

/-- Between two acts. -/
structure Armed (W : List Nat) (P : Cart) (ls : List (TLayer F β)) (P' : Cart) (L' : List Nat → Layout) (t : TorchDtype)
    (T₀ : Nat → Nat → Nat → Tensor F) (M : Nat → Nat → Option Mem) (G : List (TLayer F β))
    (Zs : List (List Nat × (List Nat → F))) (Ls : List (Option (Tensor F))) (C : Nat → LSt F) : Prop where
  ready : Ready W P ls P' L' t T₀ M G Zs C
  losses : ∀ w, HoldsLosses P' w (C w).losses Ls

omit [Field F] in
theorem note_sync (N : NetLoss F) (C : Nat → LSt F) (u : Nat) : sync (notePhase N) C u =
    { C u with losses := if u ∈ N.M.P.members then (C u).losses ++ [((C u).b.s.par 0).1] else (C u).losses } := by
  show (if u ∈ N.M.P.members then _ else C u) = _
  split <;> rfl

omit [Field F] in
theorem forget_sync (n : Nat) (C : Nat → LSt F) (u : Nat) : sync (forgetPhase n) C u =
    { C u with b := { (C u).b with tape := (C u).b.tape.drop n } } := rfl

/-- Network, loss, and the way back through both. -/
theorem Armed.learn {Ls : List (Option (Tensor F))} (hC : Armed W P ls P' L' t T₀ M G Zs Ls C) {s : List Nat} (hM : Made P' kl red N.M w0)
    (hr : red ≠ "none") (hroot : ∃ r, P'.root = some r) (hd : P'.shape ≠ [])
    (hn : TNetFits W P (L s) ls P' (L' s)) (hP : P.WF) (hL : (L s).pshape = P.shape)
    (hW : ∀ w ∈ P.members, w ∈ W) (hu : (∀ w ∈ W, rg w = true) ∨ (∀ w ∈ W, rg w = false) ∧ Covers W P ls)
    {x tgt : Nat → Tensor F} {opt : F → F → F} {X : List Nat → F} {T : Tensor F} (hs : (L s).global = s)
    (hX : Holds W P (L s) t X fun w => feed (x w) (rg w)) (ht : Blocks P' (L' s) T tgt)
    (hx : ∀ k mem, (actKeeps P ls T₀ rg N (.learn x tgt opt))[k]? = some mem → Decides (M k) mem) :
    ∃ prog, Agree W (actProg P ls rg N (.learn x tgt opt)) prog ∧ ProgOK W prog C ∧
      Armed W P ls P' L' t T₀ (renew M (actKeeps P ls T₀ rg N (.learn x tgt opt)))
        ((Plan.learn s X T opt).next N.dell red t G) Zs (Ls ++ (Plan.learn s X T opt).loss N.ell red t G) (run prog C) := by
  have hR := hC.ready
  have hxn : ∀ k mem, (keeps P ls T₀ x rg)[k]? = some mem → Decides (M k) mem := fun k mem hk => hx k mem (by
    show (keeps P ls T₀ x rg ++ _)[k]? = _
    rw [List.getElem?_append_left (List.getElem?_eq_some_iff.1 hk).1]
    exact hk)
  -- the network
  obtain ⟨o1, r1, hH⟩ := hR.call (x := x) hn hP hL hW hxn hX
  rw [hs] at hH
  choose cache r1 m1 using r1
  obtain ⟨S, hS⟩ : ∃ S, S = run (netCuts P (netWith P (fun w => (C w).θ) 0 G)).flatten (fun w => feed (x w) (rg w)) := ⟨_, rfl⟩
  rw [← hS] at hH
  obtain ⟨C1, hC1⟩ : ∃ C1, C1 = run (callProg 0 (netPieces P 0 ls)) (sync (startPhase x rg) C) := ⟨_, rfl⟩
  rw [← hC1, ← hS] at r1
  have hn' := hn.kin hR.kin hR.stores
  obtain ⟨hp', -⟩ := hn'.forward (t := t) (X := X) (s := s) ⟨hP, hL, hW, hs⟩
  rw [StoresNet.seq G P 0 _ hR.stores] at hp'
  have hpl : Verif.Placed P' (L' s) := ⟨hp'.wf, hroot, hd, hp'.layout⟩
  have hNP : N.M.P = P' := by rw [hM.eq]
  -- the loss
  obtain ⟨o2, S1, S2, S3, S4, sn, r2, R⟩ := loss_run (N := N) hpl hM hr hp'.sub hH ht
  have eS : (fun u => (C1 u).b.s) = S := by funext u; rw [r1 u]
  have elen : (netPieces P 0 ls).length = (keeps P ls T₀ x rg).length := by
    have h1 := (netPieces_resolve (T := fun w => (C w).θ) ls P 0 (oneTypes_kin hR.kin P 0 hR.stores)).length_eq
    have h2 := (netMods_like hR.bare ls P 0).length_eq
    rw [keeps, length_memsOf, h1, h2]
  have ebare : ∀ w, (S w).bare = (netOut P ls T₀ x rg w).bare := by
    intro w
    rw [hS, ← netMods_prog, netMods_kin hR.kin, netOut, ← netMods_prog]
    exact run_like (mods_run_like (netMods_like hR.bare ls P 0)) (fun _ => rfl) w
  have ek : memsOf (lossMods N tgt) S = memsOf (lossMods N tgt) (netOut P ls T₀ x rg) :=
    mems_like (lossMods_like N fun _ _ => rfl) ebare
  have ecache : ∀ k, (fun u => (C1 u).cache ((netPieces P 0 ls).length + k)) = M ((netPieces P 0 ls).length + k) := by
    intro k
    funext u
    rw [r1 u]
    show cache u _ = _
    rw [m1 u, renew, List.getElem?_eq_none (by omega)]
    rfl
  obtain ⟨o3, r3⟩ := callProg_run (W := W) (lossPieces_resolve (fun u => (C1 u).θ) N tgt) (lossMods_tidy N tgt)
    (netPieces P 0 ls).length C1 (fun _ => rfl) (by rw [eS]; exact o2) (by
      rw [eS, ek]
      intro k mem hk
      rw [ecache k]
      refine hx _ mem ?_
      show (keeps P ls T₀ x rg ++ _)[_]? = _
      rw [elen, List.getElem?_append_right (Nat.le_add_right _ _), Nat.add_sub_cancel_left]
      exact hk) fun u => by rw [r1 u]; exact hR.cold u
  rw [eS] at r3
  choose cache2 r3 m2 m3 using r3
  obtain ⟨C2, hC2⟩ : ∃ C2, C2 = run (callProg (netPieces P 0 ls).length (lossPieces N tgt)) C1 := ⟨_, rfl⟩
  rw [← hC2, r2] at r3
  -- the loss is stored
  obtain ⟨C3, hC3⟩ : ∃ C3, C3 = sync (notePhase N) C2 := ⟨_, rfl⟩
  obtain ⟨o4, r4⟩ := ctx_run (W := W) (ctx := fun c : LSt F => c.b.tape) (L := sLens) (fun _ _ => rfl) (lossBack N tgt) C3
  have eS3 : (fun u => sLens.get (C3 u)) = S4 := by
    funext u
    rw [hC3, note_sync, r3 u]
    rfl
  rw [eS3] at o4 r4
  have e3 : ∀ u, C3 u = { C u with
      b := ⟨S4 u, [S3 u, S2 u, S1 u, S u] ++
        snaps (netCuts P (netWith P (fun w => (C w).θ) 0 G)) (fun w => feed (x w) (rg w)) u, []⟩
      bad := (C u).bad || (C u).b.s.err
      cache := cache2 u
      losses := if u ∈ N.M.P.members then (C u).losses ++ [((S4 u).par 0).1] else (C u).losses } := by
    intro u
    rw [hC3, note_sync, r3 u, sn u, r1 u]
  have eT3 : ∀ u, (C3 u).b.tape = [S3 u, S2 u, S1 u, S u] ++
      snaps (netCuts P (netWith P (fun w => (C w).θ) 0 G)) (fun w => feed (x w) (rg w)) u := fun u => by rw [e3 u]
  obtain ⟨o5, hG⟩ := lossBack_run (T' := fun u => (C3 u).b.tape) hpl hM hr hp'.sub hH ht R fun w _ => ⟨_, eT3 w⟩
  obtain ⟨D, hD⟩ : ∃ D, D = sync (forgetPhase (lossPieces N tgt).length)
    (run ((lossBack N tgt).map (ctxPhase (fun c : LSt F => c.b.tape) sLens)) C3) := ⟨_, rfl⟩
  have hDu : ∀ u, D u = { C u with
      b := ⟨run ((lossBack N tgt).at fun u => (C3 u).b.tape) S4 u,
        snaps (netCuts P (netWith P (fun w => (C w).θ) 0 G)) (fun w => feed (x w) (rg w)) u, []⟩
      bad := (C u).bad || (C u).b.s.err
      cache := cache2 u
      losses := if u ∈ N.M.P.members then (C u).losses ++ [((S4 u).par 0).1] else (C u).losses } := by
    intro u
    rw [hD, forget_sync, r4 u]
    rw [e3 u]
    rfl
  have hDc : ∀ u q, (D u).cache q = renew M (actKeeps P ls T₀ rg N (.learn x tgt opt)) q u := by
    intro u q
    rw [hDu u]
    show cache2 u q = _
    rw [renew, actKeeps]
    rcases Nat.lt_or_ge q (netPieces P 0 ls).length with h | h
    · rw [m2 u q h, r1 u, List.getElem?_append_left (by omega)]
      exact m1 u q
    · obtain ⟨k, rfl⟩ := Nat.exists_eq_add_of_le h
      rw [m3 u k, ecache k, ek, List.getElem?_append_right (by omega), ← elen, Nat.add_sub_cancel_left]
  obtain ⟨prog, hag, ok, hRd, hl⟩ := hR.finish (M' := renew M (actKeeps P ls T₀ rg N (.learn x tgt opt))) (D := D)
    (Y := (torchLossGrad N.dell red (outTensor t G s X) T ⟨[], t, fun _ => 1⟩).val)
    (K := L s) (K' := L' s) hn hP hL hW hu hX opt (fun u => by rw [hDu u])
    (by
      have e : (fun w => (D w).b.s) = run ((lossBack N tgt).at fun u => (C3 u).b.tape) S4 := by funext u; rw [hDu u]
      rw [e, outTensor, ← hp'.global]
      exact hG) (fun w hw => by rw [hDu w]) (fun u => by rw [hDu u])
    (fun u => by rw [hDu u]; exact hR.cold u) hDc
    (fun w hw => by rw [hDu w]; simp [hR.calm w hw]) fun w hw => by rw [hDu w]
  rw [hs] at hRd
  refine ⟨startPhase x rg :: (callProg 0 (netPieces P 0 ls) ++ (callProg (netPieces P 0 ls).length (lossPieces N tgt) ++ notePhase N ::
        ((lossBack N tgt).map (ctxPhase (fun c : LSt F => c.b.tape) sLens) ++ forgetPhase (lossPieces N tgt).length ::
          (prog ++ [updPhase opt])))), ?_, ?_, ?_⟩
  · exact .cons (fun _ _ => rfl) ((Agree.refl _).append ((Agree.refl _).append (.cons (fun _ _ => rfl) ((Agree.refl _).append
      (.cons (fun _ _ => rfl) (hag.append (Agree.refl _)))))))
  · refine ⟨localPhase_ok _, progOK_append.2 ⟨o1, ?_⟩⟩
    rw [← hC1, progOK_append, ← hC2]
    refine ⟨o3, localPhase_ok _, ?_⟩
    rw [← hC3, progOK_append]
    refine ⟨o4 o5, localPhase_ok _, ?_⟩
    rw [← hD]
    exact ok
  · have hrun : run (startPhase x rg :: (callProg 0 (netPieces P 0 ls) ++ (callProg (netPieces P 0 ls).length (lossPieces N tgt) ++
        notePhase N :: ((lossBack N tgt).map (ctxPhase (fun c : LSt F => c.b.tape) sLens) ++
          forgetPhase (lossPieces N tgt).length :: (prog ++ [updPhase opt]))))) C = run (prog ++ [updPhase opt]) D := by
      show run (_ ++ _) (sync (startPhase x rg) C) = _
      rw [run_append, ← hC1, run_append, ← hC2]
      show run (_ ++ _) (sync (notePhase N) C2) = _
      rw [← hC3, run_append, hD]
      rfl
    rw [hrun]
    refine ⟨hRd, fun w => ?_⟩
    have hls : (Plan.learn s X T opt).loss N.ell red t G = [some ⟨[], t, fun _ =>
        (boxSum (L' s).global fun i => N.ell ((tseqNet G (s, X)).2 i) (T.val i)) / ((lossDivisor red (L' s).global : Nat) : F)⟩] := by
      have e : outTensor t G s X = ⟨(L' s).global, t, (tseqNet G (s, X)).2⟩ := by rw [outTensor, ← hp'.global]
      rw [Plan.loss, e, torchLoss_value ht.whole.symm hr hM.valid]
      show (L' s).global ≠ []
      intro h0
      have := hpl.layout
      rw [← List.length_eq_zero_iff, Layout.length_global, ← Layout.length_pshape, this, List.length_eq_zero_iff] at h0
      exact hd h0
    rw [hl w, hDu w, hls]
    dsimp only
    rw [hNP]
    obtain ⟨i1, i2⟩ := hC.losses w
    constructor
    · intro h0
      have : w = w0 := by rw [hM.head] at h0; exact (Option.some.inj h0).symm
      subst this
      rw [if_pos hM.mem, R.dtype, List.map_append, i1 h0]
      rfl
    · intro hm h0
      have : w ≠ w0 := fun e => h0 (by rw [e]; exact hM.head)
      rw [if_pos hm, R.zeros w hm this, List.map_append, ← i2 hm h0]
      rfl

/-- One act. -/
theorem Armed.act {Ls : List (Option (Tensor F))} (hC : Armed W P ls P' L' t T₀ M G Zs Ls C) (hM : Made P' kl red N.M w0)
    (hr : red ≠ "none") (hroot : ∃ r, P'.root = some r) (hd : P'.shape ≠ []) {a : Act F} {p : Plan F}
    (hn : TNetFits W P (L p.shape) ls P' (L' p.shape)) (hP : P.WF) (hL : (L p.shape).pshape = P.shape)
    (hW : ∀ w ∈ P.members, w ∈ W) (hu : a.back = true → (∀ w ∈ W, rg w = true) ∨ (∀ w ∈ W, rg w = false) ∧ Covers W P ls)
    (ha : a.Does W P L P' L' t rg p) (hx : ∀ k mem, (actKeeps P ls T₀ rg N a)[k]? = some mem → Decides (M k) mem) :
    ∃ prog, Agree W (actProg P ls rg N a) prog ∧ ProgOK W prog C ∧
      Armed W P ls P' L' t T₀ (renew M (actKeeps P ls T₀ rg N a)) (p.next N.dell red t G) (Zs ++ p.out G)
        (Ls ++ p.loss N.ell red t G) (run prog C) := by
  match a, p, ha with
  | .job j, .task k, ha =>
    obtain ⟨prog, h1, h2, h3, h4⟩ := hC.ready.job hn hP hL hW hu ha hx
    refine ⟨prog, h1, h2, h3, fun w => ?_⟩
    rw [h4 w, show Ls ++ Plan.loss N.ell red t G (.task k) = Ls from List.append_nil _]
    exact hC.losses w
  | .learn x tgt opt, .learn s X T opt', ha =>
    obtain ⟨hs, hX, hT, rfl⟩ := ha
    rw [show Zs ++ Plan.out G (.learn s X T opt) = Zs from List.append_nil _]
    exact hC.learn hM hr hroot hd hn hP hL hW (hu rfl) hs hX hT hx

/-! ## All acts -/

theorem Armed.acts (hM : Made P' kl red N.M w0) (hr : red ≠ "none") (hroot : ∃ r, P'.root = some r) (hd : P'.shape ≠ [])
    (hP : P.WF) (hW : ∀ w ∈ P.members, w ∈ W) {as : List (Act F)} {ps : List (Plan F)}
    (hu : (∃ a ∈ as, a.back = true) → (∀ w ∈ W, rg w = true) ∨ (∀ w ∈ W, rg w = false) ∧ Covers W P ls)
    (ha : List.Forall₂ (Act.Does W P L P' L' t rg) as ps) : ∀ {M : Nat → Nat → Option Mem} {G : List (TLayer F β)}
    {Zs : List (List Nat × (List Nat → F))} {Ls : List (Option (Tensor F))} {C : Nat → LSt F},
    Armed W P ls P' L' t T₀ M G Zs Ls C → ActAlike P ls T₀ rg N M as →
    (∀ p ∈ ps, (L p.shape).pshape = P.shape ∧ TNetFits W P (L p.shape) ls P' (L' p.shape)) →
    ∃ prog M', Agree W (actsProg P ls rg N as) prog ∧ ProgOK W prog C ∧
      Armed W P ls P' L' t T₀ M' (planned N.dell red t G ps) (Zs ++ planOuts N.dell red t G ps)
        (Ls ++ planLosses N.ell N.dell red t G ps) (run prog C) := by
  induction ha with
  | nil =>
    intro M G Zs Ls C hC _ _
    refine ⟨[], M, .nil, trivial, ?_⟩
    rw [planOuts, planLosses, List.append_nil, List.append_nil]
    exact hC
  | @cons a p as ps h _ ih =>
    intro M G Zs Ls C hC hx hn
    have hk := hn p List.mem_cons_self
    obtain ⟨q, a1, a2, a3⟩ := hC.act hM hr hroot hd hk.2 hP hk.1 hW (fun hb => hu ⟨a, List.mem_cons_self, hb⟩) h hx.1
    obtain ⟨q', M', b1, b2, b3⟩ := ih (fun ⟨j', h1, h2⟩ => hu ⟨j', List.mem_cons_of_mem _ h1, h2⟩) a3 hx.2
      fun k' h' => hn k' (List.mem_cons_of_mem _ h')
    refine ⟨q ++ q', M', ?_, progOK_append.2 ⟨a2, b2⟩, ?_⟩
    · show Agree W (actProg P ls rg N a ++ actsProg P ls rg N as) _
      exact a1.append b1
    · rw [run_append, planOuts, planLosses, ← List.append_assoc, ← List.append_assoc]
      exact b3

/-- Before the first act. -/
theorem Armed.init (h : StoresNet P T₀ 0 ls) : Armed W P ls P' L' t T₀ (fun _ _ => none) ls [] [] fun w => LSt.fresh (T₀ w) :=
  ⟨Ready.init h, fun _ => ⟨fun _ => rfl, fun _ _ => rfl⟩⟩

/-! ## Deciding alike -/

/-- It is enough to compare the acts with each other. -/
theorem actAlike_of {as : List (Act F)} (h : ∀ a ∈ as, ∀ a' ∈ as, ∀ (k : Nat) m m', (actKeeps P ls T₀ rg N a)[k]? = some m →
    (actKeeps P ls T₀ rg N a')[k]? = some m' → Decides m m') : ActAlike P ls T₀ rg N (fun _ _ => none) as := by
  have key : ∀ (bs : List (Act F)) M, (∀ b ∈ bs, b ∈ as) →
      (∀ k, M k = (fun _ => none) ∨ ∃ a ∈ as, (actKeeps P ls T₀ rg N a)[k]? = some (M k)) → ActAlike P ls T₀ rg N M bs := by
    intro bs
    induction bs with
    | nil => exact fun _ _ _ => trivial
    | cons b bs ih =>
      intro M hb hM
      refine ⟨fun k mem hk => ?_, ih _ (fun b' h' => hb b' (List.mem_cons_of_mem _ h')) fun k => ?_⟩
      · rcases hM k with e | ⟨a, ha, e⟩
        · rw [e]; exact decides_first mem
        · exact h a ha b (hb b List.mem_cons_self) k _ _ e hk
      · unfold renew
        cases e : (actKeeps P ls T₀ rg N b)[k]? with
        | none => exact hM k
        | some mem => exact .inr ⟨b, hb b List.mem_cons_self, e⟩
  exact key as _ (fun _ h => h) fun _ => .inl rfl

theorem length_keeps (x : Nat → Tensor F) : (keeps P ls T₀ x rg).length = (netMods P (netWith P T₀ 0 ls)).length := length_memsOf ..

/-- Network and loss apart. -/
theorem keeps_pair {a a' : Act F}
    (h1 : ∀ (k : Nat) m m', (keeps P ls T₀ a.x rg)[k]? = some m → (keeps P ls T₀ a'.x rg)[k]? = some m' → Decides m m')
    (h2 : ∀ x tgt opt x' tgt' opt', a = .learn x tgt opt → a' = .learn x' tgt' opt' → ∀ (k : Nat) m m',
      (memsOf (lossMods N tgt) (netOut P ls T₀ x rg))[k]? = some m →
      (memsOf (lossMods N tgt') (netOut P ls T₀ x' rg))[k]? = some m' → Decides m m') :
    ∀ (k : Nat) m m', (actKeeps P ls T₀ rg N a)[k]? = some m → (actKeeps P ls T₀ rg N a')[k]? = some m' → Decides m m' := by
  intro k m m' hm hm'
  have hl : (keeps P ls T₀ a.x rg).length = (keeps P ls T₀ a'.x rg).length := by rw [length_keeps, length_keeps]
  have low : ∀ b : Act F, k < (keeps P ls T₀ b.x rg).length → (actKeeps P ls T₀ rg N b)[k]? = (keeps P ls T₀ b.x rg)[k]? := by
    intro b hb
    cases b with
    | job j => rfl
    | learn x tgt opt => exact List.getElem?_append_left hb
  by_cases hk : k < (keeps P ls T₀ a.x rg).length
  · rw [low a hk] at hm
    rw [low a' (hl ▸ hk)] at hm'
    exact h1 k m m' hm hm'
  · cases a with
    | job j => exact absurd (List.getElem?_eq_some_iff.1 hm).1 hk
    | learn x tgt opt =>
      cases a' with
      | job j' => exact absurd (List.getElem?_eq_some_iff.1 hm').1 (hl ▸ hk)
      | learn x' tgt' opt' =>
        have hk : (keeps P ls T₀ x rg).length ≤ k := Nat.le_of_not_lt hk
        have hl : (keeps P ls T₀ x rg).length = (keeps P ls T₀ x' rg).length := hl
        rw [actKeeps, List.getElem?_append_right hk] at hm
        rw [actKeeps, List.getElem?_append_right (hl ▸ hk), ← hl] at hm'
        exact h2 x tgt opt x' tgt' opt' rfl rfl _ m m' hm hm'

theorem Act.Does.holds {a : Act F} {p : Plan F} (h : a.Does W P L P' L' t rg p) :
    (L p.shape).global = p.shape ∧ ∃ X, Holds W P (L p.shape) t X fun w => feed (a.x w) (rg w) := by
  match a, p, h with
  | .job (.eval x), .task (.eval s X), h => exact ⟨h.1, X, h.2⟩
  | .job (.train x seed opt), .task (.train s X Y opt'), h => exact ⟨h.1, X, h.2.1⟩
  | .learn x tgt opt, .learn s X T opt', h => exact ⟨h.1, X, h.2.1⟩

/-- The output of the network before the loss. -/
theorem out_holds {s : List Nat} {X : List Nat → F} (hT : StoresNet P T₀ 0 ls) (hP : P.WF) (hL : (L s).pshape = P.shape)
    (hW : ∀ w ∈ P.members, w ∈ W) (hn : TNetFits W P (L s) ls P' (L' s)) (hs : (L s).global = s) {x : Nat → Tensor F}
    (hX : Holds W P (L s) t X fun w => feed (x w) (rg w)) :
    Placed W P' (L' s) (tseqNet ls (s, X)).1 ∧ Holds W P' (L' s) t (tseqNet ls (s, X)).2 (netOut P ls T₀ x rg) := by
  have hn' := hn.kin (List.forall₂_same.2 fun l _ => Kin.refl l) hT
  obtain ⟨h1, h2⟩ := hn'.forward (t := t) (X := X) (s := s) ⟨hP, hL, hW, hs⟩
  have h2 := (h2 _ hX).2
  rw [StoresNet.seq ls P 0 _ hT] at h1 h2
  exact ⟨h1, h2⟩

/-- Inputs of one structure. -/
theorem keeps_same {a a' : Act F} {p p' : Plan F} (hT : StoresNet P T₀ 0 ls) (hP : P.WF) (hW : ∀ w ∈ P.members, w ∈ W)
    (hM : Made P' kl red N.M w0)
    (hn : (L p.shape).pshape = P.shape ∧ TNetFits W P (L p.shape) ls P' (L' p.shape))
    (hn' : (L p'.shape).pshape = P.shape ∧ TNetFits W P (L p'.shape) ls P' (L' p'.shape))
    (h : a.Does W P L P' L' t rg p) (h' : a'.Does W P L P' L' t rg p') (hb : ∀ w, (a.x w).bare = (a'.x w).bare) :
    ∀ (k : Nat) m m', (actKeeps P ls T₀ rg N a)[k]? = some m → (actKeeps P ls T₀ rg N a')[k]? = some m' → Decides m m' := by
  refine keeps_pair (fun k m m' hm hm' => ?_) ?_
  · rw [keeps_like hb, hm'] at hm
    rw [Option.some.inj hm]
    exact Decides.refl _
  · rintro x tgt opt x' tgt' opt' rfl rfl k m m' hm hm'
    match p, p', h, h' with
    | .learn s X T _, .learn s' X' T' _, h, h' =>
      obtain ⟨hs, hX, ht, -⟩ := h
      obtain ⟨hs', hX', ht', -⟩ := h'
      have hO := (out_holds hT hP hn.1 hW hn.2 hs hX).2
      have hO' := (out_holds hT hP hn'.1 hW hn'.2 hs' hX').2
      have eb : ∀ w, (netOut P ls T₀ x rg w).bare = (netOut P ls T₀ x' rg w).bare := fun w => by
          rw [netOut, netOut, ← netMods_prog]
          exact run_like (mods_run_like (netMods_like (fun _ _ _ => rfl) ls P 0)) (fun w => feed_bare (hb w)) w
      have e := mems_like (lossMods_like N (tgt := tgt) (tgt' := tgt') fun w hw => by
        rw [show N.M.P = P' by rw [hM.eq]] at hw
        refine (ht.shape w hw).trans (((hO.asBlocks.shape w hw).symm.trans ?_).trans ((hO'.asBlocks.shape w hw).trans (ht'.shape w hw).symm))
        exact (tensor_bare.1 (bare_eq.1 (eb w)).1).1) eb
      rw [e, hm'] at hm
      rw [Option.some.inj hm]
      exact Decides.refl _

/-! ## Different batch sizes -/

/-- What a sum-reduction of tensors of the structure `i` keeps. -/
def sumMem (Q : PairLayer) (i : Info) (w : Nat) : Option Mem :=
  if Q.active w then some ⟨i, fun _ => noInfo, if receives Q.identity Q.rparts w = .str then i else noInfo, false⟩ else none

theorem sumMem_decides (Q : PairLayer) (i i' : Info) : Decides (sumMem Q i) (sumMem Q i') := by
  by_cases h : i = i'
  · rw [h]; exact Decides.refl _
  · refine ⟨fun u hu => ?_, .inl fun u m hm he => ?_⟩
    · unfold sumMem at hu ⊢
      split at hu
      · cases hu
      · next ha => rw [if_neg ha]
    · unfold sumMem at hm he
      split at hm
      · next ha =>
        rw [if_pos ha] at he
        obtain rfl := Option.some.inj hm
        exact h (Option.some.inj he)
      · cases hm

theorem reduce_mem {Q : PairLayer} {ℓ : Lens (NSt F) (Tensor F × Bool)} {S : Nat → NSt F} (c : Nat)
    (h : ReduceLayer Q) (hx : ∀ w ∈ Q.Px.members, w ∈ W) (hy : ∀ w ∈ Q.Py.members, w ∈ W) {i : Info}
    (hi : ∀ w, Q.active w = true → infoOf ℓ (S w) = i) (calm : ∀ w ∈ W, (S w).err = false) :
    memOf (reduceMod c Q ℓ) S = sumMem Q i := by
  funext w
  unfold memOf sumMem
  show (if Q.active w = true then _ else _) = _
  split
  · next ha =>
    have hw : w ∈ W := (active_mem.1 ha).elim (hx w) (hy w)
    show some (keepOf (receives Q.identity Q.rparts w) (infoOf ℓ (S w)) (run ((reduceProg c Q ℓ).take 2) S w)) = _
    have key : (run ((reduceProg c Q ℓ).take 2) S w).err = false ∧ receives Q.identity Q.rparts w ≠ .info ∧
        (receives Q.identity Q.rparts w = .str → (run ((reduceProg c Q ℓ).take 2) S w).str = i) := by
      unfold reduceProg receives
      cases hid : Q.identity with
      | true => exact ⟨calm w hw, by simp, by simp⟩
      | false =>
        rw [if_neg (by simp), if_neg (by simp)]
        have st : Star Q.Py.members Q.Px.members Q.rroot _ (fun w => recvOf (Q.rparts w))
            fun w => sendOf (Q.rparts w) := reduce_star h.valid
        obtain ⟨o1, r1⟩ := create_run (F := F) (c := c) (S := S) hx hy
        obtain ⟨o2, r2⟩ := struct_sum (c := c) (ℓ := ℓ) (S := sync (createPhase c Q) S) st hy hx (i := fun _ => i)
          (fun v hv => by
            rw [r1 v (hx v hv)]
            exact hi v (active_mem.2 (.inl hv)))
          (fun r hr => ronto h.valid hr)
        have hrun : run ([createPhase c Q, structPhase c (fun w => sendOf (Q.rparts w)) (fun w => recvOf (Q.rparts w)) ℓ,
            sumPhase c (fun w => sendOf (Q.rparts w)) (fun w => recvOf (Q.rparts w)) Q.preserveBatch ℓ (fun _ x => infoOf ℓ x)
              fun _ x => x.str].take 2) S w = if w ∈ Q.Py.members then { S w with str := i } else S w := by
          refine (r2 w hw).trans ?_
          rw [r1 w hw]
        rw [hrun]
        refine ⟨?_, by split <;> simp, fun hr => ?_⟩
        · split <;> exact calm w hw
        · have hm : w ∈ Q.Py.members := by
            by_contra hn
            have : recvOf (Q.rparts w) = none := by
              have := st.aEq w
              rwa [if_neg hn] at this
            rw [this] at hr
            simp at hr
          rw [if_pos hm]
    obtain ⟨k1, k2, k3⟩ := key
    unfold keepOf
    rw [if_neg k2, k1, hi w ha]
    congr 2
    split
    · next hr => exact k3 hr
    · rfl
  · rfl

/-- What the modules of a loss keep in calls with different batch sizes. -/
theorem loss_decides {K K' : Layout} {S S' : Nat → NSt F} {Z Z' : List Nat → F} {tgt tgt' : Nat → Tensor F} {T T' : Tensor F}
    {b b' : Nat} (h : Verif.Placed P' K) (h' : Verif.Placed P' K') (hM : Made P' kl red N.M w0) (hr : red ≠ "none")
    (hW : ∀ w ∈ P'.members, w ∈ W) (hS : Holds W P' K t Z S) (hS' : Holds W P' K' t Z' S') (ht : Blocks P' K T tgt)
    (ht' : Blocks P' K' T' tgt') (hH : Heads W b S) (hH' : Heads W b' S') (hb : b ≠ b') :
    List.Forall₂ Decides (memsOf (lossMods N tgt) S) (memsOf (lossMods N tgt') S') := by
  have hP : N.M.P = P' := by rw [hM.eq]
  have key : ∀ {K : Layout} {S : Nat → NSt F} {Z : List Nat → F} {tgt : Nat → Tensor F} {T : Tensor F} {b : Nat},
      Verif.Placed P' K → Holds W P' K t Z S → Blocks P' K T tgt → Heads W b S →
      (Entry.dyn fun w => decide (w ∈ N.M.P.members)).Matches b (memOf (normMod N) S) ∧
      ∃ i, memOf (reduceMod N.cy N.M.sumReduce (parLens 0)) (run (plainMod [lossOpPhase N tgt]).prog (run (normMod N).prog S)) =
        sumMem N.M.sumReduce i := by
    intro K S Z tgt T b h hS ht hH
    refine ⟨mem_dyn (W := W) (m := normMod N) (fun _ => rfl) (fun u hu => hW u (hP ▸ of_decide_eq_true hu)) hH, ?_⟩
    obtain ⟨-, S1, S2, S3, S4, sn, -, R⟩ := loss_run (N := N) h hM hr hW hS ht
    obtain ⟨rg', hrg⟩ := hS.parts
    have hPx : N.M.sumReduce.Px = P' := by rw [hM.eq]; rfl
    have hP0 : N.M.P0.members = [w0] := by rw [hM.eq]
    have hPy : N.M.sumReduce.Py.members = [w0] := hP0
    have e2 : run (plainMod [lossOpPhase N tgt]).prog (run (normMod N).prog S) = S2 := by
      funext w
      have e := sn w
      simp only [lossMods, List.map_cons, List.map_nil, snaps, List.nil_append, List.cons_append, List.cons.injEq] at e
      exact e.2.1
    rw [e2]
    refine ⟨([1], t, rg'), reduce_mem (W := W) N.cy (hM.reduceLayer h) (by rw [hPx]; exact hW)
      (by rw [hPy]; simpa using hW w0 hM.mem) (fun w ha => ?_) fun w hw => ?_⟩
    · have hm : w ∈ P'.members := by
        rw [active_mem, hPx, hPy] at ha
        rcases ha with ha | ha
        · exact ha
        · rw [List.mem_singleton.1 ha]; exact hM.mem
      rw [R.op w hm, show (S w).rg = rg' from congrArg (·.2.2) (hrg w hm)]
    · rw [R.calm2 w hw]
      exact hS.calm w hw
  obtain ⟨a1, i, a2⟩ := key h hS ht hH
  obtain ⟨b1, i', b2⟩ := key h' hS' ht' hH'
  have off : ∀ (p p' : Prog (NSt F) (NMsg F)) S S', Decides (memOf (plainMod p) S) (memOf (plainMod p') S') := fun p p' S S' =>
    (plain_off b p S).decides (plain_off b' p' S') hb
  simp only [lossMods, memsOf, a2, b2]
  exact .cons (a1.decides b1 hb) (.cons (off _ _ _ _) (.cons (sumMem_decides _ _ _) (.cons (off _ _ _ _) .nil)))

end Verif.Net
