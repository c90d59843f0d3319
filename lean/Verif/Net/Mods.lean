import Verif.Net.Sim

/-!
# Networks: setup and forward of the modules of a layer

`nn/module.py:37-56, 101-109`: before `forward` a module does its setup if it has not done it yet or if the structure of
its input has changed.  The pieces of a layer's forward pass (`TLayer.cuts`), each divided into what its setup does and
the rest; and the layers with the parameters the workers have at the moment.
-/

namespace Verif.Net

variable {F β : Type}

/-- What a setup leaves behind: nothing, the structures of the inputs of the other workers, or a received structure. -/
inductive Kept
  | none
  | info
  | str
  deriving DecidableEq

/-- A piece of a forward pass: the structure its module compares with that of the previous call, who takes part in the setup
(the others return from it at once), what a worker keeps, what setup does, what is done in every call. -/
structure Mod (F : Type) where
  key : NSt F → Info
  act : Nat → Bool
  part : Nat → Kept
  setup : Prog (NSt F) (NMsg F)
  rest : Prog (NSt F) (NMsg F)

/-- The whole piece. -/
def Mod.prog (m : Mod F) : Prog (NSt F) (NMsg F) := m.setup ++ m.rest

/-- Nothing to set up. -/
def plainMod (p : Prog (NSt F) (NMsg F)) : Mod F := ⟨NSt.own, fun _ => false, fun _ => .none, [], p⟩

/-- Setup only, on the workers `U`. -/
def setupMod (U : List Nat) (p : Prog (NSt F) (NMsg F)) : Mod F :=
  ⟨NSt.own, fun w => decide (w ∈ U), fun _ => .info, p, []⟩

/-- Does the worker take part in the setup (`nn/broadcast.py:121-122`, `nn/sum_reduce.py:120-121`)? -/
def _root_.Verif.PairLayer.active (L : PairLayer) (w : Nat) : Bool := decide (w ∈ groupUnion L.Px.members L.Py.members)

/-- Receivers keep the structure of what they receive. -/
def receives (identity : Bool) (parts : Nat → Res SendRecv) (w : Nat) : Kept :=
  if identity then .none else if (recvOf (parts w)).isSome then .str else .none

section
variable [AddCommMonoid F]

/-- `nn/broadcast.py`: `_distdl_module_setup` creates the partitions and passes on the structure (`nn/broadcast.py:103-141`). -/
def bcastMod (c : Nat) (L : PairLayer) (ℓ : Lens (NSt F) (Tensor F × Bool)) : Mod F :=
  ⟨infoOf ℓ, L.active, receives L.identity L.bparts, (bcastProg c L ℓ).take 2, (bcastProg c L ℓ).drop 2⟩

/-- `nn/sum_reduce.py`, the same (`nn/sum_reduce.py:102-140`). -/
def reduceMod (c : Nat) (L : PairLayer) (ℓ : Lens (NSt F) (Tensor F × Bool)) : Mod F :=
  ⟨infoOf ℓ, L.active, receives L.identity L.rparts, (reduceProg c L ℓ).take 2, (reduceProg c L ℓ).drop 2⟩

/-- Broadcast, local operator, sum-reduction. -/
def stackMods (c cy : Nat) (Lx Ly : PairLayer) (op : Nat → NSt F → Option (Tensor F × Bool)) : List (Mod F) :=
  [bcastMod c Lx tenLens, plainMod [opPhaseS Lx.Py.members op], reduceMod cy Ly tenLens]

/-- `nn/conv_feature.py`. -/
def convMods [Mul F] (c cw cb : Nat) (P : Cart) (C : ConvLayer F) (rgw : Bool) (B : Bufs β) : List (Mod F) :=
  if P.members.length = 1 then
    [plainMod [opPhase P.members (fun _ x => torchConvLayer C.W C.groups C.Ci C.Co C.bias.isSome C.weight.val
      (fun l => biasOf C.bias (l.getD 0 0)) x) rgw]]
  else [setupMod P.members (setupProg c P), plainMod [loadPhase P 0 C.weight rgw], bcastMod cw (paramBcast P) (parLens 0)] ++
    ((match C.bias with
      | some b => [plainMod [loadPhase P 1 b rgw], bcastMod cb (paramBcast P) (parLens 1)]
      | none => []) ++ [plainMod (exchangeProg c P C.W 0 B), plainMod [winOpPhase P C.W 0 (convOp C)]])

/-- `nn/pooling.py`. -/
def avgMods [Div F] [NatCast F] (c : Nat) (P : Cart) (Q : WinParams) (B : Bufs β) : List (Mod F) :=
  [setupMod P.members (setupProg c P), plainMod (exchangeProg c P Q 0 B), plainMod [winOpPhase P Q 0 fun x I =>
    some (⟨torchPoolShape Q.noPad I.1, x.t.dtype, torchAvgPool Q.noPad I.1 I.2⟩, x.rg)]]

/-- `nn/repartition.py`. -/
def repMods (c : Nat) (Px Py : Cart) (pb : Bool) (B : Bufs β) : List (Mod F) :=
  [setupMod (groupUnion Px.members Py.members) (setupUnionProg c Px (groupUnion Px.members Py.members)),
    plainMod [flagPhase c (groupUnion Px.members Py.members) (Px.members.getD 0 0), repStart Px Py B, repPhase c Px Py B,
      repEnd Px Py pb B]]

/-- `nn/linear.py`. -/
def linMods [Mul F] (c cy : Nat) (A : LinearLayer F) (rgp : Bool) : List (Mod F) :=
  stackMods c cy A.xBroadcast A.ySumReduce fun w x => (A.sublinear w x.t).map fun y => (y, x.rg || rgp)

/-- `nn/conv_channel.py`. -/
def chanMods [Mul F] (c cy : Nat) (C : ChanConv) (weight bias : Nat → List Nat → F) (rgp : Bool) : List (Mod F) :=
  match castPartitions true C.Px C.Py C.Pw with
  | none => [plainMod (failProg C.union)]
  | some (x, y) =>
    if C.Pw.members.length = 1 then [plainMod (serialConvProg C weight bias rgp)]
    else stackMods c cy (chanBroadcast x C.Pw) (chanReduce C.Pw y)
      fun w x => (channelLocal C weight bias w x.t).map fun y => (y, x.rg || rgp)

/-- `nn/conv_general.py`. -/
def genMods [Mul F] (c cw cb cx cy : Nat) (C : ChanConv) (weight bias : Nat → Tensor F) (rgp : Bool) (B : Bufs β) :
    List (Mod F) :=
  match castPartitions false C.Px C.Py C.Pw with
  | none => [plainMod (failProg C.union)]
  | some (x, y) =>
    if C.Pw.members.length = 1 then [plainMod (serialConvProg C (fun w => (weight w).val) (fun w => (bias w).val) rgp)]
    else
      match weightRoot C.Pw, biasPart C.Pw, biasRoot C.Pw with
      | some Pwr, some Pb, some Pbr =>
        [setupMod C.union (setupPartProg c x C.union), plainMod (exchangeProg c x C.W 0 B), plainMod [winOpPhase x C.W 0 neededOp],
          plainMod [storedLoad Pwr C.Pw 0 weight rgp], bcastMod cw (paramLayer Pwr C.Pw) (parLens 0)] ++
        ((if C.useBias then [plainMod [storedLoad Pbr Pb 1 bias rgp], bcastMod cb (paramLayer Pbr Pb) (parLens 1)] else []) ++
          stackMods cx cy (chanBroadcast x C.Pw) (chanReduce C.Pw y) (genOp C Pb))
      | _, _, _ => [plainMod (failProg C.union)]

theorem bcastMod_prog (c : Nat) (L : PairLayer) (ℓ : Lens (NSt F) (Tensor F × Bool)) :
    (bcastMod c L ℓ).prog = bcastProg c L ℓ := List.take_append_drop ..

theorem reduceMod_prog (c : Nat) (L : PairLayer) (ℓ : Lens (NSt F) (Tensor F × Bool)) :
    (reduceMod c L ℓ).prog = reduceProg c L ℓ := List.take_append_drop ..

omit [AddCommMonoid F] in
theorem plainMod_prog (p : Prog (NSt F) (NMsg F)) : (plainMod p).prog = p := rfl

omit [AddCommMonoid F] in
theorem setupMod_prog (U : List Nat) (p : Prog (NSt F) (NMsg F)) : (setupMod U p).prog = p := List.append_nil p

theorem stackMods_prog (c cy : Nat) (Lx Ly : PairLayer) (op : Nat → NSt F → Option (Tensor F × Bool)) :
    (stackMods c cy Lx Ly op).map Mod.prog = stackCuts c cy Lx Ly op := by
  simp only [stackMods, stackCuts, List.map_cons, List.map_nil, bcastMod_prog, reduceMod_prog, plainMod_prog]

end

section
variable [Field F]

/-- The pieces of a layer's forward pass. -/
def TLayer.mods (P : Cart) : TLayer F β → List (Mod F)
  | .map f _ => [plainMod (mapProg f)]
  | .conv c cw cb C rgw B => convMods c cw cb P C rgw B
  | .avg c Q B => avgMods c P Q B
  | .flat => [plainMod (flatProg P)]
  | .rep c Py pb B => repMods c P Py pb B
  | .lin c cy A rgp _ _ => linMods c cy A rgp
  | .chan c cy C weight bias rgp _ _ => chanMods c cy C (fun w => (weight w).val) (fun w => (bias w).val) rgp
  | .gen c cw cb cx cy C weight bias rgp B _ _ => genMods c cw cb cx cy C weight bias rgp B

theorem TLayer.mods_prog (P : Cart) (l : TLayer F β) : (l.mods P).map Mod.prog = l.cuts P := by
  cases l with
  | map f df => rfl
  | conv c cw cb C rgw B =>
    show (convMods c cw cb P C rgw B).map Mod.prog = convCuts c cw cb P C rgw B
    unfold convMods convCuts
    split
    · rfl
    · cases C.bias <;> simp [bcastMod_prog, plainMod_prog, setupMod_prog]
  | avg c Q B =>
    show (avgMods c P Q B).map Mod.prog = avgCuts c P Q B
    simp [avgMods, avgCuts, plainMod_prog, setupMod_prog]
  | flat => rfl
  | rep c Py pb B =>
    show (repMods c P Py pb B).map Mod.prog = repCuts c P Py pb B
    simp [repMods, repCuts, plainMod_prog, setupMod_prog]
  | lin c cy A rgp weight bias => exact stackMods_prog _ _ _ _ _
  | chan c cy C weight bias rgp Wt bi =>
    show (chanMods c cy C _ _ rgp).map Mod.prog = chanCuts c cy C _ _ rgp
    unfold chanMods chanCuts
    rcases castPartitions true C.Px C.Py C.Pw with _ | ⟨x, y⟩
    · rfl
    · dsimp only
      split
      · rfl
      · exact stackMods_prog _ _ _ _ _
  | gen c cw cb cx cy C weight bias rgp B Wt bi =>
    show (genMods c cw cb cx cy C weight bias rgp B).map Mod.prog = genCuts c cw cb cx cy C weight bias rgp B
    unfold genMods genCuts
    rcases castPartitions false C.Px C.Py C.Pw with _ | ⟨x, y⟩
    · rfl
    · dsimp only
      split
      · rfl
      · rcases weightRoot C.Pw with _ | Pwr
        · rfl
        · rcases biasPart C.Pw with _ | Pb
          · rfl
          · rcases biasRoot C.Pw with _ | Pbr
            · rfl
            · dsimp only
              split <;> simp [bcastMod_prog, plainMod_prog, setupMod_prog, stackMods_prog]

/-- The layer with the parameters the workers have at the moment: `θ w i` is parameter `i` (0: weight, 1: bias) on worker
`w`.  The feature-distributed convolution has its parameters on the first worker of `P` (`conv_feature.py:171-190`). -/
def TLayer.withPar (P : Cart) (θ : Nat → Nat → Tensor F) : TLayer F β → TLayer F β
  | .conv c cw cb C rgw B => .conv c cw cb { C with
      weight := θ (P.members.getD 0 0) 0
      bias := C.bias.map fun _ => θ (P.members.getD 0 0) 1 } rgw B
  | .lin c cy A rgp weight bias => .lin c cy { A with weight := fun w => (θ w 0).val, bias := fun w => (θ w 1).val } rgp
      weight bias
  | .chan c cy C _ _ rgp Wt bi => .chan c cy C (fun w => θ w 0) (fun w => θ w 1) rgp Wt bi
  | .gen c cw cb cx cy C _ _ rgp B Wt bi => .gen c cw cb cx cy C (fun w => θ w 0) (fun w => θ w 1) rgp B Wt bi
  | .map f df => .map f df
  | .avg c Q B => .avg c Q B
  | .flat => .flat
  | .rep c Py pb B => .rep c Py pb B

end

/-! ## Structures do not depend on entries -/

/-- Two pieces that do the same up to entries. -/
structure ModLike (m m' : Mod F) : Prop where
  key : ∀ x y, x.bare = y.bare → m.key x = m'.key y
  act : m.act = m'.act
  part : m.part = m'.part
  setup : ProgLike m.setup m'.setup
  rest : ProgLike m.rest m'.rest

theorem plain_like {p p' : Prog (NSt F) (NMsg F)} (h : ProgLike p p') : ModLike (plainMod p) (plainMod p') :=
  ⟨fun _ _ e => bare_own e, rfl, rfl, .nil, h⟩

theorem setupMod_like {U : List Nat} {p p' : Prog (NSt F) (NMsg F)} (h : ProgLike p p') :
    ModLike (setupMod U p) (setupMod U p') :=
  ⟨fun _ _ e => bare_own e, rfl, rfl, h, .nil⟩

theorem plain_like1 {ph ph' : Nat → NSt F → Phase (NSt F) (NMsg F)} (h : PhLike ph ph') :
    ModLike (plainMod [ph]) (plainMod [ph']) := plain_like (.cons h .nil)

section
variable [AddCommMonoid F] {ℓ : Lens (NSt F) (Tensor F × Bool)}

theorem bcastMod_like (c : Nat) (L : PairLayer) (h : LensLike ℓ) : ModLike (bcastMod c L ℓ) (bcastMod c L ℓ) := by
  refine ⟨fun _ _ e => h.info e, rfl, rfl, ?_, ?_⟩ <;> unfold bcastMod bcastProg <;> dsimp only <;> split
  · exact .nil
  · exact .cons (create_like c L) (.cons (struct_like c _ _ h) .nil)
  · exact .nil
  · exact .cons (copy_like c _ _ _ h _ fun _ _ _ e => bare_str e) .nil

theorem reduceMod_like (c : Nat) (L : PairLayer) (h : LensLike ℓ) : ModLike (reduceMod c L ℓ) (reduceMod c L ℓ) := by
  refine ⟨fun _ _ e => h.info e, rfl, rfl, ?_, ?_⟩ <;> unfold reduceMod reduceProg <;> dsimp only <;> split
  · exact .nil
  · exact .cons (create_like c L) (.cons (struct_like c _ _ h) .nil)
  · exact .nil
  · exact .cons (sum_like c _ _ _ h _ _ (fun _ _ _ e => h.info e) fun _ _ _ e => bare_str e) .nil

end

/-- Results of local operators up to entries. -/
def bareOut (z : Tensor F × Bool) : Tensor Unit × Bool := (z.1.bare, z.2)

theorem set_out {x y : NSt F} (h : x.bare = y.bare) {a b : Option (Tensor F × Bool)} (e : a.map bareOut = b.map bareOut) :
    (match a with | some z => tenLens.set z x | none => { x with err := true }).bare =
      (match (generalizing := false) b with | some z => tenLens.set z y | none => { y with err := true }).bare := by
  rcases a with _ | ⟨a, r⟩ <;> rcases b with _ | ⟨b, r'⟩ <;> simp [bareOut] at e
  · exact set_err h true
  · obtain ⟨e1, rfl⟩ := e
    exact like_ten.set _ _ _ _ _ e1 h

theorem opS_like {D : List Nat} {op op' : Nat → NSt F → Option (Tensor F × Bool)}
    (h : ∀ w x y, x.bare = y.bare → (op w x).map bareOut = (op' w y).map bareOut) :
    PhLike (opPhaseS D op) (opPhaseS D op') := by
  refine local_like fun w x y e => ?_
  split
  · exact set_out e (h w x y e)
  · exact e

theorem op_like {D : List Nat} {op op' : Nat → Tensor F → Option (Tensor F)} {rgp : Bool}
    (h : ∀ w x y, Tensor.bare x = Tensor.bare y → (op w x).map Tensor.bare = (op' w y).map Tensor.bare) :
    PhLike (opPhase D op rgp) (opPhase D op' rgp) := by
  rw [opPhase_eq, opPhase_eq]
  refine opS_like fun w x y e => ?_
  have := h w x.t y.t (bare_eq.1 e).1
  rw [(bare_eq.1 e).2.1]
  rcases h1 : op w x.t with _ | a <;> rcases h2 : op' w y.t with _ | b <;> rw [h1, h2] at this <;>
    simp_all [bareOut]

theorem opMap_like {op op' : Nat → Tensor F → Option (Tensor F)} {rgp : Bool}
    (h : ∀ w x y, Tensor.bare x = Tensor.bare y → (op w x).map Tensor.bare = (op' w y).map Tensor.bare) (w : Nat) {x y : NSt F}
    (e : x.bare = y.bare) : ((op w x.t).map fun z => (z, x.rg || rgp)).map bareOut =
      ((op' w y.t).map fun z => (z, y.rg || rgp)).map bareOut := by
  have := h w x.t y.t (bare_eq.1 e).1
  rw [(bare_eq.1 e).2.1]
  rcases h1 : op w x.t with _ | a <;> rcases h2 : op' w y.t with _ | b <;> rw [h1, h2] at this <;>
    simp_all [bareOut]

section
variable [AddCommMonoid F] [Mul F]

theorem torchConv_like (W : WinParams) (groups ci co : Nat) (hb : Bool) (wt wt' bt bt' : List Nat → F) {x y : Tensor F}
    (e : x.bare = y.bare) : (torchConvLayer W groups ci co hb wt bt x).map Tensor.bare =
      (torchConvLayer W groups ci co hb wt' bt' y).map Tensor.bare := by
  obtain ⟨h1, h2⟩ := tensor_bare.1 e
  unfold torchConvLayer
  rw [h1]
  split
  · simp [Tensor.bare, h2]
  · rfl

theorem torchLinear_like (n m : Nat) (hb : Bool) (wt wt' bt bt' : List Nat → F) {x y : Tensor F} (e : x.bare = y.bare) :
    (torchLinear n m hb wt bt x).map Tensor.bare = (torchLinear n m hb wt' bt' y).map Tensor.bare := by
  obtain ⟨h1, h2⟩ := tensor_bare.1 e
  unfold torchLinear
  rw [h1]
  split
  · simp [Tensor.bare, h2]
  · rfl

omit [Mul F] in
theorem stack_like (c cy : Nat) (Lx Ly : PairLayer) {op op' : Nat → NSt F → Option (Tensor F × Bool)}
    (h : ∀ w x y, x.bare = y.bare → (op w x).map bareOut = (op' w y).map bareOut) :
    List.Forall₂ ModLike (stackMods c cy Lx Ly op) (stackMods c cy Lx Ly op') :=
  .cons (bcastMod_like c Lx like_ten) (.cons (plain_like1 (opS_like h)) (.cons (reduceMod_like cy Ly like_ten) .nil))

theorem genOp_like (C : ChanConv) (Pb : Cart) (w : Nat) {x y : NSt F} (e : x.bare = y.bare) :
    (genOp C Pb w x).map bareOut = (genOp C Pb w y).map bareOut := by
  have hp := (bare_eq.1 e).2.2.2.2.2
  have key : ∀ (hb : Bool) (wt wt' bt bt' : List Nat → F) (r : Bool),
      ((torchConvLayer C.W.noPad C.groups ((C.localChannels w).getD 1 0) ((C.localChannels w).getD 0 0) hb wt bt x.t).map
        fun z => (z, r)).map bareOut =
      ((torchConvLayer C.W.noPad C.groups ((C.localChannels w).getD 1 0) ((C.localChannels w).getD 0 0) hb wt' bt' y.t).map
        fun z => (z, r)).map bareOut := by
    intro hb wt wt' bt bt' r
    have := torchConv_like C.W.noPad C.groups ((C.localChannels w).getD 1 0) ((C.localChannels w).getD 0 0) hb wt wt' bt bt'
      (bare_eq.1 e).1
    rw [Option.map_map, Option.map_map]
    show Option.map (fun z => (Tensor.bare z, r)) _ = Option.map (fun z => (Tensor.bare z, r)) _
    have := congrArg (Option.map fun z => (z, r)) this
    rw [Option.map_map, Option.map_map] at this
    exact this
  unfold genOp
  rw [(bare_eq.1 e).2.1, (hp 0).2, (hp 1).2]
  split <;> exact key _ _ _ _ _ _

theorem convOp_like {C C' : ConvLayer F} (hW : C.W = C'.W) (hg : C.groups = C'.groups) (hi : C.Ci = C'.Ci)
    (ho : C.Co = C'.Co) (hb : C.bias.isSome = C'.bias.isSome) {x y : NSt F} (e : x.bare = y.bare)
    {I J : List Nat × (List Nat → F)} (hI : I.1 = J.1) : (convOp C x I).map bareOut = (convOp C' y J).map bareOut := by
  have hp := (bare_eq.1 e).2.2.2.2.2
  have := torchConv_like C.W.noPad C.groups C.Ci C.Co C.bias.isSome (x.par 0).1.val (y.par 0).1.val (x.par 1).1.val
    (y.par 1).1.val (x := ⟨I.1, x.t.dtype, I.2⟩) (y := ⟨J.1, y.t.dtype, J.2⟩)
    (tensor_bare.2 ⟨hI, (tensor_bare.1 (bare_eq.1 e).1).2⟩)
  unfold convOp
  rw [← hW, ← hg, ← hi, ← ho, ← hb, (bare_eq.1 e).2.1, (hp 0).2, (hp 1).2, Option.map_map, Option.map_map]
  have := congrArg (Option.map fun z => (z, y.rg || (y.par 0).2 || (C.bias.isSome && (y.par 1).2))) this
  rw [Option.map_map, Option.map_map] at this
  exact this

end

section

theorem padInput_shape (U : WinSetup) (v : F) (s : List Nat) (a b : List Nat → F) :
    (U.padInput v s a).1 = (U.padInput v s b).1 := by
  unfold WinSetup.padInput
  split <;> rfl

theorem haloAt_like (P : Cart) (Q : WinParams) (v : F) (B : Bufs β) (w : Nat) {x y : NSt F} (e : x.bare = y.bare) :
    haloAt P Q v B x w = haloAt P Q v B y w := by
  unfold haloAt
  rw [(bare_eq.1 e).2.2.2.1, (tensor_bare.1 (bare_eq.1 e).1).1]
  congr 1
  funext U
  rw [padInput_shape U v y.t.shape x.t.val y.t.val]

theorem exchange_like (c : Nat) (P : Cart) (Q : WinParams) (v : F) (B : Bufs β) :
    ProgLike (exchangeProg c P Q v B) (exchangeProg c P Q v B) := by
  refine .cons (local_like fun w x y e => ?_) (List.forall₂_same.2 fun ph hph => ?_)
  · split
    · rw [haloAt_like P Q v B w e]
      split
      · exact e
      · exact set_err e true
    · exact e
  · obtain ⟨p, -, rfl⟩ := List.mem_map.1 hph
    refine lift_like (fun _ _ => rfl) (fun _ _ => rfl) fun w x y e => ?_
    unfold haloStep
    rw [haloAt_like P Q v B w e]

theorem winOp_like (P : Cart) (Q : WinParams) (v : F) {op op' : NSt F → List Nat × (List Nat → F) → Option (Tensor F × Bool)}
    (h : ∀ x y I J, x.bare = y.bare → I.1 = J.1 → (op x I).map bareOut = (op' y J).map bareOut) :
    PhLike (winOpPhase P Q v op) (winOpPhase P Q v op') := by
  refine local_like fun w x y e => ?_
  split
  · refine set_out e ?_
    unfold windowInput
    rw [(bare_eq.1 e).2.2.2.1, (tensor_bare.1 (bare_eq.1 e).1).1]
    rcases winSetup P Q y.info w with _ | U
    · rfl
    · refine h _ _ _ _ e ?_
      show (pySlices _ _).map _ = (pySlices _ _).map _
      rw [padInput_shape U v y.t.shape x.t.val y.t.val]
  · exact e

theorem load_like [Zero F] (P : Cart) (i : Nat) {a b : Tensor F} (h : a.bare = b.bare) (rg : Bool) :
    PhLike (loadPhase P i a rg) (loadPhase P i b rg) := by
  refine local_like fun w x y e => ?_
  split
  · refine (like_par i).set _ _ _ _ _ ?_ e
    show (if _ then a else _).bare = (if _ then b else _).bare
    split
    · exact h
    · rw [(tensor_bare.1 h).2]
  · exact e

theorem stored_like [AddCommMonoid F] (P Q : Cart) (i : Nat) {a b : Nat → Tensor F} (h : ∀ w, (a w).bare = (b w).bare)
    (rg : Bool) : PhLike (storedLoad P Q i a rg) (storedLoad P Q i b rg) := by
  refine local_like fun w x y e => ?_
  split
  · refine (like_par i).set _ _ _ _ _ ?_ e
    show (if _ then a w else _).bare = (if _ then b w else _).bare
    split
    · exact h w
    · rw [(tensor_bare.1 (h w)).2]
  · exact e

theorem fail_like (D : List Nat) : ProgLike (failProg (F := F) D) (failProg D) := by
  refine .cons (local_like fun w x y e => ?_) .nil
  split
  · exact set_err e true
  · exact e

theorem repAt_like (Px Py : Cart) (B : Bufs β) (w : Nat) {x y : NSt F} (e : x.bare = y.bare) :
    repAt Px Py B x w = repAt Px Py B y w := by
  unfold repAt
  rw [(bare_eq.1 e).2.2.2.1]

theorem rep_like [AddCommMonoid F] (c : Nat) (Px Py : Cart) (pb : Bool) (B : Bufs β) :
    List.Forall₂ ModLike (repMods (F := F) c Px Py pb B) (repMods c Px Py pb B) := by
  refine .cons (setupMod_like (setupUnion_like c Px _)) (.cons (plain_like ?_) .nil)
  refine .cons (coll_like (fun w x y e => ?_) fun w ms ms' x y hm e => ?_) (.cons (local_like fun w x y e => ?_)
    (.cons (lift_like (fun _ _ => rfl) (fun _ _ => rfl) fun w x y e => ?_) (.cons (local_like fun w x y e => ?_) .nil)))
  · show NMsg.info _ = NMsg.info _
    rw [bare_own e]
  · rcases head_bare hm with ⟨f, r, r', rfl, rfl⟩ | ⟨h1, h2⟩
    · exact set_str e rfl
    · exact (congrArg NSt.bare (no_head h1 (fun f => { x with str := f 0 }) x)).trans
        (e.trans (congrArg NSt.bare (no_head h2 (fun f => { y with str := f 0 }) y)).symm)
  · split
    · rw [repAt_like Px Py B w e]
      split
      · exact e
      · exact set_err e true
    · exact e
  · unfold repStep
    rw [repAt_like Px Py B w e]
  · split
    · refine set_out e ?_
      unfold repResult
      rw [repAt_like Px Py B w e, (bare_eq.1 e).2.2.2.1, zeroVolume_like pb (bare_eq.1 e).1, (bare_eq.1 e).2.1, bare_str e]
      split
      · split
        · next s _ _ _ _ => cases s.outShape <;> rfl
        · rfl
      · rfl
    · exact e

end

section
variable [Field F]

/-- With parameters of the same shapes and types a layer does the same up to entries. -/
theorem TLayer.mods_like (P : Cart) (l : TLayer F β) {θ θ' : Nat → Nat → Tensor F}
    (h : ∀ w i, (θ w i).bare = (θ' w i).bare) :
    List.Forall₂ ModLike ((l.withPar P θ).mods P) ((l.withPar P θ').mods P) := by
  cases l with
  | map f df =>
    refine .cons (plain_like1 (local_like fun w x y e => set_ten e ?_)) .nil
    obtain ⟨h1, h2⟩ := tensor_bare.1 (bare_eq.1 e).1
    exact tensor_bare.2 ⟨h1, h2⟩
  | conv c cw cb C rgw B =>
    show List.Forall₂ ModLike (convMods c cw cb P _ rgw B) (convMods c cw cb P _ rgw B)
    unfold convMods
    have hb : ∀ θ θ' : Nat → Nat → Tensor F, (C.bias.map fun _ => θ (P.members.getD 0 0) 1).isSome =
        (C.bias.map fun _ => θ' (P.members.getD 0 0) 1).isSome := fun _ _ => by simp
    have hw : ModLike (plainMod [winOpPhase P C.W 0 (convOp { C with
          weight := θ (P.members.getD 0 0) 0, bias := C.bias.map fun _ => θ (P.members.getD 0 0) 1 })])
        (plainMod [winOpPhase P C.W 0 (convOp { C with
          weight := θ' (P.members.getD 0 0) 0, bias := C.bias.map fun _ => θ' (P.members.getD 0 0) 1 })]) :=
      plain_like1 (winOp_like P C.W 0 fun x y I J e hI => convOp_like (by rfl) (by rfl) (by rfl) (by rfl) (hb θ θ') e hI)
    split
    · refine .cons (plain_like1 (op_like fun w x y e => ?_)) .nil
      dsimp only
      rw [hb θ θ']
      exact torchConv_like _ _ _ _ _ _ _ _ _ e
    · refine .cons (setupMod_like (setup_like c P)) (.cons (plain_like1 (load_like P 0 (h _ 0) rgw))
        (.cons (bcastMod_like cw _ (like_par 0)) ?_))
      revert hw
      cases C.bias with
      | none => exact fun hw => .cons (plain_like (exchange_like c P C.W 0 B)) (.cons hw .nil)
      | some b =>
        exact fun hw => .cons (plain_like1 (load_like P 1 (h _ 1) rgw)) (.cons (bcastMod_like cb _ (like_par 1))
          (.cons (plain_like (exchange_like c P C.W 0 B)) (.cons hw .nil)))
  | avg c Q B =>
    refine .cons (setupMod_like (setup_like c P)) (.cons (plain_like (exchange_like c P Q 0 B)) (.cons
      (plain_like1 (winOp_like P Q 0 fun x y I J e hI => ?_)) .nil))
    simp only [Option.map_some, bareOut, Tensor.bare, hI, (tensor_bare.1 (bare_eq.1 e).1).2, (bare_eq.1 e).2.1]
  | flat =>
    refine .cons (plain_like1 (local_like fun w x y e => ?_)) .nil
    split
    · refine set_ten e ?_
      obtain ⟨h1, h2⟩ := tensor_bare.1 (bare_eq.1 e).1
      exact tensor_bare.2 ⟨by simp only [h1], h2⟩
    · exact e
  | rep c Py pb B => exact rep_like c P Py pb B
  | lin c cy A rgp weight bias =>
    exact stack_like c cy _ _ fun w x y e => opMap_like
      (op := fun w x => torchLinear (A.localIn w) (A.localOut w) (A.localBias w) (θ w 0).val (θ w 1).val x)
      (op' := fun w x => torchLinear (A.localIn w) (A.localOut w) (A.localBias w) (θ' w 0).val (θ' w 1).val x)
      (fun w x y e => torchLinear_like _ _ _ _ _ _ _ e) w e
  | chan c cy C weight bias rgp Wt bi =>
    show List.Forall₂ ModLike (chanMods c cy C _ _ rgp) (chanMods c cy C _ _ rgp)
    unfold chanMods
    rcases castPartitions true C.Px C.Py C.Pw with _ | ⟨x, y⟩
    · exact .cons (plain_like (fail_like _)) .nil
    · dsimp only
      split
      · exact .cons (plain_like1 (op_like fun w x y e => torchConv_like _ _ _ _ _ _ _ _ _ e)) .nil
      · exact stack_like c cy _ _ fun w x y e => opMap_like
          (op := channelLocal C (fun w => (θ w 0).val) fun w => (θ w 1).val)
          (op' := channelLocal C (fun w => (θ' w 0).val) fun w => (θ' w 1).val)
          (fun w x y e => torchConv_like _ _ _ _ _ _ _ _ _ e) w e
  | gen c cw cb cx cy C weight bias rgp B Wt bi =>
    show List.Forall₂ ModLike (genMods c cw cb cx cy C _ _ rgp B) (genMods c cw cb cx cy C _ _ rgp B)
    unfold genMods
    rcases castPartitions false C.Px C.Py C.Pw with _ | ⟨x, y⟩
    · exact .cons (plain_like (fail_like _)) .nil
    · dsimp only
      split
      · exact .cons (plain_like1 (op_like fun w x y e => torchConv_like _ _ _ _ _ _ _ _ _ e)) .nil
      · have hf : List.Forall₂ ModLike [plainMod (failProg (F := F) C.union)] [plainMod (failProg C.union)] :=
          .cons (plain_like (fail_like _)) .nil
        rcases weightRoot C.Pw with _ | Pwr
        · exact hf
        · rcases biasPart C.Pw with _ | Pb
          · exact hf
          · rcases biasRoot C.Pw with _ | Pbr
            · exact hf
            · have hs : List.Forall₂ ModLike (stackMods (F := F) cx cy (chanBroadcast x C.Pw) (chanReduce C.Pw y) (genOp C Pb))
                  (stackMods cx cy (chanBroadcast x C.Pw) (chanReduce C.Pw y) (genOp C Pb)) :=
                stack_like cx cy _ _ fun w x y e => genOp_like C Pb w e
              refine .cons (setupMod_like (setupPart_like c x _)) (.cons (plain_like (exchange_like c x C.W 0 B))
                (.cons (plain_like1 (winOp_like x C.W 0 fun x y I J e hI => ?_))
                (.cons (plain_like1 (stored_like Pwr C.Pw 0 (fun w => h w 0) rgp)) (.cons (bcastMod_like cw _ (like_par 0)) ?_))))
              · simp only [neededOp, Option.map_some, bareOut, Tensor.bare, hI, (tensor_bare.1 (bare_eq.1 e).1).2,
                  (bare_eq.1 e).2.1]
              · split
                · exact .cons (plain_like1 (stored_like Pbr Pb 1 (fun w => h w 1) rgp)) (.cons (bcastMod_like cb _ (like_par 1)) hs)
                · exact hs

end

/-! ## A worker's phases depend on its own parameters only -/

/-- The same on worker `w`. -/
abbrev ProgAt (w : Nat) (p p' : Prog (NSt F) (NMsg F)) : Prop := List.Forall₂ (fun ph ph' => ph w = ph' w) p p'

/-- The same on worker `w`. -/
structure ModAt (w : Nat) (m m' : Mod F) : Prop where
  key : m.key = m'.key
  setup : ProgAt w m.setup m'.setup
  rest : ProgAt w m.rest m'.rest

/-- The same on worker `w`, whatever is on the tape. -/
abbrev CProgAt (w : Nat) (p p' : CProg (List (NSt F)) (NSt F) (NMsg F)) : Prop :=
  List.Forall₂ (fun ph ph' => ∀ T, ph T w = ph' T w) p p'

theorem ProgAt.refl (w : Nat) (p : Prog (NSt F) (NMsg F)) : ProgAt w p p := List.forall₂_same.2 fun _ _ => rfl

theorem ModAt.refl (w : Nat) (m : Mod F) : ModAt w m m := ⟨rfl, ProgAt.refl w _, ProgAt.refl w _⟩

theorem CProgAt.refl (w : Nat) (p : CProg (List (NSt F)) (NSt F) (NMsg F)) : CProgAt w p p :=
  List.forall₂_same.2 fun _ _ _ => rfl

theorem modsAt_refl (w : Nat) (ms : List (Mod F)) : List.Forall₂ (ModAt w) ms ms := List.forall₂_same.2 fun m _ => ModAt.refl w m

theorem plain_at {w : Nat} {ph ph' : Nat → NSt F → Phase (NSt F) (NMsg F)} (h : ph w = ph' w) :
    ModAt w (plainMod [ph]) (plainMod [ph']) := ⟨rfl, .nil, .cons h .nil⟩

theorem local_at {w : Nat} {f f' : Nat → NSt F → NSt F} (h : f w = f' w) :
    (localPhase f : Nat → NSt F → Phase (NSt F) (NMsg F)) w = localPhase f' w := by
  unfold localPhase
  rw [h]

theorem opS_at {w : Nat} {D : List Nat} {op op' : Nat → NSt F → Option (Tensor F × Bool)} (h : w ∈ D → op w = op' w) :
    opPhaseS D op w = opPhaseS D op' w := by
  refine local_at ?_
  by_cases hw : w ∈ D
  · simp only [if_pos hw, h hw]
  · simp only [if_neg hw]

theorem op_at {w : Nat} {D : List Nat} {op op' : Nat → Tensor F → Option (Tensor F)} {rgp : Bool} (h : w ∈ D → op w = op' w) :
    opPhase D op rgp w = opPhase D op' rgp w := by
  rw [opPhase_eq, opPhase_eq]
  exact opS_at fun hw => by rw [h hw]

theorem opBack_at {w i : Nat} {D : List Nat} {op op' : Nat → NSt F → NSt F → NSt F} (h : w ∈ D → op w = op' w)
    (T : List (NSt F)) : opBackPhase D i op T w = opBackPhase D i op' T w := by
  refine local_at ?_
  by_cases hw : w ∈ D
  · simp only [if_pos hw, h hw]
  · simp only [if_neg hw]

theorem stack_at [AddCommMonoid F] (c cy : Nat) (Lx Ly : PairLayer) {w : Nat} {op op' : Nat → NSt F → Option (Tensor F × Bool)}
    (h : w ∈ Lx.Py.members → op w = op' w) : List.Forall₂ (ModAt w) (stackMods c cy Lx Ly op) (stackMods c cy Lx Ly op') :=
  .cons (ModAt.refl _ _) (.cons (plain_at (opS_at h)) (.cons (ModAt.refl _ _) .nil))

theorem stackBack_at [AddCommMonoid F] (c cy : Nat) (Lx Ly : PairLayer) {w : Nat} {op op' : Nat → NSt F → NSt F → NSt F}
    (h : w ∈ Lx.Py.members → op w = op' w) : CProgAt w (stackBackProg c cy Lx Ly op) (stackBackProg c cy Lx Ly op') :=
  List.rel_append (CProgAt.refl _ _) (.cons (fun T => opBack_at h T) (CProgAt.refl _ _))

theorem load_at [Zero F] {P : Cart} {w i : Nat} {a b : Tensor F} {rg : Bool}
    (h : w ∈ P.members → if w = P.members.getD 0 0 then a = b else a.dtype = b.dtype) :
    loadPhase P i a rg w = loadPhase P i b rg w := by
  refine local_at ?_
  by_cases hw : w ∈ P.members
  · have := h hw
    simp only [if_pos hw, rootParam]
    by_cases e : w = P.members.getD 0 0
    · rw [if_pos e] at this
      rw [this]
    · rw [if_neg e] at this
      simp only [if_neg e, this]
  · simp only [if_neg hw]

theorem stored_at [AddCommMonoid F] {P Q : Cart} {w i : Nat} {a b : Nat → Tensor F} {rg : Bool} (h : a w = b w) :
    storedLoad P Q i a rg w = storedLoad P Q i b rg w := by
  refine local_at ?_
  funext x
  simp only [storedParam, h]

section
variable [Field F]

/-- The parameters of a feature-distributed convolution have the same type on all workers (`conv_feature.py:171-190`). -/
def TLayer.OneType (P : Cart) (θ : Nat → Nat → Tensor F) : TLayer F β → Prop
  | .conv _ _ _ _ _ _ => ∀ w ∈ P.members, ∀ i, (θ w i).dtype = (θ (P.members.getD 0 0) i).dtype
  | _ => True

theorem eq_root {P : Cart} (h : P.members.length = 1) {w : Nat} (hw : w ∈ P.members) : w = P.members.getD 0 0 := by
  obtain ⟨a, ha⟩ := List.length_eq_one_iff.1 h
  rw [ha] at hw ⊢
  exact List.mem_singleton.1 hw

/-- The forward pass of a worker. -/
theorem TLayer.mods_at (P : Cart) (l : TLayer F β) {θ : Nat → Nat → Tensor F} (h : l.OneType P θ) (w : Nat) :
    List.Forall₂ (ModAt w) ((l.withPar P fun _ => θ w).mods P) ((l.withPar P θ).mods P) := by
  cases l with
  | map f df => exact modsAt_refl _ _
  | conv c cw cb C rgw B =>
    have hd : ∀ i, w ∈ P.members → if w = P.members.getD 0 0 then θ w i = θ (P.members.getD 0 0) i else
        (θ w i).dtype = (θ (P.members.getD 0 0) i).dtype := by
      intro i hw
      split
      · next e => rw [← e]
      · exact h w hw i
    show List.Forall₂ (ModAt w) (convMods c cw cb P _ rgw B) (convMods c cw cb P _ rgw B)
    unfold convMods
    split
    · next h1 =>
      refine .cons (plain_at (op_at fun hw => ?_)) .nil
      rw [eq_root h1 hw]
    · refine .cons (ModAt.refl _ _) (.cons (plain_at (load_at (hd 0))) (.cons (ModAt.refl _ _) ?_))
      cases C.bias with
      | none => exact .cons (ModAt.refl _ _) (.cons (ModAt.refl _ _) .nil)
      | some b =>
        exact .cons (plain_at (load_at (hd 1))) (.cons (ModAt.refl _ _) (.cons (ModAt.refl _ _) (.cons (ModAt.refl _ _) .nil)))
  | avg c Q B => exact modsAt_refl _ _
  | flat => exact modsAt_refl _ _
  | rep c Py pb B => exact modsAt_refl _ _
  | lin c cy A rgp weight bias => exact stack_at c cy _ _ fun _ => rfl
  | chan c cy C weight bias rgp Wt bi =>
    show List.Forall₂ (ModAt w) (chanMods c cy C _ _ rgp) (chanMods c cy C _ _ rgp)
    unfold chanMods
    rcases castPartitions true C.Px C.Py C.Pw with _ | ⟨x, y⟩
    · exact modsAt_refl _ _
    · dsimp only
      split
      · exact .cons (plain_at (op_at fun _ => rfl)) .nil
      · exact stack_at c cy _ _ fun _ => rfl
  | gen c cw cb cx cy C weight bias rgp B Wt bi =>
    show List.Forall₂ (ModAt w) (genMods c cw cb cx cy C _ _ rgp B) (genMods c cw cb cx cy C _ _ rgp B)
    unfold genMods
    rcases castPartitions false C.Px C.Py C.Pw with _ | ⟨x, y⟩
    · exact modsAt_refl _ _
    · dsimp only
      split
      · exact .cons (plain_at (op_at fun _ => rfl)) .nil
      · rcases weightRoot C.Pw with _ | Pwr
        · exact modsAt_refl _ _
        · rcases biasPart C.Pw with _ | Pb
          · exact modsAt_refl _ _
          · rcases biasRoot C.Pw with _ | Pbr
            · exact modsAt_refl _ _
            · refine .cons (ModAt.refl _ _) (.cons (ModAt.refl _ _) (.cons (ModAt.refl _ _) (.cons
                (plain_at (stored_at rfl)) (.cons (ModAt.refl _ _) ?_))))
              split
              · exact .cons (plain_at (stored_at rfl)) (.cons (ModAt.refl _ _) (modsAt_refl _ _))
              · exact modsAt_refl _ _

/-- The backward pass of a worker. -/
theorem TLayer.adj_at (P : Cart) (l : TLayer F β) {θ : Nat → Nat → Tensor F} (w : Nat) :
    CProgAt w ((l.withPar P fun _ => θ w).adjProg P) ((l.withPar P θ).adjProg P) := by
  cases l with
  | map f df => exact CProgAt.refl _ _
  | conv c cw cb C rgw B =>
    show CProgAt w (convBack c cw cb P _ B) (convBack c cw cb P _ B)
    unfold convBack
    split
    · next h1 =>
      refine .cons (fun T => local_at ?_) .nil
      by_cases hw : w ∈ P.members
      · rw [eq_root h1 hw]
      · simp only [if_neg hw]
    · cases C.bias with
      | none => exact CProgAt.refl _ _
      | some b => exact CProgAt.refl _ _
  | avg c Q B => exact CProgAt.refl _ _
  | flat => exact CProgAt.refl _ _
  | rep c Py pb B => exact CProgAt.refl _ _
  | lin c cy A rgp weight bias => exact stackBack_at c cy _ _ fun _ => rfl
  | chan c cy C weight bias rgp Wt bi =>
    show CProgAt w (chanBack c cy C _ _) (chanBack c cy C _ _)
    unfold chanBack
    rcases castPartitions true C.Px C.Py C.Pw with _ | ⟨x, y⟩
    · exact CProgAt.refl _ _
    · dsimp only
      split
      · exact .cons (fun T => opBack_at (fun _ => rfl) T) .nil
      · exact stackBack_at c cy _ _ fun _ => rfl
  | gen c cw cb cx cy C weight bias rgp B Wt bi =>
    show CProgAt w (genBack c cw cb cx cy C _ _ B) (genBack c cw cb cx cy C _ _ B)
    unfold genBack
    rcases castPartitions false C.Px C.Py C.Pw with _ | ⟨x, y⟩
    · exact CProgAt.refl _ _
    · dsimp only
      split
      · exact .cons (fun T => opBack_at (fun _ => rfl) T) .nil
      · exact CProgAt.refl _ _

omit [Field F] in
theorem TLayer.has_withPar (P : Cart) (l : TLayer F β) (θ : Nat → Nat → Tensor F) : (l.withPar P θ).has P = l.has P := by
  cases l with
  | conv c cw cb C rgw B =>
    show (fun w i => P.members.contains w && (i == 0 || (i == 1 && (C.bias.map _).isSome))) = _
    simp only [Option.isSome_map]
    rfl
  | _ => rfl

omit [Field F] in
theorem TLayer.out_withPar (P : Cart) (l : TLayer F β) (θ : Nat → Nat → Tensor F) : (l.withPar P θ).out P = l.out P := by
  cases l <;> rfl

end

/-! ## What setup changes -/

/-- `a` is `b` but for what the setup leaves behind, and an exception. -/
structure Tidy (q : Kept) (a b : NSt F) : Prop where
  t : a.t = b.t
  rg : a.rg = b.rg
  arr : a.arr = b.arr
  par : a.par = b.par
  err : b.err = true → a.err = true
  info : q ≠ .info → a.info = b.info
  str : q ≠ .str → a.str = b.str

theorem Tidy.refl (q : Kept) (a : NSt F) : Tidy q a a := ⟨rfl, rfl, rfl, rfl, id, fun _ => rfl, fun _ => rfl⟩

theorem Tidy.trans {q : Kept} {a b c : NSt F} (h : Tidy q a b) (h' : Tidy q b c) : Tidy q a c :=
  ⟨h.t.trans h'.t, h.rg.trans h'.rg, h.arr.trans h'.arr, h.par.trans h'.par, fun e => h.err (h'.err e),
    fun e => (h.info e).trans (h'.info e), fun e => (h.str e).trans (h'.str e)⟩

/-- A phase that changes nothing else. -/
def TidyPh (q : Nat → Kept) (ph : Nat → NSt F → Phase (NSt F) (NMsg F)) : Prop :=
  ∀ w x, (∀ r ∈ (ph w x).reqs, ∀ ms y, Tidy (q w) (r.get ms y) y) ∧ ∀ y, Tidy (q w) ((ph w x).work y) y

theorem sync_tidy {q : Nat → Kept} {ph : Nat → NSt F → Phase (NSt F) (NMsg F)} (h : TidyPh q ph) (S : Nat → NSt F) (w : Nat) :
    Tidy (q w) (sync ph S w) (S w) := by
  obtain ⟨h1, h2⟩ := h w (S w)
  have key : ∀ (l : List (Req (NSt F) (NMsg F))), (∀ r ∈ l, ∀ ms y, Tidy (q w) (r.get ms y) y) → ∀ a,
      Tidy (q w) (l.foldl (fun x r => r.get (r.deps.filterMap (contribution ph S r.key)) x) a) a := by
    intro l
    induction l with
    | nil => exact fun _ a => Tidy.refl _ a
    | cons r l ih =>
      intro hl a
      rw [List.foldl_cons]
      exact (ih (fun r hr => hl r (List.mem_cons_of_mem _ hr)) _).trans (hl r List.mem_cons_self _ _)
  exact (key _ h1 _).trans (h2 _)

theorem run_tidy {q : Nat → Kept} {p : Prog (NSt F) (NMsg F)} (h : ∀ ph ∈ p, TidyPh q ph) (S : Nat → NSt F) (w : Nat) :
    Tidy (q w) (run p S w) (S w) := by
  induction p generalizing S with
  | nil => exact Tidy.refl _ _
  | cons ph p ih =>
    exact (ih (fun ph hp => h ph (List.mem_cons_of_mem _ hp)) _).trans (sync_tidy (h ph List.mem_cons_self) S w)

theorem coll_tidy {q : Nat → Kept} {c : Nat} {act : Nat → Bool} {grp : Nat → List Nat} {put : Nat → NSt F → NMsg F}
    {deps : Nat → List Nat} {get : Nat → List (NMsg F) → NSt F → NSt F} (h : ∀ w ms y, Tidy (q w) (get w ms y) y) :
    TidyPh q (collPhase c act grp put deps get) := by
  intro w x
  unfold collPhase
  split
  · refine ⟨fun r hr ms y => ?_, fun y => Tidy.refl _ y⟩
    rw [List.mem_singleton.1 hr]
    exact h w ms y
  · exact ⟨fun r hr => (by simp at hr), fun y => Tidy.refl _ y⟩

theorem gather_tidy (c : Nat) (act : Nat → Bool) (grp : Nat → List Nat) : TidyPh (fun _ => .info) (gatherPhase (F := F) c act grp) :=
  coll_tidy fun _ _ _ => ⟨rfl, rfl, rfl, rfl, id, fun e => (e rfl).elim, fun _ => rfl⟩

theorem sub_tidy (c : Nat) (P : Cart) : TidyPh (fun _ => .info) (subPhase (F := F) c P) := coll_tidy fun _ _ y => Tidy.refl _ y

theorem share_tidy (c : Nat) (U : List Nat) (root : Nat) : TidyPh (fun _ => .info) (sharePhase (F := F) c U root) := by
  refine coll_tidy fun _ ms y => ?_
  split
  · exact ⟨rfl, rfl, rfl, rfl, id, fun e => (e rfl).elim, fun _ => rfl⟩
  · exact Tidy.refl _ y

theorem assemble_tidy (c : Nat) (P : Cart) : ∀ ph ∈ assembleProg (F := F) c P, TidyPh (fun _ => .info) ph := by
  intro ph hp
  obtain ⟨i, -, hi⟩ := List.mem_flatMap.1 hp
  rcases List.mem_cons.1 hi with rfl | hi
  · exact sub_tidy c P
  · rw [List.mem_singleton.1 hi]
    exact gather_tidy c _ _

theorem setup_tidy (c : Nat) (P : Cart) : ∀ ph ∈ setupProg (F := F) c P, TidyPh (fun _ => .info) ph := by
  intro ph hp
  rcases List.mem_append.1 hp with hp | hp
  · exact assemble_tidy c P ph hp
  · rw [List.mem_singleton.1 hp]
    exact gather_tidy c _ _

theorem setupPart_tidy (c : Nat) (P : Cart) (U : List Nat) : ∀ ph ∈ setupPartProg (F := F) c P U, TidyPh (fun _ => .info) ph := by
  intro ph hp
  rcases List.mem_append.1 hp with hp | hp
  · rcases List.mem_append.1 hp with hp | hp
    · exact assemble_tidy c P ph hp
    · rw [List.eq_of_mem_replicate hp]
      exact share_tidy c _ _
  · rw [List.mem_singleton.1 hp]
    exact gather_tidy c _ _

theorem setupUnion_tidy (c : Nat) (P : Cart) (U : List Nat) : ∀ ph ∈ setupUnionProg (F := F) c P U, TidyPh (fun _ => .info) ph := by
  intro ph hp
  rcases List.mem_append.1 hp with hp | hp
  · rcases List.mem_append.1 hp with hp | hp
    · exact assemble_tidy c P ph hp
    · rw [List.eq_of_mem_replicate hp]
      exact share_tidy c _ _
  · rcases List.mem_cons.1 hp with rfl | hp
    · exact gather_tidy c _ _
    · rw [List.mem_singleton.1 hp]
      exact share_tidy c _ _

theorem struct_tidy (c : Nat) (parts : Nat → Res SendRecv) (ℓ : Lens (NSt F) (Tensor F × Bool)) :
    TidyPh (receives false parts) (structPhase c (fun w => sendOf (parts w)) (fun w => recvOf (parts w)) ℓ) := by
  intro w x
  refine ⟨fun r hr ms y => ?_, fun y => ?_⟩
  · rcases mem_pairPhase.1 hr with ⟨g, -, rfl⟩ | ⟨g, hg, -, rfl⟩
    · exact Tidy.refl _ y
    · have e : receives false parts w = .str := by
        unfold receives
        rw [hg]
        rfl
      rw [e]
      dsimp only
      split
      · exact ⟨rfl, rfl, rfl, rfl, id, fun _ => rfl, fun e => (e rfl).elim⟩
      · exact ⟨rfl, rfl, rfl, rfl, fun _ => rfl, fun _ => rfl, fun e => (e rfl).elim⟩
  · show Tidy _ (if _ then _ else y) y
    split
    · next h =>
      have e : receives false parts w = .str := by
        unfold receives
        cases hr : recvOf (parts w) with
        | none =>
          have h : samePart (sendOf (parts w)) (recvOf (parts w)) = true := h
          rw [hr] at h
          cases hs : sendOf (parts w) <;> rw [hs] at h <;> cases h
        | some g => rfl
      rw [e]
      exact ⟨rfl, rfl, rfl, rfl, id, fun _ => rfl, fun e => (e rfl).elim⟩
    · exact Tidy.refl _ y

theorem create_tidy (q : Nat → Kept) (c : Nat) (L : PairLayer) : TidyPh q (createPhase (F := F) c L) :=
  coll_tidy fun _ _ y => Tidy.refl _ y

/-- Nothing to do for the workers that do not take part. -/
def IdlePh (act : Nat → Bool) (ph : Nat → NSt F → Phase (NSt F) (NMsg F)) : Prop :=
  ∀ w, act w = false → ∀ x, ph w x = ⟨[], id, none⟩

theorem coll_idle {act' : Nat → Bool} {c : Nat} {act : Nat → Bool} {grp : Nat → List Nat} {put : Nat → NSt F → NMsg F}
    {deps : Nat → List Nat} {get : Nat → List (NMsg F) → NSt F → NSt F} (h : ∀ w, act' w = false → act w = false) :
    IdlePh act' (collPhase c act grp put deps get) := by
  intro w hw x
  unfold collPhase
  rw [if_neg (by rw [h w hw]; simp)]

/-- The setup of a piece changes nothing but what is kept, the structure compared is not among it, and workers that do not
take part have nothing to do. -/
structure ModTidy (m : Mod F) : Prop where
  setup : ∀ ph ∈ m.setup, TidyPh m.part ph
  key : ∀ q a b, Tidy q a b → m.key a = m.key b
  idle : ∀ ph ∈ m.setup, IdlePh m.act ph

theorem own_tidy {q : Kept} {a b : NSt F} (h : Tidy q a b) : a.own = b.own := by
  unfold NSt.own
  rw [h.t, h.rg]

theorem plain_tidy (p : Prog (NSt F) (NMsg F)) : ModTidy (plainMod p) :=
  ⟨fun _ h => (by cases h), fun _ _ _ => own_tidy, fun _ h => (by cases h)⟩

theorem struct_idle {act : Nat → Bool} (c : Nat) (parts : Nat → Res SendRecv) (ℓ : Lens (NSt F) (Tensor F × Bool))
    (h : ∀ w, act w = false → parts w = .returnsNone) :
    IdlePh act (structPhase c (fun w => sendOf (parts w)) (fun w => recvOf (parts w)) ℓ) := by
  intro w hw x
  simp only [structPhase, pairPhase, h w hw]
  rfl

theorem bparts_idle (L : PairLayer) (w : Nat) (h : L.active w = false) : L.bparts w = .returnsNone := by
  have h' : w ∉ groupUnion L.Px.members L.Py.members := of_decide_eq_false h
  exact if_pos ⟨fun hm => h' (mem_groupUnion.2 (.inl hm)), fun hm => h' (mem_groupUnion.2 (.inr hm))⟩

theorem rparts_idle (L : PairLayer) (w : Nat) (h : L.active w = false) : L.rparts w = .returnsNone := by
  have h' : w ∉ groupUnion L.Px.members L.Py.members := of_decide_eq_false h
  exact if_pos ⟨fun hm => h' (mem_groupUnion.2 (.inl hm)), fun hm => h' (mem_groupUnion.2 (.inr hm))⟩

theorem bcast_tidy [AddCommMonoid F] (c : Nat) (L : PairLayer) {ℓ : Lens (NSt F) (Tensor F × Bool)}
    (h : ∀ q a b, Tidy q a b → ℓ.get a = ℓ.get b) : ModTidy (bcastMod c L ℓ) := by
  have key : ∀ ph ∈ (bcastProg c L ℓ).take 2, TidyPh (receives L.identity L.bparts) ph ∧ IdlePh L.active ph := by
    unfold bcastProg
    split
    · simp
    · next hi =>
      intro ph hp
      have hp : ph ∈ [_, _] := hp
      rw [Bool.not_eq_true] at hi
      rw [hi]
      rcases List.mem_cons.1 hp with rfl | hp
      · exact ⟨create_tidy _ c L, coll_idle fun _ h => h⟩
      · rw [List.mem_singleton.1 hp]
        exact ⟨struct_tidy c _ ℓ, struct_idle c _ ℓ (bparts_idle L)⟩
  exact ⟨fun ph hp => (key ph hp).1, fun q a b e => (by show infoOf ℓ a = infoOf ℓ b; unfold infoOf; rw [h q a b e]),
    fun ph hp => (key ph hp).2⟩

theorem reduce_tidy [AddCommMonoid F] (c : Nat) (L : PairLayer) {ℓ : Lens (NSt F) (Tensor F × Bool)}
    (h : ∀ q a b, Tidy q a b → ℓ.get a = ℓ.get b) : ModTidy (reduceMod c L ℓ) := by
  have key : ∀ ph ∈ (reduceProg c L ℓ).take 2, TidyPh (receives L.identity L.rparts) ph ∧ IdlePh L.active ph := by
    unfold reduceProg
    split
    · simp
    · next hi =>
      intro ph hp
      have hp : ph ∈ [_, _] := hp
      rw [Bool.not_eq_true] at hi
      rw [hi]
      rcases List.mem_cons.1 hp with rfl | hp
      · exact ⟨create_tidy _ c L, coll_idle fun _ h => h⟩
      · rw [List.mem_singleton.1 hp]
        exact ⟨struct_tidy c _ ℓ, struct_idle c _ ℓ (rparts_idle L)⟩
  exact ⟨fun ph hp => (key ph hp).1, fun q a b e => (by show infoOf ℓ a = infoOf ℓ b; unfold infoOf; rw [h q a b e]),
    fun ph hp => (key ph hp).2⟩

theorem assemble_idle {U : List Nat} (c : Nat) (P : Cart) (h : ∀ w ∈ P.members, w ∈ U) :
    ∀ ph ∈ assembleProg (F := F) c P, IdlePh (fun w => decide (w ∈ U)) ph := by
  have hd : ∀ w, decide (w ∈ U) = false → decide (w ∈ P.members) = false :=
    fun w hw => decide_eq_false fun hm => of_decide_eq_false hw (h w hm)
  intro ph hp
  obtain ⟨i, -, hi⟩ := List.mem_flatMap.1 hp
  rcases List.mem_cons.1 hi with rfl | hi
  · exact coll_idle hd
  · rw [List.mem_singleton.1 hi]
    exact coll_idle hd

theorem setupM_tidy (c : Nat) (P : Cart) : ModTidy (setupMod (F := F) P.members (setupProg c P)) := by
  refine ⟨setup_tidy c P, fun _ _ _ => own_tidy, fun ph hp => ?_⟩
  rcases List.mem_append.1 hp with hp | hp
  · exact assemble_idle c P (fun _ h => h) ph hp
  · rw [List.mem_singleton.1 hp]
    exact coll_idle fun _ h => h

theorem setupPartM_tidy {U : List Nat} (c : Nat) (P : Cart) (h : ∀ w ∈ P.members, w ∈ U) :
    ModTidy (setupMod (F := F) U (setupPartProg c P U)) := by
  refine ⟨setupPart_tidy c P U, fun _ _ _ => own_tidy, fun ph hp => ?_⟩
  rcases List.mem_append.1 hp with hp | hp
  · rcases List.mem_append.1 hp with hp | hp
    · exact assemble_idle c P h ph hp
    · rw [List.eq_of_mem_replicate hp]
      exact coll_idle fun _ h => h
  · rw [List.mem_singleton.1 hp]
    exact coll_idle fun w hw => decide_eq_false fun hm => of_decide_eq_false hw (h w hm)

theorem setupUnionM_tidy {U : List Nat} (c : Nat) (P : Cart) (h : ∀ w ∈ P.members, w ∈ U) :
    ModTidy (setupMod (F := F) U (setupUnionProg c P U)) := by
  refine ⟨setupUnion_tidy c P U, fun _ _ _ => own_tidy, fun ph hp => ?_⟩
  rcases List.mem_append.1 hp with hp | hp
  · rcases List.mem_append.1 hp with hp | hp
    · exact assemble_idle c P h ph hp
    · rw [List.eq_of_mem_replicate hp]
      exact coll_idle fun _ h => h
  · have hp : ph ∈ [_, _] := hp
    rcases List.mem_cons.1 hp with rfl | hp
    · exact coll_idle fun w hw => decide_eq_false fun hm => of_decide_eq_false hw (h w hm)
    · rw [List.mem_singleton.1 hp]
      exact coll_idle fun _ h => h

theorem ten_tidy (q : Kept) (a b : NSt F) (h : Tidy q a b) : tenLens.get a = tenLens.get b := by
  show (a.t, a.rg) = (b.t, b.rg)
  rw [h.t, h.rg]

theorem par_tidy (i : Nat) (q : Kept) (a b : NSt F) (h : Tidy q a b) : (parLens i).get a = (parLens i).get b := by
  show a.par i = b.par i
  rw [h.par]

theorem stack_tidy [AddCommMonoid F] (c cy : Nat) (Lx Ly : PairLayer) (op : Nat → NSt F → Option (Tensor F × Bool)) :
    ∀ m ∈ stackMods c cy Lx Ly op, ModTidy m := by
  simp only [stackMods, List.forall_mem_cons]
  exact ⟨bcast_tidy c Lx ten_tidy, plain_tidy _, reduce_tidy cy Ly ten_tidy, by simp⟩

theorem cast_members {ones : Bool} {Px Py Pw x y : Cart} (h : castPartitions ones Px Py Pw = some (x, y)) :
    x.members = Px.members := by
  unfold castPartitions at h
  split at h
  · obtain ⟨x', hx, h⟩ := Option.bind_eq_some_iff.1 h
    obtain ⟨y', -, h⟩ := Option.map_eq_some_iff.1 h
    obtain ⟨rfl, -⟩ := Prod.mk.inj h
    unfold createCartesian at hx
    split at hx
    · rw [← Option.some.inj hx]
    · cases hx
  · cases h

theorem TLayer.mods_tidy [Field F] (P : Cart) (l : TLayer F β) : ∀ m ∈ l.mods P, ModTidy m := by
  cases l with
  | map f df => simpa [TLayer.mods] using plain_tidy _
  | conv c cw cb C rgw B =>
    show ∀ m ∈ convMods c cw cb P C rgw B, ModTidy m
    unfold convMods
    split
    · simpa using plain_tidy _
    · cases C.bias with
      | none =>
        simp only [List.cons_append, List.nil_append, List.forall_mem_cons]
        exact ⟨setupM_tidy c P, plain_tidy _, bcast_tidy _ _ (par_tidy 0), plain_tidy _, plain_tidy _,
          by simp⟩
      | some b =>
        simp only [List.cons_append, List.nil_append, List.forall_mem_cons]
        exact ⟨setupM_tidy c P, plain_tidy _, bcast_tidy _ _ (par_tidy 0), plain_tidy _,
          bcast_tidy _ _ (par_tidy 1), plain_tidy _, plain_tidy _, by simp⟩
  | avg c Q B =>
    simp only [TLayer.mods, avgMods, List.forall_mem_cons]
    exact ⟨setupM_tidy c P, plain_tidy _, plain_tidy _, by simp⟩
  | flat => simpa [TLayer.mods] using plain_tidy _
  | rep c Py pb B =>
    simp only [TLayer.mods, repMods, List.forall_mem_cons]
    exact ⟨setupUnionM_tidy c P fun _ h => mem_groupUnion.2 (.inl h), plain_tidy _, by simp⟩
  | lin c cy A rgp weight bias => exact stack_tidy _ _ _ _ _
  | chan c cy C weight bias rgp Wt bi =>
    show ∀ m ∈ chanMods c cy C _ _ rgp, ModTidy m
    unfold chanMods
    rcases castPartitions true C.Px C.Py C.Pw with _ | ⟨x, y⟩
    · simpa using plain_tidy _
    · dsimp only
      split
      · simpa using plain_tidy _
      · exact stack_tidy _ _ _ _ _
  | gen c cw cb cx cy C weight bias rgp B Wt bi =>
    show ∀ m ∈ genMods c cw cb cx cy C _ _ rgp B, ModTidy m
    unfold genMods
    rcases hc : castPartitions false C.Px C.Py C.Pw with _ | ⟨x, y⟩
    · simpa using plain_tidy _
    · dsimp only
      split
      · simpa using plain_tidy _
      · rcases weightRoot C.Pw with _ | Pwr
        · simpa using plain_tidy _
        · rcases biasPart C.Pw with _ | Pb
          · simpa using plain_tidy _
          · rcases biasRoot C.Pw with _ | Pbr
            · simpa using plain_tidy _
            · dsimp only
              split
              · simp only [List.cons_append, List.nil_append, List.forall_mem_cons]
                exact ⟨setupPartM_tidy c x fun w hw => mem_groupUnion.2 (.inl (mem_groupUnion.2 (.inr (cast_members hc ▸ hw)))), plain_tidy _, plain_tidy _, plain_tidy _,
                  bcast_tidy _ _ (par_tidy 0), plain_tidy _, bcast_tidy _ _ (par_tidy 1), stack_tidy _ _ _ _ _⟩
              · simp only [List.cons_append, List.nil_append, List.forall_mem_cons]
                exact ⟨setupPartM_tidy c x fun w hw => mem_groupUnion.2 (.inl (mem_groupUnion.2 (.inr (cast_members hc ▸ hw)))), plain_tidy _, plain_tidy _, plain_tidy _,
                  bcast_tidy _ _ (par_tidy 0), stack_tidy _ _ _ _ _⟩

end Verif.Net
