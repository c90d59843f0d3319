import Verif.Net.Cache

/-!
# Networks that are called again and again

All layers of a network with the parameters the workers have at the moment, forward passes with what the modules have kept
(`Verif.Net.Cache`), and backward passes.
-/

namespace Verif.Net

variable {F β : Type}

section
variable [Field F]

/-! ## The pieces of a layer -/

/-- Two pieces with the same key and the same numbers of phases. -/
structure ModSize (m m' : Mod F) : Prop where
  key : m.key = m'.key
  act : m.act = m'.act
  part : m.part = m'.part
  setup : m.setup.length = m'.setup.length
  rest : m.rest.length = m'.rest.length

omit [Field F] in
theorem sizes_refl (ms : List (Mod F)) : List.Forall₂ ModSize ms ms := List.forall₂_same.2 fun _ _ => ⟨rfl, rfl, rfl, rfl, rfl⟩

theorem TLayer.mods_size (P : Cart) (l : TLayer F β) (θ : Nat → Nat → Tensor F) :
    List.Forall₂ ModSize (l.mods P) ((l.withPar P θ).mods P) := by
  have one : ∀ ph ph' : Nat → NSt F → Phase (NSt F) (NMsg F), ModSize (plainMod [ph]) (plainMod [ph']) :=
    fun _ _ => ⟨rfl, rfl, rfl, rfl, rfl⟩
  have same : ∀ m : Mod F, ModSize m m := fun _ => ⟨rfl, rfl, rfl, rfl, rfl⟩
  cases l with
  | map f df => exact sizes_refl _
  | conv c cw cb C rgw B =>
    show List.Forall₂ ModSize (convMods c cw cb P _ rgw B) (convMods c cw cb P _ rgw B)
    unfold convMods
    split
    · exact .cons (one _ _) .nil
    · refine .cons (same _) (.cons (one _ _) (.cons (same _) ?_))
      cases C.bias with
      | none => exact .cons (same _) (.cons (one _ _) .nil)
      | some b => exact .cons (one _ _) (.cons (same _) (.cons (same _) (.cons (one _ _) .nil)))
  | avg c Q B => exact sizes_refl _
  | flat => exact sizes_refl _
  | rep c Py pb B => exact sizes_refl _
  | lin c cy A rgp weight bias => exact .cons (same _) (.cons (one _ _) (.cons (same _) .nil))
  | chan c cy C weight bias rgp Wt bi =>
    show List.Forall₂ ModSize (chanMods c cy C _ _ rgp) (chanMods c cy C _ _ rgp)
    unfold chanMods
    rcases castPartitions true C.Px C.Py C.Pw with _ | ⟨x, y⟩
    · exact sizes_refl _
    · dsimp only
      split
      · exact .cons ⟨rfl, rfl, rfl, rfl, rfl⟩ .nil
      · exact .cons (same _) (.cons (one _ _) (.cons (same _) .nil))
  | gen c cw cb cx cy C weight bias rgp B Wt bi =>
    show List.Forall₂ ModSize (genMods c cw cb cx cy C _ _ rgp B) (genMods c cw cb cx cy C _ _ rgp B)
    unfold genMods
    rcases castPartitions false C.Px C.Py C.Pw with _ | ⟨x, y⟩
    · exact sizes_refl _
    · dsimp only
      split
      · exact .cons ⟨rfl, rfl, rfl, rfl, rfl⟩ .nil
      · rcases weightRoot C.Pw with _ | Pwr
        · exact sizes_refl _
        · rcases biasPart C.Pw with _ | Pb
          · exact sizes_refl _
          · rcases biasRoot C.Pw with _ | Pbr
            · exact sizes_refl _
            · refine .cons (same _) (.cons (same _) (.cons (same _) (.cons (one _ _) (.cons (same _) ?_))))
              split
              · exact .cons (one _ _) (.cons (same _) (sizes_refl _))
              · exact sizes_refl _

/-- Piece number `j` of the forward pass of a layer, with the parameters `θ` of a worker. -/
def TLayer.modAt (P : Cart) (l : TLayer F β) (j : Nat) (θ : Nat → Tensor F) : Mod F :=
  (((l.withPar P fun _ => θ).mods P)[j]?).getD (plainMod [])

/-- The pieces of the forward pass of a layer, for all values of the parameters. -/
def TLayer.cmods (P : Cart) (l : TLayer F β) : List (CMod F) := (List.range (l.mods P).length).map fun j =>
  let m := ((l.mods P)[j]?).getD (plainMod [])
  ⟨m.key, m.act, m.part, family (fun θ => (l.modAt P j θ).setup) m.setup.length, family (fun θ => (l.modAt P j θ).rest) m.rest.length⟩

theorem TLayer.resolves (P : Cart) (l : TLayer F β) {T : Nat → Nat → Tensor F} (h : l.OneType P T) :
    List.Forall₂ (Resolves T) (l.cmods P) ((l.withPar P T).mods P) := by
  have hl := (l.mods_size P T).length_eq
  refine List.forall₂_iff_get.2 ⟨by simp [TLayer.cmods, hl], fun k h1 h2 => ?_⟩
  have hk : k < (l.mods P).length := hl ▸ h2
  have sz : ModSize ((l.mods P)[k]) (((l.withPar P T).mods P)[k]) := List.Forall₂.get (l.mods_size P T) hk h2
  have at' : ∀ u, ModAt u (l.modAt P k (T u)) (((l.withPar P T).mods P)[k]) := by
    intro u
    have hu := l.mods_at P h u
    have hku : k < ((l.withPar P fun _ => T u).mods P).length := hu.length_eq ▸ h2
    have : l.modAt P k (T u) = ((l.withPar P fun _ => T u).mods P)[k] := by
      unfold TLayer.modAt
      rw [List.getElem?_eq_getElem hku, Option.getD_some]
    rw [this]
    exact List.Forall₂.get hu hku h2
  have e : (l.cmods P).get ⟨k, h1⟩ = ⟨((l.mods P)[k]).key, ((l.mods P)[k]).act, ((l.mods P)[k]).part, family (fun θ => (l.modAt P k θ).setup) ((l.mods P)[k]).setup.length,
      family (fun θ => (l.modAt P k θ).rest) ((l.mods P)[k]).rest.length⟩ := by
    simp [TLayer.cmods, List.getElem?_eq_getElem hk]
  rw [e]
  exact ⟨sz.key, sz.act, sz.part, family_at _ sz.setup fun u => (at' u).setup, family_at _ sz.rest fun u => (at' u).rest⟩

/-! ## The pieces of a network -/

/-- The network with the parameters the workers have at the moment; `T w i p` is parameter `p` of layer `i` on worker `w`. -/
def netWith (P : Cart) (T : Nat → Nat → Nat → Tensor F) : Nat → List (TLayer F β) → List (TLayer F β)
  | _, [] => []
  | i, l :: ls => l.withPar P (fun w => T w i) :: netWith (l.out P) T (i + 1) ls

/-- The pieces of the forward pass of a network. -/
def netMods (P : Cart) : List (TLayer F β) → List (Mod F)
  | [] => []
  | l :: ls => l.mods P ++ netMods (l.out P) ls

/-- The pieces with the numbers of their layers, for all values of the parameters. -/
def netPieces (P : Cart) : Nat → List (TLayer F β) → List (Nat × CMod F)
  | _, [] => []
  | i, l :: ls => (l.cmods P).map (fun m => (i, m)) ++ netPieces (l.out P) (i + 1) ls

/-- The parameters of each feature-distributed convolution have the same type on all workers. -/
def OneTypes (P : Cart) (T : Nat → Nat → Nat → Tensor F) : Nat → List (TLayer F β) → Prop
  | _, [] => True
  | i, l :: ls => l.OneType P (fun w => T w i) ∧ OneTypes (l.out P) T (i + 1) ls

theorem netMods_prog (ls : List (TLayer F β)) : ∀ P, (netMods P ls).map Mod.prog = netCuts P ls := by
  induction ls with
  | nil => exact fun _ => rfl
  | cons l ls ih =>
    intro P
    show (l.mods P ++ netMods (l.out P) ls).map Mod.prog = l.cuts P ++ netCuts (l.out P) ls
    rw [List.map_append, l.mods_prog P, ih]

theorem netMods_tidy (ls : List (TLayer F β)) : ∀ P, ∀ m ∈ netMods P ls, ModTidy m := by
  induction ls with
  | nil => exact fun _ m h => by cases h
  | cons l ls ih => exact fun P m h => (List.mem_append.1 h).elim (l.mods_tidy P m) (ih _ m)

theorem netPieces_resolve {T : Nat → Nat → Nat → Tensor F} (ls : List (TLayer F β)) : ∀ P i, OneTypes P T i ls →
    List.Forall₂ (fun c m => Resolves (fun u => T u c.1) c.2 m) (netPieces P i ls) (netMods P (netWith P T i ls)) := by
  induction ls with
  | nil => exact fun _ _ _ => .nil
  | cons l ls ih =>
    intro P i h
    show List.Forall₂ _ (_ ++ _) (TLayer.mods P _ ++ netMods (TLayer.out P _) _)
    rw [TLayer.out_withPar]
    have h1 : List.Forall₂ (fun (c : Nat × CMod F) m => Resolves (fun u => T u c.1) c.2 m)
        ((l.cmods P).map fun m => (i, m)) ((l.withPar P fun w => T w i).mods P) :=
      List.forall₂_map_left_iff.2 (l.resolves P h.1)
    exact List.rel_append h1 (ih _ _ h.2)

theorem netMods_like {T T' : Nat → Nat → Nat → Tensor F} (h : ∀ w i p, (T w i p).bare = (T' w i p).bare)
    (ls : List (TLayer F β)) : ∀ P i, List.Forall₂ ModLike (netMods P (netWith P T i ls)) (netMods P (netWith P T' i ls)) := by
  induction ls with
  | nil => exact fun _ _ => .nil
  | cons l ls ih =>
    intro P i
    show List.Forall₂ _ (TLayer.mods P _ ++ netMods (TLayer.out P _) _) (TLayer.mods P _ ++ netMods (TLayer.out P _) _)
    rw [TLayer.out_withPar, TLayer.out_withPar]
    exact List.rel_append (TLayer.mods_like P l fun w p => h w i p) (ih _ _)

/-! ## Backward passes -/

theorem convParGrad_with (C : ConvLayer F) (a : Tensor F) (b : Tensor F → Tensor F) :
    convParGrad { C with weight := a, bias := C.bias.map b } = convParGrad C := by
  funext V A I y p i
  unfold convParGrad
  simp only [Option.isSome_map]

/-- The adjoint of a worker, cut. -/
theorem TLayer.segs_at (P : Cart) (l : TLayer F β) {θ : Nat → Nat → Tensor F} (w : Nat) :
    List.Forall₂ (fun s s' => s.1 = s'.1 ∧ CProgAt w s.2 s'.2) ((l.withPar P fun _ => θ w).segs P) ((l.withPar P θ).segs P) := by
  have refl : ∀ ss : List (Bool × CProg (List (NSt F)) (NSt F) (NMsg F)),
      List.Forall₂ (fun s s' => s.1 = s'.1 ∧ CProgAt w s.2 s'.2) ss ss :=
    fun ss => List.forall₂_same.2 fun s _ => ⟨rfl, CProgAt.refl _ _⟩
  have stack : ∀ (c cy : Nat) (Lx Ly : PairLayer) {op op' : Nat → NSt F → NSt F → NSt F}, op w = op' w →
      List.Forall₂ (fun s s' => s.1 = s'.1 ∧ CProgAt w s.2 s'.2) (stackSegs c cy Lx Ly op) (stackSegs c cy Lx Ly op') :=
    fun c cy Lx Ly _ _ h => .cons ⟨rfl, List.rel_append (CProgAt.refl _ _) (.cons (fun T => opBack_at (fun _ => h) T) .nil)⟩
      (refl _)
  cases l with
  | map f df => exact refl _
  | conv c cw cb C rgw B =>
    simp only [withPar, segs, convParGrad_with]
    split
    · next h1 =>
      refine .cons ⟨rfl, .cons (fun T => local_at ?_) .nil⟩ .nil
      by_cases hw : w ∈ P.members
      · rw [eq_root h1 hw]
      · simp only [if_neg hw]
    · cases C.bias with
      | none => exact refl _
      | some b => exact refl _
  | avg c Q B => exact refl _
  | flat => exact refl _
  | rep c Py pb B => exact refl _
  | lin c cy A rgp weight bias => exact stack c cy _ _ rfl
  | chan c cy C weight bias rgp Wt bi =>
    simp only [withPar, segs]
    rcases castPartitions true C.Px C.Py C.Pw with _ | ⟨x, y⟩
    · exact refl _
    · dsimp only
      split
      · exact .cons ⟨rfl, .cons (fun T => opBack_at (fun _ => rfl) T) .nil⟩ .nil
      · exact stack c cy _ _ rfl
  | gen c cw cb cx cy C weight bias rgp B Wt bi =>
    simp only [withPar, segs]
    rcases castPartitions false C.Px C.Py C.Pw with _ | ⟨x, y⟩
    · exact refl _
    · dsimp only
      split
      · exact .cons ⟨rfl, .cons (fun T => opBack_at (fun _ => rfl) T) .nil⟩ .nil
      · exact refl _

/-- The same on worker `w`. -/
abbrev BProgAt (w : Nat) (p p' : Prog (BSt F) (NMsg F)) : Prop := List.Forall₂ (fun ph ph' => ph w = ph' w) p p'

omit [Field F] in
theorem backProg_at {w : Nat} {p p' : CProg (List (NSt F)) (NSt F) (NMsg F)} (h : CProgAt w p p') :
    BProgAt w (backProg p) (backProg p') := by
  unfold backProg BProgAt
  rw [List.forall₂_map_left_iff, List.forall₂_map_right_iff]
  refine h.imp fun {ph ph'} e => ?_
  funext x
  simp only [ctxPhase, e]

theorem drop_at (P : Cart) (l : TLayer F β) {θ : Nat → Nat → Tensor F} (w : Nat) :
    BProgAt (F := F) w [dropPhase ((l.withPar P fun _ => θ w).cuts P).length ((l.withPar P fun _ => θ w).has P)]
      [dropPhase ((l.withPar P θ).cuts P).length ((l.withPar P θ).has P)] := by
  have e : ∀ θ', ((l.withPar P θ').cuts P).length = (l.cuts P).length := fun θ' => by
    rw [← TLayer.mods_prog, ← TLayer.mods_prog, List.length_map, List.length_map, (l.mods_size P θ').length_eq]
  rw [e, e, TLayer.has_withPar, TLayer.has_withPar]
  exact .cons rfl .nil

theorem netBack_at {T : Nat → Nat → Nat → Tensor F} (w : Nat) (ls : List (TLayer F β)) : ∀ P i,
    BProgAt w (netBack P (netWith P (fun _ => T w) i ls)) (netBack P (netWith P T i ls)) := by
  induction ls with
  | nil => exact fun _ _ => .nil
  | cons l ls ih =>
    intro P i
    show BProgAt w (netBack (TLayer.out P _) _ ++ TLayer.back P _) (netBack (TLayer.out P _) _ ++ TLayer.back P _)
    rw [TLayer.out_withPar, TLayer.out_withPar]
    exact List.rel_append (ih _ _) (List.rel_append
      (backProg_at (l.adj_at P (θ := fun w => T w i) w)) (drop_at P l (θ := fun w => T w i) w))

omit [Field F] in
theorem plain_withPar (P : Cart) (l : TLayer F β) (θ : Nat → Nat → Tensor F) : (l.withPar P θ).plain = l.plain := by
  cases l <;> rfl

omit [Field F] in
theorem closeSegs_at {w : Nat} {ss ss' : List (Bool × CProg (List (NSt F)) (NSt F) (NMsg F))}
    (h : List.Forall₂ (fun s s' => s.1 = s'.1 ∧ CProgAt w s.2 s'.2) ss ss') : CProgAt w (closeSegs ss) (closeSegs ss') := by
  unfold closeSegs
  induction h with
  | nil => exact .nil
  | @cons s s' ss ss' h _ ih' =>
    rw [List.flatMap_cons, List.flatMap_cons]
    refine List.rel_append ?_ ih'
    rw [h.1]
    split
    · unfold CProg.skip
      rw [List.forall₂_map_left_iff, List.forall₂_map_right_iff]
      exact h.2.imp fun _ _ _ _ => rfl
    · exact h.2

theorem deadBack_at {T : Nat → Nat → Nat → Tensor F} (w : Nat) (ls : List (TLayer F β)) : ∀ P i,
    BProgAt w (deadBack P (netWith P (fun _ => T w) i ls)) (deadBack P (netWith P T i ls)) := by
  induction ls with
  | nil => exact fun _ _ => .nil
  | cons l ls ih =>
    intro P i
    simp only [netWith, deadBack, plain_withPar, TLayer.out_withPar]
    refine List.rel_append ?_ (List.rel_append (backProg_at ?_) (drop_at P l (θ := fun w => T w i) w))
    · split
      · exact ih _ _
      · exact netBack_at w ls _ _
    · have := l.segs_at P (θ := fun w => T w i) w
      exact closeSegs_at this

omit [Field F] in
theorem owns_withPar (P : Cart) (l : TLayer F β) (θ : Nat → Nat → Tensor F) : (l.withPar P θ).owns P = l.owns P := by
  cases l <;> rfl

omit [Field F] in
theorem covers_with {W : List Nat} {T : Nat → Nat → Nat → Tensor F} (ls : List (TLayer F β)) : ∀ P i,
    Covers W P (netWith P T i ls) ↔ Covers W P ls := by
  induction ls with
  | nil => exact fun _ _ => Iff.rfl
  | cons l ls ih =>
    intro P i
    simp only [netWith, Covers, plain_withPar, owns_withPar, TLayer.out_withPar]
    split
    · exact ih _ _
    · exact Iff.rfl

theorem stackSegs_size (c cy : Nat) (Lx Ly : PairLayer) (op op' : Nat → NSt F → NSt F → NSt F) :
    (stackSegs c cy Lx Ly op).map (fun s => (s.1, s.2.length)) = (stackSegs c cy Lx Ly op').map fun s => (s.1, s.2.length) := by
  simp [stackSegs]

/-- The numbers of phases of the adjoint. -/
theorem TLayer.segs_size (P : Cart) (l : TLayer F β) (θ : Nat → Nat → Tensor F) :
    ((l.withPar P θ).segs P).map (fun s => (s.1, s.2.length)) = (l.segs P).map fun s => (s.1, s.2.length) := by
  cases l with
  | map | avg | flat | rep => rfl
  | conv c cw cb C rgw B =>
    simp only [withPar, segs]
    split
    · simp
    · cases C.bias <;> simp
  | lin c cy A rgp weight bias => exact stackSegs_size c cy A.xBroadcast A.ySumReduce _ _
  | chan c cy C weight bias rgp Wt bi =>
    simp only [withPar, segs]
    rcases castPartitions true C.Px C.Py C.Pw with _ | ⟨x, y⟩
    · simp
    · dsimp only
      split
      · simp [serialConvBack]
      · exact stackSegs_size ..
  | gen c cw cb cx cy C weight bias rgp B Wt bi =>
    simp only [withPar, segs]
    rcases castPartitions false C.Px C.Py C.Pw with _ | ⟨x, y⟩
    · simp
    · dsimp only
      split
      · simp [serialConvBack]
      · rcases weightRoot C.Pw with _ | Pwr
        · simp
        · rcases biasPart C.Pw with _ | Pb
          · simp
          · rcases biasRoot C.Pw with _ | Pbr
            · simp
            · simp

/-- The number of phases of the backward pass does not depend on the parameters. -/
theorem netBackL_size {T : Nat → Nat → Nat → Tensor F} (ls : List (TLayer F β)) : ∀ P i live,
    (netBackL P live (netWith P T i ls)).length = (netBackL P live ls).length := by
  have key : ∀ (ss : List (Bool × CProg (List (NSt F)) (NSt F) (NMsg F))) (f : Bool → Nat → Bool),
      (backProg (ss.flatMap fun s => CProg.gate (f s.1) s.2)).length = ((ss.map fun s => (s.1, s.2.length)).map Prod.snd).sum := by
    intro ss f
    simp only [backProg, List.length_map, List.length_flatMap, CProg.gate, List.map_map]
    rfl
  induction ls with
  | nil => exact fun _ _ _ => rfl
  | cons l ls ih =>
    intro P i live
    have e : ((l.withPar P fun w => T w i).liveOut P live) = l.liveOut P live := by
      funext w
      simp only [TLayer.liveOut, owns_withPar]
    simp only [netWith, netBackL, List.length_append, TLayer.out_withPar, e, ih, TLayer.backL, List.length_singleton]
    have k1 := key (l.segs P) fun b => if b = true then live else l.liveOut P live
    have k2 := key ((l.withPar P fun w => T w i).segs P) fun b => if b = true then live else l.liveOut P live
    rw [TLayer.segs_size] at k2
    rw [k1, k2]

end

end Verif.Net
