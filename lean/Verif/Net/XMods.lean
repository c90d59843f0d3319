import Verif.Net.Decoder
import Verif.Net.Loop

/-!
# Networks with interpolation and batch norm that are called again and again: pieces of the layers

As `Verif.Net.Mods`.  The modules `sr`, `bc` and `bc_affine` of a batch norm are called twice in a forward pass, for the mean and
the variance, and for the two parameters (`batchnorm.py:130-159, 211-233`); so several pieces may share what a module keeps.
-/

namespace Verif.Net

variable {F β : Type}

/-! ## Interpolation does the same up to entries -/

section
variable [Field F] [LinearOrder F] [FloorRing F]

theorem upAt_like (P : Cart) (size : Option (List Nat)) (p : InterpParams F) (B : Bufs β) (w : Nat) {x y : NSt F}
    (e : x.bare = y.bare) : upAt P size p B x w = upAt P size p B y w := by
  unfold upAt
  rw [(bare_eq.1 e).2.2.2.1, (tensor_bare.1 (bare_eq.1 e).1).1]
  congr 1
  funext U
  rw [upPad_shape U y.t.shape x.t.val y.t.val]

theorem upExchange_like (c : Nat) (P : Cart) (size : Option (List Nat)) (p : InterpParams F) (B : Bufs β) :
    ProgLike (upExchange c P size p B) (upExchange c P size p B) := by
  refine .cons (local_like fun w x y e => ?_) (List.forall₂_same.2 fun ph hph => ?_)
  · split
    · rw [upAt_like P size p B w e]
      split
      · exact e
      · exact set_err e true
    · exact e
  · obtain ⟨d, -, rfl⟩ := List.mem_map.1 hph
    refine lift_like (fun _ _ => rfl) (fun _ _ => rfl) fun w x y e => ?_
    unfold upStep
    rw [upAt_like P size p B w e]

theorem upOp_like (P : Cart) (size : Option (List Nat)) (p : InterpParams F) : PhLike (upOpPhase P size p) (upOpPhase P size p) := by
  refine local_like fun w x y e => ?_
  split
  · have key : (upOp P size p x w).map Tensor.bare = (upOp P size p y w).map Tensor.bare := by
      unfold upOp
      rw [(bare_eq.1 e).2.2.2.1, (tensor_bare.1 (bare_eq.1 e).1).1, (tensor_bare.1 (bare_eq.1 e).1).2]
      rcases upSetup P size p y.info w with _ | U
      · rfl
      · simp only [Option.bind_some, upPad_shape U y.t.shape x.t.val y.t.val]
        unfold interpForward UpSetup.select
        dsimp only
        split
        · rfl
        · rfl
    rcases hx : upOp P size p x w with _ | a <;> rcases hy : upOp P size p y w with _ | b <;> rw [hx, hy] at key
    · exact set_err e true
    · cases key
    · cases key
    · exact set_ten e (Option.some.inj key)
  · exact e

end

/-! ## Pieces -/

section
variable [Field F]

/-- `nn/batchnorm.py`.  `_distdl_is_setup` stays false (`batchnorm.py:103-117`), so its setup is done in every call. -/
def normMods (c cs cb ca : Nat) (N : NormLayer F) : List (Mod F) :=
  [plainMod (joinProg c N.M.P (List.range N.M.P.shape.length) ++ [normCheckPhase N.M])] ++
  (if N.batch then
    [plainMod [normSumsPhase N.M], reduceMod cs N.M.sr (parLens 2), plainMod [normDivPhase N.M 2],
      bcastMod cb N.M.bc (parLens 2), plainMod [normSquaresPhase N.M], reduceMod cs N.M.sr (parLens 3),
      plainMod [normDivPhase N.M 3], bcastMod cb N.M.bc (parLens 3)] else []) ++
  [plainMod [normLoadPhase N], if N.M.affine then bcastMod ca N.M.bc (parLens 0) else plainMod [],
    if N.M.affine then bcastMod ca N.M.bc (parLens 1) else plainMod [], plainMod [normApplyPhase N]]

/-- The modules of the pieces: `sr` (0), `bc` (1), `bc_affine` (2), no module (3). -/
def normSlots (batch : Bool) : List Nat := if batch then [3, 3, 0, 3, 1, 3, 0, 3, 1, 3, 2, 2, 3] else [3, 3, 2, 2, 3]

theorem normMods_prog (c cs cb ca : Nat) (N : NormLayer F) : (normMods c cs cb ca N).map Mod.prog = normCuts c cs cb ca N := by
  unfold normMods normCuts bothCuts statCuts
  cases N.batch <;> cases N.M.affine <;>
    simp [plainMod_prog, bcastMod_prog, reduceMod_prog]

theorem normMods_tidy (c cs cb ca : Nat) (N : NormLayer F) : ∀ m ∈ normMods c cs cb ca N, ModTidy m := by
  have b : ∀ c i, ModTidy (bcastMod c N.M.bc (parLens i : Lens (NSt F) _)) := fun c i => bcast_tidy c _ (par_tidy i)
  have r : ∀ c i, ModTidy (reduceMod c N.M.sr (parLens i : Lens (NSt F) _)) := fun c i => reduce_tidy c _ (par_tidy i)
  unfold normMods
  cases N.batch <;> cases N.M.affine <;>
    simp only [List.cons_append, List.nil_append, if_true, Bool.false_eq_true, if_false, List.forall_mem_cons,
      List.not_mem_nil, false_implies, implies_true, plain_tidy, b, r, and_true]

variable [LinearOrder F] [FloorRing F]

/-- The pieces of a layer. -/
def XLayer.mods (P : Cart) : XLayer F β → List (Mod F)
  | .base l => l.mods P
  | .up c size p B _ =>
    [setupMod P.members (setupProg c P), plainMod (upExchange c P size p B), plainMod [upOpPhase P size p]]
  | .norm c cs cb ca N _ _ _ => normMods c cs cb ca N

omit [Field F] [LinearOrder F] [FloorRing F] in
/-- The number of the module of piece `k`. -/
def XLayer.slot : XLayer F β → Nat → Nat
  | .base _ => id
  | .up _ _ _ _ _ => id
  | .norm _ _ _ _ N _ _ _ => fun k => (normSlots N.batch).getD k 3

omit [Field F] [LinearOrder F] [FloorRing F] in
/-- `Module.train` / `Module.eval`: only batch norm looks at it (`batchnorm.py:209-219`). -/
def XLayer.inMode (tr : Bool) : XLayer F β → XLayer F β
  | .norm c cs cb ca N sq gamma beta => .norm c cs cb ca { N with training := tr } sq gamma beta
  | l => l

omit [Field F] [LinearOrder F] [FloorRing F] in
/-- The layer with the parameters `θ` the workers have at the moment.  Batch norm: `gamma` (0), `beta` (1), and the running mean
(2) and variance (3). -/
def XLayer.withPar (P : Cart) (θ : Nat → Nat → Tensor F) : XLayer F β → XLayer F β
  | .base l => .base (l.withPar P θ)
  | .up c size p B gy => .up c size p B gy
  | .norm c cs cb ca N sq gamma beta => .norm c cs cb ca { N with
      st := fun w => ⟨θ w 2, θ w 3, (N.st w).seen⟩
      g := fun w => θ w 0
      b := fun w => θ w 1 } sq gamma beta

theorem XLayer.mods_prog (P : Cart) (l : XLayer F β) : (l.mods P).map Mod.prog = l.cuts P := by
  cases l with
  | base l => exact l.mods_prog P
  | up c size p B gy => simp only [mods, cuts, upCuts, List.map_cons, List.map_nil, setupMod_prog, plainMod_prog]
  | norm c cs cb ca N sq gamma beta => exact normMods_prog c cs cb ca N

theorem XLayer.mods_tidy (P : Cart) (l : XLayer F β) : ∀ m ∈ l.mods P, ModTidy m := by
  cases l with
  | base l => exact l.mods_tidy P
  | up c size p B gy =>
    intro m hm
    rcases List.mem_cons.1 hm with rfl | hm
    · exact setupM_tidy c P
    · rcases List.mem_cons.1 hm with rfl | hm
      · exact plain_tidy _
      · rw [List.mem_singleton.1 hm]
        exact plain_tidy _
  | norm c cs cb ca N sq gamma beta => exact normMods_tidy c cs cb ca N

omit [Field F] [LinearOrder F] [FloorRing F] in
theorem XLayer.out_withPar (P : Cart) (l : XLayer F β) (θ : Nat → Nat → Tensor F) : (l.withPar P θ).out P = l.out P := by
  cases l with
  | base l => exact l.out_withPar P θ
  | up | norm => rfl

omit [Field F] [LinearOrder F] [FloorRing F] in
theorem XLayer.out_inMode (P : Cart) (l : XLayer F β) (tr : Bool) : (l.inMode tr).out P = l.out P := by
  cases l <;> rfl

theorem XLayer.mods_size (P : Cart) (l : XLayer F β) (θ : Nat → Nat → Tensor F) :
    List.Forall₂ ModSize (l.mods P) ((l.withPar P θ).mods P) := by
  cases l with
  | base l => exact l.mods_size P θ
  | up c size p B gy => exact sizes_refl _
  | norm c cs cb ca N sq gamma beta =>
    show List.Forall₂ ModSize (normMods c cs cb ca _) (normMods c cs cb ca _)
    unfold normMods
    refine List.rel_append (sizes_refl _) (.cons ⟨rfl, rfl, rfl, rfl, rfl⟩ (sizes_refl _))

omit [Field F] [LinearOrder F] [FloorRing F] in
/-- The parameters of a feature-distributed convolution have the same type on all workers. -/
def XLayer.OneType (P : Cart) (θ : Nat → Nat → Tensor F) : XLayer F β → Prop
  | .base l => l.OneType P θ
  | _ => True

theorem XLayer.mods_at (P : Cart) (l : XLayer F β) {θ : Nat → Nat → Tensor F} (h : l.OneType P θ) (w : Nat) :
    List.Forall₂ (ModAt w) ((l.withPar P fun _ => θ w).mods P) ((l.withPar P θ).mods P) := by
  cases l with
  | base l => exact l.mods_at P h w
  | up c size p B gy => exact modsAt_refl w _
  | norm c cs cb ca N sq gamma beta =>
    show List.Forall₂ (ModAt w) (normMods c cs cb ca _) (normMods c cs cb ca _)
    unfold normMods
    exact List.rel_append (modsAt_refl w _) (.cons (plain_at (local_at rfl)) (modsAt_refl w _))

/-- Piece number `j` of the forward pass of a layer, with the parameters `θ` of a worker. -/
def XLayer.modAt (P : Cart) (l : XLayer F β) (j : Nat) (θ : Nat → Tensor F) : Mod F :=
  (((l.withPar P fun _ => θ).mods P)[j]?).getD (plainMod [])

/-- The pieces of the forward pass of a layer, for all values of the parameters. -/
def XLayer.cmods (P : Cart) (l : XLayer F β) : List (CMod F) := (List.range (l.mods P).length).map fun j =>
  let m := ((l.mods P)[j]?).getD (plainMod [])
  ⟨m.key, m.act, m.part, family (fun θ => (l.modAt P j θ).setup) m.setup.length, family (fun θ => (l.modAt P j θ).rest) m.rest.length⟩

theorem XLayer.resolves (P : Cart) (l : XLayer F β) {T : Nat → Nat → Tensor F} (h : l.OneType P T) :
    List.Forall₂ (Resolves T) (l.cmods P) ((l.withPar P T).mods P) := by
  have hl := (l.mods_size P T).length_eq
  refine List.forall₂_iff_get.2 ⟨by simp [XLayer.cmods, hl], fun k h1 h2 => ?_⟩
  have hk : k < (l.mods P).length := hl ▸ h2
  have sz : ModSize ((l.mods P)[k]) (((l.withPar P T).mods P)[k]) := List.Forall₂.get (l.mods_size P T) hk h2
  have at' : ∀ u, ModAt u (l.modAt P k (T u)) (((l.withPar P T).mods P)[k]) := by
    intro u
    have hu := l.mods_at P h u
    have hku : k < ((l.withPar P fun _ => T u).mods P).length := hu.length_eq ▸ h2
    have : l.modAt P k (T u) = ((l.withPar P fun _ => T u).mods P)[k] := by
      unfold XLayer.modAt
      rw [List.getElem?_eq_getElem hku, Option.getD_some]
    rw [this]
    exact List.Forall₂.get hu hku h2
  have e : (l.cmods P).get ⟨k, h1⟩ = ⟨((l.mods P)[k]).key, ((l.mods P)[k]).act, ((l.mods P)[k]).part, family (fun θ => (l.modAt P k θ).setup) ((l.mods P)[k]).setup.length,
      family (fun θ => (l.modAt P k θ).rest) ((l.mods P)[k]).rest.length⟩ := by
    simp [XLayer.cmods, List.getElem?_eq_getElem hk]
  rw [e]
  exact ⟨sz.key, sz.act, sz.part, family_at _ sz.setup fun u => (at' u).setup, family_at _ sz.rest fun u => (at' u).rest⟩

end

/-! ## Calls -/

/-- Calls of the pieces `k`, `k + 1`, … of layer `i`; piece `k` belongs to module `σ k` of the layer. -/
def callSlots (i : Nat) (σ : Nat → Nat) : Nat → List (CMod F) → Prog (LSt F) (NMsg F)
  | _, [] => []
  | k, m :: ms => callMod i (Nat.pair i (σ k)) m ++ callSlots i σ (k + 1) ms

/-- Every setup finds what `K` says. -/
def Canon (σ : Nat → Nat) (K : Nat → Nat → Option Mem) : Nat → List (Mod F) → (Nat → NSt F) → Prop
  | _, [], _ => True
  | k, m :: ms, S => memOf m S = K (σ k) ∧ Canon σ K (k + 1) ms (run m.prog S)

/-- Nothing is kept, or what `mem` says. -/
def OneOf (mem : Nat → Option Mem) (old : Nat → Option Mem) : Prop := old = (fun _ => none) ∨ old = mem

theorem OneOf.decides {mem old : Nat → Option Mem} (h : OneOf mem old) : Decides old mem := by
  rcases h with rfl | rfl
  · exact decides_first mem
  · exact Decides.refl _

theorem callSlots_run {W : List Nat} {T : Nat → Nat → Tensor F} {i : Nat} {σ : Nat → Nat} {K : Nat → Nat → Option Mem}
    {cms : List (CMod F)} {ms : List (Mod F)} (hm : List.Forall₂ (Resolves T) cms ms) (ht : ∀ m ∈ ms, ModTidy m) :
    ∀ (k : Nat) (C : Nat → LSt F), (∀ u, (C u).θ i = T u) → ProgOK W (ms.map Mod.prog).flatten (fun u => (C u).b.s) →
    Canon σ K k ms (fun u => (C u).b.s) → (∀ q, OneOf (K q) fun u => (C u).cache (Nat.pair i q)) →
    (∀ u, (C u).cold = false) →
    ProgOK W (callSlots i σ k cms) C ∧ ∃ cache : Nat → Nat → Option Mem,
      (∀ u, run (callSlots i σ k cms) C u = { C u with
        b := ⟨run (ms.map Mod.prog).flatten (fun u => (C u).b.s) u,
          snaps (ms.map Mod.prog) (fun u => (C u).b.s) u ++ (C u).b.tape, (C u).b.grads⟩
        cache := cache u }) ∧
      (∀ q, OneOf (K q) fun u => cache u (Nat.pair i q)) ∧
      ∀ u q, (∀ r, q ≠ Nat.pair i r) → cache u q = (C u).cache q := by
  induction hm with
  | nil => exact fun k C _ _ _ hc _ => ⟨trivial, fun u => (C u).cache, fun _ => rfl, hc, fun _ _ _ => rfl⟩
  | @cons cm m cms ms h1 _ ih =>
    intro k C hT hok hC hc hcold
    rw [List.map_cons, List.flatten_cons, progOK_append] at hok
    obtain ⟨a1, a2⟩ := callMod_run (W := W) i (Nat.pair i (σ k)) C (cm := cm) (m := m) (by simpa only [hT] using h1)
      (ht m List.mem_cons_self) hok.1 (by rw [hC.1]; exact (hc _).decides) hcold
    obtain ⟨D, hD⟩ : ∃ D, D = run (callMod i (Nat.pair i (σ k)) cm) C := ⟨_, rfl⟩
    rw [← hD] at a2
    have eS : (fun u => (D u).b.s) = run m.prog fun u => (C u).b.s := by funext u; rw [a2 u]
    obtain ⟨b1, cache, b2, b3, b4⟩ := ih (fun m hm => ht m (List.mem_cons_of_mem _ hm)) (k + 1) D
      (fun u => by rw [a2 u]; exact hT u) (by rw [eS]; exact hok.2) (by rw [eS]; exact hC.2) (fun q => by
        by_cases e : q = σ k
        · refine .inr ?_
          funext u
          rw [a2 u, e]
          show (if _ then _ else _) = _
          rw [if_pos rfl, hC.1]
        · have : (fun u => (D u).cache (Nat.pair i q)) = fun u => (C u).cache (Nat.pair i q) := by
            funext u
            rw [a2 u]
            exact if_neg fun h => e (Nat.pair_eq_pair.1 h).2
          rw [this]
          exact hc q) fun u => by rw [a2 u]; exact hcold u
    refine ⟨?_, cache, fun u => ?_, b3, fun u q hq => ?_⟩
    · show ProgOK W (callMod i _ cm ++ callSlots i σ (k + 1) cms) C
      rw [progOK_append, ← hD]
      exact ⟨a1, b1⟩
    · show run (callMod i _ cm ++ callSlots i σ (k + 1) cms) C u = _
      rw [run_append, ← hD, b2, eS, a2 u, List.map_cons, List.flatten_cons, run_append, snaps, List.append_assoc]
      rfl
    · rw [b4 u q hq, a2 u]
      exact if_neg (hq _)

/-- Pieces that all belong to different modules. -/
theorem canon_mems (ms : List (Mod F)) : ∀ (k : Nat) (S : Nat → NSt F) (K : Nat → Nat → Option Mem),
    (∀ j mem, (memsOf ms S)[j]? = some mem → K (k + j) = mem) → Canon id K k ms S := by
  induction ms with
  | nil => exact fun _ _ _ _ => trivial
  | cons m ms ih =>
    refine fun k S K h => ⟨(h 0 _ rfl).symm, ih (k + 1) _ K fun j mem hj => ?_⟩
    rw [Nat.add_assoc, Nat.add_comm 1 j]
    exact h (j + 1) mem hj

end Verif.Net
