import Verif.Net.Lift
import Verif.Partition.Props
import Verif.Decomp.Model
import Verif.Repartition.Setup
import Verif.Collective.Model

/-!
# Networks: local data of a worker, and the setup of layers

What a worker keeps during a forward pass, and the exchange of tensor structures in `_distdl_module_setup`
(`tensor_comm.py:97-146` `assemble_global_tensor_structure`, `mpi/tensor_decomposition.py:4-53`
`compute_subtensor_shapes_unbalanced`) as phases of the network machine.

Simplification: a worker passes on its whole structure (shape, dtype, `requires_grad`) in every one of these
collectives, where the code passes on the part it needs; `broadcast_data` (`partition.py:759-836`), which consists of
several broadcasts over the same communicator, is one broadcast here.
-/

namespace Verif.Net

/-- Structure of a tensor: shape, type, `requires_grad`. -/
abbrev Info := List Nat × TorchDtype × Bool

/-- Of a worker about which nothing is known. -/
def noInfo : Info := ([], .float32, false)

/-- Local data of a worker. -/
structure NSt (F : Type) where
  /-- the tensor passed from layer to layer -/
  t : Tensor F
  /-- its `requires_grad` -/
  rg : Bool
  /-- an exception was raised -/
  err : Bool
  /-- structures of the inputs of the other workers, as far as known -/
  info : Nat → Info
  /-- structure received by a broadcast -/
  str : Info
  /-- the arrays a layer works with -/
  arr : XSt F
  /-- weights and biases, with their `requires_grad` -/
  par : Nat → Tensor F × Bool

/-- Messages. -/
inductive NMsg (F : Type)
  | none
  | info (f : Nat → Info)
  | arr (a : List Nat → F)
  | call (c : Call F)

variable {F : Type}

/-- The structure of the worker's tensor. -/
def NSt.own (x : NSt F) : Info := (x.t.shape, x.t.dtype, x.rg)

/-- The array a halo exchange works on. -/
def inpLens : Lens (NSt F) (List Nat → F) where
  get x := x.arr.inp
  set y x := { x with arr := { x.arr with inp := y } }
  get_set _ _ := rfl
  set_get _ := rfl
  set_set _ _ _ := rfl

/-- The two arrays a repartition works on. -/
def arrLens : Lens (NSt F) (XSt F) where
  get x := x.arr
  set y x := { x with arr := y }
  get_set _ _ := rfl
  set_get _ := rfl
  set_set _ _ _ := rfl

/-- Arrays as messages. -/
def arrInj : Inj (List Nat → F) (NMsg F) where
  inj a := .arr a
  prj m := match m with
    | .arr a => some a
    | _ => none
  prj_inj _ := rfl

/-! ## Setup -/

/-- Everybody in the group of `w` hears of the structures of the others (`Allreduce`). -/
def gatherPhase (c : Nat) (act : Nat → Bool) (grp : Nat → List Nat) : Nat → NSt F → Phase (NSt F) (NMsg F) :=
  collPhase c act grp (fun _ x => .info fun _ => x.own) grp fun w ms x =>
    { x with info := fun v => if v ∈ grp w then
        match ms[(grp w).idxOf v]? with
        | some (.info f) => f v
        | _ => noInfo
      else noInfo }

/-- `MPI_Cart_sub`: collective, without data.  Nobody gets the new communicator before all have asked for it. -/
def subPhase (c : Nat) (P : Cart) : Nat → NSt F → Phase (NSt F) (NMsg F) :=
  collPhase c (fun w => decide (w ∈ P.members)) (fun _ => P.members) (fun _ _ => .none) (fun _ => P.members) fun _ _ x => x

/-- `tensor_comm.py:107-121`: the `Allreduce` over the line along dimension `i`. -/
def linePhase (c : Nat) (P : Cart) (i : Nat) : Nat → NSt F → Phase (NSt F) (NMsg F) :=
  gatherPhase c (fun w => decide (w ∈ P.members)) fun w => (cartSub P (keepOnly P.shape.length i) w).members

/-- `mpi/tensor_decomposition.py:35-46`: the `Allreduce` of the shapes over the partition. -/
def shapesPhase (c : Nat) (P : Cart) : Nat → NSt F → Phase (NSt F) (NMsg F) :=
  gatherPhase c (fun w => decide (w ∈ P.members)) fun _ => P.members

/-- `broadcast_data` over the workers `U`: what worker `root` knows. -/
def sharePhase (c : Nat) (U : List Nat) (root : Nat) : Nat → NSt F → Phase (NSt F) (NMsg F) :=
  collPhase c (fun w => decide (w ∈ U)) (fun _ => U) (fun _ x => .info x.info) (fun _ => [root])
    fun _ (ms : List (NMsg F)) x =>
    match ms with
    | .info f :: _ => { x with info := f }
    | _ => x

/-- `tensor_comm.py:105-121`: a sub-topology and an `Allreduce` per dimension. -/
def assembleProg (c : Nat) (P : Cart) : Prog (NSt F) (NMsg F) :=
  (List.range P.shape.length).flatMap fun i => [subPhase c P, linePhase c P i]

/-- Setup of the layers that need the structures on the workers of `P` only (`conv_feature.py:263-280`,
`pooling.py:174-191`). -/
def setupProg (c : Nat) (P : Cart) : Prog (NSt F) (NMsg F) := assembleProg c P ++ [shapesPhase c P]

/-- Setup when the structures are needed on the workers `U` (`nn/repartition.py:159-193`): shape, type and
`requires_grad` are broadcast, then the shapes of all parts. -/
def setupUnionProg (c : Nat) (P : Cart) (U : List Nat) : Prog (NSt F) (NMsg F) :=
  assembleProg c P ++ List.replicate 3 (sharePhase c U (P.members.getD 0 0)) ++
    [shapesPhase c P, sharePhase c U (P.members.getD 0 0)]

/-- Setup when the workers `U` are told the global structure, but the shapes of all parts are needed on the workers of
`P` only (`conv_general.py:434-455`). -/
def setupPartProg (c : Nat) (P : Cart) (U : List Nat) : Prog (NSt F) (NMsg F) :=
  assembleProg c P ++ List.replicate 3 (sharePhase c U (P.members.getD 0 0)) ++ [shapesPhase c P]

/-- What is known after setup. -/
def gathered (P : Cart) (S : Nat → NSt F) (v : Nat) : Info := if v ∈ P.members then (S v).own else noInfo

/-- The tensors, flags and arrays are as before. -/
def Frame (W : List Nat) (S S' : Nat → NSt F) : Prop :=
  ∀ w ∈ W, (S' w).t = (S w).t ∧ (S' w).rg = (S w).rg ∧ (S' w).err = (S w).err ∧ (S' w).arr = (S w).arr ∧
    (S' w).par = (S w).par

theorem Frame.refl (W : List Nat) (S : Nat → NSt F) : Frame W S S := fun _ _ => ⟨rfl, rfl, rfl, rfl, rfl⟩

theorem Frame.trans {W : List Nat} {S S' S'' : Nat → NSt F} (h : Frame W S S') (h' : Frame W S' S'') : Frame W S S'' := by
  intro w hw
  obtain ⟨a1, a2, a3, a4, a5⟩ := h w hw
  obtain ⟨b1, b2, b3, b4, b5⟩ := h' w hw
  exact ⟨b1.trans a1, b2.trans a2, b3.trans a3, b4.trans a4, b5.trans a5⟩

theorem Frame.own {W : List Nat} {S S' : Nat → NSt F} (h : Frame W S S') {w : Nat} (hw : w ∈ W) : (S' w).own = (S w).own := by
  obtain ⟨h1, h2, -⟩ := h w hw
  rw [NSt.own, NSt.own, h1, h2]

theorem Frame.gathered {W : List Nat} {S S' : Nat → NSt F} (h : Frame W S S') {P : Cart} (hP : ∀ w ∈ P.members, w ∈ W) :
    gathered P S' = gathered P S := by
  funext v
  unfold Net.gathered
  split
  · next hv => exact h.own (hP v hv)
  · rfl

/-- A program of harmless phases. -/
theorem quiet_run {W : List Nat} {prog : Prog (NSt F) (NMsg F)}
    (h : ∀ ph ∈ prog, ∀ S, PhaseOK W ph S ∧ Frame W S (sync ph S)) (S : Nat → NSt F) :
    ProgOK W prog S ∧ Frame W S (run prog S) := by
  induction prog generalizing S with
  | nil => exact ⟨trivial, Frame.refl W S⟩
  | cons ph prog ih =>
    obtain ⟨h1, h2⟩ := h ph (by simp) S
    obtain ⟨h3, h4⟩ := ih (fun p hp => h p (List.mem_cons_of_mem _ hp)) (sync ph S)
    exact ⟨⟨h1, h3⟩, h2.trans h4⟩

section
variable {W : List Nat} {P : Cart}

theorem grouped_const {U : List Nat} (hU : ∀ w ∈ U, w ∈ W) {deps : List Nat} (hd : ∀ u ∈ deps, u ∈ U) :
    Grouped W (fun w => decide (w ∈ U)) (fun _ => U) fun _ => deps where
  own w _ h := by simpa using h
  all w _ _ u hu := ⟨hU u hu, by simpa using hu, rfl⟩
  deps w _ _ u hu := hd u hu

theorem grouped_line (hW : ∀ w ∈ P.members, w ∈ W) (i : Nat) :
    Grouped W (fun w => decide (w ∈ P.members)) (fun w => (cartSub P (keepOnly P.shape.length i) w).members)
      fun w => (cartSub P (keepOnly P.shape.length i) w).members where
  own w _ h := by
    simp only [decide_eq_true_eq] at h
    simp [cartSub, h]
  all w _ h u hu := by
    simp only [decide_eq_true_eq] at h
    have h1 : u ∈ P.members := by
      simp only [cartSub, List.mem_filter] at hu
      exact hu.1
    refine ⟨hW u h1, by simpa using h1, ?_⟩
    simp only [cartSub, List.mem_filter, beq_iff_eq] at hu ⊢
    rw [hu.2]
  deps w _ _ u hu := hu

theorem gather_quiet {c : Nat} {act : Nat → Bool} {grp : Nat → List Nat} (h : Grouped W act grp grp) (S : Nat → NSt F) :
    PhaseOK W (gatherPhase c act grp) S ∧ Frame W S (sync (gatherPhase c act grp) S) := by
  refine ⟨collPhase_ok h, fun w hw => ?_⟩
  rw [gatherPhase, collPhase_sync h hw]
  split <;> exact ⟨rfl, rfl, rfl, rfl, rfl⟩

theorem sub_quiet (c : Nat) (hW : ∀ w ∈ P.members, w ∈ W) (S : Nat → NSt F) :
    PhaseOK W (subPhase c P) S ∧ Frame W S (sync (subPhase c P) S) := by
  have h := grouped_const (deps := P.members) hW fun _ hu => hu
  refine ⟨collPhase_ok h, fun w hw => ?_⟩
  rw [subPhase, collPhase_sync h hw]
  split <;> exact ⟨rfl, rfl, rfl, rfl, rfl⟩

theorem share_quiet (c : Nat) {U : List Nat} (hU : ∀ w ∈ U, w ∈ W) {root : Nat} (hr : root ∈ U) (S : Nat → NSt F) :
    PhaseOK W (sharePhase c U root) S ∧ Frame W S (sync (sharePhase c U root) S) := by
  have h := grouped_const (deps := [root]) hU (by simpa using hr)
  refine ⟨collPhase_ok h, fun w hw => ?_⟩
  rw [sharePhase, collPhase_sync h hw]
  split <;> exact ⟨rfl, rfl, rfl, rfl, rfl⟩

theorem assemble_quiet (c : Nat) (hW : ∀ w ∈ P.members, w ∈ W) (S : Nat → NSt F) :
    ProgOK W (assembleProg c P) S ∧ Frame W S (run (assembleProg c P) S) := by
  refine quiet_run (fun ph hph S => ?_) S
  simp only [assembleProg, List.mem_flatMap, List.mem_cons, List.not_mem_nil, or_false] at hph
  obtain ⟨i, -, rfl | rfl⟩ := hph
  · exact sub_quiet c hW S
  · exact gather_quiet (grouped_line hW i) S

theorem shapes_sync (c : Nat) (hW : ∀ w ∈ P.members, w ∈ W) (S : Nat → NSt F) {w : Nat} (hw : w ∈ P.members) :
    (sync (shapesPhase c P) S w).info = gathered P S := by
  have h := grouped_const (deps := P.members) hW (fun _ h => h)
  rw [shapesPhase, gatherPhase, collPhase_sync h (hW w hw), if_pos (by simpa using hw)]
  funext v
  unfold gathered
  by_cases hv : v ∈ P.members
  · have := List.idxOf_lt_length_of_mem hv
    simp only [hv, if_true]
    rw [List.getElem?_map, getElem?_idxOf hv]
    rfl
  · simp [hv]

theorem setup_run (c : Nat) (hW : ∀ w ∈ P.members, w ∈ W) (S : Nat → NSt F) :
    ProgOK W (setupProg c P) S ∧ Frame W S (run (setupProg c P) S) ∧
      ∀ w ∈ P.members, (run (setupProg c P) S w).info = gathered P S := by
  obtain ⟨h1, h2⟩ := assemble_quiet c hW S
  have h := grouped_const (deps := P.members) hW (fun _ h => h)
  obtain ⟨h3, h4⟩ := gather_quiet (c := c) h (run (assembleProg c P) S)
  refine ⟨progOK_append.2 ⟨h1, h3, trivial⟩, ?_, fun w hw => ?_⟩
  · rw [setupProg, run_append]
    exact h2.trans h4
  · rw [setupProg, run_append]
    show (sync (shapesPhase c P) _ w).info = _
    rw [shapes_sync c hW _ hw, h2.gathered hW]

theorem setupPart_run (c : Nat) (hP : P.WF) {U : List Nat} (hU : ∀ w ∈ U, w ∈ W) (hPU : ∀ w ∈ P.members, w ∈ U)
    (S : Nat → NSt F) :
    ProgOK W (setupPartProg c P U) S ∧ Frame W S (run (setupPartProg c P U) S) ∧
      ∀ w ∈ P.members, (run (setupPartProg c P U) S w).info = gathered P S := by
  have hW : ∀ w ∈ P.members, w ∈ W := fun w hw => hU w (hPU w hw)
  have hroot : P.members.getD 0 0 ∈ P.members := by
    obtain ⟨w0, h0, -⟩ := hP.head
    cases hm : P.members with
    | nil => rw [hm] at h0; cases h0
    | cons a l => simp
  have hq : ∀ S : Nat → NSt F, ProgOK W (assembleProg c P ++ List.replicate 3 (sharePhase c U (P.members.getD 0 0))) S ∧
      Frame W S (run (assembleProg c P ++ List.replicate 3 (sharePhase c U (P.members.getD 0 0))) S) := by
    refine quiet_run fun ph hph S => ?_
    simp only [List.mem_append, List.mem_replicate] at hph
    rcases hph with hph | ⟨-, rfl⟩
    · simp only [assembleProg, List.mem_flatMap, List.mem_cons, List.not_mem_nil, or_false] at hph
      obtain ⟨i, -, rfl | rfl⟩ := hph
      · exact sub_quiet c hW S
      · exact gather_quiet (grouped_line hW i) S
    · exact share_quiet c hU (hPU _ hroot) S
  obtain ⟨h1, h2⟩ := hq S
  obtain ⟨h3, h4⟩ := gather_quiet (c := c) (grouped_const (deps := P.members) hW fun _ h => h)
    (run (assembleProg c P ++ List.replicate 3 (sharePhase c U (P.members.getD 0 0))) S)
  unfold setupPartProg
  refine ⟨progOK_append.2 ⟨h1, h3, trivial⟩, ?_, fun w hw => ?_⟩
  · rw [run_append]
    exact h2.trans h4
  · rw [run_append]
    show (sync (shapesPhase c P) _ w).info = _
    rw [shapes_sync c hW _ hw, h2.gathered hW]

theorem setupUnion_run (c : Nat) (hP : P.WF) {U : List Nat} (hU : ∀ w ∈ U, w ∈ W) (hPU : ∀ w ∈ P.members, w ∈ U)
    (S : Nat → NSt F) :
    ProgOK W (setupUnionProg c P U) S ∧ Frame W S (run (setupUnionProg c P U) S) ∧
      ∀ w ∈ U, (run (setupUnionProg c P U) S w).info = gathered P S := by
  have hroot : P.members.getD 0 0 ∈ P.members := by
    obtain ⟨w0, h0, -⟩ := hP.head
    cases hm : P.members with
    | nil => rw [hm] at h0; cases h0
    | cons a l => simp
  have hsplit : setupUnionProg c P U = setupPartProg (F := F) c P U ++ [sharePhase c U (P.members.getD 0 0)] := by
    simp [setupUnionProg, setupPartProg]
  obtain ⟨h1, h2, h5⟩ := setupPart_run c hP hU hPU S
  obtain ⟨h3, h4⟩ := share_quiet c hU (hPU _ hroot) (run (setupPartProg c P U) S)
  rw [hsplit]
  refine ⟨progOK_append.2 ⟨h1, h3, trivial⟩, ?_, fun w hw => ?_⟩
  · rw [run_append]; exact h2.trans h4
  · rw [run_append]
    show (sync (sharePhase c U (P.members.getD 0 0)) _ w).info = _
    have h := grouped_const (deps := [P.members.getD 0 0]) hU (by simpa using hPU _ hroot)
    rw [sharePhase, collPhase_sync h (hU w hw), if_pos (by simpa using hw)]
    exact h5 _ hroot

end

end Verif.Net
