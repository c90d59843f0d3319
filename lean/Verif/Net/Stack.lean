import Verif.Net.Coll
import Verif.Linear.Stack

/-!
# Networks: broadcast, local operator, sum-reduction

The layers made of these three steps (`nn/linear.py`, `nn/conv_channel.py`) as programs of the network machine.
-/

namespace Verif.Net

variable {F : Type}

/-- The local operator `op` on the workers `D` (`linear.py:102-103`, `conv_channel.py:343-344`).  `rgp`: do its
parameters require gradients?  An exception sets `err`.  Simplification: `requires_grad` of the result follows PyTorch's
rule for one operation, without its exception for tensors computed inside `torch.no_grad`. -/
def opPhase (D : List Nat) (op : Nat → Tensor F → Option (Tensor F)) (rgp : Bool) : Nat → NSt F → Phase (NSt F) (NMsg F) :=
  localPhase fun w x =>
    if w ∈ D then
      match op w x.t with
      | some y => tenLens.set (y, x.rg || rgp) x
      | none => { x with err := true }
    else x

/-- The same for an operator that uses parameters received before (`conv_general.py:571-585`). -/
def opPhaseS (D : List Nat) (op : Nat → NSt F → Option (Tensor F × Bool)) : Nat → NSt F → Phase (NSt F) (NMsg F) :=
  localPhase fun w x =>
    if w ∈ D then
      match op w x with
      | some y => tenLens.set y x
      | none => { x with err := true }
    else x

theorem opPhase_eq (D : List Nat) (op : Nat → Tensor F → Option (Tensor F)) (rgp : Bool) :
    opPhase D op rgp = opPhaseS D fun w x => (op w x.t).map fun y => (y, x.rg || rgp) := by
  unfold opPhase opPhaseS
  congr 1
  funext w x
  beta_reduce
  cases op w x.t <;> rfl

/-- The three steps (`linear.py:98-108`, `conv_channel.py:336-348`).  A worker outside the partitions has no part in
any of them (`linear.py:95-96`, `conv_channel.py:333-334`). -/
def stackProg [AddCommMonoid F] (c cy : Nat) (Lx Ly : PairLayer) (op : Nat → Tensor F → Option (Tensor F)) (rgp : Bool) :
    Prog (NSt F) (NMsg F) :=
  bcastProg c Lx tenLens ++ opPhase Lx.Py.members op rgp :: reduceProg cy Ly tenLens

/-- The same with parameters received before (`conv_general.py:581-589`). -/
def stackProgS [AddCommMonoid F] (c cy : Nat) (Lx Ly : PairLayer) (op : Nat → NSt F → Option (Tensor F × Bool)) :
    Prog (NSt F) (NMsg F) :=
  bcastProg c Lx tenLens ++ opPhaseS Lx.Py.members op :: reduceProg cy Ly tenLens

/-- The tensors as inputs of a layer. -/
def inputsOf (S : Nat → NSt F) : Inputs F := ⟨fun w => (S w).t, fun w => (S w).rg⟩

variable [AddCommMonoid F] {W : List Nat} {Lx Ly : PairLayer} {op : Nat → Tensor F → Option (Tensor F)} {S : Nat → NSt F}
  {O : Nat → Tensor F} {ρ : Bool}

omit [AddCommMonoid F] in
theorem infoOf_ten (x : NSt F) : infoOf tenLens x = x.own := rfl

theorem stackS_run (c cy : Nat) (rgp : Bool) (h : Stack Lx Ly (inputsOf S) op O)
    {opS : Nat → NSt F → Option (Tensor F × Bool)}
    (hop : ∀ w ∈ Lx.Py.members, ∀ x : NSt F, x.par = (S w).par → opS w x = (op w x.t).map fun y => (y, x.rg || rgp))
    (hρ : ∀ w ∈ Lx.Px.members, (S w).rg = ρ) (hx : ∀ w ∈ Lx.Px.members, w ∈ W) (hw : ∀ w ∈ Lx.Py.members, w ∈ W)
    (hy : ∀ w ∈ Ly.Py.members, w ∈ W) (rg : Nat → Bool) :
    ProgOK W (stackProgS c cy Lx Ly opS) S ∧
    (∀ w ∈ W, (run (stackProgS c cy Lx Ly opS) S w).err = (S w).err) ∧
    (∀ u ∈ Ly.Py.members, stackForward Lx Ly (inputsOf S) op rg u = some (run (stackProgS c cy Lx Ly opS) S u).t ∧
      (run (stackProgS c cy Lx Ly opS) S u).rg = (ρ || rgp)) ∧
    (∀ w ∈ W, w ∈ Lx.Px.members ∨ w ∈ Lx.Py.members → w ∉ Ly.Py.members →
      (run (stackProgS c cy Lx Ly opS) S w).t.shape.prod = 0) ∧
    ∀ w ∈ W, w ∉ Lx.Px.members → w ∉ Lx.Py.members → w ∉ Ly.Py.members →
      (run (stackProgS c cy Lx Ly opS) S w).t = (S w).t := by
  have hb1 : HasBatch Lx fun w => (tenLens.get (S w)).1 := fun _ u hu => h.batch u (hu.elim Or.inl fun h => Or.inr (Or.inl h))
  obtain ⟨o1, Y, s, r1, y1, y2, y3, -⟩ := bcast_run c h.bcast hx hw slot_ten hb1
  generalize hS1 : run (bcastProg c Lx tenLens) S = S1 at r1
  have ht1 : ∀ w ∈ W, (S1 w).t = (Y w).1 ∧ (S1 w).rg = (Y w).2 ∧ (S1 w).err = (S w).err := by
    intro w hw
    rw [r1 w hw]
    exact ⟨rfl, rfl, rfl⟩
  have o2 : PhaseOK W (opPhaseS Lx.Py.members opS) S1 := localPhase_ok _
  have r2 : ∀ w ∈ W, sync (opPhaseS Lx.Py.members opS) S1 w =
      if w ∈ Lx.Py.members then tenLens.set (O w, ρ || rgp) (S1 w) else S1 w := by
    intro w hww
    show (if w ∈ Lx.Py.members then _ else _) = _
    split
    · next hv =>
      have hr := h.bcast.root_mem hv
      have e : op w (S1 w).t = some (O w) := by
        rw [(ht1 w hww).1, y1 w hv]
        exact h.out w hv _ hr ((h.bcast.rel hr hv).2 rfl)
      have e2 : (S1 w).rg = ρ := by
        rw [(ht1 w hww).2.1, y1 w hv]
        exact hρ _ hr
      rw [hop w hv (S1 w) (by rw [r1 w hww]; rfl), e]
      show tenLens.set (O w, (S1 w).rg || rgp) (S1 w) = _
      rw [e2]
    · rfl
  generalize hS2 : sync (opPhaseS Lx.Py.members opS) S1 = S2 at r2
  have hPx : ∀ w ∈ Ly.Px.members, w ∈ Lx.Py.members := fun w hw => h.joint ▸ hw
  have hs2 : ∀ w ∈ Ly.Px.members, (S2 w).t = O w ∧ (S2 w).rg = (ρ || rgp) := by
    intro w hww
    rw [r2 w (hw w (hPx w hww)), if_pos (hPx w hww)]
    exact ⟨rfl, rfl⟩
  have hb2 : HasBatch Ly fun w => (tenLens.get (S2 w)).1 := by
    intro _ u hu
    show (S2 u).t.shape ≠ []
    have huW : u ∈ W := hu.elim (fun h => hw u (hPx u h)) (hy u)
    rw [r2 u huW]
    split
    · next hv => exact h.outBatch u hv
    · next hv =>
      rw [(ht1 u huW).1]
      by_cases hux : u ∈ Lx.Px.members
      · exact shape_ne_nil_of_prod (y2 u hux hv).prod
      · rw [y3 u hux hv]
        exact h.batch u (Or.inr (hu.elim (fun h => Or.inl (hPx u h)) Or.inr))
  have hsrc : ∀ v ∈ Ly.Px.members, Ly.src (Ly.rroot v) ∈ Ly.Px.members ∧ Ly.rroot (Ly.src (Ly.rroot v)) = Ly.rroot v :=
    fun v hv => src_spec h.reduce.valid (h.reduce.root_mem hv)
  have hkind : ∀ u ∈ Ly.Px.members, ∀ v ∈ Ly.Px.members, Ly.rroot u = Ly.rroot v →
      (O u).shape = (O v).shape ∧ (O u).dtype = (O v).dtype := fun u hu v hv e =>
    h.kinds _ (h.reduce.root_mem hv) u hu v hv ((h.reduce.rel (h.reduce.root_mem hv) hu).2 e)
      ((h.reduce.rel (h.reduce.root_mem hv) hv).2 rfl)
  obtain ⟨o3, Z, s', r3, z1, z2, z3⟩ := reduce_run cy h.reduce (fun w hw' => hw w (hPx w hw')) hy slot_ten hb2
    (i := fun r => ((O (Ly.src r)).shape, (O (Ly.src r)).dtype, ρ || rgp)) (fun v hv => by
      obtain ⟨a1, a2⟩ := hs2 v hv
      obtain ⟨b1, b2⟩ := hsrc v hv
      obtain ⟨c1, c2⟩ := hkind v hv _ b1 b2.symm
      rw [infoOf_ten, NSt.own, a1, a2, c1, c2])
  have hrun : ∀ w, run (stackProgS c cy Lx Ly opS) S w = run (reduceProg cy Ly tenLens) S2 w := by
    intro w
    rw [stackProgS, run_append, hS1]
    show run _ (sync (opPhaseS Lx.Py.members opS) S1) w = _
    rw [hS2]
  have hfin : ∀ w ∈ W, (run (stackProgS c cy Lx Ly opS) S w).t = (Z w).1 ∧
      (run (stackProgS c cy Lx Ly opS) S w).rg = (Z w).2 ∧
      (run (stackProgS c cy Lx Ly opS) S w).err = (S w).err := by
    intro w hww
    rw [hrun, r3 w hww]
    refine ⟨rfl, rfl, ?_⟩
    show (S2 w).err = _
    rw [r2 w hww]
    split <;> exact (ht1 w hww).2.2
  refine ⟨?_, fun w hww => (hfin w hww).2.2, fun u hu => ?_, fun w hww hact hn => ?_, fun w hww n1 n2 n3 => ?_⟩
  · rw [stackProgS, progOK_append, hS1]
    exact ⟨o1, o2, by rw [hS2]; exact o3⟩
  · obtain ⟨f1, f2, -⟩ := hfin u (hy u hu)
    rw [f1, f2, z1 u hu]
    refine ⟨?_, rfl⟩
    obtain ⟨v, hv, hc, e⟩ := (h.forward (rg := rg)).1 u hu
    have hv' : v ∈ Ly.Px.members := h.joint ▸ hv
    have hvr : Ly.rroot v = u := (h.reduce.rel hu hv').1 hc
    obtain ⟨b1, b2⟩ := hsrc v hv'
    obtain ⟨c1, c2⟩ := hkind v hv' _ b1 b2.symm
    rw [hvr] at c1 c2
    rw [e, c1, c2, h.joint]
    congr 2
    funext i
    congr 1
    rw [List.filter_congr (q := fun v => decide (Ly.rroot v = u)) fun v hv =>
      decide_eq_decide.2 (h.reduce.rel hu (h.joint ▸ hv))]
    refine List.map_congr_left fun v hv => ?_
    show _ = (S2 v).t.val i
    rw [(hs2 v (h.joint ▸ List.mem_of_mem_filter hv)).1]
  · rw [(hfin w hww).1]
    by_cases hv : w ∈ Lx.Py.members
    · exact (z2 w (h.joint ▸ hv) hn).prod
    · rw [z3 w (fun h' => hv (hPx w h')) hn]
      show (S2 w).t.shape.prod = 0
      rw [r2 w hww, if_neg hv, (ht1 w hww).1]
      exact (y2 w (hact.resolve_right hv) hv).prod
  · rw [(hfin w hww).1, z3 w (fun h' => n2 (hPx w h')) n3]
    show (S2 w).t = _
    rw [r2 w hww, if_neg n2, (ht1 w hww).1, y3 w n1 n2]
    rfl

theorem stack_run (c cy : Nat) (rgp : Bool) (h : Stack Lx Ly (inputsOf S) op O)
    (hρ : ∀ w ∈ Lx.Px.members, (S w).rg = ρ) (hx : ∀ w ∈ Lx.Px.members, w ∈ W) (hw : ∀ w ∈ Lx.Py.members, w ∈ W)
    (hy : ∀ w ∈ Ly.Py.members, w ∈ W) (rg : Nat → Bool) :
    ProgOK W (stackProg c cy Lx Ly op rgp) S ∧
    (∀ w ∈ W, (run (stackProg c cy Lx Ly op rgp) S w).err = (S w).err) ∧
    (∀ u ∈ Ly.Py.members, stackForward Lx Ly (inputsOf S) op rg u = some (run (stackProg c cy Lx Ly op rgp) S u).t ∧
      (run (stackProg c cy Lx Ly op rgp) S u).rg = (ρ || rgp)) ∧
    (∀ w ∈ W, w ∈ Lx.Px.members ∨ w ∈ Lx.Py.members → w ∉ Ly.Py.members →
      (run (stackProg c cy Lx Ly op rgp) S w).t.shape.prod = 0) ∧
    ∀ w ∈ W, w ∉ Lx.Px.members → w ∉ Lx.Py.members → w ∉ Ly.Py.members →
      (run (stackProg c cy Lx Ly op rgp) S w).t = (S w).t := by
  have := stackS_run c cy rgp h (fun _ _ _ _ => rfl) hρ hx hw hy rg
  unfold stackProgS at this
  unfold stackProg
  rw [opPhase_eq]
  exact this

end Verif.Net
