import Verif.Net.Setup

/-!
# Networks: what the forward pass keeps for the backward pass

In the forward pass of `torch.autograd.Function` a layer puts what its adjoint needs into the context `ctx`
(`functional/broadcast.py:92-97`, `functional/sum_reduce.py:89-94`, `functional/repartition.py:95-128`,
`functional/halo_exchange.py:17-21`), and PyTorch keeps the tensors its own operators need.  Here a worker keeps its
whole local data at certain moments of the forward pass, and the adjoints take from it what the contexts hold.
-/

namespace Verif.Net

/-! ## Phases on a part of the local data -/

section
variable {σ τ μ C : Type} {W : List Nat}

/-- A request on a part of the local data. -/
def Req.on (L : Lens σ τ) (r : Req τ μ) : Req σ μ := ⟨r.key, r.put, r.deps, fun m y => L.set (r.get m (L.get y)) y⟩

/-- A phase that works on the part `L` of the local data, and may look at the part `ctx`. -/
def ctxPhase (ctx : σ → C) (L : Lens σ τ) (ph : C → Nat → τ → Phase τ μ) : Nat → σ → Phase σ μ := fun w x =>
  ⟨(ph (ctx x) w (L.get x)).reqs.map (Req.on L), fun y => L.set ((ph (ctx x) w (L.get x)).work (L.get y)) y,
    (ph (ctx x) w (L.get x)).order⟩

variable {ctx : σ → C} {L : Lens σ τ} {ph : C → Nat → τ → Phase τ μ} {S : Nat → σ}

theorem ctx_contribution (k : Key) (u : Nat) : contribution (ctxPhase ctx L ph) S k u =
    contribution (fun u => ph (ctx (S u)) u) (fun u => L.get (S u)) k u := by
  simp only [contribution, ctxPhase, List.find?_map, Option.map_map]
  rfl

theorem ctx_sync (w : Nat) : sync (ctxPhase ctx L ph) S w =
    L.set (sync (fun u => ph (ctx (S u)) u) (fun u => L.get (S u)) w) (S w) := by
  have key : ∀ (l : List (Req τ μ)) (y : τ) (x : σ), (l.map (Req.on L)).foldl
      (fun x r => r.get (r.deps.filterMap (contribution (ctxPhase ctx L ph) S r.key)) x) (L.set y x) =
      L.set (l.foldl (fun x r => r.get (r.deps.filterMap
        (contribution (fun u => ph (ctx (S u)) u) (fun u => L.get (S u)) r.key)) x) y) x := by
    intro l
    induction l with
    | nil => intro y x; rfl
    | cons r l ih =>
      intro y x
      rw [List.map_cons, List.foldl_cons, List.foldl_cons, ← ih]
      congr 1
      show L.set (r.get (r.deps.filterMap (contribution (ctxPhase ctx L ph) S r.key)) (L.get (L.set y x))) (L.set y x) = _
      rw [L.get_set, L.set_set]
      congr 2
      exact List.filterMap_congr fun u _ => ctx_contribution r.key u
  exact key _ _ _

theorem ctx_ok (h : PhaseOK W (fun u => ph (ctx (S u)) u) fun u => L.get (S u)) : PhaseOK W (ctxPhase ctx L ph) S := by
  constructor
  · intro w hw
    have := h.nodup w hw
    simp only [ctxPhase, List.map_map]
    exact this
  · intro w hw r hr
    obtain ⟨r, hr', rfl⟩ := List.mem_map.1 hr
    exact h.own w hw r hr'
  · intro w hw r hr u hu
    obtain ⟨r, hr', rfl⟩ := List.mem_map.1 hr
    obtain ⟨h1, r', h2, h3⟩ := h.all w hw r hr' u hu
    exact ⟨h1, _, List.mem_map_of_mem h2, h3⟩
  · intro w hw r hr
    obtain ⟨r, hr', rfl⟩ := List.mem_map.1 hr
    exact h.deps w hw r hr'
  · intro w hw
    refine List.pairwise_map.2 ((h.comm w hw).imp fun {r r'} hc m m' x => ?_)
    show L.set (r.get m (L.get (L.set (r'.get m' (L.get x)) x))) (L.set (r'.get m' (L.get x)) x) =
      L.set (r'.get m' (L.get (L.set (r.get m (L.get x)) x))) (L.set (r.get m (L.get x)) x)
    rw [L.get_set, L.get_set, L.set_set, L.set_set, hc]
  · intro w hw l hl
    have := h.order w hw l hl
    simp only [ctxPhase, List.length_map]
    exact this

/-- Phases with a context. -/
abbrev CProg (C τ μ : Type) := List (C → Nat → τ → Phase τ μ)

/-- Worker `u` has the context `T u`. -/
def CProg.at (prog : CProg C τ μ) (T : Nat → C) : Prog τ μ := prog.map fun ph u => ph (T u) u

/-- The context stays the same during such a program. -/
theorem ctx_run (hctx : ∀ y x, ctx (L.set y x) = ctx x) (prog : CProg C τ μ) (S : Nat → σ) :
    (ProgOK W (prog.at fun u => ctx (S u)) (fun u => L.get (S u)) → ProgOK W (prog.map (ctxPhase ctx L)) S) ∧
    ∀ w, run (prog.map (ctxPhase ctx L)) S w =
      L.set (run (prog.at fun u => ctx (S u)) (fun u => L.get (S u)) w) (S w) := by
  induction prog generalizing S with
  | nil => exact ⟨fun _ => trivial, fun w => (L.set_get _).symm⟩
  | cons ph prog ih =>
    obtain ⟨i1, i2⟩ := ih (sync (ctxPhase ctx L ph) S)
    have e1 : (fun u => ctx (sync (ctxPhase ctx L ph) S u)) = fun u => ctx (S u) := by
      funext u; rw [ctx_sync, hctx]
    have e2 : (fun u => L.get (sync (ctxPhase ctx L ph) S u)) =
        sync (fun u => ph (ctx (S u)) u) fun u => L.get (S u) := by
      funext u; rw [ctx_sync, L.get_set]
    rw [e1, e2] at i1 i2
    refine ⟨fun h => ⟨ctx_ok h.1, i1 h.2⟩, fun w => ?_⟩
    show run (prog.map (ctxPhase ctx L)) (sync (ctxPhase ctx L ph) S) w = _
    rw [i2 w, ctx_sync, L.set_set]
    rfl

end

/-! ## The tape -/

variable {F : Type}

/-- Local data of a worker in training. -/
structure BSt (F : Type) where
  /-- the data of the forward pass; in the backward pass `s.t` is the gradient passed from layer to layer -/
  s : NSt F
  /-- what was kept, latest first -/
  tape : List (NSt F)
  /-- the gradients of the parameters the worker has, those of the first layer first -/
  grads : List (Nat → Option (Tensor F))

/-- The data of the forward pass. -/
def fwdLens : Lens (BSt F) (NSt F) where
  get b := b.s
  set y b := { b with s := y }
  get_set _ _ := rfl
  set_get _ := rfl
  set_set _ _ _ := rfl

/-- A program of the forward pass. -/
def fwdProg (prog : Prog (NSt F) (NMsg F)) : Prog (BSt F) (NMsg F) :=
  prog.map fun ph => ctxPhase (fun _ => ()) fwdLens fun _ => ph

/-- Keep the local data. -/
def savePhase : Nat → BSt F → Phase (BSt F) (NMsg F) := localPhase fun _ b => { b with tape := b.s :: b.tape }

/-- A forward pass cut into pieces; the local data are kept before each of them. -/
def tapeProg : List (Prog (NSt F) (NMsg F)) → Prog (BSt F) (NMsg F)
  | [] => []
  | p :: ps => savePhase :: (fwdProg p ++ tapeProg ps)

/-- What is kept, latest first. -/
def snaps : List (Prog (NSt F) (NMsg F)) → (Nat → NSt F) → Nat → List (NSt F)
  | [], _, _ => []
  | p :: ps, S, w => snaps ps (run p S) w ++ [S w]

theorem fwd_run {W : List Nat} (prog : Prog (NSt F) (NMsg F)) (B : Nat → BSt F) :
    (ProgOK W prog (fun u => (B u).s) → ProgOK W (fwdProg prog) B) ∧
    ∀ w, run (fwdProg prog) B w = { B w with s := run prog (fun u => (B u).s) w } := by
  obtain ⟨h1, h2⟩ := ctx_run (W := W) (ctx := fun _ : BSt F => ()) (L := fwdLens) (fun _ _ => rfl)
    (prog.map fun ph _ => ph) B
  have e : CProg.at (prog.map fun ph (_ : Unit) => ph) (fun _ => ()) = prog := by
    simp only [CProg.at, List.map_map]
    exact List.map_id' _
  rw [e] at h1 h2
  unfold fwdProg
  simp only [List.map_map] at h1 h2
  exact ⟨h1, h2⟩

/-- The forward pass does what it does without the tape. -/
theorem tape_run {W : List Nat} (cuts : List (Prog (NSt F) (NMsg F))) (B : Nat → BSt F)
    (h : ProgOK W cuts.flatten fun u => (B u).s) :
    ProgOK W (tapeProg cuts) B ∧ ∀ w, run (tapeProg cuts) B w =
      ⟨run cuts.flatten (fun u => (B u).s) w, snaps cuts (fun u => (B u).s) w ++ (B w).tape, (B w).grads⟩ := by
  induction cuts generalizing B with
  | nil => exact ⟨trivial, fun _ => rfl⟩
  | cons p ps ih =>
    rw [List.flatten_cons, progOK_append] at h
    obtain ⟨o1, r1⟩ := fwd_run (W := W) p (sync savePhase B)
    have e : (fun u => (run (fwdProg p) (sync savePhase B) u).s) = run p fun u => (B u).s := by
      funext u; rw [r1 u]; rfl
    obtain ⟨o2, r2⟩ := ih (run (fwdProg p) (sync savePhase B)) (by rw [e]; exact h.2)
    rw [e] at r2
    refine ⟨⟨localPhase_ok _, progOK_append.2 ⟨o1 h.1, o2⟩⟩, fun w => ?_⟩
    show run (fwdProg p ++ tapeProg ps) (sync savePhase B) w = _
    rw [run_append, r2 w, r1 w, List.flatten_cons, run_append]
    show BSt.mk _ (snaps ps (run p fun u => (B u).s) w ++ (B w).s :: (B w).tape) _ = _
    rw [snaps, List.append_assoc]
    rfl

/-! ## Programs of the backward pass -/

/-- A program that uses what was kept. -/
def backProg (prog : CProg (List (NSt F)) (NSt F) (NMsg F)) : Prog (BSt F) (NMsg F) :=
  prog.map (ctxPhase BSt.tape fwdLens)

/-- The layer's entries on the tape are no longer needed; the gradients of its parameters are stored.  `has w i`: has
worker `w` the parameter `i` of the layer? -/
def dropPhase (k : Nat) (has : Nat → Nat → Bool) : Nat → BSt F → Phase (BSt F) (NMsg F) :=
  localPhase fun w b => { b with
    tape := b.tape.drop k
    grads := (fun i => if has w i then some (b.s.par i).1 else none) :: b.grads }

theorem back_run {W : List Nat} (prog : CProg (List (NSt F)) (NSt F) (NMsg F)) (k : Nat) (has : Nat → Nat → Bool)
    (B : Nat → BSt F) (h : ProgOK W (prog.at fun u => (B u).tape) fun u => (B u).s) :
    ProgOK W (backProg prog ++ [dropPhase k has]) B ∧ ∀ w, run (backProg prog ++ [dropPhase k has]) B w =
      ⟨run (prog.at fun u => (B u).tape) (fun u => (B u).s) w, (B w).tape.drop k, (fun i => if has w i then
        some ((run (prog.at fun u => (B u).tape) (fun u => (B u).s) w).par i).1 else none) :: (B w).grads⟩ := by
  obtain ⟨h1, h2⟩ := ctx_run (W := W) (ctx := BSt.tape (F := F)) (L := fwdLens) (fun _ _ => rfl) prog B
  refine ⟨progOK_append.2 ⟨h1 h, localPhase_ok _, trivial⟩, fun w => ?_⟩
  rw [run_append]
  show (⟨(run (backProg prog) B w).s, (run (backProg prog) B w).tape.drop k, _ :: (run (backProg prog) B w).grads⟩ : BSt F) = _
  unfold backProg
  rw [h2 w]
  rfl

end Verif.Net
