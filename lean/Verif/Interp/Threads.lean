import Verif.Interp.Model

/-!
# Model of the threads of the interpolation kernels

`at::parallel_for` hands chunks of the rows (combinations of batch and channel) to threads, which run the loop
functions of `functional/interpolate/src/interpolate_constant_cpu.cpp` and `interpolate_linear_cpu.cpp`
concurrently on the same output.  `data[k] += v` is a load and a store with other threads' operations possibly
in between.  Numbers of the output have any type with any addition, so rounding is covered; the weight times
entry products are a parameter `mul`.  The variables of the loop functions are declared inside them
(e.g. `interpolate_linear_cpu.cpp:88-89`), hence private; the other tensor is only read.
-/

namespace Verif

/-- A statement of a loop body: assignment or accumulation at a position of the written tensor. -/
inductive MemOp (F : Type)
  | store (k : Nat) (v : F)
  | add (k : Nat) (v : F)

section
variable {F : Type}

/-- The position of a statement. -/
def MemOp.addr : MemOp F → Nat
  | .store k _ => k
  | .add k _ => k

variable {K : Type} (mul : K → F → F)

/-- The statements for one output of the forward kernels (`interpolate_constant_cpu.cpp:104, 136, 176`,
`interpolate_linear_cpu.cpp:109-110, 156-159, 223-230`); in mode nearest there is one term. -/
def fwdOps (x : Nat → F) (e : Int × List (Int × K)) : List (MemOp F) :=
  match e.2 with
  | [] => []
  | t :: ts => .store e.1.toNat (mul t.2 (x t.1.toNat)) ::
      ts.map fun t => .add e.1.toNat (mul t.2 (x t.1.toNat))

/-- The statements for one output of the adjoint kernels (`interpolate_constant_cpu.cpp:310, 342, 382`,
`interpolate_linear_cpu.cpp:370-371, 416-419, 483-490`). -/
def adjOps (y : Nat → F) (e : Int × List (Int × K)) : List (MemOp F) :=
  e.2.map fun t => .add t.1.toNat (mul t.2 (y e.1.toNat))

/-- The body of the loop over `c` (`interpolate_linear_cpu.cpp:92-112`): the outputs of row `c`. -/
def kernelRow [Field K] [LinearOrder K] [FloorRing K] (p : InterpParams K) (ds : List InterpDim) (c : Nat) :
    List (Int × List (Int × K)) :=
  (rangeIndex (ds.map InterpDim.lo)).map fun o =>
    (hornerIdx c (ds.map InterpDim.lo) (o.map fun i : Nat => (i : Int)),
      (cornerTerms (outputTerms p ds o)).map fun t => (hornerIdx c (ds.map InterpDim.li) t.1, t.2))

/-- `for (c = begin; c < end; ++c)` (`interpolate_linear_cpu.cpp:91`): the program of a chunk. -/
def chunkOps [Field K] [LinearOrder K] [FloorRing K] (p : InterpParams K) (ds : List InterpDim)
    (ops : Int × List (Int × K) → List (MemOp F)) (q : Nat × Nat) : List (MemOp F) :=
  (List.range' q.1 (q.2 - q.1)).flatMap fun c => (kernelRow p ds c).flatMap ops

/-! ## Threads -/

/-- A thread: the statements left, and the number loaded by the first half of an accumulation. -/
structure Thread (F : Type) where
  ops : List (MemOp F)
  reg : Option F

/-- The written tensor and the threads. -/
structure Threads (F : Type) where
  mem : Nat → F
  th : Nat → Thread F

/-- One operation of thread `t` on the memory; `none`: it has finished. -/
def Threads.step [Add F] (s : Threads F) (t : Nat) : Option (Threads F) :=
  match s.th t with
  | ⟨[], _⟩ => none
  | ⟨.store k v :: r, _⟩ => some ⟨Function.update s.mem k v, Function.update s.th t ⟨r, none⟩⟩
  | ⟨.add k v :: r, none⟩ => some ⟨s.mem, Function.update s.th t ⟨.add k v :: r, some (s.mem k)⟩⟩
  | ⟨.add k v :: r, some a⟩ => some ⟨Function.update s.mem k (a + v), Function.update s.th t ⟨r, none⟩⟩

/-- A schedule: the threads in the order of their operations. -/
def Threads.run [Add F] : List Nat → Threads F → Option (Threads F)
  | [], s => some s
  | t :: ts, s => (s.step t).bind (Threads.run ts)

/-- The next operation of thread `t`: its position and whether it writes. -/
def Threads.next (s : Threads F) (t : Nat) : Option (Nat × Bool) :=
  match s.th t with
  | ⟨[], _⟩ => none
  | ⟨.store k _ :: _, _⟩ => some (k, true)
  | ⟨.add k _ :: _, none⟩ => some (k, false)
  | ⟨.add k _ :: _, some _⟩ => some (k, true)

/-- `at::parallel_for` (`interpolate_constant_cpu.cpp:183-192, 389-398`, `interpolate_linear_cpu.cpp:237-249,
497-509`): one thread per chunk.  Threads running several chunks in a row are a special case of this. -/
def parallelFor (chunks : List (Nat × Nat)) (prog : Nat × Nat → List (MemOp F)) (mem : Nat → F) : Threads F :=
  ⟨mem, fun t => ⟨((chunks[t]?).map prog).getD [], none⟩⟩

/-! ## Specification -/

/-- The chunks are consecutive parts of the rows `0, ..., n - 1`: what `at::parallel_for` guarantees. -/
def Covers (n : Nat) (chunks : List (Nat × Nat)) : Prop :=
  (chunks.flatMap fun q => List.range' q.1 (q.2 - q.1)) = List.range n

/-- A data race: two threads are about to access the same position, at least one of them writing. -/
def Threads.Race (s : Threads F) : Prop :=
  ∃ t u a b c, t ≠ u ∧ s.next t = some (a, b) ∧ s.next u = some (a, c) ∧ (b = true ∨ c = true)

/-- Statements one after the other, as a single thread would run them. -/
def runOps [Add F] (ops : List (MemOp F)) (mem : Nat → F) : Nat → F :=
  ops.foldl (fun m o => match o with
    | .store k v => Function.update m k v
    | .add k v => Function.update m k (m k + v)) mem

end

end Verif
