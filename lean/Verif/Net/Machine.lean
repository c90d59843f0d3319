import Verif.Spec

/-!
# Networks: workers that run through layer after layer without synchronisation

A forward pass calls the layers one after the other (`torch.nn.Module.__call__`), on every worker for itself: nothing
makes the workers wait for each other between two layers, so one may be several layers ahead of another.  What the
layers do is posting requests and waiting for them:

* `Irecv`, `Isend` and a `Waitany` loop: `functional/repartition.py:141-205`, `functional/halo_exchange.py:31-72`;
* `Ibcast`, `Ireduce`, `Iallreduce` and `Wait`: `functional/broadcast.py:88-118`, `functional/sum_reduce.py:96-137`,
  `functional/all_sum_reduce.py:64-94`;
* blocking collectives, posted and waited for at once: `tensor_comm.py:105-121`, `nn/repartition.py:159-193`.

MPI semantics used.  A request belongs to a channel: a message from `s` to `d` in a communicator with some tag, or
a collective operation of a communicator.  The `n`-th request a worker posts on a channel belongs to the `n`-th
operation on it (messages do not overtake each other; collectives are matched in order).  A request can complete
when all members of the channel have posted theirs; the library may complete it earlier, as soon as those it gets
data from have posted theirs (buffered sends, leaves of a reduction), but need not.
-/

namespace Verif.Net

/-- Channels.  `c` stands for communicator and tag. -/
inductive Key
  /-- messages from `s` to `d` -/
  | msg (c s d : Nat)
  /-- collectives of the members `g` -/
  | coll (c : Nat) (g : List Nat)
  deriving DecidableEq, Repr

/-- Who takes part in the operations on a channel. -/
def Key.members : Key → List Nat
  | .msg _ s d => [s, d]
  | .coll _ g => g

/-- A request: its channel, what it contributes (a receive contributes something of no interest), from whom it gets
data, and what the worker does with the data (in the order of `deps`) once it is complete. -/
structure Req (σ μ : Type) where
  key : Key
  put : μ
  deps : List Nat
  get : List μ → σ → σ

/-- A phase of a worker: the requests are posted in order, then there is local work, then the requests are waited
for, one by one in some order (`order`, `Wait`) or as they come (`none`, `Waitany`, `Waitall`). -/
structure Phase (σ μ : Type) where
  reqs : List (Req σ μ)
  work : σ → σ
  order : Option (List Nat)

/-- A program: for every phase what a worker does, given its local data at the beginning of the phase.  A worker
that has no part in a phase has no requests and nothing to do. -/
abbrev Prog (σ μ : Type) := List (Nat → σ → Phase σ μ)

variable {σ μ : Type}

/-- Control state of a worker. -/
structure WState (σ : Type) where
  /-- current phase -/
  phase : Nat
  /-- local data at the beginning of the phase -/
  base : σ
  /-- local data -/
  st : σ
  /-- requests posted in this phase -/
  posted : Nat
  /-- waiting for the requests -/
  inLoop : Bool
  /-- completed requests, latest first -/
  done : List Nat
  /-- position of request `i` on its channel -/
  seq : Nat → Nat

/-- Global state: the workers, and what each has contributed to each channel. -/
structure GState (σ μ : Type) where
  ws : Nat → WState σ
  log : Key → Nat → List μ

/-- Replacing the state of worker `w`. -/
def GState.setW (g : GState σ μ) (w : Nat) (x : WState σ) : GState σ μ :=
  { g with ws := fun v => if v = w then x else g.ws v }

/-- The beginning. -/
def GState.init (S : Nat → σ) : GState σ μ :=
  { ws := fun w => ⟨0, S w, S w, 0, false, [], fun _ => 0⟩, log := fun _ _ => [] }

/-- What the members `deps` contributed to operation `n` of channel `k`. -/
def GState.read (g : GState σ μ) (k : Key) (n : Nat) (deps : List Nat) : List μ :=
  deps.filterMap fun u => (g.log k u)[n]?

/-- A step of one of the workers `W`; `early g w i` tells whether the library completes request `i` of worker `w`
although not all members have posted theirs. -/
inductive Step (W : List Nat) (prog : Prog σ μ) (early : GState σ μ → Nat → Nat → Prop) :
    GState σ μ → GState σ μ → Prop
  /-- post the next request -/
  | post (g : GState σ μ) (w : Nat) (ph : Nat → σ → Phase σ μ) (r : Req σ μ) (hw : w ∈ W)
      (hp : prog[(g.ws w).phase]? = some ph) (hl : (g.ws w).inLoop = false)
      (hr : (ph w (g.ws w).base).reqs[(g.ws w).posted]? = some r) :
      Step W prog early g
        { (g.setW w { g.ws w with
            posted := (g.ws w).posted + 1
            seq := fun i => if i = (g.ws w).posted then (g.log r.key w).length else (g.ws w).seq i }) with
          log := fun k u => if k = r.key ∧ u = w then g.log k u ++ [r.put] else g.log k u }
  /-- all requests are posted: local work, then waiting -/
  | enter (g : GState σ μ) (w : Nat) (ph : Nat → σ → Phase σ μ) (hw : w ∈ W)
      (hp : prog[(g.ws w).phase]? = some ph) (hl : (g.ws w).inLoop = false)
      (hn : (g.ws w).posted = (ph w (g.ws w).base).reqs.length) :
      Step W prog early g
        (g.setW w { g.ws w with st := (ph w (g.ws w).base).work (g.ws w).st, inLoop := true })
  /-- request `i` completes -/
  | complete (g : GState σ μ) (w i : Nat) (ph : Nat → σ → Phase σ μ) (r : Req σ μ) (hw : w ∈ W)
      (hp : prog[(g.ws w).phase]? = some ph) (hl : (g.ws w).inLoop = true)
      (hr : (ph w (g.ws w).base).reqs[i]? = some r) (hi : i ∉ (g.ws w).done)
      (ho : ∀ l, (ph w (g.ws w).base).order = some l → l[(g.ws w).done.length]? = some i)
      (hd : ∀ u ∈ r.deps, (g.ws w).seq i < (g.log r.key u).length)
      (hm : (∀ u ∈ r.key.members, (g.ws w).seq i < (g.log r.key u).length) ∨ early g w i) :
      Step W prog early g
        (g.setW w { g.ws w with
          st := r.get (g.read r.key ((g.ws w).seq i) r.deps) (g.ws w).st
          done := i :: (g.ws w).done })
  /-- all requests are complete: next phase -/
  | next (g : GState σ μ) (w : Nat) (ph : Nat → σ → Phase σ μ) (hw : w ∈ W)
      (hp : prog[(g.ws w).phase]? = some ph) (hl : (g.ws w).inLoop = true)
      (hn : (g.ws w).done.length = (ph w (g.ws w).base).reqs.length) :
      Step W prog early g
        (g.setW w ⟨(g.ws w).phase + 1, (g.ws w).st, (g.ws w).st, 0, false, [], (g.ws w).seq⟩)

/-- Executions of `n` steps, under any interleaving. -/
inductive Exec (W : List Nat) (prog : Prog σ μ) (early : GState σ μ → Nat → Nat → Prop) :
    Nat → GState σ μ → GState σ μ → Prop
  | refl (g : GState σ μ) : Exec W prog early 0 g g
  | tail {n : Nat} {g g' g'' : GState σ μ} : Exec W prog early n g g' → Step W prog early g' g'' →
      Exec W prog early (n + 1) g g''

/-! ## The reference: all workers perform a phase together -/

/-- What worker `u` contributes to channel `k` in a phase that begins with the local data `S`. -/
def contribution (ph : Nat → σ → Phase σ μ) (S : Nat → σ) (k : Key) (u : Nat) : Option μ :=
  ((ph u (S u)).reqs.find? fun r => r.key = k).map Req.put

/-- A phase, performed by all workers together. -/
def sync (ph : Nat → σ → Phase σ μ) (S : Nat → σ) (w : Nat) : σ :=
  (ph w (S w)).reqs.foldl (fun x r => r.get (r.deps.filterMap (contribution ph S r.key)) x)
    ((ph w (S w)).work (S w))

/-- A program, performed by all workers together phase by phase. -/
def run : Prog σ μ → (Nat → σ) → Nat → σ
  | [], S => S
  | ph :: prog, S => run prog (sync ph S)

/-- Both sides of every operation agree: whoever has a request on a channel, all members of the channel have one in
the same phase; a worker has at most one request per channel in a phase; the data of different requests go to
different places; all requests are waited for. -/
structure PhaseOK (W : List Nat) (ph : Nat → σ → Phase σ μ) (S : Nat → σ) : Prop where
  nodup : ∀ w ∈ W, ((ph w (S w)).reqs.map Req.key).Nodup
  own : ∀ w ∈ W, ∀ r ∈ (ph w (S w)).reqs, w ∈ r.key.members
  all : ∀ w ∈ W, ∀ r ∈ (ph w (S w)).reqs, ∀ u ∈ r.key.members,
    u ∈ W ∧ ∃ r' ∈ (ph u (S u)).reqs, r'.key = r.key
  deps : ∀ w ∈ W, ∀ r ∈ (ph w (S w)).reqs, ∀ u ∈ r.deps, u ∈ r.key.members
  comm : ∀ w ∈ W, (ph w (S w)).reqs.Pairwise fun r r' =>
    ∀ m m' x, r.get m (r'.get m' x) = r'.get m' (r.get m x)
  order : ∀ w ∈ W, ∀ l, (ph w (S w)).order = some l → l.Perm (List.range (ph w (S w)).reqs.length)

/-- Every phase of the program is in order, given the local data the previous phases lead to. -/
def ProgOK (W : List Nat) : Prog σ μ → (Nat → σ) → Prop
  | [], _ => True
  | ph :: prog, S => PhaseOK W ph S ∧ ProgOK W prog (sync ph S)

end Verif.Net
