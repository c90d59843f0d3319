import Verif.Spec

/-!
# Non-blocking message exchange: an asynchronous machine

Common shape of `backends/mpi/functional/repartition.py:130-205, 268-343` and of one dimension of
`backends/mpi/functional/halo_exchange.py:31-72, 95-138`: a worker posts its receives
(`Irecv`), packs and posts its sends (`Isend`), does local work, and then runs

    while completed_count < len(requests):
        index = Waitany(requests)
        ... unpack request `index` if it is a receive ...
        completed_count += 1

where absent messages are `REQUEST_NULL`.  A program is a sequence of such phases per worker.
Workers are numbered by their rank in the communicator.

MPI semantics used: messages between two workers are matched in posting order (non-overtaking): the
`n`-th receive posted by `d` for source `s` gets the `n`-th message posted by `s` for `d`.  A receive
can complete once the matching send is posted; a send can complete once the matching receive is
posted (rendezvous), or at any time if the library buffers it (`eager`).  `Waitany` returns any
request that can complete; without active requests it returns `UNDEFINED` at once.  Any worker may
take the next step.
-/

namespace Verif.Exchange

/-- One phase of one worker: sources of the receive requests and destinations of the send requests
(`none` is `REQUEST_NULL`), packing of send slot `j`, local work between the last send and the
loop, unpacking of receive slot `k`. -/
structure Phase (σ μ : Type) where
  recvs : List (Option Nat)
  sends : List (Option Nat)
  pack : Nat → σ → μ
  work : σ → σ
  unpack : Nat → μ → σ → σ

variable {σ μ : Type}

/-- Number of requests of a phase. -/
def Phase.total (ph : Phase σ μ) : Nat := ph.recvs.length + ph.sends.length

/-- Request `i` is not `REQUEST_NULL`; receives come first in the request list. -/
def Phase.Active (ph : Phase σ μ) (i : Nat) : Prop :=
  (∃ s, ph.recvs[i]? = some (some s)) ∨
    (ph.recvs.length ≤ i ∧ ∃ d, ph.sends[i - ph.recvs.length]? = some (some d))

/-- Control state of a worker. -/
structure WState (σ : Type) where
  /-- current phase -/
  phase : Nat
  /-- local data -/
  st : σ
  /-- requests posted in this phase -/
  posted : Nat
  /-- inside the `Waitany` loop -/
  inLoop : Bool
  /-- `completed_count` -/
  iters : Nat
  /-- requests returned by `Waitany`, latest first -/
  done : List Nat
  /-- position of request `i` among the messages of its channel -/
  seq : Nat → Nat

/-- Global state: workers, messages posted per channel, receives posted per channel. -/
structure GState (σ μ : Type) where
  ws : Nat → WState σ
  sent : Nat → Nat → List μ
  wanted : Nat → Nat → Nat

/-- Replacing one worker's state. -/
def GState.setW (g : GState σ μ) (w : Nat) (x : WState σ) : GState σ μ :=
  { g with ws := fun v => if v = w then x else g.ws v }

/-- Initial state. -/
def GState.init (st0 : Nat → σ) : GState σ μ :=
  { ws := fun w => ⟨0, st0 w, 0, false, 0, [], fun _ => 0⟩
    sent := fun _ _ => [], wanted := fun _ _ => 0 }

/-- One step of some worker `w < n` in phase `< N`. -/
inductive Step (prog : Nat → Nat → Phase σ μ) (n N : Nat) (eager : Bool) :
    GState σ μ → GState σ μ → Prop
  /-- append a `REQUEST_NULL` -/
  | postNull (g : GState σ μ) (w : Nat) (hw : w < n) (hp : (g.ws w).phase < N)
      (hl : (g.ws w).inLoop = false)
      (hs : (prog (g.ws w).phase w).recvs[(g.ws w).posted]? = some none ∨
        ((prog (g.ws w).phase w).recvs.length ≤ (g.ws w).posted ∧
          (prog (g.ws w).phase w).sends[(g.ws w).posted - (prog (g.ws w).phase w).recvs.length]? =
            some none)) :
      Step prog n N eager g (g.setW w { g.ws w with posted := (g.ws w).posted + 1 })
  /-- `Irecv` -/
  | postRecv (g : GState σ μ) (w s : Nat) (hw : w < n) (hp : (g.ws w).phase < N)
      (hl : (g.ws w).inLoop = false)
      (hs : (prog (g.ws w).phase w).recvs[(g.ws w).posted]? = some (some s)) :
      Step prog n N eager g
        { (g.setW w { g.ws w with
            posted := (g.ws w).posted + 1
            seq := fun i => if i = (g.ws w).posted then g.wanted s w else (g.ws w).seq i }) with
          wanted := fun a b => if a = s ∧ b = w then g.wanted s w + 1 else g.wanted a b }
  /-- pack and `Isend` -/
  | postSend (g : GState σ μ) (w d : Nat) (hw : w < n) (hp : (g.ws w).phase < N)
      (hl : (g.ws w).inLoop = false)
      (hr : (prog (g.ws w).phase w).recvs.length ≤ (g.ws w).posted)
      (hs : (prog (g.ws w).phase w).sends[(g.ws w).posted - (prog (g.ws w).phase w).recvs.length]? =
        some (some d)) :
      Step prog n N eager g
        { (g.setW w { g.ws w with
            posted := (g.ws w).posted + 1
            seq := fun i => if i = (g.ws w).posted then (g.sent w d).length else (g.ws w).seq i }) with
          sent := fun a b => if a = w ∧ b = d then g.sent w d ++
            [(prog (g.ws w).phase w).pack
              ((g.ws w).posted - (prog (g.ws w).phase w).recvs.length) (g.ws w).st] else g.sent a b }
  /-- local work, then enter the loop -/
  | enter (g : GState σ μ) (w : Nat) (hw : w < n) (hp : (g.ws w).phase < N)
      (hl : (g.ws w).inLoop = false) (hpost : (g.ws w).posted = (prog (g.ws w).phase w).total) :
      Step prog n N eager g
        (g.setW w { g.ws w with
          st := (prog (g.ws w).phase w).work (g.ws w).st
          inLoop := true })
  /-- `Waitany` returns a receive, which is unpacked -/
  | waitRecv (g : GState σ μ) (w i s : Nat) (m : μ) (hw : w < n) (hp : (g.ws w).phase < N)
      (hl : (g.ws w).inLoop = true) (hit : (g.ws w).iters < (prog (g.ws w).phase w).total)
      (hnd : i ∉ (g.ws w).done) (hs : (prog (g.ws w).phase w).recvs[i]? = some (some s))
      (hm : (g.sent s w)[(g.ws w).seq i]? = some m) :
      Step prog n N eager g
        (g.setW w { g.ws w with
          st := (prog (g.ws w).phase w).unpack i m (g.ws w).st
          iters := (g.ws w).iters + 1
          done := i :: (g.ws w).done })
  /-- `Waitany` returns a send -/
  | waitSend (g : GState σ μ) (w i d : Nat) (hw : w < n) (hp : (g.ws w).phase < N)
      (hl : (g.ws w).inLoop = true) (hit : (g.ws w).iters < (prog (g.ws w).phase w).total)
      (hnd : i ∉ (g.ws w).done) (hr : (prog (g.ws w).phase w).recvs.length ≤ i)
      (hs : (prog (g.ws w).phase w).sends[i - (prog (g.ws w).phase w).recvs.length]? =
        some (some d))
      (hm : eager = true ∨ (g.ws w).seq i < g.wanted w d) :
      Step prog n N eager g
        (g.setW w { g.ws w with
          iters := (g.ws w).iters + 1
          done := i :: (g.ws w).done })
  /-- `Waitany` without active requests returns `UNDEFINED` -/
  | waitNull (g : GState σ μ) (w : Nat) (hw : w < n) (hp : (g.ws w).phase < N)
      (hl : (g.ws w).inLoop = true) (hit : (g.ws w).iters < (prog (g.ws w).phase w).total)
      (hall : ∀ i, (prog (g.ws w).phase w).Active i → i ∈ (g.ws w).done) :
      Step prog n N eager g (g.setW w { g.ws w with iters := (g.ws w).iters + 1 })
  /-- the loop ends; next phase -/
  | next (g : GState σ μ) (w : Nat) (hw : w < n) (hp : (g.ws w).phase < N)
      (hl : (g.ws w).inLoop = true) (hit : (g.ws w).iters = (prog (g.ws w).phase w).total) :
      Step prog n N eager g
        (g.setW w ⟨(g.ws w).phase + 1, (g.ws w).st, 0, false, 0, [], (g.ws w).seq⟩)

/-- Executions: `Exec k g g'` if `g'` is reached from `g` by `k` steps. -/
inductive Exec (prog : Nat → Nat → Phase σ μ) (n N : Nat) (eager : Bool) :
    Nat → GState σ μ → GState σ μ → Prop
  | refl (g : GState σ μ) : Exec prog n N eager 0 g g
  | tail {k : Nat} {g g' g'' : GState σ μ} : Exec prog n N eager k g g' →
      Step prog n N eager g' g'' → Exec prog n N eager (k + 1) g g''

/-- Programs in which both sides agree: in every phase `s` sends to `d` exactly when `d` receives
from `s`, at most once, and only workers `< n` take part. -/
structure Matched (prog : Nat → Nat → Phase σ μ) (n N : Nat) : Prop where
  agree : ∀ p, p < N → ∀ s, s < n → ∀ d, d < n →
    (some d ∈ (prog p s).sends ↔ some s ∈ (prog p d).recvs)
  sends_once : ∀ p, p < N → ∀ s, s < n → ∀ d, (prog p s).sends.count (some d) ≤ 1
  recvs_once : ∀ p, p < N → ∀ d, d < n → ∀ s, (prog p d).recvs.count (some s) ≤ 1
  sends_range : ∀ p, p < N → ∀ s, s < n → ∀ d, some d ∈ (prog p s).sends → d < n
  recvs_range : ∀ p, p < N → ∀ d, d < n → ∀ s, some s ∈ (prog p d).recvs → s < n

/-- Unpacking different slots can be done in either order. -/
def Commutes (prog : Nat → Nat → Phase σ μ) (n N : Nat) : Prop :=
  ∀ p, p < N → ∀ w, w < n → ∀ (i j a b : Nat), i ≠ j →
    (prog p w).recvs[i]? = some (some a) → (prog p w).recvs[j]? = some (some b) →
    ∀ (m m' : μ) (x : σ), (prog p w).unpack i m ((prog p w).unpack j m' x) =
      (prog p w).unpack j m' ((prog p w).unpack i m x)

/-- The reference semantics: all workers perform a phase at the same time; the receive slots are
unpacked in order, each with the message its source packed for this worker at the beginning of the
phase. -/
def lock (prog : Nat → Nat → Phase σ μ) (st0 : Nat → σ) : Nat → Nat → σ
  | 0, w => st0 w
  | p + 1, w =>
    (List.range (prog p w).recvs.length).foldl
      (fun x k => match (prog p w).recvs[k]? with
        | some (some s) =>
          (prog p w).unpack k
            ((prog p s).pack ((prog p s).sends.idxOf (some w)) (lock prog st0 p s)) x
        | _ => x)
      ((prog p w).work (lock prog st0 p w))

end Verif.Exchange
