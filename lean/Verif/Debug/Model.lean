import Verif.Net.Async

/-!
# `utilities/debug.py`

`print_sequential(comm, val)`: the workers of a communicator print one after the other, by sending what they have to say to the
first of them.  Workers run through their calls without waiting for each other, on the machine of `Verif.Net.Machine`.
-/

namespace Verif.Debug

open Verif.Net

variable {α : Type}

/-- A call: the members of the communicator in the order of their ranks, its number, and the values.  Workers outside
the communicator do nothing (`partition.py: print_sequential`, 180-183: only active workers go on to `debug.py`). -/
structure PrintCall (α : Type) where
  comm : List Nat
  c : Nat
  val : Nat → α

/-- `debug.py:9-11, 14`, one `i` of the loop: rank `i`, which is worker `s`, sends its value and leaves; rank 0, worker `r`, waits
for it and prints it.  The tag is 0, so all calls with the same communicator use the same channel.  A receive contributes nothing;
the library may let the sender go at once or keep it until the message is received.  What a worker has printed is a list;
`sys.stdout.flush` (line 12) is left out. -/
def passPhase (c r s : Nat) (val : Nat → α) : Nat → List α → Phase (List α) (Option α) := fun w _ =>
  if w = s then ⟨[⟨.msg c s r, some (val s), [], fun _ x => x⟩], id, none⟩
  else if w = r then ⟨[⟨.msg c s r, none, [s], fun m x => x ++ m.filterMap id⟩], id, none⟩
  else ⟨[], id, none⟩

/-- `debug.py:4-14`: rank 0 prints its own value (line 8) and then those of the others. -/
def printProg (k : PrintCall α) : Prog (List α) (Option α) :=
  match k.comm with
  | [] => []
  | r :: rest => localPhase (fun w x => if w = r then x ++ [k.val r] else x) :: rest.map fun s => passPhase k.c r s k.val

/-- Several calls. -/
def printsProg (ks : List (PrintCall α)) : Prog (List α) (Option α) := ks.flatMap printProg

end Verif.Debug
