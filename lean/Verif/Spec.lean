/-!
# Small specification vocabulary

Independent of the model: multi-indices, boxes and the cells they contain.
-/

namespace Verif

/-- A multi-index lies inside a shape: same rank, every coordinate below the extent. -/
def InBounds : (idx shape : List Nat) → Prop
  | [], [] => True
  | i :: is, n :: ns => i < n ∧ InBounds is ns
  | _, _ => False

/-- A cell lies in the half-open box with the given corners. -/
def InBox : (starts stops cell : List Nat) → Prop
  | [], [], [] => True
  | s :: ss, e :: es, g :: gs => (s ≤ g ∧ g < e) ∧ InBox ss es gs
  | _, _, _ => False

/-- A local cell `l` relative to the corner `start` is the global cell `g`. -/
def shiftBy : (start l : List Nat) → List Nat
  | s :: ss, l :: ls => (s + l) :: shiftBy ss ls
  | _, _ => []

/-- A local cell lies in a tuple of slices. -/
def InSlices : List (Nat × Nat) → List Nat → Prop
  | [], [] => True
  | p :: ps, l :: ls => (p.1 ≤ l ∧ l < p.2) ∧ InSlices ps ls
  | _, _ => False

instance InBounds.dec : (a b : List Nat) → Decidable (InBounds a b)
  | [], [] => isTrue trivial
  | _ :: is, _ :: ns => @instDecidableAnd _ _ _ (InBounds.dec is ns)
  | [], _ :: _ => isFalse fun h => h
  | _ :: _, [] => isFalse fun h => h

instance InBox.dec : (a b c : List Nat) → Decidable (InBox a b c)
  | [], [], [] => isTrue trivial
  | _ :: ss, _ :: es, _ :: gs => @instDecidableAnd _ _ _ (InBox.dec ss es gs)
  | [], [], _ :: _ => isFalse fun h => h
  | [], _ :: _, _ => isFalse fun h => h
  | _ :: _, [], _ => isFalse fun h => h
  | _ :: _, _ :: _, [] => isFalse fun h => h

instance InSlices.dec : (a : List (Nat × Nat)) → (b : List Nat) → Decidable (InSlices a b)
  | [], [] => isTrue trivial
  | _ :: ps, _ :: ls => @instDecidableAnd _ _ _ (InSlices.dec ps ls)
  | [], _ :: _ => isFalse fun h => h
  | _ :: _, [] => isFalse fun h => h

end Verif
