import Verif.Spec.Tensor
/-!
# Specification vocabulary for operators

All of it is about coordinates; nothing here mentions buffers, flat indices or the model's loops.
-/
namespace Verif.Spec

/-- The shape left after reducing axis `k`: an outer axis disappears (if another remains), an inner
one becomes 1. -/
def reduceShape (s : List Nat) (k : Nat) : List Nat :=
  if s.length = 1 then [1]
  else if k = 0 ∨ k = s.length - 1 then s.eraseIdx k
  else s.set k 1

/-- The coordinate of shape `s` with `j` on axis `k` that belongs to coordinate `c` of
`reduceShape s k`. -/
def fibreCoord (s : List Nat) (k : Nat) (c : List Nat) (j : Nat) : List Nat :=
  if c.length = s.length then c.set k j else c.insertIdx k j

/-- The elements of the fibre of `c` along axis `k`, in order. -/
def fibre {T : Type} (s : List Nat) (k : Nat) (f : List Nat → T) (c : List Nat) : List T :=
  (List.range (s.getD k 0)).map (fun j => f (fibreCoord s k c j))

/-- Fold of a non-empty list from its first element. -/
def fold1 {T : Type} [Inhabited T] (op : T → T → T) : List T → T
  | [] => default
  | x :: xs => xs.foldl op x

/-- Mirror the coordinate on the axes that occur an odd number of times in `dims`. -/
def mirror (s dims c : List Nat) : List Nat :=
  (List.range s.length).map (fun i =>
    if dims.count i % 2 = 1 then s.getD i 0 - 1 - c.getD i 0 else c.getD i 0)

/-- The coordinate of `reduceShape s k` below coordinate `c` of `s`. -/
def reduceCoord (s : List Nat) (k : Nat) (c : List Nat) : List Nat :=
  if s.length = 1 then [0]
  else if k = 0 ∨ k = s.length - 1 then c.eraseIdx k
  else c.set k 0

end Verif.Spec
