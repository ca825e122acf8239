import Verif.Model.Moves
import Verif.Spec.Shape
/-!
# Specification of a program that makes, copies, moves, changes and deletes perceptrons (C88)

Networks are values: each has its own parameters.  Copying copies the value, moving takes it away and leaves a network
with no layers, changing a parameter of one network changes that parameter of that network only.
-/
namespace Verif.Spec
open Verif Verif.Nets

variable {T : Type}

/-- What a user can learn of a parameter: whether it is initialised, its initializer, its shape and the shape it
accepts, whether it has storage, and its data once it is initialised. -/
structure Param (T : Type) where
  ready : Bool
  init : Option (Nat → T)
  shape : List Nat
  allowed : List Nat
  stored : Bool
  data : Option (List T)

/-- What a user learns of a variable in a given state. -/
def Param.of (l : Leaf T) : Param T :=
  ⟨l.isInit, l.init, l.data.alloc, l.data.allowed, l.data.raw.isSome, if l.isInit then l.data.raw else none⟩

/-- A new variable: not initialised; it has storage if its shape has no unknown extent. -/
def Param.new (shape : List Nat) (init : Nat → T) : Param T :=
  ⟨false, some init, if 0 ∈ shape then [] else shape, shape, decide (0 ∉ shape), none⟩

/-- A perceptron as a value.  For every layer: how many parameters it has, and its activation. -/
structure NetVal (T : Type) where
  scope : List Char
  nIn : Nat
  nOut : Option Nat
  layers : List (Nat × Nat)
  params : List (Param T)

/-- The parameters of a new perceptron: for the layer of size `k` after `n` values, a `k` by `n` weight and a bias. -/
def newParams (zero : T) (winit : Nat → Nat → T) : Nat → List (Nat × Nat) → List (Param T)
  | _, [] => []
  | n, h :: hs => Param.new [h.1, n] (winit n) :: Param.new [h.1] (fun _ => zero) :: newParams zero winit h.1 hs

def NetVal.new (zero : T) (winit : Nat → Nat → T) (nIn : Nat) (hiddens : List (Nat × Nat)) (scope : List Char) : NetVal T :=
  ⟨scope, nIn, hiddens.getLast?.map Prod.fst, hiddens.map fun h => (2, h.2), newParams zero winit nIn hiddens⟩

/-- What is left when the value is moved away: the sizes, and some string. -/
def NetVal.left (rest : List Char → List Char) (a : NetVal T) : NetVal T := ⟨rest a.scope, a.nIn, a.nOut, [], []⟩

/-- The networks of a program, under the numbers in which they were made. -/
structure Program (T : Type) where
  made : Nat
  net : Nat → Option (NetVal T)

def Program.start : Program T := ⟨0, fun _ => none⟩

def Program.set (P : Program T) (i : Nat) (o : Option (NetVal T)) : Program T := { P with net := fun k => if k = i then o else P.net k }

def Program.add (P : Program T) (a : NetVal T) : Program T := ⟨P.made + 1, fun k => if k = P.made then some a else P.net k⟩

/-- One step; nothing if the program uses a network that does not exist, or a parameter beyond the last. -/
def Program.step (zero : T) (winit : Nat → Nat → T) (rest : List Char → List Char) (P : Program T) : Step T → Option (Program T)
  | .new nIn hiddens scope => some (P.add (NetVal.new zero winit nIn hiddens scope))
  | .clone i scope => (P.net i).map fun a => P.add { a with scope := if scope = [] then a.scope ++ "_cpy".toList else scope }
  | .assign i j => (P.net i).bind fun _ => (P.net j).map fun b => P.set i (some b)
  | .move i => (P.net i).map fun a => (P.set i (some (a.left rest))).add a
  | .moveAssign i j => (P.net i).bind fun _ => (P.net j).map fun b => if i = j then P else (P.set i (some b)).set j (some (b.left rest))
  | .delete i => (P.net i).map fun _ => P.set i none
  | .put i k l => (P.net i).bind fun a => if k < a.params.length then some (P.set i (some { a with params := a.params.set k (Param.of l) })) else none

def Program.run (zero : T) (winit : Nat → Nat → T) (rest : List Char → List Char) (P : Program T) : List (Step T) → Option (Program T)
  | [] => some P
  | s :: ss => (P.step zero winit rest s).bind fun P' => P'.run zero winit rest ss

/-- The values a program writes are possible states of a variable: storage is as large as the shape says. -/
def Proper : Step T → Prop
  | .put _ _ l => ∀ b, l.data.raw = some b → Full l.data.alloc ∧ b.length = vol l.data.alloc
  | _ => True

/-- What a user sees of a perceptron: its sizes and scope, and the parameters `get_variables()` gives; nothing if one of
them is no longer there. -/
def NetVal.read (m : Mem T) (a : MLP) : Option (NetVal T) :=
  (a.vars.mapM fun x => (m.at_ x).map fun v => Param.of v.leaf).map fun ps =>
    ⟨a.scope, a.nIn, a.nOut, a.layers.map fun p => (p.1.vars.length, p.2), ps⟩

end Verif.Spec
