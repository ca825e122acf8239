import Verif.Model.Leaf
/-!
# Model of `generator<T>` (app/tenncor/src/graph/connector/immutable/generator.ipp)

Generators are numbered in the order of their creation; the nodes they depend on are numbered too, and are known by what
they answer: `good_status()` and `get_shape()`.  An initializer writes its k-th value as a function of the state of the
shared random engine, which it does not change (C77).  Not modelled: the graph manager and Jacobians a generator inherits
as an `iconnector`, the death of a generator whose dependency is destroyed.
-/
namespace Verif
namespace Gener
variable {σ T : Type}

/-- The k-th value written by an initializer, given the shared engine. -/
abbrev Init (σ T : Type) := σ → Nat → T

/-- What a generator asks its dependency, generator.ipp:112-113. -/
structure Status where
  good : Bool
  shape : Shape

/-- `generator<T>`: `dependencies_` (none: moved from), `init_`, `data_`. -/
structure Gen (σ T : Type) where
  dep : Option Nat
  init : Option (Init σ T)
  data : Option (Tensor T)

/-- `(*init_)(*data_)`, tensor_handler.ipp:199-203; a null `init_` is called through. -/
def fillBy (g : σ) (init : Option (Init σ T)) (t : Tensor T) : Outcome (Tensor T) :=
  match init with
  | none => .ub
  | some i => Leaf.fillWith t (i g)

/-- `update`, generator.ipp:103-137, with a dependency that is there; the second component says whether the generator
notifies its own audience. -/
def update (e : Env T) (g : σ) (d : Status) (x : Gen σ T) : Outcome (Gen σ T × Bool) :=
  if d.good = false ∨ d.shape.isFullyDefined = false then .ok (x, false)
  else match x.data with
    | none => fillBy g x.init (Tensor.new e d.shape) >>= fun t => .ok ({ x with data := some t }, true)
    | some t =>
      if t.getShape.isCompatibleWith d.shape = false then
        t.setShape e d.shape >>= fun t1 => fillBy g x.init t1 >>= fun t2 => .ok ({ x with data := some t2 }, true)
      else .ok (x, false)

/-- `get_shape`, generator.ipp:79-87. -/
def getShape (x : Gen σ T) : Shape :=
  match x.data with
  | none => []
  | some t => t.getShape

/-- `good_status`, generator.ipp:95-99. -/
def goodStatus (x : Gen σ T) : Bool := x.data.isSome

/-- `copy_helper`, generator.ipp:187-206, on a generator without data and initializer (a new one, or after `clean_up`);
`iobserver::copy_helper` has subscribed it to the other's dependency. -/
def copyOf (e : Env T) (o : Gen σ T) : Outcome (Gen σ T) :=
  match o.data with
  | none => .ok ⟨o.dep, o.init, none⟩
  | some t => t.copyHelper e false >>= fun t' => .ok ⟨o.dep, o.init, some t'⟩

/-- `move_helper`, generator.ipp:208-227, with `iobserver::move_helper`: the new state of the receiver, and of the other,
whose `init_` and `data_` still point at what was moved from. -/
def moveOf (o : Gen σ T) : Gen σ T × Gen σ T :=
  (⟨o.dep, o.init, o.data.map fun t => t.moveHelper.1⟩, ⟨none, o.init, o.data.map fun t => t.moveHelper.2⟩)

/-- The shared engine, the answers of the nodes, and the generators. -/
structure St (σ T : Type) where
  shared : σ
  deps : Nat → Status
  gens : List (Gen σ T)

/-- Calls. -/
inductive Ev (σ T : Type) where
  | engine (g : σ)
  | get (d : Nat) (i : Init σ T)
  | tell (d : Nat) (s : Status)
  | clone (x : Nat)
  | move (x : Nat)
  | assign (x y : Nat)
  | moveAssign (x y : Nat)

/-- The update of one generator when node d notifies its audience. -/
def hear (e : Env T) (g : σ) (d : Nat) (s : Status) (x : Gen σ T) : Outcome (Gen σ T × Bool) :=
  if x.dep = some d then update e g s x else .ok (x, false)

/-- One call; the second component lists, for each generator there is afterwards, whether it notified its audience.
`engine`: something drew from the shared engine.  `get`: generator.ipp:21-25, 139-146.  `tell`: node d changes its
answers and notifies.  `clone`, `move`: generator.ipp:27-37, 148-172.  The assignments: generator.ipp:39-63. -/
def step (e : Env T) (S : St σ T) : Ev σ T → Outcome (St σ T × List Bool)
  | .engine g => .ok ({ S with shared := g }, S.gens.map fun _ => false)
  | .get d i => update e S.shared (S.deps d) ⟨some d, some i, none⟩ >>= fun r =>
      .ok ({ S with gens := S.gens ++ [r.1] }, (S.gens.map fun _ => false) ++ [r.2])
  | .tell d s => Outcome.forM' S.gens (hear e S.shared d s) >>= fun rs =>
      .ok ({ S with deps := fun k => if k = d then s else S.deps k, gens := rs.map Prod.fst }, rs.map Prod.snd)
  | .clone x => Outcome.read S.gens x >>= fun o => copyOf e o >>= fun n =>
      .ok ({ S with gens := S.gens ++ [n] }, (S.gens.map fun _ => false) ++ [false])
  | .move x => Outcome.read S.gens x >>= fun o =>
      .ok ({ S with gens := S.gens.set x (moveOf o).2 ++ [(moveOf o).1] }, (S.gens.map fun _ => false) ++ [false])
  | .assign x y => Outcome.read S.gens x >>= fun _ => Outcome.read S.gens y >>= fun o =>
      if x = y then .ok (S, S.gens.map fun _ => false)
      else copyOf e o >>= fun n => .ok ({ S with gens := S.gens.set x n }, (S.gens.map fun _ => false).set x true)
  | .moveAssign x y => Outcome.read S.gens x >>= fun _ => Outcome.read S.gens y >>= fun o =>
      if x = y then .ok (S, S.gens.map fun _ => false)
      else .ok ({ S with gens := (S.gens.set y (moveOf o).2).set x (moveOf o).1 }, (S.gens.map fun _ => false).set x true)

/-- A program, from the beginning: no generator yet. -/
def run (e : Env T) : St σ T → List (Ev σ T) → Outcome (St σ T × List (List Bool))
  | S, [] => .ok (S, [])
  | S, ev :: evs => step e S ev >>= fun r => run e r.1 evs >>= fun q => .ok (q.1, r.2 :: q.2)

end Gener
end Verif
