import Verif.Model.Tensor
/-!
# Model of leaves: constants, placeholders, variables
(app/tenncor/src/graph/leaf/{ileaf,constant,ivariable,placeholder,variable}.ipp and the assigner of
src/tensor/tensor_handler.ipp)

Simplifications.  `notify(UPDATE)` is left to the models of the graph (C24-C33).  The literal `0` of the
element type is the all-zero-bytes value `Env.zero`, as for every arithmetic type.  An initializer is the
sequence of values it writes (for random ones: whichever it draws).
-/
namespace Verif

structure Leaf (T : Type) where
  data : Tensor T
  isInit : Bool
  /-- `init_`, null for placeholders -/
  init : Option (Nat → T)

namespace Leaf
variable {T : Type}

/-- The loop `dest[i] = f(dest[i], src[i])` for `i < n`, tensor_handler.ipp:111-114, 125-128. -/
def combine (f : T → T → T) (n : Nat) (dest src : List T) : Outcome (List T) :=
  Outcome.loop n (fun i buf => Outcome.read buf i >>= fun a => Outcome.read src i >>= fun b =>
    Outcome.write buf i (f a b)) dest

/-- `get_raw`, tensor_handler.ipp:28-40: asserts that the tensor is allocated. -/
def rawOf (t : Tensor T) : Outcome (List T) :=
  Outcome.assert t.isAlloc >>= fun _ =>
    match t.raw with
    | some buf => .ok buf
    | none => .ub

/-- The same on a tensor, through `get_raw`. -/
def combineAt (f : T → T → T) (n : Nat) (t : Tensor T) (src : List T) : Outcome (Tensor T) :=
  rawOf t >>= fun buf => combine f n buf src >>= fun buf' => .ok { t with raw := some buf' }

/-- `assign_func::operator()(tensor&, vector, f)`, tensor_handler.ipp:117-129. -/
def assignVec (f : T → T → T) (t : Tensor T) (data : List T) : Outcome (Tensor T) :=
  Outcome.assert (decide (t.getShape.nElems ≤ data.length)) >>= fun _ =>
    combineAt f t.getShape.nElems t data

/-- `assign_func::operator()(tensor&, const tensor&, f)`, tensor_handler.ipp:101-115. -/
def assignTensor (f : T → T → T) (t arg : Tensor T) : Outcome (Tensor T) :=
  Outcome.assert (decide (arg.nElems = t.getShape.nElems)) >>= fun _ =>
    rawOf t >>= fun _ => rawOf arg >>= fun src => combineAt f arg.nElems t src

/-- The default `f` of the assigner, include/tensor/tensor_handler.hpp: the new value. -/
def second (_ b : T) : T := b

/-- `initializer::operator()`: `calc_data` writes `n_elems` values, tensor_handler.ipp:209-213, 233-237. -/
def fillWith (t : Tensor T) (g : Nat → T) : Outcome (Tensor T) :=
  rawOf t >>= fun buf =>
    Outcome.loop t.getShape.nElems (fun i b => Outcome.write b i (g i)) buf >>= fun buf' => .ok { t with raw := some buf' }

/-- `get_eval`, ileaf.ipp:133-141. -/
def eval (l : Leaf T) : Option (Tensor T) := if l.isInit then some l.data else none

/-- `read_proto`, ileaf.ipp:102-112, with assertions enabled. -/
def readProto (r : ByteRep T) (e : Env T) (l : Leaf T) (p : TensorProto) : Outcome (Leaf T × Bool) :=
  l.data.fromProto r e false p >>= fun x =>
    .ok ({ l with data := x.1, isInit := l.isInit || x.2 }, x.2)

/-! ### Constants -/

/-- `constant(T scalar)`, constant.ipp:62-71. -/
def constScalar (e : Env T) (v : T) : Outcome (Leaf T) :=
  (Tensor.new e [1]).allocate e >>= fun x => fillWith x.1 (fun _ => v) >>= fun t => .ok ⟨t, true, none⟩

/-- The part of the constructor for data that is not allocated yet, constant.ipp:80-91. -/
def constAlloc (e : Env T) (t : Tensor T) (raw : List T) (shape : Shape) : Outcome (Tensor T × List T) :=
  if t.isAlloc then .ok (t, raw)
  else
    let raw1 := if shape.nKnown > raw.length then raw ++ List.replicate (shape.nKnown - raw.length) e.zero else raw
    t.looselyGuessShape raw1.length >>= fun s => match s with
      | none => .abort
      | some s => t.allocateShape e s >>= fun x => .ok (x.1, raw1)

/-- `constant(std::vector<T> raw, tensorshape shape)`, constant.ipp:73-102. -/
def constVec (e : Env T) (raw : List T) (shape : Shape) : Outcome (Leaf T) :=
  constAlloc e (Tensor.new e shape) raw shape >>= fun x =>
    Outcome.assert x.1.isAlloc >>= fun _ =>
      let raw2 := if x.1.nElems > raw.length then x.2 ++ List.replicate (x.1.nElems - raw.length) e.zero else x.2
      assignVec second x.1 raw2 >>= fun t => .ok ⟨t, true, none⟩

/-- The callback of `const_axis`, constant.ipp:143-148, over the calls of `iterate`. -/
def axisLoop (dim idx : Nat) (scalar : T) : List (List Nat × Nat) → List T → Outcome (List T)
  | [], data => .ok data
  | (coord, i) :: calls, data =>
    match coord[dim]? with
    | none => .ub
    | some k => axisLoop dim idx scalar calls (if k = idx then data.set i scalar else data)

/-- `const_axis`, constant.ipp:139-151. -/
def constAxis (e : Env T) (dim idx : Nat) (scalar : T) (shape : Shape) : Outcome (Leaf T) :=
  shape.iterate >>= fun calls => axisLoop dim idx scalar calls (List.replicate shape.nElems e.zero) >>= fun data => constVec e data shape

/-! ### Placeholders -/

/-- `placeholder(shape)`, placeholder.ipp:15-17, ileaf.ipp:114-117. -/
def placeholder (e : Env T) (shape : Shape) : Leaf T := ⟨Tensor.new e shape, false, none⟩

/-- Allocation for data in `operator = (vector)`, placeholder.ipp:64-75. -/
def placeAlloc (e : Env T) (t : Tensor T) (n : Nat) : Outcome (Tensor T) :=
  if t.isAlloc then .ok t
  else t.guessShape n >>= fun s => match s with
    | some s => t.allocateShape e s >>= fun x => .ok x.1
    | none => .throw .logicError

/-- `operator = (std::vector<T> data)`, placeholder.ipp:56-81. -/
def assignPlaceholder (e : Env T) (l : Leaf T) (data : List T) : Outcome (Leaf T) :=
  Outcome.assert (l.data.isCompatibleWithData data.length) >>= fun _ =>
    placeAlloc e l.data data.length >>= fun t =>
      assignVec second t data >>= fun t' => .ok { l with data := t', isInit := true }

/-- `operator = (tensor<T>& data)`, placeholder.ipp:83-91: moves from the argument; second component. -/
def movePlaceholder (l : Leaf T) (t : Tensor T) : Leaf T × Tensor T :=
  ({ l with data := t.moveHelper.1, isInit := true }, t.moveHelper.2)

/-! ### Variables -/

/-- `variable(shape)` and `variable(shape, init)`, variable.ipp:23-31. -/
def newVariable (e : Env T) (shape : Shape) (init : Option (Nat → T)) : Leaf T := ⟨Tensor.new e shape, false, init⟩

/-- `initialize(void)` from the point where the initializer is known to exist, variable.ipp:57-67. -/
def initWith (e : Env T) (l : Leaf T) (g : Nat → T) : Outcome (Leaf T) :=
  if l.data.isAlloc then fillWith l.data g >>= fun t => .ok { l with data := t, isInit := true }
  else l.data.allocate e >>= fun x =>
    if x.2 then fillWith x.1 g >>= fun t => .ok { l with data := t, isInit := true }
    else .throw .runtimeError

/-- `initialize(void)`, variable.ipp:52-68. -/
def init0 (e : Env T) (l : Leaf T) : Outcome (Leaf T) :=
  match l.init with
  | none => .abort
  | some g => initWith e l g

/-- `initialize(shape)`, variable.ipp:70-87. -/
def initializeShape (e : Env T) (l : Leaf T) (shape : Shape) : Outcome (Leaf T) :=
  match l.init with
  | none => .abort
  | some g => l.data.allocateShape e shape >>= fun x =>
    if x.2 then fillWith x.1 g >>= fun t => .ok { l with data := t, isInit := true }
    else .throw .runtimeError

/-- The argument of `assign`, `assign_add`, `assign_sub`: the elements of a constant, or what `eval` of another
node returns when the updater is run. -/
inductive Arg (T : Type) where
  | const (d : List T)
  | node (t : Option (Tensor T))

/-- Running the updater returned by `assign`, `assign_add` or `assign_sub`, variable.ipp:89-192.  `skipZero`
is set for the latter two. -/
def update [DecidableEq T] (e : Env T) (f : T → T → T) (skipZero : Bool) (l : Leaf T) : Arg T → Outcome (Leaf T)
  | .const d =>
    if skipZero && decide (d = [e.zero]) then .ok l
    else assignVec f l.data d >>= fun t => .ok { l with data := t }
  | .node none => .abort
  | .node (some a) => assignTensor f l.data a >>= fun t => .ok { l with data := t }

def assign [DecidableEq T] (e : Env T) (l : Leaf T) (a : Arg T) : Outcome (Leaf T) := update e second false l a
def assignAdd [DecidableEq T] [Add T] (e : Env T) (l : Leaf T) (a : Arg T) : Outcome (Leaf T) := update e (· + ·) true l a
def assignSub [DecidableEq T] [Sub T] (e : Env T) (l : Leaf T) (a : Arg T) : Outcome (Leaf T) := update e (· - ·) true l a

/-- Calls on one variable. -/
inductive VOp (T : Type) where
  | initialize
  | initializeShape (s : Shape)
  | update (f : T → T → T) (skipZero : Bool) (a : Arg T)
  | readProto (p : TensorProto)

def vstep [DecidableEq T] (r : ByteRep T) (e : Env T) (l : Leaf T) : VOp T → Outcome (Leaf T)
  | .initialize => l.init0 e
  | .initializeShape s => l.initializeShape e s
  | .update f z a => update e f z l a
  | .readProto p => l.readProto r e p >>= fun x => .ok x.1

def vrun [DecidableEq T] (r : ByteRep T) (e : Env T) (l : Leaf T) : List (VOp T) → Outcome (Leaf T)
  | [] => .ok l
  | op :: ops => vstep r e l op >>= fun l' => vrun r e l' ops

/-- A sequence of assignments to a placeholder. -/
def assignAll (e : Env T) (l : Leaf T) : List (List T) → Outcome (Leaf T)
  | [] => .ok l
  | d :: ds => assignPlaceholder e l d >>= fun l' => assignAll e l' ds

end Leaf
end Verif
