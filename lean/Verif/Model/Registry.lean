/-!
# Model of the allocator registry
(app/tenncor/include/memory/alloc_builder.hpp, src/memory/alloc_builder.cpp)

Allocator classes are numbered; an allocator object is the number of the `new` that created it together with its
class.  The `unordered_map` is a function.  `dynamic_cast<A*>` succeeds on an object of class `C` when `derives C A`.
The destructor of the singleton is not modelled.
-/
namespace Verif.Registry

structure Obj where
  cls : Nat
  serial : Nat
  deriving DecidableEq, Repr

structure Reg where
  map : Nat → Option Obj
  fresh : Nat

/-- `default_alloc::alloc_id`, default_alloc.cpp:16. -/
def defaultId : Nat := 0

/-- The constructor, alloc_builder.cpp:33-37; `default_alloc` is class 0. -/
def Reg.new : Reg := ⟨fun k => if k = defaultId then some ⟨0, 0⟩ else none, 1⟩

/-- `get`, alloc_builder.cpp:22-31. -/
def Reg.get (r : Reg) (id : Nat) : Option Obj := r.map id

/-- `check_registry<A>`, alloc_builder.hpp:43-50. -/
def Reg.check (derives : Nat → Nat → Bool) (r : Reg) (cls id : Nat) : Bool :=
  match r.map id with
  | none => false
  | some o => derives o.cls cls

/-- `registertype<A>`, alloc_builder.hpp:54-65. -/
def Reg.register (r : Reg) (cls id : Nat) : Reg × Bool :=
  match r.map id with
  | none => (⟨fun k => if k = id then some ⟨cls, r.fresh⟩ else r.map k, r.fresh + 1⟩, true)
  | some _ => (r, false)

/-- A history of `registertype` calls (class, identifier) with their results. -/
def Reg.run (r : Reg) : List (Nat × Nat) → Reg × List Bool
  | [] => (r, [])
  | c :: cs => (((r.register c.1 c.2).1.run cs).1, (r.register c.1 c.2).2 :: ((r.register c.1 c.2).1.run cs).2)

end Verif.Registry
