import Verif.Model.React
/-!
# Model of the lifetimes of nodes and smart pointers
(app/tenncor/src/graph/react/{subject,iobserver}.cpp, src/graph/varptr.ipp, src/graph/leaf/constant.ipp,
src/graph/connector/immutable/{base_immutable,generator}.ipp)

`Model/React` has the observer network without its hooks; here the hooks run: `death_on_broken` deletes an
operation or a generator that loses an argument, `death_on_noparent` deletes a constant or a generator that
loses its last observer, and a destructor runs the hooks of everything it releases.  Nodes and smart pointers
share one address space; addresses are never used twice.  Kill-on-death registrations, used only by the
temporary graphs of `temporary_eval`, are in `Model/React` and not here.  Iteration orders of the hash
containers are a parameter (`React.Ord`).
-/
namespace Verif
namespace Life
open React (upd forEach popNulls Ord)

/-- What an object is: `leaf` a variable, placeholder or managed constant; `const` an unmanaged constant; `op` a
`base_immutable`; `gen` a `generator`; `ptr` a `varptr` or `placeptr`. -/
inductive Kind where
  | leaf | const | op | gen | ptr
deriving DecidableEq

/-- Objects whose `death_on_broken` is `delete this`: base_immutable.ipp:207-211, generator.ipp:186-190. -/
def Kind.breaks : Kind → Bool
  | .op | .gen => true
  | _ => false

/-- Objects whose `death_on_noparent` deletes them: constant.ipp:104-111, generator.ipp:192-196. -/
def Kind.loose : Kind → Bool
  | .const | .gen => true
  | _ => false

structure Heap where
  /-- the next unused address -/
  next : Nat
  kind : Nat → Kind
  /-- memory not yet freed -/
  alloc : Nat → Bool
  /-- the destructor has begun and not ended -/
  dying : Nat → Bool
  /-- `iobserver::dependencies_` -/
  deps : Nat → List (Option Nat)
  /-- `subject::audience_` -/
  aud : Nat → List (Nat × Nat)
  /-- the smart pointers in an operation's gradient cache `gcache_`, base_immutable.hpp:34, 118 -/
  cache : Nat → List Nat

def Heap.empty : Heap :=
  { next := 0, kind := fun _ => .leaf, alloc := fun _ => false, dying := fun _ => false, deps := fun _ => [], aud := fun _ => [], cache := fun _ => [] }

/-- Any access to freed memory is undefined. -/
def need (n : Nat) (h : Heap) : Outcome Heap := if h.alloc n = true then .ok h else .ub

/-- `subject::attach`, subject.cpp:150-163. -/
def attach (s o i : Nat) (h : Heap) : Outcome Heap :=
  need s h >>= fun h => .ok { h with aud := upd h.aud s (if (o, i) ∈ h.aud s then h.aud s else (o, i) :: h.aud s) }

/-- `audience_[viewer].erase(idx)`, subject.cpp:199-207. -/
def unlink (s o i : Nat) (h : Heap) : Heap := { h with aud := upd h.aud s ((h.aud s).filter (fun p => p ≠ (o, i))) }

/-- `subject::detach(viewer, idx)` with the virtual `death_on_noparent`, subject.cpp:187-212.  While the destructor
of the subject runs the hook is the base class's, which does nothing. -/
def release (rec : Nat → Heap → Outcome Heap) (s o i : Nat) (h : Heap) : Outcome Heap :=
  need s h >>= fun h =>
    if (unlink s o i h).aud s = [] ∧ (h.kind s).loose = true ∧ h.dying s = false then rec s (unlink s o i h)
    else .ok (unlink s o i h)

/-- `dependencies_[idx] = nullptr` and the popping of trailing null pointers, iobserver.cpp:118-124. -/
def blank (o i : Nat) (h : Heap) : Outcome Heap :=
  need o h >>= fun h => .ok { h with deps := upd h.deps o (popNulls ((h.deps o).set i none)) }

/-- `iobserver::remove_dependency`, iobserver.cpp:107-126. -/
def removeDep (rec : Nat → Heap → Outcome Heap) (o i : Nat) (h : Heap) : Outcome Heap :=
  need o h >>= fun h =>
    match (h.deps o)[i]? with
    | none => .throw .logicError
    | some none => .ok h
    | some (some s) => release rec s o i h >>= fun h => blank o i h

/-- The loop of `iobserver::~iobserver`, iobserver.cpp:16-22. -/
def dropDeps (rec : Nat → Heap → Outcome Heap) (o : Nat) (h : Heap) : Outcome Heap :=
  need o h >>= fun h => forEach (removeDep rec o) (List.range (h.deps o).length) h

/-- An exception leaving a destructor calls `std::terminate`. -/
def noThrow (x : Outcome Heap) : Outcome Heap :=
  match x with
  | .throw _ => .abort
  | y => y

/-- The end of an object's lifetime. -/
def free (n : Nat) (h : Heap) : Heap := { h with alloc := upd h.alloc n false, dying := upd h.dying n false }

/-- `varptr<T>::~varptr`, varptr.ipp:19-20, which is `~iobserver`. -/
def dropPtr (rec : Nat → Heap → Outcome Heap) (p : Nat) (h : Heap) : Outcome Heap :=
  noThrow (dropDeps rec p h) >>= fun h => .ok (free p h)

/-- The indices under which `v` observes `n`. -/
def indices (h : Heap) (n v : Nat) : List Nat := ((h.aud n).filter (fun p => p.1 == v)).map (·.2)

/-- The keys of `audience_`. -/
def viewers (h : Heap) (n : Nat) : List Nat := ((h.aud n).map (·.1)).eraseDups

/-- The virtual `death_on_broken`: base_immutable.ipp:207-211, generator.ipp:186-190, varptr.ipp:52-57. -/
def broken (rec : Nat → Heap → Outcome Heap) (v : Nat) (h : Heap) : Outcome Heap :=
  if (h.kind v).breaks = true then rec v h
  else if h.deps v = [] then .ok h
  else removeDep rec v 0 h

/-- One turn of `subject::notify(UNSUBSCRIBE)` and `iobserver::update(indices, UNSUBSCRIBE)`, subject.cpp:82-89,
iobserver.cpp:146-164. -/
def turn (rec : Nat → Heap → Outcome Heap) (ord : Ord) (n v : Nat) (h : Heap) : Outcome Heap :=
  if indices h n v = [] then .ok h
  else forEach (removeDep rec v) (ord.nat (indices h n v)) h >>= fun h => broken rec v h

/-- The destructor begins. -/
def mark (n : Nat) (h : Heap) : Heap := { h with dying := upd h.dying n true }

/-- `delete node`.  The destructor of the most derived class first destroys the members (for an operation its
gradient cache, base_immutable.ipp:15), then `~iobserver` (iobserver.cpp:16-30) and last `~subject`
(subject.cpp:22-41) run: bases are destroyed in the reverse order of their declaration, iconnector.hpp:41.
Deleting an object whose destructor is running is undefined.  The first argument bounds the depth of the
recursion; that it is never exhausted is part of what is proved. -/
def del (ord : Ord) : Nat → Nat → Heap → Outcome Heap
  | 0, _, _ => .abort
  | fuel + 1, n, h =>
    need n h >>= fun h =>
    if h.dying n = true then .ub
    else noThrow (
      forEach (dropPtr (del ord fuel)) (ord.nat (h.cache n)) (mark n h) >>= fun h =>
      dropDeps (del ord fuel) n h >>= fun h =>
      forEach (turn (del ord fuel) ord n) (ord.nat (viewers h n)) h >>= fun h =>
      .ok (free n h))

/-- `delete` with room for every object there is. -/
def delete (ord : Ord) (n : Nat) (h : Heap) : Outcome Heap := del ord h.next n h

/-- An object of kind `k` is allocated at the next address, with nobody observing it. -/
def fresh (k : Kind) (h : Heap) : Heap :=
  { h with next := h.next + 1, kind := upd h.kind h.next k, alloc := upd h.alloc h.next true, dying := upd h.dying h.next false, deps := upd h.deps h.next [], aud := upd h.aud h.next [], cache := upd h.cache h.next [] }

/-- `iobserver::add_dependency`, iobserver.cpp:98-105; the pointer may be null. -/
def addDep (o : Nat) (d : Option Nat) (h : Heap) : Outcome Heap :=
  need o h >>= fun h =>
    (match d with
      | some s => attach s o (h.deps o).length h
      | none => .ok h) >>= fun h =>
    .ok { h with deps := upd h.deps o (h.deps o ++ [d]) }

/-- Construction of an operation or a generator, iconnector.ipp:180-190 and iobserver.cpp:56-68.  (A null argument
is dereferenced, iconnector.ipp:190-193; arguments here are addresses.) -/
def newNode (k : Kind) (args : List Nat) (h : Heap) : Outcome Heap :=
  forEach (fun s => addDep h.next (some s)) args (fresh k h)

/-- `varptr<T>::varptr(inode<T>*)`, varptr.ipp:16-17. -/
def newPtr (d : Option Nat) (h : Heap) : Outcome Heap := addDep h.next d (fresh .ptr h)

/-- `varptr<T>::varptr()`, varptr.ipp:13-14. -/
def newNull (h : Heap) : Outcome Heap := .ok (fresh .ptr h)

/-- `varptr<T>::get`, varptr.ipp:40-45. -/
def get (p : Nat) (h : Heap) : Outcome (Option Nat) :=
  if h.alloc p = true then .ok ((h.deps p)[0]?.join) else .ub

/-- `dep->attach(this, 0)` if the pointer is not null, iobserver.cpp:131-134. -/
def attachTo (d : Option Nat) (p : Nat) (h : Heap) : Outcome Heap :=
  match d with
  | some s => attach s p 0 h
  | none => .ok h

/-- The release of the previous subject in `replace_dependency(dep, 0)`, iobserver.cpp:139-142. -/
def releaseLast (rec : Nat → Heap → Outcome Heap) (d : Option Nat) (p : Nat) (h : Heap) : Outcome Heap :=
  match (h.deps p)[0]? with
  | some (some last) => if some last ≠ d then release rec last p 0 h else .ok h
  | _ => .ok h

/-- `varptr<T>::operator=(inode<T>*)`, varptr.ipp:22-28, with `replace_dependency(dep, 0)`, iobserver.cpp:128-144. -/
def assign (ord : Ord) (p : Nat) (d : Option Nat) (h : Heap) : Outcome Heap :=
  need p h >>= fun h =>
    if h.deps p = [] then addDep p d h
    else attachTo d p h >>= fun h =>
      releaseLast (del ord h.next) d p h >>= fun h =>
      need p h >>= fun h => .ok { h with deps := upd h.deps p ((h.deps p).set 0 d) }

/-- The loop of `copy_helper` releasing the own dependencies, iobserver.cpp:174-177. -/
def releaseOwn (rec : Nat → Heap → Outcome Heap) (p i : Nat) (h : Heap) : Outcome Heap :=
  match (h.deps p)[i]? with
  | some (some s) => release rec s p i h
  | _ => .ok h

/-- `varptr<T>::operator=(const varptr<T>&)`, iobserver.cpp:32-39, 171-183; there is no move assignment because the
destructor is user-declared, so `p = std::move(q)` is this too. -/
def assignPtr (ord : Ord) (p q : Nat) (h : Heap) : Outcome Heap :=
  need p h >>= fun h => need q h >>= fun h =>
    if p = q then .ok h
    else forEach (releaseOwn (del ord h.next) p) (List.range (h.deps p).length) h >>= fun h =>
      need p h >>= fun h => need q h >>= fun h =>
      forEach (fun s => addDep p (some s)) ((h.deps q).filterMap id) { h with deps := upd h.deps p [] }

/-- The copy constructor of `varptr`, iobserver.cpp:70-73 (also used for a move). -/
def copyPtr (ord : Ord) (q : Nat) (h : Heap) : Outcome Heap := assignPtr ord h.next q (fresh .ptr h)

/-- `varptr<T>::clear`, varptr.ipp:49-50. -/
def clear (ord : Ord) (p : Nat) (h : Heap) : Outcome Heap := removeDep (del ord h.next) p 0 h

/-- The destruction of a smart pointer. -/
def destroyPtr (ord : Ord) (p : Nat) (h : Heap) : Outcome Heap := dropPtr (del ord h.next) p h

/-- `constant<T>::be_managed`, constant.ipp:50-54. -/
def manage (c : Nat) (h : Heap) : Outcome Heap := need c h >>= fun h => .ok { h with kind := upd h.kind c .leaf }

/-- `gcache_[leaf] = ...` for a new key, immutable.ipp:193: a smart pointer owned by the operation. -/
def cacheGrad (v : Nat) (d : Option Nat) (h : Heap) : Outcome Heap :=
  need v h >>= fun h => newPtr d h >>= fun g => .ok { g with cache := upd g.cache v (h.next :: g.cache v) }

/-- A call of a client. -/
inductive Call where
  | leaf
  | const
  | op (args : List Nat)
  | gen (arg : Nat)
  | null
  | ptr (d : Option Nat)
  | copy (ord : Ord) (q : Nat)
  | assign (ord : Ord) (p : Nat) (d : Option Nat)
  | assignPtr (ord : Ord) (p q : Nat)
  | clear (ord : Ord) (p : Nat)
  | destroy (ord : Ord) (p : Nat)
  | delete (ord : Ord) (n : Nat)
  | manage (c : Nat)
  | cacheGrad (v : Nat) (d : Option Nat)

def call : Call → Heap → Outcome Heap
  | .leaf, h => .ok (fresh .leaf h)
  | .const, h => .ok (fresh .const h)
  | .op args, h => newNode .op args h
  | .gen a, h => newNode .gen [a] h
  | .null, h => newNull h
  | .ptr d, h => newPtr d h
  | .copy ord q, h => copyPtr ord q h
  | .assign ord p d, h => assign ord p d h
  | .assignPtr ord p q, h => assignPtr ord p q h
  | .clear ord p, h => clear ord p h
  | .destroy ord p, h => destroyPtr ord p h
  | .delete ord n, h => delete ord n h
  | .manage c, h => manage c h
  | .cacheGrad v d, h => cacheGrad v d h

end Life
end Verif
