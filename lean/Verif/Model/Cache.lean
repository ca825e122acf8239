import Verif.Basic
/-!
# Model of `shareable_cache` (app/tenncor/src/thread/shareable_cache.ipp)

Nodes live in a heap indexed by creation number; a `shared_ptr` is null or such a number, so nothing dangles (a node no
longer referenced is merely unreachable).  Every call holds the mutex for its whole body, except while `get_latest` waits
at its very end with the result already decided; a history is therefore a sequence of calls.  The hash map is a function.
Spurious wake-ups are not modelled.
-/
namespace Verif.Cache

/-- `cache_node`, include/thread/shareable_cache.hpp:24-32. -/
structure CNode (T : Type) where
  next : Option Nat
  prev : Option Nat
  data : T

/-- `cache_list` together with `umap_`. -/
structure Cache (K T : Type) where
  heap : Nat → Option (CNode T)
  fresh : Nat
  head : Option Nat
  tail : Option Nat
  umap : K → Option Nat

variable {K T : Type}

def Cache.new : Cache K T := ⟨fun _ => none, 0, none, none, fun _ => none⟩

/-- Dereference; null is undefined behaviour. -/
def Cache.deref (c : Cache K T) : Option Nat → Outcome (CNode T)
  | none => .ub
  | some i => match c.heap i with
    | none => .ub
    | some n => .ok n

def Cache.put (c : Cache K T) (i : Nat) (n : CNode T) : Cache K T :=
  { c with heap := fun k => if k = i then some n else c.heap k }

/-- `p->next_ = v` if `p` is not null. -/
def Cache.setNext (c : Cache K T) (p v : Option Nat) : Cache K T :=
  match p with
  | none => c
  | some i => match c.heap i with
    | none => c
    | some n => c.put i { n with next := v }

/-- `p->prev_ = v` if `p` is not null. -/
def Cache.setPrev (c : Cache K T) (p v : Option Nat) : Cache K T :=
  match p with
  | none => c
  | some i => match c.heap i with
    | none => c
    | some n => c.put i { n with prev := v }

/-- `push_back`, shareable_cache.ipp:23-34. -/
def Cache.pushBack (c : Cache K T) (d : T) : Cache K T × Nat :=
  match c.tail with
  | none =>
    ({ c.put c.fresh ⟨none, none, d⟩ with fresh := c.fresh + 1, head := some c.fresh, tail := some c.fresh }, c.fresh)
  | some t =>
    ({ (c.put c.fresh ⟨none, some t, d⟩).setNext (some t) (some c.fresh) with fresh := c.fresh + 1, tail := some c.fresh }, c.fresh)

/-- `unlink`, shareable_cache.ipp:39-68.  The fields of `it` are read once: the assignments in between do not change them. -/
def Cache.unlink (c : Cache K T) (it : Option Nat) : Outcome (Cache K T) :=
  match it with
  | none => .ok c
  | some i => c.deref (some i) >>= fun n =>
    let isTail := decide (c.tail = some i)
    let c1 := if c.head = some i then { c with head := n.next } else c
    let c2 := if isTail then { c1 with tail := n.prev } else c1
    let c3 := c2.setNext n.prev n.next
    let c4 := c3.setPrev n.next n.prev
    let c5 := c4.setPrev (some i) none
    .ok (if isTail then c5.setNext (some i) c5.tail else c5)

/-- The loop of `grab_truth`, shareable_cache.ipp:77-80; running out of `fuel` means it does not terminate. -/
def Cache.grabLoop (c : Cache K T) : Nat → Option Nat → Outcome (Option Nat)
  | 0, _ => .ub
  | fuel + 1, it => c.deref it >>= fun n => match n.prev with
    | none => c.grabLoop fuel n.next
    | some _ => .ok it

/-- `grab_truth`, shareable_cache.ipp:73-82: the new iterator and whether it was broken. -/
def Cache.grabTruth (c : Cache K T) (it : Option Nat) : Outcome (Option Nat × Bool) :=
  if c.head = it ∨ it = none then .ok (it, false)
  else c.deref it >>= fun n => c.grabLoop (c.fresh + 1) it >>= fun it' => .ok (it', n.prev.isNone)

/-- Last branch of `get_latest`, shareable_cache.ipp:116-120. -/
def Cache.advance (c : Cache K T) (it : Option Nat) : Outcome (Option Nat × Option T) :=
  c.deref it >>= fun n => match n.next with
    | none => .ok (it, none)
    | some j => c.deref (some j) >>= fun m => .ok (some j, some m.data)

/-- `get_latest`, shareable_cache.ipp:95-127: the new iterator and the value, if any.  Without a value it waits. -/
def Cache.get (c : Cache K T) (it : Option Nat) : Outcome (Option Nat × Option T) :=
  match it with
  | none => match c.head with
    | none => .ok (none, none)
    | some h => c.deref (some h) >>= fun n => .ok (some h, some n.data)
  | some i => c.grabTruth (some i) >>= fun x =>
    if x.2 = true ∧ x.1 ≠ none then c.deref x.1 >>= fun n => .ok (x.1, some n.data)
    else c.advance x.1

/-- Removal of the older entry of a key in `add_latest`, shareable_cache.ipp:134-139. -/
def Cache.detach (c : Cache K T) (k : K) : Outcome (Cache K T) :=
  match c.umap k with
  | none => .ok c
  | some i => c.unlink (some i)

/-- `add_latest`, shareable_cache.ipp:130-142. -/
def Cache.add [DecidableEq K] (hasher : T → K) (c : Cache K T) (d : T) : Outcome (Cache K T) :=
  c.detach (hasher d) >>= fun c1 =>
    .ok { (c1.pushBack d).1 with umap := fun k => if k = hasher d then some (c1.pushBack d).2 else (c1.pushBack d).1.umap k }

def Cache.addAll [DecidableEq K] (hasher : T → K) (c : Cache K T) : List T → Outcome (Cache K T)
  | [] => .ok c
  | d :: ds => c.add hasher d >>= fun c' => c'.addAll hasher ds

/-! ### Producer and consumers -/

/-- Consumers are numbered; each holds an iterator and may be waiting on the condition variable. -/
structure Sys (K T : Type) where
  cache : Cache K T
  iter : Nat → Option Nat
  waiting : List Nat

inductive Act (T : Type) where
  /-- `add_latest`; the consumer `notify_one` wakes, if any waits -/
  | add (d : T) (woken : Nat)
  /-- `get_latest` by a consumer that is not waiting -/
  | get (consumer : Nat)

/-- One call: the new state and the value delivered. -/
def Sys.step [DecidableEq K] (hasher : T → K) (s : Sys K T) : Act T → Outcome (Sys K T × Option T)
  | .add d w => s.cache.add hasher d >>= fun c => .ok (⟨c, s.iter, s.waiting.erase w⟩, none)
  | .get k => s.cache.get (s.iter k) >>= fun x =>
    .ok (⟨s.cache, fun j => if j = k then x.1 else s.iter j, if x.2.isNone then k :: s.waiting else s.waiting⟩, x.2)

/-- A history with the deliveries (consumer, value) in order. -/
def Sys.run [DecidableEq K] (hasher : T → K) (s : Sys K T) : List (Act T) → Outcome (Sys K T × List (Nat × T))
  | [] => .ok (s, [])
  | a :: as => s.step hasher a >>= fun x => x.1.run hasher as >>= fun y =>
    .ok (y.1, match a, x.2 with
      | .get k, some v => (k, v) :: y.2
      | _, _ => y.2)

/-- The scheduler only lets consumers that are not waiting call `get_latest`, and wakes a waiting one if there is one. -/
def Sys.legal (s : Sys K T) : Act T → Prop
  | .add _ w => s.waiting = [] ∨ w ∈ s.waiting
  | .get k => k ∉ s.waiting

def Sys.new : Sys K T := ⟨Cache.new, fun _ => none, []⟩

end Verif.Cache
