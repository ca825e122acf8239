import Verif.Model.Life
/-!
# What a client may rely on about the lifetimes of nodes and smart pointers

Stated without observer lists, hooks or recursion: who is alive, what an operation was built on, where a
smart pointer points.
-/
namespace Verif
namespace Spec
namespace Life
open Verif.Life (Kind Call Heap call)

/-- A smart pointer: without a slot, with a slot holding the null pointer, or pointing at a node. -/
inductive Slot where
  | empty
  | null
  | at (s : Nat)
deriving DecidableEq

/-- What `get` shows. -/
def Slot.target : Slot → Option Nat
  | .at s => some s
  | _ => none

def Slot.of : Option Nat → Slot
  | some s => .at s
  | none => .null

/-- A null pointer is not copied: the copy has no slot. -/
def Slot.copied : Slot → Slot
  | .at s => .at s
  | _ => .empty

structure World where
  /-- the address of the next object -/
  next : Nat
  kind : Nat → Kind
  live : Nat → Prop
  /-- the arguments an operation or generator was made from -/
  args : Nat → List Nat
  slot : Nat → Slot
  /-- the smart pointers an operation owns in its gradient cache -/
  grads : Nat → List Nat

def World.start : World :=
  { next := 0, kind := fun _ => .leaf, live := fun _ => False, args := fun _ => [], slot := fun _ => .empty, grads := fun _ => [] }

/-- `o` holds on to `c`. -/
def Holds (W : World) (o c : Nat) : Prop :=
  W.live o ∧ (((W.kind o = .op ∨ W.kind o = .gen) ∧ c ∈ W.args o) ∨ (W.kind o = .ptr ∧ W.slot o = .at c))

/-- What dies when the objects in `S` die: operations and generators built on a dying node, constants and
generators that only dying objects held, and the gradient pointers of a dying operation. -/
inductive Dies (W : World) (S : Nat → Prop) : Nat → Prop
  | seed {k : Nat} : S k → Dies W S k
  | broken {k s : Nat} : (W.kind k = .op ∨ W.kind k = .gen) → W.live k → s ∈ W.args k → Dies W S s → Dies W S k
  | orphan {c o : Nat} : (W.kind c = .const ∨ W.kind c = .gen) → W.live c → Holds W o c → (∀ x, Holds W x c → Dies W S x) → Dies W S c
  | own {v w : Nat} : w ∈ W.grads v → Dies W S v → Dies W S w

/-- `k` is computed from `n`. -/
inductive Uses (W : World) : Nat → Nat → Prop
  | refl (n : Nat) : Uses W n n
  | step {k a n : Nat} : W.live k → (W.kind k = .op ∨ W.kind k = .gen) → a ∈ W.args k → Uses W a n → Uses W k n

open Classical in
/-- The world without what dies with `S`: smart pointers at something dead become empty. -/
noncomputable def World.without (W : World) (S : Nat → Prop) : World :=
  { W with live := fun k => W.live k ∧ ¬ Dies W S k, slot := fun p => if ∃ s, W.slot p = .at s ∧ Dies W S s then .empty else W.slot p }

/-- A new object, built on `args` or holding `slot`. -/
def World.create (W : World) (k : Kind) (args : List Nat) (slot : Slot) : World :=
  { W with next := W.next + 1, kind := fun x => if x = W.next then k else W.kind x, live := fun x => x = W.next ∨ W.live x, args := fun x => if x = W.next then args else W.args x, slot := fun x => if x = W.next then slot else W.slot x, grads := fun x => if x = W.next then [] else W.grads x }

/-- A smart pointer simply points elsewhere. -/
def World.point (W : World) (p : Nat) (tgt : Slot) : World := { W with slot := fun x => if x = p then tgt else W.slot x }

/-- `s` is a constant or generator that nobody holds. -/
def Unheld (W : World) (s : Nat) : Nat → Prop :=
  fun k => k = s ∧ (W.kind s = .const ∨ W.kind s = .gen) ∧ ∀ x, ¬ Holds W x s

/-- A smart pointer points elsewhere, and what it pointed at dies if it was the last to hold it. -/
noncomputable def World.repoint (W : World) (p : Nat) (tgt : Slot) : World :=
  match W.slot p with
  | .at s => (W.point p tgt).without (Unheld (W.point p tgt) s)
  | _ => W.point p tgt

/-- Assignment from another smart pointer: first let go, then point where the other one points. -/
noncomputable def World.follow (W : World) (p q : Nat) : World :=
  if p = q then W
  else (W.repoint p .empty).point p (W.slot q).copied

noncomputable def World.step (W : World) : Call → World
  | .leaf => W.create .leaf [] .empty
  | .const => W.create .const [] .empty
  | .op args => W.create .op args .empty
  | .gen a => W.create .gen [a] .empty
  | .null => W.create .ptr [] .empty
  | .ptr d => W.create .ptr [] (.of d)
  | .copy _ q => (W.create .ptr [] .empty).follow W.next q
  | .assign _ p d => W.repoint p (.of d)
  | .assignPtr _ p q => W.follow p q
  | .clear _ p => if W.slot p = .null then W else W.repoint p .empty
  | .destroy _ p => { W.repoint p .empty with live := fun k => (W.repoint p .empty).live k ∧ k ≠ p }
  | .delete _ n => W.without (fun k => k = n)
  | .manage c => { W with kind := fun x => if x = c then .leaf else W.kind x }
  | .cacheGrad v d => { W.create .ptr [] (.of d) with grads := fun x => if x = v then W.next :: W.grads v else (W.create .ptr [] (.of d)).grads x }

/-- A live node, as opposed to a smart pointer. -/
def Node (W : World) (n : Nat) : Prop := W.live n ∧ W.kind n ≠ .ptr

def Ptr (W : World) (p : Nat) : Prop := W.live p ∧ W.kind p = .ptr

/-- The calls a client may make: on objects that are alive.  The pointers in a gradient cache are destroyed by
their owner only. -/
def Legal (W : World) : Call → Prop
  | .leaf | .const | .null => True
  | .op args => ∀ a ∈ args, Node W a
  | .gen a => Node W a
  | .ptr d => ∀ s, d = some s → Node W s
  | .copy _ q => Ptr W q
  | .assign _ p d => Ptr W p ∧ ∀ s, d = some s → Node W s
  | .assignPtr _ p q => Ptr W p ∧ Ptr W q
  | .clear _ p => Ptr W p
  | .destroy _ p => Ptr W p ∧ ∀ v, W.live v → p ∉ W.grads v
  | .delete _ n => Node W n
  | .manage c => W.live c ∧ (W.kind c = .const ∨ W.kind c = .leaf)
  | .cacheGrad v d => W.live v ∧ W.kind v = .op ∧ ∀ s, d = some s → Node W s

/-- The calls that throw: clearing a smart pointer without a slot. -/
def Throws (W : World) : Call → Prop
  | .clear _ p => W.slot p = .empty
  | _ => False

/-- Histories of legal calls; a call that throws changes nothing and is not recorded. -/
inductive Reached : World → Heap → Prop
  | start : Reached World.start Verif.Life.Heap.empty
  | did {W : World} {h h' : Heap} {c : Call} : Reached W h → Legal W c → call c h = .ok h' → Reached (W.step c) h'

end Life
end Spec
end Verif
