import Verif.Model.Rpc
/-!
# Model of the subscriptions of visualisation clients (app/tenncor/src/edgeinfo/grpc_vis/gui_notifier.cpp)

Every call of `SubscribeNode` or `SubscribeEdge` is a stream with a thread of its own; streams are numbered, `edge k` says which
of the two caches stream k reads.  `subscriptions_` is shared without a lock: its uses are taken to be atomic here, in any
order (a concurrent rehash is a data race, not modelled).  `get_latest` is atomic up to its wait (`Model/Cache`); spurious
wake-ups are an event.
-/
namespace Verif
namespace Notify
open Rpc (Chan)

/-- Where the thread of a stream is, gui_notifier.cpp:21-56. -/
inductive Place where
  /-- not subscribed yet -/
  | idle
  /-- about to look its client up in `subscriptions_` -/
  | test
  /-- about to call `get_latest` -/
  | read
  /-- waiting inside `get_latest`, shareable_cache.ipp:124 -/
  | wait
  | ended
  deriving DecidableEq

structure Hub (T : Type) where
  subs : Nat → Bool
  chan : Bool → Chan T
  place : Nat → Place
  client : Nat → Nat
  edge : Nat → Bool

inductive Event (T : Type) where
  | subscribe (k client : Nat) (edge : Bool)
  | test (k : Nat)
  | read (k : Nat)
  | add (edge : Bool) (m : T) (woken : Option Nat)
  | endSub (client : Nat)
  | clear
  | escape (edge : Bool) (woken : Option Nat)
  | spurious (k : Nat)

variable {T : Type}

def Hub.put (k : Nat) (p : Place) (s : Hub T) : Hub T := { s with place := fun j => if j = k then p else s.place j }

def Hub.give (e : Bool) (c : Chan T) (s : Hub T) : Hub T := { s with chan := fun x => if x = e then c else s.chan x }

/-- `subscriptions_.emplace(cli_id)`; the stream starts without an iterator, gui_notifier.cpp:25-28, 43-46. -/
def Hub.enrol (k c : Nat) (e : Bool) (s : Hub T) : Hub T where
  subs := fun d => if d = c then true else s.subs d
  chan := s.chan
  place := fun j => if j = k then .test else s.place j
  client := fun j => if j = k then c else s.client j
  edge := fun j => if j = k then e else s.edge j

/-- `notify_one`: some stream waiting on that cache returns from its wait, if there is one. -/
def Wakes (s : Hub T) (e : Bool) : Option Nat → Prop
  | some k => s.place k = .wait ∧ s.edge k = e
  | none => ∀ k, s.place k = .wait → s.edge k ≠ e

def Hub.wake (s : Hub T) : Option Nat → Hub T
  | some k => s.put k .test
  | none => s

inductive Step (key : T → List Char) : Hub T → Event T → Hub T → Prop where
  /-- gui_notifier.cpp:25-28, 43-46 -/
  | subscribe {s : Hub T} {k c : Nat} {e : Bool} : s.place k = .idle →
      Step key s (.subscribe k c e) (s.enrol k c e)
  /-- gui_notifier.cpp:30, 48 -/
  | go {s : Hub T} {k : Nat} : s.place k = .test → s.subs (s.client k) = true → Step key s (.test k) (s.put k .read)
  /-- gui_notifier.cpp:30, 48, 37, 55 -/
  | leave {s : Hub T} {k : Nat} : s.place k = .test → s.subs (s.client k) = false → Step key s (.test k) (s.put k .ended)
  /-- gui_notifier.cpp:32-35, 50-53: there was a message, and it is written -/
  | write {s : Hub T} {k : Nat} {c : Chan T} : s.place k = .read → (s.chan (s.edge k)).get k = .ok c → c.out ≠ (s.chan (s.edge k)).out →
      Step key s (.read k) ((s.put k .test).give (s.edge k) c)
  /-- there was none -/
  | sleep {s : Hub T} {k : Nat} {c : Chan T} : s.place k = .read → (s.chan (s.edge k)).get k = .ok c → c.out = (s.chan (s.edge k)).out →
      Step key s (.read k) ((s.put k .wait).give (s.edge k) c)
  /-- `add_latest`, shareable_cache.ipp:130-142 -/
  | add {s : Hub T} {e : Bool} {m : T} {w : Option Nat} {c : Chan T} : (s.chan e).feed key [m] = .ok c → Wakes s e w →
      Step key s (.add e m w) ((s.wake w).give e c)
  /-- `EndSubscription`, gui_notifier.cpp:58-63 -/
  | endSub {s : Hub T} {c : Nat} : Step key s (.endSub c) { s with subs := fun d => if d = c then false else s.subs d }
  /-- `clear_subscriptions`, gui_notifier.cpp:75 -/
  | clear {s : Hub T} : Step key s .clear { s with subs := fun _ => false }
  /-- `escape_wait`, gui_notifier.cpp:76-77, shareable_cache.ipp:145-148 -/
  | escape {s : Hub T} {e : Bool} {w : Option Nat} : Wakes s e w → Step key s (.escape e w) (s.wake w)
  | spurious {s : Hub T} {k : Nat} : s.place k = .wait → Step key s (.spurious k) (s.put k .test)

inductive Steps (key : T → List Char) : Hub T → List (Event T) → Hub T → Prop where
  | nil {s : Hub T} : Steps key s [] s
  | cons {s t r : Hub T} {a : Event T} {as : List (Event T)} : Step key s a t → Steps key t as r → Steps key s (a :: as) r

def Hub.new : Hub T := ⟨fun _ => false, fun _ => Chan.new, fun _ => .idle, fun _ => 0, fun _ => false⟩

end Notify
end Verif
