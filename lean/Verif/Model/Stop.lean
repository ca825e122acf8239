import Verif.Basic
/-!
# Model of `stop_flag` and `stoppable_thread`
(app/tenncor/src/thread/stop_flag.cpp, stoppable_thread.cpp, include/thread/stop_flag.hpp, stoppable_thread.hpp)

One main thread calls the `stoppable_thread` API; every worker runs its own program.  Steps of different threads
interleave arbitrarily; a step is one access to the flag or the condition variable, or one piece of work.  The flag is
`memory_order_relaxed`, but it is a single atomic variable: each access sees one value, and the model lets every load
see the latest store (a load that sees an older value behaves like one made earlier).  The mutex in `stop_wait` is a
local variable nobody else locks, so it is left out.

What a worker does apart from `stop_throw` and `stop_wait` is an arbitrary nondeterministic program over local states
`σ`.  Handles are numbered; workers are numbered in the order they are started.
-/
namespace Verif.Stop

/-- What a worker does next. -/
inductive Instr (σ : Type) where
  /-- anything but the calls below; goes on in one of the states allowed (in none: it blocks for ever) -/
  | work (next : σ → Prop)
  /-- `stop_throw()` -/
  | poll (next : σ)
  /-- `stop_wait()` -/
  | wait (next : σ)
  /-- the function returns -/
  | done
  /-- an exception other than `thread_interrupted` leaves the function -/
  | fail

/-- Where a worker is. -/
inductive WS (σ : Type) where
  /-- not started -/
  | absent
  | run (s : σ)
  /-- in `stop_wait`: the predicate was false and the thread has not yet gone to sleep -/
  | tested (s : σ)
  /-- in `stop_wait`, asleep on the condition variable -/
  | asleep (s : σ)
  /-- `thread_interrupted` was caught, stoppable_thread.hpp:44 -/
  | leaving
  /-- the thread is over; its `thread_stop_flag` is destroyed -/
  | ended

/-- `stoppable_thread`, stoppable_thread.hpp:63-66: which worker `internal_op_` stands for, if joinable, and which
worker's flag `flag_` points at, if it was ever set. -/
structure Handle where
  thr : Option Nat
  flag : Option Nat

/-- What the main thread is doing. -/
inductive PC where
  | idle
  /-- inside `stop_flag::set`, after the store -/
  | notifying (w : Nat)
  /-- inside `join` -/
  | joining (h w : Nat)
  /-- inside the destructor, joining -/
  | destroying (h w : Nat)

structure Sys (σ : Type) where
  ws : Nat → WS σ
  flag : Nat → Bool
  nw : Nat
  hs : Nat → Option Handle
  pc : PC

/-- What can be seen of a step. -/
inductive Ev where
  /-- a handle was made, moved or destroyed, or `join` began -/
  | main
  | started (w : Nat)
  /-- `flag_.store(true)` for worker `w` -/
  | stored (w : Nat)
  | notified (w : Nat)
  /-- `join` came back, for worker `w`, directly or in the destructor -/
  | joined (w : Nat)
  | detached (w : Nat)
  /-- `join` or `detach` threw because there was nothing to join -/
  | threw
  | worked (w : Nat)
  /-- `stop_throw` was called, and whether it threw -/
  | polled (w : Nat) (thrown : Bool)
  /-- `stop_wait` tested the flag, and whether it was set: then `stop_wait` returns -/
  | tested (w : Nat) (set : Bool)
  | slept (w : Nat)
  /-- spurious wake-up -/
  | woke (w : Nat)
  | ended (w : Nat)

def upd {α : Type} (f : Nat → α) (k : Nat) (v : α) : Nat → α := fun n => if n = k then v else f n

/-- `cond_.notify_one()`: a sleeping worker goes back to testing the predicate. -/
def wake {σ : Type} : WS σ → WS σ
  | .asleep s => .run s
  | x => x

/-- One step of one thread. -/
inductive Step {σ : Type} (code : σ → Instr σ) : Sys σ → Ev → Sys σ → Prop where
  /-- default constructor, stoppable_thread.cpp:12: `flag_` is not initialised -/
  | mk {S : Sys σ} {h : Nat} : S.pc = .idle → S.hs h = none → Step code S .main { S with hs := upd S.hs h (some ⟨none, none⟩) }
  /-- constructor with a function, stoppable_thread.hpp:27-50: it returns when the thread has published its flag -/
  | spawn {S : Sys σ} {h : Nat} (s : σ) : S.pc = .idle → S.hs h = none →
      Step code S (.started S.nw)
        { S with ws := upd S.ws S.nw (.run s), flag := upd S.flag S.nw false, nw := S.nw + 1, hs := upd S.hs h (some ⟨some S.nw, some S.nw⟩) }
  /-- move constructor, stoppable_thread.cpp:22-24: the raw pointer is copied -/
  | moveCtor {S : Sys σ} {h h' : Nat} {H : Handle} : S.pc = .idle → S.hs h = none → S.hs h' = some H →
      Step code S .main { S with hs := upd (upd S.hs h' (some ⟨none, H.flag⟩)) h (some H) }
  /-- move assignment, stoppable_thread.cpp:26-35, onto a handle that is not joinable -/
  | moveAssign {S : Sys σ} {h h' : Nat} {G H : Handle} : S.pc = .idle → S.hs h = some G → G.thr = none → S.hs h' = some H → h ≠ h' →
      Step code S .main { S with hs := upd (upd S.hs h' (some ⟨none, H.flag⟩)) h (some H) }
  | moveSelf {S : Sys σ} {h : Nat} {H : Handle} : S.pc = .idle → S.hs h = some H → Step code S .main S
  /-- `stop`, stoppable_thread.cpp:52-58, and the store in `set`, stop_flag.cpp:17 -/
  | stop {S : Sys σ} {h w : Nat} {H : Handle} : S.pc = .idle → S.hs h = some H → H.flag = some w → S.ws w ≠ .ended →
      Step code S (.stored w) { S with flag := upd S.flag w true, pc := .notifying w }
  /-- `cond_.notify_one()`, stop_flag.cpp:18 -/
  | notify {S : Sys σ} {w : Nat} : S.pc = .notifying w → S.ws w ≠ .ended →
      Step code S (.notified w) { S with ws := upd S.ws w (wake (S.ws w)), pc := .idle }
  /-- `join`, stoppable_thread.cpp:37-40 -/
  | join {S : Sys σ} {h w : Nat} {H : Handle} : S.pc = .idle → S.hs h = some H → H.thr = some w → Step code S .main { S with pc := .joining h w }
  | joinThrow {S : Sys σ} {h : Nat} {H : Handle} : S.pc = .idle → S.hs h = some H → H.thr = none → Step code S .threw S
  | joined {S : Sys σ} {h w : Nat} {H : Handle} : S.pc = .joining h w → S.ws w = .ended → S.hs h = some H →
      Step code S (.joined w) { S with hs := upd S.hs h (some ⟨none, H.flag⟩), pc := .idle }
  /-- `detach`, stoppable_thread.cpp:42-45 -/
  | detach {S : Sys σ} {h w : Nat} {H : Handle} : S.pc = .idle → S.hs h = some H → H.thr = some w →
      Step code S (.detached w) { S with hs := upd S.hs h (some ⟨none, H.flag⟩) }
  | detachThrow {S : Sys σ} {h : Nat} {H : Handle} : S.pc = .idle → S.hs h = some H → H.thr = none → Step code S .threw S
  /-- destructor, stoppable_thread.cpp:14-20 -/
  | destroy {S : Sys σ} {h : Nat} {H : Handle} : S.pc = .idle → S.hs h = some H → H.thr = none → Step code S .main { S with hs := upd S.hs h none }
  | destroyJoin {S : Sys σ} {h w : Nat} {H : Handle} : S.pc = .idle → S.hs h = some H → H.thr = some w →
      Step code S .main { S with pc := .destroying h w }
  | destroyed {S : Sys σ} {h w : Nat} : S.pc = .destroying h w → S.ws w = .ended →
      Step code S (.joined w) { S with hs := upd S.hs h none, pc := .idle }
  /-- a worker works -/
  | work {S : Sys σ} {w : Nat} {s s' : σ} {next : σ → Prop} : S.ws w = .run s → code s = .work next → next s' →
      Step code S (.worked w) { S with ws := upd S.ws w (.run s') }
  /-- `stop_throw`, stop_flag.cpp:26-32: nothing to stop for -/
  | pass {S : Sys σ} {w : Nat} {s s' : σ} : S.ws w = .run s → code s = .poll s' → S.flag w = false →
      Step code S (.polled w false) { S with ws := upd S.ws w (.run s') }
  /-- `stop_throw` throws; caught in stoppable_thread.hpp:44 -/
  | interrupt {S : Sys σ} {w : Nat} {s s' : σ} : S.ws w = .run s → code s = .poll s' → S.flag w = true →
      Step code S (.polled w true) { S with ws := upd S.ws w .leaving }
  /-- `stop_wait`, stop_flag.cpp:34-40: the predicate holds -/
  | waited {S : Sys σ} {w : Nat} {s s' : σ} : S.ws w = .run s → code s = .wait s' → S.flag w = true →
      Step code S (.tested w true) { S with ws := upd S.ws w (.run s') }
  /-- … it does not … -/
  | test {S : Sys σ} {w : Nat} {s s' : σ} : S.ws w = .run s → code s = .wait s' → S.flag w = false →
      Step code S (.tested w false) { S with ws := upd S.ws w (.tested s) }
  /-- … and the thread goes to sleep; unlocking the mutex and blocking are one step -/
  | sleep {S : Sys σ} {w : Nat} {s : σ} : S.ws w = .tested s → Step code S (.slept w) { S with ws := upd S.ws w (.asleep s) }
  | spurious {S : Sys σ} {w : Nat} {s : σ} : S.ws w = .asleep s → Step code S (.woke w) { S with ws := upd S.ws w (.run s) }
  /-- the function returns, or the handler of `thread_interrupted` was left: the thread is over -/
  | done {S : Sys σ} {w : Nat} {s : σ} : S.ws w = .run s → code s = .done → Step code S (.ended w) { S with ws := upd S.ws w .ended }
  | leave {S : Sys σ} {w : Nat} : S.ws w = .leaving → Step code S (.ended w) { S with ws := upd S.ws w .ended }

/-- What goes wrong beyond recovery. -/
inductive Fault where
  /-- undefined behaviour: an uninitialised pointer or a destroyed `stop_flag` is used -/
  | ub
  /-- `std::terminate` -/
  | terminate
deriving DecidableEq

/-- The next step of some thread is a fault. -/
inductive Faults {σ : Type} (code : σ → Instr σ) : Sys σ → Fault → Prop where
  /-- `stop` on a handle whose `flag_` was never set -/
  | uninit {S : Sys σ} {h : Nat} {H : Handle} : S.pc = .idle → S.hs h = some H → H.flag = none → Faults code S .ub
  /-- `stop` for a thread that is over -/
  | dangling {S : Sys σ} {h w : Nat} {H : Handle} : S.pc = .idle → S.hs h = some H → H.flag = some w → S.ws w = .ended → Faults code S .ub
  /-- `notify_one` when the thread ended after the store -/
  | race {S : Sys σ} {w : Nat} : S.pc = .notifying w → S.ws w = .ended → Faults code S .ub
  /-- assigning to a joinable `std::thread` -/
  | overwrite {S : Sys σ} {h h' w : Nat} {G H : Handle} : S.pc = .idle → S.hs h = some G → G.thr = some w → S.hs h' = some H → h ≠ h' →
      Faults code S .terminate
  | fail {S : Sys σ} {w : Nat} {s : σ} : S.ws w = .run s → code s = .fail → Faults code S .terminate

def Sys.init {σ : Type} : Sys σ := ⟨fun _ => .absent, fun _ => false, 0, fun _ => none, .idle⟩

/-- A run with its trace, latest event last. -/
inductive Run {σ : Type} (code : σ → Instr σ) : Sys σ → List Ev → Sys σ → Prop where
  | nil (S : Sys σ) : Run code S [] S
  | snoc {S T U : Sys σ} {tr : List Ev} {e : Ev} : Run code S tr T → Step code T e U → Run code S (tr ++ [e]) U

/-- Where `spawn_server` is, src/edgeinfo/grpc_vis/gui_notifier.cpp:78-100. -/
inductive Server where
  | setup
  | waiting
  | shutdown
  | finished

/-- `spawn_server`, gui_notifier.cpp:78-100: build and start the server, `stop_wait`, shut the server down. -/
def serverCode : Server → Instr Server
  | .setup => .work (fun s => s = .waiting)
  | .waiting => .wait .shutdown
  | .shutdown => .work (fun s => s = .finished)
  | .finished => .done

end Verif.Stop
