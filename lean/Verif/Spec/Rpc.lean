import Verif.Model.Rpc
import Verif.Spec.React
/-!
# Specification vocabulary for visualisation clients (C82)
-/
namespace Verif.Spec
open Rpc

/-- The identifiers are distinct and contain no colon (they are hexadecimal numbers, utils.cpp:29-44). -/
def Distinct (u : Uids) : Prop :=
  Function.Injective u.sub ∧ Function.Injective u.obs ∧ ∀ o, ':' ∉ u.obs o

/-- What was written to stream k. -/
def sentTo {T : Type} (k : Nat) (c : Chan T) : List T := (c.out.filter fun x => decide (x.1 = k)).map Prod.snd

/-- A client that adds an edge on ADD and takes it away on REMOVE shows the edge after these messages. -/
def Shows (ms : List EdgeMsg) (o s : List Char) (i : Nat) : Prop :=
  ∃ pre post, ms = pre ++ ⟨o, s, i, true⟩ :: post ∧ ⟨o, s, i, false⟩ ∉ post

/-- The client has been told the node is gone, and nothing about it since. -/
def ShowsGone (ms : List NodeMsg) (s : List Char) : Prop := ∃ pre post, ms = pre ++ ⟨s, true⟩ :: post ∧ ⟨s, false⟩ ∉ post

/-- The recorder is told something about an edge in this step. -/
def TellsEdge (S S' : Srv) (o s i : Nat) : Prop :=
  ∃ new, S'.net.book.log = S.net.book.log ++ new ∧ ((∃ r, Record.Ev.capture r o s i ∈ new) ∨ Record.Ev.release o s i ∈ new)

/-- A history in which no edge changes while it is the last one client k was told of. -/
inductive CalmEdges (u : Uids) (k : Nat) : Srv → Prop where
  | start : CalmEdges u k Srv.init
  | step {S S' : Srv} {a : Act} : CalmEdges u k S → step u a S = .ok S' →
      (∀ o s i b, (sentTo k S.edges).getLast? = some ⟨u.obs o, u.sub s, i, b⟩ → ¬ TellsEdge S S' o s i) → CalmEdges u k S'

/-- The recorder is told something about a node in this step: it notifies of an update, or is destroyed. -/
def TellsNode (a : Act) (S S' : Srv) (s : Nat) : Prop := a = .update s ∨ (S.net.sAlive s = true ∧ S'.net.sAlive s = false)

/-- A history (its earlier states, latest first) in which nothing happens to a node while it is the last one client k was
told of, and no destroyed subject's name is used again. -/
inductive CalmNodes (u : Uids) (k : Nat) : List Srv → Srv → Prop where
  | start : CalmNodes u k [] Srv.init
  | step {past : List Srv} {S S' : Srv} {a : Act} : CalmNodes u k past S → step u a S = .ok S' →
      (∀ s b, (sentTo k S.nodes).getLast? = some ⟨u.sub s, b⟩ → ¬ TellsNode a S S' s) →
      (∀ s, a = .op (.newSubject s) → ∀ P ∈ past, P.net.sAlive s = false) → CalmNodes u k (S :: past) S'

/-- The subject existed and does so no longer. -/
def Died (past : List Srv) (S : Srv) (s : Nat) : Prop := (∃ P ∈ past, P.net.sAlive s = true) ∧ S.net.sAlive s = false

/-- The changes of the graph in a history. -/
def opsOf : List Act → List React.Op
  | [] => []
  | .op o :: as => o :: opsOf as
  | _ :: as => opsOf as

end Verif.Spec
