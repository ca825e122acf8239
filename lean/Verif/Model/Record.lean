import Verif.Basic
/-!
# Model of the edge recorder (app/tenncor/src/edgeinfo/adjlist_record.cpp)

`subj_nodes` maps a subject to a set of (observer, index); sets are lists used as sets, objects are numbered.
-/
namespace Verif.Record

/-- `subj_nodes`, include/edgeinfo/adjlist_record.hpp:53; `none` is a missing key. -/
abbrev Book := Nat → Option (List (Nat × Nat))

/-- `node_release`, adjlist_record.cpp:14-17. -/
def nodeRelease (s : Nat) (b : Book) : Book := fun t => if t = s then none else b t

/-- `edge_capture`, adjlist_record.cpp:19-32. -/
def edgeCapture (recordable : Bool) (o s i : Nat) (b : Book) : Book :=
  if recordable = true then
    fun t => if t = s then some (if (o, i) ∈ (b s).getD [] then (b s).getD [] else (o, i) :: (b s).getD []) else b t
  else b

/-- `edge_release`, adjlist_record.cpp:34-41. -/
def edgeRelease (o s i : Nat) (b : Book) : Book :=
  fun t => if t = s then (b s).map (fun l => l.filter (fun p => p ≠ (o, i))) else b t

/-- A call of the recorder. -/
inductive Ev where
  | capture (recordable : Bool) (o s i : Nat)
  | release (o s i : Nat)
  | gone (s : Nat)

def Ev.apply : Ev → Book → Book
  | .capture r o s i => edgeCapture r o s i
  | .release o s i => edgeRelease o s i
  | .gone s => nodeRelease s

/-- The record after a history, oldest call first. -/
def replay (evs : List Ev) : Book := evs.foldl (fun b e => e.apply b) (fun _ => none)

/-- The recorder of a network: what an `adjlist_record` holds after the calls, and the calls, oldest first. -/
structure Rec where
  tbl : Book
  log : List Ev

def Rec.note (e : Ev) (r : Rec) : Rec := ⟨e.apply r.tbl, r.log ++ [e]⟩

def capture (recordable : Bool) (o s i : Nat) (r : Rec) : Rec := r.note (.capture recordable o s i)
def release (o s i : Nat) (r : Rec) : Rec := r.note (.release o s i)
def gone (s : Nat) (r : Rec) : Rec := r.note (.gone s)

/-! ### CSV export -/

/-- `num_corres` and `num_des`, include/edgeinfo/csv_record.hpp:34-35. -/
structure Numbering where
  num : Nat → Option Nat
  next : Nat

/-- `if (end == it) num_corres[n] = idx = num_des++; else idx = it->second;`, csv_record.hpp:69-76, 78-85: `it` is the result
of an earlier look-up. -/
def Numbering.use (m : Numbering) (n : Nat) (it : Option Nat) : Numbering × Nat :=
  match it with
  | some k => (m, k)
  | none => (⟨fun x => if x = n then some m.next else m.num x, m.next + 1⟩, m.next)

/-- The rows (observer number, subject number, argument index) for the edges in iteration order, csv_record.hpp:38-102,
not verbose.  Edges not of the considered graph or of another element type are left out of the list beforehand.
Both look-ups happen before either insertion (lines 65-66).  The subject's iterator is used after an insertion that may
rehash (see DESIGN.md); the model lets it stay usable. -/
def Numbering.rows (m : Numbering) : List (Nat × Nat × Nat) → Numbering × List (Nat × Nat × Nat)
  | [] => (m, [])
  | (o, s, i) :: es =>
    let oit := m.num o
    let sit := m.num s
    let r1 := m.use o oit
    let r2 := r1.1.use s sit
    let r3 := r2.1.rows es
    (r3.1, (r1.2, r2.2, i) :: r3.2)

def toCsv (es : List (Nat × Nat × Nat)) : List (Nat × Nat × Nat) := (Numbering.rows ⟨fun _ => none, 0⟩ es).2

end Verif.Record
