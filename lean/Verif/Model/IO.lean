import Verif.Model.Leaf
/-!
# Model of saving and loading (app/tenncor/src/memory/tensor_io.ipp)

The file is absent, unparsable, or the serialisation of a repository; a repository maps label strings to protos
(`map<string, tensor_proto>`); the wire format is not modelled.  `eval()` of the nodes being saved is taken as given
(the graph model says what it is).  `ShutdownProtobufLibrary`, called at the end of both functions, is not modelled
(a later call into the library is outside its contract).
-/
namespace Verif.IO
open Verif

abbrev Repo := List Char → Option TensorProto

inductive File where
  | absent
  | corrupt
  | repo (r : Repo)

def Repo.empty : Repo := fun _ => none

def Repo.set (r : Repo) (k : List Char) (p : TensorProto) : Repo := fun x => if x = k then some p else r x

/-- `label + ":" + std::to_string(i)`, tensor_io.ipp:36, 79. -/
def key (label : List Char) (i : Nat) : List Char := label ++ ':' :: Nat.toDigits 10 i

/-- The loop of `write_inorder` from index `i`, tensor_io.ipp:34-43. -/
def writeFrom {T : Type} (r : ByteRep T) (label : List Char) : Nat → List (Option (Tensor T)) → Repo → Outcome Repo
  | _, [], repo => .ok repo
  | i, none :: ts, repo => writeFrom r label (i + 1) ts repo
  | i, some t :: ts, repo => t.serialize r TensorProto.empty >>= fun p =>
    writeFrom r label (i + 1) ts (repo.set (key label i) p)

/-- The repository read at the start of `write_inorder`, tensor_io.ipp:20-31; `none` makes it return false. -/
def opened : File → Option Repo
  | .absent => some Repo.empty
  | .corrupt => none
  | .repo r => some r

/-- `write_inorder`, tensor_io.ipp:14-55.  The result is the sequence of file contents on disk as the call
progresses (the last is what it leaves) and the value returned.  Opening for output truncates the file, and an
empty file parses as an empty repository; `fails` says the output could not be written.  Intermediate contents
while the bytes are written are not modelled. -/
def writeInorder {T : Type} (r : ByteRep T) (evals : List (Option (Tensor T))) (label : List Char) (fails : Bool)
    (file : File) : Outcome (List File × Bool) :=
  match opened file with
  | none => .ok ([file], false)
  | some repo => writeFrom r label 0 evals repo >>= fun repo' =>
    if fails then .ok ([file, .repo Repo.empty], false)
    else .ok ([file, .repo Repo.empty, .repo repo'], true)

/-- A node that can be asked to read a proto: a leaf, or any operation node, whose `read_proto` returns false
(base_immutable.ipp:125-130, generator.ipp:104). -/
inductive RNode (T : Type) where
  | leaf (l : Leaf T)
  | other

/-- `read_proto` through the `inode` interface. -/
def RNode.readProto {T : Type} (r : ByteRep T) (e : Env T) : RNode T → TensorProto → Outcome (RNode T × Bool)
  | .leaf l, p => l.readProto r e p >>= fun x => .ok (.leaf x.1, x.2)
  | .other, _ => .ok (.other, false)

abbrev Heap (T : Type) := Nat → RNode T

def Heap.set {T : Type} (h : Heap T) (i : Nat) (n : RNode T) : Heap T := fun k => if k = i then n else h k

/-- The loop of `read_inorder` from index `i`, tensor_io.ipp:76-92: the new heap and the nodes not found. -/
def readFrom {T : Type} (r : ByteRep T) (e : Env T) (repo : Repo) (label : List Char) :
    Nat → List Nat → Heap T → Outcome (Heap T × List Nat)
  | _, [], h => .ok (h, [])
  | i, x :: xs, h =>
    match repo (key label i) with
    | none => readFrom r e repo label (i + 1) xs h >>= fun y => .ok (y.1, x :: y.2)
    | some p => (h x).readProto r e p >>= fun z => readFrom r e repo label (i + 1) xs (h.set x z.1) >>= fun y =>
      .ok (y.1, if z.2 then y.2 else x :: y.2)

/-- `read_inorder`, tensor_io.ipp:59-97: new heap, what is left in the caller's vector, value returned. -/
def readInorder {T : Type} (r : ByteRep T) (e : Env T) (vec : List Nat) (label : List Char) (file : File) (h : Heap T) :
    Outcome (Heap T × List Nat × Bool) :=
  match file with
  | .repo repo => readFrom r e repo label 0 vec h >>= fun y => .ok (y.1, y.2, true)
  | _ => .ok (h, vec, false)

/-- A sequence of successful saves under given labels. -/
def writeAll {T : Type} (r : ByteRep T) : List (List Char × List (Option (Tensor T))) → File → Outcome File
  | [], f => .ok f
  | w :: ws, f => writeInorder r w.2 w.1 false f >>= fun x => writeAll r ws (x.1.getLastD f)

end Verif.IO
