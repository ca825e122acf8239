import Verif.Model.Record
/-!
# Model of subjects and observers
(app/tenncor/src/graph/react/subject.cpp, app/tenncor/src/graph/react/iobserver.cpp)

Objects are numbered; the heap of all subjects and observers is a `Net`.  `audience_` (a map from
observer to a non-empty set of indices) is the list of its (observer, index) pairs, used as a set.
Iteration orders of `unordered_map` and `unordered_set` are parameters (`Ord`).

Virtual hooks: `death_on_noparent` has the base class behaviour (nothing, subject.cpp:114);
`death_on_broken` is pure virtual and is recorded in `broken`.
-/
namespace Verif
namespace React

structure Net where
  /-- `subject::audience_` -/
  aud : Nat → List (Nat × Nat)
  /-- `subject::killers_` -/
  killers : Nat → List Nat
  /-- `iobserver::dependencies_`; `none` is a null pointer -/
  deps : Nat → List (Option Nat)
  /-- `iobserver::ondeath_deps_` -/
  ondeath : Nat → List Nat
  /-- objects whose lifetime has begun and not ended -/
  sAlive : Nat → Bool
  oAlive : Nat → Bool
  /-- log of `death_on_broken` calls -/
  broken : List Nat
  /-- `iobserver::recordable_` -/
  recb : Nat → Bool
  /-- the edge recorder `record_status::rec` (builds with `EDGE_RCD`): what an `adjlist_record` holds, and the calls it was
  given (which is what an `rpc_record` sees) -/
  book : Record.Rec

def upd {α : Type} (f : Nat → α) (k : Nat) (v : α) : Nat → α := fun x => if x = k then v else f x

def Net.empty : Net :=
  { aud := fun _ => [], killers := fun _ => [], deps := fun _ => [], ondeath := fun _ => [],
    sAlive := fun _ => false, oAlive := fun _ => false, broken := [], recb := fun _ => true, book := ⟨fun _ => none, []⟩ }

/-- Iteration orders of the hash containers during one call. -/
structure Ord where
  nat : List Nat → List Nat
  pair : List (Nat × Nat) → List (Nat × Nat)
  nat_perm : ∀ l, (nat l).Perm l
  pair_perm : ∀ l, (pair l).Perm l

/-- `for (x : l) h = body(x, h);` -/
def forEach {α σ : Type} (body : α → σ → Outcome σ) : List α → σ → Outcome σ
  | [], h => .ok h
  | x :: xs, h => body x h >>= fun h' => forEach body xs h'

/-- Any member access on an object outside its lifetime is undefined. -/
def needS (s : Nat) (h : Net) : Outcome Net := if h.sAlive s = true then .ok h else .ub
def needO (o : Nat) (h : Net) : Outcome Net := if h.oAlive o = true then .ok h else .ub

/-- `subject::attach`, subject.cpp:150-163. -/
def attach (s o i : Nat) (h : Net) : Outcome Net :=
  needS s h >>= fun h =>
    .ok { h with aud := upd h.aud s (if (o, i) ∈ h.aud s then h.aud s else (o, i) :: h.aud s),
                 book := Record.capture (h.recb o) o s i h.book }

/-- `if (dep) dep->attach(this, i);`, iobserver.cpp:100-103, 131-134. -/
def attachOpt (dep : Option Nat) (o i : Nat) (h : Net) : Outcome Net :=
  match dep with
  | some s => attach s o i h
  | none => .ok h

/-- `subject::detach(viewer, idx)`, subject.cpp:187-212. -/
def detach (s o i : Nat) (h : Net) : Outcome Net :=
  needS s h >>= fun h => .ok { h with aud := upd h.aud s ((h.aud s).filter (fun p => p ≠ (o, i))),
                                      book := Record.release o s i h.book }

/-- `iobserver::add_dependency`, iobserver.cpp:98-105. -/
def addDependency (o : Nat) (dep : Option Nat) (h : Net) : Outcome Net :=
  needO o h >>= fun h =>
    attachOpt dep o (h.deps o).length h >>= fun h =>
    .ok { h with deps := upd h.deps o (h.deps o ++ [dep]) }

/-- The loop popping trailing null pointers, iobserver.cpp:120-124. -/
def popNulls (l : List (Option Nat)) : List (Option Nat) := (l.reverse.dropWhile Option.isNone).reverse

/-- `iobserver::remove_dependency`, iobserver.cpp:107-126. -/
def removeDependency (o i : Nat) (h : Net) : Outcome Net :=
  needO o h >>= fun h =>
    match (h.deps o)[i]? with
    | none => .throw .logicError
    | some none => .ok h
    | some (some s) =>
      detach s o i h >>= fun h => .ok { h with deps := upd h.deps o (popNulls ((h.deps o).set i none)) }

/-- Detaching the previous subject of a slot, iobserver.cpp:139-142. -/
def detachLast (o i : Nat) (dep : Option Nat) (h : Net) : Outcome Net :=
  match (h.deps o)[i]? with
  | some (some last) => if some last ≠ dep then detach last o i h else .ok h
  | _ => .ok h

/-- `if (dependencies_.size() <= idx) resize(idx+1); dependencies_[idx] = dep;`, iobserver.cpp:134-143. -/
def setSlot (l : List (Option Nat)) (i : Nat) (dep : Option Nat) : List (Option Nat) :=
  (l ++ List.replicate (i + 1 - l.length) none).set i dep

/-- `iobserver::replace_dependency`, iobserver.cpp:128-144. -/
def replaceDependency (o : Nat) (dep : Option Nat) (i : Nat) (h : Net) : Outcome Net :=
  needO o h >>= fun h =>
    attachOpt dep o i h >>= fun h =>
    detachLast o i dep h >>= fun h =>
    .ok { h with deps := upd h.deps o (setSlot (h.deps o) i dep) }

/-- The indices under which `o` is attached to `s`. -/
def indices (h : Net) (s o : Nat) : List Nat := ((h.aud s).filter (fun p => p.1 == o)).map (·.2)

/-- The keys of `audience_`. -/
def viewers (h : Net) (s : Nat) : List Nat := ((h.aud s).map (·.1)).eraseDups

/-- `iobserver::update(indices, UNSUBSCRIBE)`, iobserver.cpp:146-164. -/
def updateUnsubscribe (ord : Ord) (o : Nat) (idx : List Nat) (h : Net) : Outcome Net :=
  forEach (removeDependency o) (ord.nat idx) h >>= fun h => .ok { h with broken := o :: h.broken }

/-- One turn of the loop of `subject::notify`, subject.cpp:82-89.  `deliver` is the virtual
`viewer->update(indices, msg)`; the state `σ` is the net, possibly with more state the callbacks use. -/
def notifyOne {σ : Type} (net : σ → Net) (s : Nat) (deliver : Nat → List Nat → σ → Outcome σ) (v : Nat)
    (h : σ) : Outcome σ :=
  if indices (net h) s v ≠ [] then deliver v (indices (net h) s v) h else .ok h

/-- `subject::notify`, subject.cpp:63-90: snapshot of the observers, then one turn each. -/
def notify {σ : Type} (net : σ → Net) (ord : Ord) (s : Nat) (deliver : Nat → List Nat → σ → Outcome σ)
    (h : σ) : Outcome σ :=
  forEach (notifyOne net s deliver) (ord.nat (viewers (net h) s)) h

mutual
/-- `iobserver::remove_ondeath_dependent`, iobserver.cpp:89-96. -/
def removeOndeath (o s : Nat) (h : Net) : Outcome Net :=
  if h.oAlive o = true then
    if _hs : s ∈ h.ondeath o then
      detachKiller s o { h with ondeath := upd h.ondeath o ((h.ondeath o).filter (· ≠ s)) }
    else .ok h
  else .ub
termination_by (if s ∈ h.ondeath o then 1 else 0) + (if o ∈ h.killers s then 1 else 0)
decreasing_by simp [upd, *]
/-- `subject::detach_killer`, subject.cpp:125-132. -/
def detachKiller (s o : Nat) (h : Net) : Outcome Net :=
  if h.sAlive s = true then
    if _hk : o ∈ h.killers s then
      removeOndeath o s { h with killers := upd h.killers s ((h.killers s).filter (· ≠ o)) }
    else .ok h
  else .ub
termination_by (if s ∈ h.ondeath o then 1 else 0) + (if o ∈ h.killers s then 1 else 0)
decreasing_by simp [upd, *]
end

mutual
/-- `iobserver::add_ondeath_dependent`, iobserver.cpp:80-87. -/
def addOndeath (o s : Nat) (h : Net) : Outcome Net :=
  if h.oAlive o = true then
    if _hs : s ∉ h.ondeath o then
      attachKiller s o { h with ondeath := upd h.ondeath o (s :: h.ondeath o) }
    else .ok h
  else .ub
termination_by (if s ∈ h.ondeath o then 0 else 1) + (if o ∈ h.killers s then 0 else 1)
decreasing_by simp [upd, *]
/-- `subject::attach_killer`, subject.cpp:116-123. -/
def attachKiller (s o : Nat) (h : Net) : Outcome Net :=
  if h.sAlive s = true then
    if _hk : o ∉ h.killers s then
      addOndeath o s { h with killers := upd h.killers s (o :: h.killers s) }
    else .ok h
  else .ub
termination_by (if s ∈ h.ondeath o then 0 else 1) + (if o ∈ h.killers s then 0 else 1)
decreasing_by simp [upd, *]
end

/-- An exception leaving a destructor calls `std::terminate`. -/
def noThrow (x : Outcome Net) : Outcome Net :=
  match x with
  | .throw _ => .abort
  | y => y

/-- `subject::~subject`, subject.cpp:22-41. -/
def destroySubject (ord : Ord) (s : Nat) (h : Net) : Outcome Net :=
  needS s h >>= fun h =>
    noThrow (forEach (fun k => removeOndeath k s) (ord.nat (h.killers s)) h >>= fun h =>
      notify id ord s (updateUnsubscribe ord) h) >>= fun h =>
    .ok { h with sAlive := upd h.sAlive s false, book := Record.gone s h.book }

/-- `iobserver::~iobserver`, iobserver.cpp:16-30. -/
def destroyObserver (ord : Ord) (o : Nat) (h : Net) : Outcome Net :=
  needO o h >>= fun h =>
    noThrow (forEach (removeDependency o) (List.range (h.deps o).length) h) >>= fun h =>
    forEach (destroySubject ord) (ord.nat (h.ondeath o)) h >>= fun h =>
    .ok { h with oAlive := upd h.oAlive o false }

/-- Construction of a subject, subject.cpp:112 (copy construction, subject.cpp:134, is the same). -/
def newSubject (s : Nat) (h : Net) : Outcome Net :=
  if h.sAlive s = true then .ub
  else .ok { h with sAlive := upd h.sAlive s true, aud := upd h.aud s [], killers := upd h.killers s [] }

/-- Construction of an observer with dependencies, iobserver.cpp:56-68. -/
def newObserver (o : Nat) (ds : List (Option Nat)) (r : Bool) (h : Net) : Outcome Net :=
  if h.oAlive o = true then .ub
  else forEach (addDependency o) ds
    { h with oAlive := upd h.oAlive o true, deps := upd h.deps o [], ondeath := upd h.ondeath o [], recb := upd h.recb o r }

/-- `subject::steal_observers`, subject.cpp:99-110. -/
def steal (ord : Ord) (s other : Nat) (h : Net) : Outcome Net :=
  needS other h >>= fun h =>
    forEach (fun p => replaceDependency p.1 (some s) p.2) (ord.pair (h.aud other)) h

/-- `subject::operator=(subject&&)`, subject.cpp:45-61 (and the move constructor, 136-148). -/
def moveSubject (ord : Ord) (s other : Nat) (h : Net) : Outcome Net :=
  if s = other then .ok h
  else needS s h >>= fun h => steal ord s other h >>= fun h => .ok { h with aud := upd h.aud other [] }

/-- Detach all own dependencies, iobserver.cpp:174-177 and 188-191. -/
def detachAll (o : Nat) (h : Net) : Outcome Net :=
  forEach (fun i h => match (h.deps o)[i]? with
    | some (some s) => detach s o i h
    | _ => .ok h) (List.range (h.deps o).length) h

/-- `iobserver::operator=(const iobserver&)` with `copy_helper`, iobserver.cpp:32-39, 171-183 (the copy
constructor, 70-73, is `newObserver` followed by this). -/
def copyObserver (o other : Nat) (h : Net) : Outcome Net :=
  needO o h >>= fun h => needO other h >>= fun h =>
    if o = other then .ok h
    else detachAll o { h with recb := upd h.recb o (h.recb other) } >>= fun h =>
      forEach (fun s => addDependency o (some s)) ((h.deps other).filterMap id)
        { h with deps := upd h.deps o [] }

/-- Body of the loop of `move_helper`, iobserver.cpp:197-202. -/
def moveSlot (o other : Nat) (i : Nat) (h : Net) : Outcome Net :=
  match (h.deps o)[i]? with
  | some (some s) => attach s o i h >>= fun h => detach s other i h
  | _ => .ok h

/-- `iobserver::operator=(iobserver&&)` with `move_helper`, iobserver.cpp:41-48, 185-204; the moved-from
vector is left empty. -/
def moveObserver (o other : Nat) (h : Net) : Outcome Net :=
  needO o h >>= fun h => needO other h >>= fun h =>
    if o = other then .ok h
    else detachAll o { h with recb := upd h.recb o (h.recb other) } >>= fun h =>
      forEach (moveSlot o other) (List.range (h.deps other).length)
        { h with deps := upd (upd h.deps o (h.deps other)) other [] }

/-- A step of a history. -/
inductive Op where
  | newSubject (s : Nat)
  | newObserver (o : Nat) (ds : List (Option Nat)) (recordable : Bool := true)
  | addDependency (o : Nat) (dep : Option Nat)
  | removeDependency (o i : Nat)
  | replaceDependency (o : Nat) (dep : Option Nat) (i : Nat)
  | steal (ord : Ord) (s other : Nat)
  | moveSubject (ord : Ord) (s other : Nat)
  | copyObserver (o other : Nat)
  | moveObserver (o other : Nat)
  | addOndeath (o s : Nat)
  | attachKiller (s o : Nat)
  | removeOndeath (o s : Nat)
  | detachKiller (s o : Nat)
  | destroySubject (ord : Ord) (s : Nat)
  | destroyObserver (ord : Ord) (o : Nat)

def step : Op → Net → Outcome Net
  | .newSubject s => newSubject s
  | .newObserver o ds r => newObserver o ds r
  | .addDependency o d => addDependency o d
  | .removeDependency o i => removeDependency o i
  | .replaceDependency o d i => replaceDependency o d i
  | .steal ord s t => steal ord s t
  | .moveSubject ord s t => moveSubject ord s t
  | .copyObserver o p => copyObserver o p
  | .moveObserver o p => moveObserver o p
  | .addOndeath o s => addOndeath o s
  | .attachKiller s o => attachKiller s o
  | .removeOndeath o s => removeOndeath o s
  | .detachKiller s o => detachKiller s o
  | .destroySubject ord s => destroySubject ord s
  | .destroyObserver ord o => destroyObserver ord o

/-- A call that throws `logic_error` leaves the objects as they are (the only throwing call, an out of
range `remove_dependency`, throws before changing anything). -/
def run : List Op → Net → Outcome Net
  | [], h => .ok h
  | op :: ops, h =>
    match step op h with
    | .ok h' => run ops h'
    | .throw _ => run ops h
    | .abort => .abort
    | .ub => .ub

end React
end Verif
