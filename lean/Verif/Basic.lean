/-!
# Outcomes of C++ calls

Every call of the modelled code ends in one of four ways.  `throw` is a C++ exception,
`abort` a failed `assert`, `ub` undefined behaviour (out-of-bounds access, division by
zero, null dereference).  Keeping `ub` distinct means that a theorem concluding `ok` rules
undefined behaviour out.
-/
namespace Verif

inductive Exc where
  | logicError
  | runtimeError
  | outOfRange
  | other
  deriving DecidableEq, Repr

inductive Outcome (α : Type u) where
  | ok (a : α)
  | throw (e : Exc)
  | abort
  | ub
  deriving DecidableEq, Repr

namespace Outcome

def bind {α : Type u} {β : Type v} (x : Outcome α) (f : α → Outcome β) : Outcome β :=
  match x with
  | ok a => f a
  | throw e => throw e
  | abort => abort
  | ub => ub

instance : Monad Outcome where
  pure := ok
  bind := bind

@[simp] theorem pure_eq {α : Type u} (a : α) : (pure a : Outcome α) = ok a := rfl
@[simp] theorem ok_bind {α β : Type u} (a : α) (f : α → Outcome β) : (ok a >>= f) = f a := rfl
@[simp] theorem throw_bind {α β : Type u} (e : Exc) (f : α → Outcome β) :
    ((throw e : Outcome α) >>= f) = throw e := rfl
@[simp] theorem abort_bind {α β : Type u} (f : α → Outcome β) :
    ((abort : Outcome α) >>= f) = abort := rfl
@[simp] theorem ub_bind {α β : Type u} (f : α → Outcome β) :
    ((ub : Outcome α) >>= f) = ub := rfl

@[simp] theorem map_ok {α β : Type u} (g : α → β) (a : α) : (g <$> (ok a)) = ok (g a) := rfl

instance : LawfulMonad Outcome := LawfulMonad.mk'
  (id_map := by intro α x; cases x <;> rfl)
  (pure_bind := by intros; rfl)
  (bind_assoc := by intro α β γ x f g; cases x <;> rfl)

theorem bind_eq_ok {α β : Type u} {x : Outcome α} {f : α → Outcome β} {b : β} :
    (x >>= f) = ok b ↔ ∃ a, x = ok a ∧ f a = ok b := by
  cases x <;> simp

/-- A failed `assert(b)` aborts. -/
def assert (b : Bool) : Outcome PUnit := if b then ok ⟨⟩ else abort

@[simp] theorem assert_true : assert true = ok ⟨⟩ := rfl
@[simp] theorem assert_false : assert false = abort := rfl

/-- Reading `buf[i]` through a raw pointer: undefined behaviour outside the buffer. -/
def read {α : Type u} (buf : List α) (i : Nat) : Outcome α :=
  match buf[i]? with
  | some a => ok a
  | none => ub

theorem read_of_lt {α : Type u} (buf : List α) (i : Nat) (h : i < buf.length) :
    read buf i = ok buf[i] := by
  simp [read, h]

theorem read_eq_ok {α : Type u} (buf : List α) (i : Nat) (a : α) :
    read buf i = ok a ↔ buf[i]? = some a := by
  unfold read; cases buf[i]? <;> simp

/-- Writing `buf[i] = v` through a raw pointer: undefined behaviour outside the buffer. -/
def write {α : Type u} (buf : List α) (i : Nat) (v : α) : Outcome (List α) :=
  if i < buf.length then ok (buf.set i v) else ub

/-- Run a loop body for each element, in order, collecting the results. -/
def forM' {α : Type u} {β : Type u} (l : List α) (f : α → Outcome β) : Outcome (List β) :=
  match l with
  | [] => ok []
  | a :: as => f a >>= fun b => forM' as f >>= fun bs => ok (b :: bs)

theorem forM'_ok {α β : Type u} (l : List α) (f : α → Outcome β) (g : α → β)
    (h : ∀ a ∈ l, f a = ok (g a)) : forM' l f = ok (l.map g) := by
  induction l with
  | nil => rfl
  | cons a as ih =>
    have h1 := h a (by simp)
    have h2 := ih (fun b hb => h b (by simp [hb]))
    simp [forM', h1, h2]

theorem forM'_ub {α β : Type u} (l : List α) (f : α → Outcome β) (pre post : List α) (x : α)
    (g : α → β) (hl : l = pre ++ x :: post) (hpre : ∀ a ∈ pre, f a = ok (g a)) (hx : f x = ub) :
    forM' l f = ub := by
  subst hl
  induction pre with
  | nil => simp [forM', hx]
  | cons a as ih =>
    have h1 := hpre a (by simp)
    have h2 := ih (fun b hb => hpre b (by simp [hb]))
    simp [forM', h1, h2]

/-- `for (i = start; i < start + k; i++) dest[i] = body(i);` on a raw buffer. -/
def fillFrom {α : Type u} (body : Nat → Outcome α) : Nat → Nat → List α → Outcome (List α)
  | 0, _, dest => ok dest
  | k + 1, i, dest => body i >>= fun v => write dest i v >>= fun dest' => fillFrom body k (i + 1) dest'

/-- `for (i = 0; i < n; i++) dest[i] = body(i);` -/
def fill {α : Type u} (n : Nat) (body : Nat → Outcome α) (dest : List α) : Outcome (List α) :=
  fillFrom body n 0 dest

theorem fillFrom_ok {α : Type u} (body : Nat → Outcome α) (g : Nat → α) (k i : Nat) (dest : List α)
    (hb : ∀ j, i ≤ j → j < i + k → body j = ok (g j)) (hd : i + k ≤ dest.length) :
    fillFrom body k i dest =
      ok (dest.take i ++ (List.range' i k).map g ++ dest.drop (i + k)) := by
  induction k generalizing i dest with
  | zero => simp [fillFrom]
  | succ k ih =>
    rw [fillFrom, hb i (Nat.le_refl _) (by omega), ok_bind]
    have hlt : i < dest.length := by omega
    rw [write, if_pos hlt, ok_bind, ih (i + 1) _ (fun j h1 h2 => hb j (by omega) (by omega))
      (by simp; omega)]
    congr 1
    apply List.ext_getElem?
    intro m
    simp only [List.range'_succ, List.map_cons]
    have e1 : (dest.set i (g i)).take (i + 1) = dest.take i ++ [g i] := by
      rw [List.take_set, List.take_add_one, List.getElem?_eq_getElem hlt]
      simp only [Option.toList_some]
      rw [List.set_append_right _ _ (by simp; omega)]
      simp [Nat.min_eq_left (Nat.le_of_lt hlt)]
    have e2 : (dest.set i (g i)).drop (i + 1 + k) = dest.drop (i + (k + 1)) := by
      rw [List.drop_set_of_lt (by omega)]
      congr 1; omega
    rw [e1, e2]
    simp

theorem fill_ok {α : Type u} (n : Nat) (body : Nat → Outcome α) (g : Nat → α) (dest : List α)
    (hb : ∀ j, j < n → body j = ok (g j)) (hd : dest.length = n) :
    fill n body dest = ok ((List.range n).map g) := by
  unfold fill
  rw [fillFrom_ok body g n 0 dest (fun j _ h => hb j (by omega)) (by omega)]
  simp [List.range_eq_range', ← hd]

theorem fill_exists {α : Type u} (n : Nat) (body : Nat → Outcome α) (P : Nat → α → Prop)
    (dest : List α) (hb : ∀ j, j < n → ∃ v, body j = ok v ∧ P j v) (hd : dest.length = n) :
    ∃ res, fill n body dest = ok res ∧ res.length = n ∧
      ∀ j, j < n → ∃ v, res[j]? = some v ∧ P j v := by
  by_cases hn : n = 0
  · subst hn
    exact ⟨dest, rfl, hd, fun j hj => by omega⟩
  · obtain ⟨v0, _, _⟩ := hb 0 (by omega)
    have hg : ∀ j, ∃ v, j < n → body j = ok v ∧ P j v := by
      intro j
      by_cases hj : j < n
      · obtain ⟨v, h⟩ := hb j hj; exact ⟨v, fun _ => h⟩
      · exact ⟨v0, fun h => absurd h hj⟩
    refine ⟨(List.range n).map (fun j => (hg j).choose),
      fill_ok n body _ dest (fun j hj => ((hg j).choose_spec hj).1) hd, by simp, fun j hj => ?_⟩
    exact ⟨_, by simp [hj], ((hg j).choose_spec hj).2⟩

/-- The first failing iteration decides the outcome. -/
theorem fillFrom_fail {α : Type u} (body : Nat → Outcome α) (g : Nat → α) (x : Outcome (List α)) (k i : Nat)
    (dest : List α) (m : Nat) (him : i ≤ m) (hmk : m < i + k)
    (hb : ∀ j, i ≤ j → j < m → body j = ok (g j)) (hd : i + k ≤ dest.length)
    (hx : ∀ f : α → Outcome (List α), (body m >>= f) = x) :
    fillFrom body k i dest = x := by
  induction k generalizing i dest with
  | zero => omega
  | succ k ih =>
    rw [fillFrom]
    by_cases h : i = m
    · subst h; exact hx _
    · rw [hb i (Nat.le_refl _) (by omega), ok_bind]
      have hlt : i < dest.length := by omega
      rw [write, if_pos hlt, ok_bind]
      exact ih (i + 1) _ (by omega) (by omega) (fun j h1 h2 => hb j (by omega) h2) (by simp; omega)

/-- `for (i = start; i < start + k; i++) st = body(i, st);` -/
def loopFrom {σ : Type u} (body : Nat → σ → Outcome σ) : Nat → Nat → σ → Outcome σ
  | 0, _, st => ok st
  | k + 1, i, st => body i st >>= fun st' => loopFrom body k (i + 1) st'

/-- `for (i = 0; i < n; i++) st = body(i, st);` -/
def loop {σ : Type u} (n : Nat) (body : Nat → σ → Outcome σ) (st : σ) : Outcome σ :=
  loopFrom body n 0 st

theorem loopFrom_inv {σ : Type u} (P : Nat → σ → Prop) (body : Nat → σ → Outcome σ) (k i : Nat) (st : σ)
    (h0 : P i st) (hs : ∀ j s, i ≤ j → j < i + k → P j s → ∃ s', body j s = ok s' ∧ P (j + 1) s') :
    ∃ s', loopFrom body k i st = ok s' ∧ P (i + k) s' := by
  induction k generalizing i st with
  | zero => exact ⟨st, rfl, h0⟩
  | succ k ih =>
    obtain ⟨s1, h1, h2⟩ := hs i st (Nat.le_refl _) (by omega) h0
    obtain ⟨s2, h3, h4⟩ := ih (i + 1) s1 h2 (fun j s hj hk => hs j s (by omega) (by omega))
    refine ⟨s2, ?_, ?_⟩
    · rw [loopFrom, h1, ok_bind, h3]
    · rw [show i + (k + 1) = i + 1 + k by omega]; exact h4

/-- Loop invariant rule. -/
theorem loop_inv {σ : Type u} (P : Nat → σ → Prop) (n : Nat) (body : Nat → σ → Outcome σ) (st : σ)
    (h0 : P 0 st) (hs : ∀ j s, j < n → P j s → ∃ s', body j s = ok s' ∧ P (j + 1) s') :
    ∃ s', loop n body st = ok s' ∧ P n s' := by
  obtain ⟨s', h1, h2⟩ := loopFrom_inv P body n 0 st h0 (fun j s _ hj => hs j s (by omega))
  exact ⟨s', h1, by simpa using h2⟩

theorem write_ok {α : Type u} (buf : List α) (i : Nat) (v : α) (h : i < buf.length) :
    write buf i v = ok (buf.set i v) := by
  simp [write, h]

theorem read_ok {α : Type u} {buf : List α} {i : Nat} {v : α} (h : buf[i]? = some v) :
    read buf i = ok v := (read_eq_ok _ _ _).2 h

end Outcome
end Verif
