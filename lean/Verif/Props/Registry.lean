import Verif.Model.Registry
/-!
# C38: allocator registry
-/
namespace Verif.Props
open Verif.Registry

/-- Class of the first call of a history that names `id`. -/
def firstClass (id : Nat) : List (Nat × Nat) → Option Nat
  | [] => none
  | c :: cs => if c.2 = id then some c.1 else firstClass id cs

/-- Well-formed registry: objects carry distinct serial numbers below `fresh`. -/
def RInv (r : Reg) : Prop :=
  (∀ id o, r.map id = some o → o.serial < r.fresh) ∧
  ∀ i j o p, r.map i = some o → r.map j = some p → o.serial = p.serial → i = j

theorem new_inv : RInv Reg.new := by
  refine ⟨fun id o h => ?_, fun i j o p hi hj _ => ?_⟩
  · simp only [Reg.new] at h ⊢
    split at h
    · injection h with h; subst h; exact Nat.one_pos
    · cases h
  · simp only [Reg.new] at hi hj
    split at hi
    · split at hj
      · omega
      · cases hj
    · cases hi

theorem register_inv {r : Reg} (h : RInv r) (c id : Nat) : RInv (r.register c id).1 := by
  unfold Reg.register
  split
  · refine ⟨fun k o ho => ?_, fun i j o p hi hj hs => ?_⟩
    · simp only at ho ⊢
      split at ho
      · injection ho with ho; subst ho; exact Nat.lt_succ_self _
      · have := h.1 k o ho; omega
    · simp only at hi hj
      split at hi
      · split at hj
        · omega
        · injection hi with hi; subst hi
          have := h.1 j p hj
          simp only at hs; omega
      · split at hj
        · injection hj with hj; subst hj
          have := h.1 i o hi
          simp only at hs; omega
        · exact h.2 i j o p hi hj hs
  · exact h

theorem run_inv (cs : List (Nat × Nat)) : ∀ r, RInv r → RInv (r.run cs).1 := by
  induction cs with
  | nil => intro r h; exact h
  | cons c cs ih => intro r h; exact ih _ (register_inv h _ _)

theorem run_append (cs ds : List (Nat × Nat)) : ∀ r : Reg,
    (r.run (cs ++ ds)).1 = ((r.run cs).1.run ds).1 := by
  induction cs with
  | nil => intro r; rfl
  | cons c cs ih => intro r; exact ih _

theorem register_keeps (r : Reg) (c k id : Nat) (o : Obj) (h : r.get id = some o) :
    (r.register c k).1.get id = some o := by
  unfold Reg.register
  split
  · rename_i hk
    by_cases hid : id = k
    · subst hid; rw [Reg.get] at h; rw [h] at hk; cases hk
    · simpa [Reg.get, hid] using h
  · exact h

theorem run_keeps (cs : List (Nat × Nat)) : ∀ (r : Reg) (id : Nat) (o : Obj), r.get id = some o →
    (r.run cs).1.get id = some o := by
  induction cs with
  | nil => intro r id o h; exact h
  | cons c cs ih => intro r id o h; exact ih _ id o (register_keeps r c.1 c.2 id o h)

/-- Once an identifier resolves to an allocator, it resolves to that same allocator for ever. -/
theorem c38_never_rebinds (cs ds : List (Nat × Nat)) (id : Nat) (o : Obj)
    (h : (Reg.new.run cs).1.get id = some o) : (Reg.new.run (cs ++ ds)).1.get id = some o := by
  rw [run_append]; exact run_keeps ds _ id o h

theorem run_get (cs : List (Nat × Nat)) : ∀ (r : Reg) (id : Nat),
    ((r.run cs).1.get id).map Obj.cls = ((r.get id).map Obj.cls).or (firstClass id cs) := by
  induction cs with
  | nil => intro r id; simp [Reg.run, firstClass]
  | cons c cs ih =>
    intro r id
    have : (r.run (c :: cs)).1 = ((r.register c.1 c.2).1.run cs).1 := rfl
    rw [this, ih]
    cases hg : r.get id with
    | some o => rw [register_keeps r c.1 c.2 id o hg]; simp
    | none =>
      unfold Reg.register
      by_cases hid : c.2 = id
      · subst hid
        rw [Reg.get] at hg
        rw [hg]
        simp [Reg.get, firstClass]
      · have hid' : ¬ id = c.2 := fun h => hid h.symm
        split
        · rw [Reg.get] at hg; simp [Reg.get, hid', hg, firstClass, hid]
        · simp [hg, firstClass, hid]

/-- After any history of registrations an identifier resolves to an allocator of the class first registered under it
(the built-in default for the default identifier), and to nothing exactly if it was never registered. -/
theorem c38_get (cs : List (Nat × Nat)) (id : Nat) :
    ((Reg.new.run cs).1.get id).map Obj.cls = if id = 0 then some 0 else firstClass id cs := by
  rw [run_get]
  by_cases h : id = 0
  · simp [Reg.new, Reg.get, defaultId, h]
  · simp [Reg.new, Reg.get, defaultId, h]

theorem c38_get_null (cs : List (Nat × Nat)) (id : Nat) :
    (Reg.new.run cs).1.get id = none ↔ id ≠ 0 ∧ ∀ c ∈ cs, c.2 ≠ id := by
  have hf : firstClass id cs = none ↔ ∀ c ∈ cs, c.2 ≠ id := by
    induction cs with
    | nil => simp [firstClass]
    | cons c cs ih =>
      simp only [firstClass]
      split
      · rename_i h; simp [h]
      · rename_i h; simp [ih, h]
  have := c38_get cs id
  by_cases h : id = 0
  · rw [if_pos h] at this
    constructor
    · intro hh; rw [hh] at this; cases this
    · intro hh; exact absurd h hh.1
  · rw [if_neg h] at this
    rw [← hf, ← this]
    simp [h]

theorem run_results_length (cs : List (Nat × Nat)) : ∀ r : Reg, (r.run cs).2.length = cs.length := by
  induction cs with
  | nil => intro r; rfl
  | cons c cs ih => intro r; simp [Reg.run, ih]

/-- The `k`-th registration reports success exactly when its identifier is neither the default one nor used by an
earlier registration; it then resolves to the class registered. -/
theorem c38_register_result (cs : List (Nat × Nat)) (c id : Nat) (rest : List (Nat × Nat)) :
    (Reg.new.run (cs ++ (c, id) :: rest)).2[cs.length]? = some (decide (id ≠ 0 ∧ ∀ d ∈ cs, d.2 ≠ id)) ∧
    ((id ≠ 0 ∧ ∀ d ∈ cs, d.2 ≠ id) → ((Reg.new.run (cs ++ (c, id) :: rest)).1.get id).map Obj.cls = some c) := by
  have hres : ∀ (cs : List (Nat × Nat)) (r : Reg),
      (r.run (cs ++ (c, id) :: rest)).2[cs.length]? = some (decide ((r.run cs).1.get id = none)) := by
    intro cs
    induction cs with
    | nil =>
      intro r
      simp only [List.nil_append, List.length_nil, List.getElem?_cons_zero, Option.some.injEq, Reg.run]
      unfold Reg.register Reg.get
      split <;> rename_i h <;> simp [h]
    | cons d cs ih =>
      intro r
      have e1 : (r.run (d :: cs ++ (c, id) :: rest)).2 = (r.register d.1 d.2).2 :: ((r.register d.1 d.2).1.run (cs ++ (c, id) :: rest)).2 := rfl
      have e2 : (r.run (d :: cs)).1 = ((r.register d.1 d.2).1.run cs).1 := rfl
      rw [e1, e2, List.length_cons, List.getElem?_cons_succ, ih]
  constructor
  · rw [hres]
    simp only [c38_get_null]
  · intro h
    rw [c38_get, if_neg h.1]
    have : ∀ cs : List (Nat × Nat), (∀ d ∈ cs, d.2 ≠ id) → firstClass id (cs ++ (c, id) :: rest) = some c := by
      intro cs
      induction cs with
      | nil => intro _; simp [firstClass]
      | cons d cs ih =>
        intro h
        have h1 := h d (by simp)
        simp only [List.cons_append, firstClass, if_neg h1]
        exact ih (fun x hx => h x (by simp [hx]))
    exact this cs h.2

/-- Different identifiers resolve to different allocator objects. -/
theorem c38_distinct (cs : List (Nat × Nat)) (i j : Nat) (o p : Obj)
    (hi : (Reg.new.run cs).1.get i = some o) (hj : (Reg.new.run cs).1.get j = some p) (h : i ≠ j) : o ≠ p := by
  intro he
  exact h ((run_inv cs _ new_inv).2 i j o p hi hj (by rw [he]))

/-- `check_registry<A>(id)`: whether the class first registered under the identifier derives from `A`. -/
theorem c38_check (derives : Nat → Nat → Bool) (cs : List (Nat × Nat)) (A id : Nat) :
    (Reg.new.run cs).1.check derives A id = true ↔
      ∃ C, (if id = 0 then some 0 else firstClass id cs) = some C ∧ derives C A = true := by
  rw [← c38_get]
  unfold Reg.check Reg.get
  cases (Reg.new.run cs).1.map id <;> simp

example : (Reg.new.run [(5, 3), (6, 3), (7, 0), (8, 4)]).2 = [true, false, false, true] := by decide
example : (Reg.new.run [(5, 3), (6, 3), (7, 0), (8, 4)]).1.get 3 = some ⟨5, 1⟩ := by decide
example : (Reg.new.run [(5, 3), (6, 3), (7, 0), (8, 4)]).1.get 0 = some ⟨0, 0⟩ := by decide

end Verif.Props
