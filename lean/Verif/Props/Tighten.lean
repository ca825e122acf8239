import Verif.Props.Shape
import Verif.Props.Tensor
import Verif.Props.Leaf
import Verif.Props.Labels
import Verif.Props.Expr
/-!
# Constructors and calls that earlier theorems left out (C15, C36, C62)
-/
namespace Verif.Props
open Spec Tensor

section
variable {T : Type}

/-- C15: `allocate()` does nothing and returns false on a tensor with data. -/
theorem c15_allocate_done (e : Env T) (t : Tensor T) (h : t.isAlloc = true) : t.allocate e = .ok (t, false) := by
  unfold Tensor.allocate; rw [if_pos h]

/-- C15: `allocate()` on a tensor without data and without a remembered shape follows the allowed shape: it succeeds
exactly if that is fully defined, and the data then has that shape. -/
theorem c15_allocate_void (e : Env T) (t : Tensor T) (hw : t.WF) (h : t.isAlloc = false) (ha : ¬ Full t.alloc)
    (hmem : e.fits t.allowed.nElems = true) :
    ∃ t' b, t.allocate e = .ok (t', b) ∧ (b = true ↔ Full t.allowed) ∧ (b = true → t'.isAlloc = true ∧ t'.alloc = t.allowed ∧ t'.allowed = t.allowed) ∧
      (b = false → t' = t) := by
  have e1 : t.allocate e = t.allocateShape e t.allowed := by
    unfold Tensor.allocate
    rw [if_neg (by simp [h]), if_neg (by rw [Shape.isFullyDefined_iff]; exact ha)]
  obtain ⟨t', b, h1, h2, h3, h4⟩ := c15_allocate e t t.allowed hw hmem
  refine ⟨t', b, e1.trans h1, ?_, h3, h4⟩
  rw [h2]
  constructor
  · exact fun h => h.1
  · refine fun hf => ⟨hf, ?_, by simp [h]⟩
    exact c03_refl _

/-- C15: the tensor of a scalar has shape `[1]` and holds the scalar. -/
theorem c15_new_scalar (e : Env T) (v : T) (hmem : e.fits 1 = true) : newScalar e v = .ok ⟨some [v], [1], [1]⟩ := by
  have h1 : Shape.isFullyDefined [1] = true := rfl
  have h2 : Shape.nElems [1] = 1 := rfl
  unfold newScalar Tensor.new allocBuf
  rw [if_pos h1, h2, if_pos hmem]
  rfl

/-- A tensor without data and without a remembered shape, as every new tensor of an undefined shape is. -/
example (e : Env T) : (Tensor.new e [0, 3]).WF ∧ (Tensor.new e [0, 3]).isAlloc = false ∧ ¬ Full (Tensor.new e [0, 3]).alloc ∧
    ¬ Full (Tensor.new e [0, 3]).allowed :=
  ⟨new_wf e _, rfl, (by simp [Tensor.new, Full, Shape.isFullyDefined]), by simp [Tensor.new, Full, Shape.isFullyDefined]⟩

open Nets in
/-- C62: the parameters of a new fully connected layer with any number of inputs are labelled `scope_weights_i` and
`scope_bias_i`, in order of the inputs. -/
theorem c62_fc_new (e : Env T) (winit : Nat → Nat → T) (nIns : List Nat) (nOut : Nat) (scope : List Char) (m : Mem T) :
    (fcNew e winit nIns nOut scope m).1.scope = scope ∧
    (fcNew e winit nIns nOut scope m).1.vars.map (labelAt (fcNew e winit nIns nOut scope m).2) =
      (List.range nIns.length).flatMap fun i => [some (scope ++ "_weights_".toList ++ decimal i), some (scope ++ "_bias_".toList ++ decimal i)] := by
  have key : ∀ (ns : List Nat) (i : Nat) (m : Mem T),
      m.next ≤ (fcNewFrom e winit nOut scope i ns m).2.next ∧
      (∀ z, z < m.next → (fcNewFrom e winit nOut scope i ns m).2.at_ z = m.at_ z) ∧
      ((fcNewFrom e winit nOut scope i ns m).1.flatMap fun p => [p.1, p.2]).map (labelAt (fcNewFrom e winit nOut scope i ns m).2) =
        (List.range' i ns.length).flatMap fun i => [some (scope ++ "_weights_".toList ++ decimal i), some (scope ++ "_bias_".toList ++ decimal i)] := by
    intro ns
    induction ns with
    | nil => intro i m; exact ⟨Nat.le_refl _, fun _ _ => rfl, rfl⟩
    | cons n ns ih =>
      intro i m
      let w := m.alloc ⟨weightLabel scope i, Leaf.newVariable e [nOut, n] (some (winit n))⟩
      let b := w.2.alloc ⟨biasLabel scope i, Leaf.newVariable e [nOut] (some fun _ => e.zero)⟩
      obtain ⟨i1, i2, i3⟩ := ih (i + 1) b.2
      have hn : b.2.next = m.next + 2 := rfl
      rw [hn] at i1 i2
      have hat : ∀ z, z < m.next → b.2.at_ z = m.at_ z := by
        intro z hz
        show (if z = m.next + 1 then _ else if z = m.next then _ else m.at_ z) = _
        rw [if_neg (by omega), if_neg (by omega)]
      refine ⟨by show m.next ≤ (fcNewFrom e winit nOut scope (i + 1) ns b.2).2.next; omega, fun z hz => ?_, ?_⟩
      · show (fcNewFrom e winit nOut scope (i + 1) ns b.2).2.at_ z = _
        rw [i2 z (by omega), hat z hz]
      · show (([m.next, m.next + 1] ++ ((fcNewFrom e winit nOut scope (i + 1) ns b.2).1.flatMap fun p => [p.1, p.2])).map
          (labelAt (fcNewFrom e winit nOut scope (i + 1) ns b.2).2)) = _
        rw [List.map_append, i3, List.length_cons, List.range'_succ, List.flatMap_cons]
        congr 1
        simp only [List.map_cons, List.map_nil, labelAt]
        rw [i2 _ (by omega), i2 _ (by omega)]
        have h1 : b.2.at_ m.next = some ⟨weightLabel scope i, Leaf.newVariable e [nOut, n] (some (winit n))⟩ := by
          show (if m.next = m.next + 1 then _ else if m.next = m.next then _ else m.at_ m.next) = _
          rw [if_neg (by omega), if_pos rfl]
        have h2 : b.2.at_ (m.next + 1) = some ⟨biasLabel scope i, Leaf.newVariable e [nOut] (some fun _ => e.zero)⟩ := by
          show (if m.next + 1 = m.next + 1 then _ else _) = _
          rw [if_pos rfl]
        rw [h1, h2]
        rfl
  refine ⟨rfl, ?_⟩
  obtain ⟨_, _, k⟩ := key nIns 0 m
  rw [← List.range_eq_range'] at k
  exact k
end

section
open Expr
variable {h : Hash}

/-- C36: the derivative graph of a comparison `c ? x` with any predicate is the constant `0 ? 1`, whatever `c` and `x`,
instead of 0. -/
theorem c36_conditional_left (fmt : ℝ → List Char) (name : List Char) (cmp : ℝ → ℝ → Bool) (c : ℝ) :
    ∃ S d S', run fmt [(h, .leaf true), (h, .un (.condL name cmp c) 2)] St.init = .ok S ∧
      exec ⟨h, fmt⟩ (.derive 3 2) S = .ok (d, S') ∧
      ∀ (ρ : Nat → ℝ) (i : Nat), Val S' ρ i d (if cmp 0 1 then 1 else 0) ∧ ∀ t, Val S (change ρ 2 t) i 3 (if cmp c t then 1 else 0) := by
  let k : K1 := .condL name cmp c
  refine ⟨stU k, 4, setCache 3 2 4 { stU k with nodes := (stU k).nodes ++ [.const [ofCmp cmp 0 1]] },
    run_leaf_un fmt h h true _ (fun S hS => by rw [hS]; rfl), ?_, ?_⟩
  · rw [derive_stU]
    rfl
  · intro ρ i
    refine ⟨?_, fun t => ?_⟩
    · have : ofCmp cmp 0 1 = if cmp 0 1 then 1 else 0 := rfl
      exact .const (d := [ofCmp cmp 0 1]) rfl (by rw [this]; exact constAt_single _ i)
    · have hv : Val (stU k) (change ρ 2 t) i 3 (k.fn (change ρ 2 t 2)) :=
        .un (k := k) (a := 2) rfl (.leaf (tr := true) rfl)
      have h1 : change ρ 2 t 2 = t := by simp [change]
      rw [h1] at hv
      exact hv

/-- C36: the same for `x ? c`: the constant `1 ? 0`. -/
theorem c36_conditional_right (fmt : ℝ → List Char) (name : List Char) (cmp : ℝ → ℝ → Bool) (c : ℝ) :
    ∃ S d S', run fmt [(h, .leaf true), (h, .un (.condR name cmp c) 2)] St.init = .ok S ∧
      exec ⟨h, fmt⟩ (.derive 3 2) S = .ok (d, S') ∧
      ∀ (ρ : Nat → ℝ) (i : Nat), Val S' ρ i d (if cmp 1 0 then 1 else 0) ∧ ∀ t, Val S (change ρ 2 t) i 3 (if cmp t c then 1 else 0) := by
  let k : K1 := .condR name cmp c
  refine ⟨stU k, 4, setCache 3 2 4 { stU k with nodes := (stU k).nodes ++ [.const [ofCmp cmp 1 0]] },
    run_leaf_un fmt h h true _ (fun S hS => by rw [hS]; rfl), ?_, ?_⟩
  · rw [derive_stU]
    rfl
  · intro ρ i
    refine ⟨?_, fun t => ?_⟩
    · have : ofCmp cmp 1 0 = if cmp 1 0 then 1 else 0 := rfl
      exact .const (d := [ofCmp cmp 1 0]) rfl (by rw [this]; exact constAt_single _ i)
    · have hv : Val (stU k) (change ρ 2 t) i 3 (k.fn (change ρ 2 t 2)) :=
        .un (k := k) (a := 2) rfl (.leaf (tr := true) rfl)
      have h1 : change ρ 2 t 2 = t := by simp [change]
      rw [h1] at hv
      exact hv
end
end Verif.Props
