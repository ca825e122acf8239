import Verif.Lemmas.Matmul
import Verif.Lemmas.Op
import Verif.Props.Transform
/-!
# Properties of matrix multiplication: C23 - C25

A matrix of `Y` rows and `X` columns is a tensor of shape `[X, Y]`, element (column x, row y) at
coordinate `[x, y]`.  `on` is the `ENABLE_STRASSEN` build flag; every theorem holds for both builds.
-/
namespace Verif.Props
open Spec Matmul Op Finset
variable {T : Type} [Ring T]

/-- First evaluation of `matmul(a, b)` without transposition. -/
def evalMatmul (e : Env T) (on : Bool) (a b : Tensor T) : Outcome (Tensor T) :=
  forwardPass e shaper (kernel on e.junk) none [some a, some b]

/-- First evaluation of `matmul(a, b, transposeA, transposeB)`, matmul.ipp:244-273: an operand asked
for transposed is replaced by its `transpose(_, {0, 1})`. -/
def evalMatmulT (e : Env T) (on tA tB : Bool) (a b : Tensor T) : Outcome (Tensor T) :=
  (if tA then evalTranspose e (0, 1) a else .ok a) >>= fun a' =>
  (if tB then evalTranspose e (0, 1) b else .ok b) >>= fun b' =>
  evalMatmul e on a' b'

theorem coords_batch {X Y : Nat} {r : List Nat} {p : Nat} (hX : 0 < X) (hY : 0 < Y) :
    coords (X :: Y :: r) p = p % X :: p / X % Y :: coords r (p / X / Y) ∧
      p = p / X / Y * (X * Y) + (p % X + X * (p / X % Y)) := by
  refine ⟨rfl, ?_⟩
  have h1 := Nat.mod_add_div p X
  have h2 := Nat.mod_add_div (p / X) Y
  have h3 : X * (p / X) = X * (p / X % Y) + X * Y * (p / X / Y) := by
    conv => lhs; rw [← h2]
    rw [Nat.mul_add, Nat.mul_assoc]
  rw [Nat.mul_comm (p / X / Y)]
  omega

omit [Ring T] in
theorem eq_bufOf_batch {X Y : Nat} {r : List Nat} {d : List T} {g : List Nat → T} {C : Nat → Nat → Nat → T}
    (hX : 0 < X) (hY : 0 < Y) (hl : d.length = vol (X :: Y :: r))
    (h : ∀ i x y, i < vol r → x < X → y < Y → d[i * (X * Y) + (x + X * y)]? = some (C i x y))
    (hg : ∀ i x y, i < vol r → x < X → y < Y → C i x y = g (x :: y :: coords r i)) :
    d = bufOf (X :: Y :: r) g := by
  apply List.ext_getElem?
  intro p
  by_cases hp : p < vol (X :: Y :: r)
  · obtain ⟨h1, h2⟩ := coords_batch (r := r) (p := p) hX hY
    have hi : p / X / Y < vol r := by
      rw [Nat.div_div_eq_div_mul]
      apply Nat.div_lt_of_lt_mul
      simpa [vol, Nat.mul_assoc] using hp
    have hx := Nat.mod_lt p hX
    have hy := Nat.mod_lt (p / X) hY
    have := h _ _ _ hi hx hy
    rw [← h2] at this
    rw [this, hg _ _ _ hi hx hy, ← h1, bufOf]
    simp [hp]
  · rw [List.getElem?_eq_none (by omega), List.getElem?_eq_none (by simpa using hp)]

omit [Ring T] in
theorem bufOf_get_batch {X Y : Nat} {r : List Nat} (f : List Nat → T) {i x y : Nat} (hi : i < vol r)
    (hx : x < X) (hy : y < Y) :
    (bufOf (X :: Y :: r) f)[i * (X * Y) + (x + X * y)]? = some (f (x :: y :: coords r i)) := by
  have hlt : i * (X * Y) + (x + X * y) < vol (X :: Y :: r) := by
    have h1 := idx_lt (idx_lt hx hy) hi
    have e2 : vol (X :: Y :: r) = X * Y * vol r := by simp only [vol]; ring
    have e3 : i * (X * Y) + (x + X * y) = x + X * y + X * Y * i := by ring
    rw [e2, e3]; exact h1
  have e1 : i * (X * Y) + (x + X * y) = x + X * (y + Y * i) := by ring
  unfold bufOf
  rw [List.getElem?_map, List.getElem?_range hlt, Option.map_some]
  simp only [coords, e1, idx_mod hx, idx_div hx, idx_mod hy, idx_div hy]

/-- C23 with any further (batch) extents `r`, equal in both operands: each output element is the sum
over the inner index of products. -/
theorem c23_matmul_batch (e : Env T) (on : Bool) (a b : Tensor T) (X Y Z : Nat) (r : List Nat)
    (fa fb : List Nat → T) (ha : Holds a (Z :: Y :: r) fa) (hb : Holds b (X :: Z :: r) fb)
    (hm : e.fits (Shape.nElems (X :: Y :: r)) = true) :
    ∃ t', evalMatmul e on a b = .ok t' ∧ Holds t' (X :: Y :: r) (fun c =>
      ∑ z ∈ range Z, fa (z :: c.drop 1) * fb (c.getD 0 0 :: z :: c.drop 2)) := by
  have hZ : 0 < Z := ha.full.2 Z (by simp)
  have hY : 0 < Y := ha.full.2 Y (by simp)
  have hX : 0 < X := hb.full.2 X (by simp)
  refine forwardPass_holds e shaper (kernel on e.junk) [(a, Z :: Y :: r, fa), (b, X :: Z :: r, fb)] ?_
    (X :: Y :: r) _ ?_ ⟨by simp, ?_⟩ hm ?_
  · intro x hx
    simp only [List.mem_cons, List.not_mem_nil, or_false] at hx
    rcases hx with rfl | rfl
    · exact ha
    · exact hb
  · simp only [List.map_cons, List.map_nil, shaper, beyond2d]
    cases r with
    | nil => simp
    | cons d ds => simp
  · intro d hd
    simp only [List.mem_cons] at hd
    rcases hd with rfl | rfl | hd
    · exact hX
    · exact hY
    · exact ha.full.2 d (by simp [hd])
  · intro dest hd
    simp only [List.map_cons, List.map_nil]
    obtain ⟨d', h1, h2, h3⟩ := kernel_spec on e.junk X Y Z (vol r) (bufOf (Z :: Y :: r) fa)
      (bufOf (X :: Z :: r) fb) dest (X :: Y :: r) (Z :: Y :: r) (X :: Z :: r)
      (fun i z y => fa (z :: y :: coords r i)) (fun i x z => fb (x :: z :: coords r i)) hZ hY rfl rfl
      (by simp) (by rw [Shape.nElems_eq ha.full.1]; simp only [vol]; ring)
      (by rw [hd]; simp only [vol]; apply Nat.le_of_eq; ring)
      (fun i z y hi hz hy => bufOf_get_batch fa hi hz hy)
      (fun i x z hi hx hz => bufOf_get_batch fb hi hx hz)
    rw [h1]
    refine congrArg _ (eq_bufOf_batch hX hY (h2.trans hd) h3 ?_)
    intro i x y _ _ _
    simp [mmul]

/-- C23: matrices (rank 2). -/
theorem c23_matmul (e : Env T) (on : Bool) (a b : Tensor T) (X Y Z : Nat)
    (fa fb : List Nat → T) (ha : Holds a [Z, Y] fa) (hb : Holds b [X, Z] fb)
    (hm : e.fits (Shape.nElems [X, Y]) = true) :
    ∃ t', evalMatmul e on a b = .ok t' ∧ Holds t' [X, Y] (fun c =>
      ∑ z ∈ range Z, fa [z, c.getD 1 0] * fb [c.getD 0 0, z]) := by
  obtain ⟨t', h1, h2⟩ := c23_matmul_batch e on a b X Y Z [] fa fb ha hb hm
  refine ⟨t', h1, h2.full, h2.shape, ?_⟩
  obtain ⟨buf, h3, h4, h5⟩ := h2.data
  refine ⟨buf, h3, h4, fun c hc => ?_⟩
  rw [h5 c hc]
  match c, hc.1 with
  | [x, y], _ => rfl

/-- C23: both transposition flags. The flag says the operand is given with rows and columns exchanged. -/
theorem c23_matmul_transposed (e : Env T) (on tA tB : Bool) (a b : Tensor T) (X Y Z : Nat)
    (fa fb : List Nat → T) (ha : Holds a (if tA then [Y, Z] else [Z, Y]) fa)
    (hb : Holds b (if tB then [Z, X] else [X, Z]) fb) (hm : ∀ n, e.fits n = true) :
    ∃ t', evalMatmulT e on tA tB a b = .ok t' ∧ Holds t' [X, Y] (fun c =>
      ∑ z ∈ range Z, (if tA then fa [c.getD 1 0, z] else fa [z, c.getD 1 0]) *
        (if tB then fb [z, c.getD 0 0] else fb [c.getD 0 0, z])) := by
  have key : ∀ (t : Bool) (x : Tensor T) (P Q : Nat) (f : List Nat → T),
      Holds x (if t then [Q, P] else [P, Q]) f →
      ∃ x', (if t then evalTranspose e (0, 1) x else .ok x) = .ok x' ∧
        Holds x' [P, Q] (fun c => if t then f [c.getD 1 0, c.getD 0 0] else f c) := by
    intro t x P Q f h
    cases t
    · exact ⟨x, rfl, h⟩
    · simp only [if_true] at h
      obtain ⟨x', h1, h2⟩ := c18_transpose e x [Q, P] f 0 1 h (by simp) (by simp) (hm _)
      refine ⟨x', h1, h2.full, h2.shape, ?_⟩
      obtain ⟨buf, h3, h4, h5⟩ := h2.data
      refine ⟨buf, h3, h4, fun c hc => ?_⟩
      have := h5 c hc
      match c, hc.1 with
      | [u, v], _ => simpa [swapPos] using this
  obtain ⟨a', ea, ha'⟩ := key tA a Z Y fa ha
  obtain ⟨b', eb, hb'⟩ := key tB b X Z fb hb
  obtain ⟨t', h1, h2⟩ := c23_matmul e on a' b' X Y Z _ _ ha' hb' (hm _)
  refine ⟨t', ?_, ?_⟩
  · unfold evalMatmulT
    rw [ea, Outcome.ok_bind, eb, Outcome.ok_bind, h1]
  · simpa using h2

/-- C23: vectors. A rank-1 left operand is a single row. -/
theorem c23_vector_left (e : Env T) (on : Bool) (a b : Tensor T) (X Z : Nat)
    (fa fb : List Nat → T) (ha : Holds a [Z] fa) (hb : Holds b [X, Z] fb)
    (hm : e.fits (Shape.nElems [X, 1]) = true) :
    ∃ t', evalMatmul e on a b = .ok t' ∧ Holds t' [X, 1] (fun c =>
      ∑ z ∈ range Z, fa [z] * fb [c.getD 0 0, z]) := by
  have hZ : 0 < Z := ha.full.2 Z (by simp)
  have hX : 0 < X := hb.full.2 X (by simp)
  refine forwardPass_holds e shaper (kernel on e.junk) [(a, [Z], fa), (b, [X, Z], fb)] ?_
    [X, 1] _ ?_ ⟨by simp, by simp [hX]⟩ hm ?_
  · intro x hx
    simp only [List.mem_cons, List.not_mem_nil, or_false] at hx
    rcases hx with rfl | rfl
    · exact ha
    · exact hb
  · simp [shaper, beyond2d]
  · intro dest hd
    simp only [List.map_cons, List.map_nil]
    obtain ⟨d', h1, h2, h3⟩ := kernel_spec on e.junk X 1 Z 1 (bufOf [Z] fa)
      (bufOf [X, Z] fb) dest [X, 1] [Z] [X, Z]
      (fun _ z _ => fa [z]) (fun _ x z => fb [x, z]) hZ (by omega) rfl rfl
      (by simp) (by simp [Shape.nElems_eq, vol]) (by rw [hd]; simp [vol])
      (fun i z y hi hz hy => by
        obtain rfl : i = 0 := by omega
        obtain rfl : y = 0 := by omega
        have := read_bufOf_flat (s := [Z]) (c := [z]) fa (by simp [InRange, hz])
        rw [Outcome.read_eq_ok] at this
        simpa [flat] using this)
      (fun i x z hi hx hz => by
        have := bufOf_get_batch (r := []) fb (i := i) (by simpa [vol] using hi) hx hz
        simpa [coords] using this)
    rw [h1]
    refine congrArg _ (eq_bufOf_batch (r := []) hX (by omega) (h2.trans hd) (by simpa [vol] using h3) ?_)
    intro i x y _ _ _
    simp [mmul]

/-- C23: vectors. A rank-1 right operand is a single row, so the inner extent must be 1: the outer
product. -/
theorem c23_vector_right (e : Env T) (on : Bool) (a b : Tensor T) (X Y : Nat)
    (fa fb : List Nat → T) (ha : Holds a [1, Y] fa) (hb : Holds b [X] fb)
    (hm : e.fits (Shape.nElems [X, Y]) = true) :
    ∃ t', evalMatmul e on a b = .ok t' ∧ Holds t' [X, Y] (fun c =>
      fa [0, c.getD 1 0] * fb [c.getD 0 0]) := by
  have hY : 0 < Y := ha.full.2 Y (by simp)
  have hX : 0 < X := hb.full.2 X (by simp)
  refine forwardPass_holds e shaper (kernel on e.junk) [(a, [1, Y], fa), (b, [X], fb)] ?_
    [X, Y] _ ?_ ⟨by simp, by simp [hX, hY]⟩ hm ?_
  · intro x hx
    simp only [List.mem_cons, List.not_mem_nil, or_false] at hx
    rcases hx with rfl | rfl
    · exact ha
    · exact hb
  · simp [shaper, beyond2d]
  · intro dest hd
    simp only [List.map_cons, List.map_nil]
    obtain ⟨d', h1, h2, h3⟩ := kernel_spec on e.junk X Y 1 1 (bufOf [1, Y] fa)
      (bufOf [X] fb) dest [X, Y] [1, Y] [X]
      (fun _ z y => fa [z, y]) (fun _ x _ => fb [x]) (by omega) hY rfl rfl
      (by simp) (by simp [Shape.nElems_eq, vol]) (by rw [hd]; simp [vol])
      (fun i z y hi hz hy => by
        have := bufOf_get_batch (r := []) fa (i := i) (by simpa [vol] using hi) hz hy
        simpa [coords] using this)
      (fun i x z hi hx hz => by
        obtain rfl : i = 0 := by omega
        obtain rfl : z = 0 := by omega
        have := read_bufOf_flat (s := [X]) (c := [x]) fb (by simp [InRange, hx])
        rw [Outcome.read_eq_ok] at this
        simpa [flat] using this)
    rw [h1]
    refine congrArg _ (eq_bufOf_batch (r := []) hX hY (h2.trans hd) (by simpa [vol] using h3) ?_)
    intro i x y _ _ _
    simp [mmul]

/-- C23: both operands of rank 1: a one-element left operand scales the right one. -/
theorem c23_vector_both (e : Env T) (on : Bool) (a b : Tensor T) (X : Nat)
    (fa fb : List Nat → T) (ha : Holds a [1] fa) (hb : Holds b [X] fb)
    (hm : e.fits (Shape.nElems [X, 1]) = true) :
    ∃ t', evalMatmul e on a b = .ok t' ∧ Holds t' [X, 1] (fun c => fa [0] * fb [c.getD 0 0]) := by
  have hX : 0 < X := hb.full.2 X (by simp)
  refine forwardPass_holds e shaper (kernel on e.junk) [(a, [1], fa), (b, [X], fb)] ?_
    [X, 1] _ ?_ ⟨by simp, by simp [hX]⟩ hm ?_
  · intro x hx
    simp only [List.mem_cons, List.not_mem_nil, or_false] at hx
    rcases hx with rfl | rfl
    · exact ha
    · exact hb
  · simp [shaper, beyond2d]
  · intro dest hd
    simp only [List.map_cons, List.map_nil]
    obtain ⟨d', h1, h2, h3⟩ := kernel_spec on e.junk X 1 1 1 (bufOf [1] fa)
      (bufOf [X] fb) dest [X, 1] [1] [X]
      (fun _ z _ => fa [z]) (fun _ x _ => fb [x]) (by omega) (by omega) rfl rfl
      (by simp) (by simp [Shape.nElems_eq, vol]) (by rw [hd]; simp [vol])
      (fun i z y hi hz hy => by
        obtain rfl : i = 0 := by omega
        obtain rfl : y = 0 := by omega
        have := read_bufOf_flat (s := [1]) (c := [z]) fa (by simp [InRange, hz])
        rw [Outcome.read_eq_ok] at this
        simpa [flat] using this)
      (fun i x z hi hx hz => by
        obtain rfl : i = 0 := by omega
        obtain rfl : z = 0 := by omega
        have := read_bufOf_flat (s := [X]) (c := [x]) fb (by simp [InRange, hx])
        rw [Outcome.read_eq_ok] at this
        simpa [flat] using this)
    rw [h1]
    refine congrArg _ (eq_bufOf_batch (r := []) hX (by omega) (h2.trans hd) (by simpa [vol] using h3) ?_)
    intro i x y _ _ _
    simp [mmul]

/-- Inner extents of two operands of rank 1 or 2: columns of the left, rows of the right. -/
def innerMatch (sa sb : List Nat) : Prop := sa.getD 0 1 = sb.getD 1 1

/-- C23: operands of rank at most 2 whose inner extents differ are rejected. -/
theorem c23_mismatch_throws (e : Env T) (on : Bool) (a b : Tensor T) (sa sb : List Nat)
    (fa fb : List Nat → T) (ha : Holds a sa fa) (hb : Holds b sb fb) (hra : sa.length ≤ 2)
    (hrb : sb.length ≤ 2) (hne : ¬ innerMatch sa sb) :
    evalMatmul e on a b = .throw .logicError := by
  have hts : ∀ x ∈ [(a, sa, fa), (b, sb, fb)], Holds x.1 x.2.1 x.2.2 := by
    intro x hx
    simp only [List.mem_cons, List.not_mem_nil, or_false] at hx
    rcases hx with rfl | rfl
    · exact ha
    · exact hb
  have hf := forwardPass_new e shaper (kernel on e.junk) _ hts
  simp only [List.map_cons, List.map_nil] at hf
  unfold evalMatmul
  rw [hf]
  have hs : shaper [sa, sb] = .throw .logicError := by
    unfold innerMatch at hne
    simp only [shaper, beyond2d]
    rw [if_neg (by omega), Outcome.ok_bind, if_neg]
    intro h
    apply hne
    match sa, sb, ha.full.1, hb.full.1, hrb with
    | z :: _, [x], _, _, _ => simpa using h
    | z :: _, x :: w :: _, _, _, _ => simpa using h
  rw [hs]
  rfl

/-- Batch extents of two operands that both have some: the same, missing ones counting as 1. -/
def batchMatch (sa sb : List Nat) : Prop := 2 < sa.length → 2 < sb.length → ∀ i, 2 ≤ i → sa.getD i 1 = sb.getD i 1

theorem beyond2d_ok (sa sb : List Nat) :
    (batchMatch sa sb → ∃ r, beyond2d sa sb = .ok r ∧ (∀ i, r.getD i 1 = if 2 < sa.length ∧ 2 < sb.length then sa.getD (i + 2) 1 else 1)) ∧
    (¬ batchMatch sa sb → beyond2d sa sb = .throw .logicError) := by
  unfold batchMatch beyond2d
  by_cases hm : min sa.length sb.length > 2
  · have h1 : 2 < sa.length := by omega
    have h2 : 2 < sb.length := by omega
    simp only [hm, h1, h2, if_true, true_implies, and_self]
    have heq : (sa.take (min sa.length sb.length)).drop 2 = (sb.take (min sa.length sb.length)).drop 2 ↔
        ∀ i, 2 ≤ i → i < min sa.length sb.length → sa.getD i 1 = sb.getD i 1 := by
      constructor
      · intro h i hi hlt
        have := congrArg (fun l => l.getD (i - 2) 1) h
        simp only [List.getD_eq_getElem?_getD, List.getElem?_drop, List.getElem?_take, show 2 + (i - 2) = i by omega, hlt, if_true] at this
        simpa only [List.getD_eq_getElem?_getD] using this
      · intro h
        apply List.ext_getElem (by simp)
        intro i hi hi'
        have := h (i + 2) (by omega) (by simp at hi; omega)
        simp at hi hi'
        rw [getD_lt _ _ _ (by omega), getD_lt _ _ _ (by omega)] at this
        simpa [Nat.add_comm] using this
    have hrest : ((if sa.length > sb.length then sa else sb).drop (min sa.length sb.length)).all (· == 1) = true ↔
        ∀ i, min sa.length sb.length ≤ i → sa.getD i 1 = sb.getD i 1 := by
      rw [List.all_eq_true]
      constructor
      · intro h i hi
        have h' : ∀ j, min sa.length sb.length ≤ j → ∀ (hj : j < (if sa.length > sb.length then sa else sb).length),
            (if sa.length > sb.length then sa else sb)[j] = 1 := by
          intro j hj hlt
          have := h ((if sa.length > sb.length then sa else sb)[j]) (by
            rw [List.mem_iff_getElem]
            exact ⟨j - min sa.length sb.length, by rw [List.length_drop]; omega, by simp [show min sa.length sb.length + (j - min sa.length sb.length) = j by omega]⟩)
          simpa using this
        by_cases hc : sa.length > sb.length
        · simp only [hc, if_true] at h'
          rw [show sb.getD i 1 = 1 by simp [List.getD_eq_getElem?_getD, List.getElem?_eq_none (show sb.length ≤ i by omega)]]
          by_cases hi2 : i < sa.length
          · rw [getD_lt _ _ _ hi2]; exact h' i hi hi2
          · simp [List.getD_eq_getElem?_getD, List.getElem?_eq_none (show sa.length ≤ i by omega)]
        · simp only [hc, if_false] at h'
          rw [show sa.getD i 1 = 1 by simp [List.getD_eq_getElem?_getD, List.getElem?_eq_none (show sa.length ≤ i by omega)]]
          by_cases hi2 : i < sb.length
          · rw [getD_lt _ _ _ hi2]; exact (h' i hi hi2).symm
          · simp [List.getD_eq_getElem?_getD, List.getElem?_eq_none (show sb.length ≤ i by omega)]
      · intro h x hx
        obtain ⟨j, hj, rfl⟩ := List.mem_iff_getElem.1 hx
        have := h (min sa.length sb.length + j) (by omega)
        by_cases hc : sa.length > sb.length
        · simp only [hc, if_true, List.length_drop] at hj
          rw [show sb.getD (min sa.length sb.length + j) 1 = 1 by simp [List.getD_eq_getElem?_getD, List.getElem?_eq_none (show sb.length ≤ min sa.length sb.length + j by omega)],
            getD_lt _ _ _ (by omega)] at this
          simp [hc, this]
        · simp only [hc, if_false, List.length_drop] at hj
          rw [show sa.getD (min sa.length sb.length + j) 1 = 1 by simp [List.getD_eq_getElem?_getD, List.getElem?_eq_none (show sa.length ≤ min sa.length sb.length + j by omega)],
            getD_lt _ _ _ (by omega)] at this
          simp [hc, ← this]
    by_cases hE : ∀ i, 2 ≤ i → i < min sa.length sb.length → sa.getD i 1 = sb.getD i 1
    · rw [if_pos (heq.2 hE)]
      by_cases hR : ∀ i, min sa.length sb.length ≤ i → sa.getD i 1 = sb.getD i 1
      · rw [if_pos (hrest.2 hR)]
        refine ⟨fun _ => ⟨_, rfl, fun i => ?_⟩, fun h => absurd (fun i hi => ?_) h⟩
        · by_cases hi : i + 2 < min sa.length sb.length
          · simp only [List.getD_eq_getElem?_getD, List.getElem?_drop, List.getElem?_take, Nat.add_comm 2 i, hi, if_true]
          · have h3 := hR (i + 2) (by omega)
            have : sa.getD (i + 2) 1 = 1 := by
              by_cases hc : sa.length > sb.length
              · rw [h3]; simp [List.getD_eq_getElem?_getD, List.getElem?_eq_none (show sb.length ≤ i + 2 by omega)]
              · simp [List.getD_eq_getElem?_getD, List.getElem?_eq_none (show sa.length ≤ i + 2 by omega)]
            rw [this]
            simp only [List.getD_eq_getElem?_getD, List.getElem?_drop, List.getElem?_take, Nat.add_comm 2 i, hi, if_false, Option.getD_none]
        · by_cases hi2 : i < min sa.length sb.length
          · exact hE i hi hi2
          · exact hR i (by omega)
      · rw [if_neg (fun h => hR (hrest.1 h))]
        exact ⟨fun h => absurd (fun i hi => h i (by omega)) hR, fun _ => rfl⟩
    · rw [if_neg (fun h => hE (heq.1 h))]
      exact ⟨fun h => absurd (fun i hi _ => h i hi) hE, fun _ => rfl⟩
  · rw [if_neg hm]
    refine ⟨fun _ => ⟨[], rfl, fun i => ?_⟩, fun h => absurd (fun h1 h2 => absurd (by omega) hm) h⟩
    rw [if_neg (by omega)]; simp

/-- C23: exactly which operands are accepted, of every rank: those whose inner extents match and whose batch extents,
when both have some, agree; all others are rejected with an exception. -/
theorem c23_accepts (e : Env T) (on : Bool) (a b : Tensor T) (sa sb : List Nat)
    (fa fb : List Nat → T) (ha : Holds a sa fa) (hb : Holds b sb fb) :
    (innerMatch sa sb ∧ batchMatch sa sb → ∃ out, shaper [sa, sb] = .ok out ∧ out.getD 0 1 = sb.getD 0 1 ∧
      out.getD 1 1 = sa.getD 1 1 ∧
      ∀ i, out.getD (i + 2) 1 = if 2 < sa.length ∧ 2 < sb.length then sa.getD (i + 2) 1 else 1) ∧
    (¬(innerMatch sa sb ∧ batchMatch sa sb) → evalMatmul e on a b = .throw .logicError) := by
  have hts : ∀ x ∈ [(a, sa, fa), (b, sb, fb)], Holds x.1 x.2.1 x.2.2 := by
    intro x hx
    simp only [List.mem_cons, List.not_mem_nil, or_false] at hx
    rcases hx with rfl | rfl
    · exact ha
    · exact hb
  have hf := forwardPass_new e shaper (kernel on e.junk) _ hts
  simp only [List.map_cons, List.map_nil] at hf
  have hin : sa.getD 0 0 = (if sb.length > 1 then sb.getD 1 0 else 1) ↔ innerMatch sa sb := by
    unfold innerMatch
    match sa, sb, ha.full.1, hb.full.1 with
    | z :: _, [x], _, _ => simp
    | z :: _, x :: w :: _, _, _ => simp
  constructor
  · rintro ⟨h1, h2⟩
    obtain ⟨r, hr, hg⟩ := (beyond2d_ok sa sb).1 h2
    simp only [shaper, hr, Outcome.ok_bind, if_pos (hin.2 h1)]
    refine ⟨_, rfl, ?_, ?_, fun i => by simpa using hg i⟩
    · match sb, hb.full.1 with
      | x :: _, _ => simp
    · match sa, ha.full.1 with
      | [_], _ => simp
      | _ :: _ :: _, _ => simp
  · intro h
    unfold evalMatmul
    rw [hf]
    have : shaper [sa, sb] = .throw .logicError := by
      simp only [shaper]
      by_cases hbm : batchMatch sa sb
      · obtain ⟨r, hr, _⟩ := (beyond2d_ok sa sb).1 hbm
        rw [hr, Outcome.ok_bind, if_neg (fun hh => h ⟨hin.1 hh, hbm⟩)]
      · rw [(beyond2d_ok sa sb).2 hbm]; rfl
    rw [this]
    rfl

example : shaper [[3, 2, 4], [5, 3, 4, 1, 1]] = .ok [5, 2, 4] ∧ shaper [[3, 2, 4], [5, 3, 2]] = .throw .logicError ∧
    shaper [[3, 2, 4], [5, 3, 4, 2]] = .throw .logicError := ⟨rfl, rfl, rfl⟩

/-! ### C24 -/

/-- C24: on every size `m * 2^k` with `m` at most the threshold, Strassen's algorithm gives the very
same buffer as the cubic algorithm, whatever the scratch memory contained. -/
theorem c24_strassen_eq_cubic (th : Nat) (junk : Nat → T) (m k n : Nat) (hm : m ≤ th) (hn : n = m * 2 ^ k)
    (c a b : List T) (ha : a.length = n * n) (hb : b.length = n * n) (hc : c.length = n * n) :
    ∃ c' a' b', strassen th junk c a b n = .ok (c', a', b') ∧ cubicMul c a b n n n n 1 1 n = .ok c' := by
  have hma : Mat n a (fun x y => a.getD (x + n * y) 0) := by
    refine ⟨ha, fun x y hx hy => ?_⟩
    have := idx_lt hx hy
    simp [List.getD_eq_getElem?_getD, ha, this]
  have hmb : Mat n b (fun x y => b.getD (x + n * y) 0) := by
    refine ⟨hb, fun x y hx hy => ?_⟩
    have := idx_lt hx hy
    simp [List.getD_eq_getElem?_getD, hb, this]
  obtain ⟨c', a', b', h1, h2, _, _⟩ := strassen_spec th junk k m hm n hn c a b _ _ hma hmb hc
  obtain ⟨c'', h3, h4, h5, _⟩ := cubicMul_spec c a b n n n n 1 1 n _ _ (by omega)
    (fun z y hz hy => by rw [Nat.one_mul, Nat.add_comm]; exact hma.2 z y hz hy)
    (fun x z hx hz => by rw [Nat.one_mul]; exact hmb.2 x z hx hz)
  refine ⟨c', a', b', h1, ?_⟩
  rw [h3]
  congr 1
  apply List.ext_getElem?
  intro p
  by_cases hp : p < n * n
  · have hn0 : 0 < n := by
      rcases Nat.eq_zero_or_pos n with h | h
      · subst h; simp at hp
      · exact h
    have e := Nat.mod_add_div p n
    have hx := Nat.mod_lt p hn0
    have hy : p / n < n := Nat.div_lt_of_lt_mul hp
    rw [← e, h5 _ _ hx hy, h2.2 _ _ hx hy]
  · rw [List.getElem?_eq_none (by omega), List.getElem?_eq_none (by rw [h2.1]; omega)]

/-- C24: what is computed is the matrix product (row-major `n x n` buffers). -/
theorem c24_strassen_product (th : Nat) (junk : Nat → T) (m k n : Nat) (hm : m ≤ th) (hn : n = m * 2 ^ k)
    (c a b : List T) (A B : Nat → Nat → T) (hc : c.length = n * n)
    (ha : a.length = n * n ∧ ∀ x y, x < n → y < n → a[x + n * y]? = some (A x y))
    (hb : b.length = n * n ∧ ∀ x y, x < n → y < n → b[x + n * y]? = some (B x y)) :
    ∃ c' a' b', strassen th junk c a b n = .ok (c', a', b') ∧ c'.length = n * n ∧
      ∀ x y, x < n → y < n → c'[x + n * y]? = some (∑ z ∈ range n, A z y * B x z) := by
  obtain ⟨c', a', b', h1, h2, _, _⟩ := strassen_spec th junk k m hm n hn c a b A B ha hb hc
  exact ⟨c', a', b', h1, h2.1, h2.2⟩

/-- C24: the padded size covers the operand and halves down to the threshold. -/
theorem c24_min_pad (n : Nat) : n ≤ minPad n ∧ ∃ m k, m ≤ 256 ∧ minPad n = m * 2 ^ k := minPad_spec n

/-- C24: padding with zeros, Strassen and truncation give the same tensor as the cubic build, for all
sizes including those above the threshold. -/
theorem c24_builds_agree (e : Env T) (a b : Tensor T) (X Y Z : Nat) (r : List Nat)
    (fa fb : List Nat → T) (ha : Holds a (Z :: Y :: r) fa) (hb : Holds b (X :: Z :: r) fb)
    (hm : e.fits (Shape.nElems (X :: Y :: r)) = true) :
    ∃ t1 t2 g, evalMatmul e true a b = .ok t1 ∧ evalMatmul e false a b = .ok t2 ∧
      Holds t1 (X :: Y :: r) g ∧ Holds t2 (X :: Y :: r) g := by
  obtain ⟨t1, h1, h2⟩ := c23_matmul_batch e true a b X Y Z r fa fb ha hb hm
  obtain ⟨t2, h3, h4⟩ := c23_matmul_batch e false a b X Y Z r fa fb ha hb hm
  exact ⟨t1, t2, _, h1, h3, h2, h4⟩

/-! ### C25 -/

/-- C25: for operands of equal kind (both of rank at most 2, or both above) - or whenever the left
operand's extents beyond the second are all 1 - an accepted multiplication never leaves a buffer. The
full claim has no such condition and is false: see `c25_overrun_ub`. -/
theorem c25_in_bounds_partial (e : Env T) (on : Bool) (a b : Tensor T) (sa sb out : List Nat)
    (fa fb : List Nat → T) (ha : Holds a sa fa) (hb : Holds b sb fb)
    (hacc : shaper [sa, sb] = .ok out) (hk : 2 < sb.length ∨ vol (sa.drop 2) = 1)
    (hm : e.fits (Shape.nElems out) = true) :
    ∃ t', evalMatmul e on a b = .ok t' ∧ t'.alloc = out := by
  have hts : ∀ x ∈ [(a, sa, fa), (b, sb, fb)], Holds x.1 x.2.1 x.2.2 := by
    intro x hx
    simp only [List.mem_cons, List.not_mem_nil, or_false] at hx
    rcases hx with rfl | rfl
    · exact ha
    · exact hb
  -- the pieces of the two shapes
  obtain ⟨Z, sa', rfl⟩ : ∃ Z sa', sa = Z :: sa' := by
    cases sa with
    | nil => exact absurd rfl ha.full.1
    | cons z s => exact ⟨z, s, rfl⟩
  obtain ⟨X, sb', rfl⟩ : ∃ X sb', sb = X :: sb' := by
    cases sb with
    | nil => exact absurd rfl hb.full.1
    | cons z s => exact ⟨z, s, rfl⟩
  have hZ : 0 < Z := ha.full.2 Z (by simp)
  have hX : 0 < X := hb.full.2 X (by simp)
  obtain ⟨Y, hYdef⟩ : ∃ Y, (if (Z :: sa').length < 2 then 1 else (Z :: sa').getD 1 0) = Y := ⟨_, rfl⟩
  have hY : 0 < Y := by
    rw [← hYdef]
    cases sa' with
    | nil => simp
    | cons y s =>
      rw [if_neg (by simp)]
      simpa using ha.full.2 y (by simp)
  have hva : vol (Z :: sa') = vol ((Z :: sa').drop 2) * (Z * Y) := by
    cases sa' with
    | nil => simp [vol, ← hYdef]
    | cons y s =>
      have : Y = y := by rw [if_neg (by simp)] at hYdef; simpa using hYdef.symm
      subst this
      simp [vol]; ring
  have hvone : ∀ l : List Nat, (l.all (· == 1)) = true → vol l = 1 := by
    intro l
    induction l with
    | nil => intro _; rfl
    | cons x xs ih =>
      intro h
      simp only [List.all_cons, Bool.and_eq_true, beq_iff_eq] at h
      rw [vol, h.1, ih h.2]
  -- what acceptance gives
  simp only [shaper] at hacc
  obtain ⟨rest, hrest, hacc⟩ := Outcome.bind_eq_ok.1 hacc
  have hYb : (if (Z :: sa').length > 1 then (Z :: sa').getD 1 0 else 1) = Y := by
    rw [← hYdef]
    by_cases h : (Z :: sa').length < 2
    · rw [if_pos h, if_neg (by omega)]
    · rw [if_neg h, if_pos (by omega)]
  rw [hYb] at hacc
  by_cases hin : (Z :: sa').getD 0 0 = if (X :: sb').length > 1 then (X :: sb').getD 1 0 else 1
  case neg => rw [if_neg hin] at hacc; cases hacc
  rw [if_pos hin] at hacc
  cases hacc
  simp only [List.getD_cons_zero] at hin hm ⊢
  have hvb : vol (X :: sb') = vol ((X :: sb').drop 2) * (X * Z) := by
    rw [hin]
    cases sb' with
    | nil => simp [vol]
    | cons y s => simp [vol]; ring
  have hsplit : ∀ (l : List Nat) (n : Nat), vol l = vol (l.take n) * vol (l.drop n) := by
    intro l n
    conv => lhs; rw [← List.take_append_drop n l]
    rw [Shape.vol_append]
  -- number of matrices
  have hres : vol rest = vol ((Z :: sa').drop 2) ∧ vol rest ≤ vol ((X :: sb').drop 2) ∧ (∀ d ∈ rest, 0 < d) := by
    have hposb : 0 < vol ((X :: sb').drop 2) := by
      apply Shape.vol_pos
      intro d hd
      exact hb.full.2 d (List.mem_of_mem_drop hd)
    unfold beyond2d at hrest
    simp only at hrest
    by_cases hmin : min (Z :: sa').length (X :: sb').length > 2
    · rw [if_pos hmin] at hrest
      by_cases heq : ((Z :: sa').take (min (Z :: sa').length (X :: sb').length)).drop 2 =
          ((X :: sb').take (min (Z :: sa').length (X :: sb').length)).drop 2
      case neg => rw [if_neg heq] at hrest; cases hrest
      rw [if_pos heq] at hrest
      by_cases hall : (((if (Z :: sa').length > (X :: sb').length then (Z :: sa') else (X :: sb')).drop
          (min (Z :: sa').length (X :: sb').length)).all (· == 1)) = true
      case neg => rw [if_neg hall] at hrest; cases hrest
      rw [if_pos hall] at hrest
      cases hrest
      refine ⟨?_, ?_, fun d hd => ha.full.2 d (List.mem_of_mem_take (List.mem_of_mem_drop hd))⟩
      · by_cases hlen : (Z :: sa').length > (X :: sb').length
        · rw [if_pos hlen, Nat.min_eq_right (by omega)] at hall
          rw [Nat.min_eq_right (by omega)]
          rw [hsplit ((Z :: sa').drop 2) ((X :: sb').length - 2), List.drop_drop,
            show 2 + ((X :: sb').length - 2) = (X :: sb').length by omega, hvone _ hall, Nat.mul_one,
            List.take_drop]
          congr 3; omega
        · rw [Nat.min_eq_left (by omega), List.take_length]
      · rw [heq]
        by_cases hlen : (Z :: sa').length > (X :: sb').length
        · rw [Nat.min_eq_right (by omega), List.take_length]
        · rw [if_neg hlen, Nat.min_eq_left (by omega)] at hall
          rw [Nat.min_eq_left (by omega)]
          apply Nat.le_of_eq
          rw [hsplit ((X :: sb').drop 2) ((Z :: sa').length - 2), List.drop_drop,
            show 2 + ((Z :: sa').length - 2) = (Z :: sa').length by omega, hvone _ hall, Nat.mul_one,
            List.take_drop]
          congr 3; omega
    · rw [if_neg hmin] at hrest
      cases hrest
      refine ⟨?_, hposb, by simp⟩
      rcases hk with hk | hk
      · have : (Z :: sa').length ≤ 2 := by omega
        rw [List.drop_eq_nil_of_le this]
      · rw [hk]; rfl
  have hout : Full (X :: Y :: rest) := by
    refine ⟨by simp, fun d hd => ?_⟩
    simp only [List.mem_cons] at hd
    rcases hd with rfl | rfl | hd
    · exact hX
    · exact hY
    · exact hres.2.2 d hd
  have hsh : shaper [Z :: sa', X :: sb'] = .ok (X :: Y :: rest) := by
    simp only [shaper]
    rw [hrest, Outcome.ok_bind, hYb, if_pos (by simpa using hin), List.getD_cons_zero]
  have hf := forwardPass_new e shaper (kernel on e.junk) _ hts
  have ht := transfer_new e (kernel on e.junk) _ hout hm _ hts
  simp only [List.map_cons, List.map_nil] at hf ht
  unfold evalMatmul
  rw [hf, hsh]
  simp only [Outcome.ok_bind, (Shape.isFullyDefined_iff _).2 hout, Outcome.assert_true]
  rw [ht]
  obtain ⟨d', h1, h2, h3⟩ := kernel_spec on e.junk X Y Z (vol rest) (bufOf (Z :: sa') fa)
    (bufOf (X :: sb') fb) ((List.range (vol (X :: Y :: rest))).map e.junk) (X :: Y :: rest) (Z :: sa') (X :: sb')
    (fun i z y => (bufOf (Z :: sa') fa).getD (i * (Z * Y) + (z + Z * y)) 0)
    (fun i x z => (bufOf (X :: sb') fb).getD (i * (X * Z) + (x + X * z)) 0) hZ hY rfl rfl
    hYdef (by rw [Shape.nElems_eq ha.full.1, hva, hres.1])
    (by simp only [List.length_map, List.length_range, vol]; apply Nat.le_of_eq; ring)
    (fun i z y hi hz hy => by
      have h1 := idx_lt (idx_lt hz hy) (hres.1 ▸ hi)
      rw [Nat.mul_comm (Z * Y), Nat.mul_comm (Z * Y), ← hva] at h1
      rw [Nat.add_comm, List.getD_eq_getElem?_getD,
        List.getElem?_eq_getElem (by simpa using h1), Option.getD_some])
    (fun i x z hi hx hz => by
      have h1 := idx_lt (idx_lt hx hz) (Nat.lt_of_lt_of_le hi hres.2.1)
      rw [Nat.mul_comm (X * Z), Nat.mul_comm (X * Z), ← hvb] at h1
      rw [Nat.add_comm, List.getD_eq_getElem?_getD,
        List.getElem?_eq_getElem (by simpa using h1), Option.getD_some])
  rw [h1]
  exact ⟨_, rfl, rfl⟩

omit [Ring T] in
theorem loop_second_ub {σ : Type} (n : Nat) (body : Nat → σ → Outcome σ) (st s1 : σ)
    (h0 : body 0 st = .ok s1) (h1 : body 1 s1 = .ub) : Outcome.loop (n + 2) body st = .ub := by
  unfold Outcome.loop
  rw [Outcome.loopFrom, h0, Outcome.ok_bind, Outcome.loopFrom, h1, Outcome.ub_bind]

omit [Ring T] in
theorem loop_first_ub {σ : Type} {n : Nat} (hn : 0 < n) (body : Nat → σ → Outcome σ) (st : σ)
    (h0 : body 0 st = .ub) : Outcome.loop n body st = .ub := by
  obtain ⟨m, rfl⟩ := Nat.exists_eq_succ_of_ne_zero (by omega : n ≠ 0)
  unfold Outcome.loop
  rw [Outcome.loopFrom, h0, Outcome.ub_bind]

/-- The overrun, for a right operand of rank two or one. -/
theorem overrun_ub (e : Env T) (on : Bool) (a b : Tensor T) (X Y Z : Nat) (r sb : List Nat)
    (fa fb : List Nat → T) (ha : Holds a (Z :: Y :: r) fa) (hb : Holds b sb fb) (hsb : sb = [X, Z] ∨ (sb = [X] ∧ Z = 1))
    (hr : 1 < vol r) (hm : e.fits (Shape.nElems [X, Y]) = true) :
    shaper [Z :: Y :: r, sb] = .ok [X, Y] ∧ evalMatmul e on a b = .ub := by
  have hZ : 0 < Z := ha.full.2 Z (by simp)
  have hY : 0 < Y := ha.full.2 Y (by simp)
  have hX : 0 < X := hb.full.2 X (by rcases hsb with rfl | ⟨rfl, _⟩ <;> simp)
  have hts : ∀ x ∈ [(a, Z :: Y :: r, fa), (b, sb, fb)], Holds x.1 x.2.1 x.2.2 := by
    intro x hx
    simp only [List.mem_cons, List.not_mem_nil, or_false] at hx
    rcases hx with rfl | rfl
    · exact ha
    · exact hb
  have hsh : shaper [Z :: Y :: r, sb] = .ok [X, Y] := by
    rcases hsb with rfl | ⟨rfl, rfl⟩ <;> simp [shaper, beyond2d]
  refine ⟨hsh, ?_⟩
  have hout : Full [X, Y] := ⟨by simp, by simp [hX, hY]⟩
  have hf := forwardPass_new e shaper (kernel on e.junk) _ hts
  have ht := transfer_new e (kernel on e.junk) _ hout hm _ hts
  simp only [List.map_cons, List.map_nil] at hf ht
  unfold evalMatmul
  rw [hf, hsh]
  simp only [Outcome.ok_bind, (Shape.isFullyDefined_iff _).2 hout, Outcome.assert_true]
  rw [ht]
  have hpos : 0 < Z * Y := Nat.mul_pos hZ hY
  have hN : Shape.nElems (Z :: Y :: r) / (Z * Y) = vol r := by
    rw [Shape.nElems_eq ha.full.1, show vol (Z :: Y :: r) = vol r * (Z * Y) by simp only [vol]; ring,
      Nat.mul_div_cancel _ hpos]
  obtain ⟨n, hn⟩ : ∃ n, vol r = n + 2 := ⟨vol r - 2, by omega⟩
  have hA : ∀ i z y, i < 2 → z < Z → y < Y → (bufOf (Z :: Y :: r) fa)[i * (Z * Y) + (z + Z * y)]? =
      some (fa (z :: y :: coords r i)) := fun i z y hi hz hy => bufOf_get_batch fa (by omega) hz hy
  obtain ⟨gb, hB⟩ : ∃ gb : Nat → Nat → T, ∀ x z, x < X → z < Z → (bufOf sb fb)[x + X * z]? = some (gb x z) := by
    rcases hsb with rfl | ⟨rfl, rfl⟩
    · refine ⟨fun x z => fb [x, z], fun x z hx hz => ?_⟩
      have := bufOf_get_batch (r := []) fb (i := 0) (by simp [vol]) hx hz
      simpa [coords] using this
    · refine ⟨fun x z => fb [x], fun x z hx hz => ?_⟩
      have hz : z = 0 := by omega
      subst hz
      simp [bufOf, vol, hx, coords, Nat.mod_eq_of_lt hx]
  obtain ⟨tl, htl⟩ : ∃ tl, sb = X :: tl := by rcases hsb with rfl | ⟨rfl, _⟩ <;> exact ⟨_, rfl⟩
  have hvol : vol [X, Y] = X * Y := by simp [vol]
  have hvolb : vol sb = X * Z := by rcases hsb with rfl | ⟨rfl, rfl⟩ <;> simp [vol]
  have hlen : ((List.range (vol [X, Y])).map e.junk).length = X * Y := by simp [hvol]
  generalize (List.range (vol [X, Y])).map e.junk = dest at hlen
  simp only [kernel]
  rw [if_neg (show ¬ (Z :: Y :: r).length < 2 by simp)]
  simp only [List.getD_cons_succ, List.getD_cons_zero]
  rw [htl] at hB hvolb ⊢
  simp only [hN, hn]
  rw [if_neg (by omega)]
  have fin : ∀ f : Nat → List T → Outcome (List T),
      (∃ c', f 0 dest = .ok c' ∧ BlockOut dest c' X Y
        (mmul Z (fun z y => fa (z :: y :: coords r 0)) gb)) → f 1 [] = .ub →
      Outcome.loop (n + 2) (fun i dest => onOffset (i * (X * Y)) (f i) dest) dest = .ub := by
    rintro f ⟨c', h0, hb'⟩ h1
    have hl := hb'.1
    apply loop_second_ub n _ dest c'
    · simp [onOffset, h0]
    · simp only [onOffset, Nat.one_mul]
      rw [if_pos (by omega), List.drop_eq_nil_of_le (by omega), h1]
      rfl
  split
  · rw [fin]
    · rfl
    · apply strassenBatch_spec e.junk X Y Z _ _ dest _ _ (by omega)
      · intro z y hz hy
        rw [List.getElem?_drop]; exact hA 0 z y (by omega) hz hy
      · intro x z hx hz
        rw [List.getElem?_drop]; simpa using hB x z hx hz
    · unfold strassenBatch
      obtain ⟨hP, _⟩ := minPad_spec (max (max X Y) Z)
      obtain ⟨pa, e1, _⟩ := pad_loop ((bufOf (Z :: Y :: r) fa).drop (1 * (Z * Y)))
        (minPad (max (max X Y) Z)) Z Y (fun z y => fa (z :: y :: coords r 1)) (by omega) (by omega)
        (fun z y hz hy => by rw [List.getElem?_drop]; exact hA 1 z y (by omega) hz hy)
      simp only [e1, Outcome.ok_bind]
      rw [loop_first_ub hZ]
      · rfl
      · unfold copyRow
        apply loop_first_ub hX
        rw [List.drop_eq_nil_of_le (by simp [hvolb])]
        rfl
  · rw [fin]
    · rfl
    · apply cubicMul_spec dest _ _ X Y Z Z 1 1 X _ _ (by omega)
      · intro z y hz hy
        rw [List.getElem?_drop, Nat.one_mul, Nat.add_comm (Z * y)]; exact hA 0 z y (by omega) hz hy
      · intro x z hx hz
        rw [List.getElem?_drop, Nat.one_mul]; simpa using hB x z hx hz
    · unfold cubicMul
      apply loop_first_ub hY
      apply loop_first_ub hX
      rfl

/-- C25, negative: a left operand with batch extents and a right operand of rank 2 are accepted, and
the kernel then leaves its buffers: a heap overrun for every size and element type, in both builds. -/
theorem c25_overrun_ub (e : Env T) (on : Bool) (a b : Tensor T) (X Y Z : Nat) (r : List Nat)
    (fa fb : List Nat → T) (ha : Holds a (Z :: Y :: r) fa) (hb : Holds b [X, Z] fb)
    (hr : 1 < vol r) (hm : e.fits (Shape.nElems [X, Y]) = true) :
    shaper [Z :: Y :: r, [X, Z]] = .ok [X, Y] ∧ evalMatmul e on a b = .ub :=
  overrun_ub e on a b X Y Z r [X, Z] fa fb ha hb (.inl rfl) hr hm

/-- Exactly which accepted operands are safe: those whose right operand has batches, and those whose left operand has
none; for all others the program writes beyond its output. -/
theorem c25_exact (e : Env T) (on : Bool) (a b : Tensor T) (sa sb out : List Nat)
    (fa fb : List Nat → T) (ha : Holds a sa fa) (hb : Holds b sb fb)
    (hacc : shaper [sa, sb] = .ok out) (hm : e.fits (Shape.nElems out) = true) :
    ((∃ t', evalMatmul e on a b = .ok t' ∧ t'.alloc = out) ↔ (2 < sb.length ∨ vol (sa.drop 2) = 1)) ∧
    (evalMatmul e on a b = .ub ↔ ¬(2 < sb.length ∨ vol (sa.drop 2) = 1)) := by
  by_cases hk : 2 < sb.length ∨ vol (sa.drop 2) = 1
  · obtain ⟨t, h1, h2⟩ := c25_in_bounds_partial e on a b sa sb out fa fb ha hb hacc hk hm
    exact ⟨⟨fun _ => hk, fun _ => ⟨t, h1, h2⟩⟩, ⟨fun h => absurd (h1.symm.trans h) (by simp), fun h => absurd hk h⟩⟩
  · have hu : evalMatmul e on a b = .ub := by
      obtain ⟨h1, h2⟩ := not_or.1 hk
      obtain ⟨Z, Y, r, rfl⟩ : ∃ Z Y r, sa = Z :: Y :: r := by
        match sa, h2 with
        | [], h => simp [vol] at h
        | [_], h => simp [vol] at h
        | Z :: Y :: r, _ => exact ⟨Z, Y, r, rfl⟩
      have hr : 1 < vol r := by
        have := Shape.vol_pos (fun d hd => ha.full.2 d (by simp [hd]) : ∀ d ∈ r, 0 < d)
        simp at h2
        omega
      have hsb : ∃ X, sb = [X, Z] ∨ (sb = [X] ∧ Z = 1) := by
        match sb, hb.full.1, h1, hacc with
        | [], h, _, _ => exact absurd rfl h
        | [X], _, _, hacc =>
          refine ⟨X, .inr ⟨rfl, ?_⟩⟩
          by_contra hz
          simp [shaper, beyond2d, hz] at hacc
        | [X, W], _, _, hacc =>
          refine ⟨X, .inl ?_⟩
          by_contra hz
          have : ¬ Z = W := fun h => hz (by rw [h])
          simp [shaper, beyond2d, this] at hacc
        | _ :: _ :: _ :: _, _, h, _ => simp at h
      obtain ⟨X, hsb⟩ := hsb
      have hout : out = [X, Y] := by
        rcases hsb with rfl | ⟨rfl, rfl⟩ <;> simpa [shaper, beyond2d] using hacc.symm
      exact (overrun_ub e on a b X Y Z r sb fa fb ha hb hsb hr (by rw [← hout]; exact hm)).2
    exact ⟨⟨fun ⟨t, h, _⟩ => absurd (hu.symm.trans h) (by simp), fun h => absurd h hk⟩, ⟨fun _ => hk, fun _ => hu⟩⟩

/-! ### concrete instances -/

/-- Plenty of memory, garbage 77. -/
def mEnv : Env Int := { junk := fun _ => 77, zero := 0, fits := fun _ => true }

/-- 3 columns, 2 rows. -/
def mA : Tensor Int := ⟨some [1, 2, 3, 4, 5, 6], [3, 2], [3, 2]⟩
/-- 2 columns, 3 rows. -/
def mB : Tensor Int := ⟨some [7, 8, 9, 10, 11, 12], [2, 3], [2, 3]⟩

example : Holds mA [3, 2] (fun c => 1 + c.getD 0 0 + 3 * c.getD 1 0) := by
  refine ⟨by decide, rfl, _, rfl, rfl, ?_⟩
  intro c hc
  obtain ⟨hl, h⟩ := hc
  match c, hl with
  | [x, y], _ =>
    have hx := h 0 (by decide)
    have hy := h 1 (by decide)
    simp at hx hy
    have h1 : x = 0 ∨ x = 1 ∨ x = 2 := by omega
    have h2 : y = 0 ∨ y = 1 := by omega
    rcases h1 with rfl | rfl | rfl <;> rcases h2 with rfl | rfl <;> rfl

example : evalMatmul mEnv false mA mB = .ok ⟨some [58, 64, 139, 154], [2, 2], [2, 2]⟩ := rfl

example : evalMatmul mEnv false mA mA = .throw .logicError := rfl

/-- Two batches on the left and none on the right: accepted, and then out of bounds. -/
example : shaper [[1, 1, 2], [1, 1]] = .ok [1, 1] ∧
    evalMatmul mEnv false ⟨some [5, 6], [1, 1, 2], [1, 1, 2]⟩ ⟨some [7], [1, 1], [1, 1]⟩ = .ub := ⟨rfl, rfl⟩

/-- The Strassen recursion taken down to 1x1 blocks. -/
example : strassen 1 (fun _ => (77 : Int)) [0, 0, 0, 0] [1, 2, 3, 4] [5, 6, 7, 8] 2 =
    .ok ([19, 22, 43, 50], [5, -2, 2, 8], [35, -2, 8, 24]) := by decide +kernel

end Verif.Props
