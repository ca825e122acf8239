import Verif.Lemmas.Transform
/-!
# Properties of the data-movement operators: C18 - C22

`Op.forwardPass e shaper kernel none args` is the first evaluation of an operation node on its
arguments.  `Holds t s f` says that tensor `t` is allocated with shape `s` and has `f c` at coordinate
`c` (Spec/Tensor.lean).
-/
namespace Verif.Props
open Spec Transform Op
variable {T : Type}

/-- Evaluation of `transpose(a, (i, j))` on a fresh node. -/
def evalTranspose (e : Env T) (ij : Nat × Nat) (t : Tensor T) : Outcome (Tensor T) :=
  forwardPass e (transposeShaper (orderAxes ij)) (transposeKernel (orderAxes ij)) none [some t]

/-- C18: for two axes inside the rank (in either order), the result has the two extents exchanged and
the element at every coordinate is the input's element at the exchanged coordinate. -/
theorem c18_transpose (e : Env T) (t : Tensor T) (s : List Nat) (f : List Nat → T) (i j : Nat)
    (h : Holds t s f) (hi : i < s.length) (hj : j < s.length)
    (hm : e.fits (Shape.nElems (swapPos s i j)) = true) :
    ∃ t', evalTranspose e (i, j) t = .ok t' ∧ Holds t' (swapPos s i j) (fun c => f (swapPos c i j)) := by
  have key : ∀ a b, a < s.length → b < s.length → a ≤ b → e.fits (Shape.nElems (swapPos s a b)) = true →
      ∃ t', forwardPass e (transposeShaper (a, b)) (transposeKernel (a, b)) none [some t] = .ok t' ∧
        Holds t' (swapPos s a b) (fun c => f (swapPos c a b)) := by
    intro a b ha hb hab hm
    refine forwardPass_holds e _ _ [(t, s, f)] (by simpa using h) (swapPos s a b) _ ?_
      (full_swapPos ha hb h.full) hm ?_
    · simp only [List.map_cons, List.map_nil, transposeShaper]
      rw [if_pos ((Shape.isFullyDefined_iff s).2 h.full), if_neg (by omega)]
      exact swapAt_ok ha hb
    · intro dest hd
      simp only [List.map_cons, List.map_nil, transposeKernel]
      rw [if_neg (by omega), if_neg (by omega)]
      apply fill_bufOf (full_swapPos ha hb h.full) _ _ _ hd
      intro k hk hr
      rw [Shape.coordinateFromIdx_eq (full_swapPos ha hb h.full).2, Outcome.ok_bind]
      have hl := hr.1
      rw [swapPos_length] at hl
      rw [swapAt_ok (by omega) (by omega), Outcome.ok_bind]
      exact flat_read h.full.1 (inRange_swapPos ha hb hr) f
  unfold evalTranspose orderAxes
  by_cases hgt : i > j
  · simp only [gt_iff_lt, hgt, if_true]
    obtain ⟨t', h1, h2⟩ := key j i hj hi (by omega) (by rwa [swapPos_comm hj hi])
    refine ⟨t', h1, ?_⟩
    rw [swapPos_comm hj hi] at h2
    obtain ⟨hf, hs, buf, hb, hl, hd⟩ := h2
    refine ⟨hf, hs, buf, hb, hl, fun c hc => ?_⟩
    have hcl := hc.1
    rw [swapPos_length] at hcl
    rw [hd c hc, swapPos_comm (by omega) (by omega)]
  · simp only [gt_iff_lt, hgt, if_false]
    exact key i j hi hj (by omega) hm

/-- C18: transposing twice along the same axes restores shape and data. -/
theorem c18_involutive (e : Env T) (t : Tensor T) (s : List Nat) (f : List Nat → T) (i j : Nat)
    (h : Holds t s f) (hi : i < s.length) (hj : j < s.length)
    (hm : ∀ n, e.fits n = true) :
    ∃ t1 t2, evalTranspose e (i, j) t = .ok t1 ∧ evalTranspose e (i, j) t1 = .ok t2 ∧ Holds t2 s f := by
  obtain ⟨t1, h1, h2⟩ := c18_transpose e t s f i j h hi hj (hm _)
  obtain ⟨t2, h3, h4⟩ := c18_transpose e t1 _ _ i j h2 (by rwa [swapPos_length]) (by rwa [swapPos_length]) (hm _)
  refine ⟨t1, t2, h1, h3, ?_⟩
  rw [swapPos_swapPos hi hj] at h4
  obtain ⟨hf, hs, buf, hb, hl, hd⟩ := h4
  refine ⟨hf, hs, buf, hb, hl, fun c hc => ?_⟩
  rw [hd c hc, swapPos_swapPos (by rw [hc.1]; exact hi) (by rw [hc.1]; exact hj)]

/-- An environment with plenty of memory, all garbage 77. -/
def tEnv : Env Nat := { junk := fun _ => 77, zero := 0, fits := fun _ => true }

/-- A tensor of shape 2x3 holding, at (x, y), the value `10 * x + y`. -/
def t23 : Tensor Nat := ⟨some [0, 10, 1, 11, 2, 12], [2, 3], [2, 3]⟩

theorem t23_holds : Holds t23 [2, 3] (fun c => 10 * c.getD 0 0 + c.getD 1 0) := by
  refine ⟨by decide, rfl, _, rfl, rfl, ?_⟩
  intro c hc
  obtain ⟨hl, h⟩ := hc
  match c, hl with
  | [x, y], _ =>
    have hx := h 0 (by decide)
    have hy := h 1 (by decide)
    simp at hx hy
    have h1 : x = 0 ∨ x = 1 := by omega
    have h2 : y = 0 ∨ y = 1 ∨ y = 2 := by omega
    rcases h1 with rfl | rfl <;> rcases h2 with rfl | rfl | rfl <;> rfl

example : ∃ t', evalTranspose tEnv (1, 0) t23 = .ok t' ∧ t'.raw = some [0, 1, 2, 10, 11, 12] ∧
    t'.alloc = [3, 2] := ⟨_, rfl, by decide, by decide⟩

/-- C18: a vector transposed along axes 0 and 1 becomes a column. -/
theorem c18_vector (e : Env T) (t : Tensor T) (n : Nat) (f : List Nat → T) (h : Holds t [n] f)
    (hm : e.fits (Shape.nElems [1, n]) = true) :
    ∃ t', evalTranspose e (0, 1) t = .ok t' ∧ Holds t' [1, n] (fun c => f [c.getD 1 0]) := by
  have hn : 0 < n := h.full.2 n (by simp)
  refine forwardPass_holds e (transposeShaper (0, 1)) (transposeKernel (0, 1)) [(t, [n], f)] (by simpa using h) [1, n] _ ?_
    ⟨by simp, by simp [hn]⟩ hm ?_
  · have : Shape.isFullyDefined [n] = true := (Shape.isFullyDefined_iff _).2 h.full
    simp only [List.map_cons, List.map_nil, transposeShaper]
    rw [if_pos this]
    rfl
  · intro dest hd
    simp only [List.map_cons, List.map_nil, transposeKernel]
    rw [if_neg (by simp), if_pos (by simp), Shape.nElems_eq (by simp), ← hd]
    have hv : vol [1, n] = vol [n] := by simp [vol]
    have hb : bufOf [1, n] (fun c => f [c.getD 1 0]) = bufOf [n] f := by
      apply List.ext_getElem?
      intro i
      by_cases hi : i < n
      · have h1 : i < (bufOf [1, n] (fun c => f [c.getD 1 0])).length := by simp [vol, hi]
        have h2 : i < (bufOf [n] f).length := by simp [vol, hi]
        rw [List.getElem?_eq_getElem h1, List.getElem?_eq_getElem h2]
        simp [bufOf, coords, Nat.mod_one]
      · rw [List.getElem?_eq_none (by simp [vol]; omega), List.getElem?_eq_none (by simp [vol]; omega)]
    have hl : dest.length = (bufOf [n] f).length := by rw [hd, hv]; simp
    rw [hb, hl]
    exact Tensor.memcpy_all hl

example : ∃ t', evalTranspose tEnv (0, 1) ⟨some [1, 2, 3], [3], [3]⟩ = .ok t' ∧ t'.raw = some [1, 2, 3] ∧
    t'.alloc = [1, 3] := ⟨_, rfl, by decide, by decide⟩

/-- C18, negative: with the first axis inside and the second beyond the rank the kernel copies the
buffer unchanged, which is not the transpose: for a 2x3 input and axes (0,2) the element of the
1x3x2 output at (0,1,0) should be the input's element at (0,1). -/
theorem c18_beyond_rank_wrong : ∃ t', evalTranspose tEnv (0, 2) t23 = .ok t' ∧ t'.alloc = [1, 3, 2] ∧
    t'.get [0, 1, 0] ≠ t23.get [0, 1] := ⟨_, rfl, by decide, by decide⟩

/-- C18, negative: with both axes at or beyond the rank the output is left uninitialised. -/
theorem c18_both_beyond_unwritten (e : Env T) (t : Tensor T) (s : List Nat) (f : List Nat → T)
    (i j : Nat) (h : Holds t s f) (hij : i ≤ j) (hi : s.length ≤ i)
    (hm : ∀ n, e.fits n = true) :
    ∃ t', evalTranspose e (i, j) t = .ok t' ∧
      t'.raw = some ((List.range (vol s)).map e.junk) := by
  unfold evalTranspose orderAxes
  simp only [gt_iff_lt, Nat.not_lt.2 hij, if_false]
  have hp : ∀ k, s.length ≤ k → (s ++ List.replicate (j - s.length + 1) 1).getD k 0 =
      if k ≤ j then 1 else 0 := by
    intro k hk
    rw [List.getD_eq_getElem?_getD, List.getElem?_append_right hk, List.getElem?_replicate]
    by_cases hkj : k ≤ j
    · rw [if_pos (by omega), if_pos hkj]; rfl
    · rw [if_neg (by omega), if_neg hkj]; rfl
  have hsw : swapPos (s ++ List.replicate (j - s.length + 1) 1) i j
      = s ++ List.replicate (j - s.length + 1) 1 := by
    apply ext_getD (swapPos_length _ _ _)
    intro k _
    rw [getD_swapPos (by simp; omega) (by simp; omega)]
    by_cases h1 : k = j
    · subst h1; rw [if_pos rfl, hp i hi, hp k (by omega), if_pos hij, if_pos (Nat.le_refl _)]
    · by_cases h2 : k = i
      · subst h2; simp only [h1, if_false, if_true]; rw [hp k hi, hp j (by omega), if_pos hij, if_pos (Nat.le_refl _)]
      · rw [if_neg h1, if_neg h2]
  have hfull : Full (s ++ List.replicate (j - s.length + 1) 1) := by
    refine ⟨by simp [h.full.1], fun d hd => ?_⟩
    rcases List.mem_append.1 hd with h' | h'
    · exact h.full.2 d h'
    · rw [List.mem_replicate] at h'; omega
  have hv : vol (s ++ List.replicate (j - s.length + 1) 1) = vol s := by
    rw [Shape.vol_append]; simp
  have hf := forwardPass_new e (transposeShaper (i, j)) (transposeKernel (i, j)) [(t, s, f)] (by simpa using h)
  simp only [List.map_cons, List.map_nil] at hf
  rw [hf]
  have hsh : transposeShaper (i, j) [s] = .ok (s ++ List.replicate (j - s.length + 1) 1) := by
    simp only [transposeShaper]
    rw [if_pos ((Shape.isFullyDefined_iff s).2 h.full), if_pos (by omega), swapAt_ok (by simp; omega) (by simp; omega), hsw]
  rw [hsh]
  simp only [Outcome.ok_bind, (Shape.isFullyDefined_iff _).2 hfull, Outcome.assert_true]
  have := transfer_new e (transposeKernel (i, j)) _ hfull (hm _) [(t, s, f)] (by simpa using h)
  simp only [List.map_cons, List.map_nil] at this
  rw [this]
  simp only [transposeKernel]
  rw [if_pos (by omega), hv]
  exact ⟨_, rfl, rfl⟩

/-! ## C19 -/

/-- Evaluation of `compress(a, op, k)` on a fresh node (`reduce_sum`, `reduce_max` are instances). -/
def evalReduce (e : Env T) (op : T → T → T) (k : Nat) (t : Tensor T) : Outcome (Tensor T) :=
  forwardPass e (compressShaper k) (compressKernel op k) none [some t]

/-- Evaluation of `compress(a, op)` without an axis. -/
def evalReduceAll (e : Env T) (op : T → T → T) (t : Tensor T) : Outcome (Tensor T) :=
  forwardPass e compressAllShaper (compressAllKernel op) none [some t]

/-- The reduction kernel fills any destination of the right length with the folds of the fibres. -/
theorem compressKernel_bufOf [Inhabited T] (op : T → T → T) (s : List Nat) (f : List Nat → T) (k : Nat) (hs : Full s) (hk : k < s.length)
    (dest : List T) (hd : dest.length = vol (reduceShape s k)) :
    compressKernel op k dest [bufOf s f] (reduceShape s k) [s] = .ok (bufOf (reduceShape s k) (fun c => fold1 op (fibre s k f c))) := by
  simp only [compressKernel]
  rw [if_neg (by omega), Outcome.read_of_lt _ _ hk, Outcome.ok_bind]
  apply fill_bufOf (reduce_full hs hk) _ _ _ hd
  intro i hi hr
  rw [Shape.coordinateFromIdx_eq (reduce_full hs hk).2, Outcome.ok_bind]
  obtain ⟨c0, h1, c1, h2, h3, h4, h5⟩ := insertAxis_spec hk hr
  have hpos : 0 < s.getD k 0 := by
    rw [getD_lt _ _ _ hk]; exact hs.2 _ (List.getElem_mem hk)
  rw [h1, Outcome.ok_bind, h3]
  have h6 := fibre_read hk hs.1 hr h4 (h5 0) hpos f
  rw [Shape.flatIdx_eq s _ hs.1 (set_ne_nil h4), Outcome.ok_bind] at h6 ⊢
  rw [h6, Outcome.ok_bind, compressLoop_eq op hk hs.1 hr h4 h5 f]
  · congr 1
    unfold fibre fold1
    rw [← getD_lt s k 0 hk] at *
    obtain ⟨n, hn⟩ : ∃ n, s.getD k 0 = n + 1 := ⟨s.getD k 0 - 1, by omega⟩
    rw [hn, List.range_succ_eq_map]
    simp only [List.map_cons, Nat.add_sub_cancel]
    rw [List.range'_eq_map_range]
    simp only [List.map_map]
    congr 1
    apply List.map_congr_left
    intro x _; simp [Nat.add_comm]
  · intro j hj
    rw [List.mem_range'_1] at hj
    rw [getD_lt _ _ _ hk]; omega

/-- C19: reduction along an axis inside the rank: every output element is the left fold, in order, of
exactly the elements of its fibre. -/
theorem c19_axis [Inhabited T] (e : Env T) (op : T → T → T) (t : Tensor T) (s : List Nat)
    (f : List Nat → T) (k : Nat) (h : Holds t s f) (hk : k < s.length)
    (hm : e.fits (Shape.nElems (reduceShape s k)) = true) :
    ∃ t', evalReduce e op k t = .ok t' ∧
      Holds t' (reduceShape s k) (fun c => fold1 op (fibre s k f c)) := by
  refine forwardPass_holds e _ _ [(t, s, f)] (by simpa using h) (reduceShape s k) _ ?_
    (reduce_full h.full hk) hm ?_
  · exact compressShaper_eq h.full hk
  · intro dest hd
    exact compressKernel_bufOf op s f k h.full hk dest hd

/-- The reduction kernel without an axis writes the fold of all the elements. -/
theorem compressAllKernel_bufOf [Inhabited T] (op : T → T → T) (s : List Nat) (f : List Nat → T) (hs : Full s)
    (dest : List T) (hd : dest.length = vol [1]) :
    compressAllKernel op dest [bufOf s f] [1] [s] = .ok (bufOf [1] (fun _ => fold1 op ((List.range (vol s)).map (fun i => f (coords s i))))) := by
  have hv : 0 < vol s := Shape.vol_pos hs.2
  simp only [compressAllKernel]
  rw [Shape.nElems_eq hs.1, if_neg (by omega), if_pos (by simp), List.take_of_length_le (by simp)]
  have hd1 : dest.length = 1 := by simpa [vol] using hd
  obtain ⟨x, rfl⟩ := List.length_eq_one_iff.1 hd1
  obtain ⟨n, hn⟩ : ∃ n, vol s = n + 1 := ⟨vol s - 1, by omega⟩
  have hb : bufOf s f = f (coords s 0) :: ((List.range n).map Nat.succ).map (fun i => f (coords s i)) := by
    unfold bufOf; rw [hn, List.range_succ_eq_map]; simp
  rw [hb]
  simp only [Outcome.write]
  simp [bufOf, vol, hn, List.range_succ_eq_map, fold1]

/-- C19: reduction without an axis folds every element of the buffer in index order. -/
theorem c19_all [Inhabited T] (e : Env T) (op : T → T → T) (t : Tensor T) (s : List Nat)
    (f : List Nat → T) (h : Holds t s f) (hm : e.fits 1 = true) :
    ∃ t', evalReduceAll e op t = .ok t' ∧
      Holds t' [1] (fun _ => fold1 op ((List.range (vol s)).map (fun i => f (coords s i)))) := by
  refine forwardPass_holds e _ _ [(t, s, f)] (by simpa using h) [1] _ rfl (by decide) hm ?_
  intro dest hd
  exact compressAllKernel_bufOf op s f h.full dest hd

/-- C19: an axis at or beyond the rank copies the input. -/
theorem c19_beyond (e : Env T) (op : T → T → T) (t : Tensor T) (s : List Nat)
    (f : List Nat → T) (k : Nat) (h : Holds t s f) (hk : s.length ≤ k)
    (hm : e.fits (Shape.nElems s) = true) :
    ∃ t', evalReduce e op k t = .ok t' ∧ Holds t' s f := by
  refine forwardPass_holds e _ _ [(t, s, f)] (by simpa using h) s _ ?_ h.full hm ?_
  · simp only [List.map_cons, List.map_nil, compressShaper]
    simp only [(Shape.isFullyDefined_iff s).2 h.full, Outcome.assert_true, Outcome.ok_bind]
    rw [if_pos hk]; rfl
  · intro dest hd
    simp only [List.map_cons, List.map_nil, compressKernel]
    rw [if_pos hk, memcpy, Shape.nElems_eq h.full.1, if_pos (by simp [hd])]
    have e1 := List.take_of_length_le (l := bufOf s f) (i := vol s) (by simp)
    have e2 := List.drop_eq_nil_of_le (as := dest) (i := vol s) (by omega)
    simp [e1, e2]

/-- C19, `reduce_sum`: the output element is the sum of the fibre. -/
theorem c19_sum (e : Env Int) (t : Tensor Int) (s : List Nat)
    (f : List Nat → Int) (k : Nat) (h : Holds t s f) (hk : k < s.length)
    (hm : e.fits (Shape.nElems (reduceShape s k)) = true) :
    ∃ t', evalReduce e (· + ·) k t = .ok t' ∧ Holds t' (reduceShape s k) (fun c => (fibre s k f c).sum) := by
  obtain ⟨t', h1, h2⟩ := c19_axis e (· + ·) t s f k h hk hm
  refine ⟨t', h1, ?_⟩
  have key : ∀ l : List Int, fold1 (· + ·) l = l.sum := by
    intro l
    cases l with
    | nil => rfl
    | cons x xs =>
      simp only [fold1, List.sum_cons]
      have : ∀ (xs : List Int) (a : Int), xs.foldl (· + ·) a = a + xs.sum := by
        intro xs
        induction xs with
        | nil => intro a; simp
        | cons y ys ih => intro a; rw [List.foldl_cons, ih, List.sum_cons]; omega
      exact this xs x
  simpa only [key] using h2

/-- C19, `reduce_max`: the output element is the largest of the fibre: it belongs to the fibre and no
element of the fibre exceeds it. -/
theorem c19_max (e : Env Int) (t : Tensor Int) (s : List Nat)
    (f : List Nat → Int) (k : Nat) (h : Holds t s f) (hk : k < s.length)
    (hm : e.fits (Shape.nElems (reduceShape s k)) = true) :
    ∃ t' g, evalReduce e max k t = .ok t' ∧ Holds t' (reduceShape s k) g ∧
      ∀ c, InRange (reduceShape s k) c → g c ∈ fibre s k f c ∧ ∀ x ∈ fibre s k f c, x ≤ g c := by
  obtain ⟨t', h1, h2⟩ := c19_axis e max t s f k h hk hm
  refine ⟨t', _, h1, h2, fun c hc => ?_⟩
  have hne : fibre s k f c ≠ [] := by
    have hpos : 0 < s.getD k 0 := by
      rw [getD_lt _ _ _ hk]; exact h.full.2 _ (List.getElem_mem hk)
    intro h0
    have := congrArg List.length h0
    simp [fibre] at this
    rw [List.getD_eq_getElem?_getD] at hpos
    omega
  have key : ∀ (xs : List Int) (a : Int), (xs.foldl max a = a ∨ xs.foldl max a ∈ xs) ∧
      a ≤ xs.foldl max a ∧ ∀ x ∈ xs, x ≤ xs.foldl max a := by
    intro xs
    induction xs with
    | nil => intro a; simp
    | cons y ys ih =>
      intro a
      rw [List.foldl_cons]
      obtain ⟨i1, i2, i3⟩ := ih (max a y)
      refine ⟨?_, by omega, ?_⟩
      · rcases i1 with i1 | i1
        · by_cases hay : a ≤ y
          · right; rw [i1]; simp [Int.max_eq_right hay]
          · left; rw [i1]; omega
        · right; simp [i1]
      · intro x hx
        rcases List.mem_cons.1 hx with rfl | hx
        · omega
        · exact i3 x hx
  cases hf : fibre s k f c with
  | nil => exact absurd hf hne
  | cons x xs =>
    obtain ⟨k1, k2, k3⟩ := key xs x
    simp only [fold1]
    refine ⟨?_, ?_⟩
    · rcases k1 with k1 | k1 <;> simp [k1]
    · intro y hy
      rcases List.mem_cons.1 hy with rfl | hy
      · exact k2
      · exact k3 y hy

example : ∃ t', evalReduce tEnv (· + ·) 0 t23 = .ok t' ∧ t'.raw = some [10, 12, 14] ∧ t'.alloc = [3] :=
  ⟨_, rfl, by decide, by decide⟩
example : ∃ t', evalReduce tEnv (· + ·) 1 t23 = .ok t' ∧ t'.raw = some [3, 33] ∧ t'.alloc = [2] :=
  ⟨_, rfl, by decide, by decide⟩
example : ∃ t', evalReduceAll tEnv (· + ·) t23 = .ok t' ∧ t'.raw = some [36] := ⟨_, rfl, by decide⟩

/-! ## C20 -/

/-- Evaluation of `arg_max(a, k)` on a fresh node. -/
def evalArgMax (e : Env T) (lt : T → T → Bool) (ofNat : Nat → T) (k : Nat) (t : Tensor T) :
    Outcome (Tensor T) :=
  forwardPass e (argCompressShaper k) (argCompressKernel (argMaxSearch lt ofNat) k) none [some t]

/-- Evaluation of `arg_max(a)` without an axis. -/
def evalArgMaxAll (e : Env T) (lt : T → T → Bool) (ofNat : Nat → T) (t : Tensor T) :
    Outcome (Tensor T) :=
  forwardPass e argCompressAllShaper (argCompressAllKernel (argMaxSearch lt ofNat)) none [some t]

/-- C20: for every strict weak order, `arg_max` along an axis inside the rank gives the first position
of a largest element of each fibre. -/
theorem c20_first_max (e : Env T) (lt : T → T → Bool) (ofNat : Nat → T)
    (hirr : ∀ a, lt a a = false)
    (htrans : ∀ a b c, lt a b = true → lt b c = true → lt a c = true)
    (htotal : ∀ a b c, lt a b = false → lt b c = false → lt a c = false)
    (t : Tensor T) (s : List Nat) (f : List Nat → T) (k : Nat) (h : Holds t s f) (hk : k < s.length)
    (hm : e.fits (Shape.nElems (reduceShape s k)) = true) :
    ∃ (t' : Tensor T) (p : List Nat → Nat), evalArgMax e lt ofNat k t = .ok t' ∧
      Holds t' (reduceShape s k) (fun c => ofNat (p c)) ∧
      ∀ c, InRange (reduceShape s k) c → p c < s.getD k 0 ∧
        (∀ j, j < s.getD k 0 → lt (f (fibreCoord s k c (p c))) (f (fibreCoord s k c j)) = false) ∧
        (∀ j, j < p c → lt (f (fibreCoord s k c j)) (f (fibreCoord s k c (p c))) = true) := by
  have hpos : 0 < s.getD k 0 := by
    rw [getD_lt _ _ _ hk]; exact h.full.2 _ (List.getElem_mem hk)
  obtain ⟨t', h1, h2⟩ := forwardPass_holds e (argCompressShaper k)
    (argCompressKernel (argMaxSearch lt ofNat) k) [(t, s, f)] (by simpa using h) (reduceShape s k)
    (fun c => ofNat (maxElement lt (fibre s k f c))) (argCompressShaper_eq h.full hk)
    (reduce_full h.full hk) hm (by
      intro dest hd
      simp only [List.map_cons, List.map_nil, argCompressKernel]
      apply fill_bufOf (reduce_full h.full hk) _ _ _ hd
      intro i hi hr
      rw [Shape.coordinateFromIdx_eq (reduce_full h.full hk).2, Outcome.ok_bind,
        Outcome.read_of_lt _ _ hk, Outcome.ok_bind]
      obtain ⟨c0, h1, c1, h2, h3, h4, h5⟩ := insertAxis_spec hk hr
      rw [h2, searchVec_eq hk h.full.1 hr h4 h5 f _ (by
        intro j hj; rw [getD_lt _ _ _ hk]; simpa using hj) _ (.inl rfl), Outcome.ok_bind]
      rw [← getD_lt s k 0 hk]
      rfl)
  refine ⟨t', _, h1, h2, fun c hc => ?_⟩
  have hne : fibre s k f c ≠ [] := by
    intro h0
    have := congrArg List.length h0
    simp [fibre] at this
    rw [List.getD_eq_getElem?_getD] at hpos
    omega
  obtain ⟨b, hb1, hb2, hb3⟩ := maxElement_spec lt hirr htrans htotal _ hne
  have hlt : maxElement lt (fibre s k f c) < s.getD k 0 := by
    rcases Nat.lt_or_ge (maxElement lt (fibre s k f c)) (fibre s k f c).length with h' | h'
    · simpa [fibre] using h'
    · rw [List.getElem?_eq_none h'] at hb1; cases hb1
  have hget : ∀ j, j < s.getD k 0 → (fibre s k f c)[j]? = some (f (fibreCoord s k c j)) := by
    intro j hj
    unfold fibre
    rw [List.getElem?_map, List.getElem?_range hj]
    rfl
  rw [hget _ hlt] at hb1
  injection hb1 with hb1
  refine ⟨hlt, fun j hj => ?_, fun j hj => ?_⟩
  · rw [hb1]; exact hb2 _ (List.mem_of_getElem? (hget j hj))
  · rw [hb1]; exact hb3 j _ hj (hget j (by omega))

/-- C20: an axis at or beyond the rank throws a logic error. -/
theorem c20_beyond (e : Env T) (lt : T → T → Bool) (ofNat : Nat → T)
    (t : Tensor T) (s : List Nat) (f : List Nat → T) (k : Nat) (h : Holds t s f) (hk : s.length ≤ k) :
    evalArgMax e lt ofNat k t = .throw .logicError := by
  have := forwardPass_new e (argCompressShaper k) (argCompressKernel (argMaxSearch lt ofNat) k)
    [(t, s, f)] (by simpa using h)
  simp only [List.map_cons, List.map_nil] at this
  unfold evalArgMax
  rw [this]
  simp only [argCompressShaper, (Shape.isFullyDefined_iff s).2 h.full, Outcome.assert_true, Outcome.ok_bind]
  rw [if_pos hk]
  rfl

example : ∃ t', evalArgMax tEnv (fun a b => decide (a < b)) id 1
    (⟨some [5, 1, 5, 3, 2, 9], [2, 3], [2, 3]⟩ : Tensor Nat) = .ok t' ∧ t'.raw = some [0, 2] :=
  ⟨_, rfl, by decide⟩

/-- C20, negative: without an axis the output has as many elements as the input has axes and all but
the first are left uninitialised. -/
theorem c20_all_uninitialised : ∃ t', evalArgMaxAll tEnv (fun a b => decide (a < b)) id t23 = .ok t' ∧
    t'.alloc = [2] ∧ t'.raw = some [5, 77] := ⟨_, rfl, by decide, by decide⟩

/-! ## C21 -/

/-- Evaluation of `flip(a, dims)` on a fresh node. -/
def evalFlip (e : Env T) (dims : List Nat) (t : Tensor T) : Outcome (Tensor T) :=
  forwardPass e flipShaper (flipKernel dims) none [some t]

/-- C21: flipping over axes inside the rank reads the mirrored coordinate (an axis given twice is
mirrored twice, i.e. not at all). -/
theorem c21_flip (e : Env T) (t : Tensor T) (s dims : List Nat) (f : List Nat → T) (h : Holds t s f)
    (hd : ∀ d ∈ dims, d < s.length) (hm : e.fits (Shape.nElems s) = true) :
    ∃ t', evalFlip e dims t = .ok t' ∧ Holds t' s (fun c => f (mirror s dims c)) := by
  refine forwardPass_holds e _ _ [(t, s, f)] (by simpa using h) s _ rfl h.full hm ?_
  intro dest hdl
  simp only [List.map_cons, List.map_nil, flipKernel]
  apply fill_bufOf h.full _ _ _ hdl
  intro i hi hr
  rw [Shape.coordinateFromIdx_eq h.full.2, Outcome.ok_bind, flipLoop_eq dims _ hd hr, Outcome.ok_bind]
  exact flat_read h.full.1 (mirror_inRange hr) f

/-- C21: flipping twice restores the data. -/
theorem c21_involutive (e : Env T) (t : Tensor T) (s dims : List Nat) (f : List Nat → T) (h : Holds t s f)
    (hd : ∀ d ∈ dims, d < s.length) (hm : e.fits (Shape.nElems s) = true) :
    ∃ t1 t2, evalFlip e dims t = .ok t1 ∧ evalFlip e dims t1 = .ok t2 ∧ Holds t2 s f := by
  obtain ⟨t1, h1, h2⟩ := c21_flip e t s dims f h hd hm
  obtain ⟨t2, h3, h4⟩ := c21_flip e t1 s dims _ h2 hd hm
  refine ⟨t1, t2, h1, h3, ?_⟩
  obtain ⟨hf, hs, buf, hb, hl, hdd⟩ := h4
  exact ⟨hf, hs, buf, hb, hl, fun c hc => by rw [hdd c hc, mirror_mirror hc]⟩

example : ∃ t', evalFlip tEnv [1] t23 = .ok t' ∧ t'.raw = some [2, 12, 1, 11, 0, 10] :=
  ⟨_, rfl, by decide⟩
example : mirror [2, 3] [1] [0, 2] = [0, 0] ∧ mirror [2, 3] [0, 1] [0, 2] = [1, 0] := by decide

/-- C21, negative: an axis at or beyond the rank is undefined behaviour. -/
theorem c21_beyond_ub (e : Env T) (t : Tensor T) (s : List Nat) (f : List Nat → T) (h : Holds t s f)
    (d : Nat) (hd : s.length ≤ d) (hm : e.fits (Shape.nElems s) = true) :
    evalFlip e [d] t = .ub := by
  have hf := forwardPass_new e flipShaper (flipKernel [d]) [(t, s, f)] (by simpa using h)
  simp only [List.map_cons, List.map_nil] at hf
  unfold evalFlip
  rw [hf]
  simp only [flipShaper, Outcome.ok_bind, (Shape.isFullyDefined_iff s).2 h.full, Outcome.assert_true]
  have := transfer_new e (flipKernel [d]) s h.full hm [(t, s, f)] (by simpa using h)
  simp only [List.map_cons, List.map_nil] at this
  rw [this]
  simp only [flipKernel, Outcome.fill]
  have hv : 0 < vol s := Shape.vol_pos h.full.2
  rw [Outcome.fillFrom_fail _ (fun _ => e.zero) .ub _ 0 _ 0 (Nat.le_refl _)
    (by rw [Shape.nElems_eq h.full.1]; omega) (fun j h1 h2 => by omega)
    (by rw [Shape.nElems_eq h.full.1]; simp)]
  · rfl
  · intro g
    rw [Shape.coordinateFromIdx_eq h.full.2, Outcome.ok_bind]
    simp only [flipLoop, Outcome.read, List.getElem?_eq_none hd]
    rfl

/-! ## C22 -/

/-- Evaluation of `extend(a, k, m)` on a fresh node, for `m ≥ 2` (for `m = 0` the constant 0 and for
`m = 1` the argument itself is returned, transform.ipp:140-141). -/
def evalExtend (e : Env T) (k m : Nat) (t : Tensor T) : Outcome (Tensor T) :=
  forwardPass e (extendShaper k m) (extendKernel k) none [some t]

/-- C22: for an axis inside the rank the extent is multiplied and the input repeated along it. -/
theorem c22_extend (e : Env T) (t : Tensor T) (s : List Nat) (f : List Nat → T) (k m : Nat)
    (h : Holds t s f) (hk : k < s.length) (hm0 : 0 < m)
    (hm : e.fits (Shape.nElems (s.set k (s.getD k 0 * m))) = true) :
    ∃ t', evalExtend e k m t = .ok t' ∧
      Holds t' (s.set k (s.getD k 0 * m)) (fun c => f (c.set k (c.getD k 0 % s.getD k 0))) := by
  have hpos : 0 < s.getD k 0 := by
    rw [getD_lt _ _ _ hk]; exact h.full.2 _ (List.getElem_mem hk)
  have hfull : Full (s.set k (s.getD k 0 * m)) := by
    refine ⟨set_ne_nil hk, fun x hx => ?_⟩
    rcases List.mem_or_eq_of_mem_set hx with h' | h'
    · exact h.full.2 x h'
    · rw [h']; exact Nat.mul_pos hpos hm0
  refine forwardPass_holds e _ _ [(t, s, f)] (by simpa using h) _ _ ?_ hfull hm ?_
  · simp only [List.map_cons, List.map_nil, extendShaper, (Shape.isFullyDefined_iff s).2 h.full,
      Outcome.assert_true, Outcome.ok_bind]
    rw [if_neg (by omega), Outcome.read_of_lt _ _ hk, Outcome.ok_bind, Outcome.write, if_pos hk,
      getD_lt _ _ _ hk]
  · intro dest hd
    simp only [List.map_cons, List.map_nil, extendKernel]
    rw [Outcome.read_of_lt _ _ hk, Outcome.ok_bind]
    apply fill_bufOf hfull _ _ _ hd
    intro i hi hr
    have hkc : k < (coords (s.set k (s.getD k 0 * m)) i).length := by rw [hr.1]; simpa using hk
    rw [Shape.coordinateFromIdx_eq hfull.2, Outcome.ok_bind, Outcome.read_of_lt _ _ hkc, Outcome.ok_bind,
      if_neg (by rw [getD_lt _ _ _ hk] at hpos; omega), Outcome.write, if_pos hkc, Outcome.ok_bind,
      ← getD_lt s k 0 hk, ← getD_lt _ k 0 hkc]
    exact flat_read h.full.1 (inRange_set hk hr (Nat.mod_lt _ hpos)) f

/-- C22, negative: for an axis at or beyond the rank a shape is computed but evaluation is undefined
behaviour (`as_list()[index]` out of bounds). -/
theorem c22_beyond_ub (e : Env T) (t : Tensor T) (s : List Nat) (f : List Nat → T) (k m : Nat)
    (h : Holds t s f) (hk : s.length ≤ k) (hm0 : 0 < m) (hm : ∀ n, e.fits n = true) :
    evalExtend e k m t = .ub := by
  have hfull : Full (s ++ List.replicate (k - s.length) 1 ++ [m]) := by
    refine ⟨by simp, fun x hx => ?_⟩
    simp only [List.append_assoc, List.mem_append, List.mem_replicate, List.mem_singleton] at hx
    rcases hx with h' | h' | h'
    · exact h.full.2 x h'
    · omega
    · omega
  have hf := forwardPass_new e (extendShaper k m) (extendKernel k) [(t, s, f)] (by simpa using h)
  simp only [List.map_cons, List.map_nil] at hf
  unfold evalExtend
  rw [hf]
  have hsh : extendShaper k m [s] = .ok (s ++ List.replicate (k - s.length) 1 ++ [m]) := by
    simp only [extendShaper, (Shape.isFullyDefined_iff s).2 h.full, Outcome.assert_true, Outcome.ok_bind]
    rw [if_pos hk]; rfl
  rw [hsh]
  simp only [Outcome.ok_bind, (Shape.isFullyDefined_iff _).2 hfull, Outcome.assert_true]
  have := transfer_new e (extendKernel k) _ hfull (hm _) [(t, s, f)] (by simpa using h)
  simp only [List.map_cons, List.map_nil] at this
  rw [this]
  simp only [extendKernel, Outcome.read, List.getElem?_eq_none hk]
  rfl

example : ∃ t', evalExtend tEnv 0 2 t23 = .ok t' ∧ t'.alloc = [4, 3] ∧
    t'.raw = some [0, 10, 0, 10, 1, 11, 1, 11, 2, 12, 2, 12] := ⟨_, rfl, by decide, by decide⟩

end Verif.Props
