import Verif.Model.Elementary
import Verif.Spec.Elementary
import Verif.Lemmas.Op
import Verif.Lemmas.Compat
import Verif.Lemmas.Transform
/-!
# Properties of the element-wise operators: C16, C17 and of the axial operators: C54
-/
namespace Verif.Props
open Spec Elementary Op
variable {T : Type}

/-! ## C17 -/

/-- The argument shapes that take part in the shape check: those that are not scalar. -/
def nonScalar (shapes : List Shape) : List Shape := shapes.filter (fun s => decide (s.nElems ≠ 1))

theorem shaperLoop_eq (shapes : List Shape) (last : Shape) :
    ((∀ i, i < (nonScalar shapes).length →
        ((nonScalar shapes).getD i []).isCompatibleWith ((last :: nonScalar shapes).getD i []) = true) →
      shaperLoop shapes last = .ok ((nonScalar shapes).getLastD last)) ∧
    ((∃ i, i < (nonScalar shapes).length ∧
        ((nonScalar shapes).getD i []).isCompatibleWith ((last :: nonScalar shapes).getD i []) = false) →
      shaperLoop shapes last = .throw .runtimeError) := by
  induction shapes generalizing last with
  | nil => exact ⟨fun _ => rfl, fun ⟨i, hi, _⟩ => by simp [nonScalar] at hi⟩
  | cons s ss ih =>
    by_cases h1 : s.nElems = 1
    · have e1 : nonScalar (s :: ss) = nonScalar ss := by simp [nonScalar, h1]
      rw [e1]
      unfold shaperLoop
      rw [if_pos h1]
      exact ih last
    · have e1 : nonScalar (s :: ss) = s :: nonScalar ss := by simp [nonScalar, h1]
      rw [e1]
      unfold shaperLoop
      rw [if_neg h1]
      obtain ⟨ih1, ih2⟩ := ih s
      constructor
      · intro h
        have h0 := h 0 (by simp)
        simp only [List.getD_cons_zero] at h0
        rw [h0]
        simp only [Bool.not_true, Bool.false_eq_true, if_false]
        rw [ih1 (fun i hi => by simpa using h (i + 1) (by simpa using hi))]
        congr 1
        cases nonScalar ss with
        | nil => rfl
        | cons a as =>
          rw [List.getLastD_eq_getLast?, List.getLastD_eq_getLast?, List.getLast?_cons_cons]
          cases h : (a :: as).getLast? with
          | none => simp at h
          | some x => rfl
      · rintro ⟨i, hi, hc⟩
        by_cases h0 : s.isCompatibleWith last = true
        · rw [h0]
          simp only [Bool.not_true, Bool.false_eq_true, if_false]
          cases i with
          | zero => simp only [List.getD_cons_zero] at hc; rw [h0] at hc; cases hc
          | succ i => exact ih2 ⟨i, by simpa using hi, by simpa using hc⟩
        · simp only [Bool.not_eq_true] at h0
          rw [h0]; rfl

/-- C17: the element-wise shape function throws exactly when two successive non-scalar argument
shapes are incompatible, and otherwise returns the last non-scalar shape, `{1}` when there is none or
when it is not fully defined. -/
theorem c17_shaper (shapes : List Shape) :
    ((∀ i, i + 1 < (nonScalar shapes).length →
        ((nonScalar shapes).getD (i + 1) []).isCompatibleWith ((nonScalar shapes).getD i []) = true) →
      elementaryShaper shapes =
        .ok (match (nonScalar shapes).getLast? with
          | some s => if Full s then s else [1]
          | none => [1])) ∧
    ((∃ i, i + 1 < (nonScalar shapes).length ∧
        ((nonScalar shapes).getD (i + 1) []).isCompatibleWith ((nonScalar shapes).getD i []) = false) →
      elementaryShaper shapes = .throw .runtimeError) := by
  obtain ⟨h1, h2⟩ := shaperLoop_eq shapes []
  constructor
  · intro h
    unfold elementaryShaper
    rw [h1 (fun i hi => by
      cases i with
      | zero => simp
      | succ i => simpa using h i hi)]
    simp only [Outcome.ok_bind]
    cases hl : (nonScalar shapes).getLast? with
    | none =>
      have : nonScalar shapes = [] := by simpa using hl
      rw [this]; rfl
    | some s =>
      have : (nonScalar shapes).getLastD [] = s := by
        rw [List.getLastD_eq_getLast?, hl]; rfl
      rw [this]
      by_cases hf : Full s
      · simp [(Shape.isFullyDefined_iff s).2 hf, hf]
      · have : s.isFullyDefined = false := by
          rw [Bool.eq_false_iff]; intro h'; exact hf ((Shape.isFullyDefined_iff s).1 h')
        simp [this, hf]
  · rintro ⟨i, hi, hc⟩
    unfold elementaryShaper
    rw [h2 ⟨i + 1, hi, by simpa using hc⟩]
    rfl

/-- C17 for two fully defined argument shapes: rejected exactly when both are non-scalar and they
differ after removing padding ones (or differ at all, if of the same rank). -/
theorem c17_binary (a b : Shape) (ha : Full a) (hb : Full b) :
    elementaryShaper [a, b] =
      if vol b = 1 then .ok (if vol a = 1 then [1] else a)
      else if vol a = 1 then .ok b
      else if b.isCompatibleWith a = true then .ok b
      else .throw .runtimeError := by
  have fa := (Shape.isFullyDefined_iff a).2 ha
  have fb := (Shape.isFullyDefined_iff b).2 hb
  unfold elementaryShaper
  simp only [shaperLoop, Shape.nElems_eq ha.1, Shape.nElems_eq hb.1]
  have e1 : Shape.isFullyDefined [] = false := rfl
  by_cases h1 : vol a = 1 <;> by_cases h2 : vol b = 1
  · simp [h1, h2, e1]
  · simp [h1, h2, fb]
  · simp [h1, h2, fa]
  · by_cases h3 : b.isCompatibleWith a = true
    · simp [h1, h2, h3, fb]
    · simp only [Bool.not_eq_true] at h3
      simp [h1, h2, h3]

example : elementaryShaper [[1], [2, 3], [1, 1], [2, 3, 1]] = .ok [2, 3, 1] ∧
    elementaryShaper [[2, 3], [3, 2]] = .throw .runtimeError := by decide

/-! ## C16 -/

/-- Every non-scalar argument has as many elements as the output. -/
theorem shaper_counts (a b out : Shape) (ha : Full a) (hb : Full b)
    (h : elementaryShaper [a, b] = .ok out) :
    Full out ∧ (vol a = 1 ∨ vol a = vol out) ∧ (vol b = 1 ∨ vol b = vol out) := by
  rw [c17_binary a b ha hb] at h
  split at h
  · rename_i h1
    injection h with h
    subst h
    split
    · rename_i h2; exact ⟨by decide, .inl h2, .inl h1⟩
    · exact ⟨ha, .inr rfl, .inl h1⟩
  · split at h
    · rename_i h2
      injection h with h; subst h
      exact ⟨hb, .inl h2, .inr rfl⟩
    · split at h
      · rename_i h3
        injection h with h; subst h
        exact ⟨hb, .inr (Shape.compat_full_vol hb ha h3).symm, .inr rfl⟩
      · cases h

theorem read_elemAt (buf : List T) (n i m : Nat) (hl : buf.length = n) (hi : i < m)
    (hn : n = 1 ∨ n = m) : ∃ x, elemAt buf i = some x ∧
      Outcome.read buf (i * (if n > 1 then 1 else 0)) = .ok x := by
  unfold elemAt
  by_cases h1 : n = 1
  · have h0 : 0 < buf.length := by omega
    refine ⟨buf[0], by simp [hl, h1], ?_⟩
    have : ¬ n > 1 := by omega
    simp only [this, if_false, Nat.mul_zero]
    exact Outcome.read_of_lt _ _ h0
  · have hlt : i < buf.length := by omega
    refine ⟨buf[i], by simp [hl, h1, hlt], ?_⟩
    have : n > 1 := by omega
    simp only [this, if_true, Nat.mul_one]
    exact Outcome.read_of_lt _ _ hlt

/-- The binary kernel on buffers of matching sizes writes exactly the pointwise results. -/
theorem binaryElem_spec (op : T → T → T) (a b out : Shape) (ba bb dest : List T)
    (ha : Full a) (hb : Full b) (hout : Full out) (hla : ba.length = vol a) (hlb : bb.length = vol b)
    (hd : dest.length = vol out) (ca : vol a = 1 ∨ vol a = vol out) (cb : vol b = 1 ∨ vol b = vol out) :
    ∃ res, binaryElem op dest [ba, bb] out [a, b] = .ok res ∧ res.length = vol out ∧
      ∀ i, i < vol out → ∃ x y, elemAt ba i = some x ∧ elemAt bb i = some y ∧ res[i]? = some (op x y) := by
  simp only [binaryElem, Shape.nElems_eq ha.1, Shape.nElems_eq hb.1, Shape.nElems_eq hout.1]
  obtain ⟨res, h1, h2, h3⟩ := Outcome.fill_exists (vol out) (fun i => do
      let x ← Outcome.read ba (i * (if vol a > 1 then 1 else 0))
      let y ← Outcome.read bb (i * (if vol b > 1 then 1 else 0))
      return op x y)
    (fun i v => ∃ x y, elemAt ba i = some x ∧ elemAt bb i = some y ∧ v = op x y) dest (by
      intro i hi
      obtain ⟨x, h1, h2⟩ := read_elemAt ba (vol a) i (vol out) hla hi ca
      obtain ⟨y, h3, h4⟩ := read_elemAt bb (vol b) i (vol out) hlb hi cb
      refine ⟨op x y, ?_, x, y, h1, h3, rfl⟩
      rw [h2, Outcome.ok_bind, h4, Outcome.ok_bind]
      rfl) hd
  refine ⟨res, h1, h2, fun i hi => ?_⟩
  obtain ⟨v, hv, x, y, hx, hy, rfl⟩ := h3 i hi
  exact ⟨x, y, hx, hy, hv⟩

/-- C16: whenever the element-wise shape function accepts two allocated arguments, evaluation returns
normally (no access leaves a buffer), the result has that shape, and its element `i` is the operator
applied to element `i` of both arguments, a one-element argument being broadcast. -/
theorem c16_binary (e : Env T) (op : T → T → T) (a b : Tensor T) (ba bb : List T) (out : Shape)
    (hwa : a.WF) (hwb : b.WF) (hra : a.raw = some ba) (hrb : b.raw = some bb)
    (hs : elementaryShaper [a.alloc, b.alloc] = .ok out) (hm : e.fits out.nElems = true) :
    ∃ t' res, forwardPass e elementaryShaper (binaryElem op) none [some a, some b] = .ok t' ∧
      t'.alloc = out ∧ t'.raw = some res ∧ res.length = vol out ∧
      ∀ i, i < vol out → ∃ x y, elemAt ba i = some x ∧ elemAt bb i = some y ∧ res[i]? = some (op x y) := by
  obtain ⟨fa, la⟩ := hwa ba hra
  obtain ⟨fb, lb⟩ := hwb bb hrb
  obtain ⟨hout, ca, cb⟩ := shaper_counts _ _ _ fa fb hs
  have hf := forwardPass_raw e elementaryShaper (binaryElem op) none [(a, ba), (b, bb)] (by
    intro x hx
    simp only [List.mem_cons, List.not_mem_nil, or_false] at hx
    rcases hx with rfl | rfl
    · exact ⟨(Tensor.isAlloc_iff _).2 ⟨fa, _, hra⟩, hra⟩
    · exact ⟨(Tensor.isAlloc_iff _).2 ⟨fb, _, hrb⟩, hrb⟩)
  simp only [List.map_cons, List.map_nil] at hf
  obtain ⟨res, h1, h2, h3⟩ := binaryElem_spec op a.alloc b.alloc out ba bb ((List.range (vol out)).map e.junk)
    fa fb hout la lb (by simp) ca cb
  have hal : (⟨some ((List.range (vol out)).map e.junk), out, out⟩ : Tensor T).isAlloc = true :=
    (Tensor.isAlloc_iff _).2 ⟨hout, _, rfl⟩
  rw [hf, hs]
  simp only [Outcome.ok_bind, prepareOut, (Shape.isFullyDefined_iff _).2 hout, Outcome.assert_true,
    new_eq e hout hm, getRaw, hal, Tensor.getShape, if_true]
  rw [h1]
  exact ⟨_, res, rfl, rfl, rfl, h2, h3⟩

/-- C16, re-evaluation: with an output already allocated from an earlier pass, the node is re-evaluated
in place, keeping its shape, whenever the new shape is compatible with the old one. -/
theorem c16_reevaluate (e : Env T) (op : T → T → T) (a b d : Tensor T) (ba bb bd : List T) (out : Shape)
    (hwa : a.WF) (hwb : b.WF) (hwd : d.WF) (hra : a.raw = some ba) (hrb : b.raw = some bb)
    (hrd : d.raw = some bd)
    (hs : elementaryShaper [a.alloc, b.alloc] = .ok out) (hc : out.isCompatibleWith d.alloc = true) :
    ∃ t' res, forwardPass e elementaryShaper (binaryElem op) (some d) [some a, some b] = .ok t' ∧
      t'.alloc = d.alloc ∧ t'.raw = some res ∧ res.length = vol out ∧
      ∀ i, i < vol out → ∃ x y, elemAt ba i = some x ∧ elemAt bb i = some y ∧ res[i]? = some (op x y) := by
  obtain ⟨fa, la⟩ := hwa ba hra
  obtain ⟨fb, lb⟩ := hwb bb hrb
  obtain ⟨fd, ld⟩ := hwd bd hrd
  obtain ⟨hout, ca, cb⟩ := shaper_counts _ _ _ fa fb hs
  have hv : vol out = vol d.alloc := Shape.compat_full_vol hout fd hc
  have hf := forwardPass_raw e elementaryShaper (binaryElem op) (some d) [(a, ba), (b, bb)] (by
    intro x hx
    simp only [List.mem_cons, List.not_mem_nil, or_false] at hx
    rcases hx with rfl | rfl
    · exact ⟨(Tensor.isAlloc_iff _).2 ⟨fa, _, hra⟩, hra⟩
    · exact ⟨(Tensor.isAlloc_iff _).2 ⟨fb, _, hrb⟩, hrb⟩)
  simp only [List.map_cons, List.map_nil] at hf
  obtain ⟨res, h1, h2, h3⟩ := binaryElem_spec op a.alloc b.alloc d.alloc ba bb bd
    fa fb fd la lb ld (by rw [← hv]; exact ca) (by rw [← hv]; exact cb)
  have hal : d.isAlloc = true := (Tensor.isAlloc_iff _).2 ⟨fd, _, hrd⟩
  have hgs : d.getShape = d.alloc := by simp [Tensor.getShape, hal]
  rw [hf, hs]
  simp only [Outcome.ok_bind, prepareOut, (Shape.isFullyDefined_iff _).2 hout, if_true,
    getRaw, hal, hgs, hc, Bool.not_true, Bool.false_eq_true, if_false, Outcome.assert_true, hrd]
  rw [h1]
  exact ⟨_, res, rfl, rfl, rfl, by rw [hv]; exact h2, by rw [hv]; exact h3⟩

/-- C16: two arguments of the same shape, in coordinates. -/
theorem c16_same_shape (e : Env T) (op : T → T → T) (a b : Tensor T) (s : List Nat)
    (fa fb : List Nat → T) (ha : Holds a s fa) (hb : Holds b s fb) (h1 : vol s ≠ 1)
    (hm : e.fits (Shape.nElems s) = true) :
    ∃ t', forwardPass e elementaryShaper (binaryElem op) none [some a, some b] = .ok t' ∧
      Holds t' s (fun c => op (fa c) (fb c)) := by
  have hs : elementaryShaper [s, s] = .ok s := by
    rw [c17_binary s s ha.full ha.full, if_neg h1, if_neg h1, if_pos (Shape.compat_self s)]
  refine forwardPass_holds e _ _ [(a, s, fa), (b, s, fb)] ?_ s _ hs ha.full hm ?_
  · intro x hx
    simp only [List.mem_cons, List.not_mem_nil, or_false] at hx
    rcases hx with rfl | rfl
    · exact ha
    · exact hb
  · intro dest hd
    have hv : vol s > 1 := by
      have := Shape.vol_pos ha.full.2; omega
    simp only [List.map_cons, List.map_nil, binaryElem]
    apply fill_bufOf ha.full _ _ _ hd
    intro i hi hr
    simp only [Shape.nElems_eq ha.full.1, hv, if_true, Nat.mul_one]
    rw [read_bufOf ha.full.2 _ _ hi, Outcome.ok_bind, read_bufOf ha.full.2 _ _ hi, Outcome.ok_bind]
    rfl

/-- C16: unary element-wise operators. -/
theorem c16_unary (e : Env T) (op : T → T) (a : Tensor T) (s : List Nat) (fa : List Nat → T)
    (ha : Holds a s fa) (hm : ∀ n, e.fits n = true) :
    ∃ t', forwardPass e elementaryShaper (unaryElem op) none [some a] = .ok t' ∧
      (vol s ≠ 1 → Holds t' s (fun c => op (fa c))) ∧
      (vol s = 1 → Holds t' [1] (fun _ => op (fa (List.replicate s.length 0)))) := by
  by_cases h1 : vol s = 1
  · have hs : elementaryShaper [s] = .ok [1] := by
      unfold elementaryShaper
      simp [shaperLoop, Shape.nElems_eq ha.full.1, h1, Shape.isFullyDefined]
    obtain ⟨t', h2, h3⟩ := forwardPass_holds e elementaryShaper (unaryElem op) [(a, s, fa)] (by simpa using ha) [1]
      (fun _ => op (fa (List.replicate s.length 0))) hs (by decide) (hm _) (by
        intro dest hd
        simp only [List.map_cons, List.map_nil, unaryElem]
        apply fill_bufOf (by decide) _ _ _ hd
        intro i hi hr
        have hi0 : i = 0 := by simp [vol] at hi; exact hi
        subst hi0
        rw [read_bufOf ha.full.2 _ _ (by omega), Outcome.ok_bind]
        have : coords s 0 = List.replicate s.length 0 := by
          clear hs hd hr h1 ha hi
          induction s with
          | nil => rfl
          | cons d ds ih => simp [coords, ih, List.replicate_succ]
        rw [this]; rfl)
    exact ⟨t', h2, fun h => absurd h1 h, fun _ => h3⟩
  · have hs : elementaryShaper [s] = .ok s := by
      unfold elementaryShaper
      simp [shaperLoop, Shape.nElems_eq ha.full.1, h1, (Shape.isFullyDefined_iff s).2 ha.full]
    obtain ⟨t', h2, h3⟩ := forwardPass_holds e elementaryShaper (unaryElem op) [(a, s, fa)] (by simpa using ha) s
      (fun c => op (fa c)) hs ha.full (hm _) (by
        intro dest hd
        simp only [List.map_cons, List.map_nil, unaryElem]
        apply fill_bufOf ha.full _ _ _ hd
        intro i hi hr
        rw [read_bufOf ha.full.2 _ _ hi, Outcome.ok_bind]
        rfl)
    exact ⟨t', h2, fun _ => h3, fun h => absurd h h1⟩

example : ∃ t', forwardPass ({ junk := fun _ => 7, zero := 0, fits := fun _ => true } : Env Int) elementaryShaper
    (binaryElem (· - ·)) none
    [some (⟨some [10], [1, 1], [1, 1]⟩ : Tensor Int), some ⟨some [1, 2, 3], [3], [3]⟩] = .ok t' ∧
    t'.raw = some [9, 8, 7] ∧ t'.alloc = [3] := ⟨_, rfl, by decide, by decide⟩

/-! ## C54 -/

open Transform

theorem flat_append_right {ds cs : List Nat} (h : cs.length = ds.length) (ex : List Nat) :
    flat ds (cs ++ ex) = flat ds cs := by
  induction ds generalizing cs with
  | nil => cases cs <;> cases ex <;> rfl
  | cons d ds ih =>
    cases cs with
    | nil => simp at h
    | cons c cs => simp [flat, ih (by simpa using h)]

theorem reduceShape_back (ds : List Nat) (d : Nat) (h0 : 0 < ds.length) :
    reduceShape (ds ++ [d]) ds.length = ds := by
  unfold reduceShape
  rw [if_neg (by simp only [List.length_append, List.length_singleton]; omega), if_pos (by simp)]
  simp [List.eraseIdx_append_of_length_le]

theorem reduceShape_inner {s : List Nat} {k : Nat} (h1 : 0 < k) (h2 : k < s.length - 1) :
    reduceShape s k = s.set k 1 := by
  unfold reduceShape
  rw [if_neg (by omega), if_neg (by omega)]

theorem snoc_of_length {c : List Nat} {n : Nat} (h : c.length = n + 1) :
    ∃ c' x, c = c' ++ [x] ∧ c'.length = n := by
  have hne : c ≠ [] := by intro h0; subst h0; simp at h
  exact ⟨c.dropLast, c.getLast hne, (List.dropLast_concat_getLast hne).symm, by simp [h]⟩

theorem inRange_of_snoc {ds : List Nat} {d : Nat} {c : List Nat} {x : Nat} (hl : c.length = ds.length)
    (h : InRange (ds ++ [d]) (c ++ [x])) : InRange ds c := by
  refine ⟨hl, fun i hi => ?_⟩
  have := h.2 i (by simp; omega)
  simp only [List.getD_eq_getElem?_getD] at this ⊢
  rwa [List.getElem?_append_left (by omega), List.getElem?_append_left hi] at this

theorem reduceCoord_inRange {s c : List Nat} {k : Nat} (hk : k < s.length) (hc : InRange s c) :
    InRange (reduceShape s k) (reduceCoord s k c) := by
  rcases rcase hk with ⟨d, rfl, rfl⟩ | ⟨d, e, ds, rfl, rfl⟩ | ⟨ds, d, rfl, rfl, h0⟩ | ⟨h1, h2⟩
  · simp [reduceShape, reduceCoord, Shape.inRange_cons]
  · cases c with
    | nil => exact absurd hc Shape.not_inRange_cons_nil
    | cons x xs => simpa [reduceShape, reduceCoord] using (Shape.inRange_cons.1 hc).2
  · rw [reduceShape_back ds d h0]
    obtain ⟨c', x, rfl, hl⟩ := snoc_of_length (n := ds.length) (by simpa using hc.1)
    have : reduceCoord (ds ++ [d]) ds.length (c' ++ [x]) = c' := by
      unfold reduceCoord
      rw [if_neg (by simp only [List.length_append, List.length_singleton]; omega), if_pos (by simp), ← hl]
      simp [List.eraseIdx_append_of_length_le]
    rw [this]
    exact inRange_of_snoc hl hc
  · rw [reduceShape_inner h1 h2]
    unfold reduceCoord
    rw [if_neg (by omega), if_neg (by omega)]
    refine ⟨by simpa using hc.1, fun i hi => ?_⟩
    rw [getD_set (by rw [hc.1]; exact hk), getD_set hk]
    simp only [List.length_set] at hi
    split
    · omega
    · exact hc.2 i hi

theorem mul_eq_one' {a b : Nat} : a * b = 1 ↔ a = 1 ∧ b = 1 :=
  ⟨fun h => ⟨Nat.eq_one_of_mul_eq_one_right h, Nat.eq_one_of_mul_eq_one_left h⟩,
    fun ⟨h1, h2⟩ => by subst h1; subst h2; rfl⟩

theorem axialIndex_eq {s : Shape} {k : Nat} (hs : Full s) (hk : k < s.length)
    (hsq : k = 0 → s.getD 0 0 ≠ s.getD 1 0 ∨ s.getD 0 0 = 1) (h1r : s.length ≠ 1)
    (i : Nat) (hi : i < vol s) :
    axialIndex k s (reduceShape s k) i = .ok (flat (reduceShape s k) (reduceCoord s k (coords s i))) := by
  have hc := Shape.coords_inRange hs.2 i
  have hr := reduce_full hs hk
  have hrc := reduceCoord_inRange hk hc
  have hfl := Shape.flatIdx_eq (reduceShape s k) (reduceCoord s k (coords s i)) hr.1 (inRange_ne_nil hr.1 hrc)
  have hfc := Shape.flat_coords hs.2 hi
  rcases rcase hk with ⟨d, rfl, rfl⟩ | ⟨d, e, ds, rfl, rfl⟩ | ⟨ds, d, rfl, rfl, h0⟩ | ⟨h1, h2⟩
  · simp at h1r
  · have e1 : reduceShape (d :: e :: ds) 0 = e :: ds := by simp [reduceShape]
    rw [e1] at hr hrc hfl ⊢
    generalize hcs : coords (d :: e :: ds) i = cc at hc hrc hfl hfc ⊢
    cases cc with
    | nil => exact absurd hc Shape.not_inRange_cons_nil
    | cons x xs =>
      have e2 : reduceCoord (d :: e :: ds) 0 (x :: xs) = xs := by simp [reduceCoord]
      rw [e2] at hrc hfl ⊢
      unfold axialIndex axialFront axialInner
      by_cases hde : e = d
      · subst hde
        have hd1 : e = 1 := by simpa using hsq rfl
        subst hd1
        have hx : x = 0 := by have := (Shape.inRange_cons.1 hc).1; omega
        subst hx
        rw [flat] at hfc
        simp [Outcome.read]
        omega
      · simp only [Outcome.read, Shape.coordinateFromIdx_eq hs.2, hcs]
        simp [hde, hfl]
  · rw [reduceShape_back ds d h0] at hr hrc hfl ⊢
    obtain ⟨c', x, hcs, hl⟩ := snoc_of_length (c := coords (ds ++ [d]) i) (n := ds.length) (by simpa using hc.1)
    have e2 : reduceCoord (ds ++ [d]) ds.length (c' ++ [x]) = c' := by
      unfold reduceCoord
      rw [if_neg (by simp only [List.length_append, List.length_singleton]; omega), if_pos (by simp), ← hl]
      simp [List.eraseIdx_append_of_length_le]
    rw [hcs, e2] at hfl ⊢
    unfold axialIndex axialFront axialInner
    have hk0 : ¬ ds.length = 0 := by omega
    simp only [hk0, if_false, Outcome.ok_bind, Bool.false_eq_true, ge_iff_le, Nat.le_refl, if_true,
      Shape.coordinateFromIdx_eq hs.2, hcs, Outcome.write]
    rw [if_pos (by simp; omega), Outcome.ok_bind, ← hl, List.set_append_right _ _ (Nat.le_refl _)]
    simp only [Nat.sub_self, List.set_cons_zero]
    rw [Shape.flatIdx_eq _ _ hr.1 (by simp), flat_append_right hl]
  · rw [reduceShape_inner h1 h2] at hr hrc hfl ⊢
    have e2 : reduceCoord s k (coords s i) = (coords s i).set k 0 := by
      unfold reduceCoord
      rw [if_neg (by omega), if_neg (by omega)]
    rw [e2] at hfl hrc ⊢
    have hkc : k < (coords s i).length := by rw [hc.1]; exact hk
    unfold axialIndex axialFront axialInner
    have hk0 : ¬ k = 0 := by omega
    have hkl : ¬ k ≥ (s.set k 1).length := by simpa using hk
    simp only [hk0, if_false, Outcome.ok_bind, Bool.false_eq_true, hkl]
    rw [Outcome.read_of_lt _ _ (by simpa using hk)]
    simp only [List.getElem_set_self, Outcome.ok_bind, if_true]
    rw [Outcome.read_of_lt _ _ hk]
    simp only [Outcome.ok_bind]
    by_cases hsk : s[k] > 1
    · simp only [hsk, decide_true, if_true, Shape.coordinateFromIdx_eq hs.2, Outcome.ok_bind, Outcome.write, hkc]
      exact hfl
    · have hsk1 : s[k] = 1 := by
        have := hs.2 _ (List.getElem_mem hk); omega
      simp only [hsk, decide_false, Bool.false_eq_true, if_false]
      have es : s.set k 1 = s := by rw [← hsk1]; exact List.set_getElem_self hk
      have ec : (coords s i).set k 0 = coords s i := by
        have h3 := hc.2 k hk
        rw [getD_lt _ _ _ hk, getD_lt _ _ _ hkc] at h3
        have : (coords s i)[k] = 0 := by omega
        conv => lhs; rw [← this]
        exact List.set_getElem_self hkc
      rw [es, ec, hfc]

/-- Evaluation of an axial operator whose reduced operand is on the left (`left = true`) or right. -/
def evalAxial (e : Env T) (op : T → T → T) (k : Nat) (left : Bool) (axial real : Tensor T) :
    Outcome (Tensor T) :=
  forwardPass e (axialShaper k left) (binaryAxial op k left) none
    (if left then [some axial, some real] else [some real, some axial])

theorem axialShaper_eq {s : Shape} {k : Nat} (hs : Full s) (hk : k < s.length) (left : Bool)
    (hv : vol (reduceShape s k) ≠ 1) :
    axialShaper k left (if left then [reduceShape s k, s] else [s, reduceShape s k]) = .ok s := by
  have hr := reduce_full hs hk
  have hvs : vol s ≠ 1 := by
    intro h
    apply hv
    have h1 : ∀ d ∈ s, d = 1 := by
      intro d hd
      have : ∀ l : List Nat, (∀ x ∈ l, 0 < x) → vol l = 1 → ∀ x ∈ l, x = 1 := by
        intro l
        induction l with
        | nil => simp
        | cons a as ih =>
          intro hp hl x hx
          rw [vol, mul_eq_one'] at hl
          rcases List.mem_cons.1 hx with rfl | hx
          · exact hl.1
          · exact ih (fun y hy => hp y (by simp [hy])) hl.2 x hx
      exact this s hs.2 h d hd
    have h2 : ∀ d ∈ reduceShape s k, d = 1 := by
      intro d hd
      unfold reduceShape at hd
      split at hd
      · simpa using hd
      · split at hd
        · exact h1 d (List.mem_of_mem_eraseIdx hd)
        · rcases List.mem_or_eq_of_mem_set hd with h | h
          · exact h1 d h
          · exact h
    have : ∀ l : List Nat, (∀ x ∈ l, x = 1) → vol l = 1 := by
      intro l
      induction l with
      | nil => intro _; rfl
      | cons a as ih => intro hl; rw [vol, hl a (by simp), ih (fun x hx => hl x (by simp [hx]))]
    exact this _ h2
  have hlen : s.length ≠ 1 := by
    intro h1
    apply hv
    simp [reduceShape, h1, vol]
  have key : axialDrop k s = .ok (reduceShape s k) := by
    unfold reduceShape axialDrop
    rw [if_neg hlen]
    by_cases h0 : k = 0
    · subst h0; simp [hs.1]
    · rw [if_neg h0, if_neg hs.1]
      by_cases h2 : k = s.length - 1
      · rw [if_pos h2, if_pos (.inr h2), h2, List.dropLast_eq_take, List.eraseIdx_eq_take_drop_succ,
          List.drop_eq_nil_of_le (by omega), List.append_nil]
      · rw [if_neg h2, if_neg (by omega), Outcome.write, if_pos hk]
  cases left
  all_goals
    simp only [axialShaper, Bool.false_eq_true, if_false, if_true, Shape.nElems_eq hr.1, Shape.nElems_eq hs.1, hv, hvs]
    rw [key]
    simp [Shape.compat_self, (Shape.isFullyDefined_iff s).2 hs]

theorem axialShaper_scalar {s : Shape} {k : Nat} (hs : Full s) (hk : k < s.length) (left : Bool)
    (hv : vol (reduceShape s k) = 1) :
    axialShaper k left (if left then [reduceShape s k, s] else [s, reduceShape s k]) = .ok s := by
  have hr := reduce_full hs hk
  cases left <;> simp [axialShaper, Shape.nElems_eq hr.1, hv]

/-- C54, for every shape except those whose first two extents are equal (and above 1) when the axis is
0: the reduced operand is repeated along the axis, and the operator is applied coordinate by
coordinate with operands in the order given. -/
theorem c54_axial_partial (e : Env T) (op : T → T → T) (axial real : Tensor T) (s : List Nat) (k : Nat)
    (fa fr : List Nat → T) (left : Bool) (hk : k < s.length)
    (ha : Holds axial (reduceShape s k) fa) (hr : Holds real s fr)
    (hsq : k = 0 → s.getD 0 0 ≠ s.getD 1 0 ∨ s.getD 0 0 = 1)
    (hm : e.fits (Shape.nElems s) = true) :
    ∃ t', evalAxial e op k left axial real = .ok t' ∧
      Holds t' s (fun c => if left then op (fa (reduceCoord s k c)) (fr c)
        else op (fr c) (fa (reduceCoord s k c))) := by
  have hs := hr.full
  -- the body of the kernel at index `i`
  have hread : ∀ i, i < vol s → InRange s (coords s i) →
      Outcome.read (bufOf s fr) i = .ok (fr (coords s i)) := fun i hi _ => read_bufOf hs.2 _ _ hi
  by_cases hv : vol (reduceShape s k) = 1
  · have hz : ∀ c, InRange s c → Outcome.read (bufOf (reduceShape s k) fa) 0 = .ok (fa (reduceCoord s k c)) := by
      intro c hc
      have h1 := reduceCoord_inRange hk hc
      have h2 := Shape.flat_lt h1
      have h3 : flat (reduceShape s k) (reduceCoord s k c) = 0 := by omega
      have := read_bufOf_flat fa h1
      rwa [h3] at this
    cases left
    · refine forwardPass_holds e (axialShaper k false) (binaryAxial op k false)
        [(real, s, fr), (axial, reduceShape s k, fa)] ?_ s _ (axialShaper_scalar hs hk false hv) hs hm ?_
      · intro x hx
        simp only [List.mem_cons, List.not_mem_nil, or_false] at hx
        rcases hx with rfl | rfl
        · exact hr
        · exact ha
      · intro dest hd
        simp only [List.map_cons, List.map_nil, binaryAxial, Bool.false_eq_true, if_false]
        rw [if_pos (by rw [Shape.nElems_eq ha.full.1, hv])]
        apply fill_bufOf hs _ _ _ hd
        intro i hi hc
        rw [hz _ hc, Outcome.ok_bind, hread i hi hc]
        rfl
    · refine forwardPass_holds e (axialShaper k true) (binaryAxial op k true)
        [(axial, reduceShape s k, fa), (real, s, fr)] ?_ s _ (axialShaper_scalar hs hk true hv) hs hm ?_
      · intro x hx
        simp only [List.mem_cons, List.not_mem_nil, or_false] at hx
        rcases hx with rfl | rfl
        · exact ha
        · exact hr
      · intro dest hd
        simp only [List.map_cons, List.map_nil, binaryAxial, if_true]
        rw [if_pos (by rw [Shape.nElems_eq ha.full.1, hv])]
        apply fill_bufOf hs _ _ _ hd
        intro i hi hc
        rw [hz _ hc, Outcome.ok_bind, hread i hi hc]
        rfl
  · have hlen : s.length ≠ 1 := by
      intro h1
      apply hv
      simp [reduceShape, h1, vol]
    have hidx := fun i hi => axialIndex_eq hs hk hsq hlen i hi
    have hz : ∀ c, InRange s c → Outcome.read (bufOf (reduceShape s k) fa)
        (flat (reduceShape s k) (reduceCoord s k c)) = .ok (fa (reduceCoord s k c)) :=
      fun c hc => read_bufOf_flat fa (reduceCoord_inRange hk hc)
    cases left
    · refine forwardPass_holds e (axialShaper k false) (binaryAxial op k false)
        [(real, s, fr), (axial, reduceShape s k, fa)] ?_ s _ (axialShaper_eq hs hk false hv) hs hm ?_
      · intro x hx
        simp only [List.mem_cons, List.not_mem_nil, or_false] at hx
        rcases hx with rfl | rfl
        · exact hr
        · exact ha
      · intro dest hd
        simp only [List.map_cons, List.map_nil, binaryAxial, Bool.false_eq_true, if_false]
        rw [if_neg (by rw [Shape.nElems_eq ha.full.1]; exact hv)]
        apply fill_bufOf hs _ _ _ hd
        intro i hi hc
        rw [hidx i hi, Outcome.ok_bind, hz _ hc, Outcome.ok_bind, hread i hi hc]
        rfl
    · refine forwardPass_holds e (axialShaper k true) (binaryAxial op k true)
        [(axial, reduceShape s k, fa), (real, s, fr)] ?_ s _ (axialShaper_eq hs hk true hv) hs hm ?_
      · intro x hx
        simp only [List.mem_cons, List.not_mem_nil, or_false] at hx
        rcases hx with rfl | rfl
        · exact ha
        · exact hr
      · intro dest hd
        simp only [List.map_cons, List.map_nil, binaryAxial, if_true]
        rw [if_neg (by rw [Shape.nElems_eq ha.full.1]; exact hv)]
        apply fill_bufOf hs _ _ _ hd
        intro i hi hc
        rw [hidx i hi, Outcome.ok_bind, hz _ hc, Outcome.ok_bind, hread i hi hc]
        rfl

/-- If the kernel of an axial operator fails at element `m`, so does the operator. -/
theorem axial_fail (e : Env T) (op : T → T → T) (k : Nat) (left : Bool) (axial real : Tensor T) (sa s : List Nat) (fa fr : List Nat → T)
    (ha : Holds axial sa fa) (hr : Holds real s fr) (hm : e.fits (Shape.nElems s) = true)
    (hsh : axialShaper k left (if left then [sa, s] else [s, sa]) = .ok s) (hv : vol sa ≠ 1)
    (x : Outcome (List T)) (m : Nat) (v : Nat → T) (hlt : m < vol s)
    (hgood : ∀ i, i < m → (axialIndex k s sa i >>= fun j => Outcome.read (bufOf sa fa) j >>= fun x => Outcome.read (bufOf s fr) i >>= fun y =>
      (.ok (if left then op x y else op y x) : Outcome T)) = .ok (v i))
    (hbad : ∀ f : T → T → Outcome (List T), (axialIndex k s sa m >>= fun j => Outcome.read (bufOf sa fa) j >>= fun x => Outcome.read (bufOf s fr) m >>= fun y => f x y) = x)
    {r : Outcome (Tensor T)} (hx : (x >>= fun d => .ok ⟨some d, s, s⟩) = r) :
    evalAxial e op k left axial real = r := by
  have hs := hr.full
  have key : ∀ agg : T → T → T, (∀ a b, agg a b = if left then op a b else op b a) →
      Outcome.fill (Shape.nElems s) (fun i => do
        let k ← axialIndex k s sa i
        let x ← Outcome.read (bufOf sa fa) k
        let y ← Outcome.read (bufOf s fr) i
        return agg x y) ((List.range (vol s)).map e.junk) = x := by
    intro agg hagg
    unfold Outcome.fill
    refine Outcome.fillFrom_fail _ v x _ 0 _ m (Nat.zero_le _) (by rw [Shape.nElems_eq hs.1]; omega) ?_ (by rw [Shape.nElems_eq hs.1]; simp) ?_
    · intro i _ hi
      rw [← hgood i hi]
      simp only [hagg]
      rfl
    · intro f
      rw [← hbad fun a b => f (agg a b)]
      cases h1 : axialIndex k s sa m <;> try rfl
      rename_i j
      simp only [Outcome.ok_bind]
      cases h2 : Outcome.read (bufOf sa fa) j <;> try rfl
      simp only [Outcome.ok_bind]
      cases h3 : Outcome.read (bufOf s fr) m <;> rfl
  cases left with
  | true =>
    have hts : ∀ x ∈ [(axial, sa, fa), (real, s, fr)], Holds x.1 x.2.1 x.2.2 := by
      intro x hx
      simp only [List.mem_cons, List.not_mem_nil, or_false] at hx
      rcases hx with rfl | rfl
      · exact ha
      · exact hr
    have hf := forwardPass_new e (axialShaper k true) (binaryAxial op k true) _ hts
    have ht := transfer_new e (binaryAxial op k true) _ hs hm _ hts
    simp only [List.map_cons, List.map_nil] at hf ht
    simp only [if_true] at hsh
    unfold evalAxial
    simp only [if_true]
    rw [hf, hsh]
    simp only [Outcome.ok_bind, (Shape.isFullyDefined_iff _).2 hs, Outcome.assert_true]
    rw [ht]
    simp only [binaryAxial, if_true]
    rw [if_neg (by rw [Shape.nElems_eq ha.full.1]; exact hv), key op (fun a b => by rw [if_pos rfl])]
    exact hx
  | false =>
    have hts : ∀ x ∈ [(real, s, fr), (axial, sa, fa)], Holds x.1 x.2.1 x.2.2 := by
      intro x hx
      simp only [List.mem_cons, List.not_mem_nil, or_false] at hx
      rcases hx with rfl | rfl
      · exact hr
      · exact ha
    have hf := forwardPass_new e (axialShaper k false) (binaryAxial op k false) _ hts
    have ht := transfer_new e (binaryAxial op k false) _ hs hm _ hts
    simp only [List.map_cons, List.map_nil] at hf ht
    simp only [Bool.false_eq_true, if_false] at hsh
    unfold evalAxial
    simp only [Bool.false_eq_true, if_false]
    rw [hf, hsh]
    simp only [Outcome.ok_bind, (Shape.isFullyDefined_iff _).2 hs, Outcome.assert_true]
    rw [ht]
    simp only [binaryAxial, Bool.false_eq_true, if_false]
    rw [if_neg (by rw [Shape.nElems_eq ha.full.1]; exact hv), key (fun a b => op b a) (fun a b => by rw [if_neg (by simp)])]
    exact hx

/-- C54, negative: along axis 0 with equal first two extents above 1 (for instance any square matrix)
the reduced operand is read past its end. -/
theorem c54_square_ub (e : Env T) (op : T → T → T) (left : Bool) (axial real : Tensor T) (d : Nat) (ds : List Nat)
    (fa fr : List Nat → T) (hd : 1 < d) (ha : Holds axial (d :: ds) fa) (hr : Holds real (d :: d :: ds) fr)
    (hm : e.fits (Shape.nElems (d :: d :: ds)) = true) :
    evalAxial e op 0 left axial real = .ub := by
  have hs := hr.full
  have hred : reduceShape (d :: d :: ds) 0 = d :: ds := by simp [reduceShape]
  have hv : vol (reduceShape (d :: d :: ds) 0) ≠ 1 := by
    rw [hred]
    intro h
    rw [vol, mul_eq_one'] at h
    omega
  have hsh := axialShaper_eq hs (k := 0) (by simp) left hv
  rw [hred] at hsh hv
  have hidx : ∀ i, axialIndex 0 (d :: d :: ds) (d :: ds) i = .ok i := by
    intro i
    unfold axialIndex axialFront axialInner
    have : ¬ d = 1 := by omega
    simp [Outcome.read, this]
  have hvpos : 0 < vol (d :: ds) := Shape.vol_pos ha.full.2
  have hvol : vol (d :: d :: ds) = d * vol (d :: ds) := rfl
  have hvlt : vol (d :: ds) < vol (d :: d :: ds) := by
    rw [hvol]; exact (Nat.lt_mul_iff_one_lt_left hvpos).2 hd
  refine axial_fail e op 0 left axial real (d :: ds) (d :: d :: ds) fa fr ha hr hm hsh hv .ub (vol (d :: ds))
    (fun i => if left then op (fa (coords (d :: ds) i)) (fr (coords (d :: d :: ds) i)) else op (fr (coords (d :: d :: ds) i)) (fa (coords (d :: ds) i))) hvlt ?_ ?_ rfl
  · intro i hi
    rw [hidx, Outcome.ok_bind, read_bufOf ha.full.2 _ _ hi, Outcome.ok_bind, read_bufOf hs.2 _ _ (by omega)]
    cases left <;> rfl
  · intro g
    rw [hidx, Outcome.ok_bind]
    simp [Outcome.read, bufOf]

/-- Exactly which shapes the axial operators work for: all but those with equal first two extents above 1 along axis 0,
for which the reduced operand is read past its end. -/
theorem c54_exact (e : Env T) (op : T → T → T) (axial real : Tensor T) (s : List Nat) (k : Nat)
    (fa fr : List Nat → T) (left : Bool) (hk : k < s.length)
    (ha : Holds axial (reduceShape s k) fa) (hr : Holds real s fr) (hm : e.fits (Shape.nElems s) = true) :
    ((∃ t', evalAxial e op k left axial real = .ok t' ∧
      Holds t' s (fun c => if left then op (fa (reduceCoord s k c)) (fr c) else op (fr c) (fa (reduceCoord s k c)))) ↔
      ¬(k = 0 ∧ s.getD 0 0 = s.getD 1 0 ∧ 1 < s.getD 0 0)) ∧
    (evalAxial e op k left axial real = .ub ↔ k = 0 ∧ s.getD 0 0 = s.getD 1 0 ∧ 1 < s.getD 0 0) := by
  by_cases hsq : k = 0 ∧ s.getD 0 0 = s.getD 1 0 ∧ 1 < s.getD 0 0
  · have hu : evalAxial e op k left axial real = .ub := by
      obtain ⟨rfl, h1, h2⟩ := hsq
      match s, hr, ha, hm, h1, h2 with
      | [], _, _, _, _, h2 => simp at h2
      | [d], _, _, _, h1, h2 => simp at h1 h2; omega
      | d :: d' :: ds, hr, ha, hm, h1, h2 =>
        simp only [List.getD_cons_zero, List.getD_cons_succ] at h1 h2
        subst h1
        have hred : reduceShape (d :: d :: ds) 0 = d :: ds := by simp [reduceShape]
        rw [hred] at ha
        exact c54_square_ub e op left axial real d ds fa fr h2 ha hr hm
    exact ⟨⟨fun ⟨t, h, _⟩ => absurd (hu.symm.trans h) (by simp), fun h => absurd hsq h⟩, ⟨fun _ => hsq, fun _ => hu⟩⟩
  · obtain ⟨t, h1, h2⟩ := c54_axial_partial e op axial real s k fa fr left hk ha hr (fun h0 => by
      have : 0 < s.getD 0 0 := by
        cases s with
        | nil => simp at hk
        | cons d ds => exact hr.full.2 d (by simp)
      rcases Nat.decEq (s.getD 0 0) (s.getD 1 0) with h3 | h3
      · exact .inl h3
      · right
        rcases Nat.lt_or_ge 1 (s.getD 0 0) with h4 | h4
        · exact absurd ⟨h0, h3, h4⟩ hsq
        · omega) hm
    exact ⟨⟨fun _ => hsq, fun _ => ⟨t, h1, h2⟩⟩, ⟨fun h => absurd (h1.symm.trans h) (by simp), fun h => absurd h hsq⟩⟩

/-- C54, negative: an extent of 1 in front of the reduced operand's shape is dropped by the shape check but not by the
kernel: a vector of `m` elements combined along axis 0 with a tensor of shape `[n, 1, m]` is accepted as compatible and
then throws. -/
theorem c54_padding_throws (e : Env T) (op : T → T → T) (left : Bool) (axial real : Tensor T) (n m : Nat)
    (fa fr : List Nat → T) (hn : n ≠ m) (hm1 : 1 < m) (ha : Holds axial [m] fa) (hr : Holds real [n, 1, m] fr)
    (hm : e.fits (Shape.nElems [n, 1, m]) = true) :
    evalAxial e op 0 left axial real = .throw .logicError := by
  have hs := hr.full
  have hv : vol [m] ≠ 1 := by simp [vol]; omega
  have hn0 : 0 < n := hs.2 n (by simp)
  have hvs : vol [n, 1, m] ≠ 1 := by
    intro h
    simp only [vol, mul_eq_one'] at h
    omega
  have hc : Shape.isCompatibleWith [m] [1, m] = true := by
    rw [Shape.compat_full ha.full ⟨by simp, by simp; omega⟩]
    refine .inr ⟨by simp, ?_⟩
    rw [Shape.tr_of_trimOf (t := [m]) ⟨0, 0, by simp, by simp; omega, by simp; omega⟩,
      Shape.tr_of_trimOf (t := [m]) ⟨1, 0, by simp, by simp; omega, by simp; omega⟩]
  have hc' : Shape.isCompatibleWith [m] (List.drop 1 [n, 1, m]) = true := hc
  have hsh : axialShaper 0 left (if left then [[m], [n, 1, m]] else [[n, 1, m], [m]]) = .ok [n, 1, m] := by
    cases left
    all_goals
      simp only [axialShaper, Bool.false_eq_true, if_false, if_true, Shape.nElems_eq ha.full.1, Shape.nElems_eq hs.1, hv, hvs]
      simp [axialDrop, hc, (Shape.isFullyDefined_iff _).2 hs]
  have hpos : 0 < vol [n, 1, m] := Shape.vol_pos hs.2
  refine axial_fail e op 0 left axial real [m] [n, 1, m] fa fr ha hr hm hsh hv (.throw .logicError) 0 (fun _ => fr []) hpos
    (fun i hi => absurd hi (Nat.not_lt_zero i)) ?_ rfl
  intro g
  unfold axialIndex axialFront
  have h1 : ¬ m = n := fun h => hn h.symm
  have h2 : ¬ m = 1 := by omega
  rw [show Shape.coordinateFromIdx [n, 1, m] 0 = .ok (coords [n, 1, m] 0) from Shape.coordinateFromIdx_eq hs.2 0]
  simp [Outcome.read, h1, h2]

example : evalAxial ({ junk := fun _ => 7, zero := 0, fits := fun _ => true } : Env Int) (· - ·) 0 false
    ⟨some [10, 20], [2], [2]⟩ ⟨some [1, 2, 3, 4, 5, 6], [3, 1, 2], [3, 1, 2]⟩ = .throw .logicError := rfl

example : ∃ t', evalAxial ({ junk := fun _ => 7, zero := 0, fits := fun _ => true } : Env Int) (· - ·) 0 true
    (⟨some [10, 20, 30], [3], [3]⟩) ⟨some [1, 2, 3, 4, 5, 6], [2, 3], [2, 3]⟩ = .ok t' ∧
    t'.raw = some [9, 8, 17, 16, 25, 24] := ⟨_, rfl, by decide⟩

example : evalAxial ({ junk := fun _ => 7, zero := 0, fits := fun _ => true } : Env Int) (· - ·) 0 true
    (⟨some [10, 20], [2], [2]⟩) ⟨some [1, 2, 3, 4], [2, 2], [2, 2]⟩ = .ub := rfl

end Verif.Props
