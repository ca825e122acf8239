import Verif.Lemmas.Batch
import Verif.Spec.Backprop
/-!
# Batches: operands of different sizes, reductions over the first axis and over everything
-/
namespace Verif.Props
open Spec Op Finset Elementary

/-- The element of an operand that an element-wise operator reads. -/
theorem elem_pos {T : Type} {l : List T} {d D : Nat × Nat} {f : Nat → Nat → T} {i j : Nat} {x : T}
    (hl : l.length = d.1 * d.2) (hv : ∀ i j, i < d.1 → j < d.2 → l[i + d.1 * j]? = some (f i j))
    (h : d = D ∨ d = (1, 1) ∨ (d.2 = 1 ∧ D = (1, d.1))) (hi : i < D.1) (hj : j < D.2)
    (hx : elemAt l (i + D.1 * j) = some x) : x = f (pos d D i j).1 (pos d D i j).2 := by
  unfold elemAt at hx
  unfold pos
  by_cases h1 : d = (1, 1)
  · have hl1 : l.length = 1 := by rw [hl, h1]; rfl
    rw [if_pos hl1] at hx
    have h00 := hv 0 0 (by rw [h1]; exact Nat.one_pos) (by rw [h1]; exact Nat.one_pos)
    rw [h1] at h00
    simp only [Nat.mul_zero, Nat.add_zero] at h00
    have hx0 : x = f 0 0 := by rw [h00] at hx; exact (Option.some.inj hx).symm
    by_cases h2 : d = D
    · rw [if_pos h2]
      rw [← h2, h1] at hi hj
      have : i = 0 := by simpa using hi
      have : j = 0 := by simpa using hj
      subst i j
      exact hx0
    · rw [if_neg h2, if_pos h1]; exact hx0
  · have hl1 : ¬l.length = 1 := by
      rw [hl]
      intro h
      obtain ⟨ha, hb⟩ := mul_one_split h
      exact h1 (Prod.ext ha hb)
    rw [if_neg hl1] at hx
    by_cases h2 : d = D
    · rw [if_pos h2]
      subst h2
      have := hv i j hi hj
      rw [this] at hx
      exact (Option.some.inj hx).symm
    · rw [if_neg h2, if_neg h1]
      rcases h with h | h | ⟨h3, h4⟩
      · exact absurd h h2
      · exact absurd h h1
      · rw [h4] at hi hj hx
        have : i = 0 := by simpa using hi
        subst this
        have hj' : j < d.1 := hj
        have := hv j 0 hj' (by rw [h3]; exact Nat.one_pos)
        simp only [Nat.mul_zero, Nat.add_zero] at this
        simp only [Nat.zero_add, Nat.one_mul] at hx
        rw [this] at hx
        exact (Option.some.inj hx).symm

theorem compat_row (n : Nat) (h : n ≠ 1) : Shape.isCompatibleWith [1, n] [n] = true := by
  simp [Shape.isCompatibleWith, Shape.stripOnesFront, Shape.stripOnesBack, Shape.matchLoop, Shape.dimMatch, h]

/-- Element-wise operators on two batches whose sizes fit. -/
theorem batch_meets {T : Type} (e : Env T) (hm : ∀ n, e.fits n = true) (op : T → T → T) (s t : Tensor T) (d d' : Nat × Nat)
    (f g : Nat → Nat → T) (hs : Batch s d.1 d.2 f) (ht : Batch t d'.1 d'.2 g)
    (h : d = d' ∨ d = (1, 1) ∨ d' = (1, 1) ∨ (s.alloc = [d.1] ∧ d' = (1, d.1))) :
    ∃ r, Op.forwardPass e elementaryShaper (binaryElem op) none [some s, some t] = .ok r ∧
      Batch r (meet d d').1 (meet d d').2 (fun i j => op (f (pos d (meet d d') i j).1 (pos d (meet d d') i j).2)
        (g (pos d' (meet d d') i j).1 (pos d' (meet d d') i j).2)) ∧
      ((∃ x, s.alloc = [x]) → (∃ x, t.alloc = [x]) → ∃ x, r.alloc = [x]) := by
  obtain ⟨hn, hb, ws, ss, bs, rs, ls, es⟩ := batch_elems hs
  obtain ⟨hn', hb', wt, st, bt, rt, lt, et⟩ := batch_elems ht
  obtain ⟨fs, vs⟩ := alloc_full hn hb ss
  obtain ⟨ft, vt⟩ := alloc_full hn' hb' st
  have hD : 0 < (meet d d').1 ∧ 0 < (meet d d').2 := by
    unfold meet; split
    · exact ⟨hn, hb⟩
    · exact ⟨hn', hb'⟩
  have hrow : s.alloc = [d.1] → d.2 = 1 := by
    intro h
    rcases ss with h' | ⟨h', _⟩
    · rw [h] at h'; simp at h'
    · exact h'
  have hpl : d = meet d d' ∨ d = (1, 1) ∨ (d.2 = 1 ∧ meet d d' = (1, d.1)) := by
    unfold meet
    by_cases h1 : d' = (1, 1)
    · rw [if_pos h1]; exact .inl rfl
    · rw [if_neg h1]
      rcases h with h | h | h | ⟨h, h'⟩
      · exact .inl h
      · exact .inr (.inl h)
      · exact absurd h h1
      · exact .inr (.inr ⟨hrow h, h'⟩)
  have hpr : d' = meet d d' ∨ d' = (1, 1) ∨ (d'.2 = 1 ∧ meet d d' = (1, d'.1)) := by
    unfold meet
    by_cases h1 : d' = (1, 1)
    · exact .inr (.inl h1)
    · rw [if_neg h1]; exact .inl rfl
  have hout : ∃ out, elementaryShaper [s.alloc, t.alloc] = .ok out ∧
      (out = [(meet d d').1, (meet d d').2] ∨ ((meet d d').2 = 1 ∧ out = [(meet d d').1])) ∧
      ((∃ x, s.alloc = [x]) → (∃ x, t.alloc = [x]) → ∃ x, out = [x]) := by
    rw [c17_binary _ _ fs ft, vs, vt]
    by_cases h1 : d'.1 * d'.2 = 1
    · rw [if_pos h1]
      obtain ⟨ha, hb⟩ := mul_one_split h1
      have : meet d d' = d := by unfold meet; rw [if_pos (Prod.ext ha hb)]
      rw [this]
      by_cases h2 : d.1 * d.2 = 1
      · rw [if_pos h2]
        obtain ⟨ha, hb⟩ := mul_one_split h2
        exact ⟨[1], rfl, .inr ⟨hb, by rw [ha]⟩, fun _ _ => ⟨1, rfl⟩⟩
      · rw [if_neg h2]
        exact ⟨_, rfl, ss, fun h _ => h⟩
    · rw [if_neg h1]
      have hne : d' ≠ (1, 1) := by rintro rfl; exact h1 rfl
      have : meet d d' = d' := by unfold meet; rw [if_neg hne]
      rw [this]
      by_cases h2 : d.1 * d.2 = 1
      · rw [if_pos h2]
        exact ⟨_, rfl, st, fun _ h => h⟩
      · rw [if_neg h2]
        have hc : t.alloc.isCompatibleWith s.alloc = true := by
          rcases h with rfl | rfl | h | ⟨h, h'⟩
          · rcases ss with h | ⟨hb1, h⟩ <;> rcases st with h' | ⟨hb2, h'⟩
            · rw [h, h']; exact Shape.compat_self _
            · rw [hb2] at h h1
              rw [h, h', Shape.compat_comm]; exact compat_vector _ (by simpa using h1)
            · rw [hb1] at h' h1
              rw [h, h']; exact compat_vector _ (by simpa using h1)
            · rw [h, h']; exact Shape.compat_self _
          · simp at h2
          · exact absurd h hne
          · have hd1 : d.1 ≠ 1 := by
              intro h3; exact h2 (by rw [h3, hrow h])
            rcases st with h3 | ⟨h3, _⟩
            · rw [h, h3, h']; exact compat_row _ hd1
            · rw [h'] at h3; exact absurd h3 hd1
        rw [if_pos hc]
        exact ⟨_, rfl, st, fun _ h => h⟩
  obtain ⟨out, ho, so, sr⟩ := hout
  obtain ⟨r, res, h1, h2, h3, h4, h5⟩ := c16_binary e op s t bs bt out ws wt rs rt ho (hm _)
  obtain ⟨_, vo⟩ := alloc_full hD.1 hD.2 so
  rw [vo] at h4 h5
  refine ⟨r, h1, batch_of_elems hD.1 hD.2 (by rw [h2]; exact so) res h3 h4 (fun i j hi hj => ?_), by rw [h2]; exact sr⟩
  have hk := batch_index hi hj
  obtain ⟨x, y, hx, hy, hxy⟩ := h5 _ hk
  rw [hxy, elem_pos ls es hpl hi hj hx, elem_pos lt et hpr hi hj hy]

theorem un_alloc {T : Type} (e : Env T) (hm : ∀ n, e.fits n = true) (op : T → T) (t r : Tensor T) (n b : Nat) (f : Nat → Nat → T)
    (ht : Batch t n b f) (hr : Op.forwardPass e elementaryShaper (unaryElem op) none [some t] = .ok r) (h : ∃ x, t.alloc = [x]) :
    ∃ x, r.alloc = [x] := by
  obtain ⟨x, hx⟩ := h
  have : ∃ F, Holds t [x] F := by
    rcases ht with h | ⟨_, h⟩
    · rw [h.shape] at hx; simp at hx
    · have := h.shape; rw [hx] at this; rw [this]; exact ⟨_, h⟩
  obtain ⟨F, hF⟩ := this
  obtain ⟨t', h1, h2, h3⟩ := c16_unary e op t [x] F hF hm
  rw [hr] at h1
  cases h1
  by_cases hv : vol [x] = 1
  · exact ⟨1, (h3 hv).shape⟩
  · exact ⟨x, (h2 hv).shape⟩

theorem fold1_max (f : Nat → ℝ) (n : Nat) (hn : 0 < n) : fold1 max ((List.range n).map f) = maxOf f n := by
  induction n with
  | zero => omega
  | succ n ih =>
    match n, ih with
    | 0, _ => rfl
    | n + 1, ih =>
      have ih := ih (by omega)
      rw [List.range_succ, List.map_append]
      have hne : (List.range (n + 1)).map f ≠ [] := by simp
      show _ = max (maxOf f (n + 1)) (f (n + 1))
      rw [← ih]
      cases hl : (List.range (n + 1)).map f with
      | nil => exact absurd hl hne
      | cons x xs => simp [fold1, List.foldl_append]

/-- Reduction over the first axis. -/
theorem batch_reduce0 (e : Env ℝ) (hm : ∀ n, e.fits n = true) (op : ℝ → ℝ → ℝ) (a : Tensor ℝ) (n b : Nat)
    (f : Nat → Nat → ℝ) (ha : Batch a n b f) :
    ∃ t', evalReduce e op 0 a = .ok t' ∧ Batch t' b 1 (fun j _ => fold1 op ((List.range n).map (fun i => f i j))) ∧ t'.alloc = [b] := by
  rcases ha with ha | ⟨rfl, ha⟩
  · obtain ⟨t', h1, h2⟩ := c19_axis e op a [n, b] _ 0 ha (by simp) (hm _)
    have hr : reduceShape [n, b] 0 = [b] := by simp [reduceShape]
    rw [hr] at h2
    refine ⟨t', h1, .inr ⟨rfl, holds_congr h2 (fun c hc => ?_)⟩, h2.shape⟩
    obtain ⟨hl, _⟩ := hc
    match c, hl with
    | [i], _ => simp [fibre, fibreCoord]
  · obtain ⟨t', h1, h2⟩ := c19_axis e op a [n] _ 0 ha (by simp) (hm _)
    have hr : reduceShape [n] 0 = [1] := by simp [reduceShape]
    rw [hr] at h2
    refine ⟨t', h1, .inr ⟨rfl, holds_congr h2 (fun c hc => ?_)⟩, h2.shape⟩
    obtain ⟨hl, hc⟩ := hc
    match c, hl with
    | [i], _ =>
      have : i = 0 := by simpa using hc 0 (by simp)
      subst this
      simp [fibre, fibreCoord]

theorem sum_flat (n b : Nat) (f : Nat → Nat → ℝ) (hn : 0 < n) :
    ∑ k ∈ range (n * b), f (k % n) (k / n) = ∑ i ∈ range n, ∑ j ∈ range b, f i j := by
  rw [sum_comm]
  induction b with
  | zero => simp
  | succ b ih =>
    rw [Nat.mul_succ, sum_range_add, ih, sum_range_succ]
    congr 1
    refine sum_congr rfl (fun i hi => ?_)
    have hi := mem_range.1 hi
    rw [Nat.mul_add_mod, Nat.mod_eq_of_lt hi, Nat.mul_add_div hn, Nat.div_eq_of_lt hi, Nat.add_zero]

/-- Sum of everything. -/
theorem batch_sumAll (e : Env ℝ) (hm : ∀ n, e.fits n = true) (a : Tensor ℝ) (n b : Nat)
    (f : Nat → Nat → ℝ) (ha : Batch a n b f) :
    ∃ t', evalReduceAll e (· + ·) a = .ok t' ∧ Batch t' 1 1 (fun _ _ => ∑ i ∈ range n, ∑ j ∈ range b, f i j) ∧ t'.alloc = [1] := by
  rcases ha with ha | ⟨rfl, ha⟩
  · have hn : 0 < n := ha.full.2 n (by simp)
    obtain ⟨t', h1, h2⟩ := c19_all e (· + ·) a [n, b] _ ha (hm _)
    refine ⟨t', h1, .inr ⟨rfl, holds_congr h2 (fun c hc => ?_)⟩, h2.shape⟩
    rw [fold1_range, ← sum_flat n b f hn]
    refine Eq.trans (sum_congr ?_ (fun k hk => ?_)) rfl
    · simp [vol]
    · have hk : k < n * b := by simpa [vol] using hk
      have hb : 0 < b := ha.full.2 b (by simp)
      have : k / n < b := Nat.div_lt_of_lt_mul hk
      simp [coords, Nat.mod_eq_of_lt this]
  · have hn : 0 < n := ha.full.2 n (by simp)
    obtain ⟨t', h1, h2⟩ := c19_all e (· + ·) a [n] _ ha (hm _)
    refine ⟨t', h1, .inr ⟨rfl, holds_congr h2 (fun c hc => ?_)⟩, h2.shape⟩
    rw [fold1_range]
    simp only [sum_range_one]
    refine Eq.trans (sum_congr ?_ (fun k hk => ?_)) rfl
    · simp [vol]
    · have hk : k < n := by simpa [vol] using hk
      simp [coords, Nat.mod_eq_of_lt hk]

/-- The number of elements. -/
theorem batch_nelems (e : Env ℝ) (hm : ∀ n, e.fits n = true) (a : Tensor ℝ) (n b : Nat)
    (f : Nat → Nat → ℝ) (ha : Batch a n b f) :
    ∃ t', Op.forwardPass e (fun _ => .ok [1]) Backprop.nelemsKernel none [some a] = .ok t' ∧
      Batch t' 1 1 (fun _ _ => (n : ℝ) * b) ∧ t'.alloc = [1] := by
  have key : ∀ s F, Holds a s F → vol s = n * b → ∃ t', Op.forwardPass e (fun _ => .ok [1]) Backprop.nelemsKernel none [some a] = .ok t' ∧
      Batch t' 1 1 (fun _ _ => (n : ℝ) * b) ∧ t'.alloc = [1] := by
    intro s F hF hv
    obtain ⟨t', h1, h2⟩ := forwardPass_holds e (fun _ => .ok [1]) Backprop.nelemsKernel [(a, s, F)] (by simpa using hF) [1]
      (fun _ => (n : ℝ) * b) rfl (by decide) (hm _) (by
        intro dest hd
        simp only [List.map_cons, List.map_nil, Backprop.nelemsKernel]
        have e1 : Shape.nElems s = n * b := by rw [Shape.nElems_eq hF.full.1, hv]
        refine fill_bufOf (by decide) _ _ dest hd (fun i hi hc => ?_)
        rw [e1]; push_cast; rfl)
    exact ⟨t', h1, .inr ⟨rfl, h2⟩, h2.shape⟩
  rcases ha with ha | ⟨rfl, ha⟩
  · exact key _ _ ha (by simp [vol])
  · exact key _ _ ha (by simp [vol])

/-- `l2norm`: the absolute value of the first entry. -/
theorem batch_l2 (e : Env ℝ) (hm : ∀ n, e.fits n = true) (a : Tensor ℝ) (n b : Nat)
    (f : Nat → Nat → ℝ) (ha : Batch a n b f) :
    ∃ t', Op.forwardPass e (fun _ => .ok [1]) Backprop.l2Kernel none [some a] = .ok t' ∧
      Batch t' 1 1 (fun _ _ => |f 0 0|) ∧ t'.alloc = [1] := by
  have key : ∀ s F, Holds a s F → F (coords s 0) = f 0 0 → ∃ t', Op.forwardPass e (fun _ => .ok [1]) Backprop.l2Kernel none [some a] = .ok t' ∧
      Batch t' 1 1 (fun _ _ => |f 0 0|) ∧ t'.alloc = [1] := by
    intro s F hF hv
    obtain ⟨t', h1, h2⟩ := forwardPass_holds e (fun _ => .ok [1]) Backprop.l2Kernel [(a, s, F)] (by simpa using hF) [1]
      (fun _ => |f 0 0|) rfl (by decide) (hm _) (by
        intro dest hd
        simp only [List.map_cons, List.map_nil, Backprop.l2Kernel]
        have r0 := read_bufOf hF.full.2 F 0 (Shape.vol_pos hF.full.2)
        rw [hv] at r0
        have e1 : Shape.nElems [1] = 1 := rfl
        rw [e1]
        simp only [Backprop.sumSquares, Outcome.ok_bind, r0, zero_add]
        rw [Real.sqrt_mul_self_eq_abs]
        match dest, hd with
        | [x], _ => rfl)
    exact ⟨t', h1, .inr ⟨rfl, h2⟩, h2.shape⟩
  rcases ha with ha | ⟨rfl, ha⟩
  · exact key _ _ ha (by simp [coords])
  · exact key _ _ ha (by simp [coords])

/-- `clip_norm`. -/
theorem batch_clip (e : Env ℝ) (hm : ∀ n, e.fits n = true) (cap : ℝ) (a l : Tensor ℝ) (n b : Nat)
    (f g : Nat → Nat → ℝ) (ha : Batch a n b f) (hl : Batch l 1 1 g) :
    ∃ t', Op.forwardPass e elementaryShaper (Backprop.clipKernel cap) none [some l, some a] = .ok t' ∧
      Batch t' n b (fun i j => f i j * cap / g 0 0) ∧ ((∃ x, a.alloc = [x]) → ∃ x, t'.alloc = [x]) := by
  have key : ∀ S G s F, Holds l S G → vol S = 1 → G (coords S 0) = g 0 0 → Holds a s F → 
      ∃ t', Op.forwardPass e elementaryShaper (Backprop.clipKernel cap) none [some l, some a] = .ok t' ∧
        (vol s ≠ 1 → Holds t' s (fun c => F c * cap / g 0 0)) ∧
        (vol s = 1 → Holds t' [1] (fun _ => F (coords s 0) * cap / g 0 0)) := by
    intro S G s F hG hS hg hF
    have r0 := read_bufOf hG.full.2 G 0 (by rw [hS]; exact Nat.one_pos)
    rw [hg] at r0
    by_cases h1 : vol s = 1
    · obtain ⟨t', h2, h3⟩ := forwardPass_holds e elementaryShaper (Backprop.clipKernel cap) [(l, S, G), (a, s, F)] (by simpa using ⟨hG, hF⟩) [1]
        (fun _ => F (coords s 0) * cap / g 0 0) (by
          simp [elementaryShaper, shaperLoop, Shape.nElems_eq hG.full.1, hS, Shape.nElems_eq hF.full.1, h1, Shape.isFullyDefined]) (by decide) (hm _) (by
          intro dest hd
          simp only [List.map_cons, List.map_nil, Backprop.clipKernel, r0, Outcome.ok_bind]
          apply fill_bufOf (by decide) _ _ _ hd
          intro i hi hr
          have hi0 : i = 0 := by simp [vol] at hi; exact hi
          subst hi0
          rw [read_bufOf hF.full.2 _ _ (by omega), Outcome.ok_bind])
      exact ⟨t', h2, fun h => absurd h1 h, fun _ => h3⟩
    · obtain ⟨t', h2, h3⟩ := forwardPass_holds e elementaryShaper (Backprop.clipKernel cap) [(l, S, G), (a, s, F)] (by simpa using ⟨hG, hF⟩) s
        (fun c => F c * cap / g 0 0) (by
          simp [elementaryShaper, shaperLoop, Shape.nElems_eq hG.full.1, hS, Shape.nElems_eq hF.full.1, h1, (Shape.isFullyDefined_iff s).2 hF.full]) hF.full (hm _) (by
          intro dest hd
          simp only [List.map_cons, List.map_nil, Backprop.clipKernel, r0, Outcome.ok_bind]
          apply fill_bufOf hF.full _ _ _ hd
          intro i hi hr
          rw [read_bufOf hF.full.2 _ _ hi, Outcome.ok_bind])
      exact ⟨t', h2, fun _ => h3, fun h => absurd h h1⟩
  have hl' : ∃ S G, Holds l S G ∧ vol S = 1 ∧ G (coords S 0) = g 0 0 := by
    rcases hl with hl | ⟨_, hl⟩
    · exact ⟨_, _, hl, by simp [vol], by simp [coords]⟩
    · exact ⟨_, _, hl, by simp [vol], by simp [coords]⟩
  obtain ⟨S, G, hG, hS, hg⟩ := hl'
  rcases ha with ha | ⟨rfl, ha⟩
  · obtain ⟨t', h1, h2, h3⟩ := key _ _ _ _ hG hS hg ha
    refine ⟨t', h1, ?_, fun ⟨x, hx⟩ => ?_⟩
    · by_cases hv : vol [n, b] = 1
      · have h4 := h3 hv
        obtain ⟨rfl, rfl⟩ := mul_one_split (by simpa [vol] using hv)
        refine .inr ⟨rfl, holds_congr h4 (fun c hc => ?_)⟩
        have : c.getD 0 0 = 0 := by simpa using hc.2 0 (by simp)
        rw [this]; simp [coords]
      · exact .inl (h2 hv)
    · rw [ha.shape] at hx; simp at hx
  · obtain ⟨t', h1, h2, h3⟩ := key _ _ _ _ hG hS hg ha
    refine ⟨t', h1, ?_, fun _ => ?_⟩
    · by_cases hv : vol [n] = 1
      · have h4 := h3 hv
        obtain rfl : n = 1 := by simpa [vol] using hv
        refine .inr ⟨rfl, holds_congr h4 (fun c hc => ?_)⟩
        have : c.getD 0 0 = 0 := by simpa using hc.2 0 (by simp)
        rw [this]; simp [coords]
      · exact .inr ⟨rfl, h2 hv⟩
    · by_cases hv : vol [n] = 1
      · exact ⟨1, (h3 hv).shape⟩
      · exact ⟨n, (h2 hv).shape⟩

/-- Operators along axis 0, the right operand has a single element. -/
theorem batch_axial_scalar {T : Type} (e : Env T) (hm : ∀ n, e.fits n = true) (op : T → T → T) (s t : Tensor T) (n b : Nat)
    (f g : Nat → Nat → T) (hs : Batch s n b f) (ht : Batch t 1 1 g) :
    ∃ r, Op.forwardPass e (axialShaper 0 false) (binaryAxial op 0 false) none [some s, some t] = .ok r ∧
      Batch r n b (fun i j => op (f i j) (g 0 0)) := by
  have key : ∀ S F S' G, Holds s S F → Holds t S' G → vol S' = 1 → (∀ c, InRange S' c → G c = g 0 0) →
      ∃ r, Op.forwardPass e (axialShaper 0 false) (binaryAxial op 0 false) none [some s, some t] = .ok r ∧
        Holds r S (fun c => op (F c) (g 0 0)) := by
    intro S F S' G hF hG hv hg
    refine forwardPass_holds e _ _ [(s, S, F), (t, S', G)] (by simpa using ⟨hF, hG⟩) S _ ?_ hF.full (hm _) ?_
    · simp [axialShaper, Shape.nElems_eq hG.full.1, hv]
    · intro dest hd
      simp only [List.map_cons, List.map_nil, binaryAxial, Bool.false_eq_true, if_false]
      rw [if_pos (by rw [Shape.nElems_eq hG.full.1, hv])]
      refine fill_bufOf hF.full _ _ dest hd (fun i hi hc => ?_)
      have r0 := read_bufOf hG.full.2 G 0 (by rw [hv]; exact Nat.one_pos)
      have r1 := read_bufOf hF.full.2 F i hi
      rw [hg _ (Shape.coords_inRange hG.full.2 0)] at r0
      rw [r0, r1]
      rfl
  rcases hs with hs | ⟨rfl, hs⟩ <;> rcases ht with ht | ⟨_, ht⟩
  · obtain ⟨r, h1, h2⟩ := key _ _ _ _ hs ht (by simp [vol]) (fun c hc => by
      have h0 : c.getD 0 0 = 0 := by simpa using hc.2 0 (by simp)
      have h1 : c.getD 1 0 = 0 := by simpa using hc.2 1 (by simp)
      rw [h0, h1])
    exact ⟨r, h1, .inl h2⟩
  · obtain ⟨r, h1, h2⟩ := key _ _ _ _ hs ht (by simp [vol]) (fun c hc => by
      have h0 : c.getD 0 0 = 0 := by simpa using hc.2 0 (by simp)
      rw [h0])
    exact ⟨r, h1, .inl h2⟩
  · obtain ⟨r, h1, h2⟩ := key _ _ _ _ hs ht (by simp [vol]) (fun c hc => by
      have h0 : c.getD 0 0 = 0 := by simpa using hc.2 0 (by simp)
      have h1 : c.getD 1 0 = 0 := by simpa using hc.2 1 (by simp)
      rw [h0, h1])
    exact ⟨r, h1, .inr ⟨rfl, h2⟩⟩
  · obtain ⟨r, h1, h2⟩ := key _ _ _ _ hs ht (by simp [vol]) (fun c hc => by
      have h0 : c.getD 0 0 = 0 := by simpa using hc.2 0 (by simp)
      rw [h0])
    exact ⟨r, h1, .inr ⟨rfl, h2⟩⟩

/-- … one element for each column. -/
theorem batch_axial0 {T : Type} [Ring T] (e : Env T) (hm : ∀ n, e.fits n = true) (op : T → T → T) (s t : Tensor T) (n b : Nat)
    (f g : Nat → Nat → T) (hs : Batch s n b f) (ht : Batch t b 1 g) (hv : t.alloc = [b]) (hnb : n ≠ b) (hb : b ≠ 1) :
    ∃ r, Op.forwardPass e (axialShaper 0 false) (binaryAxial op 0 false) none [some s, some t] = .ok r ∧
      Batch r n b (fun i j => op (f i j) (g j 0)) := by
  rcases hs with hs | ⟨h, _⟩
  swap; · exact absurd h hb
  rcases ht with ht | ⟨_, ht⟩
  · rw [ht.shape] at hv; simp at hv
  have hred : reduceShape [n, b] 0 = [b] := by simp [reduceShape]
  obtain ⟨t', h3, h4⟩ := c54_axial_partial e op t s [n, b] 0 _ _ false (by simp) (by rw [hred]; exact ht) hs
    (fun _ => .inl hnb) (hm _)
  refine ⟨t', h3, .inl (holds_congr h4 (fun c hc => ?_))⟩
  obtain ⟨hl, _⟩ := hc
  match c, hl with
  | [i, j], _ => simp [reduceCoord]

end Verif.Props
