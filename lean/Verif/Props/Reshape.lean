import Verif.Props.Elementary
import Verif.Props.Matmul
/-!
# C72: an operation whose arguments change shape
-/
namespace Verif.Props
open Spec Op Tensor Elementary

variable {T : Type}

/-- A successful pass keeps the shape of an operation that holds data. -/
theorem c72_shape_fixed (e : Env T) (shaper : Shaper) (f : TransferFunc T) (t t' : Tensor T) (args : List (Option (Tensor T)))
    (ht : t.isAlloc = true) (h : forwardPass e shaper f (some t) args = .ok t') : t'.isAlloc = true ∧ t'.getShape = t.getShape := by
  unfold forwardPass at h
  rw [Outcome.bind_eq_ok] at h
  obtain ⟨ts, _, h⟩ := h
  rw [Outcome.bind_eq_ok] at h
  obtain ⟨s, _, h⟩ := h
  rw [Outcome.bind_eq_ok] at h
  obtain ⟨d, hd, h⟩ := h
  have hdt : d = t := by
    unfold prepareOut at hd
    simp only [ht, if_true] at hd
    split at hd
    · split at hd
      · cases hd
      · cases hd; rfl
    · cases hd; rfl
  subst hdt
  unfold transfer at h
  rw [Outcome.bind_eq_ok] at h
  obtain ⟨b, _, h⟩ := h
  rw [Outcome.bind_eq_ok] at h
  obtain ⟨bs, _, h⟩ := h
  rw [Outcome.bind_eq_ok] at h
  obtain ⟨r, _, h⟩ := h
  cases h
  have ha : (⟨some r, d.alloc, d.allowed⟩ : Tensor T).isAlloc = true := by
    obtain ⟨h1, _, h2⟩ := (Tensor.isAlloc_iff _).1 ht
    exact (Tensor.isAlloc_iff _).2 ⟨h1, r, rfl⟩
  refine ⟨ha, ?_⟩
  unfold getShape
  rw [if_pos ha, if_pos ht]

/-- The passes of one operation, each with the arguments of its time. -/
def passes (e : Env T) (shaper : Shaper) (f : TransferFunc T) : Tensor T → List (List (Option (Tensor T))) → Outcome (Tensor T)
  | t, [] => .ok t
  | t, a :: as => forwardPass e shaper f (some t) a >>= fun t => passes e shaper f t as

/-- The shape of an operation is the one of its first evaluation, for good. -/
theorem c72_shape_forever (e : Env T) (shaper : Shaper) (f : TransferFunc T) (first : List (Option (Tensor T)))
    (later : List (List (Option (Tensor T)))) (t t' : Tensor T) (h0 : forwardPass e shaper f none first = .ok t)
    (h : passes e shaper f t later = .ok t') : t.isAlloc = true ∧ t'.isAlloc = true ∧ t'.getShape = t.getShape := by
  have ht : t.isAlloc = true := by
    unfold forwardPass at h0
    rw [Outcome.bind_eq_ok] at h0
    obtain ⟨ts, _, h0⟩ := h0
    rw [Outcome.bind_eq_ok] at h0
    obtain ⟨s, _, h0⟩ := h0
    rw [Outcome.bind_eq_ok] at h0
    obtain ⟨d, _, h0⟩ := h0
    unfold transfer at h0
    rw [Outcome.bind_eq_ok] at h0
    obtain ⟨b, hb, h0⟩ := h0
    rw [Outcome.bind_eq_ok] at h0
    obtain ⟨bs, _, h0⟩ := h0
    rw [Outcome.bind_eq_ok] at h0
    obtain ⟨r, _, h0⟩ := h0
    cases h0
    unfold getRaw at hb
    have hal : d.isAlloc = true := by
      cases c : d.isAlloc with
      | true => rfl
      | false => rw [c] at hb; cases hb
    obtain ⟨h1, _, h2⟩ := (Tensor.isAlloc_iff _).1 hal
    exact (Tensor.isAlloc_iff _).2 ⟨h1, r, rfl⟩
  refine ⟨ht, ?_⟩
  clear h0
  induction later generalizing t with
  | nil => cases h; exact ⟨ht, rfl⟩
  | cons a as ih =>
    rw [passes, Outcome.bind_eq_ok] at h
    obtain ⟨u, h1, h2⟩ := h
    obtain ⟨h3, h4⟩ := c72_shape_fixed e shaper f t u a ht h1
    obtain ⟨h5, h6⟩ := ih u h2 h3
    exact ⟨h5, h6.trans h4⟩

/-- When the arguments have come to ask for a shape that is not compatible with the one held, evaluation throws. -/
theorem c72_incompatible_throws (e : Env T) (shaper : Shaper) (f : TransferFunc T) (t : Tensor T) (ts : List (Tensor T)) (s : Shape)
    (ht : t.isAlloc = true) (ha : ∀ a ∈ ts, a.isAlloc = true) (hs : shaper (ts.map Tensor.getShape) = .ok s) (hf : Full s)
    (hc : s.isCompatibleWith t.getShape = false) : forwardPass e shaper f (some t) (ts.map some) = .throw .runtimeError := by
  have h1 : Outcome.forM' (ts.map some) takeArg = .ok ts := by
    clear hs
    induction ts with
    | nil => rfl
    | cons a as ih =>
      have := ih (fun b hb => ha b (by simp [hb]))
      simp only [List.map_cons, Outcome.forM', takeArg, ha a (by simp), this, Outcome.ok_bind, Outcome.assert_true]
  unfold forwardPass
  rw [h1]
  simp only [Outcome.ok_bind, hs, prepareOut, (Shape.isFullyDefined_iff s).2 hf, ht, hc, if_true]
  rfl

/-- With a compatible shape (or one that is not fully defined) the operation computes into the tensor it has, under the
shape it has. -/
theorem c72_compatible_keeps (e : Env T) (shaper : Shaper) (f : TransferFunc T) (t : Tensor T) (ts : List (Tensor T)) (s : Shape)
    (ht : t.isAlloc = true) (ha : ∀ a ∈ ts, a.isAlloc = true) (hs : shaper (ts.map Tensor.getShape) = .ok s)
    (hc : Full s → s.isCompatibleWith t.getShape = true) : forwardPass e shaper f (some t) (ts.map some) = transfer f t ts := by
  have h1 : Outcome.forM' (ts.map some) takeArg = .ok ts := by
    clear hs
    induction ts with
    | nil => rfl
    | cons a as ih =>
      have := ih (fun b hb => ha b (by simp [hb]))
      simp only [List.map_cons, Outcome.forM', takeArg, ha a (by simp), this, Outcome.ok_bind, Outcome.assert_true]
  unfold forwardPass
  rw [h1]
  by_cases hf : Full s
  · simp only [Outcome.ok_bind, hs, prepareOut, (Shape.isFullyDefined_iff s).2 hf, ht, hc hf, if_true]
    rfl
  · have : s.isFullyDefined = false := by
      cases c : s.isFullyDefined with
      | false => rfl
      | true => exact absurd ((Shape.isFullyDefined_iff s).1 c) hf
    simp only [Outcome.ok_bind, hs, prepareOut, this]
    rfl

/-- Re-evaluating is evaluating: with the shape it holds, an operation whose kernel does not look at what the destination
held gives what it would give when evaluated for the first time. -/
theorem c72_reevaluation (e : Env T) (shaper : Shaper) (f : TransferFunc T) (t : Tensor T) (ts : List (Tensor T)) (s : Shape)
    (g : List Nat → T) (ht : Holds t s g) (hm : e.fits s.nElems = true) (ha : ∀ a ∈ ts, a.isAlloc = true)
    (hs : shaper (ts.map Tensor.getShape) = .ok s)
    (hk : ∀ (d d' : List T) srcs ss, d.length = vol s → d'.length = vol s → f d srcs s ss = f d' srcs s ss) :
    (forwardPass e shaper f (some t) (ts.map some) >>= fun r => .ok (r.getShape, r.raw)) =
      (forwardPass e shaper f none (ts.map some) >>= fun r => .ok (r.getShape, r.raw)) := by
  have h1 : Outcome.forM' (ts.map some) takeArg = .ok ts := by
    clear hs
    induction ts with
    | nil => rfl
    | cons a as ih =>
      have := ih (fun b hb => ha b (by simp [hb]))
      simp only [List.map_cons, Outcome.forM', takeArg, ha a (by simp), this, Outcome.ok_bind, Outcome.assert_true]
  rw [c72_compatible_keeps e shaper f t ts s (holds_isAlloc ht) ha hs (fun _ => by rw [holds_getShape ht]; exact Shape.compat_self s)]
  unfold forwardPass
  rw [h1]
  simp only [Outcome.ok_bind, hs, prepareOut, (Shape.isFullyDefined_iff s).2 ht.full, Outcome.assert_true]
  have hnew : Tensor.new e s = ⟨some ((List.range (vol s)).map e.junk), s, s⟩ := new_eq e ht.full hm
  have hal : (⟨some ((List.range (vol s)).map e.junk), s, s⟩ : Tensor T).isAlloc = true :=
    (Tensor.isAlloc_iff _).2 ⟨ht.full, _, rfl⟩
  rw [hnew]
  unfold transfer
  rw [holds_getRaw ht]
  have hgr : getRaw (⟨some ((List.range (vol s)).map e.junk), s, s⟩ : Tensor T) = .ok ((List.range (vol s)).map e.junk) := by
    simp only [getRaw, hal, Outcome.assert_true, Outcome.ok_bind]
  have hgs : (⟨some ((List.range (vol s)).map e.junk), s, s⟩ : Tensor T).getShape = s := by
    simp only [Tensor.getShape, hal, if_true]
  rw [hgr, hgs, holds_getShape ht]
  simp only [Outcome.ok_bind]
  cases hb : Outcome.forM' ts getRaw with
  | ok bs =>
    simp only [Outcome.ok_bind]
    rw [hk _ ((List.range (vol s)).map e.junk) bs _ (by simp) (by simp)]
    cases f ((List.range (vol s)).map e.junk) bs s (ts.map Tensor.getShape) with
    | ok r =>
      simp only [Outcome.ok_bind, Outcome.pure_eq]
      have a1 : ({ t with raw := some r } : Tensor T).isAlloc = true :=
        (Tensor.isAlloc_iff _).2 ⟨by rw [ht.shape]; exact ht.full, r, rfl⟩
      have a2 : (⟨some r, s, s⟩ : Tensor T).isAlloc = true := (Tensor.isAlloc_iff _).2 ⟨ht.full, r, rfl⟩
      have b1 : ({ t with raw := some r } : Tensor T).getShape = s := by
        unfold Tensor.getShape; rw [if_pos a1]; exact ht.shape
      have b2 : (⟨some r, s, s⟩ : Tensor T).getShape = s := by
        unfold Tensor.getShape; rw [if_pos a2]
      rw [b1, b2]
    | _ => rfl
  | _ => rfl

/-- A later pass with arguments that ask for a compatible shape. -/
theorem forwardPass_kept (e : Env T) (shaper : Shaper) (f : TransferFunc T) (t : Tensor T) (s0 : List Nat) (g0 g : List Nat → T)
    (ts : List (Tensor T × List Nat × (List Nat → T))) (h : ∀ x ∈ ts, Holds x.1 x.2.1 x.2.2) (out : Shape)
    (hshape : shaper (ts.map (·.2.1)) = .ok out) (ht : Holds t s0 g0) (hc : out.isCompatibleWith s0 = true)
    (hk : ∀ dest : List T, dest.length = vol s0 →
      f dest (ts.map (fun x => bufOf x.2.1 x.2.2)) s0 (ts.map (·.2.1)) = .ok (bufOf s0 g)) :
    ∃ t', forwardPass e shaper f (some t) (ts.map (fun x => some x.1)) = .ok t' ∧ Holds t' s0 g := by
  have hp : forwardPass e shaper f (some t) ((ts.map (·.1)).map some) = transfer f t (ts.map (·.1)) := by
    refine c72_compatible_keeps e shaper f t (ts.map (·.1)) out (holds_isAlloc ht) ?_ (by rw [map_getShape ts h]; exact hshape)
      (fun _ => by rw [holds_getShape ht]; exact hc)
    intro a ha
    obtain ⟨x, hx, rfl⟩ := List.mem_map.1 ha
    exact holds_isAlloc (h x hx)
  rw [List.map_map] at hp
  refine ⟨{ t with raw := some (bufOf s0 g) }, ?_, ht.full, ht.shape, bufOf s0 g, rfl, by simp [bufOf], fun c hcr => ?_⟩
  · refine Eq.trans hp ?_
    simp only [transfer, holds_getRaw ht, forM'_getRaw ts h, holds_getShape ht, map_getShape ts h, Outcome.ok_bind]
    rw [hk _ (by simp)]
    rfl
  · have hlt := Shape.flat_lt hcr
    simp [bufOf, hlt, Shape.coords_flat hcr]

/-- A unary element-wise operation that was evaluated with an argument of shape `s` and then gets one of shape `s'`. -/
theorem c72_unary (e : Env T) (op : T → T) (t a : Tensor T) (s s' : List Nat) (g fa : List Nat → T) (ht : Holds t s g)
    (ha : Holds a s' fa) (h1 : vol s' ≠ 1) :
    (Shape.isCompatibleWith s' s = false → forwardPass e elementaryShaper (unaryElem op) (some t) [some a] = .throw .runtimeError) ∧
    (Shape.isCompatibleWith s' s = true → ∃ t', forwardPass e elementaryShaper (unaryElem op) (some t) [some a] = .ok t' ∧
      Holds t' s (fun c => op (fa (coords s' (flat s c))))) := by
  have hs : elementaryShaper [s'] = .ok s' := by
    have := Shape.nElems_eq ha.full.1
    unfold elementaryShaper
    simp [shaperLoop, this, h1, (Shape.isFullyDefined_iff _).2 ha.full]
  constructor
  · intro hc
    exact c72_incompatible_throws e _ _ t [a] s' (holds_isAlloc ht) (by simpa using holds_isAlloc ha) (by simpa [holds_getShape ha] using hs)
      ha.full (by rw [holds_getShape ht]; exact hc)
  · intro hc
    have hv : vol s' = vol s := Shape.compat_full_vol ha.full ht.full hc
    refine forwardPass_kept e elementaryShaper (unaryElem op) t s g _ [(a, s', fa)] (by simpa using ha) s' (by simpa using hs) ht hc (fun dest hd => ?_)
    simp only [List.map_cons, List.map_nil, unaryElem]
    apply fill_bufOf ht.full _ _ _ hd
    intro i hi hr
    rw [read_bufOf ha.full.2 _ _ (by omega), Outcome.ok_bind, Shape.flat_coords ht.full.2 hi]
    rfl

open Finset Matmul in
/-- A product of matrices (a layer of a network, say) that was evaluated for a batch of `B` rows and gets a batch of `B'`
rows: with the same number of rows it is the product of the matrices held now, with any other it throws. -/
theorem c72_matmul_rows {R : Type} [Ring R] (e : Env R) (on : Bool) (t a b : Tensor R) (X Z B B' : Nat) (g fa fb : List Nat → R)
    (ht : Holds t [X, B] g) (ha : Holds a [Z, B'] fa) (hb : Holds b [X, Z] fb) :
    (B' ≠ B → forwardPass e shaper (kernel on e.junk) (some t) [some a, some b] = .throw .runtimeError) ∧
    (B' = B → ∃ t', forwardPass e shaper (kernel on e.junk) (some t) [some a, some b] = .ok t' ∧
      Holds t' [X, B] (fun c => ∑ z ∈ range Z, fa [z, c.getD 1 0] * fb [c.getD 0 0, z])) := by
  have hZ : 0 < Z := ha.full.2 Z (by simp)
  have hY : 0 < B' := ha.full.2 B' (by simp)
  have hX : 0 < X := hb.full.2 X (by simp)
  have hs : shaper [[Z, B'], [X, Z]] = .ok [X, B'] := by simp [shaper, beyond2d]
  have hf : Full [X, B'] := ⟨by simp, by simp [hX, hY]⟩
  constructor
  · intro hne
    refine c72_incompatible_throws e _ _ t [a, b] [X, B'] (holds_isAlloc ht) ?_ ?_ hf ?_
    · intro x hx
      simp only [List.mem_cons, List.not_mem_nil, or_false] at hx
      rcases hx with rfl | rfl
      exacts [holds_isAlloc ha, holds_isAlloc hb]
    · simp only [List.map_cons, List.map_nil, holds_getShape ha, holds_getShape hb]; exact hs
    · rw [holds_getShape ht]
      cases c : Shape.isCompatibleWith [X, B'] [X, B] with
      | false => rfl
      | true =>
        rcases (Shape.compat_full hf ht.full).1 c with ⟨_, h⟩ | ⟨h, _⟩
        · simp only [List.cons.injEq, and_true, true_and] at h; exact absurd h hne
        · simp at h
  · rintro rfl
    refine forwardPass_kept e shaper (kernel on e.junk) t [X, B'] g _ [(a, [Z, B'], fa), (b, [X, Z], fb)] ?_ [X, B'] hs ht (Shape.compat_self _) ?_
    · intro x hx
      simp only [List.mem_cons, List.not_mem_nil, or_false] at hx
      rcases hx with rfl | rfl
      exacts [ha, hb]
    · intro dest hd
      simp only [List.map_cons, List.map_nil]
      obtain ⟨d', h1, h2, h3⟩ := kernel_spec on e.junk X B' Z (vol []) (bufOf [Z, B'] fa)
        (bufOf [X, Z] fb) dest [X, B'] [Z, B'] [X, Z]
        (fun i z y => fa (z :: y :: coords [] i)) (fun i x z => fb (x :: z :: coords [] i)) hZ hY rfl rfl
        (by simp) (by rw [Shape.nElems_eq ha.full.1]; simp only [vol]; ring)
        (by rw [hd]; simp only [vol]; apply Nat.le_of_eq; ring)
        (fun i z y hi hz hy => bufOf_get_batch fa hi hz hy)
        (fun i x z hi hx hz => bufOf_get_batch fb hi hx hz)
      rw [h1]
      refine congrArg _ (eq_bufOf_batch hX hY (h2.trans hd) h3 ?_)
      intro i x y _ _ _
      simp [mmul, coords]

/-! Concrete cases: a unary operation evaluated for 2 elements. -/
example : forwardPass exEnv elementaryShaper (unaryElem (· + 1)) (some ⟨some [8, 9], [2], [2]⟩) [some ⟨some [1, 2, 3], [3], [3]⟩] =
    (.throw .runtimeError : Outcome (Tensor Nat)) := rfl
example : forwardPass exEnv elementaryShaper (unaryElem (· + 1)) (some ⟨some [8, 9], [2], [2]⟩) [some ⟨some [1, 2], [1, 2], [1, 2]⟩] =
    (.ok ⟨some [2, 3], [2], [2]⟩ : Outcome (Tensor Nat)) := rfl
example : passes exEnv elementaryShaper (unaryElem (· + 1)) ⟨some [8, 9], [2], [2]⟩
    [[some ⟨some [1, 2], [1, 2], [1, 2]⟩], [some ⟨some [5, 6], [2, 1], []⟩]] = (.ok ⟨some [6, 7], [2], [2]⟩ : Outcome (Tensor Nat)) := rfl

end Verif.Props
