import Verif.Spec.Fit
import Verif.Props.Transform
/-!
# C61: `fit(a, watch)` gives `a` the shape of `watch`
-/
namespace Verif.Props
open Spec Transform Op
variable {T : Type}

/-- Evaluation of `fit(a, watch)` on a fresh node. -/
def evalFit (e : Env T) (a watch : Tensor T) : Outcome (Tensor T) :=
  forwardPass e fitShaper (fitKernel e.zero) none [some a, some watch]

theorem within_cons {d c : Nat} {ds cs : List Nat} : Within (d :: ds) (c :: cs) ↔ c < d ∧ Within ds cs := by
  constructor
  · rintro ⟨h1, h2⟩
    refine ⟨by simpa using h1 0 (by simp), fun k hk => ?_, fun k hk => ?_⟩
    · simpa using h1 (k + 1) (by simpa using hk)
    · simpa using h2 (k + 1) (by simpa using hk)
  · rintro ⟨h0, h1, h2⟩
    refine ⟨fun k hk => ?_, fun k hk => ?_⟩
    · cases k with
      | zero => simpa using h0
      | succ k => simpa using h1 k (by simpa using hk)
    · cases k with
      | zero => simp at hk
      | succ k => simpa using h2 k (by simpa using hk)

theorem within_nil {c : List Nat} : Within [] c ↔ ∀ x ∈ c, x = 0 := by
  constructor
  · rintro ⟨-, h⟩ x hx
    obtain ⟨k, hk, rfl⟩ := List.getElem_of_mem hx
    have := h k (by simp)
    rwa [List.getD_eq_getElem?_getD, List.getElem?_eq_getElem hk] at this
  · intro h
    refine ⟨fun k hk => by simp at hk, fun k _ => ?_⟩
    rw [List.getD_eq_getElem?_getD]
    by_cases hk : k < c.length
    · rw [List.getElem?_eq_getElem hk]; exact h _ (List.getElem_mem hk)
    · rw [List.getElem?_eq_none (by omega)]; rfl

theorem within_nil_right {s : List Nat} (hs : ∀ d ∈ s, 0 < d) : Within s [] := by
  refine ⟨fun k hk => ?_, fun k _ => by simp⟩
  rw [List.getD_eq_getElem?_getD (l := s), List.getElem?_eq_getElem hk]
  simpa using hs _ (List.getElem_mem hk)

theorem fitInbound_iff (s : List Nat) (hs : ∀ d ∈ s, 0 < d) : ∀ c : List Nat,
    fitInbound (min s.length c.length) c s = true ↔ Within s c := by
  induction s with
  | nil => intro c; simp [fitInbound, within_nil]
  | cons d ds ih =>
    intro c
    cases c with
    | nil => simp [fitInbound, within_nil_right hs]
    | cons c cs =>
      rw [within_cons, ← ih (fun x hx => hs x (by simp [hx])) cs]
      simp only [List.length_cons, Nat.succ_min_succ, fitInbound, Bool.and_eq_true, decide_eq_true_eq]

theorem flat_onAxes (s : List Nat) : ∀ c : List Nat, flat s c = flat s (onAxes s c) := by
  induction s with
  | nil => intro c; rfl
  | cons d ds ih =>
    intro c
    have h1 : onAxes (d :: ds) c = c.getD 0 0 :: onAxes ds c.tail := by
      unfold onAxes
      rw [List.length_cons, List.range_succ_eq_map, List.map_cons, List.map_map]
      congr 1
      apply List.map_congr_left
      intro k _
      cases c <;> simp
    rw [h1]
    cases c with
    | nil =>
      have : ∀ l : List Nat, flat l (onAxes l []) = 0 := by
        intro l
        induction l with
        | nil => rfl
        | cons x xs ihx =>
          have : onAxes (x :: xs) [] = 0 :: onAxes xs [] := by
            rw [onAxes, List.length_cons, List.range_succ_eq_map]; simp [onAxes]
          rw [this]; simp [flat, ihx]
      simp only [List.tail_nil, flat, this]; simp
    | cons c cs => simp only [flat, List.tail_cons, List.getD_cons_zero, ← ih cs]

theorem onAxes_inRange {s c : List Nat} (h : Within s c) : InRange s (onAxes s c) := by
  refine ⟨by simp [onAxes], fun k hk => ?_⟩
  have : (onAxes s c).getD k 0 = c.getD k 0 := by
    rw [List.getD_eq_getElem?_getD, onAxes, List.getElem?_map, List.getElem?_range hk]; rfl
  rw [this]; exact h.1 k hk

open Classical in
/-- C61: for all ranks of `a` and `watch`, `fit(a, watch)` has exactly the shape of `watch`; its element
at a coordinate is `a`'s element at the same place when the coordinate lies in `a`'s box (axes `a`
has and `watch` lacks are read at 0, axes `watch` has and `a` lacks must be 0), and 0 outside. -/
theorem c61_fit (e : Env T) (a w : Tensor T) (s ws : List Nat) (f g : List Nat → T)
    (ha : Holds a s f) (hw : Holds w ws g) (hm : e.fits (Shape.nElems ws) = true) :
    ∃ t', evalFit e a w = .ok t' ∧
      Holds t' ws (fun c => if Within s c then f (onAxes s c) else e.zero) := by
  refine forwardPass_holds e fitShaper (fitKernel e.zero) [(a, s, f), (w, ws, g)]
    (by simpa using ⟨ha, hw⟩) ws _ rfl hw.full hm ?_
  intro dest hd
  simp only [List.map_cons, List.map_nil, fitKernel]
  apply fill_bufOf hw.full _ _ _ hd
  intro k hk hr
  rw [Shape.coordinateFromIdx_eq hw.full.2, Outcome.ok_bind]
  rw [← hr.1]
  by_cases hin : Within s (coords ws k)
  · rw [if_pos ((fitInbound_iff s ha.full.2 _).2 hin), if_pos hin]
    have hne : coords ws k ≠ [] := inRange_ne_nil hw.full.1 hr
    rw [Shape.flatIdx_eq _ _ ha.full.1 hne, Outcome.ok_bind, flat_onAxes]
    exact Op.read_bufOf_flat f (onAxes_inRange hin)
  · rw [if_neg (fun h => hin ((fitInbound_iff s ha.full.2 _).1 h)), if_neg hin]

/-- C61: fitting onto a tensor of the same shape changes nothing. -/
theorem c61_fit_same (e : Env T) (a w : Tensor T) (s : List Nat) (f g : List Nat → T)
    (ha : Holds a s f) (hw : Holds w s g) (hm : e.fits (Shape.nElems s) = true) :
    ∃ t', evalFit e a w = .ok t' ∧ Holds t' s f := by
  obtain ⟨t', h1, h2⟩ := c61_fit e a w s s f g ha hw hm
  refine ⟨t', h1, h2.full, h2.shape, ?_⟩
  obtain ⟨buf, hb, hl, hd⟩ := h2.data
  refine ⟨buf, hb, hl, fun c hc => ?_⟩
  rw [hd c hc]
  have hwin : Within s c := by
    refine ⟨hc.2, fun k hk => ?_⟩
    rw [List.getD_eq_getElem?_getD, List.getElem?_eq_none (by rw [hc.1]; exact hk)]; rfl
  have : onAxes s c = c := by
    apply ext_getD (by simp [onAxes, hc.1])
    intro k hk
    have hk' : k < s.length := by simpa [onAxes] using hk
    rw [List.getD_eq_getElem?_getD, onAxes, List.getElem?_map, List.getElem?_range hk']; rfl
  rw [if_pos hwin, this]

/-- A 2x3 tensor fitted onto a 3x2 one: the overlap is kept, the rest is 0. -/
example : ∃ t', evalFit tEnv t23 ⟨some [9, 9, 9, 9, 9, 9], [3, 2], [3, 2]⟩ = .ok t' ∧
    t'.alloc = [3, 2] ∧ t'.raw = some [0, 10, 0, 1, 11, 0] := ⟨_, rfl, by decide, by decide⟩
/-- ... onto a vector: the first column; onto rank 3: the first slice, zero elsewhere. -/
example : ∃ t', evalFit tEnv t23 ⟨some [9, 9, 9], [3], [3]⟩ = .ok t' ∧ t'.raw = some [0, 10, 0] :=
  ⟨_, rfl, by decide⟩
example : ∃ t', evalFit tEnv t23 ⟨some (List.replicate 8 9), [2, 2, 2], [2, 2, 2]⟩ = .ok t' ∧
    t'.raw = some [0, 10, 1, 11, 0, 0, 0, 0] := ⟨_, rfl, by decide⟩
example : Within [2, 3] [1, 2, 0] ∧ ¬ Within [2, 3] [1, 2, 1] ∧ onAxes [2, 3] [1] = [1, 0] :=
  ⟨within_cons.2 ⟨by decide, within_cons.2 ⟨by decide, within_nil.2 (by simp)⟩⟩,
   fun h => by have := h.2 2 (by decide); simp at this, rfl⟩

end Verif.Props
