import Verif.Props.Leaf
import Verif.Spec.Tensor
import Mathlib.Tactic.SplitIfs
/-!
# C41: `const_axis`
-/
namespace Verif.Props
open Verif.Spec Verif.Tensor Verif.Leaf

variable {T : Type}

theorem axisLoop_ok (dim idx : Nat) (scalar : T) (calls : List (List Nat × Nat)) : ∀ data : List T, (∀ p ∈ calls, dim < p.1.length ∧ p.2 < data.length) →
    ∃ r, axisLoop dim idx scalar calls data = .ok r ∧ r.length = data.length ∧
      ∀ i : Nat, r[i]? = if ∃ p ∈ calls, p.2 = i ∧ p.1[dim]? = some idx then some scalar else data[i]? := by
  induction calls with
  | nil => intro data _; exact ⟨data, rfl, rfl, fun i => by simp⟩
  | cons p calls ih =>
    intro data h
    obtain ⟨coord, j⟩ := p
    obtain ⟨h1, h2⟩ := h (coord, j) (by simp)
    have hlen : (if coord[dim] = idx then data.set j scalar else data).length = data.length := by split_ifs <;> simp
    obtain ⟨r, r1, r2, r3⟩ := ih (if coord[dim] = idx then data.set j scalar else data) (fun p hp => by rw [hlen]; exact h p (by simp [hp]))
    refine ⟨r, ?_, r2.trans hlen, fun i => ?_⟩
    · rw [axisLoop, List.getElem?_eq_getElem h1]; exact r1
    · rw [r3 i]
      by_cases hc : ∃ p ∈ calls, p.2 = i ∧ p.1[dim]? = some idx
      · rw [if_pos hc, if_pos (by obtain ⟨p, hp, hq⟩ := hc; exact ⟨p, by simp [hp], hq⟩)]
      · rw [if_neg hc]
        by_cases hk : coord[dim] = idx
        · rw [if_pos hk]
          by_cases hi : j = i
          · subst hi
            rw [if_pos ⟨(coord, j), by simp, rfl, by rw [List.getElem?_eq_getElem h1]; simp [hk]⟩]
            simp [h2]
          · rw [if_neg]
            · rw [List.getElem?_set_ne hi]
            · rintro ⟨p, hp, hq⟩
              rcases List.mem_cons.1 hp with rfl | hp
              · exact hi hq.1
              · exact hc ⟨p, hp, hq⟩
        · rw [if_neg hk, if_neg]
          rintro ⟨p, hp, hq⟩
          rcases List.mem_cons.1 hp with rfl | hp
          · rw [List.getElem?_eq_getElem h1] at hq
            exact hk (by simpa using hq.2)
          · exact hc ⟨p, hp, hq⟩

/-- `const_axis`: a constant of the shape given, with the scalar where the coordinate along the axis is the index, and
zeros elsewhere. -/
theorem c41_const_axis (e : Env T) (hmem : ∀ n, e.fits n = true) (dim idx : Nat) (scalar : T) (shape : Shape) (hf : Full shape)
    (hd : dim < shape.length) :
    ∃ l, constAxis e dim idx scalar shape = .ok l ∧ l.eval = some l.data ∧
      Holds l.data shape (fun c => if c[dim]? = some idx then scalar else e.zero) := by
  have hn : shape.nElems = vol shape := Shape.nElems_eq hf.1
  obtain ⟨r, r1, r2, r3⟩ := axisLoop_ok dim idx scalar ((List.range (vol shape)).map (fun i => (Spec.coords shape i, i)))
    (List.replicate shape.nElems e.zero) (by
      intro p hp
      obtain ⟨i, hi, rfl⟩ := List.mem_map.1 hp
      have hi' := List.mem_range.1 hi
      refine ⟨?_, by simpa [hn] using hi'⟩
      have := (Shape.coords_inRange hf.2 i).1
      rw [this]; exact hd)
  obtain ⟨l, buf, h1, h2, h3, h4, h5, h6, h7, _⟩ := c41_constant e r shape hf.1 hmem
  have hs : l.data.alloc = shape := by
    refine List.ext_getElem h5.1 (fun i hi hi' => ?_)
    have hg := h5.2 i hi'
    have hp := hf.2 shape[i] (List.getElem_mem hi')
    simp only [List.getD_eq_getElem?_getD, List.getElem?_eq_getElem hi', List.getElem?_eq_getElem hi, Option.getD_some] at hg
    omega
  refine ⟨l, ?_, h2, hf, hs, buf, h3, by rw [h6, hs], fun c hc => ?_⟩
  · unfold constAxis
    rw [Shape.iterate_eq hf, Outcome.ok_bind, r1, Outcome.ok_bind, h1]
  · have hlt : Spec.flat shape c < vol shape := Shape.flat_lt hc
    rw [h7 _ (by rw [h6, hs]; exact hlt), r3]
    have hiff : (∃ p ∈ (List.range (vol shape)).map (fun i => (Spec.coords shape i, i)), p.2 = Spec.flat shape c ∧ p.1[dim]? = some idx) ↔ c[dim]? = some idx := by
      constructor
      · rintro ⟨p, hp, hq1, hq2⟩
        obtain ⟨i, hi, rfl⟩ := List.mem_map.1 hp
        dsimp only at hq1 hq2
        rw [hq1, Shape.coords_flat hc] at hq2
        exact hq2
      · intro h
        exact ⟨(Spec.coords shape (Spec.flat shape c), Spec.flat shape c), List.mem_map.2 ⟨_, List.mem_range.2 hlt, rfl⟩, rfl, by rw [Shape.coords_flat hc]; exact h⟩
    by_cases h : c[dim]? = some idx
    · rw [if_pos (hiff.2 h), if_pos h]; rfl
    · rw [if_neg (fun h' => h (hiff.1 h')), if_neg h, List.getElem?_replicate, if_pos (by rw [hn]; exact hlt)]; rfl

/-- An axis the shape does not have: undefined behaviour. -/
theorem c41_const_axis_ub (e : Env T) (dim idx : Nat) (scalar : T) (shape : Shape) (hf : Full shape) (hd : shape.length ≤ dim) :
    constAxis e dim idx scalar shape = .ub := by
  have hv : 0 < vol shape := Shape.vol_pos hf.2
  unfold constAxis
  rw [Shape.iterate_eq hf, Outcome.ok_bind]
  obtain ⟨k, hk⟩ : ∃ k, vol shape = k + 1 := ⟨vol shape - 1, by omega⟩
  rw [hk, List.range_succ_eq_map]
  have h0 := (Shape.coords_inRange hf.2 0).1
  have : (Spec.coords shape 0)[dim]? = none := List.getElem?_eq_none (by rw [h0]; exact hd)
  simp only [List.map_cons, axisLoop, this]
  rfl

example : ∃ l, constAxis exEnv 0 1 7 [2, 3] = .ok l ∧ l.data.raw = some [0, 7, 0, 7, 0, 7] ∧ l.data.alloc = [2, 3] := ⟨_, rfl, rfl, rfl⟩

end Verif.Props
