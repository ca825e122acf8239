import Verif.Spec.Stationary
import Mathlib.Probability.ProductMeasure
import Mathlib.MeasureTheory.Constructions.UnitInterval
import Mathlib.MeasureTheory.Measure.Prod
/-!
# Fair random numbers exist, independent of a start with any law
-/
namespace Verif.Props
open Spec Finset MeasureTheory unitInterval
open scoped Classical

/-- Uniform numbers for every draw. -/
abbrev Uniforms := Nat × Nat → I

noncomputable def uniforms : Measure Uniforms := Measure.infinitePi (fun _ : Nat × Nat => (volume : Measure I))

instance : IsProbabilityMeasure uniforms := by unfold uniforms; infer_instance

/-- A draw from a uniform number. -/
noncomputable def uniformDraw (u : Uniforms) (t : Nat) : Draw := fun i k p => if (u (t, i) : ℝ) ≤ p ∧ p ≠ 0 then k else 0

theorem uniformDraw_lawful (u : Uniforms) (t : Nat) : LawfulDraw (uniformDraw u t) := by
  refine ⟨fun i n p _ _ => ?_, fun i n => ?_, fun i n => ?_⟩
  · unfold uniformDraw; split_ifs <;> simp
  · simp [uniformDraw]
  · have := (u (t, i)).2.2
    simp [uniformDraw, this]

/-- Uniform numbers for which a bit falls out in a given way. -/
def bitSet (p : ℝ) (b : Bool) : Set I := {u | (if (u : ℝ) ≤ p ∧ p ≠ 0 then 1 else 0 : Nat) = if b then 1 else 0}

theorem bitSet_true (p : ℝ) : bitSet p true = {u : I | (u : ℝ) ≤ p ∧ p ≠ 0} := by
  ext u
  show (if (u : ℝ) ≤ p ∧ p ≠ 0 then 1 else 0 : Nat) = (if true then 1 else 0) ↔ _
  by_cases h : (u : ℝ) ≤ p ∧ p ≠ 0
  · rw [if_pos h]; exact ⟨fun _ => h, fun _ => rfl⟩
  · rw [if_neg h]; exact ⟨fun e => by simp at e, fun e => absurd e h⟩

theorem bitSet_false (p : ℝ) : bitSet p false = (bitSet p true)ᶜ := by
  ext u
  rw [bitSet_true]
  show (if (u : ℝ) ≤ p ∧ p ≠ 0 then 1 else 0 : Nat) = (if false then 1 else 0) ↔ ¬ ((u : ℝ) ≤ p ∧ p ≠ 0)
  by_cases h : (u : ℝ) ≤ p ∧ p ≠ 0
  · rw [if_pos h]; exact ⟨fun e => by simp at e, fun e => absurd h e⟩
  · rw [if_neg h]; exact ⟨fun _ => h, fun _ => rfl⟩

theorem bitSet_meas (p : ℝ) (b : Bool) : MeasurableSet (bitSet p b) := by
  have h : MeasurableSet (bitSet p true) := by
    rw [bitSet_true]
    by_cases hp : p = 0
    · simp [hp]
    · simp only [ne_eq, hp, not_false_eq_true, and_true]
      exact measurableSet_le measurable_subtype_coe measurable_const
  cases b
  · rw [bitSet_false]; exact h.compl
  · exact h

theorem bitSet_volume (p : ℝ) (h0 : 0 ≤ p) (h1 : p ≤ 1) (b : Bool) : (volume : Measure I).real (bitSet p b) = if b then p else 1 - p := by
  have h : (volume : Measure I).real (bitSet p true) = p := by
    rw [bitSet_true]
    by_cases hp : p = 0
    · simp [hp]
    · have : {u : I | (u : ℝ) ≤ p ∧ p ≠ 0} = Set.Iic (⟨p, h0, h1⟩ : I) := by
        ext u
        simp only [ne_eq, hp, not_false_eq_true, and_true]
        rfl
      rw [this, Measure.real, unitInterval.volume_Iic, ENNReal.toReal_ofReal h0]
  cases b
  · rw [bitSet_false, probReal_compl_eq_one_sub (bitSet_meas p true), h]; rfl
  · exact h

theorem uniforms_fair {ι : Type} [Fintype ι] (q : ι → Nat × Nat) (p : ι → ℝ) (b : ι → Bool) (hq : Function.Injective q) (hp : ∀ x, 0 ≤ p x ∧ p x ≤ 1) :
    uniforms.real {u | ∀ x, uniformDraw u (q x).1 (q x).2 1 (p x) = if b x then 1 else 0} = ∏ x, if b x then p x else 1 - p x := by
  let T : Nat × Nat → Set I := fun a => if h : ∃ x, q x = a then bitSet (p h.choose) (b h.choose) else Set.univ
  have hT : ∀ x, T (q x) = bitSet (p x) (b x) := by
    intro x
    have hx : ∃ z, q z = q x := ⟨x, rfl⟩
    simp only [T, dif_pos hx]
    rw [hq hx.choose_spec]
  have e : {u : Uniforms | ∀ x, uniformDraw u (q x).1 (q x).2 1 (p x) = if b x then 1 else 0} = Set.pi ((univ.image q : Finset (Nat × Nat)) : Set (Nat × Nat)) T := by
    ext u
    rw [Set.mem_pi]
    constructor
    · intro h a ha
      obtain ⟨x, _, rfl⟩ := mem_image.1 (mem_coe.1 ha)
      rw [hT x]
      exact h x
    · intro h x
      have := h (q x) (mem_coe.2 (mem_image_of_mem q (mem_univ x)))
      rw [hT x] at this
      exact this
  rw [e, Measure.real, uniforms, Measure.infinitePi_pi _ (fun a ha => by
    obtain ⟨x, _, rfl⟩ := mem_image.1 ha
    rw [hT x]; exact bitSet_meas _ _)]
  rw [ENNReal.toReal_prod, prod_image (fun a _ c _ h => hq h)]
  refine prod_congr rfl (fun x _ => ?_)
  rw [hT x]
  exact bitSet_volume _ (hp x).1 (hp x).2 _

/-- Fair random numbers with a start of a given law. -/
theorem fair_exists {S : Type} [Fintype S] (w : S → ℝ) (h0 : ∀ s, 0 ≤ w s) (h1 : ∑ s, w s = 1) :
    ∃ (Ω : Type) (_ : MeasurableSpace Ω) (P : Measure Ω) (_ : IsProbabilityMeasure P) (X : Ω → S) (D : Ω → Nat → Draw),
      FairDraws P X D ∧ ∀ s, P.real {ω | X ω = s} = w s := by
  letI : MeasurableSpace S := ⊤
  let μ : Measure S := ∑ s, ENNReal.ofReal (w s) • Measure.dirac s
  have hμ : ∀ s, μ {s} = ENNReal.ofReal (w s) := by
    intro s
    simp only [μ, Measure.finsetSum_apply, Measure.smul_apply, smul_eq_mul]
    rw [sum_eq_single s]
    · simp
    · intro s' _ hne
      rw [Measure.dirac_apply' _ (show MeasurableSet ({s} : Set S) from trivial)]
      simp [hne]
    · simp
  have hone : μ Set.univ = 1 := by
    simp only [μ, Measure.finsetSum_apply, Measure.smul_apply, smul_eq_mul, measure_univ, mul_one]
    rw [← ENNReal.ofReal_sum_of_nonneg (fun s _ => h0 s), h1, ENNReal.ofReal_one]
  haveI : IsProbabilityMeasure μ := ⟨hone⟩
  have hX : ∀ s, (μ.prod uniforms).real {ω : S × Uniforms | ω.1 = s} = w s := by
    intro s
    have : {ω : S × Uniforms | ω.1 = s} = {s} ×ˢ Set.univ := by ext ω; simp
    rw [this, measureReal_prod_prod]
    simp [Measure.real, hμ, h0 s]
  refine ⟨S × Uniforms, inferInstance, μ.prod uniforms, inferInstance, Prod.fst, fun ω => uniformDraw ω.2,
    ⟨fun ω t => uniformDraw_lawful ω.2 t, fun s => ?_, fun t i p a => ?_, fun s ι _ q p b hq hp => ?_⟩, hX⟩
  · have : {ω : S × Uniforms | ω.1 = s} = {s} ×ˢ Set.univ := by ext ω; simp
    rw [this]
    exact MeasurableSet.prod trivial .univ
  · have hm : Measurable (fun ω : S × Uniforms => ω.2 (t, i)) := (measurable_pi_apply (t, i)).comp measurable_snd
    by_cases ha : ∃ b : Bool, a = if b then 1 else 0
    · obtain ⟨b, rfl⟩ := ha
      exact hm (bitSet_meas p b)
    · have : {ω : S × Uniforms | uniformDraw ω.2 t i 1 p = a} = ∅ := by
        ext ω
        simp only [Set.mem_empty_iff_false, iff_false]
        intro h
        replace h : uniformDraw ω.2 t i 1 p = a := h
        unfold uniformDraw at h
        split_ifs at h
        · exact ha ⟨true, h.symm⟩
        · exact ha ⟨false, h.symm⟩
      rw [this]
      exact .empty
  · have : {ω : S × Uniforms | ω.1 = s ∧ ∀ x, uniformDraw ω.2 (q x).1 (q x).2 1 (p x) = if b x then 1 else 0} =
        {s} ×ˢ {u | ∀ x, uniformDraw u (q x).1 (q x).2 1 (p x) = if b x then 1 else 0} := by
      ext ω
      exact Iff.rfl
    have g := measureReal_prod_prod (μ := μ) (ν := uniforms) {s} {u | ∀ x, uniformDraw u (q x).1 (q x).2 1 (p x) = if b x then 1 else 0}
    rw [this, g, uniforms_fair q p b hq hp, hX s]
    simp [Measure.real, hμ, h0 s]

end Verif.Props
