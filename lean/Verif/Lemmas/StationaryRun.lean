import Verif.Lemmas.Stationary
/-!
# The code's chains with fair random numbers
-/
namespace Verif.Props
open Spec Backprop Finset MeasureTheory Markov
open scoped Classical

variable {Ω S : Type} [MeasurableSpace Ω] {P : Measure Ω} [Fintype S] [IsProbabilityMeasure P]

/-- The hidden units first drawn. -/
theorem half_fair (M : Boltzmann) {B : Nat} {X : Ω → S} {D : Ω → Nat → Draw} (f : FairDraws P X D) (inp : S → Nat → Nat → ℝ) :
    ∃ H : Ω → BitBatch M.m B,
      (∀ ω, IsBits (M.drawHidden (D ω 0) (inp (X ω))) (H ω)) ∧ FairDraws P H (fun ω t => D ω (t + 1)) ∧
      ∀ h, P.real {ω | H ω = h} = ∑ s, P.real {ω | X ω = s} * ∏ c : Fin B × Fin M.m, bern (M.hiddenOn (fun z => inp s z c.1) c.2) (h c.1 c.2) := by
  have ex : ∀ ω, ∃ h : BitBatch M.m B, IsBits (M.drawHidden (D ω 0) (inp (X ω))) h := fun ω =>
    exists_bits (B := B) (fun i j hi => drawHidden_bit M (D ω 0) (f.lawful ω 0) (inp (X ω)) i j hi)
  choose H hH using ex
  have key : ∀ (h : BitBatch M.m B) (ι : Type) [Fintype ι] (q : ι → Nat × Nat) (p : ι → ℝ) (b : ι → Bool),
      {ω | H ω = h ∧ ∀ a, D ω ((q a).1 + 1) (q a).2 1 (p a) = if b a then 1 else 0} =
      ⋃ s ∈ (univ : Finset S), {ω | X ω = s ∧ ∀ a : (Fin B × Fin M.m) ⊕ ι,
        D ω ((Sum.elim (fun c => ((0 : Nat), (c.2 + M.m * c.1 : Nat))) (fun a => ((q a).1 + 1, (q a).2)) a).1)
          ((Sum.elim (fun c => ((0 : Nat), (c.2 + M.m * c.1 : Nat))) (fun a => ((q a).1 + 1, (q a).2)) a).2) 1
          (Sum.elim (fun c => M.hiddenOn (fun z => inp s z c.1) c.2) p a) =
        if (Sum.elim (fun c => h c.1 c.2) b a) then 1 else 0} := by
    intro h ι _ q p b
    ext ω
    simp only [Set.mem_setOf_eq, Set.mem_iUnion, mem_univ, exists_prop, true_and, exists_eq_left', Sum.forall, Sum.elim_inl, Sum.elim_inr]
    have hv : IsBits (M.drawHidden (D ω 0) (inp (X ω))) h ↔
        ∀ c : Fin B × Fin M.m, D ω 0 (c.2 + M.m * c.1) 1 (M.hiddenOn (fun z => inp (X ω) z c.1) c.2) = if h c.1 c.2 then 1 else 0 := by
      unfold Boltzmann.drawHidden
      rw [sampled_isBits]
    constructor
    · rintro ⟨e, h3⟩
      exact ⟨hv.1 (e ▸ hH ω), h3⟩
    · rintro ⟨h1, h3⟩
      exact ⟨IsBits.unique (hH ω) (hv.2 h1), h3⟩
  have prob : ∀ (h : BitBatch M.m B) (ι : Type) [Fintype ι] (q : ι → Nat × Nat) (p : ι → ℝ) (b : ι → Bool),
      Function.Injective q → (∀ a, 0 ≤ p a ∧ p a ≤ 1) →
      P.real {ω | H ω = h ∧ ∀ a, D ω ((q a).1 + 1) (q a).2 1 (p a) = if b a then 1 else 0} =
      (∑ s, P.real {ω | X ω = s} * ∏ c : Fin B × Fin M.m, bern (M.hiddenOn (fun z => inp s z c.1) c.2) (h c.1 c.2)) *
        ∏ a, if b a then p a else 1 - p a := by
    intro h ι _ q p b hq hp
    rw [key h ι q p b, measureReal_biUnion_finset]
    · rw [sum_mul]
      refine sum_congr rfl (fun s _ => ?_)
      rw [f.fair s ((Fin B × Fin M.m) ⊕ ι)]
      · rw [Fintype.prod_sum_type]
        simp only [Sum.elim_inl, Sum.elim_inr]
        simp only [bern]
        rw [mul_assoc]
        congr!
      · rintro (a | a) (c | c) h
        · simp only [Sum.elim_inl, Prod.mk.injEq, true_and] at h
          rw [index_inj h]
        · simp at h
        · simp at h
        · simp only [Sum.elim_inr, Prod.mk.injEq, Nat.add_right_cancel_iff] at h
          rw [hq (Prod.ext h.1 h.2)]
      · rintro (a | a)
        · exact ⟨(hiddenOn_mem M _ a.2).1.le, (hiddenOn_mem M _ a.2).2.le⟩
        · exact hp a
    · intro s _ s' _ hne
      refine Set.disjoint_left.2 (fun ω h1 h2 => hne ?_)
      exact h1.1.symm.trans h2.1
    · intro s _
      exact event_meas f s _ _ _
  have law : ∀ h, P.real {ω | H ω = h} = ∑ s, P.real {ω | X ω = s} * ∏ c : Fin B × Fin M.m, bern (M.hiddenOn (fun z => inp s z c.1) c.2) (h c.1 c.2) := by
    intro h
    have law := prob h Empty (fun a => a.elim) (fun a => a.elim) (fun a => a.elim) (fun a => a.elim) (fun a => a.elim)
    simpa only [IsEmpty.forall_iff, and_true, univ_eq_empty, prod_empty, mul_one] using law
  refine ⟨H, hH, ⟨fun ω t => f.lawful ω (t + 1), fun h => ?_, fun t i p a => f.drawn (t + 1) i p a, fun h ι _ q p b hq hp => ?_⟩, law⟩
  · have := key h Empty (fun a => a.elim) (fun a => a.elim) (fun a => a.elim)
    have e : {ω | H ω = h} = {ω | H ω = h ∧ ∀ a : Empty, D ω ((a.elim : Nat × Nat).1 + 1) (a.elim : Nat × Nat).2 1 (a.elim : ℝ) = if (a.elim : Bool) then 1 else 0} := by
      ext ω; simp
    rw [e, this]
    exact Finset.measurableSet_biUnion _ (fun s _ => event_meas f s _ _ _)
  · rw [law]
    exact prob h ι q p b hq hp

theorem batch_unique {T : Type} {t : Tensor T} {n b : Nat} {f g : Nat → Nat → T} (h : Batch t n b f) (h' : Batch t n b g) (i j : Nat)
    (hi : i < n) (hj : j < b) : f i j = g i j := by
  obtain ⟨_, _, _, _, buf, h1, h2, h3⟩ := batch_elems h
  obtain ⟨_, _, _, _, buf', g1, g2, g3⟩ := batch_elems h'
  rw [h1] at g1
  injection g1 with g1
  subst g1
  have := (h3 i j hi hj).symm.trans (g3 i j hi hj)
  exact Option.some.inj this

theorem bitMatrix_of {k B : Nat} (b : BitBatch k B) (j : Fin B) (i : Fin k) : bitMatrix b i j = if b j i then 1 else 0 := by
  unfold bitMatrix ofBits
  simp

/-- What a tensor shows is what its numbers are. -/
theorem shows_iff {t : Tensor ℝ} {k B : Nat} {f : Nat → Nat → ℝ} (h : Batch t k B f) (b : BitBatch k B) : ShowsBits t b ↔ IsBits f b := by
  constructor
  · intro h' j i
    rw [batch_unique h h' i j i.2 j.2, bitMatrix_of]
  · intro h'
    refine batch_congr h (fun i j hi hj => ?_)
    have := h' ⟨j, hj⟩ ⟨i, hi⟩
    rw [this, ← bitMatrix_of b ⟨j, hj⟩ ⟨i, hi⟩]

theorem leaf_shows {ρ : Backprop.Leaf → Tensor ℝ} {shp : Backprop.Leaf → List Nat} {val : Backprop.Leaf → Nat → Nat → ℝ} (h : LeavesHold ρ shp val)
    {l : Backprop.Leaf} {k B : Nat} (hs : shp l = [k, B] ∨ (B = 1 ∧ shp l = [k])) : Batch (ρ l) k B (val l) := by
  have := h l
  rcases hs with e | ⟨hB, e⟩
  · rw [e] at this; exact .inl this
  · rw [e] at this
    refine .inr ⟨hB, holds_congr this (fun q hq => ?_)⟩
    obtain ⟨hl, _⟩ := hq
    match q, hl with
    | [i], _ => rfl

variable {M : Boltzmann} {B x c y : Nat} {r : RbmVars} {shp : Backprop.Leaf → List Nat} {D : Ω → Nat → Draw} {ρ : Ω → Backprop.Leaf → Tensor ℝ}

/-- The rounds of the code give the rounds on paper. -/
theorem rounds_run (env : Env ℝ) (hm : ∀ n, env.fits n = true) (on : Bool) (hcy : c ≠ y) (hxy : x ≠ y) (h : RbmFits r M.n M.m B x c shp)
    (hy : shp ⟨false, y⟩ = [M.m, B] ∨ (B = 1 ∧ shp ⟨false, y⟩ = [M.m])) {X : Ω → S} (f : FairDraws P X D) (hid : S → BitBatch M.m B)
    (hρ : ∀ ω, IsMachine M r shp (ρ ω)) (hX : ∀ ω, ShowsBits (ρ ω ⟨false, y⟩) (hid (X ω))) (k : Nat) :
    ∃ Y : Ω → BitBatch M.n B × BitBatch M.m B,
      (∀ ω, ∃ ρ', gibbsRounds env on r c y (k + 1) (D ω) (ρ ω) = .ok ρ' ∧ ShowsBits (ρ' ⟨false, c⟩) (Y ω).1 ∧ ShowsBits (ρ' ⟨false, y⟩) (Y ω).2) ∧
      ∀ y, P.real {ω | Y ω = y} = after (visibleGiven M) (hiddenGiven M) k
        (roundLaw (visibleGiven M) (hiddenGiven M) hid (fun s => P.real {ω | X ω = s})) y := by
  choose val hval hM using hρ
  have hb : ∀ ω, IsBits (val ω ⟨false, y⟩) (hid (X ω)) := fun ω => (shows_iff (leaf_shows (hval ω) hy) _).1 (hX ω)
  obtain ⟨Y, h1, h2, _⟩ := rounds_fair M k f hid (fun ω => val ω ⟨false, c⟩) (fun ω => val ω ⟨false, y⟩) hb
  refine ⟨Y, fun ω => ?_, h2⟩
  obtain ⟨ρ', shp', g1, g2, g3, g4, _⟩ := gibbs_rounds env hm on y hcy hxy (k + 1) (D ω) (ρ ω) shp (val ω) (hval ω) h hy
  rw [hM ω] at g2
  have ne3 : (⟨false, c⟩ : Backprop.Leaf) ≠ ⟨false, y⟩ := by intro hh; injection hh with _ hh; exact hcy hh
  refine ⟨ρ', g1, ?_, ?_⟩
  · refine (shows_iff (leaf_shows g2 g3.chain) _).2 ?_
    simp only [withChain, if_neg ne3, if_true]
    exact (h1 ω).1
  · refine (shows_iff (leaf_shows g2 g4) _).2 ?_
    simp only [withChain, if_true]
    exact (h1 ω).2

theorem shows_unique {t : Tensor ℝ} {k B : Nat} {b b' : BitBatch k B} (h : ShowsBits t b) (h' : ShowsBits t b') : b = b' :=
  IsBits.unique ((shows_iff h b).1 h) ((shows_iff h b').1 h')

/-- … as an event. -/
theorem run_event {R : Ω → Outcome (Backprop.Leaf → Tensor ℝ)} {k B l k' B' l' : Nat} {Y : Ω → BitBatch k B × BitBatch k' B'}
    (h : ∀ ω, ∃ ρ', R ω = .ok ρ' ∧ ShowsBits (ρ' ⟨false, l⟩) (Y ω).1 ∧ ShowsBits (ρ' ⟨false, l'⟩) (Y ω).2) (v : BitBatch k B) (w : BitBatch k' B') :
    {ω | ∃ ρ', R ω = .ok ρ' ∧ ShowsBits (ρ' ⟨false, l⟩) v ∧ ShowsBits (ρ' ⟨false, l'⟩) w} = {ω | Y ω = (v, w)} := by
  ext ω
  obtain ⟨ρ', h1, h2, h3⟩ := h ω
  constructor
  · rintro ⟨ρ'', g1, g2, g3⟩
    rw [h1] at g1
    injection g1 with g1
    subst g1
    exact Prod.ext (shows_unique h2 g2) (shows_unique h3 g3)
  · intro e
    replace e : Y ω = (v, w) := e
    rw [e] at h2 h3
    exact ⟨ρ', h1, h2, h3⟩

end Verif.Props
