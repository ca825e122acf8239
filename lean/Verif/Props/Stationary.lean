import Verif.Lemmas.StationaryRun
import Verif.Lemmas.FairDraws
/-!
# C86: the sampling chain leaves the machine's distribution as it is, and brings any start to it
-/
namespace Verif.Props
open Spec Backprop Finset MeasureTheory Markov
open scoped Classical

variable {Ω S : Type} [MeasurableSpace Ω] {P : Measure Ω} [Fintype S] [IsProbabilityMeasure P]
variable {M : Boltzmann} {B x c y s : Nat} {r : RbmVars} {shp : Backprop.Leaf → List Nat} {D : Ω → Nat → Draw} {ρ : Ω → Backprop.Leaf → Tensor ℝ}

/-- The distribution is one. -/
theorem c86_law (M : Boltzmann) (B : Nat) :
    (∀ (v : BitBatch M.n B) (h : BitBatch M.m B), 0 < M.law v h) ∧ (∑ v : BitBatch M.n B, ∑ h : BitBatch M.m B, M.law v h) = 1 ∧
    ∀ (v : BitBatch M.n B) (h : BitBatch M.m B),
      M.law v h = (∑ h', M.law v h') * ∏ j, ∏ i : Fin M.m, (if h j i then M.hiddenOn (ofBits (v j)) i else 1 - M.hiddenOn (ofBits (v j)) i) ∧
      M.law v h = M.hiddenLaw h * ∏ j, ∏ z : Fin M.n, (if v j z then M.visibleOn (ofBits (h j)) z else 1 - M.visibleOn (ofBits (h j)) z) := by
  have C := conditionals M B
  refine ⟨fun v h => prod_pos (fun j _ => div_pos (Real.exp_pos _) (partition_pos M)), C.total, fun v h => ⟨?_, ?_⟩⟩
  · have := (C.right v h).symm
    simpa only [hiddenGiven, bern] using this
  · have := (C.left v h).symm
    simpa only [visibleGiven, bern, Boltzmann.hiddenLaw] using this

/-- Rounds of the chain, from hidden units with the machine's distribution, never fail and give visible and hidden units
with the machine's distribution, however many rounds. -/
theorem c86_stationary (env : Env ℝ) (hm : ∀ n, env.fits n = true) (on : Bool) (hcy : c ≠ y) (hxy : x ≠ y) (h : RbmFits r M.n M.m B x c shp)
    (hy : shp ⟨false, y⟩ = [M.m, B] ∨ (B = 1 ∧ shp ⟨false, y⟩ = [M.m])) {X : Ω → BitBatch M.m B} (f : FairDraws P X D)
    (hρ : ∀ ω, IsMachine M r shp (ρ ω)) (hX : ∀ ω, ShowsBits (ρ ω ⟨false, y⟩) (X ω)) (hlaw : ∀ u, P.real {ω | X ω = u} = M.hiddenLaw u)
    (k : Nat) (hk : k ≠ 0) (v : BitBatch M.n B) (u : BitBatch M.m B) :
    P.real {ω | ∃ ρ', gibbsRounds env on r c y k (D ω) (ρ ω) = .ok ρ' ∧ ShowsBits (ρ' ⟨false, c⟩) v ∧ ShowsBits (ρ' ⟨false, y⟩) u} = M.law v u := by
  obtain ⟨k, rfl⟩ := Nat.exists_eq_succ_of_ne_zero hk
  obtain ⟨Y, h1, h2⟩ := rounds_run env hm on hcy hxy h hy f id hρ hX k
  rw [run_event h1, h2]
  have C := conditionals M B
  refine after_stationary C k _ (fun v h => round_stationary C id _ (fun h => ?_) v h) v u
  simp only [hlaw, id]
  rw [sum_ite_eq' univ h]
  simp [Boltzmann.hiddenLaw]

/-- From hidden units with any distribution, the distribution after `k + 1` rounds is nearer to the machine's than
`2 * (1 - δ) ^ k`, for a positive `δ` that depends on nothing but the machine and the size of the batch. -/
theorem c86_converges (M : Boltzmann) (B : Nat) : ∃ δ : ℝ, 0 < δ ∧ δ ≤ 1 ∧
    ∀ {Ω S : Type} [MeasurableSpace Ω] {P : Measure Ω} [Fintype S] [IsProbabilityMeasure P] {x c y : Nat} {r : RbmVars} {shp : Backprop.Leaf → List Nat}
      {D : Ω → Nat → Draw} {ρ : Ω → Backprop.Leaf → Tensor ℝ} (env : Env ℝ) (_ : ∀ n, env.fits n = true) (on : Bool) (_ : c ≠ y) (_ : x ≠ y)
      (_ : RbmFits r M.n M.m B x c shp) (_ : shp ⟨false, y⟩ = [M.m, B] ∨ (B = 1 ∧ shp ⟨false, y⟩ = [M.m])) {X : Ω → BitBatch M.m B}
      (_ : FairDraws P X D) (_ : ∀ ω, IsMachine M r shp (ρ ω)) (_ : ∀ ω, ShowsBits (ρ ω ⟨false, y⟩) (X ω)) (k : Nat) (v : BitBatch M.n B) (u : BitBatch M.m B),
    |P.real {ω | ∃ ρ', gibbsRounds env on r c y (k + 1) (D ω) (ρ ω) = .ok ρ' ∧ ShowsBits (ρ' ⟨false, c⟩) v ∧ ShowsBits (ρ' ⟨false, y⟩) u} - M.law v u| ≤
      2 * (1 - δ) ^ k := by
  have C := conditionals M B
  obtain ⟨δ, d0, d1, hδ⟩ := minor C
  refine ⟨δ, d0, d1, ?_⟩
  intro Ω S _ P _ _ x c y r shp D ρ env hm on hcy hxy h hy X f hρ hX k v u
  obtain ⟨Y, h1, h2⟩ := rounds_run env hm on hcy hxy h hy f id hρ hX k
  rw [run_event h1, h2]
  exact after_close C d1 hδ k _ (fun x => round_nonneg C id _ (fun s => measureReal_nonneg) x)
    (by rw [round_total C]; exact law_total f.seen) (v, u)

/-- The chain of contrastive divergence, that starts from hidden units drawn given the input, whatever the inputs and
with whatever probabilities they are picked: the same bound. -/
theorem c86_contrastive (M : Boltzmann) (B : Nat) : ∃ δ : ℝ, 0 < δ ∧ δ ≤ 1 ∧
    ∀ {Ω S : Type} [MeasurableSpace Ω] {P : Measure Ω} [Fintype S] [IsProbabilityMeasure P] {x c y : Nat} {r : RbmVars} {shp : Backprop.Leaf → List Nat}
      {D : Ω → Nat → Draw} {ρ : S → Backprop.Leaf → Tensor ℝ} (env : Env ℝ) (_ : ∀ n, env.fits n = true) (on : Bool) (_ : c ≠ y) (_ : x ≠ y)
      (_ : RbmFits r M.n M.m B x c shp) {X : Ω → S}
      (_ : FairDraws P X D) (_ : ∀ a, IsMachine M r shp (ρ a)) (k : Nat) (v : BitBatch M.n B) (u : BitBatch M.m B),
    |P.real {ω | ∃ ρ', gibbsChain env on r x c y (k + 1) (D ω) (ρ (X ω)) = .ok ρ' ∧ ShowsBits (ρ' ⟨false, c⟩) v ∧ ShowsBits (ρ' ⟨false, y⟩) u} - M.law v u| ≤
      2 * (1 - δ) ^ k := by
  have C := conditionals M B
  obtain ⟨δ, d0, d1, hδ⟩ := minor C
  refine ⟨δ, d0, d1, ?_⟩
  intro Ω S _ P _ _ x c y r shp D ρ env hm on hcy hxy h X f hρ k v u
  choose val hval hM using hρ
  obtain ⟨H, e1, e2, _⟩ := half_fair M (B := B) f (fun a => val a ⟨false, x⟩)
  obtain ⟨Y, h1, h2, _⟩ := rounds_fair M k e2 id (fun ω => val (X ω) ⟨false, c⟩) (fun ω => M.drawHidden (D ω 0) (val (X ω) ⟨false, x⟩)) e1
  have ne3 : (⟨false, c⟩ : Backprop.Leaf) ≠ ⟨false, y⟩ := by intro hh; injection hh with _ hh; exact hcy hh
  have h3 : ∀ ω, ∃ ρ', gibbsChain env on r x c y (k + 1) (D ω) (ρ (X ω)) = .ok ρ' ∧ ShowsBits (ρ' ⟨false, c⟩) (Y ω).1 ∧ ShowsBits (ρ' ⟨false, y⟩) (Y ω).2 := by
    intro ω
    obtain ⟨ρ', shp', g1, g2, g3, _, g4, _⟩ := c69_chain env hm on (ρ (X ω)) (hval (X ω)) h y hcy hxy (k + 1) (D ω)
    have hc : cdChain r M.n M.m x c (k + 1) (D ω) (val (X ω)) =
        M.gibbs (k + 1) (fun t => D ω (t + 1)) (val (X ω) ⟨false, c⟩, M.drawHidden (D ω 0) (val (X ω) ⟨false, x⟩)) := by
      unfold cdChain
      rw [hM (X ω)]
    rw [hc] at g2
    refine ⟨ρ', g1, ?_, ?_⟩
    · refine (shows_iff (leaf_shows g2 g3.chain) _).2 ?_
      simp only [withChain, if_neg ne3, if_true]
      exact (h1 ω).1
    · refine (shows_iff (leaf_shows g2 g4) _).2 ?_
      simp only [withChain, if_true]
      exact (h1 ω).2
  rw [run_event h3, h2]
  exact after_close C d1 hδ k _ (fun x => round_nonneg C id _ (fun s => measureReal_nonneg) x)
    (by rw [round_total C]; exact law_total e2.seen) (v, u)

/-- … so that for ever longer chains the probability of any outcome tends to the machine's. -/
theorem c86_limit (env : Env ℝ) (hm : ∀ n, env.fits n = true) (on : Bool) (hcy : c ≠ y) (hxy : x ≠ y) (h : RbmFits r M.n M.m B x c shp)
    {X : Ω → S} (f : FairDraws P X D) (σ : S → Backprop.Leaf → Tensor ℝ) (hσ : ∀ a, IsMachine M r shp (σ a)) (v : BitBatch M.n B) (u : BitBatch M.m B) :
    Filter.Tendsto (fun k => P.real {ω | ∃ ρ', gibbsChain env on r x c y k (D ω) (σ (X ω)) = .ok ρ' ∧ ShowsBits (ρ' ⟨false, c⟩) v ∧ ShowsBits (ρ' ⟨false, y⟩) u})
      Filter.atTop (nhds (M.law v u)) := by
  obtain ⟨δ, d0, d1, hb⟩ := c86_contrastive M B
  rw [← Filter.tendsto_add_atTop_iff_nat 1, tendsto_iff_dist_tendsto_zero]
  refine squeeze_zero (fun _ => dist_nonneg) (fun k => hb env hm on hcy hxy h f hσ k v u) ?_
  have := (tendsto_pow_atTop_nhds_zero_of_lt_one (r := 1 - δ) (by linarith) (by linarith)).const_mul 2
  simpa using this

/-- A call of the trainer with a persistent state that has the distribution of the machine's hidden units leaves in it,
for every input, learning rate and number of rounds, hidden units with the distribution of the machine as it was before
the call. -/
theorem c86_persistent (env : Env ℝ) (hm : ∀ n, env.fits n = true) (hz : env.zero = 0) (on : Bool) (lr : ℝ) (hcy : c ≠ y) (hxy : x ≠ y)
    (h : RbmFits r M.n M.m B x c shp) (hs : shp ⟨true, s⟩ = [M.m, B]) (hv : s ≠ r.w ∧ s ≠ r.hb ∧ s ≠ r.vb) {X : Ω → BitBatch M.m B} (f : FairDraws P X D)
    (hρ : ∀ ω, IsMachine M r shp (ρ ω)) (hX : ∀ ω, ShowsBits (ρ ω ⟨true, s⟩) (X ω)) (hlaw : ∀ u, P.real {ω | X ω = u} = M.hiddenLaw u)
    (k : Nat) (hk : k ≠ 0) (u : BitBatch M.m B) :
    P.real {ω | ∃ ρ', rbmPcd env on lr r x c y s k (D ω) (ρ ω) = .ok ρ' ∧ ShowsBits (ρ' ⟨true, s⟩) u} = M.hiddenLaw u := by
  choose val hval hM using hρ
  have hb : ∀ ω, IsBits (val ω ⟨true, s⟩) (X ω) := fun ω => (shows_iff (leaf_shows (hval ω) (.inl hs)) _).1 (hX ω)
  obtain ⟨k', rfl⟩ := Nat.exists_eq_succ_of_ne_zero hk
  obtain ⟨Y, h1, h2, hmeas⟩ := rounds_fair M k' f id (fun ω => val ω ⟨false, c⟩) (fun ω => val ω ⟨true, s⟩) hb
  have C := conditionals M B
  have h3 : ∀ v u, P.real {ω | Y ω = (v, u)} = M.law v u := by
    intro v u
    rw [h2]
    refine after_stationary C k' _ (fun v h => round_stationary C id _ (fun h => ?_) v h) v u
    simp only [hlaw, id]
    rw [sum_ite_eq' univ h]
    simp [Boltzmann.hiddenLaw]
  have h4 : {ω | ∃ ρ', rbmPcd env on lr r x c y s (k' + 1) (D ω) (ρ ω) = .ok ρ' ∧ ShowsBits (ρ' ⟨true, s⟩) u} = ⋃ v ∈ (univ : Finset (BitBatch M.n B)), {ω | Y ω = (v, u)} := by
    ext ω
    obtain ⟨ρ', shp', val', g1, g2, g3, g4, g5⟩ := c69_persistent env hm hz on lr (ρ ω) (hval ω) h y s hcy hxy hs hv (k' + 1) hk (D ω)
    have g6 := g5.state
    rw [hM ω] at g6
    have g7 : ShowsBits (ρ' ⟨true, s⟩) (Y ω).2 := by
      refine (shows_iff (leaf_shows g2 (.inl g4)) _).2 ?_
      rw [g6]
      exact (h1 ω).2
    simp only [Set.mem_iUnion, mem_univ, exists_prop, true_and]
    constructor
    · rintro ⟨ρ'', a1, a2⟩
      rw [g1] at a1
      injection a1 with a1
      subst a1
      exact ⟨(Y ω).1, Prod.ext rfl (shows_unique g7 a2)⟩
    · rintro ⟨v, e⟩
      replace e : Y ω = (v, u) := e
      rw [e] at g7
      exact ⟨ρ', g1, g7⟩
  rw [h4, measureReal_biUnion_finset]
  · simp only [h3]; rfl
  · intro v _ v' _ hne
    refine Set.disjoint_left.2 (fun ω a1 a2 => hne ?_)
    exact (Prod.mk.inj (Eq.trans (Eq.symm a1) a2)).1
  · exact fun v _ => hmeas _

/-- Fair random numbers and a start with the machine's distribution exist, for a machine with 3 visible and 2 hidden
units and batches of 4, together with tensors the code can run on. -/
example : ∃ (Ω : Type) (_ : MeasurableSpace Ω) (P : Measure Ω) (_ : IsProbabilityMeasure P) (M : Boltzmann) (r : RbmVars) (shp : Backprop.Leaf → List Nat)
    (X : Ω → BitBatch M.m 4) (D : Ω → Nat → Draw) (ρ : Ω → Backprop.Leaf → Tensor ℝ), M.n = 3 ∧ M.m = 2 ∧ RbmFits r M.n M.m 4 0 1 shp ∧
    shp ⟨false, 2⟩ = [M.m, 4] ∧ shp ⟨true, 3⟩ = [M.m, 4] ∧ FairDraws P X D ∧ (∀ ω, IsMachine M r shp (ρ ω)) ∧ (∀ ω, ShowsBits (ρ ω ⟨false, 2⟩) (X ω)) ∧
    (∀ ω, ShowsBits (ρ ω ⟨true, 3⟩) (X ω)) ∧ ∀ u, P.real {ω | X ω = u} = M.hiddenLaw u := by
  let M : Boltzmann := ⟨3, 2, fun i z => (i : ℝ) - z, fun i => i, fun z => 2 - z⟩
  let shp : Backprop.Leaf → List Nat := fun l =>
    if l = ⟨true, 0⟩ then [2, 3] else if l = ⟨true, 1⟩ then [2] else if l = ⟨true, 2⟩ then [3] else
    if l = ⟨true, 3⟩ then [2, 4] else if l = ⟨false, 2⟩ then [2, 4] else [3, 4]
  have hs : ∀ l, Full (shp l) := by
    intro l
    simp only [shp]
    split_ifs <;> exact ⟨by simp, by simp⟩
  let val : BitBatch 2 4 → Backprop.Leaf → Nat → Nat → ℝ := fun b l i j =>
    if l = ⟨true, 0⟩ then (i : ℝ) - j else if l = ⟨true, 1⟩ then i else if l = ⟨true, 2⟩ then 2 - i else
    if l = ⟨true, 3⟩ then bitMatrix b i j else if l = ⟨false, 2⟩ then bitMatrix b i j else 0
  obtain ⟨Ω, _, P, _, X, D, f, hX⟩ := fair_exists (S := BitBatch M.m 4) (fun u => M.hiddenLaw u)
    (fun u => sum_nonneg (fun v _ => ((c86_law M 4).1 v u).le)) (by
      have := (c86_law M 4).2.1
      rw [sum_comm] at this
      exact this)
  choose ρ hρ using fun (ω : Ω) (l : Backprop.Leaf) => full_tensor (shp l) (hs l) (fun c => val (X ω) l (c.getD 0 0) (c.getD 1 0))
  refine ⟨Ω, _, P, ‹_›, M, ⟨0, 1, 2⟩, shp, X, D, ρ, rfl, rfl, ⟨by decide, rfl, rfl, rfl, .inl rfl, .inl rfl, by decide, by decide⟩, rfl, rfl, f,
    fun ω => ⟨val (X ω), hρ ω, rfl⟩, fun ω => .inl (hρ ω ⟨false, 2⟩), fun ω => .inl (hρ ω ⟨true, 3⟩), hX⟩

end Verif.Props
