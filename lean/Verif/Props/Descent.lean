import Verif.Props.GdStep
import Mathlib.Analysis.Calculus.FDeriv.Pi
import Mathlib.Analysis.Calculus.Deriv.Pi
import Mathlib.Analysis.SpecialFunctions.ExpDeriv
import Mathlib.Analysis.Calculus.Deriv.MeanValue
/-!
# C65, continued: small steps of gradient descent reduce the error
-/
namespace Verif.Props
open Spec Backprop Finset
open scoped Classical

variable {shp : Backprop.Leaf → List Nat} {val : Backprop.Leaf → Nat → Nat → ℝ} {v : Nat}

theorem actFn_differentiable (a : ActFn) : Differentiable ℝ (actFn a) := by
  cases a with
  | identity => exact differentiable_id
  | sigmoid =>
    show Differentiable ℝ (fun x => 1 / (1 + Real.exp (-x)))
    refine Differentiable.div (by fun_prop) (by fun_prop) (fun x => ?_)
    have := Real.exp_pos (-x)
    linarith
  | tanh =>
    show Differentiable ℝ (fun x => Real.tanh x)
    have : (fun x => Real.tanh x) = fun x => Real.sinh x / Real.cosh x := by funext x; exact Real.tanh_eq_sinh_div_cosh x
    rw [this]
    exact Differentiable.div (by fun_prop) (by fun_prop) (fun x => (Real.cosh_pos x).ne')

theorem feed_differentiable {E : Type} [NormedAddCommGroup E] [NormedSpace ℝ E] (V : E → Backprop.Leaf → Nat → Nat → ℝ)
    (hV : ∀ l i j, Differentiable ℝ (fun x => V x l i j)) (ls : List NetLayer) : ∀ (n : Nat) (X : E → Nat → ℝ),
    (∀ z, Differentiable ℝ (fun x => X x z)) → ∀ i, Differentiable ℝ (fun x => feed (netSpec (V x) ls) n (X x) i) := by
  induction ls with
  | nil => intro n X hX i; exact hX i
  | cons l ls ih =>
    intro n X hX i
    refine ih l.out (fun x i => actFn l.act ((∑ z ∈ range n, X x z * V x ⟨true, l.w⟩ i z) + V x ⟨true, l.bias⟩ i 0)) (fun z => ?_) i
    refine (actFn_differentiable l.act).comp ?_
    exact (Differentiable.fun_sum fun k _ => (hX k).mul (hV _ _ _)).add (hV _ _ _)

theorem error_differentiable {E : Type} [NormedAddCommGroup E] [NormedSpace ℝ E] (S : Setup) (V : E → Backprop.Leaf → Nat → Nat → ℝ)
    (hV : ∀ l i j, Differentiable ℝ (fun x => V x l i j)) : Differentiable ℝ (fun x => S.error (V x)) := by
  have hw : ∀ x, width (netSpec (V x) S.ls) S.n = netOut S.n S.ls := fun x => netOut_width (V x) S.ls S.n
  unfold Setup.error sqError
  simp only [hw]
  refine Differentiable.fun_sum fun i _ => Differentiable.fun_sum fun j _ => ?_
  exact ((hV _ _ _).sub (feed_differentiable V hV S.ls S.n _ (fun z => hV _ _ _) i)).pow 2

/-- The error depends only on the entries of the parameters. -/
theorem feed_congr {a b : Backprop.Leaf → Nat → Nat → ℝ} (ls : List NetLayer) : ∀ (n : Nat) (X Y : Nat → ℝ), NetShapes shp n ls →
    (∀ v ∈ params ls, ∀ p q, IsEntry shp v p q → a ⟨true, v⟩ p q = b ⟨true, v⟩ p q) → (∀ i, i < n → X i = Y i) →
    ∀ i, i < netOut n ls → feed (netSpec a ls) n X i = feed (netSpec b ls) n Y i := by
  induction ls with
  | nil => intro n X Y _ _ h i hi; exact h i hi
  | cons l ls ih =>
    intro n X Y hs hv hX i hi
    obtain ⟨h1, h2, h3, h4⟩ := hs
    have hp : params (l :: ls) = l.w :: l.bias :: params ls := by simp [params]
    refine ih l.out _ _ h4 (fun v hv' => hv v (by rw [hp]; simp [hv'])) (fun k hk => ?_) i hi
    have e1 : ∀ z, z < n → a ⟨true, l.w⟩ k z = b ⟨true, l.w⟩ k z := fun z hz =>
      hv l.w (by rw [hp]; simp) k z (by unfold IsEntry; rw [h2]; exact ⟨hk, hz⟩)
    have e2 : a ⟨true, l.bias⟩ k 0 = b ⟨true, l.bias⟩ k 0 := hv l.bias (by rw [hp]; simp) k 0 (by unfold IsEntry; rw [h3]; exact ⟨hk, by simp [leafSize]⟩)
    show actFn l.act ((∑ z ∈ range n, X z * a ⟨true, l.w⟩ k z) + a ⟨true, l.bias⟩ k 0) = actFn l.act ((∑ z ∈ range n, Y z * b ⟨true, l.w⟩ k z) + b ⟨true, l.bias⟩ k 0)
    rw [e2, sum_congr rfl (fun z hz => by rw [hX z (mem_range.1 hz), e1 z (mem_range.1 hz)])]

theorem error_congr {a b : Backprop.Leaf → Nat → Nat → ℝ} (S : Setup) (hS : S.Fits shp)
    (hv : ∀ v ∈ params S.ls, ∀ p q, IsEntry shp v p q → a ⟨true, v⟩ p q = b ⟨true, v⟩ p q)
    (hf : ∀ z, a ⟨false, z⟩ = b ⟨false, z⟩) : S.error a = S.error b := by
  unfold Setup.error sqError
  rw [netOut_width, netOut_width, hf, hf]
  exact sum_congr rfl fun i hi => sum_congr rfl fun j _ => by
    rw [feed_congr S.ls S.n _ (fun z => b ⟨false, S.x⟩ z j) hS.net hv (fun _ _ => rfl) i (mem_range.1 hi)]

/-- The entries of the parameters. -/
noncomputable def entries (shp : Backprop.Leaf → List Nat) (ls : List NetLayer) : Finset (Nat × Nat × Nat) :=
  (params ls).toFinset.biUnion fun v => (range (leafSize (shp ⟨true, v⟩)).1 ×ˢ range (leafSize (shp ⟨true, v⟩)).2).image fun p => (v, p.1, p.2)

theorem mem_entries {ls : List NetLayer} {v p q : Nat} : (v, p, q) ∈ entries shp ls ↔ v ∈ params ls ∧ IsEntry shp v p q := by
  unfold entries IsEntry
  simp only [mem_biUnion, List.mem_toFinset, mem_image, mem_product, mem_range, Prod.mk.injEq, Prod.exists]
  constructor
  · rintro ⟨u, h1, a, b, h2, rfl, rfl, rfl⟩; exact ⟨h1, h2⟩
  · rintro ⟨h1, h2⟩; exact ⟨v, h1, p, q, h2, rfl, rfl, rfl⟩

/-- The values with the entries of the parameters replaced. -/
noncomputable def withEntries (K : Finset (Nat × Nat × Nat)) (val : Backprop.Leaf → Nat → Nat → ℝ) (x : K → ℝ) : Backprop.Leaf → Nat → Nat → ℝ :=
  fun l i j => if h : l.trainable = true ∧ (l.id, i, j) ∈ K then x ⟨(l.id, i, j), h.2⟩ else val l i j

theorem withEntries_differentiable (K : Finset (Nat × Nat × Nat)) (l : Backprop.Leaf) (i j : Nat) :
    Differentiable ℝ (fun x => withEntries K val x l i j) := by
  unfold withEntries
  by_cases h : l.trainable = true ∧ (l.id, i, j) ∈ K
  · simp only [dif_pos h]; fun_prop
  · simp only [dif_neg h]; fun_prop

/-- The current entries. -/
def entriesOf (K : Finset (Nat × Nat × Nat)) (val : Backprop.Leaf → Nat → Nat → ℝ) (k : K) : ℝ := val ⟨true, k.1.1⟩ k.1.2.1 k.1.2.2

theorem withEntries_update (K : Finset (Nat × Nat × Nat)) (k : K) (s : ℝ) :
    withEntries K val (Function.update (entriesOf K val) k s) = setAt val k.1.1 k.1.2.1 k.1.2.2 s := by
  obtain ⟨⟨v, p, q⟩, hk⟩ := k
  funext l i j
  obtain ⟨t, w⟩ := l
  unfold withEntries setAt entriesOf
  by_cases h : t = true ∧ (w, i, j) ∈ K
  · rw [dif_pos h]
    obtain ⟨rfl, h⟩ := h
    by_cases he : (w, i, j) = (v, p, q)
    · simp only [Prod.mk.injEq] at he
      obtain ⟨rfl, rfl, rfl⟩ := he
      simp
    · have : (⟨(w, i, j), h⟩ : K) ≠ ⟨(v, p, q), hk⟩ := by simpa using he
      rw [Function.update_of_ne this]
      rw [if_neg]
      rintro ⟨h1, h2, h3⟩
      simp only [Backprop.Leaf.mk.injEq, true_and] at h1
      exact he (by rw [h1, h2, h3])
  · rw [dif_neg h]
    rw [if_neg]
    rintro ⟨h1, rfl, rfl⟩
    simp only [Backprop.Leaf.mk.injEq] at h1
    exact h ⟨h1.1, h1.2 ▸ hk⟩

/-- A function with negative derivative at zero is smaller just after. -/
theorem decreases_of_deriv {h : ℝ → ℝ} {m : ℝ} (hd : HasDerivAt h m 0) (hm : m < 0) : ∃ r > 0, ∀ s, 0 < s → s < r → h s < h 0 := by
  have h1 := hd.tendsto_slope_zero
  simp only [zero_add] at h1
  have h2 : ∀ᶠ t in nhdsWithin (0 : ℝ) {0}ᶜ, t⁻¹ • (h t - h 0) < 0 := h1.eventually_lt_const hm
  rw [eventually_nhdsWithin_iff, Metric.eventually_nhds_iff] at h2
  obtain ⟨r, hr, h3⟩ := h2
  refine ⟨r, hr, fun s hs hsr => ?_⟩
  have h4 := h3 (y := s) (by simpa [abs_of_pos hs] using hsr) (by simp [hs.ne'])
  rw [smul_eq_mul] at h4
  have h5 : 0 < s⁻¹ := inv_pos.2 hs
  by_contra hc
  push Not at hc
  have := mul_nonneg h5.le (sub_nonneg.2 hc)
  linarith

/-- On paper: unless every partial derivative is zero, every small enough step of gradient descent reduces the error. -/
theorem step_decreases (S : Setup) (hS : S.Fits shp)
    (hd : ∃ v ∈ params S.ls, ∃ p q, IsEntry shp v p q ∧ ¬HasDerivAt (fun s => S.error (setAt val v p q s)) 0 (val ⟨true, v⟩ p q)) :
    ∃ r > 0, ∀ lr, 0 < lr → lr < r → ∀ val', S.Step shp lr val val' → S.error val' < S.error val := by
  set K := entries shp S.ls with hK
  set F : (K → ℝ) → ℝ := fun x => S.error (withEntries K val x) with hF
  have hdiff : Differentiable ℝ F := error_differentiable S _ (fun l i j => withEntries_differentiable K l i j)
  set x₀ := entriesOf K val with hx₀
  have hfd := (hdiff x₀).hasFDerivAt
  set F' := fderiv ℝ F x₀ with hF'
  let D : K → ℝ := fun k => F' (Pi.single k 1)
  have hpart : ∀ k : K, HasDerivAt (fun s => S.error (setAt val k.1.1 k.1.2.1 k.1.2.2 s)) (D k) (val ⟨true, k.1.1⟩ k.1.2.1 k.1.2.2) := by
    intro k
    have h1 : HasDerivAt (fun s => Function.update x₀ k s) (Pi.single k (1 : ℝ)) (x₀ k) := hasDerivAt_update x₀ k (x₀ k)
    have h2 : HasFDerivAt F F' (Function.update x₀ k (x₀ k)) := by rw [Function.update_eq_self]; exact hfd
    have h3 := h2.comp_hasDerivAt (x₀ k) h1
    refine h3.congr_of_eventuallyEq (Filter.Eventually.of_forall fun s => ?_)
    show _ = S.error (withEntries K val (Function.update x₀ k s))
    rw [withEntries_update]
  have hsum : F' D = ∑ k, D k ^ 2 := by
    have : D = ∑ k, D k • (Pi.single k (1 : ℝ) : K → ℝ) := by
      funext i
      simp [Finset.sum_apply, Pi.single_apply]
    conv_lhs => rw [this, map_sum]
    exact sum_congr rfl fun k _ => by rw [map_smul, smul_eq_mul, sq]
  have hpath : HasDerivAt (fun s : ℝ => F (x₀ - s • D)) (-(∑ k, D k ^ 2)) 0 := by
    have h1 : HasDerivAt (fun s : ℝ => x₀ - s • D) (-D) 0 := by
      have := ((hasDerivAt_id (0 : ℝ)).smul_const D).const_sub x₀
      simpa using this
    have h2 : HasFDerivAt F F' (x₀ - (0 : ℝ) • D) := by rw [zero_smul, sub_zero]; exact hfd
    have h3 := h2.comp_hasDerivAt (0 : ℝ) h1
    rw [map_neg, hsum] at h3
    exact h3
  have hneg : -(∑ k, D k ^ 2) < 0 := by
    obtain ⟨v, hv, p, q, hpq, hne⟩ := hd
    have hm : (v, p, q) ∈ K := mem_entries.2 ⟨hv, hpq⟩
    have hDk : D ⟨(v, p, q), hm⟩ ≠ 0 := by
      intro h0
      have := hpart ⟨(v, p, q), hm⟩
      rw [h0] at this
      exact hne this
    have : 0 < ∑ k, D k ^ 2 := sum_pos' (fun k _ => sq_nonneg _) ⟨⟨(v, p, q), hm⟩, mem_univ _, by positivity⟩
    linarith
  obtain ⟨r, hr, hdec⟩ := decreases_of_deriv hpath hneg
  refine ⟨r, hr, fun lr h0 h1 val' hstep => ?_⟩
  have h2 := hdec lr h0 h1
  have e1 : S.error val' = F (x₀ - lr • D) := by
    refine error_congr S hS (fun v hv p q hpq => ?_) (fun z => ?_)
    · have hm : (v, p, q) ∈ K := mem_entries.2 ⟨hv, hpq⟩
      obtain ⟨D', h3, h4⟩ := hstep.moved v hv p q hpq
      rw [h4, h3.unique (hpart ⟨(v, p, q), hm⟩)]
      unfold withEntries
      rw [dif_pos ⟨rfl, hm⟩]
      rfl
    · rw [hstep.kept ⟨false, z⟩ (fun v _ h => by injection h with h _; cases h)]
      funext i j
      unfold withEntries
      rw [dif_neg (by simp)]
  have e2 : S.error val = F (x₀ - (0 : ℝ) • D) := by
    refine error_congr S hS (fun v hv p q hpq => ?_) (fun z => ?_)
    · have hm : (v, p, q) ∈ K := mem_entries.2 ⟨hv, hpq⟩
      unfold withEntries
      rw [dif_pos ⟨rfl, hm⟩, zero_smul, sub_zero]
      rfl
    · funext i j
      unfold withEntries
      rw [dif_neg (by simp)]
  rw [e1, e2]
  exact h2

/-- Unless every partial derivative is zero, the updates of `gd_net::train` reduce the squared error of the sample for
every small enough positive learning rate. -/
theorem c65_decreases (env : Env ℝ) (hm : ∀ n, env.fits n = true) (hz : env.zero = 0) (on : Bool) (S : Setup) (hS : S.Fits shp)
    (ρ : Backprop.Leaf → Tensor ℝ) (hρ : LeavesHold ρ shp val) (e : Term)
    (he : gdError S.ls (.leaf ⟨false, S.x⟩) (.leaf ⟨false, S.y⟩) = .ok e) (vs : List Nat) (hvs : Trains vs e)
    (hd : ∃ v ∈ params S.ls, ∃ p q, IsEntry shp v p q ∧ ¬HasDerivAt (fun s => S.error (setAt val v p q s)) 0 (val ⟨true, v⟩ p q)) :
    ∃ r > 0, ∀ lr, 0 < lr → lr < r → ∃ ρ' val', updateAll env on lr e ρ vs ρ = .ok ρ' ∧ LeavesHold ρ' shp val' ∧ S.error val' < S.error val := by
  obtain ⟨r, hr, h⟩ := step_decreases S hS hd
  refine ⟨r, hr, fun lr h0 h1 => ?_⟩
  obtain ⟨ρ', val', a, b, c⟩ := c65_step env hm hz on lr S hS ρ hρ e he vs hvs
  exact ⟨ρ', val', a, b, h lr h0 h1 val' c⟩

/-- At a stationary point the updates change no parameter. -/
theorem c65_stationary (env : Env ℝ) (hm : ∀ n, env.fits n = true) (hz : env.zero = 0) (on : Bool) (lr : ℝ) (S : Setup) (hS : S.Fits shp)
    (ρ : Backprop.Leaf → Tensor ℝ) (hρ : LeavesHold ρ shp val) (e : Term)
    (he : gdError S.ls (.leaf ⟨false, S.x⟩) (.leaf ⟨false, S.y⟩) = .ok e) (vs : List Nat) (hvs : Trains vs e)
    (hd : ∀ v ∈ params S.ls, ∀ p q, IsEntry shp v p q → HasDerivAt (fun s => S.error (setAt val v p q s)) 0 (val ⟨true, v⟩ p q)) :
    ∃ ρ' val', updateAll env on lr e ρ vs ρ = .ok ρ' ∧ LeavesHold ρ' shp val' ∧
      ∀ v ∈ params S.ls, ∀ p q, IsEntry shp v p q → val' ⟨true, v⟩ p q = val ⟨true, v⟩ p q := by
  obtain ⟨ρ', val', a, b, c⟩ := c65_step env hm hz on lr S hS ρ hρ e he vs hvs
  refine ⟨ρ', val', a, b, fun v hv p q hpq => ?_⟩
  obtain ⟨D, h1, h2⟩ := c.moved v hv p q hpq
  rw [h2, h1.unique (hd v hv p q hpq), mul_zero, sub_zero]

/-- What is trained: exactly the weights and biases of the network, in any order. -/
theorem c65_trained (S : Setup) (hS : S.Fits shp) : ∃ e, gdError S.ls (.leaf ⟨false, S.x⟩) (.leaf ⟨false, S.y⟩) = .ok e ∧
    ∀ vs, Trains vs e ↔ vs.Perm (params S.ls) := by
  have tx : Typed shp (.leaf ⟨false, S.x⟩) := ⟨S.n, S.B, hS.pos.1, hS.pos.2, hS.input⟩
  have dx : dims shp (.leaf ⟨false, S.x⟩) = (S.n, S.B) := by
    rcases hS.input with h | ⟨hB, h⟩ <;> simp only [dims, h, leafSize]
    rw [hB]
  obtain ⟨out, p1, _⟩ := propUp_den (shp := shp) S.ls (.leaf ⟨false, S.x⟩) S.n S.B tx dx hS.net
  have he : gdError S.ls (.leaf ⟨false, S.x⟩) (.leaf ⟨false, S.y⟩) =
      .ok (mul (sub (.leaf ⟨false, S.y⟩) out) (sub (.leaf ⟨false, S.y⟩) out)) := by
    unfold gdError; rw [p1, Outcome.ok_bind]
  refine ⟨_, he, fun vs => ⟨fun h => ?_, fun h => ⟨h.nodup_iff.2 hS.nodup, fun v => ?_⟩⟩⟩
  · exact (List.perm_ext_iff_of_nodup h.1 hS.nodup).2 fun v => (h.2 v).trans (error_vars S hS he v).symm
  · exact h.mem_iff.trans (error_vars S hS he v)

/-- Two layers, batches of two: the hypotheses of `c65_step` and `c65_train` can be met. -/
example : ∃ (S : Setup) (shp : Backprop.Leaf → List Nat) (ρ : Backprop.Leaf → Tensor ℝ) (val : Backprop.Leaf → Nat → Nat → ℝ) (e : Term)
    (vs : List Nat) (ss : List (List ℝ × List ℝ)), S.Fits shp ∧ LeavesHold ρ shp val ∧
    gdError S.ls (.leaf ⟨false, S.x⟩) (.leaf ⟨false, S.y⟩) = .ok e ∧ Trains vs e ∧ vs.length = 4 ∧ ss.length = 3 ∧ ∀ s ∈ ss, Sized S s := by
  let ls : List NetLayer := [⟨0, 1, 3, .sigmoid⟩, ⟨2, 3, 1, .tanh⟩]
  let shp : Backprop.Leaf → List Nat := fun l =>
    if l = ⟨false, 0⟩ then [2, 2] else if l = ⟨false, 1⟩ then [1, 2] else if l = ⟨true, 0⟩ then [3, 2]
    else if l = ⟨true, 1⟩ then [3] else if l = ⟨true, 2⟩ then [1, 3] else [1]
  have hs : ∀ l, Full (shp l) := by
    intro l
    simp only [shp]
    split_ifs <;> exact ⟨by simp, by simp⟩
  choose ρ hρ using fun l => full_tensor (shp l) (hs l) (fun c => (c.getD 0 0 : ℝ) + 2 * c.getD 1 0)
  let S : Setup := ⟨ls, 0, 1, 2, 2⟩
  have hS : S.Fits shp := ⟨.inl rfl, .inl rfl, ⟨by decide, by decide⟩, by decide, ⟨by decide, rfl, rfl, by decide, rfl, rfl, trivial⟩, by decide⟩
  obtain ⟨e, he, ht⟩ := c65_trained S hS
  refine ⟨S, shp, ρ, fun _ i j => (i : ℝ) + 2 * j, e, [3, 2, 1, 0], List.replicate 3 ([1, 2, 3, 4], [0, 1]), hS, hρ, he, ?_, rfl, rfl, ?_⟩
  · exact (ht _).2 (by decide)
  · intro s hs
    rw [List.eq_of_mem_replicate hs]
    exact ⟨rfl, rfl⟩

/-- A point that is not stationary, for `c65_decreases`: one unit that computes `x * w + b` with all values one. -/
example : ∃ (S : Setup) (shp : Backprop.Leaf → List Nat) (val : Backprop.Leaf → Nat → Nat → ℝ), S.Fits shp ∧
    ∃ v ∈ params S.ls, ∃ p q, IsEntry shp v p q ∧ ¬HasDerivAt (fun s => S.error (setAt val v p q s)) 0 (val ⟨true, v⟩ p q) := by
  let shp : Backprop.Leaf → List Nat := fun l => if l = ⟨true, 1⟩ then [1] else [1, 1]
  refine ⟨⟨[⟨0, 1, 1, .identity⟩], 0, 1, 1, 1⟩, shp, fun _ _ _ => 1,
    ⟨.inl rfl, .inl rfl, ⟨by decide, by decide⟩, by decide, ⟨by decide, rfl, rfl, trivial⟩, by decide⟩, 1, by decide, 0, 0, ⟨by decide, by decide⟩, fun h => ?_⟩
  have e : (fun s => Setup.error ⟨[⟨0, 1, 1, .identity⟩], 0, 1, 1, 1⟩ (setAt (fun _ _ _ => (1 : ℝ)) 1 0 0 s)) = fun s : ℝ => (-s) ^ 2 := by
    funext s
    simp [Setup.error, sqError, netSpec, width, feed, actFn, setAt]
  rw [e] at h
  have h2 : HasDerivAt (fun s : ℝ => (-s) ^ 2) 2 1 := by
    have := ((hasDerivAt_id (1 : ℝ)).neg).pow 2
    refine (this.congr_deriv ?_)
    norm_num
  exact two_ne_zero (h2.unique h)

end Verif.Props
