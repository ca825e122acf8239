import Verif.Props.Rbm
import Verif.Spec.Gibbs
/-!
# C69: binomial sampling and the Gibbs chains of restricted Boltzmann machines
-/
namespace Verif.Props
open Spec Backprop Finset Sampling Op Elementary
open scoped Classical
variable {shp : Backprop.Leaf → List Nat} {val : Backprop.Leaf → Nat → Nat → ℝ}
variable {r : RbmVars} {n m B x c : Nat}

theorem coords_zero (s : List Nat) : coords s 0 = List.replicate s.length 0 := by
  induction s with
  | nil => rfl
  | cons d ds ih => simp [coords, ih, List.replicate_succ]

/-- The shape of the result: the argument's, or `[1]` for a single element. -/
theorem sample_shape {s : List Nat} (hs : Full s) :
    ∃ o, elementaryShaper [s] = .ok o ∧ Full o ∧ vol o = vol s ∧ ((vol s ≠ 1 ∧ o = s) ∨ (vol s = 1 ∧ o = [1])) := by
  by_cases h1 : vol s = 1
  · refine ⟨[1], ?_, by decide, by rw [h1]; rfl, .inr ⟨h1, rfl⟩⟩
    unfold elementaryShaper
    simp [shaperLoop, Shape.nElems_eq hs.1, h1, Shape.isFullyDefined]
  · refine ⟨s, ?_, hs, rfl, .inl ⟨h1, rfl⟩⟩
    unfold elementaryShaper
    simp [shaperLoop, Shape.nElems_eq hs.1, h1, (Shape.isFullyDefined_iff s).2 hs]

/-- Sampling succeeds exactly on probabilities: each element of the result is drawn for the element of the argument in
the same place; anything else than a number between 0 and 1 fails the assertion. -/
theorem c69_sample (env : Env ℝ) (hm : ∀ n, env.fits n = true) (k : Nat) (draw : Draw) (p : Tensor ℝ) (s : List Nat) (f : List Nat → ℝ)
    (hp : Holds p s f) :
    ((∀ q, InRange s q → 0 ≤ f q ∧ f q ≤ 1) → ∃ t, binomSample env k draw p = .ok t ∧
      (vol s ≠ 1 → Holds t s (fun q => (draw (flat s q) k (f q) : Nat))) ∧
      (vol s = 1 → Holds t [1] (fun _ => (draw 0 k (f (List.replicate s.length 0)) : Nat)))) ∧
    ((∃ q, InRange s q ∧ ¬(0 ≤ f q ∧ f q ≤ 1)) → binomSample env k draw p = .abort) := by
  obtain ⟨o, ho, hof, hv, hcase⟩ := sample_shape hp.full
  constructor
  · intro hpr
    obtain ⟨t, h1, h2⟩ := forwardPass_holds env elementaryShaper (binomKernel k draw) [(p, s, f)] (by simpa using hp) o
      (fun q => ((draw (flat o q) k (f (coords s (flat o q))) : Nat) : ℝ)) ho hof (hm _) (by
        intro dest hd
        simp only [List.map_cons, List.map_nil, binomKernel]
        apply fill_bufOf hof _ _ _ hd
        intro i hi hr
        rw [read_bufOf hp.full.2 _ _ (by omega), Outcome.ok_bind, Shape.flat_coords hof.2 hi]
        exact if_pos (hpr _ (Shape.coords_inRange hp.full.2 _)))
    refine ⟨t, h1, fun hne => ?_, fun he => ?_⟩
    · rcases hcase with ⟨_, rfl⟩ | ⟨h, _⟩
      · exact holds_congr h2 (fun q hq => by rw [Shape.coords_flat hq])
      · exact absurd h hne
    · rcases hcase with ⟨h, _⟩ | ⟨_, rfl⟩
      · exact absurd he h
      · refine holds_congr h2 (fun q hq => ?_)
        have : flat [1] q = 0 := by have := Shape.flat_lt hq; simp [vol] at this; exact this
        rw [this, coords_zero]
  · rintro ⟨q, hq, hbad⟩
    have hex : ∃ i, i < vol s ∧ ¬(0 ≤ f (coords s i) ∧ f (coords s i) ≤ 1) :=
      ⟨flat s q, Shape.flat_lt hq, by rw [Shape.coords_flat hq]; exact hbad⟩
    obtain ⟨h1, h2⟩ := Nat.find_spec hex
    have hmin : ∀ j, j < Nat.find hex → 0 ≤ f (coords s j) ∧ f (coords s j) ≤ 1 := by
      intro j hj
      by_contra hh
      exact Nat.find_min hex hj ⟨by omega, hh⟩
    have hf := forwardPass_new env elementaryShaper (binomKernel k draw) [(p, s, f)] (by simpa using hp)
    simp only [List.map_cons, List.map_nil] at hf
    unfold binomSample
    rw [hf, ho, Outcome.ok_bind, (Shape.isFullyDefined_iff o).2 hof, Outcome.assert_true, Outcome.ok_bind]
    have htr := transfer_new env (binomKernel k draw) o hof (hm _) [(p, s, f)] (by simpa using hp)
    simp only [List.map_cons, List.map_nil] at htr
    rw [htr]
    simp only [binomKernel, Outcome.fill]
    rw [Outcome.fillFrom_fail _ (fun j => ((draw j k (f (coords s j)) : Nat) : ℝ)) .abort _ 0 _ (Nat.find hex) (Nat.zero_le _)
      (by rw [Shape.nElems_eq hof.1]; omega) (fun j _ hj => by
        rw [read_bufOf hp.full.2 _ _ (by omega), Outcome.ok_bind]; exact if_pos (hmin j hj))
      (by rw [Shape.nElems_eq hof.1]; simp)]
    · rfl
    · intro g
      rw [read_bufOf hp.full.2 _ _ h1, Outcome.ok_bind, if_neg h2]
      rfl

/-- … and the numbers are whole, between 0 and the number of trials. -/
theorem c69_sample_range (draw : Draw) (hd : LawfulDraw draw) (k i : Nat) (p : ℝ) (h0 : 0 ≤ p) (h1 : p ≤ 1) :
    draw i k p ≤ k ∧ (p = 0 → draw i k p = 0) ∧ (p = 1 → draw i k p = k) ∧ (k = 1 → draw i k p = 0 ∨ draw i k p = 1) := by
  have := hd.le i k p h0 h1
  exact ⟨this, fun h => h ▸ hd.never i k, fun h => h ▸ hd.always i k, fun h => by omega⟩

/-- Negative: sampling from a constant is undefined behaviour, whatever it holds. -/
theorem c69_constant_ub (k : Nat) (draw : Draw) (data : List ℝ) (h : data ≠ []) : binomConst k draw data = .ub := by
  obtain ⟨a, l, rfl⟩ := List.exists_cons_of_ne_nil h
  simp [binomConst, Outcome.fill, Outcome.fillFrom, Outcome.read, Outcome.write]

/-- Negative: sampling with both the number of trials and the probabilities given by nodes is undefined behaviour. -/
theorem c69_both_ub (env : Env ℝ) (hm : ∀ n, env.fits n = true) (draw : Draw) (t p : Tensor ℝ) (s : List Nat) (f : List Nat → ℝ)
    (hp : Holds p s f) : binomSample2 env draw t p = .ub := by
  obtain ⟨o, ho, hof, hv, _⟩ := sample_shape hp.full
  have hf := forwardPass_new env elementaryShaper (binomKernel2 draw) [(p, s, f)] (by simpa using hp)
  simp only [List.map_cons, List.map_nil] at hf
  unfold binomSample2
  rw [hf, ho, Outcome.ok_bind, (Shape.isFullyDefined_iff o).2 hof, Outcome.assert_true, Outcome.ok_bind]
  have htr := transfer_new env (binomKernel2 draw) o hof (hm _) [(p, s, f)] (by simpa using hp)
  simp only [List.map_cons, List.map_nil] at htr
  rw [htr]
  simp only [binomKernel2, Outcome.fill]
  have hpos : 0 < vol o := Shape.vol_pos hof.2
  rw [Outcome.fillFrom_fail _ (fun _ => 0) .ub _ 0 _ 0 (Nat.le_refl _)
    (by rw [Shape.nElems_eq hof.1]; omega) (fun j h1 h2 => by omega) (by rw [Shape.nElems_eq hof.1]; simp)]
  · rfl
  · intro g
    rw [show Outcome.read [bufOf s f] 0 = .ok (bufOf s f) from rfl, Outcome.ok_bind, read_bufOf hp.full.2 _ _ (by omega),
      Outcome.ok_bind, show Outcome.read [bufOf s f] 1 = .ub from rfl]
    rfl

/-- Sampling from a batch of probabilities. -/
theorem sample_batch (env : Env ℝ) (hm : ∀ n, env.fits n = true) (draw : Draw) (t : Tensor ℝ) {n b : Nat} (p : Nat → Nat → ℝ)
    (ht : Batch t n b p) (hp : ∀ i j, i < n → j < b → 0 ≤ p i j ∧ p i j ≤ 1) :
    ∃ t', binomSample env 1 draw t = .ok t' ∧ Batch t' n b (sampled n draw p) := by
  have key : ∀ s (F : List Nat → ℝ), Holds t s F → (s = [n, b] ∧ F = (fun c => p (c.getD 0 0) (c.getD 1 0))) ∨
      (b = 1 ∧ s = [n] ∧ F = (fun c => p (c.getD 0 0) 0)) → ∃ t', binomSample env 1 draw t = .ok t' ∧ Batch t' n b (sampled n draw p) := by
    intro s F hF hs
    obtain ⟨t', h1, h2, h3⟩ := (c69_sample env hm 1 draw t s F hF).1 (by
      intro q hq
      rcases hs with ⟨rfl, rfl⟩ | ⟨rfl, rfl, rfl⟩
      · exact hp _ _ (by simpa using hq.2 0 (by simp)) (by simpa using hq.2 1 (by simp))
      · exact hp _ _ (by simpa using hq.2 0 (by simp)) (by omega))
    refine ⟨t', h1, ?_⟩
    by_cases hv : vol s = 1
    · have h4 := h3 hv
      have hnb : n = 1 ∧ b = 1 := by
        rcases hs with ⟨rfl, _⟩ | ⟨rfl, rfl, _⟩
        · simpa [vol] using hv
        · simpa [vol] using hv
      obtain ⟨rfl, rfl⟩ := hnb
      refine .inr ⟨rfl, holds_congr h4 (fun q hq => ?_)⟩
      have hc0 : q.getD 0 0 = 0 := by simpa using hq.2 0 (by simp)
      show _ = sampled 1 draw p (q.getD 0 0) 0
      rw [hc0]
      rcases hs with ⟨rfl, rfl⟩ | ⟨_, rfl, rfl⟩ <;> simp [sampled, List.replicate]
    · have h4 := h2 hv
      rcases hs with ⟨rfl, rfl⟩ | ⟨rfl, rfl, rfl⟩
      · refine .inl (holds_congr h4 (fun q hq => ?_))
        obtain ⟨hl, hc⟩ := hq
        match q, hl with
        | [i, j], _ => simp [sampled, flat]
      · refine .inr ⟨rfl, holds_congr h4 (fun q hq => ?_)⟩
        obtain ⟨hl, hc⟩ := hq
        match q, hl with
        | [i], _ => simp [sampled, flat]
  rcases ht with h | ⟨h, h'⟩
  · exact key _ _ h (.inl ⟨rfl, rfl⟩)
  · exact key _ _ h' (.inr ⟨h, rfl, rfl⟩)

/-- The leaves after one of them was replaced by a batch: its shape may have changed. -/
theorem put_batch {ρ : Backprop.Leaf → Tensor ℝ} (hρ : LeavesHold ρ shp val) (l : Backprop.Leaf) (t : Tensor ℝ) (a b : Nat) (f : Nat → Nat → ℝ)
    (ht : Batch t a b f) : ∃ s, (s = [a, b] ∨ (b = 1 ∧ s = [a])) ∧
      LeavesHold (put ρ l t) (fun k => if k = l then s else shp k) (fun k => if k = l then f else val k) := by
  rcases ht with h | ⟨hb, h⟩
  · refine ⟨[a, b], .inl rfl, fun k => ?_⟩
    by_cases hk : k = l
    · simp only [put, hk, if_true]; exact h
    · simp only [put, hk, if_false]; exact hρ k
  · refine ⟨[a], .inr ⟨hb, rfl⟩, fun k => ?_⟩
    by_cases hk : k = l
    · simp only [put, hk, if_true]
      refine holds_congr h (fun q hq => ?_)
      have : q.getD 1 0 = 0 := by
        have := hq.1
        match q, this with
        | [i], _ => rfl
      rw [this]
    · simp only [put, hk, if_false]; exact hρ k

theorem rbmFits_swap (h : RbmFits r n m B x c shp) : RbmFits r n m B c x shp :=
  ⟨h.pos, h.weight, h.hbias, h.vbias, h.chain, h.input, h.vars, h.other.symm⟩

theorem machine_withChain (c y : Nat) (s : (Nat → Nat → ℝ) × (Nat → Nat → ℝ)) : machine r n m (withChain c y s val) = machine r n m val := by
  simp [machine, withChain]

/-- One round. -/
theorem gibbs_round (env : Env ℝ) (hm : ∀ n, env.fits n = true) (on : Bool) (ρ : Backprop.Leaf → Tensor ℝ) (hρ : LeavesHold ρ shp val)
    (h : RbmFits r n m B x c shp) (y : Nat) (hy : shp ⟨false, y⟩ = [m, B] ∨ (B = 1 ∧ shp ⟨false, y⟩ = [m])) (hcy : c ≠ y) (hxy : x ≠ y) (d1 d2 : Draw) :
    ∃ (ρ' : Backprop.Leaf → Tensor ℝ) (shp' : Backprop.Leaf → List Nat), gibbsRound env on r c y d1 d2 ρ = .ok ρ' ∧
      LeavesHold ρ' shp' (withChain c y ((machine r n m val).drawVisible d1 (val ⟨false, y⟩),
        (machine r n m val).drawHidden d2 ((machine r n m val).drawVisible d1 (val ⟨false, y⟩))) val) ∧
      RbmFits r n m B x c shp' ∧ (shp' ⟨false, y⟩ = [m, B] ∨ (B = 1 ∧ shp' ⟨false, y⟩ = [m])) ∧
      ∀ l, l ≠ ⟨false, c⟩ → l ≠ ⟨false, y⟩ → shp' l = shp l := by
  obtain ⟨e, p, h1, h2, h3, h4⟩ := c66_prop_down env hm on ρ hρ h y hy
  obtain ⟨v, h5, h6⟩ := sample_batch env hm d1 p _ h3 (fun z j hz _ => ⟨(h4 z hz j).1.le, (h4 z hz j).2.le⟩)
  obtain ⟨s, hs, h7⟩ := put_batch hρ ⟨false, c⟩ v n B _ h6
  have ne1 : (⟨false, x⟩ : Backprop.Leaf) ≠ ⟨false, c⟩ := by intro hh; injection hh with _ hh; exact h.other hh
  have ne2 : (⟨false, x⟩ : Backprop.Leaf) ≠ ⟨false, y⟩ := by intro hh; injection hh with _ hh; exact hxy hh
  have ne3 : (⟨false, c⟩ : Backprop.Leaf) ≠ ⟨false, y⟩ := by intro hh; injection hh with _ hh; exact hcy hh
  have fit1 : RbmFits r n m B x c (fun k => if k = ⟨false, c⟩ then s else shp k) := by
    refine ⟨h.pos, by simpa using h.weight, by simpa using h.hbias, by simpa using h.vbias, ?_, ?_, h.vars, h.other⟩
    · simp only [if_neg ne1]; exact h.input
    · simp only [if_true]; exact hs
  obtain ⟨e', q, g1, g2, g3, g4⟩ := c66_prop_up env hm on _ h7 (rbmFits_swap fit1)
  have hmach : machine r n m (fun k => if k = ⟨false, c⟩ then sampled n d1 (fun z j => (machine r n m val).visibleOn (fun i => val ⟨false, y⟩ i j) z) else val k) =
      machine r n m val := by simp [machine]
  rw [hmach] at g3 g4
  simp only [if_true] at g3 g4
  obtain ⟨hh, g5, g6⟩ := sample_batch env hm d2 q _ g3 (fun i j hi _ => ⟨(g4 i hi j).1.le, (g4 i hi j).2.le⟩)
  obtain ⟨s', hs', g7⟩ := put_batch h7 ⟨false, y⟩ hh m B _ g6
  refine ⟨_, _, ?_, g7, ?_, ?_, ?_⟩
  · unfold gibbsRound
    rw [h1, Outcome.ok_bind, h2, Outcome.ok_bind, h5, Outcome.ok_bind, g1, Outcome.ok_bind, g2, Outcome.ok_bind, g5, Outcome.ok_bind]
  · refine ⟨h.pos, by simpa using h.weight, by simpa using h.hbias, by simpa using h.vbias, ?_, ?_, h.vars, h.other⟩
    · simp only [if_neg ne1, if_neg ne2]; exact h.input
    · simp only [if_neg ne3, if_true]; exact hs
  · simp only [if_true]; exact hs'
  · intro l l1 l2
    simp only [if_neg l1, if_neg l2]

/-- `k` rounds: Gibbs sampling from the hidden units in `y`. -/
theorem gibbs_rounds (env : Env ℝ) (hm : ∀ n, env.fits n = true) (on : Bool) (y : Nat) (hcy : c ≠ y) (hxy : x ≠ y) :
    ∀ (k : Nat) (D : Nat → Draw) (ρ : Backprop.Leaf → Tensor ℝ) (shp : Backprop.Leaf → List Nat) (val : Backprop.Leaf → Nat → Nat → ℝ),
    LeavesHold ρ shp val → RbmFits r n m B x c shp → (shp ⟨false, y⟩ = [m, B] ∨ (B = 1 ∧ shp ⟨false, y⟩ = [m])) →
    ∃ (ρ' : Backprop.Leaf → Tensor ℝ) (shp' : Backprop.Leaf → List Nat), gibbsRounds env on r c y k D ρ = .ok ρ' ∧
      LeavesHold ρ' shp' (withChain c y ((machine r n m val).gibbs k D (val ⟨false, c⟩, val ⟨false, y⟩)) val) ∧
      RbmFits r n m B x c shp' ∧ (shp' ⟨false, y⟩ = [m, B] ∨ (B = 1 ∧ shp' ⟨false, y⟩ = [m])) ∧
      ∀ l, l ≠ ⟨false, c⟩ → l ≠ ⟨false, y⟩ → shp' l = shp l := by
  have ne3 : (⟨false, c⟩ : Backprop.Leaf) ≠ ⟨false, y⟩ := by intro hh; injection hh with _ hh; exact hcy hh
  intro k
  induction k with
  | zero =>
    intro D ρ shp val hρ h hy
    refine ⟨ρ, shp, rfl, ?_, h, hy, fun _ _ _ => rfl⟩
    have : withChain c y ((machine r n m val).gibbs 0 D (val ⟨false, c⟩, val ⟨false, y⟩)) val = val := by
      funext l
      simp only [withChain, Boltzmann.gibbs]
      by_cases hl : l = ⟨false, y⟩
      · rw [if_pos hl, hl]
      · rw [if_neg hl]
        by_cases hl' : l = ⟨false, c⟩
        · rw [if_pos hl', hl']
        · rw [if_neg hl']
    rw [this]; exact hρ
  | succ k ih =>
    intro D ρ shp val hρ h hy
    obtain ⟨ρ1, shp1, h1, h2, h3, h4, h5⟩ := gibbs_round env hm on ρ hρ h y hy hcy hxy (D 0) (D 1)
    obtain ⟨ρ2, shp2, g1, g2, g3, g4, g5⟩ := ih (fun i => D (i + 2)) ρ1 shp1 _ h2 h3 h4
    refine ⟨ρ2, shp2, by rw [gibbsRounds, h1, Outcome.ok_bind, g1], ?_, g3, g4, fun l l1 l2 => (g5 l l1 l2).trans (h5 l l1 l2)⟩
    rw [machine_withChain] at g2
    intro l
    refine holds_congr (g2 l) (fun q _ => ?_)
    simp only [Boltzmann.gibbs, withChain]
    by_cases hl : l = ⟨false, y⟩
    · simp only [if_pos hl, if_neg ne3, if_true]
    · simp only [if_neg hl]
      by_cases hl' : l = ⟨false, c⟩
      · simp only [if_pos hl', if_neg ne3, if_true]
      · simp only [if_neg hl']

/-- Every unit of a batch is off or on. -/
theorem sampled_bit (draw : Draw) (hd : LawfulDraw draw) (n : Nat) (p : Nat → Nat → ℝ) (i j : Nat) (h : 0 ≤ p i j ∧ p i j ≤ 1) :
    sampled n draw p i j = 0 ∨ sampled n draw p i j = 1 := by
  have := hd.le (i + n * j) 1 (p i j) h.1 h.2
  unfold sampled
  rcases Nat.le_one_iff_eq_zero_or_eq_one.1 this with h | h <;> rw [h] <;> simp

theorem drawHidden_bit (M : Boltzmann) (draw : Draw) (hd : LawfulDraw draw) (v : Nat → Nat → ℝ) (i j : Nat) (hi : i < M.m) :
    M.drawHidden draw v i j = 0 ∨ M.drawHidden draw v i j = 1 := by
  refine sampled_bit draw hd _ _ i j ?_
  rw [hiddenOn_eq M _ _ hi]
  exact ⟨(logistic_mem _).1.le, (logistic_mem _).2.le⟩

theorem drawVisible_bit (M : Boltzmann) (draw : Draw) (hd : LawfulDraw draw) (h : Nat → Nat → ℝ) (z j : Nat) (hz : z < M.n) :
    M.drawVisible draw h z j = 0 ∨ M.drawVisible draw h z j = 1 := by
  refine sampled_bit draw hd _ _ z j ?_
  rw [visibleOn_eq M _ _ hz]
  exact ⟨(logistic_mem _).1.le, (logistic_mem _).2.le⟩

/-- After at least one round, all units are off or on. -/
theorem gibbs_bits (M : Boltzmann) (k : Nat) : ∀ (D : Nat → Draw) (s : (Nat → Nat → ℝ) × (Nat → Nat → ℝ)), (∀ i, LawfulDraw (D i)) →
    (∀ z j, z < M.n → (M.gibbs (k + 1) D s).1 z j = 0 ∨ (M.gibbs (k + 1) D s).1 z j = 1) ∧
    (∀ i j, i < M.m → (M.gibbs (k + 1) D s).2 i j = 0 ∨ (M.gibbs (k + 1) D s).2 i j = 1) := by
  induction k with
  | zero =>
    intro D s hD
    exact ⟨fun z j hz => drawVisible_bit M _ (hD 0) _ z j hz, fun i j hi => drawHidden_bit M _ (hD 1) _ i j hi⟩
  | succ k ih => intro D s hD; exact ih _ _ (fun i => hD (i + 2))

/-- The chain of contrastive divergence succeeds for every input and all random numbers, and ends in the units of Gibbs
sampling started from hidden units drawn given the input; the variables, the input and all other leaves keep their
values. After at least one round, the units at the end of the chain are off or on. -/
theorem c69_chain (env : Env ℝ) (hm : ∀ n, env.fits n = true) (on : Bool) (ρ : Backprop.Leaf → Tensor ℝ) (hρ : LeavesHold ρ shp val)
    (h : RbmFits r n m B x c shp) (y : Nat) (hcy : c ≠ y) (hxy : x ≠ y) (k : Nat) (D : Nat → Draw) :
    ∃ (ρ' : Backprop.Leaf → Tensor ℝ) (shp' : Backprop.Leaf → List Nat), gibbsChain env on r x c y k D ρ = .ok ρ' ∧
      LeavesHold ρ' shp' (withChain c y (cdChain r n m x c k D val) val) ∧ RbmFits r n m B x c shp' ∧
      (∀ l, l ≠ ⟨false, c⟩ → l ≠ ⟨false, y⟩ → shp' l = shp l) ∧
      (shp' ⟨false, y⟩ = [m, B] ∨ (B = 1 ∧ shp' ⟨false, y⟩ = [m])) ∧
      (k ≠ 0 → (∀ i, LawfulDraw (D i)) →
        (∀ z j, z < n → (cdChain r n m x c k D val).1 z j = 0 ∨ (cdChain r n m x c k D val).1 z j = 1) ∧
        (∀ i j, i < m → (cdChain r n m x c k D val).2 i j = 0 ∨ (cdChain r n m x c k D val).2 i j = 1)) := by
  obtain ⟨e, q, h1, h2, h3, h4⟩ := c66_prop_up env hm on ρ hρ h
  obtain ⟨t, h5, h6⟩ := sample_batch env hm (D 0) q _ h3 (fun i j hi _ => ⟨(h4 i hi j).1.le, (h4 i hi j).2.le⟩)
  obtain ⟨s, hs, h7⟩ := put_batch hρ ⟨false, y⟩ t m B _ h6
  have ne2 : (⟨false, x⟩ : Backprop.Leaf) ≠ ⟨false, y⟩ := by intro hh; injection hh with _ hh; exact hxy hh
  have ne3 : (⟨false, c⟩ : Backprop.Leaf) ≠ ⟨false, y⟩ := by intro hh; injection hh with _ hh; exact hcy hh
  have fit1 : RbmFits r n m B x c (fun k => if k = ⟨false, y⟩ then s else shp k) := by
    refine ⟨h.pos, by simpa using h.weight, by simpa using h.hbias, by simpa using h.vbias, ?_, ?_, h.vars, h.other⟩
    · simp only [if_neg ne2]; exact h.input
    · simp only [if_neg ne3]; exact h.chain
  obtain ⟨ρ', shp', g1, g2, g3, g4, g5⟩ := gibbs_rounds env hm on y hcy hxy k (fun i => D (i + 1)) _ _ _ h7 fit1 (by simp only [if_true]; exact hs)
  refine ⟨ρ', shp', ?_, ?_, g3, fun l l1 l2 => ?_, g4, fun hk hD => ?_⟩
  · unfold gibbsChain
    rw [h1, Outcome.ok_bind, h2, Outcome.ok_bind, h5, Outcome.ok_bind, g1]
  · have hmach : machine r n m (fun k => if k = ⟨false, y⟩ then sampled m (D 0) (fun i j => (machine r n m val).hiddenOn (fun z => val ⟨false, x⟩ z j) i) else val k) =
        machine r n m val := by simp [machine]
    rw [hmach] at g2
    intro l
    refine holds_congr (g2 l) (fun q _ => ?_)
    simp only [withChain, cdChain, if_neg ne3, if_true]
    by_cases hl : l = ⟨false, y⟩
    · simp only [if_pos hl]; rfl
    · simp only [if_neg hl]
      by_cases hl' : l = ⟨false, c⟩
      · simp only [if_pos hl']; rfl
      · simp only [if_neg hl']
  · rw [g5 l l1 l2, if_neg l2]
  · obtain ⟨k, rfl⟩ := Nat.exists_eq_succ_of_ne_zero hk
    exact gibbs_bits (machine r n m val) k _ _ (fun i => hD (i + 1))

theorem apply_train (env : Env ℝ) (on : Bool) (lr : ℝ) (ρ : Backprop.Leaf → Tensor ℝ) (k : Nat) (hk : k ≠ 0) :
    (rbmCostOf r (.leaf ⟨false, x⟩) (lastVisible c k) >>= rbmApply env on lr r ρ) = rbmTrain env on lr r x c ρ := by
  obtain ⟨k, rfl⟩ := Nat.exists_eq_succ_of_ne_zero hk
  unfold rbmTrain
  show (rbmCost r (.leaf ⟨false, x⟩) (.leaf ⟨false, c⟩) >>= fun e => .ok (some e)) >>= rbmApply env on lr r ρ = _
  cases rbmCost r (.leaf ⟨false, x⟩) (.leaf ⟨false, c⟩) <;> rfl

/-- A call of the trainer succeeds for every input and all random numbers, and is one step of contrastive divergence
for the input and the end of the chain. -/
theorem c69_train (env : Env ℝ) (hm : ∀ n, env.fits n = true) (hz : env.zero = 0) (on : Bool) (lr : ℝ) (ρ : Backprop.Leaf → Tensor ℝ)
    (hρ : LeavesHold ρ shp val) (h : RbmFits r n m B x c shp) (y : Nat) (hcy : c ≠ y) (hxy : x ≠ y) (k : Nat) (hk : k ≠ 0) (D : Nat → Draw) :
    ∃ (ρ' : Backprop.Leaf → Tensor ℝ) (shp' : Backprop.Leaf → List Nat) (val' : Backprop.Leaf → Nat → Nat → ℝ), rbmCd env on lr r x c y k D ρ = .ok ρ' ∧
      LeavesHold ρ' shp' val' ∧ RbmFits r n m B x c shp' ∧
      CdStep r n m B x c lr (withChain c y (cdChain r n m x c k D val) val) val' := by
  obtain ⟨ρ1, shp1, h1, h2, h3, _, _⟩ := c69_chain env hm on ρ hρ h y hcy hxy k D
  obtain ⟨ρ2, val2, g1, g2, g3⟩ := c66_train env hm hz on lr ρ1 h2 h3
  exact ⟨ρ2, shp1, val2, by rw [rbmCd, h1, Outcome.ok_bind, apply_train env on lr ρ1 k hk, g1], g2, h3, g3⟩

/-- Negative: training with a chain of no rounds is undefined behaviour, with and without a persistent state. -/
theorem c69_no_rounds_ub (env : Env ℝ) (hm : ∀ n, env.fits n = true) (on : Bool) (lr : ℝ) (ρ : Backprop.Leaf → Tensor ℝ) (hρ : LeavesHold ρ shp val)
    (h : RbmFits r n m B x c shp) (y s : Nat) (hcy : c ≠ y) (hxy : x ≠ y) (D : Nat → Draw) :
    rbmCd env on lr r x c y 0 D ρ = .ub ∧ rbmPcd env on lr r x c y s 0 D ρ = .ub := by
  obtain ⟨ρ1, shp1, h1, _⟩ := c69_chain env hm on ρ hρ h y hcy hxy 0 D
  refine ⟨?_, rfl⟩
  rw [rbmCd, h1]
  rfl

/-- Training on one batch after the other never fails, and is one step of contrastive divergence per batch, each with
a fresh chain. -/
theorem c69_train_many (env : Env ℝ) (hm : ∀ n, env.fits n = true) (hz : env.zero = 0) (on : Bool) (lr : ℝ) (y : Nat) (hcy : c ≠ y) (hxy : x ≠ y)
    (k : Nat) (hk : k ≠ 0) : ∀ (steps : List (List ℝ × (Nat → Draw))) (ρ : Backprop.Leaf → Tensor ℝ) (shp : Backprop.Leaf → List Nat)
    (val : Backprop.Leaf → Nat → Nat → ℝ), LeavesHold ρ shp val → RbmFits r n m B x c shp → (∀ s ∈ steps, s.1.length = n * B) →
    ∃ (ρ' : Backprop.Leaf → Tensor ℝ) (shp' : Backprop.Leaf → List Nat) (val' : Backprop.Leaf → Nat → Nat → ℝ), rbmTrainAll env on lr r x c y k steps ρ = .ok ρ' ∧
      LeavesHold ρ' shp' val' ∧ RbmFits r n m B x c shp' ∧ CdRun r n m B x c y k lr steps val val' := by
  intro steps
  induction steps with
  | nil => intro ρ shp val hρ h _; exact ⟨ρ, shp, val, rfl, hρ, h, .nil val⟩
  | cons s steps ih =>
    obtain ⟨data, D⟩ := s
    intro ρ shp val hρ h hd
    obtain ⟨ρ1, h1, h2⟩ := feed_leaf env hm ρ x n B data h.pos.1 h.pos.2.2 h.input (hd (data, D) (by simp)) hρ
    obtain ⟨ρ2, shp2, val2, g1, g2, g3, g4⟩ := c69_train (val := withInput n x data val) env hm hz on lr ρ1 h2 h y hcy hxy k hk D
    obtain ⟨ρ3, shp3, val3, e1, e2, e3, e4⟩ := ih ρ2 shp2 val2 g2 g3 (fun s hs => hd s (by simp [hs]))
    exact ⟨ρ3, shp3, val3, by rw [rbmTrainAll, h1, Outcome.ok_bind, g1, Outcome.ok_bind, e1], e2, e3, .cons g4 e4⟩

/-- Replacing the elements of a leaf by those of a batch of the same size. -/
theorem assign_batch (env : Env ℝ) (l : Backprop.Leaf) (hl : Typed shp (.leaf l)) (t : Tensor ℝ) (f : Nat → Nat → ℝ)
    (ht : Holds t (shp l) (fun c => f (c.getD 0 0) (c.getD 1 0))) (a : Tensor ℝ) (g : Nat → Nat → ℝ)
    (ha : Batch a (leafSize (shp l)).1 (leafSize (shp l)).2 g) :
    ∃ l', Verif.Leaf.assign env ⟨t, true, none⟩ (.node (some a)) = .ok l' ∧ Holds l'.data (shp l) (fun c => g (c.getD 0 0) (c.getD 1 0)) := by
  obtain ⟨hw, buf, hr, hlen, hb⟩ := batch_buf (leaf_batch hl ht)
  obtain ⟨hw', src, hr', hlen', hb'⟩ := batch_buf ha
  refine ⟨_, by rw [Leaf.assign, (c42_update_node env _ false ⟨t, true, none⟩ a buf src hw hr hw' hr').2, if_pos (by rw [hlen, hlen'])], ?_⟩
  refine holds_leaf (f := g) hl ht.shape rfl ?_ (fun i j hi hj =>
    (mapTwo_getElem? _ buf src (by rw [hlen, hlen']) _ _ _ (hb i j hi hj) (hb' i j hi hj)).1)
  rw [← zipWith_mapTwo]
  simp [hlen, hlen']

/-- A call of the trainer with a persistent state succeeds, and is one step of persistent contrastive divergence: the
chain starts from the state, the parameters move as in contrastive divergence for the end of the chain, and the state
becomes the chain's last hidden units. -/
theorem c69_persistent (env : Env ℝ) (hm : ∀ n, env.fits n = true) (hz : env.zero = 0) (on : Bool) (lr : ℝ) (ρ : Backprop.Leaf → Tensor ℝ)
    (hρ : LeavesHold ρ shp val) (h : RbmFits r n m B x c shp) (y s : Nat) (hcy : c ≠ y) (hxy : x ≠ y) (hs : shp ⟨true, s⟩ = [m, B])
    (hv : s ≠ r.w ∧ s ≠ r.hb ∧ s ≠ r.vb) (k : Nat) (hk : k ≠ 0) (D : Nat → Draw) :
    ∃ (ρ' : Backprop.Leaf → Tensor ℝ) (shp' : Backprop.Leaf → List Nat) (val' : Backprop.Leaf → Nat → Nat → ℝ), rbmPcd env on lr r x c y s k D ρ = .ok ρ' ∧
      LeavesHold ρ' shp' val' ∧ RbmFits r n m B x c shp' ∧ shp' ⟨true, s⟩ = [m, B] ∧ PcdStep r n m B x c y s k lr D val val' := by
  have ne2 : (⟨false, x⟩ : Backprop.Leaf) ≠ ⟨false, y⟩ := by intro hh; injection hh with _ hh; exact hxy hh
  have ne3 : (⟨false, c⟩ : Backprop.Leaf) ≠ ⟨false, y⟩ := by intro hh; injection hh with _ hh; exact hcy hh
  have hb : Batch (ρ ⟨true, s⟩) m B (val ⟨true, s⟩) := by
    have := hρ ⟨true, s⟩
    rw [hs] at this
    exact .inl this
  obtain ⟨s0, hs0, h7⟩ := put_batch hρ ⟨false, y⟩ _ m B _ hb
  have fit1 : RbmFits r n m B x c (fun k => if k = ⟨false, y⟩ then s0 else shp k) := by
    refine ⟨h.pos, by simpa using h.weight, by simpa using h.hbias, by simpa using h.vbias, ?_, ?_, h.vars, h.other⟩
    · simp only [if_neg ne2]; exact h.input
    · simp only [if_neg ne3]; exact h.chain
  obtain ⟨ρ1, shp1, g1, g2, g3, g4, g5⟩ := gibbs_rounds env hm on y hcy hxy k D _ _ _ h7 fit1 (by simp only [if_true]; exact hs0)
  have hmach : machine r n m (fun k => if k = ⟨false, y⟩ then val ⟨true, s⟩ else val k) = machine r n m val := by simp [machine]
  rw [hmach] at g2
  have g2' : LeavesHold ρ1 shp1 (withChain c y ((machine r n m val).gibbs k D (val ⟨false, c⟩, val ⟨true, s⟩)) val) := by
    intro l
    refine holds_congr (g2 l) (fun q _ => ?_)
    simp only [withChain, if_neg ne3, if_true]
    by_cases hl : l = ⟨false, y⟩
    · simp only [if_pos hl]
    · simp only [if_neg hl]
  obtain ⟨ρ2, mid, e1, e2, e3⟩ := c66_train env hm hz on lr ρ1 g2' g3
  have hs1 : shp1 ⟨true, s⟩ = [m, B] := by rw [g5 _ (by simp) (by simp)]; simpa using hs
  have hl : Typed shp1 (.leaf ⟨true, s⟩) := ⟨m, B, h.pos.2.1, h.pos.2.2, .inl hs1⟩
  have hy : Batch (ρ2 ⟨false, y⟩) m B (mid ⟨false, y⟩) := by
    have := e2 ⟨false, y⟩
    rcases g4 with g | ⟨hB, g⟩
    · rw [g] at this; exact .inl this
    · have hl' : Typed shp1 (.leaf ⟨false, y⟩) := ⟨m, B, h.pos.2.1, h.pos.2.2, .inr ⟨hB, g⟩⟩
      have hb := leaf_batch hl' this
      rw [g] at hb
      rw [hB]; exact hb
  obtain ⟨l', a1, a2⟩ := assign_batch env ⟨true, s⟩ hl (ρ2 ⟨true, s⟩) _ (e2 _) (ρ2 ⟨false, y⟩) _ (by rw [hs1]; exact hy)
  have hmy : mid ⟨false, y⟩ = ((machine r n m val).gibbs k D (val ⟨false, c⟩, val ⟨true, s⟩)).2 := by
    rw [e3.kept _ (by simp) (by simp) (by simp)]
    simp [withChain]
  refine ⟨put ρ2 ⟨true, s⟩ l'.data, shp1, fun l => if l = ⟨true, s⟩ then mid ⟨false, y⟩ else mid l, ?_, ?_, g3, hs1, ⟨mid, e3, fun l hl => if_neg hl⟩, ?_⟩
  · rw [rbmPcd, g1, Outcome.ok_bind, apply_train env on lr ρ1 k hk, e1, Outcome.ok_bind, a1, Outcome.ok_bind]
  · intro l
    by_cases hl : l = ⟨true, s⟩
    · simp only [put, hl, if_true]; exact a2
    · simp only [put, hl, if_false]; exact e2 l
  · simp only [if_true]; exact hmy

/-- Training on one batch after the other with a persistent state never fails, and is one step of persistent contrastive
divergence per batch. -/
theorem c69_persistent_many (env : Env ℝ) (hm : ∀ n, env.fits n = true) (hz : env.zero = 0) (on : Bool) (lr : ℝ) (y s : Nat) (hcy : c ≠ y) (hxy : x ≠ y)
    (hv : s ≠ r.w ∧ s ≠ r.hb ∧ s ≠ r.vb) (k : Nat) (hk : k ≠ 0) : ∀ (steps : List (List ℝ × (Nat → Draw))) (ρ : Backprop.Leaf → Tensor ℝ)
    (shp : Backprop.Leaf → List Nat) (val : Backprop.Leaf → Nat → Nat → ℝ), LeavesHold ρ shp val → RbmFits r n m B x c shp → shp ⟨true, s⟩ = [m, B] →
    (∀ s ∈ steps, s.1.length = n * B) →
    ∃ (ρ' : Backprop.Leaf → Tensor ℝ) (shp' : Backprop.Leaf → List Nat) (val' : Backprop.Leaf → Nat → Nat → ℝ), rbmPcdAll env on lr r x c y s k steps ρ = .ok ρ' ∧
      LeavesHold ρ' shp' val' ∧ RbmFits r n m B x c shp' ∧ shp' ⟨true, s⟩ = [m, B] ∧ PcdRun r n m B x c y s k lr steps val val' := by
  intro steps
  induction steps with
  | nil => intro ρ shp val hρ h hs _; exact ⟨ρ, shp, val, rfl, hρ, h, hs, .nil val⟩
  | cons st steps ih =>
    obtain ⟨data, D⟩ := st
    intro ρ shp val hρ h hs hd
    obtain ⟨ρ1, h1, h2⟩ := feed_leaf env hm ρ x n B data h.pos.1 h.pos.2.2 h.input (hd (data, D) (by simp)) hρ
    obtain ⟨ρ2, shp2, val2, g1, g2, g3, g4, g5⟩ := c69_persistent (val := withInput n x data val) env hm hz on lr ρ1 h2 h y s hcy hxy hs hv k hk D
    obtain ⟨ρ3, shp3, val3, e1, e2, e3, e4, e5⟩ := ih ρ2 shp2 val2 g2 g3 g4 (fun s hs => hd s (by simp [hs]))
    exact ⟨ρ3, shp3, val3, by rw [rbmPcdAll, h1, Outcome.ok_bind, g1, Outcome.ok_bind, e1], e2, e3, e4, .cons g5 e5⟩

/-- A later forward pass of a node that holds a tensor of the right shape. -/
theorem forwardPass_again {T : Type} (e : Env T) (shaper : Shaper) (f : TransferFunc T) (t : Tensor T) (g0 : List Nat → T)
    (ts : List (Tensor T × List Nat × (List Nat → T))) (h : ∀ x ∈ ts, Holds x.1 x.2.1 x.2.2)
    (out : Shape) (g : List Nat → T) (hshape : shaper (ts.map (·.2.1)) = .ok out) (ht : Holds t out g0)
    (hk : ∀ dest : List T, dest.length = vol out →
      f dest (ts.map (fun x => bufOf x.2.1 x.2.2)) out (ts.map (·.2.1)) = .ok (bufOf out g)) :
    ∃ t', forwardPass e shaper f (some t) (ts.map (fun x => some x.1)) = .ok t' ∧ Holds t' out g := by
  have hprep : prepareOut e (some t) out = .ok t := by
    simp only [prepareOut, (Shape.isFullyDefined_iff out).2 ht.full, if_true, holds_isAlloc ht, holds_getShape ht, Shape.compat_self]
    rfl
  refine ⟨{ t with raw := some (bufOf out g) }, ?_, ?_⟩
  · unfold forwardPass
    rw [forM'_alloc ts h]
    simp only [Outcome.ok_bind, map_getShape ts h, hshape, hprep, transfer, holds_getRaw ht, forM'_getRaw ts h, holds_getShape ht]
    rw [hk _ (by simp)]
    rfl
  · refine ⟨ht.full, ht.shape, bufOf out g, rfl, by simp [bufOf], fun c hc => ?_⟩
    have hlt := Shape.flat_lt hc
    simp [bufOf, hlt, Shape.coords_flat hc]

/-- Re-evaluating a sampling node draws every element anew, for the probabilities the argument has now. -/
theorem c69_resample (env : Env ℝ) (k : Nat) (draw : Draw) (t p : Tensor ℝ) (s : List Nat) (f g : List Nat → ℝ)
    (ht : Holds t s g) (hp : Holds p s f) (hv : vol s ≠ 1) (hpr : ∀ q, InRange s q → 0 ≤ f q ∧ f q ≤ 1) :
    ∃ t', binomResample env k draw t p = .ok t' ∧ Holds t' s (fun q => (draw (flat s q) k (f q) : Nat)) := by
  obtain ⟨o, ho, hof, hv', hcase⟩ := sample_shape hp.full
  obtain rfl : o = s := by
    rcases hcase with ⟨_, h⟩ | ⟨h, _⟩
    · exact h
    · exact absurd h hv
  refine forwardPass_again env elementaryShaper (binomKernel k draw) t g [(p, o, f)] (by simpa using hp) o _ ho ht (fun dest hd => ?_)
  simp only [List.map_cons, List.map_nil, binomKernel]
  apply fill_bufOf hof _ _ _ hd
  intro i hi hr
  rw [read_bufOf hp.full.2 _ _ hi, Outcome.ok_bind, Shape.flat_coords hof.2 hi]
  exact if_pos (hpr _ (Shape.coords_inRange hp.full.2 _))

/-- Random numbers that keep the promise: a unit is on if its probability is at least one half. -/
noncomputable def majority : Draw := fun _ n p => if p < 1 / 2 then 0 else n

example : LawfulDraw majority := by
  refine ⟨fun i n p h0 h1 => ?_, fun i n => ?_, fun i n => ?_⟩
  · unfold majority; split_ifs <;> simp
  · unfold majority; rw [if_pos (by norm_num)]
  · unfold majority; rw [if_neg (by norm_num)]

/-- The hypotheses hold of a machine with 4 visible and 3 hidden units, batches of 5, and a persistent state. -/
example : ∃ (r : RbmVars) (shp : Backprop.Leaf → List Nat) (ρ : Backprop.Leaf → Tensor ℝ) (val : Backprop.Leaf → Nat → Nat → ℝ),
    LeavesHold ρ shp val ∧ RbmFits r 4 3 5 0 1 shp ∧ shp ⟨true, 3⟩ = [3, 5] ∧ (3 ≠ r.w ∧ 3 ≠ r.hb ∧ 3 ≠ r.vb) := by
  let shp : Backprop.Leaf → List Nat := fun l =>
    if l = ⟨true, 0⟩ then [3, 4] else if l = ⟨true, 1⟩ then [3] else if l = ⟨true, 2⟩ then [4] else if l = ⟨true, 3⟩ then [3, 5] else [4, 5]
  have hs : ∀ l, Full (shp l) := by
    intro l
    simp only [shp]
    split_ifs <;> exact ⟨by simp, by simp⟩
  choose ρ hρ using fun l => full_tensor (shp l) (hs l) (fun c => (c.getD 0 0 : ℝ) + 2 * c.getD 1 0)
  exact ⟨⟨0, 1, 2⟩, shp, ρ, fun _ i j => (i : ℝ) + 2 * j, hρ, ⟨by decide, rfl, rfl, rfl, .inl rfl, .inl rfl, by decide, by decide⟩, rfl, by decide⟩

/-- A tensor of probabilities, and one that is none. -/
example : ∃ (p q : Tensor ℝ), Holds p [2, 3] (fun _ => 1 / 4) ∧ (∀ c, InRange [2, 3] c → 0 ≤ (1 / 4 : ℝ) ∧ (1 / 4 : ℝ) ≤ 1) ∧
    Holds q [2, 3] (fun c => (c.getD 0 0 : ℝ) * 2) ∧ ∃ c, InRange [2, 3] c ∧ ¬(0 ≤ ((c.getD 0 0 : ℝ) * 2) ∧ ((c.getD 0 0 : ℝ) * 2) ≤ 1) := by
  obtain ⟨p, hp⟩ := full_tensor [2, 3] (by decide) (fun _ => (1 / 4 : ℝ))
  obtain ⟨q, hq⟩ := full_tensor [2, 3] (by decide) (fun c => (c.getD 0 0 : ℝ) * 2)
  exact ⟨p, q, hp, fun _ _ => by norm_num, hq, [1, 0], ⟨rfl, by decide⟩, by norm_num⟩

end Verif.Props
