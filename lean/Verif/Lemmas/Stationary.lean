import Verif.Spec.Stationary
import Verif.Lemmas.Markov
import Verif.Props.Gibbs
/-!
# The chain of a Boltzmann machine with fair random numbers
-/
namespace Verif.Props
open Spec Backprop Finset MeasureTheory Markov
open scoped Classical

/-- Probability of a bit. -/
noncomputable def bern (p : ℝ) (b : Bool) : ℝ := if b then p else 1 - p

theorem bern_logistic (a : ℝ) (b : Bool) : bern (logistic a) b = Real.exp (if b then a else 0) / (1 + Real.exp a) := by
  have h := Real.exp_pos a
  unfold bern logistic
  cases b
  · simp [Real.exp_neg]
    field_simp
    ring
  · simp [Real.exp_neg]
    field_simp
    ring

theorem bern_sum (p : ℝ) : ∑ b : Bool, bern p b = 1 := by simp [bern]

/-- Hidden vectors given visible ones. -/
noncomputable def hiddenGiven (M : Boltzmann) {B : Nat} (v : BitBatch M.n B) (h : BitBatch M.m B) : ℝ :=
  ∏ j, ∏ i : Fin M.m, bern (M.hiddenOn (ofBits (v j)) i) (h j i)

noncomputable def visibleGiven (M : Boltzmann) {B : Nat} (h : BitBatch M.m B) (v : BitBatch M.n B) : ℝ :=
  ∏ j, ∏ z : Fin M.n, bern (M.visibleOn (ofBits (h j)) z) (v j z)

theorem exp_prod {k : Nat} (a : Fin k → ℝ) (C : ℝ) (b : Fin k → Bool) :
    (∑ b' ∈ bits k, Real.exp ((∑ i, (if b' i then a i else 0)) + C)) * ∏ i, bern (logistic (a i)) (b i) =
      Real.exp ((∑ i, (if b i then a i else 0)) + C) := by
  simp only [Real.exp_add, ← sum_mul]
  rw [sum_bits]
  simp only [bern_logistic]
  rw [prod_div_distrib, ← Real.exp_sum]
  have h1 : ∏ i, (1 + Real.exp (a i)) ≠ 0 := prod_ne_zero_iff.2 (fun i _ => by positivity)
  field_simp

noncomputable def partition (M : Boltzmann) : ℝ := ∑ v' ∈ bits M.n, ∑ h' ∈ bits M.m, Real.exp (-M.energy (ofBits v') (ofBits h'))

theorem partition_pos (M : Boltzmann) : 0 < partition M :=
  sum_pos (fun v _ => sum_pos (fun h _ => Real.exp_pos _) (by simp [bits])) (by simp [bits])

theorem pair_right (M : Boltzmann) (v : Fin M.n → Bool) (h : Fin M.m → Bool) :
    (∑ h' : Fin M.m → Bool, M.pairLaw v h') * ∏ i : Fin M.m, bern (M.hiddenOn (ofBits v) i) (h i) = M.pairLaw v h := by
  unfold Boltzmann.pairLaw
  rw [← sum_div, div_mul_eq_mul_div]
  congr 1
  simp only [fun i : Fin M.m => hiddenOn_eq M (ofBits v) i i.2, energy_hidden]
  exact exp_prod (fun i : Fin M.m => ∑ z ∈ range M.n, ofBits v z * M.W i z + M.hb i) _ h

theorem pair_left (M : Boltzmann) (v : Fin M.n → Bool) (h : Fin M.m → Bool) :
    (∑ v' : Fin M.n → Bool, M.pairLaw v' h) * ∏ z : Fin M.n, bern (M.visibleOn (ofBits h) z) (v z) = M.pairLaw v h := by
  unfold Boltzmann.pairLaw
  rw [← sum_div, div_mul_eq_mul_div]
  congr 1
  simp only [fun z : Fin M.n => visibleOn_eq M (ofBits h) z z.2, energy_visible]
  exact exp_prod (fun z : Fin M.n => ∑ i ∈ range M.m, ofBits h i * M.W i z + M.vb z) _ v

theorem bern_pos {p : ℝ} (h0 : 0 < p) (h1 : p < 1) (b : Bool) : 0 < bern p b := by
  unfold bern; split
  · exact h0
  · linarith

theorem hiddenOn_mem (M : Boltzmann) (v : Nat → ℝ) (i : Fin M.m) : 0 < M.hiddenOn v i ∧ M.hiddenOn v i < 1 := by
  rw [hiddenOn_eq M v i i.2]; exact logistic_mem _

theorem visibleOn_mem (M : Boltzmann) (h : Nat → ℝ) (z : Fin M.n) : 0 < M.visibleOn h z ∧ M.visibleOn h z < 1 := by
  rw [visibleOn_eq M h z z.2]; exact logistic_mem _

theorem sum_prod_bern {k B : Nat} (p : Fin B → Fin k → ℝ) : ∑ b : BitBatch k B, ∏ j, ∏ i, bern (p j i) (b j i) = 1 := by
  rw [← Fintype.prod_sum (fun j (x : Fin k → Bool) => ∏ i, bern (p j i) (x i))]
  refine prod_eq_one (fun j _ => ?_)
  rw [← Fintype.prod_sum (fun i (x : Bool) => bern (p j i) x)]
  exact prod_eq_one (fun i _ => bern_sum _)

/-- The Boltzmann distribution of a batch and its conditionals. -/
theorem conditionals (M : Boltzmann) (B : Nat) :
    Conditionals (fun (v : BitBatch M.n B) (h : BitBatch M.m B) => M.law v h) (visibleGiven M) (hiddenGiven M) where
  left v h := by
    unfold Boltzmann.law visibleGiven
    rw [← Fintype.prod_sum (fun j (x : Fin M.n → Bool) => M.pairLaw x (h j)), ← prod_mul_distrib]
    exact prod_congr rfl (fun j _ => pair_left M (v j) (h j))
  right v h := by
    unfold Boltzmann.law hiddenGiven
    rw [← Fintype.prod_sum (fun j (x : Fin M.m → Bool) => M.pairLaw (v j) x), ← prod_mul_distrib]
    exact prod_congr rfl (fun j _ => pair_right M (v j) (h j))
  posv h v := prod_pos (fun j _ => prod_pos (fun z _ => bern_pos (visibleOn_mem M _ z).1 (visibleOn_mem M _ z).2 _))
  posh v h := prod_pos (fun j _ => prod_pos (fun i _ => bern_pos (hiddenOn_mem M _ i).1 (hiddenOn_mem M _ i).2 _))
  onev h := sum_prod_bern _
  oneh v := sum_prod_bern _
  pos v h := prod_nonneg (fun j _ => div_nonneg (Real.exp_pos _).le (partition_pos M).le)
  total := by
    unfold Boltzmann.law
    have h1 : ∀ v : BitBatch M.n B, ∑ h : BitBatch M.m B, ∏ j, M.pairLaw (v j) (h j) = ∏ j, ∑ b : Fin M.m → Bool, M.pairLaw (v j) b :=
      fun v => (Fintype.prod_sum (fun j (x : Fin M.m → Bool) => M.pairLaw (v j) x)).symm
    simp only [h1]
    rw [← Fintype.prod_sum (fun (_ : Fin B) (x : Fin M.n → Bool) => ∑ b : Fin M.m → Bool, M.pairLaw x b)]
    refine prod_eq_one (fun j _ => ?_)
    unfold Boltzmann.pairLaw
    simp only [← sum_div]
    exact div_self (partition_pos M).ne'

/-! ### One round -/

theorem IsBits.unique {k B : Nat} {x : Nat → Nat → ℝ} {b b' : BitBatch k B} (h : IsBits x b) (h' : IsBits x b') : b = b' := by
  funext j i
  have := (h j i).symm.trans (h' j i)
  revert this
  cases b j i <;> cases b' j i <;> simp

theorem column_bits {k B : Nat} {x : Nat → Nat → ℝ} {b : BitBatch k B} (h : IsBits x b) (j : Fin B) (i : Nat) (hi : i < k) : x i j = ofBits (b j) i := by
  unfold ofBits
  rw [dif_pos hi]
  exact h j ⟨i, hi⟩

theorem energy_congr (M : Boltzmann) {v v' h h' : Nat → ℝ} (hv : ∀ z, z < M.n → v z = v' z) (hh : ∀ i, i < M.m → h i = h' i) :
    M.energy v h = M.energy v' h' := by
  unfold Boltzmann.energy
  have e1 : ∑ i ∈ range M.m, ∑ z ∈ range M.n, h i * M.W i z * v z = ∑ i ∈ range M.m, ∑ z ∈ range M.n, h' i * M.W i z * v' z :=
    sum_congr rfl (fun i hi => sum_congr rfl (fun z hz => by rw [hh i (mem_range.1 hi), hv z (mem_range.1 hz)]))
  have e2 : ∑ i ∈ range M.m, M.hb i * h i = ∑ i ∈ range M.m, M.hb i * h' i := sum_congr rfl (fun i hi => by rw [hh i (mem_range.1 hi)])
  have e3 : ∑ z ∈ range M.n, M.vb z * v z = ∑ z ∈ range M.n, M.vb z * v' z := sum_congr rfl (fun z hz => by rw [hv z (mem_range.1 hz)])
  rw [e1, e2, e3]

theorem hiddenOn_bits (M : Boltzmann) {B : Nat} {x : Nat → Nat → ℝ} {b : BitBatch M.n B} (h : IsBits x b) (j : Fin B) (i : Nat) :
    M.hiddenOn (fun z => x z j) i = M.hiddenOn (ofBits (b j)) i := by
  unfold Boltzmann.hiddenOn
  have : ∀ h' : Fin M.m → Bool, M.energy (fun z => x z j) (ofBits h') = M.energy (ofBits (b j)) (ofBits h') :=
    fun h' => energy_congr M (fun z hz => column_bits h j z hz) (fun _ _ => rfl)
  simp only [this]

theorem visibleOn_bits (M : Boltzmann) {B : Nat} {x : Nat → Nat → ℝ} {b : BitBatch M.m B} (h : IsBits x b) (j : Fin B) (z : Nat) :
    M.visibleOn (fun i => x i j) z = M.visibleOn (ofBits (b j)) z := by
  unfold Boltzmann.visibleOn
  have : ∀ v' : Fin M.n → Bool, M.energy (ofBits v') (fun i => x i j) = M.energy (ofBits v') (ofBits (b j)) :=
    fun v' => energy_congr M (fun _ _ => rfl) (fun i hi => column_bits h j i hi)
  simp only [this]

/-- Drawn bits, as an event about the draws. -/
theorem sampled_isBits {k B : Nat} (draw : Draw) (p : Nat → Nat → ℝ) (b : BitBatch k B) :
    IsBits (sampled k draw p) b ↔ ∀ (x : Fin B × Fin k), draw (x.2 + k * x.1) 1 (p x.2 x.1) = if b x.1 x.2 then 1 else 0 := by
  unfold IsBits sampled
  constructor
  · intro h x
    have := h x.1 x.2
    split_ifs at this ⊢ <;> exact_mod_cast this
  · intro h j i
    have := h (j, i)
    dsimp only at this
    rw [this]
    split_ifs <;> simp

theorem exists_bits {k B : Nat} {x : Nat → Nat → ℝ} (h : ∀ i j, i < k → x i j = 0 ∨ x i j = 1) : ∃ b : BitBatch k B, IsBits x b := by
  refine ⟨fun j i => decide (x i j = 1), fun j i => ?_⟩
  rcases h i j i.2 with e | e <;> simp [e]

theorem index_inj {k B : Nat} : Function.Injective (fun x : Fin B × Fin k => (x.2 + k * x.1 : Nat)) := by
  intro x y h
  have : finProdFinEquiv x = finProdFinEquiv y := Fin.ext h
  exact finProdFinEquiv.injective this

variable {Ω S : Type} [MeasurableSpace Ω] {P : Measure Ω}

theorem event_meas {X : Ω → S} {D : Ω → Nat → Draw} (f : FairDraws P X D) (s : S) {ι : Type} [Fintype ι] (q : ι → Nat × Nat) (p : ι → ℝ) (b : ι → Bool) :
    MeasurableSet {ω | X ω = s ∧ ∀ x, D ω (q x).1 (q x).2 1 (p x) = if b x then 1 else 0} := by
  have : {ω | X ω = s ∧ ∀ x, D ω (q x).1 (q x).2 1 (p x) = if b x then 1 else 0} =
      {ω | X ω = s} ∩ ⋂ x, {ω | D ω (q x).1 (q x).2 1 (p x) = if b x then 1 else 0} := by
    ext ω; simp
  rw [this]
  exact (f.seen s).inter (MeasurableSet.iInter (fun x => f.drawn _ _ _ _))

variable [Fintype S] [IsProbabilityMeasure P]

theorem round_fair (M : Boltzmann) {B : Nat} {X : Ω → S} {D : Ω → Nat → Draw} (f : FairDraws P X D) (hid : S → BitBatch M.m B)
    (x : Ω → Nat → Nat → ℝ) (hx : ∀ ω, IsBits (x ω) (hid (X ω))) :
    ∃ Y : Ω → BitBatch M.n B × BitBatch M.m B,
      (∀ ω, IsBits (M.drawVisible (D ω 0) (x ω)) (Y ω).1 ∧ IsBits (M.drawHidden (D ω 1) (M.drawVisible (D ω 0) (x ω))) (Y ω).2) ∧
      FairDraws P Y (fun ω t => D ω (t + 2)) ∧
      ∀ y, P.real {ω | Y ω = y} = roundLaw (visibleGiven M) (hiddenGiven M) hid (fun s => P.real {ω | X ω = s}) y := by
  have ex : ∀ ω, ∃ y : BitBatch M.n B × BitBatch M.m B, IsBits (M.drawVisible (D ω 0) (x ω)) y.1 ∧ IsBits (M.drawHidden (D ω 1) (M.drawVisible (D ω 0) (x ω))) y.2 := by
    intro ω
    obtain ⟨v, hv⟩ := exists_bits (B := B) (fun z j hz => drawVisible_bit M (D ω 0) (f.lawful ω 0) (x ω) z j hz)
    obtain ⟨h, hh⟩ := exists_bits (B := B) (fun i j hi => drawHidden_bit M (D ω 1) (f.lawful ω 1) (M.drawVisible (D ω 0) (x ω)) i j hi)
    exact ⟨(v, h), hv, hh⟩
  choose Y hY using ex
  -- the event that the round gives `y` and other draws fall out in a given way, from `s`
  have key : ∀ (y : BitBatch M.n B × BitBatch M.m B) (ι : Type) [Fintype ι] (q : ι → Nat × Nat) (p : ι → ℝ) (b : ι → Bool),
      {ω | Y ω = y ∧ ∀ a, D ω ((q a).1 + 2) (q a).2 1 (p a) = if b a then 1 else 0} =
      ⋃ s ∈ (univ : Finset S), {ω | X ω = s ∧ ∀ a : (Fin B × Fin M.n) ⊕ ((Fin B × Fin M.m) ⊕ ι),
        D ω ((Sum.elim (fun c => ((0 : Nat), (c.2 + M.n * c.1 : Nat))) (Sum.elim (fun c => ((1 : Nat), (c.2 + M.m * c.1 : Nat))) (fun a => ((q a).1 + 2, (q a).2))) a).1)
          ((Sum.elim (fun c => ((0 : Nat), (c.2 + M.n * c.1 : Nat))) (Sum.elim (fun c => ((1 : Nat), (c.2 + M.m * c.1 : Nat))) (fun a => ((q a).1 + 2, (q a).2))) a).2) 1
          (Sum.elim (fun c => M.visibleOn (ofBits (hid s c.1)) c.2) (Sum.elim (fun c => M.hiddenOn (ofBits (y.1 c.1)) c.2) p) a) =
        if (Sum.elim (fun c => y.1 c.1 c.2) (Sum.elim (fun c => y.2 c.1 c.2) b) a) then 1 else 0} := by
    intro y ι _ q p b
    ext ω
    simp only [Set.mem_setOf_eq, Set.mem_iUnion, mem_univ, exists_prop, true_and, exists_eq_left', Sum.forall, Sum.elim_inl, Sum.elim_inr]
    have hv : IsBits (M.drawVisible (D ω 0) (x ω)) y.1 ↔
        ∀ c : Fin B × Fin M.n, D ω 0 (c.2 + M.n * c.1) 1 (M.visibleOn (ofBits (hid (X ω) c.1)) c.2) = if y.1 c.1 c.2 then 1 else 0 := by
      unfold Boltzmann.drawVisible
      rw [sampled_isBits]
      refine forall_congr' (fun c => ?_)
      rw [visibleOn_bits M (hx ω)]
    have hh : IsBits (M.drawVisible (D ω 0) (x ω)) y.1 → (IsBits (M.drawHidden (D ω 1) (M.drawVisible (D ω 0) (x ω))) y.2 ↔
        ∀ c : Fin B × Fin M.m, D ω 1 (c.2 + M.m * c.1) 1 (M.hiddenOn (ofBits (y.1 c.1)) c.2) = if y.2 c.1 c.2 then 1 else 0) := by
      intro hy
      unfold Boltzmann.drawHidden
      rw [sampled_isBits]
      refine forall_congr' (fun c => ?_)
      rw [hiddenOn_bits M hy]
    constructor
    · rintro ⟨e, h3⟩
      have h1 := (hY ω).1
      have h2 := (hY ω).2
      rw [e] at h1 h2
      exact ⟨hv.1 h1, (hh h1).1 h2, h3⟩
    · rintro ⟨h1, h2, h3⟩
      have g1 := hv.2 h1
      have g2 := (hh g1).2 h2
      exact ⟨Prod.ext (IsBits.unique (hY ω).1 g1) (IsBits.unique (hY ω).2 g2), h3⟩
  have prob : ∀ (y : BitBatch M.n B × BitBatch M.m B) (ι : Type) [Fintype ι] (q : ι → Nat × Nat) (p : ι → ℝ) (b : ι → Bool),
      Function.Injective q → (∀ a, 0 ≤ p a ∧ p a ≤ 1) →
      P.real {ω | Y ω = y ∧ ∀ a, D ω ((q a).1 + 2) (q a).2 1 (p a) = if b a then 1 else 0} =
      roundLaw (visibleGiven M) (hiddenGiven M) hid (fun s => P.real {ω | X ω = s}) y * ∏ a, if b a then p a else 1 - p a := by
    intro y ι _ q p b hq hp
    rw [key y ι q p b, measureReal_biUnion_finset]
    · unfold roundLaw
      rw [sum_mul]
      refine sum_congr rfl (fun s _ => ?_)
      rw [f.fair s ((Fin B × Fin M.n) ⊕ ((Fin B × Fin M.m) ⊕ ι))]
      · rw [Fintype.prod_sum_type, Fintype.prod_sum_type]
        simp only [Sum.elim_inl, Sum.elim_inr]
        rw [Fintype.prod_prod_type, Fintype.prod_prod_type]
        simp only [visibleGiven, hiddenGiven, bern]
        rw [mul_assoc, mul_assoc]
        congr!
      · rintro (a | a | a) (c | c | c) h
        · simp only [Sum.elim_inl, Prod.mk.injEq, true_and] at h
          rw [index_inj h]
        · simp at h
        · simp at h
        · simp at h
        · simp only [Sum.elim_inl, Sum.elim_inr, Prod.mk.injEq, true_and] at h
          rw [index_inj h]
        · simp at h
        · simp at h
        · simp at h
        · simp only [Sum.elim_inr, Prod.mk.injEq, Nat.add_right_cancel_iff] at h
          rw [hq (Prod.ext h.1 h.2)]
      · rintro (a | a | a)
        · exact ⟨(visibleOn_mem M _ a.2).1.le, (visibleOn_mem M _ a.2).2.le⟩
        · exact ⟨(hiddenOn_mem M _ a.2).1.le, (hiddenOn_mem M _ a.2).2.le⟩
        · exact hp a
    · intro s _ s' _ hne
      refine Set.disjoint_left.2 (fun ω h1 h2 => hne ?_)
      exact h1.1.symm.trans h2.1
    · intro s _
      exact event_meas f s _ _ _
  have law : ∀ y, P.real {ω | Y ω = y} = roundLaw (visibleGiven M) (hiddenGiven M) hid (fun s => P.real {ω | X ω = s}) y := by
    intro y
    have := prob y Empty (fun a => a.elim) (fun a => a.elim) (fun a => a.elim) (fun a => a.elim) (fun a => a.elim)
    simpa using this
  refine ⟨Y, hY, ⟨fun ω t => f.lawful ω (t + 2), fun y => ?_, fun t i p a => f.drawn (t + 2) i p a, fun y ι _ q p b hq hp => ?_⟩, law⟩
  · have := key y Empty (fun a => a.elim) (fun a => a.elim) (fun a => a.elim)
    have e : {ω | Y ω = y} = {ω | Y ω = y ∧ ∀ a : Empty, D ω ((a.elim : Nat × Nat).1 + 2) (a.elim : Nat × Nat).2 1 (a.elim : ℝ) = if (a.elim : Bool) then 1 else 0} := by
      ext ω; simp
    rw [e, this]
    exact Finset.measurableSet_biUnion _ (fun s _ => event_meas f s _ _ _)
  · rw [law y]
    exact prob y ι q p b hq hp

/-- `k + 1` rounds. -/
theorem rounds_fair (M : Boltzmann) {B : Nat} (k : Nat) : ∀ {S : Type} [Fintype S] {X : Ω → S} {D : Ω → Nat → Draw} (_ : FairDraws P X D) (hid : S → BitBatch M.m B)
    (v0 x : Ω → Nat → Nat → ℝ) (_ : ∀ ω, IsBits (x ω) (hid (X ω))),
    ∃ Y : Ω → BitBatch M.n B × BitBatch M.m B,
      (∀ ω, IsBits (M.gibbs (k + 1) (D ω) (v0 ω, x ω)).1 (Y ω).1 ∧ IsBits (M.gibbs (k + 1) (D ω) (v0 ω, x ω)).2 (Y ω).2) ∧
      (∀ y, P.real {ω | Y ω = y} = after (visibleGiven M) (hiddenGiven M) k
        (roundLaw (visibleGiven M) (hiddenGiven M) hid (fun s => P.real {ω | X ω = s})) y) ∧ ∀ y, MeasurableSet {ω | Y ω = y} := by
  induction k with
  | zero =>
    intro S _ X D f hid v0 x hx
    obtain ⟨Y, h1, h2, h3⟩ := round_fair M f hid x hx
    exact ⟨Y, h1, h3, h2.seen⟩
  | succ k ih =>
    intro S _ X D f hid v0 x hx
    obtain ⟨Y, h1, h2, h3⟩ := round_fair M f hid x hx
    obtain ⟨Z, g1, g2, g3⟩ := ih h2 Prod.snd (fun ω => M.drawVisible (D ω 0) (x ω)) (fun ω => M.drawHidden (D ω 1) (M.drawVisible (D ω 0) (x ω))) (fun ω => (h1 ω).2)
    refine ⟨Z, g1, fun y => ?_, g3⟩
    rw [g2 y]
    simp only [after, h3]

/-- The law of `X` is a distribution. -/
theorem law_total {X : Ω → S} (hX : ∀ s, MeasurableSet {ω | X ω = s}) : ∑ s, P.real {ω | X ω = s} = 1 := by
  rw [← measureReal_biUnion_finset (fun s _ s' _ hne => Set.disjoint_left.2 (fun ω h1 h2 => hne (h1.symm.trans h2))) (fun s _ => hX s)]
  have : (⋃ s ∈ (univ : Finset S), {ω | X ω = s}) = Set.univ := by ext ω; simp
  rw [this]
  simp

end Verif.Props
