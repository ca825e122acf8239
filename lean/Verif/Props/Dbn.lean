import Verif.Lemmas.Dbn
import Verif.Lemmas.RbmOn
import Verif.Props.DqnNet
/-!
# C70: deep belief networks
-/
namespace Verif.Props
open Spec Backprop Finset
open scoped Classical
variable {shp : Backprop.Leaf → List Nat} {val : Backprop.Leaf → Nat → Nat → ℝ}
variable {d : DbnVars} {n B x y : Nat}

namespace Db

theorem leaf_pair {l : Backprop.Leaf} {a b : Nat} (ha : 0 < a) (hb : 0 < b) (h : shp l = [a, b] ∨ (b = 1 ∧ shp l = [a])) :
    Typed shp (.leaf l) ∧ dims shp (.leaf l) = (a, b) := by
  refine ⟨⟨a, b, ha, hb, h⟩, ?_⟩
  rcases h with h | ⟨hB, h⟩ <;> simp only [dims, h, leafSize]
  rw [hB]

/-- The activations of the last layer. -/
theorem logits (h : DbnFits d n B x y shp) :
    ∃ a, stackProp d.layers (.leaf ⟨false, x⟩) = .ok a ∧ propUp (net d) (.leaf ⟨false, x⟩) = .ok (logitTerm a d) ∧ Ok shp d.out B (logitTerm a d) ∧
      ∀ val i j, den shp val (logitTerm a d) i j = logit d n val (fun z => val ⟨false, x⟩ z j) i := by
  obtain ⟨tx, dx⟩ := leaf_pair h.pos.1 h.pos.2.1 h.input
  obtain ⟨s1, s2⟩ := net_shapes d.layers n h.stack h.pos.2.2 h.weight h.bias
  obtain ⟨e, p1, p2, p3, p4⟩ := propUp_den (shp := shp) (net d) (.leaf ⟨false, x⟩) n B tx dx s1
  have p1' := p1
  unfold net at p1'
  rw [prop_eq] at p1'
  obtain ⟨a, q1, q2⟩ := Outcome.bind_eq_ok.1 p1'
  cases q2
  refine ⟨a, q1, p1, ⟨p2, p3.trans (by unfold net; rw [s2])⟩, fun val i j => ?_⟩
  rw [p4]
  exact feed_logit val d d.layers n _ i

theorem up_eq (h : DbnFits d n B x y shp) : ∃ a, stackProp d.layers (.leaf ⟨false, x⟩) = .ok a ∧ propUp (net d) (.leaf ⟨false, x⟩) = .ok (logitTerm a d) ∧ Ok shp d.out B (logitTerm a d) ∧
      (∀ val i j, den shp val (logitTerm a d) i j = logit d n val (fun z => val ⟨false, x⟩ z j) i) ∧
      dbnUp d n (shp ⟨false, x⟩) (.leaf ⟨false, x⟩) = .ok (O (logitTerm a d)) := by
  obtain ⟨a, h1, h2, h3, h4⟩ := logits h
  refine ⟨a, h1, h2, h3, h4, ?_⟩
  have hc : Shape.isCompatibleWith (shp ⟨false, x⟩) [n, 0] = true := by
    rcases h.input with hx | ⟨_, hx⟩ <;> rw [hx]
    · simp [Shape.isCompatibleWith, Shape.matchLoop, Shape.dimMatch]
    · have hn := h.pos.1
      by_cases h1 : n = 1
      · subst h1; decide
      · have h0 : n ≠ 0 := by omega
        simp [Shape.isCompatibleWith, Shape.stripOnesFront, Shape.stripOnesBack, Shape.stripZerosBack, Shape.stripZerosFront, Shape.matchLoop, Shape.dimMatch, h1, h0]
  unfold dbnUp
  rw [hc, Outcome.assert_true, Outcome.ok_bind, h1, Outcome.ok_bind]
  exact softmax_eq (z := logitTerm a d) h3.typed

/-- What `derive` builds from the cost of fine-tuning for a variable in use. -/
theorem derive_C (h : DbnFits d n B x y shp) {a : Term} (hp : propUp (net d) (.leaf ⟨false, x⟩) = .ok (logitTerm a d)) (hz : Ok shp d.out B (logitTerm a d))
    (hden : ∀ val i j, den shp val (logitTerm a d) i j = logit d n val (fun z => val ⟨false, x⟩ z j) i) {v : Nat} (hv : v ∈ usedVars d) :
    ∃ (e : Term) (G : Nat → Nat → ℝ), derive v (C (logitTerm a d)) = .ok e ∧ (∀ c, e ≠ .const c) ∧
      Is shp val e (leafSize (shp ⟨true, v⟩)).1 (leafSize (shp ⟨true, v⟩)).2 G ∧ ∀ p q, IsEntry shp v p q → ∃ D : Nat → Nat → ℝ,
        (∀ i < d.out, ∀ j < B, HasDerivAt (fun s => logit d n (setAt val v p q s) (fun z => val ⟨false, x⟩ z j) i) (D i j) (val ⟨true, v⟩ p q)) ∧
        G p q = -((∑ i ∈ range d.out, ∑ j ∈ range B, (1 - batchSoftmax d.out B (fun i j => logit d n val (fun z => val ⟨false, x⟩ z j) i) i j) * D i j) / (d.out * B)) := by
  obtain ⟨tx, dx⟩ := leaf_pair h.pos.1 h.pos.2.1 h.input
  obtain ⟨s1, s2⟩ := net_shapes d.layers n h.stack h.pos.2.2 h.weight h.bias
  obtain ⟨e, k, c', gf, q1, q2, q3, q4⟩ := propUp_inv (val := val) (net d) (.leaf ⟨false, x⟩) n B tx (Qn.free_ph _) dx s1
    (by rw [params_net]; exact used_nodup d h.nodup) (by rw [params_net]; exact hv)
  rw [hp] at q1; cases q1
  obtain ⟨R, r1, r2, r3, r4⟩ := info_C hz q3 q4
  have hkd : dims shp k = (d.out, B) := by rw [← q3.same, hz.dims]
  obtain ⟨e, e1, e2, e3⟩ := q2.call R _ (.inr r2) (by rw [hkd]; exact r4)
  refine ⟨e, _, ?_, e2 r2, e3, fun p q hpq => ⟨fun i j => gf i j * c' i j p q, fun i hi j hj => ?_, ?_⟩⟩
  · unfold derive Info.derive
    rw [r1, Outcome.ok_bind, r3, e1]
  · have := q3.deriv i j p q (by rw [hz.dims]; exact hi) (by rw [hz.dims]; exact hj) hpq.1 hpq.2
    refine this.congr_of_eventuallyEq (Filter.Eventually.of_forall fun s => ?_)
    show _ = den shp (setAt val v p q s) (logitTerm a d) i j
    rw [hden]
    congr 1
  · rw [hkd]
    have hb : den shp val (logitTerm a d) = fun i j => logit d n val (fun z => val ⟨false, x⟩ z j) i := by
      funext i j; exact hden val i j
    rw [hb, sum_div, ← sum_neg_distrib]
    refine sum_congr rfl (fun i _ => ?_)
    rw [sum_div, ← sum_neg_distrib]
    exact sum_congr rfl (fun j _ => by ring)

/-- A variable that is not in use. -/
theorem derive_unused (h : DbnFits d n B x y shp) {a : Term} (hp : propUp (net d) (.leaf ⟨false, x⟩) = .ok (logitTerm a d)) {v : Nat} (hv : v ∉ usedVars d) :
    derive v (C (logitTerm a d)) = .ok (.const 0) := by
  obtain ⟨tx, dx⟩ := leaf_pair h.pos.1 h.pos.2.1 h.input
  obtain ⟨s1, s2⟩ := net_shapes d.layers n h.stack h.pos.2.2 h.weight h.bias
  have hf := propUp_free (v := v) (net d) (.leaf ⟨false, x⟩) n B tx (Qn.free_ph _) dx s1 (by rw [params_net]; exact hv) _ hp
  have hO : Free v (O (logitTerm a d)) := ⟨hf, hf⟩
  have hC : Free v (C (logitTerm a d)) := ⟨hO, hO⟩
  obtain ⟨h1, h2⟩ := info_free hC
  unfold derive Info.derive Info.list
  rw [h1, h2]
  rfl

theorem stack_typed : ∀ (rs : List (RbmVars × Nat)) (n : Nat), 0 < n → StackFits shp n rs →
    0 < stackOut n rs ∧ ∀ v ∈ rs.flatMap (fun r => [r.1.w, r.1.hb, r.1.vb]), Typed shp (.leaf ⟨true, v⟩) := by
  intro rs
  induction rs with
  | nil => intro n hn _; exact ⟨hn, by simp⟩
  | cons r rs ih =>
    intro n hn hs
    obtain ⟨h1, h2⟩ := ih r.2 hs.1 hs.2.2.2.2
    refine ⟨h1, fun v hv => ?_⟩
    rw [List.flatMap_cons] at hv
    rcases List.mem_append.1 hv with hv | hv
    · simp only [List.mem_cons, List.not_mem_nil, or_false] at hv
      rcases hv with rfl | rfl | rfl
      · exact ⟨r.2, n, hs.1, hn, .inl hs.2.1⟩
      · exact ⟨r.2, 1, hs.1, by decide, .inr ⟨rfl, hs.2.2.1⟩⟩
      · exact ⟨n, 1, hn, by decide, .inr ⟨rfl, hs.2.2.2.1⟩⟩
    · exact h2 v hv

theorem vars_typed (h : DbnFits d n B x y shp) : ∀ v ∈ d.variables, Typed shp (.leaf ⟨true, v⟩) := by
  obtain ⟨h1, h2⟩ := stack_typed d.layers n h.pos.1 h.stack
  intro v hv
  unfold DbnVars.variables at hv
  rcases List.mem_append.1 hv with hv | hv
  · exact h2 v hv
  · simp only [List.mem_cons, List.not_mem_nil, or_false] at hv
    rcases hv with rfl | rfl
    · exact ⟨d.out, _, h.pos.2.2, h1, .inl h.weight⟩
    · exact ⟨d.out, 1, h.pos.2.2, by decide, .inr ⟨rfl, h.bias⟩⟩

theorem update_zero (env : Env ℝ) (hz : env.zero = 0) (on : Bool) (lr : ℝ) (ρ : Backprop.Leaf → Tensor ℝ) (l : Backprop.Leaf) (hl : Typed shp (.leaf l))
    (t : Tensor ℝ) (ht : Holds t (shp l) (fun c => val l (c.getD 0 0) (c.getD 1 0))) : rbmUpdate env on lr ρ (.const 0) t = .ok t := by
  obtain ⟨hw, buf, hr, hlen, hb⟩ := batch_buf (leaf_batch hl ht)
  unfold rbmUpdate
  show (Verif.Leaf.assignSub env ⟨t, true, none⟩ (.const [lr * 0]) >>= fun l => .ok l.data) = _
  rw [Leaf.assignSub, c42_update_constant env _ true ⟨t, true, none⟩ buf [lr * 0] hw hr, if_pos ⟨rfl, by rw [hz, mul_zero]⟩]
  rfl

theorem updates (env : Env ℝ) (hm : ∀ n, env.fits n = true) (hz : env.zero = 0) (on : Bool) (lr : ℝ) (ρ₀ : Backprop.Leaf → Tensor ℝ)
    (hρ : LeavesHold ρ₀ shp val) (e : Term) (G : Nat → Nat → Nat → ℝ) : ∀ (vs : List Nat) (ρ : Backprop.Leaf → Tensor ℝ), vs.Nodup →
    (∀ v ∈ vs, Typed shp (.leaf ⟨true, v⟩) ∧ ((derive v e = .ok (.const 0) ∧ ∀ p q, G v p q = 0) ∨ ∃ d, derive v e = .ok d ∧ (∀ c, d ≠ .const c) ∧
      Is shp val d (leafSize (shp ⟨true, v⟩)).1 (leafSize (shp ⟨true, v⟩)).2 (G v))) →
    (∀ v ∈ vs, ρ ⟨true, v⟩ = ρ₀ ⟨true, v⟩) →
    ∃ ρ', rbmUpdates env on lr e ρ₀ vs ρ = .ok ρ' ∧ (∀ l, (∀ v ∈ vs, l ≠ ⟨true, v⟩) → ρ' l = ρ l) ∧
      ∀ v ∈ vs, Holds (ρ' ⟨true, v⟩) (shp ⟨true, v⟩)
        (fun c => val ⟨true, v⟩ (c.getD 0 0) (c.getD 1 0) - lr * G v (c.getD 0 0) (c.getD 1 0)) := by
  intro vs
  induction vs with
  | nil => intro ρ _ _ _; exact ⟨ρ, rfl, fun _ _ => rfl, fun v hv => absurd hv (by simp)⟩
  | cons v vs ih =>
    intro ρ hnd hd hsame
    obtain ⟨hv, hnd⟩ := List.nodup_cons.1 hnd
    obtain ⟨hty, hcase⟩ := hd v (by simp)
    have hold : Holds (ρ ⟨true, v⟩) (shp ⟨true, v⟩) (fun c => val ⟨true, v⟩ (c.getD 0 0) (c.getD 1 0)) := by
      rw [hsame v (by simp)]; exact hρ _
    have hstep : ∃ dd t', derive v e = .ok dd ∧ rbmUpdate env on lr ρ₀ dd (ρ ⟨true, v⟩) = .ok t' ∧
        Holds t' (shp ⟨true, v⟩) (fun c => val ⟨true, v⟩ (c.getD 0 0) (c.getD 1 0) - lr * G v (c.getD 0 0) (c.getD 1 0)) := by
      rcases hcase with ⟨h1, h2⟩ | ⟨dd, h1, h2, h3⟩
      · refine ⟨_, _, h1, update_zero env hz on lr ρ₀ ⟨true, v⟩ hty _ hold, ?_⟩
        simpa [h2] using hold
      · obtain ⟨t', h4, h5⟩ := rbm_update env hm hz on lr ρ₀ hρ dd (G v) h2 ⟨true, v⟩ hty h3 (ρ ⟨true, v⟩) hold
        exact ⟨dd, t', h1, h4, h5⟩
    obtain ⟨dd, t', h1, h4, h5⟩ := hstep
    have hne : ∀ u ∈ vs, (⟨true, u⟩ : Backprop.Leaf) ≠ ⟨true, v⟩ := by
      intro u hu h; injection h with _ h; exact hv (h ▸ hu)
    obtain ⟨ρ', h6, h7, h8⟩ := ih (put ρ ⟨true, v⟩ t') hnd (fun u hu => hd u (by simp [hu])) (fun u hu => by
      unfold put; rw [if_neg (hne u hu)]; exact hsame u (by simp [hu]))
    refine ⟨ρ', ?_, fun l hl => ?_, fun u hu => ?_⟩
    · rw [rbmUpdates, h1, Outcome.ok_bind, h4, Outcome.ok_bind, h6]
    · rw [h7 l (fun u hu => hl u (by simp [hu]))]
      unfold put; rw [if_neg (hl v (by simp))]
    · rcases List.mem_cons.1 hu with rfl | hu
      · rw [h7 _ (fun w hw h => by injection h with _ h; exact hv (h ▸ hw))]
        unfold put; rw [if_pos rfl]; exact h5
      · exact h8 u hu

/-- The softmax of a batch. -/
theorem soft_pos {m B : Nat} (hm : 0 < m) (hB : 0 < B) (z : Nat → Nat → ℝ) : 0 < ∑ i ∈ range m, ∑ j ∈ range B, Real.exp (z i j) :=
  sum_pos (fun _ _ => sum_pos (fun _ _ => Real.exp_pos _) ⟨0, mem_range.2 hB⟩) ⟨0, mem_range.2 hm⟩

theorem soft_lt {m B : Nat} (z : Nat → Nat → ℝ) {i j : Nat} (hi : i < m) (hj : j < B) (hN : 1 < m * B) : batchSoftmax m B z i j < 1 := by
  unfold batchSoftmax
  rw [div_lt_one (soft_pos (by omega) (by omega) z)]
  rw [← add_sum_erase _ _ (mem_range.2 hi), ← add_sum_erase (range B) _ (mem_range.2 hj), add_assoc]
  refine lt_add_of_pos_right _ ?_
  have p1 : 0 ≤ ∑ j ∈ (range B).erase j, Real.exp (z i j) := sum_nonneg (fun _ _ => (Real.exp_pos _).le)
  have p2 : 0 ≤ ∑ i ∈ (range m).erase i, ∑ j ∈ range B, Real.exp (z i j) := sum_nonneg (fun _ _ => sum_nonneg (fun _ _ => (Real.exp_pos _).le))
  by_cases hm1 : m = 1
  · have hB1 : 1 < B := by subst hm1; omega
    refine add_pos_of_pos_of_nonneg (sum_pos (fun _ _ => Real.exp_pos _) ?_) p2
    refine ⟨if j = 0 then 1 else 0, ?_⟩
    rw [mem_erase, mem_range]
    split_ifs <;> omega
  · refine add_pos_of_nonneg_of_pos p1 (sum_pos (fun _ _ => sum_pos (fun _ _ => Real.exp_pos _) ⟨0, mem_range.2 (by omega)⟩) ?_)
    refine ⟨if i = 0 then 1 else 0, ?_⟩
    rw [mem_erase, mem_range]
    split_ifs <;> omega

theorem stack_congr {val' : Backprop.Leaf → Nat → Nat → ℝ} : ∀ (rs : List (RbmVars × Nat)) (n : Nat) (a : Nat → ℝ),
    (∀ v ∈ rs.flatMap (fun r => [r.1.w, r.1.hb, r.1.vb]), val ⟨true, v⟩ = val' ⟨true, v⟩) → stackAct val n rs a = stackAct val' n rs a := by
  intro rs
  induction rs with
  | nil => intro n a _; rfl
  | cons r rs ih =>
    intro n a hv
    show stackAct val r.2 rs _ = stackAct val' r.2 rs _
    rw [ih _ _ (fun v h => hv v (by rw [List.flatMap_cons]; exact List.mem_append.2 (.inr h)))]
    congr 1
    funext i
    unfold machine
    have h1 := hv r.1.w (by rw [List.flatMap_cons]; simp)
    have h2 := hv r.1.hb (by rw [List.flatMap_cons]; simp)
    have h3 := hv r.1.vb (by rw [List.flatMap_cons]; simp)
    simp only [h1, h2, h3]

theorem logit_congr {val' : Backprop.Leaf → Nat → Nat → ℝ} (hv : ∀ v, val ⟨true, v⟩ = val' ⟨true, v⟩) (a : Nat → ℝ) (i : Nat) :
    logit d n val a i = logit d n val' a i := by
  unfold logit
  rw [stack_congr d.layers n a (fun v _ => hv v)]
  simp only [hv]

/-- The activations as a function of an output bias. -/
theorem logit_bias (hnd : d.variables.Nodup) (p : Nat) (s : ℝ) (a : Nat → ℝ) (i : Nat) :
    logit d n (setAt val d.bias p 0 s) a i = if i = p then ∑ z ∈ range (stackOut n d.layers), stackAct val n d.layers a z * val ⟨true, d.w⟩ i z + s else logit d n val a i := by
  unfold DbnVars.variables at hnd
  obtain ⟨_, h2, h3⟩ := List.nodup_append.1 hnd
  have hw : d.w ≠ d.bias := by simpa using h2
  have e1 : ∀ v, v ≠ d.bias → setAt val d.bias p 0 s ⟨true, v⟩ = val ⟨true, v⟩ := by
    intro v hv
    funext i j
    unfold setAt
    rw [if_neg]
    rintro ⟨h, _⟩
    injection h with _ h
    exact hv h
  unfold logit
  rw [stack_congr d.layers n a (fun v hv => e1 v (h3 v hv d.bias (by simp))), e1 _ hw]
  by_cases hi : i = p
  · rw [if_pos hi]
    simp [setAt, hi]
  · rw [if_neg hi]
    simp [setAt, hi]

theorem logit_bias_deriv (hnd : d.variables.Nodup) (p : Nat) (a : Nat → ℝ) (i : Nat) :
    HasDerivAt (fun s => logit d n (setAt val d.bias p 0 s) a i) (if i = p then 1 else 0) (val ⟨true, d.bias⟩ p 0) := by
  simp only [logit_bias hnd]
  by_cases hi : i = p
  · simp only [if_pos hi]
    exact (hasDerivAt_id _).const_add _
  · simp only [if_neg hi]
    exact hasDerivAt_const _ _

theorem bias_entry (h : DbnFits d n B x y shp) {p : Nat} (hp : p < d.out) : IsEntry shp d.bias p 0 := by
  unfold IsEntry
  rw [h.bias]
  exact ⟨hp, Nat.one_pos⟩

/-- How the step moves an output bias. -/
theorem bias_step (h : DbnFits d n B x y shp) {lr : ℝ} {val' : Backprop.Leaf → Nat → Nat → ℝ} (hs : TuneStep d n B x shp lr val val') {p : Nat} (hp : p < d.out) :
    val' ⟨true, d.bias⟩ p 0 = val ⟨true, d.bias⟩ p 0 + lr / (d.out * B) *
      ∑ j ∈ range B, (1 - batchSoftmax d.out B (fun i j => logit d n val (fun z => val ⟨false, x⟩ z j) i) p j) := by
  obtain ⟨D, h1, h2⟩ := hs.moved d.bias (by simp [usedVars]) p 0 (bias_entry h hp)
  rw [h2]
  congr 2
  rw [sum_eq_single p]
  · refine sum_congr rfl (fun j hj => ?_)
    rw [(h1 p hp j (mem_range.1 hj)).unique (logit_bias_deriv h.nodup p _ p), if_pos rfl, mul_one]
  · intro i hi hne
    refine sum_eq_zero (fun j hj => ?_)
    rw [(h1 i (mem_range.1 hi) j (mem_range.1 hj)).unique (logit_bias_deriv h.nodup p _ i), if_neg hne, mul_zero]
  · intro hh; exact absurd (mem_range.2 hp) hh

/-- The derivative of the cost for an output bias. -/
theorem cost_bias (h : DbnFits d n B x y shp) {p : Nat} (hp : p < d.out) :
    HasDerivAt (fun s => tuneCostOf d n B x (setAt val d.bias p 0 s))
      (-((B : ℝ) / (d.out * B)) + ∑ j ∈ range B, batchSoftmax d.out B (fun i j => logit d n val (fun z => val ⟨false, x⟩ z j) i) p j) (val ⟨true, d.bias⟩ p 0) := by
  have hN : ((d.out : ℝ) * B) ≠ 0 := by
    have := h.pos
    exact_mod_cast (Nat.mul_pos this.2.2 this.2.1).ne'
  let f : ℝ → Nat → Nat → ℝ := fun s i j => logit d n (setAt val d.bias p 0 s) (fun z => val ⟨false, x⟩ z j) i
  have hf : ∀ i j, HasDerivAt (fun s => f s i j) (if i = p then 1 else 0) (val ⟨true, d.bias⟩ p 0) := fun i j => logit_bias_deriv h.nodup p _ i
  have hcost : (fun s => tuneCostOf d n B x (setAt val d.bias p 0 s)) = fun s =>
      -((∑ i ∈ range d.out, ∑ j ∈ range B, f s i j) / (d.out * B)) + Real.log (∑ i ∈ range d.out, ∑ j ∈ range B, Real.exp (f s i j)) := by
    funext s
    have hp := soft_pos h.pos.2.2 h.pos.2.1 (f s)
    have hx : ∀ j z, setAt val d.bias p 0 s ⟨false, x⟩ z j = val ⟨false, x⟩ z j := by intro j z; simp [setAt]
    unfold tuneCostOf
    simp only [hx]
    show -((∑ i ∈ range d.out, ∑ j ∈ range B, Real.log (Real.exp (f s i j) / ∑ i ∈ range d.out, ∑ j ∈ range B, Real.exp (f s i j))) / (d.out * B)) = _
    simp only [Real.log_div (Real.exp_ne_zero _) hp.ne', Real.log_exp, sum_sub_distrib, sum_const, card_range, nsmul_eq_mul]
    rw [sub_div, ← mul_assoc, mul_div_cancel_left₀ _ hN]
    ring
  rw [hcost]
  have e1 : HasDerivAt (fun s => ∑ i ∈ range d.out, ∑ j ∈ range B, f s i j) (∑ i ∈ range d.out, ∑ j ∈ range B, (if i = p then 1 else 0)) (val ⟨true, d.bias⟩ p 0) :=
    HasDerivAt.fun_sum (fun i _ => HasDerivAt.fun_sum (fun j _ => hf i j))
  have e2 : HasDerivAt (fun s => ∑ i ∈ range d.out, ∑ j ∈ range B, Real.exp (f s i j))
      (∑ i ∈ range d.out, ∑ j ∈ range B, Real.exp (f (val ⟨true, d.bias⟩ p 0) i j) * (if i = p then 1 else 0)) (val ⟨true, d.bias⟩ p 0) :=
    HasDerivAt.fun_sum (fun i _ => HasDerivAt.fun_sum (fun j _ => (hf i j).exp))
  have e3 := (e1.div_const ((d.out : ℝ) * B)).fun_neg.fun_add (e2.log (soft_pos h.pos.2.2 h.pos.2.1 _).ne')
  refine e3.congr_deriv ?_
  have hself : f (val ⟨true, d.bias⟩ p 0) = fun i j => logit d n val (fun z => val ⟨false, x⟩ z j) i := by
    funext i j
    simp only [f, Backprop.setAt_self]
  rw [hself]
  congr 1
  · congr 2
    rw [sum_eq_single p (fun i _ hi => by simp [hi]) (fun hh => absurd (mem_range.2 hp) hh)]
    simp
  · rw [sum_eq_single p (fun i _ hi => by simp [hi]) (fun hh => absurd (mem_range.2 hp) hh), sum_div]
    exact sum_congr rfl (fun j _ => by rw [if_pos rfl, mul_one]; rfl)

end Db

/-! ### The output -/

/-- `prop_up`: the assertion holds, and the output is the softmax of the last layer's activations for the probabilities of
the stack's hidden units, over all outputs of the batch together. -/
theorem c70_output (env : Env ℝ) (hm : ∀ n, env.fits n = true) (on : Bool) (ρ : Backprop.Leaf → Tensor ℝ) (hρ : LeavesHold ρ shp val)
    (h : DbnFits d n B x y shp) :
    ∃ o t, dbnUp d n (shp ⟨false, x⟩) (.leaf ⟨false, x⟩) = .ok o ∧ eval env on ρ o = .ok t ∧
      Batch t d.out B (batchSoftmax d.out B (fun i j => logit d n val (fun z => val ⟨false, x⟩ z j) i)) := by
  obtain ⟨a, _, _, h3, h4, h5⟩ := Db.up_eq h
  obtain ⟨o1, o2, o3⟩ := h3.O (val := val)
  obtain ⟨t, e1, e2⟩ := c60_eval env hm on ρ hρ _ o1
  refine ⟨_, t, h5, e1, ?_⟩
  rw [o2] at e2
  refine batch_congr e2 (fun i j hi hj => ?_)
  rw [o3 i j hi hj]
  congr 1
  funext i j
  exact h4 val i j

/-- An input of another width violates the assertion. -/
theorem c70_width (d : DbnVars) (n k B : Nat) (x : Term) (hn : 0 < n) (hk : 0 < k) (hne : k ≠ n) : dbnUp d n [k, B] x = .abort := by
  have hc : Shape.isCompatibleWith [k, B] [n, 0] = false := by
    simp [Shape.isCompatibleWith, Shape.matchLoop, Shape.dimMatch]
    omega
  unfold dbnUp
  rw [hc]
  rfl

/-- The outputs are positive and sum to one over the whole batch. -/
theorem c70_distribution (m B : Nat) (hm : 0 < m) (hB : 0 < B) (z : Nat → Nat → ℝ) :
    (∀ i j, 0 < batchSoftmax m B z i j) ∧ ∑ i ∈ range m, ∑ j ∈ range B, batchSoftmax m B z i j = 1 := by
  have hs := Db.soft_pos hm hB z
  refine ⟨fun i j => div_pos (Real.exp_pos _) hs, ?_⟩
  simp only [batchSoftmax, ← sum_div]
  exact div_self hs.ne'

/-- For a single vector the output is the softmax: a probability distribution over the classes. -/
theorem c70_single (env : Env ℝ) (hm : ∀ n, env.fits n = true) (on : Bool) (ρ : Backprop.Leaf → Tensor ℝ) (hρ : LeavesHold ρ shp val)
    (h : DbnFits d n 1 x y shp) :
    ∃ o t, dbnUp d n (shp ⟨false, x⟩) (.leaf ⟨false, x⟩) = .ok o ∧ eval env on ρ o = .ok t ∧
      Batch t d.out 1 (fun i j => softmaxOf d.out (logit d n val (fun z => val ⟨false, x⟩ z j)) i) ∧
      ∀ j, ∑ i ∈ range d.out, softmaxOf d.out (logit d n val (fun z => val ⟨false, x⟩ z j)) i = 1 := by
  obtain ⟨o, t, h1, h2, h3⟩ := c70_output env hm on ρ hρ h
  refine ⟨o, t, h1, h2, batch_congr h3 (fun i j hi hj => ?_), fun j => ?_⟩
  · obtain rfl : j = 0 := by omega
    simp only [batchSoftmax, softmaxOf, sum_range_one]
  · simp only [softmaxOf, ← sum_div]
    exact div_self (sum_pos (fun _ _ => Real.exp_pos _) ⟨0, mem_range.2 h.pos.2.2⟩).ne'

/-- For a batch of several vectors it is not: what the network puts out for any one of them sums to less than one, and
depends on the others. -/
theorem c70_batch_not_softmax (env : Env ℝ) (hm : ∀ n, env.fits n = true) (on : Bool) (ρ : Backprop.Leaf → Tensor ℝ) (hρ : LeavesHold ρ shp val)
    (h : DbnFits d n B x y shp) (hB : 1 < B) :
    ∃ o t f, dbnUp d n (shp ⟨false, x⟩) (.leaf ⟨false, x⟩) = .ok o ∧ eval env on ρ o = .ok t ∧ Batch t d.out B f ∧
      ∀ j < B, ∑ i ∈ range d.out, f i j < 1 ∧ ∀ i < d.out, f i j < softmaxOf d.out (logit d n val (fun z => val ⟨false, x⟩ z j)) i := by
  obtain ⟨o, t, h1, h2, h3⟩ := c70_output env hm on ρ hρ h
  refine ⟨o, t, _, h1, h2, h3, fun j hj => ?_⟩
  set z : Nat → Nat → ℝ := fun i j => logit d n val (fun z => val ⟨false, x⟩ z j) i with hz
  have hlt : ∑ i ∈ range d.out, Real.exp (z i j) < ∑ i ∈ range d.out, ∑ j ∈ range B, Real.exp (z i j) := by
    refine sum_lt_sum_of_nonempty ⟨0, mem_range.2 h.pos.2.2⟩ (fun i _ => ?_)
    rw [← add_sum_erase _ _ (mem_range.2 hj)]
    refine lt_add_of_pos_right _ (sum_pos (fun _ _ => Real.exp_pos _) ⟨if j = 0 then 1 else 0, ?_⟩)
    rw [mem_erase, mem_range]
    split_ifs <;> omega
  have hp : 0 < ∑ i ∈ range d.out, Real.exp (z i j) := sum_pos (fun _ _ => Real.exp_pos _) ⟨0, mem_range.2 h.pos.2.2⟩
  refine ⟨?_, fun i _ => ?_⟩
  · simp only [batchSoftmax, ← sum_div]
    rwa [div_lt_one (hp.trans hlt)]
  · exact div_lt_div_of_pos_left (Real.exp_pos _) hp hlt

/-- The error that `build_finetune_functions` returns: the mean squared difference between outputs and labels. -/
theorem c70_error (env : Env ℝ) (hm : ∀ n, env.fits n = true) (on : Bool) (ρ : Backprop.Leaf → Tensor ℝ) (hρ : LeavesHold ρ shp val)
    (h : DbnFits d n B x y shp) :
    ∃ o e t, dbnUp d n (shp ⟨false, x⟩) (.leaf ⟨false, x⟩) = .ok o ∧ tuneError o (.leaf ⟨false, y⟩) = .ok e ∧ eval env on ρ e = .ok t ∧
      Batch t 1 1 (fun _ _ => (∑ i ∈ range d.out, ∑ j ∈ range B,
        (batchSoftmax d.out B (fun i j => logit d n val (fun z => val ⟨false, x⟩ z j) i) i j - val ⟨false, y⟩ i j) ^ 2) / (d.out * B)) := by
  obtain ⟨a, _, _, h3, h4, h5⟩ := Db.up_eq h
  obtain ⟨o1, o2, o3⟩ := h3.O (val := val)
  obtain ⟨ty, dy⟩ := Db.leaf_pair h.pos.2.2 h.pos.2.1 h.target
  obtain ⟨s1, s2, s3⟩ := Db.is_pair (val := val) (k := .sub) o1 o2 o3 ty dy (fun i j _ _ => rfl)
  have tP : Typed shp (.un (.pow 2) (.bin .sub (Db.O (Db.logitTerm a d)) (.leaf ⟨false, y⟩))) := ⟨s1, by simp⟩
  have he : tuneError (Db.O (Db.logitTerm a d)) (.leaf ⟨false, y⟩) = .ok (.bin .div (.sumAll (.un (.pow 2) (.bin .sub (Db.O (Db.logitTerm a d)) (.leaf ⟨false, y⟩))))
      (.nelems (.un (.pow 2) (.bin .sub (Db.O (Db.logitTerm a d)) (.leaf ⟨false, y⟩))))) := by
    unfold tuneError
    rw [Db.sub_typed o1 ty (by simp [Db.O]), Qn.typed_pow2 s1]
    unfold reduceMean
    exact Db.div_typed (shp := shp) tP tP (by simp)
  have tE : Typed shp (.bin .div (.sumAll (.un (.pow 2) (.bin .sub (Db.O (Db.logitTerm a d)) (.leaf ⟨false, y⟩))))
      (.nelems (.un (.pow 2) (.bin .sub (Db.O (Db.logitTerm a d)) (.leaf ⟨false, y⟩))))) := ⟨tP, .inl tP, .inl rfl⟩
  obtain ⟨t, t1, t2⟩ := c60_eval env hm on ρ hρ _ tE
  refine ⟨_, _, t, h5, he, t1, batch_one t2 rfl ?_⟩
  rw [den_bin (k := .div) (a := .sumAll (.un (.pow 2) (.bin .sub (Db.O (Db.logitTerm a d)) (.leaf ⟨false, y⟩))))
    (b := .nelems (.un (.pow 2) (.bin .sub (Db.O (Db.logitTerm a d)) (.leaf ⟨false, y⟩)))) rfl]
  have hgen : ∀ Q : Term, dims shp (.un (.pow 2) Q) = (d.out, B) → Expr.K2.div.fn (den shp val (.sumAll (.un (.pow 2) Q)) 0 0) (den shp val (.nelems (.un (.pow 2) Q)) 0 0) =
      (∑ i ∈ range d.out, ∑ j ∈ range B, den shp val Q i j ^ 2) / (d.out * B) := by
    intro Q hQ
    simp only [den, hQ, Expr.K2.fn, Expr.K1.fn, Real.rpow_two]
  rw [hgen (.bin .sub (Db.O (Db.logitTerm a d)) (.leaf ⟨false, y⟩)) s2]
  congr 1
  refine sum_congr rfl (fun i hi => sum_congr rfl (fun j hj => ?_))
  rw [s3 i j (mem_range.1 hi) (mem_range.1 hj)]
  have hb : den shp val (Db.logitTerm a d) = fun i j => logit d n val (fun z => val ⟨false, x⟩ z j) i := by
    funext i j; exact h4 val i j
  rw [hb]
  rfl

/-! ### Fine-tuning -/

/-- One call of the fine-tuning updater: it succeeds for every batch; each entry of the weights, the hidden biases and
the last layer moves by the learning rate times the mean, over all outputs of the batch, of one minus the output times
the derivative of that output's activation; the visible biases and everything else keep their values. -/
theorem c70_tune (env : Env ℝ) (hm : ∀ n, env.fits n = true) (hz : env.zero = 0) (on : Bool) (lr : ℝ) (ρ : Backprop.Leaf → Tensor ℝ)
    (hρ : LeavesHold ρ shp val) (h : DbnFits d n B x y shp) :
    ∃ ρ' val', dbnTune env on lr d n (shp ⟨false, x⟩) x y ρ = .ok ρ' ∧ LeavesHold ρ' shp val' ∧ TuneStep d n B x shp lr val val' := by
  obtain ⟨o, e₀, _, hup, herr, _⟩ := c70_error env hm on ρ hρ h
  obtain ⟨a, h1, h2, h3, h4, h5⟩ := Db.up_eq h
  rw [hup] at h5; cases h5
  have hG : ∀ v, ∃ G : Nat → Nat → ℝ, (v ∉ usedVars d → derive v (Db.C (Db.logitTerm a d)) = .ok (.const 0) ∧ ∀ p q, G p q = 0) ∧
      (v ∈ usedVars d → ∃ e, derive v (Db.C (Db.logitTerm a d)) = .ok e ∧ (∀ c, e ≠ .const c) ∧
        Is shp val e (leafSize (shp ⟨true, v⟩)).1 (leafSize (shp ⟨true, v⟩)).2 G ∧ ∀ p q, IsEntry shp v p q → ∃ D : Nat → Nat → ℝ,
        (∀ i < d.out, ∀ j < B, HasDerivAt (fun s => logit d n (setAt val v p q s) (fun z => val ⟨false, x⟩ z j) i) (D i j) (val ⟨true, v⟩ p q)) ∧
        G p q = -((∑ i ∈ range d.out, ∑ j ∈ range B, (1 - batchSoftmax d.out B (fun i j => logit d n val (fun z => val ⟨false, x⟩ z j) i) i j) * D i j) / (d.out * B))) := by
    intro v
    by_cases hv : v ∈ usedVars d
    · obtain ⟨e, G, g1, g2, g3, g4⟩ := Db.derive_C (val := val) h h2 h3 h4 hv
      exact ⟨G, fun hn => absurd hv hn, fun _ => ⟨e, g1, g2, g3, g4⟩⟩
    · exact ⟨fun _ _ => 0, fun _ => ⟨Db.derive_unused h h2 hv, fun _ _ => rfl⟩, fun hv' => absurd hv' hv⟩
  choose G hG0 hG1 using hG
  obtain ⟨ρ', u1, u2, u3⟩ := Db.updates env hm hz on lr ρ hρ (Db.C (Db.logitTerm a d)) G d.variables ρ h.nodup (fun v hv => by
    refine ⟨Db.vars_typed h v hv, ?_⟩
    by_cases hu : v ∈ usedVars d
    · obtain ⟨e, g1, g2, g3, _⟩ := hG1 v hu
      exact .inr ⟨e, g1, g2, g3⟩
    · exact .inl (hG0 v hu)) (fun _ _ => rfl)
  refine ⟨ρ', fun l i j => if ∃ v ∈ usedVars d, l = ⟨true, v⟩ then val l i j - lr * G l.id i j else val l i j, ?_, fun l => ?_, ?_⟩
  · unfold dbnTune
    rw [hup, Outcome.ok_bind, Db.cost_eq, Outcome.ok_bind, herr, Outcome.ok_bind, u1]
  · by_cases hl : ∃ v ∈ usedVars d, l = ⟨true, v⟩
    · simp only [if_pos hl]
      obtain ⟨v, hv, rfl⟩ := hl
      exact u3 v (Db.used_sub d hv)
    · simp only [if_neg hl]
      by_cases hl' : ∃ v ∈ d.variables, l = ⟨true, v⟩
      · obtain ⟨v, hv, rfl⟩ := hl'
        have := u3 v hv
        simpa [(hG0 v (fun hu => hl ⟨v, hu, rfl⟩)).2] using this
      · rw [u2 l (fun v hv hh => hl' ⟨v, hv, hh⟩)]
        exact hρ l
  · refine ⟨fun v hv p q hpq => ?_, fun l hl => ?_⟩
    · obtain ⟨_, _, _, _, g4⟩ := hG1 v hv
      obtain ⟨D, d1, d2⟩ := g4 p q hpq
      refine ⟨D, d1, ?_⟩
      simp only [if_pos (⟨v, hv, rfl⟩ : ∃ u ∈ usedVars d, (⟨true, v⟩ : Backprop.Leaf) = ⟨true, u⟩)]
      rw [d2]
      ring
    · funext i j
      simp only [if_neg (fun hh : ∃ v ∈ usedVars d, l = ⟨true, v⟩ => by obtain ⟨v, hv, hh⟩ := hh; exact hl v hv hh)]

/-- The step is not one of gradient descent on the cost: with more than one output in the batch and a learning rate other
than zero, no output bias moves by the learning rate times the cost's derivative. -/
theorem c70_not_gradient (env : Env ℝ) (hm : ∀ n, env.fits n = true) (hz : env.zero = 0) (on : Bool) (lr : ℝ) (hlr : lr ≠ 0) (ρ : Backprop.Leaf → Tensor ℝ)
    (hρ : LeavesHold ρ shp val) (h : DbnFits d n B x y shp) (hN : 1 < d.out * B) :
    ∃ ρ' val', dbnTune env on lr d n (shp ⟨false, x⟩) x y ρ = .ok ρ' ∧ LeavesHold ρ' shp val' ∧ ∀ p < d.out,
      ∃ D, HasDerivAt (fun s => tuneCostOf d n B x (setAt val d.bias p 0 s)) D (val ⟨true, d.bias⟩ p 0) ∧
        val' ⟨true, d.bias⟩ p 0 ≠ val ⟨true, d.bias⟩ p 0 - lr * D := by
  obtain ⟨ρ', val', h1, h2, h3⟩ := c70_tune env hm hz on lr ρ hρ h
  refine ⟨ρ', val', h1, h2, fun p hp => ⟨_, Db.cost_bias h hp, ?_⟩⟩
  rw [Db.bias_step h h3 hp]
  intro hh
  have hNr : (1 : ℝ) < d.out * B := by exact_mod_cast hN
  have hP : 0 < ∑ j ∈ range B, batchSoftmax d.out B (fun i j => logit d n val (fun z => val ⟨false, x⟩ z j) i) p j :=
    sum_pos (fun j _ => (c70_distribution d.out B h.pos.2.2 h.pos.2.1 _).1 p j) ⟨0, mem_range.2 h.pos.2.1⟩
  rw [sum_sub_distrib, sum_const, card_range, nsmul_eq_mul, mul_one] at hh
  set P := ∑ j ∈ range B, batchSoftmax d.out B (fun i j => logit d n val (fun z => val ⟨false, x⟩ z j) i) p j
  set N : ℝ := d.out * B with hNdef
  have hN0 : N ≠ 0 := by linarith
  have h4 : lr * ((B - P) / N) = lr * (B / N - P) := by
    have : lr / N * (B - P) = -(lr * (-(B / N) + P)) := by linarith
    calc lr * ((B - P) / N) = lr / N * (B - P) := by ring
      _ = _ := by rw [this]; ring
  have h5 := mul_left_cancel₀ hlr h4
  rw [sub_div] at h5
  have h6 : P / N = P := by linarith
  have h7 : P = P * N := by
    rw [div_eq_iff hN0] at h6; exact h6
  have h8 : P * 1 < P * N := mul_lt_mul_of_pos_left hNr hP
  linarith

/-- With a positive learning rate every call raises every output bias, whatever the data and the labels. -/
theorem c70_bias_increases (env : Env ℝ) (hm : ∀ n, env.fits n = true) (hz : env.zero = 0) (on : Bool) (lr : ℝ) (hlr : 0 < lr) (ρ : Backprop.Leaf → Tensor ℝ)
    (hρ : LeavesHold ρ shp val) (h : DbnFits d n B x y shp) (hN : 1 < d.out * B) :
    ∃ ρ' val', dbnTune env on lr d n (shp ⟨false, x⟩) x y ρ = .ok ρ' ∧ LeavesHold ρ' shp val' ∧
      ∀ p < d.out, val ⟨true, d.bias⟩ p 0 < val' ⟨true, d.bias⟩ p 0 := by
  obtain ⟨ρ', val', h1, h2, h3⟩ := c70_tune env hm hz on lr ρ hρ h
  refine ⟨ρ', val', h1, h2, fun p hp => ?_⟩
  rw [Db.bias_step h h3 hp]
  have hN' : (0 : ℝ) < d.out * B := by exact_mod_cast (by omega : 0 < d.out * B)
  refine lt_add_of_pos_right _ (mul_pos (div_pos hlr hN') (sum_pos (fun j hj => ?_) ⟨0, mem_range.2 h.pos.2.1⟩))
  linarith [Db.soft_lt (fun i j => logit d n val (fun z => val ⟨false, x⟩ z j) i) hp (mem_range.1 hj) hN]

/-- The labels do not matter: from two states that differ in the labels only, the variables come out the same. -/
theorem c70_labels_ignored (env : Env ℝ) (hm : ∀ n, env.fits n = true) (hz : env.zero = 0) (on : Bool) (lr : ℝ) (ρ₁ ρ₂ : Backprop.Leaf → Tensor ℝ)
    {val₁ val₂ : Backprop.Leaf → Nat → Nat → ℝ} (hρ₁ : LeavesHold ρ₁ shp val₁) (hρ₂ : LeavesHold ρ₂ shp val₂) (h : DbnFits d n B x y shp) (hxy : x ≠ y)
    (hsame : ∀ l, l ≠ ⟨false, y⟩ → val₁ l = val₂ l) :
    ∃ ρ₁' ρ₂' val₁' val₂', dbnTune env on lr d n (shp ⟨false, x⟩) x y ρ₁ = .ok ρ₁' ∧ dbnTune env on lr d n (shp ⟨false, x⟩) x y ρ₂ = .ok ρ₂' ∧
      LeavesHold ρ₁' shp val₁' ∧ LeavesHold ρ₂' shp val₂' ∧ ∀ v ∈ d.variables, ∀ p q, IsEntry shp v p q → val₁' ⟨true, v⟩ p q = val₂' ⟨true, v⟩ p q := by
  obtain ⟨ρ₁', val₁', a1, a2, a3⟩ := c70_tune env hm hz on lr ρ₁ hρ₁ h
  obtain ⟨ρ₂', val₂', b1, b2, b3⟩ := c70_tune env hm hz on lr ρ₂ hρ₂ h
  have hvar : ∀ v, val₁ ⟨true, v⟩ = val₂ ⟨true, v⟩ := fun v => hsame _ (by simp)
  have hx : val₁ ⟨false, x⟩ = val₂ ⟨false, x⟩ := hsame _ (by simp [hxy])
  refine ⟨ρ₁', ρ₂', val₁', val₂', a1, b1, a2, b2, fun v hv p q hpq => ?_⟩
  by_cases hu : v ∈ usedVars d
  · obtain ⟨D₁, c1, c2⟩ := a3.moved v hu p q hpq
    obtain ⟨D₂, e1, e2⟩ := b3.moved v hu p q hpq
    have hl : (fun i j => logit d n val₁ (fun z => val₁ ⟨false, x⟩ z j) i) = fun i j => logit d n val₂ (fun z => val₂ ⟨false, x⟩ z j) i := by
      funext i j
      rw [hx]
      exact Db.logit_congr hvar _ i
    rw [c2, e2, hvar, hl]
    congr 2
    refine sum_congr rfl (fun i hi => sum_congr rfl (fun j hj => ?_))
    congr 1
    have h1 := c1 i (mem_range.1 hi) j (mem_range.1 hj)
    have h2 := e1 i (mem_range.1 hi) j (mem_range.1 hj)
    rw [hvar, hx] at h1
    refine h1.unique (h2.congr_of_eventuallyEq (Filter.Eventually.of_forall fun s => ?_))
    refine Db.logit_congr (fun u => ?_) _ i
    funext a b
    unfold setAt
    rw [hvar]
  · have hne : ∀ u ∈ usedVars d, (⟨true, v⟩ : Backprop.Leaf) ≠ ⟨true, u⟩ := by
      intro u huu hh; injection hh with _ hh; exact hu (hh ▸ huu)
    rw [a3.kept _ hne, b3.kept _ hne, hvar]

/-! ### Pre-training -/

namespace Db

theorem hiddenOn_congr (M : Boltzmann) {a b : Nat → ℝ} (h : ∀ z < M.n, a z = b z) (i : Nat) : M.hiddenOn a i = M.hiddenOn b i := by
  have he : ∀ u, M.energy a u = M.energy b u := by
    intro u
    unfold Boltzmann.energy
    have h1 : ∀ i, ∑ z ∈ range M.n, u i * M.W i z * a z = ∑ z ∈ range M.n, u i * M.W i z * b z := fun i =>
      sum_congr rfl (fun z hz => by rw [h z (mem_range.1 hz)])
    have h2 : ∑ z ∈ range M.n, M.vb z * a z = ∑ z ∈ range M.n, M.vb z * b z :=
      sum_congr rfl (fun z hz => by rw [h z (mem_range.1 hz)])
    simp only [h1, h2]
  unfold Boltzmann.hiddenOn
  simp only [he]

/-- The activations of a stack of machines. -/
theorem stack_den : ∀ (rs : List (RbmVars × Nat)) (n : Nat) (x : Term), 0 < n → Typed shp x → dims shp x = (n, B) → StackFits shp n rs →
    ∃ s, stackProp rs x = .ok s ∧ Typed shp s ∧ dims shp s = (stackOut n rs, B) ∧
      (∀ (val : Backprop.Leaf → Nat → Nat → ℝ) (a : Nat → Nat → ℝ), (∀ i < n, ∀ j, den shp val x i j = a i j) →
        ∀ i < stackOut n rs, ∀ j, den shp val s i j = stackAct val n rs (fun z => a z j) i) ∧
      (∀ v, Free v x → v ∉ rs.flatMap (fun r => [r.1.w, r.1.hb, r.1.vb]) → Free v s) ∧ (s = x ∨ ∃ t, s = .un (.divL 1) t) := by
  intro rs
  induction rs with
  | nil => intro n x _ ht hd _; exact ⟨x, rfl, ht, hd, fun val a h => h, fun v hv _ => hv, .inl rfl⟩
  | cons r rs ih =>
    intro n x hn ht hd hs
    have hB : 0 < B := by have := (typed_pos ht).2; rwa [hd] at this
    have ok : Rb.Ok r.1 n r.2 B x shp := ⟨⟨hn, hs.1, hB⟩, hs.2.1, hs.2.2.1, hs.2.2.2.1, ht, hd⟩
    obtain ⟨z1, z2, _⟩ := ok.Z (val := fun _ _ _ => 0)
    have e1 : rbmUp r.1 x = .ok (.un (.divL 1) (.un (.addL 1) (.un .exp (.un .neg (Rb.Z r.1 x))))) := sigmoid_axial (z := Rb.Z r.1 x) trivial
    obtain ⟨e, a1, a2, a3, a4, _⟩ := den_act (v := 0) (z := Rb.Z r.1 x) trivial z1 .sigmoid
    have a5 : Outcome.ok e = .ok (.un (.divL 1) (.un (.addL 1) (.un .exp (.un .neg (Rb.Z r.1 x))))) := a1.symm.trans e1
    cases a5
    obtain ⟨s, s1, s2, s3, s4, s5, s6⟩ := ih r.2 _ hs.1 a2 (a3.trans z2) hs.2.2.2.2
    refine ⟨s, ?_, s2, s3, fun val a ha i hi j => ?_, fun v hv hnv => ?_, .inr ?_⟩
    · rw [stackProp, e1, Outcome.ok_bind, s1]
    · refine s4 val (fun i j => (machine r.1 n r.2 val).hiddenOn (fun z => a z j) i) (fun i hi j => ?_) i hi j
      rw [a4, (ok.Z (val := val)).2.2, hiddenOn_eq _ _ _ hi]
      unfold actFn Rb.zz logistic
      have : ∑ z ∈ range n, den shp val x z j * val ⟨true, r.1.w⟩ i z = ∑ z ∈ range (machine r.1 n r.2 val).n, a z j * (machine r.1 n r.2 val).W i z :=
        sum_congr rfl (fun z hz => by rw [ha z (mem_range.1 hz) j]; rfl)
      rw [this]
      rfl
    · rw [List.flatMap_cons, List.mem_append] at hnv
      refine s5 v ?_ (fun h => hnv (.inr h))
      have h1 : v ≠ r.1.w := fun h => hnv (.inl (by simp [h]))
      have h2 : v ≠ r.1.hb := fun h => hnv (.inl (by simp [h]))
      refine ⟨⟨hv, ?_⟩, ?_⟩
      · intro hh; injection hh with _ hh; exact h1 hh.symm
      · intro hh; injection hh with _ hh; exact h2 hh.symm
    · rcases s6 with h | h
      · exact ⟨_, h⟩
      · exact h

theorem stack_split : ∀ (below : List (RbmVars × Nat)) (rest : List (RbmVars × Nat)) (n : Nat), StackFits shp n (below ++ rest) →
    StackFits shp n below ∧ StackFits shp (stackOut n below) rest := by
  intro below
  induction below with
  | nil => intro rest n h; exact ⟨trivial, h⟩
  | cons r below ih =>
    intro rest n h
    obtain ⟨h1, h2⟩ := ih rest r.2 h.2.2.2.2
    exact ⟨⟨h.1, h.2.1, h.2.2.1, h.2.2.2.1, h1⟩, h2⟩

theorem cdStepOn_congr {r : RbmVars} {n m B : Nat} {lr : ℝ} {a a' b : Nat → Nat → ℝ} {val val' : Backprop.Leaf → Nat → Nat → ℝ}
    (ha : ∀ z < n, ∀ j, a z j = a' z j) (h : CdStepOn r n m B lr a b val val') : CdStepOn r n m B lr a' b val val' := by
  have hh : ∀ p j, (machine r n m val).hiddenOn (fun z => a z j) p = (machine r n m val).hiddenOn (fun z => a' z j) p :=
    fun p j => hiddenOn_congr _ (fun z hz => ha z hz j) p
  refine ⟨fun p hp q hq => ?_, fun p hp => ?_, fun p hp => ?_, h.kept⟩
  · rw [h.weight p hp q hq]
    simp only [hh, ha q hq]
  · rw [h.hidden p hp]
    simp only [hh]
  · rw [h.visible p hp]
    simp only [ha p hp]

end Db

/-- One call of a trainer of `pretraining_functions`: for every machine of the stack, input batch and all random numbers
it succeeds, and is one step of contrastive divergence for that machine, with the activations of the machines below as
data and the end of a fresh chain; no other variable, and no other leaf but those of the chain, changes. -/
theorem c70_pretrain (env : Env ℝ) (hm : ∀ n, env.fits n = true) (hz : env.zero = 0) (on : Bool) (lr : ℝ) (ρ : Backprop.Leaf → Tensor ℝ)
    (hρ : LeavesHold ρ shp val) (h : DbnFits d n B x y shp) (below above : List (RbmVars × Nat)) (r : RbmVars) (m : Nat)
    (hd : d.layers = below ++ (r, m) :: above) (c u : Nat) (hcu : c ≠ u) (hxc : x ≠ c) (hxu : x ≠ u) (k : Nat) (hk : k ≠ 0) (D : Nat → Draw) :
    ∃ (ρ' : Backprop.Leaf → Tensor ℝ) (shp' : Backprop.Leaf → List Nat) (val' : Backprop.Leaf → Nat → Nat → ℝ),
      dbnPretrain env on lr below r x c u k D ρ = .ok ρ' ∧ LeavesHold ρ' shp' val' ∧ (∀ l, l ≠ ⟨false, c⟩ → l ≠ ⟨false, u⟩ → shp' l = shp l) ∧
      CdStepOn r (stackOut n below) m B lr (fun i j => stackAct val n below (fun z => val ⟨false, x⟩ z j) i)
        (cdChainOn (machine r (stackOut n below) m val) (fun i j => stackAct val n below (fun z => val ⟨false, x⟩ z j) i) (val ⟨false, c⟩) k D).1
        (withChain c u (cdChainOn (machine r (stackOut n below) m val) (fun i j => stackAct val n below (fun z => val ⟨false, x⟩ z j) i) (val ⟨false, c⟩) k D) val) val' ∧
      ∀ v ∈ d.variables, v ≠ r.w → v ≠ r.hb → v ≠ r.vb → val' ⟨true, v⟩ = val ⟨true, v⟩ := by
  obtain ⟨tx, dx⟩ := Db.leaf_pair h.pos.1 h.pos.2.1 h.input
  have hst := h.stack
  rw [hd] at hst
  obtain ⟨f1, f2⟩ := Db.stack_split below ((r, m) :: above) n hst
  have hn' := (Db.stack_typed below n h.pos.1 f1).1
  obtain ⟨s, s1, s2, s3, s4, s5, s6⟩ := Db.stack_den below n (.leaf ⟨false, x⟩) h.pos.1 tx dx f1
  have sv := s4 val (fun i j => val ⟨false, x⟩ i j) (fun _ _ _ => rfl)
  set a : Nat → Nat → ℝ := fun i j => stackAct val n below (fun z => val ⟨false, x⟩ z j) i with ha
  have ok1 : Rb.Ok r (stackOut n below) m B s shp := ⟨⟨hn', f2.1, h.pos.2.1⟩, f2.2.1, f2.2.2.1, f2.2.2.2.1, s2, s3⟩
  obtain ⟨ρ1, shp1, c1, c2, c3, c4⟩ := Rb.chain_on (c := c) env hm on ρ hρ ok1 u hcu k D
  have hchain : cdChainOn (machine r (stackOut n below) m val) (den shp val s) (val ⟨false, c⟩) k D = cdChainOn (machine r (stackOut n below) m val) a (val ⟨false, c⟩) k D := by
    unfold cdChainOn Boltzmann.drawHidden
    have : (fun i j => (machine r (stackOut n below) m val).hiddenOn (fun z => den shp val s z j) i) =
        fun i j => (machine r (stackOut n below) m val).hiddenOn (fun z => a z j) i := by
      funext i j
      exact Db.hiddenOn_congr _ (fun z hz => sv z hz j) i
    rw [this]
  rw [hchain] at c2
  set ch := cdChainOn (machine r (stackOut n below) m val) a (val ⟨false, c⟩) k D with hch
  -- the terms under the new shapes
  have nx : (⟨false, x⟩ : Backprop.Leaf) ≠ ⟨false, c⟩ := by intro hh; injection hh with _ hh; exact hxc hh
  have nx' : (⟨false, x⟩ : Backprop.Leaf) ≠ ⟨false, u⟩ := by intro hh; injection hh with _ hh; exact hxu hh
  have nt : ∀ v, (⟨true, v⟩ : Backprop.Leaf) ≠ ⟨false, c⟩ ∧ (⟨true, v⟩ : Backprop.Leaf) ≠ ⟨false, u⟩ := by intro v; simp
  have hshp : ∀ v, shp1 ⟨true, v⟩ = shp ⟨true, v⟩ := fun v => c4 _ (nt v).1 (nt v).2
  have f1' : StackFits shp1 n below := by
    clear s1 s2 s3 s4 s5 s6 sv ok1 c1 c2 hchain f2 hn'
    clear_value ch
    revert f1
    have : ∀ (rs : List (RbmVars × Nat)) (n : Nat), StackFits shp n rs → StackFits shp1 n rs := by
      intro rs
      induction rs with
      | nil => intro n _; trivial
      | cons r rs ih =>
        intro n hs
        exact ⟨hs.1, by rw [hshp]; exact hs.2.1, by rw [hshp]; exact hs.2.2.1, by rw [hshp]; exact hs.2.2.2.1, ih r.2 hs.2.2.2.2⟩
    exact this below n
  obtain ⟨tx', dx'⟩ := Db.leaf_pair (shp := shp1) (l := ⟨false, x⟩) h.pos.1 h.pos.2.1 (by rw [c4 _ nx nx']; exact h.input)
  obtain ⟨s', s1', s2', s3', s4', _, _⟩ := Db.stack_den below n (.leaf ⟨false, x⟩) h.pos.1 tx' dx' f1'
  rw [s1] at s1'; cases s1'
  have ok1' : Rb.Ok r (stackOut n below) m B s shp1 := ⟨⟨hn', f2.1, h.pos.2.1⟩, by rw [hshp]; exact f2.2.1, by rw [hshp]; exact f2.2.2.1, by rw [hshp]; exact f2.2.2.2.1, s2', s3'⟩
  have fit1 : Rb.Fit r (stackOut n below) m B shp1 := ⟨ok1'.pos, ok1'.weight, ok1'.hbias, ok1'.vbias⟩
  have hnd := h.nodup
  unfold DbnVars.variables at hnd
  rw [hd, List.flatMap_append, List.flatMap_cons] at hnd
  have hnd1 := (List.nodup_append.1 hnd).1
  obtain ⟨_, q2, q3⟩ := List.nodup_append.1 hnd1
  have q4 := (List.nodup_append.1 q2).1
  have hvars : r.w ≠ r.hb ∧ r.w ≠ r.vb ∧ r.hb ≠ r.vb := by
    simp only [List.nodup_cons, List.mem_cons, List.not_mem_nil, or_false, not_or] at q4
    exact ⟨q4.1.1, q4.1.2, q4.2.1⟩
  have hfree : ∀ v ∈ [r.w, r.hb, r.vb], Free v s := fun v hv => s5 v (Qn.free_ph _) (fun hb => q3 v hb v (List.mem_append.2 (.inl hv)) rfl)
  have hin : Rb.InputOf r c s := by
    refine ⟨⟨hfree _ (by simp), hfree _ (by simp), hfree _ (by simp)⟩, ?_, ?_⟩
    · rcases s6 with rfl | ⟨t, rfl⟩ <;> rfl
    · rcases s6 with rfl | ⟨t, rfl⟩
      · intro hh; injection hh with hh; exact nx hh
      · simp
  obtain ⟨e, ρ2, val2, t1, t2, t3, t4⟩ := Rb.train_on env hm hz on lr ρ1 c2 ok1' (fit1.leaf (c3 hk)) hin hvars
  have sv' : ∀ z < stackOut n below, ∀ j, den shp1 (withChain c u ch val) s z j = a z j := by
    intro z hz j
    rw [s4' (withChain c u ch val) (fun i j => val ⟨false, x⟩ i j) (fun i _ j => by
      show withChain c u ch val ⟨false, x⟩ i j = _
      unfold withChain
      rw [if_neg nx', if_neg nx]) z hz j]
    rw [Db.stack_congr (val := withChain c u ch val) (val' := val) below n _ (fun v _ => by
      unfold withChain
      rw [if_neg (nt v).2, if_neg (nt v).1])]
  have hcu' : (⟨false, c⟩ : Backprop.Leaf) ≠ ⟨false, u⟩ := by intro hh; injection hh with _ hh; exact hcu hh
  have hwc : withChain c u ch val ⟨false, c⟩ = ch.1 := by
    unfold withChain
    rw [if_neg hcu', if_pos rfl]
  rw [hwc] at t4
  refine ⟨ρ2, shp1, val2, ?_, t3, c4, Db.cdStepOn_congr sv' t4, fun v _ v1 v2 v3 => ?_⟩
  · obtain ⟨k', rfl⟩ := Nat.exists_eq_succ_of_ne_zero hk
    unfold dbnPretrain
    rw [s1, Outcome.ok_bind, c1, Outcome.ok_bind]
    show ((rbmCost r s (.leaf ⟨false, c⟩) >>= fun e => .ok (some e)) >>= rbmApply env on lr r ρ1) = _
    rw [t1]
    exact t2
  · have hne : ∀ w, v ≠ w → (⟨true, v⟩ : Backprop.Leaf) ≠ ⟨true, w⟩ := by
      intro w hw hh; injection hh with _ hh; exact hw hh
    rw [t4.kept ⟨true, v⟩ (hne _ v1) (hne _ v2) (hne _ v3)]
    unfold withChain
    rw [if_neg (nt v).2, if_neg (nt v).1]

/-- Negative: with no rounds of Gibbs sampling, pre-training is undefined behaviour. -/
theorem c70_no_rounds_ub (env : Env ℝ) (hm : ∀ n, env.fits n = true) (on : Bool) (lr : ℝ) (ρ : Backprop.Leaf → Tensor ℝ)
    (hρ : LeavesHold ρ shp val) (h : DbnFits d n B x y shp) (below above : List (RbmVars × Nat)) (r : RbmVars) (m : Nat)
    (hd : d.layers = below ++ (r, m) :: above) (c u : Nat) (hcu : c ≠ u) (D : Nat → Draw) :
    dbnPretrain env on lr below r x c u 0 D ρ = .ub := by
  obtain ⟨tx, dx⟩ := Db.leaf_pair h.pos.1 h.pos.2.1 h.input
  have hst := h.stack
  rw [hd] at hst
  obtain ⟨f1, f2⟩ := Db.stack_split below ((r, m) :: above) n hst
  have hn' := (Db.stack_typed below n h.pos.1 f1).1
  obtain ⟨s, s1, s2, s3, _, _, _⟩ := Db.stack_den below n (.leaf ⟨false, x⟩) h.pos.1 tx dx f1
  have ok1 : Rb.Ok r (stackOut n below) m B s shp := ⟨⟨hn', f2.1, h.pos.2.1⟩, f2.2.1, f2.2.2.1, f2.2.2.2.1, s2, s3⟩
  obtain ⟨ρ1, _, c1, _⟩ := Rb.chain_on (c := c) env hm on ρ hρ ok1 u hcu 0 D
  unfold dbnPretrain
  rw [s1, Outcome.ok_bind, c1]
  rfl

/-- A network with inputs of width 4, machines of 3 and 2 hidden units and 2 outputs, with batches of five, as in the
theorems above. -/
example : ∃ (d : DbnVars) (shp : Backprop.Leaf → List Nat) (ρ : Backprop.Leaf → Tensor ℝ) (val : Backprop.Leaf → Nat → Nat → ℝ),
    LeavesHold ρ shp val ∧ DbnFits d 4 5 0 1 shp ∧ 1 < d.out * 5 ∧ d.layers = [(⟨0, 1, 2⟩, 3)] ++ (⟨3, 4, 5⟩, 2) :: [] := by
  let shp : Backprop.Leaf → List Nat := fun l =>
    if l = ⟨true, 0⟩ then [3, 4] else if l = ⟨true, 1⟩ then [3] else if l = ⟨true, 2⟩ then [4]
    else if l = ⟨true, 3⟩ then [2, 3] else if l = ⟨true, 4⟩ then [2] else if l = ⟨true, 5⟩ then [3]
    else if l = ⟨true, 6⟩ then [2, 2] else if l = ⟨true, 7⟩ then [2] else if l = ⟨false, 1⟩ then [2, 5] else [4, 5]
  have hs : ∀ l, Full (shp l) := by
    intro l
    simp only [shp]
    split_ifs <;> exact ⟨by simp, by simp⟩
  choose ρ hρ using fun l => full_tensor (shp l) (hs l) (fun c => (c.getD 0 0 : ℝ) + 2 * c.getD 1 0)
  refine ⟨⟨[(⟨0, 1, 2⟩, 3), (⟨3, 4, 5⟩, 2)], 6, 7, 2⟩, shp, ρ, fun _ i j => (i : ℝ) + 2 * j, hρ, ?_, by decide, rfl⟩
  exact ⟨by decide, .inl rfl, .inl rfl, ⟨by decide, rfl, rfl, rfl, by decide, rfl, rfl, rfl, trivial⟩, rfl, rfl, by decide⟩

end Verif.Props
