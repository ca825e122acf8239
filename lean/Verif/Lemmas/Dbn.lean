import Verif.Spec.Dbn
import Verif.Lemmas.DqnNet
import Verif.Props.Rbm
/-!
# The output of a deep belief network, the cost of fine-tuning and its gradient
-/
namespace Verif.Props
open Spec Backprop Finset
open scoped Classical
variable {shp : Backprop.Leaf → List Nat} {val : Backprop.Leaf → Nat → Nat → ℝ} {v : Nat}

namespace Db

/-- The network as layers of a feed-forward network. -/
def net (d : DbnVars) : List NetLayer := d.layers.map (fun r => ⟨r.1.w, r.1.hb, r.2, .sigmoid⟩) ++ [⟨d.w, d.bias, d.out, .identity⟩]

def logitTerm (h : Term) (d : DbnVars) : Term := .axial (.mm false false h (.leaf ⟨true, d.w⟩)) (.leaf ⟨true, d.bias⟩)

theorem prop_eq (d : DbnVars) : ∀ (rs : List (RbmVars × Nat)) (x : Term),
    propUp (rs.map (fun r => ⟨r.1.w, r.1.hb, r.2, .sigmoid⟩) ++ [⟨d.w, d.bias, d.out, .identity⟩]) x =
      stackProp rs x >>= fun h => .ok (logitTerm h d) := by
  intro rs
  induction rs with
  | nil => intro x; rfl
  | cons r rs ih =>
    intro x
    show (rbmUp r.1 x >>= fun h => propUp _ h) = (rbmUp r.1 x >>= stackProp rs) >>= _
    cases rbmUp r.1 x with
    | ok h => exact ih h
    | _ => rfl

theorem net_shapes {d : DbnVars} : ∀ (rs : List (RbmVars × Nat)) (n : Nat), StackFits shp n rs → 0 < d.out →
    shp ⟨true, d.w⟩ = [d.out, stackOut n rs] → shp ⟨true, d.bias⟩ = [d.out] →
    NetShapes shp n (rs.map (fun r => (⟨r.1.w, r.1.hb, r.2, .sigmoid⟩ : NetLayer)) ++ [⟨d.w, d.bias, d.out, .identity⟩]) ∧
    netOut n (rs.map (fun r => (⟨r.1.w, r.1.hb, r.2, .sigmoid⟩ : NetLayer)) ++ [⟨d.w, d.bias, d.out, .identity⟩]) = d.out := by
  intro rs
  induction rs with
  | nil => intro n _ ho hw hb; exact ⟨⟨ho, hw, hb, trivial⟩, rfl⟩
  | cons r rs ih =>
    intro n hs ho hw hb
    obtain ⟨h1, h2⟩ := ih r.2 hs.2.2.2.2 ho hw hb
    exact ⟨⟨hs.1, hs.2.1, hs.2.2.1, h1⟩, h2⟩

theorem feed_logit (val : Backprop.Leaf → Nat → Nat → ℝ) (d : DbnVars) : ∀ (rs : List (RbmVars × Nat)) (n : Nat) (a : Nat → ℝ) (i : Nat),
    feed (netSpec val (rs.map (fun r => (⟨r.1.w, r.1.hb, r.2, .sigmoid⟩ : NetLayer)) ++ [⟨d.w, d.bias, d.out, .identity⟩])) n a i =
      ∑ z ∈ range (stackOut n rs), stackAct val n rs a z * val ⟨true, d.w⟩ i z + val ⟨true, d.bias⟩ i 0 := by
  intro rs
  induction rs with
  | nil => intro n a i; rfl
  | cons r rs ih =>
    intro n a i
    have key : ∀ (rs : List (RbmVars × Nat)) (m : Nat) (f g : Nat → ℝ), (∀ z < m, f z = g z) → ∀ i,
        ∑ z ∈ range (stackOut m rs), stackAct val m rs f z * val ⟨true, d.w⟩ i z + val ⟨true, d.bias⟩ i 0 =
          ∑ z ∈ range (stackOut m rs), stackAct val m rs g z * val ⟨true, d.w⟩ i z + val ⟨true, d.bias⟩ i 0 := by
      intro rs
      induction rs with
      | nil =>
        intro m f g h i
        congr 1
        exact sum_congr rfl (fun z hz => by
          show f z * _ = g z * _
          rw [h z (mem_range.1 hz)])
      | cons r' rs ih' =>
        intro m f g h i
        refine ih' r'.2 _ _ (fun z hz => ?_) i
        show (machine r'.1 m r'.2 val).hiddenOn f z = (machine r'.1 m r'.2 val).hiddenOn g z
        rw [hiddenOn_eq _ _ _ hz, hiddenOn_eq _ _ _ hz]
        congr 2
        exact sum_congr rfl (fun y hy => by rw [h y (mem_range.1 hy)])
    refine (ih r.2 _ i).trans (key rs r.2 _ _ (fun z hz => ?_) i)
    show actFn .sigmoid (∑ y ∈ range n, a y * val ⟨true, r.1.w⟩ z y + val ⟨true, r.1.hb⟩ z 0) = (machine r.1 n r.2 val).hiddenOn a z
    rw [hiddenOn_eq _ _ _ hz]
    rfl

theorem params_net (d : DbnVars) : params (net d) = usedVars d := by
  unfold params net usedVars
  rw [List.flatMap_append, List.flatMap_map]
  rfl

theorem used_sub (d : DbnVars) {v : Nat} (h : v ∈ usedVars d) : v ∈ d.variables := by
  unfold usedVars at h
  unfold DbnVars.variables
  rcases List.mem_append.1 h with h | h
  · refine List.mem_append.2 (.inl ?_)
    obtain ⟨r, hr, hv⟩ := List.mem_flatMap.1 h
    exact List.mem_flatMap.2 ⟨r, hr, by simp at hv ⊢; tauto⟩
  · exact List.mem_append.2 (.inr h)

theorem used_nodup (d : DbnVars) (h : d.variables.Nodup) : (usedVars d).Nodup := by
  refine List.Nodup.sublist ?_ h
  unfold usedVars DbnVars.variables
  refine List.Sublist.append ?_ (List.Sublist.refl _)
  induction d.layers with
  | nil => exact List.Sublist.refl _
  | cons r rs ih =>
    rw [List.flatMap_cons, List.flatMap_cons]
    exact List.Sublist.append (by simp) ih

/-! ### The nodes of fine-tuning over the activations `z` of the last layer -/

noncomputable def X (z : Term) : Term := .un .exp z
noncomputable def S (z : Term) : Term := .sumAll (X z)
noncomputable def O (z : Term) : Term := .bin .div (X z) (S z)
noncomputable def L (z : Term) : Term := .un .log (O z)
noncomputable def C (z : Term) : Term := .un .neg (.bin .div (.sumAll (L z)) (.nelems (L z)))

theorem div_typed {a b : Term} (ha : Typed shp a) (hb : Typed shp b) (h : a ≠ b) : div a b = .ok (.bin .div a b) := by
  unfold div
  rw [if_neg h, ← node2_typed ha hb]
  have h1 := ha.nc
  have h2 := hb.nc
  cases a <;> first | exact absurd rfl (h1 _) | (cases b <;> first | rfl | exact absurd rfl (h2 _))

theorem sub_typed {a b : Term} (ha : Typed shp a) (hb : Typed shp b) (h : a ≠ b) : sub a b = .bin .sub a b := by
  unfold sub
  rw [if_neg h, ← node2_typed ha hb]
  have h1 := ha.nc
  have h2 := hb.nc
  cases a <;> first | exact absurd rfl (h1 _) | (cases b <;> first | rfl | exact absurd rfl (h2 _))

theorem softmax_eq {z : Term} (hz : Typed shp z) : softmax z = .ok (O z) := by
  unfold softmax
  rw [unop_nc hz.nc]
  exact div_typed (shp := shp) ⟨hz, by simp⟩ ⟨hz, by simp⟩ (by simp)

theorem cost_eq (z : Term) : tuneCost (O z) = .ok (C z) := by
  unfold tuneCost reduceMean div
  rw [if_neg (by simp)]
  rfl

variable {z : Term} {m B : Nat}

structure Ok (shp : Backprop.Leaf → List Nat) (m B : Nat) (z : Term) : Prop where
  typed : Typed shp z
  dims : dims shp z = (m, B)

theorem Ok.pos (h : Ok shp m B z) : 0 < m ∧ 0 < B := by
  have := typed_pos h.typed
  rwa [h.dims] at this

theorem Ok.X (h : Ok shp m B z) : Typed shp (Db.X z) ∧ Spec.dims shp (Db.X z) = (m, B) := ⟨⟨h.typed, by simp⟩, h.dims⟩

theorem Ok.S (h : Ok shp m B z) (i j : Nat) : den shp val (Db.S z) i j = ∑ i ∈ range m, ∑ j ∈ range B, Real.exp (den shp val z i j) := by
  show ∑ i ∈ range (Spec.dims shp z).1, ∑ j ∈ range (Spec.dims shp z).2, _ = _
  rw [h.dims]
  rfl

theorem Ok.S_pos (h : Ok shp m B z) (i j : Nat) : 0 < den shp val (Db.S z) i j := by
  rw [h.S]
  refine sum_pos (fun i _ => sum_pos (fun j _ => Real.exp_pos _) ?_) ?_
  · exact ⟨0, mem_range.2 h.pos.2⟩
  · exact ⟨0, mem_range.2 h.pos.1⟩

theorem Ok.O (h : Ok shp m B z) : Typed shp (Db.O z) ∧ Spec.dims shp (Db.O z) = (m, B) ∧
    ∀ i j, i < m → j < B → den shp val (Db.O z) i j = batchSoftmax m B (den shp val z) i j := by
  refine ⟨⟨h.X.1, .inl h.X.1, .inr (.inr (.inl rfl))⟩, (dims_scalar rfl).trans h.X.2, fun i j hi hj => ?_⟩
  unfold Db.O
  rw [den_scalar rfl i j (by rw [h.X.2]; exact hi) (by rw [h.X.2]; exact hj), h.S]
  rfl

theorem Ok.prob (h : Ok shp m B z) (i j : Nat) (hi : i < m) (hj : j < B) : 0 < batchSoftmax m B (den shp val z) i j :=
  div_pos (Real.exp_pos _) (by have := h.S_pos (val := val) 0 0; rwa [h.S] at this)

theorem Ok.L (h : Ok shp m B z) : Typed shp (Db.L z) ∧ Spec.dims shp (Db.L z) = (m, B) := ⟨⟨h.O (val := fun _ _ _ => 0) |>.1, by simp⟩, (h.O (val := fun _ _ _ => 0)).2.1⟩

theorem Ok.C (h : Ok shp m B z) : Typed shp (Db.C z) ∧ Spec.dims shp (Db.C z) = (1, 1) ∧
    den shp val (Db.C z) 0 0 = -((∑ i ∈ range m, ∑ j ∈ range B, Real.log (batchSoftmax m B (den shp val z) i j)) / (m * B)) := by
  refine ⟨⟨⟨h.L.1, .inl h.L.1, .inl rfl⟩, by simp⟩, rfl, ?_⟩
  show -(den shp val (.bin .div (.sumAll (Db.L z)) (.nelems (Db.L z))) 0 0) = _
  rw [den_bin (a := .sumAll (Db.L z)) (b := .nelems (Db.L z)) rfl]
  show -((∑ i ∈ range (Spec.dims shp (Db.L z)).1, ∑ j ∈ range (Spec.dims shp (Db.L z)).2, Real.log (den shp val (Db.O z) i j)) /
    ((Spec.dims shp (Db.L z)).1 * (Spec.dims shp (Db.L z)).2)) = _
  rw [h.L.2]
  congr 2
  refine sum_congr rfl (fun i hi => sum_congr rfl (fun j hj => ?_))
  rw [h.O.2.2 i j (mem_range.1 hi) (mem_range.1 hj)]

/-! ### The gradient -/

theorem is_scalar {k : Expr.K2} {a b : Term} {f : Nat → Nat → ℝ} (ha : Typed shp a) (da : dims shp a = (m, B)) (fa : ∀ i j, i < m → j < B → den shp val a i j = f i j)
    (hb : Typed shp b) (db : dims shp b = (1, 1)) : Typed shp (.bin k a b) ∧ dims shp (.bin k a b) = (m, B) ∧
    ∀ i j, i < m → j < B → den shp val (.bin k a b) i j = k.fn (f i j) (den shp val b 0 0) := by
  refine ⟨⟨ha, .inl hb, .inr (.inr (.inl db))⟩, (dims_scalar db).trans da, fun i j hi hj => ?_⟩
  rw [den_scalar db i j (by rw [da]; exact hi) (by rw [da]; exact hj), fa i j hi hj]

theorem is_pair {k : Expr.K2} {a b : Term} {f g : Nat → Nat → ℝ} (ha : Typed shp a) (da : dims shp a = (m, B)) (fa : ∀ i j, i < m → j < B → den shp val a i j = f i j)
    (hb : Typed shp b) (db : dims shp b = (m, B)) (fb : ∀ i j, i < m → j < B → den shp val b i j = g i j) : Typed shp (.bin k a b) ∧ dims shp (.bin k a b) = (m, B) ∧
    ∀ i j, i < m → j < B → den shp val (.bin k a b) i j = k.fn (f i j) (g i j) := by
  refine ⟨⟨ha, .inl hb, .inl (da.trans db.symm)⟩, (dims_bin (da.trans db.symm)).trans da, fun i j hi hj => ?_⟩
  rw [den_bin (da.trans db.symm), fa i j hi hj, fb i j hi hj]

theorem pow2 {a : Term} (h : ∀ c, a ≠ .const c) : mul a a = .un (.pow 2) a := by
  unfold mul pow
  rw [if_pos rfl, if_neg (by norm_num), if_neg (by norm_num), unop_nc h]

/-- The gradient of the exponentials. -/
theorem grad_X (h : Ok shp m B z) {k : Term} {c' : Four} {gf : Nat → Nat → ℝ} (hi : Inv shp val v k c' z gf) (h0 : ∀ i j, gf i j ≠ 0) :
    ∃ g, info v (X z) = ⟨.ok g, inherit1 (info v z).jac⟩ ∧ Typed shp g ∧ dims shp g = (m, B) ∧
      (∀ i j, i < m → j < B → den shp val g i j = gf i j * Real.exp (den shp val z i j)) ∧ g ≠ S z := by
  obtain ⟨g, g1, g2⟩ := hi.grad
  have tX := h.X
  rw [h.dims] at g2
  have hX : Is shp val (X z) m B (fun i j => Real.exp (den shp val z i j)) := .inr ⟨tX.1, tX.2, fun _ _ _ _ => rfl⟩
  have hg0 : g ≠ .const 0 := by
    have := grad_ne_zero hi h0
    rw [g1] at this
    exact fun hh => this (by rw [hh])
  have hnc := mul_not_const (shp := shp) (e := X z) hg0 (g2.imp (fun ⟨c, h, _⟩ => ⟨c, h⟩) (fun h => h.1)) tX.1
  have hI := is_mul g2 hX
  have hinfo : info v (X z) = ⟨.ok (mul g (X z)), inherit1 (info v z).jac⟩ := by
    unfold X
    rw [info, if_pos hi.used, g1, Outcome.ok_bind]
    simp only [ginit1]
    rw [unop_nc h.typed.nc]
  rcases hI with ⟨c, hc, _⟩ | ⟨t1, t2, t3⟩
  · exact absurd hc (hnc c)
  refine ⟨_, hinfo, t1, t2, t3, ?_⟩
  by_cases hgX : g = X z
  · rw [hgX, pow2 tX.1.nc]; simp [S]
  · rcases g2 with ⟨c, rfl, _⟩ | ⟨t, _⟩
    · have hc0 : c ≠ 0 := fun hc => hg0 (by rw [hc])
      rw [mul_const_left c tX.1.nc, if_neg hc0, mulL_nc c tX.1.nc, if_neg (Ne.symm hc0)]
      split_ifs
      · simp [X, S]
      · simp [X, S, neg]
      · simp [S]
    · rw [mul_nc hgX t tX.1]; simp [S]

/-- The gradient of the cost before the transfer functions: one minus the output, times the local derivative, over the
number of outputs. -/
theorem info_C (h : Ok shp m B z) {k : Term} {c' : Four} {gf : Nat → Nat → ℝ} (hi : Inv shp val v k c' z gf) (h0 : ∀ i j, gf i j ≠ 0) :
    ∃ R, (info v (C z)).grad = .ok R ∧ (∀ c, R ≠ .const c) ∧ (info v (C z)).list = (info v k).list ∧
      Is shp val R m B (fun i j => -(gf i j * (1 - batchSoftmax m B (den shp val z) i j) / (m * B))) := by
  obtain ⟨g, iX, g1, g2, g3, gS⟩ := grad_X h hi h0
  have uX : uses v (X z) = true := hi.used
  have tX := h.X
  have tS : Typed shp (S z) := tX.1
  have iS : info v (S z) = ⟨.ok g, inherit1 (info v z).jac⟩ := by
    unfold S
    rw [info, iX, if_pos uX, inherit1_idem]
  -- quotient
  have a1 := is_scalar (k := .mul) g1 g2 g3 tS rfl
  have a2 : ∃ A, mul g (X z) = A ∧ Typed shp A ∧ dims shp A = (m, B) ∧ (.bin .mul g (S z)) ≠ A ∧ (∀ i j, i < m → j < B →
      den shp val A i j = gf i j * Real.exp (den shp val z i j) * Real.exp (den shp val z i j)) := by
    by_cases hg : g = X z
    · refine ⟨.un (.pow 2) (X z), by rw [hg, pow2 tX.1.nc], ⟨tX.1, by simp⟩, tX.2, by simp, fun i j hi hj => ?_⟩
      rw [← g3 i j hi hj, hg]
      exact (Real.rpow_two _).trans (sq _)
    · have := is_pair (val := val) (k := .mul) g1 g2 g3 tX.1 tX.2 (fun i j _ _ => rfl)
      exact ⟨_, mul_nc hg g1 tX.1, this.1, this.2.1, by simp [S, X], this.2.2⟩
  obtain ⟨A, hA, tA, dA, neA, fA⟩ := a2
  have a3 := is_pair (k := .sub) a1.1 a1.2.1 a1.2.2 tA dA fA
  have tS2 : Typed shp (.un (.pow 2) (S z)) := ⟨tS, by simp⟩
  have a4 := is_scalar (k := .div) a3.1 a3.2.1 a3.2.2 tS2 rfl
  have hO : info v (O z) = ⟨.ok (.bin .div (.bin .sub (.bin .mul g (S z)) A) (.un (.pow 2) (S z))), inherit1 (info v z).jac⟩ := by
    have hj : inheritArgs (X z) (S z) (inherit1 (info v z).jac) (inherit1 (info v z).jac) = inherit1 (info v z).jac := by
      rw [inheritArgs_same _ _ rfl, inherit1_idem]
    unfold O
    rw [info, iX, iS]
    simp only [hj]
    rw [if_pos (by simp [uX])]
    simp only [argGrad, inherit1_not_terminal, Bool.false_eq_true, if_false, Outcome.ok_bind, ginit2]
    rw [mul_nc gS g1 tS, hA, sub_typed a1.1 tA neA, pow2 tS.nc, div_typed a3.1 tS2 (by simp)]
  -- logarithm
  have uO : uses v (O z) = true := by simp [O, uses, uX]
  have o := h.O (val := val)
  have a5 := is_pair (k := .div) a4.1 a4.2.1 a4.2.2 o.1 o.2.1 o.2.2
  have hL : info v (L z) = ⟨.ok (.bin .div (.bin .div (.bin .sub (.bin .mul g (S z)) A) (.un (.pow 2) (S z))) (O z)), inherit1 (info v z).jac⟩ := by
    unfold L
    rw [info, hO, if_pos uO]
    simp only [Outcome.ok_bind, ginit1]
    rw [inherit1_idem, div_typed a4.1 o.1 (by simp [O, X])]
  have uL : uses v (L z) = true := uO
  have hSL : info v (.sumAll (L z)) = ⟨.ok (.bin .div (.bin .div (.bin .sub (.bin .mul g (S z)) A) (.un (.pow 2) (S z))) (O z)), inherit1 (info v z).jac⟩ := by
    rw [info, hL, if_pos uL, inherit1_idem]
  have hN : info v (.nelems (L z)) = ⟨.ok (.const 0), none⟩ := by rw [info]
  have tN : Typed shp (.nelems (L z)) := h.L.1
  have a6 := is_scalar (k := .mul) a5.1 a5.2.1 a5.2.2 tN rfl
  have tN2 : Typed shp (.un (.pow 2) (.nelems (L z))) := ⟨tN, by simp⟩
  have a7 := is_scalar (k := .div) a6.1 a6.2.1 a6.2.2 tN2 rfl
  have hj : inheritArgs (.sumAll (L z)) (.nelems (L z)) (inherit1 (info v z).jac) none = inherit1 (info v z).jac := by
    unfold inheritArgs; rw [if_neg (by simp), inherit2_none_right, inherit1_idem]
  have hD : info v (.bin .div (.sumAll (L z)) (.nelems (L z))) =
      ⟨.ok (.bin .div (.bin .mul (.bin .div (.bin .div (.bin .sub (.bin .mul g (S z)) A) (.un (.pow 2) (S z))) (O z)) (.nelems (L z))) (.un (.pow 2) (.nelems (L z)))),
        inherit1 (info v z).jac⟩ := by
    rw [info, hSL, hN]
    simp only [hj]
    rw [if_pos (by simp [uses, uL])]
    simp only [argGrad, inherit1_not_terminal, Bool.false_eq_true, if_false, Outcome.ok_bind, ginit2]
    rw [mul_nc (by simp) a5.1 tN, mul_const_left 0 (by simp), if_pos rfl, pow2 tN.nc]
    simp [sub, div, node2, grouping]
  have hC : info v (C z) = ⟨.ok (.un .neg (.bin .div (.bin .mul (.bin .div (.bin .div (.bin .sub (.bin .mul g (S z)) A) (.un (.pow 2) (S z))) (O z)) (.nelems (L z))) (.un (.pow 2) (.nelems (L z))))),
        inherit1 (info v z).jac⟩ := by
    unfold C
    rw [info, hD, if_pos (by simp [uses, uL])]
    simp only [Outcome.ok_bind, ginit1, inherit1_idem]
    rfl
  refine ⟨.un .neg (.bin .div (.bin .mul (.bin .div (.bin .div (.bin .sub (.bin .mul g (S z)) A) (.un (.pow 2) (S z))) (O z)) (.nelems (L z))) (.un (.pow 2) (.nelems (L z)))), by rw [hC], by simp, ?_, .inr ⟨⟨a7.1, by simp⟩, a7.2.1, fun i j hi hj => ?_⟩⟩
  · rw [info_list, hC]
    simp only [inherit1_idem]
    rw [hi.jac, ← info_list]
  · show -(den shp val (.bin .div _ _) i j) = _
    rw [a7.2.2 i j hi hj]
    congr 1
    have e1 : den shp val (.nelems (L z)) 0 0 = (m : ℝ) * B := by
      show (((Spec.dims shp (L z)).1 : ℝ) * ((Spec.dims shp (L z)).2 : ℝ)) = _
      rw [h.L.2]
    have e2 : den shp val (.un (.pow 2) (.nelems (L z))) 0 0 = ((m : ℝ) * B) ^ 2 := by rw [← e1]; exact Real.rpow_two _
    have e3 : den shp val (.un (.pow 2) (S z)) 0 0 = (den shp val (S z) 0 0) ^ 2 := Real.rpow_two _
    rw [e1, e2, e3]
    simp only [Expr.K2.fn]
    have hs := h.S_pos (val := val) 0 0
    have hx := Real.exp_pos (den shp val z i j)
    have hm : (0 : ℝ) < m := by exact_mod_cast h.pos.1
    have hB : (0 : ℝ) < B := by exact_mod_cast h.pos.2
    unfold batchSoftmax
    rw [← h.S (val := val) 0 0]
    field_simp

end Db
end Verif.Props
