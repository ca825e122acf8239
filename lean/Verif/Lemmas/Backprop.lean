import Verif.Lemmas.Batch2
import Verif.Lemmas.ExprGrad
import Verif.Spec.Backprop
/-!
# Terms and the values they denote
-/
namespace Verif.Backprop
open Spec Expr Finset
open scoped Classical
set_option linter.unusedTactic false

variable {shp : Leaf → List Nat} {val : Leaf → Nat → Nat → ℝ} {v : Nat}

theorem free_uses {a : Term} : Free v a ↔ uses v a = false := by
  induction a with
  | leaf l => simp [Free, uses]
  | const c => simp [Free, uses]
  | un k a ih => simpa [Free, uses] using ih
  | bin k a b iha ihb => simp [Free, uses, iha, ihb]
  | mm fa fb a b iha ihb => simp [Free, uses, iha, ihb]
  | axial a b iha ihb => simp [Free, uses, iha, ihb]
  | tr a ih => simpa [Free, uses] using ih
  | rsum a ih => simpa [Free, uses] using ih
  | sum0 a ih => simpa [Free, uses] using ih
  | max0 a ih => simpa [Free, uses] using ih
  | sumAll a ih => simpa [Free, uses] using ih
  | nelems a ih => simpa [Free, uses] using ih
  | grp x a ih => simpa [Free, uses] using ih
  | binAx k x l a b iha ihb => simp [Free, uses, iha, ihb]
  | l2 a ih => simpa [Free, uses] using ih
  | clipn c a ih => simpa [Free, uses] using ih

theorem meet_self (d : Nat × Nat) : meet d d = d := by unfold meet; split <;> rfl

theorem dims_bin {k : K2} {a b : Term} (h : dims shp a = dims shp b) : dims shp (.bin k a b) = dims shp a := by
  simp only [dims]; rw [← h, meet_self]

theorem dims_scalar {k : K2} {a b : Term} (h : dims shp b = (1, 1)) : dims shp (.bin k a b) = dims shp a := by
  simp only [dims]; unfold meet; rw [if_pos h]

theorem pos_self (d : Nat × Nat) (i j : Nat) : pos d d i j = (i, j) := by unfold pos; rw [if_pos rfl]

theorem den_bin {k : K2} {a b : Term} (h : dims shp a = dims shp b) (i j : Nat) :
    den shp val (.bin k a b) i j = k.fn (den shp val a i j) (den shp val b i j) := by
  simp only [den]; rw [← h, meet_self, pos_self]

theorem den_scalar {k : K2} {a b : Term} (h : dims shp b = (1, 1)) (i j : Nat) (hi : i < (dims shp a).1) (hj : j < (dims shp a).2) :
    den shp val (.bin k a b) i j = k.fn (den shp val a i j) (den shp val b 0 0) := by
  simp only [den]
  have : meet (dims shp a) (dims shp b) = dims shp a := by unfold meet; rw [if_pos h]
  rw [this, pos_self]
  by_cases h' : dims shp a = (1, 1)
  · rw [h, h', pos_self]
    rw [h'] at hi hj
    have : i = 0 := by simpa using hi
    have : j = 0 := by simpa using hj
    subst i j
    rfl
  · have : pos (dims shp b) (dims shp a) i j = (0, 0) := by
      unfold pos; rw [if_neg (by rw [h]; exact fun h => h' h.symm), if_pos h]
    rw [this]

/-- A column of rank one combined with a row. -/
theorem den_row {k : K2} {a b : Term} {m : Nat} (h1 : dims shp a = (m, 1)) (h2 : dims shp b = (1, m)) (j : Nat) (hj : j < m) :
    den shp val (.bin k a b) 0 j = k.fn (den shp val a j 0) (den shp val b 0 j) := by
  simp only [den]
  by_cases hm : m = 1
  · subst hm
    have : j = 0 := by omega
    subst this
    rw [h1, h2, meet_self, pos_self]
  · have : meet (dims shp a) (dims shp b) = (1, m) := by
      unfold meet; rw [h2, if_neg (by simp [hm])]
    rw [this, h1, h2, pos_self]
    have : pos (m, 1) (1, m) 0 j = (j, 0) := by
      unfold pos; rw [if_neg (by simp [hm]), if_neg (by simp [hm])]
    rw [this]

theorem _root_.Verif.Spec.Typed.nc {a : Term} (h : Typed shp a) (c : ℝ) : a ≠ .const c := by
  rintro rfl; exact h

theorem _root_.Verif.Spec.TypedG.nc {a : Term} {g : Bool} (h : TypedG shp g a) (c : ℝ) : a ≠ .const c := by
  rintro rfl; cases g <;> exact h

theorem grouping_typed {a : Term} (h : Typed shp a) : grouping a = none := by
  induction a with
  | un k a ih => exact ih h.1
  | bin k a b iha ihb =>
    cases k with
    | cond n c => exact iha h.1
    | _ => rfl
  | grp x a ih => exact h.elim
  | l2 a ih => exact ih h
  | clipn c a ih => exact ih h
  | _ => rfl

theorem grouping_grouped {a : Term} (h : TypedG shp true a) : grouping a = some 0 := by
  induction a with
  | un k a ih => exact ih h.1
  | grp x a ih => obtain ⟨_, rfl⟩ := h; rfl
  | _ => exact h.elim

theorem node2_typed {k : K2} {a b : Term} (ha : Typed shp a) (hb : Typed shp b) : node2 k a b = .bin k a b := by
  unfold node2; rw [grouping_typed ha, grouping_typed hb]

theorem node2_grouped {k : K2} {a b : Term} (ha : TypedG shp true a) (hb : Typed shp b) : node2 k a b = .binAx k 0 false a b := by
  unfold node2; rw [grouping_grouped ha, grouping_typed hb]
  cases k <;> rfl

theorem vec_dims {a : Term} (h : IsVec shp a) : (dims shp a).2 = 1 := by
  induction a with
  | leaf l => obtain ⟨n, h⟩ := h; simp [dims, h, leafSize]
  | un k a ih => exact ih h
  | bin k a b iha ihb =>
    simp only [dims]
    unfold meet
    split
    · exact iha h.1
    · exact ihb h.2
  | sum0 a => rfl
  | max0 a => rfl
  | sumAll a => rfl
  | nelems a => rfl
  | l2 a => rfl
  | clipn c a ih => exact ih h
  | _ => exact h.elim

theorem typed_posG {a : Term} : ∀ {g : Bool}, TypedG shp g a → 0 < (dims shp a).1 ∧ 0 < (dims shp a).2 := by
  induction a with
  | leaf l =>
    intro g h
    cases g with
    | true => exact h.elim
    | false =>
      obtain ⟨n, b, hn, hb, h | ⟨rfl, h⟩⟩ := h
      · simp [dims, h, leafSize, hn, hb]
      · simp [dims, h, leafSize, hn]
  | const c => intro g h; cases g <;> exact h.elim
  | un k a ih => intro g h; cases g <;> exact ih h.1
  | bin k a b iha ihb =>
    intro g h
    cases g with
    | true => exact h.elim
    | false =>
      simp only [dims]
      unfold meet
      split
      · exact iha h.1
      · rename_i hne
        rcases h.2.1 with h' | ⟨c, rfl⟩
        · exact ihb h'
        · exact absurd rfl hne
  | mm fa fb a b iha ihb => intro g h; cases g with
    | true => exact h.elim
    | false => exact ⟨(ihb h.2.1).1, (iha h.1).2⟩
  | axial a b iha ihb => intro g h; cases g with
    | true => exact h.elim
    | false => exact iha h.1
  | tr a ih => intro g h; cases g with
    | true => exact h.elim
    | false => exact ⟨(ih (g := false) h).2, (ih (g := false) h).1⟩
  | rsum a ih => intro g h; cases g with
    | true => exact h.elim
    | false => exact ⟨(ih (g := false) h).1, Nat.one_pos⟩
  | sum0 a ih => intro g h; cases g with
    | true => exact h.elim
    | false => exact ⟨(ih (g := false) h).2, Nat.one_pos⟩
  | max0 a ih => intro g h; cases g with
    | true => exact h.elim
    | false => exact ⟨(ih (g := false) h).2, Nat.one_pos⟩
  | sumAll a ih => intro g h; exact ⟨Nat.one_pos, Nat.one_pos⟩
  | nelems a ih => intro g h; exact ⟨Nat.one_pos, Nat.one_pos⟩
  | grp x a ih => intro g h; cases g with
    | true => exact ih (g := false) h.1
    | false => exact h.elim
  | binAx k x l a b iha ihb => intro g h; cases g with
    | true => exact h.elim
    | false =>
      obtain ⟨h1, _, _, rfl, _⟩ := h
      exact iha h1
  | l2 a ih => intro g h; exact ⟨Nat.one_pos, Nat.one_pos⟩
  | clipn c a ih => intro g h; cases g with
    | true => exact h.elim
    | false => exact ih (g := false) h

theorem typed_pos {a : Term} (h : Typed shp a) : 0 < (dims shp a).1 ∧ 0 < (dims shp a).2 := typed_posG h

theorem batch_congr {T : Type} {t : Tensor T} {n b : Nat} {f g : Nat → Nat → T} (h : Batch t n b f)
    (hfg : ∀ i j, i < n → j < b → f i j = g i j) : Batch t n b g := by
  rcases h with h | ⟨rfl, h⟩
  · refine .inl (Props.holds_congr h (fun c hc => hfg _ _ ?_ ?_))
    · simpa using hc.2 0 (by simp)
    · simpa using hc.2 1 (by simp)
  · refine .inr ⟨rfl, Props.holds_congr h (fun c hc => hfg _ _ ?_ Nat.one_pos)⟩
    simpa using hc.2 0 (by simp)

theorem maxOf_congr {f g : Nat → ℝ} {n : Nat} (h : ∀ i, i < n → f i = g i) : maxOf f n = maxOf g n := by
  induction n with
  | zero => rfl
  | succ n ih =>
    match n, ih with
    | 0, _ => exact h 0 Nat.one_pos
    | n + 1, ih =>
      show max (maxOf f (n + 1)) (f (n + 1)) = max (maxOf g (n + 1)) (g (n + 1))
      rw [ih (fun i hi => h i (by omega)), h (n + 1) (by omega)]

theorem eval_trConst (env : Verif.Env ℝ) (hm : ∀ n, env.fits n = true) (on : Bool) (ρ : Leaf → Tensor ℝ) (c : ℝ) :
    ∃ t, eval env on ρ (.tr (.const c)) = .ok t ∧ Batch t 1 1 (fun _ _ => c) := by
  have h1 : Batch (⟨some [c], [1], [1]⟩ : Tensor ℝ) 1 1 (fun _ _ => c) := by
    refine .inr ⟨rfl, ⟨by simp, by simp⟩, rfl, [c], rfl, rfl, ?_⟩
    rintro cc ⟨hl, hc⟩
    match cc, hl with
    | [i], _ =>
      have : i = 0 := by simpa using hc 0 (by simp)
      subst this; rfl
  obtain ⟨t', h3, h4⟩ := Props.batch_transpose env hm _ _ _ _ h1
  exact ⟨t', h3, h4⟩

theorem eval_typedG (env : Verif.Env ℝ) (hm : ∀ n, env.fits n = true) (on : Bool) (ρ : Leaf → Tensor ℝ)
    (hρ : ∀ l, Holds (ρ l) (shp l) (fun c => val l (c.getD 0 0) (c.getD 1 0))) (a : Term) : ∀ g, TypedG shp g a →
    ∃ t, eval env on ρ a = .ok t ∧ Batch t (dims shp a).1 (dims shp a).2 (den shp val a) ∧
      (IsMm a → Holds t [(dims shp a).1, (dims shp a).2] (fun c => den shp val a (c.getD 0 0) (c.getD 1 0))) ∧
      (IsVec shp a → ∃ x, t.alloc = [x]) := by
  induction a with
  | leaf l =>
    intro g h
    cases g with
    | true => exact h.elim
    | false =>
    refine ⟨ρ l, rfl, ?_, False.elim, fun hv => ?_⟩
    · have hl := hρ l
      obtain ⟨n, b, hn, hb, h | ⟨rfl, h⟩⟩ := h
      · rw [h] at hl
        simp only [dims, h, leafSize]
        exact .inl hl
      · rw [h] at hl
        simp only [dims, h, leafSize]
        refine .inr ⟨rfl, Props.holds_congr hl (fun c hc => ?_)⟩
        obtain ⟨hl, _⟩ := hc
        match c, hl with
        | [i], _ => rfl
    · obtain ⟨n, hn⟩ := hv
      exact ⟨n, by rw [(hρ l).shape, hn]⟩
  | const c => intro g h; cases g <;> exact h.elim
  | un k a ih =>
    intro g h
    have h' : TypedG shp g a := by cases g <;> exact h.1
    obtain ⟨t, h1, h2, _, hv⟩ := ih g h'
    obtain ⟨t', h3, h4⟩ := Props.c59_pointwise_unary env hm k.fn t _ _ _ h2
    exact ⟨t', by simp only [eval, h1, Outcome.ok_bind]; exact h3, h4, False.elim,
      fun h => Props.un_alloc env hm k.fn t t' _ _ _ h2 h3 (hv h)⟩
  | bin k a b iha ihb =>
    intro g h
    cases g with
    | true => exact h.elim
    | false =>
    obtain ⟨t, h1, h2, _, hv⟩ := iha false h.1
    have hb : ∃ u, eval env on ρ b = .ok u ∧ Batch u (dims shp b).1 (dims shp b).2 (den shp val b) ∧ (IsVec shp b → ∃ x, u.alloc = [x]) := by
      rcases h.2.1 with h' | ⟨c, rfl⟩
      · obtain ⟨u, h3, h4, _, hv⟩ := ihb false h'
        exact ⟨u, h3, h4, hv⟩
      · obtain ⟨u, h3, h4⟩ := eval_trConst env hm on ρ c
        exact ⟨u, h3, h4, False.elim⟩
    obtain ⟨u, h3, h4, hv'⟩ := hb
    obtain ⟨t', h5, h6, h7⟩ := Props.batch_meets env hm k.fn t u (dims shp a) (dims shp b) _ _ h2 h4 (by
      rcases h.2.2 with h | h | h | ⟨h, h'⟩
      · exact .inl h
      · exact .inr (.inl h)
      · exact .inr (.inr (.inl h))
      · refine .inr (.inr (.inr ⟨?_, h'⟩))
        obtain ⟨x, hx⟩ := hv h
        rcases h2 with h2 | ⟨_, h2⟩
        · rw [h2.shape] at hx; simp at hx
        · exact h2.shape)
    exact ⟨t', by simp only [eval, h1, h3, Outcome.ok_bind]; exact h5, h6, False.elim, fun h => h7 (hv h.1) (hv' h.2)⟩
  | mm fa fb a b iha ihb =>
    intro g h
    cases g with
    | true => exact h.elim
    | false =>
    obtain ⟨t, h1, h2, _⟩ := iha false h.1
    obtain ⟨u, h3, h4, _⟩ := ihb false h.2.1
    rw [← h.2.2] at h4
    obtain ⟨t', h5, h6⟩ := Props.batch_mm env hm on t u _ _ _ _ _ h2 h4
    refine ⟨t', by simp only [eval, h1, h3, Outcome.ok_bind]; exact h5, .inl h6, fun _ => h6, False.elim⟩
  | axial a b iha ihb =>
    intro g h
    cases g with
    | true => exact h.elim
    | false =>
    obtain ⟨ht, hmm, l, rfl, hl⟩ := h
    obtain ⟨t, h1, h2, h3, _⟩ := iha false ht
    have hb := hρ l
    rw [hl] at hb
    obtain ⟨t', h5, h6⟩ := Props.batch_axial env hm t (ρ l) _ _ (den shp val a) (fun i => val l i 0) (h3 hmm)
      (Props.holds_congr hb (fun c hc => by
        obtain ⟨hl, _⟩ := hc
        match c, hl with
        | [i], _ => rfl))
    exact ⟨t', by simp only [eval, h1, Outcome.ok_bind]; exact h5, .inl h6, False.elim, False.elim⟩
  | tr a ih =>
    intro g h
    cases g with
    | true => exact h.elim
    | false =>
    obtain ⟨t, h1, h2, _⟩ := ih false h
    obtain ⟨t', h3, h4⟩ := Props.batch_transpose env hm t _ _ _ h2
    exact ⟨t', by simp only [eval, h1, Outcome.ok_bind]; exact h3, h4, False.elim, False.elim⟩
  | rsum a ih =>
    intro g h
    cases g with
    | true => exact h.elim
    | false =>
    obtain ⟨t, h1, h2, _⟩ := ih false h
    obtain ⟨t', h3, h4⟩ := Props.batch_reduce env hm t _ _ _ h2
    exact ⟨t', by simp only [eval, h1, Outcome.ok_bind]; exact h3, h4, False.elim, False.elim⟩
  | sum0 a ih =>
    intro g h
    cases g with
    | true => exact h.elim
    | false =>
    obtain ⟨t, h1, h2, _⟩ := ih false h
    obtain ⟨t', h3, h4, h5⟩ := Props.batch_reduce0 env hm (· + ·) t _ _ _ h2
    refine ⟨t', by simp only [eval, h1, Outcome.ok_bind]; exact h3, batch_congr h4 (fun i j _ _ => ?_), False.elim, fun _ => ⟨_, h5⟩⟩
    rw [Props.fold1_range]; rfl
  | max0 a ih =>
    intro g h
    cases g with
    | true => exact h.elim
    | false =>
    obtain ⟨t, h1, h2, _⟩ := ih false h
    obtain ⟨t', h3, h4, h5⟩ := Props.batch_reduce0 env hm max t _ _ _ h2
    refine ⟨t', by simp only [eval, h1, Outcome.ok_bind]; exact h3, batch_congr h4 (fun i j _ _ => ?_), False.elim, fun _ => ⟨_, h5⟩⟩
    rw [Props.fold1_max _ _ (typed_pos (a := a) h).1]; rfl
  | sumAll a ih =>
    intro g h
    cases g with
    | true => exact h.elim
    | false =>
    obtain ⟨t, h1, h2, _⟩ := ih false h
    obtain ⟨t', h3, h4, h5⟩ := Props.batch_sumAll env hm t _ _ _ h2
    exact ⟨t', by simp only [eval, h1, Outcome.ok_bind]; exact h3, h4, False.elim, fun _ => ⟨_, h5⟩⟩
  | nelems a ih =>
    intro g h
    cases g with
    | true => exact h.elim
    | false =>
    obtain ⟨t, h1, h2, _⟩ := ih false h
    obtain ⟨t', h3, h4, h5⟩ := Props.batch_nelems env hm t _ _ _ h2
    exact ⟨t', by simp only [eval, h1, Outcome.ok_bind]; exact h3, h4, False.elim, fun _ => ⟨_, h5⟩⟩
  | grp x a ih =>
    intro g h
    cases g with
    | false => exact h.elim
    | true =>
    obtain ⟨t, h1, h2, _⟩ := ih false h.1
    obtain ⟨t', h3, h4⟩ := Props.c59_pointwise_unary env hm id t _ _ _ h2
    exact ⟨t', by simp only [eval, h1, Outcome.ok_bind]; exact h3, h4, False.elim, False.elim⟩
  | binAx k x l a b iha ihb =>
    intro g h
    cases g with
    | true => exact h.elim
    | false =>
    obtain ⟨ha, hb, rfl, rfl, hd⟩ := h
    obtain ⟨t, h1, h2, _⟩ := iha true ha
    obtain ⟨u, h3, h4, _, hv⟩ := ihb false hb
    by_cases hd1 : dims shp b = (1, 1)
    · rw [hd1] at h4
      obtain ⟨t', h5, h6⟩ := Props.batch_axial_scalar env hm k.fn t u _ _ _ _ h2 h4
      refine ⟨t', by simp only [eval, h1, h3, Outcome.ok_bind]; exact h5, batch_congr h6 (fun i j _ _ => ?_), False.elim, False.elim⟩
      simp only [den]
      rw [if_pos hd1]
    · rcases hd with hd | ⟨hb', hd, hne⟩
      · exact absurd hd hd1
      · rw [hd] at h4
        obtain ⟨x, hx⟩ := hv hb'
        have hx' : u.alloc = [(dims shp a).2] := by
          rcases h4 with h4 | ⟨_, h4⟩
          · rw [h4.shape] at hx; simp at hx
          · exact h4.shape
        obtain ⟨t', h5, h6⟩ := Props.batch_axial0 env hm k.fn t u _ _ _ _ h2 h4 hx' hne (by
          intro h; exact hd1 (by rw [hd, h]))
        refine ⟨t', by simp only [eval, h1, h3, Outcome.ok_bind]; exact h5, batch_congr h6 (fun i j _ _ => ?_), False.elim, False.elim⟩
        simp only [den]
        rw [if_neg hd1, if_pos trivial]
  | l2 a ih =>
    intro g h
    cases g with
    | true => exact h.elim
    | false =>
    obtain ⟨t, h1, h2, _⟩ := ih false h
    obtain ⟨t', h3, h4, h5⟩ := Props.batch_l2 env hm t _ _ _ h2
    exact ⟨t', by simp only [eval, h1, Outcome.ok_bind]; exact h3, h4, False.elim, fun _ => ⟨_, h5⟩⟩
  | clipn cap a ih =>
    intro g h
    cases g with
    | true => exact h.elim
    | false =>
    obtain ⟨t, h1, h2, _, hv⟩ := ih false h
    obtain ⟨t', h3, h4, h5⟩ := Props.batch_l2 env hm t _ _ _ h2
    obtain ⟨t'', h6, h7, h8⟩ := Props.batch_clip env hm cap t t' _ _ _ _ h2 h4
    exact ⟨t'', by simp only [eval, h1, Outcome.ok_bind, h3]; exact h6, h7, False.elim, fun h => h8 (hv h)⟩

theorem eval_typed (env : Verif.Env ℝ) (hm : ∀ n, env.fits n = true) (on : Bool) (ρ : Leaf → Tensor ℝ)
    (hρ : ∀ l, Holds (ρ l) (shp l) (fun c => val l (c.getD 0 0) (c.getD 1 0))) (a : Term) (h : Typed shp a) :
    ∃ t, eval env on ρ a = .ok t ∧ Batch t (dims shp a).1 (dims shp a).2 (den shp val a) ∧
      (IsMm a → Holds t [(dims shp a).1, (dims shp a).2] (fun c => den shp val a (c.getD 0 0) (c.getD 1 0))) := by
  obtain ⟨t, h1, h2, h3, _⟩ := eval_typedG env hm on ρ hρ a false h
  exact ⟨t, h1, h2, h3⟩

/-- `d` denotes the matrix `f` of size `n × b`; a constant stands for a matrix of equal entries. -/
def Is (shp : Leaf → List Nat) (val : Leaf → Nat → Nat → ℝ) (d : Term) (n b : Nat) (f : Nat → Nat → ℝ) : Prop :=
  (∃ c, d = .const c ∧ ∀ i j, i < n → j < b → f i j = c) ∨
  (Typed shp d ∧ dims shp d = (n, b) ∧ ∀ i j, i < n → j < b → den shp val d i j = f i j)

variable {d e : Term} {n b : Nat} {f g : Nat → Nat → ℝ}

theorem Is.congr (h : Is shp val d n b f) (hfg : ∀ i j, i < n → j < b → f i j = g i j) : Is shp val d n b g := by
  rcases h with ⟨c, h1, h2⟩ | ⟨h1, h2, h3⟩
  · exact .inl ⟨c, h1, fun i j hi hj => by beta_reduce; rw [← hfg i j hi hj, h2 i j hi hj]⟩
  · exact .inr ⟨h1, h2, fun i j hi hj => by beta_reduce; rw [← hfg i j hi hj, h3 i j hi hj]⟩

theorem is_const (c : ℝ) : Is shp val (.const c) n b (fun _ _ => c) := .inl ⟨c, rfl, fun _ _ _ _ => rfl⟩

theorem unop_nc {k : K1} {a : Term} (h : ∀ c, a ≠ .const c) : unop k a = .un k a := by
  cases a <;> first | rfl | exact absurd rfl (h _)

theorem un_is {k : K1} (hk : ∀ c, k = .divR c → c ≠ 0) (h1 : Typed shp d) (h2 : dims shp d = (n, b))
    (h3 : ∀ i j, i < n → j < b → den shp val d i j = f i j) : Is shp val (.un k d) n b (fun i j => k.fn (f i j)) :=
  .inr ⟨⟨h1, hk⟩, h2, fun i j hi hj => by simp only [den]; rw [h3 i j hi hj]⟩

theorem is_unop {k : K1} (hk : ∀ c, k = .divR c → c ≠ 0) (h : Is shp val d n b f) :
    Is shp val (unop k d) n b (fun i j => k.fn (f i j)) := by
  rcases h with ⟨c, rfl, h2⟩ | ⟨h1, h2, h3⟩
  · exact .inl ⟨_, rfl, fun i j hi hj => by beta_reduce; rw [h2 i j hi hj]⟩
  · rw [unop_nc (fun c => h1.nc c)]; exact un_is hk h1 h2 h3

theorem neg_typed {d : Term} (h : Typed shp d) : (∃ a, d = .un .neg a ∧ neg d = a) ∨ neg d = .un .neg d := by
  cases d with
  | const c => exact h.elim
  | un k a =>
    cases k with
    | neg => exact .inl ⟨a, rfl, rfl⟩
    | _ => exact .inr rfl
  | _ => exact .inr rfl

theorem is_neg (h : Is shp val d n b f) : Is shp val (neg d) n b (fun i j => -f i j) := by
  rcases h with ⟨c, rfl, h2⟩ | ⟨h1, h2, h3⟩
  · exact .inl ⟨_, rfl, fun i j hi hj => by beta_reduce; rw [h2 i j hi hj]⟩
  · rcases neg_typed h1 with ⟨a, rfl, ha⟩ | ha <;> rw [ha]
    · refine .inr ⟨h1.1, h2, fun i j hi hj => ?_⟩
      have := h3 i j hi hj
      simp only [den, K1.fn] at this
      beta_reduce; rw [← this, neg_neg]
    · exact un_is (k := .neg) (by simp) h1 h2 h3

theorem neg_nc {d : Term} (h : ∀ c, d ≠ .const c) (h' : Typed shp d) (c : ℝ) : neg d ≠ .const c := by
  rcases neg_typed h' with ⟨a, rfl, ha⟩ | ha <;> rw [ha]
  · exact Typed.nc h'.1 c
  · simp

theorem is_pow (s : ℝ) (h : Is shp val d n b f) : Is shp val (pow d s) n b (fun i j => f i j ^ s) := by
  unfold pow
  by_cases h0 : s = 0
  · rw [if_pos h0, h0]; exact .inl ⟨1, rfl, fun i j _ _ => Real.rpow_zero _⟩
  · rw [if_neg h0]
    by_cases h1 : s = 1
    · rw [if_pos h1, h1]; exact h.congr (fun i j _ _ => (Real.rpow_one _).symm)
    · rw [if_neg h1]; exact is_unop (k := .pow s) (by simp) h

theorem is_addL (c : ℝ) (h : Is shp val d n b f) : Is shp val (addL c d) n b (fun i j => c + f i j) := by
  unfold addL
  by_cases h0 : c = 0
  · rw [if_pos h0, h0]; exact h.congr (fun i j _ _ => (zero_add _).symm)
  · rw [if_neg h0]; exact is_unop (k := .addL c) (by simp) h

theorem is_addR (c : ℝ) (h : Is shp val d n b f) : Is shp val (addR d c) n b (fun i j => f i j + c) := by
  rcases h with ⟨x, rfl, h2⟩ | ⟨h1, h2, h3⟩
  · exact .inl ⟨_, rfl, fun i j hi hj => by beta_reduce; rw [h2 i j hi hj]⟩
  · have : addR d c = if c = 0 then d else .un (.addR c) d := by
      cases d <;> first | rfl | exact h1.elim
    rw [this]
    by_cases h0 : c = 0
    · rw [if_pos h0, h0]; exact .inr ⟨h1, h2, fun i j hi hj => by beta_reduce; rw [h3 i j hi hj, add_zero]⟩
    · rw [if_neg h0]; exact un_is (k := .addR c) (by simp) h1 h2 h3

theorem is_subL (c : ℝ) (h : Is shp val d n b f) : Is shp val (subL c d) n b (fun i j => c - f i j) := by
  unfold subL
  by_cases h0 : c = 0
  · rw [if_pos h0, h0]; exact (is_neg h).congr (fun i j _ _ => (zero_sub _).symm)
  · rw [if_neg h0]; exact is_unop (k := .subL c) (by simp) h

theorem is_subR (c : ℝ) (h : Is shp val d n b f) : Is shp val (subR d c) n b (fun i j => f i j - c) := by
  rcases h with ⟨x, rfl, h2⟩ | ⟨h1, h2, h3⟩
  · exact .inl ⟨_, rfl, fun i j hi hj => by beta_reduce; rw [h2 i j hi hj]⟩
  · have : subR d c = if c = 0 then d else .un (.subR c) d := by
      cases d <;> first | rfl | exact h1.elim
    rw [this]
    by_cases h0 : c = 0
    · rw [if_pos h0, h0]; exact .inr ⟨h1, h2, fun i j hi hj => by beta_reduce; rw [h3 i j hi hj, sub_zero]⟩
    · rw [if_neg h0]; exact un_is (k := .subR c) (by simp) h1 h2 h3

theorem mulL_nc (c : ℝ) (h : ∀ x, d ≠ .const x) :
    mulL c d = if 0 = c then .const 0 else if 1 = c then d else if -1 = c then neg d else .un (.mulL c) d := by
  cases d <;> first | rfl | exact absurd rfl (h _)

theorem mulR_nc (c : ℝ) (h : ∀ x, d ≠ .const x) :
    mulR d c = if 0 = c then .const 0 else if 1 = c then d else if -1 = c then neg d else .un (.mulR c) d := by
  cases d <;> first | rfl | exact absurd rfl (h _)

theorem is_mulL (c : ℝ) (h : Is shp val d n b f) : Is shp val (mulL c d) n b (fun i j => c * f i j) := by
  have h' := h
  rcases h with ⟨x, rfl, h2⟩ | ⟨h1, h2, h3⟩
  · exact .inl ⟨_, rfl, fun i j hi hj => by beta_reduce; rw [h2 i j hi hj]⟩
  · rw [mulL_nc c h1.nc]
    by_cases h0 : 0 = c
    · rw [if_pos h0, ← h0]; exact .inl ⟨0, rfl, fun i j _ _ => zero_mul _⟩
    · rw [if_neg h0]
      by_cases h4 : 1 = c
      · rw [if_pos h4, ← h4]; exact h'.congr (fun i j _ _ => (one_mul _).symm)
      · rw [if_neg h4]
        by_cases h5 : -1 = c
        · rw [if_pos h5, ← h5]; exact (is_neg h').congr (fun i j _ _ => (neg_one_mul _).symm)
        · rw [if_neg h5]; exact un_is (k := .mulL c) (by simp) h1 h2 h3

theorem is_mulR (c : ℝ) (h : Is shp val d n b f) : Is shp val (mulR d c) n b (fun i j => f i j * c) := by
  have h' := h
  rcases h with ⟨x, rfl, h2⟩ | ⟨h1, h2, h3⟩
  · exact .inl ⟨_, rfl, fun i j hi hj => by beta_reduce; rw [h2 i j hi hj]⟩
  · rw [mulR_nc c h1.nc]
    by_cases h0 : 0 = c
    · rw [if_pos h0, ← h0]; exact .inl ⟨0, rfl, fun i j _ _ => mul_zero _⟩
    · rw [if_neg h0]
      by_cases h4 : 1 = c
      · rw [if_pos h4, ← h4]; exact h'.congr (fun i j _ _ => (mul_one _).symm)
      · rw [if_neg h4]
        by_cases h5 : -1 = c
        · rw [if_pos h5, ← h5]; exact (is_neg h').congr (fun i j _ _ => (mul_neg_one _).symm)
        · rw [if_neg h5]; exact un_is (k := .mulR c) (by simp) h1 h2 h3

theorem is_divL (c : ℝ) (hd : Typed shp d) (h : Is shp val d n b f) :
    ∃ r, divL c d = .ok r ∧ Is shp val r n b (fun i j => c / f i j) := by
  rcases h with ⟨x, rfl, h2⟩ | ⟨h1, h2, h3⟩
  · exact hd.elim
  · have : divL c d = .ok (if c = 0 then .const 0 else .un (.divL c) d) := by
      cases d <;> first | rfl | exact h1.elim
    refine ⟨_, this, ?_⟩
    by_cases h0 : c = 0
    · rw [if_pos h0, h0]; exact .inl ⟨0, rfl, fun i j _ _ => zero_div _⟩
    · rw [if_neg h0]; exact un_is (k := .divL c) (by simp) h1 h2 h3

theorem is_divR (c : ℝ) (hc : c ≠ 0) (h : Is shp val d n b f) :
    ∃ r, divR d c = .ok r ∧ Is shp val r n b (fun i j => f i j / c) := by
  have h' := h
  rcases h with ⟨x, rfl, h2⟩ | ⟨h1, h2, h3⟩
  · exact ⟨_, rfl, .inl ⟨_, rfl, fun i j hi hj => by beta_reduce; rw [h2 i j hi hj]⟩⟩
  · have : divR d c = .ok (if c = 1 then d else .un (.divR c) d) := by
      have : divR d c = if c = 0 then .throw .logicError else .ok (if c = 1 then d else .un (.divR c) d) := by
        cases d <;> first | rfl | exact h1.elim
      rw [this, if_neg hc]
    refine ⟨_, this, ?_⟩
    by_cases h0 : c = 1
    · rw [if_pos h0, h0]; exact h'.congr (fun i j _ _ => (div_one _).symm)
    · rw [if_neg h0]; exact un_is (k := .divR c) (by rintro c' ⟨⟩; exact hc) h1 h2 h3

theorem bin_is {k : K2} (h1 : Typed shp d) (h2 : dims shp d = (n, b)) (h3 : ∀ i j, i < n → j < b → den shp val d i j = f i j)
    (h1' : Typed shp e) (h2' : dims shp e = (n, b)) (h3' : ∀ i j, i < n → j < b → den shp val e i j = g i j) :
    Is shp val (.bin k d e) n b (fun i j => k.fn (f i j) (g i j)) :=
  .inr ⟨⟨h1, .inl h1', .inl (h2.trans h2'.symm)⟩, (dims_bin (h2.trans h2'.symm)).trans h2,
    fun i j hi hj => by rw [den_bin (h2.trans h2'.symm), h3 i j hi hj, h3' i j hi hj]⟩

theorem add_nc (h : ∀ c, d ≠ .const c) (h' : ∀ c, e ≠ .const c) : add d e = node2 .add d e := by
  cases d <;> first | exact absurd rfl (h _) | (cases e <;> first | rfl | exact absurd rfl (h' _))

theorem add_const_right (c : ℝ) (h : ∀ c, d ≠ .const c) : add d (.const c) = if c = 0 then d else addR d c := by
  cases d <;> first | rfl | exact absurd rfl (h _)

theorem is_add (h : Is shp val d n b f) (h' : Is shp val e n b g) : Is shp val (add d e) n b (fun i j => f i j + g i j) := by
  have hh := h
  rcases h with ⟨x, rfl, h2⟩ | ⟨h1, h2, h3⟩
  · show Is shp val (if x = 0 then e else addL x e) n b _
    by_cases h0 : x = 0
    · rw [if_pos h0]; exact h'.congr (fun i j hi hj => by beta_reduce; rw [h2 i j hi hj, h0, zero_add])
    · rw [if_neg h0]; exact (is_addL x h').congr (fun i j hi hj => by beta_reduce; rw [h2 i j hi hj])
  · rcases h' with ⟨y, rfl, h2'⟩ | ⟨h1', h2', h3'⟩
    · rw [add_const_right y h1.nc]
      by_cases h0 : y = 0
      · rw [if_pos h0]; exact hh.congr (fun i j hi hj => by beta_reduce; rw [h2' i j hi hj, h0, add_zero])
      · rw [if_neg h0]; exact (is_addR y hh).congr (fun i j hi hj => by beta_reduce; rw [h2' i j hi hj])
    · rw [add_nc h1.nc h1'.nc, node2_typed h1 h1']; exact bin_is (k := .add) h1 h2 h3 h1' h2' h3'

theorem is_same (h : Is shp val d n b f) (h' : Is shp val d n b g) (i j : Nat) (hi : i < n) (hj : j < b) : f i j = g i j := by
  rcases h with ⟨x, rfl, h2⟩ | ⟨h1, h2, h3⟩
  · rcases h' with ⟨y, hy, h2'⟩ | ⟨h1', _⟩
    · cases hy; rw [h2 i j hi hj, h2' i j hi hj]
    · exact h1'.elim
  · rcases h' with ⟨y, rfl, h2'⟩ | ⟨h1', h2', h3'⟩
    · exact h1.elim
    · rw [← h3 i j hi hj, h3' i j hi hj]

theorem is_sub (h : Is shp val d n b f) (h' : Is shp val e n b g) : Is shp val (sub d e) n b (fun i j => f i j - g i j) := by
  by_cases hde : d = e
  · subst hde
    unfold sub
    rw [if_pos rfl]
    exact .inl ⟨0, rfl, fun i j hi hj => by beta_reduce; rw [is_same h h' i j hi hj, sub_self]⟩
  · have hh := h
    rcases h with ⟨x, rfl, h2⟩ | ⟨h1, h2, h3⟩
    · have : sub (.const x) e = if x = 0 then neg e else subL x e := by
        unfold sub; rw [if_neg hde]
      rw [this]
      by_cases h0 : x = 0
      · rw [if_pos h0]; exact (is_neg h').congr (fun i j hi hj => by rw [h2 i j hi hj, h0, zero_sub])
      · rw [if_neg h0]; exact (is_subL x h').congr (fun i j hi hj => by rw [h2 i j hi hj])
    · rcases h' with ⟨y, rfl, h2'⟩ | ⟨h1', h2', h3'⟩
      · have : sub d (.const y) = if y = 0 then d else subR d y := by
          unfold sub; rw [if_neg hde]
          cases d <;> first | rfl | exact h1.elim
        rw [this]
        by_cases h0 : y = 0
        · rw [if_pos h0]; exact hh.congr (fun i j hi hj => by rw [h2' i j hi hj, h0, sub_zero])
        · rw [if_neg h0]; exact (is_subR y hh).congr (fun i j hi hj => by rw [h2' i j hi hj])
      · have : sub d e = .bin .sub d e := by
          rw [← node2_typed (k := .sub) h1 h1']
          unfold sub; rw [if_neg hde]
          cases d <;> first | exact h1.elim | (cases e <;> first | rfl | exact h1'.elim)
        rw [this]; exact bin_is (k := .sub) h1 h2 h3 h1' h2' h3'

theorem mul_const_left (c : ℝ) (h : ∀ x, e ≠ .const x) : mul (.const c) e = if c = 0 then .const 0 else mulL c e := by
  unfold mul; rw [if_neg (Ne.symm (h c))]

theorem mul_const_right (c : ℝ) (h : ∀ x, d ≠ .const x) : mul d (.const c) = if c = 0 then .const 0 else mulR d c := by
  unfold mul; rw [if_neg (h c)]
  cases d <;> first | rfl | exact absurd rfl (h _)

theorem mul_nc' (hne : d ≠ e) (h : ∀ x, d ≠ .const x) (h' : ∀ x, e ≠ .const x) : mul d e = node2 .mul d e := by
  unfold mul; rw [if_neg hne]
  cases d <;> first | exact absurd rfl (h _) | (cases e <;> first | rfl | exact absurd rfl (h' _))

theorem mul_nc (hne : d ≠ e) (h : Typed shp d) (h' : Typed shp e) : mul d e = .bin .mul d e := by
  rw [mul_nc' hne h.nc h'.nc, node2_typed h h']

theorem is_mul (h : Is shp val d n b f) (h' : Is shp val e n b g) : Is shp val (mul d e) n b (fun i j => f i j * g i j) := by
  by_cases hde : d = e
  · subst hde
    unfold mul
    rw [if_pos rfl]
    refine (is_pow 2 h).congr (fun i j hi hj => ?_)
    beta_reduce; rw [is_same h h' i j hi hj, Real.rpow_two, sq]
  · have hh := h
    rcases h with ⟨x, rfl, h2⟩ | ⟨h1, h2, h3⟩
    · have : mul (.const x) e = if x = 0 then .const 0 else mulL x e := by
        unfold mul; rw [if_neg hde]
      rw [this]
      by_cases h0 : x = 0
      · rw [if_pos h0]; exact .inl ⟨0, rfl, fun i j hi hj => by beta_reduce; rw [h2 i j hi hj, h0, zero_mul]⟩
      · rw [if_neg h0]; exact (is_mulL x h').congr (fun i j hi hj => by beta_reduce; rw [h2 i j hi hj])
    · rcases h' with ⟨y, rfl, h2'⟩ | ⟨h1', h2', h3'⟩
      · rw [mul_const_right y h1.nc]
        by_cases h0 : y = 0
        · rw [if_pos h0]; exact .inl ⟨0, rfl, fun i j hi hj => by beta_reduce; rw [h2' i j hi hj, h0, mul_zero]⟩
        · rw [if_neg h0]; exact (is_mulR y hh).congr (fun i j hi hj => by beta_reduce; rw [h2' i j hi hj])
      · rw [mul_nc hde h1 h1']; exact bin_is (k := .mul) h1 h2 h3 h1' h2' h3'

/-- A product is not a constant if one factor is not, and the other is not zero. -/
theorem mul_not_const (h : d ≠ .const 0) (hd : (∃ c, d = .const c) ∨ Typed shp d) (he : Typed shp e) :
    ∀ c, mul d e ≠ .const c := by
  intro c
  rcases hd with ⟨x, rfl⟩ | hd
  · have hx : x ≠ 0 := fun hx => h (by rw [hx])
    rw [mul_const_left x he.nc, if_neg hx, mulL_nc x he.nc, if_neg (Ne.symm hx)]
    by_cases h4 : 1 = x
    · rw [if_pos h4]; exact he.nc c
    · rw [if_neg h4]
      by_cases h5 : -1 = x
      · rw [if_pos h5]; exact neg_nc he.nc he c
      · rw [if_neg h5]; simp
  · by_cases hde : d = e
    · subst hde
      unfold mul pow
      rw [if_pos rfl, if_neg (by norm_num), if_neg (by norm_num), unop_nc hd.nc]; simp
    · rw [mul_nc hde hd he]; simp

theorem is_div (h : Is shp val d n b f) (he : Typed shp e) (h' : Is shp val e n b g) (hz : ∀ i j, i < n → j < b → g i j ≠ 0) :
    ∃ r, div d e = .ok r ∧ Is shp val r n b (fun i j => f i j / g i j) := by
  by_cases hde : d = e
  · subst hde
    refine ⟨.const 1, by unfold div; rw [if_pos rfl], .inl ⟨1, rfl, fun i j hi hj => ?_⟩⟩
    beta_reduce; rw [is_same h h' i j hi hj, div_self (hz i j hi hj)]
  · rcases h with ⟨x, rfl, h2⟩ | ⟨h1, h2, h3⟩
    · have : div (.const x) e = if x = 0 then .ok (.const 0) else divL x e := by
        unfold div; rw [if_neg hde]
      rw [this]
      by_cases h0 : x = 0
      · rw [if_pos h0]; exact ⟨_, rfl, .inl ⟨0, rfl, fun i j hi hj => by beta_reduce; rw [h2 i j hi hj, h0, zero_div]⟩⟩
      · rw [if_neg h0]
        obtain ⟨r, hr, hr'⟩ := is_divL x he h'
        exact ⟨r, hr, hr'.congr (fun i j hi hj => by beta_reduce; rw [h2 i j hi hj])⟩
    · rcases h' with ⟨y, rfl, h2'⟩ | ⟨h1', h2', h3'⟩
      · exact he.elim
      · have : div d e = .ok (.bin .div d e) := by
          rw [← node2_typed (k := .div) h1 h1']
          unfold div; rw [if_neg hde]
          cases d <;> first | exact h1.elim | (cases e <;> first | rfl | exact h1'.elim)
        exact ⟨_, this, bin_is (k := .div) h1 h2 h3 h1' h2' h3'⟩

theorem is_transpose {a : Term} (h : Typed shp a) : Typed shp (transpose a) ∧
    dims shp (transpose a) = ((dims shp a).2, (dims shp a).1) ∧ ∀ i j, den shp val (transpose a) i j = den shp val a j i := by
  cases a with
  | tr a => exact ⟨h, rfl, fun i j => rfl⟩
  | const c => exact h.elim
  | _ => exact ⟨h, rfl, fun i j => rfl⟩

end Verif.Backprop
