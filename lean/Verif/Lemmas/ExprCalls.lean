import Verif.Lemmas.ExprGrad
/-!
# Lemmas on calls and histories of operator constructions
-/
namespace Verif.Expr
open Spec
open scoped Classical

variable {C : Prop} {env : Env} {S : St}

theorem divR_cases (I : Inv C env.fmt S) (a : Nat) (c : ℝ) (ha : a < S.nodes.length) :
    (c = 0 ∧ divR env a c S = .throw .logicError) ∨
    Builds C env.fmt S (divR env a c S) (fun ρ i v => ∃ u, Val S ρ i a u ∧ c ≠ 0 ∧ v = u / c) False := by
  by_cases hc : c = 0
  · cases h : constData S a with
    | none => left; exact ⟨hc, by unfold divR; rw [h]; simp [hc]⟩
    | some d =>
      right
      by_cases h1 : d = [0]
      · have e : divR env a c S = mkConst [0] S := by unfold divR; rw [h]; simp [h1]
        rw [e]
        exact scalar_builds I 0 (by rintro ρ i v ⟨u, _, h, _⟩; exact absurd hc h) id
      · have e : divR env a c S = mkConst (d.map (fun x => x / c)) S := by unfold divR; rw [h]; simp [h1]
        rw [e]
        exact (map_const_builds I h (fun x => x / c)).weaken (by rintro ρ i v ⟨u, hu, _, hv⟩; exact ⟨u, hu, hv⟩) (by simp)
  · right
    exact (divR_builds I a c ha hc).weaken (by rintro ρ i v ⟨u, hu, _, hv⟩; exact ⟨u, hu, hv⟩) (by simp)

theorem divL_cases (I : Inv C env.fmt S) (c : ℝ) (b : Nat) (hb : b < S.nodes.length) :
    (constData S b = some [0] ∧ divL env c b S = .throw .logicError) ∨
    Builds C env.fmt S (divL env c b S) (fun ρ i v => ∃ u, Val S ρ i b u ∧ u ≠ 0 ∧ v = c / u) False := by
  by_cases h : constData S b = some [0]
  · left; exact ⟨h, by unfold divL; rw [h]; simp⟩
  · right
    exact (divL_builds I c b hb h).weaken (by rintro ρ i v ⟨u, hu, _, hv⟩; exact ⟨u, hu, hv⟩) (by simp)

theorem div_cases (I : Inv C env.fmt S) (a b : Nat) (ha : a < S.nodes.length) (hb : b < S.nodes.length) :
    (constData S b = some [0] ∧ div env a b S = .throw .logicError) ∨
    Builds C env.fmt S (div env a b S) (fun ρ i v => ∃ u w, Val S ρ i a u ∧ Val S ρ i b w ∧ w ≠ 0 ∧ v = u / w) False := by
  by_cases h : constData S b = some [0]
  · have hV : ∀ (ρ : Nat → ℝ) i v (x : ℝ), (∃ u w, Val S ρ i a u ∧ Val S ρ i b w ∧ w ≠ 0 ∧ v = u / w) → v = x := by
      rintro ρ i v x ⟨u, w, _, hw, h0, _⟩; exact absurd (val_scalar h hw) h0
    have e : div env a b S = if a = b then mkConst [1] S else pick (fun x => if x = 0 then mkConst [0] S else divL env x b S)
      (fun y => if y = 0 then .throw .logicError else divR env a y S) (binary env .div a b S) (constData S a) (constData S b) := rfl
    rw [e]
    by_cases hab : a = b
    · rw [if_pos hab]; right; exact scalar_builds I 1 (fun ρ i v hh => hV ρ i v 1 hh) id
    · rw [if_neg hab]
      rcases const_cases S a b with ⟨x, h'⟩ | ⟨hn, y, h'⟩ | ⟨hn, hm⟩
      · rw [h', pick_left]
        by_cases h0 : x = 0
        · rw [if_pos h0]; right; exact scalar_builds I 0 (fun ρ i v hh => hV ρ i v 0 hh) id
        · rw [if_neg h0]; left; exact ⟨h, by unfold divL; rw [h]; simp⟩
      · left; refine ⟨h, ?_⟩
        rw [h, pick_right _ _ _ hn]; simp
      · exact absurd h (hm 0)
  · right; exact (div_builds I a b ha hb h).noq

/-- The outcomes of a unary call. -/
theorem callUn_cases (I : Inv C env.fmt S) (k : K1) (a : Nat) (ha : a < S.nodes.length) (hnc : C ∨ NotCond1 k) :
    (callUn env k a S = .throw .logicError ∧ ∀ ρ i u, Val S ρ i a u → meant1 k u = none) ∨
    Builds C env.fmt S (callUn env k a S)
      (fun ρ i v => ∃ u, Val S ρ i a u ∧ meant1 k u = some v ∧ (k = .abs → constData S a ≠ none ∨ 0 ≤ u)) False := by
  have uno : ∀ k : K1, (C ∨ NotCond1 k) → (∀ c, k = .divR c → c ≠ 0) → (∀ c, k = .pow c → c ≠ 0) →
      (∀ u v, meant1 k u = some v → v = k.fn u) →
      Builds C env.fmt S (unop env k a S) (fun ρ i v => ∃ u, Val S ρ i a u ∧ meant1 k u = some v ∧ (k = .abs → constData S a ≠ none ∨ 0 ≤ u)) False := by
    intro k h1 h2 h3 h4
    exact (unop_builds I k a ha h2 h3 h1).weaken (by rintro ρ i v ⟨u, hu, hv, _⟩; exact ⟨u, hu, h4 u v hv⟩) (by simp)
  have some_inj : ∀ {p v : ℝ}, some p = some v → v = p := by rintro p v ⟨⟩; rfl
  have ite_some : ∀ {q : Prop} {p v : ℝ}, (if q then none else some p) = some v → v = p := by
    intro q p v h; by_cases hq : q
    · rw [if_pos hq] at h; cases h
    · rw [if_neg hq] at h; exact some_inj h
  cases k with
  | ident =>
    right; refine (identity_builds I a ha).weaken ?_ (by simp)
    rintro ρ i v ⟨u, hu, hv, _⟩; rw [some_inj hv]; exact hu
  | neg =>
    right; refine (neg_builds I a ha).weaken ?_ (by simp)
    rintro ρ i v ⟨u, hu, hv, _⟩; exact ⟨u, hu, some_inj hv⟩
  | abs =>
    right; refine (abs_builds I a ha).weaken ?_ (by simp)
    rintro ρ i v ⟨u, hu, hv, h⟩
    refine ⟨u, hu, ?_⟩
    rw [some_inj hv]
    by_cases hc : constData S a = none
    · rw [if_pos hc]
      rcases h rfl with h | h
      · exact absurd hc h
      · exact abs_of_nonneg h
    · rw [if_neg hc]
  | sin => right; exact uno .sin hnc (by simp) (by simp) (fun u v h => some_inj h)
  | cos => right; exact uno .cos hnc (by simp) (by simp) (fun u v h => some_inj h)
  | tan =>
    right; refine uno .tan hnc (by simp) (by simp) (fun u v h => ?_)
    rw [ite_some h]; exact (Real.tan_eq_sin_div_cos u).symm
  | csc =>
    right; refine uno .csc hnc (by simp) (by simp) (fun u v h => ?_)
    rw [ite_some h]; simp [K1.fn]
  | sec =>
    right; refine uno .sec hnc (by simp) (by simp) (fun u v h => ?_)
    rw [ite_some h]; simp [K1.fn]
  | cot => right; exact uno .cot hnc (by simp) (by simp) (fun u v h => ite_some h)
  | exp => right; exact uno .exp hnc (by simp) (by simp) (fun u v h => some_inj h)
  | sqrt => right; exact uno .sqrt hnc (by simp) (by simp) (fun u v h => ite_some h)
  | round =>
    right; refine uno .round hnc (by simp) (by simp) (fun u v h => ?_)
    rw [some_inj h]
    simp only [K1.fn, roundAway]
    by_cases h0 : u < 0
    · rw [if_pos h0, if_neg (not_le.mpr h0), abs_of_neg h0]
    · rw [if_neg h0, if_pos (not_lt.mp h0), abs_of_nonneg (not_lt.mp h0)]
  | log => right; exact uno .log hnc (by simp) (by simp) (fun u v h => ite_some h)
  | pow s =>
    right; refine (pow_builds I a s ha).weaken ?_ (by simp)
    rintro ρ i v ⟨u, hu, hv, _⟩; refine ⟨u, hu, ?_⟩
    simp only [meant1] at hv
    split at hv
    · exact some_inj hv
    · cases hv
  | clip lo hi =>
    right; refine (clip_builds I a lo hi ha).weaken ?_ (by simp)
    rintro ρ i v ⟨u, hu, hv, _⟩; exact ⟨u, hu, some_inj hv⟩
  | addL c =>
    right; refine (addL_builds I c a ha).weaken ?_ (by simp)
    rintro ρ i v ⟨u, hu, hv, _⟩; exact ⟨u, hu, some_inj hv⟩
  | addR c =>
    right; refine (addR_builds I a c ha).weaken ?_ (by simp)
    rintro ρ i v ⟨u, hu, hv, _⟩; exact ⟨u, hu, some_inj hv⟩
  | subL c =>
    right; refine (subL_builds I c a ha).weaken ?_ (by simp)
    rintro ρ i v ⟨u, hu, hv, _⟩; exact ⟨u, hu, some_inj hv⟩
  | subR c =>
    right; refine (subR_builds I a c ha).weaken ?_ (by simp)
    rintro ρ i v ⟨u, hu, hv, _⟩; exact ⟨u, hu, some_inj hv⟩
  | mulL c =>
    right; refine (mulL_builds I c a ha).weaken ?_ (by simp)
    rintro ρ i v ⟨u, hu, hv, _⟩; exact ⟨u, hu, some_inj hv⟩
  | mulR c =>
    right; refine (mulR_builds I a c ha).weaken ?_ (by simp)
    rintro ρ i v ⟨u, hu, hv, _⟩; exact ⟨u, hu, some_inj hv⟩
  | divL c =>
    rcases divL_cases I c a ha with ⟨h, h'⟩ | h
    · left; refine ⟨h', fun ρ i u hu => ?_⟩
      simp [meant1, val_scalar h hu]
    · right; refine h.weaken ?_ (by simp)
      rintro ρ i v ⟨u, hu, hv, _⟩
      simp only [meant1] at hv
      by_cases h0 : u = 0
      · rw [if_pos h0] at hv; cases hv
      · rw [if_neg h0] at hv; exact ⟨u, hu, h0, some_inj hv⟩
  | divR c =>
    rcases divR_cases I a c ha with ⟨h, h'⟩ | h
    · left; refine ⟨h', fun ρ i u hu => ?_⟩
      simp [meant1, h]
    · right; refine h.weaken ?_ (by simp)
      rintro ρ i v ⟨u, hu, hv, _⟩
      simp only [meant1] at hv
      by_cases h0 : c = 0
      · rw [if_pos h0] at hv; cases hv
      · rw [if_neg h0] at hv; exact ⟨u, hu, h0, some_inj hv⟩
  | condL name cmp c => right; exact uno (.condL name cmp c) hnc (by simp) (by simp) (fun u v h => some_inj h)
  | condR name cmp c => right; exact uno (.condR name cmp c) hnc (by simp) (by simp) (fun u v h => some_inj h)

/-- The outcomes of a binary call. -/
theorem callBin_cases (I : Inv C env.fmt S) (k : K2) (a b : Nat) (ha : a < S.nodes.length) (hb : b < S.nodes.length)
    (hnc : C ∨ NotCond2 k) :
    (callBin env k a b S = .throw .logicError ∧ ∀ ρ i u w, Val S ρ i a u → Val S ρ i b w → meant2 k u w = none) ∨
    Builds C env.fmt S (callBin env k a b S)
      (fun ρ i v => ∃ u w, Val S ρ i a u ∧ Val S ρ i b w ∧ meant2 k u w = some v) False := by
  have some_inj : ∀ {p v : ℝ}, some p = some v → v = p := by rintro p v ⟨⟩; rfl
  cases k with
  | add =>
    right; refine (add_builds I a b ha hb).weaken ?_ (by simp)
    rintro ρ i v ⟨u, w, hu, hw, hv⟩; exact ⟨u, w, hu, hw, some_inj hv⟩
  | sub =>
    right; refine (sub_builds I a b ha hb).weaken ?_ (by simp)
    rintro ρ i v ⟨u, w, hu, hw, hv⟩; exact ⟨u, w, hu, hw, some_inj hv⟩
  | mul =>
    right; refine (mul_builds I a b ha hb).weaken ?_ (by simp)
    rintro ρ i v ⟨u, w, hu, hw, hv⟩; exact ⟨u, w, hu, hw, some_inj hv⟩
  | div =>
    rcases div_cases I a b ha hb with ⟨h, h'⟩ | h
    · left; refine ⟨h', fun ρ i u w hu hw => ?_⟩
      simp [meant2, val_scalar h hw]
    · right; refine h.weaken ?_ (by simp)
      rintro ρ i v ⟨u, w, hu, hw, hv⟩
      simp only [meant2] at hv
      by_cases h0 : w = 0
      · rw [if_pos h0] at hv; cases hv
      · rw [if_neg h0] at hv; exact ⟨u, w, hu, hw, h0, some_inj hv⟩
  | cond name cmp =>
    right
    have hC : C := hnc.resolve_right (by simp [NotCond2])
    refine (cond_builds I name cmp a b ha hb hC).weaken ?_ (by simp)
    rintro ρ i v ⟨u, w, hu, hw, hv⟩; exact ⟨u, w, hu, hw, some_inj hv⟩

theorem init_inv (fmt : ℝ → List Char) : Inv C fmt St.init := by
  have two : ∀ (n : Nat) (nd : Node), St.init.nodes[n]? = some nd → nd = .const [0] ∨ nd = .const [1] := by
    intro n nd h
    match n, h with
    | 0, h => simp [St.init] at h; exact Or.inl h.symm
    | 1, h => simp [St.init] at h; exact Or.inr h.symm
    | n + 2, h => simp [St.init] at h
  refine ⟨?_, ?_, ?_, ?_, ?_, ?_, ?_, ?_, rfl, rfl, Or.inr ⟨by simp [St.init], by simp [St.init]⟩, by simp [St.init]⟩
  · intro n nd h a ha; rcases two n nd h with rfl | rfl <;> simp [Node.args] at ha
  · intro n d h; rcases two _ _ h with h' | h' <;> cases h' <;> simp
  · intro n k a h; rcases two _ _ h with h' | h' <;> cases h'
  · intro n k a b h; rcases two _ _ h with h' | h' <;> cases h'
  · intro n k a h; rcases two _ _ h with h' | h' <;> cases h'
  · intro n k a b h; rcases two _ _ h with h' | h' <;> cases h'
  · intro n k a h; rcases two _ _ h with h' | h' <;> cases h'
  · intro n k a h; rcases two _ _ h with h' | h' <;> cases h'

theorem exec_un {k : K1} {a : Nat} (ha : a < S.nodes.length) : exec env (.un k a) S = callUn env k a S := by
  simp [exec, Call.args, ha]
theorem exec_bin {k : K2} {a b : Nat} (ha : a < S.nodes.length) (hb : b < S.nodes.length) :
    exec env (.bin k a b) S = callBin env k a b S := by
  simp [exec, Call.args, ha, hb]

/-- Every call that succeeds keeps the invariant and the older nodes. -/
theorem exec_inv (I : Inv C env.fmt S) {c : Call} (hnc : C ∨ NotCond c) {n : Nat} {S' : St} (h : exec env c S = .ok (n, S')) :
    Inv C env.fmt S' ∧ Ext S S' ∧ n < S'.nodes.length := by
  unfold exec at h
  split at h
  · rename_i hargs
    have fin : ∀ {m : Outcome (Nat × St)} {V : (Nat → ℝ) → Nat → ℝ → Prop} {q : Prop}, Builds C env.fmt S m V q → m = .ok (n, S') →
        Inv C env.fmt S' ∧ Ext S S' ∧ n < S'.nodes.length := by
      rintro m V q ⟨n', S'', h1, h2, h3, h4, _⟩ he
      rw [h1] at he; cases he
      exact ⟨h2, h3, h4⟩
    cases c with
    | leaf tr =>
      obtain ⟨i1, e1⟩ := inv_push I (.leaf tr) (a1 := S.asked1) (a2 := S.asked2) (fun _ h => h) (fun _ h => h)
        (by simp [Node.args]) (by rintro _ ⟨⟩) (by rintro _ _ ⟨⟩) (by rintro _ _ _ ⟨⟩) (by rintro _ _ ⟨⟩) (by rintro _ _ ⟨⟩) I.nocond
      cases h
      exact ⟨i1, e1, by simp⟩
    | const d =>
      simp only at h
      by_cases hd : d = []
      · rw [if_pos hd] at h; cases h
      · rw [if_neg hd] at h
        exact fin (push_const_builds I d hd) h
    | un k a =>
      simp [Call.args] at hargs
      rcases callUn_cases I k a hargs hnc with ⟨h', _⟩ | h'
      · simp only [h'] at h; cases h
      · exact fin h' h
    | bin k a b =>
      simp [Call.args] at hargs
      rcases callBin_cases I k a b hargs.1 hargs.2 hnc with ⟨h', _⟩ | h'
      · simp only [h'] at h; cases h
      · exact fin h' h
    | derive m x =>
      simp [Call.args] at hargs
      simp only at h
      split at h
      · rename_i hx
        exact fin (gradient_builds x (m + 1) m S I (Nat.lt_succ_self m) hargs.1 hx) h
      · by_cases hmx : m = x
        · rw [if_pos hmx] at h; exact fin (ret_builds I 1 (one_lt I)) h
        · rw [if_neg hmx] at h; exact fin (ret_builds I 0 (zero_lt I)) h
      · exact fin (ret_builds I 0 (zero_lt I)) h
      · by_cases hmx : m = x
        · rw [if_pos hmx] at h; exact fin (ret_builds I 1 (one_lt I)) h
        · rw [if_neg hmx] at h; cases h
  · cases h

theorem run_inv {fmt : ℝ → List Char} {cs : List (Hash × Call)} {S S' : St} (I : Inv C fmt S) (hc : ∀ c ∈ cs, C ∨ NotCond c.2)
    (h : run fmt cs S = .ok S') : Inv C fmt S' ∧ Ext S S' := by
  induction cs generalizing S with
  | nil => cases h; exact ⟨I, Ext.refl _⟩
  | cons c cs ih =>
    rw [run, Outcome.bind_eq_ok] at h
    obtain ⟨⟨n, S1⟩, h1, h2⟩ := h
    obtain ⟨i1, e1, _⟩ := exec_inv (env := ⟨c.1, fmt⟩) I (hc c List.mem_cons_self) h1
    obtain ⟨i2, e2⟩ := ih i1 (fun c' hc' => hc c' (List.mem_cons_of_mem _ hc')) h2
    exact ⟨i2, e1.trans e2⟩

theorem reach {fmt : ℝ → List Char} {cs : List (Hash × Call)} {S : St} (h : run fmt cs St.init = .ok S) : Inv True fmt S :=
  (run_inv (init_inv fmt) (fun _ _ => Or.inl trivial) h).1

theorem reach' {fmt : ℝ → List Char} {cs : List (Hash × Call)} {S : St} (h : run fmt cs St.init = .ok S)
    (hc : ∀ c ∈ cs, NotCond c.2) : Inv False fmt S :=
  (run_inv (init_inv fmt) (fun c hc' => Or.inr (hc c hc')) h).1

/-! ## Names -/

theorem sep_unique {α : Type} {s : α} {a b x y : List α} (ha : s ∉ a) (hb : s ∉ b) (h : a ++ s :: x = b ++ s :: y) : a = b ∧ x = y := by
  induction a generalizing b with
  | nil =>
    cases b with
    | nil => simp at h; exact ⟨rfl, h⟩
    | cons c b => simp at h; exact absurd h.1 (by rintro rfl; simp at hb)
  | cons c a ih =>
    cases b with
    | nil => simp at h; exact absurd h.1 (by rintro rfl; simp at ha)
    | cons d b =>
      simp at h
      obtain ⟨rfl, h⟩ := h
      obtain ⟨rfl, rfl⟩ := ih (fun h' => ha (by simp [h'])) (fun h' => hb (by simp [h'])) h
      exact ⟨rfl, rfl⟩

/-- Names made of pieces without underscores determine the pieces. -/
theorem intercalate_inj (l l' : List (List Char)) (hl : l ≠ []) (hl' : l' ≠ []) (h1 : ∀ w ∈ l, '_' ∉ w) (h2 : ∀ w ∈ l', '_' ∉ w)
    (h : List.intercalate ['_'] l = List.intercalate ['_'] l') : l = l' := by
  induction l generalizing l' with
  | nil => exact absurd rfl hl
  | cons a l ih =>
    cases l' with
    | nil => exact absurd rfl hl'
    | cons b l' =>
      have ha := h1 a List.mem_cons_self
      have hb := h2 b List.mem_cons_self
      cases l with
      | nil =>
        cases l' with
        | nil => simpa [List.intercalate] using h
        | cons c l' =>
          exfalso; apply ha
          have : a = b ++ '_' :: List.intercalate ['_'] (c :: l') := by simpa [List.intercalate] using h
          rw [this]; simp
      | cons c l =>
        cases l' with
        | nil =>
          exfalso; apply hb
          have : a ++ '_' :: List.intercalate ['_'] (c :: l) = b := by simpa [List.intercalate] using h
          rw [← this]; simp
        | cons d l' =>
          have : a ++ '_' :: List.intercalate ['_'] (c :: l) = b ++ '_' :: List.intercalate ['_'] (d :: l') := by
            simpa [List.intercalate] using h
          obtain ⟨rfl, h'⟩ := sep_unique ha hb this
          rw [ih (d :: l') (by simp) (by simp) (fun w hw => h1 w (List.mem_cons_of_mem _ hw))
            (fun w hw => h2 w (List.mem_cons_of_mem _ hw)) h']

theorem parts1_ne (fmt : ℝ → List Char) (k : K1) : k.parts fmt ≠ [] := by cases k <;> simp [K1.parts]
theorem parts2_ne (k : K2) : k.parts ≠ [] := by cases k <;> simp [K2.parts]

theorem parts1_clean {fmt : ℝ → List Char} (hf : Printable fmt) (k : K1) (hk : NotCond1 k) : ∀ w ∈ k.parts fmt, '_' ∉ w := by
  have := fun c => (hf c).1
  cases k <;> simp [K1.parts, NotCond1, this] at hk ⊢
theorem parts2_clean (k : K2) (hk : NotCond2 k) : ∀ w ∈ k.parts, '_' ∉ w := by
  cases k <;> simp [K2.parts, NotCond2] at hk ⊢

theorem label1_inj {fmt : ℝ → List Char} (hf : Printable fmt) {k k' : K1} (hk : NotCond1 k) (hk' : NotCond1 k')
    (hd : ∀ c ∈ numbers k, ∀ c' ∈ numbers k', fmt c = fmt c' → c = c') (h : k.label fmt = k'.label fmt) : k = k' := by
  have h' := intercalate_inj _ _ (parts1_ne fmt k) (parts1_ne fmt k') (parts1_clean hf k hk) (parts1_clean hf k' hk') h
  have hw := fun c => (hf c).2
  simp [words] at hw
  cases k <;> cases k' <;> simp [K1.parts, numbers, NotCond1, hw] at h' hd hk hk' ⊢
  all_goals first
    | exact hd h'
    | exact ⟨hd.1.1 h'.1, hd.2.2 h'.2⟩


theorem label_mixed {fmt : ℝ → List Char} (hf : Printable fmt) {k : K1} {k' : K2} (hk : NotCond1 k) (hk' : NotCond2 k') :
    k.label fmt ≠ k'.label := by
  intro h
  have h' := intercalate_inj _ _ (parts1_ne fmt k) (parts2_ne k') (parts1_clean hf k hk) (parts2_clean k' hk') h
  cases k <;> cases k' <;> simp [K1.parts, K2.parts, NotCond1, NotCond2] at h' hk hk'

theorem label2_inj {k k' : K2} (hk : NotCond2 k) (hk' : NotCond2 k') (h : k.label = k'.label) : k = k' := by
  have h' := intercalate_inj _ _ (parts2_ne k) (parts2_ne k') (parts2_clean k hk) (parts2_clean k' hk') h
  cases k <;> cases k' <;> simp [K2.parts, NotCond2] at h' hk hk' ⊢

/-- Names tell operations apart when numbers are told apart. -/
theorem noClash_of {fmt : ℝ → List Char} {S : St} (I : Inv False fmt S) (hf : Printable fmt) (hd : Distinguishes fmt S) : NoClash fmt S := by
  have h := I.nocond.resolve_left id
  exact ⟨fun k hk k' hk' => label1_inj hf (h.1 k hk) (h.1 k' hk') (hd k hk k' hk'),
    fun k hk k' hk' => label2_inj (h.2 k hk) (h.2 k' hk'), fun k hk k' hk' => label_mixed hf (h.1 k hk) (h.2 k' hk')⟩

/-! ## Computing on concrete states -/

theorem unary_found {k : K1} {a p : Nat}
    (h : ∀ q, (q < S.nodes.length ∧ ∃ nd, S.nodes[q]? = some nd ∧ a ∈ nd.args ∧ nd.label env.fmt = some (k.label env.fmt)) ↔ q = p) :
    unary env k a S = .ok (p, { S with asked1 := k :: S.asked1 }) := by
  have hm : ∀ q, q ∈ audience env S a (k.label env.fmt) ↔ q = p := by
    intro q
    rw [← h q]
    unfold audience
    rw [(env.ord_perm _ _).mem_iff, List.mem_filter]
    simp
  unfold unary
  cases hh : (audience env S a (k.label env.fmt)).head? with
  | none =>
    rw [List.head?_eq_none_iff] at hh
    have := (hm p).mpr rfl
    rw [hh] at this; cases this
  | some q =>
    have := (hm q).mp (List.mem_of_mem_head? (by rw [hh]; rfl))
    rw [this]

theorem unary_fresh {k : K1} {a : Nat} (h : ∀ (q : Nat) (nd : Node), S.nodes[q]? = some nd → a ∈ nd.args → nd.label env.fmt ≠ some (k.label env.fmt)) :
    unary env k a S = push (.un k a) { S with asked1 := k :: S.asked1 } := by
  unfold unary
  cases hh : (audience env S a (k.label env.fmt)).head? with
  | none => rfl
  | some q =>
    obtain ⟨nd, h1, h2, h3⟩ := mem_audience (List.mem_of_mem_head? (by rw [hh]; rfl))
    exact absurd h3 (h q nd h1 h2)

end Verif.Expr
