import Verif.Lemmas.ExprCalls
/-!
# C34, C35, C36: operator construction, node reuse, derivatives

Everywhere `cs` is an arbitrary history of constructions and derivations from the initial state, and `h` an
arbitrary hash iteration order for the call looked at.
-/
namespace Verif.Props
open Expr Spec
open scoped Classical

variable {fmt : ℝ → List Char} {cs : List (Hash × Call)} {S S' : St} {h : Hash}

/-! ## C34 -/

/-- Whatever simplification or reuse happens, a unary operator returns a node whose value is what the
caller meant.  Unary `+` (absolute value) is excepted, see `c37_abs_partial`. -/
theorem c34_unary_value (hr : run fmt cs St.init = .ok S) (k : K1) (hk : k ≠ .abs) (a n : Nat)
    (he : exec ⟨h, fmt⟩ (.un k a) S = .ok (n, S')) (hc : NoClash fmt S') (ρ : Nat → ℝ) (i : Nat) (u v : ℝ)
    (hu : Val S ρ i a u) (hv : meant1 k u = some v) : Val S' ρ i n v := by
  rw [exec_un hu.lt] at he
  rcases callUn_cases (env := ⟨h, fmt⟩) (reach hr) k a hu.lt (Or.inl trivial) with ⟨h', _⟩ | ⟨n', S'', h1, _, _, _, h5, _⟩
  · rw [h'] at he; cases he
  · rw [h1] at he; cases he
    exact h5 hc ρ i v ⟨u, hu, hv, fun h => absurd h hk⟩

/-- The same for binary operators. -/
theorem c34_binary_value (hr : run fmt cs St.init = .ok S) (k : K2) (a b n : Nat)
    (he : exec ⟨h, fmt⟩ (.bin k a b) S = .ok (n, S')) (hc : NoClash fmt S') (ρ : Nat → ℝ) (i : Nat) (u w v : ℝ)
    (hu : Val S ρ i a u) (hw : Val S ρ i b w) (hv : meant2 k u w = some v) : Val S' ρ i n v := by
  rw [exec_bin hu.lt hw.lt] at he
  rcases callBin_cases (env := ⟨h, fmt⟩) (reach hr) k a b hu.lt hw.lt (Or.inl trivial) with ⟨h', _⟩ | ⟨n', S'', h1, _, _, _, h5, _⟩
  · rw [h'] at he; cases he
  · rw [h1] at he; cases he
    exact h5 hc ρ i v ⟨u, w, hu, hw, hv⟩

/-- The construction succeeds unless what is asked for is undefined everywhere. -/
theorem c34_unary_succeeds (hr : run fmt cs St.init = .ok S) (k : K1) (a : Nat) (ρ : Nat → ℝ) (i : Nat) (u v : ℝ)
    (hu : Val S ρ i a u) (hv : meant1 k u = some v) : ∃ n S', exec ⟨h, fmt⟩ (.un k a) S = .ok (n, S') := by
  rw [exec_un hu.lt]
  rcases callUn_cases (env := ⟨h, fmt⟩) (reach hr) k a hu.lt (Or.inl trivial) with ⟨_, h'⟩ | ⟨n', S'', h1, _⟩
  · rw [h' ρ i u hu] at hv; cases hv
  · exact ⟨n', S'', h1⟩

theorem c34_binary_succeeds (hr : run fmt cs St.init = .ok S) (k : K2) (a b : Nat) (ρ : Nat → ℝ) (i : Nat) (u w v : ℝ)
    (hu : Val S ρ i a u) (hw : Val S ρ i b w) (hv : meant2 k u w = some v) :
    ∃ n S', exec ⟨h, fmt⟩ (.bin k a b) S = .ok (n, S') := by
  rw [exec_bin hu.lt hw.lt]
  rcases callBin_cases (env := ⟨h, fmt⟩) (reach hr) k a b hu.lt hw.lt (Or.inl trivial) with ⟨_, h'⟩ | ⟨n', S'', h1, _⟩
  · rw [h' ρ i u w hu hw] at hv; cases hv
  · exact ⟨n', S'', h1⟩

/-- No call changes the value of a node that exists already. -/
theorem c34_old_values (hr : run fmt cs St.init = .ok S) (c : Call) (n : Nat) (he : exec ⟨h, fmt⟩ c S = .ok (n, S'))
    (ρ : Nat → ℝ) (i m : Nat) (hm : m < S.nodes.length) (v : ℝ) : Val S ρ i m v ↔ Val S' ρ i m v := by
  obtain ⟨_, e, _⟩ := exec_inv (env := ⟨h, fmt⟩) (reach hr) (Or.inl trivial) he
  exact ⟨fun hv => hv.mono e, fun hv => hv.restrict (reach hr).wf e hm⟩

/-- Dividing a variable by a scalar or by a constant node that is 0 throws. -/
theorem c34_div_by_zero_throws (a b : Nat) (tr : Bool) (ha : S.nodes[a]? = some (.leaf tr))
    (hb : S.nodes[b]? = some (.const [0])) :
    exec ⟨h, fmt⟩ (.un (.divR 0) a) S = .throw .logicError ∧ exec ⟨h, fmt⟩ (.bin .div a b) S = .throw .logicError := by
  have la := (List.getElem?_eq_some_iff.mp ha).1
  have lb := (List.getElem?_eq_some_iff.mp hb).1
  have ca : constData S a = none := by unfold constData; rw [ha]
  have cb : constData S b = some [0] := by unfold constData; rw [hb]
  rw [exec_un la, exec_bin la lb]
  refine ⟨by simp [callUn, divR, ca], ?_⟩
  have hab : a ≠ b := by rintro rfl; rw [ha] at hb; cases hb
  simp [callBin, div, hab, ca, cb]

/-- … but dividing a node by itself gives 1 even if its value is 0. -/
theorem c34_self_division (a : Nat) (ha : a < S.nodes.length) (ρ : Nat → ℝ) (i : Nat) :
    ∃ n S', exec ⟨h, fmt⟩ (.bin .div a a) S = .ok (n, S') ∧ Val S' ρ i n 1 := by
  rw [exec_bin ha ha]
  refine ⟨_, _, by simp [callBin, div, mkConst, push]; exact ⟨rfl, rfl⟩, .const (d := [1]) (by simp) (constAt_single 1 i)⟩

/-! ### A concrete history: `x`, `2*x`, `sin x`, `2*x + sin x` -/

def idHash : Hash := ⟨fun _ l => l, fun _ _ => List.Perm.refl _⟩

/-- The state after building `x` and `2 * x`. -/
def stB (c : ℝ) : St :=
  { nodes := [.const [0], .const [1], .leaf true, .un (.mulL c) 2], cache := fun _ _ => none, asked1 := [.mulL c], asked2 := [] }

theorem getElem?_init {n : Nat} {nd : Node} (hn : St.init.nodes[n]? = some nd) : nd.args = [] := by
  match n, hn with
  | 0, hn => simp [St.init] at hn; rw [← hn]; rfl
  | 1, hn => simp [St.init] at hn; rw [← hn]; rfl
  | n + 2, hn => simp [St.init] at hn

theorem run_leaf_un (fmt : ℝ → List Char) (h1 h2 : Hash) (tr : Bool) (k : K1)
    (hk : ∀ S, S = ({ St.init with nodes := St.init.nodes ++ [.leaf tr] } : St) → callUn ⟨h2, fmt⟩ k 2 S = unary ⟨h2, fmt⟩ k 2 S) :
    run fmt [(h1, .leaf tr), (h2, .un k 2)] St.init =
      .ok { nodes := [.const [0], .const [1], .leaf tr, .un k 2], cache := fun _ _ => none, asked1 := [k], asked2 := [] } := by
  have e1 : exec ⟨h1, fmt⟩ (.leaf tr) St.init = .ok (2, { St.init with nodes := St.init.nodes ++ [.leaf tr] }) := rfl
  rw [run, e1, Outcome.ok_bind, run, exec_un (by simp [St.init]), hk _ rfl, unary_fresh]
  · rfl
  · intro q nd hq ha
    rcases getElem?_snoc hq with hq | ⟨_, rfl⟩
    · rw [getElem?_init hq] at ha; cases ha
    · simp [Node.args] at ha

theorem mulL_unary {env : Env} {S : St} {c : ℝ} (h0 : c ≠ 0) (h1 : c ≠ 1) (h2 : c ≠ -1) {b : Nat} (hb : constData S b = none) :
    callUn env (.mulL c) b S = unary env (.mulL c) b S := by
  simp [callUn, mulL, hb, Ne.symm h0, Ne.symm h1, Ne.symm h2]

theorem run_stB (fmt : ℝ → List Char) (h1 h2 : Hash) (c : ℝ) (c0 : c ≠ 0) (c1 : c ≠ 1) (c2 : c ≠ -1) :
    run fmt [(h1, .leaf true), (h2, .un (.mulL c) 2)] St.init = .ok (stB c) :=
  run_leaf_un fmt h1 h2 true (.mulL c) (fun S hS => mulL_unary c0 c1 c2 (by rw [hS]; rfl))

/-- Non-trivial instance of the hypotheses of `c34_unary_value`: `2 * x` after building `x`. -/
example : ∃ n S', exec ⟨idHash, fun _ => []⟩ (.un (.mulL 2) 2) ({ St.init with nodes := St.init.nodes ++ [.leaf true] }) = .ok (n, S') ∧
    NoClash (fun _ => []) S' ∧ Val S' (fun _ => 5) 0 n 10 := by
  have hh := run_stB (fun _ => []) idHash idHash 2 (by norm_num) (by norm_num) (by norm_num)
  rw [run, show exec ⟨idHash, fun _ => []⟩ (.leaf true) St.init = .ok (2, { St.init with nodes := St.init.nodes ++ [.leaf true] }) from rfl,
    Outcome.ok_bind, run, Outcome.bind_eq_ok] at hh
  obtain ⟨⟨n, S'⟩, e, e'⟩ := hh
  cases e'
  have hn : NoClash (fun _ => []) (stB 2) := ⟨by simp [stB], by simp [stB], by simp [stB]⟩
  refine ⟨n, _, e, hn, ?_⟩
  refine c34_unary_value (cs := [(idHash, .leaf true)]) rfl (.mulL 2) (by simp) 2 n e hn _ 0 5 10 (.leaf (tr := true) rfl) ?_
  simp only [meant1, Option.some.injEq]; norm_num

/-! ## C35 -/

/-- Histories without `conditional`: names of operations never clash provided the numbers used are printed
differently (`Printable` holds of every way C++ prints numbers). -/
theorem c35_names_distinct (hr : run fmt cs St.init = .ok S) (hn : ∀ c ∈ cs, NotCond c.2) (hf : Printable fmt)
    (hd : Distinguishes fmt S) : NoClash fmt S :=
  noClash_of (reach' hr hn) hf hd

/-- An existing node that is returned by a unary operator already computed what was asked for. -/
theorem c35_unary_reuse (hr : run fmt cs St.init = .ok S) (hn : ∀ c ∈ cs, NotCond c.2) (hf : Printable fmt)
    (k : K1) (hk : k ≠ .abs) (hkc : NotCond1 k) (a n : Nat) (he : exec ⟨h, fmt⟩ (.un k a) S = .ok (n, S'))
    (hd : Distinguishes fmt S') (hold : n < S.nodes.length) (ρ : Nat → ℝ) (i : Nat) (u v : ℝ)
    (hu : Val S ρ i a u) (hv : meant1 k u = some v) : Val S ρ i n v := by
  obtain ⟨I', e, _⟩ := exec_inv (env := ⟨h, fmt⟩) (reach' hr hn) (c := .un k a) (Or.inr hkc) he
  exact (c34_unary_value hr k hk a n he (noClash_of I' hf hd) ρ i u v hu hv).restrict (reach hr).wf e hold

/-- The same for binary operators. -/
theorem c35_binary_reuse (hr : run fmt cs St.init = .ok S) (hn : ∀ c ∈ cs, NotCond c.2) (hf : Printable fmt)
    (k : K2) (hkc : NotCond2 k) (a b n : Nat) (he : exec ⟨h, fmt⟩ (.bin k a b) S = .ok (n, S'))
    (hd : Distinguishes fmt S') (hold : n < S.nodes.length) (ρ : Nat → ℝ) (i : Nat) (u w v : ℝ)
    (hu : Val S ρ i a u) (hw : Val S ρ i b w) (hv : meant2 k u w = some v) : Val S ρ i n v := by
  obtain ⟨I', e, _⟩ := exec_inv (env := ⟨h, fmt⟩) (reach' hr hn) (c := .bin k a b) (Or.inr hkc) he
  exact (c34_binary_value hr k a b n he (noClash_of I' hf hd) ρ i u w v hu hw hv).restrict (reach hr).wf e hold

theorem stB_found {k : K1} {c : ℝ} {env : Env} (hl : k.label env.fmt = (K1.mulL c).label env.fmt) :
    unary env k 2 (stB c) = .ok (3, { stB c with asked1 := k :: (stB c).asked1 }) := by
  apply unary_found
  intro q
  constructor
  · rintro ⟨_, nd, hq, ha, _⟩
    match q, hq with
    | 0, hq => simp [stB] at hq; rw [← hq] at ha; cases ha
    | 1, hq => simp [stB] at hq; rw [← hq] at ha; cases ha
    | 2, hq => simp [stB] at hq; rw [← hq] at ha; cases ha
    | 3, hq => rfl
    | n + 4, hq => simp [stB] at hq
  · rintro rfl
    exact ⟨by simp [stB], .un (.mulL c) 2, rfl, by simp [Node.args], by simp [Node.label, hl]⟩

/-- Two scalars that print alike (C++ prints 6 significant digits: 1.0000001 and 1.0000002 do) are confused:
`d * x` after `c * x` returns the node of `c * x`. -/
theorem c35_scalar_clash (fmt : ℝ → List Char) (c d : ℝ) (hcd : fmt c = fmt d)
    (c0 : c ≠ 0) (c1 : c ≠ 1) (c2 : c ≠ -1) (d0 : d ≠ 0) (d1 : d ≠ 1) (d2 : d ≠ -1) :
    ∃ S n S', run fmt [(h, .leaf true), (h, .un (.mulL c) 2)] St.init = .ok S ∧ exec ⟨h, fmt⟩ (.un (.mulL d) 2) S = .ok (n, S') ∧
      ∀ (ρ : Nat → ℝ) (i : Nat), Val S ρ i 2 (ρ 2) ∧ Val S' ρ i n (c * ρ 2) := by
  refine ⟨stB c, 3, { stB c with asked1 := .mulL d :: (stB c).asked1 }, run_stB fmt h h c c0 c1 c2, ?_, ?_⟩
  · rw [exec_un (by simp [stB]), mulL_unary d0 d1 d2 rfl, stB_found]
    simp [K1.label, K1.parts, hcd]
  · intro ρ i
    exact ⟨.leaf (tr := true) rfl, .un (k := .mulL c) (a := 2) rfl (.leaf (tr := true) rfl)⟩

/-- `conditional` gives `c ? x` and `x ? c` the same name: asking for the second after the first returns the
first.  With `<` and 0, the comparison `1 < 0` comes out true. -/
theorem c35_conditional_clash (fmt : ℝ → List Char) (name : List Char) (cmp : ℝ → ℝ → Bool) (c : ℝ) :
    ∃ S n S', run fmt [(h, .leaf true), (h, .un (.condL name cmp c) 2)] St.init = .ok S ∧
      exec ⟨h, fmt⟩ (.un (.condR name cmp c) 2) S = .ok (n, S') ∧
      ∀ (ρ : Nat → ℝ) (i : Nat), Val S ρ i 2 (ρ 2) ∧ Val S' ρ i n (if cmp c (ρ 2) = true then 1 else 0) := by
  refine ⟨_, 3, { nodes := [.const [0], .const [1], .leaf true, .un (.condL name cmp c) 2], cache := fun _ _ => none, asked1 := [.condR name cmp c, .condL name cmp c], asked2 := [] },
    run_leaf_un fmt h h true (.condL name cmp c) (fun S hS => ?_), ?_, ?_⟩
  · rw [hS]; rfl
  · rw [exec_un (by simp)]
    show unary _ _ _ _ = _
    apply unary_found
    intro q
    constructor
    · rintro ⟨_, nd, hq, ha, _⟩
      match q, hq with
      | 0, hq => simp at hq; rw [← hq] at ha; cases ha
      | 1, hq => simp at hq; rw [← hq] at ha; cases ha
      | 2, hq => simp at hq; rw [← hq] at ha; cases ha
      | 3, hq => rfl
      | n + 4, hq => simp at hq
    · rintro rfl
      exact ⟨by simp, .un (.condL name cmp c) 2, rfl, by simp [Node.args], rfl⟩
  · intro ρ i
    exact ⟨.leaf (tr := true) rfl, .un (k := .condL name cmp c) (a := 2) rfl (.leaf (tr := true) rfl)⟩

/-- Non-trivial instance of the hypotheses of `c35_unary_reuse`: asking for `2 * x` twice. -/
example (fmt : ℝ → List Char) (hf : Printable fmt) : Val (stB 2) (fun _ => 5) 0 3 10 := by
  have hrun := run_stB fmt idHash idHash 2 (by norm_num) (by norm_num) (by norm_num)
  have he : exec ⟨idHash, fmt⟩ (.un (.mulL 2) 2) (stB 2) = .ok (3, { stB 2 with asked1 := .mulL 2 :: (stB 2).asked1 }) := by
    rw [exec_un (by simp [stB]), mulL_unary (by norm_num) (by norm_num) (by norm_num) rfl, stB_found rfl]
  refine c35_unary_reuse hrun ?_ hf (.mulL 2) (by simp) (by simp [NotCond1]) 2 3 he ?_ (by simp [stB]) _ 0 5 10 (.leaf (tr := true) rfl) ?_
  · intro c hc
    simp at hc
    rcases hc with rfl | rfl <;> simp [NotCond, NotCond1]
  · intro k hk k' hk' c hc c' hc' _
    simp [stB] at hk hk'
    subst hk; subst hk'
    simp [numbers] at hc hc'
    rw [hc, hc']
  · simp only [meant1, Option.some.injEq]; norm_num

/-- There is a `fmt` meeting `Printable`. -/
example : Printable (fun _ => []) := by intro c; simp [words]

/-! ## C36 -/

theorem exec_derive {env : Env} {n x : Nat} (hn : n < S.nodes.length) (hx : S.nodes[x]? = some (.leaf true)) :
    exec env (.derive n x) S = gradient env x (n + 1) n S := by
  have hl := (List.getElem?_eq_some_iff.mp hx).1
  unfold exec
  rw [if_pos (by simp [Call.args, hn, hl])]
  simp only [hx]
  rfl

/-- `derive` with respect to a variable yields the partial derivative, for every expression, wherever all its
operations are differentiable. -/
theorem c36_derivative (hr : run fmt cs St.init = .ok S) (n x d : Nat) (hx : S.nodes[x]? = some (.leaf true))
    (he : exec ⟨h, fmt⟩ (.derive n x) S = .ok (d, S')) (hc : NoClash fmt S') (ρ : Nat → ℝ) (i : Nat) (hs : Smooth S ρ i n) :
    ∃ F : ℝ → ℝ, ∃ w : ℝ, (∀ t, Val S (change ρ x t) i n (F t)) ∧ HasDerivAt F w (ρ x) ∧ Val S' ρ i d w := by
  obtain ⟨F, w, h1, h2⟩ := smooth_deriv x hs
  have hn : n < S.nodes.length := hs.lt
  have e := exec_derive (env := ⟨h, fmt⟩) hn hx
  obtain ⟨d', S'', g1, _, _, _, g5, _⟩ := gradient_builds (env := ⟨h, fmt⟩) x (n + 1) n S (reach hr) (Nat.lt_succ_self n) hn hx
  rw [e, g1] at he
  cases he
  exact ⟨F, w, h1, h2, g5 hc ρ i w ⟨hs, F, h1, h2⟩⟩

/-- `derive` with respect to a variable never fails. -/
theorem c36_succeeds (hr : run fmt cs St.init = .ok S) (n x : Nat) (hn : n < S.nodes.length) (hx : S.nodes[x]? = some (.leaf true)) :
    ∃ d S', exec ⟨h, fmt⟩ (.derive n x) S = .ok (d, S') := by
  have e := exec_derive (env := ⟨h, fmt⟩) hn hx
  obtain ⟨d', S'', g1, _⟩ := gradient_builds (env := ⟨h, fmt⟩) x (n + 1) n S (reach hr) (Nat.lt_succ_self n) hn hx
  exact ⟨d', S'', e.trans g1⟩

/-- With respect to a placeholder, `derive` always returns 0. -/
theorem c36_placeholder_zero (hr : run fmt cs St.init = .ok S) (n x : Nat) (hn : n < S.nodes.length) (hnx : n ≠ x)
    (hx : S.nodes[x]? = some (.leaf false)) (ρ : Nat → ℝ) (i : Nat) :
    exec ⟨h, fmt⟩ (.derive n x) S = .ok (0, S) ∧ Val S ρ i 0 0 := by
  refine ⟨?_, val_zero (env := ⟨h, fmt⟩) (reach hr) ρ i⟩
  unfold exec
  rw [if_pos (by simp [Call.args, hn, (List.getElem?_eq_some_iff.mp hx).1])]
  simp only [hx, if_neg hnx]
  rfl

/-- The state after building a variable (node 2) and one operation on it (node 3). -/
def stU (k : K1) : St :=
  { nodes := [.const [0], .const [1], .leaf true, .un k 2], cache := fun _ _ => none, asked1 := [k], asked2 := [] }

theorem derive_stU (env : Env) (k : K1) :
    exec env (.derive 3 2) (stU k) = (ginit1 env k 2 1 (stU k) >>= fun r => .ok (r.1, setCache 3 2 r.1 r.2)) := by
  rw [exec_derive (by simp [stU]) rfl]
  rfl

/-- The derivative graph of `clip_val(x, lo, hi)` is the clipped value itself, instead of 1 inside the bounds. -/
theorem c36_clip_wrong (fmt : ℝ → List Char) (lo hi : ℝ) (hlh : lo ≤ hi) :
    ∃ S d S', run fmt [(h, .leaf true), (h, .un (.clip lo hi) 2)] St.init = .ok S ∧ exec ⟨h, fmt⟩ (.derive 3 2) S = .ok (d, S') ∧
      ∀ (ρ : Nat → ℝ) (i : Nat), lo < ρ 2 → ρ 2 < hi → Val S' ρ i d (ρ 2) ∧
        ∃ F : ℝ → ℝ, (∀ t, Val S (change ρ 2 t) i 3 (F t)) ∧ HasDerivAt F 1 (ρ 2) := by
  have hclip : ∀ (env : Env) (S : St), constData S 2 = none → clip env 2 lo hi S = unary env (.clip lo hi) 2 S := by
    intro env S hS
    simp [clip, not_lt.mpr hlh, unop, hS]
  have hu : unary ⟨h, fmt⟩ (.clip lo hi) 2 (stU (.clip lo hi)) = .ok (3, { stU (.clip lo hi) with asked1 := [.clip lo hi, .clip lo hi] }) := by
    apply unary_found
    intro q
    constructor
    · rintro ⟨_, nd, hq, ha, _⟩
      match q, hq with
      | 0, hq => simp [stU] at hq; rw [← hq] at ha; cases ha
      | 1, hq => simp [stU] at hq; rw [← hq] at ha; cases ha
      | 2, hq => simp [stU] at hq; rw [← hq] at ha; cases ha
      | 3, hq => rfl
      | n + 4, hq => simp [stU] at hq
    · rintro rfl
      exact ⟨by simp [stU], .un (.clip lo hi) 2, rfl, by simp [Node.args], rfl⟩
  refine ⟨stU (.clip lo hi), 3, setCache 3 2 3 { stU (.clip lo hi) with asked1 := [.clip lo hi, .clip lo hi] },
    run_leaf_un fmt h h true _ (fun S hS => hclip _ S (by rw [hS]; rfl)), ?_, ?_⟩
  · rw [derive_stU]
    simp only [ginit1, andThen]
    rw [hclip _ _ rfl, hu]
    simp [mul, constData, stU, mulL, ret]
  · intro ρ i h1 h2
    refine ⟨?_, fun t => clamp lo hi t, fun t => ?_, ?_⟩
    · have : clamp lo hi (ρ 2) = ρ 2 := by simp [clamp, not_lt.mpr (le_of_lt h1), not_lt.mpr (le_of_lt h2)]
      have hv : Val (setCache 3 2 3 { stU (.clip lo hi) with asked1 := [.clip lo hi, .clip lo hi] }) ρ i 3 ((K1.clip lo hi).fn (ρ 2)) :=
        .un (k := .clip lo hi) (a := 2) rfl (.leaf (tr := true) rfl)
      simpa only [K1.fn, this] using hv
    · have hv : Val (stU (.clip lo hi)) (change ρ 2 t) i 3 ((K1.clip lo hi).fn (change ρ 2 t 2)) :=
        .un (k := .clip lo hi) (a := 2) rfl (.leaf (tr := true) rfl)
      simpa [K1.fn, change] using hv
    · refine (hasDerivAt_id (ρ 2)).congr_of_eventuallyEq ?_
      filter_upwards [Ioo_mem_nhds h1 h2] with t ht
      simp [clamp, not_lt.mpr (le_of_lt ht.1), not_lt.mpr (le_of_lt ht.2)]

/-- The derivative graph of `round(x)` is 1 everywhere, instead of 0. -/
theorem c36_round_wrong (fmt : ℝ → List Char) :
    ∃ S d S', run fmt [(h, .leaf true), (h, .un .round 2)] St.init = .ok S ∧ exec ⟨h, fmt⟩ (.derive 3 2) S = .ok (d, S') ∧
      ∀ (ρ : Nat → ℝ) (i : Nat), Val S' ρ i d 1 ∧
        (0 < ρ 2 → ρ 2 < 1 / 2 → ∃ F : ℝ → ℝ, (∀ t, Val S (change ρ 2 t) i 3 (F t)) ∧ HasDerivAt F 0 (ρ 2)) := by
  refine ⟨stU .round, 4, setCache 3 2 4 { stU .round with nodes := (stU .round).nodes ++ [.const [roundAway 1]] },
    run_leaf_un fmt h h true _ (fun S hS => by rw [hS]; rfl), ?_, ?_⟩
  · rw [derive_stU]
    rfl
  · intro ρ i
    refine ⟨?_, fun h1 h2 => ⟨roundAway, fun t => ?_, ?_⟩⟩
    · have : roundAway 1 = 1 := by
        have : ⌊(1 : ℝ) + 1 / 2⌋ = 1 := by rw [Int.floor_eq_iff]; norm_num
        simp only [roundAway, zero_le_one, if_true, this]; norm_num
      exact .const (d := [roundAway 1]) rfl (by rw [this]; exact constAt_single 1 i)
    · have hv : Val (stU .round) (change ρ 2 t) i 3 (K1.round.fn (change ρ 2 t 2)) :=
        .un (k := .round) (a := 2) rfl (.leaf (tr := true) rfl)
      simpa [K1.fn, change] using hv
    · refine (hasDerivAt_const (ρ 2) (0 : ℝ)).congr_of_eventuallyEq ?_
      filter_upwards [Ioo_mem_nhds h1 h2] with t ht
      have : ⌊t + 1 / 2⌋ = 0 := by
        rw [Int.floor_eq_iff]; constructor
        · simp; linarith [ht.1]
        · simp; linarith [ht.2]
      simp only [roundAway, le_of_lt ht.1, if_true, this]; simp

/-- The derivative graph of a comparison `x ? c` is the constant `1 ? 0`, instead of 0. -/
theorem c36_conditional_wrong (fmt : ℝ → List Char) (name : List Char) (c : ℝ) :
    ∃ S d S', run fmt [(h, .leaf true), (h, .un (.condR name (fun a b => decide (a > b)) c) 2)] St.init = .ok S ∧
      exec ⟨h, fmt⟩ (.derive 3 2) S = .ok (d, S') ∧
      ∀ (ρ : Nat → ℝ) (i : Nat), Val S' ρ i d 1 ∧
        (ρ 2 < c → ∃ F : ℝ → ℝ, (∀ t, Val S (change ρ 2 t) i 3 (F t)) ∧ HasDerivAt F 0 (ρ 2)) := by
  let k : K1 := .condR name (fun a b => decide (a > b)) c
  refine ⟨stU k, 4, setCache 3 2 4 { stU k with nodes := (stU k).nodes ++ [.const [ofCmp (fun a b => decide (a > b)) 1 0]] },
    run_leaf_un fmt h h true _ (fun S hS => by rw [hS]; rfl), ?_, ?_⟩
  · rw [derive_stU]
    rfl
  · intro ρ i
    refine ⟨?_, fun h1 => ⟨fun t => ofCmp (fun a b => decide (a > b)) t c, fun t => ?_, ?_⟩⟩
    · have : ofCmp (fun a b => decide (a > b)) 1 0 = 1 := by simp [ofCmp]
      exact .const (d := [ofCmp (fun a b => decide (a > b)) 1 0]) rfl (by rw [this]; exact constAt_single 1 i)
    · have hv : Val (stU k) (change ρ 2 t) i 3 (k.fn (change ρ 2 t 2)) :=
        .un (k := k) (a := 2) rfl (.leaf (tr := true) rfl)
      simpa [K1.fn, change, k] using hv
    · refine (hasDerivAt_const (ρ 2) (0 : ℝ)).congr_of_eventuallyEq ?_
      filter_upwards [Iio_mem_nhds h1] with t ht
      simp only [Set.mem_Iio] at ht
      simp [ofCmp, not_lt.mpr (le_of_lt ht)]

/-- State after `x`, `-x`, `+(-x)`. -/
def stA : St :=
  { nodes := [.const [0], .const [1], .leaf true, .un .neg 2, .un .abs 3], cache := fun _ _ => none, asked1 := [.abs, .neg], asked2 := [] }

theorem run_stA (fmt : ℝ → List Char) (h : Hash) :
    run fmt [(h, .leaf true), (h, .un .neg 2), (h, .un .abs 3)] St.init = .ok stA := by
  have h1 := run_leaf_un fmt h h true .neg (fun S hS => by rw [hS]; rfl)
  have happ : ∀ (l l' : List (Hash × Call)) (S S1 : St), run fmt l S = .ok S1 → run fmt (l ++ l') S = run fmt l' S1 := by
    intro l l'
    induction l with
    | nil => intro S S1 h; cases h; rfl
    | cons c l ih =>
      intro S S1 h
      rw [run, Outcome.bind_eq_ok] at h
      obtain ⟨r, e1, e2⟩ := h
      rw [List.cons_append, run, e1, Outcome.ok_bind]
      exact ih _ _ e2
  rw [show [(h, Call.leaf true), (h, Call.un .neg 2), (h, Call.un .abs 3)] = [(h, Call.leaf true), (h, Call.un .neg 2)] ++ [(h, Call.un .abs 3)] from rfl,
    happ _ _ _ _ h1, run, exec_un (by simp)]
  show (unary _ .abs 3 _ >>= _) = _
  rw [unary_fresh]
  · rfl
  · intro q nd hq ha
    match q, hq with
    | 0, hq => simp at hq; rw [← hq] at ha; cases ha
    | 1, hq => simp at hq; rw [← hq] at ha; cases ha
    | 2, hq => simp at hq; rw [← hq] at ha; cases ha
    | 3, hq => simp at hq; rw [← hq] at ha; simp [Node.args] at ha
    | n + 4, hq => simp at hq

/-- The gradient of unary `+` takes the absolute value of a constant gradient: `+(-x)`, which evaluates to
`-x`, gets derivative 1. -/
theorem c36_abs_wrong (fmt : ℝ → List Char) :
    ∃ S d S', run fmt [(h, .leaf true), (h, .un .neg 2), (h, .un .abs 3)] St.init = .ok S ∧
      exec ⟨h, fmt⟩ (.derive 4 2) S = .ok (d, S') ∧
      ∀ (ρ : Nat → ℝ) (i : Nat), Val S' ρ i d 1 ∧ ∀ t, Val S (change ρ 2 t) i 4 (-t) := by
  have e : exec ⟨h, fmt⟩ (.derive 4 2) stA = .ok (6, setCache 4 2 6 { setCache 3 2 5 { stA with nodes := stA.nodes ++ [.const [-1]] } with nodes := stA.nodes ++ [.const [-1], .const [|(-1 : ℝ)|]] }) := by
    rw [exec_derive (by simp [stA]) rfl]
    rfl
  refine ⟨stA, _, _, run_stA fmt h, e, fun ρ i => ⟨?_, fun t => ?_⟩⟩
  · exact .const (d := [|(-1 : ℝ)|]) rfl (by simp [constAt])
  · have hv : Val stA (change ρ 2 t) i 4 (K1.abs.fn (K1.neg.fn (change ρ 2 t 2))) :=
      .un (k := .abs) (a := 3) rfl (.un (k := .neg) (a := 2) rfl (.leaf (tr := true) rfl))
    simpa [K1.fn, change] using hv

/-- Non-trivial instance of the hypotheses of `c36_derivative`: the derivative of `2 * x` is 2. -/
example (fmt : ℝ → List Char) : ∃ d S', exec ⟨idHash, fmt⟩ (.derive 3 2) (stB 2) = .ok (d, S') ∧ NoClash fmt S' ∧
    Smooth (stB 2) (fun _ => 5) 0 3 ∧ Val S' (fun _ => 5) 0 d 2 := by
  have hs : Smooth (stB 2) (fun _ => 5) 0 3 := .un (k := .mulL 2) (a := 2) rfl (.leaf (tr := true) rfl) (.leaf (tr := true) rfl) trivial
  have he : exec ⟨idHash, fmt⟩ (.derive 3 2) (stB 2) = .ok (4, setCache 3 2 4 { stB 2 with nodes := (stB 2).nodes ++ [.const [2]] }) := by
    have : stB 2 = stU (.mulL 2) := rfl
    rw [this, derive_stU]
    simp [ginit1, mulL, constData, stU, mkConst, push]
  exact ⟨_, _, he, ⟨by simp [stB, setCache], by simp [stB, setCache], by simp [stB, setCache]⟩, hs,
    .const (d := [2]) rfl (constAt_single 2 0)⟩

end Verif.Props
