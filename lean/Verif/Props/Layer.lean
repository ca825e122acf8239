import Verif.Model.Layer
import Verif.Model.Activation
import Verif.Spec.Layer
import Verif.Props.Matmul
import Verif.Props.Elementary
import Mathlib.Data.Real.Basic
import Mathlib.Data.List.Forall2
import Mathlib.Tactic.IntervalCases
/-!
# C59: forward pass of fully connected layers and multi-layer perceptrons
-/
namespace Verif.Props
open Spec Matmul Op Finset Elementary
variable {T : Type} [Ring T]

theorem holds_congr {T : Type} {t : Tensor T} {s : List Nat} {f g : List Nat → T} (h : Holds t s f)
    (hfg : ∀ c, InRange s c → f c = g c) : Holds t s g := by
  obtain ⟨buf, h1, h2, h3⟩ := h.data
  exact ⟨h.full, h.shape, buf, h1, h2, fun c hc => by rw [h3 c hc, hfg c hc]⟩

/-- One input: `Σ_z x_z w_iz + b_i` for every unit and every vector of the batch. -/
theorem c59_fc_term (e : Env T) (hm : ∀ n, e.fits n = true) (on : Bool) (x w bt : Tensor T) (n m b : Nat)
    (f W : Nat → Nat → T) (β : Nat → T) (hx : Batch x n b f)
    (hw : Holds w [m, n] (fun c => W (c.getD 0 0) (c.getD 1 0))) (hb : Holds bt [m] (fun c => β (c.getD 0 0))) :
    ∃ t', Layer.fcTerm e on x w bt = .ok t' ∧
      Holds t' [m, b] (fun c => (∑ z ∈ range n, f z (c.getD 1 0) * W (c.getD 0 0) z) + β (c.getD 0 0)) := by
  have h1 : ∃ t1, Op.forwardPass e Matmul.shaper (Matmul.kernel on e.junk) none [some x, some w] = .ok t1 ∧
      Holds t1 [m, b] (fun c => ∑ z ∈ range n, f z (c.getD 1 0) * W (c.getD 0 0) z) := by
    rcases hx with hx | ⟨rfl, hx⟩
    · obtain ⟨t1, h1, h2⟩ := c23_matmul e on x w m b n _ _ hx hw (hm _)
      exact ⟨t1, h1, holds_congr h2 (fun c hc => by simp)⟩
    · obtain ⟨t1, h1, h2⟩ := c23_vector_left e on x w m n _ _ hx hw (hm _)
      refine ⟨t1, h1, holds_congr h2 (fun c hc => ?_)⟩
      have h1 : c.getD 1 0 = 0 := by
        obtain ⟨hl, hc⟩ := hc
        have := hc 1 (by simp)
        simpa using this
      simp only [h1]
      simp
  obtain ⟨t1, h1, h2⟩ := h1
  have hred : reduceShape [m, b] 1 = [m] := by simp [reduceShape]
  obtain ⟨t', h3, h4⟩ := c54_axial_partial e (· + ·) bt t1 [m, b] 1 _ _ false (by simp) (by rw [hred]; exact hb) h2
    (by simp) (hm _)
  refine ⟨t', ?_, holds_congr h4 (fun c hc => ?_)⟩
  · unfold Layer.fcTerm
    rw [h1, Outcome.ok_bind]
    exact h3
  · obtain ⟨hl, _⟩ := hc
    match c, hl with
    | [i, j], _ => simp [reduceCoord]

/-- A batch in terms of the buffer. -/
theorem batch_elems {T : Type} {t : Tensor T} {n b : Nat} {f : Nat → Nat → T} (h : Batch t n b f) :
    0 < n ∧ 0 < b ∧ t.WF ∧ (t.alloc = [n, b] ∨ (b = 1 ∧ t.alloc = [n])) ∧ ∃ buf, t.raw = some buf ∧ buf.length = n * b ∧
      ∀ i j, i < n → j < b → buf[i + n * j]? = some (f i j) := by
  rcases h with h | ⟨rfl, h⟩
  · obtain ⟨buf, h1, h2, h3⟩ := h.data
    have hn : 0 < n := h.full.2 n (by simp)
    have hb : 0 < b := h.full.2 b (by simp)
    refine ⟨hn, hb, ?_, .inl h.shape, buf, h1, by simpa [vol] using h2, fun i j hi hj => ?_⟩
    · intro buf' hb'
      rw [h1] at hb'
      cases hb'
      rw [h.shape]
      exact ⟨h.full, h2⟩
    · have := h3 [i, j] ⟨rfl, fun k hk => by
        match k, hk with
        | 0, _ => simpa using hi
        | 1, _ => simpa using hj⟩
      simpa [flat] using this
  · obtain ⟨buf, h1, h2, h3⟩ := h.data
    have hn : 0 < n := h.full.2 n (by simp)
    refine ⟨hn, by omega, ?_, .inr ⟨rfl, h.shape⟩, buf, h1, by simpa [vol] using h2, fun i j hi hj => ?_⟩
    · intro buf' hb'
      rw [h1] at hb'
      cases hb'
      rw [h.shape]
      exact ⟨h.full, h2⟩
    · have hj0 : j = 0 := by omega
      subst hj0
      have := h3 [i] ⟨rfl, fun k hk => by
        match k, hk with
        | 0, _ => simpa using hi⟩
      simpa [flat] using this

theorem batch_of_elems {T : Type} {t : Tensor T} {n b : Nat} {f : Nat → Nat → T} (hn : 0 < n) (hb : 0 < b)
    (hs : t.alloc = [n, b] ∨ (b = 1 ∧ t.alloc = [n])) (buf : List T) (hr : t.raw = some buf) (hl : buf.length = n * b)
    (he : ∀ i j, i < n → j < b → buf[i + n * j]? = some (f i j)) : Batch t n b f := by
  rcases hs with hs | ⟨rfl, hs⟩
  · refine .inl ⟨⟨by simp, by simp [hn, hb]⟩, hs, buf, hr, by simpa [vol] using hl, fun c hc => ?_⟩
    obtain ⟨hl, hc⟩ := hc
    match c, hl with
    | [i, j], _ =>
      have h0 := hc 0 (by simp)
      have h1 := hc 1 (by simp)
      simpa [flat] using he i j (by simpa using h0) (by simpa using h1)
  · refine .inr ⟨rfl, ⟨by simp, by simp [hn]⟩, hs, buf, hr, by simpa [vol] using hl, fun c hc => ?_⟩
    obtain ⟨hl, hc⟩ := hc
    match c, hl with
    | [i], _ =>
      have h0 := hc 0 (by simp)
      simpa [flat] using he i 0 (by simpa using h0) (by simp)

theorem alloc_full {s : Shape} {n b : Nat} (hn : 0 < n) (hb : 0 < b) (hs : s = [n, b] ∨ (b = 1 ∧ s = [n])) :
    Full s ∧ vol s = n * b := by
  rcases hs with rfl | ⟨rfl, rfl⟩
  · exact ⟨⟨by simp, by simp [hn, hb]⟩, by simp [vol]⟩
  · exact ⟨⟨by simp, by simp [hn]⟩, by simp [vol]⟩

theorem mul_one_split {m b : Nat} (h : m * b = 1) : m = 1 ∧ b = 1 :=
  ⟨Nat.eq_one_of_mul_eq_one_right h, Nat.eq_one_of_mul_eq_one_left h⟩

theorem compat_vector (n : Nat) (h : n ≠ 1) : Shape.isCompatibleWith [n, 1] [n] = true := by
  simp [Shape.isCompatibleWith, Shape.stripOnesFront, Shape.stripOnesBack, Shape.matchLoop, Shape.dimMatch, h]

theorem batch_index {n b i j : Nat} (hi : i < n) (hj : j < b) : i + n * j < n * b := by
  have : n * (j + 1) ≤ n * b := Nat.mul_le_mul_left n hj
  rw [Nat.mul_succ] at this
  omega

/-- An element-wise binary operator on two batches of the same size. -/
theorem batch_binary {T : Type} (e : Env T) (hm : ∀ n, e.fits n = true) (op : T → T → T) (s t : Tensor T) (m b : Nat) (f g : Nat → Nat → T)
    (hs : Batch s m b f) (ht : Batch t m b g) :
    ∃ r, Op.forwardPass e elementaryShaper (binaryElem op) none [some s, some t] = .ok r ∧
      Batch r m b (fun i j => op (f i j) (g i j)) := by
  obtain ⟨hn, hb, ws, ss, bs, rs, ls, es⟩ := batch_elems hs
  obtain ⟨_, _, wt, st, bt, rt, lt, et⟩ := batch_elems ht
  obtain ⟨fs, vs⟩ := alloc_full hn hb ss
  obtain ⟨ft, vt⟩ := alloc_full hn hb st
  have hout : ∃ out, elementaryShaper [s.alloc, t.alloc] = .ok out ∧ (out = [m, b] ∨ (b = 1 ∧ out = [m])) := by
    rw [c17_binary _ _ fs ft, vs, vt]
    by_cases h1 : m * b = 1
    · rw [if_pos h1, if_pos h1]
      have := mul_one_split h1
      exact ⟨[1], rfl, .inr ⟨this.2, by rw [this.1]⟩⟩
    · rw [if_neg h1, if_neg h1]
      have hc : t.alloc.isCompatibleWith s.alloc = true := by
        rcases ss with h | ⟨rfl, h⟩ <;> rcases st with h' | ⟨hb1, h'⟩
        · rw [h, h']; exact Shape.compat_self _
        · subst hb1
          rw [h, h', Shape.compat_comm]; exact compat_vector _ (by simpa using h1)
        · rw [h, h']; exact compat_vector _ (by simpa using h1)
        · rw [h, h']; exact Shape.compat_self _
      rw [if_pos hc]
      exact ⟨_, rfl, st⟩
  obtain ⟨out, ho, so⟩ := hout
  obtain ⟨r, res, h1, h2, h3, h4, h5⟩ := c16_binary e op s t bs bt out ws wt rs rt ho (hm _)
  obtain ⟨_, vo⟩ := alloc_full hn hb so
  rw [vo] at h4 h5
  refine ⟨r, h1, batch_of_elems hn hb (by rw [h2]; exact so) res h3 h4 (fun i j hi hj => ?_)⟩
  have hk := batch_index hi hj
  obtain ⟨x, y, hx, hy, hxy⟩ := h5 _ hk
  have pick : ∀ (l : List T) (v x : T), l.length = m * b → l[i + m * j]? = some v → elemAt l (i + m * j) = some x → x = v := by
    intro l v x hl hv hx
    unfold elemAt at hx
    by_cases h1 : l.length = 1
    · rw [if_pos h1] at hx
      have : i + m * j = 0 := by omega
      rw [this, hx] at hv
      exact Option.some.inj hv
    · rw [if_neg h1, hv] at hx
      exact (Option.some.inj hx).symm
  rw [hxy, pick bs _ x ls (es i j hi hj) hx, pick bt _ y lt (et i j hi hj) hy]

/-- An element-wise unary operator on a batch. -/
theorem c59_pointwise_unary {T : Type} (e : Env T) (hm : ∀ n, e.fits n = true) (op : T → T) :
    Pointwise (Layer.un e op) op := by
  have key : ∀ t n b f s (F : List Nat → T), Batch t n b f → Holds t s F →
      (∀ i j, i < n → j < b → F (if s = [n, b] then [i, j] else [i]) = f i j) → (s = [n, b] ∨ (b = 1 ∧ s = [n])) →
      ∃ t', Op.forwardPass e elementaryShaper (unaryElem op) none [some t] = .ok t' ∧ Batch t' n b (fun i j => op (f i j)) := by
    intro t n b f s F hB hF hval hs
    obtain ⟨hn, hb, _, _, _⟩ := batch_elems hB
    obtain ⟨t', h1, h2, h3⟩ := c16_unary e op t s F hF hm
    refine ⟨t', h1, ?_⟩
    by_cases hv : vol s = 1
    · have h4 := h3 hv
      rw [(alloc_full hn hb hs).2] at hv
      obtain ⟨rfl, rfl⟩ := mul_one_split hv
      refine .inr ⟨rfl, holds_congr h4 (fun c hc => ?_)⟩
      have hc0 : c.getD 0 0 = 0 := by simpa using hc.2 0 (by simp)
      have h0 := hval 0 0 (by omega) (by omega)
      show _ = op (f (c.getD 0 0) 0)
      rw [hc0, ← h0]
      rcases hs with rfl | ⟨_, rfl⟩ <;> simp [List.replicate]
    · have h4 := h2 hv
      rcases hs with rfl | ⟨rfl, rfl⟩
      · refine .inl (holds_congr h4 (fun c hc => ?_))
        obtain ⟨hl, hc⟩ := hc
        match c, hl with
        | [i, j], _ =>
          have h0 := hc 0 (by simp)
          have h1 := hc 1 (by simp)
          have := hval i j (by simpa using h0) (by simpa using h1)
          simp only [if_true] at this
          simp [this]
      · refine .inr ⟨rfl, holds_congr h4 (fun c hc => ?_)⟩
        obtain ⟨hl, hc⟩ := hc
        match c, hl with
        | [i], _ =>
          have h0 := hc 0 (by simp)
          have := hval i 0 (by simpa using h0) (by omega)
          simp at this
          simp [this]
  intro t n b f hB
  rcases hB with h | ⟨rfl, h⟩
  · exact key t n b f [n, b] _ (.inl h) h (fun i j _ _ => by simp) (.inl rfl)
  · exact key t n 1 f [n] _ (.inr ⟨rfl, h⟩) h (fun i j _ hj => by
      have : j = 0 := by omega
      simp [this]) (.inr ⟨rfl, rfl⟩)

theorem fcLoop_sum (e : Env T) (hm : ∀ n, e.fits n = true) (on : Bool) (m b : Nat) (ins : List (FcInput T)) :
    ∀ (xs : List (Tensor T)) (wbs : List (Tensor T × Tensor T)) (extra : List (Tensor T)) (r : Tensor T) (acc : Nat → Nat → T),
      List.Forall₂ (fun k x => Batch x k.n b k.x) ins xs →
      List.Forall₂ (fun k (wb : Tensor T × Tensor T) => Holds wb.1 [m, k.n] (fun c => k.w (c.getD 0 0) (c.getD 1 0)) ∧
        Holds wb.2 [m] (fun c => k.bias (c.getD 0 0))) ins wbs →
      Batch r m b acc →
      ∃ t', Layer.fcLoop e on wbs (xs ++ extra) r = .ok t' ∧
        Batch t' m b (fun i j => acc i j + (ins.map (fun k => k.term i j)).sum) := by
  induction ins with
  | nil =>
    intro xs wbs extra r acc hx hw hr
    cases hx
    cases hw
    exact ⟨r, rfl, by simpa using hr⟩
  | cons k ks ih =>
    intro xs wbs extra r acc hx hw hr
    cases hx with
    | cons hx hxs =>
      cases hw with
      | cons hw hws =>
        obtain ⟨t, h1, h2⟩ := c59_fc_term e hm on _ _ _ k.n m b k.x k.w k.bias hx hw.1 hw.2
        obtain ⟨r', h3, h4⟩ := batch_binary e hm (· + ·) r t m b acc (fun i j => k.term i j) hr (.inl h2)
        obtain ⟨t', h5, h6⟩ := ih _ _ extra r' _ hxs hws h4
        refine ⟨t', ?_, ?_⟩
        · show (Layer.fcTerm e on _ _ _ >>= fun t => _) = _
          rw [h1, Outcome.ok_bind, h3, Outcome.ok_bind]
          exact h5
        · have : (fun i j => acc i j + ((k :: ks).map (fun k => k.term i j)).sum) =
              (fun i j => acc i j + k.term i j + (ks.map (fun k => k.term i j)).sum) := by
            funext i j
            rw [List.map_cons, List.sum_cons, add_assoc]
          rw [this]
          exact h6

/-- A layer with several inputs computes the sum of their contributions, biases included, for every vector of the
batch; inputs beyond the ones the layer was made for are ignored. -/
theorem c59_fc (e : Env T) (hm : ∀ n, e.fits n = true) (on : Bool) (m b : Nat) (ins : List (FcInput T)) (hne : ins ≠ [])
    (xs : List (Tensor T)) (wbs : List (Tensor T × Tensor T)) (extra : List (Tensor T))
    (hx : List.Forall₂ (fun k x => Batch x k.n b k.x) ins xs)
    (hw : List.Forall₂ (fun k (wb : Tensor T × Tensor T) => Holds wb.1 [m, k.n] (fun c => k.w (c.getD 0 0) (c.getD 1 0)) ∧
        Holds wb.2 [m] (fun c => k.bias (c.getD 0 0))) ins wbs) :
    ∃ t', Layer.fc e on wbs (xs ++ extra) = .ok t' ∧ Batch t' m b (fun i j => (ins.map (fun k => k.term i j)).sum) := by
  cases hx with
  | nil => exact absurd rfl hne
  | @cons k x ks xs hx hxs =>
    cases hw with
    | @cons _ wb _ wbs hw hws =>
      obtain ⟨t, h1, h2⟩ := c59_fc_term e hm on x wb.1 wb.2 k.n m b k.x k.w k.bias hx hw.1 hw.2
      obtain ⟨t', h3, h4⟩ := fcLoop_sum e hm on m b ks xs wbs extra t (fun i j => k.term i j) hxs hws (.inl h2)
      refine ⟨t', ?_, ?_⟩
      · show (Layer.fcTerm e on x wb.1 wb.2 >>= fun r => Layer.fcLoop e on wbs (xs ++ extra) r) = _
        rw [h1, Outcome.ok_bind]
        exact h3
      · simpa using h4

/-- Too few inputs: undefined behaviour, as soon as the inputs given are used up. -/
theorem c59_missing_input (e : Env T) (on : Bool) (wb wb' : Tensor T × Tensor T) (wbs : List (Tensor T × Tensor T)) (x r : Tensor T)
    (h : Layer.fcTerm e on x wb.1 wb.2 = .ok r) :
    Layer.fc e on (wb :: wb' :: wbs) [x] = .ub ∧ Layer.fc e on (wb :: wb' :: wbs) [] = .ub := by
  constructor
  · show (Layer.fcTerm e on x wb.1 wb.2 >>= fun r => Layer.fcLoop e on (wb' :: wbs) [] r) = _
    rw [h]
    rfl
  · rfl

theorem mlpLoop_feed (e : Env T) (hm : ∀ n, e.fits n = true) (on : Bool) (b : Nat) :
    ∀ (Ls : List ((Tensor T × Tensor T) × (Tensor T → Outcome (Tensor T)))) (ls : List (LayerSpec T)) (n : Nat)
      (t : Tensor T) (x : Nat → Nat → T), NetHolds n Ls ls → Batch t n b x →
      ∃ t', Layer.mlpLoop e on Ls t = .ok t' ∧ Batch t' (width ls n) b (fun i j => feed ls n (fun z => x z j) i) := by
  intro Ls
  induction Ls with
  | nil =>
    intro ls n t x hN hB
    cases hN
    exact ⟨t, rfl, hB⟩
  | cons L Ls ih =>
    intro ls n t x hN hB
    cases hN with
    | @cons _ _ l _ ls hL hN =>
      obtain ⟨hyp, h1, h2⟩ := c59_fc_term e hm on t L.1.1 L.1.2 n l.out b x l.w l.bias hB hL.weight hL.bias
      obtain ⟨out, h3, h4⟩ := hL.act hyp l.out b (fun i j => (∑ z ∈ range n, x z j * l.w i z) + l.bias i) (.inl h2)
      obtain ⟨t', h5, h6⟩ := ih ls l.out out _ hN h4
      refine ⟨t', ?_, h6⟩
      show (Layer.fc e on [L.1] [t] >>= fun hyp => L.2 hyp >>= fun out => Layer.mlpLoop e on Ls out) = _
      have h7 : Layer.fc e on [L.1] [t] = .ok hyp := by
        show (Layer.fcTerm e on t L.1.1 L.1.2 >>= fun r => Layer.fcLoop e on [] [] r) = _
        rw [h1]
        rfl
      rw [h7, Outcome.ok_bind, h3, Outcome.ok_bind]
      exact h5

theorem prop_up_guard (n b : Nat) (hn : 0 < n) : Shape.isCompatibleWith [n, b] [n, 0] = true ∧ Shape.isCompatibleWith [n] [n, 0] = true := by
  constructor
  · simp [Shape.isCompatibleWith, Shape.matchLoop, Shape.dimMatch]
  · by_cases h : n = 1
    · subst h; decide
    · simp [Shape.isCompatibleWith, Shape.matchLoop, Shape.dimMatch, Shape.stripOnesFront, Shape.stripOnesBack,
        Shape.stripZerosFront, Shape.stripZerosBack, h]
      rw [if_neg (by omega)]
      simp [Shape.stripZerosFront, Shape.matchLoop, Shape.dimMatch]

/-- The network's output: for every vector of the batch separately, what the network computes on paper. -/
theorem c59_mlp (e : Env T) (hm : ∀ n, e.fits n = true) (on : Bool) (b n : Nat)
    (Ls : List ((Tensor T × Tensor T) × (Tensor T → Outcome (Tensor T)))) (ls : List (LayerSpec T))
    (t : Tensor T) (x : Nat → Nat → T) (hN : NetHolds n Ls ls) (hB : Batch t n b x) :
    ∃ t', Layer.propUp e on n Ls t = .ok t' ∧ Batch t' (width ls n) b (fun i j => feed ls n (fun z => x z j) i) := by
  obtain ⟨t', h1, h2⟩ := mlpLoop_feed e hm on b Ls ls n t x hN hB
  refine ⟨t', ?_, h2⟩
  obtain ⟨hn, hb, hw, hs, buf, hr, _⟩ := batch_elems hB
  have hg : t.getShape = t.alloc := by
    unfold Tensor.getShape
    rw [if_pos ((Tensor.isAlloc_iff t).2 ⟨(alloc_full hn hb hs).1, buf, hr⟩)]
  have hc : Shape.isCompatibleWith t.getShape [n, 0] = true := by
    rw [hg]
    rcases hs with hs | ⟨rfl, hs⟩
    · rw [hs]; exact (prop_up_guard n b hn).1
    · rw [hs]; exact (prop_up_guard n 1 hn).2
  unfold Layer.propUp
  rw [hc, Outcome.assert_true, Outcome.ok_bind]
  exact h1

/-- An input of rank 2 whose vectors have another length is refused by the assertion. -/
theorem c59_wrong_input (e : Env T) (on : Bool) (n k b : Nat) (hk : k ≠ n) (hn : 0 < n)
    (Ls : List ((Tensor T × Tensor T) × (Tensor T → Outcome (Tensor T)))) (t : Tensor T) (F : List Nat → T) (ht : Holds t [k, b] F) :
    Layer.propUp e on n Ls t = .abort := by
  obtain ⟨buf, hr, _⟩ := ht.data
  have hg : t.getShape = [k, b] := by
    unfold Tensor.getShape
    rw [if_pos ((Tensor.isAlloc_iff t).2 ⟨by rw [ht.shape]; exact ht.full, buf, hr⟩), ht.shape]
  have hk0 : 0 < k := ht.full.2 k (by simp)
  have hc : Shape.isCompatibleWith [k, b] [n, 0] = false := by
    simp [Shape.isCompatibleWith, Shape.matchLoop, Shape.dimMatch, hk]
    omega
  unfold Layer.propUp
  rw [hg, hc]
  rfl

/-- The activations the networks of this project use act on each element. -/
theorem c59_sigmoid (e : Env ℝ) (hm : ∀ n, e.fits n = true) :
    Pointwise (Layer.sigmoid e) (fun x => 1 / (1 + Real.exp (-x))) := by
  intro t n b f hB
  obtain ⟨t1, h1, b1⟩ := c59_pointwise_unary e hm (fun x : ℝ => -x) t n b f hB
  obtain ⟨t2, h2, b2⟩ := c59_pointwise_unary e hm Real.exp t1 n b _ b1
  obtain ⟨t3, h3, b3⟩ := c59_pointwise_unary e hm (fun x : ℝ => 1 + x) t2 n b _ b2
  obtain ⟨t4, h4, b4⟩ := c59_pointwise_unary e hm (fun x : ℝ => 1 / x) t3 n b _ b3
  refine ⟨t4, ?_, b4⟩
  unfold Layer.sigmoid
  rw [h1, Outcome.ok_bind, h2, Outcome.ok_bind, h3, Outcome.ok_bind, h4]

theorem c59_tanh (e : Env ℝ) (hm : ∀ n, e.fits n = true) :
    Pointwise (Layer.tanh e) (fun x => (Real.exp (2 * x) - 1) / (Real.exp (2 * x) + 1)) := by
  intro t n b f hB
  obtain ⟨t1, h1, b1⟩ := c59_pointwise_unary e hm (fun x : ℝ => 2 * x) t n b f hB
  obtain ⟨t2, h2, b2⟩ := c59_pointwise_unary e hm Real.exp t1 n b _ b1
  obtain ⟨t3, h3, b3⟩ := c59_pointwise_unary e hm (fun x : ℝ => x - 1) t2 n b _ b2
  obtain ⟨t4, h4, b4⟩ := c59_pointwise_unary e hm (fun x : ℝ => x + 1) t2 n b _ b2
  obtain ⟨t5, h5, b5⟩ := batch_binary e hm (· / ·) t3 t4 n b _ _ b3 b4
  refine ⟨t5, ?_, b5⟩
  unfold Layer.tanh
  rw [h1, Outcome.ok_bind, h2, Outcome.ok_bind, h3, Outcome.ok_bind, h4, Outcome.ok_bind]
  exact h5

section Examples
open Layer

private def envZ : Env Int := { junk := fun _ => 7, zero := 0, fits := fun _ => true }

/-- Two inputs, one unit, a batch of two: `(1,2)·(10,100)+5 + 3·7+1`. -/
example : ∃ t', fc envZ false [(⟨some [10, 100], [1, 2], [1, 2]⟩, ⟨some [5], [1], [1]⟩), (⟨some [7], [1, 1], [1, 1]⟩, ⟨some [1], [1], [1]⟩)]
    [⟨some [1, 2, 3, 4], [2, 2], [2, 2]⟩, ⟨some [3, 4], [1, 2], [1, 2]⟩] = .ok t' ∧ t'.raw = some [237, 464] ∧ t'.alloc = [1, 2] :=
  ⟨_, rfl, rfl, rfl⟩

/-- Two layers, the first with activation `x ↦ -x`. -/
example : ∃ t', propUp envZ false 2
    [((⟨some [1, 2, 3, 4], [2, 2], [2, 2]⟩, ⟨some [10, 20], [2], [2]⟩), un envZ (fun x => -x)),
     ((⟨some [1, 1], [1, 2], [1, 2]⟩, ⟨some [0], [1], [1]⟩), fun t => .ok t)]
    ⟨some [1, 1, 0, 1], [2, 2], [2, 2]⟩ = .ok t' ∧ t'.raw = some [-40, -37] := ⟨_, rfl, rfl⟩

/-- The hypotheses of `c59_mlp` are met by a layer with `sigmoid`. -/
example (e : Env ℝ) (hm : ∀ n, e.fits n = true) :
    NetHolds 1 [((⟨some [2, 3], [2, 1], [2, 1]⟩, ⟨some [5, 7], [2], [2]⟩), Layer.sigmoid e)]
      [⟨2, fun i _ => if i = 0 then 2 else 3, fun i => if i = 0 then 5 else 7, fun x => 1 / (1 + Real.exp (-x))⟩] := by
  refine .cons ⟨⟨by decide, rfl, _, rfl, rfl, ?_⟩, ⟨by decide, rfl, _, rfl, rfl, ?_⟩, c59_sigmoid e hm⟩ .nil
  · intro c hc
    obtain ⟨hl, hc⟩ := hc
    match c, hl with
    | [i, j], _ =>
      have h0 : i < 2 := by simpa using hc 0 (by simp)
      have h1 : j = 0 := by simpa using hc 1 (by simp)
      subst h1
      interval_cases i <;> simp [flat]
  · intro c hc
    obtain ⟨hl, hc⟩ := hc
    match c, hl with
    | [i], _ =>
      have h0 : i < 2 := by simpa using hc 0 (by simp)
      interval_cases i <;> simp [flat]

end Examples

end Verif.Props
