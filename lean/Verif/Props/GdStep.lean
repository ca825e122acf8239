import Verif.Spec.GdStep
import Verif.Props.Backprop
import Verif.Props.Leaf
/-!
# C65: training a `gd_net` is gradient descent
-/
namespace Verif.Props
open Spec Backprop Finset
open scoped Classical

variable {shp : Backprop.Leaf → List Nat} {val : Backprop.Leaf → Nat → Nat → ℝ} {v : Nat}

theorem holds_wf {T : Type} {t : Tensor T} {s : List Nat} {f : List Nat → T} (h : Holds t s f) : t.WF := by
  obtain ⟨h1, h2, buf, h3, h4, _⟩ := h
  intro b hb
  rw [h3] at hb
  cases hb
  exact ⟨h2 ▸ h1, h2 ▸ h4⟩

/-- The buffer behind a matrix. -/
theorem batch_buf {T : Type} {t : Tensor T} {n b : Nat} {f : Nat → Nat → T} (h : Batch t n b f) :
    t.WF ∧ ∃ buf, t.raw = some buf ∧ buf.length = n * b ∧ ∀ i j, i < n → j < b → buf[i + n * j]? = some (f i j) := by
  rcases h with h | ⟨rfl, h⟩
  · refine ⟨holds_wf h, ?_⟩
    obtain ⟨_, _, buf, h3, h4, h5⟩ := h
    refine ⟨buf, h3, by simpa [vol] using h4, fun i j hi hj => ?_⟩
    have := h5 [i, j] ⟨rfl, fun k hk => ?_⟩
    · simpa [flat] using this
    · match k, hk with
      | 0, _ => simpa using hi
      | 1, _ => simpa using hj
  · refine ⟨holds_wf h, ?_⟩
    obtain ⟨_, _, buf, h3, h4, h5⟩ := h
    refine ⟨buf, h3, by simpa [vol] using h4, fun i j hi hj => ?_⟩
    obtain rfl : j = 0 := by omega
    have := h5 [i] ⟨rfl, fun k hk => ?_⟩
    · simpa [flat] using this
    · match k, hk with
      | 0, _ => simpa using hi

theorem leaf_batch {l : Backprop.Leaf} {t : Tensor ℝ} {f : Nat → Nat → ℝ} (ht : Typed shp (.leaf l))
    (h : Holds t (shp l) (fun c => f (c.getD 0 0) (c.getD 1 0))) : Batch t (leafSize (shp l)).1 (leafSize (shp l)).2 f := by
  obtain ⟨n, b, _, _, hs | ⟨rfl, hs⟩⟩ := ht
  · rw [hs] at h ⊢; exact .inl h
  · rw [hs] at h ⊢
    refine .inr ⟨rfl, h.full, h.shape, ?_⟩
    obtain ⟨buf, h3, h4, h5⟩ := h.data
    refine ⟨buf, h3, h4, fun c hc => ?_⟩
    have h6 := h5 c hc
    obtain ⟨hl, _⟩ := hc
    match c, hl with
    | [i], _ => exact h6

/-- A buffer laid out as a matrix, behind a leaf of that size. -/
theorem holds_leaf {l : Backprop.Leaf} {t : Tensor ℝ} {f : Nat → Nat → ℝ} {buf : List ℝ} (ht : Typed shp (.leaf l)) (ha : t.alloc = shp l)
    (hr : t.raw = some buf) (hlen : buf.length = (leafSize (shp l)).1 * (leafSize (shp l)).2)
    (hb : ∀ i j, i < (leafSize (shp l)).1 → j < (leafSize (shp l)).2 → buf[i + (leafSize (shp l)).1 * j]? = some (f i j)) :
    Holds t (shp l) (fun c => f (c.getD 0 0) (c.getD 1 0)) := by
  obtain ⟨n, b, hn, hp, hs | ⟨rfl, hs⟩⟩ := ht
  · rw [hs] at ha hlen hb ⊢
    refine ⟨⟨by simp, by simp [hn, hp]⟩, ha, buf, hr, by simpa [vol, leafSize] using hlen, fun c hc => ?_⟩
    obtain ⟨hl, hc⟩ := hc
    match c, hl with
    | [i, j], _ =>
      have h0 : i < n := by simpa using hc 0 (by simp)
      have h1 : j < b := by simpa using hc 1 (by simp)
      simpa [flat, leafSize] using hb i j h0 h1
  · rw [hs] at ha hlen hb ⊢
    refine ⟨⟨by simp, by simp [hn]⟩, ha, buf, hr, by simpa [vol, leafSize] using hlen, fun c hc => ?_⟩
    obtain ⟨hl, hc⟩ := hc
    match c, hl with
    | [i], _ =>
      have h0 : i < n := by simpa using hc 0 (by simp)
      simpa [flat, leafSize] using hb i 0 h0 (by simp [leafSize])

theorem flat_split {n b k : Nat} (hk : k < n * b) : k % n < n ∧ k / n < b ∧ k % n + n * (k / n) = k := by
  have hn : 0 < n := by rcases Nat.eq_zero_or_pos n with h | h; · rw [h, Nat.zero_mul] at hk; omega
                        · exact h
  exact ⟨Nat.mod_lt _ hn, Nat.div_lt_of_lt_mul hk, Nat.mod_add_div k n⟩

theorem mulR_const (d : Term) (lr : ℝ) (hd : ∀ c, d ≠ .const c) (hI : Typed shp d) :
    (lr = 0 ∧ mulR d lr = .const 0) ∨ ∀ c, mulR d lr ≠ .const c := by
  rw [mulR_nc lr hd]
  by_cases h0 : 0 = lr
  · exact .inl ⟨h0.symm, by rw [if_pos h0]⟩
  · refine .inr fun c => ?_
    rw [if_neg h0]
    split_ifs
    · exact hd c
    · exact neg_nc hd hI c
    · simp

theorem stepArg_nc (env : Env ℝ) (on : Bool) (ρ : Backprop.Leaf → Tensor ℝ) (d : Term) (hd : ∀ c, d ≠ .const c) :
    stepArg env on ρ d = (eval env on ρ d >>= fun t => .ok (.node (some t))) := by
  cases d <;> first | rfl | exact absurd rfl (hd _)

/-- One update of one variable. -/
theorem vgb_update (env : Env ℝ) (hm : ∀ n, env.fits n = true) (hz : env.zero = 0) (on : Bool) (lr : ℝ) (ρ : Backprop.Leaf → Tensor ℝ)
    (hρ : LeavesHold ρ shp val) (d : Term) (G : Nat → Nat → ℝ) (hd : ∀ c, d ≠ .const c) (l : Backprop.Leaf) (hl : Typed shp (.leaf l))
    (hG : Is shp val d (leafSize (shp l)).1 (leafSize (shp l)).2 G) (t : Tensor ℝ)
    (ht : Holds t (shp l) (fun c => val l (c.getD 0 0) (c.getD 1 0))) :
    ∃ t', vgbUpdate env on lr ρ d t = .ok t' ∧ Holds t' (shp l) (fun c => val l (c.getD 0 0) (c.getD 1 0) - lr * G (c.getD 0 0) (c.getD 1 0)) := by
  have hT : Typed shp d := by
    rcases hG with ⟨c, h, _⟩ | h
    · exact absurd h (hd c)
    · exact h.1
  obtain ⟨hw, buf, hr, hlen, hb⟩ := batch_buf (leaf_batch hl ht)
  rcases mulR_const d lr hd hT with ⟨h0, h1⟩ | h1
  · refine ⟨t, ?_, ?_⟩
    · unfold vgbUpdate
      rw [h1]
      show (Verif.Leaf.assignSub env ⟨t, true, none⟩ (.const [0]) >>= fun l => .ok l.data) = _
      rw [Leaf.assignSub, c42_update_constant env _ true ⟨t, true, none⟩ buf [0] hw hr, if_pos ⟨rfl, by rw [hz]⟩]
      rfl
    · subst h0; simpa using ht
  · obtain ⟨s, h2, _, h3⟩ := eval_is env hm on ρ hρ (is_mulR lr hG)
    obtain ⟨hw', src, hr', hlen', hb'⟩ := batch_buf (h3 h1)
    refine ⟨⟨some (mapTwo (· - ·) buf src), t.alloc, t.allowed⟩, ?_, ?_⟩
    · unfold vgbUpdate
      rw [stepArg_nc env on ρ _ h1, h2]
      show (Verif.Leaf.assignSub env ⟨t, true, none⟩ (.node (some s)) >>= fun l => .ok l.data) = _
      rw [Leaf.assignSub, (c42_update_node env _ true ⟨t, true, none⟩ s buf src hw hr hw' hr').2, if_pos (by rw [hlen, hlen'])]
      rfl
    · have hget : ∀ i j, i < (leafSize (shp l)).1 → j < (leafSize (shp l)).2 →
          (mapTwo (· - ·) buf src)[i + (leafSize (shp l)).1 * j]? = some (val l i j - G i j * lr) := fun i j hi hj =>
        (mapTwo_getElem? (· - ·) buf src (by rw [hlen, hlen']) _ _ _ (hb i j hi hj) (hb' i j hi hj)).1
      have hll : (mapTwo (· - ·) buf src).length = buf.length := by
        rw [← zipWith_mapTwo]; simp [hlen, hlen']
      have := holds_leaf (f := fun i j => val l i j - lr * G i j) (t := ⟨some (mapTwo (· - ·) buf src), t.alloc, t.allowed⟩) hl ht.shape rfl
        (by rw [hll, hlen]) (fun i j hi hj => by rw [hget i j hi hj, mul_comm lr])
      exact this

/-- All updates: each trained variable is moved once, the others keep their tensors. -/
theorem update_all (env : Env ℝ) (hm : ∀ n, env.fits n = true) (hz : env.zero = 0) (on : Bool) (lr : ℝ) (ρ₀ : Backprop.Leaf → Tensor ℝ)
    (hρ : LeavesHold ρ₀ shp val) (e : Term) (G : Nat → Nat → Nat → ℝ) : ∀ (vs : List Nat) (ρ : Backprop.Leaf → Tensor ℝ), vs.Nodup →
    (∀ v ∈ vs, Typed shp (.leaf ⟨true, v⟩) ∧ ∃ d, derive v e = .ok d ∧ (∀ c, d ≠ .const c) ∧
      Is shp val d (leafSize (shp ⟨true, v⟩)).1 (leafSize (shp ⟨true, v⟩)).2 (G v)) →
    (∀ v ∈ vs, ρ ⟨true, v⟩ = ρ₀ ⟨true, v⟩) →
    ∃ ρ', updateAll env on lr e ρ₀ vs ρ = .ok ρ' ∧ (∀ l, (∀ v ∈ vs, l ≠ ⟨true, v⟩) → ρ' l = ρ l) ∧
      ∀ v ∈ vs, Holds (ρ' ⟨true, v⟩) (shp ⟨true, v⟩)
        (fun c => val ⟨true, v⟩ (c.getD 0 0) (c.getD 1 0) - lr * G v (c.getD 0 0) (c.getD 1 0)) := by
  intro vs
  induction vs with
  | nil => intro ρ _ _ _; exact ⟨ρ, rfl, fun _ _ => rfl, fun v hv => absurd hv (by simp)⟩
  | cons v vs ih =>
    intro ρ hnd hd hsame
    obtain ⟨hv, hnd⟩ := List.nodup_cons.1 hnd
    obtain ⟨hty, d, h1, h2, h3⟩ := hd v (by simp)
    obtain ⟨t', h4, h5⟩ := vgb_update env hm hz on lr ρ₀ hρ d (G v) h2 ⟨true, v⟩ hty h3 (ρ ⟨true, v⟩) (by rw [hsame v (by simp)]; exact hρ _)
    have hne : ∀ u ∈ vs, (⟨true, u⟩ : Backprop.Leaf) ≠ ⟨true, v⟩ := by
      intro u hu h; injection h with _ h; exact hv (h ▸ hu)
    obtain ⟨ρ', h6, h7, h8⟩ := ih (put ρ ⟨true, v⟩ t') hnd (fun u hu => hd u (by simp [hu])) (fun u hu => by
      unfold put; rw [if_neg (hne u hu)]; exact hsame u (by simp [hu]))
    refine ⟨ρ', ?_, fun l hl => ?_, fun u hu => ?_⟩
    · rw [updateAll, h1, Outcome.ok_bind, h4, Outcome.ok_bind, h6]
    · rw [h7 l (fun u hu => hl u (by simp [hu]))]
      unfold put; rw [if_neg (hl v (by simp))]
    · rcases List.mem_cons.1 hu with rfl | hu
      · rw [h7 _ (fun w hw h => by injection h with _ h; exact hv (h ▸ hw))]
        unfold put; rw [if_pos rfl]; exact h5
      · exact h8 u hu

theorem param_typed (ls : List NetLayer) : ∀ n, 0 < n → NetShapes shp n ls → ∀ v ∈ params ls, Typed shp (.leaf ⟨true, v⟩) := by
  induction ls with
  | nil => intro n _ _ v hv; simp [params] at hv
  | cons l ls ih =>
    intro n hn hs v hv
    have hv' : v = l.w ∨ v = l.bias ∨ v ∈ params ls := by
      have : params (l :: ls) = l.w :: l.bias :: params ls := by simp [params]
      rw [this] at hv
      simpa using hv
    obtain ⟨h1, h2, h3, h4⟩ := hs
    rcases hv' with rfl | rfl | hv'
    · exact ⟨l.out, n, h1, hn, .inl h2⟩
    · exact ⟨l.out, 1, h1, by simp, .inr ⟨rfl, h3⟩⟩
    · exact ih l.out h1 h4 v hv'

/-- Variables that are no parameters do not occur in the output. -/
theorem propUp_free (ls : List NetLayer) : ∀ (h : Term) (n B : Nat), Typed shp h → Free v h → dims shp h = (n, B) → NetShapes shp n ls →
    v ∉ params ls → ∀ out, propUp ls h = .ok out → Free v out := by
  induction ls with
  | nil => intro h n B _ hf _ _ _ out ho; cases ho; exact hf
  | cons l ls ih =>
    intro h n B ht hf hd hn hv out ho
    obtain ⟨t1, t2, t3⟩ := affine_typed ht hd hn
    have hv' : v ≠ l.w ∧ v ≠ l.bias ∧ v ∉ params ls := by
      simp only [params, List.flatMap_cons, List.mem_append, List.mem_cons, List.not_mem_nil, or_false, not_or] at hv
      exact ⟨hv.1.1, hv.1.2, hv.2⟩
    have fz : Free v (affine h l) := by
      refine ⟨⟨hf, ?_⟩, ?_⟩
      · show (⟨true, l.w⟩ : Backprop.Leaf) ≠ ⟨true, v⟩
        intro h; exact hv'.1 (by injection h with _ h; exact h.symm)
      · show (⟨true, l.bias⟩ : Backprop.Leaf) ≠ ⟨true, v⟩
        intro h; exact hv'.2.1 (by injection h with _ h; exact h.symm)
    obtain ⟨e, a1, a2, a3, _, a5⟩ := den_act (v := v) (z := affine h l) trivial t2 l.act
    rw [propUp_cons, a1, Outcome.ok_bind] at ho
    exact ih e l.out B a2 (a5 fz) (by rw [a3, t3]) hn.2.2.2 hv'.2.2 out ho

theorem free_node2 {k : Expr.K2} {a b : Term} (ha : Free v a) (hb : Free v b) : Free v (node2 k a b) := by
  have h1 : ∀ x left, Free v (axialNode k x left a b) := by
    intro x left; unfold axialNode; split <;> exact ⟨ha, hb⟩
  unfold node2
  split
  · exact ⟨ha, hb⟩
  · exact h1 _ _
  · split_ifs
    · exact h1 _ _
    · exact ⟨ha, hb⟩
  · exact h1 _ _

theorem free_subpow {y : Nat} {out : Term} (h : Free v out) : Free v (mul (sub (.leaf ⟨false, y⟩) out) (sub (.leaf ⟨false, y⟩) out)) := by
  have fy : Free v (.leaf ⟨false, y⟩) := fun h => by injection h with h _; cases h
  have h1 : Free v (sub (.leaf ⟨false, y⟩) out) := by
    unfold sub
    split_ifs
    · trivial
    · cases out with
      | const c => dsimp only; split_ifs <;> first | exact fy | (unfold subR; dsimp only; split_ifs <;> exact fy)
      | _ => exact free_node2 fy h
  unfold mul pow
  rw [if_pos rfl, if_neg (by norm_num), if_neg (by norm_num)]
  cases hs : sub (.leaf ⟨false, y⟩) out with
  | const c => trivial
  | _ => rw [hs] at h1; exact h1

/-- The variables the error depends on are the parameters. -/
theorem error_vars (S : Setup) (hS : S.Fits shp) {e : Term} (he : gdError S.ls (.leaf ⟨false, S.x⟩) (.leaf ⟨false, S.y⟩) = .ok e) (v : Nat) :
    v ∈ params S.ls ↔ ¬Free v e := by
  constructor
  · intro hv hf
    obtain ⟨e', d, G, h1, _, _, _, h2, _⟩ := mlp_gradient (val := fun _ _ _ => 0) S.ls S.x S.y S.n S.B hS.input hS.pos.1 hS.pos.2 hS.target hS.net hS.nodup hv
    rw [he] at h1; cases h1
    rw [free_uses.1 hf] at h2; cases h2
  · intro hf
    by_contra hv
    have tx : Typed shp (.leaf ⟨false, S.x⟩) := ⟨S.n, S.B, hS.pos.1, hS.pos.2, hS.input⟩
    have dx : dims shp (.leaf ⟨false, S.x⟩) = (S.n, S.B) := by
      rcases hS.input with h | ⟨hB, h⟩ <;> simp only [dims, h, leafSize]
      rw [hB]
    unfold gdError at he
    rw [Outcome.bind_eq_ok] at he
    obtain ⟨out, h1, h2⟩ := he
    injection h2 with h2
    subst h2
    exact hf (free_subpow (propUp_free S.ls _ S.n S.B tx (fun h => by injection h with h _; cases h) dx hS.net hv out h1))

/-- The updates of `gd_net::train`: one step of gradient descent, for every order of the variables. -/
theorem c65_step (env : Env ℝ) (hm : ∀ n, env.fits n = true) (hz : env.zero = 0) (on : Bool) (lr : ℝ) (S : Setup) (hS : S.Fits shp)
    (ρ : Backprop.Leaf → Tensor ℝ) (hρ : LeavesHold ρ shp val) (e : Term)
    (he : gdError S.ls (.leaf ⟨false, S.x⟩) (.leaf ⟨false, S.y⟩) = .ok e) (vs : List Nat) (hvs : Trains vs e) :
    ∃ ρ' val', updateAll env on lr e ρ vs ρ = .ok ρ' ∧ LeavesHold ρ' shp val' ∧ S.Step shp lr val val' := by
  have hmem : ∀ v, v ∈ vs ↔ v ∈ params S.ls := fun v => (hvs.2 v).trans (error_vars S hS he v).symm
  have hex : ∀ v, ∃ G : Nat → Nat → ℝ, v ∈ params S.ls → (∃ d, derive v e = .ok d ∧ (∀ c, d ≠ .const c) ∧
      Is shp val d (leafSize (shp ⟨true, v⟩)).1 (leafSize (shp ⟨true, v⟩)).2 G) ∧
      ∀ p q, IsEntry shp v p q → HasDerivAt (fun s => S.error (setAt val v p q s)) (G p q) (val ⟨true, v⟩ p q) := by
    intro v
    by_cases hv : v ∈ params S.ls
    · obtain ⟨e', d, G, h1, h2, h3, h4, _, h5⟩ := mlp_gradient (val := val) S.ls S.x S.y S.n S.B hS.input hS.pos.1 hS.pos.2 hS.target hS.net hS.nodup hv
      rw [he] at h1; cases h1
      exact ⟨G, fun _ => ⟨⟨d, h2, h3, h4⟩, fun p q h => h5 p q h.1 h.2⟩⟩
    · exact ⟨fun _ _ => 0, fun h => absurd h hv⟩
  choose G hG using hex
  obtain ⟨ρ', h1, h2, h3⟩ := update_all env hm hz on lr ρ hρ e G vs ρ hvs.1
    (fun v hv => ⟨param_typed S.ls S.n hS.pos.1 hS.net v ((hmem v).1 hv), (hG v ((hmem v).1 hv)).1⟩) (fun _ _ => rfl)
  refine ⟨ρ', fun l i j => if l.trainable = true ∧ l.id ∈ vs then val l i j - lr * G l.id i j else val l i j, h1, fun l => ?_, ?_, ?_⟩
  · obtain ⟨t, v⟩ := l
    by_cases h : t = true ∧ v ∈ vs
    · obtain ⟨rfl, h⟩ := h
      simpa [h] using h3 v h
    · rw [h2 ⟨t, v⟩ (fun u hu hx => by injection hx with h4 h5; exact h ⟨h4, h5 ▸ hu⟩)]
      simp only [if_neg h]
      exact hρ _
  · intro v hv p q hpq
    refine ⟨G v p q, (hG v hv).2 p q hpq, ?_⟩
    rw [if_pos ⟨rfl, (hmem v).2 hv⟩]
  · intro l hl
    funext i j
    rw [if_neg]
    rintro ⟨h4, h5⟩
    exact hl l.id ((hmem _).1 h5) (by cases l; simp_all)

/-- Setting a placeholder. -/
theorem feed_leaf (env : Env ℝ) (hm : ∀ n, env.fits n = true) (ρ : Backprop.Leaf → Tensor ℝ) (x n B : Nat) (data : List ℝ)
    (hn : 0 < n) (hB : 0 < B) (hx : shp ⟨false, x⟩ = [n, B] ∨ (B = 1 ∧ shp ⟨false, x⟩ = [n])) (hd : data.length = n * B)
    (hρ : LeavesHold ρ shp val) : ∃ ρ', feedLeaf env ρ x data = .ok ρ' ∧
      LeavesHold ρ' shp (fun l i j => if l = ⟨false, x⟩ then data.getD (i + n * j) 0 else val l i j) := by
  have tx : Typed shp (.leaf ⟨false, x⟩) := ⟨n, B, hn, hB, hx⟩
  have hsz : leafSize (shp ⟨false, x⟩) = (n, B) := by
    rcases hx with h | ⟨h', h⟩ <;> rw [h] <;> simp [leafSize, *]
  have hh := hρ ⟨false, x⟩
  have hw := holds_wf hh
  obtain ⟨hf, ha, buf, hr, hlen, _⟩ := hh
  have hpos : 0 < n * B := Nat.mul_pos hn hB
  have hne : data ≠ [] := by rintro rfl; simp at hd; omega
  have hvol : vol (shp ⟨false, x⟩) = n * B := by
    rcases hx with h | ⟨h', h⟩ <;> rw [h] <;> simp [vol, *]
  obtain ⟨s, _, _, _, h4, h5⟩ := (assign_step env hm ⟨ρ ⟨false, x⟩, true, none⟩ (.inr ⟨buf, hr, hw⟩) data hne).2
    (.inr ⟨shp ⟨false, x⟩, hf, by
      show Refines (shp ⟨false, x⟩) (ρ ⟨false, x⟩).getShape
      rw [Tensor.getShape_of_alloc ((Tensor.isAlloc_iff _).2 ⟨ha ▸ hf, buf, hr⟩), ha]
      exact ⟨rfl, fun i _ => .inr rfl⟩, by rw [hvol, hd]⟩)
  have h6 := h4 buf hr
  subst h6
  refine ⟨_, by unfold feedLeaf; rw [h5]; rfl, fun l => ?_⟩
  unfold put
  by_cases hl : l = ⟨false, x⟩
  · subst hl
    simp only [if_true]
    refine holds_leaf (f := fun i j => data.getD (i + n * j) 0) tx ha rfl (by rw [hsz]; exact hd) (fun i j hi hj => ?_)
    rw [hsz] at hi hj ⊢
    have hlt : i + n * j < data.length := by
      rw [hd]
      calc i + n * j < n + n * j := by simpa using hi
        _ = n * (j + 1) := by ring
        _ ≤ n * B := Nat.mul_le_mul_left n hj
    simp [hlt]
  · simp only [if_neg hl]
    exact hρ l

theorem netOut_pos (ls : List NetLayer) : ∀ n, 0 < n → NetShapes shp n ls → 0 < netOut n ls := by
  induction ls with
  | nil => intro n h _; exact h
  | cons l ls ih => intro n _ h; exact ih l.out h.1 h.2.2.2

theorem train_one (env : Env ℝ) (hm : ∀ n, env.fits n = true) (hz : env.zero = 0) (on : Bool) (lr : ℝ) (S : Setup) (hS : S.Fits shp)
    (ρ : Backprop.Leaf → Tensor ℝ) (hρ : LeavesHold ρ shp val) (e : Term)
    (he : gdError S.ls (.leaf ⟨false, S.x⟩) (.leaf ⟨false, S.y⟩) = .ok e) (vs : List Nat) (hvs : Trains vs e) (s : List ℝ × List ℝ)
    (hs : Sized S s) :
    ∃ ρ' val', train env on lr e S.x S.y vs ρ s = .ok ρ' ∧ LeavesHold ρ' shp val' ∧ S.Step shp lr (S.given s val) val' := by
  obtain ⟨ρ₁, h1, h2⟩ := feed_leaf env hm ρ S.x S.n S.B s.1 hS.pos.1 hS.pos.2 hS.input hs.1 hρ
  obtain ⟨ρ₂, h3, h4⟩ := feed_leaf env hm ρ₁ S.y (netOut S.n S.ls) S.B s.2 (netOut_pos S.ls S.n hS.pos.1 hS.net) hS.pos.2 hS.target hs.2 h2
  have h5 : LeavesHold ρ₂ shp (S.given s val) := by
    convert h4 using 4 with l
    unfold Setup.given
    by_cases hx : l = ⟨false, S.x⟩
    · subst hx
      rw [if_pos rfl, if_neg (by intro h; injection h with _ h; exact hS.other h), if_pos rfl]
    · simp only [if_neg hx]
  obtain ⟨ρ', val', h6, h7, h8⟩ := c65_step env hm hz on lr S hS ρ₂ h5 e he vs hvs
  exact ⟨ρ', val', by unfold train; rw [h1, Outcome.ok_bind, h3, Outcome.ok_bind, h6], h7, h8⟩

/-- Any number of calls of `train`, each with its own sample: stochastic gradient descent. -/
theorem c65_train (env : Env ℝ) (hm : ∀ n, env.fits n = true) (hz : env.zero = 0) (on : Bool) (lr : ℝ) (S : Setup) (hS : S.Fits shp) (e : Term)
    (he : gdError S.ls (.leaf ⟨false, S.x⟩) (.leaf ⟨false, S.y⟩) = .ok e) (vs : List Nat) (hvs : Trains vs e) :
    ∀ (ss : List (List ℝ × List ℝ)) (ρ : Backprop.Leaf → Tensor ℝ) (val : Backprop.Leaf → Nat → Nat → ℝ), LeavesHold ρ shp val →
      (∀ s ∈ ss, Sized S s) →
      ∃ ρ' val', trainMany env on lr e S.x S.y vs ss ρ = .ok ρ' ∧ LeavesHold ρ' shp val' ∧ S.Descends shp lr ss val val' := by
  intro ss
  induction ss with
  | nil => intro ρ val h _; exact ⟨ρ, val, rfl, h, .nil⟩
  | cons s ss ih =>
    intro ρ val h hs
    obtain ⟨ρ₁, val₁, h1, h2, h3⟩ := train_one env hm hz on lr S hS ρ h e he vs hvs s (hs s (by simp))
    obtain ⟨ρ₂, val₂, h4, h5, h6⟩ := ih ρ₁ val₁ h2 (fun s' hs' => hs s' (by simp [hs']))
    exact ⟨ρ₂, val₂, by rw [trainMany, h1, Outcome.ok_bind, h4], h5, .cons h3 h6⟩

end Verif.Props
