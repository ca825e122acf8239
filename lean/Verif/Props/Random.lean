import Verif.Spec.Random
import Mathlib.Analysis.Real.Sqrt
/-!
# C77: the shared random number generator and random initialisation
-/
namespace Verif.Props
open Spec Random
variable {σ ρ : Type} {S : Source σ ρ}

theorem generate_length (n : Nat) (d : Dist) (g : σ) : (generate S n d g).length = n := by
  induction n generalizing d g with
  | zero => rfl
  | succ n ih => simp [generate, ih]

/-- The k-th number made by a distribution does not depend on how many are asked for. -/
theorem generate_prefix (n m k : Nat) (d : Dist) (g : σ) (hn : k < n) (hm : k < m) : (generate S n d g)[k]? = (generate S m d g)[k]? := by
  induction k generalizing n m d g with
  | zero =>
    obtain ⟨n, rfl⟩ : ∃ n', n = n' + 1 := ⟨n - 1, by omega⟩
    obtain ⟨m, rfl⟩ : ∃ m', m = m' + 1 := ⟨m - 1, by omega⟩
    rfl
  | succ k ih =>
    obtain ⟨n, rfl⟩ : ∃ n', n = n' + 1 := ⟨n - 1, by omega⟩
    obtain ⟨m, rfl⟩ : ∃ m', m = m' + 1 := ⟨m - 1, by omega⟩
    simp only [generate, List.getElem?_cons_succ]
    exact ih n m _ _ (by omega) (by omega)

/-- The engine after k numbers of a uniform distribution. -/
def nthState (S : Source σ ρ) : Nat → σ → σ
  | 0, g => g
  | k + 1, g => nthState S k (S.canon g).2

theorem generate_uniform (n k : Nat) (a b : ℝ) (g : σ) (hk : k < n) :
    (generate S n (.uniform a b) g)[k]? = some ((S.canon (nthState S k g)).1 * (b - a) + a) := by
  induction k generalizing n g with
  | zero =>
    obtain ⟨n, rfl⟩ : ∃ n', n = n' + 1 := ⟨n - 1, by omega⟩
    rfl
  | succ k ih =>
    obtain ⟨n, rfl⟩ : ∃ n', n = n' + 1 := ⟨n - 1, by omega⟩
    simp only [generate, draw, List.getElem?_cons_succ]
    exact ih n _ (by omega)

/-- The standard scores of the numbers of a normal distribution. -/
def scores (S : Source σ ρ) : Nat → Option ℝ → σ → ℝ
  | 0, some z, _ => z
  | 0, none, g => (S.polar g).1
  | k + 1, some _, g => scores S k none g
  | k + 1, none, g => scores S k (some (S.polar g).2.1) (S.polar g).2.2

theorem generate_normal (n k : Nat) (m s : ℝ) (z : Option ℝ) (g : σ) (hk : k < n) :
    (generate S n (.normal m s z) g)[k]? = some (scores S k z g * s + m) := by
  induction k generalizing n z g with
  | zero =>
    obtain ⟨n, rfl⟩ : ∃ n', n = n' + 1 := ⟨n - 1, by omega⟩
    cases z <;> rfl
  | succ k ih =>
    obtain ⟨n, rfl⟩ : ∃ n', n = n' + 1 := ⟨n - 1, by omega⟩
    cases z with
    | none =>
      simp only [generate, draw, List.getElem?_cons_succ, scores]
      exact ih n _ _ (by omega)
    | some z =>
      simp only [generate, draw, List.getElem?_cons_succ, scores]
      exact ih n _ _ (by omega)

theorem calcData_shared (i : Init) (n : Nat) (g : σ) : (calcData S i n g).2 = g := by cases i <;> rfl

theorem step_initialize {s : St σ ρ} {x : Nat} {i : Init} (h : (s.vars x).init = some i) :
    step S s (.init x) = .ok (⟨s.shared, s.libc, fun y => if y = x then ⟨some i, (s.vars x).size, some (calcData S i (s.vars x).size s.shared).1⟩ else s.vars y⟩, .nothing) := by
  simp only [step, h, calcData_shared]

/-- C77: initialising a variable never moves the shared generator: everything that happens afterwards, to anything but
that variable, is what would have happened without it. -/
theorem c77_initialize_invisible (s : St σ ρ) (x : Nat) (hx : (s.vars x).init ≠ none) (es : List Ev) (he : ∀ e ∈ es, Spares x e)
    (t : St σ ρ) (o : List Out) (h : run S s es = .ok (t, o)) :
    ∃ t', run S s (.init x :: es) = .ok (t', .nothing :: o) ∧ t'.shared = t.shared ∧ t'.libc = t.libc ∧ ∀ y, y ≠ x → t'.vars y = t.vars y := by
  have key : ∀ (es : List Ev), (∀ e ∈ es, Spares x e) → ∀ (s s' t : St σ ρ) (o : List Out), s'.shared = s.shared → s'.libc = s.libc →
      (∀ y, y ≠ x → s'.vars y = s.vars y) → run S s es = .ok (t, o) →
      ∃ t', run S s' es = .ok (t', o) ∧ t'.shared = t.shared ∧ t'.libc = t.libc ∧ ∀ y, y ≠ x → t'.vars y = t.vars y := by
    intro es
    induction es with
    | nil =>
      intro _ s s' t o h1 h2 h3 h
      simp only [run, Outcome.ok.injEq, Prod.mk.injEq] at h
      obtain ⟨rfl, rfl⟩ := h
      exact ⟨s', rfl, h1, h2, h3⟩
    | cons e es ih =>
      intro he s s' t o h1 h2 h3 h
      rw [run, Outcome.bind_eq_ok] at h
      obtain ⟨⟨s1, o1⟩, h4, h⟩ := h
      rw [Outcome.bind_eq_ok] at h
      obtain ⟨⟨t1, o2⟩, h5, h⟩ := h
      simp only [Outcome.ok.injEq, Prod.mk.injEq] at h
      obtain ⟨rfl, rfl⟩ := h
      obtain ⟨g, l, v⟩ := s
      obtain ⟨g', l', v'⟩ := s'
      simp only at h1 h2 h3
      subst h1 h2
      have hstep : ∃ s1', step S ⟨g', l', v'⟩ e = .ok (s1', o1) ∧ s1'.shared = s1.shared ∧ s1'.libc = s1.libc ∧ ∀ y, y ≠ x → s1'.vars y = s1.vars y := by
        have hsp := he e (by simp)
        cases e with
        | seed v => simp only [step, Outcome.ok.injEq, Prod.mk.injEq] at h4; obtain ⟨rfl, rfl⟩ := h4; exact ⟨_, rfl, rfl, rfl, h3⟩
        | node => simp only [step, Outcome.ok.injEq, Prod.mk.injEq] at h4; obtain ⟨rfl, rfl⟩ := h4; exact ⟨_, rfl, rfl, rfl, h3⟩
        | «variable» y i n =>
          simp only [step, Outcome.ok.injEq, Prod.mk.injEq] at h4; obtain ⟨rfl, rfl⟩ := h4
          refine ⟨_, rfl, rfl, rfl, fun z hz => ?_⟩
          simp only
          split
          · rfl
          · exact h3 z hz
        | init y =>
          have hv := h3 y hsp
          cases hi : (v y).init with
          | none => simp only [step, hi] at h4; cases h4
          | some i =>
            rw [step_initialize (s := ⟨g', l', v⟩) hi] at h4
            simp only [Outcome.ok.injEq, Prod.mk.injEq] at h4; obtain ⟨rfl, rfl⟩ := h4
            refine ⟨_, step_initialize (s := ⟨g', l', v'⟩) (by rw [← hi, ← hv]), rfl, rfl, fun z hz => ?_⟩
            simp only [hv]
            split
            · rfl
            · exact h3 z hz
        | sample n ps =>
          simp only [step] at h4
          split at h4
          · rename_i hp
            simp only [Outcome.ok.injEq, Prod.mk.injEq] at h4; obtain ⟨rfl, rfl⟩ := h4
            exact ⟨_, if_pos hp, rfl, rfl, h3⟩
          · cases h4
        | explore a b => simp only [step, Outcome.ok.injEq, Prod.mk.injEq] at h4; obtain ⟨rfl, rfl⟩ := h4; exact ⟨_, rfl, rfl, rfl, h3⟩
        | shuffle n => simp only [step, Outcome.ok.injEq, Prod.mk.injEq] at h4; obtain ⟨rfl, rfl⟩ := h4; exact ⟨_, rfl, rfl, rfl, h3⟩
      obtain ⟨s1', h6, h7, h8, h9⟩ := hstep
      obtain ⟨t', h10, h11⟩ := ih (fun e' h' => he e' (by simp [h'])) s1 s1' t1 o2 h7 h8 h9 h5
      exact ⟨t', by rw [run, h6, Outcome.ok_bind, h10, Outcome.ok_bind], h11⟩
  cases hi : (s.vars x).init with
  | none => exact absurd hi hx
  | some i =>
    obtain ⟨t', h1, h2⟩ := key es he s
      ⟨s.shared, s.libc, fun y => if y = x then ⟨some i, (s.vars x).size, some (calcData S i (s.vars x).size s.shared).1⟩ else s.vars y⟩
      t o rfl rfl (fun y hy => if_neg hy) h
    exact ⟨t', by rw [run, step_initialize hi, Outcome.ok_bind, h1, Outcome.ok_bind], h2⟩

/-- Initialising the variables of a list, one after the other, from the generator's state at the beginning. -/
theorem run_inits (xs : List Nat) (s : St σ ρ) (h : ∀ x ∈ xs, (s.vars x).init ≠ none) :
    ∃ t, run S s (xs.map .init) = .ok (t, xs.map fun _ => .nothing) ∧ t.shared = s.shared ∧ t.libc = s.libc ∧
      (∀ y, y ∉ xs → t.vars y = s.vars y) ∧
      (∀ y, (t.vars y).init = (s.vars y).init ∧ (t.vars y).size = (s.vars y).size) ∧
      ∀ y ∈ xs, ∀ i, (s.vars y).init = some i → (t.vars y).data = some (calcData S i (s.vars y).size s.shared).1 := by
  induction xs generalizing s with
  | nil => exact ⟨s, rfl, rfl, rfl, fun _ _ => rfl, fun _ => ⟨rfl, rfl⟩, fun y hy => by simp at hy⟩
  | cons x xs ih =>
    cases hi : (s.vars x).init with
    | none => exact absurd hi (h x (by simp))
    | some i =>
      obtain ⟨t, h1, h2, h3, h4, h5, h6⟩ := ih
        ⟨s.shared, s.libc, fun y => if y = x then ⟨some i, (s.vars x).size, some (calcData S i (s.vars x).size s.shared).1⟩ else s.vars y⟩ (by
          intro y hy
          by_cases hyx : y = x
          · simp [hyx]
          · simpa [hyx] using h y (by simp [hy]))
      refine ⟨t, ?_, h2, h3, fun y hy => ?_, fun y => ?_, fun y hy j hj => ?_⟩
      · simp only [List.map_cons]
        rw [run, step_initialize hi, Outcome.ok_bind, h1, Outcome.ok_bind]
      · simp only [List.mem_cons, not_or] at hy
        rw [h4 y hy.2]; exact if_neg hy.1
      · obtain ⟨h7, h8⟩ := h5 y
        by_cases hyx : y = x
        · subst hyx
          simp only [if_true] at h7 h8
          exact ⟨by rw [h7, hi], h8⟩
        · simp only [hyx, if_false] at h7 h8
          exact ⟨h7, h8⟩
      · by_cases hyx : y = x
        · subst hyx
          rw [hi] at hj; cases hj
          by_cases hm : y ∈ xs
          · have := h6 y hm i (by simp)
            simpa using this
          · rw [h4 y hm]; simp
        · have hm : y ∈ xs := by simpa [hyx] using hy
          have := h6 y hm j (by simpa [hyx] using hj)
          simpa [hyx] using this

/-- C77: variables initialised one after the other from uniform distributions all get the same random numbers: there is
one sequence in terms of which the k-th element of every one of them is the k-th number, scaled to its own interval. -/
theorem c77_uniform_common (s : St σ ρ) (xs : List Nat) (a b : Nat → ℝ)
    (h : ∀ x ∈ xs, (s.vars x).init = some (.random (.uniform (a x) (b x)))) :
    ∃ (t : St σ ρ) (u : Nat → ℝ), run S s (xs.map .init) = .ok (t, xs.map fun _ => .nothing) ∧
      ∀ x ∈ xs, ∃ d, (t.vars x).data = some d ∧ d.length = (s.vars x).size ∧ ∀ k, k < (s.vars x).size → d[k]? = some (a x + (b x - a x) * u k) := by
  obtain ⟨t, h1, _, _, _, _, h6⟩ := run_inits (S := S) xs s (fun x hx => by rw [h x hx]; simp)
  refine ⟨t, fun k => (S.canon (nthState S k s.shared)).1, h1, fun x hx => ⟨_, h6 x hx _ (h x hx), generate_length _ _ _, fun k hk => ?_⟩⟩
  have := generate_uniform (S := S) _ k (a x) (b x) s.shared hk
  simp only [calcData]
  rw [this]
  congr 1; ring

/-- C77: the same for normal distributions: all the variables get the same standard scores. -/
theorem c77_normal_common (s : St σ ρ) (xs : List Nat) (m sd : Nat → ℝ)
    (h : ∀ x ∈ xs, (s.vars x).init = some (.random (.normal (m x) (sd x) none))) :
    ∃ (t : St σ ρ) (z : Nat → ℝ), run S s (xs.map .init) = .ok (t, xs.map fun _ => .nothing) ∧
      ∀ x ∈ xs, ∃ d, (t.vars x).data = some d ∧ d.length = (s.vars x).size ∧ ∀ k, k < (s.vars x).size → d[k]? = some (m x + sd x * z k) := by
  obtain ⟨t, h1, _, _, _, _, h6⟩ := run_inits (S := S) xs s (fun x hx => by rw [h x hx]; simp)
  refine ⟨t, fun k => scores S k none s.shared, h1, fun x hx => ⟨_, h6 x hx _ (h x hx), generate_length _ _ _, fun k hk => ?_⟩⟩
  have := generate_normal (S := S) _ k (m x) (sd x) none s.shared hk
  simp only [calcData]
  rw [this]
  congr 1; ring

/-- C77: after a network of fully connected layers is initialised (not loaded), the weights of any two layers are
proportional, element by element: the k-th weights of layers with n and m inputs are in the ratio of the square roots of m and n. -/
theorem c77_layers_proportional (s : St σ ρ) (weights biases : List Nat) (order : List Nat) (nin : Nat → Nat)
    (ho : ∀ x ∈ order, x ∈ weights ∨ x ∈ biases) (hw : ∀ x ∈ weights, x ∈ order)
    (hW : ∀ x ∈ weights, 0 < nin x ∧ (s.vars x).init = some (.random (.uniform (-1 / Real.sqrt (nin x)) (1 / Real.sqrt (nin x)))))
    (hB : ∀ x ∈ biases, (s.vars x).init = some (.const 0)) :
    ∃ t : St σ ρ, run S s (order.map .init) = .ok (t, order.map fun _ => .nothing) ∧
      ∀ x ∈ weights, ∀ y ∈ weights, ∀ dx dy : List ℝ, (t.vars x).data = some dx → (t.vars y).data = some dy → ∀ (k : Nat) (wx wy : ℝ), dx[k]? = some wx → dy[k]? = some wy →
        wx * Real.sqrt (nin x) = wy * Real.sqrt (nin y) := by
  obtain ⟨t, h1, _, _, _, _, h6⟩ := run_inits (S := S) order s (fun x hx => by
    rcases ho x hx with h | h
    · rw [(hW x h).2]; simp
    · rw [hB x h]; simp)
  refine ⟨t, h1, fun x hx y hy dx dy hdx hdy k wx wy hkx hky => ?_⟩
  have key : ∀ x ∈ weights, ∀ d : List ℝ, (t.vars x).data = some d → ∀ w, d[k]? = some w → w * Real.sqrt (nin x) = (S.canon (nthState S k s.shared)).1 * 2 - 1 := by
    intro x hx d hd w hkw
    rw [h6 x (hw x hx) _ (hW x hx).2] at hd
    cases hd
    simp only [calcData] at hkw
    have hlt : k < (s.vars x).size := by
      have := (List.getElem?_eq_some_iff.1 hkw).1
      rwa [generate_length] at this
    rw [generate_uniform _ _ _ _ _ hlt, Option.some.injEq] at hkw
    subst hkw
    have hp : (0 : ℝ) < Real.sqrt (nin x) := Real.sqrt_pos.2 (by exact_mod_cast (hW x hx).1)
    field_simp
    ring
  rw [key x hx dx hdx wx hkx, key y hy dy hdy wy hky]

/-- C77: in particular parameters made with the same initializer and initialised one after the other agree, as the
source and the target network of a Q-network do. -/
theorem c77_same_initializer (s : St σ ρ) (xs : List Nat) (h : ∀ x ∈ xs, (s.vars x).init ≠ none) (x y : Nat) (hx : x ∈ xs) (hy : y ∈ xs)
    (hi : (s.vars x).init = (s.vars y).init) :
    ∃ t : St σ ρ, run S s (xs.map .init) = .ok (t, xs.map fun _ => .nothing) ∧
      ∃ dx dy : List ℝ, (t.vars x).data = some dx ∧ (t.vars y).data = some dy ∧ dx.length = (s.vars x).size ∧ dy.length = (s.vars y).size ∧
        ∀ k, k < (s.vars x).size → k < (s.vars y).size → dx[k]? = dy[k]? := by
  obtain ⟨t, h1, _, _, _, _, h6⟩ := run_inits (S := S) xs s h
  obtain ⟨i, hix⟩ := Option.ne_none_iff_exists'.1 (h x hx)
  refine ⟨t, h1, _, _, h6 x hx i hix, h6 y hy i (by rw [← hi, hix]), ?_, ?_, fun k hk hk' => ?_⟩
  · cases i with
    | const v => simp [calcData]
    | random d => exact generate_length _ _ _
  · cases i with
    | const v => simp [calcData]
    | random d => exact generate_length _ _ _
  · cases i with
    | const v => simp [calcData, hk, hk']
    | random d => exact generate_prefix _ _ k d _ hk hk'

theorem rand_run_append (s : St σ ρ) (es fs : List Ev) :
    run S s (es ++ fs) = run S s es >>= fun r => run S r.1 fs >>= fun q => .ok (q.1, r.2 ++ q.2) := by
  induction es generalizing s with
  | nil =>
    simp only [List.nil_append, run, Outcome.ok_bind]
    cases run S s fs <;> rfl
  | cons e es ih =>
    simp only [List.cons_append, run]
    cases h : step S s e with
    | ok r =>
      simp only [Outcome.ok_bind, ih]
      cases run S r.1 es with
      | ok q =>
        simp only [Outcome.ok_bind]
        cases run S q.1 fs <;> rfl
      | _ => rfl
    | _ => rfl

/-- A program that draws nothing and spares variable x. -/
theorem run_still (es : List Ev) (x : Nat) (he : ∀ e ∈ es, ¬ Draws e ∧ Spares x e) (s t : St σ ρ) (o : List Out) (h : run S s es = .ok (t, o)) :
    t.shared = s.shared ∧ t.vars x = s.vars x ∧ ∀ y, (t.vars y).init = (s.vars y).init ∧ (t.vars y).size = (s.vars y).size := by
  induction es generalizing s o with
  | nil => simp only [run, Outcome.ok.injEq, Prod.mk.injEq] at h; obtain ⟨rfl, _⟩ := h; exact ⟨rfl, rfl, fun _ => ⟨rfl, rfl⟩⟩
  | cons e es ih =>
    rw [run, Outcome.bind_eq_ok] at h
    obtain ⟨⟨s1, o1⟩, h1, h⟩ := h
    rw [Outcome.bind_eq_ok] at h
    obtain ⟨⟨t1, o2⟩, h2, h⟩ := h
    simp only [Outcome.ok.injEq, Prod.mk.injEq] at h
    obtain ⟨rfl, rfl⟩ := h
    obtain ⟨h3, h4, h5⟩ := ih (fun e' hm => he e' (by simp [hm])) s1 o2 h2
    obtain ⟨hd, hs⟩ := he e (by simp)
    have key : s1.shared = s.shared ∧ s1.vars x = s.vars x ∧ ∀ y, (s1.vars y).init = (s.vars y).init ∧ (s1.vars y).size = (s.vars y).size := by
      cases e with
      | init y =>
        cases hi : (s.vars y).init with
        | none => simp only [step, hi] at h1; cases h1
        | some i =>
          rw [step_initialize hi] at h1
          simp only [Outcome.ok.injEq, Prod.mk.injEq] at h1
          obtain ⟨rfl, _⟩ := h1
          refine ⟨rfl, if_neg (Ne.symm hs), fun z => ?_⟩
          by_cases hz : z = y
          · subst hz; simp [hi]
          · simp [hz]
      | shuffle n =>
        simp only [step, Outcome.ok.injEq, Prod.mk.injEq] at h1
        obtain ⟨rfl, _⟩ := h1
        exact ⟨rfl, rfl, fun _ => ⟨rfl, rfl⟩⟩
      | _ => exact absurd trivial hd
    exact ⟨h3.trans key.1, h4.trans key.2.1, fun y => ⟨(h5 y).1.trans (key.2.2 y).1, (h5 y).2.trans (key.2.2 y).2⟩⟩

/-- C77: two variables with the same initializer agree whenever nothing was drawn between their initialisations, whatever
else happened. -/
theorem c77_nothing_drawn_between (s t : St σ ρ) (x y : Nat) (hxy : x ≠ y) (hi : (s.vars x).init = (s.vars y).init) (mid : List Ev)
    (hm : ∀ e ∈ mid, ¬ Draws e ∧ Spares x e) (o : List Out) (h : run S s (.init x :: (mid ++ [.init y])) = .ok (t, o)) :
    ∃ dx dy : List ℝ, (t.vars x).data = some dx ∧ (t.vars y).data = some dy ∧ dx.length = (s.vars x).size ∧ dy.length = (s.vars y).size ∧
      ∀ k, k < (s.vars x).size → k < (s.vars y).size → dx[k]? = dy[k]? := by
  rw [run, Outcome.bind_eq_ok] at h
  obtain ⟨⟨s1, o1⟩, h1, h⟩ := h
  rw [Outcome.bind_eq_ok] at h
  obtain ⟨⟨t1, o2⟩, h2, h⟩ := h
  simp only [Outcome.ok.injEq, Prod.mk.injEq] at h
  obtain ⟨rfl, _⟩ := h
  cases hix : (s.vars x).init with
  | none => simp only [step, hix] at h1; cases h1
  | some i =>
    rw [step_initialize hix] at h1
    simp only [Outcome.ok.injEq, Prod.mk.injEq] at h1
    obtain ⟨rfl, _⟩ := h1
    rw [rand_run_append, Outcome.bind_eq_ok] at h2
    obtain ⟨⟨s2, o3⟩, h3, h2⟩ := h2
    obtain ⟨h4, h5, h6⟩ := run_still mid x hm _ _ _ h3
    simp only at h4
    have hiy : (s2.vars y).init = some i ∧ (s2.vars y).size = (s.vars y).size := by
      have h7 := h6 y
      simp only [Ne.symm hxy, if_false] at h7
      exact ⟨by rw [h7.1, ← hi, hix], h7.2⟩
    simp only [run, step_initialize hiy.1, Outcome.ok_bind, Outcome.ok.injEq, Prod.mk.injEq] at h2
    obtain ⟨rfl, _⟩ := h2
    simp only [if_true] at h5
    refine ⟨(calcData S i (s.vars x).size s.shared).1, (calcData S i (s.vars y).size s.shared).1, ?_, ?_, ?_, ?_, ?_⟩
    · simp [hxy, h5]
    · simp [hiy.2, h4]
    · cases i with
      | const v => simp [calcData]
      | random d => exact generate_length _ _ _
    · cases i with
      | const v => simp [calcData]
      | random d => exact generate_length _ _ _
    · intro k hk hk'
      cases i with
      | const v => simp [calcData, hk, hk']
      | random d => exact generate_prefix _ _ k d _ hk hk'

/-- Two states that differ only behind `std::rand`. -/
theorem run_libc (es : List Ev) (he : ∀ e ∈ es, NoShuffle e) (s : St σ ρ) (l : ρ) :
    run S { s with libc := l } es = run S s es >>= fun r => .ok ({ r.1 with libc := l }, r.2) := by
  induction es generalizing s with
  | nil => rfl
  | cons e es ih =>
    have hstep : step S { s with libc := l } e = step S s e >>= fun r => .ok ({ r.1 with libc := l }, r.2) := by
      have hn := he e (by simp)
      cases e with
      | shuffle n => exact absurd hn id
      | init x => simp only [step]; cases (s.vars x).init <;> rfl
      | sample n ps =>
        simp only [step]
        split <;> rfl
      | _ => rfl
    rw [run, hstep, run]
    cases h : step S s e with
    | ok r =>
      simp only [Outcome.ok_bind]
      rw [ih (fun e' h' => he e' (by simp [h']))]
      cases run S r.1 es <;> rfl
    | _ => rfl

/-- C77: after `seed_generator(v)` everything random but the shuffles is determined by v: two programs that reach the call
with the same variables, whatever the generators' states, go on in the same way. -/
theorem c77_seed_determines (s s' : St σ ρ) (hv : s'.vars = s.vars) (v : Nat) (es : List Ev) (he : ∀ e ∈ es, NoShuffle e) :
    run S s' (.seed v :: es) = run S s (.seed v :: es) >>= fun r => .ok ({ r.1 with libc := s'.libc }, r.2) := by
  have h1 : ∀ q : St σ ρ, run S q (.seed v :: es) = run S { q with shared := S.seeded v } es >>= fun r => .ok (r.1, .nothing :: r.2) := fun q => rfl
  have h2 : ({ s' with shared := S.seeded v } : St σ ρ) = { ({ s with shared := S.seeded v } : St σ ρ) with libc := s'.libc } := by
    simp [hv]
  rw [h1, h1, h2, run_libc es he]
  cases run S { s with shared := S.seeded v } es <;> rfl

/-- C77: seeding again with the same number repeats everything that was shown, the random part of every identifier included. -/
theorem c77_reseed_repeats (s t : St σ ρ) (v : Nat) (es : List Ev) (he : ∀ e ∈ es, NoShuffle e) (o o' : List Out)
    (h : run S s (.seed v :: es) = .ok (t, o)) (t' : St σ ρ) (h' : run S t (.seed v :: es) = .ok (t', o')) : o' = o := by
  have key : ∀ (es : List Ev), (∀ e ∈ es, NoShuffle e) → ∀ (s s' t t' : St σ ρ) (o o' : List Out), s'.shared = s.shared →
      run S s es = .ok (t, o) → run S s' es = .ok (t', o') → o' = o := by
    intro es
    induction es with
    | nil => intro _ s s' t t' o o' _ h h'; simp only [run, Outcome.ok.injEq, Prod.mk.injEq] at h h'; rw [← h.2, ← h'.2]
    | cons e es ih =>
      intro he s s' t t' o o' hs h h'
      rw [run, Outcome.bind_eq_ok] at h h'
      obtain ⟨⟨s1, o1⟩, h1, h⟩ := h
      obtain ⟨⟨s1', o1'⟩, h1', h'⟩ := h'
      rw [Outcome.bind_eq_ok] at h h'
      obtain ⟨⟨t1, o2⟩, h2, h⟩ := h
      obtain ⟨⟨t1', o2'⟩, h2', h'⟩ := h'
      simp only [Outcome.ok.injEq, Prod.mk.injEq] at h h'
      have hboth : o1' = o1 ∧ s1'.shared = s1.shared := by
        have hn := he e (by simp)
        cases e with
        | shuffle n => exact absurd hn id
        | init x =>
          cases hi : (s.vars x).init with
          | none => simp only [step, hi] at h1; cases h1
          | some i =>
            cases hi' : (s'.vars x).init with
            | none => simp only [step, hi'] at h1'; cases h1'
            | some i' =>
              rw [step_initialize hi] at h1
              rw [step_initialize hi'] at h1'
              simp only [Outcome.ok.injEq, Prod.mk.injEq] at h1 h1'
              rw [← h1.1, ← h1.2, ← h1'.1, ← h1'.2]
              exact ⟨rfl, hs⟩
        | sample n ps =>
          simp only [step] at h1 h1'
          split at h1
          · rename_i hp
            rw [if_pos hp] at h1'
            simp only [Outcome.ok.injEq, Prod.mk.injEq] at h1 h1'
            rw [← h1.1, ← h1.2, ← h1'.1, ← h1'.2, hs]
            exact ⟨rfl, rfl⟩
          · cases h1
        | _ =>
          simp only [step, Outcome.ok.injEq, Prod.mk.injEq] at h1 h1'
          rw [← h1.1, ← h1.2, ← h1'.1, ← h1'.2]
          simp [hs]
      have := ih (fun e' hm => he e' (by simp [hm])) s1 s1' t1 t1' o2 o2' hboth.2 h2 h2'
      rw [← h.2, ← h'.2, hboth.1, this]
  have e1 : run S s (.seed v :: es) = run S { s with shared := S.seeded v } es >>= fun r => .ok (r.1, .nothing :: r.2) := rfl
  have e2 : run S t (.seed v :: es) = run S { t with shared := S.seeded v } es >>= fun r => .ok (r.1, .nothing :: r.2) := rfl
  rw [e1, Outcome.bind_eq_ok] at h
  rw [e2, Outcome.bind_eq_ok] at h'
  obtain ⟨⟨q, oq⟩, h1, h2⟩ := h
  obtain ⟨⟨q', oq'⟩, h1', h2'⟩ := h'
  simp only [Outcome.ok.injEq, Prod.mk.injEq] at h2 h2'
  have h3 := key es he { s with shared := S.seeded v } { t with shared := S.seeded v } q q' oq oq' rfl h1 h1'
  rw [← h2.2, ← h2'.2, h3]

/-- C77: `seed_generator` does not reach the shuffle of the experience samples, which uses `std::rand`. -/
theorem c77_shuffle_not_seeded (s : St σ ρ) (v n : Nat) :
    ∃ t : St σ ρ, run S s [.seed v, .shuffle n] = .ok (t, [.nothing, .order (S.shuffle n s.libc).1]) := ⟨_, rfl⟩

/-- C77: `initialize` succeeds exactly on a variable with an initializer, and aborts otherwise. -/
theorem c77_initialize_iff (s : St σ ρ) (x : Nat) :
    ((∃ r, step S s (.init x) = .ok r) ↔ (s.vars x).init ≠ none) ∧ (step S s (.init x) = .abort ↔ (s.vars x).init = none) := by
  cases hi : (s.vars x).init with
  | none => simp [step, hi]
  | some i => rw [step_initialize hi]; simp

/-- C77: making a variable and initialising it draws the sixteen tokens of its identifier first, so its values are those
of the generator after them; until then it has none. -/
theorem c77_variable (s : St σ ρ) (x n : Nat) (i : Option Init) :
    ∃ t ts, run S s [.variable x i n] = .ok (t, [.ident ts]) ∧ ts.length = 16 ∧ (t.vars x).data = none ∧ (∀ y, y ≠ x → t.vars y = s.vars y) ∧
      run S s [.node] = .ok ({ t with vars := s.vars }, [.ident ts]) ∧
      ∀ j, i = some j → ∃ t', run S s [.variable x i n, .init x] = .ok (t', [.ident ts, .nothing]) ∧
        (t'.vars x).data = some (calcData S j n t.shared).1 ∧ t'.shared = t.shared := by
  refine ⟨_, _, rfl, rfl, by simp, fun y hy => if_neg hy, rfl, ?_⟩
  rintro j rfl
  have h : run S s [.variable x (some j) n, .init x] = .ok (⟨(calcData S j n (tokens S 16 s.shared).2).2, s.libc, fun y =>
      if y = x then ⟨some j, n, some (calcData S j n (tokens S 16 s.shared).2).1⟩ else if y = x then ⟨some j, n, none⟩ else s.vars y⟩,
      [.ident (tokens S 16 s.shared).1, .nothing]) := by
    simp only [run, step, Outcome.ok_bind, if_true]
  exact ⟨_, h, by simp, by simp [calcData_shared]⟩

theorem samples_append (n : Nat) (ps qs : List ℝ) (g : σ) :
    samples S n (ps ++ qs) g = ((samples S n ps g).1 ++ (samples S n qs (samples S n ps g).2).1, (samples S n qs (samples S n ps g).2).2) := by
  induction ps generalizing g with
  | nil => simp [samples]
  | cons p ps ih => simp [samples, ih]

/-- C77: sampling aborts exactly when a probability lies outside [0, 1]; one number per probability is drawn. -/
theorem c77_sample_iff (s : St σ ρ) (n : Nat) (ps : List ℝ) :
    (step S s (.sample n ps) = .abort ↔ ∃ p ∈ ps, p < 0 ∨ 1 < p) ∧
    ((∀ p ∈ ps, 0 ≤ p ∧ p ≤ 1) → ∃ t xs, step S s (.sample n ps) = .ok (t, .values xs) ∧ xs.length = ps.length ∧ t.vars = s.vars) := by
  have hl : ∀ (ps : List ℝ) (g : σ), (samples S n ps g).1.length = ps.length := by
    intro ps
    induction ps with
    | nil => intro g; rfl
    | cons p ps ih => intro g; simp [samples, ih]
  constructor
  · simp only [step]
    constructor
    · intro h
      split at h
      · cases h
      · rename_i hn
        apply Classical.byContradiction
        intro hc
        apply hn
        intro p hp
        constructor
        · exact not_lt.1 fun h0 => hc ⟨p, hp, .inl h0⟩
        · exact not_lt.1 fun h0 => hc ⟨p, hp, .inr h0⟩
    · rintro ⟨p, hp, h⟩
      rw [if_neg]
      intro hall
      rcases h with h | h
      · exact absurd (hall p hp).1 (not_le.2 h)
      · exact absurd (hall p hp).2 (not_le.2 h)
  · intro h
    exact ⟨_, _, if_pos h, hl _ _, rfl⟩

/-- C77: unlike initialisation, sampling goes on in the shared generator's sequence: two evaluations, one after the other,
show the numbers and leave the state of one evaluation over both lists of probabilities. -/
theorem c77_sampling_continues (s : St σ ρ) (n : Nat) (ps qs : List ℝ) (hp : ∀ p ∈ ps, 0 ≤ p ∧ p ≤ 1) (hq : ∀ p ∈ qs, 0 ≤ p ∧ p ≤ 1) :
    ∃ (t : St σ ρ) (xs ys : List ℝ), run S s [.sample n ps, .sample n qs] = .ok (t, [.values xs, .values ys]) ∧
      run S s [.sample n (ps ++ qs)] = .ok (t, [.values (xs ++ ys)]) := by
  have hpq : ∀ p ∈ ps ++ qs, 0 ≤ p ∧ p ≤ 1 := by
    intro p h
    rcases List.mem_append.1 h with h | h
    · exact hp p h
    · exact hq p h
  have e1 : ∀ s : St σ ρ, step S s (.sample n ps) = .ok ({ s with shared := (samples S n ps s.shared).2 }, .values (samples S n ps s.shared).1) := fun s => if_pos hp
  have e2 : ∀ s : St σ ρ, step S s (.sample n qs) = .ok ({ s with shared := (samples S n qs s.shared).2 }, .values (samples S n qs s.shared).1) := fun s => if_pos hq
  have e3 : ∀ s : St σ ρ, step S s (.sample n (ps ++ qs)) = .ok ({ s with shared := (samples S n (ps ++ qs) s.shared).2 }, .values (samples S n (ps ++ qs) s.shared).1) := fun s => if_pos hpq
  refine ⟨{ s with shared := (samples S n qs (samples S n ps s.shared).2).2 }, (samples S n ps s.shared).1,
    (samples S n qs (samples S n ps s.shared).2).1, ?_, ?_⟩
  · simp only [run, e1, e2, Outcome.ok_bind]
  · simp only [run, e3, Outcome.ok_bind, samples_append]

/-- C77: nor do exploration draws repeat: the k-th of any number of them is the k-th canonical number of the engine. -/
theorem c77_explorations (s : St σ ρ) (a b : ℝ) (n : Nat) :
    ∃ t : St σ ρ, t.vars = s.vars ∧ t.shared = (fun g => (S.canon g).2)^[n] s.shared ∧
      run S s (List.replicate n (.explore a b)) = .ok (t, (List.range n).map fun k => .values [a + (b - a) * (S.canon ((fun g => (S.canon g).2)^[k] s.shared)).1]) := by
  induction n generalizing s with
  | zero => exact ⟨s, rfl, rfl, rfl⟩
  | succ n ih =>
    obtain ⟨t, h1, h2, h3⟩ := ih { s with shared := (S.canon s.shared).2 }
    refine ⟨t, h1, h2, ?_⟩
    rw [List.replicate_succ, run]
    have hstep : step S s (.explore a b) = .ok ({ s with shared := (S.canon s.shared).2 }, .values [a + (b - a) * (S.canon s.shared).1]) := by
      simp only [step, draw]
      rw [show (S.canon s.shared).1 * (b - a) + a = a + (b - a) * (S.canon s.shared).1 by ring]
    rw [hstep, Outcome.ok_bind, h3, Outcome.ok_bind, List.range_succ_eq_map, List.map_cons, List.map_map]
    rfl

/-- C77: identifiers go on too: the tokens of n nodes made in a row are the engine's tokens number 0, 1, 2, …, sixteen a node. -/
theorem c77_identifiers (s : St σ ρ) (n : Nat) :
    ∃ t : St σ ρ, run S s (List.replicate n .node) =
      .ok (t, (List.range n).map fun i => .ident ((List.range 16).map fun j => (S.token ((fun g => (S.token g).2)^[16 * i + j] s.shared)).1)) := by
  induction n generalizing s with
  | zero => exact ⟨s, rfl⟩
  | succ n ih =>
    obtain ⟨t, h⟩ := ih { s with shared := (tokens S 16 s.shared).2 }
    refine ⟨t, ?_⟩
    rw [List.replicate_succ, run]
    simp only [step, Outcome.ok_bind, h]
    rw [List.range_succ_eq_map (n := n), List.map_cons, List.map_map]
    congr 3

/-- C77: two shuffles in a row use `std::rand` one after the other. -/
theorem c77_shuffles (s : St σ ρ) (n : Nat) (k : Nat) :
    ∃ t : St σ ρ, run S s (List.replicate k (.shuffle n)) =
      .ok (t, (List.range k).map fun i => .order (S.shuffle n ((fun l => (S.shuffle n l).2)^[i] s.libc)).1) := by
  induction k generalizing s with
  | zero => exact ⟨s, rfl⟩
  | succ k ih =>
    obtain ⟨t, h⟩ := ih { s with libc := (S.shuffle n s.libc).2 }
    refine ⟨t, ?_⟩
    rw [List.replicate_succ, run]
    simp only [step, Outcome.ok_bind, h]
    rw [List.range_succ_eq_map, List.map_cons, List.map_map]
    rfl

/-! ### An instance: a counter for an engine -/

/-- The g-th canonical number is 1/(g+2); identifiers show the counter. -/
noncomputable def counter : Source Nat Nat where
  seeded v := v
  canon g := (1 / ((g : ℝ) + 2), g + 1)
  polar g := ((g : ℝ), (g : ℝ) + 1, g + 1)
  token g := (g, g + 1)
  binom _ p g := (p, g + 1)
  shuffle n l := ((List.range n).rotate l, l + 1)

/-- Two weights of four and six elements, a bias and a variable without an initializer. -/
noncomputable def world : Nat → Var
  | 0 => ⟨some (.random (.uniform (-1 / Real.sqrt (2 : Nat)) (1 / Real.sqrt (2 : Nat)))), 4, none⟩
  | 1 => ⟨some (.random (.uniform (-1 / Real.sqrt (3 : Nat)) (1 / Real.sqrt (3 : Nat)))), 6, none⟩
  | 2 => ⟨some (.const 0), 2, none⟩
  | _ => ⟨none, 1, none⟩

-- two layers' weights are proportional
example : ∃ t : St Nat Nat, run counter ⟨5, 0, world⟩ [.init 0, .init 2, .init 1] = .ok (t, [.nothing, .nothing, .nothing]) ∧
    ∀ dx dy : List ℝ, (t.vars 0).data = some dx → (t.vars 1).data = some dy → ∀ (k : Nat) (wx wy : ℝ), dx[k]? = some wx → dy[k]? = some wy →
      wx * Real.sqrt (2 : Nat) = wy * Real.sqrt (3 : Nat) := by
  obtain ⟨t, h1, h2⟩ := c77_layers_proportional (S := counter) ⟨5, 0, world⟩ [0, 1] [2] [0, 2, 1] (fun x => if x = 0 then 2 else 3)
    (by simp) (by simp) (by simp [world]) (by simp [world])
  exact ⟨t, h1, fun dx dy hx hy k wx wy h3 h4 => by simpa using h2 0 (by simp) 1 (by simp) dx dy hx hy k wx wy h3 h4⟩

-- the identifier made after an initialisation, and without it
example : ∃ t t' : St Nat Nat, run counter ⟨5, 0, world⟩ [.init 0, .node] = .ok (t, [.nothing, .ident ((List.range 16).map (· + 5))]) ∧
    run counter ⟨5, 0, world⟩ [.node] = .ok (t', [.ident ((List.range 16).map (· + 5))]) := ⟨_, _, rfl, rfl⟩

-- an identifier moves the generator, so that the next initialisation starts elsewhere
example : ∃ t : St Nat Nat, run counter ⟨5, 0, world⟩ [.init 0, .node, .init 1] = .ok (t, [.nothing, .ident ((List.range 16).map (· + 5)), .nothing]) ∧
    t.shared = 21 ∧ (t.vars 1).data = some (generate counter 6 (.uniform (-1 / Real.sqrt (3 : Nat)) (1 / Real.sqrt (3 : Nat))) 21) := ⟨_, rfl, rfl, rfl⟩

-- a variable without an initializer
example : ¬ ∃ r, step counter ⟨5, 0, world⟩ (.init 3) = .ok r := by
  rw [(c77_initialize_iff _ _).1]; simp [world]
example : step counter ⟨5, 0, world⟩ (.init 3) = .abort := (c77_initialize_iff _ _).2.2 rfl

-- the same seed, another order
example : ∃ t t' : St Nat Nat, run counter ⟨5, 0, world⟩ [.seed 7, .shuffle 3] = .ok (t, [.nothing, .order [0, 1, 2]]) ∧
    run counter ⟨5, 1, world⟩ [.seed 7, .shuffle 3] = .ok (t', [.nothing, .order [1, 2, 0]]) := ⟨_, _, rfl, rfl⟩

-- seeded alike, two programs get the same identifiers and explore alike
example : ∃ t : St Nat Nat, run counter ⟨5, 0, world⟩ [.seed 7, .node, .explore 0 1] = .ok (t, [.nothing, .ident ((List.range 16).map (· + 7)), .values [1 / ((23 : Nat) + 2 : ℝ) * (1 - 0) + 0]]) ∧
    run counter ⟨900, 4, world⟩ [.seed 7, .node, .explore 0 1] = .ok ({ t with libc := 4 }, [.nothing, .ident ((List.range 16).map (· + 7)), .values [1 / ((23 : Nat) + 2 : ℝ) * (1 - 0) + 0]]) := by
  refine ⟨_, rfl, ?_⟩
  rw [c77_seed_determines ⟨5, 0, world⟩ ⟨900, 4, world⟩ rfl 7 [.node, .explore 0 1] (by simp [NoShuffle])]
  rfl

/-- Variables x of x + 2 elements, all with a standard normal initializer. -/
noncomputable def twins : Nat → Var := fun x => ⟨some (.random (.normal 0 1 none)), x + 2, none⟩

-- the first two elements of any two of them agree
example : ∃ t : St Nat Nat, run counter ⟨5, 0, twins⟩ [.init 3, .init 0] = .ok (t, [.nothing, .nothing]) ∧
    ∃ dx dy : List ℝ, (t.vars 3).data = some dx ∧ (t.vars 0).data = some dy ∧ dx.length = 5 ∧ dy.length = 2 ∧
      ∀ k, k < 5 → k < 2 → dx[k]? = dy[k]? :=
  c77_same_initializer (S := counter) ⟨5, 0, twins⟩ [3, 0] (by simp [twins]) 3 0 (by simp) (by simp) rfl

example : ∃ (t : St Nat Nat) (z : Nat → ℝ), run counter ⟨5, 0, twins⟩ [.init 3, .init 0] = .ok (t, [.nothing, .nothing]) ∧
    ∀ x ∈ [3, 0], ∃ d, (t.vars x).data = some d ∧ d.length = x + 2 ∧ ∀ k, k < x + 2 → d[k]? = some (0 + 1 * z k) :=
  c77_normal_common (S := counter) ⟨5, 0, twins⟩ [3, 0] (fun _ => 0) (fun _ => 1) (by simp [twins])

-- with a shuffle and another initialisation between
example (t : St Nat Nat) (o : List Out) (h : run counter ⟨5, 0, twins⟩ [.init 3, .shuffle 4, .init 7, .init 0] = .ok (t, o)) :
    ∃ dx dy : List ℝ, (t.vars 3).data = some dx ∧ (t.vars 0).data = some dy ∧ dx.length = 5 ∧ dy.length = 2 ∧
      ∀ k, k < 5 → k < 2 → dx[k]? = dy[k]? :=
  c77_nothing_drawn_between (S := counter) ⟨5, 0, twins⟩ t 3 0 (by decide) rfl [.shuffle 4, .init 7] (by simp [Draws, Spares]) o h

-- a node after each of two equal seedings: the same random part of the identifier
example : ∃ t : St Nat Nat, run counter ⟨5, 0, world⟩ [.seed 9, .node, .seed 9, .node] =
    .ok (t, [.nothing, .ident ((List.range 16).map (· + 9)), .nothing, .ident ((List.range 16).map (· + 9))]) := ⟨_, rfl⟩

-- explorations, identifiers, shuffles and samples go on
example : ∃ t : St Nat Nat, run counter ⟨5, 0, world⟩ [.explore 0 1, .explore 0 1] = .ok (t, [.values [1 / ((5 : Nat) + 2 : ℝ) * (1 - 0) + 0], .values [1 / ((6 : Nat) + 2 : ℝ) * (1 - 0) + 0]]) ∧ t.shared = 7 := ⟨_, rfl, rfl⟩
example : ∃ t : St Nat Nat, run counter ⟨5, 0, world⟩ [.node, .node] = .ok (t, [.ident ((List.range 16).map (· + 5)), .ident ((List.range 16).map (· + 21))]) := ⟨_, rfl⟩
example : ∃ t : St Nat Nat, run counter ⟨5, 0, world⟩ [.shuffle 3, .shuffle 3] = .ok (t, [.order [0, 1, 2], .order [1, 2, 0]]) := ⟨_, rfl⟩
example : ∃ (t : St Nat Nat) (xs ys : List ℝ), run counter ⟨5, 0, world⟩ [.sample 1 [0, 1], .sample 1 [1]] = .ok (t, [.values xs, .values ys]) ∧
    run counter ⟨5, 0, world⟩ [.sample 1 [0, 1, 1]] = .ok (t, [.values (xs ++ ys)]) :=
  c77_sampling_continues (S := counter) ⟨5, 0, world⟩ 1 [0, 1] [1] (by simp) (by simp)
example : step counter ⟨5, 0, world⟩ (.sample 1 [0, 2]) = .abort := (c77_sample_iff _ _ _).1.2 ⟨2, by simp, by norm_num⟩

end Verif.Props
