import Verif.Model.Matmul
import Mathlib.Algebra.BigOperators.Ring.Finset
import Mathlib.Tactic.NoncommRing
import Mathlib.Tactic.Ring
/-! Helper lemmas: matrix multiplication. -/
namespace Verif
namespace Matmul
open Finset
variable {T : Type}

/-! ### index arithmetic -/

theorem idx_lt {n m x y : Nat} (hx : x < n) (hy : y < m) : x + n * y < n * m := by
  have : n * (y + 1) ≤ n * m := Nat.mul_le_mul_left n hy
  rw [Nat.mul_add] at this
  omega

theorem idx_mod {n x y : Nat} (hx : x < n) : (x + n * y) % n = x := by
  rw [Nat.add_mul_mod_self_left, Nat.mod_eq_of_lt hx]

theorem idx_div {n x y : Nat} (hx : x < n) : (x + n * y) / n = y := by
  rw [Nat.add_mul_div_left _ _ (by omega), Nat.div_eq_of_lt hx, Nat.zero_add]

/-! ### buffers built by writes -/

/-- Positions in `D` already hold the target `F`. -/
def Upd (N : Nat) (F : Nat → T) (D : Nat → Prop) (buf : List T) : Prop :=
  buf.length = N ∧ ∀ p, p < N → D p → buf[p]? = some (F p)

theorem Upd.init {N : Nat} {F : Nat → T} {buf : List T} (h : buf.length = N) :
    Upd N F (fun _ => False) buf := ⟨h, fun _ _ h => h.elim⟩

theorem Upd.write {N : Nat} {F : Nat → T} {D : Nat → Prop} {buf : List T} (h : Upd N F D buf)
    {p : Nat} (hp : p < N) {v : T} (hv : v = F p) :
    Outcome.write buf p v = .ok (buf.set p v) ∧ Upd N F (fun i => i = p ∨ D i) (buf.set p v) := by
  obtain ⟨hl, hd⟩ := h
  refine ⟨Outcome.write_ok _ _ _ (by omega), by simpa using hl, fun i hi hD => ?_⟩
  rw [List.getElem?_set]
  by_cases h : p = i
  · subst h
    rw [if_pos rfl, if_pos (by omega), hv]
  · rw [if_neg h]
    rcases hD with h' | h'
    · exact absurd h'.symm h
    · exact hd i hi h'

theorem Upd.mono {N : Nat} {F : Nat → T} {D D' : Nat → Prop} {buf : List T} (h : Upd N F D buf)
    (hD : ∀ p, p < N → D' p → D p) : Upd N F D' buf :=
  ⟨h.1, fun p hp hd => h.2 p hp (hD p hp hd)⟩

/-! ### nested loops -/

/-- Two nested loops that process every pair. -/
theorem loop2_inv {σ : Type} (P : (Nat → Nat → Prop) → σ → Prop) (n m : Nat)
    (body : Nat → Nat → σ → Outcome σ) (st : σ)
    (h0 : P (fun _ _ => False) st)
    (hs : ∀ x y s, x < n → y < m → ∀ D, P D s →
      ∃ s', body x y s = .ok s' ∧ P (fun i j => (i = x ∧ j = y) ∨ D i j) s')
    (hmono : ∀ D D' s, (∀ i j, D' i j → D i j) → P D s → P D' s) :
    ∃ s', Outcome.loop n (fun x st => Outcome.loop m (fun y st => body x y st) st) st = .ok s' ∧
      P (fun i j => i < n ∧ j < m) s' := by
  obtain ⟨s', h1, h2⟩ := Outcome.loop_inv (fun i s => P (fun x y => x < i ∧ y < m) s) n
    (fun x st => Outcome.loop m (fun y st => body x y st) st) st
    (hmono _ _ _ (fun i j h => by omega) h0) (by
      intro x s hx hP
      obtain ⟨s1, h1, h2⟩ := Outcome.loop_inv
        (fun j s => P (fun i k => (i < x ∧ k < m) ∨ (i = x ∧ k < j)) s) m
        (fun y st => body x y st) s (hmono _ _ _ (fun i j h => by omega) hP) (by
          intro y s hy hP
          obtain ⟨s', h1, h2⟩ := hs x y s hx hy _ hP
          exact ⟨s', h1, hmono _ _ _ (fun i j h => by omega) h2⟩)
      exact ⟨s1, h1, hmono _ _ _ (fun i j h => by omega) h2⟩)
  exact ⟨s', h1, h2⟩

/-! ### the cubic algorithm -/

/-- `∑ z < dimZ, A z y * B x z`. -/
def mmul [Semiring T] (n : Nat) (A B : Nat → Nat → T) : Nat → Nat → T :=
  fun x y => ∑ z ∈ range n, A z y * B x z

theorem inner_loop [Ring T] (a b c : List T) (p dimZ : Nat) (ia ib : Nat → Nat) (f g : Nat → T)
    (hp : p < c.length) (ha : ∀ z, z < dimZ → a[ia z]? = some (f z))
    (hb : ∀ z, z < dimZ → b[ib z]? = some (g z)) :
    Outcome.write c p 0 >>= (fun c => Outcome.loop dimZ (fun z c => cubicInner a b p (ia z) (ib z) c) c)
      = .ok (c.set p (∑ z ∈ range dimZ, f z * g z)) := by
  rw [Outcome.write_ok _ _ _ hp, Outcome.ok_bind]
  obtain ⟨s', h1, h2⟩ := Outcome.loop_inv
    (fun k s => s = c.set p (∑ z ∈ range k, f z * g z)) dimZ
    (fun z c => cubicInner a b p (ia z) (ib z) c) (c.set p 0) (by simp) (by
      intro z s hz hs
      subst hs
      refine ⟨_, ?_, rfl⟩
      unfold cubicInner
      rw [Outcome.read_ok (ha z hz), Outcome.ok_bind, Outcome.read_ok (hb z hz), Outcome.ok_bind,
        Outcome.read_ok (v := ∑ z ∈ range z, f z * g z) (by simp [hp]), Outcome.ok_bind,
        Outcome.write_ok _ _ _ (by simpa using hp), List.set_set, Finset.sum_range_succ])
  rw [h1, h2]

/-- What a block product must do to its output buffer: the first `X * Y` elements become the product,
the rest is untouched. -/
def BlockOut (c c' : List T) (X Y : Nat) (C : Nat → Nat → T) : Prop :=
  c'.length = c.length ∧ (∀ x y, x < X → y < Y → c'[x + X * y]? = some (C x y)) ∧
    ∀ p, X * Y ≤ p → c'[p]? = c[p]?

theorem cubicMul_spec [Ring T] (c a b : List T) (X Y Z m0 m1 m2 m3 : Nat) (A B : Nat → Nat → T)
    (hc : X * Y ≤ c.length)
    (ha : ∀ z y, z < Z → y < Y → a[m0 * y + m1 * z]? = some (A z y))
    (hb : ∀ x z, x < X → z < Z → b[m2 * x + m3 * z]? = some (B x z)) :
    ∃ c', cubicMul c a b X Y Z m0 m1 m2 m3 = .ok c' ∧ BlockOut c c' X Y (mmul Z A B) := by
  unfold cubicMul
  obtain ⟨c', h1, h2⟩ := loop2_inv
    (fun D s => s.length = c.length ∧ (∀ y x, x < X → y < Y → D y x → s[x + X * y]? = some (mmul Z A B x y)) ∧
      ∀ p, X * Y ≤ p → s[p]? = c[p]?) Y X
    (fun y x c => Outcome.write c (x + y * X) 0 >>= fun c =>
      Outcome.loop Z (fun z c =>
        cubicInner a b (x + y * X) (m0 * y + m1 * z) (m2 * x + m3 * z) c) c) c
    ⟨rfl, fun _ _ _ _ h => h.elim, fun _ _ => rfl⟩ (by
      intro y x s hy hx D ⟨hl, hd, hf⟩
      have hi : x + y * X = x + X * y := by rw [Nat.mul_comm]
      have hlt := idx_lt hx hy
      refine ⟨_, inner_loop a b s _ Z (fun z => m0 * y + m1 * z) (fun z => m2 * x + m3 * z)
        (fun z => A z y) (fun z => B x z) (by omega) (fun z hz => ha z y hz hy)
        (fun z hz => hb x z hx hz), by simpa using hl, ?_, ?_⟩
      · intro y' x' hx' hy' hD
        rw [hi, List.getElem?_set]
        by_cases he : x + X * y = x' + X * y'
        · have e1 : x = x' := by rw [← idx_mod (y := y) hx, he, idx_mod hx']
          have e2 : y = y' := by rw [← idx_div (x := x) (y := y) hx, he, idx_div hx']
          subst e1; subst e2
          rw [if_pos rfl, if_pos (by omega)]
          rfl
        · rw [if_neg he]
          rcases hD with ⟨rfl, rfl⟩ | hD
          · exact absurd rfl he
          · exact hd y' x' hx' hy' hD
      · intro p hp
        rw [hi, List.getElem?_set, if_neg (by omega)]
        exact hf p hp)
    (fun D D' s h ⟨h1, h2, h3⟩ => ⟨h1, fun y x hx hy hD => h2 y x hx hy (h _ _ hD), h3⟩)
  exact ⟨c', h1, h2.1, fun x y hx hy => h2.2.1 y x hx hy ⟨hy, hx⟩, h2.2.2⟩

/-! ### square matrices in buffers -/

/-- `buf` holds the `n x n` matrix `A`: `A x y` at `x + n * y`. -/
def Mat (n : Nat) (buf : List T) (A : Nat → Nat → T) : Prop :=
  buf.length = n * n ∧ ∀ x y, x < n → y < n → buf[x + n * y]? = some (A x y)

/-- Quadrant `k` of a buffer split into four consecutive `q x q` matrices. -/
def QuadAt (q : Nat) (buf : List T) (k : Nat) (G : Nat → Nat → T) : Prop :=
  ∀ x y, x < q → y < q → buf[k * (q * q) + (x + q * y)]? = some (G x y)

theorem slice_length {buf : List T} {off len : Nat} (h : off + len ≤ buf.length) :
    (slice buf off len).length = len := by
  simp [slice]; omega

theorem QuadAt.slice {q : Nat} {buf : List T} {k : Nat} {G : Nat → Nat → T} (h : QuadAt q buf k G)
    (hl : buf.length = 4 * (q * q)) (hk : k < 4) : Mat q (slice buf (k * (q * q)) (q * q)) G := by
  have hk' : k * (q * q) ≤ 3 * (q * q) := Nat.mul_le_mul_right _ (by omega)
  refine ⟨slice_length (by omega), fun x y hx hy => ?_⟩
  have := idx_lt hx hy
  rw [Matmul.slice, List.getElem?_take, if_pos this, List.getElem?_drop]
  exact h x y hx hy

theorem splice_length {buf s : List T} {off : Nat} (h : off + s.length ≤ buf.length) :
    (splice buf off s).length = buf.length := by
  simp [splice]; omega

theorem splice_get_in {buf s : List T} {off i : Nat} (h : off + s.length ≤ buf.length) (hi : i < s.length) :
    (splice buf off s)[off + i]? = s[i]? := by
  unfold splice
  rw [List.append_assoc, List.getElem?_append_right (by simp), List.length_take,
    List.getElem?_append_left (by omega)]
  congr 1; omega

theorem splice_get_out {buf s : List T} {off i : Nat} (h : off + s.length ≤ buf.length)
    (hi : i < off ∨ off + s.length ≤ i) : (splice buf off s)[i]? = buf[i]? := by
  unfold splice
  rcases hi with hi | hi
  · rw [List.append_assoc, List.getElem?_append_left (by simp; omega), List.getElem?_take, if_pos hi]
  · rw [List.getElem?_append_right (by simp; omega), List.getElem?_drop]
    congr 1
    simp; omega

theorem quadAt_splice_same {q : Nat} {buf s : List T} {k : Nat} {G : Nat → Nat → T} (hs : Mat q s G)
    (hl : buf.length = 4 * (q * q)) (hk : k < 4) : QuadAt q (splice buf (k * (q * q)) s) k G := by
  have hk' : k * (q * q) ≤ 3 * (q * q) := Nat.mul_le_mul_right _ (by omega)
  intro x y hx hy
  have := idx_lt hx hy
  have h1 := hs.1
  rw [splice_get_in (by omega) (by omega)]
  exact hs.2 x y hx hy

theorem QuadAt.splice_ne {q : Nat} {buf s : List T} {k j : Nat} {G : Nat → Nat → T} (h : QuadAt q buf j G)
    (hs : s.length = q * q) (hl : buf.length = 4 * (q * q)) (hk : k < 4) (hjk : j ≠ k) :
    QuadAt q (splice buf (k * (q * q)) s) j G := by
  have hk' : k * (q * q) ≤ 3 * (q * q) := Nat.mul_le_mul_right _ (by omega)
  intro x y hx hy
  have := idx_lt hx hy
  have hj : j + 1 ≤ k ∨ k + 1 ≤ j := by omega
  rw [splice_get_out (by omega)]
  · exact h x y hx hy
  · rcases hj with hj | hj
    · left
      have := Nat.mul_le_mul_right (q * q) hj
      rw [Nat.add_mul] at this; omega
    · right
      have := Nat.mul_le_mul_right (q * q) hj
      rw [Nat.add_mul] at this; omega

/-- Decode a position of a four-quadrant buffer. -/
def quadF (q : Nat) (G : Nat → Nat → Nat → T) (p : Nat) : T :=
  G (p / (q * q)) (p % (q * q) % q) (p % (q * q) / q)

theorem quadF_enc {q x y k : Nat} (G : Nat → Nat → Nat → T) (hx : x < q) (hy : y < q) :
    quadF q G (k * (q * q) + (x + q * y)) = G k x y := by
  have h := idx_lt hx hy
  unfold quadF
  rw [Nat.add_comm, Nat.mul_comm k, idx_div h, idx_mod h, idx_mod hx, idx_div hx]

theorem matF_enc {q x y : Nat} (G : Nat → Nat → T) (hx : x < q) :
    (fun p => G (p % q) (p / q)) (x + q * y) = G x y := by
  simp only [idx_mod hx, idx_div hx]

theorem Upd.quad {q : Nat} {G : Nat → Nat → Nat → T} {buf : List T} {D : Nat → Prop}
    (h : Upd (4 * (q * q)) (quadF q G) D buf) {k : Nat} (hk : k < 4)
    (hD : ∀ x y, x < q → y < q → D (k * (q * q) + (x + q * y))) : QuadAt q buf k (G k) := by
  have hk' : k * (q * q) ≤ 3 * (q * q) := Nat.mul_le_mul_right _ (by omega)
  intro x y hx hy
  have := idx_lt hx hy
  rw [h.2 _ (by omega) (hD x y hx hy), quadF_enc G hx hy]

theorem Upd.mat {n : Nat} {G : Nat → Nat → T} {buf : List T} {D : Nat → Prop}
    (h : Upd (n * n) (fun p => G (p % n) (p / n)) D buf)
    (hD : ∀ x y, x < n → y < n → D (x + n * y)) : Mat n buf G := by
  refine ⟨h.1, fun x y hx hy => ?_⟩
  rw [h.2 _ (idx_lt hx hy) (hD x y hx hy)]
  exact congrArg some (matF_enc G hx)

/-! ### Strassen, part by part -/

/-- Blocks of a `2q x 2q` matrix. -/
def b11 (A : Nat → Nat → T) : Nat → Nat → T := A
def b12 (q : Nat) (A : Nat → Nat → T) : Nat → Nat → T := fun x y => A (x + q) y
def b21 (q : Nat) (A : Nat → Nat → T) : Nat → Nat → T := fun x y => A x (y + q)
def b22 (q : Nat) (A : Nat → Nat → T) : Nat → Nat → T := fun x y => A (x + q) (y + q)

theorem Mat.blocks {q : Nat} {a : List T} {A : Nat → Nat → T} (h : Mat (2 * q) a A) {x y : Nat}
    (hx : x < q) (hy : y < q) :
    a[x + 2 * q * y]? = some (b11 A x y) ∧ a[x + q + 2 * q * y]? = some (b12 q A x y) ∧
    a[x + 2 * q * (y + q)]? = some (b21 q A x y) ∧ a[x + q + 2 * q * (y + q)]? = some (b22 q A x y) :=
  ⟨h.2 _ _ (by omega) (by omega), h.2 _ _ (by omega) (by omega), h.2 _ _ (by omega) (by omega),
    h.2 _ _ (by omega) (by omega)⟩

theorem sq_double (q : Nat) : 2 * q * (2 * q) = 4 * (q * q) := by
  rw [Nat.mul_mul_mul_comm]

variable [Ring T]

/-- Quadrants of `c` after iteration 1. -/
def G1 (q : Nat) (A : Nat → Nat → T) : Nat → Nat → Nat → T
  | 0 => b11 A
  | 1 => fun x y => b21 q A x y + b22 q A x y
  | 2 => b22 q A
  | _ => fun x y => b11 A x y + b12 q A x y

theorem part1_loop {q : Nat} {a c t1 t2 : List T} {A : Nat → Nat → T} (ha : Mat (2 * q) a A)
    (hc : c.length = 4 * (q * q)) (h1 : t1.length = q * q) (h2 : t2.length = q * q) :
    ∃ c' t1' t2', Outcome.loop q (fun x st => Outcome.loop q (fun y st => part1 a (2 * q) q x y st) st)
        (c, t1, t2) = .ok (c', t1', t2') ∧
      c'.length = 4 * (q * q) ∧ (∀ k, k < 4 → QuadAt q c' k (G1 q A k)) ∧
      Mat q t1' (fun x y => b21 q A x y - b11 A x y) ∧
      Mat q t2' (fun x y => b12 q A x y - b22 q A x y) := by
  obtain ⟨⟨c', t1', t2'⟩, hr, hc', ht1, ht2⟩ := loop2_inv
    (fun D (s : List T × List T × List T) =>
      Upd (4 * (q * q)) (quadF q (G1 q A)) (fun p => ∃ k x y, k < 4 ∧ x < q ∧ y < q ∧ D x y ∧
        p = k * (q * q) + (x + q * y)) s.1 ∧
      Upd (q * q) (fun p => (fun x y => b21 q A x y - b11 A x y) (p % q) (p / q))
        (fun p => ∃ x y, x < q ∧ y < q ∧ D x y ∧ p = x + q * y) s.2.1 ∧
      Upd (q * q) (fun p => (fun x y => b12 q A x y - b22 q A x y) (p % q) (p / q))
        (fun p => ∃ x y, x < q ∧ y < q ∧ D x y ∧ p = x + q * y) s.2.2)
    q q (fun x y st => part1 a (2 * q) q x y st) (c, t1, t2)
    ⟨(Upd.init hc).mono (by simp), (Upd.init h1).mono (by simp), (Upd.init h2).mono (by simp)⟩
    (by
      rintro x y ⟨c, t1, t2⟩ hx hy D ⟨uc, u1, u2⟩
      obtain ⟨e1, e2, e3, e4⟩ := ha.blocks hx hy
      have hi := idx_lt hx hy
      have en0 := quadF_enc (k := 0) (G1 q A) hx hy
      have en1 := quadF_enc (k := 1) (G1 q A) hx hy
      have en2 := quadF_enc (k := 2) (G1 q A) hx hy
      have en3 := quadF_enc (k := 3) (G1 q A) hx hy
      simp only [Nat.zero_mul, Nat.zero_add, Nat.one_mul] at en0 en1
      obtain ⟨w1, uc⟩ := uc.write (p := x + q * y) (by omega) (v := b11 A x y) en0.symm
      obtain ⟨w2, uc⟩ := uc.write (p := q * q + (x + q * y)) (by omega)
        (v := b21 q A x y + b22 q A x y) en1.symm
      obtain ⟨w3, uc⟩ := uc.write (p := 2 * (q * q) + (x + q * y)) (by omega)
        (v := b22 q A x y) en2.symm
      obtain ⟨w4, uc⟩ := uc.write (p := 3 * (q * q) + (x + q * y)) (by omega)
        (v := b11 A x y + b12 q A x y) en3.symm
      obtain ⟨w5, u1⟩ := u1.write (p := x + q * y) hi (v := b21 q A x y - b11 A x y)
        (matF_enc (fun x y => b21 q A x y - b11 A x y) hx).symm
      obtain ⟨w6, u2⟩ := u2.write (p := x + q * y) hi (v := b12 q A x y - b22 q A x y)
        (matF_enc (fun x y => b12 q A x y - b22 q A x y) hx).symm
      refine ⟨(_, _, _), ?_, uc.mono ?_, u1.mono ?_, u2.mono ?_⟩
      · simp only [part1, Outcome.read_ok e1, Outcome.read_ok e2, Outcome.read_ok e3, Outcome.read_ok e4,
          Outcome.ok_bind, w1, w2, w3, w4, w5, w6, Outcome.pure_eq]
      · rintro p _ ⟨k, x', y', hk, hx', hy', hD | hD, rfl⟩
        · obtain ⟨rfl, rfl⟩ := hD
          have hk : k = 0 ∨ k = 1 ∨ k = 2 ∨ k = 3 := by omega
          rcases hk with rfl | rfl | rfl | rfl <;> simp
        · exact .inr (.inr (.inr (.inr ⟨k, x', y', hk, hx', hy', hD, rfl⟩)))
      · rintro p _ ⟨x', y', hx', hy', hD | hD, rfl⟩
        · obtain ⟨rfl, rfl⟩ := hD; exact .inl rfl
        · exact .inr ⟨x', y', hx', hy', hD, rfl⟩
      · rintro p _ ⟨x', y', hx', hy', hD | hD, rfl⟩
        · obtain ⟨rfl, rfl⟩ := hD; exact .inl rfl
        · exact .inr ⟨x', y', hx', hy', hD, rfl⟩)
    (by
      rintro D D' ⟨c, t1, t2⟩ h ⟨uc, u1, u2⟩
      refine ⟨uc.mono ?_, u1.mono ?_, u2.mono ?_⟩
      · rintro p _ ⟨k, x, y, hk, hx, hy, hD, e⟩; exact ⟨k, x, y, hk, hx, hy, h _ _ hD, e⟩
      · rintro p _ ⟨x, y, hx, hy, hD, e⟩; exact ⟨x, y, hx, hy, h _ _ hD, e⟩
      · rintro p _ ⟨x, y, hx, hy, hD, e⟩; exact ⟨x, y, hx, hy, h _ _ hD, e⟩)
  refine ⟨c', t1', t2', hr, hc'.1, fun k hk => hc'.quad hk ?_, ht1.mat ?_, ht2.mat ?_⟩
  · intro x y hx hy; exact ⟨k, x, y, hk, hx, hy, ⟨hx, hy⟩, rfl⟩
  · intro x y hx hy; exact ⟨x, y, hx, hy, ⟨hx, hy⟩, rfl⟩
  · intro x y hx hy; exact ⟨x, y, hx, hy, ⟨hx, hy⟩, rfl⟩

/-- Quadrants of `a` after iteration 2. -/
def G2 (q : Nat) (B : Nat → Nat → T) : Nat → Nat → Nat → T
  | 0 => b11 B
  | 1 => b12 q B
  | 2 => b21 q B
  | _ => b22 q B

omit [Ring T] in
theorem part2_loop {q : Nat} {a b : List T} {B : Nat → Nat → T} (hb : Mat (2 * q) b B)
    (ha : a.length = 4 * (q * q)) :
    ∃ a', Outcome.loop q (fun x a => Outcome.loop q (fun y a => part2 b (2 * q) q x y a) a) a = .ok a' ∧
      a'.length = 4 * (q * q) ∧ (∀ k, k < 4 → QuadAt q a' k (G2 q B k)) := by
  obtain ⟨a', hr, ha'⟩ := loop2_inv
    (fun D (s : List T) =>
      Upd (4 * (q * q)) (quadF q (G2 q B)) (fun p => ∃ k x y, k < 4 ∧ x < q ∧ y < q ∧ D x y ∧
        p = k * (q * q) + (x + q * y)) s)
    q q (fun x y st => part2 b (2 * q) q x y st) a
    ((Upd.init ha).mono (by simp))
    (by
      rintro x y c hx hy D uc
      obtain ⟨e1, e2, e3, e4⟩ := hb.blocks hx hy
      have hi := idx_lt hx hy
      have en0 := quadF_enc (k := 0) (G2 q B) hx hy
      have en1 := quadF_enc (k := 1) (G2 q B) hx hy
      have en2 := quadF_enc (k := 2) (G2 q B) hx hy
      have en3 := quadF_enc (k := 3) (G2 q B) hx hy
      simp only [Nat.zero_mul, Nat.zero_add, Nat.one_mul] at en0 en1
      obtain ⟨w1, uc⟩ := uc.write (p := x + q * y) (by omega) (v := b11 B x y) en0.symm
      obtain ⟨w2, uc⟩ := uc.write (p := q * q + (x + q * y)) (by omega) (v := b12 q B x y) en1.symm
      obtain ⟨w3, uc⟩ := uc.write (p := 2 * (q * q) + (x + q * y)) (by omega) (v := b21 q B x y) en2.symm
      obtain ⟨w4, uc⟩ := uc.write (p := 3 * (q * q) + (x + q * y)) (by omega) (v := b22 q B x y) en3.symm
      refine ⟨_, ?_, uc.mono ?_⟩
      · simp only [part2, Outcome.read_ok e1, Outcome.read_ok e2, Outcome.read_ok e3, Outcome.read_ok e4,
          Outcome.ok_bind, w1, w2, w3, w4]
      · rintro p _ ⟨k, x', y', hk, hx', hy', hD | hD, rfl⟩
        · obtain ⟨rfl, rfl⟩ := hD
          have hk : k = 0 ∨ k = 1 ∨ k = 2 ∨ k = 3 := by omega
          rcases hk with rfl | rfl | rfl | rfl <;> simp
        · exact .inr (.inr (.inr (.inr ⟨k, x', y', hk, hx', hy', hD, rfl⟩))))
    (by
      rintro D D' c h uc
      refine uc.mono ?_
      rintro p _ ⟨k, x, y, hk, hx, hy, hD, e⟩; exact ⟨k, x, y, hk, hx, hy, h _ _ hD, e⟩)
  refine ⟨a', hr, ha'.1, fun k hk => ha'.quad hk ?_⟩
  intro x y hx hy; exact ⟨k, x, y, hk, hx, hy, ⟨hx, hy⟩, rfl⟩

/-- Iteration 3 on flat quadrants of size `qs`. -/
theorem part3_loop {qs : Nat} {a b c : List T} (ha : a.length = 4 * qs) (hb : b.length = 4 * qs)
    (hc : c.length = 4 * qs) :
    ∃ a' b', Outcome.loop qs (part3 c qs) (a, b) = .ok (a', b') ∧ a'.length = 4 * qs ∧ b'.length = 4 * qs ∧
      ∀ i, i < qs → ∀ a0 a1 a2 a3 c0 c2, a[i]? = some a0 → a[qs + i]? = some a1 → a[2 * qs + i]? = some a2 →
        a[3 * qs + i]? = some a3 → c[i]? = some c0 → c[2 * qs + i]? = some c2 →
        a'[i]? = some a0 ∧ a'[qs + i]? = some (a1 - a3) ∧ a'[2 * qs + i]? = some (a2 - a0) ∧
        a'[3 * qs + i]? = some a3 ∧
        b'[i]? = some (c0 + c2) ∧ b'[qs + i]? = some (a0 + a3) ∧ b'[2 * qs + i]? = some (a0 + a1) ∧
        b'[3 * qs + i]? = some (a2 + a3) := by
  obtain ⟨⟨a', b'⟩, hr, h⟩ := Outcome.loop_inv
    (fun i (s : List T × List T) => s.1.length = 4 * qs ∧ s.2.length = 4 * qs ∧
      (∀ j, i ≤ j → j < qs → s.1[j]? = a[j]? ∧ s.1[qs + j]? = a[qs + j]? ∧ s.1[2 * qs + j]? = a[2 * qs + j]? ∧
        s.1[3 * qs + j]? = a[3 * qs + j]?) ∧
      ∀ j, j < i → j < qs → ∀ a0 a1 a2 a3 c0 c2, a[j]? = some a0 → a[qs + j]? = some a1 →
        a[2 * qs + j]? = some a2 → a[3 * qs + j]? = some a3 → c[j]? = some c0 → c[2 * qs + j]? = some c2 →
        s.1[j]? = some a0 ∧ s.1[qs + j]? = some (a1 - a3) ∧ s.1[2 * qs + j]? = some (a2 - a0) ∧
        s.1[3 * qs + j]? = some a3 ∧
        s.2[j]? = some (c0 + c2) ∧ s.2[qs + j]? = some (a0 + a3) ∧ s.2[2 * qs + j]? = some (a0 + a1) ∧
        s.2[3 * qs + j]? = some (a2 + a3))
    qs (part3 c qs) (a, b) ⟨ha, hb, fun _ _ _ => ⟨rfl, rfl, rfl, rfl⟩, fun j h => by omega⟩
    (by
      rintro i ⟨sa, sb⟩ hi ⟨hla, hlb, hrest, hdone⟩
      simp only at hla hlb hrest hdone ⊢
      obtain ⟨r0, r1, r2, r3⟩ := hrest i (Nat.le_refl _) hi
      obtain ⟨v0, e0⟩ : ∃ v, a[i]? = some v := ⟨_, List.getElem?_eq_getElem (by omega)⟩
      obtain ⟨v1, e1⟩ : ∃ v, a[qs + i]? = some v := ⟨_, List.getElem?_eq_getElem (by omega)⟩
      obtain ⟨v2, e2⟩ : ∃ v, a[2 * qs + i]? = some v := ⟨_, List.getElem?_eq_getElem (by omega)⟩
      obtain ⟨v3, e3⟩ : ∃ v, a[3 * qs + i]? = some v := ⟨_, List.getElem?_eq_getElem (by omega)⟩
      obtain ⟨u0, f0⟩ : ∃ v, c[i]? = some v := ⟨_, List.getElem?_eq_getElem (by omega)⟩
      obtain ⟨u2, f2⟩ : ∃ v, c[2 * qs + i]? = some v := ⟨_, List.getElem?_eq_getElem (by omega)⟩
      rw [e0] at r0; rw [e1] at r1; rw [e2] at r2; rw [e3] at r3
      refine ⟨(((sa.set (qs + i) (v1 - v3)).set (2 * qs + i) (v2 - v0)),
        ((((sb.set i (u0 + u2)).set (qs + i) (v0 + v3)).set (2 * qs + i) (v0 + v1)).set (3 * qs + i) (v2 + v3))),
        ?_, by simpa using hla, by simpa using hlb, ?_, ?_⟩
      · simp only [part3, Outcome.read_ok f0, Outcome.read_ok f2, Outcome.read_ok r0, Outcome.read_ok r1,
          Outcome.read_ok r2, Outcome.read_ok r3, Outcome.ok_bind]
        have g : ∀ (l : List T) (p : Nat) (v : T), l.length = 4 * qs → p < 4 * qs →
            Outcome.write l p v = .ok (l.set p v) := fun l p v h1 h2 => Outcome.write_ok _ _ _ (by omega)
        rw [g _ _ _ hlb (by omega), Outcome.ok_bind,
          g _ _ _ (by simpa using hlb) (by omega), Outcome.ok_bind,
          g _ _ _ (by simpa using hlb) (by omega), Outcome.ok_bind,
          g _ _ _ (by simpa using hlb) (by omega), Outcome.ok_bind,
          g _ _ _ hla (by omega), Outcome.ok_bind,
          g _ _ _ (by simpa using hla) (by omega), Outcome.ok_bind, Outcome.pure_eq]
      · intro j hj hjq
        obtain ⟨s0, s1, s2, s3⟩ := hrest j (by omega) hjq
        simp only [List.getElem?_set]
        refine ⟨?_, ?_, ?_, ?_⟩
        · rw [if_neg (by omega), if_neg (by omega), s0]
        · rw [if_neg (by omega), if_neg (by omega), s1]
        · rw [if_neg (by omega), if_neg (by omega), s2]
        · rw [if_neg (by omega), if_neg (by omega), s3]
      · intro j hj hjq a0 a1 a2 a3 c0 c2 h0 h1 h2 h3 g0 g2
        by_cases hji : j = i
        · subst hji
          rw [h0] at e0; rw [h1] at e1; rw [h2] at e2; rw [h3] at e3; rw [g0] at f0; rw [g2] at f2
          cases e0; cases e1; cases e2; cases e3; cases f0; cases f2
          simp only [List.getElem?_set, List.length_set]
          refine ⟨?_, ?_, ?_, ?_, ?_, ?_, ?_, ?_⟩
          · rw [if_neg (by omega), if_neg (by omega), r0]
          · rw [if_neg (by omega), if_pos trivial, if_pos (by omega)]
          · rw [if_pos trivial, if_pos (by omega)]
          · rw [if_neg (by omega), if_neg (by omega), r3]
          · rw [if_neg (by omega), if_neg (by omega), if_neg (by omega), if_pos trivial, if_pos (by omega)]
          · rw [if_neg (by omega), if_neg (by omega), if_pos trivial, if_pos (by omega)]
          · rw [if_neg (by omega), if_pos trivial, if_pos (by omega)]
          · rw [if_pos trivial, if_pos (by omega)]
        · obtain ⟨d1, d2, d3, d4, d5, d6, d7, d8⟩ := hdone j (by omega) hjq a0 a1 a2 a3 c0 c2 h0 h1 h2 h3 g0 g2
          simp only [List.getElem?_set]
          refine ⟨?_, ?_, ?_, ?_, ?_, ?_, ?_, ?_⟩
          · rw [if_neg (by omega), if_neg (by omega), d1]
          · rw [if_neg (by omega), if_neg (by omega), d2]
          · rw [if_neg (by omega), if_neg (by omega), d3]
          · rw [if_neg (by omega), if_neg (by omega), d4]
          · rw [if_neg (by omega), if_neg (by omega), if_neg (by omega), if_neg (by omega), d5]
          · rw [if_neg (by omega), if_neg (by omega), if_neg (by omega), if_neg (by omega), d6]
          · rw [if_neg (by omega), if_neg (by omega), if_neg (by omega), if_neg (by omega), d7]
          · rw [if_neg (by omega), if_neg (by omega), if_neg (by omega), if_neg (by omega), d8])
  exact ⟨a', b', hr, h.1, h.2.1, fun i hi => h.2.2.2 i hi hi⟩

omit [Ring T] in
theorem quadAt_zero {q : Nat} {buf : List T} {G : Nat → Nat → T} :
    QuadAt q buf 0 G ↔ ∀ x y, x < q → y < q → buf[x + q * y]? = some (G x y) := by
  simp [QuadAt]

omit [Ring T] in
theorem quadAt_one {q : Nat} {buf : List T} {G : Nat → Nat → T} :
    QuadAt q buf 1 G ↔ ∀ x y, x < q → y < q → buf[q * q + (x + q * y)]? = some (G x y) := by
  simp [QuadAt]

theorem part4_loop {q : Nat} {b c t1 t2 t3 : List T} {M1 M2 M3 M4 M5 M6 M7 C : Nat → Nat → T}
    (hc : c.length = 4 * (q * q)) (h2 : QuadAt q b 0 M2) (h3 : QuadAt q b 1 M3) (h4 : QuadAt q b 2 M4)
    (h5 : QuadAt q b 3 M5) (h1 : Mat q t2 M1) (h6 : Mat q t3 M6) (h7 : Mat q t1 M7)
    (c11 : ∀ x y, x < q → y < q → M1 x y + M4 x y - M5 x y + M7 x y = b11 C x y)
    (c12 : ∀ x y, x < q → y < q → M3 x y + M5 x y = b12 q C x y)
    (c21 : ∀ x y, x < q → y < q → M2 x y + M4 x y = b21 q C x y)
    (c22 : ∀ x y, x < q → y < q → M1 x y - M2 x y + M3 x y + M6 x y = b22 q C x y) :
    ∃ c', Outcome.loop q (fun x c => Outcome.loop q (fun y c => part4 b t1 t2 t3 (2 * q) q x y c) c) c
        = .ok c' ∧ Mat (2 * q) c' C := by
  rw [quadAt_zero] at h2
  rw [quadAt_one] at h3
  obtain ⟨c', hr, hc'⟩ := loop2_inv
    (fun D (s : List T) =>
      Upd (2 * q * (2 * q)) (fun p => C (p % (2 * q)) (p / (2 * q)))
        (fun p => ∃ i j x y, i < 2 ∧ j < 2 ∧ x < q ∧ y < q ∧ D x y ∧
          p = (x + i * q) + 2 * q * (y + j * q)) s)
    q q (fun x y st => part4 b t1 t2 t3 (2 * q) q x y st) c
    ((Upd.init (by rw [hc, sq_double])).mono (by simp))
    (by
      rintro x y c hx hy D uc
      have f1 := matF_enc (q := 2 * q) (x := x) (y := y) C (by omega)
      have f2 := matF_enc (q := 2 * q) (x := x + q) (y := y) C (by omega)
      have f3 := matF_enc (q := 2 * q) (x := x) (y := y + q) C (by omega)
      have f4 := matF_enc (q := 2 * q) (x := x + q) (y := y + q) C (by omega)
      obtain ⟨w1, uc⟩ := uc.write (p := x + 2 * q * y) (idx_lt (by omega) (by omega))
        (v := M1 x y + M4 x y - M5 x y + M7 x y) ((c11 x y hx hy).trans f1.symm)
      obtain ⟨w2, uc⟩ := uc.write (p := x + q + 2 * q * y) (idx_lt (by omega) (by omega))
        (v := M3 x y + M5 x y) ((c12 x y hx hy).trans f2.symm)
      obtain ⟨w3, uc⟩ := uc.write (p := x + 2 * q * (y + q)) (idx_lt (by omega) (by omega))
        (v := M2 x y + M4 x y) ((c21 x y hx hy).trans f3.symm)
      obtain ⟨w4, uc⟩ := uc.write (p := x + q + 2 * q * (y + q)) (idx_lt (by omega) (by omega))
        (v := M1 x y - M2 x y + M3 x y + M6 x y) ((c22 x y hx hy).trans f4.symm)
      refine ⟨_, ?_, uc.mono ?_⟩
      · simp only [part4, Outcome.read_ok (h1.2 x y hx hy), Outcome.read_ok (h2 x y hx hy),
          Outcome.read_ok (h3 x y hx hy), Outcome.read_ok (h4 x y hx hy), Outcome.read_ok (h5 x y hx hy),
          Outcome.read_ok (h6.2 x y hx hy), Outcome.read_ok (h7.2 x y hx hy), Outcome.ok_bind, w1, w2, w3, w4]
      · rintro p _ ⟨i, j, x', y', hi, hj, hx', hy', hD | hD, rfl⟩
        · obtain ⟨rfl, rfl⟩ := hD
          have hi : i = 0 ∨ i = 1 := by omega
          have hj : j = 0 ∨ j = 1 := by omega
          rcases hi with rfl | rfl <;> rcases hj with rfl | rfl <;> simp
        · exact .inr (.inr (.inr (.inr ⟨i, j, x', y', hi, hj, hx', hy', hD, rfl⟩))))
    (by
      rintro D D' c h uc
      refine uc.mono ?_
      rintro p _ ⟨i, j, x, y, hi, hj, hx, hy, hD, e⟩; exact ⟨i, j, x, y, hi, hj, hx, hy, h _ _ hD, e⟩)
  refine ⟨c', hr, hc'.mat ?_⟩
  intro x y hx hy
  refine ⟨x / q, y / q, x % q, y % q, ?_, ?_, Nat.mod_lt _ (by omega), Nat.mod_lt _ (by omega),
    ⟨Nat.mod_lt _ (by omega), Nat.mod_lt _ (by omega)⟩, ?_⟩
  · exact Nat.div_lt_of_lt_mul (by omega)
  · exact Nat.div_lt_of_lt_mul (by omega)
  · have e1 := Nat.mod_add_div x q
    have e2 := Nat.mod_add_div y q
    rw [Nat.mul_comm (x / q), Nat.mul_comm (y / q), e1, e2]

/-! ### block identities -/

theorem mmul_split (q : Nat) (A B : Nat → Nat → T) (x y : Nat) :
    mmul (2 * q) A B x y = ∑ z ∈ range q, (A z y * B x z + A (z + q) y * B x (z + q)) := by
  unfold mmul
  rw [show 2 * q = q + q by omega, Finset.sum_range_add, Finset.sum_add_distrib]
  congr 1
  apply Finset.sum_congr rfl
  intro z _
  rw [Nat.add_comm q z]

theorem block11 (q : Nat) (A B : Nat → Nat → T) (x y : Nat) :
    mmul q (fun x y => b11 A x y + b22 q A x y) (fun x y => b11 B x y + b22 q B x y) x y +
      mmul q (b22 q A) (fun x y => b21 q B x y - b11 B x y) x y -
      mmul q (fun x y => b11 A x y + b12 q A x y) (b22 q B) x y +
      mmul q (fun x y => b12 q A x y - b22 q A x y) (fun x y => b21 q B x y + b22 q B x y) x y
      = b11 (mmul (2 * q) A B) x y := by
  simp only [b11]
  rw [mmul_split]
  unfold mmul
  simp only [← Finset.sum_add_distrib, ← Finset.sum_sub_distrib]
  apply Finset.sum_congr rfl
  intro z _
  simp only [b12, b21, b22, b11]
  noncomm_ring

theorem block12 (q : Nat) (A B : Nat → Nat → T) (x y : Nat) :
    mmul q (b11 A) (fun x y => b12 q B x y - b22 q B x y) x y +
      mmul q (fun x y => b11 A x y + b12 q A x y) (b22 q B) x y
      = b12 q (mmul (2 * q) A B) x y := by
  simp only [b12]
  rw [mmul_split]
  unfold mmul
  simp only [← Finset.sum_add_distrib, ← Finset.sum_sub_distrib]
  apply Finset.sum_congr rfl
  intro z _
  simp only [b12, b21, b22, b11]
  noncomm_ring

theorem block21 (q : Nat) (A B : Nat → Nat → T) (x y : Nat) :
    mmul q (fun x y => b21 q A x y + b22 q A x y) (b11 B) x y +
      mmul q (b22 q A) (fun x y => b21 q B x y - b11 B x y) x y
      = b21 q (mmul (2 * q) A B) x y := by
  simp only [b21]
  rw [mmul_split]
  unfold mmul
  simp only [← Finset.sum_add_distrib, ← Finset.sum_sub_distrib]
  apply Finset.sum_congr rfl
  intro z _
  simp only [b12, b21, b22, b11]
  noncomm_ring

theorem block22 (q : Nat) (A B : Nat → Nat → T) (x y : Nat) :
    mmul q (fun x y => b11 A x y + b22 q A x y) (fun x y => b11 B x y + b22 q B x y) x y -
      mmul q (fun x y => b21 q A x y + b22 q A x y) (b11 B) x y +
      mmul q (b11 A) (fun x y => b12 q B x y - b22 q B x y) x y +
      mmul q (fun x y => b21 q A x y - b11 A x y) (fun x y => b11 B x y + b12 q B x y) x y
      = b22 q (mmul (2 * q) A B) x y := by
  simp only [b22]
  rw [mmul_split]
  unfold mmul
  simp only [← Finset.sum_add_distrib, ← Finset.sum_sub_distrib]
  apply Finset.sum_congr rfl
  intro z _
  simp only [b12, b21, b22, b11]
  noncomm_ring

omit [Ring T] in
theorem splice_quad_length {q : Nat} {buf s : List T} (hl : buf.length = 4 * (q * q)) (hs : s.length = q * q)
    {k : Nat} (hk : k < 4) : (splice buf (k * (q * q)) s).length = 4 * (q * q) := by
  have hk' : k * (q * q) ≤ 3 * (q * q) := Nat.mul_le_mul_right _ (by omega)
  rw [splice_length (by omega), hl]

omit [Ring T] in
theorem splice_quad0_length {q : Nat} {buf s : List T} (hl : buf.length = 4 * (q * q)) (hs : s.length = q * q) :
    (splice buf 0 s).length = 4 * (q * q) := by
  rw [splice_length (by omega), hl]

omit [Ring T] in
theorem splice_quad1_length {q : Nat} {buf s : List T} (hl : buf.length = 4 * (q * q)) (hs : s.length = q * q) :
    (splice buf (q * q) s).length = 4 * (q * q) := by
  rw [splice_length (by omega), hl]

set_option maxHeartbeats 400000 in
theorem strassen_spec (th : Nat) (junk : Nat → T) (k m : Nat) (hm : m ≤ th) (n : Nat) (hn : n = m * 2 ^ k)
    (c a b : List T) (A B : Nat → Nat → T) (ha : Mat n a A) (hb : Mat n b B) (hc : c.length = n * n) :
    ∃ c' a' b', strassen th junk c a b n = .ok (c', a', b') ∧ Mat n c' (mmul n A B) ∧
      a'.length = n * n ∧ b'.length = n * n := by
  induction k generalizing n c a b A B with
  | zero =>
    subst hn
    rw [pow_zero, Nat.mul_one] at *
    obtain ⟨c', h1, h2, h3, _⟩ := cubicMul_spec c a b m m m m 1 1 m A B (by omega)
      (fun z y hz hy => by rw [Nat.one_mul, Nat.add_comm]; exact ha.2 z y hz hy)
      (fun x z hx hz => by rw [Nat.one_mul]; exact hb.2 x z hx hz)
    refine ⟨c', a, b, ?_, ⟨by omega, h3⟩, ha.1, hb.1⟩
    rw [strassen, if_pos hm, h1]
    rfl
  | succ k ih =>
    by_cases hle : n ≤ th
    · obtain ⟨c', h1, h2, h3, _⟩ := cubicMul_spec c a b n n n n 1 1 n A B (by omega)
        (fun z y hz hy => by rw [Nat.one_mul, Nat.add_comm]; exact ha.2 z y hz hy)
        (fun x z hx hz => by rw [Nat.one_mul]; exact hb.2 x z hx hz)
      refine ⟨c', a, b, ?_, ⟨by omega, h3⟩, ha.1, hb.1⟩
      rw [strassen, if_pos hle, h1]
      rfl
    · obtain ⟨q, hq⟩ : ∃ q, q = m * 2 ^ k := ⟨_, rfl⟩
      have hn2 : n = 2 * q := by rw [hn, hq, pow_succ, Nat.mul_comm 2, Nat.mul_assoc]
      subst hn2
      have ih' := ih q hq
      rw [sq_double] at hc
      rw [strassen, if_neg hle]
      have hdiv : 2 * q / 2 = q := by omega
      simp only [hdiv]
      have hfresh : ((List.range (q * q)).map junk).length = q * q := by simp
      generalize (List.range (q * q)).map junk = fresh at hfresh
      obtain ⟨c1, t1, t2, e1, lc, qc, mt1, mt2⟩ := part1_loop ha hc hfresh hfresh
      rw [e1, Outcome.ok_bind]
      obtain ⟨a1, e2, la, qa⟩ := part2_loop hb (a := a) (by rw [ha.1, sq_double])
      simp only
      rw [e2, Outcome.ok_bind]
      obtain ⟨a2, b2, e3, la2, lb2, h3⟩ := part3_loop la (b := b) (by rw [hb.1, sq_double]) lc
      rw [e3, Outcome.ok_bind]
      have hq3 : ∀ x y, x < q → y < q → _ := fun x y hx hy =>
        h3 (x + q * y) (idx_lt hx hy) _ _ _ _ _ _ (quadAt_zero.1 (qa 0 (by decide)) x y hx hy)
          (quadAt_one.1 (qa 1 (by decide)) x y hx hy) (qa 2 (by decide) x y hx hy) (qa 3 (by decide) x y hx hy)
          (quadAt_zero.1 (qc 0 (by decide)) x y hx hy) (qc 2 (by decide) x y hx hy)
      have qa0 : QuadAt q a2 0 (b11 B) := quadAt_zero.2 fun x y hx hy => (hq3 x y hx hy).1
      have qa1 : QuadAt q a2 1 (fun x y => b12 q B x y - b22 q B x y) :=
        quadAt_one.2 fun x y hx hy => (hq3 x y hx hy).2.1
      have qa2 : QuadAt q a2 2 (fun x y => b21 q B x y - b11 B x y) := fun x y hx hy => (hq3 x y hx hy).2.2.1
      have qa3 : QuadAt q a2 3 (b22 q B) := fun x y hx hy => (hq3 x y hx hy).2.2.2.1
      have qb0 : QuadAt q b2 0 (fun x y => b11 A x y + b22 q A x y) :=
        quadAt_zero.2 fun x y hx hy => (hq3 x y hx hy).2.2.2.2.1
      have qb1 : QuadAt q b2 1 (fun x y => b11 B x y + b22 q B x y) :=
        quadAt_one.2 fun x y hx hy => (hq3 x y hx hy).2.2.2.2.2.1
      have qb2 : QuadAt q b2 2 (fun x y => b11 B x y + b12 q B x y) :=
        fun x y hx hy => (hq3 x y hx hy).2.2.2.2.2.2.1
      have qb3 : QuadAt q b2 3 (fun x y => b21 q B x y + b22 q B x y) :=
        fun x y hx hy => (hq3 x y hx hy).2.2.2.2.2.2.2
      clear hq3 h3 qa
      have qc0 : QuadAt q c1 0 (b11 A) := qc 0 (by decide)
      have qc1 : QuadAt q c1 1 (fun x y => b21 q A x y + b22 q A x y) := qc 1 (by decide)
      have qc2 : QuadAt q c1 2 (b22 q A) := qc 2 (by decide)
      have qc3 : QuadAt q c1 3 (fun x y => b11 A x y + b12 q A x y) := qc 3 (by decide)
      clear qc e1 e2 e3
      -- M6
      obtain ⟨t3, t1', s2, e, m6, l1, l2⟩ := ih' fresh t1 _ _ _ mt1 (qb2.slice lb2 (by decide)) hfresh
      simp only [e, Outcome.ok_bind]
      have qb0 := qb0.splice_ne l2 lb2 (k := 2) (by decide) (by decide)
      have qb1 := qb1.splice_ne l2 lb2 (k := 2) (by decide) (by decide)
      have qb3 := qb3.splice_ne l2 lb2 (k := 2) (by decide) (by decide)
      have lb3 := splice_quad_length lb2 (s := s2) l2 (k := 2) (by decide)
      generalize splice b2 (2 * (q * q)) s2 = b3 at qb0 qb1 qb3 lb3
      -- M7
      obtain ⟨t1'', t2', s3, e, m7, l3, l4⟩ := ih' t1' t2 _ _ _ mt2 (qb3.slice lb3 (by decide)) l1
      simp only [e, Outcome.ok_bind]
      have qb0 := qb0.splice_ne l4 lb3 (k := 3) (by decide) (by decide)
      have qb1 := qb1.splice_ne l4 lb3 (k := 3) (by decide) (by decide)
      have lb4 := splice_quad_length lb3 (s := s3) l4 (k := 3) (by decide)
      generalize splice b3 (3 * (q * q)) s3 = b4 at qb0 qb1 lb4
      -- M1
      have s0m := qb0.slice lb4 (by decide)
      have s1m := qb1.slice lb4 (by decide)
      rw [Nat.zero_mul] at s0m
      rw [Nat.one_mul] at s1m
      obtain ⟨t2'', s0, s1, e, m1, l5, l6⟩ := ih' t2' _ _ _ _ s0m s1m l3
      simp only [e, Outcome.ok_bind]
      have lb5' := splice_quad0_length lb4 (s := s0) l5
      have lb5 := splice_quad1_length lb5' (s := s1) l6
      generalize splice (splice b4 0 s0) (q * q) s1 = b5 at lb5
      -- M2
      have c1m := qc1.slice lc (by decide)
      have a0m := qa0.slice la2 (by decide)
      rw [Nat.one_mul] at c1m
      rw [Nat.zero_mul] at a0m
      obtain ⟨r0, p1, o0, e, m2, l7, l8⟩ := ih' (slice b5 0 (q * q)) _ _ _ _ c1m a0m (slice_length (by clear * - lb5; omega))
      simp only [e, Outcome.ok_bind]
      have qb0 : QuadAt q (splice b5 (0 * (q * q)) r0) 0 _ := quadAt_splice_same m2 lb5 (by decide)
      have qc0 := qc0.splice_ne l7 lc (k := 1) (by decide) (by decide)
      have qc2 := qc2.splice_ne l7 lc (k := 1) (by decide) (by decide)
      have qc3 := qc3.splice_ne l7 lc (k := 1) (by decide) (by decide)
      have qa1 := qa1.splice_ne l8 la2 (k := 0) (by decide) (by decide)
      have qa2 := qa2.splice_ne l8 la2 (k := 0) (by decide) (by decide)
      have qa3 := qa3.splice_ne l8 la2 (k := 0) (by decide) (by decide)
      rw [Nat.zero_mul] at qb0 qa1 qa2 qa3
      rw [Nat.one_mul] at qc0 qc2 qc3
      have m2l := m2.1
      have lb6 := splice_quad0_length lb5 (s := r0) m2l
      have lc2 := splice_quad1_length lc (s := p1) l7
      have la3 := splice_quad0_length la2 (s := o0) l8
      generalize splice b5 0 r0 = b6 at qb0 lb6
      generalize splice c1 (q * q) p1 = c2 at qc0 qc2 qc3 lc2
      generalize splice a2 0 o0 = a3 at qa1 qa2 qa3 la3
      -- M3
      have c0m := qc0.slice lc2 (by decide)
      have a1m := qa1.slice la3 (by decide)
      rw [Nat.zero_mul] at c0m
      rw [Nat.one_mul] at a1m
      obtain ⟨r1, p0, o1, e, m3, l9, l10⟩ := ih' (slice b6 (q * q) (q * q)) _ _ _ _ c0m a1m (slice_length (by clear * - lb6; omega))
      simp only [e, Outcome.ok_bind]
      have m3l := m3.1
      have qb1 : QuadAt q (splice b6 (1 * (q * q)) r1) 1 _ := quadAt_splice_same m3 lb6 (by decide)
      have qb0 := qb0.splice_ne m3l lb6 (k := 1) (by decide) (by decide)
      have qc2 := qc2.splice_ne l9 lc2 (k := 0) (by decide) (by decide)
      have qc3 := qc3.splice_ne l9 lc2 (k := 0) (by decide) (by decide)
      have qa2 := qa2.splice_ne l10 la3 (k := 1) (by decide) (by decide)
      have qa3 := qa3.splice_ne l10 la3 (k := 1) (by decide) (by decide)
      rw [Nat.zero_mul] at qc2 qc3
      rw [Nat.one_mul] at qb0 qb1 qa2 qa3
      have lb7 := splice_quad1_length lb6 (s := r1) m3l
      have lc3 := splice_quad0_length lc2 (s := p0) l9
      have la4 := splice_quad1_length la3 (s := o1) l10
      generalize splice b6 (q * q) r1 = b7 at qb0 qb1 lb7
      generalize splice c2 0 p0 = c3 at qc2 qc3 lc3
      generalize splice a3 (q * q) o1 = a4 at qa2 qa3 la4
      -- M4
      obtain ⟨r2, p2, o2, e, m4, l11, l12⟩ := ih' (slice b7 (2 * (q * q)) (q * q)) _ _ _ _
        (qc2.slice lc3 (by decide)) (qa2.slice la4 (by decide)) (slice_length (by clear * - lb7; omega))
      simp only [e, Outcome.ok_bind]
      have m4l := m4.1
      have qb2 : QuadAt q (splice b7 (2 * (q * q)) r2) 2 _ := quadAt_splice_same m4 lb7 (by decide)
      have qb0 := qb0.splice_ne m4l lb7 (k := 2) (by decide) (by decide)
      have qb1 := qb1.splice_ne m4l lb7 (k := 2) (by decide) (by decide)
      have qc3 := qc3.splice_ne l11 lc3 (k := 2) (by decide) (by decide)
      have qa3 := qa3.splice_ne l12 la4 (k := 2) (by decide) (by decide)
      have lb8 := splice_quad_length lb7 (s := r2) m4l (k := 2) (by decide)
      have lc4 := splice_quad_length lc3 (s := p2) l11 (k := 2) (by decide)
      have la5 := splice_quad_length la4 (s := o2) l12 (k := 2) (by decide)
      generalize splice b7 (2 * (q * q)) r2 = b8 at qb0 qb1 qb2 lb8
      generalize splice c3 (2 * (q * q)) p2 = c4 at qc3 lc4
      generalize splice a4 (2 * (q * q)) o2 = a5 at qa3 la5
      -- M5
      obtain ⟨r3, p3, o3, e, m5, l13, l14⟩ := ih' (slice b8 (3 * (q * q)) (q * q)) _ _ _ _
        (qc3.slice lc4 (by decide)) (qa3.slice la5 (by decide)) (slice_length (by clear * - lb8; omega))
      simp only [e, Outcome.ok_bind]
      have m5l := m5.1
      have qb3 : QuadAt q (splice b8 (3 * (q * q)) r3) 3 _ := quadAt_splice_same m5 lb8 (by decide)
      have qb0 := qb0.splice_ne m5l lb8 (k := 3) (by decide) (by decide)
      have qb1 := qb1.splice_ne m5l lb8 (k := 3) (by decide) (by decide)
      have qb2 := qb2.splice_ne m5l lb8 (k := 3) (by decide) (by decide)
      have lb9 := splice_quad_length lb8 (s := r3) m5l (k := 3) (by decide)
      have lc5 := splice_quad_length lc4 (s := p3) l13 (k := 3) (by decide)
      have la6 := splice_quad_length la5 (s := o3) l14 (k := 3) (by decide)
      generalize splice b8 (3 * (q * q)) r3 = b9 at qb0 qb1 qb2 qb3 lb9
      generalize splice c4 (3 * (q * q)) p3 = c5 at lc5
      generalize splice a5 (3 * (q * q)) o3 = a6 at la6
      obtain ⟨c', e, hC⟩ := part4_loop (C := mmul (2 * q) A B) lc5 qb0 qb1 qb2 qb3 m1 m6 m7
        (fun x y _ _ => block11 q A B x y)
        (fun x y _ _ => block12 q A B x y)
        (fun x y _ _ => block21 q A B x y)
        (fun x y _ _ => block22 q A B x y)
      rw [e]
      exact ⟨c', a6, b9, rfl, hC, by rw [la6, sq_double], by rw [lb9, sq_double]⟩

/-! ### padding -/

omit [Ring T] in
theorem copyRow_spec (src dst : List T) (doff soff len : Nat) (f : Nat → T)
    (hs : ∀ i, i < len → src[soff + i]? = some (f i)) (hd : doff + len ≤ dst.length) :
    ∃ dst', copyRow src doff soff len dst = .ok dst' ∧ dst'.length = dst.length ∧
      (∀ i, i < len → dst'[doff + i]? = some (f i)) ∧
      ∀ p, p < doff ∨ doff + len ≤ p → dst'[p]? = dst[p]? := by
  obtain ⟨s', h1, h2, h3, h4⟩ := Outcome.loop_inv
    (fun k s => s.length = dst.length ∧ (∀ i, i < k → s[doff + i]? = some (f i)) ∧
      ∀ p, p < doff ∨ doff + k ≤ p → s[p]? = dst[p]?) len
    (fun i dst => Outcome.read src (soff + i) >>= fun v => Outcome.write dst (doff + i) v) dst
    ⟨rfl, fun i h => by omega, fun _ _ => rfl⟩ (by
      rintro j s hj ⟨hl, hd', hf⟩
      rw [Outcome.read_ok (hs j hj), Outcome.ok_bind, Outcome.write_ok _ _ _ (by omega)]
      refine ⟨_, rfl, by simpa using hl, fun i hi => ?_, fun p hp => ?_⟩
      · rw [List.getElem?_set]
        by_cases h : i = j
        · subst h; rw [if_pos rfl, if_pos (by omega)]
        · rw [if_neg (by omega)]; exact hd' i (by omega)
      · rw [List.getElem?_set, if_neg (by omega)]; exact hf p (by omega))
  exact ⟨s', h1, h2, h3, h4⟩

/-- `A` on `Z x Y`, zero elsewhere. -/
def pad (Z Y : Nat) (A : Nat → Nat → T) : Nat → Nat → T :=
  fun z y => if z < Z ∧ y < Y then A z y else 0

theorem pad_loop (raw : List T) (P Z Y : Nat) (A : Nat → Nat → T) (hZ : Z ≤ P) (hY : Y ≤ P)
    (h : ∀ z y, z < Z → y < Y → raw[z + Z * y]? = some (A z y)) :
    ∃ a, Outcome.loop Y (fun y a => copyRow raw (P * y) (Z * y) Z a) (List.replicate (P * P) (0 : T)) = .ok a ∧
      Mat P a (pad Z Y A) := by
  obtain ⟨a, h1, h2⟩ := Outcome.loop_inv
    (fun k s => Mat P s (pad Z k A)) Y (fun y a => copyRow raw (P * y) (Z * y) Z a)
    (List.replicate (P * P) (0 : T)) (by
      refine ⟨by simp, fun x y hx hy => ?_⟩
      rw [List.getElem?_replicate, if_pos (idx_lt hx hy)]
      simp [pad]) (by
      rintro k s hk ⟨hl, hm⟩
      have hle : P * k + P ≤ P * P := by
        have := Nat.mul_le_mul_left P (show k + 1 ≤ P by omega)
        rwa [Nat.mul_add, Nat.mul_one] at this
      obtain ⟨s', e, l, hin, hout⟩ := copyRow_spec raw s (P * k) (Z * k) Z (fun z => A z k)
        (fun z hz => by rw [Nat.add_comm]; exact h z k hz hk) (by omega)
      refine ⟨s', e, by omega, fun x y hx hy => ?_⟩
      by_cases hyk : y = k
      · subst hyk
        by_cases hxz : x < Z
        · rw [Nat.add_comm, hin x hxz]
          simp [pad, hxz]
        · rw [hout _ (by omega), hm x y hx hy]
          simp [pad, hxz]
      · have hne : x + P * y < P * k ∨ P * k + Z ≤ x + P * y := by
          rcases Nat.lt_or_gt_of_ne hyk with h' | h'
          · left
            have := Nat.mul_le_mul_left P (show y + 1 ≤ k by omega)
            rw [Nat.mul_add, Nat.mul_one] at this; omega
          · right
            have := Nat.mul_le_mul_left P (show k + 1 ≤ y by omega)
            rw [Nat.mul_add, Nat.mul_one] at this; omega
        rw [hout _ hne, hm x y hx hy]
        unfold pad
        have : (x < Z ∧ y < k) ↔ (x < Z ∧ y < k + 1) := by omega
        simp only [this])
  exact ⟨a, h1, h2⟩

theorem mmul_pad (P X Y Z : Nat) (A B : Nat → Nat → T) (hZ : Z ≤ P) (x y : Nat) (hx : x < X) (hy : y < Y) :
    mmul P (pad Z Y A) (pad X Z B) x y = mmul Z A B x y := by
  obtain ⟨d, rfl⟩ := Nat.exists_eq_add_of_le hZ
  unfold mmul
  rw [Finset.sum_range_add]
  have h1 : ∑ z ∈ range d, pad Z Y A (Z + z) y * pad X Z B x (Z + z) = 0 := by
    apply Finset.sum_eq_zero
    intro z _
    simp [pad]
  rw [h1, add_zero]
  apply Finset.sum_congr rfl
  intro z hz
  have hz := Finset.mem_range.1 hz
  simp [pad, hx, hy, hz]

/-! ### `min_pad` -/

theorem minPadLoop_spec (n c : Nat) :
    ∃ k, (minPadLoop n c).2 = c + k ∧ (minPadLoop n c).1 ≤ strassenThreshold ∧
      n ≤ (minPadLoop n c).1 * 2 ^ k := by
  fun_induction minPadLoop n c with
  | case1 n c h ih =>
    obtain ⟨k, h1, h2, h3⟩ := ih
    refine ⟨k + 1, by omega, h2, ?_⟩
    rw [pow_succ, ← Nat.mul_assoc]
    omega
  | case2 n c h => exact ⟨0, by omega, by simpa using h, by simp⟩

theorem minPad_spec (n : Nat) : n ≤ minPad n ∧ ∃ m k, m ≤ strassenThreshold ∧ minPad n = m * 2 ^ k := by
  obtain ⟨k, h1, h2, h3⟩ := minPadLoop_spec n 0
  refine ⟨?_, _, _, h2, rfl⟩
  unfold minPad
  rw [h1, Nat.zero_add]
  exact h3

/-! ### one batch -/

theorem strassenBatch_spec (junk : Nat → T) (X Y Z : Nat) (rawa rawb rawc : List T) (A B : Nat → Nat → T)
    (hc : X * Y ≤ rawc.length)
    (ha : ∀ z y, z < Z → y < Y → rawa[z + Z * y]? = some (A z y))
    (hb : ∀ x z, x < X → z < Z → rawb[x + X * z]? = some (B x z)) :
    ∃ c', strassenBatch strassenThreshold junk (minPad (max (max X Y) Z)) X Y Z rawa rawb rawc = .ok c' ∧
      BlockOut rawc c' X Y (mmul Z A B) := by
  obtain ⟨hP, m, k, hm, hk⟩ := minPad_spec (max (max X Y) Z)
  generalize minPad (max (max X Y) Z) = P at hP hk
  have hX : X ≤ P := by omega
  have hY : Y ≤ P := by omega
  have hZ : Z ≤ P := by omega
  unfold strassenBatch
  obtain ⟨a, e1, ma⟩ := pad_loop rawa P Z Y A hZ hY ha
  obtain ⟨b, e2, mb⟩ := pad_loop rawb P X Z B hX hZ hb
  obtain ⟨c', a', b', e3, mc, _, _⟩ := strassen_spec strassenThreshold junk k m hm P hk
    ((List.range (P * P)).map junk) a b _ _ ma mb (by simp)
  simp only [e1, e2, e3, Outcome.ok_bind]
  obtain ⟨r, h1, h2, h3, h4⟩ := Outcome.loop_inv
    (fun k s => s.length = rawc.length ∧ (∀ x y, x < X → y < k → s[x + X * y]? = some (mmul Z A B x y)) ∧
      ∀ p, X * k ≤ p → s[p]? = rawc[p]?) Y (fun y c => copyRow c' (y * X) (y * P) X c) rawc
    ⟨rfl, fun x y _ h => by omega, fun _ _ => rfl⟩ (by
      rintro j s hj ⟨hl, hin, hout⟩
      have hle : X * j + X ≤ X * Y := by
        have := Nat.mul_le_mul_left X (show j + 1 ≤ Y by omega)
        rwa [Nat.mul_add, Nat.mul_one] at this
      obtain ⟨s', e, l, hin', hout'⟩ := copyRow_spec c' s (j * X) (j * P) X (fun x => mmul Z A B x j)
        (fun x hx => by
          rw [Nat.add_comm, Nat.mul_comm, mc.2 x j (by omega) (by omega), mmul_pad P X Y Z A B hZ x j hx hj])
        (by rw [Nat.mul_comm]; omega)
      rw [Nat.mul_comm j X] at hin' hout'
      refine ⟨s', e, by omega, fun x y hx hy => ?_, fun p hp => ?_⟩
      · by_cases h : y = j
        · subst h; rw [Nat.add_comm, hin' x hx]
        · have := Nat.mul_le_mul_left X (show y + 1 ≤ j by omega)
          rw [Nat.mul_add, Nat.mul_one] at this
          rw [hout' _ (by omega), hin x y hx (by omega)]
      · rw [Nat.mul_add, Nat.mul_one] at hp
        rw [hout' _ (by omega), hout _ (by omega)])
  exact ⟨r, h1, h2, h3, h4⟩

/-- All batches. -/
theorem batch_loop (f : Nat → List T → Outcome (List T)) (X Y N : Nat) (C : Nat → Nat → Nat → T)
    (dest : List T) (hd : N * (X * Y) ≤ dest.length)
    (hf : ∀ i, i < N → ∀ rawc, X * Y ≤ rawc.length → ∃ c', f i rawc = .ok c' ∧ BlockOut rawc c' X Y (C i)) :
    ∃ d', Outcome.loop N (fun i dest => onOffset (i * (X * Y)) (f i) dest) dest = .ok d' ∧
      d'.length = dest.length ∧
      ∀ i x y, i < N → x < X → y < Y → d'[i * (X * Y) + (x + X * y)]? = some (C i x y) := by
  obtain ⟨d', h1, h2, h3⟩ := Outcome.loop_inv
    (fun k s => s.length = dest.length ∧
      ∀ i x y, i < k → x < X → y < Y → s[i * (X * Y) + (x + X * y)]? = some (C i x y)) N
    (fun i dest => onOffset (i * (X * Y)) (f i) dest) dest ⟨rfl, fun i _ _ h => by omega⟩ (by
      rintro j s hj ⟨hl, hin⟩
      have hle : j * (X * Y) + X * Y ≤ N * (X * Y) := by
        have := Nat.mul_le_mul_right (X * Y) (show j + 1 ≤ N by omega)
        rwa [Nat.add_mul, Nat.one_mul] at this
      obtain ⟨c', e, l, hb, _⟩ := hf j hj (s.drop (j * (X * Y))) (by rw [List.length_drop]; omega)
      unfold onOffset
      rw [if_pos (by omega), e, Outcome.ok_bind]
      rw [List.length_drop] at l
      refine ⟨_, rfl, by rw [List.length_append, List.length_take]; omega, fun i x y hi hx hy => ?_⟩
      have hxy := idx_lt hx hy
      by_cases h : i = j
      · subst h
        rw [List.getElem?_append_right (by rw [List.length_take]; omega), List.length_take,
          ← hb x y hx hy]
        congr 1; omega
      · have := Nat.mul_le_mul_right (X * Y) (show i + 1 ≤ j by omega)
        rw [Nat.add_mul, Nat.one_mul] at this
        rw [List.getElem?_append_left (by rw [List.length_take]; omega), List.getElem?_take,
          if_pos (by omega)]
        exact hin i x y (by omega) hx hy)
  exact ⟨d', h1, h2, h3⟩

/-- The kernel, for operands whose buffers hold at least `N` matrices. -/
theorem kernel_spec (on : Bool) (junk : Nat → T) (X Y Z N : Nat) (sa sb dest : List T) (outs : Shape)
    (al bl : Shape) (A B : Nat → Nat → Nat → T) (hZ : 0 < Z) (hY : 0 < Y)
    (hal : al.head? = some Z) (hbl : bl.head? = some X)
    (hYal : (if al.length < 2 then 1 else al.getD 1 0) = Y)
    (hN : Shape.nElems al = N * (Z * Y)) (hd : N * (X * Y) ≤ dest.length)
    (ha : ∀ i z y, i < N → z < Z → y < Y → sa[i * (Z * Y) + (z + Z * y)]? = some (A i z y))
    (hb : ∀ i x z, i < N → x < X → z < Z → sb[i * (X * Z) + (x + X * z)]? = some (B i x z)) :
    ∃ d', kernel on junk dest [sa, sb] outs [al, bl] = .ok d' ∧ d'.length = dest.length ∧
      ∀ i x y, i < N → x < X → y < Y → d'[i * (X * Y) + (x + X * y)]? = some (mmul Z (A i) (B i) x y) := by
  match al, bl, hal, hbl with
  | _ :: al', _ :: bl', hal, hbl =>
    simp only [List.head?_cons, Option.some.injEq] at hal hbl
    subst hal; subst hbl
    rename_i Z X
    have hpos : 0 < Z * Y := Nat.mul_pos hZ hY
    simp only [kernel, hYal]
    rw [if_neg (by omega)]
    have hdiv : Shape.nElems (Z :: al') / (Z * Y) = N := by
      rw [hN, Nat.mul_div_cancel _ hpos]
    rw [hdiv]
    split
    · apply batch_loop _ X Y N _ dest hd
      intro i hi rawc hc
      apply strassenBatch_spec junk X Y Z _ _ rawc (A i) (B i) hc
      · intro z y hz hy
        rw [List.getElem?_drop]; exact ha i z y hi hz hy
      · intro x z hx hz
        rw [List.getElem?_drop]; exact hb i x z hi hx hz
    · apply batch_loop _ X Y N _ dest hd
      intro i hi rawc hc
      apply cubicMul_spec rawc _ _ X Y Z Z 1 1 X (A i) (B i) hc
      · intro z y hz hy
        rw [List.getElem?_drop, Nat.one_mul, Nat.add_comm (Z * y)]; exact ha i z y hi hz hy
      · intro x z hx hz
        rw [List.getElem?_drop, Nat.one_mul]; exact hb i x z hi hx hz

end Matmul
end Verif
