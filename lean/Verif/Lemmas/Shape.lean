import Verif.Model.Shape
import Verif.Spec.Shape
/-! Helper lemmas about shapes. -/
namespace Verif
open Spec

theorem getD_lt {α : Type u} (l : List α) (i : Nat) (d : α) (h : i < l.length) :
    l.getD i d = l[i] := by
  simp [List.getD_eq_getElem?_getD, h]

namespace Shape

theorem foldl_mul (l : List Nat) (a : Nat) : l.foldl (fun a b => a * b) a = a * vol l := by
  induction l generalizing a with
  | nil => simp [vol]
  | cons d ds ih => rw [List.foldl_cons, ih, vol, Nat.mul_assoc]

theorem nElems_eq {s : Shape} (h : s ≠ []) : s.nElems = vol s := by
  have : s.isEmpty = false := by cases s <;> simp_all
  simp [nElems, this, foldl_mul]

@[simp] theorem nElems_nil : nElems [] = 0 := rfl

theorem foldl_and (l : List Nat) (b : Bool) :
    l.foldl (fun known d => known && decide (0 < d)) b = (b && l.all (fun d => decide (0 < d))) := by
  induction l generalizing b with
  | nil => simp
  | cons d ds ih => simp [ih, Bool.and_assoc]

theorem isFullyDefined_iff (s : Shape) : s.isFullyDefined = true ↔ Full s := by
  cases s with
  | nil => simp [isFullyDefined, Full]
  | cons d ds => simp [isFullyDefined, Full, foldl_and]

theorem isPartDefined_iff (s : Shape) : s.isPartDefined = true ↔ s ≠ [] := by
  cases s <;> simp [isPartDefined]

theorem vol_pos {s : List Nat} (h : ∀ d ∈ s, 0 < d) : 0 < vol s := by
  induction s with
  | nil => simp [vol]
  | cons d ds ih =>
    simp only [vol]
    exact Nat.mul_pos (h d (by simp)) (ih (fun x hx => h x (by simp [hx])))

theorem vol_append (s t : List Nat) : vol (s ++ t) = vol s * vol t := by
  induction s with
  | nil => simp [vol]
  | cons d ds ih => simp [vol, ih, Nat.mul_assoc]

@[simp] theorem vol_replicate_one (n : Nat) : vol (List.replicate n 1) = 1 := by
  induction n with
  | zero => rfl
  | succ n ih => simp [List.replicate_succ, vol, ih]

theorem vol_reverse (s : List Nat) : vol s.reverse = vol s := by
  induction s with
  | nil => rfl
  | cons d ds ih => simp [vol_append, vol, ih, Nat.mul_comm]

/-! ### in-range coordinates -/

theorem inRange_cons {d : Nat} {ds : List Nat} {c : Nat} {cs : List Nat} :
    InRange (d :: ds) (c :: cs) ↔ c < d ∧ InRange ds cs := by
  constructor
  · rintro ⟨hl, h⟩
    refine ⟨by simpa using h 0 (by simp), by simpa using hl, fun i hi => ?_⟩
    simpa using h (i+1) (by simpa using hi)
  · rintro ⟨hc, hl, h⟩
    refine ⟨by simpa using hl, fun i hi => ?_⟩
    cases i with
    | zero => simpa using hc
    | succ i => simpa using h i (by simpa using hi)

@[simp] theorem inRange_nil {c : List Nat} : InRange [] c ↔ c = [] := by
  simp [InRange]

theorem not_inRange_cons_nil {d : Nat} {ds : List Nat} : ¬ InRange (d :: ds) [] := by
  simp [InRange]

theorem flat_lt {s c : List Nat} (h : InRange s c) : flat s c < vol s := by
  induction s generalizing c with
  | nil => simp [flat, vol]
  | cons d ds ih =>
    cases c with
    | nil => exact absurd h not_inRange_cons_nil
    | cons c cs =>
      obtain ⟨h1, h2⟩ := inRange_cons.1 h
      have := ih h2
      simp only [flat, vol]
      calc c + d * flat ds cs < d + d * flat ds cs := by omega
        _ = d * (flat ds cs + 1) := by rw [Nat.mul_add]; omega
        _ ≤ d * vol ds := Nat.mul_le_mul_left _ this

theorem coords_inRange {s : List Nat} (hs : ∀ d ∈ s, 0 < d) (i : Nat) : InRange s (coords s i) := by
  induction s generalizing i with
  | nil => simp [coords]
  | cons d ds ih =>
    rw [coords, inRange_cons]
    exact ⟨Nat.mod_lt _ (hs d (by simp)), ih (fun x hx => hs x (by simp [hx])) _⟩

theorem coords_length (s : List Nat) (i : Nat) : (coords s i).length = s.length := by
  induction s generalizing i with
  | nil => rfl
  | cons d ds ih => simp [coords, ih]

theorem flat_coords {s : List Nat} (hs : ∀ d ∈ s, 0 < d) {i : Nat} (hi : i < vol s) :
    flat s (coords s i) = i := by
  induction s generalizing i with
  | nil => simp [vol] at hi; simp [flat, hi]
  | cons d ds ih =>
    have hd : 0 < d := hs d (by simp)
    rw [coords, flat, ih (fun x hx => hs x (by simp [hx]))]
    · exact Nat.mod_add_div i d
    · rw [vol] at hi; exact Nat.div_lt_of_lt_mul hi

theorem coords_flat {s c : List Nat} (h : InRange s c) : coords s (flat s c) = c := by
  induction s generalizing c with
  | nil => simp at h; simp [coords, h]
  | cons d ds ih =>
    cases c with
    | nil => exact absurd h not_inRange_cons_nil
    | cons c cs =>
      obtain ⟨h1, h2⟩ := inRange_cons.1 h
      have hd : 0 < d := by omega
      rw [flat, coords, Nat.add_mul_mod_self_left, Nat.mod_eq_of_lt h1,
        Nat.add_mul_div_left _ _ hd, Nat.div_eq_of_lt h1, Nat.zero_add, ih h2]

theorem coords_inj {s : List Nat} (hs : ∀ d ∈ s, 0 < d) {i j : Nat} (hi : i < vol s) (hj : j < vol s)
    (h : coords s i = coords s j) : i = j := by
  rw [← flat_coords hs hi, ← flat_coords hs hj, h]

/-! ### the loops -/

theorem coordLoop_eq {s : Shape} (hs : ∀ d ∈ s, 0 < d) (i : Nat) :
    coordLoop s i = .ok (coords s i) := by
  induction s generalizing i with
  | nil => rfl
  | cons d ds ih =>
    have hd : 0 < d := hs d (by simp)
    have hd' : d ≠ 0 := by omega
    have hdiv : (i - i % d) / d = i / d := by
      have h1 := Nat.mod_add_div i d
      have h2 : i - i % d = d * (i / d) := by omega
      rw [h2, Nat.mul_div_cancel_left _ hd]
    simp only [coordLoop, hd', if_false, hdiv, ih (fun x hx => hs x (by simp [hx]))]
    rfl

theorem coordLoop_ub {s : Shape} (hs : 0 ∈ s) (i : Nat) : coordLoop s i = .ub := by
  induction s generalizing i with
  | nil => simp at hs
  | cons d ds ih =>
    by_cases hd : d = 0
    · simp [coordLoop, hd]
    · have : 0 ∈ ds := by
        rcases List.mem_cons.1 hs with h | h
        · exact absurd h.symm hd
        · exact h
      simp [coordLoop, hd, ih this]

theorem coordinateFromIdx_eq {s : Shape} (hs : ∀ d ∈ s, 0 < d) (i : Nat) :
    s.coordinateFromIdx i = .ok (coords s i) := coordLoop_eq hs i

/-- Partial Horner evaluation from the top: the state of the `flat_idx` loop. -/
theorem flatLoop_aux (s c : List Nat) (n : Nat) (hs : n ≤ s.length) (hc : n ≤ c.length)
    (k : Nat) (hk : k + 1 ≤ n) :
    (List.range' 1 k).foldl (fun index i => (index + c.getD (n - i) 0) * s.getD (n - i - 1) 0) 0
      = s.getD (n - k - 1) 0 * flat ((s.take n).drop (n - k)) ((c.take n).drop (n - k)) := by
  induction k with
  | zero => simp [flat]
  | succ k ih =>
    have ih := ih (by omega)
    rw [List.range'_concat, List.foldl_append, ih]
    simp only [List.foldl_cons, List.foldl_nil, Nat.one_mul]
    have e1 : n - (1 + k) = n - (k + 1) := by omega
    rw [e1]
    have hlt : n - (k+1) < n := by omega
    have d1 : (s.take n).drop (n - (k+1)) = s.getD (n-(k+1)) 0 :: (s.take n).drop (n - k) := by
      have h1 : n - (k+1) < (s.take n).length := by simp; omega
      rw [List.drop_eq_getElem_cons h1]
      have : n - (k+1) + 1 = n - k := by omega
      rw [this]
      congr 1
      simp [List.getD_eq_getElem?_getD]
      rw [List.getElem?_eq_getElem (by omega)]; simp
    have d2 : (c.take n).drop (n - (k+1)) = c.getD (n-(k+1)) 0 :: (c.take n).drop (n - k) := by
      have h1 : n - (k+1) < (c.take n).length := by simp; omega
      rw [List.drop_eq_getElem_cons h1]
      have : n - (k+1) + 1 = n - k := by omega
      rw [this]
      congr 1
      simp [List.getD_eq_getElem?_getD]
      rw [List.getElem?_eq_getElem (by omega)]; simp
    rw [d1, d2, flat]
    have e2 : n - k - 1 = n - (k+1) := by omega
    rw [e2, Nat.mul_comm, Nat.add_comm (s.getD _ 0 * _)]

/-- Flat index with truncation to the shorter of the two lists, as the C++ computes it. -/
theorem flatIdx_eq (s : Shape) (c : List Nat) (hs : s ≠ []) (hc : c ≠ []) :
    s.flatIdx c = .ok (flat s c) := by
  obtain ⟨d, ds, rfl⟩ := List.exists_cons_of_ne_nil hs
  obtain ⟨c0, cs, rfl⟩ := List.exists_cons_of_ne_nil hc
  simp only [flatIdx, List.getElem?_cons_zero]
  congr 1
  unfold flatLoop
  have hn : 0 < min (d::ds).length (c0::cs).length := by simp
  generalize hN : min (d::ds).length (c0::cs).length = n at hn
  have := flatLoop_aux (d::ds) (c0::cs) n (by omega) (by omega) (n-1) (by omega)
  simp only [this]
  have e : n - (n - 1) = 1 := by omega
  rw [e]
  obtain ⟨m, rfl⟩ : ∃ m, n = m + 1 := ⟨n-1, by omega⟩
  simp only [List.take_succ_cons, List.drop_succ_cons, List.drop_zero, Nat.sub_self,
    List.getD_cons_zero]
  rw [flat, Nat.add_comm]
  congr 2
  clear this
  have hm : m = min ds.length cs.length := by simp at hN; omega
  subst hm
  clear hN hn e hs hc
  induction ds generalizing cs with
  | nil => simp [flat]
  | cons d' ds ih =>
    cases cs with
    | nil => simp [flat]
    | cons c' cs =>
      simp only [List.length_cons, Nat.succ_min_succ, List.take_succ_cons, flat]
      rw [ih]

theorem flatIdx_nil (s : Shape) : s.flatIdx [] = .ub := rfl

theorem iterate_eq {s : Shape} (hs : Full s) :
    s.iterate = .ok ((List.range (vol s)).map (fun i => (coords s i, i))) := by
  unfold iterate
  rw [nElems_eq hs.1]
  exact Outcome.forM'_ok _ _ _ (fun i _ => by rw [coordinateFromIdx_eq hs.2]; rfl)

end Shape
end Verif
