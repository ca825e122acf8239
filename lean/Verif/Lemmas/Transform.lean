import Verif.Model.Transform
import Verif.Spec.Kernel
import Verif.Lemmas.Op
/-! Helper lemmas for the data-movement operators. -/
namespace Verif
open Spec
namespace Transform
variable {T : Type}

theorem getD_set {l : List Nat} {i k : Nat} {v : Nat} (h : i < l.length) :
    (l.set i v).getD k 0 = if k = i then v else l.getD k 0 := by
  rw [List.getD_eq_getElem?_getD, List.getElem?_set]
  by_cases hk : i = k
  · subst hk; simp [h]
  · rw [if_neg hk, if_neg (fun h => hk h.symm), List.getD_eq_getElem?_getD]

theorem swapPos_length (l : List Nat) (i j : Nat) : (swapPos l i j).length = l.length := by
  simp [swapPos]

theorem getD_swapPos {l : List Nat} {i j : Nat} (hi : i < l.length) (hj : j < l.length) (k : Nat) :
    (swapPos l i j).getD k 0 =
      if k = j then l.getD i 0 else if k = i then l.getD j 0 else l.getD k 0 := by
  unfold swapPos
  rw [getD_set (by simpa using hj), getD_set hi]

theorem ext_getD {l m : List Nat} (hl : l.length = m.length)
    (h : ∀ k, k < l.length → l.getD k 0 = m.getD k 0) : l = m := by
  apply List.ext_getElem hl
  intro i h1 h2
  have := h i h1
  rwa [getD_lt _ _ _ h1, getD_lt _ _ _ h2] at this

theorem swapPos_swapPos {l : List Nat} {i j : Nat} (hi : i < l.length) (hj : j < l.length) :
    swapPos (swapPos l i j) i j = l := by
  apply ext_getD (by simp [swapPos_length])
  intro k _
  have hi' : i < (swapPos l i j).length := by rwa [swapPos_length]
  have hj' : j < (swapPos l i j).length := by rwa [swapPos_length]
  rw [getD_swapPos hi' hj', getD_swapPos hi hj, getD_swapPos hi hj, getD_swapPos hi hj]
  by_cases h1 : k = j
  · subst h1; by_cases h2 : i = k <;> simp [h2]
  · by_cases h2 : k = i
    · subst h2; simp [h1]
    · simp [h1, h2]

theorem swapPos_comm {l : List Nat} {i j : Nat} (hi : i < l.length) (hj : j < l.length) :
    swapPos l i j = swapPos l j i := by
  apply ext_getD (by simp [swapPos_length])
  intro k _
  rw [getD_swapPos hi hj, getD_swapPos hj hi]
  by_cases h1 : k = j
  · by_cases h2 : k = i
    · have hij : i = j := by omega
      subst hij; rfl
    · rw [if_pos h1, if_neg h2, if_pos h1]
  · simp only [if_neg h1]

theorem swapAt_ok {l : List Nat} {i j : Nat} (hi : i < l.length) (hj : j < l.length) :
    swapAt l i j = .ok (swapPos l i j) := by
  unfold swapAt
  rw [Outcome.read_of_lt _ _ hi, Outcome.read_of_lt _ _ hj]
  simp only [Outcome.ok_bind, Outcome.write, hi, if_true, List.length_set, hj]
  simp [swapPos, hi, hj]

theorem inRange_swapPos {s c : List Nat} {i j : Nat} (hi : i < s.length) (hj : j < s.length)
    (h : InRange (swapPos s i j) c) : InRange s (swapPos c i j) := by
  obtain ⟨hl, h⟩ := h
  rw [swapPos_length] at hl h
  refine ⟨by rw [swapPos_length, hl], fun k hk => ?_⟩
  rw [getD_swapPos (by omega) (by omega)]
  have hik := h i hi
  have hjk := h j hj
  have hkk := h k hk
  rw [getD_swapPos hi hj] at hik hjk hkk
  by_cases h1 : k = j
  · subst h1
    by_cases h2 : i = k <;> simp_all
  · by_cases h2 : k = i
    · subst h2; simp_all
    · simp_all

theorem pos_iff_getD {s : List Nat} : (∀ d ∈ s, 0 < d) ↔ ∀ i, i < s.length → 0 < s.getD i 0 := by
  constructor
  · intro h i hi; rw [getD_lt _ _ _ hi]; exact h _ (List.getElem_mem hi)
  · intro h d hd
    obtain ⟨i, hi, rfl⟩ := List.getElem_of_mem hd
    have := h i hi; rwa [getD_lt _ _ _ hi] at this

theorem full_swapPos {s : List Nat} {i j : Nat} (hi : i < s.length) (hj : j < s.length) (h : Full s) :
    Full (swapPos s i j) := by
  refine ⟨by intro h0; have := congrArg List.length h0; simp [swapPos_length] at this; exact h.1 this, ?_⟩
  rw [pos_iff_getD]
  intro k hk
  rw [swapPos_length] at hk
  have := pos_iff_getD.1 h.2
  rw [getD_swapPos hi hj]
  split
  · exact this i hi
  · split
    · exact this j hj
    · exact this k hk

theorem inRange_ne_nil {s c : List Nat} (hs : s ≠ []) (h : InRange s c) : c ≠ [] := by
  intro h0; subst h0; have := h.1; simp at this; exact hs (List.length_eq_zero_iff.1 this.symm)

/-- Reading the element at an in-range coordinate through `flat_idx`. -/
theorem flat_read {s c : List Nat} (hs : s ≠ []) (h : InRange s c) (f : List Nat → T) :
    (Shape.flatIdx s c >>= fun j => Outcome.read (Op.bufOf s f) j) = .ok (f c) := by
  rw [Shape.flatIdx_eq s c hs (inRange_ne_nil hs h), Outcome.ok_bind, Op.read_bufOf_flat f h]

/-! ### reductions -/

theorem inRange_snoc {ds : List Nat} {d : Nat} {c : List Nat} {j : Nat} (h : InRange ds c) (hj : j < d) :
    InRange (ds ++ [d]) (c ++ [j]) := by
  induction ds generalizing c with
  | nil =>
    have : c = [] := by simpa using h.1
    subst this
    exact Shape.inRange_cons.2 ⟨hj, by simp [InRange]⟩
  | cons e es ih =>
    cases c with
    | nil => exact absurd h Shape.not_inRange_cons_nil
    | cons x xs =>
      rw [Shape.inRange_cons] at h
      exact Shape.inRange_cons.2 ⟨h.1, ih h.2⟩

theorem inRange_set {s c : List Nat} {k j v : Nat} (hk : k < s.length) (h : InRange (s.set k v) c)
    (hj : j < s.getD k 0) : InRange s (c.set k j) := by
  obtain ⟨hl, h⟩ := h
  simp only [List.length_set] at hl h
  refine ⟨by simpa using hl, fun i hi => ?_⟩
  rw [getD_set (by omega)]
  have := h i hi
  rw [getD_set hk] at this
  by_cases hik : i = k
  · subst hik; simpa using hj
  · rw [if_neg hik] at this ⊢; exact this

theorem insertIdx_append (c : List Nat) (j : Nat) : c.insertIdx c.length j = c ++ [j] := by
  induction c with
  | nil => rfl
  | cons x xs ih => simp [ih]

/-- The case split behind `reduceShape`. -/
inductive RCase (s : List Nat) (k : Nat) : Prop
  | one (d : Nat) (h : s = [d]) (hk : k = 0)
  | front (d e : Nat) (ds : List Nat) (h : s = d :: e :: ds) (hk : k = 0)
  | back (ds : List Nat) (d : Nat) (h : s = ds ++ [d]) (hk : k = ds.length) (h0 : 0 < ds.length)
  | inner (h1 : 0 < k) (h2 : k < s.length - 1)

theorem rcase {s : List Nat} {k : Nat} (hk : k < s.length) : RCase s k := by
  by_cases h1 : s.length = 1
  · obtain ⟨d, rfl⟩ := List.length_eq_one_iff.1 h1
    exact .one d rfl (by simp at hk; omega)
  · by_cases h0 : k = 0
    · match s, hk, h1 with
      | d :: e :: ds, _, _ => exact .front d e ds rfl h0
      | [d], _, h1 => simp at h1
    · by_cases h2 : k = s.length - 1
      · have hne : s ≠ [] := by intro h; subst h; simp at hk
        refine .back s.dropLast (s.getLast hne) (List.dropLast_concat_getLast hne).symm (by simpa using h2) (by simp; omega)
      · exact .inner (by omega) (by omega)

theorem reduce_full {s : List Nat} {k : Nat} (hs : Full s) (hk : k < s.length) : Full (reduceShape s k) := by
  rcases rcase hk with ⟨d, rfl, rfl⟩ | ⟨d, e, ds, rfl, rfl⟩ | ⟨ds, d, rfl, rfl, h0⟩ | ⟨h1, h2⟩
  · simp [reduceShape, Full]
  · have := hs.2
    simp [reduceShape, Full] at this ⊢; exact this.2
  · have h3 := hs.2
    have e1 : reduceShape (ds ++ [d]) ds.length = ds := by
      unfold reduceShape
      rw [if_neg (by simp only [List.length_append, List.length_singleton]; omega), if_pos (by simp)]
      simp [List.eraseIdx_append_of_length_le]
    rw [e1]
    exact ⟨by intro h; subst h; simp at h0, fun x hx => h3 x (by simp [hx])⟩
  · unfold reduceShape
    rw [if_neg (by omega), if_neg (by omega)]
    refine ⟨by simpa using hs.1, fun x hx => ?_⟩
    rcases List.mem_or_eq_of_mem_set hx with h | h
    · exact hs.2 x h
    · omega

theorem fibre_inRange {s c : List Nat} {k j : Nat} (hk : k < s.length)
    (hc : InRange (reduceShape s k) c) (hj : j < s.getD k 0) : InRange s (fibreCoord s k c j) := by
  rcases rcase hk with ⟨d, rfl, rfl⟩ | ⟨d, e, ds, rfl, rfl⟩ | ⟨ds, d, rfl, rfl, h0⟩ | ⟨h1, h2⟩
  · have hl : c.length = 1 := by simpa [reduceShape] using hc.1
    obtain ⟨x, rfl⟩ := List.length_eq_one_iff.1 hl
    simpa [fibreCoord, Shape.inRange_cons] using hj
  · have e1 : reduceShape (d :: e :: ds) 0 = e :: ds := by simp [reduceShape]
    rw [e1] at hc
    have hl := hc.1
    unfold fibreCoord
    rw [if_neg (by simp at hl ⊢; omega)]
    simp only [List.insertIdx_zero]
    exact Shape.inRange_cons.2 ⟨by simpa using hj, hc⟩
  · have e1 : reduceShape (ds ++ [d]) ds.length = ds := by
      unfold reduceShape
      rw [if_neg (by simp only [List.length_append, List.length_singleton]; omega), if_pos (by simp)]
      simp [List.eraseIdx_append_of_length_le]
    rw [e1] at hc
    have hl := hc.1
    unfold fibreCoord
    rw [if_neg (by simp; omega), ← hl, insertIdx_append]
    exact inRange_snoc hc (by simpa using hj)
  · unfold reduceShape at hc
    rw [if_neg (by omega), if_neg (by omega)] at hc
    have hl := hc.1
    unfold fibreCoord
    rw [if_pos (by simpa using hl)]
    exact inRange_set hk hc hj

/-- `insertAxis` gives a coordinate that addresses the fibre once `j` is stored on the axis. -/
theorem insertAxis_spec {s c : List Nat} {k : Nat} (hk : k < s.length)
    (hc : InRange (reduceShape s k) c) :
    ∃ c0, insertAxis c k = .ok c0 ∧ (∃ c1, argInsertAxis c k = c1 ∧ c0 = c1.set k 0 ∧ k < c1.length ∧
      ∀ j, flat s (c1.set k j) = flat s (fibreCoord s k c j)) := by
  rcases rcase hk with ⟨d, rfl, rfl⟩ | ⟨d, e, ds, rfl, rfl⟩ | ⟨ds, d, rfl, rfl, h0⟩ | ⟨h1, h2⟩
  · have hl : c.length = 1 := by simpa [reduceShape] using hc.1
    obtain ⟨x, rfl⟩ := List.length_eq_one_iff.1 hl
    refine ⟨[0, x], by simp [insertAxis], [0, x], by simp [argInsertAxis], by simp, by simp, fun j => ?_⟩
    simp [fibreCoord, flat]
  · have e1 : reduceShape (d :: e :: ds) 0 = e :: ds := by simp [reduceShape]
    rw [e1] at hc
    have hl := hc.1
    have hl0 : 0 ≠ c.length := by simp at hl; omega
    refine ⟨0 :: c, by simp [insertAxis, hl0], 0 :: c, by simp [argInsertAxis, hl0], by simp, by simp, fun j => ?_⟩
    unfold fibreCoord
    rw [if_neg (by simp at hl ⊢; omega)]
    simp
  · have e1 : reduceShape (ds ++ [d]) ds.length = ds := by
      unfold reduceShape
      rw [if_neg (by simp only [List.length_append, List.length_singleton]; omega), if_pos (by simp)]
      simp [List.eraseIdx_append_of_length_le]
    rw [e1] at hc
    have hl := hc.1
    have hset : ∀ j, (c ++ [0]).set ds.length j = c ++ [j] := by
      intro j; rw [← hl, List.set_append_right _ _ (Nat.le_refl _)]; simp
    refine ⟨c ++ [0], by simp [insertAxis, hl], c ++ [0], by simp [argInsertAxis, hl], by rw [hset], by simp [hl], fun j => ?_⟩
    unfold fibreCoord
    rw [if_neg (by simp; omega), hset, ← hl, insertIdx_append]
  · unfold reduceShape at hc
    rw [if_neg (by omega), if_neg (by omega)] at hc
    have hl := hc.1
    simp only [List.length_set] at hl
    have hkc : k < c.length := by omega
    refine ⟨c.set k 0, ?_, c, ?_, rfl, hkc, fun j => ?_⟩
    · unfold insertAxis
      rw [if_neg (by omega), if_neg (by omega), Outcome.write, if_pos hkc]
    · unfold argInsertAxis
      rw [if_neg (by omega), if_neg (by omega)]
    · unfold fibreCoord
      rw [if_pos hl]

theorem set_ne_nil {c : List Nat} {k v : Nat} (h : k < c.length) : c.set k v ≠ [] := by
  intro h0; have := congrArg List.length h0; simp at this; subst this; simp at h

/-- Reading the fibre element `j`. -/
theorem fibre_read {s c c1 : List Nat} {k j : Nat} (hk : k < s.length) (hs : s ≠ [])
    (hc : InRange (reduceShape s k) c) (hk1 : k < c1.length)
    (hf : flat s (c1.set k j) = flat s (fibreCoord s k c j)) (hj : j < s.getD k 0) (f : List Nat → T) :
    (Shape.flatIdx s (c1.set k j) >>= fun i => Outcome.read (Op.bufOf s f) i) =
      .ok (f (fibreCoord s k c j)) := by
  rw [Shape.flatIdx_eq s _ hs (set_ne_nil hk1), Outcome.ok_bind, hf,
    Op.read_bufOf_flat f (fibre_inRange hk hc hj)]

theorem compressLoop_eq (op : T → T → T) {s c c1 : List Nat} {k : Nat} (hk : k < s.length)
    (hs : s ≠ []) (hc : InRange (reduceShape s k) c) (hk1 : k < c1.length)
    (hf : ∀ j, flat s (c1.set k j) = flat s (fibreCoord s k c j)) (f : List Nat → T)
    (js : List Nat) (hjs : ∀ j ∈ js, j < s.getD k 0) (v acc) :
    compressLoop op (Op.bufOf s f) s k js (c1.set k v) acc =
      .ok ((js.map (fun j => f (fibreCoord s k c j))).foldl op acc) := by
  induction js generalizing v acc with
  | nil => rfl
  | cons j js ih =>
    unfold compressLoop
    rw [Outcome.write, if_pos (by simpa using hk1), Outcome.ok_bind, List.set_set]
    have := fibre_read hk hs hc hk1 (hf j) (hjs j (by simp)) f
    rw [Shape.flatIdx_eq s _ hs (set_ne_nil hk1), Outcome.ok_bind] at this ⊢
    rw [this, Outcome.ok_bind, ih (fun j hj => hjs j (by simp [hj]))]
    rfl

theorem searchVec_eq {s c c1 : List Nat} {k : Nat} (hk : k < s.length)
    (hs : s ≠ []) (hc : InRange (reduceShape s k) c) (hk1 : k < c1.length)
    (hf : ∀ j, flat s (c1.set k j) = flat s (fibreCoord s k c j)) (f : List Nat → T)
    (js : List Nat) (hjs : ∀ j ∈ js, j < s.getD k 0) (cc : List Nat)
    (hcc : cc = c1 ∨ ∃ v, cc = c1.set k v) :
    searchVec (Op.bufOf s f) s k js cc = .ok (js.map (fun j => f (fibreCoord s k c j))) := by
  induction js generalizing cc with
  | nil => rfl
  | cons j js ih =>
    unfold searchVec
    have hlen : k < cc.length := by rcases hcc with rfl | ⟨v, rfl⟩ <;> simpa using hk1
    have hset : cc.set k j = c1.set k j := by rcases hcc with rfl | ⟨v, rfl⟩ <;> simp
    rw [Outcome.write, if_pos hlen, Outcome.ok_bind, hset]
    have := fibre_read hk hs hc hk1 (hf j) (hjs j (by simp)) f
    rw [Shape.flatIdx_eq s _ hs (set_ne_nil hk1), Outcome.ok_bind] at this ⊢
    rw [this, Outcome.ok_bind, ih (fun j hj => hjs j (by simp [hj])) _ (.inr ⟨j, rfl⟩)]
    rfl

theorem compressShaper_eq {s : List Nat} {k : Nat} (hs : Full s) (hk : k < s.length) :
    compressShaper k [s] = .ok (reduceShape s k) := by
  unfold compressShaper
  simp only [(Shape.isFullyDefined_iff s).2 hs, Outcome.assert_true, Outcome.ok_bind]
  rw [if_neg (by omega)]
  unfold reduceShape
  by_cases h1 : s.length = 1
  · obtain ⟨d, rfl⟩ := List.length_eq_one_iff.1 h1
    rfl
  · rw [if_neg h1, if_neg h1]
    by_cases h0 : k = 0
    · subst h0; simp
    · rw [if_neg h0]
      by_cases h2 : s.length - 1 = k
      · subst h2; simp [List.dropLast_eq_take, List.eraseIdx_eq_take_drop_succ]
        omega
      · rw [if_neg h2, if_neg (by omega)]; rfl

theorem argCompressShaper_eq {s : List Nat} {k : Nat} (hs : Full s) (hk : k < s.length) :
    argCompressShaper k [s] = .ok (reduceShape s k) := by
  unfold argCompressShaper
  simp only [(Shape.isFullyDefined_iff s).2 hs, Outcome.assert_true, Outcome.ok_bind]
  rw [if_neg (by omega)]
  unfold reduceShape
  simp only [List.length_set]
  by_cases h1 : s.length = 1
  · obtain ⟨d, rfl⟩ := List.length_eq_one_iff.1 h1
    have : k = 0 := by simpa using hk
    subst this
    simp
  · rw [if_pos (by omega), if_neg h1]
    by_cases h0 : k = 0
    · subst h0
      cases s with
      | nil => simp at hk
      | cons a as => simp
    · rw [if_neg h0]
      by_cases h2 : s.length - 1 = k
      · rw [if_pos h2, if_pos (.inr h2.symm)]
        congr 1
        rw [List.dropLast_eq_take, List.eraseIdx_eq_take_drop_succ]
        simp only [List.length_set, h2]
        rw [List.drop_eq_nil_of_le (by omega), List.append_nil, List.take_set_of_le (Nat.le_refl _)]
      · rw [if_neg h2, if_neg (by omega)]; rfl

/-! ### arg_max -/

theorem maxElementLoop_spec {α : Type} (lt : α → α → Bool) (hirr : ∀ a, lt a a = false)
    (htrans : ∀ a b c, lt a b = true → lt b c = true → lt a c = true)
    (htotal : ∀ a b c, lt a b = false → lt b c = false → lt a c = false)
    (xs pre : List α) (best : Nat) (b : α) (hb : pre[best]? = some b)
    (hmax : ∀ x ∈ pre, lt b x = false) (hfirst : ∀ i x, i < best → pre[i]? = some x → lt x b = true) :
    ∃ b', (pre ++ xs)[maxElementLoop lt xs pre.length best b]? = some b' ∧
      (∀ x ∈ pre ++ xs, lt b' x = false) ∧
      ∀ i x, i < maxElementLoop lt xs pre.length best b → (pre ++ xs)[i]? = some x → lt x b' = true := by
  induction xs generalizing pre best b with
  | nil => simpa [maxElementLoop] using ⟨b, hb, hmax, hfirst⟩
  | cons x xs ih =>
    have hbl : best < pre.length := by
      rcases Nat.lt_or_ge best pre.length with h | h
      · exact h
      · rw [List.getElem?_eq_none h] at hb; cases hb
    unfold maxElementLoop
    have happ : pre ++ x :: xs = (pre ++ [x]) ++ xs := by simp
    have hlen : pre.length + 1 = (pre ++ [x]).length := by simp
    split
    · rename_i hlt
      rw [happ, hlen]
      apply ih
      · simp
      · intro y hy
        rcases List.mem_append.1 hy with h | h
        · -- y ≤ b < x
          have h1 := hmax y h
          cases hxy : lt x y with
          | false => rfl
          | true => rw [htrans b x y hlt hxy] at h1; cases h1
        · simp at h; subst h; exact hirr y
      · intro i y hi hy
        rw [List.getElem?_append_left hi] at hy
        have hmem : y ∈ pre := List.mem_of_getElem? hy
        have h1 := hmax y hmem
        cases hyx : lt y x with
        | true => rfl
        | false => rw [htotal b y x h1 hyx] at hlt; cases hlt
    · rename_i hlt
      rw [happ, hlen]
      apply ih
      · rw [List.getElem?_append_left hbl]; exact hb
      · intro y hy
        rcases List.mem_append.1 hy with h | h
        · exact hmax y h
        · simp at h; subst h; simpa using hlt
      · intro i y hi hy
        rw [List.getElem?_append_left (by omega)] at hy
        exact hfirst i y hi hy

theorem maxElement_spec {α : Type} (lt : α → α → Bool) (hirr : ∀ a, lt a a = false)
    (htrans : ∀ a b c, lt a b = true → lt b c = true → lt a c = true)
    (htotal : ∀ a b c, lt a b = false → lt b c = false → lt a c = false)
    (xs : List α) (hne : xs ≠ []) :
    ∃ b, xs[maxElement lt xs]? = some b ∧ (∀ x ∈ xs, lt b x = false) ∧
      ∀ i x, i < maxElement lt xs → xs[i]? = some x → lt x b = true := by
  cases xs with
  | nil => exact absurd rfl hne
  | cons x xs =>
    have := maxElementLoop_spec lt hirr htrans htotal xs [x] 0 x (by simp) (by simpa using hirr x)
      (fun i y h => by omega)
    simpa [maxElement] using this

/-! ### flip -/

theorem mirror_length (s dims c : List Nat) : (mirror s dims c).length = s.length := by simp [mirror]

theorem getD_mirror {s dims c : List Nat} {i : Nat} (h : i < s.length) :
    (mirror s dims c).getD i 0 =
      if dims.count i % 2 = 1 then s.getD i 0 - 1 - c.getD i 0 else c.getD i 0 := by
  unfold mirror
  rw [getD_lt _ _ _ (by simpa using h)]
  simp

theorem mirror_inRange {s dims c : List Nat} (h : InRange s c) : InRange s (mirror s dims c) := by
  refine ⟨mirror_length s dims c, fun i hi => ?_⟩
  rw [getD_mirror hi]
  have := h.2 i hi
  split <;> omega

theorem mirror_mirror {s dims c : List Nat} (h : InRange s c) :
    mirror s dims (mirror s dims c) = c := by
  apply ext_getD (by rw [mirror_length, h.1])
  intro i hi
  rw [mirror_length] at hi
  rw [getD_mirror hi, getD_mirror hi]
  have := h.2 i hi
  split <;> omega

theorem flipLoop_eq {s : List Nat} (dims c : List Nat) (hd : ∀ d ∈ dims, d < s.length)
    (h : InRange s c) : flipLoop s dims c = .ok (mirror s dims c) := by
  induction dims generalizing c with
  | nil =>
    unfold flipLoop
    congr 1
    apply ext_getD (by rw [mirror_length, h.1])
    intro i hi
    rw [getD_mirror (by have := h.1; omega)]
    simp
  | cons d ds ih =>
    have hds : d < s.length := hd d (by simp)
    have hdc : d < c.length := by rw [h.1]; exact hds
    have hlt := h.2 d hds
    unfold flipLoop
    rw [Outcome.read_of_lt _ _ hds, Outcome.read_of_lt _ _ hdc]
    simp only [Outcome.ok_bind]
    rw [getD_lt _ _ _ hds, getD_lt _ _ _ hdc] at hlt
    rw [if_pos hlt, Outcome.write, if_pos hdc, Outcome.ok_bind]
    have hr : InRange s (c.set d (s[d] - c[d] - 1)) := by
      refine ⟨by simpa using h.1, fun i hi => ?_⟩
      rw [getD_set hdc]
      split
      · rename_i e; subst e; rw [getD_lt _ _ _ hds]; omega
      · exact h.2 i hi
    rw [ih _ (fun x hx => hd x (by simp [hx])) hr]
    congr 1
    apply ext_getD (by simp [mirror_length])
    intro i hi
    rw [mirror_length] at hi
    rw [getD_mirror hi, getD_mirror hi, getD_set hdc, List.count_cons]
    have hi2 := h.2 i hi
    by_cases e : i = d
    · subst e
      simp only [beq_self_eq_true, if_true]
      rw [getD_lt _ _ _ hds, getD_lt _ _ _ hdc]
      have : (List.count i ds + 1) % 2 = 1 ↔ ¬ (List.count i ds % 2 = 1) := by omega
      by_cases hp : List.count i ds % 2 = 1
      · rw [if_pos hp, if_neg (by omega)]; omega
      · rw [if_neg hp, if_pos (by omega)]; omega
    · have e' : (d == i) = false := by simpa using fun h => e h.symm
      simp [e, e']

end Transform
end Verif
