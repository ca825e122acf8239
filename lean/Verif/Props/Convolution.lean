import Verif.Props.Transform
/-!
# C68: cross-correlation and convolution
-/
namespace Verif.Props
open Verif.Spec Verif.Transform Verif.Op

variable {T : Type} [Zero T] [Add T] [Mul T]

/-- Evaluation of `cross_corr2d(a, filter, {d1, d2})` on a fresh node. -/
def evalCorr (e : Env T) (d1 d2 : Nat) (a filt : Tensor T) : Outcome (Tensor T) :=
  forwardPass e (corrShaper d1 d2) (corrKernel d1 d2) none [some a, some filt]

/-- Evaluation of `conv2d(a, filter, {d1, d2})`, transform.ipp:562-566: the filter is flipped first. -/
def evalConv (e : Env T) (d1 d2 : Nat) (a filt : Tensor T) : Outcome (Tensor T) :=
  evalFlip e [d1, d2] filt >>= fun g => evalCorr e d1 d2 a g

/-- The shape of the valid cross-correlation: along both axes, as many positions as the filter fits in. -/
def validShape (s f : List Nat) (d1 d2 : Nat) : List Nat :=
  (s.set d1 (s.getD d1 0 - f.getD d1 0 + 1)).set d2 (s.getD d2 0 - f.getD d2 0 + 1)

/-- Either a result or undefined behaviour. -/
def OkUb {α : Type u} (x : Outcome α) : Prop := x = .ub ∨ ∃ v, x = .ok v

theorem OkUb.bind {α β : Type u} {x : Outcome α} {f : α → Outcome β} (h : OkUb x) (hf : ∀ v, x = .ok v → OkUb (f v)) :
    OkUb (x >>= f) := by
  rcases h with h | ⟨v, h⟩
  · rw [h]; exact .inl rfl
  · rw [h, Outcome.ok_bind]; exact hf v h

theorem OkUb.ok {α : Type u} (v : α) : OkUb (Outcome.ok v) := .inr ⟨v, rfl⟩

theorem OkUb.read {α : Type u} (l : List α) (i : Nat) : OkUb (Outcome.read l i) := by
  unfold Outcome.read
  cases l[i]? with
  | none => exact .inl rfl
  | some v => exact .inr ⟨v, rfl⟩

theorem OkUb.write {α : Type u} (l : List α) (i : Nat) (v : α) : OkUb (Outcome.write l i v) := by
  unfold Outcome.write
  split
  · exact .ok _
  · exact .inl rfl

theorem OkUb.bump (d : Nat) (l : List Nat) : OkUb (bump d l) := (OkUb.read l d).bind fun _ _ => .write _ _ _

theorem OkUb.flatIdx (s : Shape) (c : List Nat) : OkUb (s.flatIdx c) := by
  unfold Shape.flatIdx
  cases c[0]? with
  | none => exact .inl rfl
  | some v => exact .ok _

theorem OkUb.inner (src : List T) (inn : Shape) (d2 firstn j n k : Nat) (st : List Nat × T) :
    OkUb (corrInner src inn d2 firstn j n k st) := by
  induction n generalizing k st with
  | zero => exact .ok _
  | succ n ih =>
    obtain ⟨coord, acc⟩ := st
    exact (OkUb.flatIdx _ _).bind fun _ _ => (OkUb.read _ _).bind fun _ _ => (OkUb.read _ _).bind fun _ _ =>
      (OkUb.bump _ _).bind fun _ _ => ih _ _

theorem OkUb.outer (src : List T) (inn : Shape) (d1 d2 firstn secondn n j : Nat) (st : List Nat × T) :
    OkUb (corrOuter src inn d1 d2 firstn secondn n j st) := by
  induction n generalizing j st with
  | zero => exact .ok _
  | succ n ih =>
    exact (OkUb.inner _ _ _ _ _ _ _ _).bind fun _ _ => (OkUb.bump _ _).bind fun _ _ => ih _ _

theorem OkUb.fillFrom {α : Type u} (body : Nat → Outcome α) (hb : ∀ i, OkUb (body i)) (k i : Nat) (dest : List α) :
    OkUb (Outcome.fillFrom body k i dest) := by
  induction k generalizing i dest with
  | zero => exact .ok _
  | succ k ih => exact (hb i).bind fun _ _ => (OkUb.write _ _ _).bind fun _ _ => ih _ _

theorem fillFrom_all {α : Type u} (body : Nat → Outcome α) (k i : Nat) (dest d : List α)
    (h : Outcome.fillFrom body k i dest = .ok d) (j : Nat) (h1 : i ≤ j) (h2 : j < i + k) : ∃ v, body j = .ok v := by
  induction k generalizing i dest with
  | zero => omega
  | succ k ih =>
    rw [Outcome.fillFrom, Outcome.bind_eq_ok] at h
    obtain ⟨v, hv, h⟩ := h
    rw [Outcome.bind_eq_ok] at h
    obtain ⟨d', _, h⟩ := h
    by_cases hj : j = i
    · exact ⟨v, hj ▸ hv⟩
    · exact ih (i + 1) d' h (by omega) (by omega)

theorem bump_eq {d : Nat} {c : List Nat} (h : d < c.length) : bump d c = .ok (c.set d (c.getD d 0 + 1)) := by
  unfold bump
  rw [Outcome.read_of_lt _ _ h, Outcome.ok_bind, Outcome.write, if_pos h, getD_lt _ _ _ h]

/-- A finished inner loop has read the input at every one of its coordinates. -/
theorem inner_reads (src : List T) (inn : Shape) (hs : inn ≠ []) (d2 firstn j n k : Nat) (c : List Nat) (acc : T) (r : List Nat × T)
    (hd : d2 < c.length) (h : corrInner src inn d2 firstn j n k (c, acc) = .ok r) :
    r.1 = c.set d2 (c.getD d2 0 + n) ∧ ∀ m, m < n → flat inn (c.set d2 (c.getD d2 0 + m)) < src.length := by
  induction n generalizing k c acc with
  | zero =>
    simp only [corrInner, Outcome.ok.injEq] at h
    subst h
    refine ⟨?_, fun m hm => by omega⟩
    rw [Nat.add_zero, getD_lt _ _ _ hd]
    simp
  | succ n ih =>
    simp only [corrInner, Outcome.bind_eq_ok] at h
    obtain ⟨i, hi, x, hx, y, _, c', hc', h⟩ := h
    rw [bump_eq hd, Outcome.ok.injEq] at hc'
    subst hc'
    have hc : c ≠ [] := fun hh => by rw [hh] at hd; simp at hd
    rw [Shape.flatIdx_eq _ _ hs hc, Outcome.ok.injEq] at hi
    obtain ⟨h1, h2⟩ := ih (k + 1) _ _ (by simpa using hd) h
    have hg : (c.set d2 (c.getD d2 0 + 1)).getD d2 0 = c.getD d2 0 + 1 := by
      rw [getD_lt _ _ _ (by simpa using hd)]; simp
    rw [hg] at h1 h2
    refine ⟨by rw [h1, List.set_set]; congr 1; omega, fun m hm => ?_⟩
    by_cases h0 : m = 0
    · subst h0
      rw [Nat.add_zero, getD_lt _ _ _ hd, List.set_getElem_self, hi]
      rw [Outcome.read_eq_ok] at hx
      exact (List.getElem?_eq_some_iff.1 hx).1
    · have := h2 (m - 1) (by omega)
      rw [List.set_set] at this
      rw [show c.getD d2 0 + m = c.getD d2 0 + 1 + (m - 1) by omega]
      exact this

/-- A finished outer loop has read the input at every one of its coordinates: the second axis is never reset. -/
theorem outer_reads (src : List T) (inn : Shape) (hs : inn ≠ []) (d1 d2 firstn secondn n j : Nat) (c : List Nat) (acc : T)
    (r : List Nat × T) (hne : d1 ≠ d2) (hd1 : d1 < c.length) (hd : d2 < c.length)
    (h : corrOuter src inn d1 d2 firstn secondn n j (c, acc) = .ok r) (m k : Nat) (hm : m < n) (hk : k < secondn) :
    flat inn ((c.set d1 (c.getD d1 0 + m)).set d2 (c.getD d2 0 + (m * secondn + k))) < src.length := by
  induction n generalizing j c acc m with
  | zero => omega
  | succ n ih =>
    simp only [corrOuter, Outcome.bind_eq_ok] at h
    obtain ⟨st, hst, c', hc', h⟩ := h
    obtain ⟨h1, h2⟩ := inner_reads src inn hs d2 firstn j secondn 0 c acc st hd hst
    by_cases h0 : m = 0
    · subst h0
      have := h2 k hk
      rw [Nat.zero_mul, Nat.zero_add, Nat.add_zero]
      rwa [show c.set d1 (c.getD d1 0) = c by rw [getD_lt _ _ _ hd1]; simp]
    · rw [h1, bump_eq (by simpa using hd1), Outcome.ok.injEq] at hc'
      subst hc'
      have hg1 : (c.set d2 (c.getD d2 0 + secondn)).getD d1 0 = c.getD d1 0 := by
        rw [getD_lt _ _ _ (by simpa using hd1), getD_lt _ _ _ hd1, List.getElem_set_ne (Ne.symm hne)]
      rw [hg1] at h
      have hg2 : ((c.set d2 (c.getD d2 0 + secondn)).set d1 (c.getD d1 0 + 1)).getD d1 0 = c.getD d1 0 + 1 := by
        rw [getD_lt _ _ _ (by simpa using hd1)]; simp
      have hg3 : ((c.set d2 (c.getD d2 0 + secondn)).set d1 (c.getD d1 0 + 1)).getD d2 0 = c.getD d2 0 + secondn := by
        rw [getD_lt _ _ _ (by simpa using hd), List.getElem_set_ne hne]; simp
      have := ih (j + 1) _ st.2 (by simpa using hd1) (by simpa using hd) h (m - 1) (by omega)
      rw [hg2, hg3, List.set_set, List.set_comm _ _ hne, List.set_comm _ _ (Ne.symm hne)] at this
      rw [List.set_comm _ _ (Ne.symm hne), List.set_set] at this
      rw [show c.getD d1 0 + m = c.getD d1 0 + 1 + (m - 1) by omega,
        show c.getD d2 0 + (m * secondn + k) = c.getD d2 0 + secondn + ((m - 1) * secondn + k) by
          obtain ⟨m', rfl⟩ : ∃ m', m = m' + 1 := ⟨m - 1, by omega⟩
          simp [Nat.succ_mul]; omega]
      exact this

theorem flat_set (s c : List Nat) (d x : Nat) (hd : d < s.length) (hc : d < c.length) :
    flat s (c.set d x) + vol (s.take d) * c.getD d 0 = flat s c + vol (s.take d) * x := by
  induction s generalizing c d with
  | nil => simp at hd
  | cons a s ih =>
    match c, d, hc with
    | c0 :: cs, 0, _ => simp [flat, vol]; omega
    | c0 :: cs, d + 1, hc =>
      have := ih cs d (by simpa using hd) (by simpa using hc)
      simp only [List.set_cons_succ, flat, List.take_succ_cons, vol, List.getD_cons_succ]
      have h2 := congrArg (a * ·) this
      simp only [Nat.mul_add] at h2
      rw [Nat.mul_assoc, Nat.mul_assoc]
      omega

/-- The last coordinate of a shape. -/
theorem flat_last (s : List Nat) (hs : ∀ d ∈ s, 0 < d) : flat s (s.map (· - 1)) + 1 = vol s := by
  induction s with
  | nil => rfl
  | cons a s ih =>
    have := ih fun d hd => hs d (by simp [hd])
    have ha := hs a (by simp)
    simp only [List.map_cons, flat, vol]
    rw [← this, Nat.mul_add]
    omega

theorem coords_last (s : List Nat) (hs : ∀ d ∈ s, 0 < d) : coords s (vol s - 1) = s.map (· - 1) := by
  have h := flat_last s hs
  rw [show vol s - 1 = flat s (s.map (· - 1)) by omega]
  apply Shape.coords_flat
  refine ⟨by simp, fun i hi => ?_⟩
  rw [getD_lt _ _ _ (by simpa using hi), getD_lt _ _ _ hi, List.getElem_map]
  have := hs _ (List.getElem_mem hi)
  omega

theorem vol_take_mono (s : List Nat) (hs : ∀ d ∈ s, 0 < d) (i j : Nat) (hij : i ≤ j) : vol (s.take i) ≤ vol (s.take j) := by
  have : s.take j = s.take i ++ (s.take j).drop i := by
    have := (List.take_append_drop i (s.take j)).symm
    rwa [List.take_take, Nat.min_eq_left hij] at this
  rw [this, Shape.vol_append]
  exact Nat.le_mul_of_pos_right _ (Shape.vol_pos fun d hd => hs d (List.mem_of_mem_take (List.mem_of_mem_drop hd)))

theorem vol_take_succ (s : List Nat) (i : Nat) (hi : i < s.length) : vol (s.take (i + 1)) = vol (s.take i) * s.getD i 0 := by
  rw [List.take_add_one, Shape.vol_append, List.getElem?_eq_getElem hi, getD_lt _ _ _ hi]
  simp [vol]

theorem wrapSub_eq {a b : Nat} (h : b ≤ a) (ha : a < 2 ^ 64) : wrapSub a b = a - b := by
  unfold wrapSub
  rw [show a + 2 ^ 64 - b = (a - b) + 2 ^ 64 by omega, Nat.add_mod_right, Nat.mod_eq_of_lt (by omega)]

theorem corrShaper_eq {s f : List Nat} {d1 d2 : Nat} (hne : d1 ≠ d2) (h1 : d1 < s.length) (h2 : d2 < s.length)
    (h3 : d1 < f.length) (h4 : d2 < f.length) :
    corrShaper d1 d2 [s, f] = .ok ((s.set d1 (wrapSub (s.getD d1 0) (f.getD d1 0 + 1))).set d2 (wrapSub (s.getD d2 0) (f.getD d2 0 + 1))) := by
  simp only [corrShaper, corrExtent]
  rw [Outcome.read_of_lt _ _ h3, Outcome.ok_bind, Outcome.read_of_lt _ _ h1, Outcome.ok_bind, Outcome.write, if_pos h1,
    Outcome.ok_bind, Outcome.read_of_lt _ _ h4, Outcome.ok_bind, Outcome.read_of_lt _ _ (by simpa using h2), Outcome.ok_bind,
    Outcome.write, if_pos (by simpa using h2), List.getElem_set_ne hne, getD_lt _ _ _ h1, getD_lt _ _ _ h2,
    getD_lt _ _ _ h3, getD_lt _ _ _ h4]

/-- The shape the program computes when there is room: two extents less than the documented one. -/
def shortShape (s f : List Nat) (d1 d2 : Nat) : List Nat :=
  (s.set d1 (s.getD d1 0 - f.getD d1 0 - 1)).set d2 (s.getD d2 0 - f.getD d2 0 - 1)

theorem evalCorr_eq (e : Env T) (d1 d2 : Nat) (a filt : Tensor T) (s f : List Nat) (fa ff : List Nat → T)
    (ha : Holds a s fa) (hf : Holds filt f ff) :
    evalCorr e d1 d2 a filt = (corrShaper d1 d2 [s, f] >>= fun o => Outcome.assert o.isFullyDefined >>= fun _ =>
      transfer (corrKernel d1 d2) (Tensor.new e o) [a, filt]) := by
  have := forwardPass_new e (corrShaper d1 d2) (corrKernel d1 d2) [(a, s, fa), (filt, f, ff)] (by
    intro x hx
    simp only [List.mem_cons, List.not_mem_nil, or_false] at hx
    rcases hx with rfl | rfl
    · exact ha
    · exact hf)
  unfold evalCorr
  simpa using this

/-- C68, negative: whenever the filter leaves room, the evaluation reads beyond the input: undefined behaviour for
every input, filter and element type, along any two axes in ascending order (the default among them). -/
theorem c68_out_of_bounds (e : Env T) (a filt : Tensor T) (s f : List Nat) (fa ff : List Nat → T) (d1 d2 : Nat)
    (ha : Holds a s fa) (hf : Holds filt f ff) (hlt : d1 < d2) (hs : d2 < s.length) (hfl : d2 < f.length)
    (hbig : ∀ x ∈ s, x < 2 ^ 64) (h1 : f.getD d1 0 + 1 < s.getD d1 0) (h2 : f.getD d2 0 + 1 < s.getD d2 0)
    (hm : e.fits (Shape.nElems (shortShape s f d1 d2)) = true) :
    corrShaper d1 d2 [s, f] = .ok (shortShape s f d1 d2) ∧ evalCorr e d1 d2 a filt = .ub := by
  have hs1 : d1 < s.length := by omega
  have hf1 : d1 < f.length := by omega
  have hb1 : s.getD d1 0 < 2 ^ 64 := by rw [getD_lt _ _ _ hs1]; exact hbig _ (List.getElem_mem hs1)
  have hb2 : s.getD d2 0 < 2 ^ 64 := by rw [getD_lt _ _ _ hs]; exact hbig _ (List.getElem_mem hs)
  have hp1 : 0 < f.getD d1 0 := by rw [getD_lt _ _ _ hf1]; exact hf.full.2 _ (List.getElem_mem hf1)
  have hp2 : 0 < f.getD d2 0 := by rw [getD_lt _ _ _ hfl]; exact hf.full.2 _ (List.getElem_mem hfl)
  have hsh : corrShaper d1 d2 [s, f] = .ok (shortShape s f d1 d2) := by
    rw [corrShaper_eq (by omega) hs1 hs hf1 hfl, wrapSub_eq (by omega) hb1, wrapSub_eq (by omega) hb2]
    simp [shortShape, Nat.sub_sub]
  refine ⟨hsh, ?_⟩
  generalize hO : shortShape s f d1 d2 = o at hsh hm
  have hol : o.length = s.length := by rw [← hO]; simp [shortShape]
  have ho1 : o.getD d1 0 = s.getD d1 0 - f.getD d1 0 - 1 := by
    rw [← hO, shortShape, getD_lt _ _ _ (by simpa using hs1), List.getElem_set_ne (by omega)]; simp
  have ho2 : o.getD d2 0 = s.getD d2 0 - f.getD d2 0 - 1 := by
    rw [← hO, shortShape, getD_lt _ _ _ (by simpa using hs)]; simp
  have hoo : ∀ i, i ≠ d1 → i ≠ d2 → o.getD i 0 = s.getD i 0 := by
    intro i hi1 hi2
    rw [← hO, shortShape]
    simp only [List.getD_eq_getElem?_getD]
    rw [List.getElem?_set_ne (Ne.symm hi2), List.getElem?_set_ne (Ne.symm hi1)]
  have hofull : Full o := by
    refine ⟨fun hh => by rw [hh] at hol; simp at hol; omega, pos_iff_getD.2 fun i hi => ?_⟩
    by_cases hi1 : i = d1
    · rw [hi1, ho1]; omega
    · by_cases hi2 : i = d2
      · rw [hi2, ho2]; omega
      · rw [hoo i hi1 hi2]
        exact pos_iff_getD.1 ha.full.2 i (by omega)
  rw [evalCorr_eq e d1 d2 a filt s f fa ff ha hf, hsh, Outcome.ok_bind, (Shape.isFullyDefined_iff _).2 hofull, Outcome.assert_true,
    Outcome.ok_bind]
  have htr := transfer_new e (corrKernel d1 d2) o hofull hm [(a, s, fa), (filt, f, ff)] (by
    intro x hx
    simp only [List.mem_cons, List.not_mem_nil, or_false] at hx
    rcases hx with rfl | rfl
    · exact ha
    · exact hf)
  simp only [List.map_cons, List.map_nil] at htr
  rw [htr]
  simp only [corrKernel]
  rw [Outcome.read_of_lt _ _ hs1, Outcome.ok_bind, Outcome.read_of_lt _ _ (by omega), Outcome.ok_bind,
    Outcome.read_of_lt _ _ hs, Outcome.ok_bind, Outcome.read_of_lt _ _ (by omega), Outcome.ok_bind,
    ← getD_lt s d1 0 hs1, ← getD_lt s d2 0 hs, ← getD_lt o d1 0 (by omega), ← getD_lt o d2 0 (by omega),
    wrapSub_eq (by omega) hb1, wrapSub_eq (by omega) hb2, ho1, ho2,
    show s.getD d1 0 - (s.getD d1 0 - f.getD d1 0 - 1) = f.getD d1 0 + 1 by omega,
    show s.getD d2 0 - (s.getD d2 0 - f.getD d2 0 - 1) = f.getD d2 0 + 1 by omega]
  have hok : OkUb (Outcome.fill (Shape.nElems o) (fun i => Shape.coordinateFromIdx o i >>= fun coord =>
      corrOuter (bufOf s fa) s d1 d2 (f.getD d1 0 + 1) (f.getD d2 0 + 1) (f.getD d1 0 + 1) 0 (coord, 0) >>= fun st =>
        .ok st.2) ((List.range (vol o)).map e.junk)) := by
    refine OkUb.fillFrom _ (fun i => ?_) _ _ _
    rw [Shape.coordinateFromIdx_eq hofull.2, Outcome.ok_bind]
    exact (OkUb.outer _ _ _ _ _ _ _ _ _).bind fun _ _ => .ok _
  rcases hok with hu | ⟨d, hd⟩
  · rw [hu]; rfl
  · exfalso
    have hv : 0 < vol o := Shape.vol_pos hofull.2
    obtain ⟨v, hv'⟩ := fillFrom_all _ _ _ _ _ hd (vol o - 1) (by omega) (by rw [Shape.nElems_eq hofull.1]; omega)
    rw [Shape.coordinateFromIdx_eq hofull.2, Outcome.ok_bind, Outcome.bind_eq_ok] at hv'
    obtain ⟨r, hr, _⟩ := hv'
    rw [coords_last o hofull.2] at hr
    have hread := outer_reads (bufOf s fa) s ha.full.1 d1 d2 _ _ _ 0 _ _ r (by omega) (by simpa [hol] using hs1)
      (by simpa [hol] using hs) hr (f.getD d1 0) (f.getD d2 0) (by omega) (by omega)
    have hlen : (bufOf s fa).length = vol s := by simp [bufOf]
    have hM : ((o.map (· - 1)).set d1 (s.getD d1 0 - 1)).set d2 (s.getD d2 0 - 1) = s.map (· - 1) := by
      apply ext_getD (by simp [hol])
      intro i hi
      have hi' : i < s.length := by simpa [hol] using hi
      rw [getD_set (by simpa [hol] using hs), getD_set (by simpa [hol] using hs1)]
      by_cases e2 : i = d2
      · subst e2
        rw [if_pos rfl, getD_lt _ _ _ hi', getD_lt (s.map (· - 1)) i 0 (by simpa using hi')]; simp
      · by_cases e1 : i = d1
        · subst e1
          rw [if_neg (by omega), if_pos rfl, getD_lt _ _ _ hi', getD_lt (s.map (· - 1)) i 0 (by simpa using hi')]; simp
        · rw [if_neg (by omega), if_neg (by omega)]
          have := hoo i e1 e2
          rw [getD_lt _ _ _ (by omega), getD_lt _ _ _ hi'] at this
          rw [getD_lt _ _ _ (by simpa [hol] using hi'), getD_lt _ _ _ (by simpa using hi')]
          simp [this]
    have hg1 : (o.map (· - 1)).getD d1 0 = s.getD d1 0 - f.getD d1 0 - 2 := by
      rw [getD_lt _ _ _ (by simp; omega)]
      rw [getD_lt _ _ _ (by omega)] at ho1
      simp only [List.getElem_map, ho1]; omega
    have hg2 : (o.map (· - 1)).getD d2 0 = s.getD d2 0 - f.getD d2 0 - 2 := by
      rw [getD_lt _ _ _ (by simp; omega)]
      rw [getD_lt _ _ _ (by omega)] at ho2
      simp only [List.getElem_map, ho2]; omega
    rw [hg1, hg2, hlen] at hread
    have hc : ((o.map (· - 1)).set d1 (s.getD d1 0 - f.getD d1 0 - 2 + f.getD d1 0)).set d2
          (s.getD d2 0 - f.getD d2 0 - 2 + (f.getD d1 0 * (f.getD d2 0 + 1) + f.getD d2 0)) =
        ((s.map (· - 1)).set d1 (s.getD d1 0 - f.getD d1 0 - 2 + f.getD d1 0)).set d2
          (s.getD d2 0 - f.getD d2 0 - 2 + (f.getD d1 0 * (f.getD d2 0 + 1) + f.getD d2 0)) := by
      rw [← hM]
      generalize s.getD d1 0 - f.getD d1 0 - 2 + f.getD d1 0 = y
      generalize s.getD d2 0 - f.getD d2 0 - 2 + (f.getD d1 0 * (f.getD d2 0 + 1) + f.getD d2 0) = z
      rw [List.set_comm _ _ (show d2 ≠ d1 by omega), List.set_set, List.set_set]
    rw [hc] at hread
    have e1 := flat_set s (s.map (· - 1)) d1 (s.getD d1 0 - f.getD d1 0 - 2 + f.getD d1 0) hs1 (by simpa using hs1)
    have e2 := flat_set s ((s.map (· - 1)).set d1 (s.getD d1 0 - f.getD d1 0 - 2 + f.getD d1 0)) d2
      (s.getD d2 0 - f.getD d2 0 - 2 + (f.getD d1 0 * (f.getD d2 0 + 1) + f.getD d2 0)) hs (by simpa using hs)
    have hlast := flat_last s ha.full.2
    have m1 : (s.map (· - 1)).getD d1 0 = s.getD d1 0 - 1 := by
      rw [getD_lt _ _ _ (by simpa using hs1), getD_lt _ _ _ hs1]; simp
    have m2 : ((s.map (· - 1)).set d1 (s.getD d1 0 - f.getD d1 0 - 2 + f.getD d1 0)).getD d2 0 = s.getD d2 0 - 1 := by
      rw [getD_set (by simpa using hs1), if_neg (by omega), getD_lt _ _ _ (by simpa using hs), getD_lt _ _ _ hs]; simp
    rw [m1] at e1
    rw [m2] at e2
    have hp : 2 ≤ f.getD d1 0 * (f.getD d2 0 + 1) := by
      calc 2 = 1 * 2 := rfl
        _ ≤ _ := Nat.mul_le_mul hp1 (by omega)
    have g1 : s.getD d1 0 - f.getD d1 0 - 2 + f.getD d1 0 + 1 = s.getD d1 0 - 1 := by omega
    have g2 : s.getD d2 0 - 1 + 1 ≤ s.getD d2 0 - f.getD d2 0 - 2 + (f.getD d1 0 * (f.getD d2 0 + 1) + f.getD d2 0) := by omega
    have hS : vol (s.take d1) * 2 ≤ vol (s.take d2) := by
      calc vol (s.take d1) * 2 ≤ vol (s.take d1) * s.getD d1 0 := Nat.mul_le_mul (Nat.le_refl _) (by omega)
        _ = vol (s.take (d1 + 1)) := (vol_take_succ s d1 hs1).symm
        _ ≤ _ := vol_take_mono s ha.full.2 _ _ (by omega)
    have hpos : 0 < vol (s.take d1) := Shape.vol_pos fun d hd => ha.full.2 d (List.mem_of_mem_take hd)
    rw [← g1, Nat.mul_add] at e1
    have k2 := Nat.mul_le_mul (Nat.le_refl (vol (s.take d2))) g2
    rw [Nat.mul_add] at k2
    omega

/-- C68: the shape is that of the documented result for no input whatever. -/
theorem c68_shape_wrong (s f o : List Nat) (d1 d2 : Nat) (hne : d1 ≠ d2) (h1 : d1 < s.length) (h2 : d2 < s.length)
    (hf : Full f) (hbig : ∀ x ∈ s, x < 2 ^ 64) (hfit : f.getD d1 0 ≤ s.getD d1 0)
    (h : corrShaper d1 d2 [s, f] = .ok o) : o ≠ validShape s f d1 d2 := by
  by_cases h3 : d1 < f.length
  · by_cases h4 : d2 < f.length
    · rw [corrShaper_eq hne h1 h2 h3 h4, Outcome.ok.injEq] at h
      intro hh
      have hg := congrArg (fun l => l.getD d1 0) (h.trans hh)
      simp only [validShape] at hg
      rw [getD_set (by simpa using h2), if_neg hne, getD_set (by simpa using h1), if_pos rfl,
        getD_set (by simpa using h2), if_neg hne, getD_set (by simpa using h1), if_pos rfl] at hg
      have hb1 : s.getD d1 0 < 2 ^ 64 := by rw [getD_lt _ _ _ h1]; exact hbig _ (List.getElem_mem h1)
      have hp1 : 0 < f.getD d1 0 := by rw [getD_lt _ _ _ h3]; exact hf.2 _ (List.getElem_mem h3)
      unfold wrapSub at hg
      omega
    · simp only [corrShaper, corrExtent, Outcome.bind_eq_ok] at h
      obtain ⟨_, _, x, hx, _⟩ := h
      simp [Outcome.read, List.getElem?_eq_none (show f.length ≤ d2 by omega)] at hx
  · simp only [corrShaper, corrExtent, Outcome.bind_eq_ok] at h
    obtain ⟨_, ⟨x, hx, _⟩, _⟩ := h
    simp [Outcome.read, List.getElem?_eq_none (show f.length ≤ d1 by omega)] at hx

/-- C68: a filter that fits with one position to spare along an axis makes the result's extent 0, and the evaluation
aborts. -/
theorem c68_tight_aborts (e : Env T) (a filt : Tensor T) (s f : List Nat) (fa ff : List Nat → T) (d1 d2 : Nat)
    (ha : Holds a s fa) (hf : Holds filt f ff) (hne : d1 ≠ d2) (hs1 : d1 < s.length) (hs2 : d2 < s.length)
    (hf1 : d1 < f.length) (hf2 : d2 < f.length) (h : s.getD d1 0 = f.getD d1 0 + 1 ∨ s.getD d2 0 = f.getD d2 0 + 1) :
    evalCorr e d1 d2 a filt = .abort := by
  rw [evalCorr_eq e d1 d2 a filt s f fa ff ha hf, corrShaper_eq hne hs1 hs2 hf1 hf2, Outcome.ok_bind]
  have : Shape.isFullyDefined ((s.set d1 (wrapSub (s.getD d1 0) (f.getD d1 0 + 1))).set d2
      (wrapSub (s.getD d2 0) (f.getD d2 0 + 1))) = false := by
    rw [Bool.eq_false_iff]
    intro hh
    have hp := pos_iff_getD.1 ((Shape.isFullyDefined_iff _).1 hh).2
    rcases h with h | h
    · have := hp d1 (by simpa using hs1)
      rw [getD_set (by simpa using hs2), if_neg hne, getD_set (by simpa using hs1), if_pos rfl, h] at this
      simp [wrapSub] at this
    · have := hp d2 (by simpa using hs2)
      rw [getD_set (by simpa using hs2), if_pos rfl, h] at this
      simp [wrapSub] at this
  rw [this]
  rfl

/-- C68: the values in the filter have no influence on the outcome, along any axes: two filters of the same shape give
the same. -/
theorem c68_filter_ignored (e : Env T) (a filt filt' : Tensor T) (s f : List Nat) (fa ff ff' : List Nat → T) (d1 d2 : Nat)
    (ha : Holds a s fa) (hf : Holds filt f ff) (hf' : Holds filt' f ff') (he : ∀ n, e.fits n = true) :
    evalCorr e d1 d2 a filt = evalCorr e d1 d2 a filt' := by
  rw [evalCorr_eq e d1 d2 a filt s f fa ff ha hf, evalCorr_eq e d1 d2 a filt' s f fa ff' ha hf']
  cases ho : corrShaper d1 d2 [s, f] with
  | ok o =>
    simp only [Outcome.ok_bind]
    cases hfd : o.isFullyDefined with
    | false => rfl
    | true =>
      have hofull := (Shape.isFullyDefined_iff o).1 hfd
      have t1 := transfer_new e (corrKernel d1 d2) o hofull (he _) [(a, s, fa), (filt, f, ff)] (by
        intro x hx
        simp only [List.mem_cons, List.not_mem_nil, or_false] at hx
        rcases hx with rfl | rfl
        · exact ha
        · exact hf)
      have t2 := transfer_new e (corrKernel d1 d2) o hofull (he _) [(a, s, fa), (filt', f, ff')] (by
        intro x hx
        simp only [List.mem_cons, List.not_mem_nil, or_false] at hx
        rcases hx with rfl | rfl
        · exact ha
        · exact hf')
      simp only [List.map_cons, List.map_nil] at t1 t2
      simp only [Outcome.assert_true, Outcome.ok_bind, t1, t2]
      rfl
  | throw x => rfl
  | abort => rfl
  | ub => rfl

/-- C68: convolution is the same as cross-correlation, the flipping of the filter being lost. -/
theorem c68_conv_same (e : Env T) (a filt : Tensor T) (s f : List Nat) (fa ff : List Nat → T) (d1 d2 : Nat)
    (ha : Holds a s fa) (hf : Holds filt f ff) (h1 : d1 < f.length) (h2 : d2 < f.length) (he : ∀ n, e.fits n = true) :
    evalConv e d1 d2 a filt = evalCorr e d1 d2 a filt := by
  obtain ⟨g, hg, hgh⟩ := c21_flip e filt f [d1, d2] ff hf (by simp [h1, h2]) (he _)
  unfold evalConv
  rw [hg, Outcome.ok_bind]
  exact c68_filter_ignored e a g filt s f fa _ ff d1 d2 ha hgh hf he

/-! ### concrete instances -/

/-- A 3x3 input and a 1x1 filter: one element of output and 2x2 rounds, the last beyond the input. -/
example : evalCorr ({ junk := fun _ => 7, zero := 0, fits := fun _ => true } : Env Int) 0 1
    ⟨some [1, 2, 3, 4, 5, 6, 7, 8, 9], [3, 3], [3, 3]⟩ ⟨some [1], [1, 1], [1, 1]⟩ = .ub := rfl

/-- With the axes exchanged the same reads stay inside; the result is the sum of products of the input with itself. -/
example : ∃ t', evalCorr ({ junk := fun _ => 7, zero := 0, fits := fun _ => true } : Env Int) 1 0
    ⟨some [1, 2, 3, 4, 5, 6, 7, 8, 9], [3, 3], [3, 3]⟩ ⟨some [1], [1, 1], [1, 1]⟩ = .ok t' ∧
    t'.raw = some [1 * 1 + 2 * 3 + 6 * 2 + 7 * 4] ∧ t'.alloc = [1, 1] := ⟨_, rfl, by decide, rfl⟩

example : validShape [5, 4, 2] [2, 3] 0 1 = [4, 2, 2] ∧ corrShaper 0 1 [[5, 6, 2], [2, 3]] = .ok [2, 2, 2] := ⟨rfl, rfl⟩

/-- A filter larger than the input: the extent wraps around. -/
example : corrShaper 0 1 [[2, 5], [3, 1]] = .ok [2 ^ 64 - 2, 3] := rfl

end Verif.Props
