import Verif.Props.Convolution
/-!
# C68: the values of a cross-correlation that stays within the input
-/
namespace Verif.Props
open Verif.Spec Verif.Transform Verif.Op

variable {T : Type} [Zero T] [Add T] [Mul T]

/-- What the kernel adds up at `c`, where `el i` is element number `i` of the input: products of the input with itself,
the second axis never taken back. -/
def selfCorr (s : List Nat) (el : Nat → T) (d1 d2 n1 n2 : Nat) (c : List Nat) : T :=
  (List.range' 0 n1).foldl (fun a j => (List.range' 0 n2).foldl (fun a k =>
    a + el (flat s ((c.set d1 (c.getD d1 0 + j)).set d2 (c.getD d2 0 + (j * n2 + k)))) * el (k * n1 + j)) a) 0

theorem inner_value (src : List T) (inn : Shape) (hs : inn ≠ []) (el : Nat → T) (hel : ∀ i x, Outcome.read src i = .ok x → x = el i)
    (d2 firstn j n k b : Nat) (c0 : List Nat) (acc : T) (r : List Nat × T)
    (hd : d2 < c0.length) (h : corrInner src inn d2 firstn j n k (c0.set d2 (b + k), acc) = .ok r) :
    r = (c0.set d2 (b + (k + n)), (List.range' k n).foldl (fun a k => a + el (flat inn (c0.set d2 (b + k))) * el (k * firstn + j)) acc) := by
  induction n generalizing k acc with
  | zero =>
    simp only [corrInner, Outcome.ok.injEq] at h
    subst h
    simp
  | succ n ih =>
    simp only [corrInner, Outcome.bind_eq_ok] at h
    obtain ⟨i, hi, x, hx, y, hy, c', hc', h⟩ := h
    rw [bump_eq (by simpa using hd), Outcome.ok.injEq] at hc'
    subst hc'
    have hc : c0.set d2 (b + k) ≠ [] := fun hh => by
      have := congrArg List.length hh
      simp at this
      rw [this] at hd; simp at hd
    rw [Shape.flatIdx_eq _ _ hs hc, Outcome.ok.injEq] at hi
    have hg : (c0.set d2 (b + k)).getD d2 0 = b + k := by
      rw [getD_lt _ _ _ (by simpa using hd)]; simp
    rw [hg, List.set_set, Nat.add_assoc] at h
    rw [ih (k + 1) _ h, hel _ _ hx, hel _ _ hy, ← hi, List.range'_succ, List.foldl_cons]
    rw [show k + 1 + n = k + (n + 1) by omega]

theorem outer_value (src : List T) (inn : Shape) (hs : inn ≠ []) (el : Nat → T) (hel : ∀ i x, Outcome.read src i = .ok x → x = el i)
    (d1 d2 firstn secondn n j b1 b2 : Nat) (c0 : List Nat) (acc : T)
    (r : List Nat × T) (hne : d1 ≠ d2) (hd1 : d1 < c0.length) (hd : d2 < c0.length)
    (h : corrOuter src inn d1 d2 firstn secondn n j ((c0.set d1 (b1 + j)).set d2 (b2 + j * secondn), acc) = .ok r) :
    r.2 = (List.range' j n).foldl (fun a j => (List.range' 0 secondn).foldl (fun a k =>
      a + el (flat inn ((c0.set d1 (b1 + j)).set d2 (b2 + (j * secondn + k)))) * el (k * firstn + j)) a) acc := by
  induction n generalizing j acc with
  | zero =>
    simp only [corrOuter, Outcome.ok.injEq] at h
    subst h
    rfl
  | succ n ih =>
    simp only [corrOuter, Outcome.bind_eq_ok] at h
    obtain ⟨st, hst, c', hc', h⟩ := h
    have hst' := inner_value src inn hs el hel d2 firstn j secondn 0 (b2 + j * secondn) (c0.set d1 (b1 + j)) acc st (by simpa using hd) hst
    rw [hst'] at hc' h
    simp only at hc' h
    rw [bump_eq (by simpa using hd1), Outcome.ok.injEq] at hc'
    subst hc'
    have hg1 : ((c0.set d1 (b1 + j)).set d2 (b2 + j * secondn + (0 + secondn))).getD d1 0 = b1 + j := by
      rw [getD_lt _ _ _ (by simpa using hd1), List.getElem_set_ne (Ne.symm hne)]; simp
    rw [hg1, List.set_comm _ _ (Ne.symm hne), List.set_set] at h
    rw [show b1 + j + 1 = b1 + (j + 1) by omega, show b2 + j * secondn + (0 + secondn) = b2 + (j + 1) * secondn by rw [Nat.succ_mul]; omega] at h
    rw [ih (j + 1) _ h, List.range'_succ, List.foldl_cons]
    simp only [Nat.add_assoc]

/-- C68: a cross-correlation that gives a result gives, at every position, sums of products of the input with itself:
element number `k * n1 + j` of the input stands in for the filter. -/
theorem c68_value (e : Env T) (a filt t' : Tensor T) (s f : List Nat) (fa ff : List Nat → T) (d1 d2 : Nat)
    (ha : Holds a s fa) (hf : Holds filt f ff) (hne : d1 ≠ d2) (hs1 : d1 < s.length) (hs : d2 < s.length) (hf1 : d1 < f.length) (hfl : d2 < f.length)
    (hbig : ∀ x ∈ s, x < 2 ^ 64) (h1 : f.getD d1 0 + 1 < s.getD d1 0) (h2 : f.getD d2 0 + 1 < s.getD d2 0)
    (hm : e.fits (Shape.nElems (shortShape s f d1 d2)) = true) (hr : evalCorr e d1 d2 a filt = .ok t') :
    Holds t' (shortShape s f d1 d2) (selfCorr s (fun i => fa (coords s i)) d1 d2 (f.getD d1 0 + 1) (f.getD d2 0 + 1)) := by
  have hb1 : s.getD d1 0 < 2 ^ 64 := by rw [getD_lt _ _ _ hs1]; exact hbig _ (List.getElem_mem hs1)
  have hb2 : s.getD d2 0 < 2 ^ 64 := by rw [getD_lt _ _ _ hs]; exact hbig _ (List.getElem_mem hs)
  have hsh : corrShaper d1 d2 [s, f] = .ok (shortShape s f d1 d2) := by
    rw [corrShaper_eq hne hs1 hs hf1 hfl, wrapSub_eq (by omega) hb1, wrapSub_eq (by omega) hb2]
    simp [shortShape, Nat.sub_sub]
  generalize hO : shortShape s f d1 d2 = o at hsh hm
  have hol : o.length = s.length := by rw [← hO]; simp [shortShape]
  have ho1 : o.getD d1 0 = s.getD d1 0 - f.getD d1 0 - 1 := by
    rw [← hO, shortShape, getD_lt _ _ _ (by simpa using hs1), List.getElem_set_ne (Ne.symm hne)]; simp
  have ho2 : o.getD d2 0 = s.getD d2 0 - f.getD d2 0 - 1 := by
    rw [← hO, shortShape, getD_lt _ _ _ (by simpa using hs)]; simp
  have hoo : ∀ i, i ≠ d1 → i ≠ d2 → o.getD i 0 = s.getD i 0 := by
    intro i hi1 hi2
    rw [← hO, shortShape]
    simp only [List.getD_eq_getElem?_getD]
    rw [List.getElem?_set_ne (Ne.symm hi2), List.getElem?_set_ne (Ne.symm hi1)]
  have hofull : Full o := by
    refine ⟨fun hh => by rw [hh] at hol; simp at hol; omega, pos_iff_getD.2 fun i hi => ?_⟩
    by_cases hi1 : i = d1
    · rw [hi1, ho1]; omega
    · by_cases hi2 : i = d2
      · rw [hi2, ho2]; omega
      · rw [hoo i hi1 hi2]
        exact pos_iff_getD.1 ha.full.2 i (by omega)
  rw [evalCorr_eq e d1 d2 a filt s f fa ff ha hf, hsh, Outcome.ok_bind, (Shape.isFullyDefined_iff _).2 hofull, Outcome.assert_true,
    Outcome.ok_bind] at hr
  have htr := transfer_new e (corrKernel d1 d2) o hofull hm [(a, s, fa), (filt, f, ff)] (by
    intro x hx
    simp only [List.mem_cons, List.not_mem_nil, or_false] at hx
    rcases hx with rfl | rfl
    · exact ha
    · exact hf)
  simp only [List.map_cons, List.map_nil] at htr
  rw [htr] at hr
  simp only [corrKernel] at hr
  rw [Outcome.read_of_lt _ _ hs1, Outcome.ok_bind, Outcome.read_of_lt _ _ (by omega), Outcome.ok_bind,
    Outcome.read_of_lt _ _ hs, Outcome.ok_bind, Outcome.read_of_lt _ _ (by omega), Outcome.ok_bind,
    ← getD_lt s d1 0 hs1, ← getD_lt s d2 0 hs, ← getD_lt o d1 0 (by omega), ← getD_lt o d2 0 (by omega),
    wrapSub_eq (by omega) hb1, wrapSub_eq (by omega) hb2, ho1, ho2,
    show s.getD d1 0 - (s.getD d1 0 - f.getD d1 0 - 1) = f.getD d1 0 + 1 by omega,
    show s.getD d2 0 - (s.getD d2 0 - f.getD d2 0 - 1) = f.getD d2 0 + 1 by omega, Outcome.bind_eq_ok] at hr
  obtain ⟨d, hd, ht⟩ := hr
  have hel : ∀ i x, Outcome.read (bufOf s fa) i = .ok x → x = fa (coords s i) := by
    intro i x hx
    have hx' := hx
    rw [Outcome.read_eq_ok] at hx'
    have := (List.getElem?_eq_some_iff.1 hx').1
    rw [read_bufOf ha.full.2 fa i (by simpa using this), Outcome.ok.injEq] at hx
    exact hx.symm
  have hbody : ∀ i, i < vol o → InRange o (coords o i) → (Shape.coordinateFromIdx o i >>= fun coord =>
      corrOuter (bufOf s fa) s d1 d2 (f.getD d1 0 + 1) (f.getD d2 0 + 1) (f.getD d1 0 + 1) 0 (coord, 0) >>= fun st => .ok st.2) =
      .ok (selfCorr s (fun i => fa (coords s i)) d1 d2 (f.getD d1 0 + 1) (f.getD d2 0 + 1) (coords o i)) := by
    intro i hi hin
    obtain ⟨v, hv⟩ := fillFrom_all _ _ _ _ _ hd i (by omega) (by rw [Shape.nElems_eq hofull.1]; omega)
    rw [hv]
    rw [Shape.coordinateFromIdx_eq hofull.2, Outcome.ok_bind, Outcome.bind_eq_ok] at hv
    obtain ⟨r, hr, hv⟩ := hv
    rw [Outcome.ok.injEq] at hv
    have hl : (coords o i).length = s.length := by rw [hin.1, hol]
    have hc : ((coords o i).set d1 ((coords o i).getD d1 0 + 0)).set d2 ((coords o i).getD d2 0 + 0 * (f.getD d2 0 + 1)) = coords o i := by
      rw [getD_lt _ _ _ (by omega), getD_lt _ _ _ (by omega)]
      simp
    have hr2 := hr
    rw [← hc] at hr2
    rw [← hv, outer_value (bufOf s fa) s ha.full.1 _ hel d1 d2 _ _ _ 0 _ _ _ 0 r hne (by omega) (by omega) hr2]
    rfl
  rw [fill_bufOf hofull _ _ _ (by simp) hbody, Outcome.ok.injEq] at hd
  rw [Outcome.ok.injEq] at ht
  rw [← ht, ← hd]
  exact holds_of_buf hofull _ _

/-- Three by three, a filter of one element, the axes in descending order: the hypotheses are met and the result is
the sum over two by two rounds. -/
example : (∃ t', evalCorr ({ junk := fun _ => 7, zero := 0, fits := fun _ => true } : Env Int) 1 0
    ⟨some [1, 2, 3, 4, 5, 6, 7, 8, 9], [3, 3], [3, 3]⟩ ⟨some [1], [1, 1], [1, 1]⟩ = .ok t') ∧
    selfCorr [3, 3] (fun i => ((i + 1 : Nat) : Int)) 1 0 2 2 [0, 0] = 1 * 1 + 2 * 3 + 6 * 2 + 7 * 4 := ⟨⟨_, rfl⟩, by decide⟩

end Verif.Props
