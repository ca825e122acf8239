import Verif.Props.Shape
import Verif.Props.Compound
/-!
# Boundary cases that earlier theorems left out (C03, C51)
-/
namespace Verif.Props
open Spec Shape

theorem strip_exact (k : Nat) (hk : 0 < k) (i : Nat) (w : List Nat) (hw : w.length = k) :
    stripZerosFront k (List.replicate i 0 ++ w) = w := by
  induction i with
  | zero =>
    cases w with
    | nil => rfl
    | cons x r =>
      show (if _ then _ else _) = _
      rw [if_neg (by omega)]
  | succ i ih =>
    rw [List.replicate_succ, List.cons_append]
    show (if _ then _ else _) = _
    rw [if_pos ⟨by simp; omega, by intro h; simp at h; rw [h.2] at hw; simp at hw; omega, rfl⟩, ih]

theorem strip_head (k : Nat) (hk : 0 < k) (i : Nat) (w : List Nat) (hw : k ≤ w.length) (h0 : w.head? ≠ some 0) :
    stripZerosFront k (List.replicate i 0 ++ w) = w := by
  induction i with
  | zero =>
    cases w with
    | nil => rfl
    | cons x r =>
      show (if _ then _ else _) = _
      rw [if_neg (by rintro ⟨_, _, h⟩; exact h0 (by rw [h]; rfl))]
  | succ i ih =>
    rw [List.replicate_succ, List.cons_append]
    show (if _ then _ else _) = _
    rw [if_pos ⟨by simp; omega, by intro h; simp at h; rw [h.2] at hw; simp at hw; omega, rfl⟩, ih]

theorem strip_spec (k : Nat) (hk : 0 < k) : ∀ l : List Nat, k ≤ l.length →
    ∃ i, l = List.replicate i 0 ++ stripZerosFront k l ∧ k ≤ (stripZerosFront k l).length ∧
      ((stripZerosFront k l).length = k ∨ (stripZerosFront k l).head? ≠ some 0) := by
  intro l
  induction l with
  | nil => intro h; exact ⟨0, rfl, h, .inl (by simp at h; omega)⟩
  | cons x r ih =>
    intro h
    by_cases hc : k < (x :: r).length ∧ r ≠ [] ∧ x = 0
    · have e : stripZerosFront k (x :: r) = stripZerosFront k r := if_pos hc
      obtain ⟨i, h1, h2, h3⟩ := ih (by have := hc.1; simp at this; omega)
      rw [e]
      exact ⟨i + 1, by rw [List.replicate_succ, List.cons_append, ← h1, hc.2.2], h2, h3⟩
    · have e : stripZerosFront k (x :: r) = x :: r := if_neg hc
      rw [e]
      refine ⟨0, rfl, h, ?_⟩
      by_cases hx : x = 0
      · left
        by_cases hr : r = []
        · subst hr; simp at h ⊢; omega
        · have := fun hh => hc ⟨hh, hr, hx⟩
          simp at h this ⊢; omega
      · right; simpa using hx

theorem stripBack_spec (k : Nat) (hk : 0 < k) (l : List Nat) (hl : k ≤ l.length) :
    ∃ j, l = stripZerosBack k l ++ List.replicate j 0 ∧ k ≤ (stripZerosBack k l).length := by
  obtain ⟨j, h1, h2, _⟩ := strip_spec k hk l.reverse (by simpa using hl)
  refine ⟨j, ?_, by unfold stripZerosBack; simpa using h2⟩
  have := congrArg List.reverse h1
  simpa [stripZerosBack] using this

theorem stripBack_zeros (k : Nat) (hk : 0 < k) (j : Nat) (w : List Nat) (hw : w.length = k) :
    stripZerosBack k (w ++ List.replicate j 0) = w := by
  unfold stripZerosBack
  rw [List.reverse_append, List.reverse_replicate, strip_exact k hk j w.reverse (by simpa using hw), List.reverse_reverse]

/-- The longer of two trimmed shapes with its outer zeros removed, the leading ones first, until it has the length of the
shorter. -/
theorem strip_iff (t o : List Nat) (ho : o ≠ []) (hl : o.length < t.length) :
    ((if (stripZerosBack o.length (stripZerosFront o.length t)).length > o.length then false
      else matchLoop (stripZerosBack o.length (stripZerosFront o.length t)) o) = true) ↔
    ∃ i j w, t = List.replicate i 0 ++ w ++ List.replicate j 0 ∧ DimsAgree w o ∧ (j = 0 ∨ w.head? ≠ some 0) := by
  have hk : 0 < o.length := List.length_pos_iff.2 ho
  constructor
  · intro h
    obtain ⟨i, h1, h2, h3⟩ := strip_spec o.length hk t (by omega)
    obtain ⟨j, h4, h5⟩ := stripBack_spec o.length hk _ h2
    by_cases hgt : (stripZerosBack o.length (stripZerosFront o.length t)).length > o.length
    · rw [if_pos hgt] at h; exact absurd h (by simp)
    · rw [if_neg hgt] at h
      have hlen : (stripZerosBack o.length (stripZerosFront o.length t)).length = o.length := by omega
      refine ⟨i, j, _, by rw [List.append_assoc, ← h4, ← h1], (matchLoop_iff hlen).1 h, ?_⟩
      by_cases hj : j = 0
      · exact .inl hj
      · right
        rcases h3 with h3 | h3
        · have := congrArg List.length h4
          simp at this; omega
        · intro hc
          apply h3
          rw [h4, List.head?_append, hc]
          rfl
  · rintro ⟨i, j, w, rfl, hd, hc⟩
    have hw : w.length = o.length := hd.1
    have hs : stripZerosFront o.length (List.replicate i 0 ++ w ++ List.replicate j 0) = w ++ List.replicate j 0 := by
      rcases hc with rfl | hc
      · simp only [List.replicate_zero, List.append_nil]
        exact strip_exact _ hk i w hw
      · rw [List.append_assoc]
        refine strip_head _ hk i _ (by simp; omega) ?_
        cases w with
        | nil => simp at hw; omega
        | cons a r => simpa using hc
    rw [hs, stripBack_zeros _ hk j w hw, if_neg (by omega)]
    exact (matchLoop_iff hw).2 hd

/-- What is left of a shape when its outer ones are dropped, but at least one extent. -/
def CoreOf (s t : List Nat) : Prop := (TrimOf s t ∧ t ≠ []) ∨ (TrimOf s [] ∧ t = [1])

theorem core_exists (s : List Nat) : CoreOf s (if tr s = [] then [1] else tr s) := by
  by_cases h : tr s = []
  · rw [if_pos h]; exact .inr ⟨h ▸ trimOf_tr s, rfl⟩
  · rw [if_neg h]; exact .inl ⟨trimOf_tr s, h⟩

theorem core_unique {s t : List Nat} (h : CoreOf s t) : (if tr s = [] then [1] else tr s) = t := by
  rcases h with ⟨h, hne⟩ | ⟨h, rfl⟩
  · rw [tr_of_trimOf h, if_neg hne]
  · rw [tr_of_trimOf h, if_pos rfl]

/-- C03: for different ranks, compare what is left without outer ones. If equally long, pointwise; otherwise the longer
one must have unknown extents in excess, leading ones being given up before trailing ones, and the rest must agree
pointwise. -/
theorem c03_other_rank (a b ta tb : Shape) (ha : a ≠ []) (hb : b ≠ []) (hl : a.length ≠ b.length) (hta : CoreOf a ta) (htb : CoreOf b tb)
    (hle : tb.length ≤ ta.length) :
    a.isCompatibleWith b = true ↔
      ∃ i j w, ta = List.replicate i 0 ++ w ++ List.replicate j 0 ∧ DimsAgree w tb ∧ (j = 0 ∨ w.head? ≠ some 0) := by
  have ha' : a.isEmpty = false := by simpa using ha
  have hb' : b.isEmpty = false := by simpa using hb
  have hne : tb ≠ [] := by
    rcases htb with ⟨_, h⟩ | ⟨_, rfl⟩
    · exact h
    · simp
  unfold isCompatibleWith
  simp only [ha', hb', Bool.not_false, Bool.and_true, if_true, ne_eq, hl, not_false_eq_true]
  rw [window_eq a ha, window_eq b hb, core_unique hta, core_unique htb]
  by_cases hgt : ta.length > tb.length
  · rw [if_pos hgt]
    exact strip_iff ta tb hne hgt
  · rw [if_neg hgt, if_neg (by omega), matchLoop_iff (by omega)]
    constructor
    · intro h; exact ⟨0, 0, ta, by simp, h, .inl rfl⟩
    · rintro ⟨i, j, w, h1, h2, _⟩
      have h3 := congrArg List.length h1
      simp only [List.length_append, List.length_replicate] at h3
      have := h2.1
      obtain rfl : i = 0 := by omega
      obtain rfl : j = 0 := by omega
      simp at h1
      rw [h1]; exact h2

example : CoreOf [1, 0, 0, 3, 0] [0, 0, 3, 0] ∧ CoreOf [2, 3] [2, 3] ∧ Shape.isCompatibleWith [1, 0, 0, 3, 0] [2, 3] = false ∧
    Shape.isCompatibleWith [1, 0, 0, 3, 0] [3, 2] = true ∧ Shape.isCompatibleWith [5, 0] [2] = false ∧ Shape.isCompatibleWith [0, 5] [5] = true :=
  ⟨.inl ⟨⟨1, 0, by decide⟩, by decide⟩, .inl ⟨⟨0, 0, by decide⟩, by decide⟩, by decide, by decide, by decide, by decide⟩

section
open Compound Verif.IO
variable {T : Type}

theorem write_report (r : ByteRep T) (evals : List (Option (Tensor T))) (label : List Char) (fails : Bool) (file : File) (states : List File) (b : Bool)
    (h : writeInorder r evals label fails file = .ok (states, b)) :
    (b = true ↔ file ≠ .corrupt ∧ fails = false) ∧ (file ≠ .corrupt → states.getLastD file ≠ .corrupt) := by
  unfold writeInorder at h
  cases file with
  | corrupt =>
    injection h with h
    simp only [Prod.mk.injEq] at h
    simp [← h.2]
  | absent =>
    simp only [opened, Outcome.bind_eq_ok] at h
    obtain ⟨repo', _, h⟩ := h
    cases fails <;> (injection h with h; simp only [Prod.mk.injEq] at h; simp [← h.1, ← h.2])
  | repo _ =>
    simp only [opened, Outcome.bind_eq_ok] at h
    obtain ⟨repo', _, h⟩ := h
    cases fails <;> (injection h with h; simp only [Prod.mk.injEq] at h; simp [← h.1, ← h.2])

/-- C51: saving a Q-network reports success exactly if the file could be read and both networks were written. -/
theorem c51_qnet_report (r : ByteRep T) (q : QNet) (ws : List Char) (fails₁ fails₂ : Bool) (file : File) (h : Heap T) (states : List File) (b : Bool)
    (hs : saveQ r q ws fails₁ fails₂ file h = .ok (states, b)) : b = true ↔ file ≠ .corrupt ∧ fails₁ = false ∧ fails₂ = false := by
  simp only [saveQ, save, Outcome.bind_eq_ok] at hs
  obtain ⟨⟨s1, b1⟩, h1, ⟨s2, b2⟩, h2, h3⟩ := hs
  injection h3 with h3
  simp only [Prod.mk.injEq] at h3
  obtain ⟨r1, l1⟩ := write_report r _ _ _ _ _ _ h1
  obtain ⟨r2, _⟩ := write_report r _ _ _ _ _ _ h2
  rw [← h3.2, Bool.and_eq_true, r1, r2]
  constructor
  · rintro ⟨⟨a, b⟩, _, c⟩; exact ⟨a, b, c⟩
  · rintro ⟨a, b, c⟩; exact ⟨⟨a, b⟩, l1 a, c⟩

example : ∃ states, saveQ exRep ⟨['q'], ['a'], [0], ['b'], [1]⟩ [] false true .absent
    (fun x => .leaf ⟨⟨some [x + 5], [1], [1]⟩, true, some fun _ => 4⟩) = .ok (states, false) := ⟨_, rfl⟩

end

end Verif.Props
