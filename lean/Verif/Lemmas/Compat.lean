import Verif.Lemmas.Shape
/-! Helper lemmas about compatibility, merging and trimming. -/
namespace Verif
open Spec
namespace Shape

/-! ### dimension matching -/

theorem dimMatch_iff (a b : Nat) : dimMatch a b = true ↔ a = b ∨ a = 0 ∨ b = 0 := by
  unfold dimMatch
  by_cases h : a = b <;> by_cases ha : a = 0 <;> by_cases hb : b = 0 <;> simp_all

theorem dimMatch_comm (a b : Nat) : dimMatch a b = dimMatch b a := by
  rw [Bool.eq_iff_iff, dimMatch_iff, dimMatch_iff]
  constructor <;> (rintro (h | h | h) <;> simp [h])

theorem matchLoop_comm (s t : Shape) : matchLoop s t = matchLoop t s := by
  induction s generalizing t with
  | nil => cases t <;> rfl
  | cons a as ih => cases t with
    | nil => rfl
    | cons b bs => simp [matchLoop, ih bs, dimMatch_comm a b]

theorem matchLoop_self (s : Shape) : matchLoop s s = true := by
  induction s with
  | nil => rfl
  | cons a as ih => simp [matchLoop, ih, dimMatch_iff]

theorem dimsAgree_cons {a b : Nat} {as bs : List Nat} :
    DimsAgree (a :: as) (b :: bs) ↔ (a = b ∨ a = 0 ∨ b = 0) ∧ DimsAgree as bs := by
  constructor
  · rintro ⟨hl, h⟩
    refine ⟨by simpa using h 0 (by simp), by simpa using hl, fun i hi => ?_⟩
    simpa using h (i+1) (by simpa using hi)
  · rintro ⟨hc, hl, h⟩
    refine ⟨by simpa using hl, fun i hi => ?_⟩
    cases i with
    | zero => simpa using hc
    | succ i => simpa using h i (by simpa using hi)

theorem matchLoop_iff {s t : Shape} (hl : s.length = t.length) :
    matchLoop s t = true ↔ DimsAgree s t := by
  induction s generalizing t with
  | nil => cases t <;> simp_all [matchLoop, DimsAgree]
  | cons a as ih => cases t with
    | nil => simp at hl
    | cons b bs =>
      rw [dimsAgree_cons, ← ih (by simpa using hl), matchLoop, Bool.and_eq_true, dimMatch_iff]

theorem dimsAgree_pos {s t : List Nat} (hs : ∀ d ∈ s, 0 < d) (ht : ∀ d ∈ t, 0 < d) :
    DimsAgree s t ↔ s = t := by
  induction s generalizing t with
  | nil => cases t <;> simp [DimsAgree]
  | cons a as ih => cases t with
    | nil => simp [DimsAgree]
    | cons b bs =>
      rw [dimsAgree_cons, ih (fun x hx => hs x (by simp [hx])) (fun x hx => ht x (by simp [hx]))]
      have h1 := hs a (by simp)
      have h2 := ht b (by simp)
      constructor
      · rintro ⟨h, rfl⟩
        congr 1; omega
      · rintro h; injection h with h3 h4; exact ⟨Or.inl h3, h4⟩

/-! ### compatibility -/

theorem compat_comm (a b : Shape) : isCompatibleWith a b = isCompatibleWith b a := by
  unfold isCompatibleWith
  by_cases ha : a = []
  · subst ha; simp
  by_cases hb : b = []
  · subst hb; simp
  have ha' : a.isEmpty = false := by simpa using ha
  have hb' : b.isEmpty = false := by simpa using hb
  simp only [ha', hb', Bool.not_false, Bool.and_true, if_true]
  by_cases hl : a.length = b.length
  · simp only [hl, ne_eq, not_true_eq_false, if_false]; exact matchLoop_comm a b
  · have hl' : ¬ b.length = a.length := fun h => hl h.symm
    simp only [ne_eq, hl, hl', not_false_eq_true, if_true]
    generalize stripOnesBack (stripOnesFront a) = t
    generalize stripOnesBack (stripOnesFront b) = o
    rcases Nat.lt_trichotomy t.length o.length with h | h | h
    · have h1 : ¬ t.length > o.length := by omega
      have h2 : o.length > t.length := by omega
      simp only [h1, h2, if_false, if_true]
      split
      · rfl
      · exact matchLoop_comm _ _
    · have h1 : ¬ t.length > o.length := by omega
      have h2 : ¬ o.length > t.length := by omega
      simp only [h1, h2, if_false]
      exact matchLoop_comm _ _
    · have h1 : t.length > o.length := by omega
      have h2 : ¬ o.length > t.length := by omega
      simp only [h1, h2, if_false, if_true]
      split
      · rfl
      · exact matchLoop_comm _ _

theorem compat_self (a : Shape) : isCompatibleWith a a = true := by
  unfold isCompatibleWith
  split
  · simp [matchLoop_self]
  · rfl

@[simp] theorem compat_nil_left (a : Shape) : isCompatibleWith [] a = true := by
  simp [isCompatibleWith]

@[simp] theorem compat_nil_right (a : Shape) : isCompatibleWith a [] = true := by
  simp [isCompatibleWith]

theorem compat_same_rank {a b : Shape} (hl : a.length = b.length) :
    isCompatibleWith a b = true ↔ DimsAgree a b := by
  by_cases ha : a = []
  · subst ha
    have : b = [] := by simpa using hl.symm
    subst this
    simp [DimsAgree]
  · have hb : b ≠ [] := by rintro rfl; simp at hl; exact ha hl
    have ha' : a.isEmpty = false := by simpa using ha
    have hb' : b.isEmpty = false := by simpa using hb
    unfold isCompatibleWith
    simp only [ha', hb', Bool.not_false, Bool.and_true, if_true, hl, ne_eq, not_true_eq_false,
      if_false]
    exact matchLoop_iff hl

/-! ### stripping ones -/

theorem stripOnesFront_eq (s : Shape) :
    stripOnesFront s = if s.dropWhile (· == 1) = [] then (if s = [] then [] else [1])
      else s.dropWhile (· == 1) := by
  induction s with
  | nil => rfl
  | cons x r ih =>
    cases r with
    | nil =>
      by_cases hx : x = 1 <;> simp [stripOnesFront, hx]
    | cons y r =>
      by_cases hx : x = 1
      · subst hx
        simp only [stripOnesFront, if_true, ih]
        simp [List.dropWhile_cons]
      · simp [stripOnesFront, hx]

theorem stripOnesFront_ne_nil {s : Shape} (h : s ≠ []) : stripOnesFront s ≠ [] := by
  rw [stripOnesFront_eq]; split <;> simp_all

/-- Removal of leading and trailing ones. -/
def tr (s : List Nat) : List Nat := ((s.dropWhile (· == 1)).reverse.dropWhile (· == 1)).reverse

theorem dropWhile_replicate_append (m : Nat) (t : List Nat) :
    (List.replicate m 1 ++ t).dropWhile (· == 1) = t.dropWhile (· == 1) := by
  induction m with
  | zero => simp
  | succ m ih => simp [List.replicate_succ, ih]

theorem dropWhile_of_head {t : List Nat} (h : t.head? ≠ some 1) : t.dropWhile (· == 1) = t := by
  cases t with
  | nil => rfl
  | cons a as => simp [List.dropWhile_cons]; intro h'; simp_all

theorem tr_of_trimOf {s t : List Nat} (h : TrimOf s t) : tr s = t := by
  obtain ⟨m, n, rfl, h1, h2⟩ := h
  unfold tr
  rw [List.append_assoc, dropWhile_replicate_append]
  cases t with
  | nil =>
    simp
  | cons a as =>
    have : ((a :: as) ++ List.replicate n 1).dropWhile (· == 1) = (a :: as) ++ List.replicate n 1 :=
      dropWhile_of_head (by simpa using h1)
    rw [this, List.reverse_append, List.reverse_replicate, dropWhile_replicate_append,
      dropWhile_of_head, List.reverse_reverse]
    rw [List.head?_reverse]; exact h2

theorem exists_dropWhile (s : List Nat) :
    ∃ m, s = List.replicate m 1 ++ s.dropWhile (· == 1) ∧ (s.dropWhile (· == 1)).head? ≠ some 1 := by
  induction s with
  | nil => exact ⟨0, by simp⟩
  | cons a as ih =>
    by_cases ha : a = 1
    · obtain ⟨m, h1, h2⟩ := ih
      refine ⟨m + 1, ?_, ?_⟩
      · subst ha
        conv => lhs; rw [h1]
        simp [List.replicate_succ]
      · subst ha; simpa using h2
    · exact ⟨0, by simp [ha]⟩

theorem trimOf_tr (s : List Nat) : TrimOf s (tr s) := by
  obtain ⟨m, h1, h2⟩ := exists_dropWhile s
  obtain ⟨n, h3, h4⟩ := exists_dropWhile (s.dropWhile (· == 1)).reverse
  have h5 : s.dropWhile (· == 1) = tr s ++ List.replicate n 1 := by
    have := congrArg List.reverse h3
    simpa [tr] using this
  refine ⟨m, n, ?_, ?_, ?_⟩
  · rw [List.append_assoc, ← h5]; exact h1
  · cases h : tr s with
    | nil => simp
    | cons a as => rw [h5, h] at h2; simpa using h2
  · rw [tr, List.getLast?_reverse]; exact h4

theorem trimOf_iff {s t : List Nat} : TrimOf s t ↔ t = tr s :=
  ⟨fun h => (tr_of_trimOf h).symm, fun h => h ▸ trimOf_tr s⟩

theorem window_eq (s : Shape) (hs : s ≠ []) :
    stripOnesBack (stripOnesFront s) = if tr s = [] then [1] else tr s := by
  unfold stripOnesBack tr
  rw [stripOnesFront_eq s]
  by_cases h : s.dropWhile (· == 1) = []
  · simp [h, hs, stripOnesFront]
  · rw [if_neg h, stripOnesFront_eq]
    simp only [List.reverse_eq_nil_iff, h, if_false]
    split <;> simp_all

theorem trim_eq (s : Shape) : trim s = tr s := by
  unfold trim
  by_cases hs : s = []
  · subst hs; rfl
  · have : s.isEmpty = false := by simpa using hs
    simp only [this, Bool.false_eq_true, if_false]
    rw [window_eq s hs]
    by_cases h : tr s = []
    · simp [h]
    · have h1 : tr s ≠ [1] := by
        intro h2
        obtain ⟨_, _, _, h3, _⟩ := trimOf_tr s
        rw [h2] at h3; simp at h3
      simp [h, h1]

theorem mem_tr {s : List Nat} {d : Nat} (h : d ∈ tr s) : d ∈ s := by
  obtain ⟨m, n, h1, _, _⟩ := trimOf_tr s
  rw [h1]; simp [h]

theorem vol_tr (s : List Nat) : vol (tr s) = vol s := by
  obtain ⟨m, n, h1, _, _⟩ := trimOf_tr s
  conv => rhs; rw [h1]
  simp [vol_append]

theorem stripZerosFront_pos (k : Nat) {l : Shape} (h : ∀ d ∈ l, 0 < d) : stripZerosFront k l = l := by
  cases l with
  | nil => rfl
  | cons x r =>
    have := h x (by simp)
    unfold stripZerosFront
    rw [if_neg (by omega)]

theorem compat_full {a b : Shape} (ha : Full a) (hb : Full b) :
    isCompatibleWith a b = true ↔
      (a.length = b.length ∧ a = b) ∨ (a.length ≠ b.length ∧ tr a = tr b) := by
  by_cases hl : a.length = b.length
  · rw [compat_same_rank hl, dimsAgree_pos ha.2 hb.2]; simp [hl]
  · have ha' : a.isEmpty = false := by simpa using ha.1
    have hb' : b.isEmpty = false := by simpa using hb.1
    unfold isCompatibleWith
    simp only [ha', hb', Bool.not_false, Bool.and_true, if_true, ne_eq, hl, not_false_eq_true,
      false_and, false_or, true_and]
    rw [window_eq a ha.1, window_eq b hb.1]
    have hw : ∀ s : Shape, Full s → ∀ d ∈ (if tr s = [] then [1] else tr s), 0 < d := by
      intro s hs d hd
      split at hd
      · simp at hd; omega
      · exact hs.2 d (mem_tr hd)
    have hwa := hw a ha
    have hwb := hw b hb
    have key : (if tr a = [] then [1] else tr a) = (if tr b = [] then [1] else tr b) ↔ tr a = tr b := by
      have h1 : ∀ s : Shape, tr s ≠ [1] := by
        intro s h2
        obtain ⟨_, _, _, h3, _⟩ := trimOf_tr s
        rw [h2] at h3; simp at h3
      constructor
      · intro h
        by_cases ha0 : tr a = [] <;> by_cases hb0 : tr b = [] <;>
          simp only [ha0, hb0, if_true, if_false] at h
        · rw [ha0, hb0]
        · exact absurd h.symm (h1 b)
        · exact absurd h (h1 a)
        · exact h
      · intro h; rw [h]
    rw [← key]
    generalize (if tr a = [] then [1] else tr a) = t at *
    generalize (if tr b = [] then [1] else tr b) = o at *
    have st : ∀ k, stripZerosBack k (stripZerosFront k t) = t := by
      intro k
      rw [stripZerosFront_pos k hwa, stripZerosBack,
        stripZerosFront_pos k (by simpa using hwa), List.reverse_reverse]
    have so : ∀ k, stripZerosBack k (stripZerosFront k o) = o := by
      intro k
      rw [stripZerosFront_pos k hwb, stripZerosBack,
        stripZerosFront_pos k (by simpa using hwb), List.reverse_reverse]
    rw [st, so]
    rcases Nat.lt_trichotomy t.length o.length with h | h | h
    · have h1 : ¬ t.length > o.length := by omega
      have h2 : o.length > t.length := by omega
      simp only [h1, h2, if_false, if_true]
      constructor
      · simp
      · intro h3; rw [h3] at h; omega
    · have h1 : ¬ t.length > o.length := by omega
      have h2 : ¬ o.length > t.length := by omega
      simp only [h1, h2, if_false]
      rw [matchLoop_iff h, dimsAgree_pos hwa hwb]
    · have h1 : t.length > o.length := by omega
      simp only [h1, if_true]
      constructor
      · simp
      · intro h3; rw [h3] at h; omega

theorem compat_full_vol {a b : Shape} (ha : Full a) (hb : Full b)
    (h : isCompatibleWith a b = true) : vol a = vol b := by
  rcases (compat_full ha hb).1 h with ⟨_, h⟩ | ⟨_, h⟩
  · rw [h]
  · rw [← vol_tr a, ← vol_tr b, h]

end Shape
end Verif
