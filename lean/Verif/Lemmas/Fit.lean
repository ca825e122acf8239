import Verif.Model.Tensor
import Verif.Lemmas.Compat
/-! Helper lemmas about `fit_toshape`: the skip-ahead loop visits every in-bound row once. -/
namespace Verif
open Spec

namespace Fit

/-- Row `r` (coordinates beyond the first) is within the output extents. -/
def Inb : List Nat → List Nat → Nat → Prop
  | o :: os, d :: ds, r => r % d < o ∧ Inb os ds (r / d)
  | _, _, _ => True

/-- If a coordinate is out of bound, all lower ones are zero. -/
def Good : List Nat → List Nat → Nat → Prop
  | _ :: os, d :: ds, r => Good os ds (r / d) ∧ (¬ Inb os ds (r / d) → r % d = 0)
  | _, _, _ => True

theorem good_of_inb : ∀ (os ds : List Nat) (r : Nat), Inb os ds r → Good os ds r
  | _ :: os, _ :: ds, _, h => ⟨good_of_inb os ds _ h.2, fun h' => absurd h.2 h'⟩
  | [], _, _, _ => trivial
  | _ :: _, [], _, _ => trivial

theorem good_zero : ∀ (os ds : List Nat), Good os ds 0
  | o :: os, d :: ds => by
    refine ⟨?_, fun _ => Nat.zero_mod d⟩
    rw [Nat.zero_div]; exact good_zero os ds
  | [], _ => trivial
  | _ :: _, [] => trivial

theorem good_succ : ∀ (os ds : List Nat) (r : Nat), (∀ d ∈ ds, 0 < d) → Inb os ds r →
    Good os ds (r + 1)
  | o :: os, d :: ds, r, hd, h => by
    have hd0 : 0 < d := hd d (by simp)
    by_cases hlt : r % d + 1 < d
    · have e1 : (r + 1) / d = r / d := by
        have hq := Nat.mod_add_div r d
        have h4 : r + 1 = (r % d + 1) + d * (r / d) := by omega
        rw [h4, Nat.add_mul_div_left _ _ hd0, Nat.div_eq_of_lt hlt, Nat.zero_add]
      refine ⟨?_, ?_⟩
      · rw [e1]; exact good_of_inb os ds _ h.2
      · intro h'; rw [e1] at h'; exact absurd h.2 h'
    · have hmod : r % d + 1 = d := by
        have := Nat.mod_lt r hd0; omega
      have e0 : r + 1 = d * (r / d + 1) := by
        have hq := Nat.mod_add_div r d
        rw [Nat.mul_add]; omega
      have e1 : (r + 1) / d = r / d + 1 := by rw [e0, Nat.mul_div_cancel_left _ hd0]
      have e2 : (r + 1) % d = 0 := by rw [e0]; exact Nat.mul_mod_right _ _
      refine ⟨?_, fun _ => e2⟩
      rw [e1]
      exact good_succ os ds _ (fun x hx => hd x (by simp [hx])) h.2
  | [], _, _, _, _ => trivial
  | _ :: _, [], _, _, _ => trivial

theorem boundLoop_jump : ∀ (os ds cs : List Nat) (j : Nat),
    boundLoop os ds cs j = ((boundLoop os ds cs 1).1, j * (boundLoop os ds cs 1).2)
  | o :: os, d :: ds, c :: cs, j => by
    unfold boundLoop
    by_cases h : c < o
    · simp only [h, if_true, Nat.one_mul]
      rw [boundLoop_jump os ds cs (j * d), boundLoop_jump os ds cs d]
      simp [Nat.mul_assoc]
    · simp [h]
  | [], _, _, _ => by simp [boundLoop]
  | _ :: _, [], _, _ => by simp [boundLoop]
  | _ :: _, _ :: _, [], _ => by simp [boundLoop]

theorem boundLoop_inb : ∀ (os ds : List Nat) (r j : Nat),
    (boundLoop os ds (coords ds r) j).1 = true ↔ Inb os ds r
  | o :: os, d :: ds, r, j => by
    simp only [coords, boundLoop, Inb]
    by_cases h : r % d < o
    · simp only [h, if_true, true_and]; exact boundLoop_inb os ds (r / d) _
    · simp [h]
  | [], _, _, _ => by simp [boundLoop, Inb]
  | _ :: _, [], _, _ => by simp [boundLoop, Inb]

/-- The jump only skips out-of-bound rows, makes progress, and re-establishes `Good`. -/
theorem skip : ∀ (os ds : List Nat) (r J : Nat), (∀ o ∈ os, 0 < o) → (∀ d ∈ ds, 0 < d) →
    Good os ds r → boundLoop os ds (coords ds r) 1 = (false, J) →
    0 < J ∧ (∀ e, e < J → ¬ Inb os ds (r + e)) ∧ Good os ds (r + J)
  | o :: os, d :: ds, r, J, ho, hd, hg, hb => by
    have hd0 : 0 < d := hd d (by simp)
    have ho0 : 0 < o := ho o (by simp)
    have hd' : ∀ x ∈ ds, 0 < x := fun x hx => hd x (by simp [hx])
    have ho' : ∀ x ∈ os, 0 < x := fun x hx => ho x (by simp [hx])
    simp only [coords, boundLoop] at hb
    by_cases h : r % d < o
    · simp only [h, if_true, Nat.one_mul] at hb
      rw [boundLoop_jump] at hb
      generalize hB : boundLoop os ds (coords ds (r / d)) 1 = B at hb
      obtain ⟨b, J'⟩ := B
      simp only [Prod.mk.injEq] at hb
      obtain ⟨rfl, rfl⟩ := hb
      have hninb : ¬ Inb os ds (r / d) := by
        rw [← boundLoop_inb os ds (r/d) 1, hB]; simp
      have hmod := hg.2 hninb
      obtain ⟨p1, p2, p3⟩ := skip os ds (r / d) J' ho' hd' hg.1 hB
      have er : r = d * (r / d) := by have := Nat.mod_add_div r d; omega
      refine ⟨Nat.mul_pos hd0 p1, ?_, ?_⟩
      · intro e he hin
        have e1 : (r + e) / d = r / d + e / d := by
          conv => lhs; rw [er, Nat.add_comm, Nat.add_mul_div_left _ _ hd0]
          exact Nat.add_comm _ _
        have := hin.2
        rw [e1] at this
        exact p2 (e / d) (Nat.div_lt_of_lt_mul he) this
      · have e0 : r + d * J' = d * (r / d + J') := by rw [Nat.mul_add]; omega
        have e1 : (r + d * J') / d = r / d + J' := by rw [e0, Nat.mul_div_cancel_left _ hd0]
        have e2 : (r + d * J') % d = 0 := by rw [e0]; exact Nat.mul_mod_right _ _
        exact ⟨by rw [e1]; exact p3, fun _ => e2⟩
    · simp only [h, if_false, Prod.mk.injEq, true_and, Nat.one_mul] at hb
      subst hb
      have hmlt := Nat.mod_lt r hd0
      have hinb : Inb os ds (r / d) := by
        refine Classical.byContradiction fun hn => ?_
        have := hg.2 hn; omega
      have hq := Nat.mod_add_div r d
      refine ⟨by omega, ?_, ?_⟩
      · intro e he hin
        have e1 : (r + e) % d = r % d + e := by
          have h4 : r + e = (r % d + e) + d * (r / d) := by omega
          rw [h4, Nat.add_mul_mod_self_left, Nat.mod_eq_of_lt (by omega)]
        have := hin.1
        omega
      · have e0 : r + (d - r % d) = d * (r / d + 1) := by rw [Nat.mul_add]; omega
        have e1 : (r + (d - r % d)) / d = r / d + 1 := by rw [e0, Nat.mul_div_cancel_left _ hd0]
        have e2 : (r + (d - r % d)) % d = 0 := by rw [e0]; exact Nat.mul_mod_right _ _
        exact ⟨by rw [e1]; exact good_succ os ds _ hd' hinb, fun _ => e2⟩
  | [], _, _, _, _, _, _, hb => by simp [boundLoop] at hb
  | _ :: _, [], _, _, _, _, _, hb => by simp [boundLoop] at hb

/-! ### the output row of an input row -/

theorem row_lt : ∀ (os ds : List Nat) (r : Nat), ds.length ≤ os.length → (∀ o ∈ os, 0 < o) →
    Inb os ds r → flat os (coords ds r) < vol os
  | o :: os, d :: ds, r, hl, ho, h => by
    simp only [coords, flat, vol]
    have := row_lt os ds (r / d) (by simpa using hl) (fun x hx => ho x (by simp [hx])) h.2
    have h1 := h.1
    calc r % d + o * flat os (coords ds (r / d)) < o + o * flat os (coords ds (r / d)) := by omega
      _ = o * (flat os (coords ds (r / d)) + 1) := by rw [Nat.mul_add]; omega
      _ ≤ o * vol os := Nat.mul_le_mul_left _ this
  | os, [], r, _, ho, _ => by
    have := Shape.vol_pos ho
    cases os <;> simpa [coords, flat] using this
  | [], d :: ds, r, hl, _, _ => by simp at hl

theorem row_inj : ∀ (os ds : List Nat) (r r' : Nat), ds.length ≤ os.length → (∀ d ∈ ds, 0 < d) →
    Inb os ds r → Inb os ds r' → r < vol ds → r' < vol ds →
    flat os (coords ds r) = flat os (coords ds r') → r = r'
  | o :: os, d :: ds, r, r', hl, hd, h, h', hr, hr', he => by
    simp only [coords, flat] at he
    have o0 : 0 < o := by have := h.1; omega
    have hmod : r % d = r' % d := by
      have := congrArg (· % o) he
      simpa [Nat.add_mul_mod_self_left, Nat.mod_eq_of_lt h.1, Nat.mod_eq_of_lt h'.1] using this
    have hdiv : flat os (coords ds (r / d)) = flat os (coords ds (r' / d)) := by
      rw [hmod] at he
      exact Nat.eq_of_mul_eq_mul_left o0 (by omega)
    have hh := row_inj os ds (r / d) (r' / d) (by simpa using hl) (fun x hx => hd x (by simp [hx]))
      h.2 h'.2 (Nat.div_lt_of_lt_mul hr) (Nat.div_lt_of_lt_mul hr') hdiv
    rw [← Nat.mod_add_div r d, ← Nat.mod_add_div r' d, hmod, hh]
  | os, [], r, r', _, _, _, _, hr, hr', _ => by simp [vol] at hr hr'; omega
  | [], d :: ds, r, _, hl, _, _, _, _, _, _ => by simp at hl

theorem boundLoop_take : ∀ (os ds cs : List Nat) (m j : Nat), cs.length ≤ m →
    boundLoop os ds cs j = boundLoop os (ds.take m) cs j
  | o :: os, d :: ds, c :: cs, m, j, h => by
    cases m with
    | zero => simp at h
    | succ m =>
      simp only [List.take_succ_cons, boundLoop]
      rw [boundLoop_take os ds cs m _ (by simpa using h)]
  | [], _, _, _, _, _ => by simp [boundLoop]
  | _ :: _, [], _, _, _, _ => by simp
  | _ :: _, _ :: _, [], _, _, _ => by simp [boundLoop]

theorem memcpy_get {T : Type} (dest : List T) (di : Nat) (src : List T) (si n : Nat)
    (h1 : di + n ≤ dest.length) (h2 : si + n ≤ src.length) :
    ∃ dest', memcpy dest di src si n = .ok dest' ∧ dest'.length = dest.length ∧
      ∀ p, dest'[p]? = if di ≤ p ∧ p < di + n then src[si + (p - di)]? else dest[p]? := by
  refine ⟨_, if_pos ⟨h1, h2⟩, ?_, ?_⟩
  · simp; omega
  · intro p
    by_cases hp1 : p < di
    · rw [if_neg (by omega), List.append_assoc, List.getElem?_append_left (by simp; omega)]
      simp [hp1]
    · by_cases hp2 : p < di + n
      · rw [if_pos (by omega), List.getElem?_append_left (by simp; omega),
          List.getElem?_append_right (by simp; omega)]
        simp only [List.length_take]
        have : min di dest.length = di := by omega
        rw [this, List.getElem?_take_of_lt (by omega), List.getElem?_drop]
      · rw [if_neg (by omega), List.getElem?_append_right (by simp; omega)]
        simp only [List.length_append, List.length_take, List.length_drop, List.getElem?_drop]
        congr 1; omega

/-- State of the destination after all rows below `r` were handled. -/
def Inv {T : Type} (zero : T) (o0 d0 : Nat) (os ds : List Nat) (src dest : List T) (r : Nat) : Prop :=
  dest.length = o0 * vol os ∧
  ∀ q x, q < vol os → x < o0 →
    (∀ r', r' < r → r' < vol ds → Inb os ds r' → flat os (coords ds r') = q → x < d0 →
      dest[x + o0 * q]? = src[x + d0 * r']?) ∧
    ((∀ r', r' < r → r' < vol ds → Inb os ds r' → flat os (coords ds r') = q → ¬ x < d0) →
      dest[x + o0 * q]? = some zero)

theorem fitLoop_correct {T : Type} (zero : T) (o0 d0 : Nat) (os ds ds0 : List Nat) (src : List T)
    (hds : ds = ds0.take (min os.length ds0.length))
    (ho0 : 0 < o0) (hd0 : 0 < d0) (ho : ∀ o ∈ os, 0 < o) (hd : ∀ d ∈ ds, 0 < d)
    (hsrc : d0 * vol ds ≤ src.length) :
    ∀ (fuel r : Nat) (dest : List T), Inv zero o0 d0 os ds src dest r → Good os ds r →
      vol ds - r ≤ fuel →
      ∃ dest', fitLoop (o0 :: os) (d0 :: ds0) (d0 :: ds) src (d0 * vol ds) (min o0 d0) fuel (d0 * r) dest
        = .ok dest' ∧ Inv zero o0 d0 os ds src dest' (vol ds) := by
  have hlen : ds.length ≤ os.length := by rw [hds]; simp; omega
  intro fuel
  induction fuel with
  | zero =>
    intro r dest hinv _ hf
    have hr : vol ds ≤ r := by omega
    have hnl : ¬ d0 * r < d0 * vol ds := by
      have := Nat.mul_le_mul_left d0 hr; omega
    refine ⟨dest, by simp [fitLoop, hnl], hinv.1, fun q x hq hx => ?_⟩
    obtain ⟨h1, h2⟩ := hinv.2 q x hq hx
    exact ⟨fun r' hr' hr'' => h1 r' (by omega) hr'', fun h => h2 (fun r' _ hr'' => h r' (by omega) hr'')⟩
  | succ fuel ih =>
    intro r dest hinv hgood hf
    by_cases hr : r < vol ds
    · have hlt : d0 * r < d0 * vol ds := Nat.mul_lt_mul_of_pos_left hr hd0
      have hcoord : Shape.coordinateFromIdx (d0 :: ds) (d0 * r) = .ok (0 :: coords ds r) := by
        rw [Shape.coordinateFromIdx_eq (by simpa using ⟨hd0, hd⟩)]
        simp [coords, Nat.mul_div_cancel_left _ hd0]
      have hbl : boundLoop os ds0 (coords ds r) 1 = boundLoop os ds (coords ds r) 1 := by
        have := boundLoop_take os ds0 (coords ds r) (min os.length ds0.length) 1
          (by rw [Shape.coords_length, hds]; simp)
        rw [this, ← hds]
      simp only [fitLoop, hlt, if_true, hcoord, Outcome.ok_bind, List.tail_cons, hbl, List.headD_cons]
      generalize hB : boundLoop os ds (coords ds r) 1 = B
      obtain ⟨b, J⟩ := B
      cases b with
      | true =>
        have hinb : Inb os ds r := by
          rw [← boundLoop_inb os ds r 1, hB]
        have hrow := row_lt os ds r hlen ho hinb
        have hflat : Shape.flatIdx (o0 :: os) (0 :: coords ds r) = .ok (o0 * flat os (coords ds r)) := by
          rw [Shape.flatIdx_eq _ _ (by simp) (by simp)]; simp [flat]
        have hb1 : o0 * flat os (coords ds r) + min o0 d0 ≤ dest.length := by
          rw [hinv.1]
          have : o0 * (flat os (coords ds r) + 1) ≤ o0 * vol os := Nat.mul_le_mul_left _ hrow
          rw [Nat.mul_add] at this; omega
        have hb2 : d0 * r + min o0 d0 ≤ src.length := by
          have : d0 * (r + 1) ≤ d0 * vol ds := Nat.mul_le_mul_left _ hr
          rw [Nat.mul_add] at this; omega
        obtain ⟨dest', hm, hml, hmg⟩ := memcpy_get dest (o0 * flat os (coords ds r)) src (d0 * r)
          (min o0 d0) hb1 hb2
        simp only [if_true, hflat, Outcome.ok_bind, hm]
        have hnext : d0 * r + d0 = d0 * (r + 1) := by rw [Nat.mul_add, Nat.mul_one]
        rw [hnext]
        refine ih (r + 1) dest' ⟨by rw [hml, hinv.1], fun q x hq hx => ?_⟩
          (good_succ os ds r hd hinb) (by omega)
        obtain ⟨h1, h2⟩ := hinv.2 q x hq hx
        -- is the position inside the row just copied?
        have hpos : (o0 * flat os (coords ds r) ≤ x + o0 * q ∧
            x + o0 * q < o0 * flat os (coords ds r) + min o0 d0) ↔
            (flat os (coords ds r) = q ∧ x < d0) := by
          constructor
          · rintro ⟨ha, hb⟩
            have hq1 : flat os (coords ds r) ≤ q := by
              refine Nat.le_of_lt_succ (Nat.lt_of_not_le fun hc => ?_)
              have := Nat.mul_le_mul_left o0 hc
              rw [Nat.mul_succ] at this
              omega
            have hq2 : q ≤ flat os (coords ds r) := by
              refine Nat.le_of_lt_succ (Nat.lt_of_not_le fun hc => ?_)
              have := Nat.mul_le_mul_left o0 hc
              rw [Nat.mul_succ] at this
              omega
            have : flat os (coords ds r) = q := by omega
            subst this
            exact ⟨rfl, by omega⟩
          · rintro ⟨rfl, hx'⟩; omega
        rw [hmg]
        simp only [hpos]
        constructor
        · intro r' hr' hr'' hin hq' hx'
          by_cases he : r' = r
          · subst he
            rw [if_pos ⟨hq', hx'⟩]
            congr 1; rw [hq']; omega
          · have hne : ¬ (flat os (coords ds r) = q ∧ x < d0) := by
              rintro ⟨hc, _⟩
              exact he (row_inj os ds r' r hlen hd hin hinb hr'' hr (hq'.trans hc.symm))
            rw [if_neg hne]
            exact h1 r' (by omega) hr'' hin hq' hx'
        · intro hall
          have hne : ¬ (flat os (coords ds r) = q ∧ x < d0) := by
            rintro ⟨hc, hc'⟩
            exact hall r (by omega) hr hinb hc hc'
          rw [if_neg hne]
          exact h2 (fun r' hr' => hall r' (by omega))
      | false =>
        obtain ⟨hJ, hskip, hg'⟩ := skip os ds r J ho hd hgood hB
        simp only [Bool.false_eq_true, if_false]
        have hnext : d0 * r + J * d0 = d0 * (r + J) := by rw [Nat.mul_add, Nat.mul_comm J]
        rw [hnext]
        refine ih (r + J) dest ⟨hinv.1, fun q x hq hx => ?_⟩ hg' (by omega)
        obtain ⟨h1, h2⟩ := hinv.2 q x hq hx
        have hold : ∀ r', r' < r + J → Inb os ds r' → r' < r := by
          intro r' hr' hin
          refine Nat.lt_of_not_le fun hc => ?_
          exact hskip (r' - r) (by omega) (by rwa [Nat.add_sub_cancel' hc])
        exact ⟨fun r' hr' hr'' hin => h1 r' (hold r' hr' hin) hr'' hin,
          fun hall => h2 (fun r' hr' => hall r' (by omega))⟩
    · have hnl : ¬ d0 * r < d0 * vol ds := by
        have := Nat.mul_le_mul_left d0 (Nat.le_of_not_lt hr); omega
      refine ⟨dest, by simp [fitLoop, hnl], hinv.1, fun q x hq hx => ?_⟩
      obtain ⟨h1, h2⟩ := hinv.2 q x hq hx
      exact ⟨fun r' hr' hr'' => h1 r' (by omega) hr'', fun h => h2 (fun r' _ hr'' => h r' (by omega) hr'')⟩

/-! ### from rows to coordinates -/

theorem flat_append_zeros : ∀ (s t : List Nat) (n : Nat),
    flat s (t ++ List.replicate n 0) = flat s t
  | d :: ds, [], n => by
    have : ∀ (l : List Nat) (n : Nat), flat l (List.replicate n 0) = 0 := by
      intro l
      induction l with
      | nil => intro n; simp [flat]
      | cons a as ih => intro n; cases n <;> simp [List.replicate_succ, flat, ih]
    simp [flat, this]
  | d :: ds, c :: cs, n => by simp [flat, flat_append_zeros ds cs n]
  | [], t, n => by simp [flat]

theorem flat_take : ∀ (s t : List Nat) (m : Nat), t.length ≤ m → flat (s.take m) t = flat s t
  | d :: ds, c :: cs, 0, h => by simp at h
  | d :: ds, c :: cs, m + 1, h => by simp [flat, flat_take ds cs m (by simpa using h)]
  | [], _, _, _ => by simp
  | d :: ds, [], m, _ => by cases m <;> simp [flat]

/-- Two coordinates with equal entries (missing ones 0) and a common prefix length. -/
theorem same_split (cs cs' : List Nat) (h : ∀ i, cs.getD i 0 = cs'.getD i 0) :
    ∃ t n n', t.length = min cs.length cs'.length ∧ cs = t ++ List.replicate n 0 ∧
      cs' = t ++ List.replicate n' 0 := by
  refine ⟨cs.take (min cs.length cs'.length), cs.length - cs'.length, cs'.length - cs.length,
    by simp, ?_, ?_⟩
  · apply List.ext_getElem (by simp; omega)
    intro i h1 h2
    by_cases hi : i < min cs.length cs'.length
    · rw [List.getElem_append_left (by simp; omega)]; simp
    · rw [List.getElem_append_right (by simp; omega)]
      have := h i
      rw [getD_lt _ _ _ h1] at this
      rw [this]
      simp [List.getD_eq_getElem?_getD, List.getElem?_eq_none (show cs'.length ≤ i by omega)]
  · apply List.ext_getElem (by simp; omega)
    intro i h1 h2
    by_cases hi : i < min cs.length cs'.length
    · rw [List.getElem_append_left (by simp; omega)]
      have := h i
      rw [getD_lt _ _ _ h1, getD_lt _ _ _ (by omega)] at this
      simp [this]
    · rw [List.getElem_append_right (by simp; omega)]
      have := h i
      rw [getD_lt _ _ _ h1] at this
      rw [← this]
      simp [List.getD_eq_getElem?_getD, List.getElem?_eq_none (show cs.length ≤ i by omega)]

theorem inRange_prefix : ∀ (s t : List Nat) (n : Nat), InRange s (t ++ List.replicate n 0) →
    InRange (s.take t.length) t
  | s, [], n, h => by simp
  | [], c :: cs, n, h => by simp at h
  | d :: ds, c :: cs, n, h => by
    rw [List.cons_append, Shape.inRange_cons] at h
    simp only [List.length_cons, List.take_succ_cons]
    exact Shape.inRange_cons.2 ⟨h.1, inRange_prefix ds cs n h.2⟩

theorem inb_of_inRange : ∀ (os ds t : List Nat) (n : Nat), InRange ds t →
    InRange os (t ++ List.replicate n 0) → Inb os ds (flat ds t)
  | [], _, _, _, _, _ => by simp [Inb]
  | _ :: _, [], _, _, _, _ => by simp [Inb]
  | o :: os, d :: ds, [], n, h, _ => absurd h Shape.not_inRange_cons_nil
  | o :: os, d :: ds, c :: cs, n, h, h' => by
    rw [List.cons_append, Shape.inRange_cons] at h'
    rw [Shape.inRange_cons] at h
    have hd : 0 < d := by omega
    simp only [Inb, flat]
    rw [Nat.add_mul_mod_self_left, Nat.mod_eq_of_lt h.1, Nat.add_mul_div_left _ _ hd,
      Nat.div_eq_of_lt h.1, Nat.zero_add]
    exact ⟨h'.1, inb_of_inRange os ds cs n h.2 h'.2⟩

theorem inRange_of_inb : ∀ (os ds : List Nat) (r : Nat), (∀ o ∈ os, 0 < o) →
    ds.length ≤ os.length → Inb os ds r →
    InRange os (coords ds r ++ List.replicate (os.length - ds.length) 0)
  | [], [], r, _, _, _ => by simp [coords]
  | [], d :: ds, r, _, h, _ => by simp at h
  | o :: os, [], r, ho, _, _ => by
    have : ∀ l : List Nat, (∀ o ∈ l, 0 < o) → InRange l (List.replicate l.length 0) := by
      intro l
      induction l with
      | nil => simp
      | cons a as ih =>
        intro h
        rw [List.length_cons, List.replicate_succ, Shape.inRange_cons]
        exact ⟨h a (by simp), ih (fun x hx => h x (by simp [hx]))⟩
    simpa [coords] using this (o :: os) ho
  | o :: os, d :: ds, r, ho, hl, h => by
    simp only [coords, List.cons_append, List.length_cons, Nat.add_sub_add_right]
    exact Shape.inRange_cons.2 ⟨h.1, inRange_of_inb os ds _ (fun x hx => ho x (by simp [hx]))
      (by simpa using hl) h.2⟩

theorem fitToShape_correct {T : Type} (zero : T) (dest : List T) (out : Shape) (src : List T)
    (inn : Shape) (hout : Full out) (hinn : Full inn)
    (hdest : dest.length = vol out) (hsrc : src.length = vol inn) :
    ∃ res, fitToShape zero dest out src inn = .ok res ∧ res.length = vol out ∧
      ∀ c, InRange out c →
        (∀ c', InRange inn c' → (∀ i, c.getD i 0 = c'.getD i 0) →
          res[flat out c]? = src[flat inn c']?) ∧
        ((∀ c', InRange inn c' → ¬ ∀ i, c.getD i 0 = c'.getD i 0) →
          res[flat out c]? = some zero) := by
  obtain ⟨hne, hop⟩ := hout
  obtain ⟨hne', hip⟩ := hinn
  obtain ⟨o0, os, rfl⟩ := List.exists_cons_of_ne_nil hne
  obtain ⟨d0, ds0, rfl⟩ := List.exists_cons_of_ne_nil hne'
  have ho0 : 0 < o0 := hop o0 (by simp)
  have hd0 : 0 < d0 := hip d0 (by simp)
  have ho : ∀ o ∈ os, 0 < o := fun x hx => hop x (by simp [hx])
  have hd' : ∀ d ∈ ds0, 0 < d := fun x hx => hip x (by simp [hx])
  generalize hds : ds0.take (min os.length ds0.length) = ds
  have hd : ∀ d ∈ ds, 0 < d := by
    intro x hx; rw [← hds] at hx; exact hd' x (List.mem_of_mem_take hx)
  have hdslen : ds.length = min os.length ds0.length := by rw [← hds]; simp
  have hclip : Shape.withRank (d0 :: ds0) (min (o0 :: os).length (d0 :: ds0).length) = d0 :: ds := by
    unfold Shape.withRank
    simp only [List.length_cons, Nat.succ_min_succ]
    by_cases h : min os.length ds0.length < ds0.length
    · rw [if_pos (by omega), List.take_succ_cons, hds]
    · rw [if_neg (by omega), if_neg (by omega)]
      rw [← hds, List.take_of_length_le (by omega)]
  have hsrc' : d0 * vol ds ≤ src.length := by
    rw [hsrc, vol]
    refine Nat.mul_le_mul_left _ ?_
    conv => rhs; rw [← List.take_append_drop (min os.length ds0.length) ds0, Shape.vol_append, hds]
    exact Nat.le_mul_of_pos_right _ (Shape.vol_pos (fun x hx => hd' x (List.mem_of_mem_drop hx)))
  have hfull1 : Shape.isFullyDefined (o0 :: os) = true := (Shape.isFullyDefined_iff _).2 ⟨by simp, hop⟩
  have hfull2 : Shape.isFullyDefined (d0 :: ds0) = true := (Shape.isFullyDefined_iff _).2 ⟨by simp, hip⟩
  have hn : Shape.nElems (o0 :: os) = o0 * vol os := by rw [Shape.nElems_eq (by simp)]; rfl
  have hn2 : Shape.nElems (d0 :: ds) = d0 * vol ds := by rw [Shape.nElems_eq (by simp)]; rfl
  have hz : dest.drop (o0 * vol os) = [] := by
    apply List.drop_eq_nil_of_le; rw [hdest, vol]; exact Nat.le_refl _
  have hinit : Inv zero o0 d0 os ds src (List.replicate (o0 * vol os) zero) 0 := by
    refine ⟨by simp, fun q x hq hx => ⟨fun r' hr' => absurd hr' (by omega), fun _ => ?_⟩⟩
    rw [List.getElem?_replicate, if_pos]
    have : o0 * (q + 1) ≤ o0 * vol os := Nat.mul_le_mul_left _ hq
    rw [Nat.mul_add] at this; omega
  obtain ⟨res, hres, hrinv⟩ := fitLoop_correct zero o0 d0 os ds ds0 src hds.symm ho0 hd0 ho hd hsrc'
    (d0 * vol ds) 0 _ hinit (good_zero _ _) (by
      have := Nat.le_mul_of_pos_left (vol ds) hd0; omega)
  refine ⟨res, ?_, by rw [hrinv.1]; rfl, ?_⟩
  · unfold fitToShape
    simp only [hfull1, hfull2, Bool.and_self, Outcome.assert_true, Outcome.ok_bind, hclip, hn, hn2,
      hz, List.append_nil, List.headD_cons]
    rw [if_pos (by rw [hdest]; exact Nat.le_refl _)]
    simpa using hres
  · intro c hc
    cases c with
    | nil => exact absurd hc Shape.not_inRange_cons_nil
    | cons x cs =>
      obtain ⟨hx, hcs⟩ := Shape.inRange_cons.1 hc
      obtain ⟨h1, h2⟩ := hrinv.2 (flat os cs) x (Shape.flat_lt hcs) hx
      constructor
      · intro c' hc' hsame
        cases c' with
        | nil => exact absurd hc' Shape.not_inRange_cons_nil
        | cons x' cs' =>
          obtain ⟨hx', hcs'⟩ := Shape.inRange_cons.1 hc'
          have hxx : x = x' := by simpa using hsame 0
          subst hxx
          obtain ⟨t, n, n', htl, e1, e2⟩ := same_split cs cs' (fun i => by simpa using hsame (i+1))
          have htl' : t.length = min os.length ds0.length := by rw [htl, hcs.1, hcs'.1]
          have ht : InRange ds t := by
            have := inRange_prefix ds0 t n' (e2 ▸ hcs')
            rwa [htl', hds] at this
          have hflat : flat ds0 cs' = flat ds t := by
            rw [e2, flat_append_zeros, ← hds, flat_take _ _ _ (by omega)]
          have := h1 (flat ds t) (Shape.flat_lt ht) (Shape.flat_lt ht)
            (inb_of_inRange os ds t n ht (e1 ▸ hcs))
            (by rw [Shape.coords_flat ht, e1, flat_append_zeros]) hx'
          simp only [flat]
          rw [this, hflat]
      · intro hnone
        simp only [flat]
        apply h2
        intro r' _ hr' hin hq hxd
        have hr1 := inRange_of_inb os ds r' ho (by omega) hin
        have hcs2 : cs = coords ds r' ++ List.replicate (os.length - ds.length) 0 := by
          rw [← Shape.coords_flat hcs, ← Shape.coords_flat hr1, flat_append_zeros, hq]
        refine hnone (x :: (coords ds r' ++ List.replicate (ds0.length - ds.length) 0)) ?_ ?_
        · refine Shape.inRange_cons.2 ⟨hxd, ?_⟩
          have hlen2 := Shape.coords_length ds r'
          have hir := Shape.coords_inRange hd r'
          refine ⟨by simp [hlen2]; omega, fun i hi => ?_⟩
          by_cases hi' : i < ds.length
          · have := hir.2 i hi'
            rw [List.getD_eq_getElem?_getD, List.getElem?_append_left (by omega),
              ← List.getD_eq_getElem?_getD]
            have e : ds.getD i 0 = ds0.getD i 0 := by
              rw [← hds]
              simp only [List.getD_eq_getElem?_getD]
              rw [List.getElem?_take_of_lt (by omega)]
            omega
          · rw [List.getD_eq_getElem?_getD, List.getElem?_append_right (by omega),
              List.getElem?_replicate, if_pos (by omega)]
            simp only [Option.getD_some]
            rw [getD_lt _ _ _ hi]
            exact hd' _ (List.getElem_mem hi)
        · intro i
          cases i with
          | zero => simp
          | succ i =>
            simp only [List.getD_cons_succ]
            rw [hcs2]
            by_cases hi' : i < (coords ds r').length
            · simp only [List.getD_eq_getElem?_getD]
              rw [List.getElem?_append_left hi', List.getElem?_append_left hi']
            · simp only [List.getD_eq_getElem?_getD]
              rw [List.getElem?_append_right (by omega), List.getElem?_append_right (by omega),
                List.getElem?_replicate, List.getElem?_replicate]
              split <;> split <;> rfl

end Fit
end Verif
