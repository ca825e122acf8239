import Verif.Model.Mean
import Verif.Spec.Mean
import Verif.Props.Transform
import Verif.Props.Elementary
import Verif.Props.Reshape
import Mathlib.Algebra.BigOperators.Group.List.Basic
import Mathlib.Data.Rat.Defs
import Mathlib.Algebra.Field.Rat
import Mathlib.Tactic.Ring
import Mathlib.Tactic.NormNum
/-!
# C76: averages, and the nodes that read shapes
-/
namespace Verif.Props
open Spec Op Mean Transform Elementary
variable {K : Type} [Field K]

theorem writeRow_ok {T : Type} [NatCast T] (sv : List Nat) (k : Nat) (raw : List T) (h : k + sv.length ≤ raw.length) :
    ∃ r, writeRow sv k raw = .ok r ∧ r.length = raw.length ∧
      ∀ p, r[p]? = if k ≤ p ∧ p < k + sv.length then (sv[p - k]?).map (fun v : Nat => (v : T)) else raw[p]? := by
  induction sv generalizing k raw with
  | nil => exact ⟨raw, rfl, rfl, fun p => by simp⟩
  | cons v vs ih =>
    simp only [List.length_cons] at h
    obtain ⟨r, h1, h2, h3⟩ := ih (k + 1) (raw.set k (v : T)) (by simp; omega)
    refine ⟨r, ?_, by simpa using h2, fun p => ?_⟩
    · rw [writeRow, Outcome.write, if_pos (by omega), Outcome.ok_bind, h1]
    · rw [h3]
      simp only [List.length_cons]
      by_cases hp : p = k
      · subst hp
        rw [if_neg (by omega), if_pos (by omega), List.getElem?_set_self (by omega)]
        simp
      · by_cases hq : k ≤ p ∧ p < k + (vs.length + 1)
        · rw [if_pos (by omega), if_pos hq]
          obtain ⟨m, hm⟩ : ∃ m, p - k = m + 1 := ⟨p - k - 1, by omega⟩
          rw [hm, List.getElem?_cons_succ]
          have : p - (k + 1) = m := by omega
          rw [this]
        · rw [if_neg (by omega), if_neg hq, List.getElem?_set_ne (by omega)]

theorem writeRow_ub {T : Type} [NatCast T] (sv : List Nat) (k : Nat) (raw : List T) (hn : sv ≠ []) (h : raw.length < k + sv.length) :
    writeRow sv k raw = .ub := by
  induction sv generalizing k raw with
  | nil => exact absurd rfl hn
  | cons v vs ih =>
    simp only [List.length_cons] at h
    rw [writeRow, Outcome.write]
    by_cases hk : k < raw.length
    · rw [if_pos hk, Outcome.ok_bind]
      refine ih (k + 1) _ ?_ (by simp; omega)
      rintro rfl
      simp at h; omega
    · rw [if_neg hk]; rfl

/-- The shape a table of `r` rows of `c` numbers is asked for in: one row may be given without its number. -/
def TableShape (s : List Nat) (c r : Nat) : Prop := (s = [c] ∧ r = 1) ∨ s = [c, r]

theorem writeRows_ok {T : Type} [One T] [NatCast T] (f : Extract) (ts : List Shape) (rows : List (List Nat)) (c : Nat) (n i : Nat) (raw : List T)
    (hr : ∀ k, i ≤ k → k < i + n → ∃ s, ts[k]? = some s ∧ f s = .ok (rows.getD k []) ∧ (rows.getD k []).length ≤ c)
    (hl : (i + n) * c ≤ raw.length) :
    ∃ r, writeRows f ts c n i raw = .ok r ∧ r.length = raw.length ∧
      (∀ p, p < i * c → r[p]? = raw[p]?) ∧
      ∀ k j, i ≤ k → k < i + n → j < c → r[k * c + j]? = (match (rows.getD k [])[j]? with | some v => some (v : T) | none => raw[k * c + j]?) := by
  induction n generalizing i raw with
  | zero => exact ⟨raw, rfl, rfl, fun p _ => rfl, fun k j h1 h2 => by omega⟩
  | succ n ih =>
    obtain ⟨s, hs, hf, hlen⟩ := hr i (Nat.le_refl _) (by omega)
    have hmul : (i + (n + 1)) * c = i * c + c + n * c := by ring
    obtain ⟨r1, h1, h2, h3⟩ := writeRow_ok (rows.getD i []) (i * c) raw (by omega)
    obtain ⟨r, h4, h5, h6, h7⟩ := ih (i + 1) r1 (fun k hk hk' => hr k (by omega) (by omega)) (by
      have : (i + 1 + n) * c = i * c + c + n * c := by ring
      omega)
    refine ⟨r, ?_, by omega, fun p hp => ?_, fun k j hk hk' hj => ?_⟩
    · rw [writeRows, Outcome.read, hs]
      simp only [Outcome.ok_bind, hf, h1, h4]
    · rw [h6 p (by rw [Nat.add_mul]; omega), h3, if_neg (by omega)]
    · by_cases hki : k = i
      · subst hki
        rw [h6 _ (by rw [Nat.add_mul]; omega), h3]
        by_cases hj' : j < (rows.getD k []).length
        · rw [if_pos (by omega), Nat.add_sub_cancel_left, List.getElem?_eq_getElem hj']
          rfl
        · rw [if_neg (by omega), List.getElem?_eq_none (l := rows.getD k []) (i := j) (by omega)]
      · have hge : (i + 1) * c ≤ k * c := Nat.mul_le_mul_right c (by omega)
        rw [Nat.add_mul] at hge
        rw [h7 k j (by omega) (by omega) hj, h3, if_neg (by omega)]

omit [Field K] in
theorem holds_nElems {t : Tensor K} {s f} (h : Holds t s f) : t.nElems = vol s := by
  obtain ⟨b, hb, _⟩ := h.data
  rw [Tensor.nElems, hb, h.shape, ← Shape.nElems_eq h.full.1]

/-- C76: a shape node makes the table it is asked for: row i is what the function reads off the i-th argument's shape,
filled up with ones; at the first evaluation and at every later one, whatever it held. -/
theorem c76_table (e : Env K) (f : Extract) (s : List Nat) (c r : Nat) (hs : TableShape s c r) (hf : Full s) (hm : e.fits (Shape.nElems s) = true)
    (data : Option (Tensor K)) (hd : ∀ d, data = some d → ∃ g, Holds d s g) (args : List (Tensor K)) (rows : List (List Nat))
    (hr : ∀ k, k < r → ∃ a, args[k]? = some a ∧ f a.getShape = .ok (rows.getD k []) ∧ (rows.getD k []).length ≤ c) :
    ∃ t', shapePass e f s data (args.map some) = .ok t' ∧ Holds t' s (fun x => tableAt rows (x.getD 1 0) (x.getD 0 0)) := by
  have hargs : Outcome.forM' (args.map some) argShape = .ok (args.map Tensor.getShape) := by
    clear hr
    induction args with
    | nil => rfl
    | cons a as ih => simp only [List.map_cons, Outcome.forM', argShape, ih, Outcome.ok_bind]
  unfold shapePass
  rw [hargs, Outcome.ok_bind]
  have hout : ∃ g, Holds (data.getD (Tensor.new e s)) s g := by
    cases data with
    | none =>
      refine ⟨fun x => e.junk (flat s x), ?_⟩
      rw [Option.getD_none, new_eq e hf hm]
      refine ⟨hf, rfl, _, rfl, by simp, fun x hx => ?_⟩
      have := Shape.flat_lt hx
      simp [this]
    | some d => exact hd d rfl
  obtain ⟨g, hg⟩ := hout
  generalize data.getD (Tensor.new e s) = out at hg
  have hv : vol s = c * r := by
    rcases hs with ⟨rfl, rfl⟩ | rfl <;> simp [vol]
  obtain ⟨r1, h1, h2, -, h3⟩ := writeRows_ok f (args.map Tensor.getShape) rows c r 0 (List.replicate (vol s) (1 : K)) (by
    intro k _ hk
    obtain ⟨a, ha, hfa, hl⟩ := hr k (by omega)
    exact ⟨a.getShape, by simp [ha], hfa, hl⟩) (by simp [hv, Nat.mul_comm])
  refine ⟨{ out with raw := some r1 }, ?_, hf, hg.shape, r1, rfl, by simpa using h2, fun x hx => ?_⟩
  · unfold shapeExtract
    rw [holds_getRaw hg, Outcome.ok_bind, holds_getShape hg, holds_nElems hg]
    have hfill : fillOnes (vol s) ((List.range (vol s)).map (fun i => g (coords s i))) = .ok (List.replicate (vol s) (1 : K)) := by
      simp [fillOnes]
    rcases hs with ⟨rfl, rfl⟩ | rfl
    · simp only [Outcome.read, List.getElem?_cons_zero, Outcome.ok_bind, List.length_singleton, Nat.one_lt_ofNat, if_true, rowCount, hfill, h1]
      rfl
    · simp only [Outcome.read, List.getElem?_cons_zero, List.getElem?_cons_succ, Outcome.ok_bind, List.length_cons, List.length_nil,
        Nat.reduceAdd, Nat.lt_irrefl, if_false, rowCount, hfill, h1]
      rfl
  · have key : ∀ k j, k < r → j < c → r1[k * c + j]? = some (tableAt rows k j) := by
      intro k j hk hj
      have hlt : k * c + j < vol s := by
        have : (k + 1) * c ≤ r * c := Nat.mul_le_mul_right c (by omega)
        rw [Nat.add_mul] at this
        rw [hv, Nat.mul_comm c r]; omega
      rw [h3 k j (by omega) (by omega) hj, tableAt]
      cases (rows.getD k [])[j]? with
      | some v => rfl
      | none => simp [hlt]
    rcases hs with ⟨rfl, rfl⟩ | rfl
    · obtain ⟨hx1, hx2⟩ := hx
      match x, hx1 with
      | [j], _ =>
        have := hx2 0 (by simp)
        simpa [flat] using key 0 j (by omega) (by simpa using this)
    · obtain ⟨hx1, hx2⟩ := hx
      match x, hx1 with
      | [j, k], _ =>
        have h0 := hx2 0 (by simp)
        have h1 := hx2 1 (by simp)
        have := key k j (by simpa using h1) (by simpa using h0)
        simpa [flat, Nat.add_comm, Nat.mul_comm] using this

/-- Row k cannot be written in a buffer of `n` numbers: it has no argument, or runs past the end. -/
def BadRow (g : Shape → List Nat) (ts : List Shape) (c n k : Nat) : Prop :=
  ts.length ≤ k ∨ ∃ s, ts[k]? = some s ∧ g s ≠ [] ∧ n < k * c + (g s).length

theorem writeRows_total {T : Type} [NatCast T] (g : Shape → List Nat) (ts : List Shape) (c : Nat) (n i : Nat) (raw : List T) :
    ((∃ r, writeRows (fun s => .ok (g s)) ts c n i raw = .ok r ∧ r.length = raw.length) ∧ ∀ k, i ≤ k → k < i + n → ¬ BadRow g ts c raw.length k) ∨
    (writeRows (fun s => .ok (g s)) ts c n i raw = .ub ∧ ∃ k, i ≤ k ∧ k < i + n ∧ BadRow g ts c raw.length k) := by
  induction n generalizing i raw with
  | zero => exact .inl ⟨⟨raw, rfl, rfl⟩, fun k h1 h2 => by omega⟩
  | succ n ih =>
    by_cases hi : i < ts.length
    · have hs : ts[i]? = some ts[i] := List.getElem?_eq_getElem hi
      by_cases hb : g ts[i] ≠ [] ∧ raw.length < i * c + (g ts[i]).length
      · refine .inr ⟨?_, i, Nat.le_refl _, by omega, .inr ⟨_, hs, hb⟩⟩
        rw [writeRows, Outcome.read, hs]
        simp only [Outcome.ok_bind]
        rw [writeRow_ub _ _ _ hb.1 hb.2]; rfl
      · have hok : ∃ r1, writeRow (g ts[i]) (i * c) raw = .ok r1 ∧ r1.length = raw.length := by
          by_cases he : g ts[i] = []
          · exact ⟨raw, by rw [he]; rfl, rfl⟩
          · obtain ⟨r, h1, h2, _⟩ := writeRow_ok (g ts[i]) (i * c) raw (by
              have : ¬ raw.length < i * c + (g ts[i]).length := fun h => hb ⟨he, h⟩
              omega)
            exact ⟨r, h1, h2⟩
        obtain ⟨r1, h1, h2⟩ := hok
        have heq : writeRows (fun s => .ok (g s)) ts c (n + 1) i raw = writeRows (fun s => .ok (g s)) ts c n (i + 1) r1 := by
          rw [writeRows, Outcome.read, hs]
          simp only [Outcome.ok_bind, h1]
        have hni : ¬ BadRow g ts c raw.length i := by
          rintro (h | ⟨s, h3, h4⟩)
          · omega
          · rw [hs] at h3; cases h3; exact hb h4
        rw [heq, ← h2]
        rcases ih (i + 1) r1 with ⟨⟨r, h3, h4⟩, h5⟩ | ⟨h3, k, h4, h5, h6⟩
        · refine .inl ⟨⟨r, h3, h4⟩, fun k hk hk' => ?_⟩
          by_cases hki : k = i
          · rw [hki, h2]; exact hni
          · exact h5 k (by omega) (by omega)
        · exact .inr ⟨h3, k, by omega, by omega, h6⟩
    · refine .inr ⟨?_, i, Nat.le_refl _, by omega, .inl (by omega)⟩
      rw [writeRows, Outcome.read, List.getElem?_eq_none (by omega)]; rfl

/-- C76: exactly when a shape node reads or writes outside its arrays: a row has no argument to be read off, or its
numbers run past the end of the table (a row that runs over only the rows after it is not detected). -/
theorem c76_table_ub_iff (e : Env K) (g : Shape → List Nat) (s : List Nat) (c r : Nat) (hs : TableShape s c r) (hf : Full s)
    (hm : e.fits (Shape.nElems s) = true) (args : List (Tensor K)) :
    (shapePass e (fun t => .ok (g t)) s none (args.map some) = .ub ↔
      ∃ k, k < r ∧ (args.length ≤ k ∨ ∃ a, args[k]? = some a ∧ g a.getShape ≠ [] ∧ c * r < k * c + (g a.getShape).length)) ∧
    (shapePass e (fun t => .ok (g t)) s none (args.map some) ≠ .ub → ∃ t', shapePass e (fun t => .ok (g t)) s none (args.map some) = .ok t' ∧ t'.isAlloc = true ∧ t'.getShape = s) := by
  have hargs : Outcome.forM' (args.map some) argShape = .ok (args.map Tensor.getShape) := by
    induction args with
    | nil => rfl
    | cons a as ih => simp only [List.map_cons, Outcome.forM', argShape, ih, Outcome.ok_bind]
  have hv : vol s = c * r := by
    rcases hs with ⟨rfl, rfl⟩ | rfl <;> simp [vol]
  have hg : Holds (Tensor.new e s) s (fun x => e.junk (flat s x)) := by
    rw [new_eq e hf hm]
    refine ⟨hf, rfl, _, rfl, by simp, fun x hx => ?_⟩
    have := Shape.flat_lt hx
    simp [this]
  have heq : shapePass e (fun t => .ok (g t)) s none (args.map some) =
      writeRows (fun t => .ok (g t)) (args.map Tensor.getShape) c r 0 (List.replicate (vol s) (1 : K)) >>= fun b =>
        .ok { Tensor.new e s with raw := some b } := by
    unfold shapePass
    rw [hargs, Outcome.ok_bind, Option.getD_none]
    unfold shapeExtract
    rw [holds_getRaw hg, Outcome.ok_bind, holds_getShape hg, holds_nElems hg]
    have hfill : fillOnes (vol s) ((List.range (vol s)).map (fun i => e.junk (flat s (coords s i)))) = .ok (List.replicate (vol s) (1 : K)) := by
      simp [fillOnes]
    rcases hs with ⟨rfl, rfl⟩ | rfl
    · simp only [Outcome.read, List.getElem?_cons_zero, Outcome.ok_bind, List.length_singleton, Nat.one_lt_ofNat, if_true, rowCount, hfill]
      rfl
    · simp only [Outcome.read, List.getElem?_cons_zero, List.getElem?_cons_succ, Outcome.ok_bind, List.length_cons, List.length_nil,
        Nat.reduceAdd, Nat.lt_irrefl, if_false, rowCount, hfill]
      rfl
  have hbad : ∀ k, BadRow g (args.map Tensor.getShape) c (c * r) k ↔
      (args.length ≤ k ∨ ∃ a, args[k]? = some a ∧ g a.getShape ≠ [] ∧ c * r < k * c + (g a.getShape).length) := by
    intro k
    unfold BadRow
    simp only [List.length_map, List.getElem?_map, Option.map_eq_some_iff]
    constructor
    · rintro (h | ⟨t, ⟨a, ha, rfl⟩, h⟩)
      · exact .inl h
      · exact .inr ⟨a, ha, h⟩
    · rintro (h | ⟨a, ha, h⟩)
      · exact .inl h
      · exact .inr ⟨_, ⟨a, ha, rfl⟩, h⟩
  rw [heq]
  have ht := writeRows_total g (args.map Tensor.getShape) c r 0 (List.replicate (vol s) (1 : K))
  simp only [List.length_replicate, hv, Nat.zero_add, Nat.zero_le, true_and, forall_const, hbad] at ht
  rw [hv]
  rcases ht with ⟨⟨b, h1, h2⟩, h3⟩ | ⟨h1, h2⟩
  · rw [h1, Outcome.ok_bind]
    refine ⟨⟨(fun h => by cases h), fun ⟨k, hk, h⟩ => absurd h (h3 k hk)⟩, fun _ => ⟨_, rfl, ?_⟩⟩
    have ha : ({ Tensor.new e s with raw := some b } : Tensor K).isAlloc = true :=
      (Tensor.isAlloc_iff _).2 ⟨by rw [show ({ Tensor.new e s with raw := some b } : Tensor K).alloc = s from hg.shape]; exact hf, b, rfl⟩
    refine ⟨ha, ?_⟩
    rw [Tensor.getShape, if_pos ha]; exact hg.shape
  · rw [h1]
    exact ⟨⟨fun _ => h2, fun _ => rfl⟩, fun h => absurd rfl h⟩

/-- Nothing, or a tensor of shape `s`. -/
def Keeps (data : Option (Tensor K)) (s : List Nat) : Prop := ∀ d, data = some d → ∃ g, Holds d s g

omit [Field K] in
/-- An operation evaluated for the first time, or again with the shape it holds. -/
theorem forwardPass_keeps (e : Env K) (shaper : Shaper) (f : TransferFunc K) (data : Option (Tensor K))
    (ts : List (Tensor K × List Nat × (List Nat → K))) (h : ∀ x ∈ ts, Holds x.1 x.2.1 x.2.2)
    (out : Shape) (g : List Nat → K) (hd : Keeps data out) (hshape : shaper (ts.map (·.2.1)) = .ok out) (hout : Full out)
    (hm : e.fits out.nElems = true)
    (hk : ∀ dest : List K, dest.length = vol out →
      f dest (ts.map (fun x => bufOf x.2.1 x.2.2)) out (ts.map (·.2.1)) = .ok (bufOf out g)) :
    ∃ t', forwardPass e shaper f data (ts.map (fun x => some x.1)) = .ok t' ∧ Holds t' out g := by
  cases data with
  | none => exact forwardPass_holds e shaper f ts h out g hshape hout hm hk
  | some d =>
    obtain ⟨g0, h0⟩ := hd d rfl
    refine ⟨{ d with raw := some (bufOf out g) }, ?_, ?_⟩
    · unfold forwardPass
      rw [forM'_alloc ts h, Outcome.ok_bind, map_getShape ts h, hshape, Outcome.ok_bind]
      simp only [prepareOut, (Shape.isFullyDefined_iff out).2 hout, holds_isAlloc h0, holds_getShape h0, Shape.compat_self, if_true,
        Bool.not_true, Bool.false_eq_true, if_false, Outcome.ok_bind]
      unfold transfer
      rw [holds_getRaw h0, Outcome.ok_bind, forM'_getRaw ts h, Outcome.ok_bind, holds_getShape h0, map_getShape ts h, hk _ (by simp), Outcome.ok_bind]
      rfl
    · have := holds_of_buf hout g d.allowed
      exact ⟨hout, h0.shape, this.data⟩

theorem mean_fold1_sum [Inhabited K] (l : List K) (hl : l ≠ []) : fold1 (· + ·) l = l.sum := by
  cases l with
  | nil => exact absurd rfl hl
  | cons x xs =>
    simp only [fold1, List.sum_cons]
    have : ∀ (xs : List K) (a : K), xs.foldl (· + ·) a = a + xs.sum := by
      intro xs
      induction xs with
      | nil => intro a; simp
      | cons y ys ih => intro a; rw [List.foldl_cons, ih, List.sum_cons, add_assoc]
    exact this xs x

/-- What a mean's nodes hold between evaluations. -/
def MeanNode.Holding (m : MeanNode K) (r : List Nat) : Prop :=
  Keeps m.denom [1] ∧ Keeps m.total r ∧ Keeps m.quot (if vol r = 1 then [1] else r)

theorem denom_ok (e : Env K) (hm : ∀ n, e.fits n = true) (axis : Option Nat) (data : Option (Tensor K)) (hd : Keeps data [1])
    (a : Tensor K) (v : Nat) (hv : denomOf axis a.getShape = .ok [v]) :
    ∃ t, shapePass e (denomOf axis) [1] data [some a] = .ok t ∧ Holds t [1] (fun _ => (v : K)) := by
  obtain ⟨t, h1, h2⟩ := c76_table e (denomOf axis) [1] 1 1 (.inl ⟨rfl, rfl⟩) (by decide) (hm _) data hd [a] [[v]] (by
    intro k hk
    obtain rfl : k = 0 := by omega
    exact ⟨a, rfl, hv, by simp⟩)
  refine ⟨t, h1, h2.full, h2.shape, ?_⟩
  obtain ⟨b, hb, hl, hc⟩ := h2.data
  refine ⟨b, hb, hl, fun c hr => ?_⟩
  rw [hc c hr]
  match c, hr.1 with
  | [x], _ =>
    have := hr.2 0 (by simp)
    simp only [List.getD_cons_zero] at this
    obtain rfl : x = 0 := by omega
    rfl

theorem quot_ok (e : Env K) (hm : ∀ n, e.fits n = true) (data : Option (Tensor K)) (r : List Nat) (hr : Full r)
    (hd : Keeps data (if vol r = 1 then [1] else r)) (s d : Tensor K) (f : List Nat → K) (v : K) (hs : Holds s r f) (hden : Holds d [1] (fun _ => v)) :
    ∃ t, forwardPass e elementaryShaper (binaryElem (· / ·)) data [some s, some d] = .ok t ∧
      Holds t (if vol r = 1 then [1] else r) (if vol r = 1 then (fun _ => f (coords r 0) / v) else fun c => f c / v) := by
  have hsh : elementaryShaper [r, [1]] = .ok (if vol r = 1 then [1] else r) := by
    rw [c17_binary r [1] hr (by decide), if_pos (by decide)]
  have hfull : Full (if vol r = 1 then [1] else r) := by
    split
    · decide
    · exact hr
  refine forwardPass_keeps e _ _ data [(s, r, f), (d, [1], fun _ => v)] (by simpa using ⟨hs, hden⟩) _ _ hd hsh hfull (hm _) (fun dest hl => ?_)
  simp only [List.map_cons, List.map_nil, binaryElem]
  refine fill_bufOf hfull _ _ dest hl (fun i hi hc => ?_)
  have r1 : Outcome.read (bufOf [1] (fun _ => v)) 0 = .ok v := rfl
  have e1 : Shape.nElems [1] = 1 := rfl
  have e2 : (if (1 : Nat) > 1 then 1 else 0) = 0 := rfl
  rw [e1, e2, Nat.mul_zero, r1, Shape.nElems_eq hr.1]
  by_cases h1 : vol r = 1
  · simp only [h1, if_true] at hi ⊢
    rw [if_neg (by omega), Nat.mul_zero, read_bufOf hr.2 f 0 (by omega)]
    rfl
  · simp only [h1, if_false] at hi ⊢
    have := Shape.vol_pos hr.2
    rw [if_pos (by omega), Nat.mul_one, read_bufOf hr.2 f i hi]
    rfl

omit [Field K] in
theorem keeps_some {d : Tensor K} {s g} (h : Holds d s g) : Keeps (some d) s := fun _ hd => by cases hd; exact ⟨g, h⟩

/-- The nodes of a mean over all elements, fed one value. -/
theorem feed_all (e : Env K) (hm : ∀ n, e.fits n = true) (m : MeanNode K) (hI : MeanNode.Holding m [1]) (a : Tensor K) (s : List Nat)
    (f : List Nat → K) (ha : Holds a s f) :
    ∃ m' q, feed e none m a = .ok m' ∧ MeanNode.Holding m' [1] ∧ m'.quot = some q ∧ Holds q [1] (fun _ => Spec.mean (elements s f)) := by
  obtain ⟨i1, i2, i3⟩ := hI
  obtain ⟨d, h1, h2⟩ := denom_ok e hm none m.denom i1 a (vol s) (by
    rw [holds_getShape ha]; simp only [denomOf]; rw [Shape.nElems_eq ha.full.1])
  have : Inhabited K := ⟨0⟩
  obtain ⟨t, h3, h4⟩ := forwardPass_keeps e compressAllShaper (compressAllKernel (· + ·)) m.total [(a, s, f)] (by simpa using ha) [1]
    (fun _ => fold1 (· + ·) (elements s f)) i2 rfl (by decide) (hm _) (fun dest hl => compressAllKernel_bufOf (· + ·) s f ha.full dest hl)
  obtain ⟨q, h5, h6⟩ := quot_ok e hm m.quot [1] (by decide) i3 t d _ _ h4 h2
  have hne : elements s f ≠ [] := by
    have := Shape.vol_pos ha.full.2
    intro hc
    have hl := congrArg List.length hc
    simp [elements] at hl
    omega
  refine ⟨⟨some d, some t, some q⟩, q, ?_, ⟨keeps_some h2, keeps_some h4, keeps_some h6⟩, rfl, ?_⟩
  · unfold feed
    simp only [sumPass, h1, Outcome.ok_bind]
    simp only [List.map_cons, List.map_nil] at h3
    rw [h3, Outcome.ok_bind, h5]; rfl
  · have e1 : (fun _ : List Nat => Spec.mean (elements s f)) = fun _ => fold1 (· + ·) (elements s f) / ((vol s : Nat) : K) := by
      funext _
      rw [mean_fold1_sum _ hne, Spec.mean]
      simp [elements]
    rw [e1]
    simpa [vol] using h6

/-- The nodes of a mean along an axis, fed one value. -/
theorem feed_axis (e : Env K) (hm : ∀ n, e.fits n = true) (k : Nat) (m : MeanNode K) (a : Tensor K) (s : List Nat)
    (f : List Nat → K) (ha : Holds a s f) (hk : k < s.length) (hI : MeanNode.Holding m (reduceShape s k)) :
    ∃ m' q, feed e (some k) m a = .ok m' ∧ MeanNode.Holding m' (reduceShape s k) ∧ m'.quot = some q ∧
      Holds q (if vol (reduceShape s k) = 1 then [1] else reduceShape s k)
        (if vol (reduceShape s k) = 1 then (fun _ => Spec.mean (fibre s k f (coords (reduceShape s k) 0))) else fun c => Spec.mean (fibre s k f c)) := by
  obtain ⟨i1, i2, i3⟩ := hI
  have hr := reduce_full ha.full hk
  obtain ⟨d, h1, h2⟩ := denom_ok e hm (some k) m.denom i1 a (s.getD k 0) (by
    rw [holds_getShape ha]; simp only [denomOf]; rw [Outcome.read_of_lt _ _ hk, Outcome.ok_bind, getD_lt _ _ _ hk])
  have : Inhabited K := ⟨0⟩
  obtain ⟨t, h3, h4⟩ := forwardPass_keeps e (compressShaper k) (compressKernel (· + ·) k) m.total [(a, s, f)] (by simpa using ha) (reduceShape s k)
    (fun c => fold1 (· + ·) (fibre s k f c)) i2 (compressShaper_eq ha.full hk) hr (hm _)
    (fun dest hl => compressKernel_bufOf (· + ·) s f k ha.full hk dest hl)
  obtain ⟨q, h5, h6⟩ := quot_ok e hm m.quot (reduceShape s k) hr i3 t d _ _ h4 h2
  have hpos : 0 < s.getD k 0 := by
    rw [getD_lt _ _ _ hk]; exact ha.full.2 _ (List.getElem_mem hk)
  have hval : ∀ c, fold1 (· + ·) (fibre s k f c) / ((s.getD k 0 : Nat) : K) = Spec.mean (fibre s k f c) := by
    intro c
    have hne : fibre s k f c ≠ [] := by
      intro hc
      have hl := congrArg List.length hc
      simp only [fibre, List.length_map, List.length_range, List.length_nil] at hl
      omega
    rw [mean_fold1_sum _ hne, Spec.mean]
    simp [fibre]
  refine ⟨⟨some d, some t, some q⟩, q, ?_, ⟨keeps_some h2, keeps_some h4, keeps_some h6⟩, rfl, ?_⟩
  · unfold feed
    simp only [sumPass, h1, Outcome.ok_bind]
    simp only [List.map_cons, List.map_nil] at h3
    rw [h3, Outcome.ok_bind, h5]; rfl
  · simpa only [hval] using h6

theorem feeds_append (e : Env K) (axis : Option Nat) (m : MeanNode K) (as bs : List (Tensor K)) :
    feeds e axis m (as ++ bs) = feeds e axis m as >>= fun m' => feeds e axis m' bs := by
  induction as generalizing m with
  | nil => rfl
  | cons a as ih =>
    simp only [List.cons_append, feeds]
    cases h : feed e axis m a with
    | ok m' => simp only [Outcome.ok_bind, ih]
    | _ => rfl

omit [Field K] in
theorem fresh_holding (r : List Nat) : MeanNode.Holding (fresh : MeanNode K) r :=
  ⟨(fun _ h => by cases h), (fun _ h => by cases h), (fun _ h => by cases h)⟩

theorem feeds_all (e : Env K) (hm : ∀ n, e.fits n = true) (as : List (Tensor K)) (h : ∀ t ∈ as, ∃ s f, Holds t s f) (m : MeanNode K)
    (hI : MeanNode.Holding m [1]) : ∃ m', feeds e none m as = .ok m' ∧ MeanNode.Holding m' [1] := by
  induction as generalizing m with
  | nil => exact ⟨m, rfl, hI⟩
  | cons a as ih =>
    obtain ⟨s, f, ha⟩ := h a (by simp)
    obtain ⟨m1, q, h1, h2, _⟩ := feed_all e hm m hI a s f ha
    obtain ⟨m2, h3, h4⟩ := ih (fun t ht => h t (by simp [ht])) m1 h2
    exact ⟨m2, by rw [feeds, h1, Outcome.ok_bind, h3], h4⟩

theorem feeds_axis (e : Env K) (hm : ∀ n, e.fits n = true) (k : Nat) (r : List Nat) (as : List (Tensor K))
    (h : ∀ t ∈ as, ∃ s f, Holds t s f ∧ k < s.length ∧ reduceShape s k = r) (m : MeanNode K)
    (hI : MeanNode.Holding m r) : ∃ m', feeds e (some k) m as = .ok m' ∧ MeanNode.Holding m' r ∧ (as ≠ [] → ∃ t g, m'.total = some t ∧ Holds t r g) := by
  induction as generalizing m with
  | nil => exact ⟨m, rfl, hI, fun h => absurd rfl h⟩
  | cons a as ih =>
    obtain ⟨s, f, ha, hk, rfl⟩ := h a (by simp)
    obtain ⟨m1, q, h1, h2, _⟩ := feed_axis e hm k m a s f ha hk hI
    obtain ⟨m2, h3, h4, h5⟩ := ih (fun t ht => h t (by simp [ht])) m1 h2
    refine ⟨m2, by rw [feeds, h1, Outcome.ok_bind, h3], h4, fun _ => ?_⟩
    by_cases hn : as = []
    · subst hn
      simp only [feeds, Outcome.ok.injEq] at h3
      subst h3
      unfold feed at h1
      rw [Outcome.bind_eq_ok] at h1
      obtain ⟨d, _, h1⟩ := h1
      rw [Outcome.bind_eq_ok] at h1
      obtain ⟨t, _, h1⟩ := h1
      rw [Outcome.bind_eq_ok] at h1
      obtain ⟨q', _, h1⟩ := h1
      cases h1
      obtain ⟨g, hg⟩ := h2.2.1 t rfl
      exact ⟨t, g, rfl, hg⟩
    · exact h5 hn

/-- C76: the mean of all the elements: whatever values, of whatever shapes, the argument has had before, the node holds
the arithmetic mean of the elements it has now, as a scalar. -/
theorem c76_mean_all (e : Env K) (hm : ∀ n, e.fits n = true) (before : List (Tensor K)) (hb : ∀ t ∈ before, ∃ s f, Holds t s f)
    (a : Tensor K) (s : List Nat) (f : List Nat → K) (ha : Holds a s f) :
    ∃ m q, feeds e none fresh (before ++ [a]) = .ok m ∧ m.quot = some q ∧ Holds q [1] (fun _ => Spec.mean (elements s f)) := by
  obtain ⟨m1, h1, h2⟩ := feeds_all e hm before hb fresh (fresh_holding _)
  obtain ⟨m2, q, h3, _, h5, h6⟩ := feed_all e hm m1 h2 a s f ha
  exact ⟨m2, q, by rw [feeds_append, h1, Outcome.ok_bind, feeds, h3]; rfl, h5, h6⟩

/-- C76: the mean along an axis inside the rank: whatever values the argument has had before (their extents along the
axis may differ), each element is the arithmetic mean of its fibre; a result of one element is a plain scalar. -/
theorem c76_mean_axis (e : Env K) (hm : ∀ n, e.fits n = true) (k : Nat) (before : List (Tensor K)) (a : Tensor K) (s : List Nat)
    (f : List Nat → K) (ha : Holds a s f) (hk : k < s.length)
    (hb : ∀ t ∈ before, ∃ s' f', Holds t s' f' ∧ k < s'.length ∧ reduceShape s' k = reduceShape s k) :
    ∃ m q, feeds e (some k) fresh (before ++ [a]) = .ok m ∧ m.quot = some q ∧
      (vol (reduceShape s k) ≠ 1 → Holds q (reduceShape s k) (fun c => Spec.mean (fibre s k f c))) ∧
      (vol (reduceShape s k) = 1 → Holds q [1] (fun _ => Spec.mean (fibre s k f (List.replicate (reduceShape s k).length 0)))) := by
  obtain ⟨m1, h1, h2, _⟩ := feeds_axis e hm k (reduceShape s k) before hb fresh (fresh_holding _)
  obtain ⟨m2, q, h3, _, h5, h6⟩ := feed_axis e hm k m1 a s f ha hk h2
  refine ⟨m2, q, by rw [feeds_append, h1, Outcome.ok_bind, feeds, h3]; rfl, h5, fun h => ?_, fun h => ?_⟩
  · simpa only [h, if_false] using h6
  · have : ∀ r : List Nat, coords r 0 = List.replicate r.length 0 := by
      intro r
      induction r with
      | nil => rfl
      | cons d ds ih => simp [coords, ih, List.replicate_succ]
    simpa only [h, if_true, this] using h6

/-- C76: along an axis at or beyond the rank (which `reduce_sum` takes for a copy) the size of the axis is read outside the
shape. -/
theorem c76_beyond_ub (e : Env K) (hm : ∀ n, e.fits n = true) (k : Nat) (r : List Nat) (before : List (Tensor K))
    (hb : ∀ t ∈ before, ∃ s' f', Holds t s' f' ∧ k < s'.length ∧ reduceShape s' k = r)
    (a : Tensor K) (s : List Nat) (f : List Nat → K) (ha : Holds a s f) (hk : s.length ≤ k) :
    feeds e (some k) fresh (before ++ [a]) = .ub := by
  obtain ⟨m1, h1, h2, _⟩ := feeds_axis e hm k r before hb fresh (fresh_holding _)
  rw [feeds_append, h1, Outcome.ok_bind, feeds]
  have hd : shapePass e (denomOf (some k)) [1] m1.denom [some a] = .ub := by
    have hg : ∃ g, Holds (m1.denom.getD (Tensor.new e [1])) [1] g := by
      cases hc : m1.denom with
      | none =>
        refine ⟨fun x => e.junk (flat [1] x), ?_⟩
        rw [Option.getD_none, new_eq e (by decide) (hm _)]
        refine ⟨by decide, rfl, _, rfl, by simp, fun x hx => ?_⟩
        have := Shape.flat_lt hx
        simp [this]
      | some d => exact h2.1 d hc
    obtain ⟨g, hg⟩ := hg
    have hsh := holds_getShape ha
    simp only [shapePass, Outcome.forM', argShape, Outcome.ok_bind, shapeExtract, holds_getRaw hg, holds_getShape hg, holds_nElems hg, hsh]
    simp [Outcome.read, rowCount, fillOnes, writeRows, denomOf, List.getElem?_eq_none hk]
  rw [feed, hd]; rfl

/-- C76: once evaluated, the mean along an axis refuses a value whose shape without the axis is another. -/
theorem c76_reshape_throws (e : Env K) (hm : ∀ n, e.fits n = true) (k : Nat) (r : List Nat) (before : List (Tensor K)) (hn : before ≠ [])
    (hb : ∀ t ∈ before, ∃ s' f', Holds t s' f' ∧ k < s'.length ∧ reduceShape s' k = r)
    (a : Tensor K) (s : List Nat) (f : List Nat → K) (ha : Holds a s f) (hk : k < s.length) (hc : Shape.isCompatibleWith (reduceShape s k) r = false) :
    feeds e (some k) fresh (before ++ [a]) = .throw .runtimeError := by
  obtain ⟨m1, h1, h2, h3⟩ := feeds_axis e hm k r before hb fresh (fresh_holding _)
  obtain ⟨t, g, h4, h5⟩ := h3 hn
  rw [feeds_append, h1, Outcome.ok_bind, feeds]
  obtain ⟨d, h6, _⟩ := denom_ok e hm (some k) m1.denom h2.1 a (s.getD k 0) (by
    rw [holds_getShape ha]; simp only [denomOf]; rw [Outcome.read_of_lt _ _ hk, Outcome.ok_bind, getD_lt _ _ _ hk])
  have h7 := c72_incompatible_throws e (compressShaper k) (compressKernel (· + ·) k) t [a] (reduceShape s k) (holds_isAlloc h5)
    (by simpa using holds_isAlloc ha) (by simpa [holds_getShape ha] using compressShaper_eq ha.full hk) (reduce_full ha.full hk)
    (by rw [holds_getShape h5]; exact hc)
  rw [feed, h6, Outcome.ok_bind, sumPass, h4]
  simp only [List.map_cons, List.map_nil] at h7
  rw [h7]; rfl

/-! ### Instances -/

/-- Elements 1, 2, 3, … in index order. -/
def count (s : List Nat) : Tensor ℚ := ⟨some (bufOf s (fun c => (flat s c : ℚ) + 1)), s, s⟩

theorem count_holds (s : List Nat) (h : Full s) : Holds (count s) s (fun c => (flat s c : ℚ) + 1) := holds_of_buf h _ _

/-- All memory requests are met. -/
def roomy : Env ℚ := ⟨fun _ => 7, 0, fun _ => true⟩

-- one value of shape [2,2,2] after one of shape [3]: the mean of 1..8
example : ∃ m q, feeds roomy none fresh [count [3], count [2, 2, 2]] = .ok m ∧ m.quot = some q ∧ Holds q [1] (fun _ => 9 / 2) := by
  obtain ⟨m, q, h1, h2, h3⟩ := c76_mean_all roomy (fun _ => rfl) [count [3]] (by simpa using ⟨_, _, count_holds [3] (by decide)⟩) (count [2, 2, 2]) _ _
    (count_holds [2, 2, 2] (by decide))
  refine ⟨m, q, h1, h2, ?_⟩
  have : Spec.mean (elements [2, 2, 2] (fun c => (flat [2, 2, 2] c : ℚ) + 1)) = 9 / 2 := by
    simp [Spec.mean, elements, vol, coords, flat, List.range_succ]; norm_num
  rwa [this] at h3

-- along axis 0, of extent 2 and then 4: three means of four elements
example : ∃ m q, feeds roomy (some 0) fresh [count [2, 3], count [4, 3]] = .ok m ∧ m.quot = some q ∧
    ∃ g, Holds q [3] g ∧ g [0] = 5 / 2 ∧ g [2] = 21 / 2 := by
  obtain ⟨m, q, h1, h2, h3, _⟩ := c76_mean_axis roomy (fun _ => rfl) 0 [count [2, 3]] (count [4, 3]) _ _ (count_holds [4, 3] (by decide)) (by decide)
    (by simpa using ⟨_, ⟨_, count_holds [2, 3] (by decide)⟩, by decide, rfl⟩)
  refine ⟨m, q, h1, h2, _, h3 (by decide), ?_, ?_⟩
  · simp [Spec.mean, fibre, fibreCoord, flat, List.range_succ]; norm_num
  · simp [Spec.mean, fibre, fibreCoord, flat, List.range_succ]; norm_num

-- along axis 2 of a matrix
example : feeds roomy (some 2) fresh [count [2, 3]] = .ub :=
  c76_beyond_ub roomy (fun _ => rfl) 2 [] [] (by simp) (count [2, 3]) _ _ (count_holds [2, 3] (by decide)) (by decide)

-- three columns, then four
example : feeds roomy (some 0) fresh [count [2, 3], count [2, 4]] = .throw .runtimeError :=
  c76_reshape_throws roomy (fun _ => rfl) 0 [3] [count [2, 3]] (by simp) (by simpa using ⟨_, ⟨_, count_holds [2, 3] (by decide)⟩, by decide, rfl⟩)
    (count [2, 4]) _ _ (count_holds [2, 4] (by decide)) (by decide) (by decide)

-- the shapes of two arguments, as the rows of a 3 by 2 table
example : ∃ t, shapePass roomy (fun s => .ok s) [3, 2] none [some (count [5, 4]), some (count [6, 7, 8])] = .ok t ∧
    ∃ g, Holds t [3, 2] g ∧ g [0, 0] = 5 ∧ g [2, 0] = 1 ∧ g [2, 1] = 8 := by
  obtain ⟨t, h1, h2⟩ := c76_table roomy (fun s => .ok s) [3, 2] 3 2 (.inr rfl) (by decide) rfl none (fun _ h => by cases h) [count [5, 4], count [6, 7, 8]]
    [[5, 4], [6, 7, 8]] (by
      intro k hk
      have : k = 0 ∨ k = 1 := by omega
      rcases this with rfl | rfl
      · exact ⟨_, rfl, by rw [holds_getShape (count_holds [5, 4] (by decide))]; rfl, by simp⟩
      · exact ⟨_, rfl, by rw [holds_getShape (count_holds [6, 7, 8] (by decide))]; rfl, by simp⟩)
  exact ⟨t, h1, _, h2, by simp [tableAt], by simp [tableAt], by simp [tableAt]⟩

-- one argument for two rows; a row of three numbers where there is room for two
example : shapePass roomy (fun s => .ok s) [3, 2] none [some (count [5, 4])] = .ub ∧
    shapePass roomy (fun s => .ok s) [2] none [some (count [6, 7, 8])] = .ub := by
  refine ⟨((c76_table_ub_iff roomy (fun s => s) [3, 2] 3 2 (.inr rfl) (by decide) rfl [count [5, 4]]).1).2 ⟨1, by omega, .inl (by simp)⟩, ?_⟩
  refine ((c76_table_ub_iff roomy (fun s => s) [2] 2 1 (.inl ⟨rfl, rfl⟩) (by decide) rfl [count [6, 7, 8]]).1).2 ⟨0, by omega, .inr ⟨_, rfl, ?_⟩⟩
  rw [holds_getShape (count_holds [6, 7, 8] (by decide))]
  simp

end Verif.Props
