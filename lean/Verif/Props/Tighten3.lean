import Verif.Props.Tensor
import Verif.Props.Matmul
import Verif.Props.Elementary
import Verif.Props.IO
import Verif.Props.Tighten2
/-!
# Details that mutation tests showed to be left out (C08, C24, C39, C54)
-/
namespace Verif.Props
open Spec Tensor Matmul Elementary
variable {T : Type}

/-! ### C08 -/

/-- A tensor without a buffer has no elements; one with a buffer has as many as the buffer. -/
theorem c08_n_elems (t : Tensor T) (hw : t.WF) : t.nElems = (t.raw.getD []).length := by
  unfold nElems
  cases e : t.raw with
  | none => rfl
  | some b =>
    rw [Shape.nElems_eq ((hw b e).1).1]; exact (hw b e).2.symm

/-- `deallocate` frees the buffer and reports it, or reports that there was none; the allowed shape stays. -/
theorem c08_deallocate (t : Tensor T) :
    (t.isAlloc = true → t.deallocate.2 = true ∧ t.deallocate.1.raw = none ∧ t.deallocate.1.isAlloc = false) ∧
    (t.isAlloc = false → t.deallocate = (t, false)) ∧ t.deallocate.1.allowed = t.allowed := by
  unfold deallocate
  refine ⟨fun h => ?_, fun h => ?_, ?_⟩
  · rw [if_pos h]; exact ⟨rfl, rfl, by simp [isAlloc]⟩
  · rw [if_neg (by rw [h]; simp)]
  · split <;> rfl

/-- Copy assignment makes the receiver equal to the source, elements and both shapes; with `shapeonly` all but the
elements; the source and the other tensors stay. -/
theorem c08_copy (r : ByteRep T) (e : Env T) (h : THeap T) (i j : Nat) (so : Bool) (hij : i ≠ j) (hw : (h j).WF)
    (ha : (h j).isAlloc = true) (hf : e.fits (h j).alloc.nElems = true) :
    ∃ h', tstep r e h (.copy i j so) = .ok h' ∧ (so = false → h' i = h j) ∧
      (h' i).alloc = (h j).alloc ∧ (h' i).allowed = (h j).allowed ∧ (h' i).isAlloc = true ∧ ∀ k, k ≠ i → h' k = h k := by
  obtain ⟨b, hb⟩ : ∃ b, (h j).raw = some b := by
    cases hh : (h j).raw with
    | none => rw [isAlloc, hh] at ha; simp at ha
    | some b => exact ⟨b, rfl⟩
  have hfull : (h j).alloc.isFullyDefined = true := by rw [isAlloc] at ha; simp at ha; exact ha.1
  have hlen : b.length = (h j).alloc.nElems := by rw [Shape.nElems_eq ((hw b hb).1).1]; exact (hw b hb).2
  have hset : ∀ t, (h.set i t) i = t ∧ ∀ k, k ≠ i → (h.set i t) k = h k := by
    intro t; exact ⟨if_pos rfl, fun k hk => if_neg hk⟩
  cases so with
  | true =>
    refine ⟨h.set i ⟨some ((List.range (h j).alloc.nElems).map e.junk), (h j).alloc, (h j).allowed⟩, ?_, by simp, ?_, ?_, ?_, (hset _).2⟩
    · simp [tstep, hij, copyHelper, ha, allocBuf, hf, hb]
    · rw [(hset _).1]
    · rw [(hset _).1]
    · rw [(hset _).1]; simp [isAlloc, hfull]
  | false =>
    refine ⟨h.set i (h j), ?_, fun _ => (hset _).1, by rw [(hset _).1], by rw [(hset _).1], by rw [(hset _).1]; exact ha, (hset _).2⟩
    have : (h j) = ⟨some b, (h j).alloc, (h j).allowed⟩ := by rw [← hb]
    have hm : memcpy ((List.range (h j).alloc.nElems).map e.junk) 0 b 0 (h j).alloc.nElems = .ok b := by
      unfold memcpy
      rw [if_pos (by simp; omega)]
      simp [← hlen]
    simp only [tstep, if_neg hij, copyHelper, ha, if_true, allocBuf, hf, hb, Bool.false_eq_true, if_false, hm, Outcome.ok_bind, Outcome.pure_eq]
    rw [← this]

/-- Move assignment gives the receiver everything and leaves an empty tensor. -/
theorem c08_move (r : ByteRep T) (e : Env T) (h : THeap T) (i j : Nat) (hij : i ≠ j) :
    ∃ h', tstep r e h (.move i j) = .ok h' ∧ h' i = h j ∧ (h' j).raw = none ∧ (h' j).alloc = [] ∧ (h' j).allowed = [] ∧
      ∀ k, k ≠ i → k ≠ j → h' k = h k := by
  refine ⟨_, by simp only [tstep, if_neg hij]; rfl, if_pos rfl, ?_, ?_, ?_, ?_⟩
  · show ((THeap.set _ i _) j).raw = none
    simp [THeap.set, Ne.symm hij, moveHelper]
  · show ((THeap.set _ i _) j).alloc = []
    simp [THeap.set, Ne.symm hij, moveHelper]
  · show ((THeap.set _ i _) j).allowed = []
    simp [THeap.set, Ne.symm hij, moveHelper]
  · intro k h1 h2
    simp [THeap.set, h1, h2]

/-- Assigning a tensor to itself, by copy or move, changes nothing. -/
theorem c08_self_assign (r : ByteRep T) (e : Env T) (h : THeap T) (i : Nat) (so : Bool) :
    tstep r e h (.copy i i so) = .ok h ∧ tstep r e h (.move i i) = .ok h :=
  ⟨if_pos rfl, if_pos rfl⟩

example : ∃ h h' h'' : THeap Nat, trun exRep exEnv (THeap.init exEnv) [.newScalar 1 5] = .ok h ∧ (h 1).WF ∧ (h 1).isAlloc = true ∧
    exEnv.fits (h 1).alloc.nElems = true ∧ tstep exRep exEnv h (.copy 0 1 false) = .ok h' ∧ (h' 0).raw = some [5] ∧
    tstep exRep exEnv h (.copy 0 1 true) = .ok h'' ∧ (h'' 0).raw = some [7] ∧ (h 1).nElems = 1 ∧ (h 0).nElems = 0 ∧
    (h 1).deallocate.2 = true ∧ (h 0).deallocate.2 = false := by
  refine ⟨_, _, _, rfl, ?_, rfl, rfl, rfl, rfl, rfl, rfl, rfl, rfl, rfl, rfl⟩
  intro b hb
  have hb : some [5] = some b := hb
  cases hb
  exact ⟨by decide, rfl⟩

/-! ### C24 -/

theorem minPadLoop_tight (n c : Nat) : ∃ k, (minPadLoop n c).2 = c + k ∧ ((minPadLoop n c).1 - 1) * 2 ^ k ≤ n - 1 ∧
    (k = 0 ∧ (minPadLoop n c).1 = n ∨ 129 ≤ (minPadLoop n c).1) := by
  fun_induction minPadLoop n c with
  | case1 n c hn ih =>
    obtain ⟨k, h1, h2, h3⟩ := ih
    have ht : n > 256 := hn
    refine ⟨k + 1, by omega, ?_, Or.inr ?_⟩
    · have : (n + 1) / 2 - 1 ≤ (n - 1) / 2 := by omega
      calc _ = (((minPadLoop ((n + 1) / 2) (c + 1)).1 - 1) * 2 ^ k) * 2 := by rw [Nat.pow_succ]; ring
        _ ≤ ((n + 1) / 2 - 1) * 2 := Nat.mul_le_mul_right _ h2
        _ ≤ n - 1 := by omega
    · rcases h3 with ⟨_, h3⟩ | h3
      · rw [h3]; omega
      · exact h3
  | case2 n c hn => exact ⟨0, by simp, by simp, Or.inl ⟨rfl, rfl⟩⟩

/-- The padded size covers the extent, is the extent itself up to 256, and never exceeds it by more than a 128th. -/
theorem c24_min_pad_tight (n : Nat) : n ≤ minPad n ∧ minPad n ≤ n + n / 128 ∧ (n ≤ 256 → minPad n = n) := by
  refine ⟨(minPad_spec n).1, ?_, ?_⟩
  · obtain ⟨k, h1, h2, h3⟩ := minPadLoop_tight n 0
    unfold minPad
    rw [h1, Nat.zero_add]
    rcases h3 with ⟨rfl, h3⟩ | h3
    · rw [h3]; simp
    · generalize (minPadLoop n 0).1 = m at *
      have h4 : m * 2 ^ k = (m - 1) * 2 ^ k + 2 ^ k := by
        conv => lhs; rw [show m = (m - 1) + 1 by omega, Nat.add_mul, Nat.one_mul]
      have h5 : 128 * 2 ^ k ≤ (m - 1) * 2 ^ k := Nat.mul_le_mul_right _ (by omega)
      have : 2 ^ k ≤ n / 128 := by
        rw [Nat.le_div_iff_mul_le (by omega)]; omega
      omega
  · intro h
    unfold minPad
    rw [minPadLoop, if_neg (by simp [strassenThreshold]; omega)]; simp

example : minPad 256 = 256 ∧ minPad 257 = 258 ∧ minPad 1000 = 1000 := by
  refine ⟨(c24_min_pad_tight 256).2.2 (by omega), ?_, ?_⟩
  · unfold minPad
    rw [minPadLoop, if_pos (by decide), minPadLoop, if_neg (by decide)]; rfl
  · unfold minPad
    rw [minPadLoop, if_pos (by decide), minPadLoop, if_pos (by decide), minPadLoop, if_neg (by decide)]; rfl

/-! ### C39 -/

/-- `write_inorder` returns whether the file could be read and written. -/
theorem c39_report (r : ByteRep T) (evals : List (Option (Tensor T))) (label : List Char) (fails : Bool) (file : IO.File) (states : List IO.File)
    (b : Bool) (h : IO.writeInorder r evals label fails file = .ok (states, b)) : b = true ↔ file ≠ .corrupt ∧ fails = false :=
  (write_report r evals label fails file states b h).1

/-! ### C54 -/

/-- Operands that do not match along the axis are rejected with `runtime_error`, whatever their values. -/
theorem c54_mismatch_throws (k : Nat) (left : Bool) (full red dropped : Shape) (h1 : red.nElems ≠ 1) (h2 : full.nElems ≠ 1)
    (hd : axialDrop k full = .ok dropped) (hc : red.isCompatibleWith dropped = false) :
    axialShaper k left (if left then [red, full] else [full, red]) = .throw .runtimeError := by
  cases left <;> simp [axialShaper, h1, h2, hd, hc]

example : axialDrop 1 [2, 3] = .ok [2] ∧ Shape.isCompatibleWith [3] [2] = false ∧ Shape.nElems [3] ≠ 1 := by decide

end Verif.Props
