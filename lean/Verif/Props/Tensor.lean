import Verif.Lemmas.Tensor
/-!
# Property theorems C08-C15: tensors
-/
namespace Verif.Props
open Spec Tensor

variable {T : Type}

/-- An environment for the examples: allocation always succeeds. -/
def exEnv : Env Nat := { junk := fun _ => 7, zero := 0, fits := fun _ => true }
/-- One byte per element (values below 256), for the examples. -/
def exRep : ByteRep Nat := { sz := 1, enc := fun x => [UInt8.ofNat x], dec := fun b => (b.headD 0).toNat }

/-! ## C08 -/

theorem tstep_wf (r : ByteRep T) (e : Env T) (h h' : THeap T) (op : TOp T)
    (hw : ∀ i, (h i).WF) (hs : tstep r e h op = .ok h') : ∀ i, (h' i).WF := by
  have key : ∀ i t, t.WF → ∀ k, (h.set i t k).WF := by
    intro i t ht k; unfold THeap.set; split
    · exact ht
    · exact hw k
  cases op with
  | new i s => simp only [tstep, Outcome.ok.injEq] at hs; subst hs; exact key i _ (new_wf e s)
  | newScalar i v =>
    simp only [tstep, Outcome.bind_eq_ok, Outcome.pure_eq, Outcome.ok.injEq] at hs
    obtain ⟨t, ht, rfl⟩ := hs
    exact key i _ (newScalar_wf e v t ht)
  | setShape i s =>
    simp only [tstep, Outcome.bind_eq_ok, Outcome.pure_eq, Outcome.ok.injEq] at hs
    obtain ⟨t, ht, rfl⟩ := hs
    exact key i _ (setShape_wf e _ s (hw i) ht)
  | allocate i =>
    simp only [tstep, Outcome.bind_eq_ok, Outcome.pure_eq, Outcome.ok.injEq] at hs
    obtain ⟨t, ht, rfl⟩ := hs
    exact key i _ (allocate_wf e _ (hw i) ht)
  | allocateShape i s =>
    simp only [tstep, Outcome.bind_eq_ok, Outcome.pure_eq, Outcome.ok.injEq] at hs
    obtain ⟨t, ht, rfl⟩ := hs
    exact key i _ (allocateShape_wf e _ s (hw i) ht)
  | deallocate i =>
    simp only [tstep, Outcome.ok.injEq] at hs; subst hs
    exact key i _ (deallocate_wf _ (hw i))
  | copyFrom i j s =>
    simp only [tstep, Outcome.bind_eq_ok, Outcome.pure_eq, Outcome.ok.injEq] at hs
    obtain ⟨⟨t, b⟩, ht, rfl⟩ := hs
    rcases copyFrom_cases e (h i) (h j) s (hw j) t b ht with ⟨_, rfl⟩ | ⟨_, _, _, _, h2, _⟩
    · exact key i _ (hw i)
    · exact key i _ h2
  | copy i j so =>
    simp only [tstep] at hs
    split at hs
    · injection hs with hs; subst hs; exact hw
    · simp only [Outcome.bind_eq_ok, Outcome.pure_eq, Outcome.ok.injEq] at hs
      obtain ⟨t, ht, rfl⟩ := hs
      exact key i _ (copyHelper_wf e _ so (hw j) ht).1
  | move i j =>
    simp only [tstep] at hs
    split at hs
    · injection hs with hs; subst hs; exact hw
    · simp only [moveHelper, Outcome.ok.injEq] at hs
      subst hs
      intro k
      unfold THeap.set
      split
      · exact fun b hb => hw j b hb
      · split
        · intro b hb; cases hb
        · exact hw k
  | fromProto i p =>
    simp only [tstep, Outcome.bind_eq_ok, Outcome.pure_eq, Outcome.ok.injEq] at hs
    obtain ⟨⟨t, b⟩, ht, rfl⟩ := hs
    rcases fromProto_cases r e (h i) p (hw i) t b ht with ⟨_, _, h⟩ | ⟨_, _, _, _, _, h⟩
    · exact key i _ h
    · exact key i _ h

/-- C08 (buffer part): after any sequence of calls that returns normally, every tensor that reports
`is_alloc` has a fully defined allocated shape and a buffer of exactly `n_elems` elements. -/
theorem c08_buffer_matches_shape (r : ByteRep T) (e : Env T) (ops : List (TOp T)) (h : THeap T)
    (hrun : trun r e (THeap.init e) ops = .ok h) (i : Nat) (ha : (h i).isAlloc = true) :
    Full (h i).alloc ∧ ∃ buf, (h i).raw = some buf ∧ buf.length = (h i).alloc.nElems := by
  have gen : ∀ (ops : List (TOp T)) (h0 h : THeap T), (∀ i, (h0 i).WF) →
      trun r e h0 ops = .ok h → ∀ i, (h i).WF := by
    intro ops
    induction ops with
    | nil => intro h0 h hw hr; simp only [trun, Outcome.ok.injEq] at hr; subst hr; exact hw
    | cons op ops ih =>
      intro h0 h hw hr
      simp only [trun, Outcome.bind_eq_ok] at hr
      obtain ⟨h1, hs, hr⟩ := hr
      exact ih h1 h (tstep_wf r e h0 h1 op hw hs) hr
  have hw := gen ops _ h (fun i => new_wf e []) hrun i
  obtain ⟨hf, buf, hb⟩ := (isAlloc_iff _).1 ha
  exact ⟨hf, buf, hb, by rw [Shape.nElems_eq hf.1]; exact (hw buf hb).2⟩

/-- The history used as a non-vacuity example: reshape a 2x3 tensor holding 5s into 3x2. -/
example : ∃ h, trun exRep exEnv (THeap.init exEnv)
    [.newScalar 0 5, .new 1 [2, 3], .copyFrom 1 0 [3, 2], .setShape 1 [2, 2], .copy 2 1 false, .move 3 1]
    = .ok h ∧ (h 2).isAlloc = true ∧ (h 2).raw = some [5, 0, 0, 0] ∧ (h 3).alloc = [2, 2] ∧
      (h 1).isAlloc = false := by
  refine ⟨_, rfl, by decide, by decide, by decide, by decide⟩

/-- C08, negative: the allocated shape need not stay compatible with the allowed shape.
`set_shape` with a part-defined shape of higher rank records the new allowed shape but then fails to
reallocate (the extents beyond the allocated rank are replaced by 1, tensor.ipp:404-412). -/
theorem c08_compat_violated : ¬ ∀ (ops : List (TOp Nat)) (h : THeap Nat),
    trun exRep exEnv (THeap.init exEnv) ops = .ok h →
    ∀ i, (h i).isAlloc = true → (h i).alloc.isCompatibleWith (h i).allowed = true := by
  intro hall
  have := hall [.new 0 [4, 4], .setShape 0 [0, 0, 5]] _ rfl 0 (by decide)
  revert this; decide

/-- C08, negative: a rejected proto also breaks it, because the allowed shape is overwritten before
the proto is checked (tensor.ipp:519-523). -/
theorem c08_compat_violated_proto : ¬ ∀ (ops : List (TOp Nat)) (h : THeap Nat),
    (∀ op ∈ ops, ∀ i s, op ≠ .setShape i s) →
    trun exRep exEnv (THeap.init exEnv) ops = .ok h →
    ∀ i, (h i).isAlloc = true → (h i).alloc.isCompatibleWith (h i).allowed = true := by
  intro hall
  have := hall [.new 0 [4, 4], .fromProto 0 ⟨[], [5, 5], [6, 6]⟩] _ (by simp) rfl 0 (by decide)
  revert this; decide

/-- The calls that keep allocated and allowed shapes compatible: `set_shape` with a fully defined
shape, or of the same rank as the allocated shape, or on an unallocated tensor; `from_proto` of a
proto that passes the checks or whose allowed shape suits the present allocation. -/
def CompatSafe (h : THeap T) : TOp T → Prop
  | .setShape i s => (h i).isAlloc = true → Full s ∨ s.length = (h i).alloc.length
  | .fromProto i p => (Shape.isCompatibleWith p.alloc p.allow = true ∧ Full p.alloc) ∨
      ((h i).isAlloc = true → Shape.isCompatibleWith (h i).alloc p.allow = true)
  | _ => True

/-- All calls of a run are safe in the state they are made in. -/
def CompatSafeRun (r : ByteRep T) (e : Env T) : THeap T → List (TOp T) → Prop
  | _, [] => True
  | h, op :: ops => CompatSafe h op ∧ ∀ h', tstep r e h op = .ok h' → CompatSafeRun r e h' ops

def Compat (t : Tensor T) : Prop := t.isAlloc = true → t.alloc.isCompatibleWith t.allowed = true

theorem setShape_compat (e : Env T) (t t' : Tensor T) (s : Shape) (hw : t.WF) (hc : Compat t)
    (hsafe : t.isAlloc = true → Full s ∨ s.length = t.alloc.length)
    (h : t.setShape e s = .ok t') : Compat t' := by
  unfold setShape at h
  by_cases hch : (!t.allowed.isCompatibleWith s || !t.isAlloc) = true
  · rw [if_pos hch] at h
    dsimp only at h
    split at h
    · rename_i hcond
      simp only [Bool.and_eq_true, Bool.not_eq_true'] at hcond
      have hal : t.isAlloc = true := hcond.1
      simp only [Outcome.bind_eq_ok] at h
      obtain ⟨s', hs', ⟨t2, b⟩, h2, h⟩ := h
      simp only [Outcome.pure_eq, Outcome.ok.injEq] at h
      subst h
      have hfa := ((isAlloc_iff t).1 hal).1
      -- the shape asked for is fully defined, agrees with `s`, and differs from the old allocation
      have hfull_s' : Full s' ∧ s'.isCompatibleWith s = true ∧
          s'.isCompatibleWith t.alloc = false := by
        unfold desiredShape at hs'
        by_cases hfs : Full s
        · have : s.isFullyDefined = true := (Shape.isFullyDefined_iff s).2 hfs
          simp only [this, Bool.not_true, Bool.false_eq_true, if_false, Outcome.ok.injEq] at hs'
          subst hs'
          exact ⟨hfs, Shape.compat_self s, hcond.2⟩
        · have hlen : s.length = t.alloc.length := by
            rcases hsafe hal with h | h
            · exact absurd h hfs
            · exact h
          have hnf : s.isFullyDefined = false := by
            rw [Bool.eq_false_iff]; intro hh; exact hfs ((Shape.isFullyDefined_iff s).1 hh)
          have hwr : s.withRank t.alloc.rank = s := by
            unfold Shape.withRank Shape.rank; rw [if_neg (by omega), if_neg (by omega)]
          have hmerge : s.mergeWith t.alloc = .ok (List.zipWith Shape.mergeDim s t.alloc) := by
            unfold Shape.mergeWith
            have h1 : t.alloc ≠ [] := hfa.1
            have h2 : s ≠ [] := by
              intro hh; rw [hh] at hlen; simp at hlen; exact h1 (List.eq_nil_of_length_eq_zero hlen.symm)
            simp [h1, h2, hlen]
          have hml : (List.zipWith Shape.mergeDim s t.alloc).length = s.length := by simp [hlen]
          have hwr2 : Shape.withRank (List.zipWith Shape.mergeDim s t.alloc) s.rank
              = List.zipWith Shape.mergeDim s t.alloc := by
            unfold Shape.withRank Shape.rank; rw [if_neg (by omega), if_neg (by omega)]
          simp only [hnf, Bool.not_false, if_true, hwr, hmerge, Outcome.ok_bind, hwr2,
            Outcome.pure_eq, Outcome.ok.injEq] at hs'
          subst hs'
          have hmd : ∀ x y, Shape.mergeDim x y = if x = 0 then y else x := by
            intro x y; unfold Shape.mergeDim; split <;> split <;> omega
          have hget : ∀ i, i < s.length → (List.zipWith Shape.mergeDim s t.alloc).getD i 0
              = if s.getD i 0 = 0 then t.alloc.getD i 0 else s.getD i 0 := by
            intro i hi
            rw [getD_lt _ _ _ (by omega), getD_lt s _ _ hi, getD_lt t.alloc _ _ (by omega),
              List.getElem_zipWith, hmd]
          refine ⟨⟨?_, ?_⟩, ?_, ?_⟩
          · intro hh
            have : s.length = 0 := by rw [← hml, hh]; rfl
            exact hfa.1 (List.eq_nil_of_length_eq_zero (by omega))
          · intro d hd
            obtain ⟨i, hi, rfl⟩ := List.getElem_of_mem hd
            rw [List.getElem_zipWith, hmd]
            split
            · exact hfa.2 _ (List.getElem_mem _)
            · omega
          · rw [Shape.compat_same_rank hml]
            refine ⟨hml, fun i hi => ?_⟩
            rw [hget i (by omega)]
            split <;> simp_all
          · rw [Bool.eq_false_iff]
            intro hh
            rw [Shape.compat_same_rank (by omega)] at hh
            have hn : s.isCompatibleWith t.alloc = true := by
              rw [Shape.compat_same_rank hlen]
              refine ⟨hlen, fun i hi => ?_⟩
              have h3 := hh.2 i (by omega)
              rw [hget i hi] at h3
              split at h3
              · rename_i hz; exact .inr (.inl hz)
              · exact h3
            have hcond2 : s.isCompatibleWith t.alloc = false := hcond.2
            rw [hn] at hcond2; cases hcond2
      obtain ⟨hf', hc', hn'⟩ := hfull_s'
      have hw1 := wf_allowed hw s
      rcases allocateShape_cases e _ s' hw1 t2 b h2 with ⟨hb, rfl⟩ | ⟨_, _, hcc, ha2, hal2, _⟩
      · -- allocation cannot have been refused
        exfalso
        unfold allocateShape at h2
        have hal1 : ({ t with allowed := s } : Tensor T).isAlloc = true := hal
        rw [if_neg (by simp [hn'])] at h2
        rw [if_pos (by simp [hc', (Shape.isFullyDefined_iff s').2 hf']), if_pos hal1] at h2
        split at h2
        · simp only [Outcome.bind_eq_ok, Outcome.pure_eq, Outcome.ok.injEq, Prod.mk.injEq] at h2
          obtain ⟨_, _, _, h3⟩ := h2
          rw [hb] at h3; cases h3
        · cases h2
      · intro _; rw [ha2, hal2]; exact hcc
    · rename_i hcond
      simp only [Outcome.pure_eq, Outcome.ok.injEq] at h
      subst h
      intro hal
      dsimp only at hal hcond ⊢
      simp only [Bool.and_eq_true, Bool.not_eq_true', not_and, Bool.not_eq_false] at hcond
      rw [Shape.compat_comm]; exact hcond hal
  · rw [if_neg hch] at h
    dsimp only at h
    split at h
    · simp only [Outcome.bind_eq_ok] at h
      obtain ⟨s', hs', ⟨t2, b⟩, h2, h⟩ := h
      simp only [Outcome.pure_eq, Outcome.ok.injEq] at h
      subst h
      rcases allocateShape_cases e _ s' hw t2 b h2 with ⟨_, rfl⟩ | ⟨_, _, hcc, ha2, hal2, _⟩
      · exact hc
      · intro _; rw [ha2, hal2]; exact hcc
    · simp only [Outcome.pure_eq, Outcome.ok.injEq] at h
      subst h; exact hc

theorem tstep_compat (r : ByteRep T) (e : Env T) (h h' : THeap T) (op : TOp T)
    (hw : ∀ i, (h i).WF) (hc : ∀ i, Compat (h i)) (hsafe : CompatSafe h op)
    (hs : tstep r e h op = .ok h') : ∀ i, Compat (h' i) := by
  have key : ∀ i t, Compat t → ∀ k, Compat (h.set i t k) := by
    intro i t ht k; unfold THeap.set; split
    · exact ht
    · exact hc k
  have hallocS : ∀ (t : Tensor T) s p, t.WF → Compat t → t.allocateShape e s = .ok p → Compat p.1 := by
    intro t s p hw hc hp
    obtain ⟨t', b⟩ := p
    rcases allocateShape_cases e t s hw t' b hp with ⟨_, rfl⟩ | ⟨_, _, hcc, ha2, hal2, _⟩
    · exact hc
    · intro _; show t'.alloc.isCompatibleWith t'.allowed = true; rw [ha2, hal2]; exact hcc
  have hnew : ∀ s : Shape, Compat (Tensor.new e s) := by
    intro s; unfold Tensor.new; split
    · intro _; exact Shape.compat_self s
    · intro h; simp [isAlloc] at h
  cases op with
  | new i s => simp only [tstep, Outcome.ok.injEq] at hs; subst hs; exact key i _ (hnew s)
  | newScalar i v =>
    simp only [tstep, Outcome.bind_eq_ok, Outcome.pure_eq, Outcome.ok.injEq] at hs
    obtain ⟨t, ht, rfl⟩ := hs
    refine key i _ ?_
    unfold newScalar at ht
    dsimp only at ht
    split at ht
    · simp only [Outcome.bind_eq_ok, Outcome.pure_eq, Outcome.ok.injEq] at ht
      obtain ⟨_, _, rfl⟩ := ht
      intro _
      simp [Tensor.new, Shape.isFullyDefined, Shape.compat_self]
    · cases ht
  | setShape i s =>
    simp only [tstep, Outcome.bind_eq_ok, Outcome.pure_eq, Outcome.ok.injEq] at hs
    obtain ⟨t, ht, rfl⟩ := hs
    exact key i _ (setShape_compat e _ t s (hw i) (hc i) hsafe ht)
  | allocate i =>
    simp only [tstep, Outcome.bind_eq_ok, Outcome.pure_eq, Outcome.ok.injEq] at hs
    obtain ⟨t, ht, rfl⟩ := hs
    unfold Tensor.allocate at ht
    split at ht
    · injection ht with ht; subst ht; exact key i _ (hc i)
    · split at ht <;> exact key i _ (hallocS _ _ _ (hw i) (hc i) ht)
  | allocateShape i s =>
    simp only [tstep, Outcome.bind_eq_ok, Outcome.pure_eq, Outcome.ok.injEq] at hs
    obtain ⟨t, ht, rfl⟩ := hs
    exact key i _ (hallocS _ _ _ (hw i) (hc i) ht)
  | deallocate i =>
    simp only [tstep, Outcome.ok.injEq] at hs; subst hs
    refine key i _ ?_
    unfold Tensor.deallocate; split
    · intro h; simp [isAlloc] at h
    · exact hc i
  | copyFrom i j s =>
    simp only [tstep, Outcome.bind_eq_ok, Outcome.pure_eq, Outcome.ok.injEq] at hs
    obtain ⟨⟨t, b⟩, ht, rfl⟩ := hs
    rcases copyFrom_cases e (h i) (h j) s (hw j) t b ht with ⟨_, rfl⟩ | ⟨_, _, _, h1, _, h2⟩
    · exact key i _ (hc i)
    · refine key i _ ?_
      intro _; show t.alloc.isCompatibleWith t.allowed = true
      rw [h1, Shape.compat_comm]; exact h2
  | copy i j so =>
    simp only [tstep] at hs
    split at hs
    · injection hs with hs; subst hs; exact hc
    · simp only [Outcome.bind_eq_ok, Outcome.pure_eq, Outcome.ok.injEq] at hs
      obtain ⟨t, ht, rfl⟩ := hs
      refine key i _ ?_
      obtain ⟨_, h1, h2⟩ := copyHelper_wf e _ so (hw j) ht
      intro hal
      by_cases hj : (h j).isAlloc = true
      · rw [h1, h2]; exact hc j hj
      · unfold copyHelper at ht
        rw [if_neg hj] at ht
        injection ht with ht; subst ht
        simp [isAlloc] at hal
  | move i j =>
    simp only [tstep] at hs
    split at hs
    · injection hs with hs; subst hs; exact hc
    · simp only [moveHelper, Outcome.ok.injEq] at hs
      subst hs
      intro k
      unfold THeap.set
      split
      · exact hc j
      · split
        · intro h; simp [isAlloc] at h
        · exact hc k
  | fromProto i p =>
    simp only [tstep, Outcome.bind_eq_ok, Outcome.pure_eq, Outcome.ok.injEq] at hs
    obtain ⟨⟨t, b⟩, ht, rfl⟩ := hs
    refine key i _ ?_
    rcases fromProto_cases r e (h i) p (hw i) t b ht with ⟨hb, h1, _⟩ | ⟨_, _, h1, h2, h3, _⟩
    · subst h1
      rcases hsafe with ⟨hs1, hs2⟩ | hs1
      · -- such a proto is never rejected
        exfalso
        unfold Tensor.fromProto at ht
        simp only [Bool.not_false, if_true, Outcome.bind_eq_ok, Bool.false_eq_true, if_false] at ht
        obtain ⟨_, _, ht⟩ := ht
        rw [if_neg (by simp [hs1, (Shape.isFullyDefined_iff _).2 hs2])] at ht
        simp only [Outcome.bind_eq_ok] at ht
        obtain ⟨t4, _, ht⟩ := ht
        split at ht
        · split at ht
          · simp only [Outcome.pure_eq, Outcome.ok.injEq, Prod.mk.injEq] at ht
            rw [hb] at ht; exact absurd ht.2 (by simp)
          · cases ht
        · cases ht
      · intro hal; exact hs1 hal
    · intro _; show t.alloc.isCompatibleWith t.allowed = true; rw [h2, h3]; exact h1

/-- C08 (compatibility part), for histories of safe calls.  Missing from the full statement:
histories with the unsafe calls, for which `c08_compat_violated` and `c08_compat_violated_proto`
show it is false. -/
theorem c08_compat_partial (r : ByteRep T) (e : Env T) (ops : List (TOp T)) (h : THeap T)
    (hsafe : CompatSafeRun r e (THeap.init e) ops)
    (hrun : trun r e (THeap.init e) ops = .ok h) (i : Nat) (ha : (h i).isAlloc = true) :
    (h i).alloc.isCompatibleWith (h i).allowed = true := by
  have gen : ∀ (ops : List (TOp T)) (h0 h : THeap T), (∀ i, (h0 i).WF) → (∀ i, Compat (h0 i)) →
      CompatSafeRun r e h0 ops → trun r e h0 ops = .ok h → ∀ i, Compat (h i) := by
    intro ops
    induction ops with
    | nil => intro h0 h _ hc _ hr; simp only [trun, Outcome.ok.injEq] at hr; subst hr; exact hc
    | cons op ops ih =>
      intro h0 h hw hc hsafe hr
      simp only [trun, Outcome.bind_eq_ok] at hr
      obtain ⟨h1, hs, hr⟩ := hr
      exact ih h1 h (tstep_wf r e h0 h1 op hw hs) (tstep_compat r e h0 h1 op hw hc hsafe.1 hs)
        (hsafe.2 h1 hs) hr
  exact gen ops _ h (fun i => new_wf e []) (fun i h => by simp [THeap.init, Tensor.new, Shape.isFullyDefined, isAlloc] at h)
    hsafe hrun i ha

example : CompatSafeRun exRep exEnv (THeap.init exEnv)
    [.new 0 [2, 3], .setShape 0 [0, 2], .fromProto 0 ⟨[1, 2], [0, 1], [2, 1]⟩] ∧
    ∃ h, trun exRep exEnv (THeap.init exEnv)
      [.new 0 [2, 3], .setShape 0 [0, 2], .fromProto 0 ⟨[1, 2], [0, 1], [2, 1]⟩] = .ok h ∧
      (h 0).isAlloc = true ∧ (h 0).alloc = [2, 1] ∧ (h 0).raw = some [1, 2] := by
  refine ⟨⟨trivial, fun h' hh => ⟨?_, fun h'' hh' => ⟨.inl ?_, fun _ _ => trivial⟩⟩⟩,
    _, rfl, by decide, by decide, by decide⟩
  · simp only [tstep, Outcome.ok.injEq] at hh; subst hh
    intro _; exact .inr (by decide)
  · exact ⟨by decide, by decide⟩

/-! ## C09 -/

/-- C09: an in-range coordinate reads the element at its flat index; any non-empty coordinate either
reads the element at its flat index or, exactly when that index is not below `n_elems`, throws. -/
theorem c09_get (t : Tensor T) (buf : List T) (hraw : t.raw = some buf) (hfull : Full t.alloc)
    (hlen : buf.length = t.alloc.nElems) :
    (∀ c, InRange t.alloc c → ∃ v, buf[flat t.alloc c]? = some v ∧ t.get c = .ok v) ∧
    (∀ c, c ≠ [] → (t.get c = .throw .outOfRange ↔ t.alloc.nElems ≤ flat t.alloc c)) ∧
    (∀ c, c ≠ [] → flat t.alloc c < t.alloc.nElems →
      ∃ v, buf[flat t.alloc c]? = some v ∧ t.get c = .ok v) := by
  have h3 : ∀ c, c ≠ [] → flat t.alloc c < t.alloc.nElems →
      ∃ v, buf[flat t.alloc c]? = some v ∧ t.get c = .ok v := by
    intro c hc hlt
    have hb : flat t.alloc c < buf.length := by omega
    refine ⟨buf[flat t.alloc c], by simp [hb], ?_⟩
    unfold Tensor.get
    rw [Shape.flatIdx_eq _ _ hfull.1 hc]
    simp only [Outcome.ok_bind, hraw]
    rw [if_neg (by omega), Outcome.read_of_lt _ _ hb]
  refine ⟨fun c hc => ?_, fun c hc => ?_, h3⟩
  · refine h3 c ?_ (by rw [Shape.nElems_eq hfull.1]; exact Shape.flat_lt hc)
    rintro rfl
    exact hfull.1 (by simpa using hc.1.symm)
  · constructor
    · intro h
      refine Nat.le_of_not_lt fun hlt => ?_
      obtain ⟨v, _, hv⟩ := h3 c hc hlt
      rw [hv] at h; cases h
    · intro hle
      unfold Tensor.get
      rw [Shape.flatIdx_eq _ _ hfull.1 hc]
      simp only [Outcome.ok_bind]
      rw [if_pos hle]

/-- C09, negative: the bounds check does not reject every out-of-range coordinate: on a 2x3 tensor
coordinate (2,0) is out of range and silently reads the element at (0,1). -/
theorem c09_out_of_range_aliases : ¬ ∀ (t : Tensor Nat) (c : List Nat), t.isAlloc = true → t.WF →
    c.length = t.alloc.length → ¬ InRange t.alloc c → t.get c = .throw .outOfRange := by
  intro h
  have := h ⟨some [0, 1, 2, 3, 4, 5], [2, 3], [2, 3]⟩ [2, 0] (by decide)
    (fun b hb => by simp at hb; subst hb; exact ⟨by decide, by decide⟩) (by decide)
    (fun hr => by have := hr.2 0 (by decide); revert this; decide)
  revert this; decide

example : Tensor.get (⟨some [0, 1, 2, 3, 4, 5], [2, 3], [2, 3]⟩ : Tensor Nat) [1, 2] = .ok 5 ∧
    Tensor.get (⟨some [0, 1, 2, 3, 4, 5], [2, 3], [2, 3]⟩ : Tensor Nat) [0, 3] = .throw .outOfRange := by
  decide

/-! ## C10, C11 -/

theorem guess_part (s : Shape) (hne : s ≠ []) (hnf : ¬ Full s) (k : Nat) (hk : 0 < k) :
    ∃ j, j < s.length ∧ s.getD j 1 = 0 ∧ (∀ j', j' < j → s.getD j' 0 ≠ 0) ∧
      (guessLoop s 0 s.length 1).2.1 = j ∧
      Full ((ones s).set j k) ∧ Refines ((ones s).set j k) s ∧
      Shape.isCompatibleWith ((ones s).set j k) s = true ∧
      vol ((ones s).set j k) = vol (ones s) * k := by
  obtain ⟨j, h1, h2, h3, h4⟩ := guessLoop_idx s 0 s.length 1 (by omega) (not_full_zero hne hnf)
  have hj : (ones s)[j]? = some 1 := by
    rw [getD_lt _ _ _ h2] at h3
    simp [ones, h2, h3]
  have href : Refines ((ones s).set j k) s := by
    refine ⟨by simp [ones_length], fun i hi => ?_⟩
    by_cases hz : s.getD i 0 = 0
    · exact .inl hz
    · right
      have hij : j ≠ i := by
        rintro rfl
        rw [getD_lt _ _ _ h2] at h3
        rw [getD_lt _ _ _ hi] at hz
        exact hz h3
      rw [List.getD_eq_getElem?_getD, List.getElem?_set_ne hij]
      rw [getD_lt _ _ _ hi] at hz ⊢
      simp [ones, hi, hz]
  refine ⟨j, h2, h3, h4, by rw [h1]; omega, ⟨?_, ?_⟩, href, ?_, vol_set_one _ _ _ hj⟩
  · intro hh
    have := congrArg List.length hh
    simp [ones_length] at this
    exact hne this
  · intro d hd
    rcases List.mem_or_eq_of_mem_set hd with h | h
    · exact ones_pos s d h
    · omega
  · rw [Shape.compat_same_rank href.1]
    refine ⟨href.1, fun i hi => ?_⟩
    rcases href.2 i (by have := href.1; omega) with h | h
    · exact .inr (.inr h)
    · exact .inl h

/-- C10: for a positive number of elements `guess_shape` always returns normally, and what it returns
is a fully defined shape with exactly that many elements that fits the allowed shape. -/
theorem c10_guess_sound (t : Tensor T) (n : Nat) (hn : 0 < n) :
    ∃ r, t.guessShape n = .ok r ∧
      ∀ s, r = some s → Full s ∧ s.nElems = n ∧ s.isCompatibleWith t.allowed = true ∧
        (t.allowed ≠ [] → Refines s t.allowed) := by
  unfold guessShape
  by_cases hf : Full t.allowed
  · rw [if_pos ((Shape.isFullyDefined_iff _).2 hf)]
    refine ⟨_, rfl, fun s hs => ?_⟩
    split at hs
    · rename_i he
      injection hs with hs; subst hs
      exact ⟨hf, he, Shape.compat_self _, fun _ => ⟨rfl, fun i _ => .inr rfl⟩⟩
    · cases hs
  · rw [if_neg (fun h => hf ((Shape.isFullyDefined_iff _).1 h))]
    by_cases hne : t.allowed = []
    · rw [hne]
      refine ⟨some [n], by simp [Shape.isPartDefined], fun s hs => ?_⟩
      injection hs with hs; subst hs
      exact ⟨⟨by simp, by simpa using hn⟩, by simp [Shape.nElems], by simp, fun h => absurd rfl h⟩
    · rw [if_pos ((Shape.isPartDefined_iff _).2 hne)]
      have hk := (guessLoop_fst t.allowed 0 t.allowed.length 1)
      generalize hg : guessLoop t.allowed 0 t.allowed.length 1 = g at hk
      obtain ⟨my, f, known⟩ := g
      simp only [Nat.one_mul] at hk
      obtain ⟨rfl, rfl⟩ := hk
      have hpos := Shape.vol_pos (ones_pos t.allowed)
      simp only [gt_iff_lt, hpos, decide_true, Outcome.assert_true, Outcome.ok_bind]
      by_cases hm : n % vol (ones t.allowed) = 0
      · rw [if_pos hm]
        have hdiv : vol (ones t.allowed) * (n / vol (ones t.allowed)) = n :=
          Nat.mul_div_cancel' (Nat.dvd_of_mod_eq_zero hm)
        have hq : 0 < n / vol (ones t.allowed) := by
          refine Nat.pos_of_ne_zero fun h0 => ?_
          rw [h0] at hdiv; simp at hdiv; omega
        obtain ⟨j, h1, h2, h3, h4, h5, h6, h7, h8⟩ := guess_part t.allowed hne hf _ hq
        rw [hg] at h4
        simp only at h4
        subst h4
        refine ⟨some ((ones t.allowed).set f (n / vol (ones t.allowed))), ?_, fun s hs => ?_⟩
        · simp [Outcome.write, ones_length, h1]
        · injection hs with hs; subst hs
          exact ⟨h5, by rw [Shape.nElems_eq h5.1, h8, hdiv], h7, fun _ => h6⟩
      · rw [if_neg hm]
        exact ⟨none, rfl, fun s hs => by cases hs⟩

/-- C10: a shape is found exactly when one exists: some full refinement of the (defined) allowed
shape has that many elements; for an undefined allowed shape always. -/
theorem c10_guess_complete (t : Tensor T) (n : Nat) (hn : 0 < n) (hne : t.allowed ≠ []) :
    (∃ s, t.guessShape n = .ok (some s)) ↔
      ∃ s : Shape, Full s ∧ Refines s t.allowed ∧ s.nElems = n := by
  constructor
  · rintro ⟨s, hs⟩
    obtain ⟨r, hr, h⟩ := c10_guess_sound t n hn
    rw [hs] at hr; injection hr with hr
    obtain ⟨h1, h2, _, h4⟩ := h s hr.symm
    exact ⟨s, h1, h4 hne, h2⟩
  · rintro ⟨s, hs1, hs2, hs3⟩
    obtain ⟨r, hr, _⟩ := c10_guess_sound t n hn
    cases r with
    | some s => exact ⟨s, hr⟩
    | none =>
      exfalso
      rw [Shape.nElems_eq hs1.1] at hs3
      obtain ⟨m, hm⟩ := vol_refines t.allowed s hs2
      unfold guessShape at hr
      by_cases hf : Full t.allowed
      · rw [if_pos ((Shape.isFullyDefined_iff _).2 hf)] at hr
        have hones : ones t.allowed = t.allowed := by
          unfold ones
          conv => rhs; rw [← List.map_id t.allowed]
          apply List.map_congr_left
          intro d hd; have := hf.2 d hd; rw [if_neg (by omega)]; rfl
        have hst : s = t.allowed := by
          apply List.ext_getElem hs2.1
          intro i hi hi'
          have := hs2.2 i hi'
          rw [getD_lt _ _ _ hi, getD_lt _ _ _ hi'] at this
          rcases this with h | h
          · have := hf.2 _ (List.getElem_mem hi'); omega
          · exact h
        subst hst
        rw [Shape.nElems_eq hf.1, hs3] at hr
        simp at hr
      · rw [if_neg (fun h => hf ((Shape.isFullyDefined_iff _).1 h)),
          if_pos ((Shape.isPartDefined_iff _).2 hne)] at hr
        have hk := (guessLoop_fst t.allowed 0 t.allowed.length 1)
        generalize hg : guessLoop t.allowed 0 t.allowed.length 1 = g at hk hr
        obtain ⟨my, f, known⟩ := g
        simp only [Nat.one_mul] at hk
        obtain ⟨rfl, rfl⟩ := hk
        have hpos := Shape.vol_pos (ones_pos t.allowed)
        simp only [gt_iff_lt, hpos, decide_true, Outcome.assert_true, Outcome.ok_bind] at hr
        rw [if_pos (by rw [← hs3, hm]; exact Nat.mul_mod_right _ _)] at hr
        simp only [Outcome.bind_eq_ok, Outcome.pure_eq, Outcome.ok.injEq] at hr
        obtain ⟨_, _, hr⟩ := hr
        cases hr

/-- C10: on an unallocated tensor, `is_compatible_with(data)` is true exactly when `guess_shape`
finds a shape. -/
theorem c10_agrees_with_compat (t : Tensor T) (n : Nat) (hna : t.isAlloc = false) :
    t.isCompatibleWithData n = true ↔ ∃ s, t.guessShape n = .ok (some s) := by
  unfold isCompatibleWithData guessShape
  simp only [hna, Bool.false_eq_true, if_false]
  by_cases hf : Full t.allowed
  · simp only [(Shape.isFullyDefined_iff _).2 hf, if_true]
    by_cases h : n = t.allowed.nElems
    · simp [h]
    · have h' : ¬ t.allowed.nElems = n := fun hh => h hh.symm
      simp [h, h']
  · have hff : t.allowed.isFullyDefined = false := by
      rw [Bool.eq_false_iff]; intro hh; exact hf ((Shape.isFullyDefined_iff _).1 hh)
    simp only [hff, Bool.false_eq_true, if_false]
    by_cases hne : t.allowed = []
    · simp [hne, Shape.nKnown, Shape.isPartDefined]
    · have hkn : t.allowed.nKnown = vol (ones t.allowed) := by
        have : ∀ (l : List Nat) (a : Nat), l.foldl (fun a b => if b ≠ 0 then a * b else a) a
            = a * vol (ones l) := by
          intro l
          induction l with
          | nil => intro a; simp [ones, vol]
          | cons d ds ih =>
            intro a
            rw [List.foldl_cons, ih]
            by_cases hd : d = 0 <;> simp [hd, ones, vol, Nat.mul_assoc]
        unfold Shape.nKnown
        have he : List.isEmpty t.allowed = false := by simpa using hne
        simp only [he, Bool.false_eq_true, if_false]
        rw [this]; simp
      have hpos := Shape.vol_pos (ones_pos t.allowed)
      have hk := (guessLoop_fst t.allowed 0 t.allowed.length 1)
      obtain ⟨j, h1, h2, h3, h4, _⟩ := guess_part t.allowed hne hf 1 (by omega)
      generalize hg : guessLoop t.allowed 0 t.allowed.length 1 = g at hk h4
      obtain ⟨my, f, known⟩ := g
      simp only [Nat.one_mul] at hk h4
      obtain ⟨rfl, rfl⟩ := hk
      subst h4
      rw [hkn]
      simp only [(Shape.isPartDefined_iff _).2 hne, if_true, gt_iff_lt, hpos, decide_true,
        Outcome.assert_true, Outcome.ok_bind]
      by_cases hm : n % vol (ones t.allowed) = 0
      · simp [hm, Outcome.write, ones_length, h1]
      · simp [hm]

/-- C10, negative: with no data at all (`n = 0`) and a part-defined allowed shape, the "guess" has a
zero extent and is therefore not a fully defined shape. -/
theorem c10_zero_not_full : ¬ ∀ (t : Tensor Nat) (n : Nat) (s : Shape),
    t.guessShape n = .ok (some s) → Full s := by
  intro h
  have := h ⟨none, [], [2, 0]⟩ 0 [2, 0] (by decide)
  revert this; decide

example : Tensor.guessShape (⟨none, [], [2, 0, 0, 3]⟩ : Tensor Nat) 12 = .ok (some [2, 2, 1, 3]) ∧
    Tensor.guessShape (⟨none, [], [2, 0, 0, 3]⟩ : Tensor Nat) 13 = .ok none := by decide

/-- C11: for a part-defined allowed shape, the loose guess is a full refinement that can hold the
data, and no full refinement that can hold the data has fewer elements. -/
theorem c11_loose_part (t : Tensor T) (n : Nat) (hn : 0 < n) (hne : t.allowed ≠ [])
    (hnf : ¬ Full t.allowed) :
    ∃ s, t.looselyGuessShape n = .ok (some s) ∧ Full s ∧ s.isCompatibleWith t.allowed = true ∧
      Refines s t.allowed ∧ n ≤ s.nElems ∧
      ∀ s' : Shape, Full s' → Refines s' t.allowed → n ≤ s'.nElems → s.nElems ≤ s'.nElems := by
  unfold looselyGuessShape
  rw [if_neg (fun h => hnf ((Shape.isFullyDefined_iff _).1 h))]
  have hk := (guessLoop_fst t.allowed 0 t.allowed.length 1)
  have hpos := Shape.vol_pos (ones_pos t.allowed)
  generalize hq : (if n % vol (ones t.allowed) ≠ 0 then n / vol (ones t.allowed) + 1
    else n / vol (ones t.allowed)) = q
  have hmod := Nat.mod_add_div n (vol (ones t.allowed))
  have hq1 : n ≤ vol (ones t.allowed) * q := by
    have hml := Nat.mod_lt n hpos
    subst hq; split
    · rw [Nat.mul_add, Nat.mul_one]; omega
    · omega
  have hq2 : ∀ m, n ≤ vol (ones t.allowed) * m → q ≤ m := by
    intro m hm
    subst hq
    split
    · rename_i hne'
      refine Nat.lt_of_mul_lt_mul_left (a := vol (ones t.allowed)) ?_
      omega
    · rename_i he
      simp only [ne_eq, Decidable.not_not] at he
      refine Nat.le_of_mul_le_mul_left (c := vol (ones t.allowed)) ?_ hpos
      omega
  have hq0 : 0 < q := by
    refine Nat.pos_of_ne_zero fun h0 => ?_
    rw [h0] at hq1; simp at hq1; omega
  obtain ⟨j, h1, h2, h3, h4, h5, h6, h7, h8⟩ := guess_part t.allowed hne hnf q hq0
  generalize hg : guessLoop t.allowed 0 t.allowed.length 1 = g at hk h4
  obtain ⟨my, f, known⟩ := g
  simp only [Nat.one_mul] at hk h4
  obtain ⟨rfl, rfl⟩ := hk
  subst h4
  refine ⟨(ones t.allowed).set f q, ?_, h5, h7, h6, ?_, ?_⟩
  · simp only [hq]
    simp [Outcome.write, ones_length, h1]
  · rw [Shape.nElems_eq h5.1, h8]; exact hq1
  · intro s' hs1 hs2 hs3
    rw [Shape.nElems_eq hs1.1] at hs3 ⊢
    rw [Shape.nElems_eq h5.1, h8]
    obtain ⟨m, hm⟩ := vol_refines t.allowed s' hs2
    rw [hm] at hs3 ⊢
    exact Nat.mul_le_mul_left _ (hq2 m hs3)

/-- C11: for a fully defined allowed shape it is returned exactly when large enough. -/
theorem c11_loose_full (t : Tensor T) (n : Nat) (hf : Full t.allowed) :
    t.looselyGuessShape n = .ok (if n ≤ t.allowed.nElems then some t.allowed else none) := by
  unfold looselyGuessShape
  rw [if_pos ((Shape.isFullyDefined_iff _).2 hf)]

/-- C11: for an undefined allowed shape the call is undefined behaviour. -/
theorem c11_loose_undefined (t : Tensor T) (n : Nat) (h : t.allowed = []) :
    t.looselyGuessShape n = .ub := by
  unfold looselyGuessShape
  rw [h]
  simp [Shape.isFullyDefined, guessLoop, Outcome.write]

example : Tensor.looselyGuessShape (⟨none, [], [2, 0, 3]⟩ : Tensor Nat) 13 = .ok (some [2, 3, 3]) := by
  decide

/-! ## C12 -/

/-- C12: fitting data laid out in shape `inn` to shape `out` returns normally (so no access leaves a
buffer), fills the output, keeps every element whose coordinate (missing entries read as 0) is in
range of both shapes, and zeroes everything else. -/
theorem c12_fit (zero : T) (dest src : List T) (out inn : Shape) (hout : Full out) (hinn : Full inn)
    (hdest : dest.length = out.nElems) (hsrc : src.length = inn.nElems) :
    ∃ res, fitToShape zero dest out src inn = .ok res ∧ res.length = out.nElems ∧
      ∀ c, InRange out c →
        (∀ c', InRange inn c' → (∀ i, c.getD i 0 = c'.getD i 0) →
          res[flat out c]? = src[flat inn c']?) ∧
        ((∀ c', InRange inn c' → ¬ ∀ i, c.getD i 0 = c'.getD i 0) →
          res[flat out c]? = some zero) := by
  rw [Shape.nElems_eq hout.1] at *
  rw [Shape.nElems_eq hinn.1] at hsrc
  exact Fit.fitToShape_correct zero dest out src inn hout hinn hdest hsrc

/-- C12: shapes that are not fully defined are rejected by assertion. -/
theorem c12_fit_rejects (zero : T) (dest src : List T) (out inn : Shape) (h : ¬ (Full out ∧ Full inn)) :
    fitToShape zero dest out src inn = .abort := by
  unfold fitToShape
  have : (out.isFullyDefined && inn.isFullyDefined) = false := by
    rw [Bool.eq_false_iff]; intro hh
    rw [Bool.and_eq_true, Shape.isFullyDefined_iff, Shape.isFullyDefined_iff] at hh
    exact h hh
  simp [this]

example : fitToShape 0 [9, 9, 9, 9] [2, 2] [1, 2, 3, 4, 5, 6] [3, 2] = .ok [1, 2, 4, 5] ∧
    fitToShape 0 [9, 9, 9, 9, 9, 9] [3, 2] [1, 2, 3, 4] [2, 2] = .ok [1, 2, 0, 3, 4, 0] ∧
    fitToShape 0 [9, 9, 9] [3] [1, 2, 3, 4] [2, 2] = .ok [1, 2, 0] := by decide

/-! ## C13 -/

/-- What `memcpy` of object representations guarantees. -/
structure LawfulRep (r : ByteRep T) : Prop where
  size : ∀ x, (r.enc x).length = r.sz
  dec_enc : ∀ x, r.dec (r.enc x) = x

theorem decode_encode (r : ByteRep T) (hr : LawfulRep r) (buf : List T) :
    decodeElems r buf.length (buf.flatMap r.enc) = buf := by
  have key : ∀ (buf : List T) (i : Nat) (h : i < buf.length),
      r.dec (((buf.flatMap r.enc).drop (i * r.sz)).take r.sz) = buf[i] := by
    intro buf
    induction buf with
    | nil => intro i h; simp at h
    | cons a as ih =>
      intro i h
      rw [List.flatMap_cons]
      cases i with
      | zero =>
        simp only [Nat.zero_mul, List.drop_zero, List.getElem_cons_zero]
        rw [List.take_append_of_le_length (by rw [hr.size]; omega),
          List.take_of_length_le (by rw [hr.size]; omega), hr.dec_enc]
      | succ i =>
        simp only [List.getElem_cons_succ]
        have e : (i + 1) * r.sz = (r.enc a).length + i * r.sz := by
          rw [hr.size, Nat.add_mul]; omega
        rw [e, List.drop_append, List.drop_eq_nil_of_le (by omega), Nat.add_sub_cancel_left,
          List.nil_append]
        exact ih i (by simpa using h)
  apply List.ext_getElem (by simp [decodeElems])
  intro i h1 h2
  simp only [decodeElems, List.getElem_map, List.getElem_range]
  exact key buf i h2

/-- What an acceptable proto does (assertions enabled). -/
theorem fromProto_accept (r : ByteRep T) (e : Env T) (u : Tensor T) (p : TensorProto) (hu : u.WF)
    (h0 : p.alloc.length = p.allow.length) (h1 : Shape.isCompatibleWith p.alloc p.allow = true)
    (h2 : Full p.alloc) :
    u.fromProto r e false p =
      match allocBuf e (Shape.nElems p.alloc) with
      | some buf =>
        if p.data.length ≤ (buf.flatMap r.enc).length then
          .ok (⟨some (decodeElems r buf.length (p.data ++ (buf.flatMap r.enc).drop p.data.length)),
            p.alloc, p.allow⟩, true)
        else .ub
      | none => .ub := by
  have hd : ∃ a, ({ u with allowed := p.allow } : Tensor T).deallocate.1 = ⟨none, a, p.allow⟩ := by
    unfold Tensor.deallocate
    split
    · exact ⟨_, rfl⟩
    · rename_i hna
      cases hr : u.raw with
      | none => exact ⟨u.alloc, by simp⟩
      | some b => exact absurd ((wf_allowed hu _).isAlloc_iff.2 ⟨b, hr⟩) hna
  obtain ⟨a, ha⟩ := hd
  have hfd := (Shape.isFullyDefined_iff _).2 h2
  unfold fromProto
  simp only [Bool.not_false, if_true, h0, beq_self_eq_true, Outcome.assert_true, Outcome.ok_bind,
    h1, hfd, Bool.not_true, Bool.or_self, Bool.false_eq_true, if_false, ha]
  have hna : (⟨none, p.alloc, p.allow⟩ : Tensor T).isAlloc = false := by simp [isAlloc]
  simp only [assertAllocate, Tensor.allocate, hna, Bool.false_eq_true, if_false, hfd, if_true,
    allocateShape, Bool.false_and, h1, Bool.and_self, Outcome.ok_bind,
    Outcome.assert_true, Outcome.pure_eq]
  cases allocBuf e (Shape.nElems p.alloc) <;> rfl

/-- C13: reading back a serialised tensor into any tensor succeeds and restores data and both
shapes, provided both shapes have the same rank and are compatible (and memory suffices). -/
theorem c13_roundtrip_partial (r : ByteRep T) (hr : LawfulRep r) (e : Env T) (t u : Tensor T)
    (p : TensorProto) (buf : List T) (hraw : t.raw = some buf) (hfull : Full t.alloc)
    (hlen : buf.length = t.alloc.nElems) (hrank : t.alloc.length = t.allowed.length)
    (hcomp : t.alloc.isCompatibleWith t.allowed = true) (hu : u.WF)
    (hmem : e.fits t.alloc.nElems = true) :
    ∃ q, t.serialize r p = .ok q ∧
      u.fromProto r e false q = .ok (⟨some buf, t.alloc, t.allowed⟩, true) := by
  have hal : t.isAlloc = true := (isAlloc_iff t).2 ⟨hfull, buf, hraw⟩
  have hn : t.nElems = t.alloc.nElems := by simp [Tensor.nElems, hraw]
  refine ⟨⟨buf.flatMap r.enc, t.allowed, t.alloc⟩, ?_, ?_⟩
  · unfold serialize
    simp only [hal, Bool.not_true, Bool.false_eq_true, if_false, hraw, hn, hlen, Nat.le_refl, if_true]
    rw [← hlen, List.take_length]
  · have hab : allocBuf e t.alloc.nElems = some ((List.range t.alloc.nElems).map e.junk) := by
      simp [allocBuf, hmem]
    rw [fromProto_accept r e u _ hu hrank hcomp hfull]
    simp only [hab]
    have hbl : ∀ l : List T, (l.flatMap r.enc).length = l.length * r.sz := by
      intro l
      induction l with
      | nil => simp
      | cons a as ih => rw [List.flatMap_cons, List.length_append, ih, hr.size, List.length_cons, Nat.add_mul]; omega
    rw [if_pos (by rw [hbl, hbl]; simp [hlen])]
    rw [List.drop_eq_nil_of_le (by rw [hbl, hbl]; simp [hlen]), List.append_nil]
    simp only [List.length_map, List.length_range]
    rw [← hlen, decode_encode r hr]

theorem exRep_lawful_on : ∀ x : Nat, x < 256 → exRep.dec (exRep.enc x) = x := by
  intro x hx
  simp [exRep, Nat.mod_eq_of_lt hx]

example : ∃ q, Tensor.serialize exRep (⟨some [1, 2, 3], [1, 3], [0, 3]⟩ : Tensor Nat) TensorProto.empty = .ok q ∧
    ∃ u, Tensor.fromProto exRep exEnv false (⟨none, [], []⟩ : Tensor Nat) q = .ok (u, true) ∧
      u.raw = some [1, 2, 3] ∧ u.alloc = [1, 3] ∧ u.allowed = [0, 3] :=
  ⟨_, rfl, _, rfl, by decide, by decide, by decide⟩

/-- A lawful representation exists: one byte per element of `UInt8`. -/
example : LawfulRep (⟨1, fun x => [x], fun b => b.headD 0⟩ : ByteRep UInt8) :=
  ⟨fun _ => rfl, fun _ => rfl⟩

/-- C13, negative: an allocated tensor whose allocated rank differs from its allowed rank serialises
normally but aborts the reader, whatever tensor it is read into. -/
theorem c13_rank_mismatch_aborts (r : ByteRep T) (e : Env T) (t u : Tensor T) (p q : TensorProto)
    (hal : t.isAlloc = true) (hrank : t.alloc.length ≠ t.allowed.length)
    (hs : t.serialize r p = .ok q) : u.fromProto r e false q = .abort := by
  unfold serialize at hs
  simp only [hal, Bool.not_true, Bool.false_eq_true, if_false] at hs
  split at hs
  · split at hs
    · injection hs with hs; subst hs
      unfold fromProto
      have hb : (t.alloc.length == t.allowed.length) = false := by simpa using hrank
      simp only [Bool.not_false, if_true, hb, Outcome.assert_false, Outcome.abort_bind]
    · cases hs
  · cases hs

/-- Such a tensor is reachable: an undefined tensor allocated with a concrete shape. -/
example : ∃ h, trun exRep exEnv (THeap.init exEnv) [.new 0 [], .allocateShape 0 [2, 2]] = .ok h ∧
    (h 0).isAlloc = true ∧ (h 0).alloc.length ≠ (h 0).allowed.length :=
  ⟨_, rfl, by decide, by decide⟩

/-- C13, negative: compiled without assertions (`NDEBUG`), reading any acceptable proto is undefined
behaviour, since the allocation is inside the assert (tensor.ipp:527). -/
theorem c13_ndebug_ub (r : ByteRep T) (e : Env T) (u : Tensor T) (p : TensorProto) (hu : u.WF)
    (h1 : Shape.isCompatibleWith p.alloc p.allow = true) (h2 : Full p.alloc) :
    u.fromProto r e true p = .ub := by
  unfold fromProto
  have hnone : ({ u with allowed := p.allow } : Tensor T).deallocate.1.raw = none := by
    unfold Tensor.deallocate
    split
    · rfl
    · rename_i hna
      cases hr : ({ u with allowed := p.allow } : Tensor T).raw with
      | none => rfl
      | some b => exact absurd ((wf_allowed hu _).isAlloc_iff.2 ⟨b, hr⟩) hna
  simp [h1, (Shape.isFullyDefined_iff _).2 h2, hnone]

/-- Exactly which allocated tensors survive the round trip (assertions enabled): those whose allocated and allowed
shapes have the same rank and are compatible. With another rank the reader aborts; with an incompatible shape it
returns false, having replaced nothing but the allowed shape. -/
theorem c13_exact (r : ByteRep T) (hr : LawfulRep r) (e : Env T) (t u : Tensor T)
    (p : TensorProto) (buf : List T) (hraw : t.raw = some buf) (hfull : Full t.alloc)
    (hlen : buf.length = t.alloc.nElems) (hu : u.WF) (hmem : e.fits t.alloc.nElems = true) :
    ∃ q, t.serialize r p = .ok q ∧
      (u.fromProto r e false q = .ok (⟨some buf, t.alloc, t.allowed⟩, true) ↔
        t.alloc.length = t.allowed.length ∧ t.alloc.isCompatibleWith t.allowed = true) ∧
      (u.fromProto r e false q = .abort ↔ t.alloc.length ≠ t.allowed.length) ∧
      (u.fromProto r e false q = .ok (⟨u.raw, u.alloc, t.allowed⟩, false) ↔
        t.alloc.length = t.allowed.length ∧ t.alloc.isCompatibleWith t.allowed = false) := by
  have hal : t.isAlloc = true := (isAlloc_iff t).2 ⟨hfull, buf, hraw⟩
  have hn : t.nElems = t.alloc.nElems := by simp [Tensor.nElems, hraw]
  have hs : t.serialize r p = .ok ⟨buf.flatMap r.enc, t.allowed, t.alloc⟩ := by
    unfold serialize
    simp only [hal, Bool.not_true, Bool.false_eq_true, if_false, hraw, hn, hlen, Nat.le_refl, if_true]
    rw [← hlen, List.take_length]
  refine ⟨_, hs, ?_⟩
  by_cases hrank : t.alloc.length = t.allowed.length
  · by_cases hcomp : t.alloc.isCompatibleWith t.allowed = true
    · obtain ⟨q, h1, h2⟩ := c13_roundtrip_partial r hr e t u p buf hraw hfull hlen hrank hcomp hu hmem
      rw [hs] at h1; cases h1
      rw [h2]
      simp [hrank, hcomp]
    · have hcomp : t.alloc.isCompatibleWith t.allowed = false := by simpa using hcomp
      have h2 : u.fromProto r e false ⟨buf.flatMap r.enc, t.allowed, t.alloc⟩ = .ok (⟨u.raw, u.alloc, t.allowed⟩, false) := by
        unfold fromProto
        simp only [Bool.not_false, if_true, hrank, beq_self_eq_true, Outcome.assert_true, Outcome.ok_bind, hcomp, Bool.true_or]
        rfl
      rw [h2]
      simp [hrank, hcomp]
  · have h2 := c13_rank_mismatch_aborts r e t u p _ hal hrank hs
    rw [h2]
    simp [hrank]

/-- A tensor whose allowed shape was changed after its allocation to one that excludes it is not restored. -/
example : ∃ q, Tensor.serialize exRep (⟨some [1, 2, 3], [1, 3], [2, 0]⟩ : Tensor Nat) TensorProto.empty = .ok q ∧
    Tensor.fromProto exRep exEnv false (⟨some [7], [1], [1]⟩ : Tensor Nat) q = .ok (⟨some [7], [1], [2, 0]⟩, false) :=
  ⟨_, rfl, rfl⟩

/-! ## C14 -/

/-- C14: a rejected proto leaves data and allocated shape unchanged. -/
theorem c14_rejected (r : ByteRep T) (e : Env T) (t t' : Tensor T) (p : TensorProto) (hw : t.WF)
    (h : t.fromProto r e false p = .ok (t', false)) : t'.raw = t.raw ∧ t'.alloc = t.alloc := by
  rcases fromProto_cases r e t p hw t' false h with ⟨_, rfl, _⟩ | ⟨h, _⟩
  · exact ⟨rfl, rfl⟩
  · cases h

/-- C14: exactly which protos are rejected (assertions enabled): ranks differ -> abort; otherwise
rejected iff the allocated shape is not fully defined or incompatible with the allowed shape. -/
theorem c14_decision (r : ByteRep T) (e : Env T) (t : Tensor T) (p : TensorProto) :
    (p.alloc.length ≠ p.allow.length → t.fromProto r e false p = .abort) ∧
    (p.alloc.length = p.allow.length →
      ¬ (Full p.alloc ∧ Shape.isCompatibleWith p.alloc p.allow = true) →
      ∃ t', t.fromProto r e false p = .ok (t', false)) := by
  constructor
  · intro h; unfold fromProto
    have hb : (p.alloc.length == p.allow.length) = false := by simpa using h
    simp only [Bool.not_false, if_true, hb, Outcome.assert_false, Outcome.abort_bind]
  · intro h h2
    refine ⟨{ t with allowed := p.allow }, ?_⟩
    have hc : (!Shape.isCompatibleWith p.alloc p.allow || !Shape.isFullyDefined p.alloc) = true := by
      rw [Bool.or_eq_true, Bool.not_eq_true', Bool.not_eq_true']
      by_cases hf : Full p.alloc
      · left; rw [Bool.eq_false_iff]; intro hh; exact h2 ⟨hf, hh⟩
      · right; rw [Bool.eq_false_iff]; intro hh; exact hf ((Shape.isFullyDefined_iff _).1 hh)
    unfold fromProto
    simp only [Bool.not_false, if_true, h, beq_self_eq_true, Outcome.assert_true, Outcome.ok_bind, hc]
    rfl

example : ∃ t', Tensor.fromProto exRep exEnv false (⟨some [1, 2], [2], [2]⟩ : Tensor Nat) ⟨[], [3], [0]⟩
    = .ok (t', false) ∧ t'.raw = some [1, 2] := ⟨_, rfl, rfl⟩

/-- C14, negative: the allowed shape is not preserved by a rejected read. -/
theorem c14_allowed_clobbered : ¬ ∀ (t t' : Tensor Nat) (p : TensorProto), t.WF →
    t.fromProto exRep exEnv false p = .ok (t', false) → t'.allowed = t.allowed := by
  intro h
  have := h ⟨some [1, 2], [2], [2]⟩ _ ⟨[], [3], [0]⟩
    (fun b hb => by simp at hb; subst hb; exact ⟨by decide, by decide⟩) rfl
  revert this; decide

/-- C14, negative: an accepted shape with more data bytes than the buffer holds overruns the buffer. -/
theorem c14_overlong_data_ub (r : ByteRep T) (hr : LawfulRep r) (e : Env T) (u : Tensor T)
    (p : TensorProto) (hu : u.WF) (h0 : p.alloc.length = p.allow.length)
    (h1 : Shape.isCompatibleWith p.alloc p.allow = true) (h2 : Full p.alloc)
    (hlong : Shape.nElems p.alloc * r.sz < p.data.length) :
    u.fromProto r e false p = .ub := by
  rw [fromProto_accept r e u p hu h0 h1 h2]
  cases hb : allocBuf e (Shape.nElems p.alloc) with
  | none => rfl
  | some b =>
    simp only []
    have hbl : ∀ l : List T, (l.flatMap r.enc).length = l.length * r.sz := by
      intro l
      induction l with
      | nil => simp
      | cons a as ih => rw [List.flatMap_cons, List.length_append, ih, hr.size, List.length_cons, Nat.add_mul]; omega
    rw [if_neg (by rw [hbl, allocBuf_some hb]; omega)]

/-! ## C15 -/

/-- C15: the decision table of `allocate(shape)` when memory suffices. -/
theorem c15_allocate (e : Env T) (t : Tensor T) (s : Shape) (hw : t.WF)
    (hmem : e.fits s.nElems = true) :
    ∃ t' b, t.allocateShape e s = .ok (t', b) ∧
      (b = true ↔ Full s ∧ s.isCompatibleWith t.allowed = true ∧
        ¬ (t.isAlloc = true ∧ s.isCompatibleWith t.alloc = true)) ∧
      (b = true → t'.isAlloc = true ∧ t'.alloc = s ∧ t'.allowed = t.allowed) ∧
      (b = false → t' = t) := by
  have hab : allocBuf e s.nElems = some ((List.range s.nElems).map e.junk) := by simp [allocBuf, hmem]
  unfold allocateShape
  by_cases h1 : t.isAlloc = true ∧ s.isCompatibleWith t.alloc = true
  · rw [if_pos (by simp [h1])]
    exact ⟨t, false, rfl, by simp [h1], by simp, fun _ => rfl⟩
  · rw [if_neg (by simpa using h1)]
    by_cases h2 : s.isCompatibleWith t.allowed = true ∧ Full s
    · rw [if_pos (by simp [h2.1, (Shape.isFullyDefined_iff _).2 h2.2])]
      by_cases h3 : t.isAlloc = true
      · rw [if_pos h3]
        obtain ⟨hfa, raw, hraw⟩ := (isAlloc_iff t).1 h3
        rw [hab, hraw]
        simp only []
        obtain ⟨res, hres, hlen, _⟩ := Fit.fitToShape_correct e.zero ((List.range s.nElems).map e.junk) s raw t.alloc h2.2 hfa
          (by simp [Shape.nElems_eq h2.2.1]) (hw raw hraw).2
        rw [hres]
        refine ⟨_, true, rfl, by simp [h2, h1], fun _ => ⟨?_, rfl, rfl⟩, by simp⟩
        exact (isAlloc_iff _).2 ⟨h2.2, res, rfl⟩
      · rw [if_neg h3, hab]
        refine ⟨_, true, rfl, by simp [h2, h3], fun _ => ⟨?_, rfl, rfl⟩, by simp⟩
        exact (isAlloc_iff _).2 ⟨h2.2, _, rfl⟩
    · rw [if_neg (by simp only [Bool.and_eq_true, Shape.isFullyDefined_iff]; exact h2)]
      refine ⟨t, false, rfl, ?_, by simp, fun _ => rfl⟩
      simp only [Bool.false_eq_true, false_iff]
      rintro ⟨ha, hb, _⟩; exact h2 ⟨hb, ha⟩

/-- C15: reallocation keeps the data as described in C12. -/
theorem c15_realloc_keeps_data (e : Env T) (t t' : Tensor T) (s : Shape) (hw : t.WF)
    (hal : t.isAlloc = true) (h : t.allocateShape e s = .ok (t', true)) :
    ∃ old new, t.raw = some old ∧ t'.raw = some new ∧
      ∀ c, InRange s c →
        (∀ c', InRange t.alloc c' → (∀ i, c.getD i 0 = c'.getD i 0) →
          new[flat s c]? = old[flat t.alloc c']?) ∧
        ((∀ c', InRange t.alloc c' → ¬ ∀ i, c.getD i 0 = c'.getD i 0) →
          new[flat s c]? = some e.zero) := by
  unfold allocateShape at h
  split at h
  · injection h with h; injection h with _ h; cases h
  · split at h
    · rename_i hc
      simp only [Bool.and_eq_true, Shape.isFullyDefined_iff] at hc
      split at h
      · rename_i temp raw ht hr
        simp only [Outcome.bind_eq_ok, Outcome.pure_eq, Outcome.ok.injEq, Prod.mk.injEq] at h
        obtain ⟨temp', hf, rfl, _⟩ := h
        obtain ⟨hfa, _⟩ := (isAlloc_iff t).1 hal
        obtain ⟨res, hres, _, hspec⟩ := Fit.fitToShape_correct e.zero temp s raw t.alloc hc.2 hfa
          (by rw [allocBuf_some ht, Shape.nElems_eq hc.2.1]) (hw raw hr).2
        rw [hres] at hf; injection hf with hf; subst hf
        exact ⟨raw, res, hr, rfl, hspec⟩
      · cases h
    · injection h with h; injection h with _ h; cases h

/-- C15, negative: when the allocator returns null the call still reports success although the
tensor is not allocated. -/
theorem c15_oom_reports_success : ¬ ∀ (e : Env Nat) (t t' : Tensor Nat) (s : Shape), t.WF →
    t.allocateShape e s = .ok (t', true) → t'.isAlloc = true := by
  intro h
  have := h { junk := fun _ => 0, zero := 0, fits := fun _ => false } ⟨none, [], []⟩ _ [2]
    (fun b hb => by cases hb) rfl
  revert this; decide

example : ∃ t', Tensor.allocateShape exEnv (⟨some [1, 2, 3, 4], [2, 2], [0, 0]⟩ : Tensor Nat) [3, 1]
    = .ok (t', true) ∧ t'.raw = some [1, 2, 0] := ⟨_, rfl, by decide⟩

end Verif.Props
