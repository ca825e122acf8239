import Verif.Lemmas.Fit
/-! Helper lemmas about tensors. -/
namespace Verif
open Spec
namespace Tensor
variable {T : Type}

/-- A buffer, if present, has a fully defined allocated shape and exactly its element count. -/
def WF (t : Tensor T) : Prop := ∀ buf, t.raw = some buf → Full t.alloc ∧ buf.length = vol t.alloc

theorem isAlloc_iff (t : Tensor T) : t.isAlloc = true ↔ Full t.alloc ∧ ∃ buf, t.raw = some buf := by
  unfold isAlloc
  rw [Bool.and_eq_true, Shape.isFullyDefined_iff, Option.isSome_iff_exists]

theorem WF.isAlloc_iff {t : Tensor T} (h : t.WF) : t.isAlloc = true ↔ ∃ buf, t.raw = some buf := by
  rw [Tensor.isAlloc_iff]
  exact ⟨fun h' => h'.2, fun ⟨b, hb⟩ => ⟨(h b hb).1, b, hb⟩⟩

theorem allocBuf_some {e : Env T} {n : Nat} {b : List T} (h : allocBuf e n = some b) :
    b.length = n := by
  unfold allocBuf at h
  split at h
  · injection h with h; subst h; simp
  · cases h

theorem new_wf (e : Env T) (s : Shape) : (new e s).WF := by
  unfold new
  split
  · rename_i h
    have hf := (Shape.isFullyDefined_iff s).1 h
    intro buf hb
    exact ⟨hf, by rw [allocBuf_some hb, Shape.nElems_eq hf.1]⟩
  · intro buf hb; cases hb

theorem newScalar_wf (e : Env T) (v : T) (t : Tensor T) (h : newScalar e v = .ok t) : t.WF := by
  unfold newScalar at h
  have hw := new_wf e [1]
  dsimp only at h
  split at h
  · rename_i buf hb
    simp only [Outcome.write] at h
    split at h
    · simp only [Outcome.ok_bind, Outcome.pure_eq, Outcome.ok.injEq] at h
      subst h
      intro buf' hb'
      simp only [Option.some.injEq] at hb'
      subst hb'
      obtain ⟨h1, h2⟩ := hw buf hb
      exact ⟨h1, by simpa using h2⟩
    · simp at h
  · cases h

theorem fit_ok_length {zero : T} {dest : List T} {out : Shape} {src : List T} {inn : Shape}
    (ho : Full out) (hi : Full inn) (hd : dest.length = vol out) (hs : src.length = vol inn) {res}
    (h : fitToShape zero dest out src inn = .ok res) : res.length = vol out := by
  obtain ⟨r, h1, h2, _⟩ := Fit.fitToShape_correct zero dest out src inn ho hi hd hs
  rw [h1] at h; injection h with h; rw [← h, h2]

theorem allocateShape_cases (e : Env T) (t : Tensor T) (s : Shape) (hw : t.WF) (t' : Tensor T)
    (b : Bool) (h : t.allocateShape e s = .ok (t', b)) :
    (b = false ∧ t' = t) ∨ (b = true ∧ Full s ∧ s.isCompatibleWith t.allowed = true ∧ t'.alloc = s ∧
      t'.allowed = t.allowed ∧ t'.WF) := by
  unfold allocateShape at h
  split at h
  · injection h with h; injection h with h1 h2; exact .inl ⟨h2.symm, h1.symm⟩
  · split at h
    · rename_i hc
      simp only [Bool.and_eq_true, Shape.isFullyDefined_iff] at hc
      split at h
      · split at h
        · rename_i temp raw ht hr
          simp only [Outcome.bind_eq_ok] at h
          obtain ⟨temp', hf, h⟩ := h
          simp only [Outcome.pure_eq, Outcome.ok.injEq, Prod.mk.injEq] at h
          obtain ⟨rfl, rfl⟩ := h
          refine .inr ⟨rfl, hc.2, hc.1, rfl, rfl, ?_⟩
          intro buf hb
          simp only [Option.some.injEq] at hb
          subst hb
          obtain ⟨ha1, ha2⟩ := hw raw hr
          exact ⟨hc.2, fit_ok_length hc.2 ha1
            (by rw [allocBuf_some ht, Shape.nElems_eq hc.2.1]) ha2 hf⟩
        · cases h
      · injection h with h; injection h with h1 h2
        refine .inr ⟨h2.symm, hc.2, hc.1, by rw [← h1], by rw [← h1], ?_⟩
        subst h1
        intro buf hb
        exact ⟨hc.2, by rw [allocBuf_some hb, Shape.nElems_eq hc.2.1]⟩
    · injection h with h; injection h with h1 h2; exact .inl ⟨h2.symm, h1.symm⟩

theorem allocateShape_wf (e : Env T) (t : Tensor T) (s : Shape) (hw : t.WF) {p}
    (h : t.allocateShape e s = .ok p) : p.1.WF := by
  obtain ⟨t', b⟩ := p
  rcases allocateShape_cases e t s hw t' b h with ⟨_, rfl⟩ | ⟨_, _, _, _, _, h⟩
  · exact hw
  · exact h

theorem allocate_wf (e : Env T) (t : Tensor T) (hw : t.WF) {p}
    (h : t.allocate e = .ok p) : p.1.WF := by
  unfold allocate at h
  split at h
  · injection h with h; subst h; exact hw
  · split at h <;> exact allocateShape_wf e t _ hw h

theorem wf_allowed {t : Tensor T} (hw : t.WF) (s : Shape) : ({ t with allowed := s } : Tensor T).WF :=
  fun buf hb => hw buf hb

theorem setShape_wf (e : Env T) (t : Tensor T) (s : Shape) (hw : t.WF) {t'}
    (h : t.setShape e s = .ok t') : t'.WF := by
  unfold setShape at h
  generalize ht1 : (if !t.allowed.isCompatibleWith s || !t.isAlloc then { t with allowed := s } else t) = t1 at h
  have hw1 : t1.WF := by
    subst ht1; split
    · exact wf_allowed hw s
    · exact hw
  simp only [] at h
  split at h
  · simp only [Outcome.bind_eq_ok] at h
    obtain ⟨s', _, p, hp, h⟩ := h
    obtain ⟨t2, b⟩ := p
    simp only [Outcome.pure_eq, Outcome.ok.injEq] at h
    subst h
    exact allocateShape_wf e t1 s' hw1 hp
  · simp only [Outcome.pure_eq, Outcome.ok.injEq] at h
    subst h; exact hw1

theorem getShape_of_alloc {t : Tensor T} (h : t.isAlloc = true) : t.getShape = t.alloc := by
  simp [getShape, h]

theorem copyFrom_cases (e : Env T) (t o : Tensor T) (s : Shape) (hw : o.WF) (t' : Tensor T) (b : Bool)
    (h : t.copyFrom e o s = .ok (t', b)) :
    (b = false ∧ t' = t) ∨ (b = true ∧ o.isAlloc = true ∧ Full s ∧ t'.alloc = s ∧ t'.WF ∧
      t'.allowed.isCompatibleWith s = true) := by
  unfold copyFrom at h
  split at h
  · rename_i hc
    simp only [Bool.and_eq_true, Shape.isFullyDefined_iff] at hc
    dsimp only at h
    generalize hal : (if (!t.allowed.isCompatibleWith s) = true then s else t.allowed) = al at h
    split at h
    · rename_i temp raw ht hr
      simp only [Outcome.bind_eq_ok] at h
      obtain ⟨temp', hf, h⟩ := h
      simp only [Outcome.pure_eq, Outcome.ok.injEq, Prod.mk.injEq] at h
      obtain ⟨rfl, rfl⟩ := h
      obtain ⟨ha1, ha2⟩ := hw raw hr
      rw [getShape_of_alloc hc.1] at hf
      refine .inr ⟨rfl, hc.1, hc.2, rfl, ?_, ?_⟩
      · intro buf hb
        simp only [Option.some.injEq] at hb
        subst hb
        exact ⟨hc.2, fit_ok_length hc.2 ha1
          (by rw [allocBuf_some ht, Shape.nElems_eq hc.2.1]) ha2 hf⟩
      · subst hal
        dsimp only
        split
        · exact Shape.compat_self s
        · rename_i h'; simpa using h'
    · cases h
  · injection h with h; injection h with h1 h2; exact .inl ⟨h2.symm, h1.symm⟩

theorem memcpy_length {dest src out : List T} {di si n : Nat} (h : memcpy dest di src si n = .ok out) :
    out.length = dest.length := by
  unfold memcpy at h
  split at h
  · injection h with h; subst h; simp; omega
  · cases h

theorem memcpy_all {dest src : List T} (h1 : dest.length = src.length) :
    memcpy dest 0 src 0 src.length = .ok src := by
  unfold memcpy
  rw [if_pos (by omega)]
  have : dest.drop (0 + src.length) = [] := List.drop_eq_nil_of_le (by omega)
  rw [this]; simp

theorem copyHelper_wf (e : Env T) (o : Tensor T) (so : Bool) (hw : o.WF) {t'}
    (h : o.copyHelper e so = .ok t') :
    t'.WF ∧ t'.alloc = o.alloc ∧ t'.allowed = o.allowed := by
  unfold copyHelper at h
  split at h
  · rename_i ha
    have hfull := ((isAlloc_iff o).1 ha).1
    simp only [] at h
    split at h
    · rename_i buf oraw hb hr
      split at h
      · injection h with h; subst h
        refine ⟨?_, rfl, rfl⟩
        intro buf' hb'
        simp only [Option.some.injEq] at hb'
        subst hb'
        exact ⟨hfull, by rw [allocBuf_some hb, Shape.nElems_eq hfull.1]⟩
      · simp only [Outcome.bind_eq_ok] at h
        obtain ⟨buf', hm, h⟩ := h
        simp only [Outcome.pure_eq, Outcome.ok.injEq] at h
        subst h
        refine ⟨?_, rfl, rfl⟩
        intro b2 hb2
        simp only [Option.some.injEq] at hb2
        subst hb2
        exact ⟨hfull, by rw [memcpy_length hm, allocBuf_some hb, Shape.nElems_eq hfull.1]⟩
    · split at h
      · injection h with h; subst h
        exact ⟨fun b hb => (by cases hb), rfl, rfl⟩
      · cases h
    · cases h
  · injection h with h; subst h
    exact ⟨fun b hb => (by cases hb), rfl, rfl⟩

theorem deallocate_wf (t : Tensor T) (hw : t.WF) : t.deallocate.1.WF := by
  unfold deallocate
  split
  · intro b hb; cases hb
  · exact hw

theorem decodeElems_length (r : ByteRep T) (n : Nat) (b : List UInt8) :
    (decodeElems r n b).length = n := by simp [decodeElems]

/-- All outcomes of a normally returning `from_proto`. -/
theorem fromProto_cases (r : ByteRep T) (e : Env T) (t : Tensor T) (p : TensorProto) (hw : t.WF)
    (t' : Tensor T) (b : Bool) (h : t.fromProto r e false p = .ok (t', b)) :
    (b = false ∧ t' = { t with allowed := p.allow } ∧ t'.WF) ∨
    (b = true ∧ Full p.alloc ∧ Shape.isCompatibleWith p.alloc p.allow = true ∧
      t'.alloc = p.alloc ∧ t'.allowed = p.allow ∧ t'.WF) := by
  unfold fromProto at h
  simp only [Bool.not_false, if_true, Outcome.bind_eq_ok, Outcome.assert] at h
  obtain ⟨_, _, h⟩ := h
  split at h
  · simp only [Outcome.pure_eq, Outcome.ok.injEq, Prod.mk.injEq] at h
    obtain ⟨rfl, rfl⟩ := h
    exact .inl ⟨rfl, rfl, wf_allowed hw _⟩
  · rename_i hc
    simp only [Bool.or_eq_true, Bool.not_eq_true', not_or, Bool.not_eq_false,
      Shape.isFullyDefined_iff] at hc
    right
    simp only [Bool.false_eq_true, if_false, Outcome.bind_eq_ok] at h
    obtain ⟨t4, h4, h⟩ := h
    -- after deallocation there is no buffer
    have hnone : ({ t with allowed := p.allow } : Tensor T).deallocate.1.raw = none := by
      unfold deallocate
      split
      · rfl
      · rename_i hna
        have hw' := wf_allowed hw p.allow
        cases hr : ({ t with allowed := p.allow } : Tensor T).raw with
        | none => rfl
        | some buf => exact absurd ((hw'.isAlloc_iff).2 ⟨buf, hr⟩) hna
    have hallowed : ({ t with allowed := p.allow } : Tensor T).deallocate.1.allowed = p.allow := by
      unfold deallocate; split <;> rfl
    have hfd : Shape.isFullyDefined p.alloc = true := (Shape.isFullyDefined_iff _).2 hc.2
    unfold assertAllocate at h4
    simp only [Outcome.bind_eq_ok] at h4
    obtain ⟨⟨t5, b5⟩, h5, h4⟩ := h4
    have hna : ({ ({ t with allowed := p.allow } : Tensor T).deallocate.1 with alloc := p.alloc } : Tensor T).isAlloc = false := by
      simp [isAlloc, hnone]
    simp only [allocate, hna, Bool.false_eq_true, if_false, hfd, if_true, allocateShape,
      Bool.false_and] at h5
    rw [hallowed] at h5
    rw [if_pos (by simp [hc.1])] at h5
    injection h5 with h5
    simp only [Prod.mk.injEq] at h5
    obtain ⟨rfl, rfl⟩ := h5
    simp only [Outcome.assert_true, Outcome.pure_eq, Outcome.ok_bind] at h4
    obtain ⟨_, _, h4⟩ := h4
    injection h4 with h4
    subst h4
    simp only [] at h
    split at h
    · rename_i buf hbuf
      split at h
      · simp only [Outcome.pure_eq, Outcome.ok.injEq, Prod.mk.injEq] at h
        obtain ⟨rfl, rfl⟩ := h
        refine ⟨rfl, hc.2, hc.1, rfl, rfl, ?_⟩
        intro b2 hb2
        simp only [Option.some.injEq] at hb2
        subst hb2
        exact ⟨hc.2, by rw [decodeElems_length, allocBuf_some hbuf, Shape.nElems_eq hc.2.1]⟩
      · cases h
    · cases h

/-! ### guess loop -/

/-- Unknown extents replaced by 1. -/
def ones (s : List Nat) : List Nat := s.map (fun d => if d = 0 then 1 else d)

theorem guessLoop_fst (s : Shape) (i f k : Nat) :
    (guessLoop s i f k).1 = ones s ∧ (guessLoop s i f k).2.2 = k * vol (ones s) := by
  induction s generalizing i f k with
  | nil => simp [guessLoop, ones, vol]
  | cons d ds ih =>
    simp only [guessLoop]
    by_cases hd : d = 0
    · simp only [hd, if_true]
      obtain ⟨h1, h2⟩ := ih (i+1) (if f > i then i else f) k
      simp [ones, vol] at *
      exact ⟨h1, h2⟩
    · simp only [hd, if_false]
      obtain ⟨h1, h2⟩ := ih (i+1) f (k * d)
      simp [ones, vol, hd] at *
      exact ⟨h1, by rw [h2, Nat.mul_assoc]⟩

theorem guessLoop_le (s : Shape) (i f k : Nat) (h : f ≤ i) : (guessLoop s i f k).2.1 = f := by
  induction s generalizing i k with
  | nil => simp [guessLoop]
  | cons d ds ih =>
    simp only [guessLoop]
    have h' : ¬ f > i := by omega
    by_cases hd : d = 0
    · simp only [hd, if_true, h', if_false]; exact ih (i+1) k (by omega)
    · simp only [hd, if_false]; exact ih (i+1) _ (by omega)

theorem guessLoop_idx (s : Shape) (i f k : Nat) (h : i + s.length ≤ f) (hz : 0 ∈ s) :
    ∃ j, (guessLoop s i f k).2.1 = i + j ∧ j < s.length ∧ s.getD j 1 = 0 ∧
      ∀ j', j' < j → s.getD j' 0 ≠ 0 := by
  induction s generalizing i f k with
  | nil => simp at hz
  | cons d ds ih =>
    simp only [guessLoop]
    by_cases hd : d = 0
    · have h' : f > i := by simp at h; omega
      simp only [hd, if_true, h']
      refine ⟨0, ?_, by simp, by simp, by simp⟩
      rw [guessLoop_le _ _ _ _ (by omega)]; rfl
    · simp only [hd, if_false]
      obtain ⟨j, h1, h2, h3, h4⟩ := ih (i+1) f (k*d) (by simp at h; omega) (by
        rcases List.mem_cons.1 hz with h | h
        · exact absurd h.symm hd
        · exact h)
      refine ⟨j+1, by rw [h1]; omega, by simpa using h2, by simpa using h3, ?_⟩
      intro j' hj'
      cases j' with
      | zero => simpa using hd
      | succ j' => simpa using h4 j' (by omega)

theorem ones_pos (s : List Nat) : ∀ d ∈ ones s, 0 < d := by
  intro d hd
  simp only [ones, List.mem_map] at hd
  obtain ⟨a, _, rfl⟩ := hd
  split <;> omega

theorem ones_length (s : List Nat) : (ones s).length = s.length := by simp [ones]

theorem vol_set_one : ∀ (l : List Nat) (j v : Nat), l[j]? = some 1 → vol (l.set j v) = vol l * v
  | [], _, _, h => by simp at h
  | d :: ds, 0, v, h => by
    simp at h; subst h; simp [vol, Nat.mul_comm]
  | d :: ds, j+1, v, h => by
    simp at h
    simp [vol, vol_set_one ds j v h, Nat.mul_assoc]

theorem not_full_zero {s : Shape} (hne : s ≠ []) (h : ¬ Full s) : 0 ∈ s := by
  unfold Full at h
  refine Classical.byContradiction fun hn => h ⟨hne, fun d hd => ?_⟩
  rcases Nat.eq_zero_or_pos d with h0 | h0
  · subst h0; exact absurd hd hn
  · exact h0

/-- The product of the extents of a refinement is a multiple of the product of the known ones. -/
theorem vol_refines : ∀ (s t : List Nat), Refines t s → ∃ m, vol t = vol (ones s) * m
  | [], t, h => ⟨1, by have := h.1; simp at this; subst this; simp [vol, ones]⟩
  | d :: ds, [], h => by have := h.1; simp at this
  | d :: ds, e :: es, h => by
    have h0 := h.2 0 (by simp)
    simp at h0
    obtain ⟨m, hm⟩ := vol_refines ds es ⟨by simpa using h.1, fun i hi => by
      simpa using h.2 (i+1) (by simpa using hi)⟩
    have hones : ones (d :: ds) = (if d = 0 then 1 else d) :: ones ds := rfl
    by_cases hd : d = 0
    · refine ⟨e * m, ?_⟩
      rw [vol, hm, hones, vol, if_pos hd, Nat.one_mul, ← Nat.mul_assoc, Nat.mul_comm e, Nat.mul_assoc]
    · refine ⟨m, ?_⟩
      have : e = d := by omega
      rw [vol, hm, hones, vol, if_neg hd, this, Nat.mul_assoc]

end Tensor
end Verif
