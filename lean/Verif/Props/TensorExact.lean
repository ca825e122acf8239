import Verif.Props.Tensor
/-!
# C08, exactly: which calls make allocated and allowed shape incompatible
-/
namespace Verif.Spec

/-- The shape a part-defined `s` is completed to from the allocated shape `a`: unknown extents are taken over, and
extents beyond the allocated rank become 1. -/
def Completed (s a w : Shape) : Prop :=
  w.length = s.length ∧ ∀ i, i < s.length → w[i]? = if i < a.length then (if s.getD i 0 = 0 then a[i]? else s[i]?) else some 1

/-- The calls that lose compatibility.  `set_shape` does when the new shape suits neither the allowed nor the allocated
shape, is part-defined, and its completion is refused; `from_proto` when the message is rejected and its allowed shape
does not suit the allocated shape. -/
inductive Breaks {T : Type} (h : THeap T) : TOp T → Prop where
  | setShape {i : Nat} {s w : Shape} : (h i).isAlloc = true → (h i).allowed.isCompatibleWith s = false → s.isCompatibleWith (h i).alloc = false →
      (∃ d ∈ s, d = 0) → Completed s (h i).alloc w → w.isCompatibleWith (h i).alloc = true ∨ w.isCompatibleWith s = false → Breaks h (.setShape i s)
  | fromProto {i : Nat} {p : TensorProto} : (h i).isAlloc = true → ¬ (Shape.isCompatibleWith p.alloc p.allow = true ∧ Full p.alloc) →
      Shape.isCompatibleWith (h i).alloc p.allow = false → Breaks h (.fromProto i p)

end Verif.Spec
namespace Verif.Props
open Spec Tensor
variable {T : Type}

theorem Completed.unique {s a w w' : Shape} (h : Completed s a w) (h' : Completed s a w') : w = w' := by
  apply List.ext_getElem?
  intro i
  by_cases hi : i < s.length
  · rw [h.2 i hi, h'.2 i hi]
  · rw [List.getElem?_eq_none (by rw [h.1]; omega), List.getElem?_eq_none (by rw [h'.1]; omega)]

theorem mergeDim_eq (x y : Nat) : Shape.mergeDim x y = if x = 0 then y else x := by
  unfold Shape.mergeDim; split <;> split <;> omega

theorem withRank_length (s : Shape) (r : Nat) : (s.withRank r).length = r := by
  unfold Shape.withRank
  split
  · simp; omega
  · split
    · simp; omega
    · omega

theorem withRank_getElem? (s : Shape) (r i : Nat) (hi : i < r) : (s.withRank r)[i]? = if i < s.length then s[i]? else some 1 := by
  unfold Shape.withRank
  split
  · rw [List.getElem?_take_of_lt hi, if_pos (by omega)]
  · split
    · by_cases h : i < s.length
      · rw [List.getElem?_append_left h, if_pos h]
      · rw [List.getElem?_append_right (by omega), if_neg h, List.getElem?_replicate, if_pos (by omega)]
    · rw [if_pos (by omega)]

/-- What `set_shape` asks for is the completion. -/
theorem desiredShape_completed {s a s' : Shape} (ha : Full a) (hs : s ≠ []) (hn : ¬ Full s) (h : desiredShape s a s = .ok s') :
    Completed s a s' ∧ Full s' := by
  have hnf : s.isFullyDefined = false := by
    rw [Bool.eq_false_iff]; intro hh; exact hn ((Shape.isFullyDefined_iff s).1 hh)
  unfold desiredShape at h
  simp only [hnf, Bool.not_false, if_true, Outcome.bind_eq_ok, Outcome.pure_eq, Outcome.ok.injEq] at h
  obtain ⟨m, hm, rfl⟩ := h
  have hl : (s.withRank a.rank).length = a.length := withRank_length s a.rank
  have h1 : s.withRank a.rank ≠ [] := by
    intro hh
    rw [hh] at hl
    exact ha.1 (List.eq_nil_of_length_eq_zero hl.symm)
  have hmm : m = List.zipWith Shape.mergeDim (s.withRank a.rank) a := by
    unfold Shape.mergeWith at hm
    rw [if_neg (by simpa using h1), if_neg (by simpa using ha.1), if_neg (by simpa using hl)] at hm
    exact (Outcome.ok.inj hm).symm
  have hml : m.length = a.length := by rw [hmm]; simp [hl]
  have hget : ∀ i, i < s.length → (m.withRank s.rank)[i]? = if i < a.length then (if s.getD i 0 = 0 then a[i]? else s[i]?) else some 1 := by
    intro i hi
    rw [withRank_getElem? m s.rank i hi, hml]
    by_cases hia : i < a.length
    · rw [if_pos hia, if_pos hia, hmm, List.getElem?_zipWith, withRank_getElem? s a.rank i hia, if_pos hi]
      rw [List.getElem?_eq_getElem hi, List.getElem?_eq_getElem hia]
      simp only [mergeDim_eq, getD_lt s i 0 hi]
      split <;> rfl
    · rw [if_neg hia, if_neg hia]
  refine ⟨⟨withRank_length m s.rank, hget⟩, ?_, ?_⟩
  · intro hh
    have := withRank_length m s.rank
    rw [hh] at this
    exact hs (List.eq_nil_of_length_eq_zero this.symm)
  · intro d hd
    obtain ⟨i, hi, rfl⟩ := List.getElem_of_mem hd
    have hi' : i < s.length := by rw [withRank_length] at hi; exact hi
    have := hget i hi'
    rw [List.getElem?_eq_getElem hi] at this
    by_cases hia : i < a.length
    · rw [if_pos hia] at this
      by_cases hz : s.getD i 0 = 0
      · rw [if_pos hz, List.getElem?_eq_getElem hia] at this
        rw [Option.some.inj this]
        exact ha.2 _ (List.getElem_mem _)
      · rw [if_neg hz, List.getElem?_eq_getElem hi'] at this
        rw [Option.some.inj this, ← getD_lt s i 0 hi']
        omega
    · rw [if_neg hia] at this
      rw [Option.some.inj this]; omega

theorem not_full_iff {s : Shape} (hs : s ≠ []) : ¬ Full s ↔ ∃ d ∈ s, d = 0 := by
  constructor
  · intro h
    refine Classical.byContradiction (fun hn => h ⟨hs, fun d hd => ?_⟩)
    exact Nat.pos_of_ne_zero (fun hd0 => hn ⟨d, hd, hd0⟩)
  · rintro ⟨d, hd, rfl⟩ h
    exact absurd (h.2 0 hd) (by omega)

/-- `set_shape` on an allocated tensor whose shapes agree: exactly when they stop agreeing. -/
theorem setShape_breaks (e : Env T) (t t' : Tensor T) (s : Shape) (hw : t.WF) (hal : t.isAlloc = true) (hc : t.alloc.isCompatibleWith t.allowed = true)
    (h : t.setShape e s = .ok t') :
    ¬ Compat t' ↔ t.allowed.isCompatibleWith s = false ∧ s.isCompatibleWith t.alloc = false ∧ (∃ d ∈ s, d = 0) ∧
      ∃ w, Completed s t.alloc w ∧ (w.isCompatibleWith t.alloc = true ∨ w.isCompatibleWith s = false) := by
  have hfa := ((isAlloc_iff t).1 hal).1
  by_cases h1 : t.allowed.isCompatibleWith s = true
  · constructor
    · intro hn
      refine absurd ?_ hn
      unfold setShape at h
      have hch : ¬ (!t.allowed.isCompatibleWith s || !t.isAlloc) = true := by simp [h1, hal]
      rw [if_neg hch] at h
      dsimp only at h
      split at h
      · simp only [Outcome.bind_eq_ok] at h
        obtain ⟨s', hs', ⟨t2, b⟩, h2, h⟩ := h
        simp only [Outcome.pure_eq, Outcome.ok.injEq] at h
        subst h
        rcases allocateShape_cases e _ s' hw t2 b h2 with ⟨_, rfl⟩ | ⟨_, _, hcc, ha2, hal2, _⟩
        · exact fun _ => hc
        · intro _; rw [ha2, hal2]; exact hcc
      · simp only [Outcome.pure_eq, Outcome.ok.injEq] at h
        subst h; exact fun _ => hc
    · rintro ⟨h2, _⟩; rw [h1] at h2; cases h2
  · have h1' : t.allowed.isCompatibleWith s = false := by simpa using h1
    have hs0 : s ≠ [] := by rintro rfl; simp at h1
    by_cases h2 : s.isCompatibleWith t.alloc = true ∨ Full s ∨ s.length = t.alloc.length
    · constructor
      · intro hn
        refine absurd ?_ hn
        rcases h2 with h2 | h2
        · unfold setShape at h
          have hch : (!t.allowed.isCompatibleWith s || !t.isAlloc) = true := by simp [h1']
          rw [if_pos hch] at h
          dsimp only at h
          rw [if_neg (by simp [h2])] at h
          simp only [Outcome.pure_eq, Outcome.ok.injEq] at h
          subst h
          intro _
          show t.alloc.isCompatibleWith s = true
          rw [Shape.compat_comm]; exact h2
        · exact setShape_compat e t t' s hw (fun _ => hc) (fun _ => h2) h
      · rintro ⟨_, h3, h4, w, h5, h6⟩
        exfalso
        rcases h2 with h2 | h2 | h2
        · rw [h2] at h3; cases h3
        · exact (not_full_iff hs0).mpr h4 h2
        · -- same rank: the completion suits `s` and suits the allocation only if `s` does
          have hwl := h5.1
          have hget : ∀ i, i < s.length → w.getD i 0 = if s.getD i 0 = 0 then t.alloc.getD i 0 else s.getD i 0 := by
            intro i hi
            have := h5.2 i hi
            rw [if_pos (by omega)] at this
            rw [List.getD_eq_getElem?_getD, this]
            split
            · rw [List.getD_eq_getElem?_getD]
            · rw [List.getD_eq_getElem?_getD]
          rcases h6 with h6 | h6
          · rw [Shape.compat_same_rank (by omega)] at h6
            have : s.isCompatibleWith t.alloc = true := by
              rw [Shape.compat_same_rank h2]
              refine ⟨h2, fun i hi => ?_⟩
              have h7 := h6.2 i (by omega)
              rw [hget i hi] at h7
              split at h7
              · rename_i hz; exact .inr (.inl hz)
              · exact h7
            rw [this] at h3; cases h3
          · have : w.isCompatibleWith s = true := by
              rw [Shape.compat_same_rank hwl]
              refine ⟨hwl, fun i hi => ?_⟩
              rw [hget i (by omega)]
              split <;> simp_all
            rw [this] at h6; cases h6
    · simp only [not_or] at h2
      obtain ⟨h3, h4, h5⟩ := h2
      have h3' : s.isCompatibleWith t.alloc = false := by simpa using h3
      unfold setShape at h
      have hch : (!t.allowed.isCompatibleWith s || !t.isAlloc) = true := by simp [h1']
      rw [if_pos hch] at h
      dsimp only at h
      have hal1 : ({ t with allowed := s } : Tensor T).isAlloc = true := hal
      rw [if_pos (by rw [hal1]; simp [h3'])] at h
      simp only [Outcome.bind_eq_ok] at h
      obtain ⟨s', hs', ⟨t2, b⟩, h6, h⟩ := h
      simp only [Outcome.pure_eq, Outcome.ok.injEq] at h
      subst h
      obtain ⟨hcp, hf'⟩ := desiredShape_completed hfa hs0 h4 hs'
      have hred : (∃ w, Completed s t.alloc w ∧ (w.isCompatibleWith t.alloc = true ∨ w.isCompatibleWith s = false)) ↔
          (s'.isCompatibleWith t.alloc = true ∨ s'.isCompatibleWith s = false) :=
        ⟨fun ⟨w, hw1, hw2⟩ => by rw [Completed.unique hcp hw1]; exact hw2, fun hh => ⟨s', hcp, hh⟩⟩
      rw [hred]
      simp only [h1', h3', true_and, (not_full_iff hs0).mp h4]
      have hff : s'.isFullyDefined = true := (Shape.isFullyDefined_iff s').2 hf'
      unfold allocateShape at h6
      by_cases h7 : s'.isCompatibleWith t.alloc = true
      · rw [if_pos (by rw [hal1]; simp [h7])] at h6
        cases h6
        refine ⟨fun _ => Or.inl h7, fun _ hcc => ?_⟩
        have : t.alloc.isCompatibleWith s = true := hcc hal1
        rw [Shape.compat_comm] at this
        rw [this] at h3'; cases h3'
      · rw [if_neg (by simp [h7])] at h6
        by_cases h8 : s'.isCompatibleWith s = true
        · constructor
          · intro hn
            refine absurd ?_ hn
            have h6' : allocateShape e ({ t with allowed := s } : Tensor T) s' = .ok (t2, b) := by
              unfold allocateShape
              rw [if_neg (by simp [h7])]
              exact h6
            rcases allocateShape_cases e _ s' (wf_allowed hw s) t2 b h6' with ⟨hb, rfl⟩ | ⟨_, _, hcc, ha2, hal2, _⟩
            · exfalso
              rw [if_pos (by simp [h8, hff]), if_pos hal1] at h6
              split at h6
              · simp only [Outcome.bind_eq_ok, Outcome.pure_eq, Outcome.ok.injEq, Prod.mk.injEq] at h6
                obtain ⟨_, _, _, h9⟩ := h6
                rw [hb] at h9; cases h9
              · cases h6
            · intro _; rw [ha2, hal2]; exact hcc
          · rintro (h9 | h9)
            · exact absurd h9 h7
            · rw [h8] at h9; cases h9
        · rw [if_neg (by simp [h8])] at h6
          cases h6
          refine ⟨fun _ => Or.inr (by simpa using h8), fun _ hcc => ?_⟩
          have : t.alloc.isCompatibleWith s = true := hcc hal1
          rw [Shape.compat_comm] at this
          rw [this] at h3'; cases h3'

/-- One call in a state where every tensor is sound: it loses compatibility somewhere exactly when it is one of the
breaking calls. -/
theorem step_breaks (r : ByteRep T) (e : Env T) (h h' : THeap T) (op : TOp T) (hw : ∀ i, (h i).WF) (hc : ∀ i, Compat (h i))
    (hs : tstep r e h op = .ok h') : (∃ i, ¬ Compat (h' i)) ↔ Breaks h op := by
  have safe : CompatSafe h op → ((∃ i, ¬ Compat (h' i)) ↔ False) := fun hsafe =>
    ⟨fun ⟨i, hi⟩ => hi (tstep_compat r e h h' op hw hc hsafe hs i), False.elim⟩
  cases op with
  | setShape i s =>
    by_cases hal : (h i).isAlloc = true
    · simp only [tstep, Outcome.bind_eq_ok, Outcome.pure_eq, Outcome.ok.injEq] at hs
      obtain ⟨t, ht, rfl⟩ := hs
      have key := setShape_breaks e (h i) t s (hw i) hal (hc i hal) ht
      constructor
      · rintro ⟨k, hk⟩
        unfold THeap.set at hk
        split at hk
        · obtain ⟨h1, h2, h3, w, h4, h5⟩ := key.mp hk
          exact .setShape hal h1 h2 h3 h4 h5
        · exact absurd (hc k) hk
      · intro hb
        cases hb with
        | setShape _ h1 h2 h3 h4 h5 =>
          refine ⟨i, ?_⟩
          unfold THeap.set
          rw [if_pos rfl]
          exact key.mpr ⟨h1, h2, h3, _, h4, h5⟩
    · rw [safe (fun h1 => absurd h1 hal)]
      refine ⟨False.elim, fun hb => ?_⟩
      cases hb with
      | setShape h1 => exact hal h1
  | fromProto i p =>
    by_cases hg : Shape.isCompatibleWith p.alloc p.allow = true ∧ Full p.alloc
    · rw [safe (Or.inl hg)]
      refine ⟨False.elim, fun hb => ?_⟩
      cases hb with
      | fromProto _ h1 => exact h1 hg
    · by_cases hal : (h i).isAlloc = true → Shape.isCompatibleWith (h i).alloc p.allow = true
      · rw [safe (Or.inr hal)]
        refine ⟨False.elim, fun hb => ?_⟩
        cases hb with
        | fromProto h1 _ h2 => rw [hal h1] at h2; cases h2
      · have hal' := Classical.not_imp.mp hal
        refine ⟨fun _ => .fromProto hal'.1 hg (by simpa using hal'.2), fun _ => ⟨i, ?_⟩⟩
        simp only [tstep, Outcome.bind_eq_ok, Outcome.pure_eq, Outcome.ok.injEq] at hs
        obtain ⟨⟨t, b⟩, ht, rfl⟩ := hs
        unfold THeap.set
        rw [if_pos rfl]
        rcases fromProto_cases r e (h i) p (hw i) t b ht with ⟨hb, h1, _⟩ | ⟨_, h0, h1, h2, h3, _⟩
        · subst h1
          exact fun hcc => hal'.2 (hcc hal'.1)
        · exact absurd ⟨h1, h0⟩ hg
  | _ =>
    rw [safe trivial]
    exact ⟨False.elim, fun hb => by cases hb⟩

theorem trun_wf (r : ByteRep T) (e : Env T) (ops : List (TOp T)) : ∀ (h0 h : THeap T), (∀ i, (h0 i).WF) → trun r e h0 ops = .ok h → ∀ i, (h i).WF := by
  induction ops with
  | nil => intro h0 h hw hr; simp only [trun, Outcome.ok.injEq] at hr; subst hr; exact hw
  | cons op ops ih =>
    intro h0 h hw hr
    simp only [trun, Outcome.bind_eq_ok] at hr
    obtain ⟨h1, hs, hr⟩ := hr
    exact ih h1 h (tstep_wf r e h0 h1 op hw hs) hr

/-- C08: from any state reached in which all tensors are sound, a call leaves some allocated tensor with an allocated
shape its allowed shape does not allow exactly when it is a breaking call. -/
theorem c08_compat_lost_iff (r : ByteRep T) (e : Env T) (ops : List (TOp T)) (h h' : THeap T) (op : TOp T)
    (hrun : trun r e (THeap.init e) ops = .ok h) (hc : ∀ i, (h i).isAlloc = true → (h i).alloc.isCompatibleWith (h i).allowed = true)
    (hs : tstep r e h op = .ok h') :
    (∃ i, (h' i).isAlloc = true ∧ (h' i).alloc.isCompatibleWith (h' i).allowed = false) ↔ Breaks h op := by
  rw [← step_breaks r e h h' op (trun_wf r e ops _ h (fun i => new_wf e []) hrun) hc hs]
  constructor
  · rintro ⟨i, h1, h2⟩
    exact ⟨i, fun hcc => by rw [hcc h1] at h2; cases h2⟩
  · rintro ⟨i, hi⟩
    obtain ⟨h1, h2⟩ := Classical.not_imp.mp hi
    exact ⟨i, h1, by simpa using h2⟩

/-- C08: whenever an allocated tensor has incompatible shapes, a breaking call was made earlier, in a state where
nothing was wrong yet. -/
theorem c08_compat_history (r : ByteRep T) (e : Env T) (ops : List (TOp T)) (h : THeap T) (hrun : trun r e (THeap.init e) ops = .ok h) (i : Nat)
    (ha : (h i).isAlloc = true) (hn : (h i).alloc.isCompatibleWith (h i).allowed = false) :
    ∃ ops₁ op ops₂ g, ops = ops₁ ++ op :: ops₂ ∧ trun r e (THeap.init e) ops₁ = .ok g ∧
      (∀ k, (g k).isAlloc = true → (g k).alloc.isCompatibleWith (g k).allowed = true) ∧ Breaks g op := by
  have gen : ∀ (ops : List (TOp T)) (h0 h : THeap T), (∀ i, (h0 i).WF) → (∀ i, Compat (h0 i)) → trun r e h0 ops = .ok h → ¬ Compat (h i) →
      ∃ ops₁ op ops₂ g, ops = ops₁ ++ op :: ops₂ ∧ trun r e h0 ops₁ = .ok g ∧ (∀ k, Compat (g k)) ∧ Breaks g op := by
    intro ops
    induction ops with
    | nil =>
      intro h0 h _ hc hr hx
      simp only [trun, Outcome.ok.injEq] at hr; subst hr
      exact absurd (hc i) hx
    | cons op ops ih =>
      intro h0 h hw hc hr hx
      simp only [trun, Outcome.bind_eq_ok] at hr
      obtain ⟨h1, hs, hr⟩ := hr
      by_cases hb : Breaks h0 op
      · exact ⟨[], op, ops, h0, rfl, rfl, hc, hb⟩
      · have hc1 : ∀ k, Compat (h1 k) := fun k =>
          Classical.byContradiction (fun hk => hb ((step_breaks r e h0 h1 op hw hc hs).mp ⟨k, hk⟩))
        obtain ⟨o1, o, o2, g, h2, h3, h4, h5⟩ := ih h1 h (tstep_wf r e h0 h1 op hw hs) hc1 hr hx
        refine ⟨op :: o1, o, o2, g, by rw [h2]; rfl, ?_, h4, h5⟩
        simp only [trun, Outcome.bind_eq_ok]
        exact ⟨h1, hs, h3⟩
  exact gen ops _ h (fun i => new_wf e []) (fun i h => by simp [THeap.init, Tensor.new, Shape.isFullyDefined, isAlloc] at h) hrun
    (fun hcc => by rw [hcc ha] at hn; cases hn)

/-- Both breaking calls, and a part-defined `set_shape` of another rank that is not one: `[0, 3]` on a 4 x 4 x 2
tensor, completed to 4 x 3. -/
example : ∃ h : THeap Nat, trun exRep exEnv (THeap.init exEnv) [.new 0 [4, 4], .new 1 [4, 4, 2]] = .ok h ∧
    Breaks h (.setShape 0 [0, 0, 5]) ∧ Breaks h (.fromProto 0 ⟨[], [5, 5], [6, 6]⟩) ∧
    Completed [0, 3] (h 1).alloc [4, 3] ∧ (h 1).allowed.isCompatibleWith [0, 3] = false ∧ Shape.isCompatibleWith [4, 3] (h 1).alloc = false := by
  refine ⟨_, rfl, .setShape (w := [4, 4, 1]) (by decide) (by decide) (by decide) ⟨0, by simp, rfl⟩ ⟨rfl, ?_⟩ (Or.inl (by decide)),
    .fromProto (by decide) (by decide) (by decide), ⟨rfl, ?_⟩, by decide, by decide⟩
  · intro i hi
    have hi' : i < 3 := hi
    rcases i with _ | _ | _ | i
    · rfl
    · rfl
    · rfl
    · omega
  · intro i hi
    have hi' : i < 2 := hi
    rcases i with _ | _ | i
    · rfl
    · rfl
    · omega

end Verif.Props
