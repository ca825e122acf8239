import Verif.Lemmas.ReactStep
import Verif.Spec.Record
import Mathlib.Data.List.Induction
/-!
# C45: the edge recorder
-/
namespace Verif.Props
open Spec React Record

/-! ### The recorder by itself -/

theorem has_capture {r : Bool} {o s i x t j : Nat} {b : Book} :
    Has (edgeCapture r o s i b) x t j ↔ Has b x t j ∨ (r = true ∧ x = o ∧ t = s ∧ j = i) := by
  by_cases hr : r = true
  · by_cases ht : t = s
    · subst ht
      simp only [Has, edgeCapture, hr, if_true, Option.some.injEq, exists_eq_left', true_and]
      cases hb : b t with
      | none => simp [Prod.ext_iff]
      | some l =>
        simp only [Option.getD_some, Option.some.injEq, exists_eq_left']
        by_cases hm : (o, i) ∈ l
        · rw [if_pos hm]
          constructor
          · exact Or.inl
          · rintro (h | ⟨rfl, rfl⟩)
            · exact h
            · exact hm
        · rw [if_neg hm]; simp [Prod.ext_iff, or_comm]
    · simp [Has, edgeCapture, hr, ht]
  · simp [edgeCapture, hr]

theorem has_release {o s i x t j : Nat} {b : Book} :
    Has (edgeRelease o s i b) x t j ↔ Has b x t j ∧ ¬ (x = o ∧ t = s ∧ j = i) := by
  by_cases ht : t = s
  · subst ht
    cases hb : b t with
    | none => simp [Has, edgeRelease, hb]
    | some l =>
      simp [Has, edgeRelease, hb, Prod.ext_iff]
      tauto
  · simp [Has, edgeRelease, ht]

theorem has_gone {s x t j : Nat} {b : Book} : Has (nodeRelease s b) x t j ↔ Has b x t j ∧ t ≠ s := by
  by_cases ht : t = s
  · subst ht; simp [Has, nodeRelease]
  · simp [Has, nodeRelease, ht]

theorem still_snoc {evs : List Ev} {e : Ev} {o s i : Nat} : StillCaptured (evs ++ [e]) o s i ↔
    e = .capture true o s i ∨ (StillCaptured evs o s i ∧ e ≠ .release o s i ∧ e ≠ .gone s) := by
  constructor
  · rintro ⟨pre, post, h, hp⟩
    rcases List.eq_nil_or_concat post with rfl | ⟨q, e', rfl⟩
    · have := List.append_inj' h rfl
      left; simpa using this.2
    · right
      rw [List.concat_eq_append, ← List.cons_append, ← List.append_assoc] at h
      have h2 := List.append_inj' h rfl
      have he : e = e' := by simpa using h2.2
      subst he
      exact ⟨⟨pre, q, h2.1, fun x hx => hp x (by simp [hx])⟩, hp e (by simp)⟩
  · rintro (rfl | ⟨⟨pre, post, rfl, hp⟩, h2⟩)
    · exact ⟨evs, [], rfl, by simp⟩
    · refine ⟨pre, post ++ [e], by simp, ?_⟩
      intro x hx
      rcases List.mem_append.1 hx with hx | hx
      · exact hp x hx
      · rw [List.mem_singleton] at hx; rw [hx]; exact h2

/-- After any history of recorder calls the record contains exactly the edges captured for recordable observers and not
released since, neither by themselves nor with their subject. -/
theorem c45_history (evs : List Ev) (o s i : Nat) : Has (replay evs) o s i ↔ StillCaptured evs o s i := by
  induction evs using List.reverseRecOn with
  | nil =>
    constructor
    · rintro ⟨l, h, _⟩; simp [replay] at h
    · rintro ⟨pre, post, h, _⟩; simp at h
  | append_singleton evs e ih =>
    have : replay (evs ++ [e]) = e.apply (replay evs) := by simp [replay]
    rw [this, still_snoc, ← ih]
    cases e with
    | capture r o' s' i' =>
      simp only [Ev.apply, has_capture, Ev.capture.injEq, ne_eq, reduceCtorEq, not_false_eq_true, and_true]
      constructor
      · rintro (h | ⟨a, b, c, d⟩)
        · exact Or.inr h
        · exact Or.inl ⟨a, b.symm, c.symm, d.symm⟩
      · rintro (⟨a, b, c, d⟩ | h)
        · exact Or.inr ⟨a, b.symm, c.symm, d.symm⟩
        · exact Or.inl h
    | release o' s' i' =>
      simp only [Ev.apply, has_release, ne_eq, reduceCtorEq, not_false_eq_true, and_true, false_or, Ev.release.injEq]
      exact and_congr_right fun _ => not_congr ⟨fun ⟨a, b, c⟩ => ⟨a.symm, b.symm, c.symm⟩, fun ⟨a, b, c⟩ => ⟨a.symm, b.symm, c.symm⟩⟩
    | gone s' =>
      simp only [Ev.apply, has_gone, ne_eq, reduceCtorEq, not_false_eq_true, true_and, false_or, Ev.gone.injEq]
      exact and_congr_right fun _ => not_congr eq_comm

example : Has (replay [.capture true 7 1 0, .capture true 7 1 1, .capture false 8 1 0, .release 7 1 0]) 7 1 1 ∧
    ¬ Has (replay [.capture true 7 1 0, .capture true 7 1 1, .capture false 8 1 0, .release 7 1 0]) 7 1 0 ∧
    ¬ Has (replay [.capture true 7 1 0, .capture true 7 1 1, .capture false 8 1 0, .release 7 1 0]) 8 1 0 := by
  refine ⟨⟨_, rfl, by decide⟩, ?_, ?_⟩ <;> · rintro ⟨l, h, hm⟩; injection h with h; subst h; revert hm; decide

/-! ### The recorder attached to the network -/

/-- The record agrees with the edges, for observer `dirty` only one way. -/
def EdgeInv (dirty : Nat → Prop) (h : Net) : Prop :=
  ∀ o s i, (Has h.book.tbl o s i → (o, i) ∈ h.aud s) ∧ (¬ dirty o → (Has h.book.tbl o s i ↔ (o, i) ∈ h.aud s ∧ h.recb o = true))

/-- Edges and record unchanged. -/
def Same3 (h h' : Net) : Prop := h'.aud = h.aud ∧ h'.book = h.book ∧ h'.recb = h.recb

theorem EdgeInv.same {d : Nat → Prop} {h h' : Net} (hr : EdgeInv d h) (hs : Same3 h h') : EdgeInv d h' := by
  obtain ⟨h1, h2, h3⟩ := hs
  unfold EdgeInv; rw [h1, h2, h3]; exact hr

theorem needS_ok {s : Nat} {h h' : Net} (hr : needS s h = .ok h') : h' = h := by
  unfold needS at hr; split at hr
  · injection hr with hr; exact hr.symm
  · simp at hr

theorem needO_ok {s : Nat} {h h' : Net} (hr : needO s h = .ok h') : h' = h := by
  unfold needO at hr; split at hr
  · injection hr with hr; exact hr.symm
  · simp at hr

theorem attach_rinv {d : Nat → Prop} {h h' : Net} {s o i : Nat} (hr : EdgeInv d h) (e : attach s o i h = .ok h') : EdgeInv d h' := by
  obtain ⟨g, e1, e2⟩ := Outcome.bind_eq_ok.1 e
  rw [needS_ok e1] at e2; injection e2 with e2; subst e2
  intro x t j
  have := hr x t j
  simp only [Record.capture, Rec.note, Ev.apply, has_capture, mem_attach]
  constructor
  · rintro (h1 | ⟨_, rfl, rfl, rfl⟩)
    · exact Or.inl (this.1 h1)
    · exact Or.inr ⟨rfl, rfl, rfl⟩
  · intro hd
    rw [this.2 hd]
    constructor
    · rintro (⟨h1, h2⟩ | ⟨h1, rfl, rfl, rfl⟩)
      · exact ⟨Or.inl h1, h2⟩
      · exact ⟨Or.inr ⟨rfl, rfl, rfl⟩, h1⟩
    · rintro ⟨h1 | ⟨rfl, rfl, rfl⟩, h2⟩
      · exact Or.inl ⟨h1, h2⟩
      · exact Or.inr ⟨h2, rfl, rfl, rfl⟩

theorem detach_rinv {d : Nat → Prop} {h h' : Net} {s o i : Nat} (hr : EdgeInv d h) (e : detach s o i h = .ok h') : EdgeInv d h' := by
  obtain ⟨g, e1, e2⟩ := Outcome.bind_eq_ok.1 e
  rw [needS_ok e1] at e2; injection e2 with e2; subst e2
  intro x t j
  have := hr x t j
  simp only [Record.release, Rec.note, Ev.apply, has_release, mem_detach]
  constructor
  · rintro ⟨h1, h2⟩
    exact ⟨this.1 h1, fun ⟨a, b, c⟩ => h2 ⟨b, a, c⟩⟩
  · intro hd
    rw [this.2 hd]
    constructor
    · rintro ⟨⟨h1, h2⟩, h3⟩
      exact ⟨⟨h1, fun ⟨a, b, c⟩ => h3 ⟨b, a, c⟩⟩, h2⟩
    · rintro ⟨⟨h1, h2⟩, h3⟩
      exact ⟨⟨h1, h3⟩, fun ⟨a, b, c⟩ => h2 ⟨b, a, c⟩⟩

theorem attachOpt_rinv {d : Nat → Prop} {h h' : Net} {s : Option Nat} {o i : Nat} (hr : EdgeInv d h)
    (e : attachOpt s o i h = .ok h') : EdgeInv d h' := by
  cases s with
  | none => simp only [attachOpt] at e; injection e with e; exact e ▸ hr
  | some s => exact attach_rinv hr e

theorem addDependency_rinv {d : Nat → Prop} {h h' : Net} {s : Option Nat} {o : Nat} (hr : EdgeInv d h)
    (e : addDependency o s h = .ok h') : EdgeInv d h' := by
  obtain ⟨g, e1, e2⟩ := Outcome.bind_eq_ok.1 e
  rw [needO_ok e1] at e2
  obtain ⟨g2, e3, e4⟩ := Outcome.bind_eq_ok.1 e2
  injection e4 with e4; subst e4
  exact (attachOpt_rinv hr e3).same ⟨rfl, rfl, rfl⟩

theorem removeDependency_rinv {d : Nat → Prop} {h h' : Net} {o i : Nat} (hr : EdgeInv d h)
    (e : removeDependency o i h = .ok h') : EdgeInv d h' := by
  obtain ⟨g, e1, e2⟩ := Outcome.bind_eq_ok.1 e
  rw [needO_ok e1] at e2
  cases hg : (h.deps o)[i]? with
  | none => rw [hg] at e2; simp at e2
  | some v =>
    cases v with
    | none => rw [hg] at e2; injection e2 with e2; exact e2 ▸ hr
    | some s =>
      rw [hg] at e2
      obtain ⟨g2, e3, e4⟩ := Outcome.bind_eq_ok.1 e2
      injection e4 with e4; subst e4
      exact (detach_rinv hr e3).same ⟨rfl, rfl, rfl⟩

theorem detachLast_rinv {d : Nat → Prop} {h h' : Net} {s : Option Nat} {o i : Nat} (hr : EdgeInv d h)
    (e : detachLast o i s h = .ok h') : EdgeInv d h' := by
  unfold detachLast at e
  split at e
  · split at e
    · exact detach_rinv hr e
    · injection e with e; exact e ▸ hr
  · injection e with e; exact e ▸ hr

theorem replaceDependency_rinv {d : Nat → Prop} {h h' : Net} {s : Option Nat} {o i : Nat} (hr : EdgeInv d h)
    (e : replaceDependency o s i h = .ok h') : EdgeInv d h' := by
  obtain ⟨g, e1, e2⟩ := Outcome.bind_eq_ok.1 e
  rw [needO_ok e1] at e2
  obtain ⟨g2, e3, e4⟩ := Outcome.bind_eq_ok.1 e2
  obtain ⟨g3, e5, e6⟩ := Outcome.bind_eq_ok.1 e4
  injection e6 with e6; subst e6
  exact (detachLast_rinv (attachOpt_rinv hr e3) e5).same ⟨rfl, rfl, rfl⟩

theorem loop_rinv {α : Type} {d : Nat → Prop} {body : α → Net → Outcome Net} {l : List α} {h h' : Net} (hr : EdgeInv d h)
    (hb : ∀ x g g', EdgeInv d g → body x g = .ok g' → EdgeInv d g') (e : forEach body l h = .ok h') : EdgeInv d h' :=
  forEach_ok (fun _ g => EdgeInv d g) body l h h' hr (fun x _ g g' h1 h2 => hb x g g' h1 h2) e

theorem notify_rinv {d : Nat → Prop} {h h' : Net} {s : Nat} {ord : Ord} (hr : EdgeInv d h)
    (e : notify id ord s (updateUnsubscribe ord) h = .ok h') : EdgeInv d h' := by
  refine loop_rinv hr ?_ e
  intro v g g' h1 h2
  unfold notifyOne at h2
  split at h2
  · obtain ⟨g2, e3, e4⟩ := Outcome.bind_eq_ok.1 h2
    injection e4 with e4; subst e4
    exact (loop_rinv h1 (fun _ _ _ a b => removeDependency_rinv a b) e3).same ⟨rfl, rfl, rfl⟩
  · injection h2 with h2; exact h2 ▸ h1

theorem Same3.refl (h : Net) : Same3 h h := ⟨rfl, rfl, rfl⟩

theorem removeOndeath_same {h h' : Net} {o s : Nat} (e : removeOndeath o s h = .ok h') : Same3 h h' ∧ h'.sAlive = h.sAlive := by
  have := removeOndeath.mutual_induct o s
    (motive1 := fun h => ∀ h', removeOndeath o s h = .ok h' → Same3 h h' ∧ h'.sAlive = h.sAlive)
    (motive2 := fun h => ∀ h', detachKiller s o h = .ok h' → Same3 h h' ∧ h'.sAlive = h.sAlive)
    (fun h h1 h2 ih h' e => by rw [removeOndeath, if_pos h1, dif_pos h2] at e; exact ih h' e)
    (fun h h1 h2 h' e => by rw [removeOndeath, if_pos h1, dif_neg h2] at e; injection e with e; exact e ▸ ⟨Same3.refl _, rfl⟩)
    (fun h h1 h' e => by rw [removeOndeath, if_neg h1] at e; simp at e)
    (fun h h1 h2 ih h' e => by rw [detachKiller, if_pos h1, dif_pos h2] at e; exact ih h' e)
    (fun h h1 h2 h' e => by rw [detachKiller, if_pos h1, dif_neg h2] at e; injection e with e; exact e ▸ ⟨Same3.refl _, rfl⟩)
    (fun h h1 h' e => by rw [detachKiller, if_neg h1] at e; simp at e)
  exact this.1 h h' e

theorem detachKiller_same {h h' : Net} {o s : Nat} (e : detachKiller s o h = .ok h') : Same3 h h' := by
  rw [detachKiller] at e
  split at e
  · split at e
    · obtain ⟨h1, _⟩ := removeOndeath_same e; exact h1
    · injection e with e; exact e ▸ Same3.refl _
  · simp at e

theorem addOndeath_same {h h' : Net} {o s : Nat} (e : addOndeath o s h = .ok h') : Same3 h h' := by
  have := addOndeath.mutual_induct o s
    (motive1 := fun h => ∀ h', addOndeath o s h = .ok h' → Same3 h h')
    (motive2 := fun h => ∀ h', attachKiller s o h = .ok h' → Same3 h h')
    (fun h h1 h2 ih h' e => by rw [addOndeath, if_pos h1, dif_pos h2] at e; exact ih h' e)
    (fun h h1 h2 h' e => by rw [addOndeath, if_pos h1, dif_neg h2] at e; injection e with e; exact e ▸ Same3.refl _)
    (fun h h1 h' e => by rw [addOndeath, if_neg h1] at e; simp at e)
    (fun h h1 h2 ih h' e => by rw [attachKiller, if_pos h1, dif_pos h2] at e; exact ih h' e)
    (fun h h1 h2 h' e => by rw [attachKiller, if_pos h1, dif_neg h2] at e; injection e with e; exact e ▸ Same3.refl _)
    (fun h h1 h' e => by rw [attachKiller, if_neg h1] at e; simp at e)
  exact this.1 h h' e

theorem attachKiller_same {h h' : Net} {o s : Nat} (e : attachKiller s o h = .ok h') : Same3 h h' := by
  rw [attachKiller] at e
  split at e
  · split at e
    · have h1 := addOndeath_same e; exact h1
    · injection e with e; exact e ▸ Same3.refl _
  · simp at e

theorem noThrow_ok {x : Outcome Net} {h : Net} (e : noThrow x = .ok h) : x = .ok h := by
  cases x <;> simp [noThrow] at e ⊢; exact e

theorem destroySubject_rinv {d : Nat → Prop} {h h' : Net} {s : Nat} {ord : Ord} (hI : Inv h) (hr : EdgeInv d h)
    (e : destroySubject ord s h = .ok h') : EdgeInv d h' := by
  have hs : h.sAlive s = true := by
    by_contra hc; simp [destroySubject, needS, hc] at e
  obtain ⟨h'', e', I', _, _, _, dd, _, _⟩ := destroySubject_spec ord hI hs
  have : h'' = h' := by rw [e'] at e; injection e
  subst this
  have hempty : ∀ o i, (o, i) ∉ h''.aud s := by
    intro o i hm
    rw [← I'.mirror, dd] at hm
    exact hm.2 rfl
  obtain ⟨g, e1, e2⟩ := Outcome.bind_eq_ok.1 e
  rw [needS_ok e1] at e2
  obtain ⟨g2, e3, e4⟩ := Outcome.bind_eq_ok.1 e2
  injection e4 with e4
  obtain ⟨g3, e5, e6⟩ := Outcome.bind_eq_ok.1 (noThrow_ok e3)
  have r3 : EdgeInv d g3 := loop_rinv hr (fun _ _ _ a b => a.same (removeOndeath_same b).1) e5
  have r2 := notify_rinv r3 e6
  subst e4
  intro o t i
  simp only [Record.gone, Rec.note, Ev.apply, has_gone]
  have := r2 o t i
  refine ⟨fun h1 => this.1 h1.1, fun hd => ?_⟩
  rw [this.2 hd]
  constructor
  · exact fun h1 => h1.1
  · intro h1
    refine ⟨h1, ?_⟩
    rintro rfl
    exact hempty o i h1.1

theorem destroyObserver_rinv {d : Nat → Prop} {h h' : Net} {o : Nat} {ord : Ord} (hI : Inv h) (hr : EdgeInv d h)
    (e : destroyObserver ord o h = .ok h') : EdgeInv d h' := by
  obtain ⟨g, e1, e2⟩ := Outcome.bind_eq_ok.1 e
  rw [needO_ok e1] at e2
  obtain ⟨g2, e3, e4⟩ := Outcome.bind_eq_ok.1 e2
  obtain ⟨g3, e5, e6⟩ := Outcome.bind_eq_ok.1 e4
  injection e6 with e6; subst e6
  have h2 : Inv g2 ∧ EdgeInv d g2 := forEach_ok (fun _ g => Inv g ∧ EdgeInv d g) _ _ _ _ ⟨hI, hr⟩
    (fun i _ g g' a b => ⟨(react_step_inv a.1 (.removeDependency o i) b).1, removeDependency_rinv a.2 b⟩) (noThrow_ok e3)
  have h3 : Inv g3 ∧ EdgeInv d g3 := forEach_ok (fun _ g => Inv g ∧ EdgeInv d g) _ _ _ _ h2
    (fun s _ g g' a b => ⟨(react_step_inv a.1 (.destroySubject ord s) b).1, destroySubject_rinv a.1 a.2 b⟩) e5
  exact h3.2.same ⟨rfl, rfl, rfl⟩

theorem newSubject_rinv {h h' : Net} {s : Nat} (hI : Inv h) (hr : EdgeInv (fun _ => False) h)
    (e : newSubject s h = .ok h') : EdgeInv (fun _ => False) h' := by
  unfold newSubject at e
  split at e
  · simp at e
  · rename_i hs
    injection e with e; subst e
    refine hr.same ⟨?_, rfl, rfl⟩
    funext t
    by_cases ht : t = s
    · subst ht
      show upd h.aud t [] t = h.aud t
      rw [upd_same]
      symm; rw [List.eq_nil_iff_forall_not_mem]
      intro p hp
      exact hs (hI.depAlive p.1 p.2 t ((hI.mirror _ _ _).2 hp)).1
    · exact upd_ne _ _ ht

theorem setRec_rinv {h : Net} {o : Nat} (r : Bool) (hr : EdgeInv (fun _ => False) h) :
    EdgeInv (fun x => x = o) { h with recb := upd h.recb o r } := by
  intro x t i
  have := hr x t i
  refine ⟨this.1, fun hx => ?_⟩
  rw [this.2 id]
  show _ ↔ _ ∧ upd h.recb o r x = true
  rw [upd_ne _ _ hx]

theorem clean_rinv {h : Net} {o : Nat} (hr : EdgeInv (fun x => x = o) h) (he : ∀ t i, (o, i) ∉ h.aud t) :
    EdgeInv (fun _ => False) h := by
  intro x t i
  have := hr x t i
  refine ⟨this.1, fun _ => ?_⟩
  by_cases hx : x = o
  · subst hx
    exact ⟨fun h1 => absurd (this.1 h1) (he t i), fun h1 => absurd h1.1 (he t i)⟩
  · exact this.2 hx

theorem newObserver_rinv {h h' : Net} {o : Nat} {ds : List (Option Nat)} {r : Bool} (hI : Inv h)
    (hr : EdgeInv (fun _ => False) h) (e : newObserver o ds r h = .ok h') : EdgeInv (fun _ => False) h' := by
  unfold newObserver at e
  split at e
  · simp at e
  · rename_i ho
    refine loop_rinv ?_ (fun _ _ _ a b => addDependency_rinv a b) e
    have h1 : EdgeInv (fun _ => False) { h with recb := upd h.recb o r } :=
      clean_rinv (o := o) (setRec_rinv r hr) (fun t i hm => ho (hI.depAlive o i t ((hI.mirror _ _ _).2 hm)).2)
    exact h1.same ⟨rfl, rfl, rfl⟩

theorem steal_rinv {d : Nat → Prop} {h h' : Net} {s t : Nat} {ord : Ord} (hr : EdgeInv d h) (e : steal ord s t h = .ok h') :
    EdgeInv d h' := by
  obtain ⟨g, e1, e2⟩ := Outcome.bind_eq_ok.1 e
  rw [needS_ok e1] at e2
  exact loop_rinv hr (fun _ _ _ a b => replaceDependency_rinv a b) e2

theorem moveSubject_rinv {d : Nat → Prop} {h h' : Net} {s t : Nat} {ord : Ord} (hI : Inv h) (hr : EdgeInv d h)
    (e : moveSubject ord s t h = .ok h') : EdgeInv d h' := by
  by_cases hne : s = t
  · simp [moveSubject, hne] at e; exact e ▸ hr
  · rw [moveSubject, if_neg hne] at e
    obtain ⟨g, e1, e2⟩ := Outcome.bind_eq_ok.1 e
    have hg := needS_ok e1
    rw [hg] at e2
    obtain ⟨g2, e3, e4⟩ := Outcome.bind_eq_ok.1 e2
    have hs : h.sAlive s = true := by by_contra hc; simp [needS, hc] at e1
    have ht : h.sAlive t = true := by by_contra hc; simp [steal, needS, hc] at e3
    obtain ⟨g3, e5, I3, _, _, dd, _⟩ := steal_spec ord hI hs ht
    have : g3 = g2 := by rw [e5] at e3; injection e3
    subst this
    injection e4 with e4; subst e4
    refine (steal_rinv hr e3).same ⟨?_, rfl, rfl⟩
    funext x
    by_cases hx : x = t
    · subst hx
      show upd g3.aud x [] x = g3.aud x
      rw [upd_same]
      symm; rw [List.eq_nil_iff_forall_not_mem]
      intro p hp
      rw [← I3.mirror p.1 p.2, dd] at hp
      rcases hp with hp | hp
      · exact hne hp.1.symm
      · exact hp.1 rfl
    · exact upd_ne _ _ hx

theorem detachAll_rinv {h h' : Net} {o : Nat} {r : Bool} (hI : Inv h) (hr : EdgeInv (fun _ => False) h)
    (e : detachAll o { h with recb := upd h.recb o r } = .ok h') : EdgeInv (fun _ => False) h' := by
  obtain ⟨aud, bk, e', _, m⟩ := detachAll_spec (o := o) (hI.setRec (upd h.recb o r))
  have hd : EdgeInv (fun x => x = o) h' := by
    refine loop_rinv (setRec_rinv r hr) ?_ e
    intro i g g' a b
    split at b
    · exact detach_rinv a b
    · injection b with b; exact b ▸ a
  refine clean_rinv hd ?_
  rw [e'] at e; injection e with e; subst e
  intro t i hm
  exact ((m o i t).1 hm).2 rfl

theorem copyObserver_rinv {h h' : Net} {o p : Nat} (hI : Inv h) (hr : EdgeInv (fun _ => False) h)
    (e : copyObserver o p h = .ok h') : EdgeInv (fun _ => False) h' := by
  obtain ⟨g, e1, e2⟩ := Outcome.bind_eq_ok.1 e
  rw [needO_ok e1] at e2
  obtain ⟨g2, e3, e4⟩ := Outcome.bind_eq_ok.1 e2
  rw [needO_ok e3] at e4
  split at e4
  · injection e4 with e4; exact e4 ▸ hr
  · obtain ⟨g3, e5, e6⟩ := Outcome.bind_eq_ok.1 e4
    refine loop_rinv ?_ (fun _ _ _ a b => addDependency_rinv a b) e6
    exact (detachAll_rinv hI hr e5).same ⟨rfl, rfl, rfl⟩

theorem moveObserver_rinv {h h' : Net} {o p : Nat} (hI : Inv h) (hr : EdgeInv (fun _ => False) h)
    (e : moveObserver o p h = .ok h') : EdgeInv (fun _ => False) h' := by
  obtain ⟨g, e1, e2⟩ := Outcome.bind_eq_ok.1 e
  rw [needO_ok e1] at e2
  obtain ⟨g2, e3, e4⟩ := Outcome.bind_eq_ok.1 e2
  rw [needO_ok e3] at e4
  split at e4
  · injection e4 with e4; exact e4 ▸ hr
  · obtain ⟨g3, e5, e6⟩ := Outcome.bind_eq_ok.1 e4
    refine loop_rinv ?_ ?_ e6
    · exact (detachAll_rinv hI hr e5).same ⟨rfl, rfl, rfl⟩
    intro i g g' a b
    unfold moveSlot at b
    split at b
    · obtain ⟨g5, e7, e8⟩ := Outcome.bind_eq_ok.1 b
      exact detach_rinv (attach_rinv a e7) e8
    · injection b with b; exact b ▸ a

theorem step_rinv {h h' : Net} (hI : Inv h) (hr : EdgeInv (fun _ => False) h) (op : Op) (e : step op h = .ok h') :
    EdgeInv (fun _ => False) h' := by
  cases op with
  | newSubject s => exact newSubject_rinv hI hr e
  | newObserver o ds r => exact newObserver_rinv hI hr e
  | addDependency o d => exact addDependency_rinv hr e
  | removeDependency o i => exact removeDependency_rinv hr e
  | replaceDependency o d i => exact replaceDependency_rinv hr e
  | steal ord s t => exact steal_rinv hr e
  | moveSubject ord s t => exact moveSubject_rinv hI hr e
  | copyObserver o p => exact copyObserver_rinv hI hr e
  | moveObserver o p => exact moveObserver_rinv hI hr e
  | addOndeath o s => exact hr.same (addOndeath_same e)
  | attachKiller s o => exact hr.same (attachKiller_same e)
  | removeOndeath o s => exact hr.same (removeOndeath_same e).1
  | detachKiller s o => exact hr.same (detachKiller_same e)
  | destroySubject ord s => exact destroySubject_rinv hI hr e
  | destroyObserver ord o => exact destroyObserver_rinv hI hr e

theorem run_rinv (ops : List Op) : ∀ (h h' : Net), Inv h → EdgeInv (fun _ => False) h → run ops h = .ok h' →
    EdgeInv (fun _ => False) h' := by
  induction ops with
  | nil => intro h h' _ hr e; simp [run] at e; exact e ▸ hr
  | cons op ops ih =>
    intro h h' hI hr e
    rw [run] at e
    cases hs : step op h with
    | ok g => rw [hs] at e; exact ih g h' (react_step_inv hI op hs).1 (step_rinv hI hr op hs) e
    | throw x => rw [hs] at e; exact ih h h' hI hr e
    | abort => rw [hs] at e; simp at e
    | ub => rw [hs] at e; simp at e

/-- After any history of the observer network (constructions, destructions, copies, moves, added, removed and replaced
dependencies) the record contains exactly the edges of the network whose observer is recordable. -/
theorem c45_live_edges (ops : List Op) (h : Net) (hr : run ops Net.empty = .ok h) (o s i : Nat) :
    Has h.book.tbl o s i ↔ (h.deps o)[i]? = some (some s) ∧ h.recb o = true := by
  have := run_rinv ops Net.empty h Inv.empty (by intro o s i; simp [Has, Net.empty]) hr o s i
  rw [this.2 id, ← (reachable_inv hr).mirror]; rfl

/-- A history with a recordable and an unrecordable observer, a copy and a destruction. -/
example : ∃ h, run [.newSubject 0, .newSubject 1, .newObserver 7 [some 0, some 1] true, .newObserver 8 [some 0] false,
    .newObserver 9 [] true, .copyObserver 9 7, .removeDependency 7 0, .destroySubject ⟨id, id, fun _ => .refl _, fun _ => .refl _⟩ 1] Net.empty = .ok h ∧
    h.book.tbl 0 = some [(9, 0)] ∧ h.book.tbl 1 = none ∧ h.aud 0 = [(9, 0), (8, 0)] := ⟨_, rfl, rfl, rfl, rfl⟩

/-! ### C57: CSV export -/

/-- Numbers are handed out consecutively and no two nodes share one. -/
structure NumInv (m : Numbering) : Prop where
  lt : ∀ x k, m.num x = some k → k < m.next
  inj : ∀ x y k, m.num x = some k → m.num y = some k → x = y
  onto : ∀ k, k < m.next → ∃ x, m.num x = some k

theorem use_new {m : Numbering} {n : Nat} (h : NumInv m) (hn : m.num n = none) : NumInv (m.use n none).1 := by
  constructor
  · intro x k hk
    simp only [Numbering.use] at hk ⊢
    split at hk
    · injection hk with hk; omega
    · have := h.lt x k hk; omega
  · intro x y k hx hy
    simp only [Numbering.use] at hx hy
    split at hx <;> split at hy
    · rename_i a b; rw [a, b]
    · injection hx with hx; have := h.lt y k hy; omega
    · injection hy with hy; have := h.lt x k hx; omega
    · exact h.inj x y k hx hy
  · intro k hk
    simp only [Numbering.use] at hk ⊢
    by_cases hk' : k = m.next
    · exact ⟨n, by simp [hk']⟩
    · obtain ⟨x, hx⟩ := h.onto k (by omega)
      refine ⟨x, ?_⟩
      rw [if_neg]
      · exact hx
      · rintro rfl; rw [hn] at hx; simp at hx

theorem use_spec {m : Numbering} {n : Nat} {it : Option Nat} (h : NumInv m) (hit : it = m.num n) :
    NumInv (m.use n it).1 ∧ (m.use n it).1.num n = some (m.use n it).2 ∧
      (∀ x k, m.num x = some k → (m.use n it).1.num x = some k) ∧
      ∀ x, (m.use n it).1.num x ≠ none → m.num x ≠ none ∨ x = n := by
  subst hit
  cases hn : m.num n with
  | some k => exact ⟨h, hn, fun _ _ h => h, fun x hx => Or.inl hx⟩
  | none =>
    refine ⟨use_new h hn, by simp [Numbering.use], ?_, ?_⟩
    · intro x k hx
      simp only [Numbering.use]
      rw [if_neg]
      · exact hx
      · rintro rfl; rw [hn] at hx; simp at hx
    · intro x hx
      simp only [Numbering.use] at hx
      split at hx
      · rename_i a; exact Or.inr a
      · exact Or.inl hx

theorem rows_spec (es : List (Nat × Nat × Nat)) : ∀ (m : Numbering), NumInv m → (∀ e ∈ es, e.1 ≠ e.2.1) →
    NumInv (m.rows es).1 ∧ (∀ x k, m.num x = some k → (m.rows es).1.num x = some k) ∧
    (∀ x, (m.rows es).1.num x ≠ none → m.num x ≠ none ∨ ∃ e ∈ es, x = e.1 ∨ x = e.2.1) ∧
    (m.rows es).2 = es.map (fun e => (((m.rows es).1.num e.1).getD 0, ((m.rows es).1.num e.2.1).getD 0, e.2.2)) ∧
    ∀ e ∈ es, (m.rows es).1.num e.1 ≠ none ∧ (m.rows es).1.num e.2.1 ≠ none := by
  induction es with
  | nil => intro m h _; exact ⟨h, fun _ _ h => h, fun x hx => Or.inl hx, rfl, by simp⟩
  | cons e es ih =>
    obtain ⟨o, s, i⟩ := e
    intro m h hne
    have hos : o ≠ s := hne (o, s, i) (by simp)
    obtain ⟨a1, a2, a3, a4⟩ := use_spec (n := o) h rfl
    have hs : m.num s = (m.use o (m.num o)).1.num s := by
      cases hq : m.num s with
      | some k => exact (a3 s k hq).symm
      | none =>
        by_contra hc
        rcases a4 s (fun h => hc h.symm) with h1 | h1
        · exact h1 hq
        · exact hos h1.symm
    obtain ⟨b1, b2, b3, b4⟩ := use_spec (n := s) a1 hs
    obtain ⟨c1, c2, c3, c4, c5⟩ := ih _ b1 (fun e he => hne e (by simp [he]))
    have ho' : ((m.use o (m.num o)).1.use s (m.num s)).1.num o = some (m.use o (m.num o)).2 := b3 _ _ a2
    refine ⟨c1, fun x k hx => c2 _ _ (b3 _ _ (a3 _ _ hx)), ?_, ?_, ?_⟩
    · intro x hx
      rcases c3 x hx with h1 | ⟨e, he, h1⟩
      · rcases b4 x h1 with h2 | h2
        · rcases a4 x h2 with h3 | h3
          · exact Or.inl h3
          · exact Or.inr ⟨(o, s, i), by simp, Or.inl h3⟩
        · exact Or.inr ⟨(o, s, i), by simp, Or.inr h2⟩
      · exact Or.inr ⟨e, by simp [he], h1⟩
    · simp only [Numbering.rows, List.map_cons]
      rw [c2 _ _ ho', c2 _ _ b2, c4]
      rfl
    · intro e he
      rcases List.mem_cons.1 he with rfl | he
      · exact ⟨by rw [show (m.rows ((o, s, i) :: es)).1 = _ from rfl]; simp only [Numbering.rows]; rw [c2 _ _ ho']; simp,
          by simp only [Numbering.rows]; rw [c2 _ _ b2]; simp⟩
      · exact c5 e he

/-- The exported rows are the recorded edges, in iteration order, with every node replaced by a number: the same number
for the same node, different numbers for different nodes, and the numbers used are 0, 1, ..., n-1. -/
theorem c57_numbering (es : List (Nat × Nat × Nat)) (hne : ∀ e ∈ es, e.1 ≠ e.2.1) : ∃ (num : Nat → Nat) (n : Nat),
    toCsv es = es.map (fun e => (num e.1, num e.2.1, e.2.2)) ∧
    (∀ e ∈ es, ∀ f ∈ es, ∀ x y, (x = e.1 ∨ x = e.2.1) → (y = f.1 ∨ y = f.2.1) → num x = num y → x = y) ∧
    ∀ k, k < n ↔ ∃ e ∈ es, num e.1 = k ∨ num e.2.1 = k := by
  have h0 : NumInv ⟨fun _ => none, 0⟩ := ⟨by simp, by simp, by simp⟩
  obtain ⟨h1, _, h3, h4, h5⟩ := rows_spec es _ h0 hne
  generalize hm : (Numbering.rows ⟨fun _ => none, 0⟩ es).1 = m at *
  have hdef : ∀ e ∈ es, ∀ x, (x = e.1 ∨ x = e.2.1) → m.num x = some ((m.num x).getD 0) := by
    intro e he x hx
    have := h5 e he
    have hx' : m.num x ≠ none := by rcases hx with rfl | rfl; exacts [this.1, this.2]
    cases hq : m.num x with
    | none => exact absurd hq hx'
    | some k => rfl
  refine ⟨fun x => (m.num x).getD 0, m.next, h4, ?_, ?_⟩
  · intro e he f hf x y hx hy hxy
    have e1 := hdef e he x hx
    have e2 := hdef f hf y hy
    simp only at hxy
    rw [← hxy] at e2
    exact h1.inj x y _ e1 e2
  · intro k
    constructor
    · intro hk
      obtain ⟨x, hx⟩ := h1.onto k hk
      rcases h3 x (by rw [hx]; simp) with h | ⟨e, he, h⟩
      · simp at h
      · refine ⟨e, he, ?_⟩
        rcases h with rfl | rfl
        · left; simp [hx]
        · right; simp [hx]
    · rintro ⟨e, he, h | h⟩
      · exact h1.lt e.1 k (by rw [hdef e he e.1 (Or.inl rfl)]; simp only at h; rw [h])
      · exact h1.lt e.2.1 k (by rw [hdef e he e.2.1 (Or.inr rfl)]; simp only at h; rw [h])

/-- The hypothesis is needed: an edge from a node to itself would give the node two numbers. -/
theorem c57_self_loop : toCsv [(4, 4, 0), (4, 5, 1)] = [(0, 1, 0), (1, 2, 1)] := rfl

example : toCsv [(7, 1, 0), (7, 2, 1), (8, 7, 0)] = [(0, 1, 0), (0, 2, 1), (3, 0, 0)] := rfl

end Verif.Props
