import Verif.Props.Record
/-!
# What the recorder was told determines the edges
-/
namespace Verif.Props
open Verif.Spec Verif.Record Verif.React

/-- The last thing the recorder was told about the edge is that it is there. -/
def Logged (l : List Ev) (o s i : Nat) : Prop := ∃ pre post r, l = pre ++ Ev.capture r o s i :: post ∧ Ev.release o s i ∉ post

theorem logged_snoc {l : List Ev} {e : Ev} {o s i : Nat} :
    Logged (l ++ [e]) o s i ↔ (∃ r, e = .capture r o s i) ∨ (Logged l o s i ∧ e ≠ .release o s i) := by
  constructor
  · rintro ⟨pre, post, r, h, hp⟩
    rcases List.eq_nil_or_concat post with rfl | ⟨q, x, rfl⟩
    · have := List.append_inj' h rfl
      simp at this
      exact .inl ⟨r, this.2⟩
    · rw [List.concat_eq_append, ← List.cons_append, ← List.append_assoc] at h
      have := List.append_inj' h rfl
      simp only [List.cons.injEq, and_true] at this
      obtain ⟨rfl, rfl⟩ := this
      simp only [List.concat_eq_append, List.mem_append, List.mem_singleton, not_or] at hp
      exact .inr ⟨⟨pre, q, r, rfl, hp.1⟩, fun he => hp.2 he.symm⟩
  · rintro (⟨r, rfl⟩ | ⟨⟨pre, post, r, rfl, hp⟩, hd⟩)
    · exact ⟨l, [], r, rfl, by simp⟩
    · refine ⟨pre, post ++ [e], r, by simp, ?_⟩
      simp only [List.mem_append, List.mem_singleton, not_or]
      exact ⟨hp, fun he => hd he.symm⟩

def LogInv (h : Net) : Prop := ∀ o s i, Logged h.book.log o s i ↔ (o, i) ∈ h.aud s

theorem LogInv.same {h h' : Net} (hr : LogInv h) (hs : Same3 h h') : LogInv h' := by
  obtain ⟨h1, h2, h3⟩ := hs
  unfold LogInv; rw [h1, h2]; exact hr

theorem setRec_linv {h : Net} {o : Nat} (r : Bool) (hr : LogInv h) : LogInv { h with recb := upd h.recb o r } := hr

theorem attach_linv {h h' : Net} {s o i : Nat} (hr : LogInv h) (e : attach s o i h = .ok h') : LogInv h' := by
  obtain ⟨g, e1, e2⟩ := Outcome.bind_eq_ok.1 e
  rw [needS_ok e1] at e2; injection e2 with e2; subst e2
  intro x t j
  simp only [Record.capture, Rec.note, logged_snoc, mem_attach, hr x t j]
  constructor
  · rintro (⟨r, h1⟩ | ⟨h1, _⟩)
    · injection h1 with _ h1 h2 h3; exact .inr ⟨h2.symm, h1.symm, h3.symm⟩
    · exact .inl h1
  · rintro (h1 | ⟨rfl, rfl, rfl⟩)
    · exact .inr ⟨h1, by simp⟩
    · exact .inl ⟨_, rfl⟩

theorem detach_linv {h h' : Net} {s o i : Nat} (hr : LogInv h) (e : detach s o i h = .ok h') : LogInv h' := by
  obtain ⟨g, e1, e2⟩ := Outcome.bind_eq_ok.1 e
  rw [needS_ok e1] at e2; injection e2 with e2; subst e2
  intro x t j
  simp only [Record.release, Rec.note, logged_snoc, mem_detach, hr x t j]
  constructor
  · rintro (⟨r, h1⟩ | ⟨h1, h2⟩)
    · cases h1
    · exact ⟨h1, fun ⟨a, b, c⟩ => h2 (by rw [a, b, c])⟩
  · rintro ⟨h1, h2⟩
    exact .inr ⟨h1, fun h3 => h2 (by injection h3 with a b c; exact ⟨b.symm, a.symm, c.symm⟩)⟩

theorem attachOpt_linv {h h' : Net} {s : Option Nat} {o i : Nat} (hr : LogInv h)
    (e : attachOpt s o i h = .ok h') : LogInv h' := by
  cases s with
  | none => simp only [attachOpt] at e; injection e with e; exact e ▸ hr
  | some s => exact attach_linv hr e

theorem addDependency_linv {h h' : Net} {s : Option Nat} {o : Nat} (hr : LogInv h)
    (e : addDependency o s h = .ok h') : LogInv h' := by
  obtain ⟨g, e1, e2⟩ := Outcome.bind_eq_ok.1 e
  rw [needO_ok e1] at e2
  obtain ⟨g2, e3, e4⟩ := Outcome.bind_eq_ok.1 e2
  injection e4 with e4; subst e4
  exact (attachOpt_linv hr e3).same ⟨rfl, rfl, rfl⟩

theorem removeDependency_linv {h h' : Net} {o i : Nat} (hr : LogInv h)
    (e : removeDependency o i h = .ok h') : LogInv h' := by
  obtain ⟨g, e1, e2⟩ := Outcome.bind_eq_ok.1 e
  rw [needO_ok e1] at e2
  cases hg : (h.deps o)[i]? with
  | none => rw [hg] at e2; simp at e2
  | some v =>
    cases v with
    | none => rw [hg] at e2; injection e2 with e2; exact e2 ▸ hr
    | some s =>
      rw [hg] at e2
      obtain ⟨g2, e3, e4⟩ := Outcome.bind_eq_ok.1 e2
      injection e4 with e4; subst e4
      exact (detach_linv hr e3).same ⟨rfl, rfl, rfl⟩

theorem detachLast_linv {h h' : Net} {s : Option Nat} {o i : Nat} (hr : LogInv h)
    (e : detachLast o i s h = .ok h') : LogInv h' := by
  unfold detachLast at e
  split at e
  · split at e
    · exact detach_linv hr e
    · injection e with e; exact e ▸ hr
  · injection e with e; exact e ▸ hr

theorem replaceDependency_linv {h h' : Net} {s : Option Nat} {o i : Nat} (hr : LogInv h)
    (e : replaceDependency o s i h = .ok h') : LogInv h' := by
  obtain ⟨g, e1, e2⟩ := Outcome.bind_eq_ok.1 e
  rw [needO_ok e1] at e2
  obtain ⟨g2, e3, e4⟩ := Outcome.bind_eq_ok.1 e2
  obtain ⟨g3, e5, e6⟩ := Outcome.bind_eq_ok.1 e4
  injection e6 with e6; subst e6
  exact (detachLast_linv (attachOpt_linv hr e3) e5).same ⟨rfl, rfl, rfl⟩

theorem loop_linv {α : Type} {body : α → Net → Outcome Net} {l : List α} {h h' : Net} (hr : LogInv h)
    (hb : ∀ x g g', LogInv g → body x g = .ok g' → LogInv g') (e : forEach body l h = .ok h') : LogInv h' :=
  forEach_ok (fun _ g => LogInv g) body l h h' hr (fun x _ g g' h1 h2 => hb x g g' h1 h2) e

theorem notify_linv {h h' : Net} {s : Nat} {ord : Ord} (hr : LogInv h)
    (e : notify id ord s (updateUnsubscribe ord) h = .ok h') : LogInv h' := by
  refine loop_linv hr ?_ e
  intro v g g' h1 h2
  unfold notifyOne at h2
  split at h2
  · obtain ⟨g2, e3, e4⟩ := Outcome.bind_eq_ok.1 h2
    injection e4 with e4; subst e4
    exact (loop_linv h1 (fun _ _ _ a b => removeDependency_linv a b) e3).same ⟨rfl, rfl, rfl⟩
  · injection h2 with h2; exact h2 ▸ h1

theorem destroySubject_linv {h h' : Net} {s : Nat} {ord : Ord} (hr : LogInv h)
    (e : destroySubject ord s h = .ok h') : LogInv h' := by
  obtain ⟨g, e1, e2⟩ := Outcome.bind_eq_ok.1 e
  rw [needS_ok e1] at e2
  obtain ⟨g2, e3, e4⟩ := Outcome.bind_eq_ok.1 e2
  injection e4 with e4
  obtain ⟨g3, e5, e6⟩ := Outcome.bind_eq_ok.1 (noThrow_ok e3)
  have r3 : LogInv g3 := loop_linv hr (fun _ _ _ a b => a.same (removeOndeath_same b).1) e5
  have r2 := notify_linv r3 e6
  subst e4
  intro o t i
  simp only [Record.gone, Rec.note, logged_snoc, ← r2 o t i]
  simp

theorem destroyObserver_linv {h h' : Net} {o : Nat} {ord : Ord} (hI : Inv h) (hr : LogInv h)
    (e : destroyObserver ord o h = .ok h') : LogInv h' := by
  obtain ⟨g, e1, e2⟩ := Outcome.bind_eq_ok.1 e
  rw [needO_ok e1] at e2
  obtain ⟨g2, e3, e4⟩ := Outcome.bind_eq_ok.1 e2
  obtain ⟨g3, e5, e6⟩ := Outcome.bind_eq_ok.1 e4
  injection e6 with e6; subst e6
  have h2 : Inv g2 ∧ LogInv g2 := forEach_ok (fun _ g => Inv g ∧ LogInv g) _ _ _ _ ⟨hI, hr⟩
    (fun i _ g g' a b => ⟨(react_step_inv a.1 (.removeDependency o i) b).1, removeDependency_linv a.2 b⟩) (noThrow_ok e3)
  have h3 : Inv g3 ∧ LogInv g3 := forEach_ok (fun _ g => Inv g ∧ LogInv g) _ _ _ _ h2
    (fun s _ g g' a b => ⟨(react_step_inv a.1 (.destroySubject ord s) b).1, destroySubject_linv a.2 b⟩) e5
  exact h3.2.same ⟨rfl, rfl, rfl⟩

theorem newSubject_linv {h h' : Net} {s : Nat} (hI : Inv h) (hr : LogInv h)
    (e : newSubject s h = .ok h') : LogInv h' := by
  unfold newSubject at e
  split at e
  · simp at e
  · rename_i hs
    injection e with e; subst e
    refine hr.same ⟨?_, rfl, rfl⟩
    funext t
    by_cases ht : t = s
    · subst ht
      show upd h.aud t [] t = h.aud t
      rw [upd_same]
      symm; rw [List.eq_nil_iff_forall_not_mem]
      intro p hp
      exact hs (hI.depAlive p.1 p.2 t ((hI.mirror _ _ _).2 hp)).1
    · exact upd_ne _ _ ht

theorem newObserver_linv {h h' : Net} {o : Nat} {ds : List (Option Nat)} {r : Bool} (hI : Inv h)
    (hr : LogInv h) (e : newObserver o ds r h = .ok h') : LogInv h' := by
  unfold newObserver at e
  split at e
  · simp at e
  · rename_i ho
    refine loop_linv ?_ (fun _ _ _ a b => addDependency_linv a b) e
    have h1 : LogInv { h with recb := upd h.recb o r } :=
      setRec_linv r hr
    exact h1.same ⟨rfl, rfl, rfl⟩

theorem steal_linv {h h' : Net} {s t : Nat} {ord : Ord} (hr : LogInv h) (e : steal ord s t h = .ok h') :
    LogInv h' := by
  obtain ⟨g, e1, e2⟩ := Outcome.bind_eq_ok.1 e
  rw [needS_ok e1] at e2
  exact loop_linv hr (fun _ _ _ a b => replaceDependency_linv a b) e2

theorem moveSubject_linv {h h' : Net} {s t : Nat} {ord : Ord} (hI : Inv h) (hr : LogInv h)
    (e : moveSubject ord s t h = .ok h') : LogInv h' := by
  by_cases hne : s = t
  · simp [moveSubject, hne] at e; exact e ▸ hr
  · rw [moveSubject, if_neg hne] at e
    obtain ⟨g, e1, e2⟩ := Outcome.bind_eq_ok.1 e
    have hg := needS_ok e1
    rw [hg] at e2
    obtain ⟨g2, e3, e4⟩ := Outcome.bind_eq_ok.1 e2
    have hs : h.sAlive s = true := by by_contra hc; simp [needS, hc] at e1
    have ht : h.sAlive t = true := by by_contra hc; simp [steal, needS, hc] at e3
    obtain ⟨g3, e5, I3, _, _, dd, _⟩ := steal_spec ord hI hs ht
    have : g3 = g2 := by rw [e5] at e3; injection e3
    subst this
    injection e4 with e4; subst e4
    refine (steal_linv hr e3).same ⟨?_, rfl, rfl⟩
    funext x
    by_cases hx : x = t
    · subst hx
      show upd g3.aud x [] x = g3.aud x
      rw [upd_same]
      symm; rw [List.eq_nil_iff_forall_not_mem]
      intro p hp
      rw [← I3.mirror p.1 p.2, dd] at hp
      rcases hp with hp | hp
      · exact hne hp.1.symm
      · exact hp.1 rfl
    · exact upd_ne _ _ hx

theorem detachAll_linv {h h' : Net} {o : Nat} {r : Bool} (hI : Inv h) (hr : LogInv h)
    (e : detachAll o { h with recb := upd h.recb o r } = .ok h') : LogInv h' := by
  refine loop_linv (setRec_linv r hr) ?_ e
  intro i g g' a b
  split at b
  · exact detach_linv a b
  · injection b with b; exact b ▸ a

theorem copyObserver_linv {h h' : Net} {o p : Nat} (hI : Inv h) (hr : LogInv h)
    (e : copyObserver o p h = .ok h') : LogInv h' := by
  obtain ⟨g, e1, e2⟩ := Outcome.bind_eq_ok.1 e
  rw [needO_ok e1] at e2
  obtain ⟨g2, e3, e4⟩ := Outcome.bind_eq_ok.1 e2
  rw [needO_ok e3] at e4
  split at e4
  · injection e4 with e4; exact e4 ▸ hr
  · obtain ⟨g3, e5, e6⟩ := Outcome.bind_eq_ok.1 e4
    refine loop_linv ?_ (fun _ _ _ a b => addDependency_linv a b) e6
    exact (detachAll_linv hI hr e5).same ⟨rfl, rfl, rfl⟩

theorem moveObserver_linv {h h' : Net} {o p : Nat} (hI : Inv h) (hr : LogInv h)
    (e : moveObserver o p h = .ok h') : LogInv h' := by
  obtain ⟨g, e1, e2⟩ := Outcome.bind_eq_ok.1 e
  rw [needO_ok e1] at e2
  obtain ⟨g2, e3, e4⟩ := Outcome.bind_eq_ok.1 e2
  rw [needO_ok e3] at e4
  split at e4
  · injection e4 with e4; exact e4 ▸ hr
  · obtain ⟨g3, e5, e6⟩ := Outcome.bind_eq_ok.1 e4
    refine loop_linv ?_ ?_ e6
    · exact (detachAll_linv hI hr e5).same ⟨rfl, rfl, rfl⟩
    intro i g g' a b
    unfold moveSlot at b
    split at b
    · obtain ⟨g5, e7, e8⟩ := Outcome.bind_eq_ok.1 b
      exact detach_linv (attach_linv a e7) e8
    · injection b with b; exact b ▸ a

theorem step_linv {h h' : Net} (hI : Inv h) (hr : LogInv h) (op : Op) (e : step op h = .ok h') :
    LogInv h' := by
  cases op with
  | newSubject s => exact newSubject_linv hI hr e
  | newObserver o ds r => exact newObserver_linv hI hr e
  | addDependency o d => exact addDependency_linv hr e
  | removeDependency o i => exact removeDependency_linv hr e
  | replaceDependency o d i => exact replaceDependency_linv hr e
  | steal ord s t => exact steal_linv hr e
  | moveSubject ord s t => exact moveSubject_linv hI hr e
  | copyObserver o p => exact copyObserver_linv hI hr e
  | moveObserver o p => exact moveObserver_linv hI hr e
  | addOndeath o s => exact hr.same (addOndeath_same e)
  | attachKiller s o => exact hr.same (attachKiller_same e)
  | removeOndeath o s => exact hr.same (removeOndeath_same e).1
  | detachKiller s o => exact hr.same (detachKiller_same e)
  | destroySubject ord s => exact destroySubject_linv hr e
  | destroyObserver ord o => exact destroyObserver_linv hI hr e

theorem run_linv (ops : List Op) : ∀ (h h' : Net), Inv h → LogInv h → run ops h = .ok h' →
    LogInv h' := by
  induction ops with
  | nil => intro h h' _ hr e; simp [run] at e; exact e ▸ hr
  | cons op ops ih =>
    intro h h' hI hr e
    rw [run] at e
    cases hs : step op h with
    | ok g => rw [hs] at e; exact ih g h' (react_step_inv hI op hs).1 (step_linv hI hr op hs) e
    | throw x => rw [hs] at e; exact ih h h' hI hr e
    | abort => rw [hs] at e; simp at e
    | ub => rw [hs] at e; simp at e


/-! ### Removed subjects -/

/-- Nothing new is alive, and the recorder is told of exactly what is no longer alive. -/
def Fades (h h' : Net) : Prop :=
  (∀ s, h'.sAlive s = true → h.sAlive s = true) ∧
  ∃ new, h'.book.log = h.book.log ++ new ∧ ∀ s, Ev.gone s ∈ new ↔ (h.sAlive s = true ∧ h'.sAlive s = false)

theorem Fades.of {h h' : Net} (h1 : h'.sAlive = h.sAlive) (new : List Ev) (h2 : h'.book.log = h.book.log ++ new) (h3 : ∀ s, Ev.gone s ∉ new) :
    Fades h h' := by
  refine ⟨fun s hs => by rwa [h1] at hs, new, h2, fun s => ⟨fun h => absurd h (h3 s), fun h => ?_⟩⟩
  rw [h1, h.1] at h; cases h.2

theorem Fades.refl (h : Net) : Fades h h := .of rfl [] (by simp) (by simp)

theorem Fades.trans {h h' h'' : Net} (a : Fades h h') (b : Fades h' h'') : Fades h h'' := by
  obtain ⟨a1, n1, a2, a3⟩ := a
  obtain ⟨b1, n2, b2, b3⟩ := b
  refine ⟨fun s hs => a1 s (b1 s hs), n1 ++ n2, by rw [b2, a2, List.append_assoc], fun s => ?_⟩
  rw [List.mem_append, a3, b3]
  have ha := a1 s; have hb := b1 s
  cases h1 : h.sAlive s <;> cases h2 : h'.sAlive s <;> cases h3 : h''.sAlive s <;> simp_all

theorem attach_fades {h h' : Net} {s o i : Nat} (e : attach s o i h = .ok h') : Fades h h' := by
  obtain ⟨g, e1, e2⟩ := Outcome.bind_eq_ok.1 e
  rw [needS_ok e1] at e2; injection e2 with e2; subst e2
  exact .of rfl [_] rfl (by simp)

theorem detach_fades {h h' : Net} {s o i : Nat} (e : detach s o i h = .ok h') : Fades h h' := by
  obtain ⟨g, e1, e2⟩ := Outcome.bind_eq_ok.1 e
  rw [needS_ok e1] at e2; injection e2 with e2; subst e2
  exact .of rfl [_] rfl (by simp)

theorem Fades.same {h g h' : Net} (a : Fades h g) (h1 : h'.sAlive = g.sAlive) (h2 : h'.book = g.book) : Fades h h' :=
  a.trans (.of h1 [] (by rw [h2]; simp) (by simp))

theorem Fades.book {h h' : Net} (h1 : h'.sAlive = h.sAlive) (h2 : h'.book = h.book) : Fades h h' := (Fades.refl h).same h1 h2

theorem attachOpt_fades {h h' : Net} {s : Option Nat} {o i : Nat} (e : attachOpt s o i h = .ok h') : Fades h h' := by
  cases s with
  | none => simp only [attachOpt] at e; injection e with e; exact e ▸ .refl _
  | some s => exact attach_fades e

theorem addDependency_fades {h h' : Net} {s : Option Nat} {o : Nat} (e : addDependency o s h = .ok h') : Fades h h' := by
  obtain ⟨g, e1, e2⟩ := Outcome.bind_eq_ok.1 e
  rw [needO_ok e1] at e2
  obtain ⟨g2, e3, e4⟩ := Outcome.bind_eq_ok.1 e2
  injection e4 with e4; subst e4
  exact (attachOpt_fades e3).same rfl rfl

theorem removeDependency_fades {h h' : Net} {o i : Nat} (e : removeDependency o i h = .ok h') : Fades h h' := by
  obtain ⟨g, e1, e2⟩ := Outcome.bind_eq_ok.1 e
  rw [needO_ok e1] at e2
  cases hg : (h.deps o)[i]? with
  | none => rw [hg] at e2; simp at e2
  | some v =>
    cases v with
    | none => rw [hg] at e2; injection e2 with e2; exact e2 ▸ .refl _
    | some s =>
      rw [hg] at e2
      obtain ⟨g2, e3, e4⟩ := Outcome.bind_eq_ok.1 e2
      injection e4 with e4; subst e4
      exact (detach_fades e3).same rfl rfl

theorem detachLast_fades {h h' : Net} {s : Option Nat} {o i : Nat} (e : detachLast o i s h = .ok h') : Fades h h' := by
  unfold detachLast at e
  split at e
  · split at e
    · exact detach_fades e
    · injection e with e; exact e ▸ .refl _
  · injection e with e; exact e ▸ .refl _

theorem replaceDependency_fades {h h' : Net} {s : Option Nat} {o i : Nat} (e : replaceDependency o s i h = .ok h') : Fades h h' := by
  obtain ⟨g, e1, e2⟩ := Outcome.bind_eq_ok.1 e
  rw [needO_ok e1] at e2
  obtain ⟨g2, e3, e4⟩ := Outcome.bind_eq_ok.1 e2
  obtain ⟨g3, e5, e6⟩ := Outcome.bind_eq_ok.1 e4
  injection e6 with e6; subst e6
  exact ((attachOpt_fades e3).trans (detachLast_fades e5)).same rfl rfl

theorem loop_fades {α : Type} {body : α → Net → Outcome Net} {l : List α} {h h' : Net}
    (hb : ∀ x g g', body x g = .ok g' → Fades g g') (e : forEach body l h = .ok h') : Fades h h' :=
  forEach_ok (fun _ g => Fades h g) body l h h' (.refl h) (fun x _ g g' h1 h2 => h1.trans (hb x g g' h2)) e

theorem notify_fades {h h' : Net} {s : Nat} {ord : Ord} (e : notify id ord s (updateUnsubscribe ord) h = .ok h') : Fades h h' := by
  refine loop_fades ?_ e
  intro v g g' h2
  unfold notifyOne at h2
  split at h2
  · obtain ⟨g2, e3, e4⟩ := Outcome.bind_eq_ok.1 h2
    injection e4 with e4; subst e4
    exact (loop_fades (fun _ _ _ b => removeDependency_fades b) e3).same rfl rfl
  · injection h2 with h2; exact h2 ▸ .refl _

theorem notify_alive {h h' : Net} {s : Nat} {ord : Ord} (e : notify id ord s (updateUnsubscribe ord) h = .ok h') : h'.sAlive = h.sAlive := by
  have rm : ∀ {o i : Nat} {g g' : Net}, removeDependency o i g = .ok g' → g'.sAlive = g.sAlive := by
    intro o i g g' e
    obtain ⟨k, e1, e2⟩ := Outcome.bind_eq_ok.1 e
    rw [needO_ok e1] at e2
    cases hg : (g.deps o)[i]? with
    | none => rw [hg] at e2; simp at e2
    | some v =>
      cases v with
      | none => rw [hg] at e2; injection e2 with e2; exact e2 ▸ rfl
      | some s =>
        rw [hg] at e2
        obtain ⟨g2, e3, e4⟩ := Outcome.bind_eq_ok.1 e2
        injection e4 with e4; subst e4
        obtain ⟨g, f1, f2⟩ := Outcome.bind_eq_ok.1 e3
        rw [needS_ok f1] at f2; injection f2 with f2; subst f2
        rfl
  refine forEach_ok (fun _ g => g.sAlive = h.sAlive) _ _ _ _ rfl (fun v _ g g' h1 h2 => ?_) e
  unfold notifyOne at h2
  split at h2
  · obtain ⟨g2, e3, e4⟩ := Outcome.bind_eq_ok.1 h2
    injection e4 with e4; subst e4
    exact forEach_ok (fun _ k => k.sAlive = h.sAlive) _ _ _ _ h1 (fun _ _ _ _ a b => (rm b).trans a) e3
  · injection h2 with h2; exact h2 ▸ h1

theorem destroySubject_fades {h h' : Net} {s : Nat} {ord : Ord} (e : destroySubject ord s h = .ok h') : Fades h h' := by
  have hs : h.sAlive s = true := by
    by_contra hc; simp [destroySubject, needS, hc] at e
  obtain ⟨g, e1, e2⟩ := Outcome.bind_eq_ok.1 e
  rw [needS_ok e1] at e2
  obtain ⟨g2, e3, e4⟩ := Outcome.bind_eq_ok.1 e2
  injection e4 with e4
  obtain ⟨g3, e5, e6⟩ := Outcome.bind_eq_ok.1 (noThrow_ok e3)
  have r3 : Fades h g3 := loop_fades (fun _ _ _ b => .book (removeOndeath_same b).2 (removeOndeath_same b).1.2.1) e5
  have a3 : g3.sAlive = h.sAlive := forEach_ok (fun _ g => g.sAlive = h.sAlive) _ _ _ _ rfl (fun _ _ _ _ a b => ((removeOndeath_same b).2).trans a) e5
  have r2 := r3.trans (notify_fades e6)
  have a2 := (notify_alive e6).trans a3
  refine r2.trans ?_
  subst e4
  refine ⟨fun t ht => ?_, [.gone s], rfl, fun t => ?_⟩
  · show g2.sAlive t = true
    by_cases c : t = s
    · subst c; simp [upd] at ht
    · simpa [upd, c] using ht
  · simp only [List.mem_singleton, Ev.gone.injEq]
    by_cases c : t = s
    · subst c; rw [a2]; simp [upd, hs]
    · simp [upd, c]

theorem destroyObserver_fades {h h' : Net} {o : Nat} {ord : Ord} (e : destroyObserver ord o h = .ok h') : Fades h h' := by
  obtain ⟨g, e1, e2⟩ := Outcome.bind_eq_ok.1 e
  rw [needO_ok e1] at e2
  obtain ⟨g2, e3, e4⟩ := Outcome.bind_eq_ok.1 e2
  obtain ⟨g3, e5, e6⟩ := Outcome.bind_eq_ok.1 e4
  injection e6 with e6; subst e6
  exact ((loop_fades (fun _ _ _ b => removeDependency_fades b) (noThrow_ok e3)).trans (loop_fades (fun _ _ _ b => destroySubject_fades b) e5)).same rfl rfl

theorem steal_fades {h h' : Net} {s t : Nat} {ord : Ord} (e : steal ord s t h = .ok h') : Fades h h' := by
  obtain ⟨g, e1, e2⟩ := Outcome.bind_eq_ok.1 e
  rw [needS_ok e1] at e2
  exact loop_fades (fun _ _ _ b => replaceDependency_fades b) e2

theorem detachAll_fades {h h' : Net} {o : Nat} (e : detachAll o h = .ok h') : Fades h h' := by
  refine loop_fades ?_ e
  intro i g g' b
  split at b
  · exact detach_fades b
  · injection b with b; exact b ▸ .refl _

theorem addOndeath_alive {h h' : Net} {o s : Nat} (e : addOndeath o s h = .ok h') : h'.sAlive = h.sAlive := by
  have := addOndeath.mutual_induct o s
    (motive1 := fun h => ∀ h', addOndeath o s h = .ok h' → h'.sAlive = h.sAlive)
    (motive2 := fun h => ∀ h', attachKiller s o h = .ok h' → h'.sAlive = h.sAlive)
    (fun h h1 h2 ih h' e => by rw [addOndeath, if_pos h1, dif_pos h2] at e; exact ih h' e)
    (fun h h1 h2 h' e => by rw [addOndeath, if_pos h1, dif_neg h2] at e; injection e with e; exact e ▸ rfl)
    (fun h h1 h' e => by rw [addOndeath, if_neg h1] at e; simp at e)
    (fun h h1 h2 ih h' e => by rw [attachKiller, if_pos h1, dif_pos h2] at e; exact ih h' e)
    (fun h h1 h2 h' e => by rw [attachKiller, if_pos h1, dif_neg h2] at e; injection e with e; exact e ▸ rfl)
    (fun h h1 h' e => by rw [attachKiller, if_neg h1] at e; simp at e)
  exact this.1 h h' e

/-- What a step does to the lifetimes of subjects and to the nodes the recorder was told are gone. -/
theorem step_gone {h h' : Net} (op : Op) (e : React.step op h = .ok h') :
    (∃ s, op = .newSubject s ∧ h.sAlive s = false ∧ h'.sAlive = upd h.sAlive s true ∧ h'.book = h.book) ∨ ((∀ s, op ≠ .newSubject s) ∧ Fades h h') := by
  cases op with
  | newSubject s =>
    left
    simp only [React.step, newSubject] at e
    split at e
    · simp at e
    · rename_i hs
      injection e with e; subst e
      exact ⟨s, rfl, by simpa using hs, rfl, rfl⟩
  | newObserver o ds r =>
    refine .inr ⟨by simp, ?_⟩
    simp only [React.step, newObserver] at e
    split at e
    · simp at e
    · exact (Fades.book (h' := { h with oAlive := upd h.oAlive o true, deps := upd h.deps o [], ondeath := upd h.ondeath o [], recb := upd h.recb o r }) rfl rfl).trans
        (loop_fades (fun _ _ _ b => addDependency_fades b) e)
  | addDependency o d => exact .inr ⟨by simp, addDependency_fades e⟩
  | removeDependency o i => exact .inr ⟨by simp, removeDependency_fades e⟩
  | replaceDependency o d i => exact .inr ⟨by simp, replaceDependency_fades e⟩
  | steal ord s t => exact .inr ⟨by simp, steal_fades e⟩
  | moveSubject ord s t =>
    refine .inr ⟨by simp, ?_⟩
    by_cases hne : s = t
    · simp [React.step, moveSubject, hne] at e; exact e ▸ .refl _
    · simp only [React.step] at e
      rw [moveSubject, if_neg hne] at e
      obtain ⟨g, e1, e2⟩ := Outcome.bind_eq_ok.1 e
      rw [needS_ok e1] at e2
      obtain ⟨g2, e3, e4⟩ := Outcome.bind_eq_ok.1 e2
      injection e4 with e4; subst e4
      exact (steal_fades e3).same rfl rfl
  | copyObserver o p =>
    refine .inr ⟨by simp, ?_⟩
    obtain ⟨g, e1, e2⟩ := Outcome.bind_eq_ok.1 e
    rw [needO_ok e1] at e2
    obtain ⟨g2, e3, e4⟩ := Outcome.bind_eq_ok.1 e2
    rw [needO_ok e3] at e4
    split at e4
    · injection e4 with e4; exact e4 ▸ .refl _
    · obtain ⟨g3, e5, e6⟩ := Outcome.bind_eq_ok.1 e4
      have f1 : Fades h g3 := (Fades.book (h' := { h with recb := upd h.recb o (h.recb p) }) rfl rfl).trans (detachAll_fades e5)
      exact (f1.same (h' := { g3 with deps := upd g3.deps o [] }) rfl rfl).trans (loop_fades (fun _ _ _ b => addDependency_fades b) e6)
  | moveObserver o p =>
    refine .inr ⟨by simp, ?_⟩
    obtain ⟨g, e1, e2⟩ := Outcome.bind_eq_ok.1 e
    rw [needO_ok e1] at e2
    obtain ⟨g2, e3, e4⟩ := Outcome.bind_eq_ok.1 e2
    rw [needO_ok e3] at e4
    split at e4
    · injection e4 with e4; exact e4 ▸ .refl _
    · obtain ⟨g3, e5, e6⟩ := Outcome.bind_eq_ok.1 e4
      have f1 : Fades h g3 := (Fades.book (h' := { h with recb := upd h.recb o (h.recb p) }) rfl rfl).trans (detachAll_fades e5)
      refine (f1.same (h' := { g3 with deps := upd (upd g3.deps o (g3.deps p)) p [] }) rfl rfl).trans (loop_fades ?_ e6)
      intro i g g' b
      unfold moveSlot at b
      split at b
      · obtain ⟨g5, e7, e8⟩ := Outcome.bind_eq_ok.1 b
        exact (attach_fades e7).trans (detach_fades e8)
      · injection b with b; exact b ▸ .refl _
  | addOndeath o s => exact .inr ⟨by simp, .book (addOndeath_alive e) (addOndeath_same e).2.1⟩
  | attachKiller s o =>
    refine .inr ⟨by simp, .book ?_ (attachKiller_same e).2.1⟩
    simp only [React.step] at e
    rw [attachKiller] at e
    split at e
    · split at e
      · have := addOndeath_alive e; exact this
      · injection e with e; exact e ▸ rfl
    · simp at e
  | removeOndeath o s => exact .inr ⟨by simp, .book (removeOndeath_same e).2 (removeOndeath_same e).1.2.1⟩
  | detachKiller s o =>
    refine .inr ⟨by simp, .book ?_ (detachKiller_same e).2.1⟩
    simp only [React.step] at e
    rw [detachKiller] at e
    split at e
    · split at e
      · have := (removeOndeath_same e).2; exact this
      · injection e with e; exact e ▸ rfl
    · simp at e
  | destroySubject ord s => exact .inr ⟨by simp, destroySubject_fades e⟩
  | destroyObserver ord o => exact .inr ⟨by simp, destroyObserver_fades e⟩

/-- The recorder only ever hears more. -/
theorem step_more {h h' : Net} (op : Op) (e : React.step op h = .ok h') : ∃ new, h'.book.log = h.book.log ++ new ∧
    ∀ s, Ev.gone s ∈ new ↔ (h.sAlive s = true ∧ h'.sAlive s = false) := by
  rcases step_gone op e with ⟨s, _, h0, h1, h2⟩ | ⟨_, h1⟩
  · refine ⟨[], by rw [h2]; simp, fun t => ?_⟩
    rw [h1]
    by_cases c : t = s
    · subst c; simp [h0]
    · simp [upd, c]
  · exact h1.2

end Verif.Props
