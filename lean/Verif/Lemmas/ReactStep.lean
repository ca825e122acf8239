import Verif.Lemmas.React2
import Verif.Spec.React
/-!
# Every step and every history of the observer network
-/
namespace Verif
namespace React
open Spec

/-! ### every step -/

theorem react_step_cases {h : Net} (hI : Inv h) (op : Op) (hL : Legal h op) :
    (∃ h', step op h = .ok h' ∧ Inv h' ∧ (∀ x j t, Dep h' x j t ↔ edgesAfter h op x j t) ∧
        (∀ x t, t ∈ h'.ondeath x ↔ regsAfter h op x t) ∧
        ((∀ x, Tidy (h.deps x)) → NoNull op → ∀ x, Tidy (h'.deps x))) ∨
    (∃ o i, op = .removeDependency o i ∧ (h.deps o).length ≤ i ∧ step op h = .throw .logicError) ∨
    (∃ ord o, op = .destroyObserver ord o ∧ NullTail (h.deps o) ∧ step op h = .abort) := by
  cases op with
  | newSubject s =>
    left
    obtain ⟨h', e, I, d, k, _, _, _⟩ := newSubject_spec hI hL
    refine ⟨h', e, I, ?_, ?_, ?_⟩
    · intro x j t; unfold Dep; rw [d]; rfl
    · intro x t; rw [k]; rfl
    · intro ht _ x; rw [d]; exact ht x
  | newObserver o ds r =>
    left
    obtain ⟨h', e, I, d, k, _, _, _⟩ := newObserver_spec r hI hL.1 hL.2
    refine ⟨h', e, I, ?_, ?_, ?_⟩
    · intro x j t
      unfold Dep; rw [d]
      by_cases hx : x = o
      · subst hx; rw [upd_same]; simp [edgesAfter]
      · rw [upd_ne _ _ hx]; simp [edgesAfter, hx, Edge]
    · intro x t; rw [k]
      by_cases hx : x = o
      · subst hx; rw [upd_same]
        simp only [List.not_mem_nil, regsAfter, false_iff]
        intro hm
        have := (hI.killAlive x t hm).2
        rw [hL.1] at this; simp at this
      · rw [upd_ne _ _ hx]; rfl
    · intro ht hnn x; rw [d]
      refine tidy_upd ?_ (ht x)
      rcases List.eq_nil_or_concat ds with h0 | ⟨l, a, h0⟩
      · exact Or.inl h0
      · subst h0
        cases a with
        | none => simp [NoNull] at hnn
        | some s => right; exact ⟨s, by simp⟩
  | addDependency o d =>
    left
    obtain ⟨h', e, I, L, _, dd, t⟩ := addDependency_spec hI hL.1 hL.2
    refine ⟨h', e, I, dd, ?_, ?_⟩
    · intro x t; rw [L.2]; rfl
    · intro ht hnn x; rw [t]
      refine tidy_upd ?_ (ht x)
      cases d with
      | none => simp [NoNull] at hnn
      | some s => exact tidy_append_some _ _
  | removeDependency o i =>
    have hL' : h.oAlive o = true := hL
    cases hg : (h.deps o)[i]? with
    | none =>
      right; left
      refine ⟨o, i, rfl, List.getElem?_eq_none_iff.1 hg, ?_⟩
      simp [step, removeDependency, needO, hL', hg]
    | some v =>
      left
      cases v with
      | none =>
        refine ⟨h, by simp [step, removeDependency, needO, hL', hg], hI, ?_, ?_, fun ht _ => ht⟩
        · intro x j t
          show _ ↔ Dep h x j t ∧ _
          constructor
          · intro h1
            refine ⟨h1, ?_⟩
            rintro ⟨rfl, rfl⟩
            unfold Dep at h1; rw [hg] at h1; simp at h1
          · exact fun h1 => h1.1
        · intro x t; rfl
      | some s =>
        obtain ⟨h', e, I, L, _, dd, t⟩ := removeDependency_spec hI (show Dep h o i s from hg)
        refine ⟨h', e, I, dd, ?_, ?_⟩
        · intro x t; rw [L.2]; rfl
        · intro ht _ x; rw [t]; exact tidy_upd (tidy_popNulls _) (ht x)
  | replaceDependency o d i =>
    left
    obtain ⟨h', e, I, L, _, dd, t⟩ := replaceDependency_spec (i := i) hI hL.1 hL.2
    refine ⟨h', e, I, dd, ?_, ?_⟩
    · intro x t; rw [L.2]; rfl
    · intro ht hnn x; rw [t]
      cases d with
      | none => simp [NoNull] at hnn
      | some s => exact tidy_upd (tidy_setSlot (ht o) _ _) (ht x)
  | steal ord s other =>
    left
    obtain ⟨h', e, I, L, _, dd, t⟩ := steal_spec ord hI hL.1 hL.2
    refine ⟨h', e, I, dd, ?_, fun ht _ x => t x (ht x)⟩
    intro x t; rw [L.2]; rfl
  | moveSubject ord s other =>
    left
    by_cases hne : s = other
    · subst hne
      refine ⟨h, by simp [step, moveSubject], hI, ?_, fun _ _ => Iff.rfl, fun ht _ => ht⟩
      intro x j t
      show _ ↔ (t = s ∧ Dep h x j s) ∨ (t ≠ s ∧ Dep h x j t)
      by_cases ht : t = s
      · subst ht; simp
      · simp [ht]
    · obtain ⟨h', e, I, L, _, dd, t⟩ := moveSubject_spec ord hI hne hL.1 hL.2
      refine ⟨h', e, I, dd, ?_, fun ht _ x => t x (ht x)⟩
      intro x t; rw [L.2]; rfl
  | copyObserver o p =>
    left
    by_cases hne : o = p
    · subst hne
      refine ⟨h, by simp [step, copyObserver, needO, hL.1], hI, ?_, fun _ _ => Iff.rfl, fun ht _ => ht⟩
      intro x j t; simp [edgesAfter, Dep, Edge]
    · obtain ⟨h', e, I, L, _, t⟩ := copyObserver_spec hI hne hL.1 hL.2
      refine ⟨h', e, I, ?_, ?_, ?_⟩
      · intro x j y
        unfold Dep; rw [t]
        simp only [edgesAfter, if_neg hne]
        by_cases hx : x = o
        · subst hx; rw [upd_same]; simp
        · rw [upd_ne _ _ hx]; simp [hx, Edge]
      · intro x y; rw [L.2]; rfl
      · intro ht _ x; rw [t]
        refine tidy_upd ?_ (ht x)
        rcases List.eq_nil_or_concat (List.filterMap id (h.deps p)) with h0 | ⟨l, a, h0⟩
        · left; rw [h0]; rfl
        · right; rw [h0]; exact ⟨a, by simp⟩
  | moveObserver o p =>
    left
    by_cases hne : o = p
    · subst hne
      refine ⟨h, by simp [step, moveObserver, needO, hL.1], hI, ?_, fun _ _ => Iff.rfl, fun ht _ => ht⟩
      intro x j t; simp [edgesAfter, Dep, Edge]
    · obtain ⟨h', e, I, L, _, t⟩ := moveObserver_spec hI hne hL.1 hL.2
      refine ⟨h', e, I, ?_, ?_, ?_⟩
      · intro x j y
        unfold Dep; rw [t]
        simp only [edgesAfter, if_neg hne]
        by_cases hx : x = p
        · subst hx; rw [upd_same]
          have : x ≠ o := fun h => hne h.symm
          simp [this]
        · rw [upd_ne _ _ hx]
          by_cases hxo : x = o
          · subst hxo; rw [upd_same]; simp [Edge]
          · rw [upd_ne _ _ hxo]; simp [hx, hxo, Edge]
      · intro x y; rw [L.2]; rfl
      · intro ht _ x; rw [t]
        exact tidy_upd (Or.inl rfl) (tidy_upd (ht p) (ht x))
  | addOndeath o s =>
    left
    have e := addOndeath_eq hI hL.1 hL.2
    by_cases hm : s ∈ h.ondeath o
    · rw [if_pos hm] at e
      refine ⟨h, e, hI, fun _ _ _ => Iff.rfl, ?_, fun ht _ => ht⟩
      intro x t
      show _ ↔ _ ∨ _
      constructor
      · exact Or.inl
      · rintro (h1 | ⟨rfl, rfl⟩)
        · exact h1
        · exact hm
    · rw [if_neg hm] at e
      refine ⟨_, e, reg_inv hI hL.1 hL.2 hm, fun _ _ _ => Iff.rfl, ?_, fun ht _ => ht⟩
      intro x t; exact mem_cons_upd
  | attachKiller s o =>
    left
    have e := attachKiller_eq hI hL.1 hL.2
    by_cases hm : s ∈ h.ondeath o
    · rw [if_pos hm] at e
      refine ⟨h, e, hI, fun _ _ _ => Iff.rfl, ?_, fun ht _ => ht⟩
      intro x t
      show _ ↔ _ ∨ _
      constructor
      · exact Or.inl
      · rintro (h1 | ⟨rfl, rfl⟩)
        · exact h1
        · exact hm
    · rw [if_neg hm] at e
      refine ⟨_, e, reg_inv hI hL.1 hL.2 hm, fun _ _ _ => Iff.rfl, ?_, fun ht _ => ht⟩
      intro x t; exact mem_cons_upd
  | removeOndeath o s =>
    left
    have e := removeOndeath_eq (s := s) hI hL.1
    by_cases hm : s ∈ h.ondeath o
    · rw [if_pos hm] at e
      refine ⟨_, e, unreg_inv hI, fun _ _ _ => Iff.rfl, ?_, fun ht _ => ht⟩
      intro x t; exact mem_filter_upd
    · rw [if_neg hm] at e
      refine ⟨h, e, hI, fun _ _ _ => Iff.rfl, ?_, fun ht _ => ht⟩
      intro x t
      show _ ↔ _ ∧ _
      constructor
      · intro h1; refine ⟨h1, ?_⟩; rintro ⟨rfl, rfl⟩; exact hm h1
      · exact fun h1 => h1.1
  | detachKiller s o =>
    left
    have e := detachKiller_eq (o := o) hI hL.2
    by_cases hm : s ∈ h.ondeath o
    · rw [if_pos hm] at e
      refine ⟨_, e, unreg_inv hI, fun _ _ _ => Iff.rfl, ?_, fun ht _ => ht⟩
      intro x t; exact mem_filter_upd
    · rw [if_neg hm] at e
      refine ⟨h, e, hI, fun _ _ _ => Iff.rfl, ?_, fun ht _ => ht⟩
      intro x t
      show _ ↔ _ ∧ _
      constructor
      · intro h1; refine ⟨h1, ?_⟩; rintro ⟨rfl, rfl⟩; exact hm h1
      · exact fun h1 => h1.1
  | destroySubject ord s =>
    left
    obtain ⟨h', e, I, _, _, _, dd, kk, t⟩ := destroySubject_spec ord hI hL
    exact ⟨h', e, I, dd, kk, fun ht _ x => t x (ht x)⟩
  | destroyObserver ord o =>
    by_cases ht : Tidy (h.deps o) ∨ AllNull (h.deps o)
    · left
      obtain ⟨h', e, I, _, _, dd, kk, t⟩ := destroyObserver_spec ord hI hL ht
      exact ⟨h', e, I, dd, kk, fun ht _ x => t x (ht x)⟩
    · right; right
      have h1 : ¬ Tidy (h.deps o) := fun h1 => ht (Or.inl h1)
      have h2 : ¬ AllNull (h.deps o) := fun h1 => ht (Or.inr h1)
      refine ⟨ord, o, rfl, ⟨?_, ?_⟩, destroyObserver_abort ord hI hL h1 h2⟩
      · unfold Tidy at h1
        cases hl : (h.deps o).getLast? with
        | none => exact absurd (Or.inl (List.getLast?_eq_none_iff.1 hl)) h1
        | some v =>
          cases v with
          | none => rfl
          | some s => exact absurd (Or.inr ⟨s, hl⟩) h1
      · by_contra hc
        apply h2
        intro j s hj
        exact hc ⟨s, List.mem_of_getElem? hj⟩

/-- Calls on dead objects do not return normally, except those that do nothing at all. -/
theorem react_step_illegal {h h' : Net} (hI : Inv h) (op : Op) (hL : ¬ Legal h op) (hs : step op h = .ok h') :
    Inv h' ∧ ((∀ x, Tidy (h.deps x)) → NoNull op → ∀ x, Tidy (h'.deps x)) := by
  have triv : h = h' → Inv h' ∧ ((∀ x, Tidy (h.deps x)) → NoNull op → ∀ x, Tidy (h'.deps x)) := by
    rintro rfl; exact ⟨hI, fun ht _ => ht⟩
  cases op with
  | newSubject s => simp [Legal] at hL; simp [step, newSubject, hL] at hs
  | newObserver o ds r =>
    by_cases ho : h.oAlive o = true
    · simp [step, newObserver, ho] at hs
    · have ho' : h.oAlive o = false := by simpa using ho
      exfalso
      apply hL
      refine ⟨ho', ?_⟩
      rw [step, newObserver, if_neg ho] at hs
      have key : ∀ (ds : List (Option Nat)) (g g' : Net), g.sAlive = h.sAlive →
          forEach (addDependency o) ds g = .ok g' → ∀ s, some s ∈ ds → h.sAlive s = true := by
        intro ds
        induction ds with
        | nil => intro g g' _ _ s hs; simp at hs
        | cons d ds ih =>
          intro g g' hg hf s hs
          rw [forEach, Outcome.bind_eq_ok] at hf
          obtain ⟨g1, h1, h2⟩ := hf
          have hgo : g.oAlive o = true := by
            by_contra hc
            simp [addDependency, needO, hc] at h1
          rw [addDependency, needO, if_pos hgo, Outcome.ok_bind] at h1
          cases d with
          | none =>
            rw [attachOpt, Outcome.ok_bind] at h1
            simp only [Outcome.ok.injEq] at h1
            exact ih g1 g' (by rw [← h1]; exact hg) h2 s (by simpa using hs)
          | some w =>
            have hw : g.sAlive w = true := by
              by_contra hc
              simp [attachOpt, attach, needS, hc] at h1
            rw [attachOpt, attach_eq _ _ hw, Outcome.ok_bind] at h1
            simp only [Outcome.ok.injEq] at h1
            rcases List.mem_cons.1 hs with h3 | h3
            · simp at h3; subst h3; rw [← hg]; exact hw
            · exact ih g1 g' (by rw [← h1]; exact hg) h2 s h3
      exact key ds (bornO o r h) _ rfl hs
  | addDependency o d =>
    by_cases ho : h.oAlive o = true
    · cases d with
      | none => simp [Legal, ho] at hL
      | some s =>
        simp [Legal, ho] at hL
        simp [step, addDependency, needO, ho, attachOpt, attach, needS, hL] at hs
    · simp [step, addDependency, needO, ho] at hs
  | removeDependency o i => simp [Legal] at hL; simp [step, removeDependency, needO, hL] at hs
  | replaceDependency o d i =>
    by_cases ho : h.oAlive o = true
    · cases d with
      | none => simp [Legal, ho] at hL
      | some s =>
        simp [Legal, ho] at hL
        simp [step, replaceDependency, needO, ho, attachOpt, attach, needS, hL] at hs
    · simp [step, replaceDependency, needO, ho] at hs
  | steal ord s other =>
    by_cases ho : h.sAlive other = true
    · have hsd : ¬ h.sAlive s = true := by intro h1; exact hL ⟨h1, ho⟩
      rw [step, steal, needS, if_pos ho, Outcome.ok_bind] at hs
      cases hp : ord.pair (h.aud other) with
      | nil => rw [hp] at hs; simp [forEach] at hs; exact triv hs
      | cons p ps =>
        rw [hp, forEach] at hs
        have hpo : h.oAlive p.1 = true := by
          have : p ∈ h.aud other := (ord.pair_perm _).mem_iff.1 (by rw [hp]; simp)
          exact (hI.depAlive p.1 p.2 other ((hI.mirror _ _ _).2 this)).2
        simp [replaceDependency, needO, hpo, attachOpt, attach, needS, hsd] at hs
    · simp [step, steal, needS, ho] at hs
  | moveSubject ord s other =>
    by_cases hne : s = other
    · subst hne; simp [step, moveSubject] at hs; exact triv hs
    · by_cases h1 : h.sAlive s = true
      · have h2 : ¬ h.sAlive other = true := fun h2 => hL ⟨h1, h2⟩
        simp [step, moveSubject, hne, needS, h1, steal, h2] at hs
      · simp [step, moveSubject, hne, needS, h1] at hs
  | copyObserver o p =>
    by_cases h1 : h.oAlive o = true
    · have h2 : ¬ h.oAlive p = true := fun h2 => hL ⟨h1, h2⟩
      simp [step, copyObserver, needO, h1, h2] at hs
    · simp [step, copyObserver, needO, h1] at hs
  | moveObserver o p =>
    by_cases h1 : h.oAlive o = true
    · have h2 : ¬ h.oAlive p = true := fun h2 => hL ⟨h1, h2⟩
      simp [step, moveObserver, needO, h1, h2] at hs
    · simp [step, moveObserver, needO, h1] at hs
  | addOndeath o s =>
    rw [step, addOndeath] at hs
    by_cases h1 : h.oAlive o = true
    · have h2 : ¬ h.sAlive s = true := fun h2 => hL ⟨h1, h2⟩
      have h3 : s ∉ h.ondeath o := fun hm => h2 (hI.killAlive o s hm).1
      rw [if_pos h1, dif_pos h3, attachKiller, if_neg h2] at hs
      simp at hs
    · rw [if_neg h1] at hs; simp at hs
  | attachKiller s o =>
    rw [step, attachKiller] at hs
    by_cases h1 : h.sAlive s = true
    · have h2 : ¬ h.oAlive o = true := fun h2 => hL ⟨h2, h1⟩
      have h3 : o ∉ h.killers s := fun hm => h2 (hI.killAlive o s ((hI.kill o s).2 hm)).2
      rw [if_pos h1, dif_pos h3, addOndeath, if_neg h2] at hs
      simp at hs
    · rw [if_neg h1] at hs; simp at hs
  | removeOndeath o s =>
    rw [step] at hs
    by_cases h1 : h.oAlive o = true
    · have h2 : ¬ h.sAlive s = true := fun h2 => hL ⟨h1, h2⟩
      have h3 : s ∉ h.ondeath o := fun hm => h2 (hI.killAlive o s hm).1
      rw [removeOndeath_eq hI h1, if_neg h3] at hs
      simp at hs; exact triv hs
    · rw [removeOndeath, if_neg h1] at hs; simp at hs
  | detachKiller s o =>
    rw [step] at hs
    by_cases h1 : h.sAlive s = true
    · have h2 : ¬ h.oAlive o = true := fun h2 => hL ⟨h2, h1⟩
      have h3 : s ∉ h.ondeath o := fun hm => h2 (hI.killAlive o s hm).2
      rw [detachKiller_eq hI h1, if_neg h3] at hs
      simp at hs; exact triv hs
    · rw [detachKiller, if_neg h1] at hs; simp at hs
  | destroySubject ord s => simp [Legal] at hL; simp [step, destroySubject, needS, hL] at hs
  | destroyObserver ord o => simp [Legal] at hL; simp [step, destroyObserver, needO, hL] at hs

theorem react_step_inv {h h' : Net} (hI : Inv h) (op : Op) (hs : step op h = .ok h') :
    Inv h' ∧ ((∀ x, Tidy (h.deps x)) → NoNull op → ∀ x, Tidy (h'.deps x)) := by
  by_cases hL : Legal h op
  · rcases react_step_cases hI op hL with ⟨g, e, I, _, _, t⟩ | ⟨_, _, _, _, e⟩ | ⟨_, _, _, _, e⟩
    · rw [e] at hs; simp at hs; subst hs; exact ⟨I, t⟩
    · rw [e] at hs; simp at hs
    · rw [e] at hs; simp at hs
  · exact react_step_illegal hI op hL hs

theorem react_run_inv {h h' : Net} (hI : Inv h) (ops : List Op) (hr : run ops h = .ok h') :
    Inv h' ∧ ((∀ x, Tidy (h.deps x)) → (∀ op ∈ ops, NoNull op) → ∀ x, Tidy (h'.deps x)) := by
  induction ops generalizing h with
  | nil => simp [run] at hr; subst hr; exact ⟨hI, fun ht _ => ht⟩
  | cons op ops ih =>
    rw [run] at hr
    cases hs : step op h with
    | ok g =>
      rw [hs] at hr
      obtain ⟨I, t⟩ := react_step_inv hI op hs
      obtain ⟨I', t'⟩ := ih I hr
      exact ⟨I', fun h1 h2 => t' (t h1 (h2 op (by simp))) (fun o ho => h2 o (by simp [ho]))⟩
    | throw e =>
      rw [hs] at hr
      obtain ⟨I', t'⟩ := ih hI hr
      exact ⟨I', fun h1 h2 => t' h1 (fun o ho => h2 o (by simp [ho]))⟩
    | abort => rw [hs] at hr; simp at hr
    | ub => rw [hs] at hr; simp at hr

theorem reachable_inv {ops : List Op} {h : Net} (hr : run ops Net.empty = .ok h) : Inv h :=
  (react_run_inv Inv.empty ops hr).1

end React
end Verif
