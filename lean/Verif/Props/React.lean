import Verif.Lemmas.ReactStep
/-!
# Properties of subjects and observers: C26 - C29

A history is a list of calls run from the empty network; the iteration orders of the hash containers are
part of the calls and arbitrary.  `run ops Net.empty = .ok h` says that no call of the history is undefined
behaviour or terminates the program; calls that throw are included.
-/
namespace Verif.Props
open Spec React

/-! ### C26 -/

/-- After any history, an observer lists a subject at position `i` exactly when the subject lists the
observer with index `i`. -/
theorem c26_mirror (ops : List Op) (h : Net) (hr : run ops Net.empty = .ok h) (o i s : Nat) :
    (h.deps o)[i]? = some (some s) ↔ (o, i) ∈ h.aud s :=
  (reachable_inv hr).mirror o i s

/-- After any history both ends of an edge are alive. -/
theorem c26_alive (ops : List Op) (h : Net) (hr : run ops Net.empty = .ok h) (o i s : Nat)
    (he : (o, i) ∈ h.aud s) : h.sAlive s = true ∧ h.oAlive o = true :=
  (reachable_inv hr).depAlive o i s (((reachable_inv hr).mirror o i s).2 he)

/-- After any history, a call that succeeds changes the edges as specified and nothing else, as seen from
the observers and from the subjects. -/
theorem c26_effect (ops : List Op) (h h' : Net) (hr : run ops Net.empty = .ok h) (op : Op) (hL : Legal h op)
    (hs : step op h = .ok h') (x j t : Nat) :
    ((h'.deps x)[j]? = some (some t) ↔ edgesAfter h op x j t) ∧
    ((x, j) ∈ h'.aud t ↔ edgesAfter h op x j t) := by
  have hI := reachable_inv hr
  rcases react_step_cases hI op hL with ⟨g, e, I, d, _, _⟩ | ⟨_, _, _, _, e⟩ | ⟨_, _, _, _, e⟩
  · rw [e] at hs; simp at hs; subst hs
    exact ⟨d x j t, by rw [← I.mirror]; exact d x j t⟩
  · rw [e] at hs; simp at hs
  · rw [e] at hs; simp at hs

/-- After any history a call on live objects succeeds; it throws only if a position past the end is removed,
and the program is terminated only if an observer with a trailing null pointer is destroyed. -/
theorem c26_outcome (ops : List Op) (h : Net) (hr : run ops Net.empty = .ok h) (op : Op) (hL : Legal h op) :
    (∃ h', step op h = .ok h') ∨
    (∃ o i, op = .removeDependency o i ∧ (h.deps o).length ≤ i ∧ step op h = .throw .logicError) ∨
    (∃ ord o, op = .destroyObserver ord o ∧ NullTail (h.deps o) ∧ step op h = .abort) := by
  rcases react_step_cases (reachable_inv hr) op hL with ⟨g, e, _⟩ | h1 | h1
  · exact Or.inl ⟨g, e⟩
  · exact Or.inr (Or.inl h1)
  · exact Or.inr (Or.inr h1)

/-- The identity order of iteration. -/
def anyOrd : Ord := ⟨id, id, fun _ => .refl _, fun _ => .refl _⟩

/-- A history with a double dependency, a replacement, a removal, a move and a destruction. -/
def demoOps : List Op :=
  [.newSubject 0, .newSubject 1, .newObserver 7 [some 0, some 1, some 0], .newObserver 8 [some 1],
   .replaceDependency 8 (some 0) 2, .removeDependency 7 1, .newSubject 2, .moveSubject anyOrd 2 0,
   .destroySubject anyOrd 1]

example : ∃ h, run demoOps Net.empty = .ok h ∧ h.deps 7 = [some 2, none, some 2] ∧
    h.deps 8 = [none, none, some 2] ∧ h.aud 2 = [(7, 0), (7, 2), (8, 2)] ∧ h.aud 0 = [] ∧ h.aud 1 = [] :=
  ⟨_, rfl, rfl, rfl, rfl, rfl, rfl⟩

/-! ### C27 -/

/-- Destroying a live subject after any history succeeds; afterwards no observer lists it, all other edges
are as before, and exactly the observers that listed it are told, each once. -/
theorem c27_subject (ops : List Op) (h : Net) (hr : run ops Net.empty = .ok h) (ord : Ord) (s : Nat)
    (hs : h.sAlive s = true) :
    ∃ h', destroySubject ord s h = .ok h' ∧ h'.sAlive s = false ∧
      (∀ o i : Nat, (h'.deps o)[i]? ≠ some (some s)) ∧
      (∀ o i t : Nat, t ≠ s → ((h'.deps o)[i]? = some (some t) ↔ (h.deps o)[i]? = some (some t))) ∧
      ∃ told, h'.broken = told ++ h.broken ∧ told.Nodup ∧
        ∀ o, o ∈ told ↔ ∃ i : Nat, (h.deps o)[i]? = some (some s) := by
  have hI := reachable_inv hr
  obtain ⟨h', e, I, a, _, b, d, k, t⟩ := destroySubject_spec ord hI hs
  refine ⟨h', e, by rw [a, upd_same], ?_, ?_, _, b, ?_, ?_⟩
  · intro o i hd
    exact ((d o i s).1 hd).2 rfl
  · intro o i t ht
    have := d o i t
    unfold Dep at this
    rw [this]; simp [ht]
  · rw [List.nodup_reverse, (ord.nat_perm _).nodup_iff]; exact nodup_viewers
  · intro o
    rw [List.mem_reverse, (ord.nat_perm _).mem_iff, mem_viewers]
    exact exists_congr fun i => (hI.mirror o i s).symm

/-- Once an observer is destroyed no subject lists it, nor any subject it took with it, and all edges
between the others are as before. -/
theorem c27_observer (ops : List Op) (h h' : Net) (hr : run ops Net.empty = .ok h) (ord : Ord) (o : Nat)
    (hd : destroyObserver ord o h = .ok h') :
    h'.oAlive o = false ∧ (∀ s i, (o, i) ∉ h'.aud s) ∧
      (∀ x i s, (x, i) ∈ h'.aud s ↔ (x, i) ∈ h.aud s ∧ x ≠ o ∧ s ∉ h.ondeath o) := by
  have hI := reachable_inv hr
  have ho : h.oAlive o = true := by
    by_contra hc
    simp [destroyObserver, needO, hc] at hd
  by_cases ht : Tidy (h.deps o) ∨ AllNull (h.deps o)
  · obtain ⟨g, e, I, _, a, d, k, t⟩ := destroyObserver_spec ord hI ho ht
    rw [e] at hd; simp at hd; subst hd
    refine ⟨by rw [a, upd_same], ?_, ?_⟩
    · intro s i hm
      rw [← I.mirror, d] at hm
      exact hm.2.1 rfl
    · intro x i s
      rw [← I.mirror, ← hI.mirror, d]
  · rw [destroyObserver_abort ord hI ho (fun h1 => ht (Or.inl h1)) (fun h1 => ht (Or.inr h1))] at hd
    simp at hd

/-- In a history that never hands over a null pointer every live observer can be destroyed. -/
theorem c27_observer_succeeds (ops : List Op) (h : Net) (hr : run ops Net.empty = .ok h)
    (hn : ∀ op ∈ ops, NoNull op) (ord : Ord) (o : Nat) (ho : h.oAlive o = true) :
    ∃ h', destroyObserver ord o h = .ok h' := by
  obtain ⟨hI, ht⟩ := react_run_inv Inv.empty ops hr
  obtain ⟨g, e, _⟩ := destroyObserver_spec ord hI ho (Or.inl (ht (fun x => Or.inl rfl) hn o))
  exact ⟨g, e⟩

/-- Against the expectation that destruction never fails: the destructor of an observer that has a null
pointer after its last subject throws, which terminates the program. -/
theorem c27_null_tail_terminates (ops : List Op) (h : Net) (hr : run ops Net.empty = .ok h) (ord : Ord) (o : Nat)
    (ho : h.oAlive o = true) (hn : NullTail (h.deps o)) : destroyObserver ord o h = .abort := by
  refine destroyObserver_abort ord (reachable_inv hr) ho ?_ ?_
  · rintro (h1 | ⟨s, h1⟩)
    · have := hn.1; rw [h1] at this; simp at this
    · have := hn.1; rw [h1] at this; simp at this
  · intro h1
    obtain ⟨s, hs⟩ := hn.2
    obtain ⟨j, hj⟩ := List.mem_iff_getElem?.1 hs
    exact h1 j s hj

/-- Such an observer is reachable. -/
example : ∃ h, run [.newSubject 0, .newObserver 7 [some 0, none]] Net.empty = .ok h ∧
    h.oAlive 7 = true ∧ NullTail (h.deps 7) ∧ destroyObserver anyOrd 7 h = .abort :=
  ⟨_, rfl, rfl, ⟨rfl, 0, by decide⟩, rfl⟩

example : ∃ h h', run demoOps Net.empty = .ok h ∧ destroySubject anyOrd 2 h = .ok h' ∧
    h'.deps 7 = [] ∧ h'.deps 8 = [] ∧ h'.broken = [8, 7, 8] :=
  ⟨_, _, rfl, rfl, rfl, rfl, rfl⟩

/-! ### C28 -/

/-- After any history the two sides of a kill-on-death registration agree, and both parties are alive. -/
theorem c28_symmetric (ops : List Op) (h : Net) (hr : run ops Net.empty = .ok h) (o s : Nat) :
    (s ∈ h.ondeath o ↔ o ∈ h.killers s) ∧
    (s ∈ h.ondeath o → h.sAlive s = true ∧ h.oAlive o = true) :=
  ⟨(reachable_inv hr).kill o s, (reachable_inv hr).killAlive o s⟩

/-- Every call changes the registrations, on both sides, exactly as specified. -/
theorem c28_effect (ops : List Op) (h h' : Net) (hr : run ops Net.empty = .ok h) (op : Op) (hL : Legal h op)
    (hs : step op h = .ok h') (x t : Nat) :
    (t ∈ h'.ondeath x ↔ regsAfter h op x t) ∧ (x ∈ h'.killers t ↔ regsAfter h op x t) := by
  have hI := reachable_inv hr
  rcases react_step_cases hI op hL with ⟨g, e, I, _, k, _⟩ | ⟨_, _, _, _, e⟩ | ⟨_, _, _, _, e⟩
  · rw [e] at hs; simp at hs; subst hs
    exact ⟨k x t, by rw [← I.kill]; exact k x t⟩
  · rw [e] at hs; simp at hs
  · rw [e] at hs; simp at hs

/-- Destroying an observer destroys exactly the subjects registered with it and leaves no registration of
them or of it. -/
theorem c28_death (ops : List Op) (h h' : Net) (hr : run ops Net.empty = .ok h) (ord : Ord) (o : Nat)
    (hd : destroyObserver ord o h = .ok h') :
    (∀ t, h'.sAlive t = true ↔ h.sAlive t = true ∧ t ∉ h.ondeath o) ∧
    (∀ s, s ∉ h'.ondeath o ∧ o ∉ h'.killers s) ∧
    (∀ s ∈ h.ondeath o, ∀ x, s ∉ h'.ondeath x ∧ (∀ i : Nat, (h'.deps x)[i]? ≠ some (some s))) := by
  have hI := reachable_inv hr
  have ho : h.oAlive o = true := by
    by_contra hc
    simp [destroyObserver, needO, hc] at hd
  by_cases ht : Tidy (h.deps o) ∨ AllNull (h.deps o)
  · obtain ⟨g, e, I, a, _, d, k, t⟩ := destroyObserver_spec ord hI ho ht
    rw [e] at hd; simp at hd; subst hd
    refine ⟨a, ?_, ?_⟩
    · intro s
      have h1 : s ∉ g.ondeath o := by rw [k]; exact fun h1 => h1.2 h1.1
      exact ⟨h1, by rw [← I.kill]; exact h1⟩
    · intro s hs x
      refine ⟨by rw [k]; exact fun h1 => h1.2 hs, ?_⟩
      intro i h1
      exact ((d x i s).1 h1).2.2 hs
  · rw [destroyObserver_abort ord hI ho (fun h1 => ht (Or.inl h1)) (fun h1 => ht (Or.inr h1))] at hd
    simp at hd

/-- Two observers may register the same subject; the death of one destroys it for both. -/
example : ∃ h h', run [.newSubject 0, .newSubject 1, .newObserver 7 [some 1], .newObserver 8 [some 0],
    .addOndeath 7 0, .attachKiller 0 8] Net.empty = .ok h ∧ 0 ∈ h.ondeath 7 ∧ 8 ∈ h.killers 0 ∧
    h.deps 8 = [some 0] ∧ destroyObserver anyOrd 7 h = .ok h' ∧ h'.sAlive 0 = false ∧ h'.sAlive 1 = true ∧
    0 ∉ h'.ondeath 8 := by
  obtain ⟨h0, e0⟩ : ∃ h0, run [.newSubject 0, .newSubject 1, .newObserver 7 [some 1], .newObserver 8 [some 0]]
      Net.empty = .ok h0 ∧ h0.oAlive 7 = true ∧ h0.oAlive 8 = true ∧ h0.sAlive 0 = true ∧ h0.sAlive 1 = true ∧
      h0.ondeath = (fun _ => []) ∧ h0.deps 7 = [some 1] ∧ h0.deps 8 = [some 0] :=
    ⟨_, rfl, rfl, rfl, rfl, rfl, by funext x; simp [upd, Net.empty], rfl, rfl⟩
  obtain ⟨e0, a7, a8, a0, a1, hod, d7, d8⟩ := e0
  have I0 := reachable_inv e0
  have e1 := addOndeath_eq I0 a7 a0
  rw [if_neg (by rw [hod]; simp)] at e1
  have I1 : Inv (reg 7 0 h0) := reg_inv I0 a7 a0 (by rw [hod]; simp)
  have n1 : 0 ∉ (reg 7 0 h0).ondeath 8 := by simp [reg, upd, hod]
  have e2 := attachKiller_eq (h := reg 7 0 h0) (o := 8) (s := 0) I1 a8 a0
  rw [if_neg n1] at e2
  have I2 : Inv (reg 8 0 (reg 7 0 h0)) := reg_inv I1 a8 a0 n1
  have m7 : 0 ∈ (reg 8 0 (reg 7 0 h0)).ondeath 7 := by simp [reg, upd, hod]
  have m8 : 8 ∈ (reg 8 0 (reg 7 0 h0)).killers 0 := by simp [reg, upd]
  have n7 : 1 ∉ (reg 8 0 (reg 7 0 h0)).ondeath 7 := by simp [reg, upd, hod]
  obtain ⟨g, e3, I3, a, _, d, k, _⟩ := destroyObserver_spec anyOrd I2 (o := 7) a7 (by
    left; right; exact ⟨1, by show (h0.deps 7).getLast? = _; rw [d7]; rfl⟩)
  refine ⟨reg 8 0 (reg 7 0 h0), g, ?_, m7, m8, d8, e3, ?_, ?_, ?_⟩
  · have : ∀ (l1 l2 : List Op) (h a : Net), run l1 h = .ok a → run (l1 ++ l2) h = run l2 a := by
      intro l1 l2
      induction l1 with
      | nil => intro h a he; simp [run] at he; simp [he]
      | cons op l1 ih =>
        intro h a he
        rw [List.cons_append, run]
        rw [run] at he
        cases hs : step op h with
        | ok g => rw [hs] at he; exact ih _ _ he
        | throw e => rw [hs] at he; exact ih _ _ he
        | abort => rw [hs] at he; simp at he
        | ub => rw [hs] at he; simp at he
    rw [show ([.newSubject 0, .newSubject 1, .newObserver 7 [some 1], .newObserver 8 [some 0],
      .addOndeath 7 0, .attachKiller 0 8] : List Op) = [.newSubject 0, .newSubject 1, .newObserver 7 [some 1],
      .newObserver 8 [some 0]] ++ [.addOndeath 7 0, .attachKiller 0 8] from rfl, this _ _ _ _ e0]
    simp [run, step, e1, e2]
  · have := (a 0).not
    rw [Bool.not_eq_true] at this
    rw [this]; exact fun h1 => h1.2 m7
  · rw [a]; exact ⟨a1, n7⟩
  · rw [k]; exact fun h1 => h1.2 m7

/-! ### C29 -/

/-- A callback that also writes down whom it is called for, with which indices and in which state. -/
def logged (cb : Nat → List Nat → Net → Outcome Net) (v : Nat) (idx : List Nat)
    (st : Net × List (Nat × List Nat × Net)) : Outcome (Net × List (Nat × List Nat × Net)) :=
  cb v idx st.1 >>= fun h => .ok (h, st.2 ++ [(v, idx, st.1)])

theorem notify_log (cb : Nat → List Nat → Net → Outcome Net) (s : Nat) (vs : List Nat) (hn : vs.Nodup)
    (h h' : Net) (log0 log : List (Nat × List Nat × Net))
    (hr : forEach (notifyOne Prod.fst s (logged cb)) vs (h, log0) = .ok (h', log)) :
    ∃ new, log = log0 ++ new ∧ (new.map (·.1)).Sublist vs ∧
      (∀ e ∈ new, e.2.1 ≠ [] ∧ e.2.1 = indices e.2.2 s e.1) ∧
      (∀ v ∈ vs, (∀ w idx g g', cb w idx g = .ok g' → indices g s v ≠ [] → indices g' s v ≠ []) →
        indices h s v ≠ [] → v ∈ new.map (·.1)) ∧
      ((∀ w idx g g', cb w idx g = .ok g' → g'.aud s = g.aud s) → ∀ e ∈ new, e.2.2.aud s = h.aud s) := by
  induction vs generalizing h log0 with
  | nil =>
    simp [forEach] at hr
    exact ⟨[], by simp [hr.2], by simp, by simp, by simp, by simp⟩
  | cons v vs ih =>
    obtain ⟨hnv, hn'⟩ := List.nodup_cons.1 hn
    rw [forEach, Outcome.bind_eq_ok] at hr
    obtain ⟨st, h1, h2⟩ := hr
    unfold notifyOne at h1
    simp only at h1
    by_cases hi : indices h s v ≠ []
    · rw [if_pos hi, logged, Outcome.bind_eq_ok] at h1
      obtain ⟨g, h3, h4⟩ := h1
      simp only [Outcome.ok.injEq] at h4
      subst h4
      obtain ⟨new, e, sub, p1, p2, p3⟩ := ih hn' g _ h2
      refine ⟨(v, indices h s v, h) :: new, by simp [e], by simpa using sub, ?_, ?_, ?_⟩
      · intro e he
        rcases List.mem_cons.1 he with he | he
        · subst he; exact ⟨hi, rfl⟩
        · exact p1 e he
      · intro w hw hcb hwi
        rcases List.mem_cons.1 hw with hw' | hw'
        · subst hw'; simp
        · have := p2 w hw' hcb (hcb _ _ _ _ h3 hwi)
          simp only [List.map_cons, List.mem_cons]
          exact Or.inr this
      · intro hcb e he
        rcases List.mem_cons.1 he with he | he
        · subst he; rfl
        · rw [p3 hcb e he]; exact hcb _ _ _ _ h3
    · rw [if_neg hi] at h1
      simp only [Outcome.ok.injEq] at h1
      subst h1
      obtain ⟨new, e, sub, p1, p2, p3⟩ := ih hn' h _ h2
      refine ⟨new, e, sub.trans (List.sublist_cons_self _ _), p1, ?_, p3⟩
      intro w hw hcb hwi
      rcases List.mem_cons.1 hw with hw' | hw'
      · subst hw'; exact absurd hwi hi
      · exact p2 w hw' hcb hwi

/-- Whatever the callbacks do (attach, detach, destroy, ...): nobody is notified twice, nobody who was not
attached at the start is notified, and whoever is notified is attached at that moment and receives exactly the
indices under which it is attached at that moment. -/
theorem c29_sound (cb : Nat → List Nat → Net → Outcome Net) (ord : Ord) (s : Nat) (h h' : Net)
    (log : List (Nat × List Nat × Net)) (hr : notify Prod.fst ord s (logged cb) (h, []) = .ok (h', log)) :
    (log.map (·.1)).Nodup ∧
    ∀ e ∈ log, (∃ i, (e.1, i) ∈ h.aud s) ∧ (∃ i, (e.1, i) ∈ e.2.2.aud s) ∧
      ∀ i, i ∈ e.2.1 ↔ (e.1, i) ∈ e.2.2.aud s := by
  have hnd : (ord.nat (viewers h s)).Nodup := (ord.nat_perm _).nodup_iff.2 nodup_viewers
  obtain ⟨new, e, sub, p1, p2, p3⟩ := notify_log cb s _ hnd h h' [] log hr
  simp at e; subst e
  refine ⟨hnd.sublist sub, ?_⟩
  intro e he
  obtain ⟨h1, h2⟩ := p1 e he
  refine ⟨?_, ?_, ?_⟩
  · have : e.1 ∈ ord.nat (viewers h s) := sub.subset (List.mem_map.2 ⟨e, he, rfl⟩)
    exact mem_viewers.1 ((ord.nat_perm _).mem_iff.1 this)
  · rw [h2] at h1
    obtain ⟨i, hi⟩ := List.exists_mem_of_ne_nil _ h1
    exact ⟨i, mem_indices.1 hi⟩
  · intro i; rw [h2]; exact mem_indices

theorem indices_ne_nil {h : Net} {s v : Nat} : indices h s v ≠ [] ↔ ∃ i, (v, i) ∈ h.aud s := by
  constructor
  · intro h1
    obtain ⟨i, hi⟩ := List.exists_mem_of_ne_nil _ h1
    exact ⟨i, mem_indices.1 hi⟩
  · rintro ⟨i, hi⟩ h0
    have := mem_indices.2 hi
    rw [h0] at this; simp at this

/-- An observer attached at the start that no callback detaches is notified. -/
theorem c29_complete (cb : Nat → List Nat → Net → Outcome Net) (ord : Ord) (s : Nat) (h h' : Net)
    (log : List (Nat × List Nat × Net)) (hr : notify Prod.fst ord s (logged cb) (h, []) = .ok (h', log))
    (v : Nat) (hv : ∃ i, (v, i) ∈ h.aud s)
    (hcb : ∀ w idx g g', cb w idx g = .ok g' → (∃ i, (v, i) ∈ g.aud s) → ∃ i, (v, i) ∈ g'.aud s) :
    v ∈ log.map (·.1) := by
  have hnd : (ord.nat (viewers h s)).Nodup := (ord.nat_perm _).nodup_iff.2 nodup_viewers
  obtain ⟨new, e, sub, p1, p2, p3⟩ := notify_log cb s _ hnd h h' [] log hr
  simp at e; subst e
  refine p2 v ((ord.nat_perm _).mem_iff.2 (mem_viewers.2 hv)) ?_ (indices_ne_nil.2 hv)
  intro w idx g g' h1 h2
  exact indices_ne_nil.2 (hcb w idx g g' h1 (indices_ne_nil.1 h2))

/-- When the callbacks leave the audience alone, exactly the attached observers are notified, each once, with
exactly their indices. -/
theorem c29_exact (cb : Nat → List Nat → Net → Outcome Net) (ord : Ord) (s : Nat) (h h' : Net)
    (log : List (Nat × List Nat × Net)) (hr : notify Prod.fst ord s (logged cb) (h, []) = .ok (h', log))
    (hcb : ∀ w idx g g', cb w idx g = .ok g' → g'.aud s = g.aud s) :
    (log.map (·.1)).Nodup ∧ (∀ v, v ∈ log.map (·.1) ↔ ∃ i, (v, i) ∈ h.aud s) ∧
    ∀ e ∈ log, ∀ i, i ∈ e.2.1 ↔ (e.1, i) ∈ h.aud s := by
  have hs := c29_sound cb ord s h h' log hr
  have hnd : (ord.nat (viewers h s)).Nodup := (ord.nat_perm _).nodup_iff.2 nodup_viewers
  obtain ⟨new, e, sub, p1, p2, p3⟩ := notify_log cb s _ hnd h h' [] log hr
  simp at e; subst e
  refine ⟨hs.1, ?_, ?_⟩
  · intro v
    constructor
    · intro hv
      obtain ⟨e, he, rfl⟩ := List.mem_map.1 hv
      exact (hs.2 e he).1
    · intro hv
      exact c29_complete cb ord s h h' _ hr v hv (fun w idx g g' h1 h2 => by rw [hcb w idx g g' h1]; exact h2)
  · intro e he i
    rw [(hs.2 e he).2.2, p3 hcb e he]

/-- Observer 7's callback detaches observer 8 before its turn: 8 is not notified, 9 is. -/
example : ∃ h h' g, run [.newSubject 0, .newObserver 7 [some 0, some 0], .newObserver 8 [some 0],
      .newObserver 9 [some 0]] Net.empty = .ok h ∧
    notify Prod.fst ⟨List.reverse, id, List.reverse_perm, fun _ => .refl _⟩ 0
      (logged fun v _ g => if v = 7 then removeDependency 8 0 g else .ok g) (h, []) =
        .ok (h', [(7, [1, 0], h), (9, [0], g)]) :=
  ⟨_, _, _, rfl, rfl⟩

end Verif.Props
