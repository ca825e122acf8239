import Verif.Lemmas.GraphRun
/-!
# What happens to `freeze_`
-/
namespace Verif
namespace Graph
open React (upd forEach forEach_ok forEach_inv)

variable {V : Type} {E : Nat → Nat → Prop}

theorem consume_freeze_le (m o x : Nat) (g : G V) (h : ((consume m o g).man x).freeze = true) : (g.man x).freeze = true := by
  unfold consume at h
  split at h
  · exact h
  · simp only [upd] at h
    split at h
    · simp at h
    · split at h
      · next c => rw [c]; exact h
      · exact h

theorem consumeAll_freeze_le (n x : Nat) (cs : List Nat) (g : G V) (h : ((consumeAll n cs g).man x).freeze = true) :
    (g.man x).freeze = true := by
  induction cs generalizing g with
  | nil => exact h
  | cons c cs ih => exact consume_freeze_le _ _ _ _ (ih _ h)

theorem joinFirst_freeze (f : List V → Outcome V) (args : List Nat) (hides : Bool) (m0 x : Nat) (g : G V) :
    ((joinFirst f args hides m0 g).man x).freeze = (g.man x).freeze := by
  simp only [joinFirst, upd]; split
  · next c => rw [c]
  · rfl

theorem construct_freeze_le {S : Nat → Prop} {g : G V} (i : InvE E S g) (f : List V → Outcome V) (args : List Nat) (hides : Bool)
    (x : Nat) (h : ((construct f args hides g).man x).freeze = true) : (g.man x).freeze = true := by
  rcases construct_eq i f args hides with ⟨_, e⟩ | ⟨c, cs, _, e⟩
  · rw [e, joinFirst_freeze] at h; exact h
  · rw [e] at h
    have := consumeAll_freeze_le _ _ _ _ h
    rw [joinFirst_freeze] at this; exact this

/-- Only `freeze_status(true)` freezes. -/
theorem step_freeze_le {S : Nat → Prop} {sch : Sched} {c : Call V} {g g' : G V} (i : InvE E S g)
    (hz : ∀ n, c ≠ .freeze n true) (h : step sch c g = .ok g') (x : Nat) (hx : (g'.man x).freeze = true) :
    (g.man x).freeze = true := by
  cases c with
  | newLeaf v => cases h; exact hx
  | newOp f args hd =>
    obtain ⟨_, _, _, _, _, e⟩ := newOp_spec i h
    rw [e.freeze] at hx
    exact construct_freeze_le i f args hd x hx
  | assign n v b =>
    cases b with
    | true => obtain ⟨_, _, _, e⟩ := assign_loud i h; rw [e.freeze] at hx; exact hx
    | false => obtain ⟨_, _, _, e⟩ := assign_silent i h; rw [e] at hx; exact hx
  | eval n =>
    simp only [step, eval] at h
    split at h
    · split at h
      · rw [Outcome.bind_eq_ok] at h
        obtain ⟨r, h1, h2⟩ := h
        rw [Outcome.bind_eq_ok] at h1
        obtain ⟨g1, h1, h3⟩ := h1
        cases h3; cases h2
        rw [(managerUpdate_inv i h1).2.frame.freeze] at hx; exact hx
      · cases h; exact hx
    · cases h
  | getShape n =>
    simp only [step, getShape] at h
    split at h
    · split at h
      · rw [(managerUpdate_inv i h).2.frame.freeze] at hx; exact hx
      · cases h; exact hx
    · cases h
  | freeze n b =>
    cases b with
    | true => exact absurd rfl (hz n)
    | false =>
      simp only [step, freezeStatus] at h
      split at h
      · rw [if_neg (by simp), Outcome.ok_bind] at h
        cases h
        simp only [setFreeze, upd] at hx
        split at hx
        · simp at hx
        · exact hx
      · cases h
  | delete n =>
    obtain ⟨_, _, _, _, e, _⟩ := delete_inv i h
    rw [e] at hx; exact hx

theorem run_freeze (cs : List (Sched × Call V)) : ∀ {g g' : G V} {t : Spec.Told V}, InvE E (fun _ => True) g → Agrees t g →
    run cs g = .ok g' → (∀ c ∈ cs, ∀ n, c.2 ≠ .freeze n true) → (∀ m, (g.man m).freeze = false) →
    ∀ m, (g'.man m).freeze = false := by
  induction cs with
  | nil => intro g g' t _ _ h _ hm; cases h; exact hm
  | cons c cs ih =>
    intro g g' t i a h hz hm
    rw [run, Outcome.bind_eq_ok] at h
    obtain ⟨g1, h1, h2⟩ := h
    obtain ⟨i1, a1⟩ := step_inv i a (Or.inr (fun _ => trivial)) h1
    refine ih i1 a1 h2 (fun x hx => hz x (by simp [hx])) ?_
    intro m
    cases e : (g1.man m).freeze with
    | false => rfl
    | true =>
      have := step_freeze_le i (hz c (by simp)) h1 m e
      rw [hm m] at this; cases this

/-- The unions of a constructor that do not touch the manager `m`, or are made by it. -/
theorem consumeAll_keep {n k m : Nat} {S : Nat → Prop} (cs : List Nat) : ∀ (P : Nat → Prop) (g : G V), J E n P S g →
    (∀ c ∈ cs, c ∈ argsOf g n ∧ isOp g c = true) → g.alive k = true → isOp g k = true → g.gman k = m →
    (g.gman n = m ∨ (g.gman n ≠ m ∧ ∀ c ∈ cs, g.gman c ≠ m)) →
    (consumeAll n cs g).gman k = m ∧ ((consumeAll n cs g).man m).freeze = (g.man m).freeze := by
  induction cs with
  | nil => intro P g _ _ _ _ hk _; exact ⟨hk, rfl⟩
  | cons c cs ih =>
    intro P g j h ka ko hk hcase
    have j1 := consume_J j (h c (by simp)).1 (h c (by simp)).2
    have e1 := consume_defs (g.gman n) (g.gman c) g
    have hu : consumeAll n (c :: cs) g = consumeAll n cs (consume (g.gman n) (g.gman c) g) := rfl
    rw [hu]
    have hcs : ∀ x ∈ cs, x ∈ argsOf (consume (g.gman n) (g.gman c) g) n ∧ isOp (consume (g.gman n) (g.gman c) g) x = true := by
      intro x hx
      rw [argsOf_congr e1, isOp_congr e1]; exact h x (by simp [hx])
    have al := consume_alive (g.gman n) (g.gman c) g
    by_cases hmo : g.gman n = g.gman c
    · have e : consume (g.gman n) (g.gman c) g = g := by unfold consume; rw [if_pos hmo]
      rw [e] at j1 ⊢
      refine ih _ g j1 (fun x hx => h x (by simp [hx])) ka ko hk ?_
      rcases hcase with h1 | ⟨h1, h2⟩
      · exact Or.inl h1
      · exact Or.inr ⟨h1, fun x hx => h2 x (by simp [hx])⟩
    · have gm : ∀ x, (consume (g.gman n) (g.gman c) g).gman x = if x ∈ (g.man (g.gman c)).users then g.gman n else g.gman x := by
        intro x; unfold consume; rw [if_neg hmo]
      have om : g.gman c ≠ m := by
        rcases hcase with h1 | ⟨_, h2⟩
        · rw [← h1]; exact fun e => hmo e.symm
        · exact h2 c (by simp)
      have nk : k ∉ (g.man (g.gman c)).users := by
        intro hu; exact om (by rw [← hk]; exact ((j.users _ k).mp hu).2.2.symm)
      have nn : n ∉ (g.man (g.gman c)).users := by
        intro hu; exact hmo ((j.users _ n).mp hu).2.2
      have fz : ((consume (g.gman n) (g.gman c) g).man m).freeze = (g.man m).freeze := by
        unfold consume; rw [if_neg hmo]
        simp only [upd]
        rw [if_neg (fun e => om e.symm)]
        split
        · next e => rw [e]
        · rfl
      rw [← fz]
      refine ih _ _ j1 hcs (by rw [al]; exact ka) (by rw [isOp_congr e1]; exact ko) (by rw [gm, if_neg nk]; exact hk) ?_
      rw [gm, if_neg nn]
      rcases hcase with h1 | ⟨h1, h2⟩
      · exact Or.inl h1
      · refine Or.inr ⟨h1, fun x hx => ?_⟩
        rw [gm]
        split
        · exact h1
        · exact h2 x (by simp [hx])

theorem newOp_keep {S : Nat → Prop} {sch : Sched} {f : List V → Outcome V} {args : List Nat} {hides : Bool} {g g' : G V}
    (i : InvE E S g) (h : newOp sch f args hides g = .ok g') (k : Nat) (ka : g.alive k = true) (ko : isOp g k = true)
    (hu : Spec.Undisturbing g k (.newOp f args hides)) :
    g'.gman k = g.gman k ∧ (g'.man (g.gman k)).freeze = (g.man (g.gman k)).freeze ∧ g'.alive k = true := by
  obtain ⟨i', dd, _, _, hargs, e⟩ := newOp_spec i h
  obtain ⟨_, _, _, ac⟩ := construct_inv i f args hides hargs
  have kl : k < g.defs.length := i.wf.alive_lt k ka
  have kn : k ≠ g.defs.length := by omega
  have al' : g'.alive k = true := by rw [e.alive, ac]; simp [upd, kn]; exact ka
  rw [e.gman, e.freeze]
  have hA : ∀ m0, argsOf (joinFirst f args hides m0 g) g.defs.length = args := by
    intro m0
    rw [argsOf_push (g := g) (d := .op f args hides) rfl, if_pos rfl]; rfl
  have hO : ∀ m0 k, k ≠ g.defs.length → isOp (joinFirst f args hides m0 g) k = isOp g k := by
    intro m0 k h
    rw [isOp_push (g := g) (d := .op f args hides) rfl, if_neg h]
  have lt : ∀ a ∈ args, a ≠ g.defs.length := by
    intro a ha
    have := i.wf.alive_lt a (hargs a ha); omega
  have jg : ∀ m0 x, x ≠ g.defs.length → (joinFirst f args hides m0 g).gman x = g.gman x := by
    intro m0 x hx; simp [joinFirst, upd, hx]
  have jn : ∀ m0, (joinFirst f args hides m0 g).gman g.defs.length = m0 := by
    intro m0; simp [joinFirst, upd]
  rcases construct_eq i f args hides with ⟨_, e'⟩ | ⟨c, cs, ef, e'⟩
  · rw [e', joinFirst_freeze, jg _ k kn]; exact ⟨rfl, rfl, al'⟩
  · rw [e']
    have hc : c ∈ args.filter (isOp g) := by rw [ef]; simp
    have hcs : ∀ x ∈ cs, x ∈ args ∧ isOp g x = true := by
      intro x hx
      have : x ∈ args.filter (isOp g) := by rw [ef]; simp [hx]
      exact List.mem_filter.mp this
    rw [List.mem_filter] at hc
    have j := joinFirst_J i f args hides hargs (g.gman c) (fun a => a = c)
      (Or.inr ⟨c, hc.1, hc.2, rfl, fun _ => Iff.rfl⟩)
    have key := consumeAll_keep (k := k) (m := g.gman k) cs _ _ j (by
      intro x hx
      rw [hA, hO _ _ (lt x (hcs x hx).1)]; exact hcs x hx) (by simp [joinFirst, upd, kn]; exact ka)
      (by rw [hO _ _ kn]; exact ko) (jg _ k kn) (by
        rw [jn]
        rcases hu with hu | ⟨c', h1, h2⟩
        · right
          have ne : ∀ x, x ∈ args → isOp g x = true → g.gman x ≠ g.gman k := by
            intro x h1 h2 h3
            have := hu x h1 h2
            simp [isSameGraph, h3] at this
          refine ⟨ne c hc.1 hc.2, fun x hx => ?_⟩
          rw [jg _ x (lt x (hcs x hx).1)]
          exact ne x (hcs x hx).1 (hcs x hx).2
        · left
          rw [ef] at h1
          simp at h1
          subst h1
          simpa [isSameGraph] using h2)
    rw [joinFirst_freeze] at key
    exact ⟨key.1, key.2, al'⟩

/-- A call that leaves a frozen graph alone keeps it frozen and its data as they are. -/
theorem step_frozen {S : Nat → Prop} {sch : Sched} {c : Call V} {g g' : G V} (i : InvE E S g) (h : step sch c g = .ok g')
    (k : Nat) (ka : g.alive k = true) (ko : isOp g k = true) (fz : (g.man (g.gman k)).freeze = true)
    (hu : Spec.Undisturbing g k c) :
    g'.alive k = true ∧ isOp g' k = true ∧ (g'.man (g'.gman k)).freeze = true ∧ g'.data k = g.data k := by
  have upd_case : ∀ (m : Nat) (g1 : G V), m ≠ g.gman k → managerUpdate sch m g = .ok g1 →
      g1.alive k = true ∧ isOp g1 k = true ∧ (g1.man (g1.gman k)).freeze = true ∧ g1.data k = g.data k ∧ g1.gman = g.gman := by
    intro m g1 hm h1
    have d := (managerUpdate_inv i h1).2
    refine ⟨by rw [d.frame.alive]; exact ka, by rw [isOp_congr d.frame.defs]; exact ko,
      by rw [d.frame.freeze, d.frame.gman]; exact fz, ?_, d.frame.gman⟩
    rcases d.frame.data k with e | ⟨_, e⟩
    · exact e
    · exact absurd e.symm hm
  cases c with
  | newLeaf v =>
    cases h
    have kl := i.wf.alive_lt k ka
    have kn : k ≠ g.defs.length := by omega
    refine ⟨by simp [newLeaf, upd, kn]; exact ka, ?_, fz, by simp [newLeaf, upd, kn]⟩
    rw [isOp_push (g := g) (d := .leaf) rfl, if_neg kn]; exact ko
  | newOp f args hd =>
    obtain ⟨_, dd, da, _, _, _⟩ := newOp_spec i h
    have kl := i.wf.alive_lt k ka
    obtain ⟨e1, e2, e3⟩ := newOp_keep i h k ka ko hu
    refine ⟨e3, ?_, by rw [e1, e2]; exact fz, da k kl⟩
    rw [isOp_push dd, if_neg (by omega)]; exact ko
  | assign n v b =>
    have nk : ∀ (hn : isOp g n = false), k ≠ n := by intro hn e; rw [e, hn] at ko; cases ko
    cases b with
    | true =>
      obtain ⟨_, _, hn, e⟩ := assign_loud i h
      refine ⟨by rw [e.alive]; exact ka, by rw [isOp_congr e.defs]; exact ko, by rw [e.freeze, e.gman]; exact fz, ?_⟩
      rcases e.data k with e1 | ⟨_, e1⟩
      · rw [e1]; simp [setLeaf, upd, nk hn]
      · have e1 : (g.man (g.gman k)).freeze = false := e1
        rw [fz] at e1; cases e1
    | false =>
      obtain ⟨_, _, hn, e⟩ := assign_silent i h
      subst e
      exact ⟨ka, ko, fz, by simp [setLeaf, upd, nk hn]⟩
  | eval n =>
    simp only [step, eval] at h
    split at h
    · split at h
      · next c2 =>
        rw [Outcome.bind_eq_ok] at h
        obtain ⟨r, h1, h2⟩ := h
        rw [Outcome.bind_eq_ok] at h1
        obtain ⟨g1, h1, h3⟩ := h1
        cases h3; cases h2
        simp only [Bool.and_eq_true, Bool.not_eq_true'] at c2
        have := upd_case _ _ (fun e => by rw [e, fz] at c2; exact absurd c2.2 (by simp)) h1
        exact ⟨this.1, this.2.1, this.2.2.1, this.2.2.2.1⟩
      · cases h; exact ⟨ka, ko, fz, rfl⟩
    · cases h
  | getShape n =>
    simp only [step, getShape] at h
    split at h
    · split at h
      · next c2 =>
        have hu := hu c2
        have := upd_case _ _ (fun e => by simp [isSameGraph, e] at hu) h
        exact ⟨this.1, this.2.1, this.2.2.1, this.2.2.2.1⟩
      · cases h; exact ⟨ka, ko, fz, rfl⟩
    · cases h
  | freeze n b =>
    have hne : g.gman n ≠ g.gman k := fun e => by simp [Spec.Undisturbing, isSameGraph, e] at hu
    have sf : ∀ (g1 : G V), g1.gman = g.gman → (setFreeze (g1.gman n) b g1).man (g1.gman k) = g1.man (g1.gman k) := by
      intro g1 e
      simp only [setFreeze, upd]
      rw [if_neg]; rw [e]; exact fun e => hne e.symm
    simp only [step, freezeStatus] at h
    split at h
    · cases b with
      | true =>
        rw [if_pos rfl, Outcome.bind_eq_ok] at h
        obtain ⟨g1, h1, h2⟩ := h
        cases h2
        have := upd_case _ _ hne h1
        refine ⟨this.1, this.2.1, ?_, this.2.2.2.1⟩
        show ((setFreeze (g1.gman n) true g1).man (g1.gman k)).freeze = true
        rw [sf g1 this.2.2.2.2]; exact this.2.2.1
      | false =>
        rw [if_neg (by simp), Outcome.ok_bind] at h
        cases h
        refine ⟨ka, ko, ?_, rfl⟩
        show ((setFreeze (g.gman n) false g).man (g.gman k)).freeze = true
        rw [sf g rfl]; exact fz
    · cases h
  | delete n =>
    have hk := hu g' h
    obtain ⟨_, e1, e2, e3, e4, _⟩ := delete_inv i h
    exact ⟨hk, by rw [isOp_congr e1]; exact ko, by rw [e3, e4]; exact fz, by rw [e2]⟩

theorem run_frozen (k : Nat) (cs : List (Sched × Call V)) : ∀ {g g' : G V} {t : Spec.Told V}, InvE E (fun _ => True) g → Agrees t g →
    run cs g = .ok g' → g.alive k = true → isOp g k = true → (g.man (g.gman k)).freeze = true →
    Spec.UndisturbedRun k cs g →
    g'.alive k = true ∧ isOp g' k = true ∧ (g'.man (g'.gman k)).freeze = true ∧ g'.data k = g.data k := by
  induction cs with
  | nil => intro g g' t _ _ h ka ko fz _; cases h; exact ⟨ka, ko, fz, rfl⟩
  | cons c cs ih =>
    intro g g' t i a h ka ko fz hu
    rw [run, Outcome.bind_eq_ok] at h
    obtain ⟨g1, h1, h2⟩ := h
    obtain ⟨i1, a1⟩ := step_inv i a (Or.inr (fun _ => trivial)) h1
    obtain ⟨b1, b2, b3, b4⟩ := step_frozen i h1 k ka ko fz hu.1
    obtain ⟨c1, c2, c3, c4⟩ := ih i1 a1 h2 b1 b2 b3 (hu.2 g1 h1)
    exact ⟨c1, c2, c3, c4.trans b4⟩

/-! ### Success -/

theorem step_total {S : Nat → Prop} {sch : Sched} {c : Call V} {g : G V} {t : Spec.Told V} (i : InvE E S g) (a : Agrees t g)
    (tt : Total g) (al : ∀ x, x < g.defs.length → g.alive x = true) (hs : Spec.Sensible t c) :
    ∃ g', step sch c g = .ok g' ∧ Total g' ∧ ∀ x, x < g'.defs.length → g'.alive x = true := by
  have mu : ∀ m, ∃ g', managerUpdate sch m g = .ok g' ∧ Total g' ∧ (∀ x, x < g'.defs.length → g'.alive x = true) := by
    intro m
    obtain ⟨g', h⟩ := managerUpdate_total sch m i.wf i.q i.settled i.fq tt al
    have d := (managerUpdate_inv i h).2
    exact ⟨g', h, tt.congr d.frame.defs, by rw [d.frame.defs, d.frame.alive]; exact al⟩
  cases c with
  | newLeaf v =>
    refine ⟨newLeaf v g, rfl, ?_, ?_⟩
    · intro k f args b e
      have e : (g.defs ++ [Def.leaf])[k]? = some (.op f args b) := e
      rw [getElem?_push] at e
      split at e
      · cases e
      · exact tt k f args b e
    · intro x hx
      have hx : x < (g.defs ++ [Def.leaf]).length := hx
      simp at hx
      show upd g.alive g.defs.length true x = true
      unfold upd
      split
      · rfl
      · exact al x (by omega)
  | newOp f args hd =>
    obtain ⟨h1, h2, h3⟩ := hs
    have hargs : ∀ a ∈ args, g.alive a = true := fun x hx => al x (by rw [a.nodes]; exact h2 x hx)
    obtain ⟨g', h⟩ := newOp_total (sch := sch) (hides := hd) i tt h1 hargs h3
    obtain ⟨_, dd, _, _, _, e⟩ := newOp_spec i h
    obtain ⟨_, _, _, ac⟩ := construct_inv i f args hd hargs
    refine ⟨g', h, ?_, ?_⟩
    · intro k f' as b e
      rw [dd, getElem?_push] at e
      split at e
      · cases e; exact h3
      · exact tt k f' as b e
    · intro x hx
      rw [dd] at hx
      simp at hx
      rw [e.alive, ac]
      unfold upd
      split
      · rfl
      · exact al x (by omega)
  | assign n v b =>
    have hl : g.defs[n]? = some .leaf := by rw [a.nodes]; exact hs
    have nl : n < g.defs.length := by
      by_contra c; rw [List.getElem?_eq_none (by omega)] at hl; cases hl
    have cond : (g.alive n && !isOp g n) = true := by rw [al n nl, isOp_leaf hl]; rfl
    cases b with
    | true =>
      have : ∃ g', assign sch n v true g = .ok g' := by
        unfold assign
        rw [if_pos cond, if_pos rfl]
        obtain ⟨g', h, _⟩ := notify_total sch (g.defs.length + 1) n (setLeaf n v g) tt i.wf.args_lt nl (by show g.defs.length < _; omega)
        exact ⟨g', h⟩
      obtain ⟨g', h⟩ := this
      obtain ⟨_, _, _, e⟩ := assign_loud i h
      refine ⟨g', h, ?_, ?_⟩
      · exact tt.congr e.defs
      · rw [e.defs, e.alive]; exact al
    | false =>
      refine ⟨setLeaf n v g, ?_, tt, al⟩
      show assign sch n v false g = _
      unfold assign
      rw [if_pos cond, if_neg (by simp)]
      rfl
  | eval n =>
    have nl : n < g.defs.length := by rw [a.nodes]; exact hs
    by_cases c2 : (isOp g n && !(g.man (g.gman n)).freeze) = true
    · obtain ⟨g', h, r⟩ := mu (g.gman n)
      refine ⟨g', ?_, r⟩
      simp only [step, eval]
      rw [if_pos (al n nl), if_pos c2, h]; rfl
    · refine ⟨g, ?_, tt, al⟩
      simp only [step, eval]
      rw [if_pos (al n nl), if_neg c2]; rfl
  | getShape n =>
    have nl : n < g.defs.length := by rw [a.nodes]; exact hs
    by_cases c2 : isOp g n = true
    · obtain ⟨g', h, r⟩ := mu (g.gman n)
      refine ⟨g', ?_, r⟩
      simp only [step, getShape]
      rw [if_pos (al n nl), if_pos c2, h]
    · refine ⟨g, ?_, tt, al⟩
      simp only [step, getShape]
      rw [if_pos (al n nl), if_neg c2]
  | freeze n b =>
    have ho : isOp g n = true := by rw [isOp_iff, a.nodes]; exact hs
    have cond : (g.alive n && isOp g n) = true := by rw [al n (isOp_lt ho), ho]; rfl
    cases b with
    | true =>
      obtain ⟨g', h, r1, r2⟩ := mu (g.gman n)
      refine ⟨setFreeze (g'.gman n) true g', ?_, r1, r2⟩
      simp only [step, freezeStatus]
      rw [if_pos cond, if_pos trivial, h]; rfl
    | false =>
      refine ⟨setFreeze (g.gman n) false g, ?_, tt, al⟩
      simp only [step, freezeStatus]
      rw [if_pos cond, if_neg (by simp)]; rfl
  | delete n => exact hs.elim

theorem run_total (cs : List (Sched × Call V)) : ∀ {g : G V} {t : Spec.Told V}, InvE E (fun _ => True) g → Agrees t g → Total g →
    (∀ x, x < g.defs.length → g.alive x = true) →
    (∀ pre c post, cs.map Prod.snd = pre ++ c :: post → Spec.Sensible (pre.foldl Spec.tell t) c) →
    ∃ g', run cs g = .ok g' ∧ Total g' ∧ ∀ x, x < g'.defs.length → g'.alive x = true := by
  induction cs with
  | nil => intro g t _ _ tt al _; exact ⟨g, rfl, tt, al⟩
  | cons c cs ih =>
    intro g t i a tt al hs
    obtain ⟨g1, h1, t1, l1⟩ := step_total (sch := c.1) i a tt al (hs [] c.2 (cs.map Prod.snd) (by simp))
    obtain ⟨i1, a1⟩ := step_inv i a (Or.inr (fun _ => trivial)) h1
    obtain ⟨g', h2, r⟩ := ih i1 a1 t1 l1 (by
      intro pre x post e
      have := hs (c.2 :: pre) x post (by simp [e])
      simpa using this)
    exact ⟨g', by rw [run, h1]; exact h2, r⟩

end Graph
end Verif
