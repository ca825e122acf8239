import Verif.Spec.Train
import Verif.Lemmas.GraphFreeze
/-!
# Running updaters on the graph
-/
namespace Verif
namespace Graph
open React (upd forEach)
open Spec (Told tell told Moved)

variable {V : Type}

/-- Evaluations and assignments. -/
def Calm (us : List (Act V)) (c : Call V) : Prop :=
  (∃ n, c = .eval n) ∨ ∃ u ∈ us, ∃ v, c = .assign u.leaf v u.ntf

theorem undisturbed_calm {us : List (Act V)} (k : Nat) (ds : List (Sched × Call V)) (h : ∀ c ∈ ds, Calm us c.2) (g : G V) :
    Spec.UndisturbedRun k ds g := by
  induction ds generalizing g with
  | nil => trivial
  | cons c ds ih =>
    refine ⟨?_, fun g' _ => ih (fun c hc => h c (by simp [hc])) g'⟩
    rcases h c (by simp) with ⟨n, e⟩ | ⟨u, _, v, e⟩ <;> rw [e] <;> trivial

theorem run_one (s : Sched) (c : Call V) (g : G V) : run [(s, c)] g = step s c g := by
  simp only [run]; cases step s c g <;> rfl

/-- What running one updater does. -/
theorem act_run {S : Nat → Prop} {u : Act V} {g g' : G V} {t : Told V} (i : Inv S g) (a : Agrees t g) (h : act u g = .ok g') :
    ∃ ds : List (Sched × Call V), run ds g = .ok g' ∧ (∀ c ∈ ds, Calm [u] c.2) ∧
      ((ds.map Prod.snd).foldl tell t).nodes = t.nodes ∧
      (∀ l, l ≠ u.leaf → ((ds.map Prod.snd).foldl tell t).leaf l = t.leaf l) ∧
      (u.src = .skip → ((ds.map Prod.snd).foldl tell t).leaf u.leaf = t.leaf u.leaf) ∧
      (∀ b, u.src = .const b → Moved u.f b (t.leaf u.leaf) (((ds.map Prod.snd).foldl tell t).leaf u.leaf)) ∧
      (∀ n, u.src = .node n → ∃ b g1, eval u.sch n g = .ok (some b, g1) ∧
        Moved u.f b (t.leaf u.leaf) (((ds.map Prod.snd).foldl tell t).leaf u.leaf)) := by
  have app : ∀ (b : V) (g0 g' : G V), Agrees t g0 → applyTo u b g0 = .ok g' → (∀ k, g0.alive k = true → k < g0.defs.length) →
      ∃ ds : List (Sched × Call V), run ds g0 = .ok g' ∧ (∀ c ∈ ds, Calm [u] c.2) ∧
      ((ds.map Prod.snd).foldl tell t).nodes = t.nodes ∧
      (∀ l, l ≠ u.leaf → ((ds.map Prod.snd).foldl tell t).leaf l = t.leaf l) ∧
      Moved u.f b (t.leaf u.leaf) (((ds.map Prod.snd).foldl tell t).leaf u.leaf) := by
    intro b g0 g' a0 h0 hal
    unfold applyTo at h0
    by_cases hc : (g0.alive u.leaf && !isOp g0 u.leaf) = true
    · rw [if_pos hc] at h0
      simp only [Bool.and_eq_true, Bool.not_eq_true'] at hc
      have hlf := a0.leaf u.leaf (leaf_of_not_op hc.2 (hal _ hc.1))
      cases hd : g0.data u.leaf with
      | none =>
        rw [hd] at h0
        cases h0
        refine ⟨[], rfl, by simp, rfl, fun _ _ => rfl, Or.inl ?_⟩
        rw [← hlf, hd]; exact ⟨rfl, by show t.leaf u.leaf = none; rw [← hlf, hd]⟩
      | some x =>
        rw [hd] at h0
        simp only [Outcome.bind_eq_ok] at h0
        obtain ⟨v, hv, h0⟩ := h0
        refine ⟨[(u.sch, .assign u.leaf v u.ntf)], by rw [run_one]; exact h0, ?_, rfl, ?_, Or.inr ⟨x, v, ?_, hv, ?_⟩⟩
        · intro c hc'; rw [List.mem_singleton] at hc'; subst hc'; exact Or.inr ⟨u, by simp, v, rfl⟩
        · intro l hl; simp [tell, upd, hl]
        · rw [← hlf, hd]
        · simp [tell, upd]
    · rw [if_neg hc] at h0; cases h0
  unfold act at h
  cases hs : u.src with
  | skip =>
    rw [hs] at h; cases h
    exact ⟨[], rfl, by simp, rfl, fun _ _ => rfl, fun _ => rfl, fun b hb => by simp at hb, fun n hn => by simp at hn⟩
  | const b =>
    rw [hs] at h
    obtain ⟨ds, h1, h2, h3, h4, h5⟩ := app b g g' a h i.wf.alive_lt
    refine ⟨ds, h1, h2, h3, h4, (fun c => by cases c), ?_, (fun n hn => by cases hn)⟩
    intro b' hb; cases hb; exact h5
  | node n =>
    rw [hs] at h
    simp only [Outcome.bind_eq_ok] at h
    obtain ⟨r, hr, h⟩ := h
    have hst : step u.sch (.eval n) g = .ok r.2 := by simp only [step, hr, Outcome.ok_bind]
    obtain ⟨i1, a1⟩ := step_inv i a (Or.inl (show Spec.Loud (Call.eval n) from trivial)) hst
    unfold applyEval at h
    cases hb : r.1 with
    | none => rw [hb] at h; cases h
    | some b =>
      rw [hb] at h
      obtain ⟨ds, h1, h2, h3, h4, h5⟩ := app b r.2 g' a1 h i1.wf.alive_lt
      refine ⟨(u.sch, .eval n) :: ds, ?_, ?_, h3, h4, (fun c => by cases c), (fun b hb => by cases hb), ?_⟩
      · simp only [run, hst, Outcome.ok_bind]; exact h1
      · intro c hc
        rcases List.mem_cons.mp hc with rfl | hc
        · exact Or.inl ⟨n, rfl⟩
        · exact h2 c hc
      · intro n' hn
        cases hn
        exact ⟨b, r.2, by rw [hr, ← hb], h5⟩

/-- Running updaters whose sources are all in frozen graphs: simultaneous. -/
theorem acts_frozen (us : List (Act V)) : ∀ {g g' : G V} {t : Told V}, Inv (fun _ => True) g → Agrees t g →
    forEach act us g = .ok g' → (us.map (·.leaf)).Nodup →
    (∀ u ∈ us, ∀ n, u.src = .node n → isOp g n = true ∧ g.alive n = true ∧ (g.man (g.gman n)).freeze = true) →
    ∃ ds : List (Sched × Call V), run ds g = .ok g' ∧ (∀ c ∈ ds, Calm us c.2) ∧
      ((ds.map Prod.snd).foldl tell t).nodes = t.nodes ∧
      (∀ l, l ∉ us.map (·.leaf) → ((ds.map Prod.snd).foldl tell t).leaf l = t.leaf l) ∧
      ∀ u ∈ us, (u.src = .skip → ((ds.map Prod.snd).foldl tell t).leaf u.leaf = t.leaf u.leaf) ∧
        (∀ b, u.src = .const b → Moved u.f b (t.leaf u.leaf) (((ds.map Prod.snd).foldl tell t).leaf u.leaf)) ∧
        (∀ n, u.src = .node n → ∃ b, g.data n = some b ∧ Moved u.f b (t.leaf u.leaf) (((ds.map Prod.snd).foldl tell t).leaf u.leaf)) := by
  induction us with
  | nil =>
    intro g g' t _ _ h _ _
    cases h
    exact ⟨[], rfl, by simp, rfl, fun _ _ => rfl, by simp⟩
  | cons u us ih =>
    intro g g' t i a h hnd hK
    rw [forEach, Outcome.bind_eq_ok] at h
    obtain ⟨g1, h1, h2⟩ := h
    obtain ⟨ds1, r1, c1, n1, o1, k1, b1, s1⟩ := act_run i a h1
    rw [List.map_cons, List.nodup_cons] at hnd
    obtain ⟨i1, a1⟩ := run_inv ds1 i a (Or.inr fun _ => trivial) r1
    have hfz : ∀ n, isOp g n = true → g.alive n = true → (g.man (g.gman n)).freeze = true →
        isOp g1 n = true ∧ g1.alive n = true ∧ (g1.man (g1.gman n)).freeze = true ∧ g1.data n = g.data n := by
      intro n x1 x2 x3
      obtain ⟨y1, y2, y3, y4⟩ := run_frozen n ds1 i a r1 x2 x1 x3 (undisturbed_calm n ds1 c1 g)
      exact ⟨y2, y1, y3, y4⟩
    obtain ⟨ds2, r2, c2, n2, o2, k2⟩ := ih i1 a1 h2 hnd.2 (fun v hv n hn => by
      obtain ⟨x1, x2, x3⟩ := hK v (by simp [hv]) n hn
      obtain ⟨y1, y2, y3, _⟩ := hfz n x1 x2 x3
      exact ⟨y1, y2, y3⟩)
    have hfold : ((ds1 ++ ds2).map Prod.snd).foldl tell t = (ds2.map Prod.snd).foldl tell ((ds1.map Prod.snd).foldl tell t) := by
      rw [List.map_append, List.foldl_append]
    refine ⟨ds1 ++ ds2, ?_, ?_, ?_, ?_, ?_⟩
    · rw [run_append, r1]; exact r2
    · intro c hc
      rcases List.mem_append.mp hc with hc | hc
      · rcases c1 c hc with e | ⟨w, hw, e⟩
        · exact Or.inl e
        · exact Or.inr ⟨w, by simp at hw; simp [hw], e⟩
      · rcases c2 c hc with e | ⟨w, hw, e⟩
        · exact Or.inl e
        · exact Or.inr ⟨w, by simp [hw], e⟩
    · rw [hfold, n2, n1]
    · intro l hl
      simp only [List.map_cons, List.mem_cons, not_or] at hl
      rw [hfold, o2 l hl.2, o1 l hl.1]
    · intro v hv
      rw [hfold]
      rcases List.mem_cons.mp hv with rfl | hv
      · rw [o2 v.leaf hnd.1]
        refine ⟨k1, b1, fun n hn => ?_⟩
        obtain ⟨b, g2, e1, e2⟩ := s1 n hn
        obtain ⟨x1, x2, x3⟩ := hK v (by simp) n hn
        refine ⟨b, ?_, e2⟩
        unfold eval at e1
        rw [if_pos x2, if_neg (by rw [x3]; simp)] at e1
        injection e1 with e1
        exact (Prod.mk.inj e1).1
      · have hne : v.leaf ≠ u.leaf := fun e => hnd.1 (e ▸ List.mem_map_of_mem hv)
        obtain ⟨y1, y2, y3⟩ := k2 v hv
        rw [o1 v.leaf hne] at y1 y2 y3
        refine ⟨y1, y2, fun n hn => ?_⟩
        obtain ⟨x1, x2, x3⟩ := hK v (by simp [hv]) n hn
        obtain ⟨_, _, _, e⟩ := hfz n x1 x2 x3
        obtain ⟨b, z1, z2⟩ := y3 n hn
        exact ⟨b, by rw [← e]; exact z1, z2⟩

/-- Evaluations, assignments and freezing. -/
def Steady (c : Call V) : Prop := (∃ n, c = .eval n) ∨ (∃ n v b, c = .assign n v b) ∨ ∃ n b, c = .freeze n b

theorem Calm.steady {us : List (Act V)} {c : Call V} (h : Calm us c) : Steady c := by
  rcases h with h | ⟨u, _, v, e⟩
  · exact Or.inl h
  · exact Or.inr (Or.inl ⟨_, _, _, e⟩)

theorem steady_alive {S : Nat → Prop} {sch : Sched} {c : Call V} {g g' : G V} (i : Inv S g) (hc : Steady c) (h : step sch c g = .ok g') :
    g'.alive = g.alive ∧ g'.defs = g.defs ∧ g'.gman = g.gman := by
  rcases hc with ⟨n, rfl⟩ | ⟨n, v, b, rfl⟩ | ⟨n, b, rfl⟩
  · simp only [step, eval] at h
    split at h
    · split at h
      · rw [Outcome.bind_eq_ok] at h
        obtain ⟨r, h1, h2⟩ := h
        rw [Outcome.bind_eq_ok] at h1
        obtain ⟨g1, h1, h3⟩ := h1
        cases h3; cases h2
        have d := (managerUpdate_inv i h1).2
        exact ⟨d.frame.alive, d.frame.defs, d.frame.gman⟩
      · cases h; exact ⟨rfl, rfl, rfl⟩
    · cases h
  · cases b with
    | true =>
      obtain ⟨_, _, _, e⟩ := assign_loud i h
      exact ⟨e.alive, e.defs, e.gman⟩
    | false =>
      obtain ⟨_, _, _, e⟩ := assign_silent i h
      subst e; exact ⟨rfl, rfl, rfl⟩
  · simp only [step, freezeStatus] at h
    split at h
    · rw [Outcome.bind_eq_ok] at h
      obtain ⟨g1, h1, h2⟩ := h
      cases h2
      cases b with
      | true =>
        rw [if_pos rfl] at h1
        have d := (managerUpdate_inv i h1).2
        exact ⟨d.frame.alive, d.frame.defs, d.frame.gman⟩
      | false => rw [if_neg (by simp)] at h1; cases h1; exact ⟨rfl, rfl, rfl⟩
    · cases h

theorem run_steady (cs : List (Sched × Call V)) : ∀ {g g' : G V} {t : Told V}, Inv (fun _ => True) g → Agrees t g →
    (∀ c ∈ cs, Steady c.2) → run cs g = .ok g' → g'.alive = g.alive ∧ g'.defs = g.defs ∧ g'.gman = g.gman := by
  induction cs with
  | nil => intro g g' t _ _ _ h; cases h; exact ⟨rfl, rfl, rfl⟩
  | cons c cs ih =>
    intro g g' t i a hc h
    rw [run, Outcome.bind_eq_ok] at h
    obtain ⟨g1, h1, h2⟩ := h
    obtain ⟨e1, e2, e3⟩ := steady_alive i (hc c (by simp)) h1
    obtain ⟨i1, a1⟩ := step_inv i a (Or.inr fun _ => trivial) h1
    obtain ⟨f1, f2, f3⟩ := ih i1 a1 (fun x hx => hc x (by simp [hx])) h2
    exact ⟨f1.trans e1, f2.trans e2, f3.trans e3⟩

/-- Freezing: the graph is drained and frozen. -/
theorem freeze_effect {S : Nat → Prop} {sch : Sched} {n : Nat} {g g' : G V} (i : Inv S g) (h : freezeStatus sch n true g = .ok g') :
    g.alive n = true ∧ isOp g n = true ∧ g'.alive = g.alive ∧ g'.defs = g.defs ∧ g'.gman = g.gman ∧ (g'.man (g'.gman n)).freeze = true := by
  have h0 : step sch (.freeze n true) g = .ok g' := h
  obtain ⟨e1, e2, e3⟩ := steady_alive i (Or.inr (Or.inr ⟨n, true, rfl⟩)) h0
  unfold freezeStatus at h
  split at h
  · next c =>
    simp only [Bool.and_eq_true] at c
    rw [if_pos rfl, Outcome.bind_eq_ok] at h
    obtain ⟨g1, h1, h2⟩ := h
    cases h2
    refine ⟨c.1, c.2, e1, e2, e3, ?_⟩
    show ((setFreeze (g1.gman n) true g1).man (g1.gman n)).freeze = true
    simp [setFreeze, upd]
  · cases h

/-- A round of training, whatever the history: simultaneous, from the data found at freezing. -/
theorem round_core {cs : List (Sched × Call V)} {g g' : G V} {s₁ s₂ : Sched} {root : Nat} {us : List (Act V)}
    (hr : run cs G.empty = .ok g) (ht : trainRound s₁ s₂ root us g = .ok g') (hd : (us.map (·.leaf)).Nodup)
    (hs : ∀ u ∈ us, ∀ n, u.src = .node n → g.alive n = true ∧ isOp g n = true ∧ isSameGraph g root n = true) :
    ∃ (g1 : G V) (ds : List (Sched × Call V)), step s₁ (.freeze root true) g = .ok g1 ∧ run (cs ++ ds) G.empty = .ok g' ∧
      (∀ c ∈ ds, (∃ n b, c.2 = .freeze n b) ∨ Calm us c.2) ∧
      (told ((cs ++ ds).map Prod.snd)).nodes = (told (cs.map Prod.snd)).nodes ∧
      (∀ l, l ∉ us.map (·.leaf) → (told ((cs ++ ds).map Prod.snd)).leaf l = (told (cs.map Prod.snd)).leaf l) ∧
      g1.alive = g.alive ∧ g1.defs = g.defs ∧ g1.gman = g.gman ∧ (g1.man (g1.gman root)).freeze = true ∧
      ∀ u ∈ us, (u.src = .skip → (told ((cs ++ ds).map Prod.snd)).leaf u.leaf = (told (cs.map Prod.snd)).leaf u.leaf) ∧
        (∀ b, u.src = .const b → Moved u.f b ((told (cs.map Prod.snd)).leaf u.leaf) ((told ((cs ++ ds).map Prod.snd)).leaf u.leaf)) ∧
        (∀ n, u.src = .node n → ∃ b, g1.data n = some b ∧
          Moved u.f b ((told (cs.map Prod.snd)).leaf u.leaf) ((told ((cs ++ ds).map Prod.snd)).leaf u.leaf)) := by
  obtain ⟨i, a⟩ := reach_inv (S := fun _ => True) (Or.inr fun _ => trivial) hr
  unfold trainRound at ht
  rw [Outcome.bind_eq_ok] at ht
  obtain ⟨g1, h1, ht⟩ := ht
  rw [Outcome.bind_eq_ok] at ht
  obtain ⟨g2, h2, h3⟩ := ht
  have st1 : step s₁ (.freeze root true) g = .ok g1 := h1
  have st3 : step s₂ (.freeze root false) g2 = .ok g' := h3
  obtain ⟨i1, a1⟩ := step_inv i a (Or.inr fun _ => trivial) st1
  obtain ⟨_, _, e1, e2, e3, e4⟩ := freeze_effect i h1
  obtain ⟨ds, r, c, n, o, k⟩ := acts_frozen us i1 a1 h2 hd (fun u hu n hn => by
    obtain ⟨x1, x2, x3⟩ := hs u hu n hn
    refine ⟨by rw [isOp_congr e2]; exact x2, by rw [e1]; exact x1, ?_⟩
    have : g.gman root = g.gman n := by simpa [isSameGraph] using x3
    rw [e3, ← this]; rw [e3] at e4; exact e4)
  have htold : told ((cs ++ ((s₁, Call.freeze root true) :: ds ++ [(s₂, Call.freeze root false)])).map Prod.snd) =
      (ds.map Prod.snd).foldl tell (told (cs.map Prod.snd)) := by
    simp [told, List.foldl_append, tell]
  refine ⟨g1, (s₁, .freeze root true) :: ds ++ [(s₂, .freeze root false)], st1, ?_, ?_, ?_, ?_, e1, e2, e3, e4, ?_⟩
  · rw [run_append, hr, Outcome.ok_bind, run_append]
    simp only [run, st1, Outcome.ok_bind, r, st3]
  · intro x hx
    simp only [List.cons_append, List.mem_cons, List.mem_append, List.not_mem_nil, or_false] at hx
    rcases hx with rfl | hx | rfl
    · exact Or.inl ⟨_, _, rfl⟩
    · exact Or.inr (c x hx)
    · exact Or.inl ⟨_, _, rfl⟩
  · rw [htold]; exact n
  · intro l hl; rw [htold]; exact o l hl
  · intro u hu; rw [htold]; exact k u hu

/-- Evaluations and assignments freeze nothing. -/
theorem calm_freeze {us : List (Act V)} (cs : List (Sched × Call V)) : ∀ {g g' : G V} {t : Told V}, Inv (fun _ => True) g →
    Agrees t g → (∀ c ∈ cs, Calm us c.2) → run cs g = .ok g' → ∀ m, (g'.man m).freeze = true → (g.man m).freeze = true := by
  induction cs with
  | nil => intro g g' t _ _ _ h; cases h; exact fun _ h => h
  | cons c cs ih =>
    intro g g' t i a hc h m hm
    rw [run, Outcome.bind_eq_ok] at h
    obtain ⟨g1, h1, h2⟩ := h
    obtain ⟨i1, a1⟩ := step_inv i a (Or.inr fun _ => trivial) h1
    refine step_freeze_le i ?_ h1 m (ih i1 a1 (fun x hx => hc x (by simp [hx])) h2 m hm)
    intro n e
    rcases hc c (by simp) with ⟨k, e'⟩ | ⟨u, _, v, e'⟩ <;> rw [e'] at e <;> cases e

/-- Updaters that ran to their end had live sources. -/
theorem acts_alive (us : List (Act V)) : ∀ {g g' : G V} {t : Told V}, Inv (fun _ => True) g → Agrees t g →
    forEach act us g = .ok g' → ∀ u ∈ us, ∀ n, u.src = .node n → g.alive n = true := by
  induction us with
  | nil => intro g g' t _ _ _ u hu; simp at hu
  | cons u us ih =>
    intro g g' t i a h v hv n hn
    rw [forEach, Outcome.bind_eq_ok] at h
    obtain ⟨g1, h1, h2⟩ := h
    obtain ⟨ds1, r1, c1, _, _, _, _, s1⟩ := act_run i a h1
    rcases List.mem_cons.mp hv with rfl | hv
    · obtain ⟨b, g2, e, _⟩ := s1 n hn
      by_contra c
      unfold eval at e
      rw [if_neg c] at e; cases e
    · obtain ⟨i1, a1⟩ := run_inv ds1 i a (Or.inr fun _ => trivial) r1
      have := ih i1 a1 h2 v hv n hn
      rw [(run_steady ds1 i a (fun c hc => (c1 c hc).steady) r1).1] at this
      exact this

theorem trainRound_alive {s₁ s₂ : Sched} {root : Nat} {us : List (Act V)} {g g' : G V} {t : Told V} (i : Inv (fun _ => True) g)
    (a : Agrees t g) (h : trainRound s₁ s₂ root us g = .ok g') :
    g.alive root = true ∧ isOp g root = true ∧ ∀ u ∈ us, ∀ n, u.src = .node n → g.alive n = true := by
  unfold trainRound at h
  rw [Outcome.bind_eq_ok] at h
  obtain ⟨g1, h1, h⟩ := h
  rw [Outcome.bind_eq_ok] at h
  obtain ⟨g2, h2, _⟩ := h
  obtain ⟨e1, e2, e3, _⟩ := freeze_effect i h1
  obtain ⟨i1, a1⟩ := step_inv i a (Or.inr fun _ => trivial) (show step s₁ (.freeze root true) g = .ok g1 from h1)
  exact ⟨e1, e2, fun u hu n hn => by rw [← e3]; exact acts_alive us i1 a1 h2 u hu n hn⟩

end Graph
end Verif
