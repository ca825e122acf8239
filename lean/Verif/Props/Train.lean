import Verif.Lemmas.Train
import Verif.Props.Graph
/-!
# C49, C50: training
-/
namespace Verif.Props
open Graph Spec
open React (upd forEach)

variable {V : Type}

/-- **C50.** A round of training as `gd_net::train` does it, after any history of calls in which assignments
notify: if the steps belong to the graph that is frozen meanwhile, all trained variables move at once, each
by the value its step has for the old values of all variables; the others keep theirs.  Afterwards the graph
is in a state that a history of such calls leads to, so this applies again. -/
theorem c50_simultaneous (cs : List (Sched × Call V)) (g g' : G V) (s₁ s₂ : Sched) (root : Nat) (us : List (Act V))
    (hr : run cs G.empty = .ok g) (hl : ∀ c ∈ cs, Loud c.2) (ht : trainRound s₁ s₂ root us g = .ok g')
    (hn : ∀ u ∈ us, u.ntf = true) (hd : (us.map (·.leaf)).Nodup)
    (hs : StepsLinked (told (cs.map Prod.snd)).nodes root us) :
    ∃ ds : List (Sched × Call V), run (cs ++ ds) G.empty = .ok g' ∧ (∀ c ∈ cs ++ ds, Loud c.2) ∧
      (told ((cs ++ ds).map Prod.snd)).nodes = (told (cs.map Prod.snd)).nodes ∧ g'.alive = g.alive ∧
      Round (told (cs.map Prod.snd)).nodes us (told (cs.map Prod.snd)).leaf (told ((cs ++ ds).map Prod.snd)).leaf := by
  obtain ⟨i, a⟩ := reach_inv (S := fun _ => True) (Or.inr fun _ => trivial) hr
  obtain ⟨ra, ro, ha⟩ := trainRound_alive i a ht
  have hroot : g.alive root = true ∧ isOp g root = true := ⟨ra, ro⟩
  have hop : ∀ u ∈ us, ∀ n, u.src = .node n → isOp g n = true := by
    intro u hu n hn'
    obtain ⟨x, _⟩ := hs u hu n hn'
    rw [isOp_iff, a.nodes]; exact x
  obtain ⟨g1, ds, st1, r, c, n, o, e1, e2, e3, e4, k⟩ := round_core hr ht hd (fun u hu n hn' => by
    refine ⟨ha u hu n hn', hop u hu n hn', ?_⟩
    exact (c32_same_graph_iff_linked cs g hr root n hroot.1 (ha u hu n hn') hroot.2 (hop u hu n hn')).mpr (hs u hu n hn').2)
  have rd : run ds g = .ok g' := by rw [run_append, hr] at r; exact r
  have hsteady : ∀ c ∈ ds, Steady c.2 := by
    intro x hx
    rcases c x hx with ⟨m, b, e⟩ | h
    · exact Or.inr (Or.inr ⟨m, b, e⟩)
    · exact h.steady
  refine ⟨ds, r, ?_, n, (run_steady ds i a hsteady rd).1, o, ?_⟩
  · intro x hx
    rcases List.mem_append.mp hx with hx | hx
    · exact hl x hx
    · rcases c x hx with ⟨m, b, e⟩ | ⟨m, e⟩ | ⟨u, hu, v, e⟩
      · rw [e]; trivial
      · rw [e]; trivial
      · rw [e, hn u hu]; rfl
  · intro u hu
    obtain ⟨k1, k2, k3⟩ := k u hu
    refine ⟨k1, k2, fun m hm => ?_⟩
    obtain ⟨b, h1, h2⟩ := k3 m hm
    refine ⟨b, ?_, h2⟩
    have same : g.gman root = g.gman m := by
      have := (c32_same_graph_iff_linked cs g hr root m hroot.1 (ha u hu m hm) hroot.2 (hop u hu m hm)).mpr (hs u hu m hm).2
      simpa [isSameGraph] using this
    have hz : (g1.man (g1.gman m)).freeze = true := by rw [e3] at e4 ⊢; rw [← same]; exact e4
    refine (c31_frozen_value cs [] g g1 g1 g1 s₁ s₁ root m (some b) hr hl st1 ?_ ?_ ?_ rfl trivial ?_ b).mp rfl
    · rw [isOp_congr e2]; exact hop u hu m hm
    · rw [e1]; exact ha u hu m hm
    · simp [isSameGraph, e3, same]
    · unfold eval
      rw [if_pos (by rw [e1]; exact ha u hu m hm), if_neg (by rw [hz]; simp), h1]

/-- Updaters run on a graph that is not frozen: one after the other. -/
theorem acts_seq (us : List (Act V)) : ∀ (cs : List (Sched × Call V)) (g g' : G V), run cs G.empty = .ok g →
    (∀ c ∈ cs, Loud c.2) → forEach act us g = .ok g' → (∀ u ∈ us, u.ntf = true) →
    (∀ u ∈ us, ∀ n, u.src = .node n → ¬ Frozen g n) →
    ∃ ds : List (Sched × Call V), run (cs ++ ds) G.empty = .ok g' ∧ (∀ c ∈ cs ++ ds, Loud c.2) ∧
      (told ((cs ++ ds).map Prod.snd)).nodes = (told (cs.map Prod.snd)).nodes ∧ g'.alive = g.alive ∧
      (∀ n, Frozen g' n → Frozen g n) ∧
      Sequential (told (cs.map Prod.snd)).nodes us (told (cs.map Prod.snd)).leaf (told ((cs ++ ds).map Prod.snd)).leaf := by
  induction us with
  | nil =>
    intro cs g g' hr hl h _ _
    cases h
    rw [← List.append_nil cs] at hr hl
    exact ⟨[], hr, hl, by rw [List.append_nil], rfl, fun _ h => h, by rw [List.append_nil]; exact .nil⟩
  | cons u us ih =>
    intro cs g g' hr hl h hn hz
    rw [forEach, Outcome.bind_eq_ok] at h
    obtain ⟨g1, h1, h2⟩ := h
    obtain ⟨i, a⟩ := reach_inv (S := fun _ => True) (Or.inr fun _ => trivial) hr
    obtain ⟨ds1, r1, c1, n1, o1, k1, b1, s1⟩ := act_run i a h1
    have hr1 : run (cs ++ ds1) G.empty = .ok g1 := by rw [run_append, hr]; exact r1
    have hl1 : ∀ c ∈ cs ++ ds1, Loud c.2 := by
      intro x hx
      rcases List.mem_append.mp hx with hx | hx
      · exact hl x hx
      · rcases c1 x hx with ⟨m, e⟩ | ⟨w, hw, v, e⟩
        · rw [e]; trivial
        · rw [List.mem_singleton] at hw; subst hw; rw [e, hn w (by simp)]; rfl
    obtain ⟨ea, ed, eg⟩ := run_steady ds1 i a (fun c hc => (c1 c hc).steady) r1
    have hf1 : ∀ n, Frozen g1 n → Frozen g n := by
      rintro n ⟨x, y⟩
      rw [ed] at x
      refine ⟨x, ?_⟩
      rw [eg] at y
      exact calm_freeze ds1 i a c1 r1 _ y
    have hfold : told ((cs ++ ds1).map Prod.snd) = (ds1.map Prod.snd).foldl tell (told (cs.map Prod.snd)) := by
      simp [told, List.foldl_append]
    obtain ⟨ds2, r2, l2, n2, e2, f2, q2⟩ := ih (cs ++ ds1) g1 g' hr1 hl1 h2 (fun v hv => hn v (by simp [hv]))
      (fun v hv n hs hf => hz v (by simp [hv]) n hs (hf1 n hf))
    rw [List.append_assoc] at r2 l2 n2 q2
    rw [hfold, n1] at n2 q2
    refine ⟨ds1 ++ ds2, r2, l2, n2, e2.trans ea, fun n h => hf1 n (f2 n h), .cons ?_ q2⟩
    refine ⟨fun l hl' => o1 l (by simpa using hl'), fun w hw => ?_⟩
    rw [List.mem_singleton] at hw
    subst hw
    refine ⟨k1, b1, fun n hs => ?_⟩
    obtain ⟨b, g2, e1, m⟩ := s1 n hs
    exact ⟨b, (c30_eval_fresh_unfrozen cs g g2 w.sch n (some b) hr hl (hz w (by simp) n hs) e1 b).mp rfl, m⟩

/-! ## C49 -/

/-- `u` subtracts `rate * (t - s)` from the leaf `t`. -/
def Target (nodes : List (Def (List ℝ))) (rate : ℝ) (p : Nat × Nat) (u : Act (List ℝ)) : Prop :=
  u.leaf = p.1 ∧ u.f = subEach ∧ u.ntf = true ∧ ∃ d : Nat, nodes[d]? = some (.op subF [p.1, p.2] false) ∧
    ((rate = 0 ∧ u.src = .skip) ∨ (rate = 1 ∧ u.src = .node d) ∨
      ∃ n : Nat, u.src = .node n ∧ nodes[n]? = some (.op (scaleF rate) [d] false))

theorem Target.push {nodes ext : List (Def (List ℝ))} {rate : ℝ} {p : Nat × Nat} {u : Act (List ℝ)} (h : Target nodes rate p u) :
    Target (nodes ++ ext) rate p u := by
  have up : ∀ (d : Nat) x, nodes[d]? = some x → (nodes ++ ext)[d]? = some x := by
    intro d x hd
    obtain ⟨hlt, e⟩ := List.getElem?_eq_some_iff.mp hd
    rw [List.getElem?_append_left hlt]; exact hd
  obtain ⟨h1, h2, h3, d, h4, h5⟩ := h
  refine ⟨h1, h2, h3, d, up d _ h4, ?_⟩
  rcases h5 with h5 | h5 | ⟨n, h5, h6⟩
  · exact Or.inl h5
  · exact Or.inr (Or.inl h5)
  · exact Or.inr (Or.inr ⟨n, h5, up n _ h6⟩)

/-- Operations being constructed. -/
def Builds (c : Call V) : Prop := ∃ f args h, c = .newOp f args h

theorem builds_told (ds : List (Sched × Call V)) (h : ∀ c ∈ ds, Builds c.2) (t : Told V) :
    (∃ ext, ((ds.map Prod.snd).foldl tell t).nodes = t.nodes ++ ext) ∧ ((ds.map Prod.snd).foldl tell t).leaf = t.leaf := by
  induction ds generalizing t with
  | nil => exact ⟨⟨[], (List.append_nil _).symm⟩, rfl⟩
  | cons c ds ih =>
    obtain ⟨f, args, b, e⟩ := h c (by simp)
    obtain ⟨⟨ext, h1⟩, h2⟩ := ih (fun x hx => h x (by simp [hx])) (tell t c.2)
    rw [List.map_cons, List.foldl_cons]
    rw [e] at h1 h2 ⊢
    refine ⟨⟨[.op f args b] ++ ext, ?_⟩, h2⟩
    rw [h1]; simp [tell]

theorem targetUpdate_builds {sch : Sched} {rate : ℝ} {p : Nat × Nat} {g g' : G (List ℝ)} {u : Act (List ℝ)} {t : Told (List ℝ)}
    (i : Inv (fun _ => True) g) (a : Agrees t g) (h : targetUpdate sch rate p.1 p.2 g = .ok (u, g')) :
    ∃ ds : List (Sched × Call (List ℝ)), run ds g = .ok g' ∧ (∀ c ∈ ds, Builds c.2) ∧
      Target ((ds.map Prod.snd).foldl tell t).nodes rate p u := by
  unfold targetUpdate at h
  rw [Outcome.bind_eq_ok] at h
  obtain ⟨g1, h1, h⟩ := h
  have st1 : step sch (.newOp subF [p.1, p.2] false) g = .ok g1 := h1
  obtain ⟨i1, a1⟩ := step_inv i a (Or.inr fun _ => trivial) st1
  rw [Outcome.bind_eq_ok] at h
  obtain ⟨r, hr, h⟩ := h
  simp only [Outcome.ok.injEq, Prod.mk.injEq] at h
  obtain ⟨rfl, rfl⟩ := h
  have hd1 : (tell t (.newOp subF [p.1, p.2] false)).nodes[g.defs.length]? = some (.op subF [p.1, p.2] false) := by
    show (t.nodes ++ [_])[g.defs.length]? = _
    rw [a.nodes, getElem?_push, if_pos rfl]
  unfold scaleNode at hr
  split at hr
  · next hz =>
    cases hr
    refine ⟨[(sch, .newOp subF [p.1, p.2] false)], by rw [run_one]; exact st1, by simp [Builds], rfl, rfl, rfl, _, hd1, Or.inl ⟨hz, rfl⟩⟩
  · split at hr
    · next hz =>
      cases hr
      refine ⟨[(sch, .newOp subF [p.1, p.2] false)], by rw [run_one]; exact st1, by simp [Builds], rfl, rfl, rfl, _, hd1, Or.inr (Or.inl ⟨hz, rfl⟩)⟩
    · rw [Outcome.bind_eq_ok] at hr
      obtain ⟨g2, h2, h3⟩ := hr
      cases h3
      have st2 : step sch (.newOp (scaleF rate) [g.defs.length] false) g1 = .ok g2 := h2
      refine ⟨[(sch, .newOp subF [p.1, p.2] false), (sch, .newOp (scaleF rate) [g.defs.length] false)], ?_, ?_, ?_⟩
      · simp only [run, st1, st2, Outcome.ok_bind]
      · intro c hc
        simp at hc
        rcases hc with rfl | rfl <;> exact ⟨_, _, _, rfl⟩
      · refine ⟨rfl, rfl, rfl, g.defs.length, ?_, Or.inr (Or.inr ⟨g1.defs.length, rfl, ?_⟩)⟩
        · show ((tell t (.newOp subF [p.1, p.2] false)).nodes ++ [_])[g.defs.length]? = _
          obtain ⟨hlt, _⟩ := List.getElem?_eq_some_iff.mp hd1
          rw [List.getElem?_append_left hlt]; exact hd1
        · show ((tell t (.newOp subF [p.1, p.2] false)).nodes ++ [_])[g1.defs.length]? = _
          rw [a1.nodes, getElem?_push, if_pos rfl]

theorem targetUpdates_builds {sch : Sched} {rate : ℝ} (ps : List (Nat × Nat)) : ∀ {g g' : G (List ℝ)} {us : List (Act (List ℝ))} {t : Told (List ℝ)},
    Inv (fun _ => True) g → Agrees t g → targetUpdates sch rate ps g = .ok (us, g') →
    ∃ ds : List (Sched × Call (List ℝ)), run ds g = .ok g' ∧ (∀ c ∈ ds, Builds c.2) ∧
      List.Forall₂ (Target ((ds.map Prod.snd).foldl tell t).nodes rate) ps us := by
  induction ps with
  | nil => intro g g' us t _ _ h; cases h; exact ⟨[], rfl, by simp, .nil⟩
  | cons p ps ih =>
    intro g g' us t i a h
    rw [targetUpdates, Outcome.bind_eq_ok] at h
    obtain ⟨r, h1, h⟩ := h
    rw [Outcome.bind_eq_ok] at h
    obtain ⟨q, h2, h3⟩ := h
    cases h3
    obtain ⟨ds1, r1, b1, t1⟩ := targetUpdate_builds (u := r.1) (g' := r.2) i a h1
    obtain ⟨i1, a1⟩ := run_inv ds1 i a (Or.inr fun _ => trivial) r1
    obtain ⟨ds2, r2, b2, t2⟩ := ih (us := q.1) (g' := q.2) i1 a1 h2
    have hfold : ((ds1 ++ ds2).map Prod.snd).foldl tell t = (ds2.map Prod.snd).foldl tell ((ds1.map Prod.snd).foldl tell t) := by
      rw [List.map_append, List.foldl_append]
    refine ⟨ds1 ++ ds2, by rw [run_append, r1]; exact r2, ?_, ?_⟩
    · intro c hc
      rcases List.mem_append.mp hc with hc | hc
      · exact b1 c hc
      · exact b2 c hc
    · rw [hfold]
      refine .cons ?_ t2
      obtain ⟨⟨ext, e⟩, _⟩ := builds_told ds2 b2 ((ds1.map Prod.snd).foldl tell t)
      rw [e]; exact t1.push

theorem mapTwo_comp {T : Type} (f g h : T → T → T) (e : ∀ x y, f x (g x y) = h x y) : ∀ a b : List T,
    mapTwo f a (mapTwo g a b) = mapTwo h a b
  | [], _ => rfl
  | _ :: _, [] => rfl
  | x :: a, y :: b => by simp only [mapTwo, e, mapTwo_comp f g h e a b]

theorem mapTwo_map {T : Type} (f g : T → T → T) (c : T → T) (e : ∀ x y, c (f x y) = g x y) : ∀ a b : List T,
    (mapTwo f a b).map c = mapTwo g a b
  | [], _ => rfl
  | _ :: _, [] => rfl
  | x :: a, y :: b => by simp only [mapTwo, List.map, e, mapTwo_map f g c e a b]

theorem mapTwo_left {T : Type} : ∀ a b : List T, a.length = b.length → mapTwo (fun x _ => x) a b = a
  | [], _, _ => rfl
  | _ :: _, [], h => by simp at h
  | x :: a, y :: b, h => by simp only [mapTwo, mapTwo_left a b (by simpa using h)]

theorem mapTwo_length {T : Type} (f : T → T → T) : ∀ a b : List T, a.length = b.length → (mapTwo f a b).length = a.length
  | [], _, _ => rfl
  | _ :: _, [], h => by simp at h
  | x :: a, y :: b, h => by simp only [mapTwo, List.length_cons, mapTwo_length f a b (by simpa using h)]

/-- The value of a difference of two leaves. -/
theorem computes_sub {nodes : List (Def (List ℝ))} {σ : Nat → Option (List ℝ)} {d t s : Nat} {a b v : List ℝ}
    (hd : nodes[d]? = some (.op subF [t, s] false)) (lt : nodes[t]? = some .leaf) (ls : nodes[s]? = some .leaf)
    (ha : σ t = some a) (hb : σ s = some b) (h : Computes nodes σ d v) : v = mapTwo (· - ·) a b := by
  have leafv : ∀ {l : Nat} {x w : List ℝ}, nodes[l]? = some .leaf → σ l = some x → Computes nodes σ l w → w = x := by
    intro l x w h1 h2 h3
    cases h3 with
    | leaf _ h => rw [h2] at h; cases h; rfl
    | op h _ _ _ => rw [h1] at h; cases h
  cases h with
  | leaf h _ => rw [hd] at h; cases h
  | @op n f args b' vs v h1 h2 h3 h4 =>
    rw [hd] at h1
    cases h1
    match vs, h2, h3, h4 with
    | [x, y], _, h3, h4 =>
      have e1 := leafv lt ha (h3 0 t x rfl rfl)
      have e2 := leafv ls hb (h3 1 s y rfl rfl)
      subst e1; subst e2
      simp only [subF, subEach] at h4
      split at h4
      · cases h4; rfl
      · cases h4

/-- One target update. -/
theorem target_moves {nodes : List (Def (List ℝ))} {rate : ℝ} {t s : Nat} {u : Act (List ℝ)} {σ σ' : Nat → Option (List ℝ)} {a b : List ℝ}
    (hu : Target nodes rate (t, s) u) (lt : nodes[t]? = some .leaf) (ls : nodes[s]? = some .leaf)
    (ha : σ t = some a) (hb : σ s = some b) (hab : a.length = b.length) (h : Round nodes [u] σ σ') :
    σ' t = some (mapTwo (fun x y => x - rate * (x - y)) a b) := by
  obtain ⟨h1, h2, _, d, h4, h5⟩ := hu
  obtain ⟨r1, r2, r3⟩ := h.2 u (by simp)
  rw [h1] at r1 r2 r3
  have fin : ∀ v, Moved u.f (mapTwo (fun x y => rate * (x - y)) a b) (some a) v → v = some (mapTwo (fun x y => x - rate * (x - y)) a b) := by
    rintro v (⟨c, _⟩ | ⟨a', v', e1, e2, e3⟩)
    · cases c
    · cases e1
      rw [h2] at e2
      simp only [subEach] at e2
      rw [if_pos (mapTwo_length _ a b hab).symm] at e2
      cases e2
      rw [e3, mapTwo_comp (· - ·) _ (fun x y => x - rate * (x - y)) (fun _ _ => rfl)]
  rcases h5 with ⟨z, h5⟩ | ⟨z, h5⟩ | ⟨n, h5, h6⟩
  · rw [r1 h5]
    show σ t = _
    rw [ha, z]
    congr 1
    have : (fun x y : ℝ => x - 0 * (x - y)) = fun x _ => x := by funext x y; ring
    rw [this, mapTwo_left a b hab]
  · obtain ⟨v, c, m⟩ := r3 d h5
    have := computes_sub h4 lt ls ha hb c
    have e : mapTwo (fun x y => rate * (x - y)) a b = v := by rw [this, z]; congr 1; funext x y; ring
    rw [← e] at m
    have m : Moved u.f _ (σ t) (σ' t) := m
    rw [ha] at m
    exact fin _ m
  · obtain ⟨v, c, m⟩ := r3 n h5
    have e : mapTwo (fun x y => rate * (x - y)) a b = v := by
      cases c with
      | leaf h _ => rw [h6] at h; cases h
      | @op n f args b' vs v h1 h2 h3 h4' =>
        rw [h6] at h1
        cases h1
        match vs, h2, h3, h4' with
        | [x], _, h3, h4' =>
          have e1 := computes_sub h4 lt ls ha hb (h3 0 d x rfl rfl)
          simp only [scaleF] at h4'
          cases h4'
          rw [e1, mapTwo_map (fun x y : ℝ => x - y) (fun x y => rate * (x - y)) _ (fun _ _ => rfl)]
    rw [← e] at m
    have m : Moved u.f _ (σ t) (σ' t) := m
    rw [ha] at m
    exact fin _ m

/-- All target updates, one after the other. -/
theorem targets_move {nodes : List (Def (List ℝ))} {rate : ℝ} (ps : List (Nat × Nat)) : ∀ {us : List (Act (List ℝ))} {σ σ' : Nat → Option (List ℝ)},
    List.Forall₂ (Target nodes rate) ps us → (ps.map Prod.fst).Nodup → (∀ p ∈ ps, p.2 ∉ ps.map Prod.fst) →
    (∀ p ∈ ps, nodes[p.1]? = some .leaf ∧ nodes[p.2]? = some .leaf) →
    Sequential nodes us σ σ' →
    (∀ l, l ∉ ps.map Prod.fst → σ' l = σ l) ∧
    ∀ p ∈ ps, ∀ a b, σ p.1 = some a → σ p.2 = some b → a.length = b.length → σ' p.1 = some (mapTwo (fun x y => x - rate * (x - y)) a b) := by
  induction ps with
  | nil => intro us σ σ' h _ _ _ hs; cases h; cases hs; exact ⟨fun _ _ => rfl, by simp⟩
  | cons p ps ih =>
    intro us σ σ' h hd hx hl hs
    obtain ⟨t, s⟩ := p
    cases h with
    | @cons _ u _ us' hu hus =>
      cases hs with
      | @cons _ _ _ σ₁ _ h1 h2 =>
        rw [List.map_cons, List.nodup_cons] at hd
        obtain ⟨k1, k2⟩ := ih hus hd.2 (fun q hq c => hx q (by simp [hq]) (by simp only [List.map_cons, List.mem_cons]; exact Or.inr c)) (fun q hq => hl q (by simp [hq])) h2
        have e1 : ∀ l, l ≠ t → σ₁ l = σ l := fun l hl' => h1.1 l (by simp only [List.map_cons, List.map_nil, List.mem_singleton]; rw [hu.1]; exact hl')
        refine ⟨fun l hl' => ?_, fun q hq a b ha hb hab => ?_⟩
        · simp only [List.map_cons, List.mem_cons, not_or] at hl'
          rw [k1 l hl'.2, e1 l hl'.1]
        · rcases List.mem_cons.mp hq with rfl | hq
          · rw [k1 t hd.1]
            obtain ⟨x, y⟩ := hl (t, s) (by simp)
            exact target_moves hu x y ha hb hab h1
          · have n1 : q.1 ≠ t := fun e => hd.1 (by show t ∈ _; rw [← e]; exact List.mem_map_of_mem hq)
            have n2 : q.2 ≠ t := fun e => hx q (by simp [hq]) (by rw [e]; simp)
            refine k2 q hq a b ?_ ?_ hab
            · rw [e1 _ n1]; exact ha
            · rw [e1 _ n2]; exact hb

theorem told_grows (cs : List (Call V)) (t : Told V) : ∃ ext, (cs.foldl tell t).nodes = t.nodes ++ ext := by
  induction cs generalizing t with
  | nil => exact ⟨[], (List.append_nil _).symm⟩
  | cons c cs ih =>
    obtain ⟨ext, e⟩ := ih (tell t c)
    have : ∃ ext', (tell t c).nodes = t.nodes ++ ext' := by
      cases c <;> first | exact ⟨_, rfl⟩ | exact ⟨[], (List.append_nil _).symm⟩
    obtain ⟨ext', e'⟩ := this
    exact ⟨ext' ++ ext, by rw [List.foldl_cons, e, e', List.append_assoc]⟩

theorem getElem?_grows {α : Type} {l : List α} {n : Nat} {x : α} (ext : List α) (h : l[n]? = some x) : (l ++ ext)[n]? = some x := by
  obtain ⟨hlt, _⟩ := List.getElem?_eq_some_iff.mp h
  rw [List.getElem?_append_left hlt]; exact h

/-- Evaluating a leaf returns the value last assigned. -/
theorem reads_leaf {g : G V} {t : Told V} (a : Agrees t g) {l : Nat} (hl : t.nodes[l]? = some .leaf) (v : V) :
    Reads g l v ↔ g.alive l = true ∧ t.leaf l = some v := by
  rw [← a.nodes] at hl
  rw [← a.leaf l hl]
  have ho := isOp_leaf hl
  constructor
  · intro h
    obtain ⟨g', e⟩ := h idSched
    unfold eval at e
    by_cases c : g.alive l = true
    · rw [if_pos c, if_neg (by rw [ho]; simp)] at e
      simp only [Outcome.ok.injEq, Prod.mk.injEq] at e
      exact ⟨c, e.1⟩
    · rw [if_neg c] at e; cases e
  · rintro ⟨c, e⟩ sch
    exact ⟨g, by unfold eval; rw [if_pos c, if_neg (by rw [ho]; simp), e]⟩

theorem target_ntf {nodes : List (Def (List ℝ))} {rate : ℝ} {ps : List (Nat × Nat)} {us : List (Act (List ℝ))}
    (h : List.Forall₂ (Target nodes rate) ps us) : ∀ u ∈ us, u.ntf = true := by
  induction h with
  | nil => simp
  | cons h _ ih =>
    intro u hu
    rcases List.mem_cons.mp hu with rfl | hu
    · exact h.2.2.1
    · exact ih u hu

theorem mapTwo_first {T : Type} (f g h : T → T → T) (e : ∀ x y, f (g x y) y = h x y) : ∀ a b : List T,
    mapTwo f (mapTwo g a b) b = mapTwo h a b
  | [], _ => by cases ‹List T› <;> rfl
  | _ :: _, [] => rfl
  | x :: a, y :: b => by simp only [mapTwo, e, mapTwo_first f g h e a b]

/-- Some number of target updates, after any history. -/
theorem updateTimes_moves {rate : ℝ} {ps : List (Nat × Nat)} {us : List (Act (List ℝ))} (k : Nat) :
    ∀ (cs : List (Sched × Call (List ℝ))) (g g' : G (List ℝ)), run cs G.empty = .ok g → (∀ c ∈ cs, Loud c.2) →
    List.Forall₂ (Target (told (cs.map Prod.snd)).nodes rate) ps us → (ps.map Prod.fst).Nodup → (∀ p ∈ ps, p.2 ∉ ps.map Prod.fst) →
    (∀ p ∈ ps, (told (cs.map Prod.snd)).nodes[p.1]? = some .leaf ∧ (told (cs.map Prod.snd)).nodes[p.2]? = some .leaf) →
    (∀ u ∈ us, ∀ n, u.src = .node n → ¬ Frozen g n) → updateTimes k us g = .ok g' →
    ∃ t' : Told (List ℝ), Agrees t' g' ∧ g'.alive = g.alive ∧ t'.nodes = (told (cs.map Prod.snd)).nodes ∧
      (∀ l, l ∉ ps.map Prod.fst → t'.leaf l = (told (cs.map Prod.snd)).leaf l) ∧
      ∀ p ∈ ps, ∀ a b, (told (cs.map Prod.snd)).leaf p.1 = some a → (told (cs.map Prod.snd)).leaf p.2 = some b → a.length = b.length →
        t'.leaf p.1 = some (mapTwo (fun x y => y + (1 - rate) ^ k * (x - y)) a b) := by
  induction k with
  | zero =>
    intro cs g g' hr hl ht _ _ hleaf _ h
    cases h
    obtain ⟨i, a⟩ := reach_inv (S := fun _ => True) (Or.inr fun _ => trivial) hr
    refine ⟨_, a, rfl, rfl, fun _ _ => rfl, fun p hp x y hx hy hxy => ?_⟩
    rw [hx]
    congr 1
    have : (fun x y : ℝ => y + (1 - rate) ^ 0 * (x - y)) = fun x _ => x := by funext x y; ring
    rw [this, mapTwo_left x y hxy]
  | succ k ih =>
    intro cs g g' hr hl ht hnd hdis hleaf hz h
    rw [updateTimes, Outcome.bind_eq_ok] at h
    obtain ⟨g1, h1, h2⟩ := h
    have hntf : ∀ u ∈ us, u.ntf = true := target_ntf ht
    obtain ⟨ds, r, l, n, al, fz, sq⟩ := acts_seq us cs g g1 hr hl h1 hntf hz
    obtain ⟨m1, m2⟩ := targets_move ps ht hnd hdis hleaf sq
    obtain ⟨t', a', al', n', o', v'⟩ := ih (cs ++ ds) g1 g' r l (by rw [n]; exact ht) hnd hdis (by rw [n]; exact hleaf)
      (fun u hu m hm hf => hz u hu m hm (fz m hf)) h2
    refine ⟨t', a', al'.trans al, n'.trans n, fun x hx => by rw [o' x hx, m1 x hx], fun p hp a b ha hb hab => ?_⟩
    rw [v' p hp _ b (m2 p hp a b ha hb hab) (by rw [m1 _ (hdis p hp)]; exact hb) (by rw [mapTwo_length _ a b hab]; exact hab)]
    congr 1
    rw [mapTwo_first (fun x y => y + (1 - rate) ^ k * (x - y)) (fun x y => x - rate * (x - y)) (fun x y => y + (1 - rate) ^ (k + 1) * (x - y))]
    intro x y
    ring

/-- **C49.**  `targetUpdates` builds the target updates of a deep-Q agent for pairs of a target and a source
variable, after any history; later, after any further calls (training the source, for instance), `k` target
updates in a row make each target `s + (1 - rate)^k * (t - s)`, element by element, for the values `t` and `s`
read before, and change no other variable.  (Each update is `k = 1`: `t - rate * (t - s)`.) -/
theorem c49_towards_source (cs ds : List (Sched × Call (List ℝ))) (g g1 g2 g3 : G (List ℝ)) (sch : Sched) (rate : ℝ)
    (ps : List (Nat × Nat)) (us : List (Act (List ℝ))) (k : Nat)
    (hr : run cs G.empty = .ok g) (hl : ∀ c ∈ cs, Loud c.2)
    (hleaf : ∀ p ∈ ps, (told (cs.map Prod.snd)).nodes[p.1]? = some .leaf ∧ (told (cs.map Prod.snd)).nodes[p.2]? = some .leaf)
    (hnd : (ps.map Prod.fst).Nodup) (hdis : ∀ p ∈ ps, p.2 ∉ ps.map Prod.fst)
    (hb : targetUpdates sch rate ps g = .ok (us, g1)) (hd : run ds g1 = .ok g2) (hl' : ∀ c ∈ ds, Loud c.2)
    (hz : ∀ u ∈ us, ∀ n, u.src = .node n → ¬ Frozen g2 n) (hu : updateTimes k us g2 = .ok g3) :
    (∀ p ∈ ps, ∀ t s, Reads g2 p.1 t → Reads g2 p.2 s → t.length = s.length →
      Reads g3 p.1 (mapTwo (fun x y => y + (1 - rate) ^ k * (x - y)) t s)) ∧
    ∀ (l : Nat) v, (told (cs.map Prod.snd)).nodes[l]? = some .leaf → l ∉ ps.map Prod.fst → Reads g2 l v → Reads g3 l v := by
  obtain ⟨i, a⟩ := reach_inv (S := fun _ => True) (Or.inr fun _ => trivial) hr
  obtain ⟨bs, r1, b1, t1⟩ := targetUpdates_builds ps i a hb
  have hrun : run (cs ++ (bs ++ ds)) G.empty = .ok g2 := by
    rw [run_append, hr, Outcome.ok_bind, run_append, r1]; exact hd
  have hloud : ∀ c ∈ cs ++ (bs ++ ds), Loud c.2 := by
    intro c hc
    rcases List.mem_append.mp hc with hc | hc
    · exact hl c hc
    · rcases List.mem_append.mp hc with hc | hc
      · obtain ⟨f, args, h, e⟩ := b1 c hc
        rw [e]; trivial
      · exact hl' c hc
  have e0 : told ((cs ++ (bs ++ ds)).map Prod.snd) = (ds.map Prod.snd).foldl tell ((bs.map Prod.snd).foldl tell (told (cs.map Prod.snd))) := by
    simp [told, List.foldl_append]
  obtain ⟨ext1, e1⟩ := told_grows (bs.map Prod.snd) (told (cs.map Prod.snd))
  obtain ⟨ext2, e2⟩ := told_grows (ds.map Prod.snd) ((bs.map Prod.snd).foldl tell (told (cs.map Prod.snd)))
  have up : ∀ (n : Nat) x, (told (cs.map Prod.snd)).nodes[n]? = some x → (told ((cs ++ (bs ++ ds)).map Prod.snd)).nodes[n]? = some x := by
    intro n x h
    rw [e0, e2, e1]
    exact getElem?_grows _ (getElem?_grows _ h)
  have hT : List.Forall₂ (Target (told ((cs ++ (bs ++ ds)).map Prod.snd)).nodes rate) ps us := by
    rw [e0, e2]
    exact t1.imp fun _ _ h => h.push
  obtain ⟨t', a', al, n', o', v'⟩ := updateTimes_moves k _ g2 g3 hrun hloud hT hnd hdis
    (fun p hp => ⟨up _ _ (hleaf p hp).1, up _ _ (hleaf p hp).2⟩) hz hu
  obtain ⟨_, a2⟩ := reach_inv (S := fun _ => True) (Or.inr fun _ => trivial) hrun
  have rd2 : ∀ (l : Nat) v, (told (cs.map Prod.snd)).nodes[l]? = some .leaf → (Reads g2 l v ↔ _) := fun l v h => reads_leaf a2 (up _ _ h) v
  have rd3 : ∀ (l : Nat) v, (told (cs.map Prod.snd)).nodes[l]? = some .leaf → (Reads g3 l v ↔ _) := fun l v h => reads_leaf a' (by rw [n']; exact up _ _ h) v
  refine ⟨fun p hp t s ht hs hts => ?_, fun l v hl hn hv => ?_⟩
  · rw [rd2 _ _ (hleaf p hp).1] at ht
    rw [rd2 _ _ (hleaf p hp).2] at hs
    rw [rd3 _ _ (hleaf p hp).1, al]
    exact ⟨ht.1, v' p hp t s ht.2 hs.2 hts⟩
  · rw [rd2 _ _ hl] at hv
    rw [rd3 _ _ hl, al, o' l hn]
    exact hv

/-! ## C50: plain gradient descent -/

/-- `u` subtracts `lr * γ` from the leaf, `γ` being the gradient node's value. -/
def Descends (nodes : List (Def (List ℝ))) (lr : ℝ) (p : Nat × Nat) (u : Act (List ℝ)) : Prop :=
  u.leaf = p.1 ∧ u.f = subEach ∧ u.ntf = true ∧ ((lr = 0 ∧ u.src = .skip) ∨ (lr = 1 ∧ u.src = .node p.2) ∨
      ∃ n : Nat, u.src = .node n ∧ nodes[n]? = some (.op (scaleF lr) [p.2] false))

theorem Descends.push {nodes ext : List (Def (List ℝ))} {lr : ℝ} {p : Nat × Nat} {u : Act (List ℝ)} (h : Descends nodes lr p u) :
    Descends (nodes ++ ext) lr p u := by
  obtain ⟨h1, h2, h3, h5⟩ := h
  refine ⟨h1, h2, h3, ?_⟩
  rcases h5 with h5 | h5 | ⟨n, h5, h6⟩
  · exact Or.inl h5
  · exact Or.inr (Or.inl h5)
  · exact Or.inr (Or.inr ⟨n, h5, getElem?_grows _ h6⟩)

theorem vgbUpdates_builds {sch : Sched} {lr : ℝ} (ps : List (Nat × Nat)) : ∀ {g g' : G (List ℝ)} {us : List (Act (List ℝ))} {t : Told (List ℝ)},
    Inv (fun _ => True) g → Agrees t g → vgbUpdates sch lr ps g = .ok (us, g') →
    ∃ ds : List (Sched × Call (List ℝ)), run ds g = .ok g' ∧ (∀ c ∈ ds, Builds c.2) ∧
      List.Forall₂ (Descends ((ds.map Prod.snd).foldl tell t).nodes lr) ps us := by
  induction ps with
  | nil => intro g g' us t _ _ h; cases h; exact ⟨[], rfl, by simp, .nil⟩
  | cons p ps ih =>
    intro g g' us t i a h
    rw [vgbUpdates, Outcome.bind_eq_ok] at h
    obtain ⟨r, h1, h⟩ := h
    rw [Outcome.bind_eq_ok] at h
    obtain ⟨q, h2, h3⟩ := h
    cases h3
    have one : ∃ ds : List (Sched × Call (List ℝ)), run ds g = .ok r.2 ∧ (∀ c ∈ ds, Builds c.2) ∧
        Descends ((ds.map Prod.snd).foldl tell t).nodes lr p ⟨p.1, subEach, r.1, true, sch⟩ := by
      unfold scaleNode at h1
      split at h1
      · next hz => cases h1; exact ⟨[], rfl, by simp, rfl, rfl, rfl, Or.inl ⟨hz, rfl⟩⟩
      · split at h1
        · next hz => cases h1; exact ⟨[], rfl, by simp, rfl, rfl, rfl, Or.inr (Or.inl ⟨hz, rfl⟩)⟩
        · rw [Outcome.bind_eq_ok] at h1
          obtain ⟨g1, b1, b2⟩ := h1
          cases b2
          refine ⟨[(sch, .newOp (scaleF lr) [p.2] false)], by rw [run_one]; exact b1, by simp [Builds], rfl, rfl, rfl, Or.inr (Or.inr ⟨_, rfl, ?_⟩)⟩
          show (t.nodes ++ [_])[g.defs.length]? = _
          rw [a.nodes, getElem?_push, if_pos rfl]
    obtain ⟨ds1, r1, b1, t1⟩ := one
    obtain ⟨i1, a1⟩ := run_inv ds1 i a (Or.inr fun _ => trivial) r1
    obtain ⟨ds2, r2, b2, t2⟩ := ih (us := q.1) (g' := q.2) i1 a1 h2
    have hfold : ((ds1 ++ ds2).map Prod.snd).foldl tell t = (ds2.map Prod.snd).foldl tell ((ds1.map Prod.snd).foldl tell t) := by
      rw [List.map_append, List.foldl_append]
    refine ⟨ds1 ++ ds2, by rw [run_append, r1]; exact r2, ?_, ?_⟩
    · intro c hc
      rcases List.mem_append.mp hc with hc | hc
      · exact b1 c hc
      · exact b2 c hc
    · rw [hfold]
      refine .cons ?_ t2
      obtain ⟨⟨ext, e⟩, _⟩ := builds_told ds2 b2 ((ds1.map Prod.snd).foldl tell t)
      rw [e]; exact t1.push

theorem linked_grows {nodes : List (Def V)} (ext : List (Def V)) {a b : Nat} (h : Linked nodes a b) : Linked (nodes ++ ext) a b := by
  refine h.mono ?_
  rintro x y ⟨⟨f, args, z, e⟩, f', args', z', e', hm⟩
  exact ⟨⟨f, args, z, getElem?_grows _ e⟩, f', args', z', getElem?_grows _ e', hm⟩

theorem forall₂_right {α β : Type} {R : α → β → Prop} {as : List α} {bs : List β} (h : List.Forall₂ R as bs) :
    ∀ b ∈ bs, ∃ a ∈ as, R a b := by
  induction h with
  | nil => simp
  | cons h _ ih =>
    intro b hb
    rcases List.mem_cons.mp hb with rfl | hb
    · exact ⟨_, by simp, h⟩
    · obtain ⟨a, ha, hr⟩ := ih b hb
      exact ⟨a, by simp [ha], hr⟩

theorem forall₂_left {α β : Type} {R : α → β → Prop} {as : List α} {bs : List β} (h : List.Forall₂ R as bs) :
    ∀ a ∈ as, ∃ b ∈ bs, R a b := by
  induction h with
  | nil => simp
  | cons h _ ih =>
    intro b hb
    rcases List.mem_cons.mp hb with rfl | hb
    · exact ⟨_, by simp, h⟩
    · obtain ⟨a, ha, hr⟩ := ih b hb
      exact ⟨a, by simp [ha], hr⟩

theorem descends_leaves {nodes : List (Def (List ℝ))} {lr : ℝ} {ps : List (Nat × Nat)} {us : List (Act (List ℝ))}
    (h : List.Forall₂ (Descends nodes lr) ps us) : us.map (·.leaf) = ps.map Prod.fst := by
  induction h with
  | nil => rfl
  | cons h _ ih => simp only [List.map_cons, ih, h.1]

theorem computes_scale {nodes : List (Def (List ℝ))} {σ : Nat → Option (List ℝ)} {n k : Nat} {c : ℝ} {v : List ℝ}
    (hn : nodes[n]? = some (.op (scaleF c) [k] false)) (h : Computes nodes σ n v) : ∃ w, Computes nodes σ k w ∧ v = w.map (c * ·) := by
  cases h with
  | leaf h _ => rw [hn] at h; cases h
  | @op n f args b' vs v h1 h2 h3 h4 =>
    rw [hn] at h1
    cases h1
    match vs, h2, h3, h4 with
    | [x], _, h3, h4 =>
      simp only [scaleF] at h4
      cases h4
      exact ⟨x, h3 0 k x rfl rfl, rfl⟩

theorem mapTwo_map_right {T : Type} (f g : T → T → T) (c : T → T) (e : ∀ x y, f x (c y) = g x y) : ∀ a b : List T,
    mapTwo f a (b.map c) = mapTwo g a b
  | [], _ => rfl
  | _ :: _, [] => rfl
  | x :: a, y :: b => by simp only [mapTwo, List.map, e, mapTwo_map_right f g c e a b]

/-- The value of a descent step. -/
theorem descends_moves {nodes : List (Def (List ℝ))} {lr : ℝ} {p : Nat × Nat} {u : Act (List ℝ)} {us : List (Act (List ℝ))}
    {σ σ' : Nat → Option (List ℝ)} {x γ : List ℝ} (hu : Descends nodes lr p u) (hm : u ∈ us) (h : Round nodes us σ σ')
    (hx : σ p.1 = some x) (hγ : ∀ w, Computes nodes σ p.2 w → w = γ) (hl : x.length = γ.length) :
    σ' p.1 = some (mapTwo (fun x d => x - lr * d) x γ) := by
  obtain ⟨h1, h2, _, h5⟩ := hu
  obtain ⟨r1, r2, r3⟩ := h.2 u hm
  rw [h1] at r1 r2 r3
  rw [hx] at r1 r3
  have fin : ∀ v, Moved u.f (γ.map (lr * ·)) (some x) v → v = some (mapTwo (fun x d => x - lr * d) x γ) := by
    rintro v (⟨c, _⟩ | ⟨a', v', e1, e2, e3⟩)
    · cases c
    · cases e1
      rw [h2] at e2
      simp only [subEach] at e2
      rw [if_pos (by rw [List.length_map]; exact hl)] at e2
      cases e2
      rw [e3, mapTwo_map_right (· - ·) (fun x d => x - lr * d) _ (fun _ _ => rfl)]
  rcases h5 with ⟨z, h5⟩ | ⟨z, h5⟩ | ⟨n, h5, h6⟩
  · rw [r1 h5, z]
    congr 1
    have : (fun x d : ℝ => x - 0 * d) = fun x _ => x := by funext x y; ring
    rw [this, mapTwo_left x γ hl]
  · obtain ⟨v, c, m⟩ := r3 _ h5
    rw [hγ v c] at m
    refine fin _ ?_
    have : γ.map (lr * ·) = γ := by rw [z]; simp
    rw [this]; exact m
  · obtain ⟨v, c, m⟩ := r3 n h5
    obtain ⟨w, c', e⟩ := computes_scale h6 c
    rw [e, hγ w c'] at m
    exact fin _ m

/-- **C50, plain gradient descent.**  `vgbUpdates` builds the updates for pairs of a variable and its gradient
node, after any history; later, after any further calls, a round of training replaces every trained variable
`x` by `x - lr * γ`, element by element, for the values `x` and `γ` that evaluating the variable and the gradient
returned just before the round, and changes no other variable or placeholder. -/
theorem c50_descent (cs ds : List (Sched × Call (List ℝ))) (g g1 g2 g3 : G (List ℝ)) (sch s₁ s₂ : Sched) (lr : ℝ) (root : Nat)
    (ps : List (Nat × Nat)) (us : List (Act (List ℝ)))
    (hr : run cs G.empty = .ok g) (hl : ∀ c ∈ cs, Loud c.2) (hnd : (ps.map Prod.fst).Nodup)
    (hleaf : ∀ p ∈ ps, (told (cs.map Prod.snd)).nodes[p.1]? = some .leaf)
    (hgrad : ∀ p ∈ ps, (∃ f args h, (told (cs.map Prod.snd)).nodes[p.2]? = some (.op f args h)) ∧ Linked (told (cs.map Prod.snd)).nodes root p.2)
    (hb : vgbUpdates sch lr ps g = .ok (us, g1)) (hd : run ds g1 = .ok g2) (hl' : ∀ c ∈ ds, Loud c.2)
    (hz : ¬ Frozen g2 root) (ht : trainRound s₁ s₂ root us g2 = .ok g3) :
    (∀ p ∈ ps, ∀ x γ, Reads g2 p.1 x → Reads g2 p.2 γ → x.length = γ.length → Reads g3 p.1 (mapTwo (fun x d => x - lr * d) x γ)) ∧
    ∀ (l : Nat) v, (told (cs.map Prod.snd)).nodes[l]? = some .leaf → l ∉ ps.map Prod.fst → Reads g2 l v → Reads g3 l v := by
  obtain ⟨i, a⟩ := reach_inv (S := fun _ => True) (Or.inr fun _ => trivial) hr
  obtain ⟨bs, r1, b1, t1⟩ := vgbUpdates_builds ps i a hb
  have hrun : run (cs ++ (bs ++ ds)) G.empty = .ok g2 := by
    rw [run_append, hr, Outcome.ok_bind, run_append, r1]; exact hd
  have hloud : ∀ c ∈ cs ++ (bs ++ ds), Loud c.2 := by
    intro c hc
    rcases List.mem_append.mp hc with hc | hc
    · exact hl c hc
    · rcases List.mem_append.mp hc with hc | hc
      · obtain ⟨f, args, h, e⟩ := b1 c hc
        rw [e]; trivial
      · exact hl' c hc
  have e0 : told ((cs ++ (bs ++ ds)).map Prod.snd) = (ds.map Prod.snd).foldl tell ((bs.map Prod.snd).foldl tell (told (cs.map Prod.snd))) := by
    simp [told, List.foldl_append]
  obtain ⟨ext1, e1⟩ := told_grows (bs.map Prod.snd) (told (cs.map Prod.snd))
  obtain ⟨ext2, e2⟩ := told_grows (ds.map Prod.snd) ((bs.map Prod.snd).foldl tell (told (cs.map Prod.snd)))
  have en : (told ((cs ++ (bs ++ ds)).map Prod.snd)).nodes = (told (cs.map Prod.snd)).nodes ++ (ext1 ++ ext2) := by
    rw [e0, e2, e1, List.append_assoc]
  have up : ∀ (n : Nat) x, (told (cs.map Prod.snd)).nodes[n]? = some x → (told ((cs ++ (bs ++ ds)).map Prod.snd)).nodes[n]? = some x := by
    intro n x h
    rw [en]; exact getElem?_grows _ h
  have hT : List.Forall₂ (Descends (told ((cs ++ (bs ++ ds)).map Prod.snd)).nodes lr) ps us := by
    rw [e0, e2]
    exact t1.imp fun _ _ h => h.push
  have hlink : ∀ p ∈ ps, Linked (told ((cs ++ (bs ++ ds)).map Prod.snd)).nodes root p.2 := by
    intro p hp; rw [en]; exact linked_grows _ (hgrad p hp).2
  have hop : ∀ p ∈ ps, ∃ f args h, (told ((cs ++ (bs ++ ds)).map Prod.snd)).nodes[p.2]? = some (.op f args h) := by
    intro p hp
    obtain ⟨f, args, h, e⟩ := (hgrad p hp).1
    exact ⟨f, args, h, up _ _ e⟩
  obtain ⟨i2, a2⟩ := reach_inv (S := fun _ => True) (Or.inr fun _ => trivial) hrun
  obtain ⟨ra, ro, _⟩ := trainRound_alive i2 a2 ht
  obtain ⟨es, r3, l3, n3, al3, rnd⟩ := c50_simultaneous (cs ++ (bs ++ ds)) g2 g3 s₁ s₂ root us hrun hloud ht
    (fun u hu => by obtain ⟨p, _, h⟩ := forall₂_right hT u hu; exact h.2.2.1)
    (by rw [descends_leaves hT]; exact hnd)
    (fun u hu n hn => by
      obtain ⟨p, hp, h⟩ := forall₂_right hT u hu
      rcases h.2.2.2 with ⟨_, h5⟩ | ⟨_, h5⟩ | ⟨k, h5, h6⟩
      · rw [h5] at hn; cases hn
      · rw [h5] at hn; cases hn
        exact ⟨hop p hp, hlink p hp⟩
      · rw [h5] at hn; cases hn
        refine ⟨⟨_, _, _, h6⟩, .trans _ _ _ (hlink p hp) (.rel _ _ ⟨hop p hp, _, _, _, h6, by simp⟩)⟩)
  obtain ⟨_, a3⟩ := reach_inv (S := fun _ => True) (Or.inr fun _ => trivial) r3
  have rd2 : ∀ (l : Nat) v, (told (cs.map Prod.snd)).nodes[l]? = some .leaf → (Reads g2 l v ↔ _) := fun l v h => reads_leaf a2 (up _ _ h) v
  have rd3 : ∀ (l : Nat) v, (told (cs.map Prod.snd)).nodes[l]? = some .leaf → (Reads g3 l v ↔ _) := fun l v h => reads_leaf a3 (by rw [n3]; exact up _ _ h) v
  refine ⟨fun p hp x γ hx hγ hxy => ?_, fun l v hl hn hv => ?_⟩
  · rw [rd2 _ _ (hleaf p hp)] at hx
    rw [rd3 _ _ (hleaf p hp), al3]
    obtain ⟨u, hu, hdsc⟩ := forall₂_left hT p hp
    refine ⟨hx.1, descends_moves hdsc hu rnd hx.2 ?_ hxy⟩
    intro w hw
    obtain ⟨g', e⟩ := hγ idSched
    have galive : g2.alive p.2 = true := by
      by_contra c; unfold eval at e; rw [if_neg c] at e; cases e
    have gop : isOp g2 p.2 = true := by rw [isOp_iff, a2.nodes]; exact hop p hp
    have same := (c32_same_graph_iff_linked _ g2 hrun root p.2 ra galive ro gop).mpr (hlink p hp)
    have hzg : ¬ Frozen g2 p.2 := by
      rintro ⟨_, y⟩
      have : g2.gman root = g2.gman p.2 := by simpa [isSameGraph] using same
      exact hz ⟨(isOp_iff g2 root).mp ro, by rw [this]; exact y⟩
    have := (c30_eval_fresh_unfrozen _ g2 g' idSched p.2 (some γ) hrun hloud hzg e w).mpr hw
    cases this; rfl
  · rw [rd2 _ _ hl] at hv
    rw [rd3 _ _ hl, al3, rnd.1 l (by rw [descends_leaves hT]; exact hn)]
    exact hv

/-- Which variables are trained: those the root depends on, except those some subtree depends on that was
ignored since the ignore set was last cleared. -/
theorem c50_trained (cs : List (Sched × Call V)) (g : G V) (isVar : Nat → Bool) (ics : List IgnoreCall)
    (order : List Nat → List Nat) (root l : Nat) (hr : run cs G.empty = .ok g) (hp : ∀ l, (order l).Perm l)
    (hroot : root < (told (cs.map Prod.snd)).nodes.length)
    (hics : ∀ n, IgnoredSince ics n → n < (told (cs.map Prod.snd)).nodes.length) :
    l ∈ trained isVar (ignoredBy isVar g ics) order g root ↔ isVar l = true ∧ DependsOn (told (cs.map Prod.snd)).nodes root l ∧
      ¬ ∃ n, IgnoredSince ics n ∧ DependsOn (told (cs.map Prod.snd)).nodes n l := by
  have hig : l ∈ ignoredBy isVar g ics ↔ isVar l = true ∧ ∃ n, IgnoredSince ics n ∧ DependsOn (told (cs.map Prod.snd)).nodes n l := by
    clear hroot
    induction ics with
    | nil => simp [ignoredBy, IgnoredSince]
    | cons c ics ih =>
      cases c with
      | clear => simp [ignoredBy, IgnoredSince]
      | subtree m =>
        simp only [ignoredBy, ignoreSubtree, List.mem_append, List.mem_filter]
        rw [ih (fun n hn => hics n (Or.inr hn)), c33_leaves cs g hr m l (hics m (Or.inl rfl))]
        constructor
        · rintro (⟨h1, h2⟩ | ⟨h1, n, h2, h3⟩)
          · exact ⟨h2, m, Or.inl rfl, h1⟩
          · exact ⟨h1, n, Or.inr h2, h3⟩
        · rintro ⟨h1, n, h2, h3⟩
          rcases h2 with rfl | h2
          · exact Or.inl ⟨h3, h1⟩
          · exact Or.inr ⟨h1, n, h2, h3⟩
  unfold trained
  rw [List.mem_filter, (hp _).mem_iff, c33_leaves cs g hr root l hroot]
  simp only [Bool.and_eq_true, Bool.not_eq_true', decide_eq_false_iff_not, hig]
  constructor
  · rintro ⟨h1, h2, h3⟩
    exact ⟨h2, h1, fun c => h3 ⟨h2, c⟩⟩
  · rintro ⟨h1, h2, h3⟩
    exact ⟨h2, h1, fun c => h3 c.2⟩

/-- Two leaves under the root, one of them also under the ignored subtree. -/
example : ∃ g, run hist1 G.empty = .ok g ∧ trained (fun _ => true) (ignoredBy (fun _ => true) g [.subtree 0, .clear, .subtree 4]) id g 4 = [1] ∧
    IgnoredSince [.subtree 0, .clear, .subtree 4] 0 ∧ ¬ IgnoredSince [.subtree 0, .clear, .subtree 4] 4 :=
  ⟨_, rfl, rfl, Or.inl rfl, by simp [IgnoredSince]⟩

/-- The steps must belong to the frozen graph.  For the error `w₁ * w₂` the gradients are the variables `w₂` and `w₁`
themselves, so the steps `lr * w₂` and `lr * w₁` are operations of graphs of their own, which are not frozen: the second
variable is then moved by the step for the new value of the first.  (Here `w₁ = 3`, `w₂ = 5`, `lr = 1`; a simultaneous
round would give -2 and 2.) -/
theorem c50_unlinked_sequential :
    ∃ (cs : List (Sched × Call Int)) (g g' : G Int) (us : List (Act Int)), run cs G.empty = .ok g ∧ (∀ c ∈ cs, Loud c.2) ∧
      trainRound idSched idSched 2 us g = .ok g' ∧ (∀ u ∈ us, u.ntf = true) ∧ (us.map (·.leaf)).Nodup ∧
      g'.data 0 = some (-2) ∧ g'.data 1 = some 7 ∧
      ¬ ∃ σ', Round (told (cs.map Prod.snd)).nodes us (told (cs.map Prod.snd)).leaf σ' ∧ σ' 1 = some 7 := by
  refine ⟨[.newLeaf (some 3), .newLeaf (some 5), .newOp (fun vs => .ok vs.prod) [0, 1] false, .newOp (fun vs => .ok vs.sum) [1] false,
    .newOp (fun vs => .ok vs.sum) [0] false].map (fun c => (idSched, c)), _, _,
    [⟨0, fun a b => .ok (a - b), .node 3, true, idSched⟩, ⟨1, fun a b => .ok (a - b), .node 4, true, idSched⟩], rfl, ?_, rfl, ?_, ?_, rfl, rfl, ?_⟩
  · intro c hc; simp at hc; rcases hc with rfl | rfl | rfl | rfl | rfl <;> trivial
  · intro u hu; simp at hu; rcases hu with rfl | rfl <;> rfl
  · decide
  · rintro ⟨σ', h, e⟩
    obtain ⟨b, c, m⟩ := (h.2 ⟨1, fun a b => .ok (a - b), .node 4, true, idSched⟩ (by simp)).2.2 4 rfl
    have hb : b = 3 := by
      cases c with
      | leaf h _ => cases h
      | @op n f args z vs v h1 h2 h3 h4 =>
        cases h1
        match vs, h2, h3, h4 with
        | [x], _, h3, h4 =>
          cases h4
          cases h3 0 0 x rfl rfl with
          | leaf _ h => cases h; rfl
          | op h _ _ _ => cases h
    subst hb
    rcases m with ⟨m, _⟩ | ⟨x, v, e1, e2, e3⟩
    · cases m
    · cases e1; cases e2
      rw [e] at e3
      cases e3

theorem mapTwo_get {T : Type} (f : T → T → T) : ∀ (a b : List T) (i : Nat) (x y : T), a[i]? = some x → b[i]? = some y →
    (mapTwo f a b)[i]? = some (f x y)
  | [], _, _, _, _, h, _ => by simp at h
  | _ :: _, [], _, _, _, _, h => by simp at h
  | x :: a, y :: b, 0, _, _, h1, h2 => by simp at h1 h2; subst h1; subst h2; rfl
  | x :: a, y :: b, i + 1, _, _, h1, h2 => by
    simp only [mapTwo, List.getElem?_cons_succ] at h1 h2 ⊢
    exact mapTwo_get f a b i _ _ h1 h2

/-- What the formula of C49 says about distances: after `k` updates every element is exactly `(1 - rate)^k` times as far
from the source as before, for a rate between 0 and 1 on the same side, and for a positive rate arbitrarily close. -/
theorem c49_distance (rate : ℝ) (t s : List ℝ) (i : Nat) (x y : ℝ) (hx : t[i]? = some x) (hy : s[i]? = some y) (h0 : 0 ≤ rate) (h1 : rate ≤ 1) :
    (∀ k : Nat, ∃ x', (mapTwo (fun x y => y + (1 - rate) ^ k * (x - y)) t s)[i]? = some x' ∧ x' - y = (1 - rate) ^ k * (x - y) ∧
      |x' - y| ≤ |x - y| ∧ 0 ≤ (x' - y) * (x - y)) ∧
    (0 < rate → ∀ ε > 0, ∃ N : Nat, ∀ k ≥ N, ∀ x', (mapTwo (fun x y => y + (1 - rate) ^ k * (x - y)) t s)[i]? = some x' → |x' - y| < ε) := by
  have e : ∀ k : Nat, (mapTwo (fun x y => y + (1 - rate) ^ k * (x - y)) t s)[i]? = some (y + (1 - rate) ^ k * (x - y)) :=
    fun k => mapTwo_get _ t s i x y hx hy
  have p0 : ∀ k : Nat, 0 ≤ (1 - rate) ^ k := fun k => pow_nonneg (by linarith) k
  have p1 : ∀ k : Nat, (1 - rate) ^ k ≤ 1 := fun k => pow_le_one₀ (by linarith) (by linarith)
  refine ⟨fun k => ⟨_, e k, by ring, ?_, ?_⟩, fun hp ε hε => ?_⟩
  · rw [show y + (1 - rate) ^ k * (x - y) - y = (1 - rate) ^ k * (x - y) by ring, abs_mul, abs_of_nonneg (p0 k)]
    exact mul_le_of_le_one_left (abs_nonneg _) (p1 k)
  · rw [show (y + (1 - rate) ^ k * (x - y) - y) * (x - y) = (1 - rate) ^ k * ((x - y) * (x - y)) by ring]
    exact mul_nonneg (p0 k) (mul_self_nonneg _)
  · obtain ⟨N, hN⟩ := exists_pow_lt_of_lt_one (show 0 < ε / (|x - y| + 1) from div_pos hε (by positivity)) (show 1 - rate < 1 by linarith)
    refine ⟨N, fun k hk x' hx' => ?_⟩
    rw [e k] at hx'
    cases hx'
    rw [show y + (1 - rate) ^ k * (x - y) - y = (1 - rate) ^ k * (x - y) by ring, abs_mul, abs_of_nonneg (p0 k)]
    have h2 : (1 - rate) ^ k ≤ (1 - rate) ^ N := pow_le_pow_of_le_one (by linarith) (by linarith) hk
    have h3 : (1 - rate) ^ k < ε / (|x - y| + 1) := lt_of_le_of_lt h2 hN
    rw [lt_div_iff₀ (by positivity)] at h3
    nlinarith [abs_nonneg (x - y), p0 k]

/-- A target (1, 2) and a source (3, 6); rate 1/4. -/
def hist4 : List (Sched × Call (List ℝ)) := [.newLeaf (some [1, 2]), .newLeaf (some [3, 6])].map (fun c => (idSched, c))

theorem quarter : ¬ ((1 / 4 : ℝ) = 0) ∧ ¬ ((1 / 4 : ℝ) = 1) := ⟨by norm_num, by norm_num⟩

/-- The hypotheses of C49 hold for them, with three updates. -/
example : ∃ g us g1 g3, run hist4 G.empty = .ok g ∧ (∀ c ∈ hist4, Loud c.2) ∧
    targetUpdates idSched (1 / 4) [(0, 1)] g = .ok (us, g1) ∧ (∀ u ∈ us, ∀ n, u.src = .node n → ¬ Frozen g1 n) ∧
    updateTimes 3 us g1 = .ok g3 ∧ Reads g1 0 [1, 2] ∧ Reads g1 1 [3, 6] := by
  simp only [targetUpdates, targetUpdate, scaleNode, if_neg quarter.1, if_neg quarter.2]
  refine ⟨_, [⟨0, subEach, .node 3, true, idSched⟩], _, _, rfl, ?_, rfl, ?_, rfl, fun _ => ⟨_, rfl⟩, fun _ => ⟨_, rfl⟩⟩
  · intro c hc; simp [hist4] at hc; rcases hc with rfl | rfl <;> trivial
  · intro u hu n hn
    rw [List.mem_singleton] at hu
    subst hu
    cases hn
    rintro ⟨_, h⟩
    cases h

/-- The error `(w - x)²` with gradient `2 * (w - x)`, for `w = (1, 2)` and `x = (3, 6)`. -/
def hist5 : List (Sched × Call (List ℝ)) := hist4 ++
  [.newOp subF [0, 1] false, .newOp (fun vs => match vs with | [a, b] => .ok (mapTwo (· * ·) a b) | _ => .abort) [2, 2] false,
   .newOp (scaleF 2) [2] false].map (fun c => (idSched, c))

/-- The hypotheses of `c50_descent` hold for it, with learning rate 1/4. -/
example : ∃ g us g1 g3, run hist5 G.empty = .ok g ∧ (∀ c ∈ hist5, Loud c.2) ∧
    vgbUpdates idSched (1 / 4) [(0, 4)] g = .ok (us, g1) ∧ ¬ Frozen g1 3 ∧ trainRound idSched idSched 3 us g1 = .ok g3 ∧
    (told (hist5.map Prod.snd)).nodes[0]? = some .leaf ∧
    (∃ f args h, (told (hist5.map Prod.snd)).nodes[4]? = some (.op f args h)) ∧ Linked (told (hist5.map Prod.snd)).nodes 3 4 := by
  simp only [vgbUpdates, scaleNode, if_neg quarter.1, if_neg quarter.2]
  refine ⟨_, [⟨0, subEach, .node 5, true, idSched⟩], _, _, rfl, ?_, rfl, ?_, rfl, rfl, ⟨_, _, _, rfl⟩, ?_⟩
  · intro c hc; simp [hist5, hist4] at hc; rcases hc with rfl | rfl | rfl | rfl | rfl <;> trivial
  · rintro ⟨_, h⟩
    cases h
  · exact .trans _ 2 _ (.symm _ _ (.rel _ _ ⟨⟨_, _, _, rfl⟩, _, _, _, rfl, by simp⟩)) (.rel _ _ ⟨⟨_, _, _, rfl⟩, _, _, _, rfl, by simp⟩)

end Verif.Props
