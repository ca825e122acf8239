import Verif.Lemmas.Pin
import Verif.Props.Train
/-!
# C50: rmsprop
-/
namespace Verif.Props
open Graph Spec
open React (upd forEach)

variable {V : Type}

theorem computes_one {nodes : List (Def V)} {σ : Nat → Option V} {n k : Nat} {f : List V → Outcome V} {h : Bool} {v : V}
    (hn : nodes[n]? = some (.op f [k] h)) (hc : Computes nodes σ n v) : ∃ w, Computes nodes σ k w ∧ f [w] = .ok v := by
  cases hc with
  | leaf h _ => rw [hn] at h; cases h
  | @op n f args b' vs v h1 h2 h3 h4 =>
    rw [hn] at h1
    cases h1
    match vs, h2, h3, h4 with
    | [x], _, h3, h4 => exact ⟨x, h3 0 k x rfl rfl, h4⟩

theorem computes_two {nodes : List (Def V)} {σ : Nat → Option V} {n k l : Nat} {f : List V → Outcome V} {h : Bool} {v : V}
    (hn : nodes[n]? = some (.op f [k, l] h)) (hc : Computes nodes σ n v) :
    ∃ w z, Computes nodes σ k w ∧ Computes nodes σ l z ∧ f [w, z] = .ok v := by
  cases hc with
  | leaf h _ => rw [hn] at h; cases h
  | @op n f args b' vs v h1 h2 h3 h4 =>
    rw [hn] at h1
    cases h1
    match vs, h2, h3, h4 with
    | [x, y], _, h3, h4 => exact ⟨x, y, h3 0 k x rfl rfl, h3 1 l y rfl rfl, h4⟩

/-- The nodes of one rmsprop update. -/
structure RmsBuilt (r : Rms) (nodes : List (Def (List ℝ))) (pin : Nat → Option (List ℝ)) (p : Trainee) (b : Nat) : Prop where
  mom : nodes[b]? = some .leaf
  q : pin (b + 1) = some ((List.replicate p.n 1).map (r.d * ·))
  dm : nodes[b + 1]? = some (.op (mapF (r.d * ·)) [b] false)
  sq : nodes[b + 2]? = some (.op (mapF (· ^ 2)) [p.grad] false)
  ssq : nodes[b + 3]? = some (.op (mapF ((1 - r.d) * ·)) [b + 2] false)
  ms : nodes[b + 4]? = some (.op (zipF (· + ·)) [b + 1, b + 3] false)
  num : nodes[b + 5]? = some (.op (mapF (r.lr * ·)) [p.grad] false)
  rt : nodes[b + 6]? = some (.op (mapF Real.sqrt) [b + 4] false)
  den : nodes[b + 7]? = some (.op (mapF (· + r.eps)) [b + 6] false)
  st : nodes[b + 8]? = some (.op (zipF (· / ·)) [b + 5, b + 7] false)

theorem RmsBuilt.grow {r : Rms} {nodes ext : List (Def (List ℝ))} {pin pin' : Nat → Option (List ℝ)} {p : Trainee} {b : Nat}
    (h : RmsBuilt r nodes pin p b) (hp : ∀ k c, pin k = some c → pin' k = some c) : RmsBuilt r (nodes ++ ext) pin' p b :=
  ⟨getElem?_grows _ h.mom, hp _ _ h.q, getElem?_grows _ h.dm, getElem?_grows _ h.sq, getElem?_grows _ h.ssq, getElem?_grows _ h.ms,
   getElem?_grows _ h.num, getElem?_grows _ h.rt, getElem?_grows _ h.den, getElem?_grows _ h.st⟩

/-- One `process_update`. -/
theorem rmsOne {r : Rms} {sch : Sched} {p : Trainee} {g g' : G (List ℝ)} {t : Told (List ℝ)} {src : Nat → Prop} {pin : Nat → Option (List ℝ)}
    (i : Inv (fun k => (pin k).isSome = true) g) (a : Agrees t g) (P : Pin src pin g) (hg : isOp g p.grad = true)
    (h : run ((rmsCalls r p g.defs.length).map fun c => (sch, c)) g = .ok g') :
    ∃ pin', Inv (fun k => (pin' k).isSome = true) g' ∧ Agrees ((rmsCalls r p g.defs.length).foldl tell t) g' ∧
      Pin (fun x => src x ∨ x = g.defs.length) pin' g' ∧ (∀ k c, pin k = some c → pin' k = some c) ∧
      RmsBuilt r ((rmsCalls r p g.defs.length).foldl tell t).nodes pin' p g.defs.length := by
  generalize hb : g.defs.length = b at *
  have hgb : p.grad < b := by rw [← hb]; exact isOp_lt hg
  have hsrc : ∀ x, src x → x < b := fun x hx => by
    have := P.leaf x hx
    by_contra c
    rw [List.getElem?_eq_none (by omega)] at this; cases this
  have hgs : ¬ src p.grad := P.not_src hg
  simp only [rmsCalls, List.map_cons, List.map_nil] at h
  rw [run, Outcome.bind_eq_ok] at h
  obtain ⟨g0, h0, h⟩ := h
  obtain ⟨i0, a0, P0⟩ := step_pin i a P (show Respects src (Call.newLeaf _) from trivial) h0
  have e0 : g0 = newLeaf (some (List.replicate p.n 1)) g := by cases h0; rfl
  have l0 : g0.defs.length = b + 1 := by rw [e0]; simp [newLeaf, hb]
  rw [run, Outcome.bind_eq_ok] at h
  obtain ⟨g1, h1, h⟩ := h
  have P1 := P0.extend (m := b) (v := List.replicate p.n 1) (c := (List.replicate p.n 1).map (r.d * ·)) i0
    (by rw [e0, ← hb]; show (g.defs ++ [Def.leaf])[g.defs.length]? = _; rw [getElem?_push, if_pos rfl])
    (by rw [e0, ← hb]; simp [newLeaf, upd])
    (by
      intro k hk
      have h1 := i0.wf.args_lt k b hk
      have h2 := isOp_lt (isOp_of_arg hk)
      omega) rfl h1
  rw [l0] at P1
  have hmono : ∀ k c, pin k = some c → upd pin (b + 1) (some ((List.replicate p.n 1).map (r.d * ·))) k = some c := by
    intro k c hk
    have := P.lt hk
    rw [upd, if_neg (by omega)]; exact hk
  obtain ⟨i1', a1⟩ := step_inv i0 a0 (Or.inl (show Loud (Call.newOp _ _ _) from trivial)) h1
  have i1 : Inv (fun k => (upd pin (b + 1) (some ((List.replicate p.n 1).map (r.d * ·))) k).isSome = true) g1 := by
    refine i1'.weaken ?_
    intro k hk
    cases e : pin k with
    | none => rw [e] at hk; cases hk
    | some c => rw [hmono k c e]; rfl
  have resp : ∀ x, src x ∨ x = b → x ≤ b := by
    rintro x (hx | rfl)
    · exact Nat.le_of_lt (hsrc x hx)
    · exact Nat.le_refl _
  have hgs' : ¬ (src p.grad ∨ p.grad = b) := by
    rintro (c | c)
    · exact hgs c
    · omega
  obtain ⟨i2, a2, P2⟩ := run_pin (src := fun x => src x ∨ x = b) _ i1 a1 P1 (by
    intro c hc
    simp only [List.mem_cons, List.not_mem_nil, or_false] at hc
    have big : ∀ j, ¬ (src (b + (j + 1)) ∨ b + (j + 1) = b) := fun j c => by have := resp _ c; omega
    rcases hc with rfl | rfl | rfl | rfl | rfl | rfl | rfl <;> simp only [Respects, List.mem_cons, List.not_mem_nil, or_false, forall_eq_or_imp, forall_eq]
    · exact hgs'
    · exact big 1
    · exact ⟨big 0, big 2⟩
    · exact hgs'
    · exact big 3
    · exact big 5
    · exact ⟨big 4, big 6⟩) h
  refine ⟨_, i2, a2, P2, hmono, ?_⟩
  have tn : t.nodes.length = b := by rw [← a.nodes]; exact hb
  have en : ((rmsCalls r p b).foldl tell t).nodes = t.nodes ++ [.leaf, .op (mapF (r.d * ·)) [b] false, .op (mapF (· ^ 2)) [p.grad] false,
   .op (mapF ((1 - r.d) * ·)) [b + 2] false, .op (zipF (· + ·)) [b + 1, b + 3] false, .op (mapF (r.lr * ·)) [p.grad] false,
   .op (mapF Real.sqrt) [b + 4] false, .op (mapF (· + r.eps)) [b + 6] false, .op (zipF (· / ·)) [b + 5, b + 7] false] := by
    simp [rmsCalls, tell]
  have get : ∀ (l : List (Def (List ℝ))) (j : Nat), (t.nodes ++ l)[b + j]? = l[j]? := by
    intro l j
    rw [List.getElem?_append_right (by omega)]
    congr 1; omega
  refine ⟨?_, by simp [upd], ?_, ?_, ?_, ?_, ?_, ?_, ?_, ?_⟩
  · have get0 : ∀ l : List (Def (List ℝ)), (t.nodes ++ l)[b]? = l[0]? := fun l => get l 0
    rw [en, get0]; rfl
  all_goals rw [en, get]; rfl

/-- All of them. -/
theorem rmsAll {r : Rms} {sch : Sched} (ps : List Trainee) : ∀ {g g' : G (List ℝ)} {t : Told (List ℝ)} {bs : List Nat} {src : Nat → Prop} {pin : Nat → Option (List ℝ)},
    Inv (fun k => (pin k).isSome = true) g → Agrees t g → Pin src pin g → (∀ p ∈ ps, isOp g p.grad = true) →
    rmsUpdates sch r ps g = .ok (bs, g') →
    ∃ pin' ds, run ds g = .ok g' ∧ (∀ c ∈ ds, Loud c.2) ∧ Inv (fun k => (pin' k).isSome = true) g' ∧
      Agrees ((ds.map Prod.snd).foldl tell t) g' ∧ Pin (fun x => src x ∨ x ∈ bs) pin' g' ∧ (∀ k c, pin k = some c → pin' k = some c) ∧
      List.Forall₂ (RmsBuilt r ((ds.map Prod.snd).foldl tell t).nodes pin') ps bs ∧ bs.Nodup ∧ ∀ b ∈ bs, g.defs.length ≤ b := by
  induction ps with
  | nil =>
    intro g g' t bs src pin i a P _ h
    cases h
    refine ⟨pin, [], rfl, by simp, i, a, ?_, fun _ _ h => h, .nil, .nil, by simp⟩
    have : (fun x => src x ∨ x ∈ ([] : List Nat)) = src := by funext x; simp
    rw [this]; exact P
  | cons p ps ih =>
    intro g g' t bs src pin i a P hg h
    rw [rmsUpdates, Outcome.bind_eq_ok] at h
    obtain ⟨g1, h1, h⟩ := h
    rw [Outcome.bind_eq_ok] at h
    obtain ⟨q, h2, h3⟩ := h
    cases h3
    obtain ⟨pin1, i1, a1, P1, m1, b1⟩ := rmsOne i a P (hg p (by simp)) h1
    have hlen : (rmsCalls r p g.defs.length).foldl tell t = ((((rmsCalls r p g.defs.length).map fun c => (sch, c)).map Prod.snd).foldl tell t) := by
      rw [List.map_map]; simp
    obtain ⟨ext, e1⟩ := told_grows (rmsCalls r p g.defs.length) t
    have hlt : g.defs.length < g1.defs.length := by
      rw [a1.nodes]
      have := b1.mom
      by_contra c
      rw [List.getElem?_eq_none (by omega)] at this; cases this
    obtain ⟨pin2, ds, r2, l2, i2, a2, P2, m2, b2, n2, x2⟩ := ih (bs := q.1) (g' := q.2) i1 a1 P1 (by
      intro p' hp'
      have := hg p' (by simp [hp'])
      rw [isOp_iff] at this ⊢
      obtain ⟨f, args, z, e⟩ := this
      refine ⟨f, args, z, ?_⟩
      rw [a1.nodes, e1, ← a.nodes]
      exact getElem?_grows _ e) h2
    refine ⟨pin2, ((rmsCalls r p g.defs.length).map fun c => (sch, c)) ++ ds, ?_, ?_, i2, ?_, ?_, fun k c hk => m2 k c (m1 k c hk), ?_, ?_, ?_⟩
    · rw [run_append, h1]; exact r2
    · intro c hc
      rcases List.mem_append.mp hc with hc | hc
      · simp only [rmsCalls, List.map_cons, List.map_nil, List.mem_cons, List.not_mem_nil, or_false] at hc
        rcases hc with rfl | rfl | rfl | rfl | rfl | rfl | rfl | rfl | rfl <;> trivial
      · exact l2 c hc
    · rw [List.map_append, List.foldl_append, ← hlen]; exact a2
    · have : (fun x => src x ∨ x ∈ g.defs.length :: q.1) = fun x => (src x ∨ x = g.defs.length) ∨ x ∈ q.1 := by
        funext x; simp only [List.mem_cons, or_assoc]
      rw [this]; exact P2
    · rw [List.map_append, List.foldl_append, ← hlen]
      refine .cons ?_ b2
      obtain ⟨ext', e'⟩ := told_grows (ds.map Prod.snd) ((rmsCalls r p g.defs.length).foldl tell t)
      rw [e']
      exact b1.grow m2
    · rw [List.nodup_cons]
      exact ⟨fun c => by have := x2 _ c; omega, n2⟩
    · intro b hb
      rcases List.mem_cons.mp hb with rfl | hb
      · exact Nat.le_refl _
      · have := x2 b hb; omega

theorem rmsActs_mem {sch : Sched} {R : Trainee → Nat → Prop} {ps : List Trainee} {bs : List Nat} (h : List.Forall₂ R ps bs) (u : Act (List ℝ)) :
    u ∈ rmsActs sch ps bs ↔ ∃ p b, (p, b) ∈ ps.zip bs ∧
      (u = ⟨b, setEach, .node (b + 4), false, sch⟩ ∨ u = ⟨p.leaf, subEach, .node (b + 8), true, sch⟩) := by
  induction h with
  | nil => simp [rmsActs]
  | @cons p b ps bs _ _ ih =>
    simp only [rmsActs, List.mem_cons, List.zip_cons_cons, ih, Prod.mk.injEq]
    constructor
    · rintro (h | h | ⟨p', b', h1, h2⟩)
      · exact ⟨p, b, Or.inl ⟨rfl, rfl⟩, Or.inl h⟩
      · exact ⟨p, b, Or.inl ⟨rfl, rfl⟩, Or.inr h⟩
      · exact ⟨p', b', Or.inr h1, h2⟩
    · rintro ⟨p', b', ⟨rfl, rfl⟩ | h1, h2⟩
      · rcases h2 with h2 | h2
        · exact Or.inl h2
        · exact Or.inr (Or.inl h2)
      · exact Or.inr (Or.inr ⟨p', b', h1, h2⟩)

theorem forall₂_zip {α β : Type} {R : α → β → Prop} {as : List α} {bs : List β} (h : List.Forall₂ R as bs) :
    ∀ a b, (a, b) ∈ as.zip bs → a ∈ as ∧ b ∈ bs ∧ R a b := by
  induction h with
  | nil => simp
  | cons h _ ih =>
    intro a b hab
    rw [List.zip_cons_cons, List.mem_cons] at hab
    rcases hab with e | hab
    · cases e; exact ⟨by simp, by simp, h⟩
    · obtain ⟨x, y, z⟩ := ih a b hab
      exact ⟨by simp [x], by simp [y], z⟩

theorem rmsActs_leaf {sch : Sched} {R : Trainee → Nat → Prop} {ps : List Trainee} {bs : List Nat} (h : List.Forall₂ R ps bs) (N : Nat)
    (h1 : (ps.map (·.leaf)).Nodup) (h2 : ∀ p ∈ ps, p.leaf < N) (h3 : bs.Nodup) (h4 : ∀ b ∈ bs, N ≤ b) :
    ((rmsActs sch ps bs).map (·.leaf)).Nodup ∧ ∀ l, l ∈ (rmsActs sch ps bs).map (·.leaf) ↔ l ∈ ps.map (·.leaf) ∨ l ∈ bs := by
  induction h with
  | nil => exact ⟨.nil, by simp [rmsActs]⟩
  | @cons p b ps bs _ _ ih =>
    rw [List.map_cons, List.nodup_cons] at h1
    rw [List.nodup_cons] at h3
    obtain ⟨n, m⟩ := ih h1.2 (fun q hq => h2 q (by simp [hq])) h3.2 (fun c hc => h4 c (by simp [hc]))
    have hp := h2 p (by simp)
    have hb := h4 b (by simp)
    refine ⟨?_, ?_⟩
    · simp only [rmsActs, List.map_cons, List.nodup_cons, List.mem_cons, m, not_or]
      refine ⟨⟨by omega, ?_, h3.1⟩, ⟨h1.1, fun c => ?_⟩, n⟩
      · intro c
        obtain ⟨q, hq, e⟩ := List.mem_map.mp c
        have := h2 q (by simp [hq]); omega
      · have := h4 _ (List.mem_cons_of_mem _ c); omega
    · intro l
      simp only [rmsActs, List.map_cons, List.mem_cons, m]
      constructor
      · rintro (h | h | h | h)
        · exact Or.inr (Or.inl h)
        · exact Or.inl (Or.inl h)
        · exact Or.inl (Or.inr h)
        · exact Or.inr (Or.inr h)
      · rintro ((h | h) | (h | h))
        · exact Or.inr (Or.inl h)
        · exact Or.inr (Or.inr (Or.inl h))
        · exact Or.inl h
        · exact Or.inr (Or.inr (Or.inr h))

theorem ones_add (d : ℝ) (γ : List ℝ) : ∀ n, n = γ.length →
    mapTwo (· + ·) ((List.replicate n (1 : ℝ)).map (d * ·)) ((γ.map (· ^ 2)).map ((1 - d) * ·)) = γ.map fun y => d + (1 - d) * y ^ 2 := by
  induction γ with
  | nil => rintro _ rfl; rfl
  | cons y γ ih =>
    rintro _ rfl
    simp only [List.length_cons, List.replicate_succ, List.map_cons, mapTwo, mul_one]
    rw [ih γ.length rfl]

theorem mapTwo_maps {T : Type} (f : T → T → T) (a b : T → T) (l : List T) : mapTwo f (l.map a) (l.map b) = l.map fun x => f (a x) (b x) := by
  induction l with
  | nil => rfl
  | cons x l ih => simp only [List.map_cons, mapTwo, ih]

/-- The value of the two steps, with `d * momentum` as it was at first. -/
theorem rms_values {r : Rms} {nodes : List (Def (List ℝ))} {leaf : Nat → Option (List ℝ)} {src : Nat → Prop} {pin : Nat → Option (List ℝ)}
    {g : G (List ℝ)} {p : Trainee} {b : Nat} {γ : List ℝ} (P : Pin src pin g) (hd : g.defs = nodes) (h : RmsBuilt r nodes pin p b) (hg : isOp g p.grad = true)
    (hγ : ∀ w, Computes (pinNodes pin nodes) (pinLeaf pin leaf) p.grad w → w = γ) (hn : p.n = γ.length) (v : List ℝ) :
    (Computes (pinNodes pin nodes) (pinLeaf pin leaf) (b + 4) v → v = γ.map fun y => r.d + (1 - r.d) * y ^ 2) ∧
    (Computes (pinNodes pin nodes) (pinLeaf pin leaf) (b + 8) v → v = γ.map fun y => r.lr * y / (Real.sqrt (r.d + (1 - r.d) * y ^ 2) + r.eps)) := by
  have op : ∀ {k : Nat} {f args z}, nodes[k]? = some (.op f args z) → isOp g k = true := fun e => (isOp_iff g _).mpr ⟨_, _, _, by rw [hd]; exact e⟩
  have free : ∀ {k : Nat} {f args z}, nodes[k]? = some (.op f args z) → (∀ x ∈ args, isOp g x = true) → args ≠ [] →
      (pinNodes pin nodes)[k]? = some (.op f args z) := by
    intro k f args z e ha hne
    have : pin k = none := by
      cases ep : pin k with
      | none => rfl
      | some c =>
        obtain ⟨m, h1, h2⟩ := P.args k c ep
        rw [argsOf_op (f := f) (h := z) (by rw [hd]; exact e)] at h2
        exact absurd h1 (P.not_src (ha m (by rw [h2]; simp)))
    rw [pinNodes_get, this, if_neg (by simp)]; exact e
  have q4 : ∀ v, Computes (pinNodes pin nodes) (pinLeaf pin leaf) (b + 4) v → v = γ.map fun y => r.d + (1 - r.d) * y ^ 2 := by
    intro v hv
    obtain ⟨w, z, h1, h2, h3⟩ := computes_two (free h.ms (by simp [op h.dm, op h.ssq]) (by simp)) hv
    obtain ⟨z1, h4, h5⟩ := computes_one (free h.ssq (by simp [op h.sq]) (by simp)) h2
    obtain ⟨z2, h6, h7⟩ := computes_one (free h.sq (by simp [hg]) (by simp)) h4
    have e2 := hγ z2 h6
    subst e2
    simp only [mapF] at h5 h7
    cases h7; cases h5
    have ew : w = (List.replicate p.n 1).map (r.d * ·) := by
      cases h1 with
      | leaf _ e =>
        simp only [pinLeaf, h.q] at e
        have e : some _ = some w := e
        cases e; rfl
      | op e _ _ _ =>
        rw [pinNodes_get, h.q, if_pos (by rfl), h.dm] at e
        cases e
    subst ew
    simp only [zipF] at h3
    split at h3
    · cases h3
      exact ones_add r.d _ _ hn
    · cases h3
  refine ⟨q4 v, fun hv => ?_⟩
  obtain ⟨w, z, h1, h2, h3⟩ := computes_two (free h.st (by simp [op h.num, op h.den]) (by simp)) hv
  obtain ⟨w1, h4, h5⟩ := computes_one (free h.num (by simp [hg]) (by simp)) h1
  obtain ⟨z1, h6, h7⟩ := computes_one (free h.den (by simp [op h.rt]) (by simp)) h2
  obtain ⟨z2, h8, h9⟩ := computes_one (free h.rt (by simp [op h.ms]) (by simp)) h6
  have e1 := hγ w1 h4
  have e2 := q4 z2 h8
  subst e1; subst e2
  simp only [mapF] at h5 h7 h9
  cases h9; cases h7; cases h5
  simp only [zipF] at h3
  split at h3
  · cases h3
    rw [List.map_map, List.map_map, mapTwo_maps]
    rfl
  · cases h3

/-- **C50, rmsprop.**  What a round of training with rmsprop does, after any history in which the updater was made by
`rmsUpdates` and everything after it leaves the momentum variables alone except for silent assignments (which is what
the updates do: the round itself is such a history, so this holds for any number of rounds).  For the values `x` of a
trained variable and `γ` of its gradient just before the round, the variable becomes
`x - lr * γ / (sqrt(d + (1 - d) * γ²) + ε)` and the momentum variable becomes `d + (1 - d) * γ²`, in every round.
The documented step has the momentum after the previous round in the place of the initial momentum 1: the node
`d * momentum` is never recomputed, because the momentum is assigned without notification. -/
theorem c50_rmsprop (cs ds : List (Sched × Call (List ℝ))) (g g1 g2 g3 : G (List ℝ)) (sch s₁ s₂ : Sched) (r : Rms) (root : Nat)
    (ps : List Trainee) (bs : List Nat)
    (hr : run cs G.empty = .ok g) (hl : ∀ c ∈ cs, Loud c.2) (hnd : (ps.map (·.leaf)).Nodup)
    (hleaf : ∀ p ∈ ps, (told (cs.map Prod.snd)).nodes[p.leaf]? = some .leaf)
    (hgrad : ∀ p ∈ ps, (∃ f args h, (told (cs.map Prod.snd)).nodes[p.grad]? = some (.op f args h)) ∧ Linked (told (cs.map Prod.snd)).nodes root p.grad)
    (hb : rmsUpdates sch r ps g = .ok (bs, g1)) (hd : run ds g1 = .ok g2) (hds : ∀ c ∈ ds, Respects (· ∈ bs) c.2)
    (hz : ¬ Frozen g2 root) (ht : trainRound s₁ s₂ root (rmsActs sch ps bs) g2 = .ok g3) :
    (∃ es : List (Sched × Call (List ℝ)), run es g2 = .ok g3 ∧ ∀ c ∈ es, Respects (· ∈ bs) c.2) ∧
    (∀ p b, (p, b) ∈ ps.zip bs → ∀ x γ, Reads g2 p.leaf x → Reads g2 p.grad γ → x.length = γ.length → p.n = γ.length →
      Reads g3 p.leaf (mapTwo (fun x y => x - r.lr * y / (Real.sqrt (r.d + (1 - r.d) * y ^ 2) + r.eps)) x γ) ∧
      Reads g3 b (γ.map fun y => r.d + (1 - r.d) * y ^ 2)) ∧
    ∀ (l : Nat) v, (told (cs.map Prod.snd)).nodes[l]? = some .leaf → l ∉ ps.map (·.leaf) → Reads g2 l v → Reads g3 l v := by
  obtain ⟨i, a⟩ := reach_inv (S := fun k => ((fun _ => none : Nat → Option (List ℝ)) k).isSome = true) (Or.inl hl) hr
  have P0 : Pin (fun _ => False) (fun _ => none) g :=
    ⟨(fun _ _ h => by cases h), (fun _ _ h => by cases h), (fun _ _ h => by cases h), (fun _ h => False.elim h), (fun _ h => False.elim h)⟩
  obtain ⟨pin, bds, r1, l1, i1, a1, P1, _, built, ndb, geb⟩ := rmsAll ps i a P0 (fun p hp => by
    rw [isOp_iff, a.nodes]; exact (hgrad p hp).1) hb
  have srcs : (fun x => False ∨ x ∈ bs) = (· ∈ bs) := by funext x; simp
  rw [srcs] at P1
  obtain ⟨i2, a2, P2⟩ := run_pin ds i1 a1 P1 hds hd
  have hrun : run (cs ++ (bds ++ ds)) G.empty = .ok g2 := by
    rw [run_append, hr, Outcome.ok_bind, run_append, r1]; exact hd
  have e0 : told ((cs ++ (bds ++ ds)).map Prod.snd) = (ds.map Prod.snd).foldl tell ((bds.map Prod.snd).foldl tell (told (cs.map Prod.snd))) := by
    simp [told, List.foldl_append]
  rw [← e0] at a2
  obtain ⟨ext1, e1⟩ := told_grows (bds.map Prod.snd) (told (cs.map Prod.snd))
  obtain ⟨ext2, e2⟩ := told_grows (ds.map Prod.snd) ((bds.map Prod.snd).foldl tell (told (cs.map Prod.snd)))
  have en : (told ((cs ++ (bds ++ ds)).map Prod.snd)).nodes = (told (cs.map Prod.snd)).nodes ++ (ext1 ++ ext2) := by
    rw [e0, e2, e1, List.append_assoc]
  have built2 : List.Forall₂ (RmsBuilt r (told ((cs ++ (bds ++ ds)).map Prod.snd)).nodes pin) ps bs := by
    rw [e0, e2]
    exact built.imp fun _ _ h => h.grow fun _ _ h => h
  generalize hN : told ((cs ++ (bds ++ ds)).map Prod.snd) = N at *
  have up : ∀ (n : Nat) x, (told (cs.map Prod.snd)).nodes[n]? = some x → N.nodes[n]? = some x := by
    intro n x h
    rw [en]; exact getElem?_grows _ h
  have hlt : ∀ p ∈ ps, p.leaf < g.defs.length := by
    intro p hp
    have := hleaf p hp
    rw [← a.nodes] at this
    by_contra c
    rw [List.getElem?_eq_none (by omega)] at this; cases this
  obtain ⟨nda, mema⟩ := rmsActs_leaf (sch := sch) built2 g.defs.length hnd hlt ndb geb
  have gop : ∀ p ∈ ps, isOp g2 p.grad = true := by
    intro p hp
    rw [isOp_iff, a2.nodes]
    obtain ⟨f, args, h, e⟩ := (hgrad p hp).1
    exact ⟨f, args, h, up _ _ e⟩
  have lnk : ∀ p ∈ ps, Linked N.nodes root p.grad := fun p hp => by rw [en]; exact linked_grows _ (hgrad p hp).2
  have gop' : ∀ p ∈ ps, ∃ f args h, N.nodes[p.grad]? = some (.op f args h) := fun p hp => by
    have := gop p hp
    rw [isOp_iff, a2.nodes] at this; exact this
  obtain ⟨ra, ro, hal⟩ := trainRound_alive (i2.weaken (fun _ _ => trivial)) a2 ht
  have lk : ∀ {x y : Nat} {f f' args args' z z'}, N.nodes[x]? = some (.op f args z) → N.nodes[y]? = some (.op f' args' z') → x ∈ args' → Linked N.nodes x y :=
    fun h1 h2 h3 => .rel _ _ ⟨⟨_, _, _, h1⟩, _, _, _, h2, h3⟩
  have src_ok : ∀ u ∈ rmsActs sch ps bs, ∀ n, u.src = .node n → g2.alive n = true ∧ isOp g2 n = true ∧ isSameGraph g2 root n = true := by
    intro u hu n hn
    have al := hal u hu n hn
    obtain ⟨p, b, hpb, hu⟩ := (rmsActs_mem built2 u).mp hu
    obtain ⟨hp, hb', h⟩ := forall₂_zip built2 p b hpb
    obtain ⟨f, args, z, eg⟩ := gop' p hp
    have l4 : Linked N.nodes root (b + 4) :=
      .trans _ _ _ (lnk p hp) (.trans _ _ _ (lk eg h.sq (by simp)) (.trans _ _ _ (lk h.sq h.ssq (by simp)) (lk h.ssq h.ms (by simp))))
    have l8 : Linked N.nodes root (b + 8) := .trans _ _ _ (lnk p hp) (.trans _ _ _ (lk eg h.num (by simp)) (lk h.num h.st (by simp)))
    have fin : Linked N.nodes root n ∧ isOp g2 n = true := by
      rcases hu with rfl | rfl
      · cases hn
        exact ⟨l4, by rw [isOp_iff, a2.nodes]; exact ⟨_, _, _, h.ms⟩⟩
      · cases hn
        exact ⟨l8, by rw [isOp_iff, a2.nodes]; exact ⟨_, _, _, h.st⟩⟩
    refine ⟨al, fin.2, (c32_same_graph_iff_linked _ g2 hrun root n ra al ro fin.2).mpr ?_⟩
    rw [hN]; exact fin.1
  obtain ⟨gf, es, st1, r3, c3, n3, o3, f1, f2, f3, f4, k3⟩ := round_core hrun ht nda src_ok
  rw [hN] at n3 o3 k3
  have r3' : run es g2 = .ok g3 := by rw [run_append, hrun] at r3; exact r3
  obtain ⟨_, a3⟩ := reach_inv (S := fun _ => True) (Or.inr fun _ => trivial) r3
  have steady : ∀ c ∈ es, Steady c.2 := by
    intro x hx
    rcases c3 x hx with ⟨m, b, e⟩ | h
    · exact Or.inr (Or.inr ⟨m, b, e⟩)
    · exact h.steady
  have al3 := (run_steady es (i2.weaken (fun _ _ => trivial)) a2 steady r3').1
  have resp : ∀ c ∈ es, Respects (· ∈ bs) c.2 := by
    intro x hx
    rcases c3 x hx with ⟨m, b, e⟩ | ⟨m, e⟩ | ⟨u, hu, v, e⟩
    · rw [e]; trivial
    · rw [e]; trivial
    · rw [e]
      obtain ⟨p, b, hpb, hu⟩ := (rmsActs_mem built2 u).mp hu
      obtain ⟨hp, hb', _⟩ := forall₂_zip built2 p b hpb
      rcases hu with rfl | rfl
      · exact Or.inl ⟨hb', rfl⟩
      · refine Or.inr ⟨fun c => ?_, rfl⟩
        have := geb _ c
        have := hlt p hp
        simp only at *
        omega
  have rd2 : ∀ (l : Nat) v, N.nodes[l]? = some .leaf → (Reads g2 l v ↔ _) := fun l v h => reads_leaf a2 h v
  have rd3 : ∀ (l : Nat) v, N.nodes[l]? = some .leaf → (Reads g3 l v ↔ _) := fun l v h => reads_leaf a3 (by rw [n3]; exact h) v
  -- the data at freezing
  have frz : ∃ gd, managerUpdate s₁ (g2.gman root) g2 = .ok gd ∧ gf.data = gd.data := by
    simp only [step, freezeStatus] at st1
    split at st1
    · rw [if_pos trivial, Outcome.bind_eq_ok] at st1
      obtain ⟨gd, h1, h2⟩ := st1
      cases h2
      exact ⟨gd, h1, rfl⟩
    · cases st1
  obtain ⟨gd, hgd, hdat⟩ := frz
  have val : ∀ n, g2.alive n = true → isOp g2 n = true → isSameGraph g2 root n = true → ∀ v, gf.data n = some v →
      Computes (pinNodes pin N.nodes) (pinLeaf pin N.leaf) n v := by
    intro n x1 x2 x3 v hv
    rw [hdat] at hv
    refine (drained_pinned i2 a2 P2 hgd n x1 (fun _ => ?_) v).mp hv
    have : g2.gman root = g2.gman n := by simpa [isSameGraph] using x3
    exact this.symm
  refine ⟨⟨es, r3', resp⟩, fun p b hpb x γ hx hγ hxy hn => ?_, fun l v hl hn hv => ?_⟩
  · obtain ⟨hp, hb', h⟩ := forall₂_zip built2 p b hpb
    have grad_val : ∀ w, Computes (pinNodes pin N.nodes) (pinLeaf pin N.leaf) p.grad w → w = γ := by
      intro w hw
      obtain ⟨g', e⟩ := hγ idSched
      have galive : g2.alive p.grad = true := by
        by_contra c; unfold eval at e; rw [if_neg c] at e; cases e
      have same := (c32_same_graph_iff_linked _ g2 hrun root p.grad ra galive ro (gop p hp)).mpr (by rw [hN]; exact lnk p hp)
      have same : g2.gman root = g2.gman p.grad := by simpa [isSameGraph] using same
      have hzg : (g2.man (g2.gman p.grad)).freeze = false := by
        cases ef : (g2.man (g2.gman p.grad)).freeze with
        | false => rfl
        | true => exact absurd ⟨(isOp_iff g2 root).mp ro, by rw [same]; exact ef⟩ hz
      unfold eval at e
      rw [if_pos galive, if_pos (by rw [gop p hp, hzg]; rfl), Outcome.bind_eq_ok] at e
      obtain ⟨gx, h1, h2⟩ := e
      simp only [Outcome.ok.injEq, Prod.mk.injEq] at h2
      have := (drained_pinned i2 a2 P2 h1 p.grad galive (fun _ => rfl) w).mpr hw
      rw [h2.1] at this; cases this; rfl
    have vals := rms_values P2 a2.nodes h (gop p hp) grad_val hn
    have nl : N.nodes[p.leaf]? = some .leaf := up _ _ (hleaf p hp)
    rw [rd2 _ _ nl] at hx
    rw [rd3 _ _ nl, rd3 _ _ h.mom, al3]
    have um : (⟨b, setEach, .node (b + 4), false, sch⟩ : Act (List ℝ)) ∈ rmsActs sch ps bs := (rmsActs_mem built2 _).mpr ⟨p, b, hpb, Or.inl rfl⟩
    have ul : (⟨p.leaf, subEach, .node (b + 8), true, sch⟩ : Act (List ℝ)) ∈ rmsActs sch ps bs := (rmsActs_mem built2 _).mpr ⟨p, b, hpb, Or.inr rfl⟩
    refine ⟨⟨hx.1, ?_⟩, ?_, ?_⟩
    · obtain ⟨v, hv, m⟩ := (k3 _ ul).2.2 (b + 8) rfl
      obtain ⟨y1, y2, y3⟩ := src_ok _ ul (b + 8) rfl
      have ev := (vals v).2 (val _ y1 y2 y3 v hv)
      subst ev
      have m : Moved subEach _ (N.leaf p.leaf) _ := m
      rw [hx.2] at m
      rcases m with ⟨c, _⟩ | ⟨x', v', q1, q2, q3⟩
      · cases c
      · cases q1
        rw [q3]
        unfold subEach at q2
        rw [if_pos (by rw [List.length_map]; exact hxy)] at q2
        cases q2
        rw [mapTwo_map_right (· - ·) (fun x y => x - r.lr * y / (Real.sqrt (r.d + (1 - r.d) * y ^ 2) + r.eps)) _ (fun _ _ => rfl)]
    · have d4 := (src_ok _ um (b + 4) rfl).1
      have d1 := i2.wf.alive_args (b + 4) (b + 1) d4 (by rw [argsOf_op (by rw [a2.nodes]; exact h.ms)]; simp)
      exact i2.wf.alive_args (b + 1) b d1 (by rw [argsOf_op (by rw [a2.nodes]; exact h.dm)]; simp)
    · obtain ⟨v, hv, m⟩ := (k3 _ um).2.2 (b + 4) rfl
      obtain ⟨y1, y2, y3⟩ := src_ok _ um (b + 4) rfl
      have ev := (vals v).1 (val _ y1 y2 y3 v hv)
      subst ev
      have m : Moved setEach _ (N.leaf b) _ := m
      rcases m with ⟨c, _⟩ | ⟨x', v', q1, q2, q3⟩
      · have hs := i2.q.mono (b + 1) (by rw [isOp_iff, a2.nodes]; exact ⟨_, _, _, h.dm⟩) (by rw [P2.data _ _ h.q]; rfl) b
          (by rw [argsOf_op (by rw [a2.nodes]; exact h.dm)]; simp)
        rw [a2.leaf b (by rw [a2.nodes]; exact h.mom), c] at hs
        cases hs
      · rw [q3]
        unfold setEach at q2
        split at q2
        · cases q2; rfl
        · cases q2
  · rw [rd2 _ _ (up _ _ hl)] at hv
    rw [rd3 _ _ (up _ _ hl), al3, o3 l ?_]
    · exact hv
    · rw [mema]
      rintro (c | c)
      · exact hn c
      · have := geb l c
        rw [← a.nodes] at hl
        rw [List.getElem?_eq_none (by omega)] at hl; cases hl


/-- The graph of the example below `c50_descent`: a variable `w`, the error `(w - t)²` and its gradient `2(w - t)`. -/
example : ∃ g bs g1 g3, run hist5 G.empty = .ok g ∧ (∀ c ∈ hist5, Loud c.2) ∧ rmsUpdates idSched ⟨1, 1 / 2, 1⟩ [⟨0, 4, 2⟩] g = .ok (bs, g1) ∧
    run ([] : List (Sched × Call (List ℝ))) g1 = .ok g1 ∧ ¬ Frozen g1 3 ∧
    trainRound idSched idSched 3 (rmsActs idSched [⟨0, 4, 2⟩] bs) g1 = .ok g3 ∧ bs = [5] := by
  refine ⟨_, [5], _, _, rfl, ?_, rfl, rfl, ?_, rfl, rfl⟩
  · intro c hc; simp [hist5, hist4] at hc; rcases hc with rfl | rfl | rfl | rfl | rfl <;> trivial
  · rintro ⟨_, h⟩
    cases h

/-- **C50, the documented recurrence fails.**  gd_utils.cpp:222 documents `momentum = d * momentum + (1 - d) * grad²`.  In
the second round of training of the example, with `m` and `γ` the values of the momentum and of the gradient before the
round and `m'` the momentum after it, `m'` is not `d * m + (1 - d) * γ²`. -/
theorem c50_rmsprop_no_accumulation : ∃ (g g1 g3 g4 : G (List ℝ)) (m γ m' : List ℝ), run hist5 G.empty = .ok g ∧
    rmsUpdates idSched ⟨1, 1 / 2, 1⟩ [⟨0, 4, 2⟩] g = .ok ([5], g1) ∧
    trainRound idSched idSched 3 (rmsActs idSched [⟨0, 4, 2⟩] [5]) g1 = .ok g3 ∧
    trainRound idSched idSched 3 (rmsActs idSched [⟨0, 4, 2⟩] [5]) g3 = .ok g4 ∧
    Reads g3 5 m ∧ (∃ g', eval idSched 4 g3 = .ok (some γ, g')) ∧ Reads g4 5 m' ∧ m' ≠ mapTwo (fun m y => 1 / 2 * m + (1 - 1 / 2) * y ^ 2) m γ := by
  refine ⟨_, _, _, _, _, _, _, rfl, rfl, rfl, rfl, fun _ => ⟨_, rfl⟩, ⟨_, rfl⟩, fun _ => ⟨_, rfl⟩, fun c => ?_⟩
  have c := congrArg List.head? c
  simp [mapTwo, mapF] at c
  norm_num at c

/-- **C50, momentum.**  With a discount factor between 0 and 1, no momentum is negative after a round. -/
theorem c50_rmsprop_nonneg (cs ds : List (Sched × Call (List ℝ))) (g g1 g2 g3 : G (List ℝ)) (sch s₁ s₂ : Sched) (r : Rms) (root : Nat)
    (ps : List Trainee) (bs : List Nat) (h0 : 0 ≤ r.d) (h1 : r.d ≤ 1)
    (hr : run cs G.empty = .ok g) (hl : ∀ c ∈ cs, Loud c.2) (hnd : (ps.map (·.leaf)).Nodup)
    (hleaf : ∀ p ∈ ps, (told (cs.map Prod.snd)).nodes[p.leaf]? = some .leaf)
    (hgrad : ∀ p ∈ ps, (∃ f args h, (told (cs.map Prod.snd)).nodes[p.grad]? = some (.op f args h)) ∧ Linked (told (cs.map Prod.snd)).nodes root p.grad)
    (hb : rmsUpdates sch r ps g = .ok (bs, g1)) (hd : run ds g1 = .ok g2) (hds : ∀ c ∈ ds, Respects (· ∈ bs) c.2)
    (hz : ¬ Frozen g2 root) (ht : trainRound s₁ s₂ root (rmsActs sch ps bs) g2 = .ok g3)
    (p : Trainee) (b : Nat) (hp : (p, b) ∈ ps.zip bs) (x γ : List ℝ) (hx : Reads g2 p.leaf x) (hγ : Reads g2 p.grad γ)
    (hxγ : x.length = γ.length) (hn : p.n = γ.length) (m : List ℝ) (hm : Reads g3 b m) : ∀ y ∈ m, 0 ≤ y := by
  have key := ((c50_rmsprop cs ds g g1 g2 g3 sch s₁ s₂ r root ps bs hr hl hnd hleaf hgrad hb hd hds hz ht).2.1 p b hp x γ hx hγ hxγ hn).2
  obtain ⟨_, e1⟩ := key idSched
  obtain ⟨_, e2⟩ := hm idSched
  rw [e1] at e2
  cases e2
  intro y hy
  obtain ⟨z, _, rfl⟩ := List.mem_map.mp hy
  have := mul_nonneg (sub_nonneg.mpr h1) (sq_nonneg z)
  show 0 ≤ r.d + (1 - r.d) * z ^ 2
  linarith

end Verif.Props
