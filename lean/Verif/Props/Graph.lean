import Verif.Lemmas.GraphFreeze
/-!
# C30 to C33: the computation graph
-/
namespace Verif.Props
open Graph Spec
open React (upd)

variable {V : Type}

/-- A hash order used in examples. -/
def idSched : Sched := ⟨fun _ l => l, fun _ l => l, fun _ l => .refl l, fun _ l => .refl l⟩

/-! ## C30 -/

/-- The value `eval` returns for any node of a graph that is not frozen, after any history of calls in
which assignments notify, is the value of the expression for the leaf values last assigned (and null
exactly when the expression has no value, because a leaf has none yet). -/
theorem c30_eval_fresh_unfrozen (cs : List (Sched × Call V)) (g g' : G V) (sch : Sched) (n : Nat) (r : Option V)
    (hr : run cs G.empty = .ok g) (hl : ∀ c ∈ cs, Loud c.2) (hz : ¬ Frozen g n)
    (he : eval sch n g = .ok (r, g')) (v : V) :
    r = some v ↔ Computes (told (cs.map Prod.snd)).nodes (told (cs.map Prod.snd)).leaf n v := by
  obtain ⟨i, a⟩ := reach_inv (S := fun _ => False) (Or.inl hl) hr
  unfold eval at he
  by_cases c1 : g.alive n = true
  · rw [if_pos c1] at he
    cases c2 : isOp g n with
    | true =>
      have hfz : (g.man (g.gman n)).freeze = false := by
        cases e : (g.man (g.gman n)).freeze with
        | false => rfl
        | true => exact absurd ⟨(isOp_iff g n).mp c2, e⟩ hz
      rw [if_pos (by rw [c2, hfz]; rfl), Outcome.bind_eq_ok] at he
      obtain ⟨g1, h1, h2⟩ := he
      simp only [Outcome.ok.injEq, Prod.mk.injEq] at h2
      obtain ⟨rfl, rfl⟩ := h2
      obtain ⟨i1, d⟩ := managerUpdate_inv i h1
      have a1 := a.frame d.frame
      refine fresh_computes i1 a1 (fun k => g1.alive k = true ∧ (isOp g1 k = true → g1.gman k = g.gman n)) ?_ ?_ ?_ n ?_ v
      · intro k hk; exact i1.wf.alive_lt k hk.1
      · intro k x hk hx
        refine ⟨i1.wf.alive_args k x hk.1 hx, fun ho => ?_⟩
        rw [i1.wf.gman_eq k x hk.1 hx ho]
        exact hk.2 (isOp_of_arg hx)
      · intro k hk ho
        rcases i1.fq k hk.1 (fun h => h) with h | h
        · exact h
        · rw [hk.2 ho, d.queue] at h; simp at h
      · exact ⟨by rw [d.frame.alive]; exact c1, fun _ => by rw [d.frame.gman]⟩
    | false =>
      rw [if_neg (by rw [c2]; simp)] at he
      cases he
      refine fresh_computes i a (fun k => k = n) ?_ ?_ ?_ n rfl v
      · rintro k rfl; exact i.wf.alive_lt k c1
      · rintro k x rfl hx; rw [isOp_of_arg hx] at c2; cases c2
      · rintro k rfl ho; rw [c2] at ho; cases ho
  · rw [if_neg c1] at he; cases he

/-- C30.  In every history without freezing (constructions, notifying assignments, evaluations, shape
queries, destructions in any order, with any hash order), `eval` of any node returns the value of its
expression. -/
theorem c30_eval_fresh (cs : List (Sched × Call V)) (g g' : G V) (sch : Sched) (n : Nat) (r : Option V)
    (hr : run cs G.empty = .ok g) (hl : ∀ c ∈ cs, Loud c.2) (hz : ∀ c ∈ cs, ∀ m, c.2 ≠ .freeze m true)
    (he : eval sch n g = .ok (r, g')) (v : V) :
    r = some v ↔ Computes (told (cs.map Prod.snd)).nodes (told (cs.map Prod.snd)).leaf n v := by
  refine c30_eval_fresh_unfrozen cs g g' sch n r hr hl ?_ he v
  have hm := run_freeze cs (Inv.empty _) (t := told []) ⟨rfl, fun n hn => by simp [G.empty] at hn⟩ hr hz (fun _ => rfl)
  rintro ⟨_, h⟩
  rw [hm] at h; cases h

/-- Histories of sensible calls (existing nodes, no destruction, transfer functions that do not throw)
run to their end, and every node can then be evaluated: no exception, no failed assertion, no undefined
behaviour, no endless loop. -/
theorem c30_eval_succeeds (cs : List (Sched × Call V)) (hs : AllSensible (cs.map Prod.snd)) :
    ∃ g, run cs G.empty = .ok g ∧
      ∀ n, n < (told (cs.map Prod.snd)).nodes.length → ∀ sch, ∃ r, eval sch n g = .ok r := by
  have a0 : Agrees (V := V) (told []) G.empty := ⟨rfl, fun n hn => by simp [G.empty] at hn⟩
  obtain ⟨g, h, tt, al⟩ := run_total cs (Inv.empty _) a0
    (fun k f args b e => by simp [G.empty] at e) (fun x hx => by simp [G.empty] at hx) hs
  obtain ⟨i, a⟩ := reach_inv (S := fun _ => True) (Or.inr fun _ => trivial) h
  refine ⟨g, h, fun n hn sch => ?_⟩
  obtain ⟨g', h', _⟩ := step_total (sch := sch) (c := .eval n) i a tt al hn
  simp only [step] at h'
  rw [Outcome.bind_eq_ok] at h'
  obtain ⟨r, h1, _⟩ := h'
  exact ⟨r, h1⟩

/-- Sum of the arguments, used in the examples. -/
def sumF (vs : List Nat) : Outcome Nat := .ok vs.sum

/-- x = 1, y uninitialised, z = x + y, w = f(z), q = w + x; then y := 2; x := 10. -/
def hist1 : List (Sched × Call Nat) :=
  [.newLeaf (some 1), .newLeaf none, .newOp sumF [0, 1] false, .newOp (fun vs => .ok (2 * vs.sum)) [2] false,
   .newOp sumF [3, 0] false, .eval 4, .assign 1 2 true, .eval 4, .assign 0 10 true].map (fun c => (idSched, c))

example : ∃ g g', run hist1 G.empty = .ok g ∧ eval idSched 4 g = .ok (some 34, g') ∧
    (∀ c ∈ hist1, Loud c.2) ∧ ∀ c ∈ hist1, ∀ m, c.2 ≠ .freeze m true := by
  refine ⟨_, _, rfl, rfl, ?_, ?_⟩
  · intro c hc; simp [hist1] at hc; rcases hc with rfl | rfl | rfl | rfl | rfl | rfl | rfl | rfl | rfl <;> simp [Loud]
  · intro c hc m; simp [hist1] at hc; rcases hc with rfl | rfl | rfl | rfl | rfl | rfl | rfl | rfl | rfl <;> simp

/-- An assignment that does not notify leaves operations stale: `eval` then returns a value the
expression does not have. -/
theorem c30_silent_assign_stale :
    ∃ (cs : List (Sched × Call Nat)) (g g' : G Nat), run cs G.empty = .ok g ∧ eval idSched 1 g = .ok (some 1, g') ∧
      ¬ Computes (told (cs.map Prod.snd)).nodes (told (cs.map Prod.snd)).leaf 1 1 := by
  refine ⟨[(idSched, .newLeaf (some 1)), (idSched, .newOp sumF [0] false), (idSched, .assign 0 2 false)], _, _, rfl, rfl, ?_⟩
  intro h
  cases h with
  | leaf h _ => cases h
  | @op n f args b vs v h1 h2 h3 h4 =>
    cases h1
    match vs, h2, h4 with
    | [w], _, h4 =>
      have := h3 0 0 w rfl rfl
      cases this with
      | leaf _ h => cases h; cases h4
      | op h _ _ _ => cases h

/-- Destroying an operation that has not been evaluated since its arguments changed leaves a dangling
pointer in the update queue: evaluating a surviving node of the same graph is undefined behaviour. -/
theorem c30_delete_queued_ub :
    ∃ (cs : List (Sched × Call Nat)) (g : G Nat), run cs G.empty = .ok g ∧ (∀ c ∈ cs, Loud c.2) ∧ g.alive 1 = true ∧
      eval idSched 1 g = .ub := by
  refine ⟨[(idSched, .newLeaf (some 1)), (idSched, .newOp sumF [0] false), (idSched, .newOp sumF [1, 0] false),
    (idSched, .delete 2)], _, rfl, ?_, rfl, rfl⟩
  intro c hc
  simp at hc
  rcases hc with rfl | rfl | rfl | rfl <;> simp [Loud]

/-! ## C31 -/

theorem frozen_eval {g g' : G V} {sch : Sched} {n : Nat} {r : Option V} (hz : (g.man (g.gman n)).freeze = true)
    (he : eval sch n g = .ok (r, g')) : r = g.data n := by
  unfold eval at he
  split at he
  · rw [if_neg (by rw [hz]; simp)] at he
    cases he; rfl
  · cases he

/-- While frozen, every operation of the graph keeps evaluating to the value it evaluated to before, for
any calls that leave the graph alone (assignments to any leaf, evaluations of any node, new operations
on top of it, anything done to other graphs). -/
theorem c31_frozen_stable (cs ds : List (Sched × Call V)) (g g1 g2 g3 : G V) (sch sch' : Sched) (k : Nat) (r r' : Option V)
    (hr : run cs G.empty = .ok g) (hz : Frozen g k) (he : eval sch k g = .ok (r, g1))
    (hd : run ds g1 = .ok g2) (hu : UndisturbedRun k ds g1) (he' : eval sch' k g2 = .ok (r', g3)) : r' = r := by
  obtain ⟨i, a⟩ := reach_inv (S := fun _ => True) (Or.inr fun _ => trivial) hr
  have e1 := frozen_eval hz.2 he
  have al : g.alive k = true := by
    by_contra c; unfold eval at he; rw [if_neg c] at he; cases he
  have eg : g1 = g := by
    unfold eval at he
    rw [if_pos al, if_neg (by rw [hz.2]; simp)] at he
    cases he; rfl
  subst eg
  obtain ⟨c1, c2, c3, c4⟩ := run_frozen k ds i a hd al ((isOp_iff g1 k).mpr hz.1) hz.2 hu
  rw [frozen_eval c3 he', c4, e1]

/-- The value kept is that of the expression for the leaf values at the time of freezing. -/
theorem c31_frozen_value (cs ds : List (Sched × Call V)) (g g1 g2 g3 : G V) (sch sch' : Sched) (n k : Nat) (r : Option V)
    (hr : run cs G.empty = .ok g) (hl : ∀ c ∈ cs, Loud c.2) (hf : step sch (.freeze n true) g = .ok g1)
    (hk : isOp g1 k = true) (ha : g1.alive k = true) (hs : isSameGraph g1 n k = true)
    (hd : run ds g1 = .ok g2) (hu : UndisturbedRun k ds g1) (he : eval sch' k g2 = .ok (r, g3)) (v : V) :
    r = some v ↔ Computes (told (cs.map Prod.snd)).nodes (told (cs.map Prod.snd)).leaf k v := by
  obtain ⟨i, a⟩ := reach_inv (S := fun _ => False) (Or.inl hl) hr
  obtain ⟨i1, a1⟩ := step_inv i a (Or.inl (show Loud (Call.freeze n true) from trivial)) hf
  have hsg : g1.gman n = g1.gman k := by simpa [isSameGraph] using hs
  have hz : (g1.man (g1.gman k)).freeze = true ∧ (g1.man (g1.gman k)).queue = [] := by
    simp only [step, freezeStatus] at hf
    split at hf
    · rw [if_pos trivial, Outcome.bind_eq_ok] at hf
      obtain ⟨g0, h0, h0'⟩ := hf
      cases h0'
      have d := (managerUpdate_inv i h0).2
      have e : g0.gman n = g0.gman k := hsg
      show ((setFreeze (g0.gman n) true g0).man (g0.gman k)).freeze = true ∧ ((setFreeze (g0.gman n) true g0).man (g0.gman k)).queue = []
      rw [← e]
      simp only [setFreeze, upd, if_pos]
      refine ⟨trivial, ?_⟩
      rw [d.frame.gman]; exact d.queue
    · cases hf
  obtain ⟨c1, c2, c3, c4⟩ := run_frozen k ds (i1.weaken (fun _ _ => trivial)) a1 hd ha hk hz.1 hu
  rw [frozen_eval c3 he, c4]
  refine fresh_computes i1 a1 (fun x => g1.alive x = true ∧ (isOp g1 x = true → g1.gman x = g1.gman k)) ?_ ?_ ?_ k ⟨ha, fun _ => rfl⟩ v
  · intro x hx; exact i1.wf.alive_lt x hx.1
  · intro x y hx hy
    refine ⟨i1.wf.alive_args x y hx.1 hy, fun ho => ?_⟩
    rw [i1.wf.gman_eq x y hx.1 hy ho]
    exact hx.2 (isOp_of_arg hy)
  · intro x hx ho
    rcases i1.fq x hx.1 (fun h => h) with h | h
    · exact h
    · rw [hx.2 ho, hz.2] at h; simp at h

/-- After unfreezing, `eval` of any node of the graph is fresh again. -/
theorem c31_unfreeze_fresh (cs : List (Sched × Call V)) (g g1 g2 : G V) (sch sch' : Sched) (n k : Nat) (r : Option V)
    (hr : run cs G.empty = .ok g) (hl : ∀ c ∈ cs, Loud c.2) (hf : step sch (.freeze n false) g = .ok g1)
    (hs : isSameGraph g1 n k = true) (he : eval sch' k g1 = .ok (r, g2)) (v : V) :
    r = some v ↔ Computes (told (cs.map Prod.snd)).nodes (told (cs.map Prod.snd)).leaf k v := by
  have hrun : run (cs ++ [(sch, .freeze n false)]) G.empty = .ok g1 := by
    rw [run_append, hr]
    show (step sch (.freeze n false) g >>= fun g => .ok g) = _
    rw [hf]; rfl
  have := c30_eval_fresh_unfrozen (cs ++ [(sch, .freeze n false)]) g1 g2 sch' k r hrun (by
    intro c hc
    rcases List.mem_append.mp hc with hc | hc
    · exact hl c hc
    · simp at hc; rw [hc]; trivial) (by
    rintro ⟨_, hz⟩
    have hsg : g1.gman n = g1.gman k := by simpa [isSameGraph] using hs
    simp only [step, freezeStatus] at hf
    split at hf
    · rw [if_neg (by simp), Outcome.ok_bind] at hf
      cases hf
      have hsg : g.gman n = g.gman k := hsg
      have hz : ((setFreeze (g.gman n) false g).man (g.gman k)).freeze = true := hz
      rw [← hsg] at hz
      simp [setFreeze, upd] at hz
    · cases hf) he v
  rw [this]
  have : told ((cs ++ [(sch, Call.freeze n false)]).map Prod.snd) = told (cs.map Prod.snd) := by
    unfold told
    rw [List.map_append, List.foldl_append]
    rfl
  rw [this]

/-- x = 1, y = 5; z = x + y; freeze; then x := 7, and an operation w = z + y on top. -/
def hist2 : List (Sched × Call Nat) :=
  [.newLeaf (some 1), .newLeaf (some 5), .newOp sumF [0, 1] false, .freeze 2 true].map (fun c => (idSched, c))
def hist2' : List (Sched × Call Nat) :=
  [.assign 0 7 true, .newOp sumF [2, 1] false, .eval 3, .eval 2].map (fun c => (idSched, c))

example : ∃ g g1 g2 g3, run hist2 G.empty = .ok g ∧ Frozen g 2 ∧ eval idSched 2 g = .ok (some 6, g1) ∧ run hist2' g1 = .ok g2 ∧
    eval idSched 2 g2 = .ok (some 6, g3) ∧ UndisturbedRun 2 hist2' g1 := by
  refine ⟨_, _, _, _, rfl, ⟨⟨_, _, _, rfl⟩, rfl⟩, rfl, rfl, rfl, ?_⟩
  refine ⟨trivial, fun g h => ?_⟩
  cases h
  refine ⟨Or.inr ⟨2, rfl, rfl⟩, fun g h => ?_⟩
  cases h
  refine ⟨trivial, fun g h => ⟨trivial, fun g h => trivial⟩⟩

/-- … and unfreezing makes it 12. -/
example : ∃ g g', run (hist2 ++ hist2' ++ [(idSched, .freeze 2 false)]) G.empty = .ok g ∧ eval idSched 2 g = .ok (some 12, g') :=
  ⟨_, _, rfl, rfl⟩

/-- `get_shape` refreshes a frozen graph: after an assignment it changes what `eval` returns although the
graph stays frozen. -/
theorem c31_get_shape_refreshes :
    ∃ (cs : List (Sched × Call Nat)) (g g1 g2 : G Nat), run cs G.empty = .ok g ∧ Frozen g 2 ∧
      eval idSched 2 g = .ok (some 6, g) ∧ step idSched (.getShape 2) g = .ok g1 ∧ Frozen g1 2 ∧
      eval idSched 2 g1 = .ok (some 12, g2) :=
  ⟨hist2 ++ [(idSched, .assign 0 7 true)], _, _, _, rfl, ⟨⟨_, _, _, rfl⟩, rfl⟩, rfl, rfl, ⟨⟨_, _, _, rfl⟩, rfl⟩, rfl⟩

/-- Using a frozen operation as a later argument of a new operation thaws its graph. -/
theorem c31_union_thaws :
    ∃ (cs : List (Sched × Call Nat)) (g g1 g2 : G Nat), run cs G.empty = .ok g ∧ Frozen g 2 ∧
      step idSched (.newOp sumF [3, 2] false) g = .ok g1 ∧ ¬ Frozen g1 2 ∧
      eval idSched 2 g = .ok (some 6, g) ∧ eval idSched 2 g1 = .ok (some 12, g2) := by
  refine ⟨hist2 ++ [(idSched, .newOp sumF [1] false), (idSched, .assign 0 7 true)], _, _, _, rfl, ⟨⟨_, _, _, rfl⟩, rfl⟩, rfl, ?_, rfl, rfl⟩
  rintro ⟨_, h⟩
  cases h

/-! ## C32 -/

/-- Two live operations are in the same graph exactly when they are linked by argument edges between
operations, after every history whatsoever. -/
theorem c32_same_graph_iff_linked (cs : List (Sched × Call V)) (g : G V) (hr : run cs G.empty = .ok g) (a b : Nat)
    (ha : g.alive a = true) (hb : g.alive b = true) (oa : isOp g a = true) (ob : isOp g b = true) :
    isSameGraph g a b = true ↔ Linked (told (cs.map Prod.snd)).nodes a b := by
  obtain ⟨i, ag⟩ := reach_inv (S := fun _ => True) (Or.inr fun _ => trivial) hr
  obtain ⟨W, w1, _, w3⟩ := i.linked
  rw [← ag.nodes, ← w3 a b oa ob, w1 a ha oa, w1 b hb ob]
  simp [isSameGraph]

/-- The users a manager records are exactly the live operations that point at it. -/
theorem c32_users (cs : List (Sched × Call V)) (g : G V) (hr : run cs G.empty = .ok g) (m k : Nat) :
    k ∈ (g.man m).users ↔ g.alive k = true ∧ isOp g k = true ∧ g.gman k = m :=
  (reach_inv (S := fun _ => True) (Or.inr fun _ => trivial) hr).1.users m k

/-- Two separate operations, joined by a third. -/
def hist3 : List (Sched × Call Nat) :=
  [.newLeaf (some 1), .newOp sumF [0] false, .newOp sumF [0] false].map (fun c => (idSched, c))

example : ∃ g, run hist3 G.empty = .ok g ∧ isSameGraph g 1 2 = false := ⟨_, rfl, rfl⟩
example : ∃ g, run (hist3 ++ [(idSched, .newOp sumF [1, 2] false)]) G.empty = .ok g ∧ isSameGraph g 1 2 = true ∧
    (g.man (g.gman 1)).users = [2, 3, 1] := ⟨_, rfl, rfl, rfl⟩

/-! ## C33 -/

/-- `get_leaves` returns exactly the leaves reachable through arguments. -/
theorem c33_leaves (cs : List (Sched × Call V)) (g : G V) (hr : run cs G.empty = .ok g) (k l : Nat)
    (hk : k < (told (cs.map Prod.snd)).nodes.length) :
    l ∈ g.leaves k ↔ DependsOn (told (cs.map Prod.snd)).nodes k l := by
  obtain ⟨i, ag⟩ := reach_inv (S := fun _ => True) (Or.inr fun _ => trivial) hr
  rw [← ag.nodes] at hk ⊢
  exact i.leaves k l hk

example : ∃ g, run hist1 G.empty = .ok g ∧ g.leaves 4 = [1, 0] ∧ g.leaves 0 = [0] := ⟨_, rfl, rfl, rfl⟩
/-- A `const_immutable` hides the leaves below it. -/
example : ∃ g, run (hist3 ++ [(idSched, .newOp sumF [1] true)]) G.empty = .ok g ∧ g.leaves 1 = [0] ∧ g.leaves 3 = [] :=
  ⟨_, rfl, rfl, rfl⟩

end Verif.Props
