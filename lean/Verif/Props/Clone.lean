import Verif.Lemmas.Clone
import Verif.Props.Graph
/-!
# C80: copies of nodes

`clone` of an operation that works on leaves, made when no update of it is pending, gives one more node of
the same expression: like the original it follows every notifying assignment.  The two conditions are needed:
`c80_clone_above_stale`, `c80_clone_pending_stale` and `c80_above_copy_stale` are histories of correct calls
after which `eval` returns a value the expression does not have.
-/
namespace Verif.Props
open Graph Spec
open React (upd)

variable {V : Type}

/-- C80.  After every history of calls and copies in which assignments notify, only operations on leaves are
copied, and none while an update of it is pending, `eval` of any node — originals, copies, operations on
copies — returns the value of its expression. -/
theorem c80_clone_fresh (cs : List (Sched × CallC V)) (g g' : G V) (sch : Sched) (n : Nat) (r : Option V)
    (hr : runC cs G.empty = .ok g) (hl : ∀ c ∈ cs, LoudC c.2) (hs : Always Settles cs G.empty) (ho : Always OnLeaves cs G.empty)
    (hz : ¬ Frozen g n) (he : eval sch n g = .ok (r, g')) (v : V) :
    r = some v ↔ Computes (toldC (cs.map Prod.snd)).nodes (toldC (cs.map Prod.snd)).leaf n v := by
  obtain ⟨i, a⟩ := reachC_good (S := fun _ => False) (Or.inl ⟨hl, hs, fun _ => id⟩) ho hr
  unfold eval at he
  by_cases c1 : g.alive n = true
  · rw [if_pos c1] at he
    cases c2 : isOp g n with
    | true =>
      have hfz : (g.man (g.gman n)).freeze = false := by
        cases e : (g.man (g.gman n)).freeze with
        | false => rfl
        | true => exact absurd ⟨(isOp_iff g n).mp c2, e⟩ hz
      rw [if_pos (by rw [c2, hfz]; rfl), Outcome.bind_eq_ok] at he
      obtain ⟨g1, h1, h2⟩ := he
      simp only [Outcome.ok.injEq, Prod.mk.injEq] at h2
      obtain ⟨rfl, rfl⟩ := h2
      obtain ⟨i1, d⟩ := managerUpdate_inv i h1
      have a1 := a.frame d.frame
      refine fresh_computes i1 a1 (fun k => g1.alive k = true ∧ (isOp g1 k = true → g1.gman k = g.gman n)) ?_ ?_ ?_ n ?_ v
      · intro k hk; exact i1.wf.alive_lt k hk.1
      · intro k x hk hx
        refine ⟨i1.wf.alive_args k x hk.1 hx, fun ho => ?_⟩
        rw [i1.wf.gman_eq k x hk.1 hx ho]
        exact hk.2 (isOp_of_arg hx)
      · intro k hk ho
        rcases i1.fq k hk.1 (fun h => h) with h | h
        · exact h
        · rw [hk.2 ho, d.queue] at h; simp at h
      · exact ⟨by rw [d.frame.alive]; exact c1, fun _ => by rw [d.frame.gman]⟩
    | false =>
      rw [if_neg (by rw [c2]; simp)] at he
      cases he
      refine fresh_computes i a (fun k => k = n) ?_ ?_ ?_ n rfl v
      · rintro k rfl; exact i.wf.alive_lt k c1
      · rintro k x rfl hx; rw [isOp_of_arg hx] at c2; cases c2
      · rintro k rfl ho; rw [c2] at ho; cases ho
  · rw [if_neg c1] at he; cases he

/-- Evaluating the original first meets the second condition: no update of it is then pending. -/
theorem c80_eval_settles (cs : List (Sched × CallC V)) (g g' : G V) (sch : Sched) (n : Nat) (r : Option V)
    (hr : runC cs G.empty = .ok g) (ho : Always OnLeaves cs G.empty)
    (hn : ∃ f args h, g.defs[n]? = some (.op f args h)) (hz : ¬ Frozen g n) (he : eval sch n g = .ok (r, g')) :
    Settles g' (.clone n) := by
  obtain ⟨i, a⟩ := reachC_good (S := fun _ => True) (Or.inr fun _ => trivial) ho hr
  unfold eval at he
  by_cases c1 : g.alive n = true
  · rw [if_pos c1] at he
    have c2 := (isOp_iff g n).mpr hn
    have hfz : (g.man (g.gman n)).freeze = false := by
      cases e : (g.man (g.gman n)).freeze with
      | false => rfl
      | true => exact absurd ⟨hn, e⟩ hz
    rw [if_pos (by rw [c2, hfz]; rfl), Outcome.bind_eq_ok] at he
    obtain ⟨g1, h1, h2⟩ := he
    simp only [Outcome.ok.injEq, Prod.mk.injEq] at h2
    obtain ⟨rfl, rfl⟩ := h2
    obtain ⟨i1, d⟩ := managerUpdate_inv i h1
    intro h
    unfold Pending at h
    rw [d.frame.gman, d.queue] at h; simp at h
  · rw [if_neg c1] at he; cases he

/-- Two live operations are in the same graph exactly when argument edges and copying link them. -/
theorem c80_same_graph (cs : List (Sched × CallC V)) (g : G V) (hr : runC cs G.empty = .ok g) (ho : Always OnLeaves cs G.empty) (a b : Nat)
    (ha : g.alive a = true) (hb : g.alive b = true) (oa : isOp g a = true) (ob : isOp g b = true) :
    isSameGraph g a b = true ↔ LinkedC (cs.map Prod.snd) a b := by
  obtain ⟨i, ag⟩ := reachC_good (S := fun _ => True) (Or.inr fun _ => trivial) ho hr
  obtain ⟨W, w1, _, w3⟩ := i.virt
  have := w3 a b oa ob
  rw [w1 a ha oa, w1 b hb ob] at this
  unfold LinkedC
  rw [← ag.nodes]
  have eq : EdgeE (fun a b => (a, b) ∈ pairsOf (cs.map Prod.snd)) g.defs = fun a b => OpArg g.defs a b ∨ (a, b) ∈ pairsOf (cs.map Prod.snd) := rfl
  rw [eq] at this
  simpa [isSameGraph] using this

/-- `get_leaves` of originals and copies is the set of leaves reachable through arguments. -/
theorem c80_leaves (cs : List (Sched × CallC V)) (g : G V) (hr : runC cs G.empty = .ok g) (ho : Always OnLeaves cs G.empty) (k l : Nat)
    (hk : k < (toldC (cs.map Prod.snd)).nodes.length) :
    l ∈ g.leaves k ↔ DependsOn (toldC (cs.map Prod.snd)).nodes k l := by
  obtain ⟨i, ag⟩ := reachC_good (S := fun _ => True) (Or.inr fun _ => trivial) ho hr
  rw [← ag.nodes] at hk ⊢
  exact i.leaves k l hk

/-- What `clone` does at once, whatever the state: one more live node with the definition (hence the arguments)
and the value of the original; nothing else changes value. -/
theorem c80_clone_effect (n : Nat) (g g' : G V) (h : clone n g = .ok g') (hn : n < g.defs.length) (k : Nat) :
    g'.defs = g.defs ++ [g.defs.getD n .leaf] ∧
    g'.alive k = (if k = g.defs.length then true else g.alive k) ∧
    g'.data k = (if k = g.defs.length then g.data n else g.data k) := by
  obtain ⟨al, ⟨f, args, b, e, rfl⟩ | ⟨ho, rfl⟩⟩ := clone_ok h
  · refine ⟨?_, rfl, rfl⟩
    simp only [cloneOp, List.getD, e, Option.getD_some]
  · refine ⟨?_, rfl, rfl⟩
    have := leaf_of_not_op ho hn
    simp only [newLeaf, List.getD, this, Option.getD_some]

/-- The copy of an operation is in the graph of the original and has its leaves; the copy of a leaf is a new
leaf, its own only leaf. -/
theorem c80_clone_place (n : Nat) (g g' : G V) (h : clone n g = .ok g') :
    ((∃ f args b, g.defs[n]? = some (.op f args b)) → g'.gman g.defs.length = g.gman n ∧ g'.leaves g.defs.length = g.leaves n) ∧
    (g.defs[n]? = some .leaf → g'.leaves g.defs.length = [g.defs.length] ∧ g'.defs[g.defs.length]? = some .leaf) := by
  obtain ⟨al, ⟨f, args, b, e, rfl⟩ | ⟨ho, rfl⟩⟩ := clone_ok h
  · refine ⟨fun _ => ?_, fun c => by rw [e] at c; cases c⟩
    simp [cloneOp, upd]
  · refine ⟨fun ⟨f, args, b, e⟩ => ?_, fun c => ?_⟩
    · rw [(isOp_iff g n).mpr ⟨f, args, b, e⟩] at ho; cases ho
    · simp [newLeaf, upd]

/-- A copy does not change which leaf an assignment reaches: the copy of a leaf is independent of it. -/
theorem c80_leaf_copy_independent (cs : List (Sched × CallC V)) (g g1 g2 g3 : G V) (sch sch' : Sched) (n : Nat) (v : V) (r : Option V)
    (hr : runC cs G.empty = .ok g) (hn : g.defs[n]? = some .leaf) (h1 : clone n g = .ok g1)
    (h2 : assign sch n v true g1 = .ok g2) (h3 : eval sch' g.defs.length g2 = .ok (r, g3))
    (hl : ∀ c ∈ cs, LoudC c.2) (hs : Always Settles cs G.empty) (ho : Always OnLeaves cs G.empty) : r = g.data n := by
  have hr' : runC (cs ++ [(sch, .clone n), (sch, .base (.assign n v true))]) G.empty = .ok g2 := by
    have key : ∀ (cs : List (Sched × CallC V)) (g0 : G V), runC cs g0 = .ok g →
        runC (cs ++ [(sch, .clone n), (sch, .base (.assign n v true))]) g0 = .ok g2 := by
      intro cs
      induction cs with
      | nil =>
        intro g0 h; cases h
        simp only [List.nil_append, runC, stepC, h1, Outcome.ok_bind, step, h2]
      | cons c cs ih =>
        intro g0 h
        rw [runC, Outcome.bind_eq_ok] at h
        obtain ⟨ga, ha, hb⟩ := h
        rw [List.cons_append, runC, ha, Outcome.ok_bind]
        exact ih ga hb
    exact key cs _ hr
  have al2 : ∀ (P : G V → CallC V → Prop) (cs : List (Sched × CallC V)) (g0 : G V), runC cs g0 = .ok g → Always P cs g0 →
      P g (.clone n) → P g1 (.base (.assign n v true)) →
      Always P (cs ++ [(sch, .clone n), (sch, .base (.assign n v true))]) g0 := by
    intro P cs
    induction cs with
    | nil =>
      intro g0 h _ p1 p2; cases h
      refine ⟨p1, fun x hx => ⟨?_, fun _ _ => trivial⟩⟩
      simp only [stepC, h1, Outcome.ok.injEq] at hx
      rw [← hx]; exact p2
    | cons c cs ih =>
      intro g0 h a p1 p2
      rw [runC, Outcome.bind_eq_ok] at h
      obtain ⟨ga, ha, hb⟩ := h
      refine ⟨a.1, fun x hx => ?_⟩
      rw [ha] at hx; cases hx
      exact ih ga hb (a.2 ga ha) p1 p2
  obtain ⟨i, a⟩ := reachC_good (S := fun _ => False) (Or.inl ⟨hl, hs, fun _ => id⟩) ho hr
  have nl : n < g.defs.length := by
    by_contra c
    rw [List.getElem?_eq_none (by omega)] at hn; cases hn
  have e1 := c80_clone_effect n g g1 h1 nl
  have hcl : ¬ Pending g n := by
    intro c
    have := (i.q.mapOp _ _ (i.q.sub _ _ c)).1
    rw [isOp_leaf hn] at this; cases this
  obtain ⟨i2, a2⟩ := reachC_good (S := fun _ => False) (cs := cs ++ [(sch, .clone n), (sch, .base (.assign n v true))])
    (Or.inl ⟨by
      intro c hc
      rw [List.mem_append] at hc
      rcases hc with hc | hc
      · exact hl c hc
      · simp at hc; rcases hc with rfl | rfl <;> simp [LoudC, Loud],
     al2 _ cs _ hr hs hcl trivial, fun _ => id⟩)
    (al2 _ cs _ hr ho (fun f args h e => by rw [hn] at e; cases e) trivial) hr'
  have ht : (toldC ((cs ++ [(sch, CallC.clone n), (sch, CallC.base (.assign n v true))]).map Prod.snd)) =
      tell (tellC (toldC (cs.map Prod.snd)) (.clone n)) (.assign n v true) := by
    simp [toldC, tellC]
  have hleaf : g2.defs[g.defs.length]? = some .leaf := by
    rw [a2.nodes, ht]
    simp only [tell, tellC, ← a.nodes, List.getD, hn, Option.getD_some]
    simp
  have hd : g2.data g.defs.length = g.data n := by
    rw [a2.leaf _ hleaf, ht]
    simp only [tell, tellC, ← a.nodes, upd]
    rw [if_neg (by omega), if_pos trivial]
    exact (a.leaf n hn).symm
  unfold eval at h3
  by_cases c1 : g2.alive g.defs.length = true
  · rw [if_pos c1, if_neg (by rw [isOp_leaf hleaf]; simp)] at h3
    cases h3; exact hd
  · rw [if_neg c1] at h3; cases h3

/-- Destroying the original leaves the copy alive with its value, and the other way round. -/
theorem c80_delete_apart (cs : List (Sched × CallC V)) (g g1 g2 : G V) (n : Nat) (f : List V → Outcome V) (args : List Nat) (b : Bool)
    (hr : runC cs G.empty = .ok g) (ho : Always OnLeaves cs G.empty) (hn : g.defs[n]? = some (.op f args b)) (h1 : clone n g = .ok g1) :
    (delete n g1 = .ok g2 → g2.alive n = false ∧ g2.alive g.defs.length = true ∧ g2.data g.defs.length = g.data n) ∧
    (delete g.defs.length g1 = .ok g2 → g2.alive g.defs.length = false ∧ g2.alive n = true ∧ g2.data n = g.data n) := by
  obtain ⟨i, a⟩ := reachC_good (S := fun _ => True) (Or.inr fun _ => trivial) ho hr
  have nl : n < g.defs.length := by
    by_contra c
    rw [List.getElem?_eq_none (by omega)] at hn; cases hn
  obtain ⟨al, ⟨f', args', b', e, rfl⟩ | ⟨hf, rfl⟩⟩ := clone_ok h1
  · rw [hn] at e; cases e
    have argn : ∀ x ∈ args, x < n := fun x hx => i.wf.args_lt n x (by rw [argsOf_op hn]; exact hx)
    have hA : ∀ k, argsOf (cloneOp (.op f args b) n g) k = if k = g.defs.length then args else argsOf g k := by
      intro k; rw [argsOf_push (g := g) (g' := cloneOp (.op f args b) n g) rfl]; rfl
    have lt : ∀ k x, x ∈ argsOf (cloneOp (.op f args b) n g) k → x < k := by
      intro k x h
      rw [hA] at h
      split at h
      · next c => have := argn x h; omega
      · exact i.wf.args_lt k x h
    have below : ∀ m k, k < m → k ∉ killed (cloneOp (.op f args b) n g) m := by
      intro m k
      induction k using Nat.strongRecOn with
      | _ k ih =>
        intro hk hc
        rw [killed_mem lt] at hc
        rcases hc.2 with rfl | ⟨x, hx, hx'⟩
        · omega
        · exact ih x (lt k x hx) (by have := lt k x hx; omega) hx'
    have self : ∀ m, m ≤ g.defs.length → m ∈ killed (cloneOp (.op f args b) n g) m := by
      intro m hm
      rw [killed_mem lt]
      refine ⟨?_, Or.inl rfl⟩
      simp [cloneOp]; omega
    have copy : g.defs.length ∉ killed (cloneOp (.op f args b) n g) n := by
      intro hc
      rw [killed_mem lt] at hc
      rcases hc.2 with c | ⟨x, hx, hx'⟩
      · omega
      · rw [hA, if_pos rfl] at hx
        exact below n x (argn x hx) hx'
    constructor
    · intro h
      unfold delete at h
      split at h
      · cases h
        refine ⟨?_, ?_, ?_⟩
        · simp [self n (by omega)]
        · show ((cloneOp (.op f args b) n g).alive g.defs.length && decide (g.defs.length ∉ killed (cloneOp (.op f args b) n g) n)) = true
          rw [decide_eq_true copy, Bool.and_true]
          simp [cloneOp, upd]
        · simp [cloneOp, upd]
      · cases h
    · intro h
      unfold delete at h
      split at h
      · cases h
        refine ⟨?_, ?_, ?_⟩
        · simp [self _ (Nat.le_refl _)]
        · have := below g.defs.length n nl
          have h2 : ¬ n = g.defs.length := by omega
          show ((cloneOp (.op f args b) n g).alive n && decide (n ∉ killed (cloneOp (.op f args b) n g) g.defs.length)) = true
          rw [decide_eq_true this, Bool.and_true]
          simp [cloneOp, upd, h2, al]
        · have h2 : ¬ n = g.defs.length := by omega
          simp [cloneOp, upd, h2]
      · cases h
  · rw [(isOp_iff g n).mpr ⟨f, args, b, hn⟩] at hf; cases hf

/-! ## Cases and counterexamples -/

/-- x = 1, y = 2, s = x + y, evaluated; c = copy of s; u = 2 c; then x := 10. -/
def histC1 : List (Sched × CallC Nat) :=
  [.base (.newLeaf (some 1)), .base (.newLeaf (some 2)), .base (.newOp sumF [0, 1] false), .base (.eval 2), .clone 2,
   .base (.newOp (fun vs => .ok (2 * vs.sum)) [3] false), .base (.assign 0 10 true)].map (fun c => (idSched, c))

example : ∃ g g1 g2, runC histC1 G.empty = .ok g ∧ eval idSched 3 g = .ok (some 12, g1) ∧ eval idSched 4 g = .ok (some 24, g2) ∧
    isSameGraph g 2 3 = true ∧ g.leaves 3 = [0, 1] ∧ g.alive 3 = true := ⟨_, _, _, rfl, rfl, rfl, rfl, rfl, rfl⟩

example : (∀ c ∈ histC1, LoudC c.2) ∧ Always Settles histC1 G.empty ∧ Always OnLeaves histC1 G.empty := by
  refine ⟨?_, ?_, ?_⟩
  · intro c hc; simp [histC1] at hc; rcases hc with rfl | rfl | rfl | rfl | rfl | rfl | rfl <;> simp [LoudC, Loud]
  · refine ⟨trivial, fun _ h => ?_⟩; cases h
    refine ⟨trivial, fun _ h => ?_⟩; cases h
    refine ⟨trivial, fun _ h => ?_⟩; cases h
    refine ⟨trivial, fun _ h => ?_⟩; cases h
    refine ⟨?_, fun _ h => ?_⟩
    · show ¬ (2 ∈ ([] : List Nat)); simp
    cases h
    refine ⟨trivial, fun _ h => ?_⟩; cases h
    exact ⟨trivial, fun _ _ => trivial⟩
  · refine ⟨trivial, fun _ h => ?_⟩; cases h
    refine ⟨trivial, fun _ h => ?_⟩; cases h
    refine ⟨trivial, fun _ h => ?_⟩; cases h
    refine ⟨trivial, fun _ h => ?_⟩; cases h
    refine ⟨?_, fun _ h => ?_⟩
    · intro f args h e a ha
      have e : (some (.op sumF [0, 1] false) : Option (Def Nat)) = some (.op f args h) := e
      cases e
      simp at ha; rcases ha with rfl | rfl <;> rfl
    cases h
    refine ⟨trivial, fun _ h => ?_⟩; cases h
    exact ⟨trivial, fun _ _ => trivial⟩

/-- Copy of an operation above an operation: x = 1, y = 2, z = x + y, w = z + x, evaluated, copied; x := 10.
The original is then 22, the copy of the same expression 13: the copy keeps depth 0 and is recomputed before
its argument. -/
def histC2 : List (Sched × CallC Nat) :=
  [.base (.newLeaf (some 1)), .base (.newLeaf (some 2)), .base (.newOp sumF [0, 1] false), .base (.newOp sumF [2, 0] false),
   .base (.eval 3), .clone 3, .base (.assign 0 10 true)].map (fun c => (idSched, c))

theorem c80_clone_above_stale : ∃ g g1 g2, runC histC2 G.empty = .ok g ∧ eval idSched 3 g = .ok (some 22, g1) ∧
    eval idSched 4 g = .ok (some 13, g2) ∧ (toldC (histC2.map Prod.snd)).nodes[3]? = (toldC (histC2.map Prod.snd)).nodes[4]? ∧
    (∀ c ∈ histC2, LoudC c.2) := by
  refine ⟨_, _, _, rfl, rfl, rfl, rfl, ?_⟩
  intro c hc; simp [histC2] at hc; rcases hc with rfl | rfl | rfl | rfl | rfl | rfl | rfl <;> simp [LoudC, Loud]

/-- Copy of an operation whose update is pending: x = 1, y = 2, s = x + y, copied before any evaluation.  The
copy has no value, and `eval` returns null although its expression has the value 3. -/
def histC3 : List (Sched × CallC Nat) :=
  [.base (.newLeaf (some 1)), .base (.newLeaf (some 2)), .base (.newOp sumF [0, 1] false), .clone 2].map (fun c => (idSched, c))

theorem c80_clone_pending_stale : ∃ g g1 g2, runC histC3 G.empty = .ok g ∧ eval idSched 2 g = .ok (some 3, g1) ∧
    eval idSched 3 g = .ok (none, g2) ∧ Always OnLeaves histC3 G.empty ∧ (∀ c ∈ histC3, LoudC c.2) := by
  refine ⟨_, _, _, rfl, rfl, rfl, ?_, ?_⟩
  · refine ⟨trivial, fun _ h => ?_⟩; cases h
    refine ⟨trivial, fun _ h => ?_⟩; cases h
    refine ⟨trivial, fun _ h => ?_⟩; cases h
    refine ⟨?_, fun _ _ => trivial⟩
    intro f args h e a ha
    have e : (some (.op sumF [0, 1] false) : Option (Def Nat)) = some (.op f args h) := e
    cases e
    simp at ha; rcases ha with rfl | rfl <;> rfl
  · intro c hc; simp [histC3] at hc; rcases hc with rfl | rfl | rfl | rfl <;> simp [LoudC, Loud]

/-- An operation on a copy made above an operation: x = 1, y = 2, z = x + y, u = 2 z, evaluated, c = copy of u,
t = c + x, evaluated; x := 10.  `t` is recomputed before `c`: 6 + 10 instead of 24 + 10. -/
def histC4 : List (Sched × CallC Nat) :=
  [.base (.newLeaf (some 1)), .base (.newLeaf (some 2)), .base (.newOp sumF [0, 1] false),
   .base (.newOp (fun vs => .ok (2 * vs.sum)) [2] false), .base (.eval 3), .clone 3, .base (.newOp sumF [4, 0] false),
   .base (.eval 5), .base (.assign 0 10 true)].map (fun c => (idSched, c))

theorem c80_above_copy_stale : ∃ g g1 g2, runC histC4 G.empty = .ok g ∧ eval idSched 4 g = .ok (some 24, g1) ∧
    eval idSched 5 g = .ok (some 16, g2) ∧ (∀ c ∈ histC4, LoudC c.2) := by
  refine ⟨_, _, _, rfl, rfl, rfl, ?_⟩
  intro c hc; simp [histC4] at hc; rcases hc with rfl | rfl | rfl | rfl | rfl | rfl | rfl | rfl | rfl <;> simp [LoudC, Loud]

end Verif.Props
