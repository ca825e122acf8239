import Verif.Lemmas.JacsBorn
/-!
# C85: the Jacobians an operation is made with
-/
namespace Verif.Props
open Jacs Spec

theorem born_jac {args : List Nat} {hd : Bool} {ig : Option Nat} {own : Option Own} {g g' : St} (h : newOp args hd ig own g = .ok g') :
    g'.jac g.nodes.length = bornJac g args hd ig own ∧ g'.leaves g.nodes.length = leavesOf g args hd := by
  obtain ⟨_, _, _, rfl⟩ := newOp_ok h
  exact ⟨by simp [React.upd], by simp [React.upd]⟩

theorem leavesOf_mem {g : St} {args : List Nat} {hd : Bool} {v : Nat} : v ∈ leavesOf g args hd ↔ hd = false ∧ ∃ a ∈ args, v ∈ g.leaves a := by
  unfold leavesOf
  cases hd <;> simp [List.mem_dedup]

/-- A new operation has the arguments it was given and the variables of its arguments, or none if it hides them;
nothing that was there has changed. -/
theorem c85_born (args : List Nat) (hd : Bool) (ig : Option Nat) (own : Option Own) (g g' : St) (h : newOp args hd ig own g = .ok g') :
    g'.nodes = g.nodes ++ [.op args hd] ∧ g'.alive g.nodes.length = true ∧
    (∀ v, v ∈ g'.leaves g.nodes.length ↔ hd = false ∧ ∃ a ∈ args, v ∈ g.leaves a) ∧
    (∀ v j, g'.jac g.nodes.length v = some j → v ∈ g'.leaves g.nodes.length) ∧
    ∀ k, k ≠ g.nodes.length → g'.alive k = g.alive k ∧ g'.jac k = g.jac k ∧ g'.leaves k = g.leaves k := by
  obtain ⟨h1, h2⟩ := born_jac h
  refine ⟨?_, ?_, fun v => by rw [h2]; exact leavesOf_mem, fun v j e => ?_, fun k hk => ?_⟩
  · obtain ⟨_, _, _, rfl⟩ := newOp_ok h; rfl
  · obtain ⟨_, _, _, rfl⟩ := newOp_ok h; simp [React.upd]
  · rw [h1] at e
    rw [h2]
    by_contra c
    unfold bornJac at e
    rw [if_neg c] at e
    cases e
  · obtain ⟨_, _, _, rfl⟩ := newOp_ok h
    refine ⟨?_, ?_, ?_⟩ <;> simp [React.upd, hk]

/-- Operations on nodes without a Jacobian for a variable have none. -/
theorem c85_born_none (args : List Nat) (hd : Bool) (ig : Option Nat) (g g' : St) (h : newOp args hd ig none g = .ok g') (v : Nat)
    (hn : ∀ a ∈ args, ∀ j, ¬ HasJac g a v j) : g'.jac g.nodes.length v = none := by
  rw [(born_jac h).1]
  have : inherited g args v = none := by
    rw [inherited_eq]
    exact fold_none args (fun a ha j e => by by_contra c; exact hn a ha j ⟨e, c⟩)
  simp [bornJac, ownFor, this]

/-- The Jacobians of what is to be ignored are not taken (`immutable::get` with `ignore_jacobian`). -/
theorem c85_born_ignored (args : List Nat) (hd : Bool) (i : Nat) (g g' : St) (h : newOp args hd (some i) none g = .ok g') (v : Nat)
    (hv : v ∈ g.leaves i) : g'.jac g.nodes.length v = none := by
  rw [(born_jac h).1]
  simp [bornJac, ownFor, hv]

/-- If the arguments that have a Jacobian for a variable of the operation have it from one and the same origin, the
operation has the list of the first of them. -/
theorem c85_born_one (pre post : List Nat) (a : Nat) (ig : Option Nat) (g g' : St) (h : newOp (pre ++ a :: post) false ig none g = .ok g') (v : Nat)
    (hv : v ∈ g.leaves a) (hi : ∀ i, ig = some i → v ∉ g.leaves i) (j : JList) (hj : HasJac g a v j)
    (hpre : ∀ b ∈ pre, ∀ t, ¬ HasJac g b v t) (hpost : ∀ b ∈ post, ∀ t, HasJac g b v t → t.uid = j.uid) :
    g'.jac g.nodes.length v = some { j with terminal := false } := by
  rw [(born_jac h).1]
  have hl : v ∈ leavesOf g (pre ++ a :: post) false := leavesOf_mem.2 ⟨rfl, a, by simp, hv⟩
  have hi' : v ∉ (ig.map g.leaves).getD [] := by
    cases ig with
    | none => simp
    | some i => exact hi i rfl
  unfold bornJac
  rw [if_pos hl]
  dsimp only [ownFor]
  rw [if_neg hi', inherited_eq, List.foldl_append, fold_none pre (fun b hb t e => by by_contra c; exact hpre b hb t ⟨e, c⟩), List.foldl_cons]
  have : takeArg none (g.jac a v) = some { j with terminal := false } := by
    unfold takeArg; rw [hj.1]; simp [hj.2]
  rw [this]
  refine fold_same post (fun b hb t e => ?_)
  by_cases c : t.list = []
  · exact Or.inl c
  · exact Or.inr (hpost b hb t ⟨e, c⟩)

/-- If two arguments have Jacobians of different origin for a variable of the operation, the operation keeps neither
and is marked: gradients for the variable are taken through each argument's own list. -/
theorem c85_born_branch (args : List Nat) (ig : Option Nat) (g g' : St) (h : newOp args false ig none g = .ok g') (v a b : Nat)
    (ha : a ∈ args) (hb : b ∈ args) (hv : v ∈ g.leaves a) (hi : ∀ i, ig = some i → v ∉ g.leaves i) (ja jb : JList)
    (hja : HasJac g a v ja) (hjb : HasJac g b v jb) (ne : ja.uid ≠ jb.uid) :
    Branches g' g.nodes.length v ∧ NoJac g' g.nodes.length v := by
  have key : ∃ t, g'.jac g.nodes.length v = some t ∧ t.list = [] ∧ t.terminal = true := by
    rw [(born_jac h).1]
    have hl : v ∈ leavesOf g args false := leavesOf_mem.2 ⟨rfl, a, ha, hv⟩
    have hi' : v ∉ (ig.map g.leaves).getD [] := by
      cases ig with
      | none => simp
      | some i => exact hi i rfl
    unfold bornJac
    rw [if_pos hl]
    dsimp only [ownFor]
    rw [if_neg hi', inherited_eq]
    obtain ⟨pre, c, post, j, e1, e2, e3, e4, e5⟩ := fold_first (g := g) (v := v) args ⟨a, ha, ja, hja.1, hja.2⟩
    rw [e5]
    have inpost : ∀ x jx, x ∈ args → HasJac g x v jx → jx.uid ≠ j.uid → x ∈ post := by
      intro x jx hx hjx hne
      rw [e1] at hx
      rcases List.mem_append.1 hx with c1 | c1
      · exact absurd (e2 x c1 jx hjx.1) hjx.2
      · rcases List.mem_cons.1 c1 with c2 | c2
        · subst c2
          have := hjx.1
          rw [e3] at this
          cases this
          exact absurd rfl hne
        · exact c2
    by_cases hja' : ja.uid = j.uid
    · have hne : jb.uid ≠ j.uid := fun c1 => ne (hja'.trans c1.symm)
      exact fold_other post ⟨b, inpost b jb hb hjb hne, jb, hjb.1, hjb.2, hne⟩
    · exact fold_other post ⟨a, inpost a ja ha hja hja', ja, hja.1, hja.2, hja'⟩
  obtain ⟨t, h1, h2, h3⟩ := key
  exact ⟨⟨t, h1, h3⟩, fun j e => by rw [h1] at e; cases e; exact h2⟩

/-- An operation's own Jacobian goes in front of, or behind, what it took from its arguments, for the variables it is
set for; if nothing was taken it is the only one, with an origin no other list has. -/
theorem c85_born_own (cs : List Call) (args : List Nat) (hd : Bool) (ig : Option Nat) (o : Own) (g g0 g' : St) (hr : run cs St.empty = .ok g)
    (h0 : newOp args hd ig none g = .ok g0) (h : newOp args hd ig (some o) g = .ok g') (v : Nat) :
    (v ∉ o.vars → g'.jac g.nodes.length v = g0.jac g.nodes.length v) ∧
    (v ∈ o.vars → ∀ j, g0.jac g.nodes.length v = some j →
      g'.jac g.nodes.length v = some { j with list := if o.front then ⟨o.reads, g.nodes.length⟩ :: j.list else j.list ++ [⟨o.reads, g.nodes.length⟩] }) ∧
    (v ∈ o.vars → v ∈ g'.leaves g.nodes.length → g0.jac g.nodes.length v = none →
      ∃ j, g'.jac g.nodes.length v = some j ∧ j.list = [⟨o.reads, g.nodes.length⟩] ∧ j.terminal = false ∧
        ∀ k u t, g.jac k u = some t → t.uid ≠ j.uid) := by
  rw [(born_jac h).1, (born_jac h0).1, (born_jac h).2]
  refine ⟨fun hv => ?_, fun hv j e => ?_, fun hv hl e => ?_⟩
  · simp [bornJac, ownFor, hv]
  · unfold bornJac at e ⊢
    split at e
    · next hl =>
      rw [if_pos hl]
      dsimp only [ownFor] at e ⊢
      rw [if_pos hv]
      dsimp only
      rw [e]
      rfl
    · cases e
  · unfold bornJac at e ⊢
    rw [if_pos hl] at e ⊢
    dsimp only [ownFor] at e ⊢
    rw [if_pos hv]
    dsimp only
    rw [e]
    refine ⟨_, rfl, rfl, rfl, fun k u t ht => ?_⟩
    have := run_uinv cs empty_winv empty_uinv hr k u t ht
    exact Nat.ne_of_lt this

/-- Two products made on their own, for one variable, are told apart: a sum of the two is marked as branching. -/
theorem c85_two_products (cs : List Call) (g g1 g2 : St) (hr : run cs St.empty = .ok g) (m : Nat) (args : List Nat) (o : Own) (v : Nat)
    (jm : JList) (hm : HasJac g m v jm) (hn : ∀ a ∈ args, ∀ j, ¬ HasJac g a v j) (hv : v ∈ o.vars) (hl : ∃ a ∈ args, v ∈ g.leaves a)
    (h1 : newOp args false none (some o) g = .ok g1) (h2 : newOp [m, g.nodes.length] false none none g1 = .ok g2) :
    Branches g2 g1.nodes.length v ∧ NoJac g2 g1.nodes.length v := by
  have i := run_winv cs empty_winv hr
  have ml := (i.leafjac m v jm hm.1).1
  obtain ⟨b1, b2, b3, _, b5⟩ := c85_born args false none (some o) g g1 h1
  have h0 : ∃ g0, newOp args false none none g = .ok g0 := by
    unfold newOp at h1 ⊢
    split at h1
    · cases h1
    · next c =>
      rw [if_neg c]
      split at h1
      · next c' => rw [if_pos c']; exact ⟨_, rfl⟩
      · cases h1
  obtain ⟨g0, h0⟩ := h0
  obtain ⟨_, _, q⟩ := c85_born_own cs args false none o g g0 g1 hr h0 h1 v
  obtain ⟨j, q1, q2, _, q4⟩ := q hv ((b3 v).2 ⟨rfl, hl⟩) (c85_born_none args false none g g0 h0 v hn)
  have ne : m ≠ g.nodes.length := Nat.ne_of_lt ml
  refine c85_born_branch [m, g.nodes.length] none g1 g2 h2 v m g.nodes.length (by simp) (by simp) ?_ (fun i h => by cases h) jm j
    ⟨by rw [(b5 m ne).2.1]; exact hm.1, hm.2⟩ ⟨q1, by rw [q2]; simp⟩ (q4 m v jm hm.1)
  rw [(b5 m ne).2.2]
  exact i.keys m v jm hm.1

/-- A Jacobian set on top of an inherited list does not change the origin: a node and a biased sum on it are not
told apart.  Adding the two keeps the list of the first one only: the own Jacobian of the biased sum is lost if
the node comes first, and used for both if the biased sum does; the operation is not marked in either case. -/
theorem c85_bias_not_told_apart (cs : List Call) (g g1 g2 g3 : St) (hr : run cs St.empty = .ok g) (m b : Nat) (o : Own) (v : Nat)
    (jm : JList) (hm : HasJac g m v jm) (hb : ∀ j, ¬ HasJac g b v j) (hv : v ∈ o.vars) (hf : o.front = true)
    (h1 : newOp [m, b] false none (some o) g = .ok g1) (h2 : newOp [m, g.nodes.length] false none none g1 = .ok g2)
    (h3 : newOp [g.nodes.length, m] false none none g1 = .ok g3) :
    g2.jac g1.nodes.length v = some { jm with terminal := false } ∧
    g3.jac g1.nodes.length v = some { jm with list := ⟨o.reads, g.nodes.length⟩ :: jm.list, terminal := false } := by
  have i := run_winv cs empty_winv hr
  have ml := (i.leafjac m v jm hm.1).1
  have mv := i.keys m v jm hm.1
  obtain ⟨b1, b2, b3, _, b5⟩ := c85_born [m, b] false none (some o) g g1 h1
  have h0 : ∃ g0, newOp [m, b] false none none g = .ok g0 := by
    unfold newOp at h1 ⊢
    split at h1
    · cases h1
    · next c =>
      rw [if_neg c]
      split at h1
      · next c' => rw [if_pos c']; exact ⟨_, rfl⟩
      · cases h1
  obtain ⟨g0, h0⟩ := h0
  have born : g0.jac g.nodes.length v = some { jm with terminal := false } :=
    c85_born_one [] [b] m none g g0 h0 v mv (fun i h => by cases h) jm hm (fun _ h => by cases h) (fun x hx t ht => by
      rw [List.mem_singleton] at hx; subst hx; exact absurd ht (hb t))
  obtain ⟨_, q, _⟩ := c85_born_own cs [m, b] false none o g g0 g1 hr h0 h1 v
  have q := q hv _ born
  rw [hf] at q
  have ne : m ≠ g.nodes.length := Nat.ne_of_lt ml
  have hm1 : HasJac g1 m v jm := ⟨by rw [(b5 m ne).2.1]; exact hm.1, hm.2⟩
  have hn1 : HasJac g1 g.nodes.length v { jm with list := ⟨o.reads, g.nodes.length⟩ :: jm.list, terminal := false } := ⟨q, by simp⟩
  have mv1 : v ∈ g1.leaves m := by rw [(b5 m ne).2.2]; exact mv
  have nv1 : v ∈ g1.leaves g.nodes.length := (b3 v).2 ⟨rfl, m, by simp, mv⟩
  refine ⟨?_, ?_⟩
  · refine c85_born_one [] [g.nodes.length] m none g1 g2 h2 v mv1 (fun i h => by cases h) jm hm1 (fun _ h => by cases h) (fun x hx t ht => ?_)
    rw [List.mem_singleton] at hx; subst hx
    have := ht.1
    rw [hn1.1] at this
    cases this; rfl
  · refine c85_born_one [] [m] g.nodes.length none g1 g3 h3 v nv1 (fun i h => by cases h) _ hn1 (fun _ h => by cases h) (fun x hx t ht => ?_)
    rw [List.mem_singleton] at hx; subst hx
    have := ht.1
    rw [hm1.1] at this
    cases this; rfl

/-- The cases on a small graph: `x`, `w`, `b`, `x·w`, `sigmoid(x·w)` and its sum with `b`; then another product with `w`. -/
def jborn : List Call :=
  [.newLeaf, .newLeaf, .newLeaf, .newOp [0, 1] false none (some ⟨false, 2, [0, 1]⟩)]

example : ∃ g g1 g2 g3, run jborn St.empty = .ok g ∧ HasJac g 3 1 ⟨0, [⟨2, 3⟩], false⟩ ∧ (∀ j, ¬ HasJac g 2 1 j) ∧
    newOp [3, 2] false none (some ⟨true, 0, [0, 1]⟩) g = .ok g1 ∧ newOp [3, 4] false none none g1 = .ok g2 ∧ newOp [4, 3] false none none g1 = .ok g3 ∧
    g2.jac 5 1 = some ⟨0, [⟨2, 3⟩], false⟩ ∧ g3.jac 5 1 = some ⟨0, [⟨0, 4⟩, ⟨2, 3⟩], false⟩ ∧ g.nodes.length = 4 ∧ g1.nodes.length = 5 :=
  ⟨_, _, _, _, rfl, ⟨rfl, by simp⟩, (fun j h => by cases h.1), rfl, rfl, rfl, rfl, rfl, rfl, rfl⟩

example : ∃ g g1 g2, run jborn St.empty = .ok g ∧ HasJac g 3 1 ⟨0, [⟨2, 3⟩], false⟩ ∧ (∀ a ∈ [2, 1], ∀ j, ¬ HasJac g a 1 j) ∧ (∃ a ∈ [2, 1], 1 ∈ g.leaves a) ∧
    newOp [2, 1] false none (some ⟨false, 2, [1, 2]⟩) g = .ok g1 ∧ newOp [3, 4] false none none g1 = .ok g2 ∧ g2.jac 5 1 = some ⟨0, [], true⟩ := by
  refine ⟨_, _, _, rfl, ⟨rfl, by simp⟩, ?_, ⟨1, by simp, by decide⟩, rfl, rfl, rfl⟩
  intro a ha j h
  simp only [List.mem_cons, List.not_mem_nil, or_false] at ha
  rcases ha with rfl | rfl <;> cases h.1

example : ∃ g g1, run jborn St.empty = .ok g ∧ newOp [3] false (some 3) none g = .ok g1 ∧ 1 ∈ g.leaves 3 ∧ g1.jac 4 1 = none :=
  ⟨_, _, rfl, rfl, by decide, rfl⟩

end Verif.Props
