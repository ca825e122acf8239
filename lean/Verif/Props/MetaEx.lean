import Verif.Props.Meta
import Verif.Props.AskMore
/-!
# C81: examples
-/
namespace Verif.Props
open Meta Spec
open Ask (Arith Op Node Ext Wf Inv)
open scoped Classical

variable {h : Expr.Hash}

theorem meta_exec {S : Meta.St} {env : Expr.Env} {c : Ask.Call} {r : Nat} {T : Ask.St} (he : Ask.exec env c S.base = .ok (r, T)) :
    ∃ S' : Meta.St, Meta.exec env c S = .ok (r, S') ∧ S'.base = T := by
  refine ⟨⟨T, births T.nodes S.base.nodes.length T.nodes.length S.data⟩, ?_, rfl⟩
  unfold Meta.exec
  rw [he]
  rfl

/-- A function that looks for a node and finds none. -/
theorem meta_fresh {S : Meta.St} {env : Expr.Env} {k : Expr.K1} {a : Nat} (ha : a < S.base.nodes.length)
    (hu : ∀ q, ¬ Ask.Listens env.fmt S.base a ((Op.elem k).label env.fmt) q) :
    ∃ S' : Meta.St, Meta.exec env (.elem k a) S = .ok (S.base.nodes.length, S') ∧ S'.base = ⟨S.base.nodes ++ [.op (.elem k) [a]], .elem k :: S.base.asked⟩ := by
  refine meta_exec ?_
  rw [exec_body (by simp [Ask.Call.args, ha])]
  simp only [Ask.body]
  rw [ask_get1_fresh hu]
  rfl

theorem meta_found {S : Meta.St} {env : Expr.Env} {k : Expr.K1} {a p : Nat} (ha : a < S.base.nodes.length)
    (hp : Ask.Listens env.fmt S.base a ((Op.elem k).label env.fmt) p)
    (hu : ∀ q, Ask.Listens env.fmt S.base a ((Op.elem k).label env.fmt) q → q = p) :
    ∃ S' : Meta.St, Meta.exec env (.elem k a) S = .ok (p, S') ∧ S'.base = Ask.note (.elem k) S.base := by
  refine meta_exec ?_
  rw [exec_body (by simp [Ask.Call.args, ha])]
  simp only [Ask.body]
  rw [ask_get1_found hp hu]

theorem meta_grad {S S' : Meta.St} {env : Expr.Env} {i b r : Nat} (he : Meta.exec env (.elem .ident b) S = .ok (r, S')) (hr : r < S'.base.nodes.length) :
    ∃ S'' : Meta.St, Meta.step env (.reduceGrad i b) S = .ok (r, S'') ∧ S''.base = S'.base := by
  refine ⟨{ S' with data := fun k q => if k = r ∧ q = groupKey then some i else S'.data k q }, ?_, rfl⟩
  simp only [Meta.step]
  rw [he, Outcome.ok_bind]
  unfold Meta.set
  rw [if_pos hr]

/-- A leaf; its gradient along axis 0; the negation of that. -/
abbrev exTrace : List (Meta.Call × Nat) := [(.fn .leaf, 0), (.reduceGrad 0 0, 1), (.fn (.elem .neg 1), 2)]

def exBase : Ask.St := ⟨[.leaf, .op (.elem .ident) [0], .op (.elem .neg) [1]], [.elem .neg, .elem .ident]⟩

theorem ex_early (h0 : Expr.Hash) : ∃ S, Early oneFmt Meta.St.init exTrace S ∧ S.base = exBase := by
  have e1 : Meta.step ⟨h0, oneFmt⟩ (.fn .leaf) Meta.St.init = .ok (0, ⟨⟨[.leaf], []⟩, births [.leaf] 0 1 Meta.St.init.data⟩) := by
    simp only [Meta.step]
    unfold Meta.exec
    rw [show Ask.exec ⟨h0, oneFmt⟩ .leaf Meta.St.init.base = .ok (0, ⟨[.leaf], []⟩) by simp [Ask.exec, Ask.Call.args, Ask.body, Ask.push, Meta.St.init, Ask.St.init]]
    rfl
  generalize hS1 : (⟨⟨[.leaf], []⟩, births [.leaf] 0 1 Meta.St.init.data⟩ : Meta.St) = S1 at e1
  have b1 : S1.base = ⟨[.leaf], []⟩ := by rw [← hS1]
  obtain ⟨S2', e2', b2'⟩ := meta_fresh (S := S1) (env := ⟨h0, oneFmt⟩) (k := .ident) (a := 0) (by simp [b1]) (by rw [b1]; exact listens_leaf)
  rw [b1] at e2' b2'
  obtain ⟨S2, e2, b2⟩ := meta_grad (i := 0) e2' (by simp [b2'])
  rw [b2'] at b2
  obtain ⟨S3, e3, b3⟩ := meta_fresh (S := S2) (env := ⟨h0, oneFmt⟩) (k := .neg) (a := 1) (by simp [b2]) (by
    rw [b2]
    rintro q ⟨o, args, hq, hm, _⟩
    rcases q with _ | _ | q
    · cases hq
    · simp at hq; rw [← hq.2] at hm; simp at hm
    · simp at hq)
  rw [b2] at e3 b3
  refine ⟨S3, .snoc (tr := [(.fn .leaf, 0), (.reduceGrad 0 0, 1)]) (.snoc (tr := [(.fn .leaf, 0)]) (.snoc (tr := []) (.nil _) e1 ?_) e2 ?_) e3 ?_, b3⟩
  · rintro n key v (hs | ⟨_, _, _, hs⟩) <;> cases hs
  · rintro n key v hs k ht
    have := takes_len ht
    rw [b1] at this
    obtain rfl : k = 0 := by simpa using this
    obtain ⟨rest, ht⟩ := ht
    simp [IsOp, b1] at ht
  · rintro n key v (hs | ⟨_, _, _, hs⟩) <;> cases hs

theorem label_neg : (Op.elem .neg).label oneFmt = "neg".toList := by
  unfold Op.label Expr.K1.label Expr.K1.parts; dsimp only; rfl
theorem label_ident : (Op.elem .ident).label oneFmt = "identity".toList := by
  unfold Op.label Expr.K1.label Expr.K1.parts; dsimp only; rfl
theorem label_axial : (Op.axial .mul false 0).label oneFmt = "mul_axis_b_0".toList := by
  unfold Op.label Arith.word Ask.dec; dsimp only; rfl

theorem ex_apart {as : List Op} (ha : ∀ o ∈ as, o = .elem .neg ∨ o = .elem .ident ∨ o = .axial .mul false 0) {ns : List Node} : Apart oneFmt ⟨ns, as⟩ := by
  constructor
  · intro o ho o' ho' hl
    rcases ha o ho with rfl | rfl | rfl <;> rcases ha o' ho' with rfl | rfl | rfl
    all_goals first | rfl | (simp [label_neg, label_ident, label_axial] at hl; done)
  · intro o ho
    rcases ha o ho with rfl | rfl | rfl
    all_goals simp [label_neg, label_ident, label_axial]

/-- The gradient has the axis, its negation inherits it, the leaf has none (`c81_set`, `c81_inherited`, `c81_none`). -/
theorem ex_data {S : Meta.St} (hr : Early oneFmt Meta.St.init exTrace S) (hb : S.base = exBase) :
    S.data 1 "grouping".toList = some 0 ∧ S.data 2 "grouping".toList = some 0 ∧ S.data 0 "grouping".toList = none := by
  have h1 : S.data 1 "grouping".toList = some 0 := c81_set (early_runs hr) 1 _ 0
    (.before (tr := [(.fn .leaf, 0), (.reduceGrad 0 0, 1)]) (by rintro w (hs | ⟨_, _, _, hs⟩) <;> cases hs)
      (.now (tr := [(.fn .leaf, 0)]) (.inr ⟨rfl, rfl, 0, rfl⟩)))
  have n2 : NeverSet 2 "grouping".toList exTrace := by
    intro c r v hm hs
    simp only [exTrace, List.mem_cons, Prod.mk.injEq, List.not_mem_nil, or_false] at hm
    rcases hm with ⟨rfl, rfl⟩ | ⟨rfl, rfl⟩ | ⟨rfl, rfl⟩ <;> rcases hs with hs | ⟨hs, _, _, hs'⟩
    all_goals first | (cases hs'; done) | (cases hs; done)
  have n0 : NeverSet 0 "grouping".toList exTrace := by
    intro c r v hm hs
    simp only [exTrace, List.mem_cons, Prod.mk.injEq, List.not_mem_nil, or_false] at hm
    rcases hm with ⟨rfl, rfl⟩ | ⟨rfl, rfl⟩ | ⟨rfl, rfl⟩ <;> rcases hs with hs | ⟨hs, _, _, hs'⟩
    all_goals first | (cases hs'; done) | (cases hs; done)
  refine ⟨h1, ?_, ?_⟩
  · rw [c81_inherited hr 2 1 _ n2 ⟨[], .inl ⟨.neg, by rw [hb]; rfl⟩⟩, h1]
  · refine c81_none (early_runs hr) 0 _ n0 ?_
    rintro a ⟨rest, ht⟩
    simp [IsOp, hb, exBase] at ht

/-- `c81_dispatch`: the product of the negation and the leaf is taken along axis 0. -/
example (h0 h1 : Expr.Hash) : ∃ S S' : Meta.St, Early oneFmt Meta.St.init exTrace S ∧ Meta.step ⟨h1, oneFmt⟩ (.arith .mul 2 0) S = .ok (3, S') ∧
    IsOp S'.base 3 (.axial .mul false 0) [2, 0] := by
  obtain ⟨S, hr, hb⟩ := ex_early h0
  obtain ⟨d1, d2, d0⟩ := ex_data hr hb
  have key : ∃ S' : Meta.St, Meta.exec ⟨h1, oneFmt⟩ (.axial .mul false 0 2 0) S = .ok (3, S') ∧
      S'.base = ⟨exBase.nodes ++ [.op (.axial .mul false 0) [2, 0]], .axial .mul false 0 :: exBase.asked⟩ := by
    refine meta_exec ?_
    rw [hb, exec_body (by simp [Ask.Call.args, exBase])]
    simp only [Ask.body]
    rw [if_neg (by simp)]
    unfold Ask.get2
    cases hh : ((Ask.audience ⟨h1, oneFmt⟩ exBase 2 ((Op.axial .mul false 0).label oneFmt)).find?
        fun p => decide (Ask.argsOf exBase p = [2, 0] ∨ (Arith.mul.unordered = true ∧ Ask.argsOf exBase p = [0, 2]))) with
    | none => rfl
    | some p =>
      have := Ask.mem_audience.1 (List.mem_of_find?_eq_some hh)
      obtain ⟨o, args, hq, hm, _⟩ := this
      rcases p with _ | _ | _ | p
      · cases hq
      · simp [exBase] at hq; rw [← hq.2] at hm; simp at hm
      · simp [exBase] at hq; rw [← hq.2] at hm; simp at hm
      · simp [exBase] at hq
  obtain ⟨S', e, b⟩ := key
  have st : Meta.step ⟨h1, oneFmt⟩ (.arith .mul 2 0) S = .ok (3, S') := by
    simp only [Meta.step]
    rw [show S.data 2 groupKey = some 0 from d2, show S.data 0 groupKey = none from d0]
    exact e
  refine ⟨S, S', hr, st, ?_⟩
  have hA : Apart oneFmt S'.base := by
    rw [b]
    refine ex_apart ?_
    intro o ho
    simp [exBase] at ho
    tauto
  rcases c81_dispatch (early_runs hr) .mul 2 0 3 st hA with ⟨i, e1, _, hbin⟩ | ⟨_, e1, _⟩ | ⟨e1 | ⟨_, _, _, e1, _⟩, _⟩
  · rw [b]; rfl
  · rw [d2] at e1; cases e1
  · rw [d2] at e1; cases e1.1
  · rw [d0] at e1; cases e1

/-- `c81_overwritten`, `c81_kept`: a second reduction, along axis 1, whose argument has the same gradient gives the node
the axis 1; its negation, made before, keeps axis 0. -/
example (h0 h1 : Expr.Hash) : ∃ S S' : Meta.St, Runs oneFmt Meta.St.init exTrace S ∧ Meta.step ⟨h1, oneFmt⟩ (.reduceGrad 1 0) S = .ok (1, S') ∧
    S.data 1 "grouping".toList = some 0 ∧ S'.data 1 "grouping".toList = some 1 ∧ S'.data 2 "grouping".toList = some 0 ∧
    IsOp S'.base 1 (.elem .ident) [0] := by
  obtain ⟨S, hr, hb⟩ := ex_early h0
  obtain ⟨d1, d2, d0⟩ := ex_data hr hb
  obtain ⟨S1, e1, b1⟩ := meta_found (S := S) (env := ⟨h1, oneFmt⟩) (k := .ident) (a := 0) (p := 1) (by simp [hb, exBase])
    ⟨_, _, by rw [hb]; rfl, by simp, rfl⟩ (by
      rw [hb]
      rintro q ⟨o, args, hq, hm, _⟩
      rcases q with _ | _ | _ | q
      · cases hq
      · rfl
      · simp [exBase] at hq; rw [← hq.2] at hm; simp at hm
      · simp [exBase] at hq)
  obtain ⟨S2, e2, b2⟩ := meta_grad (i := 1) e1 (by simp [b1, hb, Ask.note, exBase])
  have hA : Apart oneFmt S2.base := by
    rw [b2, b1, hb]
    refine ex_apart ?_
    intro o ho
    simp [exBase] at ho
    tauto
  obtain ⟨i1, i2⟩ := c81_reduce (early_runs hr) 1 0 1 e2 hA
  refine ⟨S, S2, early_runs hr, e2, d1, i2, ?_, i1⟩
  rw [c81_kept (early_runs hr) e2 2 (by simp [hb, exBase]) _ (by rintro v (hs | ⟨hs, _, _, _⟩) <;> cases hs), d2]

end Verif.Props
