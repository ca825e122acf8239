import Verif.Props.Ask
import Verif.Model.Elementary
/-!
# C79: where an operator returns another node than asked for, or than a user would think
-/
namespace Verif.Props
open Spec Ask
open Expr (K1 Hash)
open scoped Classical
variable {S S' S1 S2 S3 : St} {fmt : ℝ → List Char} {env : Expr.Env} {h h' : Hash} {cs cs' : List (Hash × Call)}

theorem ask_get1_found {o : Op} {a p : Nat} {mk : M} (hp : Listens env.fmt S a (o.label env.fmt) p)
    (hu : ∀ q, Listens env.fmt S a (o.label env.fmt) q → q = p) : get1 env o a mk S = .ok (p, note o S) := by
  unfold get1
  cases hh : (audience env S a (o.label env.fmt)).head? with
  | some q => rw [hu q (mem_audience.1 (List.mem_of_mem_head? hh))]
  | none =>
    rw [List.head?_eq_none_iff] at hh
    have := mem_audience.2 hp
    rw [hh] at this; cases this

theorem ask_get1_fresh {o : Op} {a : Nat} {mk : M} (hu : ∀ q, ¬ Listens env.fmt S a (o.label env.fmt) q) : get1 env o a mk S = mk (note o S) := by
  unfold get1
  cases hh : (audience env S a (o.label env.fmt)).head? with
  | some q => exact absurd (mem_audience.1 (List.mem_of_mem_head? hh)) (hu q)
  | none => rfl

theorem exec_body {c : Call} (hc : ∀ a ∈ c.args, a < S.nodes.length) : exec env c S = body env c S := by
  unfold exec; rw [if_pos hc]

/-- C79: `add_axial_a`, `add_axial_b`, `mul_axial_a` and `mul_axial_b` of (b, a) made after (a, b) are the node of (a, b),
although the two operands play different parts: with shapes [2, 3, 4] and [3, 4], (a, b) is an operation and (b, a) an error. -/
theorem c79_axial_swapped (hr : run fmt cs St.init = .ok S) (o : Arith) (ho : o = .add ∨ o = .mul) (left : Bool) (k a b n m : Nat) (hab : a ≠ b)
    (he : exec ⟨h, fmt⟩ (.axial o left k a b) S = .ok (n, S1)) (hr' : run fmt cs' S1 = .ok S2)
    (he' : exec ⟨h', fmt⟩ (.axial o left k b a) S2 = .ok (m, S3)) (hA : Apart fmt S3) :
    m = n ∧ Elementary.axialShaper 0 false [[2, 3, 4], [3, 4]] = .ok [2, 3, 4] ∧ Elementary.axialShaper 0 false [[3, 4], [2, 3, 4]] = .throw .runtimeError := by
  refine ⟨?_, rfl, rfl⟩
  obtain ⟨x0, w0, g0⟩ := run_gets init_wf hr
  obtain ⟨_, _, e, x1, l1, w1, g1⟩ := exec_gets (env := ⟨h, fmt⟩) w0 he
  cases e
  obtain ⟨x2, w2, g2⟩ := run_gets w1 hr'
  obtain ⟨_, _, e, x3, l3, w3, g3⟩ := exec_gets (env := ⟨h', fmt⟩) w2 he'
  cases e
  have hA2 := Apart.back x3 hA
  have hA1 := Apart.back x2 hA2
  obtain ⟨i1, p1⟩ := g1 (g0 init_inv (Apart.back x1 hA1)) hA1
  obtain ⟨i3, p3⟩ := g3 (g2 i1 hA2) hA
  have q1 : Binary S3 o (.axial o left k) a b n := by
    refine binary_mono (x2.trans x3) (p1.resolve_right ?_)
    rintro ⟨_, _, _, h, _⟩; cases h
  have q3 : Binary S3 o (.axial o left k) b a m := by
    refine p3.resolve_right ?_
    rintro ⟨_, _, _, h, _⟩; cases h
  have key : (IsOp S3 n (.axial o left k) [a, b] ∨ IsOp S3 n (.axial o left k) [b, a]) → (IsOp S3 m (.axial o left k) [b, a] ∨ IsOp S3 m (.axial o left k) [a, b]) → m = n := by
    have hE : Either (.axial o left k) = true := by rcases ho with rfl | rfl <;> rfl
    intro h1 h2
    rcases h1 with h1 | h1 <;> rcases h2 with h2 | h2
    · exact i3.either _ _ _ _ _ h2 h1 hE
    · exact i3.uniq _ _ _ _ h2 h1 (by simp)
    · exact i3.uniq _ _ _ _ h2 h1 (by simp)
    · exact i3.either _ _ _ _ _ h2 h1 hE
  rcases ho with rfl | rfl
  · exact key q1 q3
  · exact key (q1.elim (fun h => h.2) fun h => absurd h.1 hab) (q3.elim (fun h => h.2) fun h => absurd h.1.symm hab)

/-- C79: `clip_norm` of the norm l of b, made after `clip_norm` of b with the same cap, is the node of b clipped. -/
theorem c79_clip_of_norm (hr : run fmt cs St.init = .ok S) (cap : ℝ) (hcap : 0 < cap) (l b n : Nat) (hl : IsOp S l .l2norm [b])
    (hn : IsOp S n (.clipNorm cap) [l, b]) (hno : ∀ m x, ¬ IsOp S m (.clipNorm cap) [x, l]) (hA : Apart fmt (note (.clipNorm cap) S)) :
    exec ⟨h, fmt⟩ (.clipNorm cap l) S = .ok (n, note (.clipNorm cap) S) := by
  obtain ⟨x0, w0, g0⟩ := run_gets init_wf hr
  have hI := g0 init_inv (Apart.back (note_ext _) hA)
  rw [exec_body (by simpa [Call.args] using isOp_lt hl)]
  have hc : constData S l = none := by
    unfold constData
    rw [show S.nodes[l]? = _ from hl]
  simp only [body, if_pos hcap, hc]
  refine ask_get1_found ⟨_, _, hn, by simp, rfl⟩ ?_
  intro q hq
  obtain ⟨args, h1, h2, x, y, rfl, h3⟩ := found_op (env := ⟨h, fmt⟩) hI hA hq
  simp only [List.mem_cons, List.not_mem_nil, or_false] at h2
  rcases h2 with rfl | rfl
  · have := (isOp_inj h3 hl).2
    simp only [List.cons.injEq, and_true] at this
    subst this
    exact hI.uniq _ _ _ _ h1 hn (by simp)
  · exact absurd h1 (hno _ _)

/-- The order that puts q first. -/
def firstHash (q : Nat) : Hash where
  ord _ l := l.filter (fun x => decide (x = q)) ++ l.filter (fun x => !decide (x = q))
  ord_perm _ l := List.filter_append_perm _ l

theorem firstHash_head {q : Nat} {a : Nat} {l : List Char} (hq : Listens fmt S a l q) : (audience ⟨firstHash q, fmt⟩ S a l).head? = some q := by
  unfold audience
  simp only [firstHash]
  have hm : q ∈ (List.range S.nodes.length).filter fun n => decide (Listens fmt S a l n) := by
    obtain ⟨o, args, h1, h2⟩ := hq
    exact List.mem_filter.2 ⟨List.mem_range.2 (isOp_lt h1), by simp only [decide_eq_true_eq]; exact ⟨o, args, h1, h2⟩⟩
  generalize (List.range S.nodes.length).filter (fun n => decide (Listens fmt S a l n)) = L at hm ⊢
  have : q ∈ L.filter fun x => decide (x = q) := List.mem_filter.2 ⟨hm, by simp⟩
  cases hL : L.filter fun x => decide (x = q) with
  | nil => rw [hL] at this; cases this
  | cons x xs =>
    have hx : x ∈ L.filter fun x => decide (x = q) := by rw [hL]; exact List.mem_cons_self
    have := (List.mem_filter.1 hx).2
    simp only [decide_eq_true_eq] at this
    simp [this]

/-- C79: once both b and its norm l have been clipped, which of the two nodes `clip_norm(l)` returns depends on the order
in which a hash set is iterated. -/
theorem c79_clip_either (cap : ℝ) (hcap : 0 < cap) (l b n m x : Nat) (hl : IsOp S l .l2norm [b]) (hn : IsOp S n (.clipNorm cap) [l, b])
    (hm : IsOp S m (.clipNorm cap) [x, l]) :
    (∃ S', exec ⟨firstHash n, fmt⟩ (.clipNorm cap l) S = .ok (n, S')) ∧ ∃ S', exec ⟨firstHash m, fmt⟩ (.clipNorm cap l) S = .ok (m, S') := by
  have key : ∀ q args, IsOp S q (.clipNorm cap) args → l ∈ args → ∃ S', exec ⟨firstHash q, fmt⟩ (.clipNorm cap l) S = .ok (q, S') := by
    intro q args hq hmem
    rw [exec_body (by simpa [Call.args] using isOp_lt hl)]
    have hc : constData S l = none := by
      unfold constData
      rw [show S.nodes[l]? = _ from hl]
    simp only [body, if_pos hcap, hc, get1]
    rw [firstHash_head ⟨_, _, hq, hmem, rfl⟩]
    exact ⟨_, rfl⟩
  exact ⟨key n _ hn (by simp), key m _ hm (by simp)⟩

/-- C79: sampling twice from one node gives one node, whose difference with itself is the constant 0. -/
theorem c79_same_sample (hr : run fmt cs St.init = .ok S) (k : ℝ) (a n m : Nat) (hd : ∀ d, ¬ IsConst S a d) (he : exec ⟨h, fmt⟩ (.sample k a) S = .ok (n, S1))
    (hr' : run fmt cs' S1 = .ok S2) (he' : exec ⟨h', fmt⟩ (.sample k a) S2 = .ok (m, S3)) (hA : Apart fmt S3) :
    m = n ∧ ∃ z S4, exec ⟨h, fmt⟩ (.arith .sub m n) S3 = .ok (z, S4) ∧ IsConst S4 z [0] := by
  obtain ⟨x0, w0, g0⟩ := run_gets init_wf hr
  obtain ⟨_, _, e, x1, l1, w1, g1⟩ := exec_gets (env := ⟨h, fmt⟩) w0 he
  cases e
  obtain ⟨x2, w2, g2⟩ := run_gets w1 hr'
  obtain ⟨_, _, e, x3, l3, w3, g3⟩ := exec_gets (env := ⟨h', fmt⟩) w2 he'
  cases e
  have hA1 := Apart.back x2 (Apart.back x3 hA)
  obtain ⟨i1, p1⟩ := g1 (g0 init_inv (Apart.back x1 hA1)) hA1
  have hn : ∀ d, ¬ IsConst S1 n d := by
    intro d hc
    rcases p1 with (⟨h, _⟩ | ⟨_, h⟩) | ⟨_, _, _, h, _⟩
    · exact hd _ (x1.back (exec_args he a (by simp [Call.args])) h)
    · exact isOp_not_const h hc
    · cases h
  have hmn := c79_again hr (.sample k a) n m he hr' he' hA hn (by simp) (by simp) (fun _ _ h => by cases h)
  refine ⟨hmn, S3.nodes.length, { S3 with nodes := S3.nodes ++ [.const [0]] }, ?_, ?_⟩
  · subst hmn
    rw [exec_body (by simpa [Call.args] using l3)]
    simp [body, onSame, push]
  · simp [IsConst]

/-- C79: `as_constant` never finds what it made before. -/
theorem c79_as_constant_anew (hr : run fmt cs St.init = .ok S) (a n : Nat) (he : exec ⟨h, fmt⟩ (.asConst a) S = .ok (n, S')) (hA : Apart fmt S') :
    n = S.nodes.length := by
  obtain ⟨x0, w0, g0⟩ := run_gets init_wf hr
  obtain ⟨_, _, e, x1, l1, w1, g1⟩ := exec_gets (env := ⟨h, fmt⟩) w0 he
  cases e
  have hI := g0 init_inv (Apart.back x1 hA)
  rw [exec_body (exec_args he)] at he
  simp only [body] at he
  split at he
  · rename_i p hp
    obtain ⟨o, args, h1, _, h3⟩ := mem_audience.1 (List.mem_of_mem_head? hp)
    exact absurd h3 (hA.2 o (x1.asked _ (hI.asked _ _ _ h1)))
  · cases he; rfl

/-- One leaf and a node of it. -/
def oneOp (o : Op) : St := ⟨[.leaf, .op o [0]], [o]⟩

theorem listens_oneOp {o : Op} {l : List Char} (hl : o.label fmt = l) : Listens fmt (oneOp o) 0 l 1 ∧ ∀ q, Listens fmt (oneOp o) 0 l q → q = 1 := by
  refine ⟨⟨o, [0], rfl, by simp, hl⟩, ?_⟩
  rintro q ⟨o', args, h, _⟩
  rcases q with _ | _ | q
  · cases h
  · rfl
  · simp [oneOp] at h

theorem listens_leaf {a : Nat} {l : List Char} {as : List Op} : ∀ q, ¬ Listens fmt ⟨[.leaf], as⟩ a l q := by
  rintro q ⟨o', args, h, _⟩
  rcases q with _ | q
  · cases h
  · simp at h

theorem run_one {c : Call} {o : Op} (hc : c.args = [0]) (hb : body ⟨h', fmt⟩ c = get1 ⟨h', fmt⟩ o 0 (push (.op o [0]))) :
    run fmt [(h, .leaf), (h', c)] St.init = .ok (oneOp o) := by
  rw [run, show exec ⟨h, fmt⟩ .leaf St.init = .ok (0, ⟨[.leaf], []⟩) by simp [exec, Call.args, body, push, St.init], Outcome.ok_bind, run,
    exec_body (by simp [hc]), hb, ask_get1_fresh listens_leaf]
  rfl

theorem exec_one {c : Call} {o o' : Op} (hc : c.args = [0]) (hb : body env c = get1 env o' 0 (push (.op o' [0]))) (hl : o.label env.fmt = o'.label env.fmt) :
    exec env c (oneOp o) = .ok (1, note o' (oneOp o)) := by
  rw [exec_body (by simp [hc, oneOp]), hb]
  exact ask_get1_found (listens_oneOp hl).1 (listens_oneOp hl).2

/-- C79: a function passed by the user under a name of the library's is what the library's own function returns
afterwards, and the other way round; the name "flip" with an axis is the name of a flip; two functions passed under one
name are one. -/
theorem c79_user_names (f g : ℝ → ℝ → ℝ) (k : Option Nat) (name : List Char) :
    run fmt [(h, .leaf), (h', .compress name f k 0)] St.init = .ok (oneOp (.compress name f k)) ∧
    (∃ S', exec env (.compress name g k 0) (oneOp (.compress name f k)) = .ok (1, S') ∧ IsOp S' 1 (.compress name f k) [0]) ∧
    (∃ S', exec env (.flip [3] 0) (oneOp (.compress "flip".toList f (some 3))) = .ok (1, S') ∧ IsOp S' 1 (.compress "flip".toList f (some 3)) [0]) := by
  refine ⟨run_one rfl rfl, ⟨_, exec_one rfl rfl rfl, rfl⟩, ⟨_, exec_one rfl rfl ?_, rfl⟩⟩
  · unfold Op.label withAxis; simp

/-- C79: caps, and numbers of trials, that are printed alike are one. -/
theorem c79_printed_alike (x y : ℝ) (hxy : fmt x = fmt y) :
    run fmt [(h, .leaf), (h', .sample x 0)] St.init = .ok (oneOp (.sample x)) ∧
    ∃ S', exec ⟨h, fmt⟩ (.sample y 0) (oneOp (.sample x)) = .ok (1, S') ∧ IsOp S' 1 (.sample x) [0] := by
  constructor
  · rw [run, show exec ⟨h, fmt⟩ .leaf St.init = .ok (0, ⟨[.leaf], []⟩) by simp [exec, Call.args, body, push, St.init], Outcome.ok_bind, run,
      exec_body (by simp [Call.args])]
    simp only [body, constData, List.getElem?_cons_zero]
    rw [ask_get1_fresh listens_leaf]
    rfl
  · refine ⟨note (.sample y) (oneOp (.sample x)), ?_, rfl⟩
    rw [exec_body (by simp [Call.args, oneOp])]
    simp only [body, constData, oneOp, List.getElem?_cons_zero]
    have hl : (Op.sample x).label fmt = (Op.sample y).label fmt := by unfold Op.label; dsimp only; rw [hxy]
    exact ask_get1_found (listens_oneOp hl).1 (listens_oneOp hl).2

/-! ## Examples -/

/-- All numbers printed alike: enough where no numbers, or one, are used. -/
def oneFmt : ℝ → List Char := fun _ => "2".toList

theorem oneFmt_printable : Printable oneFmt := by intro c; simp [oneFmt, words]

def twoLeaves : St := ⟨[.leaf, .leaf], []⟩

theorem run_twoLeaves : run fmt [(h, .leaf), (h, .leaf)] St.init = .ok twoLeaves := by
  simp [run, exec, Call.args, body, push, St.init, twoLeaves, Outcome.ok_bind]

/-- The history of the examples: two leaves, aᵀb, a flip of b, aᵀb again. -/
example : ∃ n S1 S2 S3, exec ⟨h, oneFmt⟩ (.matmul true false 0 1) twoLeaves = .ok (n, S1) ∧ run oneFmt [(h', .flip [0] 1)] S1 = .ok S2 ∧
    exec ⟨h', oneFmt⟩ (.matmul true false 0 1) S2 = .ok (n, S3) ∧ Apart oneFmt S3 ∧ Means S3 (.matmul true false 0 1) n := by
  have hr := run_twoLeaves (h := h) (fmt := oneFmt)
  obtain ⟨n, S1, e1⟩ := (c79_succeeds (h := h) hr (.matmul true false 0 1)).1.2 ⟨by simp [Call.args, twoLeaves], trivial⟩
  have hr1 : run oneFmt [(h, .leaf), (h, .leaf), (h, .matmul true false 0 1)] St.init = .ok S1 := by
    have := hr
    simp only [run] at this ⊢
    rw [show exec ⟨h, oneFmt⟩ .leaf St.init = .ok (0, ⟨[.leaf], []⟩) by simp [exec, Call.args, body, push, St.init], Outcome.ok_bind] at this ⊢
    rw [show exec ⟨h, oneFmt⟩ .leaf ⟨[.leaf], []⟩ = .ok (1, twoLeaves) by simp [exec, Call.args, body, push, twoLeaves], Outcome.ok_bind, e1, Outcome.ok_bind]
  have hx1 := (run_gets (init_wf) hr1)
  have l1 : twoLeaves.nodes.length ≤ S1.nodes.length := by
    obtain ⟨_, _, e, x, _⟩ := exec_gets (env := ⟨h, oneFmt⟩) (run_gets init_wf hr).2.1 e1
    cases e; exact x.le
  have hlen : (2 : Nat) ≤ S1.nodes.length := l1
  obtain ⟨f, S2, e2⟩ := (c79_succeeds (h := h') hr1 (.flip [0] 1)).1.2 ⟨by simp [Call.args]; omega, trivial⟩
  have hr2 : run oneFmt [(h', .flip [0] 1)] S1 = .ok S2 := by simp only [run, e2, Outcome.ok_bind]
  have hr12 : run oneFmt [(h, .leaf), (h, .leaf), (h, .matmul true false 0 1), (h', .flip [0] 1)] St.init = .ok S2 := by
    have := hr1
    simp only [run] at this ⊢
    rw [show exec ⟨h, oneFmt⟩ .leaf St.init = .ok (0, ⟨[.leaf], []⟩) by simp [exec, Call.args, body, push, St.init], Outcome.ok_bind]
    rw [show exec ⟨h, oneFmt⟩ .leaf ⟨[.leaf], []⟩ = .ok (1, twoLeaves) by simp [exec, Call.args, body, push, twoLeaves], Outcome.ok_bind, e1, Outcome.ok_bind, e2, Outcome.ok_bind]
  have l2 : 2 ≤ S2.nodes.length := by
    obtain ⟨_, _, e, x, _⟩ := exec_gets (env := ⟨h', oneFmt⟩) hx1.2.1 e2
    cases e; exact le_trans hlen x.le
  obtain ⟨m, S3, e3⟩ := (c79_succeeds (h := h') hr12 (.matmul true false 0 1)).1.2 ⟨by simp [Call.args]; omega, trivial⟩
  have own : ∀ c ∈ [(h, Call.leaf), (h, .leaf), (h, .matmul true false 0 1), (h', .flip [0] 1), (h', .matmul true false 0 1)], OwnCall c.2 := by
    intro c hc
    simp at hc
    rcases hc with rfl | rfl | rfl | rfl <;> trivial
  have hr3 : run oneFmt [(h, .leaf), (h, .leaf), (h, .matmul true false 0 1), (h', .flip [0] 1), (h', .matmul true false 0 1)] St.init = .ok S3 := by
    simp only [run]
    rw [show exec ⟨h, oneFmt⟩ .leaf St.init = .ok (0, ⟨[.leaf], []⟩) by simp [exec, Call.args, body, push, St.init], Outcome.ok_bind]
    rw [show exec ⟨h, oneFmt⟩ .leaf ⟨[.leaf], []⟩ = .ok (1, twoLeaves) by simp [exec, Call.args, body, push, twoLeaves], Outcome.ok_bind, e1, Outcome.ok_bind, e2, Outcome.ok_bind, e3, Outcome.ok_bind]
  have hA := c79_own_names own oneFmt_printable (by simp [PrintedApart, numbersIn]) hr3
  have hM1 : Means S1 (.matmul true false 0 1) n := by
    have hA1 : Apart oneFmt S1 := by
      refine c79_own_names ?_ oneFmt_printable (by simp [PrintedApart, numbersIn]) hr1
      intro c hc
      simp at hc
      rcases hc with rfl | rfl <;> trivial
    rcases (c79_asked hr _ n e1 hA1).2 with h | ⟨_, _, _, h, _⟩
    · exact h
    · cases h
  have hmn : m = n := by
    refine c79_again hr (.matmul true false 0 1) n m e1 hr2 e3 hA ?_ (by simp) (by simp) (fun _ _ h => by cases h)
    obtain ⟨_, _, _, _, h⟩ := hM1
    exact fun d hd => isOp_not_const h hd
  subst hmn
  refine ⟨m, S1, S2, S3, e1, hr2, e3, hA, ?_⟩
  rcases (c79_asked hr12 _ m e3 hA).2 with h | ⟨_, _, _, h, _⟩
  · exact h
  · cases h

theorem ask_run_snoc {c : Call} {n : Nat} {S0 : St} (hr : run fmt cs S0 = .ok S) (he : exec ⟨h, fmt⟩ c S = .ok (n, S')) : run fmt (cs ++ [(h, c)]) S0 = .ok S' := by
  induction cs generalizing S0 with
  | nil => cases hr; simp only [run, List.nil_append, he, Outcome.ok_bind]
  | cons x cs ih =>
    obtain ⟨hx, x⟩ := x
    obtain ⟨⟨m, S1⟩, h1, h2⟩ := Outcome.bind_eq_ok.mp hr
    simp only [run, List.cons_append, h1, Outcome.ok_bind]
    exact ih h2

/-- a and b added along axis 0 of b, then b and a: one node.  And two samples from a: one node. -/
example : (∃ n S1 S2, exec ⟨h, oneFmt⟩ (.axial .add false 0 0 1) twoLeaves = .ok (n, S1) ∧ exec ⟨h', oneFmt⟩ (.axial .add false 0 1 0) S1 = .ok (n, S2)) ∧
    ∃ n S1 S2, exec ⟨h, oneFmt⟩ (.sample 2 0) twoLeaves = .ok (n, S1) ∧ exec ⟨h', oneFmt⟩ (.sample 2 0) S1 = .ok (n, S2) := by
  have hr := run_twoLeaves (h := h) (fmt := oneFmt)
  have twice : ∀ c c' : Call, (∀ a ∈ c.args, a < 2) → (∀ a ∈ c'.args, a < 2) → OwnCall c → OwnCall c' → Allowed twoLeaves c → (∀ S, (∀ d, ¬ IsConst S 0 d) → Allowed S c') →
      PrintedApart oneFmt [.leaf, .leaf, c, c'] →
      ∃ n m S1 S2, exec ⟨h, oneFmt⟩ c twoLeaves = .ok (n, S1) ∧ exec ⟨h', oneFmt⟩ c' S1 = .ok (m, S2) ∧ Apart oneFmt S2 := by
    intro c c' hc hc' ho ho' ha ha' hp
    obtain ⟨n, S1, e1⟩ := (c79_succeeds (h := h) hr c).1.2 ⟨hc, ha⟩
    have hr1 := ask_run_snoc hr e1
    obtain ⟨_, _, e, x, _⟩ := exec_gets (env := ⟨h, oneFmt⟩) (run_gets init_wf hr).2.1 e1
    cases e
    obtain ⟨m, S2, e2⟩ := (c79_succeeds (h := h') hr1 c').1.2 ⟨fun a h => Nat.lt_of_lt_of_le (hc' a h) x.le, ha' S1 fun d hd => by
      have := x.back (by simp [twoLeaves]) hd
      simp [twoLeaves] at this⟩
    refine ⟨n, m, S1, S2, e1, e2, c79_own_names ?_ oneFmt_printable (by simpa using hp) (ask_run_snoc hr1 e2)⟩
    intro y hy
    simp at hy
    rcases hy with rfl | rfl | rfl
    · trivial
    · exact ho
    · exact ho'
  constructor
  · obtain ⟨n, m, S1, S2, e1, e2, hA⟩ := twice (.axial .add false 0 0 1) (.axial .add false 0 1 0) (by simp [Call.args]) (by simp [Call.args]) trivial trivial trivial
      (fun _ _ => trivial) (by simp [PrintedApart, numbersIn])
    have := (c79_axial_swapped (cs' := []) hr .add (.inl rfl) false 0 0 1 n m (by simp) e1 rfl e2 hA).1
    subst this
    exact ⟨m, S1, S2, e1, e2⟩
  · obtain ⟨n, m, S1, S2, e1, e2, hA⟩ := twice (.sample 2 0) (.sample 2 0) (by simp [Call.args]) (by simp [Call.args]) trivial trivial
      (fun d hd => by simp [IsConst, twoLeaves] at hd) (fun S hS d hd => absurd hd (hS d)) (by simp [PrintedApart, numbersIn])
    have := (c79_same_sample (cs' := []) hr 2 0 n m (fun d hd => by simp [IsConst, twoLeaves] at hd) e1 rfl e2 hA).1
    subst this
    exact ⟨m, S1, S2, e1, e2⟩

/-- A leaf, its norm, the norm clipped, and the leaf clipped. -/
noncomputable def clipped : St :=
  ⟨[.leaf, .op .l2norm [0], .op .l2norm [1], .op (.clipNorm 3) [2, 1], .op (.clipNorm 3) [1, 0]], [.l2norm, .clipNorm 3, .l2norm, .clipNorm 3, .l2norm]⟩

/-- A leaf, its norm and the leaf clipped. -/
noncomputable def clippedOnce : St := ⟨[.leaf, .op .l2norm [0], .op (.clipNorm 3) [1, 0]], [.l2norm, .clipNorm 3]⟩

theorem run_clippedOnce : run fmt [(h, .leaf), (h, .clipNorm 3 0)] St.init = .ok clippedOnce := by
  rw [run, show exec ⟨h, fmt⟩ .leaf St.init = .ok (0, ⟨[.leaf], []⟩) by simp [exec, Call.args, body, push, St.init], Outcome.ok_bind, run,
    exec_body (by simp [Call.args])]
  simp only [body, constData]
  rw [if_pos (by norm_num), ask_get1_fresh listens_leaf]
  simp only [andThen, l2norm, constData, note, List.getElem?_cons_zero]
  rw [ask_get1_fresh listens_leaf]
  rfl

/-- Clipping the norm of the leaf returns the leaf clipped. -/
example : exec ⟨h, oneFmt⟩ (.clipNorm 3 1) clippedOnce = .ok (2, note (.clipNorm 3) clippedOnce) := by
  refine c79_clip_of_norm (h := h) (run_clippedOnce (h := h)) 3 (by norm_num) 1 0 2 rfl rfl ?_ ?_
  · rintro m x hm
    rcases m with _ | _ | _ | m
    all_goals simp [IsOp, clippedOnce] at hm
  · have hh : ∀ o ∈ (note (.clipNorm 3) clippedOnce).asked, o = .l2norm ∨ o = .clipNorm 3 := by
      intro o ho
      simp [note, clippedOnce] at ho
      rcases ho with h | h | h
      · exact .inr h
      · exact .inl h
      · exact .inr h
    constructor
    · intro o ho o' ho' hl
      rcases hh o ho with rfl | rfl <;> rcases hh o' ho' with rfl | rfl
      · rfl
      · exact absurd hl (by unfold Op.label oneFmt; simp)
      · exact absurd hl (by unfold Op.label oneFmt; simp)
      · rfl
    · intro o ho
      rcases hh o ho with rfl | rfl <;> (unfold Op.label oneFmt; simp)

theorem run_clipped : run oneFmt [(h, .leaf), (h, .l2norm 0), (h, .clipNorm 3 1), (h, .clipNorm 3 0)] St.init = .ok clipped := by
  have e1 : exec ⟨h, oneFmt⟩ .leaf St.init = .ok (0, ⟨[.leaf], []⟩) := by simp [exec, Call.args, body, push, St.init]
  have e2 : exec ⟨h, oneFmt⟩ (.l2norm 0) ⟨[.leaf], []⟩ = .ok (1, ⟨[.leaf, .op .l2norm [0]], [.l2norm]⟩) := by
    rw [exec_body (by simp [Call.args])]
    simp only [body, l2norm, constData, List.getElem?_cons_zero]
    rw [ask_get1_fresh listens_leaf]
    rfl
  have e3 : exec ⟨h, oneFmt⟩ (.clipNorm 3 1) ⟨[.leaf, .op .l2norm [0]], [.l2norm]⟩ =
      .ok (3, ⟨[.leaf, .op .l2norm [0], .op .l2norm [1], .op (.clipNorm 3) [2, 1]], [.l2norm, .clipNorm 3, .l2norm]⟩) := by
    have key : ∀ (l : List Char) (as : List Op) (q : Nat), ¬ Listens oneFmt ⟨[.leaf, .op .l2norm [0]], as⟩ 1 l q := by
      rintro l as q ⟨o, args, h, h1, _⟩
      rcases q with _ | _ | q
      · cases h
      · simp at h
        rw [← h.2] at h1
        simp at h1
      · simp at h
    rw [exec_body (by simp [Call.args])]
    simp only [body, constData]
    rw [if_pos (by norm_num), ask_get1_fresh (key _ _)]
    simp only [andThen, l2norm, constData, note, List.getElem?_cons_succ, List.getElem?_cons_zero]
    rw [ask_get1_fresh (key _ _)]
    rfl
  have e4 : exec ⟨h, oneFmt⟩ (.clipNorm 3 0) ⟨[.leaf, .op .l2norm [0], .op .l2norm [1], .op (.clipNorm 3) [2, 1]], [.l2norm, .clipNorm 3, .l2norm]⟩ = .ok (4, clipped) := by
    have key : ∀ (l : List Char) (as : List Op) (q : Nat), Listens oneFmt ⟨[.leaf, .op .l2norm [0], .op .l2norm [1], .op (.clipNorm 3) [2, 1]], as⟩ 0 l q → q = 1 ∧ l = "l2norm".toList := by
      rintro l as q ⟨o, args, h, h1, h2⟩
      rcases q with _ | _ | _ | _ | q
      · cases h
      · simp at h
        rw [← h.1] at h2
        exact ⟨rfl, h2.symm⟩
      · simp at h
        rw [← h.2] at h1
        simp at h1
      · simp at h
        rw [← h.2] at h1
        simp at h1
      · simp at h
    rw [exec_body (by simp [Call.args])]
    simp only [body, constData]
    rw [if_pos (by norm_num), ask_get1_fresh]
    · simp only [andThen, l2norm, constData, note, List.getElem?_cons_zero]
      rw [ask_get1_found (p := 1) ⟨.l2norm, [0], rfl, by simp, rfl⟩ (fun q hq => (key _ _ q hq).1)]
      rfl
    · intro q hq
      have := (key _ _ q hq).2
      revert this
      unfold Op.label oneFmt
      simp
  simp only [run, e1, e2, e3, e4, Outcome.ok_bind]

/-- Which node clipping the norm returns depends on the hash order. -/
example : (∃ S', exec ⟨firstHash 4, oneFmt⟩ (.clipNorm 3 1) clipped = .ok (4, S')) ∧ ∃ S', exec ⟨firstHash 3, oneFmt⟩ (.clipNorm 3 1) clipped = .ok (3, S') :=
  c79_clip_either 3 (by norm_num) 1 0 4 3 2 rfl rfl rfl

/-- The functions the library's own reductions and shape extractions are made with. -/
theorem c79_own_functions : (sumOf = fun x y => x + y) ∧ (maxOf = fun x y => max x y) ∧ argMaxOf = firstMax ∧ (∀ k, axisSize k = sizeAt k) ∧ allSize = sizeAll :=
  ⟨rfl, rfl, argMaxOf_eq, axisSize_eq, allSize_eq⟩

example : firstMax [1, 3, 2, 3] = 1 ∧ sizeAll [2, 3] = .ok [6] ∧ sizeAt 1 [2, 3] = .ok [3] := by
  refine ⟨?_, rfl, rfl⟩
  unfold firstMax
  norm_num [List.findIdx, List.findIdx.go]

end Verif.Props
