import Verif.Lemmas.ExprCalls
/-!
# Sharing of nodes: lemmas for C64
-/
namespace Verif.Expr
open Verif.Spec

variable {fmt : ℝ → List Char}

/-- `m` keeps `P`. -/
def Pres (P : St → Prop) (m : M) : Prop := ∀ S n S', P S → m S = .ok (n, S') → P S'

/-- What all constructions are made of keeps `P`. -/
structure Stable (P : St → Prop) (fmt : ℝ → List Char) : Prop where
  const : ∀ d, Pres P (mkConst d)
  un : ∀ h k a, Pres P (unary ⟨h, fmt⟩ k a)
  bin : ∀ h k a b, Pres P (binary ⟨h, fmt⟩ k a b)

theorem pres_ret {P : St → Prop} (n : Nat) : Pres P (ret n) := by
  intro S m S' hP h; cases h; exact hP

theorem Pres.andThen {P : St → Prop} {x : M} {f : Nat → M} (hx : Pres P x) (hf : ∀ n, Pres P (f n)) : Pres P (andThen x f) := by
  intro S n S' hP h
  obtain ⟨r, h1, h2⟩ := Outcome.bind_eq_ok.mp h
  exact hf r.1 r.2 n S' (hx S r.1 r.2 hP h1) h2

section
variable {P : St → Prop} (st : Stable P fmt) (h : Hash)
include st

theorem Stable.unop (k : K1) (a : Nat) : Pres P (unop ⟨h, fmt⟩ k a) := by
  intro S n S' hP e
  simp only [Expr.unop] at e
  split at e
  · exact st.const _ S n S' hP e
  · exact st.un h k a S n S' hP e

theorem Stable.abs (a : Nat) : Pres P (Expr.abs ⟨h, fmt⟩ a) := by
  intro S n S' hP e
  simp only [Expr.abs] at e
  split at e
  · exact st.const _ S n S' hP e
  · exact st.un h _ a S n S' hP e

theorem Stable.neg (a : Nat) : Pres P (neg ⟨h, fmt⟩ a) := by
  intro S n S' hP e
  simp only [Expr.neg] at e
  split at e
  · exact st.const _ S n S' hP e
  · exact pres_ret _ S n S' hP e
  · exact st.un h _ a S n S' hP e

theorem Stable.pow (a : Nat) (s : ℝ) : Pres P (pow ⟨h, fmt⟩ a s) := by
  intro S n S' hP e
  simp only [Expr.pow] at e
  split at e
  · exact st.const _ S n S' hP e
  · split at e
    · exact pres_ret _ S n S' hP e
    · exact st.unop h _ a S n S' hP e

theorem Stable.clip (a : Nat) (lo hi : ℝ) : Pres P (clip ⟨h, fmt⟩ a lo hi) := by
  unfold Expr.clip
  split
  · exact st.unop h _ a
  · exact st.unop h _ a

theorem Stable.addL (c : ℝ) (b : Nat) : Pres P (addL ⟨h, fmt⟩ c b) := by
  intro S n S' hP e
  simp only [Expr.addL] at e
  split at e
  · exact pres_ret _ S n S' hP e
  · split at e
    · split at e <;> exact st.const _ S n S' hP e
    · exact st.un h _ b S n S' hP e

theorem Stable.addR (a : Nat) (c : ℝ) : Pres P (addR ⟨h, fmt⟩ a c) := by
  intro S n S' hP e
  simp only [Expr.addR] at e
  split at e
  · split at e <;> exact st.const _ S n S' hP e
  · split at e
    · exact pres_ret _ S n S' hP e
    · exact st.un h _ a S n S' hP e

theorem Stable.subL (c : ℝ) (b : Nat) : Pres P (subL ⟨h, fmt⟩ c b) := by
  intro S n S' hP e
  simp only [Expr.subL] at e
  split at e
  · exact st.neg h b S n S' hP e
  · split at e
    · split at e <;> exact st.const _ S n S' hP e
    · exact st.un h _ b S n S' hP e

theorem Stable.subR (a : Nat) (c : ℝ) : Pres P (subR ⟨h, fmt⟩ a c) := by
  intro S n S' hP e
  simp only [Expr.subR] at e
  split at e
  · split at e <;> exact st.const _ S n S' hP e
  · split at e
    · exact pres_ret _ S n S' hP e
    · exact st.un h _ a S n S' hP e

theorem Stable.mulL (c : ℝ) (b : Nat) : Pres P (mulL ⟨h, fmt⟩ c b) := by
  intro S n S' hP e
  simp only [Expr.mulL] at e
  split at e
  · split at e
    · exact st.const _ S n S' hP e
    · split at e <;> exact st.const _ S n S' hP e
  · split at e
    · exact st.const _ S n S' hP e
    · split at e
      · exact pres_ret _ S n S' hP e
      · split at e
        · exact st.neg h b S n S' hP e
        · exact st.un h _ b S n S' hP e

theorem Stable.mulR (a : Nat) (c : ℝ) : Pres P (mulR ⟨h, fmt⟩ a c) := by
  intro S n S' hP e
  simp only [Expr.mulR] at e
  split at e
  · split at e
    · exact st.const _ S n S' hP e
    · split at e <;> exact st.const _ S n S' hP e
  · split at e
    · exact st.const _ S n S' hP e
    · split at e
      · exact pres_ret _ S n S' hP e
      · split at e
        · exact st.neg h a S n S' hP e
        · exact st.un h _ a S n S' hP e

theorem Stable.divL (c : ℝ) (b : Nat) : Pres P (divL ⟨h, fmt⟩ c b) := by
  intro S n S' hP e
  simp only [Expr.divL] at e
  split at e
  · split at e
    · cases e
    · split at e <;> exact st.const _ S n S' hP e
  · split at e
    · exact st.const _ S n S' hP e
    · exact st.un h _ b S n S' hP e

theorem Stable.divR (a : Nat) (c : ℝ) : Pres P (divR ⟨h, fmt⟩ a c) := by
  intro S n S' hP e
  simp only [Expr.divR] at e
  split at e
  · split at e <;> exact st.const _ S n S' hP e
  · split at e
    · cases e
    · split at e
      · exact pres_ret _ S n S' hP e
      · exact st.un h _ a S n S' hP e

theorem Stable.add (a b : Nat) : Pres P (add ⟨h, fmt⟩ a b) := by
  intro S n S' hP e
  simp only [Expr.add] at e
  split at e
  · split at e
    · exact pres_ret _ S n S' hP e
    · exact st.addL h _ b S n S' hP e
  · split at e
    · exact pres_ret _ S n S' hP e
    · exact st.addR h a _ S n S' hP e
  · exact st.bin h _ a b S n S' hP e

theorem Stable.sub (a b : Nat) : Pres P (sub ⟨h, fmt⟩ a b) := by
  intro S n S' hP e
  simp only [Expr.sub] at e
  split at e
  · exact st.const _ S n S' hP e
  · split at e
    · split at e
      · exact st.neg h b S n S' hP e
      · exact st.subL h _ b S n S' hP e
    · split at e
      · exact pres_ret _ S n S' hP e
      · exact st.subR h a _ S n S' hP e
    · exact st.bin h _ a b S n S' hP e

theorem Stable.mul (a b : Nat) : Pres P (mul ⟨h, fmt⟩ a b) := by
  intro S n S' hP e
  simp only [Expr.mul] at e
  split at e
  · exact st.pow h a 2 S n S' hP e
  · split at e
    · split at e
      · exact st.const _ S n S' hP e
      · exact st.mulL h _ b S n S' hP e
    · split at e
      · exact st.const _ S n S' hP e
      · exact st.mulR h a _ S n S' hP e
    · exact st.bin h _ a b S n S' hP e

theorem Stable.div (a b : Nat) : Pres P (div ⟨h, fmt⟩ a b) := by
  intro S n S' hP e
  simp only [Expr.div] at e
  split at e
  · exact st.const _ S n S' hP e
  · split at e
    · split at e
      · exact st.const _ S n S' hP e
      · exact st.divL h _ b S n S' hP e
    · split at e
      · cases e
      · exact st.divR h a _ S n S' hP e
    · exact st.bin h _ a b S n S' hP e

theorem Stable.cond (name : List Char) (cmp : ℝ → ℝ → Bool) (a b : Nat) : Pres P (Expr.cond ⟨h, fmt⟩ name cmp a b) := by
  intro S n S' hP e
  simp only [Expr.cond] at e
  split at e
  · exact st.unop h _ b S n S' hP e
  · exact st.unop h _ a S n S' hP e
  · exact st.bin h _ a b S n S' hP e

theorem Stable.ginit1 (k : K1) (a g : Nat) : Pres P (ginit1 ⟨h, fmt⟩ k a g) := by
  cases k <;> simp only [Expr.ginit1]
  case ident => exact pres_ret _
  case neg => exact st.neg h _
  case abs => exact st.abs h _
  case sin => exact (st.unop h _ _).andThen fun _ => st.mul h _ _
  case cos => exact (st.neg h _).andThen fun _ => (st.unop h _ _).andThen fun _ => st.mul h _ _
  case tan => exact (st.unop h _ _).andThen fun _ => (st.mul h _ _).andThen fun _ => st.div h _ _
  case csc => exact (st.neg h _).andThen fun _ => (st.unop h _ _).andThen fun _ => (st.unop h _ _).andThen fun _ => (st.mul h _ _).andThen fun _ => st.div h _ _
  case sec => exact (st.unop h _ _).andThen fun _ => (st.mul h _ _).andThen fun _ => (st.unop h _ _).andThen fun _ => st.div h _ _
  case cot => exact (st.unop h _ _).andThen fun _ => (st.neg h _).andThen fun _ => (st.mul h _ _).andThen fun _ => st.mul h _ _
  case exp => exact (st.unop h _ _).andThen fun _ => st.mul h _ _
  case sqrt => exact (st.unop h _ _).andThen fun _ => (st.mulL h _ _).andThen fun _ => st.div h _ _
  case round => exact st.unop h _ _
  case log => exact st.div h _ _
  case pow => exact (st.mulL h _ _).andThen fun _ => (st.pow h _ _).andThen fun _ => st.mul h _ _
  case clip => exact (st.clip h _ _ _).andThen fun _ => st.mul h _ _
  case addL => exact pres_ret _
  case addR => exact pres_ret _
  case subL => exact st.neg h _
  case subR => exact pres_ret _
  case mulL => exact st.mulL h _ _
  case mulR => exact st.mulL h _ _
  case divL => exact (st.mulL h _ _).andThen fun _ => (st.mul h _ _).andThen fun _ => st.div h _ _
  case divR => exact st.divR h _ _
  case condL => exact st.unop h _ _
  case condR => exact st.unop h _ _

theorem Stable.ginit2 (k : K2) (a b ga gb : Nat) : Pres P (ginit2 ⟨h, fmt⟩ k a b ga gb) := by
  cases k <;> simp only [Expr.ginit2]
  case add => exact st.add h _ _
  case sub => exact st.sub h _ _
  case mul => exact (st.mul h _ _).andThen fun _ => (st.mul h _ _).andThen fun _ => st.add h _ _
  case div => exact (st.mul h _ _).andThen fun _ => (st.mul h _ _).andThen fun _ => (st.sub h _ _).andThen fun _ => (st.mul h _ _).andThen fun _ => st.div h _ _
  case cond => exact st.cond h _ _ _ _

theorem Stable.callUn (k : K1) (a : Nat) : Pres P (callUn ⟨h, fmt⟩ k a) := by
  cases k <;> simp only [Expr.callUn]
  case ident => exact st.un h _ _
  case neg => exact st.neg h _
  case abs => exact st.abs h _
  case pow => exact st.pow h _ _
  case clip => exact st.clip h _ _ _
  case addL => exact st.addL h _ _
  case addR => exact st.addR h _ _
  case subL => exact st.subL h _ _
  case subR => exact st.subR h _ _
  case mulL => exact st.mulL h _ _
  case mulR => exact st.mulR h _ _
  case divL => exact st.divL h _ _
  case divR => exact st.divR h _ _
  all_goals exact st.unop h _ _

theorem Stable.callBin (k : K2) (a b : Nat) : Pres P (callBin ⟨h, fmt⟩ k a b) := by
  cases k <;> simp only [Expr.callBin]
  case add => exact st.add h _ _
  case sub => exact st.sub h _ _
  case mul => exact st.mul h _ _
  case div => exact st.div h _ _
  case cond => exact st.cond h _ _ _ _

theorem Stable.gradient (hc : ∀ n x d S, P S → P (setCache n x d S)) (x : Nat) : ∀ fuel n, Pres P (gradient ⟨h, fmt⟩ x fuel n) := by
  intro fuel
  induction fuel with
  | zero => intro n S m S' _ e; cases e
  | succ fuel ih =>
    intro n S m S' hP e
    simp only [Expr.gradient] at e
    split at e
    · split at e <;> exact pres_ret _ S m S' hP e
    · exact pres_ret _ S m S' hP e
    · split at e
      · split at e
        · exact pres_ret _ S m S' hP e
        · obtain ⟨g, e1, e⟩ := Outcome.bind_eq_ok.mp e
          obtain ⟨r, e2, e⟩ := Outcome.bind_eq_ok.mp e
          injection e with e; injection e with e3 e4; subst e4
          exact hc _ _ _ _ (st.ginit1 h _ _ _ _ _ _ (ih _ S g.1 g.2 hP e1) e2)
      · exact pres_ret _ S m S' hP e
    · split at e
      · split at e
        · exact pres_ret _ S m S' hP e
        · obtain ⟨ga, e1, e⟩ := Outcome.bind_eq_ok.mp e
          obtain ⟨gb, e2, e⟩ := Outcome.bind_eq_ok.mp e
          obtain ⟨r, e3, e⟩ := Outcome.bind_eq_ok.mp e
          injection e with e; injection e with e4 e5; subst e5
          exact hc _ _ _ _ (st.ginit2 h _ _ _ _ _ _ _ _ (ih _ _ _ _ (ih _ S ga.1 ga.2 hP e1) e2) e3)
      · exact pres_ret _ S m S' hP e
    · cases e

theorem Stable.exec (hc : ∀ n x d S, P S → P (setCache n x d S)) (hl : ∀ tr, Pres P (push (.leaf tr))) (c : Call) : Pres P (exec ⟨h, fmt⟩ c) := by
  intro S n S' hP e
  unfold Expr.exec at e
  split at e
  · cases c with
    | leaf tr => exact hl tr S n S' hP e
    | const d =>
      simp only at e
      split at e
      · cases e
      · exact st.const d S n S' hP e
    | un k a => exact st.callUn h k a S n S' hP e
    | bin k a b => exact st.callBin h k a b S n S' hP e
    | derive m x =>
      simp only at e
      split at e
      · exact st.gradient h hc x _ _ S n S' hP e
      · split at e <;> exact pres_ret _ S n S' hP e
      · exact pres_ret _ S n S' hP e
      · split at e
        · exact pres_ret _ S n S' hP e
        · cases e
  · cases e

end

/-! ### No two nodes with the same name and arguments -/

/-- Operation nodes are determined by their name and arguments, up to order for sums and products. -/
def Uniq (fmt : ℝ → List Char) (S : St) : Prop :=
  ∀ (p q : Nat) (nd nd' : Node), S.nodes[p]? = some nd → S.nodes[q]? = some nd' → nd.args ≠ [] →
    nd.label fmt = nd'.label fmt → (nd.args = nd'.args ∨ ((nd.label fmt = some K2.add.label ∨ nd.label fmt = some K2.mul.label) ∧ nd.args = nd'.args.reverse)) → p = q

theorem mem_audience_iff {env : Env} {S : St} {a : Nat} {l : List Char} {p : Nat} : p ∈ audience env S a l ↔
    ∃ nd, S.nodes[p]? = some nd ∧ a ∈ nd.args ∧ nd.label env.fmt = some l := by
  refine ⟨mem_audience, fun h => ?_⟩
  unfold audience
  rw [(env.ord_perm _ _).mem_iff, List.mem_filter, List.mem_range]
  obtain ⟨nd, h1, h2⟩ := h
  exact ⟨(List.getElem?_eq_some_iff.mp h1).1, decide_eq_true ⟨nd, h1, h2⟩⟩

theorem label_some {nd : Node} (h : nd.args ≠ []) : ∃ l, nd.label fmt = some l := by
  cases nd with
  | leaf => exact absurd rfl h
  | const => exact absurd rfl h
  | un k a => exact ⟨_, rfl⟩
  | bin k a b => exact ⟨_, rfl⟩

/-- Pushing a node that is new keeps `Uniq`. -/
theorem uniq_push {S : St} {a1 : List K1} {a2 : List K2} (hU : Uniq fmt S) (nd : Node)
    (hn : nd.args ≠ [] → ∀ (q : Nat) (nd' : Node), S.nodes[q]? = some nd' → nd.label fmt = nd'.label fmt →
      ¬ (nd.args = nd'.args ∨ ((nd.label fmt = some K2.add.label ∨ nd.label fmt = some K2.mul.label) ∧ nd.args = nd'.args.reverse))) :
    Uniq fmt { S with nodes := S.nodes ++ [nd], asked1 := a1, asked2 := a2 } := by
  intro p q x y hp hq ha hl hx
  rcases getElem?_snoc hp with hp | ⟨rfl, rfl⟩ <;> rcases getElem?_snoc hq with hq | ⟨rfl, rfl⟩
  · exact hU p q x y hp hq ha hl hx
  · exfalso
    have hne : nd.args ≠ [] := by
      rcases hx with h | ⟨_, h⟩
      · rwa [← h]
      · intro h0; rw [h0] at h; exact ha h
    refine hn hne p x hp hl.symm ?_
    rcases hx with h | ⟨h, h'⟩
    · exact .inl h.symm
    · exact .inr ⟨by rwa [← hl], by rw [h', List.reverse_reverse]⟩
  · exact absurd hx (hn ha q y hq hl)
  · rfl

theorem uniq_stable : Stable (Uniq fmt) fmt where
  const := by
    intro d S n S' hU e
    cases e
    exact uniq_push hU _ fun h => absurd rfl h
  un := by
    intro h k a S n S' hU e
    unfold unary at e
    split at e
    · cases e; exact hU
    · rename_i hh
      cases e
      rw [List.head?_eq_none_iff] at hh
      refine uniq_push hU _ fun _ q nd' hq hl hx => ?_
      have : a ∈ nd'.args := by
        rcases hx with h' | ⟨_, h'⟩
        · rw [← h']; simp [Node.args]
        · have := congrArg List.reverse h'
          rw [List.reverse_reverse] at this
          rw [← this]; simp [Node.args]
      have hm := (mem_audience_iff (env := ⟨h, fmt⟩) (l := k.label fmt)).2 ⟨nd', hq, this, hl.symm⟩
      rw [hh] at hm; cases hm
  bin := by
    intro h k a b S n S' hU e
    unfold binary at e
    split at e
    · cases e; exact hU
    · rename_i hh
      cases e
      rw [List.find?_eq_none] at hh
      refine uniq_push hU _ fun _ q nd' hq hl hx => ?_
      have key : (nd'.args = [a, b] ∨ k.unordered = true ∧ nd'.args = [b, a]) := by
        rcases hx with h' | ⟨h', h''⟩
        · exact .inl h'.symm
        · refine .inr ⟨?_, ?_⟩
          · cases k with
            | add => rfl
            | mul => rfl
            | sub => simp [Node.label, K2.label, K2.parts] at h'
            | div => simp [Node.label, K2.label, K2.parts] at h'
            | cond name cmp =>
              rcases h' with h' | h' <;> simp [Node.label, K2.label, K2.parts, List.intercalate] at h'
          · have := congrArg List.reverse h''
            rw [List.reverse_reverse] at this
            rw [← this]; rfl
      have ham : a ∈ nd'.args := by rcases key with h' | ⟨_, h'⟩ <;> rw [h'] <;> simp
      have hm := (mem_audience_iff (env := ⟨h, fmt⟩) (l := k.label)).2 ⟨nd', hq, ham, hl.symm⟩
      refine hh q hm ?_
      simp only [argsMatch, hq, Bool.or_eq_true, decide_eq_true_eq, Bool.and_eq_true]
      exact key

theorem uniq_run {cs : List (Hash × Call)} {S S' : St} (hU : Uniq fmt S) (hr : run fmt cs S = .ok S') : Uniq fmt S' := by
  induction cs generalizing S with
  | nil => cases hr; exact hU
  | cons c cs ih =>
    obtain ⟨⟨n, S1⟩, h1, h2⟩ := Outcome.bind_eq_ok.mp hr
    refine ih (uniq_stable.exec c.1 (fun n x d S h => h) (fun tr S n S' h e => ?_) c.2 S n S1 hU h1) h2
    cases e
    exact uniq_push h _ fun h => absurd rfl h

theorem uniq_init : Uniq fmt St.init := by
  intro p q nd nd' hp _ ha
  match p, hp with
  | 0, hp => simp [St.init] at hp; subst hp; exact absurd rfl ha
  | 1, hp => simp [St.init] at hp; subst hp; exact absurd rfl ha
  | p + 2, hp => simp [St.init] at hp

/-! ### Asking again -/

/-- What asking a second time gives: a new constant, when the first answer was that constant; otherwise nothing new, and
(if no names clash) the first answer. -/
def Same (fmt : ℝ → List Char) (S1 : St) (n : Nat) (S2 : St) (m : Nat) (S3 : St) : Prop :=
  (∃ d, S1.nodes[n]? = some (.const d) ∧ S3.nodes = S2.nodes ++ [.const d] ∧ m = S2.nodes.length) ∨
  (S3.nodes = S2.nodes ∧ (NoClash fmt S3 → m = n))

/-- Two constructions are the same at `S` and later. -/
def Again (fmt : ℝ → List Char) (S : St) (op op' : Env → M) : Prop :=
  ∀ h h' n S1 S2 m S3, op ⟨h, fmt⟩ S = .ok (n, S1) → Ext S1 S2 → Ext S S2 → Inv True fmt S2 → Uniq fmt S2 →
    op' ⟨h', fmt⟩ S2 = .ok (m, S3) → Same fmt S1 n S2 m S3

theorem again_const {S : St} (d : List ℝ) : Again fmt S (fun _ => mkConst d) (fun _ => mkConst d) := by
  intro h h' n S1 S2 m S3 e1 x1 x0 I U e2
  cases e1; cases e2
  exact .inl ⟨d, by simp, rfl, rfl⟩

theorem again_ret {S : St} (a : Nat) : Again fmt S (fun _ => ret a) (fun _ => ret a) := by
  intro h h' n S1 S2 m S3 e1 x1 x0 I U e2
  cases e1; cases e2
  exact .inr ⟨rfl, fun _ => rfl⟩

theorem again_unary {S : St} (k : K1) (a : Nat) : Again fmt S (fun env => unary env k a) (fun env => unary env k a) := by
  intro h h' n S1 S2 m S3 e1 x1 x0 I U e2
  -- the first answer
  have f1 : ∃ nd, S1.nodes[n]? = some nd ∧ a ∈ nd.args ∧ nd.label fmt = some (k.label fmt) := by
    simp only [unary] at e1
    split at e1
    · rename_i hh
      cases e1
      exact mem_audience (env := ⟨h, fmt⟩) (S := S) (List.mem_of_mem_head? (by rw [hh]; rfl))
    · cases e1
      exact ⟨.un k a, by simp, by simp [Node.args], rfl⟩
  obtain ⟨nd, g1, g2, g3⟩ := f1
  have g1 := x1.node g1
  simp only [unary] at e2
  split at e2
  · rename_i hh
    cases e2
    refine .inr ⟨rfl, fun c => ?_⟩
    obtain ⟨nd', k1, k2, k3⟩ := mem_audience (env := ⟨h', fmt⟩) (List.mem_of_mem_head? (by rw [hh]; rfl))
    have shape : ∀ (p : Nat) (nd : Node), S2.nodes[p]? = some nd → a ∈ nd.args → nd.label fmt = some (k.label fmt) → nd = .un k a := by
      intro p nd h1 h2 h3
      cases nd with
      | leaf => cases h3
      | const => cases h3
      | un k' a' =>
        simp only [Node.label, Option.some.injEq] at h3
        simp only [Node.args, List.mem_singleton] at h2
        rw [c.un k' (List.mem_cons_of_mem _ (I.ask1 p k' a' h1)) k List.mem_cons_self h3, h2]
      | bin k' a' b' =>
        simp only [Node.label, Option.some.injEq] at h3
        exact absurd h3.symm (c.mixed k List.mem_cons_self k' (I.ask2 p k' a' b' h1))
    have s1 := shape _ _ g1 g2 g3
    have s2 := shape _ _ k1 k2 k3
    subst s1 s2
    exact U _ _ _ _ k1 g1 (by simp [Node.args]) rfl (.inl rfl)
  · rename_i hh
    rw [List.head?_eq_none_iff] at hh
    have hm := (mem_audience_iff (env := ⟨h', fmt⟩) (l := k.label fmt)).2 ⟨nd, g1, g2, g3⟩
    rw [hh] at hm; cases hm

theorem unordered_label {k : K2} (h : k.unordered = true) (fmt : ℝ → List Char) (a b : Nat) :
    (Node.bin k a b).label fmt = some K2.add.label ∨ (Node.bin k a b).label fmt = some K2.mul.label := by
  cases k <;> simp [K2.unordered] at h
  · exact .inl rfl
  · exact .inr rfl

/-- The same operation on the same arguments, in either order for sums and products. -/
theorem again_binary {S : St} (k : K2) (a b a' b' : Nat) (hab : (a' = a ∧ b' = b) ∨ (k.unordered = true ∧ a' = b ∧ b' = a)) :
    Again fmt S (fun env => binary env k a b) (fun env => binary env k a' b') := by
  intro h h' n S1 S2 m S3 e1 x1 x0 I U e2
  have f1 : ∃ nd, S1.nodes[n]? = some nd ∧ nd.label fmt = some k.label ∧ (nd.args = [a, b] ∨ k.unordered = true ∧ nd.args = [b, a]) := by
    simp only [binary] at e1
    split at e1
    · rename_i p hh
      cases e1
      obtain ⟨nd, k1, k2, k3⟩ := mem_audience (env := ⟨h, fmt⟩) (S := S) (List.mem_of_find?_eq_some hh)
      refine ⟨nd, k1, k3, ?_⟩
      have hm := List.find?_some hh
      simpa only [argsMatch, k1, Bool.or_eq_true, decide_eq_true_eq, Bool.and_eq_true] using hm
    · cases e1
      exact ⟨.bin k a b, by simp, rfl, .inl rfl⟩
  obtain ⟨nd, g1, g2, g3⟩ := f1
  have g1 := x1.node g1
  have g3' : nd.args = [a', b'] ∨ k.unordered = true ∧ nd.args = [b', a'] := by
    rcases hab with ⟨rfl, rfl⟩ | ⟨hu, rfl, rfl⟩
    · exact g3
    · rcases g3 with g | ⟨_, g⟩
      · exact .inr ⟨hu, g⟩
      · exact .inl g
  simp only [binary] at e2
  split at e2
  · rename_i p hh
    cases e2
    refine .inr ⟨rfl, fun c => ?_⟩
    obtain ⟨nd', k1, k2, k3⟩ := mem_audience (env := ⟨h', fmt⟩) (List.mem_of_find?_eq_some hh)
    have hm := List.find?_some hh
    simp only [argsMatch, k1, Bool.or_eq_true, decide_eq_true_eq, Bool.and_eq_true] at hm
    have ne : nd'.args ≠ [] := by rcases hm with h | ⟨_, h⟩ <;> rw [h] <;> simp
    refine U _ _ _ _ k1 g1 ne (k3.trans g2.symm) ?_
    have hlab : k.unordered = true → nd'.label fmt = some K2.add.label ∨ nd'.label fmt = some K2.mul.label := by
      intro hu; have := unordered_label hu fmt a b; rw [k3]; exact this
    rcases hm with h1 | ⟨hu, h1⟩ <;> rcases g3' with h2 | ⟨hu', h2⟩
    · exact .inl (h1.trans h2.symm)
    · exact .inr ⟨hlab hu', by rw [h1, h2]; rfl⟩
    · exact .inr ⟨hlab hu, by rw [h1, h2]; rfl⟩
    · exact .inl (h1.trans h2.symm)
  · rename_i hh
    rw [List.find?_eq_none] at hh
    have ham : a' ∈ nd.args := by rcases g3' with h | ⟨_, h⟩ <;> rw [h] <;> simp
    have hm := (mem_audience_iff (env := ⟨h', fmt⟩) (l := k.label)).2 ⟨nd, g1, ham, g2⟩
    refine absurd ?_ (hh _ hm)
    simp only [argsMatch, g1, Bool.or_eq_true, decide_eq_true_eq, Bool.and_eq_true]
    exact g3'

/-- Case analysis that does not change later. -/
theorem Again.of_eq {S : St} {op op' : Env → M} {f g : Env → M} (h1 : ∀ env, op env S = f env S)
    (h2 : ∀ env S', Ext S S' → op' env S' = g env S') (h : Again fmt S f g) : Again fmt S op op' := by
  intro h' h'' n S1 S2 m S3 e1 x1 x0 I U e2
  rw [h1] at e1
  rw [h2 _ _ x0] at e2
  exact h h' h'' n S1 S2 m S3 e1 x1 x0 I U e2

theorem again_fail {S : St} {op op' : Env → M} (h : ∀ env n S1, op env S ≠ .ok (n, S1)) : Again fmt S op op' := by
  intro h' h'' n S1 S2 m S3 e1
  exact absurd e1 (h _ _ _)

section
variable {S : St}

theorem again_unop (k : K1) (a : Nat) (ha : a < S.nodes.length) : Again fmt S (fun env => unop env k a) (fun env => unop env k a) := by
  cases hc : constData S a with
  | some d => exact .of_eq (fun env => by simp only [unop, hc]) (fun env S' x => by simp only [unop, constData_ext x ha, hc]) (again_const (d.map k.fn))
  | none => exact .of_eq (fun env => by simp only [unop, hc]) (fun env S' x => by simp only [unop, constData_ext x ha, hc]) (again_unary k a)

theorem again_abs (a : Nat) (ha : a < S.nodes.length) : Again fmt S (fun env => abs env a) (fun env => abs env a) := by
  cases hc : constData S a with
  | some d => exact .of_eq (fun env => by simp only [abs, hc]) (fun env S' x => by simp only [abs, constData_ext x ha, hc]) (again_const (d.map (fun x => |x|)))
  | none => exact .of_eq (fun env => by simp only [abs, hc]) (fun env S' x => by simp only [abs, constData_ext x ha, hc]) (again_unary .abs a)

/-- What `neg` does with a node. -/
noncomputable def negOf (env : Env) (a : Nat) : Node → M
  | .const d => mkConst (d.map (fun x => -x))
  | .un .neg c => ret c
  | _ => unary env .neg a

theorem neg_eq {env : Env} {S : St} {a : Nat} {nd : Node} (h : S.nodes[a]? = some nd) : neg env a S = negOf env a nd S := by
  unfold neg negOf
  rw [h]
  cases nd with
  | un k c => cases k <;> rfl
  | _ => rfl

theorem again_neg (a : Nat) (ha : a < S.nodes.length) : Again fmt S (fun env => neg env a) (fun env => neg env a) := by
  obtain ⟨nd, hn⟩ : ∃ nd, S.nodes[a]? = some nd := ⟨_, List.getElem?_eq_getElem ha⟩
  refine .of_eq (fun env => neg_eq hn) (fun env S' x => neg_eq (x.node hn)) ?_
  cases nd with
  | leaf => exact again_unary _ a
  | const d => exact again_const _
  | bin => exact again_unary _ a
  | un k c =>
    cases k
    case neg => exact again_ret c
    all_goals exact again_unary _ a

theorem again_pow (a : Nat) (s : ℝ) (ha : a < S.nodes.length) : Again fmt S (fun env => pow env a s) (fun env => pow env a s) := by
  by_cases h0 : s = 0
  · exact .of_eq (fun env => by simp only [pow, if_pos h0]) (fun env S' x => by simp only [pow, if_pos h0]) (again_const ([1]))
  · by_cases h1 : s = 1
    · exact .of_eq (fun env => by simp only [pow, if_neg h0, if_pos h1]) (fun env S' x => by simp only [pow, if_neg h0, if_pos h1]) (again_ret a)
    · exact .of_eq (fun env => by simp only [pow, if_neg h0, if_neg h1]) (fun env S' x => by simp only [pow, if_neg h0, if_neg h1]) (again_unop (.pow s) a ha)

theorem again_clip (a : Nat) (lo hi : ℝ) (ha : a < S.nodes.length) : Again fmt S (fun env => clip env a lo hi) (fun env => clip env a lo hi) := by
  by_cases h0 : lo > hi
  · exact .of_eq (fun env => by simp only [clip, if_pos h0]) (fun env S' x => by simp only [clip, if_pos h0]) (again_unop (.clip hi lo) a ha)
  · exact .of_eq (fun env => by simp only [clip, if_neg h0]) (fun env S' x => by simp only [clip, if_neg h0]) (again_unop (.clip lo hi) a ha)

/-- Evaluate a construction at `S` and at every later state, given what is known of `a`. -/
macro "again_step" f:ident "[" ls:Lean.Parser.Tactic.simpLemma,* "]" ha:term "," hc:term "," g:term : tactic =>
  `(tactic| exact Again.of_eq (fun env => by simp only [$f:ident, $hc:term, $ls,*])
      (fun env S' x => by simp only [$f:ident, constData_ext x $ha, $hc:term, $ls,*]) $g)

theorem again_addL (c : ℝ) (b : Nat) (hb : b < S.nodes.length) : Again fmt S (fun env => addL env c b) (fun env => addL env c b) := by
  by_cases h0 : c = 0
  · exact .of_eq (fun env => by simp only [addL, if_pos h0]) (fun env S' x => by simp only [addL, if_pos h0]) (again_ret b)
  · cases hc : constData S b with
    | some d =>
      by_cases h1 : d = [0]
      · again_step addL [if_neg h0, if_pos h1] hb, hc, (again_const ([c]))
      · again_step addL [if_neg h0, if_neg h1] hb, hc, (again_const (d.map (fun x => c + x)))
    | none => again_step addL [if_neg h0] hb, hc, (again_unary (.addL c) b)

theorem again_addR (a : Nat) (c : ℝ) (ha : a < S.nodes.length) : Again fmt S (fun env => addR env a c) (fun env => addR env a c) := by
  cases hc : constData S a with
  | some d =>
    by_cases h1 : d = [0]
    · again_step addR [if_pos h1] ha, hc, (again_const ([c]))
    · again_step addR [if_neg h1] ha, hc, (again_const (d.map (fun x => x + c)))
  | none =>
    by_cases h0 : c = 0
    · again_step addR [if_pos h0] ha, hc, (again_ret a)
    · again_step addR [if_neg h0] ha, hc, (again_unary (.addR c) a)

theorem again_subL (c : ℝ) (b : Nat) (hb : b < S.nodes.length) : Again fmt S (fun env => subL env c b) (fun env => subL env c b) := by
  by_cases h0 : c = 0
  · exact .of_eq (fun env => by simp only [subL, if_pos h0]) (fun env S' x => by simp only [subL, if_pos h0]) (again_neg b hb)
  · cases hc : constData S b with
    | some d =>
      by_cases h1 : d = [0]
      · again_step subL [if_neg h0, if_pos h1] hb, hc, (again_const ([c]))
      · again_step subL [if_neg h0, if_neg h1] hb, hc, (again_const (d.map (fun x => c - x)))
    | none => again_step subL [if_neg h0] hb, hc, (again_unary (.subL c) b)

theorem again_subR (a : Nat) (c : ℝ) (ha : a < S.nodes.length) : Again fmt S (fun env => subR env a c) (fun env => subR env a c) := by
  cases hc : constData S a with
  | some d =>
    by_cases h1 : d = [0]
    · again_step subR [if_pos h1] ha, hc, (again_const ([-c]))
    · again_step subR [if_neg h1] ha, hc, (again_const (d.map (fun x => x - c)))
  | none =>
    by_cases h0 : c = 0
    · again_step subR [if_pos h0] ha, hc, (again_ret a)
    · again_step subR [if_neg h0] ha, hc, (again_unary (.subR c) a)

theorem again_mulL (c : ℝ) (b : Nat) (hb : b < S.nodes.length) : Again fmt S (fun env => mulL env c b) (fun env => mulL env c b) := by
  cases hc : constData S b with
  | some d =>
    by_cases h0 : d = [0] ∨ 0 = c
    · again_step mulL [if_pos h0] hb, hc, (again_const ([0]))
    · by_cases h1 : d = [1]
      · again_step mulL [if_neg h0, if_pos h1] hb, hc, (again_const ([c]))
      · again_step mulL [if_neg h0, if_neg h1] hb, hc, (again_const (d.map (fun x => c * x)))
  | none =>
    by_cases h0 : 0 = c
    · again_step mulL [if_pos h0] hb, hc, (again_const ([0]))
    · by_cases h1 : 1 = c
      · again_step mulL [if_neg h0, if_pos h1] hb, hc, (again_ret b)
      · by_cases h2 : -1 = c
        · again_step mulL [if_neg h0, if_neg h1, if_pos h2] hb, hc, (again_neg b hb)
        · again_step mulL [if_neg h0, if_neg h1, if_neg h2] hb, hc, (again_unary (.mulL c) b)

theorem again_mulR (a : Nat) (c : ℝ) (ha : a < S.nodes.length) : Again fmt S (fun env => mulR env a c) (fun env => mulR env a c) := by
  cases hc : constData S a with
  | some d =>
    by_cases h0 : d = [0] ∨ 0 = c
    · again_step mulR [if_pos h0] ha, hc, (again_const ([0]))
    · by_cases h1 : d = [1]
      · again_step mulR [if_neg h0, if_pos h1] ha, hc, (again_const ([c]))
      · again_step mulR [if_neg h0, if_neg h1] ha, hc, (again_const (d.map (fun x => x * c)))
  | none =>
    by_cases h0 : 0 = c
    · again_step mulR [if_pos h0] ha, hc, (again_const ([0]))
    · by_cases h1 : 1 = c
      · again_step mulR [if_neg h0, if_pos h1] ha, hc, (again_ret a)
      · by_cases h2 : -1 = c
        · again_step mulR [if_neg h0, if_neg h1, if_pos h2] ha, hc, (again_neg a ha)
        · again_step mulR [if_neg h0, if_neg h1, if_neg h2] ha, hc, (again_unary (.mulR c) a)

theorem again_divL (c : ℝ) (b : Nat) (hb : b < S.nodes.length) : Again fmt S (fun env => divL env c b) (fun env => divL env c b) := by
  cases hc : constData S b with
  | some d =>
    by_cases h0 : d = [0]
    · refine again_fail fun env n S1 e => ?_
      simp only [divL, hc, if_pos h0] at e; cases e
    · by_cases h1 : d = [1]
      · again_step divL [if_neg h0, if_pos h1] hb, hc, (again_const ([c]))
      · again_step divL [if_neg h0, if_neg h1] hb, hc, (again_const (d.map (fun x => c / x)))
  | none =>
    by_cases h0 : c = 0
    · again_step divL [if_pos h0] hb, hc, (again_const ([0]))
    · again_step divL [if_neg h0] hb, hc, (again_unary (.divL c) b)

theorem again_divR (a : Nat) (c : ℝ) (ha : a < S.nodes.length) : Again fmt S (fun env => divR env a c) (fun env => divR env a c) := by
  cases hc : constData S a with
  | some d =>
    by_cases h0 : d = [0]
    · again_step divR [if_pos h0] ha, hc, (again_const ([0]))
    · again_step divR [if_neg h0] ha, hc, (again_const (d.map (fun x => x / c)))
  | none =>
    by_cases h0 : c = 0
    · refine again_fail fun env n S1 e => ?_
      simp only [divR, hc, if_pos h0] at e; cases e
    · by_cases h1 : c = 1
      · again_step divR [if_neg h0, if_pos h1] ha, hc, (again_ret a)
      · again_step divR [if_neg h0, if_neg h1] ha, hc, (again_unary (.divR c) a)

theorem again_callUn (k : K1) (a : Nat) (ha : a < S.nodes.length) : Again fmt S (fun env => callUn env k a) (fun env => callUn env k a) := by
  cases k <;> simp only [callUn]
  case ident => exact again_unary _ a
  case neg => exact again_neg a ha
  case abs => exact again_abs a ha
  case pow => exact again_pow a _ ha
  case clip => exact again_clip a _ _ ha
  case addL => exact again_addL _ a ha
  case addR => exact again_addR a _ ha
  case subL => exact again_subL _ a ha
  case subR => exact again_subR a _ ha
  case mulL => exact again_mulL _ a ha
  case mulR => exact again_mulR a _ ha
  case divL => exact again_divL _ a ha
  case divR => exact again_divR a _ ha
  all_goals exact again_unop _ a ha

/-- Picking by constants, later as now. -/
theorem again_pick {op : Env → M} {f g : ℝ → Env → M} {k : Env → M} (a b : Nat) (ha : a < S.nodes.length) (hb : b < S.nodes.length)
    (hop : ∀ env S', op env S' = pick (fun x => f x env S') (fun y => g y env S') (k env S') (constData S' a) (constData S' b))
    (hf : ∀ x, Again fmt S (f x) (f x)) (hg : ∀ y, Again fmt S (g y) (g y)) (hk : Again fmt S k k) : Again fmt S op op := by
  rcases const_cases S a b with ⟨x, h⟩ | ⟨h, y, h'⟩ | ⟨h, h'⟩
  · exact .of_eq (fun env => by rw [hop, h, pick_left]) (fun env S' e => by rw [hop, constData_ext e ha, h, pick_left]) (hf x)
  · exact .of_eq (fun env => by rw [hop, h', pick_right _ _ _ h]) (fun env S' e => by rw [hop, constData_ext e ha, constData_ext e hb, h', pick_right _ _ _ h]) (hg y)
  · exact .of_eq (fun env => by rw [hop, pick_none _ _ _ h h']) (fun env S' e => by rw [hop, constData_ext e ha, constData_ext e hb, pick_none _ _ _ h h']) hk

/-- `if` on something that does not change. -/
theorem again_ite {op op' f f' g g' : Env → M} (p : Prop) [Decidable p] (h1 : ∀ env S', op env S' = if p then f env S' else g env S')
    (h2 : ∀ env S', op' env S' = if p then f' env S' else g' env S')
    (hf : p → Again fmt S f f') (hg : ¬ p → Again fmt S g g') : Again fmt S op op' := by
  by_cases hp : p
  · exact .of_eq (fun env => by rw [h1, if_pos hp]) (fun env S' _ => by rw [h2, if_pos hp]) (hf hp)
  · exact .of_eq (fun env => by rw [h1, if_neg hp]) (fun env S' _ => by rw [h2, if_neg hp]) (hg hp)

theorem again_callBin (k : K2) (a b : Nat) (ha : a < S.nodes.length) (hb : b < S.nodes.length) :
    Again fmt S (fun env => callBin env k a b) (fun env => callBin env k a b) := by
  cases k with
  | add =>
    refine again_pick (f := fun x env S' => if x = 0 then ret b S' else addL env x b S')
      (g := fun y env S' => if y = 0 then ret a S' else addR env a y S') (k := fun env S' => binary env .add a b S') a b ha hb
      (fun _ _ => rfl) (fun x => ?_) (fun y => ?_) (again_binary _ a b a b (.inl ⟨rfl, rfl⟩))
    · exact again_ite (x = 0) (fun _ _ => rfl) (fun _ _ => rfl) (fun _ => again_ret b) (fun _ => again_addL x b hb)
    · exact again_ite (y = 0) (fun _ _ => rfl) (fun _ _ => rfl) (fun _ => again_ret a) (fun _ => again_addR a y ha)
  | sub =>
    refine again_ite (a = b) (f := fun _ => mkConst [0]) (f' := fun _ => mkConst [0]) (fun _ _ => rfl) (fun _ _ => rfl) (fun _ => again_const [0]) (fun _ => ?_)
    refine again_pick (f := fun x env S' => if x = 0 then neg env b S' else subL env x b S')
      (g := fun y env S' => if y = 0 then ret a S' else subR env a y S') (k := fun env S' => binary env .sub a b S') a b ha hb
      (fun _ _ => rfl) (fun x => ?_) (fun y => ?_) (again_binary _ a b a b (.inl ⟨rfl, rfl⟩))
    · exact again_ite (x = 0) (fun _ _ => rfl) (fun _ _ => rfl) (fun _ => again_neg b hb) (fun _ => again_subL x b hb)
    · exact again_ite (y = 0) (fun _ _ => rfl) (fun _ _ => rfl) (fun _ => again_ret a) (fun _ => again_subR a y ha)
  | mul =>
    refine again_ite (a = b) (f := fun env => pow env a 2) (f' := fun env => pow env a 2) (fun _ _ => rfl) (fun _ _ => rfl) (fun _ => again_pow a 2 ha) (fun _ => ?_)
    refine again_pick (f := fun x env S' => if x = 0 then mkConst [0] S' else mulL env x b S')
      (g := fun y env S' => if y = 0 then mkConst [0] S' else mulR env a y S') (k := fun env S' => binary env .mul a b S') a b ha hb
      (fun _ _ => rfl) (fun x => ?_) (fun y => ?_) (again_binary _ a b a b (.inl ⟨rfl, rfl⟩))
    · exact again_ite (x = 0) (fun _ _ => rfl) (fun _ _ => rfl) (fun _ => again_const [0]) (fun _ => again_mulL x b hb)
    · exact again_ite (y = 0) (fun _ _ => rfl) (fun _ _ => rfl) (fun _ => again_const [0]) (fun _ => again_mulR a y ha)
  | div =>
    refine again_ite (a = b) (f := fun _ => mkConst [1]) (f' := fun _ => mkConst [1]) (fun _ _ => rfl) (fun _ _ => rfl) (fun _ => again_const [1]) (fun _ => ?_)
    refine again_pick (f := fun x env S' => if x = 0 then mkConst [0] S' else divL env x b S')
      (g := fun y env S' => if y = 0 then .throw .logicError else divR env a y S') (k := fun env S' => binary env .div a b S') a b ha hb
      (fun _ _ => rfl) (fun x => ?_) (fun y => ?_) (again_binary _ a b a b (.inl ⟨rfl, rfl⟩))
    · exact again_ite (x = 0) (fun _ _ => rfl) (fun _ _ => rfl) (fun _ => again_const [0]) (fun _ => again_divL x b hb)
    · refine again_ite (y = 0) (f := fun _ _ => .throw .logicError) (f' := fun _ _ => .throw .logicError) (fun _ _ => rfl) (fun _ _ => rfl) (fun _ => ?_) (fun _ => again_divR a y ha)
      refine again_fail fun env n S1 e => ?_
      cases e
  | cond name cmp =>
    exact again_pick (f := fun x env S' => unop env (.condL name cmp x) b S')
      (g := fun y env S' => unop env (.condR name cmp y) a S') (k := fun env S' => binary env (.cond name cmp) a b S') a b ha hb
      (fun _ _ => rfl) (fun x => again_unop _ b hb) (fun y => again_unop _ a ha) (again_binary _ a b a b (.inl ⟨rfl, rfl⟩))

/-- Sums and products of nodes that are not one-element constants, with the arguments exchanged. -/
theorem again_swapped (k : K2) (hk : k.unordered = true) (a b : Nat) (ha : a < S.nodes.length) (hb : b < S.nodes.length)
    (na : ∀ x, constData S a ≠ some [x]) (nb : ∀ x, constData S b ≠ some [x]) :
    Again fmt S (fun env => callBin env k a b) (fun env => callBin env k b a) := by
  have H := again_binary (fmt := fmt) (S := S) k a b b a (.inr ⟨hk, rfl, rfl⟩)
  cases k with
  | sub => cases hk
  | div => cases hk
  | cond => cases hk
  | add =>
    refine .of_eq (f := fun env => binary env .add a b) (g := fun env => binary env .add b a) (fun env => ?_) (fun env S' x => ?_) H
    · exact pick_none (fun x => if x = 0 then ret b S else addL env x b S) (fun y => if y = 0 then ret a S else addR env a y S) _ na nb
    · refine pick_none (fun x => if x = 0 then ret a S' else addL env x a S') (fun y => if y = 0 then ret b S' else addR env b y S') _ ?_ ?_
      · rw [constData_ext x hb]; exact nb
      · rw [constData_ext x ha]; exact na
  | mul =>
    by_cases hab : a = b
    · subst hab
      exact again_callBin .mul a a ha ha
    refine .of_eq (f := fun env => binary env .mul a b) (g := fun env => binary env .mul b a) (fun env => ?_) (fun env S' x => ?_) H
    · exact (if_neg hab).trans (pick_none (fun x => if x = 0 then mkConst [0] S else mulL env x b S) (fun y => if y = 0 then mkConst [0] S else mulR env a y S) _ na nb)
    · refine (if_neg (Ne.symm hab)).trans (pick_none (fun x => if x = 0 then mkConst [0] S' else mulL env x a S') (fun y => if y = 0 then mkConst [0] S' else mulR env b y S') _ ?_ ?_)
      · rw [constData_ext x hb]; exact nb
      · rw [constData_ext x ha]; exact na

end

theorem unary_args {h : Hash} {k : K1} {a n : Nat} {S S1 : St} (e : unary ⟨h, fmt⟩ k a S = .ok (n, S1)) {nd : Node} (hn : S1.nodes[n]? = some nd) : nd.args ≠ [] := by
  unfold unary at e
  split at e
  · rename_i hh
    obtain ⟨nd', g1, g2, _⟩ := mem_audience (env := ⟨h, fmt⟩) (S := S) (List.mem_of_mem_head? (by rw [hh]; rfl))
    cases e
    have : some nd' = some nd := by rw [← g1, ← hn]
    cases this
    exact List.ne_nil_of_mem g2
  · cases e
    rw [List.getElem?_concat_length] at hn
    cases hn
    simp [Node.args]

theorem binary_args {h : Hash} {k : K2} {a b n : Nat} {S S1 : St} (e : binary ⟨h, fmt⟩ k a b S = .ok (n, S1)) {nd : Node} (hn : S1.nodes[n]? = some nd) : nd.args ≠ [] := by
  unfold binary at e
  split at e
  · rename_i hh
    obtain ⟨nd', g1, g2, _⟩ := mem_audience (env := ⟨h, fmt⟩) (S := S) (List.mem_of_find?_eq_some hh)
    cases e
    have : some nd' = some nd := by rw [← g1, ← hn]
    cases this
    exact List.ne_nil_of_mem g2
  · cases e
    rw [List.getElem?_concat_length] at hn
    cases hn
    simp [Node.args]

/-! ### Derivatives are remembered -/

/-- A remembered derivative is never forgotten. -/
theorem cached_stable (n x d : Nat) : Stable (fun S => S.cache n x = some d) fmt where
  const := by intro l S m S' hP e; cases e; exact hP
  un := by
    intro h k a S m S' hP e
    unfold unary at e
    split at e <;> cases e <;> exact hP
  bin := by
    intro h k a b S m S' hP e
    unfold binary at e
    split at e <;> cases e <;> exact hP

theorem gradient_cached (h : Hash) (n x d y : Nat) : ∀ fuel m, Pres (fun S => S.cache n x = some d) (gradient ⟨h, fmt⟩ y fuel m) := by
  have st := cached_stable (fmt := fmt) n x d
  have key : ∀ (S S' : St) (m r : Nat), S.cache n x = some d → S.cache m y = none → S'.cache n x = some d → (setCache m y r S').cache n x = some d := by
    intro S S' m r h0 h1 h2
    simp only [setCache]
    rw [if_neg, h2]
    rintro ⟨rfl, rfl⟩
    rw [h0] at h1; cases h1
  intro fuel
  induction fuel with
  | zero => intro m S r S' _ e; cases e
  | succ fuel ih =>
    intro m S r S' hP e
    simp only [Expr.gradient] at e
    split at e
    · split at e <;> exact pres_ret (P := fun S => S.cache n x = some d) _ S r S' hP e
    · exact pres_ret (P := fun S => S.cache n x = some d) _ S r S' hP e
    · split at e
      · split at e
        · exact pres_ret (P := fun S => S.cache n x = some d) _ S r S' hP e
        · rename_i hc
          obtain ⟨g, e1, e⟩ := Outcome.bind_eq_ok.mp e
          obtain ⟨q, e2, e⟩ := Outcome.bind_eq_ok.mp e
          injection e with e; injection e with e3 e4; subst e4
          exact key S _ _ _ hP hc (st.ginit1 h _ _ _ _ _ _ (ih _ S g.1 g.2 hP e1) e2)
      · exact pres_ret (P := fun S => S.cache n x = some d) _ S r S' hP e
    · split at e
      · split at e
        · exact pres_ret (P := fun S => S.cache n x = some d) _ S r S' hP e
        · rename_i hc
          obtain ⟨ga, e1, e⟩ := Outcome.bind_eq_ok.mp e
          obtain ⟨gb, e2, e⟩ := Outcome.bind_eq_ok.mp e
          obtain ⟨q, e3, e⟩ := Outcome.bind_eq_ok.mp e
          injection e with e; injection e with e4 e5; subst e5
          exact key S _ _ _ hP hc (st.ginit2 h _ _ _ _ _ _ _ _ (ih _ _ _ _ (ih _ S ga.1 ga.2 hP e1) e2) e3)
      · exact pres_ret (P := fun S => S.cache n x = some d) _ S r S' hP e
    · cases e

theorem exec_cached (h : Hash) (n x d : Nat) (c : Call) : Pres (fun S => S.cache n x = some d) (exec ⟨h, fmt⟩ c) := by
  have st := cached_stable (fmt := fmt) n x d
  intro S r S' hP e
  unfold Expr.exec at e
  split at e
  · cases c with
    | leaf tr => cases e; exact hP
    | const l =>
      simp only at e
      split at e
      · cases e
      · cases e; exact hP
    | un k a => exact st.callUn h k a S r S' hP e
    | bin k a b => exact st.callBin h k a b S r S' hP e
    | derive m y =>
      simp only at e
      split at e
      · exact gradient_cached h n x d y _ _ S r S' hP e
      · split at e <;> exact pres_ret (P := fun S => S.cache n x = some d) _ S r S' hP e
      · exact pres_ret (P := fun S => S.cache n x = some d) _ S r S' hP e
      · split at e
        · exact pres_ret (P := fun S => S.cache n x = some d) _ S r S' hP e
        · cases e
  · cases e

theorem run_cached {cs : List (Hash × Call)} {S S' : St} {n x d : Nat} (hc : S.cache n x = some d) (hr : run fmt cs S = .ok S') : S'.cache n x = some d := by
  induction cs generalizing S with
  | nil => cases hr; exact hc
  | cons c cs ih =>
    obtain ⟨⟨m, S1⟩, h1, h2⟩ := Outcome.bind_eq_ok.mp hr
    exact ih (exec_cached c.1 n x d c.2 S m S1 hc h1) h2

theorem reaches_ext {S S' : St} (w : WF S) (e : Ext S S') (x : Nat) : ∀ fuel n, n < S.nodes.length → reaches S' x fuel n = reaches S x fuel n := by
  intro fuel
  induction fuel with
  | zero => intro n _; rfl
  | succ fuel ih =>
    intro n hn
    obtain ⟨nd, hnd⟩ : ∃ nd, S.nodes[n]? = some nd := ⟨_, List.getElem?_eq_getElem hn⟩
    have hlt : ∀ a ∈ nd.args, a < S.nodes.length := fun a ha => lt_trans (w n nd hnd a ha) hn
    simp only [reaches, hnd, e.node hnd]
    cases nd with
    | leaf => rfl
    | const => rfl
    | un k a => exact ih a (hlt a (by simp [Node.args]))
    | bin k a b =>
      simp only
      rw [ih a (hlt a (by simp [Node.args])), ih b (hlt b (by simp [Node.args]))]

/-- Deriving again returns the first answer and changes nothing. -/
theorem gradient_again {S S1 S2 : St} {h h' : Hash} {x n d : Nat} (I : Inv True fmt S) (hn : n < S.nodes.length)
    (e1 : gradient ⟨h, fmt⟩ x (n + 1) n S = .ok (d, S1)) (x0 : Ext S S2) (hc : S1.cache n x = some d → S2.cache n x = some d) :
    gradient ⟨h', fmt⟩ x (n + 1) n S2 = .ok (d, S2) := by
  obtain ⟨nd, hnd⟩ : ∃ nd, S.nodes[n]? = some nd := ⟨_, List.getElem?_eq_getElem hn⟩
  have hr := reaches_ext I.wf x0 x (n + 1) n hn
  simp only [gradient, hnd] at e1
  simp only [gradient, x0.node hnd]
  cases nd with
  | leaf tr =>
    simp only at e1 ⊢
    split at e1 <;> rename_i hh
    · rw [if_pos hh]; cases e1; rfl
    · rw [if_neg hh]; cases e1; rfl
  | const l => cases e1; rfl
  | un k a =>
    simp only at e1 ⊢
    rw [hr]
    split at e1 <;> rename_i hh
    · rw [if_pos hh]
      have : S1.cache n x = some d := by
        split at e1
        · rename_i hc'; cases e1; exact hc'
        · obtain ⟨g, e1, e⟩ := Outcome.bind_eq_ok.mp e1
          obtain ⟨q, e2, e⟩ := Outcome.bind_eq_ok.mp e
          injection e with e; injection e with e3 e4; subst e4
          simp [setCache, e3]
      rw [hc this]; rfl
    · rw [if_neg hh]; cases e1; rfl
  | bin k a b =>
    simp only at e1 ⊢
    rw [hr]
    split at e1 <;> rename_i hh
    · rw [if_pos hh]
      have : S1.cache n x = some d := by
        split at e1
        · rename_i hc'; cases e1; exact hc'
        · obtain ⟨ga, e1, e⟩ := Outcome.bind_eq_ok.mp e1
          obtain ⟨gb, e2, e⟩ := Outcome.bind_eq_ok.mp e
          obtain ⟨q, e3, e⟩ := Outcome.bind_eq_ok.mp e
          injection e with e; injection e with e4 e5; subst e5
          simp [setCache, e4]
      rw [hc this]; rfl
    · rw [if_neg hh]; cases e1; rfl

end Verif.Expr
