import Verif.Spec.Expr
import Mathlib.Analysis.Calculus.Deriv.Basic
/-!
# Lemmas on operator construction
-/
namespace Verif.Expr
open Spec
open scoped Classical

variable {C : Prop}

/-- `S'` continues `S`. -/
structure Ext (S S' : St) : Prop where
  nodes : ∃ l, S'.nodes = S.nodes ++ l
  asked1 : S.asked1 ⊆ S'.asked1
  asked2 : S.asked2 ⊆ S'.asked2

theorem Ext.refl (S : St) : Ext S S := ⟨⟨[], by simp⟩, fun _ h => h, fun _ h => h⟩
theorem Ext.trans {A B C : St} (h : Ext A B) (h' : Ext B C) : Ext A C := by
  obtain ⟨⟨l, e⟩, a, b⟩ := h
  obtain ⟨⟨l', e'⟩, a', b'⟩ := h'
  exact ⟨⟨l ++ l', by rw [e', e, List.append_assoc]⟩, fun _ h => a' (a h), fun _ h => b' (b h)⟩

theorem Ext.node {S S' : St} (h : Ext S S') {n : Nat} {nd : Node} (e : S.nodes[n]? = some nd) : S'.nodes[n]? = some nd := by
  obtain ⟨l, hl⟩ := h.nodes
  have hlt : n < S.nodes.length := (List.getElem?_eq_some_iff.mp e).1
  rw [hl, List.getElem?_append_left hlt, e]

theorem Ext.node' {S S' : St} (h : Ext S S') {n : Nat} (hn : n < S.nodes.length) : S'.nodes[n]? = S.nodes[n]? := by
  obtain ⟨l, hl⟩ := h.nodes
  rw [hl, List.getElem?_append_left hn]

theorem Ext.length {S S' : St} (h : Ext S S') : S.nodes.length ≤ S'.nodes.length := by
  obtain ⟨l, hl⟩ := h.nodes
  rw [hl]; simp

theorem _root_.Verif.Spec.NoClash.of_ext {fmt : ℝ → List Char} {S S' : St} (h : NoClash fmt S') (e : Ext S S') : NoClash fmt S :=
  ⟨fun k hk k' hk' => h.un k (e.asked1 hk) k' (e.asked1 hk'), fun k hk k' hk' => h.bin k (e.asked2 hk) k' (e.asked2 hk'),
   fun k hk k' hk' => h.mixed k (e.asked1 hk) k' (e.asked2 hk')⟩

theorem _root_.Verif.Spec.Val.mono {S S' : St} {ρ : Nat → ℝ} {i n : Nat} {v : ℝ} (e : Ext S S') (h : Val S ρ i n v) : Val S' ρ i n v := by
  induction h with
  | leaf h => exact .leaf (e.node h)
  | const h h' => exact .const (e.node h) h'
  | un h _ ih => exact .un (e.node h) ih
  | bin h _ _ ih1 ih2 => exact .bin (e.node h) ih1 ih2

theorem _root_.Verif.Spec.Val.unique {S : St} {ρ : Nat → ℝ} {i n : Nat} {v w : ℝ} (h : Val S ρ i n v) (h' : Val S ρ i n w) : v = w := by
  induction h generalizing w with
  | leaf h =>
    cases h' with
    | leaf _ => rfl
    | const g _ => rw [h] at g; cases g
    | un g _ => rw [h] at g; cases g
    | bin g _ _ => rw [h] at g; cases g
  | const h e =>
    cases h' with
    | leaf g => rw [h] at g; cases g
    | const g e' => rw [h] at g; cases g; rw [e] at e'; cases e'; rfl
    | un g _ => rw [h] at g; cases g
    | bin g _ _ => rw [h] at g; cases g
  | un h _ ih =>
    cases h' with
    | leaf g => rw [h] at g; cases g
    | const g e' => rw [h] at g; cases g
    | un g k => rw [h] at g; cases g; rw [ih k]
    | bin g _ _ => rw [h] at g; cases g
  | bin h _ _ ih1 ih2 =>
    cases h' with
    | leaf g => rw [h] at g; cases g
    | const g e' => rw [h] at g; cases g
    | un g k => rw [h] at g; cases g
    | bin g k l => rw [h] at g; cases g; rw [ih1 k, ih2 l]

theorem _root_.Verif.Spec.Val.lt {S : St} {ρ : Nat → ℝ} {i n : Nat} {v : ℝ} (h : Val S ρ i n v) : n < S.nodes.length := by
  cases h with
  | leaf h => exact (List.getElem?_eq_some_iff.mp h).1
  | const h _ => exact (List.getElem?_eq_some_iff.mp h).1
  | un h _ => exact (List.getElem?_eq_some_iff.mp h).1
  | bin h _ _ => exact (List.getElem?_eq_some_iff.mp h).1

def WF (S : St) : Prop := ∀ (n : Nat) (nd : Node), S.nodes[n]? = some nd → ∀ a ∈ nd.args, a < n

theorem _root_.Verif.Spec.Val.restrict {S S' : St} {ρ : Nat → ℝ} {i n : Nat} {v : ℝ} (w : WF S) (e : Ext S S') (h : Val S' ρ i n v)
    (hn : n < S.nodes.length) : Val S ρ i n v := by
  induction h with
  | leaf h => rw [e.node' hn] at h; exact .leaf h
  | const h h' => rw [e.node' hn] at h; exact .const h h'
  | un h _ ih =>
    rw [e.node' hn] at h
    exact .un h (ih (Nat.lt_trans (w _ _ h _ (by simp [Node.args])) hn))
  | bin h _ _ ih1 ih2 =>
    rw [e.node' hn] at h
    exact .bin h (ih1 (Nat.lt_trans (w _ _ h _ (by simp [Node.args])) hn)) (ih2 (Nat.lt_trans (w _ _ h _ (by simp [Node.args])) hn))

theorem _root_.Verif.Spec.Smooth.restrict {S S' : St} {ρ : Nat → ℝ} {i n : Nat} (w : WF S) (e : Ext S S') (h : Smooth S' ρ i n)
    (hn : n < S.nodes.length) : Smooth S ρ i n := by
  induction h with
  | leaf h => rw [e.node' hn] at h; exact .leaf h
  | const h h' => rw [e.node' hn] at h; exact .const h h'
  | un h _ hv hs ih =>
    rw [e.node' hn] at h
    have hl := Nat.lt_trans (w _ _ h _ (List.mem_cons_self)) hn
    exact .un h (ih hl) (hv.restrict w e hl) hs
  | bin h _ _ hu hw hs ih1 ih2 =>
    rw [e.node' hn] at h
    have hl := Nat.lt_trans (w _ _ h _ (List.mem_cons_self)) hn
    have hl' := Nat.lt_trans (w _ _ h _ (List.mem_cons_of_mem _ List.mem_cons_self)) hn
    exact .bin h (ih1 hl) (ih2 hl') (hu.restrict w e hl) (hw.restrict w e hl') hs

theorem _root_.Verif.Spec.Smooth.mono {S S' : St} {ρ : Nat → ℝ} {i n : Nat} (e : Ext S S') (h : Smooth S ρ i n) :
    Smooth S' ρ i n := by
  induction h with
  | leaf h => exact .leaf (e.node h)
  | const h h' => exact .const (e.node h) h'
  | un h _ hv hs ih => exact .un (e.node h) ih (hv.mono e) hs
  | bin h _ _ hu hw hs ih1 ih2 => exact .bin (e.node h) ih1 ih2 (hu.mono e) (hw.mono e) hs

theorem _root_.Verif.Spec.Smooth.lt {S : St} {ρ : Nat → ℝ} {i n : Nat} (h : Smooth S ρ i n) : n < S.nodes.length := by
  cases h with
  | leaf h => exact (List.getElem?_eq_some_iff.mp h).1
  | const h _ => exact (List.getElem?_eq_some_iff.mp h).1
  | un h _ _ _ => exact (List.getElem?_eq_some_iff.mp h).1
  | bin h _ _ _ _ _ => exact (List.getElem?_eq_some_iff.mp h).1

/-- `n` is not a constant of one element. -/
def NS (S : St) (n : Nat) : Prop := ∀ x, constData S n ≠ some [x]

theorem constData_ext {S S' : St} (e : Ext S S') {n : Nat} (hn : n < S.nodes.length) : constData S' n = constData S n := by
  unfold constData; rw [e.node' hn]

theorem NS.mono {S S' : St} (e : Ext S S') {n : Nat} (hn : n < S.nodes.length) (h : NS S n) : NS S' n := by
  intro x; rw [constData_ext e hn]; exact h x

/-- `w` is the derivative of node `n` with respect to the leaf `x`. -/
def IsDeriv (S : St) (x n : Nat) (ρ : Nat → ℝ) (i : Nat) (w : ℝ) : Prop :=
  Smooth S ρ i n ∧ ∃ F : ℝ → ℝ, (∀ t, Val S (change ρ x t) i n (F t)) ∧ HasDerivAt F w (ρ x)

theorem IsDeriv.restrict {S S' : St} {x n : Nat} {ρ : Nat → ℝ} {i : Nat} {w : ℝ} (wf : WF S) (e : Ext S S')
    (h : IsDeriv S' x n ρ i w) (hn : n < S.nodes.length) : IsDeriv S x n ρ i w := by
  obtain ⟨h1, F, h2, h3⟩ := h
  exact ⟨h1.restrict wf e hn, F, fun t => (h2 t).restrict wf e hn, h3⟩

/-- Invariant of reachable states; `C` says whether `conditional` may have been called. -/
structure Inv (C : Prop) (fmt : ℝ → List Char) (S : St) : Prop where
  wf : WF S
  cne : ∀ (n : Nat) (d : List ℝ), S.nodes[n]? = some (.const d) → d ≠ []
  ask1 : ∀ (n : Nat) (k : K1) (a : Nat), S.nodes[n]? = some (.un k a) → k ∈ S.asked1
  ask2 : ∀ (n : Nat) (k : K2) (a b : Nat), S.nodes[n]? = some (.bin k a b) → k ∈ S.asked2
  nsu : ∀ (n : Nat) (k : K1) (a : Nat), S.nodes[n]? = some (.un k a) → k = .ident ∨ NS S a
  nsb : ∀ (n : Nat) (k : K2) (a b : Nat), S.nodes[n]? = some (.bin k a b) → NS S a ∧ NS S b
  divR : ∀ (n : Nat) (c : ℝ) (a : Nat), S.nodes[n]? = some (.un (.divR c) a) → c ≠ 0
  pow : ∀ (n : Nat) (s : ℝ) (a : Nat), S.nodes[n]? = some (.un (.pow s) a) → s ≠ 0
  zero : S.nodes[0]? = some (.const [0])
  one : S.nodes[1]? = some (.const [1])
  nocond : C ∨ ((∀ k ∈ S.asked1, NotCond1 k) ∧ ∀ k ∈ S.asked2, NotCond2 k)
  cache : ∀ n x d, S.cache n x = some d → n < S.nodes.length ∧ d < S.nodes.length ∧
    (NoClash fmt S → ∀ ρ i w, IsDeriv S x n ρ i w → Val S ρ i d w)

/-- The construction ends, in a good state that continues `S`, with a node whose value satisfies `V`
(when no names clash); `q` implies that it is not a one-element constant. -/
def Builds (C : Prop) (fmt : ℝ → List Char) (S : St) (m : Outcome (Nat × St)) (V : (Nat → ℝ) → Nat → ℝ → Prop) (q : Prop) : Prop :=
  ∃ n S', m = .ok (n, S') ∧ Inv C fmt S' ∧ Ext S S' ∧ n < S'.nodes.length ∧
    (NoClash fmt S' → ∀ ρ i v, V ρ i v → Val S' ρ i n v) ∧ (q → NS S' n)

theorem Builds.weaken {fmt : ℝ → List Char} {S : St} {m : Outcome (Nat × St)} {V V' : (Nat → ℝ) → Nat → ℝ → Prop}
    {q q' : Prop} (h : Builds C fmt S m V q) (hv : ∀ ρ i v, V' ρ i v → V ρ i v) (hq : q' → q) : Builds C fmt S m V' q' := by
  obtain ⟨n, S', h1, h2, h3, h4, h5, h6⟩ := h
  exact ⟨n, S', h1, h2, h3, h4, fun c ρ i v hh => h5 c ρ i v (hv ρ i v hh), fun hh => h6 (hq hh)⟩

theorem Builds.bind {fmt : ℝ → List Char} {S : St} {m : M} {f : Nat → M} {V : (Nat → ℝ) → Nat → ℝ → Prop} {q p : Prop}
    {W : Nat → St → (Nat → ℝ) → Nat → ℝ → Prop} (h : Builds C fmt S (m S) V q)
    (hf : ∀ n S1, Inv C fmt S1 → Ext S S1 → n < S1.nodes.length → (q → NS S1 n) → Builds C fmt S1 (f n S1) (W n S1) p) :
    Builds C fmt S (andThen m f S) (fun ρ i v => ∀ n S1, Ext S S1 → (∀ u, V ρ i u → Val S1 ρ i n u) → W n S1 ρ i v) p := by
  obtain ⟨n, S', h1, h2, h3, h4, h5, h6⟩ := h
  obtain ⟨n', S'', g1, g2, g3, g4, g5, g6⟩ := hf n S' h2 h3 h4 h6
  refine ⟨n', S'', ?_, g2, h3.trans g3, g4, ?_, g6⟩
  · show (m S >>= fun r => f r.1 r.2) = _
    rw [h1]; exact g1
  · intro c ρ i v hv
    exact g5 c ρ i v (hv n S' h3 (fun u hu => h5 (c.of_ext g3) ρ i u hu))

theorem getElem?_snoc {α : Type} {l : List α} {x : α} {n : Nat} {y : α} (h : (l ++ [x])[n]? = some y) :
    l[n]? = some y ∨ (n = l.length ∧ x = y) := by
  rcases Nat.lt_trichotomy n l.length with h' | h' | h'
  · rw [List.getElem?_append_left h'] at h; exact Or.inl h
  · subst h'; simp at h; exact Or.inr ⟨rfl, h⟩
  · rw [List.getElem?_eq_none (by simp; omega)] at h; cases h

/-- Adding a node. -/
theorem inv_push {fmt : ℝ → List Char} {S : St} (I : Inv C fmt S) (nd : Node) {a1 : List K1} {a2 : List K2}
    (h1 : S.asked1 ⊆ a1) (h2 : S.asked2 ⊆ a2)
    (ha : ∀ a ∈ nd.args, a < S.nodes.length) (hc : ∀ d, nd = .const d → d ≠ [])
    (hu : ∀ k a, nd = .un k a → k ∈ a1 ∧ (k = .ident ∨ NS S a)) (hb : ∀ k a b, nd = .bin k a b → k ∈ a2 ∧ NS S a ∧ NS S b)
    (hd : ∀ c a, nd = .un (.divR c) a → c ≠ 0) (hp : ∀ c a, nd = .un (.pow c) a → c ≠ 0)
    (hnc : C ∨ ((∀ k ∈ a1, NotCond1 k) ∧ ∀ k ∈ a2, NotCond2 k)) :
    Inv C fmt { S with nodes := S.nodes ++ [nd], asked1 := a1, asked2 := a2 } ∧
    Ext S { S with nodes := S.nodes ++ [nd], asked1 := a1, asked2 := a2 } := by
  have e : Ext S { S with nodes := S.nodes ++ [nd], asked1 := a1, asked2 := a2 } := ⟨⟨[nd], rfl⟩, h1, h2⟩
  refine ⟨⟨?_, ?_, ?_, ?_, ?_, ?_, ?_, ?_, e.node I.zero, e.node I.one, hnc, ?_⟩, e⟩
  · intro n nd' h a h'
    rcases getElem?_snoc h with h | ⟨rfl, rfl⟩
    · exact I.wf n nd' h a h'
    · exact ha a h'
  · intro n d h
    rcases getElem?_snoc h with h | ⟨rfl, g⟩
    · exact I.cne n d h
    · exact hc d g
  · intro n k a h
    rcases getElem?_snoc h with h | ⟨rfl, g⟩
    · exact h1 (I.ask1 n k a h)
    · exact (hu k a g).1
  · intro n k a b h
    rcases getElem?_snoc h with h | ⟨rfl, g⟩
    · exact h2 (I.ask2 n k a b h)
    · exact (hb k a b g).1
  · intro n k a h
    rcases getElem?_snoc h with h | ⟨rfl, g⟩
    · have hl : a < S.nodes.length :=
        Nat.lt_trans (I.wf _ _ h a (by simp [Node.args])) (List.getElem?_eq_some_iff.mp h).1
      exact (I.nsu n k a h).imp id (NS.mono e hl)
    · exact (hu k a g).2.imp id (NS.mono e (ha a (by rw [g]; simp [Node.args])))
  · intro n k a b h
    rcases getElem?_snoc h with h | ⟨rfl, g⟩
    · have hl : ∀ a' ∈ [a, b], a' < S.nodes.length := fun a' ha' =>
        Nat.lt_trans (I.wf _ _ h a' ha') (List.getElem?_eq_some_iff.mp h).1
      exact ⟨(I.nsb n k a b h).1.mono e (hl a (by simp)), (I.nsb n k a b h).2.mono e (hl b (by simp))⟩
    · exact ⟨(hb k a b g).2.1.mono e (ha a (by rw [g]; simp [Node.args])), (hb k a b g).2.2.mono e (ha b (by rw [g]; simp [Node.args]))⟩
  · intro n c a h
    rcases getElem?_snoc h with h | ⟨rfl, g⟩
    · exact I.divR n c a h
    · exact hd c a g
  · intro n c a h
    rcases getElem?_snoc h with h | ⟨rfl, g⟩
    · exact I.pow n c a h
    · exact hp c a g
  · intro n x d h
    obtain ⟨c1, c2, c3⟩ := I.cache n x d h
    refine ⟨Nat.lt_of_lt_of_le c1 e.length, Nat.lt_of_lt_of_le c2 e.length, fun hn ρ i w hw => ?_⟩
    exact (c3 (hn.of_ext e) ρ i w (hw.restrict I.wf e c1)).mono e

/-- Only recording that an operation was asked for. -/
theorem inv_ask {fmt : ℝ → List Char} {S : St} (I : Inv C fmt S) {a1 : List K1} {a2 : List K2}
    (h1 : S.asked1 ⊆ a1) (h2 : S.asked2 ⊆ a2) (hnc : C ∨ ((∀ k ∈ a1, NotCond1 k) ∧ ∀ k ∈ a2, NotCond2 k)) :
    Inv C fmt { S with asked1 := a1, asked2 := a2 } ∧ Ext S { S with asked1 := a1, asked2 := a2 } := by
  have e : Ext S { S with asked1 := a1, asked2 := a2 } := ⟨⟨[], by simp⟩, h1, h2⟩
  refine ⟨⟨I.wf, I.cne, fun n k a h => h1 (I.ask1 n k a h), fun n k a b h => h2 (I.ask2 n k a b h), I.nsu, I.nsb, I.divR, I.pow,
    I.zero, I.one, hnc, ?_⟩, e⟩
  intro n x d h
  obtain ⟨c1, c2, c3⟩ := I.cache n x d h
  exact ⟨c1, c2, fun hn ρ i w hw => (c3 (hn.of_ext e) ρ i w (hw.restrict I.wf e c1)).mono e⟩

theorem push_const_builds {fmt : ℝ → List Char} {S : St} (I : Inv C fmt S) (d : List ℝ) (hd : d ≠ []) :
    Builds C fmt S (mkConst d S) (fun _ i v => constAt d i = some v) (d.length ≠ 1) := by
  obtain ⟨i1, e1⟩ := inv_push I (.const d) (a1 := S.asked1) (a2 := S.asked2) (fun _ h => h) (fun _ h => h)
    (by simp [Node.args]) (by rintro _ ⟨⟩; exact hd) (by rintro _ _ ⟨⟩) (by rintro _ _ _ ⟨⟩) (by rintro _ _ ⟨⟩) (by rintro _ _ ⟨⟩) I.nocond
  refine ⟨_, _, rfl, i1, e1, by simp, fun _ ρ i v h => .const (by simp) h, fun h x => ?_⟩
  simp only [constData, List.getElem?_append_right (Nat.le_refl _), Nat.sub_self, List.getElem?_cons_zero]
  intro hh; cases hh; simp at h

theorem ret_builds {fmt : ℝ → List Char} {S : St} (I : Inv C fmt S) (n : Nat) (hn : n < S.nodes.length) :
    Builds C fmt S (ret n S) (fun ρ i v => Val S ρ i n v) (NS S n) :=
  ⟨n, S, rfl, I, Ext.refl S, hn, fun _ _ _ _ h => h, fun h => h⟩

theorem mem_audience {env : Env} {S : St} {a : Nat} {l : List Char} {p : Nat} (h : p ∈ audience env S a l) :
    ∃ nd, S.nodes[p]? = some nd ∧ a ∈ nd.args ∧ nd.label env.fmt = some l := by
  unfold audience at h
  rw [(env.ord_perm _ _).mem_iff, List.mem_filter] at h
  exact of_decide_eq_true h.2

theorem unary_builds {env : Env} {S : St} (I : Inv C env.fmt S) (k : K1) (a : Nat) (ha : a < S.nodes.length)
    (hk : k = .ident ∨ NS S a) (hd : ∀ c, k = .divR c → c ≠ 0) (hp : ∀ c, k = .pow c → c ≠ 0) (hnc : C ∨ NotCond1 k) :
    Builds C env.fmt S (unary env k a S) (fun ρ i v => ∃ u, Val S ρ i a u ∧ v = k.fn u) True := by
  have hN : C ∨ ((∀ k' ∈ k :: S.asked1, NotCond1 k') ∧ ∀ k ∈ S.asked2, NotCond2 k) := by
    rcases hnc with h | h
    · exact Or.inl h
    · rcases I.nocond with h' | h'
      · exact Or.inl h'
      · refine Or.inr ⟨fun k' hk' => ?_, h'.2⟩
        rcases List.mem_cons.mp hk' with rfl | hk'
        · exact h
        · exact h'.1 k' hk'
  unfold unary
  cases hh : (audience env S a (k.label env.fmt)).head? with
  | some p =>
    obtain ⟨nd, h1, h2, h3⟩ := mem_audience (List.mem_of_mem_head? (by rw [hh]; rfl))
    obtain ⟨i1, e1⟩ := inv_ask I (a1 := k :: S.asked1) (a2 := S.asked2) (fun _ h => List.mem_cons_of_mem _ h) (fun _ h => h) hN
    refine ⟨p, _, rfl, i1, e1, (List.getElem?_eq_some_iff.mp h1).1, ?_, ?_⟩
    · rintro c ρ i v ⟨u, hu, rfl⟩
      cases nd with
      | leaf => cases h3
      | const => cases h3
      | un k' a' =>
        simp only [Node.label, Option.some.injEq] at h3
        simp only [Node.args, List.mem_singleton] at h2
        have := c.un k' (List.mem_cons_of_mem _ (I.ask1 p k' a' h1)) k List.mem_cons_self h3
        subst this; subst h2
        exact .un h1 (hu.mono e1)
      | bin k' a' b' =>
        simp only [Node.label, Option.some.injEq] at h3
        exact absurd h3.symm (c.mixed k List.mem_cons_self k' (I.ask2 p k' a' b' h1))
    · intro _ x
      unfold constData
      rw [h1]
      cases nd with
      | const => cases h3
      | _ => simp
  | none =>
    obtain ⟨i1, e1⟩ := inv_push I (.un k a) (a1 := k :: S.asked1) (a2 := S.asked2) (fun _ h => List.mem_cons_of_mem _ h) (fun _ h => h)
      (by simpa [Node.args] using ha) (by rintro _ ⟨⟩) (by rintro _ _ ⟨⟩; exact ⟨List.mem_cons_self, hk⟩) (by rintro _ _ _ ⟨⟩)
      (by rintro _ _ ⟨⟩; exact hd _ rfl) (by rintro _ _ ⟨⟩; exact hp _ rfl) hN
    refine ⟨_, _, rfl, i1, e1, by simp, ?_, ?_⟩
    · rintro _ ρ i v ⟨u, hu, rfl⟩
      exact .un (by simp) (hu.mono e1)
    · intro _ x
      simp [constData]

theorem binary_builds {env : Env} {S : St} (I : Inv C env.fmt S) (k : K2) (a b : Nat) (ha : a < S.nodes.length)
    (hb : b < S.nodes.length) (na : NS S a) (nb : NS S b) (hnc : C ∨ NotCond2 k) :
    Builds C env.fmt S (binary env k a b S) (fun ρ i v => ∃ u w, Val S ρ i a u ∧ Val S ρ i b w ∧ v = k.fn u w) True := by
  have hN : C ∨ ((∀ k ∈ S.asked1, NotCond1 k) ∧ ∀ k' ∈ k :: S.asked2, NotCond2 k') := by
    rcases hnc with h | h
    · exact Or.inl h
    · rcases I.nocond with h' | h'
      · exact Or.inl h'
      · refine Or.inr ⟨h'.1, fun k' hk' => ?_⟩
        rcases List.mem_cons.mp hk' with rfl | hk'
        · exact h
        · exact h'.2 k' hk'
  unfold binary
  cases hh : (audience env S a k.label).find? (argsMatch S k.unordered a b) with
  | some p =>
    obtain ⟨nd, h1, h2, h3⟩ := mem_audience (List.mem_of_find?_eq_some hh)
    have hm := List.find?_some hh
    obtain ⟨i1, e1⟩ := inv_ask I (a1 := S.asked1) (a2 := k :: S.asked2) (fun _ h => h) (fun _ h => List.mem_cons_of_mem _ h) hN
    refine ⟨p, _, rfl, i1, e1, (List.getElem?_eq_some_iff.mp h1).1, ?_, ?_⟩
    · rintro c ρ i v ⟨u, w, hu, hw, rfl⟩
      cases nd with
      | leaf => cases h3
      | const => cases h3
      | un k' a' =>
        simp only [argsMatch, h1, Node.args] at hm
        simp at hm
      | bin k' a' b' =>
        simp only [Node.label, Option.some.injEq] at h3
        have := c.bin k' (List.mem_cons_of_mem _ (I.ask2 p k' a' b' h1)) k List.mem_cons_self h3
        subst this
        simp only [argsMatch, h1, Node.args, Bool.or_eq_true, decide_eq_true_eq, Bool.and_eq_true, List.cons.injEq, and_true] at hm
        rcases hm with ⟨rfl, rfl⟩ | ⟨hu', rfl, rfl⟩
        · exact .bin h1 (hu.mono e1) (hw.mono e1)
        · have : k'.fn u w = k'.fn w u := by
            cases k' <;> simp [K2.unordered] at hu' <;> simp [K2.fn, add_comm, mul_comm]
          rw [this]
          exact .bin h1 (hw.mono e1) (hu.mono e1)
    · intro _ x
      unfold constData
      rw [h1]
      cases nd with
      | const => cases h3
      | _ => simp
  | none =>
    obtain ⟨i1, e1⟩ := inv_push I (.bin k a b) (a1 := S.asked1) (a2 := k :: S.asked2) (fun _ h => h) (fun _ h => List.mem_cons_of_mem _ h)
      (by simp [Node.args]; exact ⟨ha, hb⟩) (by rintro _ ⟨⟩) (by rintro _ _ ⟨⟩) (by rintro _ _ _ ⟨⟩; exact ⟨List.mem_cons_self, na, nb⟩)
      (by rintro _ _ ⟨⟩) (by rintro _ _ ⟨⟩) hN
    refine ⟨_, _, rfl, i1, e1, by simp, ?_, ?_⟩
    · rintro _ ρ i v ⟨u, w, hu, hw, rfl⟩
      exact .bin (by simp) (hu.mono e1) (hw.mono e1)
    · intro _ x
      simp [constData]

/-! ## Constants -/

theorem constData_node {S : St} {a : Nat} {d : List ℝ} (h : constData S a = some d) : S.nodes[a]? = some (.const d) := by
  unfold constData at h
  split at h
  · rename_i d' h'; cases h; exact h'
  · cases h

theorem val_const {S : St} {a : Nat} {d : List ℝ} (h : constData S a = some d) {ρ : Nat → ℝ} {i : Nat} {v : ℝ}
    (hv : Val S ρ i a v) : constAt d i = some v := by
  have h := constData_node h
  cases hv with
  | leaf g => rw [h] at g; cases g
  | const g e' => rw [h] at g; cases g; exact e'
  | un g k => rw [h] at g; cases g
  | bin g k l => rw [h] at g; cases g

theorem constAt_map {d : List ℝ} {i : Nat} {v : ℝ} (f : ℝ → ℝ) (h : constAt d i = some v) : constAt (d.map f) i = some (f v) := by
  unfold constAt at h ⊢
  rw [List.length_map]
  by_cases h' : d.length = 1
  · rw [if_pos h'] at h ⊢; rw [List.getElem?_map, h]; rfl
  · rw [if_neg h'] at h ⊢; rw [List.getElem?_map, h]; rfl

theorem constAt_one {x v : ℝ} {i : Nat} (h : constAt [x] i = some v) : v = x := by
  simp [constAt] at h; exact h.symm

theorem constAt_single (x : ℝ) (i : Nat) : constAt [x] i = some x := by simp [constAt]

theorem ns_of_const {S : St} {a : Nat} (h : constData S a = none) : NS S a := by intro x; rw [h]; simp

theorem ns_length {S : St} {a : Nat} {d : List ℝ} (h : constData S a = some d) (hn : NS S a) : d.length ≠ 1 := by
  intro hl
  obtain ⟨x, rfl⟩ := List.length_eq_one_iff.mp hl
  exact hn x h

theorem map_const_builds {fmt : ℝ → List Char} {S : St} (I : Inv C fmt S) {a : Nat} {d : List ℝ} (h : constData S a = some d)
    (f : ℝ → ℝ) : Builds C fmt S (mkConst (d.map f) S) (fun ρ i v => ∃ u, Val S ρ i a u ∧ v = f u) (NS S a) := by
  refine (push_const_builds I (d.map f) (by simpa using I.cne a d (constData_node h))).weaken ?_ ?_
  · rintro ρ i v ⟨u, hu, rfl⟩
    exact constAt_map f (val_const h hu)
  · intro hn; rw [List.length_map]; exact ns_length h hn

theorem scalar_builds {fmt : ℝ → List Char} {S : St} (I : Inv C fmt S) (x : ℝ) {V : (Nat → ℝ) → Nat → ℝ → Prop} {q : Prop}
    (hV : ∀ ρ i v, V ρ i v → v = x) (hq : ¬ q) : Builds C fmt S (mkConst [x] S) V q := by
  refine (push_const_builds I [x] (by simp)).weaken ?_ (fun h => absurd h hq)
  intro ρ i v h; rw [hV ρ i v h]; exact constAt_single x i

end Verif.Expr
