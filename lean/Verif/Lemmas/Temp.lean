import Verif.Spec.Temp
import Verif.Lemmas.ExprShare
/-!
# Lemmas on differentiation with respect to an operation
-/
namespace Verif.Expr
open Spec
open scoped Classical

variable {S S' : St} {ρ : Nat → ℝ} {i t n : Nat} {c v : ℝ}

theorem isOp_iff : isOp S n = true ↔ Operation S n := by
  unfold isOp Operation ArgOf
  cases h : S.nodes[n]? with
  | none => simp
  | some nd =>
    cases nd with
    | leaf => simp [Node.isOp, Node.args]
    | const => simp [Node.isOp, Node.args]
    | un k a => simp [Node.isOp, Node.args]
    | bin k a b => simp only [Node.isOp, true_iff]; exact ⟨a, _, rfl, by simp [Node.args]⟩

theorem _root_.Verif.Spec.Operation.lt (h : Operation S n) : n < S.nodes.length := by
  obtain ⟨a, nd, h, _⟩ := h
  exact (List.getElem?_eq_some_iff.mp h).1

theorem argOf_ext (e : Ext S S') (hn : n < S.nodes.length) {a : Nat} : ArgOf S' a n ↔ ArgOf S a n := by
  unfold ArgOf
  rw [e.node' hn]

theorem operation_ext (e : Ext S S') (hn : n < S.nodes.length) : Operation S' n ↔ Operation S n := by
  unfold Operation
  simp only [argOf_ext e hn]

theorem isOp_ext (e : Ext S S') (hn : n < S.nodes.length) : isOp S' n = isOp S n := by
  unfold isOp
  rw [e.node' hn]

/-! ## Values with a node replaced -/

theorem with_val (hb : ¬ Below S t n) : With S ρ i t c n v ↔ Val S ρ i n v := by
  constructor
  · intro h
    induction h with
    | here => exact absurd Relation.ReflTransGen.refl hb
    | leaf _ h => exact .leaf h
    | const _ h h' => exact .const h h'
    | un _ h _ ih => exact .un h (ih (fun hh => hb (hh.tail ⟨_, h, by simp [Node.args]⟩)))
    | bin _ h _ _ ih1 ih2 =>
      exact .bin h (ih1 (fun hh => hb (hh.tail ⟨_, h, by simp [Node.args]⟩))) (ih2 (fun hh => hb (hh.tail ⟨_, h, by simp [Node.args]⟩)))
  · intro h
    have ne : ∀ {m : Nat}, ¬ Below S t m → m ≠ t := by
      rintro m hm rfl; exact hm Relation.ReflTransGen.refl
    induction h with
    | leaf h => exact .leaf (ne hb) h
    | const h h' => exact .const (ne hb) h h'
    | un h _ ih => exact .un (ne hb) h (ih (fun hh => hb (hh.tail ⟨_, h, by simp [Node.args]⟩)))
    | bin h _ _ ih1 ih2 =>
      exact .bin (ne hb) h (ih1 (fun hh => hb (hh.tail ⟨_, h, by simp [Node.args]⟩))) (ih2 (fun hh => hb (hh.tail ⟨_, h, by simp [Node.args]⟩)))

/-- Replacing a node by the value it has changes nothing. -/
theorem with_self (hc : Val S ρ i t c) : With S ρ i t c n v ↔ Val S ρ i n v := by
  constructor
  · intro h
    induction h with
    | here => exact hc
    | leaf _ h => exact .leaf h
    | const _ h h' => exact .const h h'
    | un _ h _ ih => exact .un h ih
    | bin _ h _ _ ih1 ih2 => exact .bin h ih1 ih2
  · intro h
    by_cases hnt : n = t
    · subst hnt
      rw [h.unique hc]; exact .here
    · have : ∀ {m : Nat} {u : ℝ}, Val S ρ i m u → With S ρ i t c m u := by
        intro m u hm
        induction hm with
        | @leaf m _ h =>
          by_cases hm : m = t
          · subst hm; rw [hc.unique (.leaf h)]; exact .here
          · exact .leaf hm h
        | @const m _ _ h h' =>
          by_cases hm : m = t
          · subst hm; rw [(Val.const h h').unique hc]; exact .here
          · exact .const hm h h'
        | @un m _ _ _ h h1 ih =>
          by_cases hm : m = t
          · subst hm; rw [(Val.un h h1).unique hc]; exact .here
          · exact .un hm h ih
        | @bin m _ _ _ _ _ h h1 h2 ih1 ih2 =>
          by_cases hm : m = t
          · subst hm; rw [(Val.bin h h1 h2).unique hc]; exact .here
          · exact .bin hm h ih1 ih2
      exact this h

theorem With.unique {w : ℝ} (h : With S ρ i t c n v) (h' : With S ρ i t c n w) : v = w := by
  induction h generalizing w with
  | here =>
    cases h' with
    | here => rfl
    | leaf h _ => exact absurd rfl h
    | const h _ _ => exact absurd rfl h
    | un h _ _ => exact absurd rfl h
    | bin h _ _ _ => exact absurd rfl h
  | leaf hn h =>
    cases h' with
    | here => exact absurd rfl hn
    | leaf _ _ => rfl
    | const _ h1 _ => rw [h] at h1; cases h1
    | un _ h1 _ => rw [h] at h1; cases h1
    | bin _ h1 _ _ => rw [h] at h1; cases h1
  | const hn h hc =>
    cases h' with
    | here => exact absurd rfl hn
    | leaf _ h1 => rw [h] at h1; cases h1
    | const _ h1 hc' => rw [h] at h1; cases h1; rw [hc] at hc'; cases hc'; rfl
    | un _ h1 _ => rw [h] at h1; cases h1
    | bin _ h1 _ _ => rw [h] at h1; cases h1
  | un hn h _ ih =>
    cases h' with
    | here => exact absurd rfl hn
    | leaf _ h1 => rw [h] at h1; cases h1
    | const _ h1 _ => rw [h] at h1; cases h1
    | un _ h1 h2 => rw [h] at h1; cases h1; rw [ih h2]
    | bin _ h1 _ _ => rw [h] at h1; cases h1
  | bin hn h _ _ ih1 ih2 =>
    cases h' with
    | here => exact absurd rfl hn
    | leaf _ h1 => rw [h] at h1; cases h1
    | const _ h1 _ => rw [h] at h1; cases h1
    | un _ h1 _ => rw [h] at h1; cases h1
    | bin _ h1 h2 h3 => rw [h] at h1; cases h1; rw [ih1 h2, ih2 h3]

/-! ## Leaves -/

theorem reaches_fuel (w : WF S) {x : Nat} : ∀ {f g n : Nat}, n < f → n < g → reaches S x f n = reaches S x g n := by
  intro f
  induction f with
  | zero => intro g n h; omega
  | succ f ih =>
    intro g n h1 h2
    cases g with
    | zero => omega
    | succ g =>
      simp only [reaches]
      cases hn : S.nodes[n]? with
      | none => rfl
      | some nd =>
        have hl : ∀ a ∈ nd.args, a < f ∧ a < g := fun a ha => by have := w n nd hn a ha; omega
        cases nd with
        | leaf => rfl
        | const => rfl
        | un k a => exact ih (hl a (by simp [Node.args])).1 (hl a (by simp [Node.args])).2
        | bin k a b =>
          simp only
          rw [ih (hl a (by simp [Node.args])).1 (hl a (by simp [Node.args])).2, ih (hl b (by simp [Node.args])).1 (hl b (by simp [Node.args])).2]

theorem reaches_arg (w : WF S) {x a : Nat} (h : ArgOf S a n) (hr : reaches S x (a + 1) a = true) : reaches S x (n + 1) n = true := by
  obtain ⟨nd, hn, ha⟩ := h
  have hlt := w n nd hn a ha
  rw [reaches_fuel w (Nat.lt_succ_self a) hlt] at hr
  simp only [reaches, hn]
  cases nd with
  | leaf => simp [Node.args] at ha
  | const => simp [Node.args] at ha
  | un k b => simp [Node.args] at ha; subst ha; exact hr
  | bin k b d =>
    simp [Node.args] at ha
    rcases ha with rfl | rfl
    · simp [hr]
    · simp [hr]

theorem leaves_below (w : WF S) (h : Below S t n) {x : Nat} (hx : x ∈ leavesOf S t) : x ∈ leavesOf S n := by
  unfold leavesOf at *
  rw [List.mem_filter] at *
  refine ⟨hx.1, ?_⟩
  induction h with
  | refl => exact hx.2
  | tail _ h ih => exact reaches_arg w h ih

theorem potential_iff : potential S n t = true ↔ ∀ x ∈ leavesOf S t, x ∈ leavesOf S n := by
  unfold potential
  constructor
  · intro h
    split at h
    · cases h
    · simpa using h
  · intro h
    have hn : ∀ m, (leavesOf S m).Nodup := fun m => List.Nodup.filter _ List.nodup_range
    have := (List.subperm_of_subset (hn t) h).length_le
    rw [if_neg (by omega)]
    simpa using h

theorem potential_below (w : WF S) (h : Below S t n) : potential S n t = true :=
  potential_iff.mpr fun _ => leaves_below w h

theorem below_lt (w : WF S) (h : Below S t n) : t ≤ n := by
  induction h with
  | refl => exact le_refl _
  | tail _ h ih =>
    obtain ⟨nd, h1, h2⟩ := h
    have := w _ nd h1 _ h2
    omega

theorem below_operation (h : Below S t n) (ht : Operation S t) : Operation S n := by
  cases h with
  | refl => exact ht
  | tail _ h => exact ⟨_, h⟩

theorem below_ext (w : WF S) (e : Ext S S') (hn : n < S.nodes.length) : Below S' t n ↔ Below S t n := by
  constructor
  · intro h
    induction h with
    | refl => exact .refl
    | tail _ h ih =>
      have h' := (argOf_ext e hn).mp h
      obtain ⟨nd, h1, h2⟩ := h'
      exact (ih (lt_trans (w _ nd h1 _ h2) hn)).tail ⟨nd, h1, h2⟩
  · intro h
    induction h with
    | refl => exact .refl
    | tail _ h ih =>
      obtain ⟨nd, h1, h2⟩ := h
      exact (ih (lt_trans (w _ nd h1 _ h2) hn)).tail ⟨nd, e.node h1, h2⟩

/-! ## The clone -/

theorem push_ok (nd : Node) (S : St) : push nd S = .ok (S.nodes.length, { S with nodes := S.nodes ++ [nd] }) := rfl

theorem ext_push (nd : Node) (S : St) : Ext S { S with nodes := S.nodes ++ [nd] } := ⟨⟨[nd], rfl⟩, fun _ h => h, fun _ h => h⟩

theorem wf_push {nd : Node} (w : WF S) (h : ∀ a ∈ nd.args, a < S.nodes.length) : WF { S with nodes := S.nodes ++ [nd] } := by
  intro m nd' hm a ha
  rcases getElem?_snoc hm with hm | ⟨rfl, rfl⟩
  · exact w m nd' hm a ha
  · exact h a ha

/-- What a step of the cloning keeps: `base` is the constant 1. -/
structure TI (S0 : St) (p : Option Nat × St) : Prop where
  wf : WF p.2
  ext : Ext S0 p.2
  base : ∀ b, p.1 = some b → p.2.nodes[b]? = some (.const [1])

/-- `r` stands for `n` with the target replaced. -/
def Stands (S0 : St) (t n : Nat) (r : Nat × Option Nat × St) : Prop :=
  r.1 < r.2.2.nodes.length ∧ ∀ ρ i v, Val r.2.2 ρ i r.1 v ↔ With S0 ρ i t 1 n v

theorem val_at_const {d : List ℝ} (h : S.nodes[n]? = some (.const d)) : Val S ρ i n v ↔ constAt d i = some v := by
  constructor
  · intro hv
    cases hv with
    | leaf h' => rw [h] at h'; cases h'
    | const h' hc => rw [h] at h'; cases h'; exact hc
    | un h' _ => rw [h] at h'; cases h'
    | bin h' _ _ => rw [h] at h'; cases h'
  · exact fun hc => .const h hc

theorem val_at_un {k : K1} {a : Nat} (h : S.nodes[n]? = some (.un k a)) : Val S ρ i n v ↔ ∃ u, Val S ρ i a u ∧ v = k.fn u := by
  constructor
  · intro hv
    cases hv with
    | leaf h' => rw [h] at h'; cases h'
    | const h' hc => rw [h] at h'; cases h'
    | un h' h1 => rw [h] at h'; cases h'; exact ⟨_, h1, rfl⟩
    | bin h' _ _ => rw [h] at h'; cases h'
  · rintro ⟨u, h1, rfl⟩; exact .un h h1

theorem val_at_bin {k : K2} {a b : Nat} (h : S.nodes[n]? = some (.bin k a b)) :
    Val S ρ i n v ↔ ∃ u w, Val S ρ i a u ∧ Val S ρ i b w ∧ v = k.fn u w := by
  constructor
  · intro hv
    cases hv with
    | leaf h' => rw [h] at h'; cases h'
    | const h' hc => rw [h] at h'; cases h'
    | un h' h1 => rw [h] at h'; cases h'
    | bin h' h1 h2 => rw [h] at h'; cases h'; exact ⟨_, _, h1, h2, rfl⟩
  · rintro ⟨u, w, h1, h2, rfl⟩; exact .bin h h1 h2

theorem with_at_un {k : K1} {a : Nat} (hn : n ≠ t) (h : S.nodes[n]? = some (.un k a)) :
    With S ρ i t c n v ↔ ∃ u, With S ρ i t c a u ∧ v = k.fn u := by
  constructor
  · intro hv
    cases hv with
    | here => exact absurd rfl hn
    | leaf _ h' => rw [h] at h'; cases h'
    | const _ h' hc => rw [h] at h'; cases h'
    | un _ h' h1 => rw [h] at h'; cases h'; exact ⟨_, h1, rfl⟩
    | bin _ h' _ _ => rw [h] at h'; cases h'
  · rintro ⟨u, h1, rfl⟩; exact .un hn h h1

theorem with_at_bin {k : K2} {a b : Nat} (hn : n ≠ t) (h : S.nodes[n]? = some (.bin k a b)) :
    With S ρ i t c n v ↔ ∃ u w, With S ρ i t c a u ∧ With S ρ i t c b w ∧ v = k.fn u w := by
  constructor
  · intro hv
    cases hv with
    | here => exact absurd rfl hn
    | leaf _ h' => rw [h] at h'; cases h'
    | const _ h' hc => rw [h] at h'; cases h'
    | un _ h' h1 => rw [h] at h'; cases h'
    | bin _ h' h1 h2 => rw [h] at h'; cases h'; exact ⟨_, _, h1, h2, rfl⟩
  · rintro ⟨u, w, h1, h2, rfl⟩; exact .bin hn h h1 h2

theorem with_here : With S ρ i t c t v ↔ v = c := by
  constructor
  · intro h; exact With.unique h .here
  · rintro rfl; exact .here

theorem val_ext (w : WF S) (e : Ext S S') (hn : n < S.nodes.length) : Val S' ρ i n v ↔ Val S ρ i n v :=
  ⟨fun h => h.restrict w e hn, fun h => h.mono e⟩

theorem getBase_ok {S0 : St} {p : Option Nat × St} (I : TI S0 p) :
    ∃ r, getBase p = .ok r ∧ TI S0 r.2 ∧ Ext p.2 r.2.2 ∧ Stands S0 t t r := by
  unfold getBase
  cases hb : p.1 with
  | some b =>
    have h1 := I.base b hb
    refine ⟨_, rfl, ⟨I.wf, I.ext, ?_⟩, Ext.refl _, (List.getElem?_eq_some_iff.mp h1).1, ?_⟩
    · rintro b' ⟨⟩; exact h1
    · intro ρ i v
      show Val p.2 ρ i b v ↔ _
      rw [val_at_const h1, with_here, constAt_single]
      exact ⟨fun h => by cases h; rfl, fun h => by rw [h]⟩
  | none =>
    have h1 : (p.2.nodes ++ [Node.const [1]])[p.2.nodes.length]? = some (.const [1]) := by simp
    refine ⟨(p.2.nodes.length, some p.2.nodes.length, { p.2 with nodes := p.2.nodes ++ [.const [1]] }), rfl, ?_, ext_push _ _, ?_, ?_⟩
    · refine ⟨wf_push I.wf (by simp [Node.args]), I.ext.trans (ext_push _ _), ?_⟩
      rintro b' ⟨⟩; exact h1
    · simp
    · intro ρ i v
      have h2 : ({ p.2 with nodes := p.2.nodes ++ [.const [1]] } : St).nodes[p.2.nodes.length]? = some (.const [1]) := h1
      rw [val_at_const h2, with_here, constAt_single]
      exact ⟨fun h => by cases h; rfl, fun h => by rw [h]⟩

theorem argClone_ok {S0 : St} {p : Option Nat × St} (I : TI S0 p) (nd : Node) (h : ∀ a ∈ nd.args, a < p.2.nodes.length) :
    ∃ r, argClone nd p = .ok r ∧ TI S0 r.2 ∧ Ext p.2 r.2.2 ∧ r.1 < r.2.2.nodes.length ∧ r.2.2.nodes[r.1]? = some nd := by
  refine ⟨(p.2.nodes.length, p.1, { p.2 with nodes := p.2.nodes ++ [nd] }), rfl, ⟨wf_push I.wf h, I.ext.trans (ext_push _ _), ?_⟩, ext_push _ _, ?_, ?_⟩
  · intro b hb; exact (ext_push nd p.2).node (I.base b hb)
  · simp
  · simp

theorem tempArg_ok {S0 : St} (w0 : WF S0) (ht : Operation S0 t) {rec : Nat → MB} {a : Nat} (ha : a < S0.nodes.length) {p : Option Nat × St} (I : TI S0 p)
    (hrec : Operation S0 a → ∃ r, rec a p = .ok r ∧ TI S0 r.2 ∧ Ext p.2 r.2.2 ∧ Stands S0 t a r) :
    ∃ r, tempArg rec t a p = .ok r ∧ TI S0 r.2 ∧ Ext p.2 r.2.2 ∧ Stands S0 t a r := by
  unfold tempArg
  split <;> rename_i hh
  · rw [Bool.and_eq_true, isOp_ext I.ext ha, isOp_iff] at hh
    exact hrec hh.1
  · refine ⟨_, rfl, ⟨I.wf, I.ext, I.base⟩, Ext.refl _, lt_of_lt_of_le ha I.ext.length, fun ρ i v => ?_⟩
    show Val p.2 ρ i a v ↔ _
    rw [val_ext w0 I.ext ha, with_val]
    intro hb
    apply hh
    have hlt : a < p.2.nodes.length := lt_of_lt_of_le ha I.ext.length
    rw [Bool.and_eq_true, isOp_ext I.ext ha, isOp_iff]
    exact ⟨below_operation hb ht, potential_below I.wf ((below_ext w0 I.ext ha).mpr hb)⟩

theorem tempEval_ok {S0 : St} (w0 : WF S0) (ht : Operation S0 t) : ∀ {fuel n : Nat}, n < fuel → Operation S0 n → ∀ {p : Option Nat × St}, TI S0 p →
    ∃ r, tempEval t fuel n p = .ok r ∧ TI S0 r.2 ∧ Ext p.2 r.2.2 ∧ Stands S0 t n r := by
  intro fuel
  induction fuel with
  | zero => intro n h; omega
  | succ fuel ih =>
    intro n hn ho p I
    by_cases hnt : n = t
    · subst hnt
      simp only [tempEval, if_true]
      exact getBase_ok I
    · obtain ⟨a0, nd, hnd, ha0⟩ := ho
      have hl : ∀ a ∈ nd.args, a < fuel ∧ a < S0.nodes.length := by
        intro a ha
        have h1 := w0 n nd hnd a ha
        have h2 := (List.getElem?_eq_some_iff.mp hnd).1
        omega
      simp only [tempEval, if_neg hnt, I.ext.node hnd]
      cases nd with
      | leaf => simp [Node.args] at ha0
      | const => simp [Node.args] at ha0
      | un k a =>
        have la := hl a (by simp [Node.args])
        obtain ⟨r, e1, I1, x1, s1, v1⟩ := tempArg_ok w0 ht la.2 I (fun h => ih la.1 h I)
        simp only [e1, Outcome.ok_bind]
        obtain ⟨q, e2, I2, x2, s2, n2⟩ := argClone_ok I1 (.un k r.1) (by simpa [Node.args] using s1)
        refine ⟨q, e2, I2, x1.trans x2, s2, fun ρ i v => ?_⟩
        rw [val_at_un n2, with_at_un hnt hnd]
        simp only [val_ext I1.wf x2 s1, v1]
      | bin k a b =>
        have la := hl a (by simp [Node.args])
        have lb := hl b (by simp [Node.args])
        obtain ⟨r, e1, I1, x1, s1, v1⟩ := tempArg_ok w0 ht la.2 I (fun h => ih la.1 h I)
        simp only [e1, Outcome.ok_bind]
        obtain ⟨r', e3, I3, x3, s3, v3⟩ := tempArg_ok w0 ht lb.2 I1 (fun h => ih lb.1 h I1)
        simp only [e3, Outcome.ok_bind]
        have s1' : r.1 < r'.2.2.nodes.length := lt_of_lt_of_le s1 x3.length
        obtain ⟨q, e2, I2, x2, s2, n2⟩ := argClone_ok I3 (.bin k r.1 r'.1) (by
          intro d hd
          simp [Node.args] at hd
          rcases hd with rfl | rfl
          · exact s1'
          · exact s3)
        refine ⟨q, e2, I2, (x1.trans x3).trans x2, s2, fun ρ i v => ?_⟩
        rw [val_at_bin n2, with_at_bin hnt hnd]
        simp only [val_ext I3.wf x2 s1', val_ext I3.wf x2 s3, val_ext I1.wf x3 s1, v1, v3]

/-! ## Graphs -/

/-- The edges between operations, those into the first `k` nodes. -/
def Edge (S : St) (k a n : Nat) : Prop := n < k ∧ Operation S a ∧ ArgOf S a n

theorem edge_mono {k : Nat} : ∀ {a b : Nat}, Relation.EqvGen (Edge S k) a b → Relation.EqvGen (Edge S (k + 1)) a b := by
  intro a b h
  exact h.mono (fun a b h => ⟨by have := h.1; omega, h.2⟩)

theorem edge_lt (w : WF S) {k a b : Nat} (h : Relation.EqvGen (Edge S k) a b) : a = b ∨ (a < k ∧ b < k) := by
  induction h with
  | rel a b h =>
    obtain ⟨h1, _, nd, h2, h3⟩ := h
    have := w b nd h2 a h3
    right; omega
  | refl => exact Or.inl rfl
  | symm _ _ _ ih => rcases ih with rfl | ih
                     · exact Or.inl rfl
                     · exact Or.inr ⟨ih.2, ih.1⟩
  | trans _ _ _ _ _ ih1 ih2 =>
    rcases ih1 with rfl | ih1
    · exact ih2
    · rcases ih2 with rfl | ih2
      · exact Or.inr ih1
      · exact Or.inr ⟨ih1.1, ih2.2⟩

/-- Joining adds exactly the edges into the new node. -/
theorem joinGraph_iff (w : WF S) {k : Nat} {f : Nat → Nat} (hf : ∀ a b, f a = f b ↔ Relation.EqvGen (Edge S k) a b) (hk : ∀ m, k ≤ m → f m = m)
    {cs : List Nat} (hcs : ∀ a, a ∈ cs ↔ Operation S a ∧ ArgOf S a k) :
    (∀ a b, joinGraph f k cs a = joinGraph f k cs b ↔ Relation.EqvGen (Edge S (k + 1)) a b) ∧ ∀ m, k + 1 ≤ m → joinGraph f k cs m = m := by
  have hlt : ∀ a ∈ cs, a < k := by
    intro a ha
    obtain ⟨_, nd, h1, h2⟩ := (hcs a).mp ha
    exact w k nd h1 a h2
  have he : ∀ a ∈ cs, Relation.EqvGen (Edge S (k + 1)) a k := fun a ha => .rel _ _ ⟨Nat.lt_succ_self k, (hcs a).mp ha⟩
  cases cs with
  | nil =>
    have e : joinGraph f k [] = f := by
      funext m
      simp only [joinGraph]
      split
      · rename_i h; rw [h, hk k (le_refl _)]
      · rfl
    rw [e]
    refine ⟨fun a b => ?_, fun m hm => hk m (by omega)⟩
    rw [hf]
    refine ⟨edge_mono, fun h => h.mono ?_⟩
    rintro a n ⟨h1, h2, h3⟩
    refine ⟨?_, h2, h3⟩
    rcases Nat.lt_succ_iff_lt_or_eq.mp h1 with h1 | rfl
    · exact h1
    · exact absurd ((hcs a).mpr ⟨h2, h3⟩) (by simp)
  | cons c rest =>
    have hc : Relation.EqvGen (Edge S (k + 1)) c k := he c List.mem_cons_self
    -- a node is in the class of the new one, or keeps its old class
    have key : ∀ m, (joinGraph f k (c :: rest) m = f c ∧ Relation.EqvGen (Edge S (k + 1)) m c) ∨
        (joinGraph f k (c :: rest) m = f m ∧ m ≠ k ∧ f m ∉ rest.map f) := by
      intro m
      simp only [joinGraph]
      by_cases hm : m = k
      · left; rw [if_pos hm, hm]; exact ⟨rfl, hc.symm⟩
      · rw [if_neg hm]
        by_cases hr : f m ∈ rest.map f
        · left; rw [if_pos hr]
          obtain ⟨r, h1, h2⟩ := List.mem_map.mp hr
          exact ⟨rfl, .trans _ _ _ (edge_mono ((hf m r).mp h2.symm)) (.trans _ _ _ (he r (List.mem_cons_of_mem _ h1)) hc.symm)⟩
        · right; rw [if_neg hr]; exact ⟨rfl, hm, hr⟩
    have cls : ∀ m, joinGraph f k (c :: rest) m = f c → Relation.EqvGen (Edge S (k + 1)) m c := by
      intro m h
      rcases key m with ⟨_, h1⟩ | ⟨h1, _⟩
      · exact h1
      · rw [h1] at h; exact edge_mono ((hf m c).mp h)
    refine ⟨fun a b => ⟨fun h => ?_, fun h => ?_⟩, fun m hm => ?_⟩
    · rcases key a with ⟨h1, h2⟩ | ⟨h1, _⟩
      · exact .trans _ _ _ h2 (.symm _ _ (cls b (h.symm.trans h1)))
      · rcases key b with ⟨h3, h4⟩ | ⟨h3, _⟩
        · exact .trans _ _ _ (cls a (h.trans h3)) (.symm _ _ h4)
        · rw [h1, h3] at h; exact edge_mono ((hf a b).mp h)
    · induction h with
      | rel a n h =>
        obtain ⟨h1, h2, h3⟩ := h
        obtain ⟨nd, h4, h5⟩ := h3
        have ha := w n nd h4 a h5
        rcases Nat.lt_succ_iff_lt_or_eq.mp h1 with h1 | rfl
        · have hfa : f a = f n := (hf a n).mpr (.rel _ _ ⟨h1, h2, nd, h4, h5⟩)
          simp only [joinGraph]
          rw [if_neg (show ¬ a = k by omega), if_neg (show ¬ n = k by omega), hfa]
        · have ha' := (hcs a).mpr ⟨h2, nd, h4, h5⟩
          simp only [joinGraph, if_true]
          rw [if_neg (by omega)]
          rcases List.mem_cons.mp ha' with rfl | ha'
          · split <;> rfl
          · rw [if_pos (List.mem_map_of_mem ha')]
      | refl => rfl
      | symm _ _ _ ih => exact ih.symm
      | trans _ _ _ _ _ ih1 ih2 => exact ih1.trans ih2
    · have h1 : f m = m := hk m (by omega)
      simp only [joinGraph]
      rw [if_neg (by omega), if_neg, h1]
      intro hr
      obtain ⟨r, h2, h3⟩ := List.mem_map.mp hr
      have h4 := hlt r (List.mem_cons_of_mem _ h2)
      rcases edge_lt w ((hf r m).mp h3) with h5 | h5 <;> omega

theorem graphs_iff (w : WF S) : ∀ k, (∀ a b, graphs S.nodes k a = graphs S.nodes k b ↔ Relation.EqvGen (Edge S k) a b) ∧ ∀ m, k ≤ m → graphs S.nodes k m = m := by
  intro k
  induction k with
  | zero =>
    refine ⟨fun a b => ?_, fun m _ => rfl⟩
    simp only [graphs]
    refine ⟨fun h => h ▸ .refl _, fun h => ?_⟩
    rcases edge_lt w h with h | h
    · exact h
    · omega
  | succ k ih =>
    have skip : ¬ Operation S k → (∀ a b, graphs S.nodes k a = graphs S.nodes k b ↔ Relation.EqvGen (Edge S (k + 1)) a b) ∧ ∀ m, k + 1 ≤ m → graphs S.nodes k m = m := by
      intro hno
      refine ⟨fun a b => ?_, fun m hm => ih.2 m (by omega)⟩
      rw [ih.1]
      refine ⟨edge_mono, fun h => h.mono ?_⟩
      rintro a n ⟨h1, h2, h3⟩
      refine ⟨?_, h2, h3⟩
      rcases Nat.lt_succ_iff_lt_or_eq.mp h1 with h1 | rfl
      · exact h1
      · exact absurd ⟨_, h3⟩ hno
    simp only [graphs]
    cases hk : S.nodes[k]? with
    | none =>
      refine skip ?_
      rintro ⟨a, nd, h1, _⟩
      rw [hk] at h1; cases h1
    | some nd =>
      simp only
      by_cases ho : nd.isOp = true
      · rw [if_pos ho]
        refine joinGraph_iff w ih.1 ih.2 (fun a => ?_)
        rw [List.mem_filter, decide_eq_true_iff, ← isOp_iff]
        have h1 : (∃ b ∈ S.nodes[a]?, b.isOp = true) ↔ isOp S a = true := by
          unfold isOp
          cases S.nodes[a]? with
          | none => simp
          | some b => simp
        rw [h1, and_comm]
        refine and_congr_right fun _ => ⟨fun h => ⟨nd, hk, h⟩, ?_⟩
        rintro ⟨nd', h2, h3⟩
        rw [hk] at h2; cases h2; exact h3
      · rw [if_neg ho]
        refine skip ?_
        rw [← isOp_iff]
        unfold isOp
        rw [hk]
        exact ho

theorem sameGraph_iff (w : WF S) {a b : Nat} : sameGraph S a b = true ↔ OneGraph S a b := by
  unfold sameGraph OneGraph
  rw [decide_eq_true_iff, (graphs_iff w _).1]
  constructor
  · exact fun h => h.mono (fun a b h => h.2)
  · refine fun h => h.mono (fun a b h => ⟨?_, h⟩)
    obtain ⟨_, nd, h1, _⟩ := h
    exact (List.getElem?_eq_some_iff.mp h1).1

theorem below_linked (h : Below S t n) (ht : Operation S t) : OneGraph S t n := by
  induction h with
  | refl => exact .refl _
  | tail h1 h2 ih => exact .trans _ _ _ ih (.rel _ _ ⟨below_operation h1 ht, h2⟩)

/-! ## Derivation with respect to an operation -/

/-- What every state reached has. -/
structure Ready (S : St) : Prop where
  wf : WF S
  zero : S.nodes[0]? = some (.const [0])
  one : S.nodes[1]? = some (.const [1])

theorem Ready.ext (R : Ready S) (w : WF S') (e : Ext S S') : Ready S' := ⟨w, e.node R.zero, e.node R.one⟩

theorem deriveOp_ok (R : Ready S) {y : Nat} (ht : Operation S t) :
    ∃ r S', deriveOp y t S = .ok (r, S') ∧ Ready S' ∧ Ext S S' ∧ r < S'.nodes.length ∧
      (y = t → r = 1 ∧ S' = S) ∧
      (y ≠ t → (Operation S y ∧ OneGraph S y t) → ∀ ρ i v, Val S' ρ i r v ↔ With S ρ i t 1 y v) ∧
      (y ≠ t → ¬ (Operation S y ∧ OneGraph S y t) → r = 0 ∧ S' = S) := by
  unfold deriveOp
  by_cases hyt : y = t
  · rw [if_pos hyt]
    exact ⟨1, S, rfl, R, Ext.refl _, (List.getElem?_eq_some_iff.mp R.one).1, fun _ => ⟨rfl, rfl⟩, fun h => absurd hyt h, fun h => absurd hyt h⟩
  · rw [if_neg hyt]
    by_cases hg : (isOp S y && isOp S t && sameGraph S y t) = true
    · rw [if_pos hg]
      simp only [Bool.and_eq_true, isOp_iff, sameGraph_iff R.wf] at hg
      obtain ⟨r, e, I, x, s, hv⟩ := tempEval_ok R.wf ht (Nat.lt_succ_self y) hg.1.1 (p := (none, S)) ⟨R.wf, Ext.refl _, by rintro b ⟨⟩⟩
      rw [e]
      exact ⟨r.1, r.2.2, rfl, R.ext I.wf x, x, s, fun h => absurd h hyt, fun _ _ => hv, fun _ h => absurd ⟨hg.1.1, hg.2⟩ h⟩
    · rw [if_neg hg]
      have : ¬ (Operation S y ∧ OneGraph S y t) := by
        rintro ⟨h1, h2⟩
        apply hg
        simp only [Bool.and_eq_true, isOp_iff, sameGraph_iff R.wf]
        exact ⟨⟨h1, ht⟩, h2⟩
      exact ⟨0, S, rfl, R, Ext.refl _, (List.getElem?_eq_some_iff.mp R.zero).1, fun h => absurd h hyt, fun _ h => absurd h this, fun _ _ => ⟨rfl, rfl⟩⟩

theorem runOps_ready {ds : List (Nat × Nat)} (R : Ready S) (h : runOps ds S = .ok S') : Ready S' := by
  induction ds generalizing S with
  | nil => cases h; exact R
  | cons d ds ih =>
    rw [runOps] at h
    split at h
    · rename_i hc
      obtain ⟨r, S1, e, R1, _⟩ := deriveOp_ok R (isOp_iff.mp hc.2)
      rw [e, Outcome.ok_bind] at h
      exact ih R1 h
    · cases h

theorem built_ready {fmt : ℝ → List Char} (h : Built fmt S) : Ready S := by
  obtain ⟨cs, ds, S0, h1, h2⟩ := h
  have I := reach h1
  exact runOps_ready ⟨I.wf, I.zero, I.one⟩ h2

end Verif.Expr
