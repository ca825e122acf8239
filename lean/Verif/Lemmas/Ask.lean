import Verif.Spec.Ask
import Verif.Lemmas.ExprCalls
import Verif.Lemmas.Transform
import Verif.Lemmas.Shape
/-!
# Lemmas on node sharing
-/
namespace Verif.Ask
open Spec
open scoped Classical

variable {S S' S'' : St} {fmt : ℝ → List Char} {env : Expr.Env}

theorem axisSize_eq (k : Nat) : axisSize k = sizeAt k := by
  funext s
  unfold axisSize sizeAt
  by_cases h : k < s.length
  · rw [if_pos h, List.getElem?_eq_getElem h]
    simp [List.getD, h]
  · rw [if_neg h, List.getElem?_eq_none (by omega)]

theorem vol_prod (s : List Nat) : vol s = s.prod := by
  induction s with
  | nil => rfl
  | cons d ds ih => rw [vol, List.prod_cons, ih]

theorem allSize_eq : allSize = sizeAll := by
  funext s
  unfold allSize sizeAll
  by_cases h : s = []
  · subst h; rfl
  · rw [if_neg h, Shape.nElems_eq h, vol_prod]

theorem clipData_eq (c : ℝ) (d : List ℝ) : clipData c d = clippedTo c d := by
  unfold clipData clippedTo squares
  by_cases h : (d.map fun x => x * x).sum ≤ c
  · rw [if_pos h]
    have : ∀ x : ℝ, (if (d.map fun x => x * x).sum > c then x * c / (d.map fun x => x * x).sum else x) = x := fun x => if_neg (not_lt.mpr h)
    simp only [this, List.map_id']
  · rw [if_neg h]
    have : ∀ x : ℝ, (if (d.map fun x => x * x).sum > c then x * c / (d.map fun x => x * x).sum else x) = x * c / (d.map fun x => x * x).sum :=
      fun x => if_pos (not_le.mp h)
    simp only [this]

theorem argMaxOf_eq : argMaxOf = firstMax := by
  funext d
  unfold argMaxOf firstMax
  congr 1
  by_cases hd : d = []
  · subst hd; rfl
  obtain ⟨b, h1, h2, h3⟩ := Transform.maxElement_spec (fun x y : ℝ => decide (x < y)) (by simp)
    (fun a b c h1 h2 => by simp at *; linarith) (fun a b c h1 h2 => by simp at *; linarith) d hd
  simp only [decide_eq_false_iff_not, decide_eq_true_eq, not_lt] at h2 h3
  generalize Transform.maxElement (fun x y : ℝ => decide (x < y)) d = m at *
  have hm : m < d.length := by
    by_contra c
    rw [List.getElem?_eq_none (by omega)] at h1; cases h1
  have e : d[m] = b := by
    rw [List.getElem?_eq_getElem hm] at h1; cases h1; rfl
  symm
  rw [List.findIdx_eq hm]
  constructor
  · rw [e]; simpa using h2
  · intro j hj
    have := h3 j d[j] hj (List.getElem?_eq_getElem _)
    rw [List.all_eq_false]
    refine ⟨b, ?_, ?_⟩
    · rw [← e]; exact List.getElem_mem hm
    · simpa using this

/-- Nodes are added, none is changed. -/
structure Ext (S S' : St) : Prop where
  nodes : ∃ l, S'.nodes = S.nodes ++ l
  asked : ∀ o ∈ S.asked, o ∈ S'.asked

theorem Ext.rfl : Ext S S := ⟨⟨[], by simp⟩, fun _ h => h⟩

theorem Ext.trans (h : Ext S S') (h' : Ext S' S'') : Ext S S'' := by
  obtain ⟨l, hl⟩ := h.nodes
  obtain ⟨l', hl'⟩ := h'.nodes
  exact ⟨⟨l ++ l', by rw [hl', hl, List.append_assoc]⟩, fun o ho => h'.asked o (h.asked o ho)⟩

theorem Ext.get (h : Ext S S') {n : Nat} {x : Node} (hn : S.nodes[n]? = some x) : S'.nodes[n]? = some x := by
  obtain ⟨l, hl⟩ := h.nodes
  rw [hl, List.getElem?_append_left (List.getElem?_eq_some_iff.1 hn).1]; exact hn

theorem Ext.back (h : Ext S S') {n : Nat} {x : Node} (hl : n < S.nodes.length) (hn : S'.nodes[n]? = some x) : S.nodes[n]? = some x := by
  obtain ⟨l, he⟩ := h.nodes
  rwa [he, List.getElem?_append_left hl] at hn

theorem Ext.le (h : Ext S S') : S.nodes.length ≤ S'.nodes.length := by
  obtain ⟨l, he⟩ := h.nodes
  rw [he]; simp

theorem note_ext (o : Op) : Ext S (note o S) := ⟨⟨[], by simp [note]⟩, fun _ h => List.mem_cons_of_mem _ h⟩

theorem Apart.back (h : Ext S S') (hA : Apart fmt S') : Apart fmt S :=
  ⟨fun o ho o' ho' => hA.1 o (h.asked o ho) o' (h.asked o' ho'), fun o ho => hA.2 o (h.asked o ho)⟩

/-- The arguments an operation has. -/
def ArgsOk (S : St) : Op → List Nat → Prop
  | .extract _ _, args => args ≠ []
  | .clipNorm _, args => ∃ l a, args = [l, a] ∧ IsOp S l .l2norm [a]
  | .arith _, args => ∃ a b, args = [a, b]
  | .axial _ _ _, args => ∃ a b, args = [a, b]
  | .cond _ _, args => ∃ a b, args = [a, b]
  | .fit, args => ∃ a b, args = [a, b]
  | .cross _ _, args => ∃ a b, args = [a, b]
  | .matmul, args => ∃ a b, args = [a, b]
  | .elem _, args => ∃ a, args = [a]
  | .transpose _ _, args => ∃ a, args = [a]
  | .extend _ _, args => ∃ a, args = [a]
  | .compress _ _ _, args => ∃ a, args = [a]
  | .argCompress _ _ _, args => ∃ a, args = [a]
  | .flip _, args => ∃ a, args = [a]
  | .l2norm, args => ∃ a, args = [a]
  | .sample _, args => ∃ a, args = [a]
  | .asConst, args => ∃ a, args = [a]

theorem ArgsOk.mono (h : Ext S S') {o : Op} {args : List Nat} (ha : ArgsOk S o args) : ArgsOk S' o args := by
  cases o with
  | clipNorm c => obtain ⟨l, a, h1, h2⟩ := ha; exact ⟨l, a, h1, h.get h2⟩
  | _ => exact ha

/-- Looked for with its arguments in either order. -/
def Either : Op → Bool
  | .arith o => o.unordered
  | .axial o _ _ => o.unordered
  | _ => false

/-- Arguments are older than the node. -/
def Wf (S : St) : Prop := ∀ n o args, IsOp S n o args → ∀ a ∈ args, a < n

structure Inv (S : St) : Prop where
  wf : ∀ n o args, IsOp S n o args → ∀ a ∈ args, a < n
  asked : ∀ n o args, IsOp S n o args → o ∈ S.asked
  ok : ∀ n o args, IsOp S n o args → ArgsOk S o args
  uniq : ∀ p q o args, IsOp S p o args → IsOp S q o args → o ≠ .asConst → p = q
  either : ∀ p q o a b, IsOp S p o [a, b] → IsOp S q o [b, a] → Either o = true → p = q
  once : ∀ n i j a c, IsOp S n (.transpose i j) [a] → ¬ IsOp S a (.transpose i j) [c]

theorem init_inv : Inv St.init := by
  constructor <;> intros <;> simp_all [IsOp, St.init]

theorem note_inv {o : Op} (h : Inv S) : Inv (note o S) := by
  refine ⟨h.wf, fun n o' args hn => List.mem_cons_of_mem _ (h.asked n o' args hn), fun n o' args hn => (h.ok n o' args hn).mono (note_ext o), h.uniq, h.either, h.once⟩

theorem isOp_lt {n : Nat} {o : Op} {args : List Nat} (h : IsOp S n o args) : n < S.nodes.length := (List.getElem?_eq_some_iff.1 h).1

/-- A new operation node. -/
theorem push_inv {o : Op} {args : List Nat} (h : Inv S) (ho : o ∈ S.asked) (ha : ∀ a ∈ args, a < S.nodes.length) (hok : ArgsOk S o args)
    (hu : o ≠ .asConst → ∀ p, ¬ IsOp S p o args) (he : Either o = true → ∀ p a b, args = [a, b] → ¬ IsOp S p o [b, a])
    (hT : ∀ i j a, o = .transpose i j → args = [a] → ∀ c, ¬ IsOp S a (.transpose i j) [c]) :
    Inv { S with nodes := S.nodes ++ [.op o args] } := by
  have hext : Ext S { S with nodes := S.nodes ++ [.op o args] } := ⟨⟨_, rfl⟩, fun _ h => h⟩
  have key : ∀ n o' args', IsOp { S with nodes := S.nodes ++ [.op o args] } n o' args' →
      IsOp S n o' args' ∨ (n = S.nodes.length ∧ o' = o ∧ args' = args) := by
    intro n o' args' hn
    by_cases hl : n < S.nodes.length
    · exact .inl (hext.back hl hn)
    · have hlt := isOp_lt hn
      simp at hlt
      have : n = S.nodes.length := by omega
      subst this
      simp [IsOp] at hn
      exact .inr ⟨rfl, hn.1.symm, hn.2.symm⟩
  constructor
  · intro n o' args' hn
    rcases key _ _ _ hn with hn | ⟨rfl, rfl, rfl⟩
    · exact h.wf _ _ _ hn
    · exact ha
  · intro n o' args' hn
    rcases key _ _ _ hn with hn | ⟨rfl, rfl, rfl⟩
    · exact h.asked _ _ _ hn
    · exact ho
  · intro n o' args' hn
    rcases key _ _ _ hn with hn | ⟨rfl, rfl, rfl⟩
    · exact (h.ok _ _ _ hn).mono hext
    · exact hok.mono hext
  · intro p q o' args' hp hq hne
    rcases key _ _ _ hp with hp | ⟨rfl, rfl, rfl⟩
    · rcases key _ _ _ hq with hq | ⟨_, h1, h2⟩
      · exact h.uniq _ _ _ _ hp hq hne
      · rw [h1, h2] at hp; exact absurd hp (hu (h1 ▸ hne) p)
    · rcases key _ _ _ hq with hq | ⟨rfl, _, _⟩
      · exact absurd hq (hu hne q)
      · rfl
  · intro p q o' a b hp hq heq
    rcases key _ _ _ hp with hp | ⟨rfl, rfl, hab⟩
    · rcases key _ _ _ hq with hq | ⟨_, h1, hab⟩
      · exact h.either _ _ _ _ _ hp hq heq
      · rw [h1] at hp heq; exact absurd hp (he heq p b a hab.symm)
    · rcases key _ _ _ hq with hq | ⟨rfl, _, _⟩
      · exact absurd hq (he heq q a b hab.symm)
      · rfl
  · intro n i j a c hn hc
    rcases key _ _ _ hn with hn | ⟨rfl, rfl, rfl⟩
    · have hlt := h.wf _ _ _ hn a (by simp)
      exact h.once n i j a c hn (hext.back (lt_trans hlt (isOp_lt hn)) hc)
    · exact hT i j a rfl rfl c (hext.back (ha a (by simp)) hc)

/-- A new leaf or constant. -/
theorem push_leaf_inv {x : Node} (hx : ∀ o args, x ≠ .op o args) (h : Inv S) : Inv { S with nodes := S.nodes ++ [x] } := by
  have hext : Ext S { S with nodes := S.nodes ++ [x] } := ⟨⟨_, rfl⟩, fun _ h => h⟩
  have key : ∀ n o' args', IsOp { S with nodes := S.nodes ++ [x] } n o' args' → IsOp S n o' args' := by
    intro n o' args' hn
    by_cases hl : n < S.nodes.length
    · exact hext.back hl hn
    · have hlt := isOp_lt hn
      simp at hlt
      have : n = S.nodes.length := by omega
      subst this
      simp [IsOp] at hn
      exact absurd hn (hx _ _)
  exact ⟨fun n o a hn => h.wf _ _ _ (key _ _ _ hn), fun n o a hn => h.asked _ _ _ (key _ _ _ hn), fun n o a hn => (h.ok _ _ _ (key _ _ _ hn)).mono hext,
    fun p q o a hp hq => h.uniq _ _ _ _ (key _ _ _ hp) (key _ _ _ hq), fun p q o a b hp hq => h.either _ _ _ _ _ (key _ _ _ hp) (key _ _ _ hq),
    fun n i j a c hn hc => h.once _ _ _ _ _ (key _ _ _ hn) (key _ _ _ hc)⟩

theorem mem_audience {a p : Nat} {l : List Char} : p ∈ audience env S a l ↔ Listens env.fmt S a l p := by
  unfold audience
  rw [(env.ord_perm _ _).mem_iff]
  simp only [List.mem_filter, List.mem_range, decide_eq_true_eq]
  constructor
  · exact fun h => h.2
  · rintro ⟨o, args, h, h'⟩
    exact ⟨isOp_lt h, o, args, h, h'⟩

theorem push_wf {x : Node} (h : Wf S) (hx : ∀ o args, x = .op o args → ∀ a ∈ args, a < S.nodes.length) : Wf { S with nodes := S.nodes ++ [x] } := by
  intro n o args hn
  by_cases hl : n < S.nodes.length
  · exact h n o args (Ext.back (S' := { S with nodes := S.nodes ++ [x] }) ⟨⟨_, rfl⟩, fun _ h => h⟩ hl hn)
  · have hlt := isOp_lt hn
    simp at hlt
    have : n = S.nodes.length := by omega
    subst this
    simp [IsOp] at hn
    exact hx o args hn

/-- A call that returns a node: nodes are only added, and if names are apart the node is as P says. -/
def Gets (fmt : ℝ → List Char) (S : St) (r : Outcome (Nat × St)) (P : St → Nat → Prop) : Prop :=
  ∃ n S', r = .ok (n, S') ∧ Ext S S' ∧ n < S'.nodes.length ∧ Wf S' ∧ (Inv S → Apart fmt S' → Inv S' ∧ P S' n)

theorem Gets.weaken {r : Outcome (Nat × St)} {P Q : St → Nat → Prop} (h : Gets fmt S r P) (hPQ : ∀ S' n, Inv S' → P S' n → Q S' n) : Gets fmt S r Q := by
  obtain ⟨n, S', h1, h2, h3, h5, h4⟩ := h
  exact ⟨n, S', h1, h2, h3, h5, fun hI hA => ⟨(h4 hI hA).1, hPQ _ _ (h4 hI hA).1 (h4 hI hA).2⟩⟩

theorem ret_gets (hW : Wf S) {a : Nat} (ha : a < S.nodes.length) {P : St → Nat → Prop} (hP : P S a) : Gets fmt S (ret a S) P :=
  ⟨a, S, rfl, .rfl, ha, hW, fun hI _ => ⟨hI, hP⟩⟩

theorem push_gets (hW : Wf S) {x : Node} (hx : ∀ o args, x ≠ .op o args) : Gets fmt S (push x S) (fun S' n => S'.nodes[n]? = some x) :=
  ⟨S.nodes.length, _, rfl, ⟨⟨_, rfl⟩, fun _ h => h⟩, by simp, push_wf hW (fun o args h => absurd h (hx o args)), fun hI _ => ⟨push_leaf_inv hx hI, by simp⟩⟩

theorem andThen_gets {x : M} {f : Nat → M} {P : St → Nat → Prop} {Q : Nat → St → Nat → Prop} (hmono : ∀ S S' n, Ext S S' → P S n → P S' n)
    (h1 : Gets fmt S (x S) P) (h2 : ∀ n S', Ext S S' → n < S'.nodes.length → Wf S' → Gets fmt S' (f n S') (Q n)) :
    Gets fmt S (andThen x f S) (fun S' m => ∃ n, P S' n ∧ Q n S' m) := by
  obtain ⟨n, S1, e1, x1, l1, w1, g1⟩ := h1
  obtain ⟨m, S2, e2, x2, l2, w2, g2⟩ := h2 n S1 x1 l1 w1
  refine ⟨m, S2, by simp only [andThen, e1, Outcome.ok_bind, e2], x1.trans x2, l2, w2, fun hI hA => ?_⟩
  obtain ⟨i1, p1⟩ := g1 hI (Apart.back x2 hA)
  obtain ⟨i2, p2⟩ := g2 i1 hA
  exact ⟨i2, n, hmono _ _ _ x2 p1, p2⟩

/-- Operations of one argument. -/
def Unary (o : Op) : Prop := ∀ S args, ArgsOk S o args ↔ ∃ a, args = [a]

/-- Operations of two arguments. -/
def Binary2 (o : Op) : Prop := ∀ S args, ArgsOk S o args ↔ ∃ a b, args = [a, b]

theorem found_op {a p : Nat} {o : Op} (hI : Inv S) (hA : Apart env.fmt (note o S)) (hp : Listens env.fmt S a (o.label env.fmt) p) :
    ∃ args, IsOp S p o args ∧ a ∈ args ∧ ArgsOk S o args := by
  obtain ⟨o', args, h1, h2, h3⟩ := hp
  have := hA.1 o' (List.mem_cons_of_mem _ (hI.asked _ _ _ h1)) o List.mem_cons_self h3
  subst this
  exact ⟨args, h1, h2, hI.ok _ _ _ h1⟩

theorem get1_gets (hW : Wf S) {o : Op} (ho : Unary o) {a : Nat} (ha : a < S.nodes.length) (hT : ∀ i j, o = .transpose i j → ∀ c, ¬ IsOp S a o [c]) (he : Either o = false) :
    Gets env.fmt S (get1 env o a (push (.op o [a])) S) (fun S' n => IsOp S' n o [a]) := by
  unfold get1
  cases hh : (audience env S a (o.label env.fmt)).head? with
  | some p =>
    have hp := mem_audience.1 (List.mem_of_mem_head? hh)
    refine ⟨p, note o S, rfl, note_ext o, ?_, hW, fun hI hA => ⟨note_inv hI, ?_⟩⟩
    · obtain ⟨_, _, h1, _⟩ := hp
      exact isOp_lt h1
    · obtain ⟨args, h1, h2, h3⟩ := found_op hI hA hp
      obtain ⟨c, rfl⟩ := (ho _ _).1 h3
      simp only [List.mem_singleton] at h2
      subst h2; exact h1
  | none =>
    have ha' : ∀ b ∈ [a], b < S.nodes.length := by
      intro b hb
      simp only [List.mem_singleton] at hb; subst hb; exact ha
    refine ⟨S.nodes.length, _, rfl, (note_ext o).trans ⟨⟨_, rfl⟩, fun _ h => h⟩, by simp [note], push_wf (S := note o S) hW (fun _ _ h => (by cases h; exact ha')), fun hI _ => ⟨push_inv (note_inv hI) List.mem_cons_self ha' ((ho _ _).2 ⟨a, rfl⟩) ?_ ?_ ?_, by simp [IsOp, note]⟩⟩
    · intro _ p hp
      have : p ∈ audience env S a (o.label env.fmt) := mem_audience.2 ⟨o, [a], hp, by simp, rfl⟩
      rw [List.head?_eq_none_iff] at hh
      rw [hh] at this; cases this
    · intro h; rw [he] at h; cases h
    · intro i j b hij hb c hc
      simp only [List.cons.injEq, and_true] at hb
      subst hb hij
      exact hT i j rfl c hc

theorem argsOf_isOp {p : Nat} {o : Op} {args : List Nat} (h : IsOp S p o args) : argsOf S p = args := by
  unfold argsOf
  rw [h]

theorem get2_gets (hW : Wf S) {o : Op} {u : Bool} (ho : Binary2 o) (hu : Either o = u) {a b : Nat} (ha : a < S.nodes.length) (hb : b < S.nodes.length)
    (hT : ∀ i j, o ≠ .transpose i j) :
    Gets env.fmt S (get2 env o u a b S) (fun S' n => IsOp S' n o [a, b] ∨ (u = true ∧ IsOp S' n o [b, a])) := by
  unfold get2
  cases hh : (audience env S a (o.label env.fmt)).find? fun p => decide (argsOf S p = [a, b] ∨ (u = true ∧ argsOf S p = [b, a])) with
  | some p =>
    have hp := mem_audience.1 (List.mem_of_find?_eq_some hh)
    have hq := List.find?_some hh
    simp only [decide_eq_true_eq] at hq
    refine ⟨p, note o S, rfl, note_ext o, ?_, hW, fun hI hA => ⟨note_inv hI, ?_⟩⟩
    · obtain ⟨_, _, h1, _⟩ := hp
      exact isOp_lt h1
    · obtain ⟨args, h1, h2, h3⟩ := found_op hI hA hp
      rw [argsOf_isOp h1] at hq
      rcases hq with rfl | ⟨hu', rfl⟩
      · exact .inl h1
      · exact .inr ⟨hu', h1⟩
  | none =>
    rw [List.find?_eq_none] at hh
    have ha' : ∀ c ∈ [a, b], c < S.nodes.length := by
      intro c hc
      simp only [List.mem_cons, List.not_mem_nil, or_false] at hc
      rcases hc with rfl | rfl
      · exact ha
      · exact hb
    refine ⟨S.nodes.length, _, rfl, (note_ext o).trans ⟨⟨_, rfl⟩, fun _ h => h⟩, by simp [note], push_wf (S := note o S) hW (fun _ _ h => (by cases h; exact ha')), fun hI _ => ⟨push_inv (note_inv hI) List.mem_cons_self ha' ((ho _ _).2 ⟨a, b, rfl⟩) ?_ ?_ ?_, .inl (by simp [IsOp, note])⟩⟩
    · intro _ p hp
      have h1 := hh p (mem_audience.2 ⟨o, [a, b], hp, by simp, rfl⟩)
      rw [argsOf_isOp (S := S) hp] at h1
      simp at h1
    · intro he p x y hxy hp
      simp only [List.cons.injEq, and_true] at hxy
      obtain ⟨rfl, rfl⟩ := hxy
      have h1 := hh p (mem_audience.2 ⟨o, [b, a], hp, by simp, rfl⟩)
      rw [argsOf_isOp (S := S) hp] at h1
      simp [← hu, he] at h1
    · intro i j _ h
      exact absurd h (hT i j)

theorem isExtract_op {p : Nat} {name : List Char} {f : Shape → Outcome (List Nat)} {args : List Nat} (h : IsOp S p (.extract name f) args) : isExtract S p = true := by
  unfold isExtract
  rw [h]

theorem getExtract_gets (hW : Wf S) {name : List Char} {f : Shape → Outcome (List Nat)} {args : List Nat} (hn : args ≠ []) (ha : ∀ a ∈ args, a < S.nodes.length) :
    Gets env.fmt S (getExtract env name f args S) (fun S' n => IsOp S' n (.extract name f) args) := by
  cases args with
  | nil => exact absurd rfl hn
  | cons a as =>
    unfold getExtract
    simp only
    cases hh : (audience env S a name).find? fun p => isExtract S p && decide (argsOf S p = a :: as) with
    | some p =>
      have hp : Listens env.fmt S a ((Op.extract name f).label env.fmt) p := mem_audience.1 (List.mem_of_find?_eq_some hh)
      have hq := List.find?_some hh
      simp only [Bool.and_eq_true, decide_eq_true_eq] at hq
      refine ⟨p, note (.extract name f) S, rfl, note_ext _, ?_, hW, fun hI hA => ⟨note_inv hI, ?_⟩⟩
      · obtain ⟨_, _, h1, _⟩ := hp
        exact isOp_lt h1
      · obtain ⟨args, h1, h2, h3⟩ := found_op hI hA hp
        rw [argsOf_isOp h1] at hq
        rw [← hq.2]; exact h1
    | none =>
      rw [List.find?_eq_none] at hh
      refine ⟨S.nodes.length, _, rfl, (note_ext _).trans ⟨⟨_, rfl⟩, fun _ h => h⟩, by simp [note], push_wf (S := note (.extract name f) S) hW (fun _ _ h => (by cases h; exact ha)), fun hI _ => ⟨push_inv (note_inv hI) List.mem_cons_self ha (by simp [ArgsOk]) ?_ ?_ ?_, by simp [IsOp, note]⟩⟩
      · intro _ p hp
        have h1 := hh p (mem_audience.2 ⟨.extract name f, a :: as, hp, by simp, rfl⟩)
        rw [argsOf_isOp (S := S) hp, isExtract_op (S := S) hp] at h1
        simp at h1
      · intro he; cases he
      · intro i j _ h; cases h

theorem transpose_gets (hW : Wf S) {i j a : Nat} (ha : a < S.nodes.length) :
    Gets env.fmt S (transpose env i j a S) (fun S' n => Transposed S' (min i j) (max i j) a n) := by
  unfold transpose
  simp only
  cases hh : undo env.fmt S ((Op.transpose (min i j) (max i j)).label env.fmt) a with
  | some c =>
    unfold undo at hh
    split at hh
    · rename_i o c' hn
      split at hh
      · rename_i hl
        simp only [Option.some.injEq] at hh
        subst hh
        refine ⟨c', note (.transpose (min i j) (max i j)) S, rfl, note_ext _, ?_, hW, fun hI hA => ⟨note_inv hI, .inr ?_⟩⟩
        · exact lt_trans (hW _ _ _ hn c' (by simp)) ha
        · have := hA.1 o (List.mem_cons_of_mem _ (hI.asked _ _ _ hn)) _ List.mem_cons_self hl
          subst this
          exact hn
      · cases hh
    · cases hh
  | none =>
    refine (get1_gets hW (fun _ _ => Iff.rfl) ha ?_ rfl).weaken fun _ _ _ h => .inl h
    intro i' j' h c hc
    simp [undo, show S.nodes[a]? = _ from hc] at hh

theorem Transposed.mono (h : Ext S S') {i j a n : Nat} (ht : Transposed S i j a n) : Transposed S' i j a n := ht.imp (fun x => h.get x) (fun x => h.get x)

theorem transposed_gets (hW : Wf S) {a : Nat} (ha : a < S.nodes.length) :
    Gets env.fmt S (transposed env a S) (fun S' n => Transposed S' 0 1 a n) := by
  unfold transposed
  cases hh : (audience env S a ((Op.transpose 0 1).label env.fmt)).head? with
  | some p =>
    have hp := mem_audience.1 (List.mem_of_mem_head? hh)
    refine ⟨p, _, rfl, note_ext _, ?_, hW, fun hI hA => ⟨note_inv hI, .inl ?_⟩⟩
    · obtain ⟨_, _, h1, _⟩ := hp
      exact isOp_lt h1
    · obtain ⟨args, h1, h2, c, rfl⟩ := found_op hI hA hp
      simp only [List.mem_singleton] at h2
      subst h2; exact h1
  | none => exact transpose_gets hW ha

theorem l2norm_gets (hW : Wf S) {a : Nat} (ha : a < S.nodes.length) :
    Gets env.fmt S (l2norm env a S) (fun S' n => (∃ d, IsConst S a d ∧ IsConst S' n [(d.map fun x => x * x).sum]) ∨ ((∀ d, ¬ IsConst S a d) ∧ IsOp S' n .l2norm [a])) := by
  unfold l2norm
  cases hc : constData S a with
  | some d =>
    have hd : IsConst S a d := by
      unfold constData at hc
      split at hc
      · rename_i h; cases hc; exact h
      · cases hc
    exact (push_gets hW (fun _ _ h => by cases h)).weaken fun _ _ _ h => .inl ⟨d, hd, h⟩
  | none =>
    have hd : ∀ d, ¬ IsConst S a d := by
      intro d h
      simp [constData, show S.nodes[a]? = _ from h] at hc
    exact (get1_gets hW (fun _ _ => Iff.rfl) ha (fun _ _ h => by cases h) rfl).weaken fun _ _ _ h => .inr ⟨hd, h⟩

theorem clip_gets (hW : Wf S) {a : Nat} {c : ℝ} (ha : a < S.nodes.length) (hd : ∀ d, ¬ IsConst S a d) :
    Gets env.fmt S (get1 env (.clipNorm c) a (andThen (l2norm env a) fun l => push (.op (.clipNorm c) [l, a])) S)
      (fun S' n => (∃ l, IsOp S' l .l2norm [a] ∧ IsOp S' n (.clipNorm c) [l, a]) ∨ ∃ b, IsOp S' a .l2norm [b] ∧ IsOp S' n (.clipNorm c) [a, b]) := by
  unfold get1
  cases hh : (audience env S a ((Op.clipNorm c).label env.fmt)).head? with
  | some p =>
    have hp := mem_audience.1 (List.mem_of_mem_head? hh)
    refine ⟨p, _, rfl, note_ext _, ?_, hW, fun hI hA => ⟨note_inv hI, ?_⟩⟩
    · obtain ⟨_, _, h1, _⟩ := hp
      exact isOp_lt h1
    · obtain ⟨args, h1, h2, l, x, rfl, h3⟩ := found_op hI hA hp
      simp only [List.mem_cons, List.not_mem_nil, or_false] at h2
      rcases h2 with rfl | rfl
      · exact .inr ⟨x, h3, h1⟩
      · exact .inl ⟨l, h3, h1⟩
  | none =>
    rw [List.head?_eq_none_iff] at hh
    obtain ⟨l, S1, e1, x1, l1, w1, g1⟩ := l2norm_gets (env := env) (S := note (.clipNorm c) S) hW (a := a) ha
    have hx : Ext S S1 := (note_ext _).trans x1
    have ha1 : a < S1.nodes.length := Nat.lt_of_lt_of_le ha hx.le
    have ha' : ∀ b ∈ [l, a], b < S1.nodes.length := by
      intro b hb
      simp only [List.mem_cons, List.not_mem_nil, or_false] at hb
      rcases hb with rfl | rfl
      · exact l1
      · exact ha1
    refine ⟨S1.nodes.length, { S1 with nodes := S1.nodes ++ [.op (.clipNorm c) [l, a]] }, by simp only [andThen, e1, Outcome.ok_bind]; rfl, hx.trans ⟨⟨_, rfl⟩, fun _ h => h⟩, by simp, push_wf (S := S1) w1 (fun _ _ h => (by cases h; exact ha')), ?_⟩
    intro hI hA
    have hA1 : Apart env.fmt S1 := Apart.back (S' := { S1 with nodes := S1.nodes ++ [.op (.clipNorm c) [l, a]] }) ⟨⟨_, rfl⟩, fun _ h => h⟩ hA
    obtain ⟨i1, h1⟩ := g1 (note_inv hI) hA1
    have hl : IsOp S1 l .l2norm [a] := by
      rcases h1 with ⟨d, h, _⟩ | ⟨_, h⟩
      · exact absurd h (hd d)
      · exact h
    have hno : ∀ p, ¬ IsOp S1 p (.clipNorm c) [l, a] := by
      intro p hp
      -- the only node added by `l2norm` is not of this kind
      have hold : IsOp S p (.clipNorm c) [l, a] := by
        have : S1.nodes = S.nodes ∨ S1.nodes = S.nodes ++ [.op .l2norm [a]] := by
          unfold l2norm at e1
          have hc : constData (note (.clipNorm c) S) a = none := by
            unfold constData
            split
            · rename_i d h; exact absurd h (hd d)
            · rfl
          rw [hc] at e1
          simp only [get1] at e1
          split at e1
          · cases e1; exact .inl rfl
          · cases e1; exact .inr rfl
        rcases this with h | h
        · unfold IsOp at hp ⊢; rwa [h] at hp
        · unfold IsOp at hp ⊢
          rw [h] at hp
          by_cases hlt : p < S.nodes.length
          · rwa [List.getElem?_append_left hlt] at hp
          · have := (List.getElem?_eq_some_iff.1 hp).1
            simp at this
            have : p = S.nodes.length := by omega
            subst this
            simp at hp
      have : p ∈ audience env S a ((Op.clipNorm c).label env.fmt) := mem_audience.2 ⟨_, [l, a], hold, by simp, rfl⟩
      rw [hh] at this; cases this
    refine ⟨push_inv i1 (x1.asked _ List.mem_cons_self) ha' ⟨l, a, rfl, hl⟩ (fun _ => hno) (fun h => by cases h) (fun i j _ h => by cases h), .inl ⟨l, ?_, by simp [IsOp]⟩⟩
    exact Ext.get (S' := { S1 with nodes := S1.nodes ++ [.op (.clipNorm c) [l, a]] }) ⟨⟨_, rfl⟩, fun _ h => h⟩ hl

end Verif.Ask
