import Verif.Model.Nets
import Verif.Props.Leaf
import Mathlib.Data.List.Forall2
/-!
# C52: copying layers and networks
-/
namespace Verif.Props
open Verif.Spec Verif.Tensor Verif.Nets Verif.Leaf

variable {T : Type}

/-- What a copy of a variable must be: same initialisation state, initializer and shapes; the same data if the
original is initialised. -/
structure CopyOf (l l' : Leaf T) : Prop where
  isInit : l'.isInit = l.isInit
  init : l'.init = l.init
  alloc : l'.data.alloc = l.data.alloc
  allowed : l'.data.allowed = l.data.allowed
  data : l.isInit = true → l'.data = l.data
  raw : l'.data.raw.isSome = l.data.raw.isSome

/-- Live variables have been allocated and their data fills their shape. -/
structure MemOk (m : Mem T) : Prop where
  lt : ∀ x v, m.at_ x = some v → x < m.next
  wf : ∀ x v, m.at_ x = some v → v.leaf.data.WF

theorem copyLeaf_ok (e : Env T) (hmem : ∀ n, e.fits n = true) (l : Leaf T) (hw : l.data.WF) :
    ∃ l', copyLeaf e l = .ok l' ∧ CopyOf l l' ∧ l'.data.WF := by
  have hz : l.data.copyHelper e (!l.isInit) = (if l.data.isAlloc = true then .ok ⟨some ((if l.isInit then l.data.raw.getD [] else (List.range l.data.alloc.nElems).map e.junk)), l.data.alloc, l.data.allowed⟩
      else .ok ⟨none, l.data.alloc, l.data.allowed⟩) := by
    unfold copyHelper
    by_cases ha : l.data.isAlloc = true
    · rw [if_pos ha, if_pos ha]
      obtain ⟨hf, b, hb⟩ := (isAlloc_iff _).1 ha
      have hn : l.data.alloc.nElems = b.length := by rw [Shape.nElems_eq hf.1, (hw b hb).2]
      simp only [allocBuf, hmem, if_true, hb]
      cases hi : l.isInit with
      | false => rfl
      | true =>
        simp only [Bool.not_true, Bool.false_eq_true, if_false, hn, Option.getD_some, if_true]
        rw [memcpy_all (by simp)]
        rfl
    · rw [if_neg ha, if_neg ha]
  have hr : l.data.isAlloc = true ∨ l.data.raw = none := by
    cases hb : l.data.raw with
    | none => exact .inr rfl
    | some b => exact .inl (getShape_full hw hb).1
  unfold copyLeaf
  rw [hz]
  by_cases ha : l.data.isAlloc = true
  · rw [if_pos ha]
    obtain ⟨hf, b, hb⟩ := (isAlloc_iff _).1 ha
    have hn : l.data.alloc.nElems = b.length := by rw [Shape.nElems_eq hf.1, (hw b hb).2]
    refine ⟨_, rfl, ⟨rfl, rfl, rfl, rfl, fun hi => ?_, by rw [hb]; rfl⟩, ?_⟩
    · show (⟨_, _, _⟩ : Tensor T) = _
      rw [hi, if_pos rfl, hb]
      obtain ⟨⟨r, a, w⟩, _, _⟩ := l
      simp only at hb; rw [hb]; rfl
    · intro buf hbuf
      simp only [Option.some.injEq] at hbuf
      refine ⟨hf, ?_⟩
      rw [← hbuf]
      split
      · rw [hb]; exact (hw b hb).2
      · simp [hn, (hw b hb).2]
  · rw [if_neg ha]
    have hb : l.data.raw = none := by
      rcases hr with c | c
      · exact absurd c ha
      · exact c
    refine ⟨_, rfl, ⟨rfl, rfl, rfl, rfl, fun _ => ?_, by rw [hb]⟩, fun b hb => by simp at hb⟩
    obtain ⟨⟨r, a, w⟩, _, _⟩ := l
    simp only at hb; rw [hb]

/-- The variables `ys` of `m'` are new copies of the variables `xs` of `m`, which is otherwise unchanged. -/
structure Copies (m m' : Mem T) (xs ys : List Nat) : Prop where
  ok : MemOk m'
  le : m.next ≤ m'.next
  old : ∀ x, x < m.next → m'.at_ x = m.at_ x
  fresh : ∀ y ∈ ys, m.next ≤ y ∧ y < m'.next
  nodup : ys.Nodup
  new : ∀ y, m.next ≤ y → y < m'.next → y ∈ ys
  copy : List.Forall₂ (fun x y => ∃ v v', m.at_ x = some v ∧ m'.at_ y = some v' ∧ CopyOf v.leaf v'.leaf) xs ys

theorem Copies.refl {m : Mem T} (h : MemOk m) : Copies m m [] [] :=
  ⟨h, Nat.le_refl _, fun _ _ => rfl, (by simp), .nil, (fun y h1 h2 => by omega), .nil⟩

theorem Copies.trans {m m1 m2 : Mem T} {xs ys xs' ys' : List Nat} (a : Copies m m1 xs ys) (b : Copies m1 m2 xs' ys')
    (hx : ∀ x ∈ xs', x < m.next) : Copies m m2 (xs ++ xs') (ys ++ ys') := by
  have imp2 : ∀ {R S : Nat → Nat → Prop} {p q : List Nat}, List.Forall₂ R p q → (∀ x y, x ∈ p → y ∈ q → R x y → S x y) → List.Forall₂ S p q := by
    intro R S p q h
    induction h with
    | nil => intro _; exact .nil
    | cons h _ ih =>
      intro H
      exact .cons (H _ _ (by simp) (by simp) h) (ih fun x y hx hy => H x y (by simp [hx]) (by simp [hy]))
  refine ⟨b.ok, Nat.le_trans a.le b.le, fun x h => ?_, fun y hy => ?_, ?_, fun y h1 h2 => ?_, List.rel_append (imp2 a.copy ?_) (imp2 b.copy ?_)⟩
  · rw [b.old x (Nat.lt_of_lt_of_le h a.le), a.old x h]
  · have := a.le; have := b.le
    rcases List.mem_append.mp hy with hy | hy
    · have := a.fresh y hy; omega
    · have := b.fresh y hy; omega
  · rw [List.nodup_append]
    refine ⟨a.nodup, b.nodup, fun y hy z hz e => ?_⟩
    have := a.fresh y hy; have := b.fresh z hz; omega
  · rw [List.mem_append]
    by_cases h : y < m1.next
    · exact .inl (a.new y h1 h)
    · exact .inr (b.new y (by omega) h2)
  · rintro x y _ hy ⟨v, v', h1, h2, h3⟩
    exact ⟨v, v', h1, by rw [b.old y (a.fresh y hy).2]; exact h2, h3⟩
  · rintro x y h _ ⟨v, v', h1, h2, h3⟩
    exact ⟨v, v', by rw [← a.old x (hx x h)]; exact h1, h2, h3⟩

theorem cloneVar_ok (e : Env T) (hmem : ∀ n, e.fits n = true) (x : Nat) (lab : Option (List Char)) (m : Mem T) (hm : MemOk m)
    (hx : ∃ v, m.at_ x = some v) : ∃ y m', cloneVar e x lab m = .ok (y, m') ∧ Copies m m' [x] [y] := by
  obtain ⟨v, hv⟩ := hx
  obtain ⟨l, h1, h2, h3⟩ := copyLeaf_ok e hmem v.leaf (hm.wf x v hv)
  refine ⟨m.next, (m.alloc ⟨lab.getD v.label, l⟩).2, by simp only [cloneVar, Mem.deref, hv, Outcome.ok_bind, h1, Mem.alloc], ⟨?_, ?_⟩, ?_, ?_, ?_, ?_, ?_, ?_⟩
  · intro z w hz
    simp only [Mem.alloc] at hz ⊢
    split at hz
    · omega
    · have := hm.lt z w hz; omega
  · intro z w hz
    simp only [Mem.alloc] at hz
    split at hz
    · injection hz with hz; subst hz; exact h3
    · exact hm.wf z w hz
  · exact Nat.le_succ _
  · intro z hz
    simp only [Mem.alloc]
    rw [if_neg (by omega)]
  · intro y hy
    rw [List.mem_singleton] at hy; subst hy
    exact ⟨Nat.le_refl _, Nat.lt_succ_self _⟩
  · simp
  · intro y h1 h2
    simp only [Mem.alloc] at h2
    rw [List.mem_singleton]; omega
  · refine .cons ⟨v, ⟨lab.getD v.label, l⟩, hv, ?_, h2⟩ .nil
    simp only [Mem.alloc, if_true]

theorem fcCopyFrom_ok (e : Env T) (hmem : ∀ n, e.fits n = true) (scope : List Char) (ps : List (Nat × Nat)) :
    ∀ (i : Nat) (m : Mem T), MemOk m → (∀ x ∈ ps.flatMap (fun p => [p.1, p.2]), ∃ v, m.at_ x = some v) →
      ∃ qs m', fcCopyFrom e scope i ps m = .ok (qs, m') ∧ qs.length = ps.length ∧ Copies m m' (ps.flatMap fun p => [p.1, p.2]) (qs.flatMap fun p => [p.1, p.2]) := by
  induction ps with
  | nil => intro i m hm _; exact ⟨[], m, rfl, rfl, Copies.refl hm⟩
  | cons p ps ih =>
    intro i m hm hx
    obtain ⟨y, m1, h1, c1⟩ := cloneVar_ok e hmem p.1 (some (weightLabel scope i)) m hm (hx p.1 (by simp))
    have step : ∀ (m1 : Mem T) xs ys, Copies m m1 xs ys → ∀ x ∈ (p :: ps).flatMap (fun p => [p.1, p.2]), ∃ v, m1.at_ x = some v := by
      intro m1 xs ys c x hx'
      obtain ⟨v, hv⟩ := hx x hx'
      exact ⟨v, by rw [c.old x (hm.lt x v hv)]; exact hv⟩
    have lt : ∀ x ∈ (p :: ps).flatMap (fun p => [p.1, p.2]), x < m.next := fun x h => by
      obtain ⟨v, hv⟩ := hx x h; exact hm.lt x v hv
    obtain ⟨z, m2, h2, c2⟩ := cloneVar_ok e hmem p.2 (some (biasLabel scope i)) m1 c1.ok (step _ _ _ c1 p.2 (by simp))
    have c12 := c1.trans c2 (fun x h => lt x (by simp at h; simp [h]))
    obtain ⟨qs, m3, h3, hl, c3⟩ := ih (i + 1) m2 c2.ok fun x h => step _ _ _ c12 x (by rw [List.flatMap_cons, List.mem_append]; exact .inr h)
    refine ⟨(y, z) :: qs, m3, ?_, by simp [hl], ?_⟩
    · simp only [fcCopyFrom, h1, Outcome.ok_bind, h2, h3]
    · exact c12.trans c3 fun x h => lt x (by rw [List.flatMap_cons, List.mem_append]; exact .inr h)

/-- The layers of a copy: as many, with the same activations and the same number of weights and biases. -/
def SameLayers (ps qs : List (FC × Nat)) : Prop := List.Forall₂ (fun p q => q.2 = p.2 ∧ q.1.wb.length = p.1.wb.length) ps qs

theorem mlpCopyFrom_ok (e : Env T) (hmem : ∀ n, e.fits n = true) (scope : List Char) (ps : List (FC × Nat)) :
    ∀ (i : Nat) (m : Mem T), MemOk m → (∀ x ∈ ps.flatMap (fun p => p.1.vars), ∃ v, m.at_ x = some v) →
      ∃ qs m', mlpCopyFrom e scope i ps m = .ok (qs, m') ∧ SameLayers ps qs ∧ Copies m m' (ps.flatMap fun p => p.1.vars) (qs.flatMap fun p => p.1.vars) := by
  induction ps with
  | nil => intro i m hm _; exact ⟨[], m, rfl, .nil, Copies.refl hm⟩
  | cons p ps ih =>
    intro i m hm hx
    obtain ⟨ws, m1, h1, hl, c1⟩ := fcCopyFrom_ok e hmem (copyScope p.1.scope (scope ++ ":hiddens".toList ++ num i)) p.1.wb 0 m hm
      (fun x h => hx x (by rw [List.flatMap_cons, List.mem_append]; exact .inl h))
    obtain ⟨qs, m2, h2, hs, c2⟩ := ih (i + 1) m1 c1.ok fun x h => by
      obtain ⟨v, hv⟩ := hx x (by rw [List.flatMap_cons, List.mem_append]; exact .inr h)
      exact ⟨v, by rw [c1.old x (hm.lt x v hv)]; exact hv⟩
    refine ⟨(⟨copyScope p.1.scope (scope ++ ":hiddens".toList ++ num i), ws⟩, p.2) :: qs, m2, ?_, .cons ⟨rfl, hl⟩ hs, ?_⟩
    · simp only [mlpCopyFrom, fcClone, h1, Outcome.ok_bind, h2]
    · exact c1.trans c2 fun x h => by
        obtain ⟨v, hv⟩ := hx x (by rw [List.flatMap_cons, List.mem_append]; exact .inr h)
        exact hm.lt x v hv

theorem deleteAll_ok (xs : List Nat) : ∀ (m : Mem T), MemOk m → xs.Nodup → (∀ x ∈ xs, ∃ v, m.at_ x = some v) →
    ∃ m', Mem.deleteAll xs m = .ok m' ∧ MemOk m' ∧ m'.next = m.next ∧ ∀ x, m'.at_ x = if x ∈ xs then none else m.at_ x := by
  induction xs with
  | nil => intro m hm _ _; exact ⟨m, rfl, hm, rfl, fun x => by simp⟩
  | cons x xs ih =>
    intro m hm hnd hx
    rw [List.nodup_cons] at hnd
    obtain ⟨v, hv⟩ := hx x (by simp)
    have hm1 : MemOk (m.set x none) := by
      refine ⟨fun y w hy => ?_, fun y w hy => ?_⟩ <;> simp only [Mem.set] at hy <;> split at hy
      · cases hy
      · exact hm.lt y w hy
      · cases hy
      · exact hm.wf y w hy
    obtain ⟨m', h1, h2, h3, h4⟩ := ih (m.set x none) hm1 hnd.2 fun y hy => by
      obtain ⟨w, hw⟩ := hx y (by simp [hy])
      exact ⟨w, by simp only [Mem.set]; rw [if_neg fun c : y = x => hnd.1 (c ▸ hy)]; exact hw⟩
    refine ⟨m', ?_, h2, h3, fun y => ?_⟩
    · simp only [Mem.deleteAll, Mem.delete, Mem.deref, hv, Outcome.ok_bind, h1]
    · rw [h4]
      simp only [Mem.set, List.mem_cons]
      by_cases hy : y ∈ xs
      · simp [hy]
      · by_cases hyx : y = x
        · simp [hyx]
        · simp [hy, hyx]

/-- **C52, clone.**  A clone of a multi-layer perceptron has the same sizes, activations and numbers of parameters;
its parameters are new variables, and the `i`-th one is a copy of the `i`-th one of the original; no existing variable
is changed. -/
theorem c52_mlp_clone (e : Env T) (hmem : ∀ n, e.fits n = true) (a : MLP) (scope : List Char) (m : Mem T) (hm : MemOk m)
    (ha : ∀ x ∈ a.vars, ∃ v, m.at_ x = some v) :
    ∃ b m', mlpClone e a scope m = .ok (b, m') ∧ b.nIn = a.nIn ∧ b.nOut = a.nOut ∧ SameLayers a.layers b.layers ∧
      b.scope = (if scope = [] then a.scope ++ "_cpy".toList else scope) ∧
      MemOk m' ∧ (∀ x v, m.at_ x = some v → m'.at_ x = some v) ∧ b.vars.Nodup ∧ (∀ y ∈ b.vars, m.at_ y = none) ∧
      List.Forall₂ (fun x y => ∃ v v', m.at_ x = some v ∧ m'.at_ y = some v' ∧ CopyOf v.leaf v'.leaf) a.vars b.vars := by
  obtain ⟨qs, m', h1, h2, c⟩ := mlpCopyFrom_ok e hmem (copyScope a.scope scope) a.layers 0 m hm ha
  refine ⟨⟨copyScope a.scope scope, a.nIn, a.nOut, qs⟩, m', by simp only [mlpClone, h1, Outcome.ok_bind], rfl, rfl, h2, rfl, c.ok,
    fun x v hx => by rw [c.old x (hm.lt x v hx)]; exact hx, c.nodup, fun y hy => ?_, c.copy⟩
  cases h : m.at_ y with
  | none => rfl
  | some v => have := hm.lt y v h; have := (c.fresh y hy).1; omega

/-- **C52, assignment.**  Assigning one perceptron to a different one: the target takes the source's scope, sizes and
activations; its parameters are new variables, the `i`-th a copy of the `i`-th of the source; its old parameters are
deleted, each once; every other variable, the source's among them, is unchanged.  Assigning a perceptron to itself
changes nothing. -/
theorem c52_mlp_assign (e : Env T) (hmem : ∀ n, e.fits n = true) (a b : MLP) (m : Mem T) (hm : MemOk m)
    (hnd : (a.vars ++ b.vars).Nodup) (hl : ∀ x ∈ a.vars ++ b.vars, ∃ v, m.at_ x = some v) :
    (mlpAssign e true a a m = .ok (a, m)) ∧
    ∃ a' m', mlpAssign e false a b m = .ok (a', m') ∧ a'.scope = b.scope ∧ a'.nIn = b.nIn ∧ a'.nOut = b.nOut ∧ SameLayers b.layers a'.layers ∧
      MemOk m' ∧ (∀ x ∈ a.vars, m'.at_ x = none) ∧ (∀ x v, x ∉ a.vars → m.at_ x = some v → m'.at_ x = some v) ∧
      (a'.vars ++ b.vars).Nodup ∧ (∀ y ∈ a'.vars, m.at_ y = none) ∧
      List.Forall₂ (fun x y => ∃ v v', m.at_ x = some v ∧ m'.at_ y = some v' ∧ CopyOf v.leaf v'.leaf) b.vars a'.vars := by
  refine ⟨rfl, ?_⟩
  obtain ⟨na, nb, dj⟩ := List.nodup_append.mp hnd
  obtain ⟨m1, d1, d2, d3, d4⟩ := deleteAll_ok a.vars m hm na fun x hx => hl x (by simp [hx])
  have keep : ∀ x ∈ b.vars, m1.at_ x = m.at_ x := fun x hx => by
    rw [d4, if_neg fun c => dj x c x hx rfl]
  obtain ⟨qs, m', h1, h2, c⟩ := mlpCopyFrom_ok e hmem b.scope b.layers 0 m1 d2 fun x hx => by
    rw [keep x hx]; exact hl x (by rw [List.mem_append]; exact .inr hx)
  have free : ∀ y ∈ qs.flatMap (fun p => p.1.vars), m.at_ y = none := by
    intro y hy
    cases h : m.at_ y with
    | none => rfl
    | some v => have := hm.lt y v h; have := (c.fresh y hy).1; omega
  refine ⟨⟨b.scope, b.nIn, b.nOut, qs⟩, m', ?_, rfl, rfl, rfl, h2, c.ok, fun x hx => ?_, fun x v hx hv => ?_, ?_, free, ?_⟩
  · simp only [mlpAssign, Bool.false_eq_true, if_false, d1, Outcome.ok_bind, h1]
  · obtain ⟨v, hv⟩ := hl x (by simp [hx])
    rw [c.old x (by rw [d3]; exact hm.lt x v hv), d4, if_pos hx]
  · rw [c.old x (by rw [d3]; exact hm.lt x v hv), d4, if_neg hx, hv]
  · rw [List.nodup_append]
    refine ⟨c.nodup, nb, fun y hy z hz e => ?_⟩
    subst e
    obtain ⟨v, hv⟩ := hl y (by simp [hz])
    rw [free y hy] at hv; cases hv
  · have : ∀ (xs ys : List Nat), (∀ x ∈ xs, x ∈ b.vars) → List.Forall₂ (fun x y => ∃ v v', m1.at_ x = some v ∧ m'.at_ y = some v' ∧ CopyOf v.leaf v'.leaf) xs ys →
        List.Forall₂ (fun x y => ∃ v v', m.at_ x = some v ∧ m'.at_ y = some v' ∧ CopyOf v.leaf v'.leaf) xs ys := by
      intro xs ys hin h
      induction h with
      | nil => exact .nil
      | cons h _ ih =>
        obtain ⟨v, v', q1, q2, q3⟩ := h
        exact .cons ⟨v, v', by rw [← keep _ (hin _ (by simp))]; exact q1, q2, q3⟩ (ih fun x hx => hin x (by simp [hx]))
    exact this _ _ (fun _ h => h) c.copy

/-! ### Machines that are not copied properly -/

/-- Negative: assigning one restricted Boltzmann machine to another does nothing at all. -/
theorem c52_rbm_assign_noop (e : Env T) (a b : RBM) (m : Mem T) : rbmAssign e false a b m = .ok (a, m) := rfl

/-- Negative: assigning a restricted Boltzmann machine to itself is undefined behaviour. -/
theorem c52_rbm_self_assign_ub (e : Env T) (a : RBM) (m : Mem T) (hm : MemOk m)
    (hnd : (a.weight.toList ++ a.hbias.toList ++ a.vbias.toList).Nodup)
    (hl : ∀ x ∈ a.weight.toList ++ a.hbias.toList ++ a.vbias.toList, ∃ v, m.at_ x = some v) : rbmAssign e true a a m = .ub := by
  obtain ⟨m1, d1, _⟩ := deleteAll_ok _ m hm hnd hl
  simp only [rbmAssign, if_true, rbmClean, d1, Outcome.ok_bind, rbmCopy, clonePtr, Outcome.ub_bind]

/-- Cloning a restricted Boltzmann machine copies its three parameters, but the number of outputs of the clone is not
initialised: asking for it is undefined behaviour. -/
theorem c52_rbm_clone (e : Env T) (hmem : ∀ n, e.fits n = true) (a : RBM) (scope : List Char) (w h v : Nat) (m : Mem T) (hm : MemOk m)
    (hw : a.weight = some w) (hh : a.hbias = some h) (hv : a.vbias = some v) (hl : ∀ x ∈ [w, h, v], ∃ u, m.at_ x = some u) :
    ∃ b w' h' v' m', rbmClone e a scope m = .ok (b, m') ∧ b.weight = some w' ∧ b.hbias = some h' ∧ b.vbias = some v' ∧ b.nIn = a.nIn ∧
      Copies m m' [w, h, v] [w', h', v'] ∧ b.noutput = .ub := by
  obtain ⟨w', m1, c1, k1⟩ := cloneVar_ok e hmem w none m hm (hl w (by simp))
  have lt : ∀ x ∈ [w, h, v], x < m.next := fun x hx => by obtain ⟨u, hu⟩ := hl x hx; exact hm.lt x u hu
  obtain ⟨h', m2, c2, k2⟩ := cloneVar_ok e hmem h none m1 k1.ok (by rw [k1.old h (lt h (by simp))]; exact hl h (by simp))
  have k12 := k1.trans k2 (fun x hx => lt x (by simp at hx; simp [hx]))
  obtain ⟨v', m3, c3, k3⟩ := cloneVar_ok e hmem v none m2 k2.ok (by rw [k12.old v (lt v (by simp))]; exact hl v (by simp))
  refine ⟨⟨copyScope a.scope scope, a.nIn, none, some w', some h', some v'⟩, w', h', v', m3, ?_, rfl, rfl, rfl, rfl, k12.trans k3 (fun x hx => lt x (by simp at hx; simp [hx])), rfl⟩
  simp only [rbmClone, rbmCopy, clonePtr, hw, hh, hv, c1, c2, c3, Outcome.ok_bind]

/-- Negative: a clone of a deep belief network has no output layer; asking it for its parameters (as training and saving
do) is undefined behaviour, whatever the network. -/
theorem c52_dbn_clone_no_output (e : Env T) (d d' : DBN) (scope : List Char) (m m' : Mem T) (h : dbnClone e d scope m = .ok (d', m')) :
    d'.log = none ∧ d'.vars = .ub := by
  obtain ⟨r, _, h2⟩ := Outcome.bind_eq_ok.mp h
  injection h2 with h2
  injection h2 with h2 _
  subst h2
  exact ⟨rfl, rfl⟩

/-- Copying a Q-network copies parameters, counters and both networks into new variables, but not the replay memory, which is
empty in a new copy, and not the scope asked for: the copy has the original's scope and therefore saves under it. -/
theorem c52_dqn_copy {S E : Type} (e : Env T) (hmem : ∀ n, e.fits n = true) (q : DQN S E) (scope : List Char) (m : Mem T) (hm : MemOk m)
    (hl : ∀ x ∈ q.source.vars ++ q.target.vars, ∃ v, m.at_ x = some v) :
    ∃ p m', dqnNewCopy e q scope m = .ok (p, m') ∧ p.scope = q.scope ∧ p.state = q.state ∧ p.experiences = [] ∧
      SameLayers q.source.layers p.source.layers ∧ SameLayers q.target.layers p.target.layers ∧
      Copies m m' (q.source.vars ++ q.target.vars) (p.source.vars ++ p.target.vars) := by
  obtain ⟨s, m1, h1, h2, c⟩ := mlpCopyFrom_ok e hmem (copyScope q.source.scope scope) q.source.layers 0 m hm (fun x hx => hl x (List.mem_append.mpr (.inl hx)))
  have lt : ∀ x ∈ q.source.vars ++ q.target.vars, x < m.next := fun x hx => by obtain ⟨u, hu⟩ := hl x hx; exact hm.lt x u hu
  obtain ⟨t, m2, h3, h4, c'⟩ := mlpCopyFrom_ok e hmem (copyScope q.target.scope ("target_".toList ++ scope)) q.target.layers 0 m1 c.ok (fun x hx => by
    have hx := List.mem_append.mpr (.inr hx : x ∈ q.source.vars ∨ x ∈ q.target.vars)
    rw [c.old x (lt x hx)]; exact hl x hx)
  refine ⟨⟨q.scope, q.state, [], ⟨copyScope q.source.scope scope, q.source.nIn, q.source.nOut, s⟩, ⟨copyScope q.target.scope ("target_".toList ++ scope), q.target.nIn, q.target.nOut, t⟩⟩, m2,
    ?_, rfl, rfl, rfl, h2, h4, c.trans c' fun x hx => lt x (List.mem_append.mpr (.inr hx))⟩
  simp only [dqnNewCopy, dqnCopy, mlpClone, h1, Outcome.ok_bind, h3]

/-- Negative: assigning one Q-network to another leaves the target's own replay memory in place. -/
theorem c52_dqn_assign_keeps_memory {S E : Type} (e : Env T) (p q p' : DQN S E) (m m' : Mem T) (h : dqnAssign e false p q m = .ok (p', m')) :
    p'.experiences = p.experiences ∧ p'.state = q.state ∧ p'.scope = q.scope := by
  simp only [dqnAssign, Bool.false_eq_true, if_false] at h
  obtain ⟨m1, _, h⟩ := Outcome.bind_eq_ok.mp h
  obtain ⟨s, _, h⟩ := Outcome.bind_eq_ok.mp h
  obtain ⟨t, _, h⟩ := Outcome.bind_eq_ok.mp h
  injection h with h
  injection h with h _
  subst h
  exact ⟨rfl, rfl, rfl⟩

/-! ### New networks meet the hypotheses above -/

/-- Allocation of a well-formed variable. -/
theorem alloc_ok (m : Mem T) (hm : MemOk m) (v : Var T) (hv : v.leaf.data.WF) :
    MemOk (m.alloc v).2 ∧ (m.alloc v).1 = m.next ∧ (m.alloc v).2.next = m.next + 1 ∧ (m.alloc v).2.at_ m.next = some v ∧ ∀ x w, m.at_ x = some w → (m.alloc v).2.at_ x = some w := by
  refine ⟨⟨fun z w hz => ?_, fun z w hz => ?_⟩, rfl, rfl, by simp [Mem.alloc], fun x w hx => ?_⟩
  · simp only [Mem.alloc] at hz ⊢
    split at hz
    · omega
    · have := hm.lt z w hz; omega
  · simp only [Mem.alloc] at hz
    split at hz
    · injection hz with hz; subst hz; exact hv
    · exact hm.wf z w hz
  · have := hm.lt x w hx
    simp only [Mem.alloc]
    rw [if_neg (by omega)]; exact hx

/-- The layers of a perceptron with `n` inputs: the layer of size `k` after `n` inputs has a new weight of shape
`[k, n]` and a new bias of shape `[k]`, and gives its `k` outputs to the next. -/
inductive Chain (e : Env T) (winit : Nat → Nat → T) (m : Mem T) : Nat → List (Nat × Nat) → List (FC × Nat) → Prop where
  | nil {n : Nat} : Chain e winit m n [] []
  | cons {n k act w b : Nat} {f : FC} {hs : List (Nat × Nat)} {fs : List (FC × Nat)} {lw lb : List Char} :
      f.wb = [(w, b)] → m.at_ w = some ⟨lw, newVariable e [k, n] (some (winit n))⟩ → m.at_ b = some ⟨lb, newVariable e [k] (some fun _ => e.zero)⟩ →
      Chain e winit m k hs fs → Chain e winit m n ((k, act) :: hs) ((f, act) :: fs)

/-- **C52, construction.**  A new perceptron has one layer per entry, with the sizes chained as given, all parameters new
and different, uninitialised; existing variables are unchanged.  So the hypotheses of the theorems on copying hold for
any two perceptrons made one after the other. -/
theorem c52_mlp_new (e : Env T) (winit : Nat → Nat → T) (nIn : Nat) (hiddens : List (Nat × Nat)) (scope : List Char) (m : Mem T) (hm : MemOk m) :
    (mlpNew e winit nIn hiddens scope m).1.nIn = nIn ∧ (mlpNew e winit nIn hiddens scope m).1.nOut = hiddens.getLast?.map Prod.fst ∧
    Chain e winit (mlpNew e winit nIn hiddens scope m).2 nIn hiddens (mlpNew e winit nIn hiddens scope m).1.layers ∧
    MemOk (mlpNew e winit nIn hiddens scope m).2 ∧
    (∀ x v, m.at_ x = some v → (mlpNew e winit nIn hiddens scope m).2.at_ x = some v) ∧
    (mlpNew e winit nIn hiddens scope m).1.vars.Nodup ∧ (∀ x ∈ (mlpNew e winit nIn hiddens scope m).1.vars, m.at_ x = none) := by
  have wfn : ∀ s i, (newVariable e s i : Leaf T).data.WF := fun s _ => new_wf e s
  have key : ∀ (hs : List (Nat × Nat)) (level n : Nat) (m : Mem T), MemOk m →
      Chain e winit (mlpNewFrom e winit scope level n hs m).2 n hs (mlpNewFrom e winit scope level n hs m).1 ∧
      MemOk (mlpNewFrom e winit scope level n hs m).2 ∧ (∀ x v, m.at_ x = some v → (mlpNewFrom e winit scope level n hs m).2.at_ x = some v) ∧
      ((mlpNewFrom e winit scope level n hs m).1.flatMap fun p => p.1.vars).Nodup ∧
      ∀ x ∈ (mlpNewFrom e winit scope level n hs m).1.flatMap (fun p => p.1.vars), m.next ≤ x := by
    intro hs
    induction hs with
    | nil => intro level n m hm; exact ⟨.nil, hm, fun _ _ h => h, .nil, fun x hx => by simp [mlpNewFrom] at hx⟩
    | cons h hs ih =>
      intro level n m hm
      obtain ⟨a1, a2, a3, a4, a5⟩ := alloc_ok m hm ⟨weightLabel (scope ++ ":hidden_".toList ++ num level) 0, newVariable e [h.1, n] (some (winit n))⟩ (wfn _ _)
      obtain ⟨b1, b2, b3, b4, b5⟩ := alloc_ok _ a1 ⟨biasLabel (scope ++ ":hidden_".toList ++ num level) 0, newVariable e [h.1] (some fun _ => e.zero)⟩ (wfn _ _)
      obtain ⟨c1, c2, c3, c4, c5⟩ := ih (level + 1) h.1 _ b1
      refine ⟨?_, c2, fun x v hx => c3 x v (b5 x v (a5 x v hx)), ?_, ?_⟩
      · exact .cons rfl (c3 _ _ (b5 _ _ a4)) (c3 _ _ b4) c1
      · show ([_, _] ++ _ : List Nat).Nodup
        rw [List.nodup_append]
        refine ⟨by simp [Mem.alloc], c4, fun x hx y hy e => ?_⟩
        have := c5 y hy
        rw [b3, a3] at this
        simp [Mem.alloc] at hx
        omega
      · intro x hx
        have hx : x ∈ ([_, _] ++ _ : List Nat) := hx
        rw [List.mem_append] at hx
        rcases hx with hx | hx
        · simp [Mem.alloc] at hx; omega
        · have := c5 x hx
          rw [b3, a3] at this; omega
  obtain ⟨k1, k2, k3, k4, k5⟩ := key hiddens 0 nIn m hm
  refine ⟨rfl, rfl, k1, k2, k3, k4, fun x hx => ?_⟩
  have := k5 x hx
  cases h : m.at_ x with
  | none => rfl
  | some v => have := hm.lt x v h; omega

/-- Two perceptrons with a hidden layer, the second assigned to the first. -/
example : ∃ a m', mlpAssign exEnv false (mlpNew exEnv (fun _ _ => 1) 2 [(1, 0), (3, 1)] ['a'] ⟨0, fun _ => none⟩).1
      (mlpNew exEnv (fun _ _ => 1) 5 [(4, 2)] ['b'] (mlpNew exEnv (fun _ _ => 1) 2 [(1, 0), (3, 1)] ['a'] ⟨0, fun _ => none⟩).2).1
      (mlpNew exEnv (fun _ _ => 1) 5 [(4, 2)] ['b'] (mlpNew exEnv (fun _ _ => 1) 2 [(1, 0), (3, 1)] ['a'] ⟨0, fun _ => none⟩).2).2 = .ok (a, m') ∧
    a.nIn = 5 ∧ a.vars = [6, 7] ∧ (m'.at_ 0).isNone = true ∧ (m'.at_ 4).isSome = true := ⟨_, _, rfl, rfl, rfl, rfl, rfl⟩

end Verif.Props
