import Verif.Lemmas.GraphDrain
import Verif.Spec.Graph
import Mathlib.Tactic.Tauto
/-!
# The invariant of the graph, and construction of an operation
-/
namespace Verif
namespace Graph
open React (upd forEach forEach_ok forEach_inv)
open Spec (DependsOn OpArg Linked)

variable {V : Type} {E : Nat → Nat → Prop}

/-- Argument edges between operations, and the extra edges `E` (none, unless operations were copied). -/
def EdgeE (E : Nat → Nat → Prop) (nodes : List (Def V)) (a b : Nat) : Prop := OpArg nodes a b ∨ E a b

/-- Between calls; `S` are the nodes whose data may be out of date without being queued (none unless an
assignment did not notify). -/
structure InvE (E : Nat → Nat → Prop) (S : Nat → Prop) (g : G V) : Prop where
  wf : WF g
  q : QInv g
  settled : Settled g
  fq : FQ g S
  users : ∀ m k, k ∈ (g.man m).users ↔ g.alive k = true ∧ isOp g k = true ∧ g.gman k = m
  manFreeze : ∀ m, g.defs.length ≤ m → (g.man m).freeze = false
  leaves : ∀ k l, k < g.defs.length → (l ∈ g.leaves k ↔ DependsOn g.defs k l)
  virt : ∃ W : Nat → Nat, (∀ k, g.alive k = true → isOp g k = true → W k = g.gman k) ∧
    (∀ k, k < g.defs.length → W k < g.defs.length) ∧
    ∀ x y, isOp g x = true → isOp g y = true → (W x = W y ↔ Relation.EqvGen (EdgeE E g.defs) x y)
  eop : ∀ a b, E a b → isOp g a = true ∧ isOp g b = true

/-- The invariant of histories without copies of operations. -/
abbrev Inv (S : Nat → Prop) (g : G V) : Prop := InvE (fun _ _ => False) S g

theorem edgeE_false (nodes : List (Def V)) : EdgeE (fun _ _ => False) nodes = OpArg nodes := by
  funext a b; simp [EdgeE]

theorem InvE.linked {S : Nat → Prop} {g : G V} (i : Inv S g) :
    ∃ W : Nat → Nat, (∀ k, g.alive k = true → isOp g k = true → W k = g.gman k) ∧
    (∀ k, k < g.defs.length → W k < g.defs.length) ∧
    ∀ x y, isOp g x = true → isOp g y = true → (W x = W y ↔ Linked g.defs x y) := by
  obtain ⟨W, h1, h2, h3⟩ := i.virt
  rw [edgeE_false] at h3
  exact ⟨W, h1, h2, h3⟩

/-- While `n` is under construction and its operation arguments in `P` have been joined. -/
structure J (E : Nat → Nat → Prop) (n : Nat) (P S : Nat → Prop) (g : G V) : Prop where
  args_lt : ∀ k a, a ∈ argsOf g k → a < k
  alive_lt : ∀ k, g.alive k = true → k < g.defs.length
  alive_args : ∀ k a, g.alive k = true → a ∈ argsOf g k → g.alive a = true
  depth_lt : ∀ k a, a ∈ argsOf g k → isOp g a = true → g.depth a < g.depth k
  gman_eq : ∀ k a, g.alive k = true → a ∈ argsOf g k → isOp g a = true → (k = n → P a) → g.gman a = g.gman k
  gman_lt : ∀ k, isOp g k = true → g.gman k < g.defs.length
  q : QInv g
  settled : Settled g
  fq : FQ g (fun k => S k ∨ k = n)
  users : ∀ m k, k ∈ (g.man m).users ↔ g.alive k = true ∧ isOp g k = true ∧ g.gman k = m
  manFreeze : ∀ m, g.defs.length ≤ m → (g.man m).freeze = false
  nop : isOp g n = true
  nal : g.alive n = true
  leaves : ∀ k l, k < g.defs.length → (l ∈ g.leaves k ↔ DependsOn g.defs k l)
  virt : ∃ W : Nat → Nat, (∀ k, g.alive k = true → isOp g k = true → W k = g.gman k) ∧
    (∀ k, k < g.defs.length → W k < g.defs.length) ∧
    ∀ x y, isOp g x = true → isOp g y = true →
      (W x = W y ↔ Relation.EqvGen (fun a b => (OpArg g.defs a b ∧ (b = n → P a)) ∨ E a b) x y)
  eop : ∀ a b, E a b → isOp g a = true ∧ isOp g b = true

theorem J.mono {n : Nat} {P P' S : Nat → Prop} {g : G V} (j : J E n P S g)
    (h : ∀ a, a ∈ argsOf g n → isOp g a = true → (P a ↔ P' a)) : J E n P' S g := by
  have key : ∀ a b, (OpArg g.defs a b ∧ (b = n → P a)) ↔ (OpArg g.defs a b ∧ (b = n → P' a)) := by
    intro a b
    constructor
    all_goals
      rintro ⟨h1, h2⟩
      refine ⟨h1, fun hb => ?_⟩
      obtain ⟨⟨f, as, z, ea⟩, ⟨f', as', z', eb, hab⟩⟩ := h1
      have h3 : isOp g a = true := (isOp_iff g a).mpr ⟨f, as, z, ea⟩
      subst hb
      have h4 : a ∈ argsOf g b := by rw [argsOf_op eb]; exact hab
      first
        | exact (h a h4 h3).mp (h2 rfl)
        | exact (h a h4 h3).mpr (h2 rfl)
  have hrel : (fun a b => (OpArg g.defs a b ∧ (b = n → P a)) ∨ E a b) = (fun a b => (OpArg g.defs a b ∧ (b = n → P' a)) ∨ E a b) := by
    funext a b; rw [propext (key a b)]
  refine ⟨j.args_lt, j.alive_lt, j.alive_args, j.depth_lt, ?_, j.gman_lt, j.q, j.settled, j.fq, j.users,
    j.manFreeze, j.nop, j.nal, j.leaves, ?_, j.eop⟩
  · intro k a h1 h2 h3 h4
    refine j.gman_eq k a h1 h2 h3 (fun e => ?_)
    subst e
    exact (h a h2 h3).mpr (h4 rfl)
  · rw [← hrel]; exact j.virt

theorem opArg_iff (g : G V) (a b : Nat) : OpArg g.defs a b ↔ isOp g a = true ∧ a ∈ argsOf g b := by
  constructor
  · rintro ⟨⟨f, as, z, ea⟩, ⟨f', as', z', eb, hab⟩⟩
    exact ⟨(isOp_iff g a).mpr ⟨f, as, z, ea⟩, by rw [argsOf_op eb]; exact hab⟩
  · rintro ⟨h1, h2⟩
    refine ⟨(isOp_iff g a).mp h1, ?_⟩
    obtain ⟨f, as, z, e⟩ := (isOp_iff g b).mp (isOp_of_arg h2)
    exact ⟨f, as, z, e, by rw [← argsOf_op e]; exact h2⟩

/-- Merging two classes. -/
theorem merge_classes {r r' : Nat → Nat → Prop} {W : Nat → Nat} {op : Nat → Prop} {a n : Nat}
    (hr : ∀ x y, r' x y ↔ r x y ∨ (x = a ∧ y = n)) (rop : ∀ x y, r' x y → op x ∧ op y) (ha : op a) (hn : op n)
    (h : ∀ x y, op x → op y → (W x = W y ↔ Relation.EqvGen r x y)) (x y : Nat) (hx : op x) (hy : op y) :
    ((if W x = W a then W n else W x) = (if W y = W a then W n else W y)) ↔ Relation.EqvGen r' x y := by
  have mono : ∀ x y, Relation.EqvGen r x y → Relation.EqvGen r' x y := by
    intro x y e
    exact Relation.EqvGen.mono (fun a b h => (hr a b).mpr (Or.inl h)) _ _ e
  have up : ∀ x y, op x → op y → W x = W y → Relation.EqvGen r' x y := fun x y h1 h2 e => mono _ _ ((h x y h1 h2).mp e)
  have an : Relation.EqvGen r' a n := .rel _ _ ((hr a n).mpr (Or.inr ⟨rfl, rfl⟩))
  constructor
  · intro e
    by_cases c1 : W x = W a <;> by_cases c2 : W y = W a
    · exact up x y hx hy (c1.trans c2.symm)
    · rw [if_pos c1, if_neg c2] at e
      exact ((up x a hx ha c1).trans _ _ _ an).trans _ _ _ (up n y hn hy e)
    · rw [if_neg c1, if_pos c2] at e
      exact (up x n hx hn e).trans _ _ _ ((an.symm _ _).trans _ _ _ (up a y ha hy c2.symm))
    · rw [if_neg c1, if_neg c2] at e; exact up x y hx hy e
  · intro e
    have : ∀ x y, Relation.EqvGen r' x y →
        (if W x = W a then W n else W x) = (if W y = W a then W n else W y) := by
      intro x y e
      induction e with
      | rel x y hxy =>
        obtain ⟨ox, oy⟩ := rop x y hxy
        rcases (hr x y).mp hxy with hxy | ⟨rfl, rfl⟩
        · have := (h x y ox oy).mpr (.rel _ _ hxy)
          rw [this]
        · rw [if_pos rfl]; split <;> rfl
      | refl x => rfl
      | symm x y _ ih => exact ih.symm
      | trans x y z _ _ ih1 ih2 => exact ih1.trans ih2
    exact this x y e

theorem consume_J {n c : Nat} {P S : Nat → Prop} {g : G V} (j : J E n P S g) (hc : c ∈ argsOf g n)
    (co : isOp g c = true) : J E n (fun a => P a ∨ a = c) S (consume (g.gman n) (g.gman c) g) := by
  have ca : g.alive c = true := j.alive_args n c j.nal hc
  have hpc0 : ∀ x y, (OpArg g.defs x y ∧ (y = n → P x ∨ x = c)) ↔
      (OpArg g.defs x y ∧ (y = n → P x)) ∨ (x = c ∧ y = n) := by
    intro x y
    constructor
    · rintro ⟨h1, h2⟩
      by_cases hy : y = n
      · rcases h2 hy with h | h
        · exact Or.inl ⟨h1, fun _ => h⟩
        · exact Or.inr ⟨h, hy⟩
      · exact Or.inl ⟨h1, fun e => absurd e hy⟩
    · rintro (⟨h1, h2⟩ | ⟨rfl, rfl⟩)
      · exact ⟨h1, fun e => Or.inl (h2 e)⟩
      · exact ⟨(opArg_iff g x y).mpr ⟨co, hc⟩, fun _ => Or.inr rfl⟩
  have hpc : ∀ x y, ((OpArg g.defs x y ∧ (y = n → P x ∨ x = c)) ∨ E x y) ↔
      ((OpArg g.defs x y ∧ (y = n → P x)) ∨ E x y) ∨ (x = c ∧ y = n) := by
    intro x y; rw [hpc0 x y]; tauto
  have rop : ∀ x y, ((OpArg g.defs x y ∧ (y = n → P x ∨ x = c)) ∨ E x y) → isOp g x = true ∧ isOp g y = true := by
    rintro x y (⟨h, _⟩ | h)
    · have := (opArg_iff g x y).mp h
      exact ⟨this.1, isOp_of_arg this.2⟩
    · exact j.eop x y h
  obtain ⟨W, w1, w2, w3⟩ := j.virt
  have merged := merge_classes (op := fun x => isOp g x = true) hpc rop co j.nop w3
  have wn : W n = g.gman n := w1 n j.nal j.nop
  have wc : W c = g.gman c := w1 c ca co
  unfold consume
  by_cases hmo : g.gman n = g.gman c
  · rw [if_pos hmo]
    refine ⟨j.args_lt, j.alive_lt, j.alive_args, j.depth_lt, ?_, j.gman_lt, j.q, j.settled, j.fq, j.users,
      j.manFreeze, j.nop, j.nal, j.leaves, ⟨W, w1, w2, ?_⟩, j.eop⟩
    · intro k a h1 h2 h3 h4
      by_cases hk : k = n
      · rcases h4 hk with h | h
        · exact j.gman_eq k a h1 h2 h3 (fun _ => h)
        · rw [h, hk]; exact hmo.symm
      · exact j.gman_eq k a h1 h2 h3 (fun e => absurd e hk)
    · intro x y hx hy
      rw [← merged x y hx hy]
      have : ∀ z, (if W z = W c then W n else W z) = W z := by
        intro z; split
        · next e => rw [e, wn, wc, hmo]
        · rfl
      rw [this, this]
  · rw [if_neg hmo]
    generalize hm : g.gman n = m at *
    generalize ho : g.gman c = o at *
    have ml : m < g.defs.length := by rw [← hm]; exact j.gman_lt n j.nop
    -- the new components
    let gm : Nat → Nat := fun x => if x ∈ (g.man o).users then m else g.gman x
    let mn : Nat → Man := upd (upd g.man m { g.man m with queue := (g.man o).queue ++ (g.man m).queue, map := (g.man o).map ++ (g.man m).map, users := (g.man o).users ++ (g.man m).users }) o {}
    have mno : mn o = {} := by simp [mn, upd]
    have mnm : mn m = { g.man m with queue := (g.man o).queue ++ (g.man m).queue, map := (g.man o).map ++ (g.man m).map, users := (g.man o).users ++ (g.man m).users } := by
      simp [mn, upd, hmo]
    have mnx : ∀ x, x ≠ m → x ≠ o → mn x = g.man x := by
      intro x h1 h2; simp [mn, upd, h1, h2]
    have gma : ∀ x, g.alive x = true → isOp g x = true → gm x = if g.gman x = o then m else g.gman x := by
      intro x h1 h2
      show (if x ∈ (g.man o).users then m else g.gman x) = _
      have := j.users o x
      by_cases c : g.gman x = o
      · rw [if_pos c, if_pos (this.mpr ⟨h1, h2, c⟩)]
      · rw [if_neg c, if_neg (fun h => c (this.mp h).2.2)]
    -- a map entry of the new state comes from an old one
    have mapc : ∀ m' x, x ∈ (mn m').map → (m' = m ∧ (x ∈ (g.man o).map ∨ x ∈ (g.man m).map)) ∨
        (m' ≠ m ∧ m' ≠ o ∧ x ∈ (g.man m').map) := by
      intro m' x hx
      by_cases h1 : m' = m
      · left; rw [h1, mnm] at hx; exact ⟨h1, List.mem_append.mp hx⟩
      · by_cases h2 : m' = o
        · rw [h2, mno] at hx; simp at hx
        · right; rw [mnx m' h1 h2] at hx; exact ⟨h1, h2, hx⟩
    have disj : ∀ x, x ∈ (g.man o).map → x ∉ (g.man m).map := by
      intro x h1 h2; exact hmo (j.q.uniq m o x h2 h1)
    have qq : ∀ x, g.alive x = true → isOp g x = true → x ∈ (g.man (g.gman x)).queue → x ∈ (mn (gm x)).queue := by
      intro x h1 h2 h3
      rw [gma x h1 h2]
      by_cases c : g.gman x = o
      · rw [if_pos c, mnm]; rw [c] at h3; exact List.mem_append.mpr (Or.inl h3)
      · rw [if_neg c]
        by_cases c' : g.gman x = m
        · rw [c', mnm]; rw [c'] at h3; exact List.mem_append.mpr (Or.inr h3)
        · rw [mnx _ c' c]; exact h3
    have geq : ∀ k a, g.alive k = true → isOp g k = true → g.alive a = true → isOp g a = true →
        g.gman a = g.gman k → gm a = gm k := by
      intro k a h1 h2 h3 h4 h5
      rw [gma k h1 h2, gma a h3 h4, h5]
    show J E n _ S { g with gman := gm, man := mn }
    refine ⟨j.args_lt, j.alive_lt, j.alive_args, j.depth_lt, ?_, ?_, ⟨j.q.mono, ?_, ?_, ?_, ?_, ?_, ?_, ?_⟩, ?_, ?_, ?_,
      ?_, j.nop, j.nal, j.leaves, ⟨fun x => if W x = W c then W n else W x, ?_, ?_, merged⟩, j.eop⟩
    · -- gman_eq
      intro k a h1 h2 h3 h4
      have h2' : a ∈ argsOf g k := h2
      have h3' : isOp g a = true := h3
      have ka : isOp g k = true := isOp_of_arg h2'
      have aa := j.alive_args k a h1 h2'
      show gm a = gm k
      by_cases hk : k = n
      · rcases h4 hk with h | h
        · exact geq k a h1 ka aa h3' (j.gman_eq k a h1 h2' h3' (fun _ => h))
        · rw [hk, h, gma n j.nal j.nop, gma c ca co, hm, ho, if_pos rfl, if_neg hmo]
      · exact geq k a h1 ka aa h3' (j.gman_eq k a h1 h2' h3' (fun e => absurd e hk))
    · intro k hk
      show gm k < g.defs.length
      show (if k ∈ (g.man o).users then m else g.gman k) < _
      split
      · exact ml
      · exact j.gman_lt k hk
    · -- sub
      intro m' x hx
      have hx : x ∈ (mn m').queue := hx
      show x ∈ (mn m').map
      by_cases h1 : m' = m
      · rw [h1, mnm] at hx ⊢
        rcases List.mem_append.mp hx with hx | hx
        · exact List.mem_append.mpr (Or.inl (j.q.sub o x hx))
        · exact List.mem_append.mpr (Or.inr (j.q.sub m x hx))
      · by_cases h2 : m' = o
        · rw [h2, mno] at hx; simp at hx
        · rw [mnx m' h1 h2] at hx ⊢; exact j.q.sub m' x hx
    · -- mem
      intro m' x ha hx
      have ha : g.alive x = true := ha
      show gm x = m'
      rcases mapc m' x hx with ⟨e, h | h⟩ | ⟨h1, h2, h⟩
      · rw [gma x ha (j.q.mapOp o x h).1, if_pos (j.q.mem o x ha h), e]
      · rw [gma x ha (j.q.mapOp m x h).1, j.q.mem m x ha h, if_neg hmo, e]
      · rw [gma x ha (j.q.mapOp m' x h).1, j.q.mem m' x ha h, if_neg h2]
    · intro m' x hx
      rcases mapc m' x hx with ⟨_, h | h⟩ | ⟨_, _, h⟩
      · exact j.q.mapOp o x h
      · exact j.q.mapOp m x h
      · exact j.q.mapOp m' x h
    · intro m' x hx
      rcases mapc m' x hx with ⟨e, _⟩ | ⟨_, _, h⟩
      · rw [e]; exact ml
      · exact j.q.mlt m' x h
    · intro m1 m2 x h1 h2
      rcases mapc m1 x h1 with ⟨e1, a1⟩ | ⟨a1, b1, d1⟩ <;> rcases mapc m2 x h2 with ⟨e2, a2⟩ | ⟨a2, b2, d2⟩
      · rw [e1, e2]
      · rcases a1 with a1 | a1
        · exact absurd (j.q.uniq m2 o x d2 a1) b2
        · exact absurd (j.q.uniq m2 m x d2 a1) a2
      · rcases a2 with a2 | a2
        · exact absurd (j.q.uniq m1 o x d1 a2) b1
        · exact absurd (j.q.uniq m1 m x d1 a2) a1
      · exact j.q.uniq m1 m2 x d1 d2
    · intro m'
      show (mn m').map.Nodup
      by_cases h1 : m' = m
      · rw [h1, mnm]
        exact List.nodup_append.mpr ⟨j.q.mapND o, j.q.mapND m, fun a ha b hb e => disj a ha (e ▸ hb)⟩
      · by_cases h2 : m' = o
        · rw [h2, mno]; exact List.nodup_nil
        · rw [mnx m' h1 h2]; exact j.q.mapND m'
    · intro m'
      show (mn m').queue.Nodup
      by_cases h1 : m' = m
      · rw [h1, mnm]
        exact List.nodup_append.mpr ⟨j.q.queueND o, j.q.queueND m,
          fun a ha b hb e => disj a (j.q.sub _ _ ha) (e ▸ j.q.sub _ _ hb)⟩
      · by_cases h2 : m' = o
        · rw [h2, mno]; exact List.nodup_nil
        · rw [mnx m' h1 h2]; exact j.q.queueND m'
    · -- settled
      intro m' x hx
      show x ∈ (mn m').queue
      rcases mapc m' x hx with ⟨e, h | h⟩ | ⟨h1, h2, h⟩
      · rw [e, mnm]; exact List.mem_append.mpr (Or.inl (j.settled o x h))
      · rw [e, mnm]; exact List.mem_append.mpr (Or.inr (j.settled m x h))
      · rw [mnx m' h1 h2]; exact j.settled m' x h
    · -- fq
      intro k ha hS
      rcases j.fq k ha hS with hf | hq
      · exact Or.inl (hf.of_same rfl rfl (fun _ _ => rfl))
      · exact Or.inr (qq k ha (j.q.mapOp _ k (j.q.sub _ _ hq)).1 hq)
    · -- users
      intro m' k
      show k ∈ (mn m').users ↔ g.alive k = true ∧ isOp g k = true ∧ gm k = m'
      have conv : (g.alive k = true ∧ isOp g k = true ∧ gm k = m') ↔
          (g.alive k = true ∧ isOp g k = true ∧ (if g.gman k = o then m else g.gman k) = m') := by
        constructor
        · rintro ⟨h1, h2, h3⟩; rw [gma k h1 h2] at h3; exact ⟨h1, h2, h3⟩
        · rintro ⟨h1, h2, h3⟩; exact ⟨h1, h2, by rw [gma k h1 h2]; exact h3⟩
      rw [conv]
      by_cases h1 : m' = m
      · subst h1
        rw [mnm]
        show k ∈ (g.man o).users ++ (g.man m').users ↔ _
        rw [List.mem_append, j.users, j.users]
        constructor
        · rintro (⟨a, b, e⟩ | ⟨a, b, e⟩)
          · exact ⟨a, b, by rw [if_pos e]⟩
          · exact ⟨a, b, by rw [e, if_neg hmo]⟩
        · rintro ⟨a, b, e⟩
          by_cases c : g.gman k = o
          · exact Or.inl ⟨a, b, c⟩
          · rw [if_neg c] at e; exact Or.inr ⟨a, b, e⟩
      · by_cases h2 : m' = o
        · subst h2
          rw [mno]
          constructor
          · intro h; simp at h
          · rintro ⟨a, b, e⟩
            exfalso
            by_cases c : g.gman k = m'
            · rw [if_pos c] at e; exact hmo e
            · rw [if_neg c] at e; exact c e
        · rw [mnx m' h1 h2, j.users]
          constructor
          · rintro ⟨a, b, e⟩; exact ⟨a, b, by rw [e, if_neg h2]⟩
          · rintro ⟨a, b, e⟩
            by_cases c : g.gman k = o
            · rw [if_pos c] at e; exact absurd e.symm h1
            · rw [if_neg c] at e; exact ⟨a, b, e⟩
    · intro m' hm'
      have hm' : g.defs.length ≤ m' := hm'
      show (mn m').freeze = false
      have h1 : m' ≠ m := by omega
      by_cases h2 : m' = o
      · rw [h2, mno]
      · rw [mnx m' h1 h2]; exact j.manFreeze m' hm'
    · intro k h1 h2
      have h1 : g.alive k = true := h1
      have h2 : isOp g k = true := h2
      show (if W k = W c then W n else W k) = gm k
      rw [gma k h1 h2, w1 k h1 h2, wc, wn]
    · intro k hk
      show (if W k = W c then W n else W k) < g.defs.length
      split
      · rw [wn]; exact ml
      · exact w2 k hk

/-! ### Appending a node -/

theorem getElem?_push {α : Type} (l : List α) (d : α) (k : Nat) :
    (l ++ [d])[k]? = if k = l.length then some d else l[k]? := by
  by_cases h : k < l.length
  · rw [List.getElem?_append_left h, if_neg (by omega)]
  · by_cases h2 : k = l.length
    · subst h2; simp
    · rw [if_neg h2, List.getElem?_eq_none (by simp; omega), List.getElem?_eq_none (by omega)]

theorem argsOf_push {g g' : G V} {d : Def V} (h : g'.defs = g.defs ++ [d]) (k : Nat) :
    argsOf g' k = if k = g.defs.length then d.args else argsOf g k := by
  unfold argsOf; rw [h, getElem?_push]
  split <;> rfl

theorem isOp_push {g g' : G V} {d : Def V} (h : g'.defs = g.defs ++ [d]) (k : Nat) :
    isOp g' k = if k = g.defs.length then d.isOp else isOp g k := by
  unfold isOp; rw [h, getElem?_push]
  split <;> rfl

theorem dependsOn_push {l : List (Def V)} {d : Def V} (lt : ∀ (k : Nat) f args b, l[k]? = some (.op f args b) → ∀ a ∈ args, a < k)
    (k x : Nat) (hk : k < l.length) : DependsOn (l ++ [d]) k x ↔ DependsOn l k x := by
  constructor
  · intro h
    induction h with
    | leaf e =>
      rw [getElem?_push, if_neg (by omega)] at e
      exact .leaf e
    | op e ha _ ih =>
      rw [getElem?_push, if_neg (by omega)] at e
      exact .op e ha (ih (by have := lt _ _ _ _ e _ ha; omega))
  · intro h
    induction h with
    | leaf e => exact .leaf (by rw [getElem?_push, if_neg (by omega)]; exact e)
    | op e ha _ ih =>
      exact .op (by rw [getElem?_push, if_neg (by omega)]; exact e) ha (ih (by have := lt _ _ _ _ e _ ha; omega))

theorem WF.defs_lt {g : G V} (w : WF g) : ∀ (k : Nat) f args b, g.defs[k]? = some (.op f args b) → ∀ a ∈ args, a < k := by
  intro k f args b e a ha
  exact w.args_lt k a (by rw [argsOf_op e]; exact ha)

/-- A new manager is in its initial state. -/
theorem InvE.manNew {S : Nat → Prop} {g : G V} (i : InvE E S g) (m : Nat) (h : g.defs.length ≤ m) : g.man m = {} := by
  have h1 : (g.man m).map = [] := by
    cases e : (g.man m).map with
    | nil => rfl
    | cons x xs => have := i.q.mlt m x (by rw [e]; simp); omega
  have h2 : (g.man m).queue = [] := by
    cases e : (g.man m).queue with
    | nil => rfl
    | cons x xs =>
      have := i.q.sub m x (by rw [e]; simp)
      rw [h1] at this; simp at this
  have h3 : (g.man m).users = [] := by
    cases e : (g.man m).users with
    | nil => rfl
    | cons x xs =>
      have := (i.users m x).mp (by rw [e]; simp)
      have l := i.wf.gman_lt x this.2.1
      rw [this.2.2] at l; omega
  have h4 := i.manFreeze m h
  cases e : g.man m with
  | mk a b c d => rw [e] at h1 h2 h3 h4; simp at h1 h2 h3 h4; subst h1 h2 h3 h4; rfl

theorem foldl_max_ge (l : List Nat) (z : Nat) : z ≤ l.foldl max z ∧ ∀ x ∈ l, x ≤ l.foldl max z := by
  induction l generalizing z with
  | nil => simp
  | cons a as ih =>
    have := ih (max z a)
    simp only [List.foldl_cons, List.mem_cons]
    refine ⟨by omega, ?_⟩
    rintro x (rfl | hx)
    · omega
    · exact this.2 x hx

/-- The node joins the manager `m0`, before any union. -/
def joinFirst (f : List V → Outcome V) (args : List Nat) (hides : Bool) (m0 : Nat) (g : G V) : G V :=
  { g with defs := g.defs ++ [.op f args hides], alive := upd g.alive g.defs.length true, depth := upd g.depth g.defs.length ((args.map g.depth).foldl max 0 + 1), data := upd g.data g.defs.length none, leaves := upd g.leaves g.defs.length (if hides then [] else (args.flatMap g.leaves).dedup), gman := upd g.gman g.defs.length m0, man := upd g.man m0 { g.man m0 with users := g.defs.length :: (g.man m0).users } }

theorem joinFirst_J {S : Nat → Prop} {g : G V} (i : InvE E S g) (f : List V → Outcome V) (args : List Nat)
    (hides : Bool) (hargs : ∀ a ∈ args, g.alive a = true) (m0 : Nat) (P : Nat → Prop)
    (hm : (m0 = g.defs.length ∧ ∀ a, ¬ P a) ∨
      ∃ c, c ∈ args ∧ isOp g c = true ∧ m0 = g.gman c ∧ ∀ a, P a ↔ a = c) :
    J E g.defs.length P S (joinFirst f args hides m0 g) := by
  generalize hn : g.defs.length = n
  have lt_n : ∀ a ∈ args, a < n := fun a ha => by rw [← hn]; exact i.wf.alive_lt a (hargs a ha)
  have hd : (joinFirst f args hides m0 g).defs = g.defs ++ [.op f args hides] := rfl
  have dl : (joinFirst f args hides m0 g).defs.length = n + 1 := by rw [hd]; simp [hn]
  have hA : ∀ k, argsOf (joinFirst f args hides m0 g) k = if k = n then args else argsOf g k := by
    intro k; rw [argsOf_push hd, hn]; rfl
  have hO : ∀ k, isOp (joinFirst f args hides m0 g) k = if k = n then true else isOp g k := by
    intro k; rw [isOp_push hd, hn]; rfl
  have al : ∀ k, (joinFirst f args hides m0 g).alive k = if k = n then true else g.alive k := by
    intro k; simp only [joinFirst, upd, hn]
  have dp : ∀ k, (joinFirst f args hides m0 g).depth k = if k = n then (args.map g.depth).foldl max 0 + 1 else g.depth k := by
    intro k; simp only [joinFirst, upd, hn]
  have da : ∀ k, (joinFirst f args hides m0 g).data k = if k = n then none else g.data k := by
    intro k; simp only [joinFirst, upd, hn]
  have gm : ∀ k, (joinFirst f args hides m0 g).gman k = if k = n then m0 else g.gman k := by
    intro k; simp only [joinFirst, upd, hn]
  have lv : ∀ k, (joinFirst f args hides m0 g).leaves k = if k = n then (if hides then [] else (args.flatMap g.leaves).dedup) else g.leaves k := by
    intro k; simp only [joinFirst, upd, hn]
  have mq : ∀ m, ((joinFirst f args hides m0 g).man m).queue = (g.man m).queue := by
    intro m; simp only [joinFirst, upd]; split
    · next c => rw [c]
    · rfl
  have mm : ∀ m, ((joinFirst f args hides m0 g).man m).map = (g.man m).map := by
    intro m; simp only [joinFirst, upd]; split
    · next c => rw [c]
    · rfl
  have mz : ∀ m, ((joinFirst f args hides m0 g).man m).freeze = (g.man m).freeze := by
    intro m; simp only [joinFirst, upd]; split
    · next c => rw [c]
    · rfl
  have mu : ∀ m, ((joinFirst f args hides m0 g).man m).users = if m = m0 then n :: (g.man m).users else (g.man m).users := by
    intro m; simp only [joinFirst, upd, hn]; split
    · next c => rw [c]
    · rfl
  have nag : ∀ k, k ∈ argsOf g n → False := by
    intro k hk
    have := isOp_lt (isOp_of_arg hk); omega
  have m0l : m0 < n + 1 := by
    rcases hm with ⟨e, _⟩ | ⟨c, hc, co, e, _⟩
    · omega
    · have := i.wf.gman_lt c co; omega
  have mapn : ∀ m, n ∉ (g.man m).map := by
    intro m h
    have := isOp_lt (i.q.mapOp m n h).1; omega
  generalize hG : joinFirst f args hides m0 g = G' at *
  have eop : ∀ a b, E a b → isOp G' a = true ∧ isOp G' b = true := by
    intro a b h
    rw [hO, hO]
    have := i.eop a b h
    exact ⟨by split <;> simp [this.1], by split <;> simp [this.2]⟩
  refine ⟨?_, ?_, ?_, ?_, ?_, ?_, ⟨?_, ?_, ?_, ?_, ?_, ?_, ?_, ?_⟩, ?_, ?_, ?_, ?_, ?_, ?_, ?_, ?_, eop⟩
  · intro k a h
    rw [hA] at h
    split at h
    · next c => rw [c]; exact lt_n a h
    · exact i.wf.args_lt k a h
  · intro k h
    rw [al] at h; rw [dl]
    split at h
    · omega
    · have := i.wf.alive_lt k h; omega
  · intro k a h h'
    rw [al] at h; rw [hA] at h'; rw [al]
    split at h
    · next c =>
      rw [if_pos c] at h'
      have := lt_n a h'
      rw [if_neg (by omega)]; exact hargs a h'
    · next c =>
      rw [if_neg c] at h'
      split
      · rfl
      · exact i.wf.alive_args k a h h'
  · intro k a h ho
    rw [hA] at h; rw [dp, dp]
    split at h
    · next c =>
      have := lt_n a h
      rw [if_neg (by omega), if_pos c]
      have := (foldl_max_ge (args.map g.depth) 0).2 (g.depth a) (List.mem_map_of_mem h)
      omega
    · next c =>
      have h1 := i.wf.args_lt k a h
      have h2 := isOp_lt (isOp_of_arg h)
      rw [hO, if_neg (by omega)] at ho
      rw [if_neg (by omega), if_neg c]; exact i.wf.depth_lt k a h ho
  · intro k a h1 h2 h3 h4
    rw [al] at h1; rw [hA] at h2; rw [hO] at h3; rw [gm, gm]
    by_cases c : k = n
    · rw [if_pos c] at h2
      have := lt_n a h2
      rw [if_neg (by omega), if_pos c]
      rcases hm with ⟨_, hp⟩ | ⟨c', _, _, e, hp⟩
      · exact absurd (h4 c) (hp a)
      · rw [(hp a).mp (h4 c), e]
    · rw [if_neg c] at h1 h2
      have h5 := i.wf.args_lt k a h2
      have h6 := isOp_lt (isOp_of_arg h2)
      rw [if_neg (by omega)] at h3
      rw [if_neg (by omega), if_neg c]
      exact i.wf.gman_eq k a h1 h2 h3
  · intro k hk
    rw [hO] at hk; rw [dl, gm]
    split
    · exact m0l
    · next c => rw [if_neg c] at hk; have := i.wf.gman_lt k hk; omega
  · intro k h1 h2 a ha
    rw [hO] at h1; rw [da] at h2; rw [hA] at ha; rw [da]
    by_cases c : k = n
    · rw [if_pos c] at h2; cases h2
    · rw [if_neg c] at h1 h2 ha
      have h5 := i.wf.args_lt k a ha
      have h6 := isOp_lt h1
      rw [if_neg (by omega)]
      exact i.q.mono k h1 h2 a ha
  · intro m x hx
    rw [mq] at hx; rw [mm]; exact i.q.sub m x hx
  · intro m x h1 h2
    rw [al] at h1; rw [mm] at h2; rw [gm]
    by_cases c : x = n
    · rw [c] at h2; exact absurd h2 (mapn m)
    · rw [if_neg c] at h1 ⊢; exact i.q.mem m x h1 h2
  · intro m x hx
    rw [mm] at hx
    have := i.q.mapOp m x hx
    have hx' : x < n := by rw [← hn]; exact isOp_lt this.1
    rw [hO, hA, if_neg (by omega), if_neg (by omega)]
    refine ⟨this.1, fun a ha => ?_⟩
    have h5 := i.wf.args_lt x a ha
    rw [da, if_neg (by omega)]; exact this.2 a ha
  · intro m x hx
    rw [mm] at hx; rw [dl]
    have := i.q.mlt m x hx; omega
  · intro m m' x h1 h2; rw [mm] at h1 h2; exact i.q.uniq m m' x h1 h2
  · intro m; rw [mm]; exact i.q.mapND m
  · intro m; rw [mq]; exact i.q.queueND m
  · intro m x hx; rw [mm] at hx; rw [mq]; exact i.settled m x hx
  · intro k h1 hS
    have c : k ≠ n := fun e => hS (Or.inr e)
    rw [al, if_neg c] at h1
    have kl : k < n := by rw [← hn]; exact i.wf.alive_lt k h1
    rw [gm, if_neg c, mq]
    rcases i.fq k h1 (fun h => hS (Or.inl h)) with hf | hq
    · left
      intro f' as' b' e vs hv
      rw [← hG] at e
      have e : (g.defs ++ [Def.op f args hides])[k]? = some (.op f' as' b') := e
      rw [getElem?_push, hn, if_neg c] at e
      have : as'.mapM G'.data = as'.mapM g.data := by
        apply mapM_congr
        intro a ha
        have := i.wf.defs_lt k _ _ _ e a ha
        rw [da, if_neg (by omega)]
      rw [this] at hv
      rw [da, if_neg c]
      exact hf f' as' b' e vs hv
    · exact Or.inr hq
  · intro m k
    rw [mu, al, hO, gm]
    by_cases c : k = n
    · subst c
      rw [if_pos rfl, if_pos rfl, if_pos rfl]
      have : k ∉ (g.man m).users := by
        intro h
        have := isOp_lt ((i.users m k).mp h).2.1; omega
      by_cases c : m = m0
      · subst c; simp
      · rw [if_neg c]
        simp only [this, true_and, false_iff]
        exact fun e => c e.symm
    · rw [if_neg c, if_neg c, if_neg c]
      have : k ∈ (if m = m0 then n :: (g.man m).users else (g.man m).users) ↔ k ∈ (g.man m).users := by
        split
        · simp [c]
        · rfl
      rw [this]; exact i.users m k
  · intro m h
    rw [dl] at h; rw [mz]; exact i.manFreeze m (by omega)
  · rw [hO, if_pos rfl]
  · rw [al, if_pos rfl]
  · intro k l hk
    rw [dl] at hk
    have hdd : G'.defs = g.defs ++ [Def.op f args hides] := by rw [← hG]; rfl
    rw [hdd, lv]
    by_cases c : k = n
    · subst c
      rw [if_pos rfl]
      have hget : (g.defs ++ [Def.op f args hides])[k]? = some (.op f args hides) := by
        rw [getElem?_push, if_pos hn.symm]
      cases hides with
      | true =>
        simp only [if_true]
        constructor
        · intro h; simp at h
        · intro h
          cases h with
          | leaf e => rw [hget] at e; cases e
          | op e _ _ => rw [hget] at e; cases e
      | false =>
        simp only [Bool.false_eq_true, if_false, List.mem_dedup, List.mem_flatMap]
        constructor
        · rintro ⟨a, ha, hl⟩
          have hal := lt_n a ha
          refine .op hget ha ?_
          rw [dependsOn_push i.wf.defs_lt a l (by omega)]
          exact (i.leaves a l (by omega)).mp hl
        · intro h
          cases h with
          | leaf e => rw [hget] at e; cases e
          | op e ha hd' =>
            rw [hget] at e; cases e
            have hal := lt_n _ ha
            rw [dependsOn_push i.wf.defs_lt _ l (by omega)] at hd'
            exact ⟨_, ha, (i.leaves _ l (by omega)).mpr hd'⟩
    · rw [if_neg c, dependsOn_push i.wf.defs_lt k l (by omega)]
      exact i.leaves k l (by omega)
  · obtain ⟨W, w1, w2, w3⟩ := i.virt
    have hrel0 : ∀ a b, (OpArg G'.defs a b ∧ (b = n → P a)) ↔
        (OpArg g.defs a b ∨ (b = n ∧ P a ∧ a ∈ args ∧ isOp g a = true)) := by
      intro a b
      rw [opArg_iff, opArg_iff, hA, hO]
      by_cases c : b = n
      · rw [if_pos c]
        constructor
        · rintro ⟨⟨h1, h2⟩, h3⟩
          have := lt_n a h2
          rw [if_neg (by omega)] at h1
          exact Or.inr ⟨c, h3 c, h2, h1⟩
        · rintro (⟨h1, h2⟩ | ⟨h1, h2, h3, h4⟩)
          · exact (nag a (c ▸ h2)).elim
          · have := lt_n a h3
            rw [if_neg (by omega)]
            exact ⟨⟨h4, h3⟩, fun _ => h2⟩
      · rw [if_neg c]
        constructor
        · rintro ⟨⟨h1, h2⟩, h3⟩
          have h5 := i.wf.args_lt b a h2
          have h6 := isOp_lt (isOp_of_arg h2)
          rw [if_neg (by omega)] at h1
          exact Or.inl ⟨h1, h2⟩
        · rintro (⟨h1, h2⟩ | ⟨h1, _⟩)
          · have := isOp_lt h1
            rw [if_neg (by omega)]
            exact ⟨⟨h1, h2⟩, fun e => absurd e c⟩
          · exact absurd h1 c
    have hrel : ∀ a b, ((OpArg G'.defs a b ∧ (b = n → P a)) ∨ E a b) ↔
        (EdgeE E g.defs a b ∨ (b = n ∧ P a ∧ a ∈ args ∧ isOp g a = true)) := by
      intro a b; rw [hrel0]; unfold EdgeE; tauto
    have edge : ∀ x y, EdgeE E g.defs x y → isOp g x = true ∧ isOp g y = true := by
      rintro x y (h | h)
      · have h := (opArg_iff g x y).mp h
        exact ⟨h.1, isOp_of_arg h.2⟩
      · exact i.eop x y h
    have nolink : ∀ x y, Relation.EqvGen (EdgeE E g.defs) x y → (x = n ↔ y = n) := by
      intro x y h
      induction h with
      | rel x y h =>
        have h1 := isOp_lt (edge x y h).1
        have h2 := isOp_lt (edge x y h).2
        constructor <;> intro e <;> omega
      | refl x => rfl
      | symm x y _ ih => exact ih.symm
      | trans x y z _ _ ih1 ih2 => exact ih1.trans ih2
    refine ⟨upd W n m0, ?_, ?_, ?_⟩
    · intro k h1 h2
      rw [al] at h1; rw [hO] at h2; rw [gm]
      unfold upd
      by_cases c : k = n
      · rw [if_pos c, if_pos c]
      · rw [if_neg c] at h1 h2; rw [if_neg c, if_neg c]; exact w1 k h1 h2
    · intro k hk
      rw [dl] at *
      unfold upd
      split
      · exact m0l
      · have := w2 k (by omega); omega
    · have old : ∀ x y, x ≠ n → y ≠ n → isOp g x = true → isOp g y = true → (upd W n m0 x = upd W n m0 y ↔ Relation.EqvGen (EdgeE E g.defs) x y) := by
        intro x y h1 h2 h3 h4
        unfold upd; rw [if_neg h1, if_neg h2]; exact w3 x y h3 h4
      rcases hm with ⟨e0, hp⟩ | ⟨c, hc, co, e0, hp⟩
      · have hr : (fun a b => (OpArg G'.defs a b ∧ (b = n → P a)) ∨ E a b) = EdgeE E g.defs := by
          funext a b
          rw [hrel]
          apply propext
          constructor
          · rintro (h | ⟨_, h, _⟩)
            · exact h
            · exact absurd h (hp a)
          · exact Or.inl
        rw [hr]
        intro x y hx hy
        rw [hO] at hx hy
        by_cases cx : x = n <;> by_cases cy : y = n
        · rw [cx, cy]; exact ⟨fun _ => .refl _, fun _ => rfl⟩
        · rw [if_neg cy] at hy
          constructor
          · intro h
            unfold upd at h
            rw [if_pos cx, if_neg cy] at h
            have := w2 y (isOp_lt hy); omega
          · intro h; exact absurd ((nolink x y h).mp cx) cy
        · rw [if_neg cx] at hx
          constructor
          · intro h
            unfold upd at h
            rw [if_neg cx, if_pos cy] at h
            have := w2 x (isOp_lt hx); omega
          · intro h; exact absurd ((nolink x y h).mpr cy) cx
        · rw [if_neg cx] at hx; rw [if_neg cy] at hy
          exact old x y cx cy hx hy
      · have wc : W c = m0 := by rw [e0]; exact w1 c (hargs c hc) co
        have cn : c ≠ n := by have := lt_n c hc; omega
        have hr : ∀ x y, ((OpArg G'.defs x y ∧ (y = n → P x)) ∨ E x y) ↔ EdgeE E g.defs x y ∨ (x = c ∧ y = n) := by
          intro x y
          rw [hrel]
          constructor
          · rintro (h | ⟨h1, h2, _⟩)
            · exact Or.inl h
            · exact Or.inr ⟨(hp x).mp h2, h1⟩
          · rintro (h | ⟨h1, h2⟩)
            · exact Or.inl h
            · subst h1; exact Or.inr ⟨h2, (hp x).mpr rfl, hc, co⟩
        have mono : ∀ x y, Relation.EqvGen (EdgeE E g.defs) x y → Relation.EqvGen (fun a b => (OpArg G'.defs a b ∧ (b = n → P a)) ∨ E a b) x y := by
          intro x y e
          exact Relation.EqvGen.mono (fun a b h => (hr a b).mpr (Or.inl h)) _ _ e
        have cl : Relation.EqvGen (fun a b => (OpArg G'.defs a b ∧ (b = n → P a)) ∨ E a b) c n :=
          .rel _ _ ((hr c n).mpr (Or.inr ⟨rfl, rfl⟩))
        have un : upd W n m0 n = m0 := by simp [upd]
        have uo : ∀ x, x ≠ n → upd W n m0 x = W x := by intro x h; simp [upd, h]
        intro x y hx hy
        rw [hO] at hx hy
        constructor
        · intro h
          by_cases cx : x = n <;> by_cases cy : y = n
          · rw [cx, cy]; exact .refl _
          · rw [if_neg cy] at hy
            rw [cx, un, uo y cy, ← wc] at h
            rw [cx]
            exact (cl.symm _ _).trans _ _ _ (mono c y ((w3 c y co hy).mp h))
          · rw [if_neg cx] at hx
            rw [cy, un, uo x cx, ← wc] at h
            rw [cy]
            exact (mono x c ((w3 x c hx co).mp h)).trans _ _ _ cl
          · rw [if_neg cx] at hx; rw [if_neg cy] at hy
            exact mono x y ((old x y cx cy hx hy).mp h)
        · intro h
          clear hx hy
          induction h with
          | rel x y h =>
            rcases (hr x y).mp h with h | ⟨h1, h2⟩
            · have h' := edge x y h
              have hx := isOp_lt h'.1
              have hy := isOp_lt h'.2
              exact (old x y (by omega) (by omega) h'.1 h'.2).mpr (.rel _ _ h)
            · rw [h1, h2, un, uo c cn, wc]
          | refl x => rfl
          | symm x y _ ih => exact ih.symm
          | trans x y z _ _ ih1 ih2 => exact ih1.trans ih2

end Graph
end Verif
