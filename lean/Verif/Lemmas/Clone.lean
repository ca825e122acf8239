import Verif.Spec.Clone
import Verif.Lemmas.GraphFreeze
/-!
# Copies keep the invariant, when the original works on leaves
-/
namespace Verif
namespace Graph
open React (upd)
open Spec (DependsOn OpArg)

variable {V : Type} {E : Nat → Nat → Prop}

/-- Adding one element to a class. -/
theorem push_class {r r' : Nat → Nat → Prop} {W : Nat → Nat} {op : Nat → Prop} {c N m0 : Nat}
    (hr : ∀ x y, r' x y ↔ r x y ∨ (x = c ∧ y = N)) (rop : ∀ x y, r x y → op x ∧ op y) (hN : ¬ op N) (hc : op c) (wc : W c = m0)
    (h : ∀ x y, op x → op y → (W x = W y ↔ Relation.EqvGen r x y)) (x y : Nat) (hx : x = N ∨ op x) (hy : y = N ∨ op y) :
    upd W N m0 x = upd W N m0 y ↔ Relation.EqvGen r' x y := by
  have ne : ∀ z, op z → z ≠ N := fun z hz e => hN (e ▸ hz)
  have mono : ∀ x y, Relation.EqvGen r x y → Relation.EqvGen r' x y := by
    intro x y e
    exact Relation.EqvGen.mono (fun a b h => (hr a b).mpr (Or.inl h)) _ _ e
  have cl : Relation.EqvGen r' c N := .rel _ _ ((hr c N).mpr (Or.inr ⟨rfl, rfl⟩))
  have un : upd W N m0 N = m0 := by simp [upd]
  have uo : ∀ z, op z → upd W N m0 z = W z := by intro z hz; simp [upd, ne z hz]
  constructor
  · intro e
    rcases hx with rfl | hx <;> rcases hy with rfl | hy
    · exact .refl _
    · rw [un, uo y hy, ← wc] at e
      exact (cl.symm _ _).trans _ _ _ (mono c y ((h c y hc hy).mp e))
    · rw [un, uo x hx, ← wc] at e
      exact (mono x c ((h x c hx hc).mp e)).trans _ _ _ cl
    · rw [uo x hx, uo y hy] at e
      exact mono x y ((h x y hx hy).mp e)
  · intro e
    clear hx hy
    induction e with
    | rel x y e =>
      rcases (hr x y).mp e with e | ⟨rfl, rfl⟩
      · obtain ⟨ox, oy⟩ := rop x y e
        rw [uo x ox, uo y oy]
        exact (h x y ox oy).mpr (.rel _ _ e)
      · rw [un, uo x hc, wc]
    | refl x => rfl
    | symm x y _ ih => exact ih.symm
    | trans x y z _ _ ih1 ih2 => exact ih1.trans ih2

/-- One more edge. -/
def addEdge (E : Nat → Nat → Prop) (n N : Nat) (a b : Nat) : Prop := E a b ∨ (a = n ∧ b = N)

theorem cloneOp_inv {S : Nat → Prop} {g : G V} (i : InvE E S g) {n : Nat} {f : List V → Outcome V} {args : List Nat} {b : Bool}
    (e : g.defs[n]? = some (.op f args b)) (al : g.alive n = true) (hl : ∀ a ∈ args, g.defs[a]? = some .leaf)
    (hq : (∀ k, S k) ∨ (¬ S n ∧ n ∉ (g.man (g.gman n)).queue)) :
    InvE (addEdge E n g.defs.length) S (cloneOp (.op f args b) n g) := by
  have nop : isOp g n = true := (isOp_iff g n).mpr ⟨f, args, b, e⟩
  have nA : argsOf g n = args := argsOf_op e
  generalize hn : g.defs.length = N
  have nl : n < N := by rw [← hn]; exact i.wf.alive_lt n al
  have argn : ∀ a ∈ args, a < n := fun a ha => i.wf.args_lt n a (by rw [nA]; exact ha)
  have lleaf : ∀ a ∈ args, isOp g a = false := fun a ha => isOp_leaf (hl a ha)
  have hd : (cloneOp (.op f args b) n g).defs = g.defs ++ [.op f args b] := rfl
  have dl : (cloneOp (.op f args b) n g).defs.length = N + 1 := by rw [hd]; simp [hn]
  have hA : ∀ k, argsOf (cloneOp (.op f args b) n g) k = if k = N then args else argsOf g k := by
    intro k; rw [argsOf_push hd, hn]; rfl
  have hO : ∀ k, isOp (cloneOp (.op f args b) n g) k = if k = N then true else isOp g k := by
    intro k; rw [isOp_push hd, hn]; rfl
  have ali : ∀ k, (cloneOp (.op f args b) n g).alive k = if k = N then true else g.alive k := by
    intro k; simp only [cloneOp, upd, hn]
  have dp : ∀ k, (cloneOp (.op f args b) n g).depth k = if k = N then 0 else g.depth k := by
    intro k; simp only [cloneOp, upd, hn]
  have da : ∀ k, (cloneOp (.op f args b) n g).data k = if k = N then g.data n else g.data k := by
    intro k; simp only [cloneOp, upd, hn]
  have gm : ∀ k, (cloneOp (.op f args b) n g).gman k = if k = N then g.gman n else g.gman k := by
    intro k; simp only [cloneOp, upd, hn]
  have lv : ∀ k, (cloneOp (.op f args b) n g).leaves k = if k = N then g.leaves n else g.leaves k := by
    intro k; simp only [cloneOp, upd, hn]
  have mq : ∀ m, ((cloneOp (.op f args b) n g).man m).queue = (g.man m).queue := by
    intro m; simp only [cloneOp, upd]; split
    · next c => rw [c]
    · rfl
  have mm : ∀ m, ((cloneOp (.op f args b) n g).man m).map = (g.man m).map := by
    intro m; simp only [cloneOp, upd]; split
    · next c => rw [c]
    · rfl
  have mz : ∀ m, ((cloneOp (.op f args b) n g).man m).freeze = (g.man m).freeze := by
    intro m; simp only [cloneOp, upd]; split
    · next c => rw [c]
    · rfl
  have mu : ∀ m, ((cloneOp (.op f args b) n g).man m).users = if m = g.gman n then N :: (g.man m).users else (g.man m).users := by
    intro m; simp only [cloneOp, upd, hn]; split
    · next c => rw [c]
    · rfl
  have glt : g.gman n < N := by rw [← hn]; exact i.wf.gman_lt n nop
  have opN : ¬ isOp g N = true := by
    intro c; have := isOp_lt c; omega
  have arglt : ∀ k a, a ∈ argsOf g k → a < N ∧ k < N := by
    intro k a h
    have h1 := i.wf.args_lt k a h
    have h2 := isOp_lt (isOp_of_arg h)
    omega
  have mapn : ∀ m, N ∉ (g.man m).map := by
    intro m h; exact opN (i.q.mapOp m N h).1
  have dam : ∀ (as : List Nat), (∀ a ∈ as, a < N) → as.mapM (cloneOp (.op f args b) n g).data = as.mapM g.data := by
    intro as h
    apply mapM_congr
    intro a ha
    have := h a ha
    rw [da, if_neg (by omega)]
  have fr : ∀ k, k ≠ N → Fresh g k → Fresh (cloneOp (.op f args b) n g) k := by
    intro k c hf f' as' b' e' vs hv
    rw [hd, getElem?_push, hn, if_neg c] at e'
    have kl : k < N := by
      rw [← hn]; by_contra cc
      rw [List.getElem?_eq_none (by omega)] at e'; cases e'
    rw [dam as' (fun a ha => by have := i.wf.defs_lt k _ _ _ e' a ha; omega)] at hv
    rw [da, if_neg c]
    exact hf f' as' b' e' vs hv
  generalize hG : cloneOp (.op f args b) n g = G' at *
  refine ⟨⟨?_, ?_, ?_, ?_, ?_, ?_⟩, ⟨?_, ?_, ?_, ?_, ?_, ?_, ?_, ?_⟩, ?_, ?_, ?_, ?_, ?_, ?_, ?_⟩
  · intro k a h
    rw [hA] at h
    split at h
    · next c => have := argn a h; omega
    · exact i.wf.args_lt k a h
  · intro k h
    rw [ali] at h; rw [dl]
    split at h
    · omega
    · have := i.wf.alive_lt k h; omega
  · intro k a h h'
    rw [ali] at h; rw [hA] at h'; rw [ali]
    split at h
    · next c =>
      rw [if_pos c] at h'
      have := argn a h'
      rw [if_neg (by omega)]; exact i.wf.alive_args n a al (by rw [nA]; exact h')
    · next c =>
      rw [if_neg c] at h'
      split
      · rfl
      · exact i.wf.alive_args k a h h'
  · intro k a h ho
    rw [hA] at h; rw [dp, dp]
    split at h
    · have := argn a h
      rw [hO, if_neg (by omega), lleaf a h] at ho; cases ho
    · next c =>
      have := arglt k a h
      rw [hO, if_neg (by omega)] at ho
      rw [if_neg (by omega), if_neg c]; exact i.wf.depth_lt k a h ho
  · intro k a h1 h2 h3
    rw [ali] at h1; rw [hA] at h2; rw [gm, gm]
    by_cases c : k = N
    · rw [if_pos c] at h2
      have := argn a h2
      rw [hO, if_neg (by omega), lleaf a h2] at h3; cases h3
    · rw [if_neg c] at h1 h2
      have := arglt k a h2
      rw [hO, if_neg (by omega)] at h3
      rw [if_neg (by omega), if_neg c]
      exact i.wf.gman_eq k a h1 h2 h3
  · intro k hk
    rw [hO] at hk; rw [dl, gm]
    split
    · omega
    · next c => rw [if_neg c] at hk; have := i.wf.gman_lt k hk; omega
  · intro k h1 h2 a ha
    rw [hO] at h1; rw [da] at h2; rw [hA] at ha; rw [da]
    by_cases c : k = N
    · rw [if_pos c] at h2 ha
      have := argn a ha
      rw [if_neg (by omega)]
      exact i.q.mono n nop h2 a (by rw [nA]; exact ha)
    · rw [if_neg c] at h1 h2 ha
      have := arglt k a ha
      rw [if_neg (by omega)]
      exact i.q.mono k h1 h2 a ha
  · intro m x hx
    rw [mq] at hx; rw [mm]; exact i.q.sub m x hx
  · intro m x h1 h2
    rw [ali] at h1; rw [mm] at h2; rw [gm]
    by_cases c : x = N
    · rw [c] at h2; exact absurd h2 (mapn m)
    · rw [if_neg c] at h1 ⊢; exact i.q.mem m x h1 h2
  · intro m x hx
    rw [mm] at hx
    have := i.q.mapOp m x hx
    have hx' : x < N := by rw [← hn]; exact isOp_lt this.1
    rw [hO, hA, if_neg (by omega), if_neg (by omega)]
    refine ⟨this.1, fun a ha => ?_⟩
    have h5 := i.wf.args_lt x a ha
    rw [da, if_neg (by omega)]; exact this.2 a ha
  · intro m x hx
    rw [mm] at hx; rw [dl]
    have := i.q.mlt m x hx; omega
  · intro m m' x h1 h2; rw [mm] at h1 h2; exact i.q.uniq m m' x h1 h2
  · intro m; rw [mm]; exact i.q.mapND m
  · intro m; rw [mq]; exact i.q.queueND m
  · intro m x hx; rw [mm] at hx; rw [mq]; exact i.settled m x hx
  · intro k h1 hS
    by_cases c : k = N
    · rcases hq with hq | ⟨hs, hq⟩
      · exact absurd (hq k) hS
      · left
        rcases i.fq n al hs with hf | hf
        · intro f' as' b' e' vs hv
          rw [← hG] at e'
          rw [show (cloneOp (.op f args b) n g).defs = g.defs ++ [.op f args b] from rfl, getElem?_push, hn, if_pos c] at e'
          cases e'
          rw [dam args (fun a ha => by have := argn a ha; omega)] at hv
          rw [da, if_pos c]
          exact hf f args b e vs hv
        · exact absurd hf hq
    · rw [ali, if_neg c] at h1
      rw [gm, if_neg c, mq]
      rcases i.fq k h1 hS with hf | hf
      · exact Or.inl (fr k c hf)
      · exact Or.inr hf
  · intro m k
    rw [mu, ali, hO, gm]
    by_cases c : k = N
    · subst c
      rw [if_pos rfl, if_pos rfl, if_pos rfl]
      have : k ∉ (g.man m).users := by
        intro h; exact opN ((i.users m k).mp h).2.1
      by_cases c : m = g.gman n
      · subst c; simp
      · rw [if_neg c]
        simp only [this, true_and, false_iff]
        exact fun e => c e.symm
    · rw [if_neg c, if_neg c, if_neg c]
      have : k ∈ (if m = g.gman n then N :: (g.man m).users else (g.man m).users) ↔ k ∈ (g.man m).users := by
        split
        · simp [c]
        · rfl
      rw [this]; exact i.users m k
  · intro m h
    rw [dl] at h; rw [mz]; exact i.manFreeze m (by omega)
  · intro k l hk
    rw [dl] at hk
    have hdd : G'.defs = g.defs ++ [Def.op f args b] := by rw [← hG]; rfl
    rw [hdd, lv]
    by_cases c : k = N
    · subst c
      rw [if_pos rfl, i.leaves n l (by omega)]
      have hget : (g.defs ++ [Def.op f args b])[k]? = some (.op f args b) := by
        rw [getElem?_push, if_pos hn.symm]
      constructor
      · intro h
        cases h with
        | leaf e' => rw [e] at e'; cases e'
        | op e' ha hd' =>
          rw [e] at e'; cases e'
          have := argn _ ha
          refine .op hget ha ?_
          rw [dependsOn_push i.wf.defs_lt _ l (by omega)]; exact hd'
      · intro h
        cases h with
        | leaf e' => rw [hget] at e'; cases e'
        | op e' ha hd' =>
          rw [hget] at e'; cases e'
          have := argn _ ha
          rw [dependsOn_push i.wf.defs_lt _ l (by omega)] at hd'
          exact .op e ha hd'
    · rw [if_neg c, dependsOn_push i.wf.defs_lt k l (by omega)]
      exact i.leaves k l (by omega)
  · obtain ⟨W, w1, w2, w3⟩ := i.virt
    have hrel : ∀ x y, EdgeE (addEdge E n N) G'.defs x y ↔ EdgeE E g.defs x y ∨ (x = n ∧ y = N) := by
      intro x y
      have : OpArg G'.defs x y ↔ OpArg g.defs x y := by
        rw [opArg_iff, opArg_iff, hA, hO]
        by_cases c : y = N
        · rw [if_pos c]
          constructor
          · rintro ⟨h1, h2⟩
            have := argn x h2
            rw [if_neg (by omega), lleaf x h2] at h1; cases h1
          · rintro ⟨h1, h2⟩
            have := arglt y x h2; omega
        · rw [if_neg c]
          constructor
          · rintro ⟨h1, h2⟩
            have := arglt y x h2
            rw [if_neg (by omega)] at h1; exact ⟨h1, h2⟩
          · rintro ⟨h1, h2⟩
            have := arglt y x h2
            rw [if_neg (by omega)]; exact ⟨h1, h2⟩
      unfold EdgeE addEdge
      rw [this]; tauto
    have edge : ∀ x y, EdgeE E g.defs x y → isOp g x = true ∧ isOp g y = true := by
      rintro x y (h | h)
      · have h := (opArg_iff g x y).mp h
        exact ⟨h.1, isOp_of_arg h.2⟩
      · exact i.eop x y h
    refine ⟨upd W N (g.gman n), ?_, ?_, ?_⟩
    · intro k h1 h2
      rw [ali] at h1; rw [hO] at h2; rw [gm]
      unfold upd
      by_cases c : k = N
      · rw [if_pos c, if_pos c]
      · rw [if_neg c] at h1 h2; rw [if_neg c, if_neg c]; exact w1 k h1 h2
    · intro k hk
      rw [dl] at *
      unfold upd
      split
      · omega
      · have := w2 k (by omega); omega
    · intro x y hx hy
      rw [hO] at hx hy
      refine push_class (op := fun x => isOp g x = true) hrel edge opN nop (w1 n al nop) w3 x y ?_ ?_
      · by_cases c : x = N
        · exact Or.inl c
        · rw [if_neg c] at hx; exact Or.inr hx
      · by_cases c : y = N
        · exact Or.inl c
        · rw [if_neg c] at hy; exact Or.inr hy
  · rintro x y (h | ⟨rfl, rfl⟩)
    · have := i.eop x y h
      rw [hO, hO]
      exact ⟨by split <;> simp [this.1], by split <;> simp [this.2]⟩
    · rw [hO, hO, if_neg (by omega), if_pos rfl]; exact ⟨nop, rfl⟩

end Graph
end Verif

namespace Verif
namespace Graph
open React (upd)
open Spec (tellPairs tellC)

variable {V : Type} {E : Nat → Nat → Prop}

theorem clone_ok {n : Nat} {g g' : G V} (h : clone n g = .ok g') : g.alive n = true ∧
    ((∃ f args b, g.defs[n]? = some (.op f args b) ∧ g' = cloneOp (.op f args b) n g) ∨
     (isOp g n = false ∧ g' = newLeaf (g.data n) g)) := by
  unfold clone at h
  by_cases al : g.alive n = true
  · rw [if_pos al] at h
    refine ⟨al, ?_⟩
    cases e : g.defs[n]? with
    | none => rw [e] at h; cases h; exact Or.inr ⟨by simp [isOp, e], rfl⟩
    | some d => cases d with
      | leaf => rw [e] at h; cases h; exact Or.inr ⟨isOp_leaf e, rfl⟩
      | op f args b => rw [e] at h; cases h; exact Or.inl ⟨f, args, b, rfl, rfl⟩
  · rw [if_neg al] at h; cases h

/-- The state agrees with a history of calls and copies. -/
structure GoodC (S : Nat → Prop) (p : Spec.Told V × List (Nat × Nat)) (g : G V) : Prop where
  inv : InvE (fun a b => (a, b) ∈ p.2) S g
  agrees : Agrees p.1 g

theorem stepC_good {S : Nat → Prop} {sch : Sched} {c : CallC V} {g g' : G V} {p : Spec.Told V × List (Nat × Nat)} (i : GoodC S p g)
    (hS : (Spec.LoudC c ∧ Spec.Settles g c ∧ ∀ k, ¬ S k) ∨ ∀ k, S k) (hl : Spec.OnLeaves g c) (h : stepC sch c g = .ok g') :
    GoodC S (tellPairs p c) g' := by
  cases c with
  | base c =>
    obtain ⟨a, b⟩ := step_inv i.inv i.agrees (hS.imp (fun h => h.1) id) h
    exact ⟨a, b⟩
  | clone n =>
    obtain ⟨al, ⟨f, args, b, e, rfl⟩ | ⟨ho, rfl⟩⟩ := clone_ok h
    · have ht : p.1.nodes[n]? = some (.op f args b) := by rw [← i.agrees.nodes]; exact e
      have hp : (tellPairs p (.clone n)).2 = (n, p.1.nodes.length) :: p.2 := by
        simp only [tellPairs, ht]
      have hn : (tellPairs p (.clone n)).1.nodes = p.1.nodes ++ [.op f args b] := by
        simp only [tellPairs, tellC, List.getD, ht, Option.getD_some]
      refine ⟨?_, ⟨?_, ?_⟩⟩
      · have := cloneOp_inv i.inv e al (fun a ha => hl f args b e a ha) (hS.symm.imp id (fun h => ⟨h.2.2 n, h.2.1⟩))
        rw [hp]
        have eq : (fun a b => (a, b) ∈ (n, p.1.nodes.length) :: p.2) = addEdge (fun a b => (a, b) ∈ p.2) n g.defs.length := by
          funext a b
          rw [List.mem_cons, ← i.agrees.nodes]
          simp only [addEdge, Prod.mk.injEq]
          exact propext (or_comm)
        rw [eq]; exact this
      · rw [hn, ← i.agrees.nodes]; rfl
      · intro k hk
        have hk : (g.defs ++ [Def.op f args b])[k]? = some .leaf := hk
        rw [getElem?_push] at hk
        show upd g.data g.defs.length (g.data n) k = upd p.1.leaf p.1.nodes.length (p.1.leaf n) k
        rw [← i.agrees.nodes]
        unfold upd
        split at hk
        · cases hk
        · next c => rw [if_neg c, if_neg c]; exact i.agrees.leaf k hk
    · have hln := leaf_of_not_op ho (i.inv.wf.alive_lt n al)
      have ht : p.1.nodes[n]? = some .leaf := by rw [← i.agrees.nodes]; exact hln
      have hp : (tellPairs p (.clone n)).2 = p.2 := by simp only [tellPairs, ht]
      have hn : (tellPairs p (.clone n)).1.nodes = p.1.nodes ++ [.leaf] := by
        simp only [tellPairs, tellC, List.getD, ht, Option.getD_some]
      refine ⟨?_, ⟨?_, ?_⟩⟩
      · rw [hp]; exact newLeaf_inv i.inv _
      · rw [hn, ← i.agrees.nodes]; rfl
      · intro k hk
        have hk : (g.defs ++ [Def.leaf])[k]? = some .leaf := hk
        rw [getElem?_push] at hk
        show upd g.data g.defs.length (g.data n) k = upd p.1.leaf p.1.nodes.length (p.1.leaf n) k
        rw [← i.agrees.nodes, i.agrees.leaf n hln]
        unfold upd
        split at hk
        · next c => rw [if_pos c, if_pos c]
        · next c => rw [if_neg c, if_neg c]; exact i.agrees.leaf k hk

theorem runC_good {S : Nat → Prop} (cs : List (Sched × CallC V)) : ∀ {g g' : G V} {p : Spec.Told V × List (Nat × Nat)}, GoodC S p g →
    ((∀ c ∈ cs, Spec.LoudC c.2) ∧ Spec.Always Spec.Settles cs g ∧ (∀ k, ¬ S k) ∨ ∀ k, S k) → Spec.Always Spec.OnLeaves cs g →
    runC cs g = .ok g' → GoodC S ((cs.map Prod.snd).foldl tellPairs p) g' := by
  induction cs with
  | nil => intro g g' p i _ _ h; cases h; exact i
  | cons c cs ih =>
    intro g g' p i hS hl h
    rw [runC, Outcome.bind_eq_ok] at h
    obtain ⟨g1, h1, h2⟩ := h
    have i1 := stepC_good i (hS.imp (fun h => ⟨h.1 c (by simp), h.2.1.1, h.2.2⟩) id) hl.1 h1
    exact ih i1 (hS.imp (fun h => ⟨fun x hx => h.1 x (by simp [hx]), h.2.1.2 g1 h1, h.2.2⟩) id) (hl.2 g1 h1) h2

theorem tellPairs_fst (cs : List (CallC V)) : ∀ p, (cs.foldl tellPairs p).1 = cs.foldl tellC p.1 := by
  induction cs with
  | nil => intro p; rfl
  | cons c cs ih => intro p; rw [List.foldl_cons, List.foldl_cons, ih]; rfl

theorem GoodC.empty (S : Nat → Prop) : GoodC (V := V) S ({ nodes := [], leaf := fun _ => none }, []) G.empty := by
  refine ⟨?_, ⟨rfl, fun n hn => by simp [G.empty] at hn⟩⟩
  have := Inv.empty (V := V) S
  have eq : (fun a b => (a, b) ∈ ([] : List (Nat × Nat))) = fun _ _ => False := by funext a b; simp
  rw [eq]; exact this

theorem reachC_good {S : Nat → Prop} {cs : List (Sched × CallC V)} {g : G V}
    (hS : (∀ c ∈ cs, Spec.LoudC c.2) ∧ Spec.Always Spec.Settles cs G.empty ∧ (∀ k, ¬ S k) ∨ ∀ k, S k) (hl : Spec.Always Spec.OnLeaves cs G.empty)
    (h : runC cs G.empty = .ok g) :
    InvE (fun a b => (a, b) ∈ Spec.pairsOf (cs.map Prod.snd)) S g ∧ Agrees (Spec.toldC (cs.map Prod.snd)) g := by
  have i := runC_good cs (GoodC.empty S) hS hl h
  refine ⟨i.inv, ?_⟩
  have := i.agrees
  rw [tellPairs_fst] at this
  exact this

end Graph
end Verif
