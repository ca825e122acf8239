import Verif.Lemmas.GraphCalls
import Mathlib.Tactic.Tauto
/-!
# Every call keeps the invariant
-/
namespace Verif
namespace Graph
open React (upd forEach forEach_ok forEach_inv)
open Spec (DependsOn OpArg Linked)

variable {V : Type} {E : Nat → Nat → Prop}

theorem Inv.empty (S : Nat → Prop) : Inv S (G.empty (V := V)) := by
  have hA : ∀ k, argsOf (G.empty (V := V)) k = [] := by intro k; simp [argsOf, G.empty]
  have hO : ∀ k, isOp (G.empty (V := V)) k = false := by intro k; simp [isOp, G.empty]
  refine ⟨⟨?_, ?_, ?_, ?_, ?_, ?_⟩, ⟨?_, ?_, ?_, ?_, ?_, ?_, ?_, ?_⟩, ?_, ?_, ?_, ?_, ?_, ⟨id, ?_, ?_, ?_⟩, fun _ _ h => h.elim⟩
  · intro k a h; rw [hA] at h; simp at h
  · intro k h; simp [G.empty] at h
  · intro k a h; simp [G.empty] at h
  · intro k a h; rw [hA] at h; simp at h
  · intro k a h; simp [G.empty] at h
  · intro k h; rw [hO] at h; cases h
  · intro k h; rw [hO] at h; cases h
  · intro m x h; simp [G.empty] at h
  · intro m x _ h; simp [G.empty] at h
  · intro m x h; simp [G.empty] at h
  · intro m x h; simp [G.empty] at h
  · intro m m' x h; simp [G.empty] at h
  · intro m; simp [G.empty]
  · intro m; simp [G.empty]
  · intro m x h; simp [G.empty] at h
  · intro k h; simp [G.empty] at h
  · intro m k; simp [G.empty]
  · intro m _; simp [G.empty]
  · intro k l h; simp [G.empty] at h
  · intro k h; simp [G.empty] at h
  · intro k h; simp [G.empty] at h
  · intro x y h; rw [hO] at h; cases h

/-- Updates and drains keep the invariant. -/
theorem InvE.frame {D S S' : Nat → Prop} {g g' : G V} (i : InvE E S g) (e : Frame D g g') (q : QInv g')
    (s : Settled g') (fq : FQ g' S') : InvE E S' g' := by
  refine ⟨i.wf.frame e, q, s, fq, ?_, ?_, ?_, ?_, fun a b h => by rw [isOp_congr e.defs, isOp_congr e.defs]; exact i.eop a b h⟩
  · intro m k; rw [e.users, e.alive, isOp_congr e.defs, e.gman]; exact i.users m k
  · intro m h; rw [e.freeze]; rw [e.defs] at h; exact i.manFreeze m h
  · intro k l h; rw [e.leaves, e.defs]; rw [e.defs] at h; exact i.leaves k l h
  · obtain ⟨W, w1, w2, w3⟩ := i.virt
    refine ⟨W, ?_, ?_, ?_⟩
    · intro k; rw [e.alive, isOp_congr e.defs, e.gman]; exact w1 k
    · intro k; rw [e.defs]; exact w2 k
    · intro x y; rw [isOp_congr e.defs, isOp_congr e.defs, e.defs]; exact w3 x y

theorem Settled.ext {R D Q : Nat → Prop} {g g' : G V} (s : Settled g) (e : Ext R D Q g g') : Settled g' := by
  intro m x hx
  by_contra c
  have := e.popped m x hx c
  exact this.2 (s m x this.1)

theorem InvE.weaken {S S' : Nat → Prop} {g : G V} (i : InvE E S g) (h : ∀ k, S k → S' k) : InvE E S' g :=
  ⟨i.wf, i.q, i.settled, i.fq.mono h, i.users, i.manFreeze, i.leaves, i.virt, i.eop⟩

theorem managerUpdate_inv {S : Nat → Prop} {sch : Sched} {m : Nat} {g g' : G V} (i : InvE E S g)
    (h : managerUpdate sch m g = .ok g') : InvE E S g' ∧ Drained S m g g' := by
  obtain ⟨d, s⟩ := managerUpdate_spec i.wf i.q i.settled i.fq h
  exact ⟨i.frame d.frame d.qinv s d.fq, d⟩

/-! ### Leaves -/

/-- The state after storing a value in a leaf. -/
def setLeaf (n : Nat) (v : V) (g : G V) : G V := { g with data := upd g.data n (some v) }

theorem setLeaf_inv {S : Nat → Prop} {g : G V} (i : InvE E S g) (n : Nat) (v : V) (ho : isOp g n = false) :
    InvE E (fun k => S k ∨ k ∈ audience (setLeaf n v g) n) (setLeaf n v g) := by
  have dm : ∀ k, (g.data k).isSome = true → ((upd g.data n (some v)) k).isSome = true := by
    intro k hk; unfold upd; split
    · rfl
    · exact hk
  refine ⟨⟨i.wf.args_lt, i.wf.alive_lt, i.wf.alive_args, i.wf.depth_lt, i.wf.gman_eq, i.wf.gman_lt⟩,
    ⟨?_, i.q.sub, i.q.mem, ?_, i.q.mlt, i.q.uniq, i.q.mapND, i.q.queueND⟩, i.settled, ?_, i.users,
    i.manFreeze, i.leaves, i.virt, i.eop⟩
  · intro k h1 h2 a ha
    have h1 : isOp g k = true := h1
    have hk : k ≠ n := by intro c; rw [c, ho] at h1; cases h1
    have : (g.data k).isSome = true := by
      have h2 : ((upd g.data n (some v)) k).isSome = true := h2
      simpa [upd, hk] using h2
    exact dm a (i.q.mono k h1 this a ha)
  · intro m x hx
    have := i.q.mapOp m x hx
    exact ⟨this.1, fun a ha => dm a (this.2 a ha)⟩
  · intro k ha hS
    have ha : g.alive k = true := ha
    by_cases hk : k = n
    · left
      intro f args b e
      have e : g.defs[k]? = some (.op f args b) := e
      have : isOp g k = true := (isOp_iff g k).mpr ⟨f, args, b, e⟩
      rw [hk, ho] at this; cases this
    · have hna : n ∉ argsOf g k := fun c =>
        hS (Or.inr ((mem_audience _ n k).mpr ⟨i.wf.alive_lt k ha, ha, c⟩))
      rcases i.fq k ha (fun c => hS (Or.inl c)) with hf | hq
      · left
        refine hf.of_same rfl (by simp [setLeaf, upd, hk]) ?_
        intro a haa
        have : a ≠ n := fun c => hna (c ▸ haa)
        simp [setLeaf, upd, this]
      · exact Or.inr hq

theorem assign_loud {S : Nat → Prop} {sch : Sched} {n : Nat} {v : V} {g g' : G V} (i : InvE E S g)
    (h : assign sch n v true g = .ok g') :
    InvE E S g' ∧ g.alive n = true ∧ isOp g n = false ∧
      Ext (fun _ => True) (fun m => (g.man m).freeze = false) (fun _ => True) (setLeaf n v g) g' := by
  unfold assign at h
  by_cases c : (g.alive n && !isOp g n) = true
  · rw [if_pos c, if_pos rfl] at h
    simp only [Bool.and_eq_true, Bool.not_eq_true'] at c
    have i1 := setLeaf_inv i n v c.2
    have h' : notify sch (g.defs.length + 1) n (setLeaf n v g) = .ok g' := h
    obtain ⟨q2, e2, f2⟩ := notify_spec sch _ n (setLeaf n v g) g' S 0 h' i1.wf i1.q (i1.settled.popLe 0)
      (Nat.zero_le _) i1.fq
    refine ⟨i1.frame e2.frame q2 (i1.settled.ext e2) f2, c.1, c.2, e2.weaken (fun _ _ => trivial) ?_ (fun _ _ => trivial)⟩
    intro m hm; exact hm.2
  · rw [if_neg c] at h; cases h

theorem assign_silent {S : Nat → Prop} {sch : Sched} {n : Nat} {v : V} {g g' : G V} (i : InvE E S g)
    (h : assign sch n v false g = .ok g') :
    InvE E (fun k => S k ∨ k ∈ audience g n) g' ∧ g.alive n = true ∧ isOp g n = false ∧ g' = setLeaf n v g := by
  unfold assign at h
  by_cases c : (g.alive n && !isOp g n) = true
  · rw [if_pos c, if_neg (by simp)] at h
    simp only [Bool.and_eq_true, Bool.not_eq_true'] at c
    cases h
    exact ⟨setLeaf_inv i n v c.2, c.1, c.2, rfl⟩
  · rw [if_neg c] at h; cases h

theorem newLeaf_inv {S : Nat → Prop} {g : G V} (i : InvE E S g) (v : Option V) : InvE E S (newLeaf v g) := by
  generalize hn : g.defs.length = n
  have hd : (newLeaf v g).defs = g.defs ++ [.leaf] := rfl
  have dl : (newLeaf v g).defs.length = n + 1 := by rw [hd]; simp [hn]
  have hA : ∀ k, argsOf (newLeaf v g) k = argsOf g k := by
    intro k; rw [argsOf_push hd]; split
    · next c => rw [c]; simp [argsOf, Def.args]
    · rfl
  have hO : ∀ k, isOp (newLeaf v g) k = isOp g k := by
    intro k; rw [isOp_push hd]; split
    · next c => rw [c]; simp [isOp, Def.isOp]
    · rfl
  have al : ∀ k, (newLeaf v g).alive k = if k = n then true else g.alive k := by
    intro k; simp only [newLeaf, upd, hn]
  have dp : ∀ k, (newLeaf v g).depth k = if k = n then 0 else g.depth k := by
    intro k; simp only [newLeaf, upd, hn]
  have da : ∀ k, k ≠ n → (newLeaf v g).data k = g.data k := by
    intro k hk; simp only [newLeaf, upd, hn]; rw [if_neg hk]
  have lv : ∀ k, (newLeaf v g).leaves k = if k = n then [n] else g.leaves k := by
    intro k; simp only [newLeaf, upd, hn]
  have gm : (newLeaf v g).gman = g.gman := rfl
  have mn : (newLeaf v g).man = g.man := rfl
  have glt := i.wf.gman_lt
  have alt := i.wf.alive_lt
  have opn : isOp g n = false := by
    by_contra c
    have := isOp_lt (g := g) (x := n) (by cases e : isOp g n <;> simp_all)
    omega
  have arglt : ∀ k a, a ∈ argsOf g k → a < n ∧ k < n := by
    intro k a h
    have h1 := i.wf.args_lt k a h
    have h2 := isOp_lt (isOp_of_arg h)
    omega
  have gdef : ∀ k, k < n → (newLeaf v g).defs[k]? = g.defs[k]? := by
    intro k hk; rw [hd, getElem?_push, if_neg (by omega)]
  have linked : ∀ x y, OpArg (newLeaf v g).defs x y ↔ OpArg g.defs x y := by
    intro x y; rw [opArg_iff, opArg_iff, hA, hO]
  have hL : EdgeE E (newLeaf v g).defs = EdgeE E g.defs := by
    funext x y; unfold EdgeE; rw [propext (linked x y)]
  refine ⟨⟨?_, ?_, ?_, ?_, ?_, ?_⟩, ⟨?_, ?_, ?_, ?_, ?_, ?_, ?_, ?_⟩, i.settled, ?_, ?_, ?_, ?_, ?_, fun a b h => by rw [hO, hO]; exact i.eop a b h⟩
  · intro k a h; rw [hA] at h; exact i.wf.args_lt k a h
  · intro k h; rw [al] at h; rw [dl]
    split at h
    · omega
    · have := alt k h; omega
  · intro k a h1 h2
    rw [hA] at h2; rw [al]
    have := arglt k a h2
    rw [al, if_neg (by omega)] at h1
    rw [if_neg (by omega)]; exact i.wf.alive_args k a h1 h2
  · intro k a h ho
    rw [hA] at h; rw [hO] at ho
    have := arglt k a h
    rw [dp, dp, if_neg (by omega), if_neg (by omega)]; exact i.wf.depth_lt k a h ho
  · intro k a h1 h2 h3
    rw [hA] at h2; rw [hO] at h3
    have := arglt k a h2
    rw [al, if_neg (by omega)] at h1
    exact i.wf.gman_eq k a h1 h2 h3
  · intro k h; rw [hO] at h; rw [dl]; have := glt k h; rw [gm]; omega
  · intro k h1 h2 a ha
    rw [hO] at h1; rw [hA] at ha
    have := arglt k a ha
    rw [da k (by omega)] at h2; rw [da a (by omega)]
    exact i.q.mono k h1 h2 a ha
  · exact i.q.sub
  · intro m x h1 h2
    rw [mn] at h2
    have := isOp_lt (i.q.mapOp m x h2).1
    rw [al, if_neg (by omega)] at h1
    exact i.q.mem m x h1 h2
  · intro m x hx
    rw [mn] at hx
    rw [hO, hA]
    refine ⟨(i.q.mapOp m x hx).1, fun a ha => ?_⟩
    have := arglt x a ha
    rw [da a (by omega)]; exact (i.q.mapOp m x hx).2 a ha
  · intro m x hx; rw [dl]; have := i.q.mlt m x hx; omega
  · exact i.q.uniq
  · exact i.q.mapND
  · exact i.q.queueND
  · intro k h1 hS
    by_cases c : k = n
    · left
      intro f args b e
      have : isOp (newLeaf v g) k = true := (isOp_iff _ k).mpr ⟨f, args, b, e⟩
      rw [hO, c, opn] at this; cases this
    · rw [al, if_neg c] at h1
      rcases i.fq k h1 hS with hf | hq
      · left
        intro f args b e vs hv
        have kl := alt k h1
        rw [gdef k (by omega)] at e
        have : args.mapM (newLeaf v g).data = args.mapM g.data := by
          apply mapM_congr
          intro a ha
          have := i.wf.defs_lt k _ _ _ e a ha
          exact da a (by omega)
        rw [this] at hv
        rw [da k c]
        exact hf f args b e vs hv
      · exact Or.inr hq
  · intro m k
    rw [mn, hO, gm, i.users, al]
    by_cases c : k = n
    · rw [c, opn]; simp
    · rw [if_neg c]
  · intro m h; rw [dl] at h; exact i.manFreeze m (by omega)
  · intro k l hk
    rw [dl] at hk; rw [lv, hd]
    by_cases c : k = n
    · subst c
      rw [if_pos rfl]
      have hget : (g.defs ++ [Def.leaf])[k]? = some .leaf := by rw [getElem?_push, if_pos hn.symm]
      constructor
      · intro h; simp only [List.mem_singleton] at h; rw [h]; exact .leaf hget
      · intro h
        cases h with
        | leaf _ => simp
        | op e _ _ => rw [hget] at e; cases e
    · rw [if_neg c, dependsOn_push i.wf.defs_lt k l (by omega)]
      exact i.leaves k l (by omega)
  · obtain ⟨W, w1, w2, w3⟩ := i.virt
    refine ⟨fun k => if k = n then n else W k, ?_, ?_, ?_⟩
    · intro k h1 h2
      rw [hO] at h2
      have := isOp_lt h2
      rw [al, if_neg (by omega)] at h1
      show (if k = n then n else W k) = _
      rw [if_neg (by omega)]; exact w1 k h1 h2
    · intro k hk
      rw [dl] at *
      show (if k = n then n else W k) < _
      split
      · omega
      · have := w2 k (by omega); omega
    · intro x y hx hy
      rw [hO] at hx hy
      have := isOp_lt hx
      have := isOp_lt hy
      show (if x = n then n else W x) = (if y = n then n else W y) ↔ _
      rw [if_neg (by omega), if_neg (by omega), hL]
      exact w3 x y hx hy

/-! ### Operations -/

theorem consume_defs (m o : Nat) (g : G V) : (consume m o g).defs = g.defs := by
  unfold consume; split <;> rfl

theorem consume_data (m o : Nat) (g : G V) : (consume m o g).data = g.data := by
  unfold consume; split <;> rfl

theorem consume_alive (m o : Nat) (g : G V) : (consume m o g).alive = g.alive := by
  unfold consume; split <;> rfl

/-- The unions of a constructor. -/
def consumeAll (n : Nat) (cs : List Nat) (g : G V) : G V :=
  cs.foldl (fun g a => consume (g.gman n) (g.gman a) g) g

theorem consumeAll_J {n : Nat} {S : Nat → Prop} (cs : List Nat) : ∀ (P : Nat → Prop) (g : G V), J E n P S g →
    (∀ c ∈ cs, c ∈ argsOf g n ∧ isOp g c = true) →
    J E n (fun a => P a ∨ a ∈ cs) S (consumeAll n cs g) ∧ (consumeAll n cs g).defs = g.defs ∧
      (consumeAll n cs g).data = g.data ∧ (consumeAll n cs g).alive = g.alive := by
  induction cs with
  | nil =>
    intro P g j _
    exact ⟨j.mono (by intro a _ _; simp), rfl, rfl, rfl⟩
  | cons c cs ih =>
    intro P g j h
    have j1 := consume_J j (h c (by simp)).1 (h c (by simp)).2
    have e1 := consume_defs (g.gman n) (g.gman c) g
    obtain ⟨j2, a1, a2, a3⟩ := ih _ _ j1 (by
      intro x hx
      rw [argsOf_congr e1, isOp_congr e1]; exact h x (by simp [hx]))
    have hu : consumeAll n (c :: cs) g = consumeAll n cs (consume (g.gman n) (g.gman c) g) := rfl
    rw [hu]
    refine ⟨j2.mono ?_, a1.trans e1, a2.trans (consume_data _ _ g), a3.trans (consume_alive _ _ g)⟩
    intro a _ _
    constructor
    · rintro ((h | h) | h)
      · exact Or.inl h
      · exact Or.inr (by simp [h])
      · exact Or.inr (by simp [h])
    · rintro (h | h)
      · exact Or.inl (Or.inl h)
      · rcases List.mem_cons.mp h with h | h
        · exact Or.inl (Or.inr h)
        · exact Or.inr h

theorem construct_eq {S : Nat → Prop} {g : G V} (i : InvE E S g) (f : List V → Outcome V) (args : List Nat) (hides : Bool) :
    (args.filter (isOp g) = [] ∧ construct f args hides g = joinFirst f args hides g.defs.length g) ∨
    ∃ c cs, args.filter (isOp g) = c :: cs ∧
      construct f args hides g = consumeAll g.defs.length cs (joinFirst f args hides (g.gman c) g) := by
  unfold construct
  cases e : args.filter (isOp g) with
  | nil =>
    left
    refine ⟨rfl, ?_⟩
    unfold updateGraph joinFirst
    simp only
    rw [i.manNew g.defs.length (Nat.le_refl _)]
  | cons c cs => exact Or.inr ⟨c, cs, rfl, rfl⟩

theorem J.inv {n : Nat} {P S : Nat → Prop} {g : G V} (j : J E n P S g)
    (h : ∀ a, a ∈ argsOf g n → isOp g a = true → P a) : InvE E (fun k => S k ∨ k = n) g := by
  have j := j.mono (P' := fun _ => True) (fun a h1 h2 => ⟨fun _ => trivial, fun _ => h a h1 h2⟩)
  refine ⟨⟨j.args_lt, j.alive_lt, j.alive_args, j.depth_lt, ?_, j.gman_lt⟩, j.q, j.settled, j.fq, j.users,
    j.manFreeze, j.leaves, ?_, j.eop⟩
  · intro k a h1 h2 h3; exact j.gman_eq k a h1 h2 h3 (fun _ => trivial)
  · obtain ⟨W, w1, w2, w3⟩ := j.virt
    refine ⟨W, w1, w2, ?_⟩
    have : (fun a b => (OpArg g.defs a b ∧ (b = n → True)) ∨ E a b) = EdgeE E g.defs := by
      funext a b; simp [EdgeE]
    rw [this] at w3
    exact w3

theorem construct_inv {S : Nat → Prop} {g : G V} (i : InvE E S g) (f : List V → Outcome V) (args : List Nat) (hides : Bool)
    (hargs : ∀ a ∈ args, g.alive a = true) :
    InvE E (fun k => S k ∨ k = g.defs.length) (construct f args hides g) ∧
      (construct f args hides g).defs = g.defs ++ [.op f args hides] ∧
      (construct f args hides g).data = upd g.data g.defs.length none ∧
      (construct f args hides g).alive = upd g.alive g.defs.length true := by
  have hA : ∀ m0, argsOf (joinFirst f args hides m0 g) g.defs.length = args := by
    intro m0
    rw [argsOf_push (g := g) (d := .op f args hides) rfl, if_pos rfl]; rfl
  have hO : ∀ m0 k, k ≠ g.defs.length → isOp (joinFirst f args hides m0 g) k = isOp g k := by
    intro m0 k h
    rw [isOp_push (g := g) (d := .op f args hides) rfl, if_neg h]
  have lt : ∀ a ∈ args, a ≠ g.defs.length := by
    intro a ha
    have := i.wf.alive_lt a (hargs a ha); omega
  rcases construct_eq i f args hides with ⟨e, e'⟩ | ⟨c, cs, e, e'⟩
  · rw [e']
    have j := joinFirst_J i f args hides hargs g.defs.length (fun _ => False) (Or.inl ⟨rfl, fun _ h => h⟩)
    refine ⟨j.inv ?_, rfl, rfl, rfl⟩
    intro a h1 h2
    rw [hA] at h1
    rw [hO _ _ (lt a h1)] at h2
    have : a ∈ args.filter (isOp g) := List.mem_filter.mpr ⟨h1, h2⟩
    rw [e] at this; simp at this
  · have hc : c ∈ args.filter (isOp g) := by rw [e]; simp
    rw [List.mem_filter] at hc
    have j := joinFirst_J i f args hides hargs (g.gman c) (fun a => a = c)
      (Or.inr ⟨c, hc.1, hc.2, rfl, fun _ => Iff.rfl⟩)
    obtain ⟨j2, a1, a2, a3⟩ := consumeAll_J cs _ _ j (by
      intro x hx
      have : x ∈ args.filter (isOp g) := by rw [e]; simp [hx]
      rw [List.mem_filter] at this
      rw [hA, hO _ _ (lt x this.1)]; exact this)
    rw [e']
    refine ⟨j2.inv ?_, a1, a2, a3⟩
    intro a h1 h2
    rw [argsOf_congr a1, hA] at h1
    rw [isOp_congr a1, hO _ _ (lt a h1)] at h2
    have : a ∈ args.filter (isOp g) := List.mem_filter.mpr ⟨h1, h2⟩
    rw [e] at this
    exact List.mem_cons.mp this

theorem notify_none {sch : Sched} {fuel n : Nat} {g : G V} (h : audience g n = []) :
    notify sch (fuel + 1) n g = .ok g := by
  rw [notify, h]
  have : sch.aud n [] = [] := List.perm_nil.mp (sch.aud_perm n [])
  rw [this]; rfl

theorem audience_last {S : Nat → Prop} {g : G V} (i : InvE E S g) (n : Nat) (h : g.defs.length = n + 1) : audience g n = [] := by
  rw [List.eq_nil_iff_forall_not_mem]
  intro k hk
  have := (mem_audience g n k).mp hk
  have h2 := i.wf.args_lt k n this.2.2
  omega

/-- What constructing an operation does. -/
theorem newOp_spec {S : Nat → Prop} {sch : Sched} {f : List V → Outcome V} {args : List Nat} {hides : Bool} {g g' : G V}
    (i : InvE E S g) (h : newOp sch f args hides g = .ok g') :
    InvE E S g' ∧ g'.defs = g.defs ++ [.op f args hides] ∧ (∀ k, k < g.defs.length → g'.data k = g.data k) ∧
      args ≠ [] ∧ (∀ a ∈ args, g.alive a = true) ∧
      Ext (fun _ => True) (fun m => ((construct f args hides g).man m).freeze = false) (fun _ => True) (construct f args hides g) g' := by
  unfold newOp at h
  by_cases h0 : args = []
  · rw [if_pos h0] at h; cases h
  rw [if_neg h0] at h
  by_cases h1 : args.all g.alive = true
  · rw [if_pos h1] at h
    have hargs : ∀ a ∈ args, g.alive a = true := fun a ha => List.all_eq_true.mp h1 a ha
    obtain ⟨ic, dc, dtc, alc⟩ := construct_inv i f args hides hargs
    have nop : isOp (construct f args hides g) g.defs.length = true := by
      rw [isOp_iff]; exact ⟨f, args, hides, by rw [dc, getElem?_push, if_pos rfl]⟩
    have nal : (construct f args hides g).alive g.defs.length = true := by rw [alc]; simp [upd]
    have hA : argsOf (construct f args hides g) g.defs.length = args :=
      argsOf_op (f := f) (h := hides) (by rw [dc, getElem?_push, if_pos rfl])
    obtain ⟨q2, e2, f2⟩ := updateWith_spec (notify_spec sch _) ic.wf ic.q (ic.settled.popLe 0) nal nop (Nat.zero_le _) ic.fq h
    refine ⟨ic.frame e2.frame q2 (ic.settled.ext e2) f2, e2.defs.trans dc, ?_, h0, hargs, e2.weaken (fun _ _ => trivial) (fun _ h => h.2) (fun _ _ => trivial)⟩
    intro k hk
    have base : (construct f args hides g).data k = g.data k := by
      rw [dtc]; simp [upd, Nat.ne_of_lt hk]
    rw [← base]
    unfold updateWith at h
    split at h
    · split at h
      · cases h
        unfold addUpdate; split <;> rfl
      · rw [Outcome.bind_eq_ok] at h
        obtain ⟨g1, b1, b2⟩ := h
        obtain ⟨f', as', z', vs, v, _, _, _, rfl⟩ := forward_ok b1
        have : audience { construct f args hides g with data := upd (construct f args hides g).data g.defs.length (some v) } g.defs.length = [] := by
          have := audience_last ic g.defs.length (by rw [dc]; simp)
          rw [← this]; exact audience_congr rfl rfl _
        rw [notify_none this] at b2
        cases b2
        simp [upd, Nat.ne_of_lt hk]
    · cases h; rfl
  · rw [if_neg h1] at h; cases h

theorem newOp_total {S : Nat → Prop} {sch : Sched} {f : List V → Outcome V} {args : List Nat} {hides : Bool} {g : G V}
    (i : InvE E S g) (t : Total g) (ha : args ≠ []) (hargs : ∀ a ∈ args, g.alive a = true) (hf : ∀ vs, ∃ v, f vs = .ok v) :
    ∃ g', newOp sch f args hides g = .ok g' := by
  obtain ⟨ic, dc, dtc, alc⟩ := construct_inv i f args hides hargs
  unfold newOp
  rw [if_neg ha, if_pos (List.all_eq_true.mpr hargs)]
  have tc : Total (construct f args hides g) := by
    intro k f' as b e
    rw [dc, getElem?_push] at e
    split at e
    · cases e; exact hf
    · exact t k f' as b e
  have nop : isOp (construct f args hides g) g.defs.length = true := by
    rw [isOp_iff]; exact ⟨f, args, hides, by rw [dc, getElem?_push, if_pos rfl]⟩
  obtain ⟨g', h, _⟩ := updateWith_total (rec := notify sch (g.defs.length + 2)) tc nop (by
    intro g1 e1
    refine notify_total sch _ _ g1 (tc.congr e1) ?_ ?_ ?_
    · intro k a; rw [argsOf_congr e1]; exact ic.wf.args_lt k a
    · rw [e1, dc]; simp
    · rw [e1, dc]; simp; omega)
  exact ⟨g', h⟩

/-! ### Destruction -/

theorem killed_mem {g : G V} (lt : ∀ k a, a ∈ argsOf g k → a < k) (n k : Nat) :
    k ∈ killed g n ↔ k < g.defs.length ∧ (k = n ∨ ∃ a ∈ argsOf g k, a ∈ killed g n) := by
  let K : Nat → List Nat := fun j => (List.range j).foldl
    (fun acc k => if k = n ∨ ∃ a ∈ argsOf g k, a ∈ acc then k :: acc else acc) []
  have succ : ∀ j, K (j + 1) = if j = n ∨ ∃ a ∈ argsOf g j, a ∈ K j then j :: K j else K j := by
    intro j
    show (List.range (j + 1)).foldl _ [] = _
    rw [List.range_succ, List.foldl_append]
    rfl
  have bound : ∀ j x, x ∈ K j → x < j := by
    intro j
    induction j with
    | zero => intro x h; simp [K] at h
    | succ j ih =>
      intro x h
      rw [succ] at h
      split at h
      · rcases List.mem_cons.mp h with h | h
        · omega
        · have := ih x h; omega
      · have := ih x h; omega
  have stable : ∀ j x, x < j → ∀ j', j ≤ j' → (x ∈ K j ↔ x ∈ K j') := by
    intro j x hx j' hj'
    induction hj' with
    | refl => rfl
    | @step i hi ih =>
      have hi : j ≤ i := hi
      rw [ih, succ]
      split
      · rw [List.mem_cons]
        exact ⟨Or.inr, fun h => h.elim (fun h => by omega) id⟩
      · rfl
  show k ∈ K g.defs.length ↔ k < g.defs.length ∧ (k = n ∨ ∃ a ∈ argsOf g k, a ∈ K g.defs.length)
  by_cases hk : k < g.defs.length
  · rw [← stable (k + 1) k (by omega) g.defs.length (by omega), succ]
    have hno : k ∉ K k := fun h => absurd (bound k k h) (by omega)
    have hex : (∃ a ∈ argsOf g k, a ∈ K k) ↔ ∃ a ∈ argsOf g k, a ∈ K g.defs.length := by
      constructor
      · rintro ⟨a, h1, h2⟩; exact ⟨a, h1, (stable k a (lt k a h1) g.defs.length (by omega)).mp h2⟩
      · rintro ⟨a, h1, h2⟩; exact ⟨a, h1, (stable k a (lt k a h1) g.defs.length (by omega)).mpr h2⟩
    rw [← hex]
    split
    · next c => simp [hk, c]
    · next c => simp [hno, hk, c]
  · constructor
    · intro h; exact absurd (bound _ _ h) hk
    · intro h; exact absurd h.1 hk

theorem delete_inv {S : Nat → Prop} {n : Nat} {g g' : G V} (i : InvE E S g) (h : delete n g = .ok g') :
    InvE E S g' ∧ g'.defs = g.defs ∧ g'.data = g.data ∧ g'.gman = g.gman ∧ (∀ m, (g'.man m).freeze = (g.man m).freeze) ∧
      (∀ k, g'.alive k = true ↔ g.alive k = true ∧ k ∉ killed g n) := by
  unfold delete at h
  by_cases c : g.alive n = true
  · rw [if_pos c] at h
    cases h
    have al : ∀ k, (g.alive k && decide (k ∉ killed g n)) = true ↔ g.alive k = true ∧ k ∉ killed g n := by
      intro k; rw [Bool.and_eq_true, decide_eq_true_eq]
    refine ⟨⟨⟨i.wf.args_lt, ?_, ?_, i.wf.depth_lt, ?_, i.wf.gman_lt⟩, ⟨i.q.mono, i.q.sub, ?_, i.q.mapOp, i.q.mlt, i.q.uniq,
      i.q.mapND, i.q.queueND⟩, i.settled, ?_, ?_, i.manFreeze, i.leaves, ?_, i.eop⟩, rfl, rfl, rfl, fun _ => rfl, al⟩
    · intro k h; exact i.wf.alive_lt k ((al k).mp h).1
    · intro k a h1 h2
      have h1 := (al k).mp h1
      refine (al a).mpr ⟨i.wf.alive_args k a h1.1 h2, fun hk => h1.2 ?_⟩
      rw [killed_mem i.wf.args_lt]
      exact ⟨i.wf.alive_lt k h1.1, Or.inr ⟨a, h2, hk⟩⟩
    · intro k a h1; exact i.wf.gman_eq k a ((al k).mp h1).1
    · intro m x h1; exact i.q.mem m x ((al x).mp h1).1
    · intro k h1 hS
      rcases i.fq k ((al k).mp h1).1 hS with hf | hq
      · exact Or.inl (hf.of_same rfl rfl (fun _ _ => rfl))
      · exact Or.inr hq
    · intro m k
      show k ∈ (g.man m).users.filter _ ↔ (g.alive k && decide (k ∉ killed g n)) = true ∧ isOp g k = true ∧ g.gman k = m
      rw [al, List.mem_filter, i.users, decide_eq_true_eq]
      tauto
    · obtain ⟨W, w1, w2, w3⟩ := i.virt
      exact ⟨W, fun k h1 => w1 k ((al k).mp h1).1, w2, w3⟩
  · rw [if_neg c] at h; cases h

/-! ### Histories -/

/-- The state agrees with what the history told. -/
structure Agrees (t : Spec.Told V) (g : G V) : Prop where
  nodes : g.defs = t.nodes
  leaf : ∀ n, g.defs[n]? = some .leaf → g.data n = t.leaf n

theorem isOp_leaf {g : G V} {n : Nat} (h : g.defs[n]? = some .leaf) : isOp g n = false := by
  simp [isOp, h, Def.isOp]

theorem leaf_of_not_op {g : G V} {n : Nat} (h : isOp g n = false) (hn : n < g.defs.length) : g.defs[n]? = some .leaf := by
  unfold isOp at h
  rw [List.getElem?_eq_getElem hn] at *
  cases e : g.defs[n] with
  | leaf => rfl
  | op f a b => rw [e] at h; simp [Def.isOp] at h

theorem Agrees.frame {D : Nat → Prop} {t : Spec.Told V} {g g' : G V} (a : Agrees t g) (e : Frame D g g') : Agrees t g' := by
  refine ⟨e.defs.trans a.nodes, ?_⟩
  intro n h
  rw [e.defs] at h
  rcases e.data n with h1 | ⟨h1, _⟩
  · rw [h1]; exact a.leaf n h
  · rw [isOp_leaf h] at h1; cases h1

/-- Every call keeps the invariant and agrees with what it says. -/
theorem step_inv {S : Nat → Prop} {sch : Sched} {c : Call V} {g g' : G V} {t : Spec.Told V} (i : InvE E S g)
    (a : Agrees t g) (hS : Spec.Loud c ∨ ∀ k, S k) (h : step sch c g = .ok g') :
    InvE E S g' ∧ Agrees (Spec.tell t c) g' := by
  cases c with
  | newLeaf v =>
    simp only [step] at h
    cases h
    refine ⟨newLeaf_inv i v, ?_, ?_⟩
    · show g.defs ++ [.leaf] = t.nodes ++ [.leaf]; rw [a.nodes]
    · intro n hn
      have hn : (g.defs ++ [Def.leaf])[n]? = some .leaf := hn
      rw [getElem?_push] at hn
      show upd g.data g.defs.length v n = upd t.leaf t.nodes.length v n
      rw [← a.nodes]
      unfold upd
      split
      · rfl
      · next c => rw [if_neg c] at hn; exact a.leaf n hn
  | newOp f args hd =>
    obtain ⟨i', dd, da, _, _, _⟩ := newOp_spec i h
    refine ⟨i', ?_, ?_⟩
    · rw [dd, a.nodes]; rfl
    · intro n hn
      rw [dd, getElem?_push] at hn
      split at hn
      · cases hn
      · rw [da n (by
          by_contra c
          rw [List.getElem?_eq_none (by omega)] at hn; cases hn)]
        exact a.leaf n hn
  | assign n v b =>
    have fin : ∀ (n' : Nat), (setLeaf n v g).defs[n']? = some .leaf → (setLeaf n v g).data n' = upd t.leaf n (some v) n' := by
      intro n' hn'
      have hn' : g.defs[n']? = some .leaf := hn'
      show upd g.data n (some v) n' = _
      unfold upd
      split
      · rfl
      · exact a.leaf n' hn'
    have ag : Agrees (Spec.tell t (.assign n v b)) (setLeaf n v g) := ⟨a.nodes, fin⟩
    cases b with
    | true =>
      obtain ⟨i', _, _, e⟩ := assign_loud i h
      exact ⟨i', ag.frame e.frame⟩
    | false =>
      obtain ⟨i', _, _, e⟩ := assign_silent i h
      rcases hS with hS | hS
      · exact absurd hS (by simp [Spec.Loud])
      · rw [e] at i' ⊢
        exact ⟨i'.weaken (fun k _ => hS k), ag⟩
  | eval n =>
    simp only [step, eval] at h
    by_cases c1 : g.alive n = true
    · rw [if_pos c1] at h
      by_cases c2 : (isOp g n && !(g.man (g.gman n)).freeze) = true
      · rw [if_pos c2, Outcome.bind_eq_ok] at h
        obtain ⟨r, h1, h2⟩ := h
        rw [Outcome.bind_eq_ok] at h1
        obtain ⟨g1, h1, h3⟩ := h1
        cases h3; cases h2
        obtain ⟨i', d⟩ := managerUpdate_inv i h1
        exact ⟨i', a.frame d.frame⟩
      · rw [if_neg c2] at h
        cases h
        exact ⟨i, a⟩
    · rw [if_neg c1] at h; cases h
  | getShape n =>
    simp only [step, getShape] at h
    by_cases c1 : g.alive n = true
    · rw [if_pos c1] at h
      by_cases c2 : isOp g n = true
      · rw [if_pos c2] at h
        obtain ⟨i', d⟩ := managerUpdate_inv i h
        exact ⟨i', a.frame d.frame⟩
      · rw [if_neg c2] at h; cases h; exact ⟨i, a⟩
    · rw [if_neg c1] at h; cases h
  | freeze n b =>
    have key : ∀ (m : Nat) (g1 : G V), m < g1.defs.length → InvE E S g1 → Agrees t g1 → InvE E S (setFreeze m b g1) ∧ Agrees t (setFreeze m b g1) := by
      intro m g1 hm i1 a1
      have mq : ∀ m', ((setFreeze m b g1).man m').queue = (g1.man m').queue := by
        intro m'; simp only [setFreeze, upd]; split
        · next c => rw [c]
        · rfl
      have mm : ∀ m', ((setFreeze m b g1).man m').map = (g1.man m').map := by
        intro m'; simp only [setFreeze, upd]; split
        · next c => rw [c]
        · rfl
      have mu : ∀ m', ((setFreeze m b g1).man m').users = (g1.man m').users := by
        intro m'; simp only [setFreeze, upd]; split
        · next c => rw [c]
        · rfl
      refine ⟨⟨⟨i1.wf.args_lt, i1.wf.alive_lt, i1.wf.alive_args, i1.wf.depth_lt, i1.wf.gman_eq, i1.wf.gman_lt⟩,
        ⟨i1.q.mono, ?_, ?_, ?_, ?_, ?_, ?_, ?_⟩, ?_, ?_, ?_, ?_, i1.leaves, i1.virt, i1.eop⟩, ⟨a1.nodes, a1.leaf⟩⟩
      · intro m' x; rw [mq, mm]; exact i1.q.sub m' x
      · intro m' x; rw [mm]; exact i1.q.mem m' x
      · intro m' x; rw [mm]; exact i1.q.mapOp m' x
      · intro m' x; rw [mm]; exact i1.q.mlt m' x
      · intro m1 m2 x; rw [mm, mm]; exact i1.q.uniq m1 m2 x
      · intro m'; rw [mm]; exact i1.q.mapND m'
      · intro m'; rw [mq]; exact i1.q.queueND m'
      · intro m' x; rw [mq, mm]; exact i1.settled m' x
      · intro k h1 h2
        rw [mq]
        exact (i1.fq k h1 h2).imp (fun hf => hf.of_same rfl rfl (fun _ _ => rfl)) id
      · intro m' k; rw [mu]; exact i1.users m' k
      · intro m' hm'
        have hm' : g1.defs.length ≤ m' := hm'
        have : m' ≠ m := by omega
        simp only [setFreeze, upd]
        rw [if_neg this]; exact i1.manFreeze m' hm'
    simp only [step, freezeStatus] at h
    by_cases c1 : (g.alive n && isOp g n) = true
    · rw [if_pos c1] at h
      simp only [Bool.and_eq_true] at c1
      cases b with
      | true =>
        rw [if_pos rfl, Outcome.bind_eq_ok] at h
        obtain ⟨g1, h1, h2⟩ := h
        cases h2
        obtain ⟨i', d⟩ := managerUpdate_inv i h1
        exact key _ g1 (i'.wf.gman_lt n (by rw [isOp_congr d.frame.defs]; exact c1.2)) i' (a.frame d.frame)
      | false =>
        rw [if_neg (by simp), Outcome.ok_bind] at h
        cases h
        exact key _ g (i.wf.gman_lt n c1.2) i a
    · rw [if_neg c1] at h; cases h
  | delete n =>
    obtain ⟨i', d1, d2, _⟩ := delete_inv i h
    exact ⟨i', ⟨d1.trans a.nodes, fun k hk => by rw [d2]; rw [d1] at hk; exact a.leaf k hk⟩⟩

theorem run_append (xs ys : List (Sched × Call V)) (g : G V) : run (xs ++ ys) g = run xs g >>= fun g => run ys g := by
  induction xs generalizing g with
  | nil => rfl
  | cons x xs ih =>
    rw [List.cons_append, run, run]
    cases step x.1 x.2 g <;> simp [ih]

theorem run_inv {S : Nat → Prop} (cs : List (Sched × Call V)) : ∀ {g g' : G V} {t : Spec.Told V}, InvE E S g → Agrees t g →
    ((∀ c ∈ cs, Spec.Loud c.2) ∨ ∀ k, S k) → run cs g = .ok g' →
    InvE E S g' ∧ Agrees ((cs.map Prod.snd).foldl Spec.tell t) g' := by
  induction cs with
  | nil => intro g g' t i a _ h; cases h; exact ⟨i, a⟩
  | cons c cs ih =>
    intro g g' t i a hS h
    rw [run, Outcome.bind_eq_ok] at h
    obtain ⟨g1, h1, h2⟩ := h
    obtain ⟨i1, a1⟩ := step_inv i a (hS.imp (fun h => h c (by simp)) id) h1
    exact ih i1 a1 (hS.imp (fun h x hx => h x (by simp [hx])) id) h2

theorem reach_inv {S : Nat → Prop} {cs : List (Sched × Call V)} {g : G V} (hS : (∀ c ∈ cs, Spec.Loud c.2) ∨ ∀ k, S k)
    (h : run cs G.empty = .ok g) : Inv S g ∧ Agrees (Spec.told (cs.map Prod.snd)) g :=
  run_inv cs (Inv.empty S) ⟨rfl, fun n hn => by simp [G.empty] at hn⟩ hS h

/-! ### Fresh data is the value of the expression -/

theorem mapM_eq_some {α β : Type} {f : α → Option β} (l : List α) (vs : List β) :
    l.mapM f = some vs ↔ l.length = vs.length ∧ ∀ (i : Nat) (a : α) (w : β), l[i]? = some a → vs[i]? = some w → f a = some w := by
  induction l generalizing vs with
  | nil =>
    constructor
    · intro h
      have : vs = [] := by simpa using h.symm
      subst this; simp
    · rintro ⟨h, _⟩
      have : vs = [] := List.length_eq_zero_iff.mp h.symm
      subst this; rfl
  | cons a as ih =>
    rw [List.mapM_cons]
    constructor
    · intro h
      cases e : f a with
      | none => rw [e] at h; cases h
      | some v =>
        cases e' : as.mapM f with
        | none => rw [e, e'] at h; cases h
        | some ws =>
          rw [e, e'] at h
          cases h
          have := (ih ws).mp e'
          refine ⟨by simp [this.1], ?_⟩
          intro i x w h1 h2
          cases i with
          | zero => simp at h1 h2; rw [← h1, ← h2]; exact e
          | succ i => simp at h1 h2; exact this.2 i x w h1 h2
    · rintro ⟨h1, h2⟩
      cases vs with
      | nil => simp at h1
      | cons v ws =>
        have e := h2 0 a v (by simp) (by simp)
        have e' := (ih ws).mpr ⟨by simpa using h1, fun i x w a1 a2 => h2 (i + 1) x w (by simpa using a1) (by simpa using a2)⟩
        rw [e, e']; rfl

/-- When every live operation of a closed set is fresh, its data are the values. -/
theorem fresh_computes {S : Nat → Prop} {g : G V} (i : InvE E S g) {t : Spec.Told V} (a : Agrees t g) (C : Nat → Prop)
    (hC : ∀ k, C k → k < g.defs.length) (cl : ∀ k x, C k → x ∈ argsOf g k → C x) (hf : ∀ k, C k → isOp g k = true → Fresh g k) (n : Nat) (hn : C n)
    (v : V) : g.data n = some v ↔ Spec.Computes t.nodes t.leaf n v := by
  constructor
  · induction n using Nat.strongRecOn generalizing v with
    | _ n ih =>
      intro hv
      cases e : isOp g n with
      | false =>
        have hl := leaf_of_not_op e (hC n hn)
        refine .leaf (by rw [← a.nodes]; exact hl) ?_
        rw [← a.leaf n hl]; exact hv
      | true =>
        obtain ⟨f, args, b, ed⟩ := (isOp_iff g n).mp e
        have hargs : ∀ x ∈ args, (g.data x).isSome = true := by
          have := i.q.mono n e (by rw [hv]; rfl)
          rw [argsOf_op ed] at this; exact this
        obtain ⟨vs, hvs⟩ := mapM_some args hargs
        obtain ⟨w, h1, h2⟩ := hf n hn e f args b ed vs hvs
        rw [hv] at h2; cases h2
        obtain ⟨l1, l2⟩ := (mapM_eq_some args vs).mp hvs
        refine .op (by rw [← a.nodes]; exact ed) l1 ?_ h1
        intro j x w' h3 h4
        have hx : x ∈ argsOf g n := by rw [argsOf_op ed]; exact List.mem_of_getElem? h3
        exact ih x (i.wf.args_lt n x hx) (cl n x hn hx) w' (l2 j x w' h3 h4)
  · intro h
    induction h with
    | leaf h1 h2 =>
      rw [← a.nodes] at h1
      rw [a.leaf _ h1]; exact h2
    | @op n f args b vs v h1 h2 _ h4 ih =>
      rw [← a.nodes] at h1
      have e : isOp g n = true := (isOp_iff g n).mpr ⟨f, args, b, h1⟩
      have hvs : args.mapM g.data = some vs := by
        refine (mapM_eq_some args vs).mpr ⟨h2, fun j x w h5 h6 => ih j x w h5 h6 (cl n x hn ?_)⟩
        rw [argsOf_op h1]; exact List.mem_of_getElem? h5
      obtain ⟨w, h5, h6⟩ := hf n hn e f args b h1 vs hvs
      rw [h4] at h5; cases h5
      exact h6

end Graph
end Verif
