import Verif.Lemmas.Fault
import Mathlib.Data.List.Perm.Subperm
/-!
# The graph after exceptions: the structure survives
-/
namespace Verif
namespace Graph
open React (upd)
open Spec (DependsOn Linked)

variable {V : Type}

/-- The invariant without what exceptions break: that the map of updates holds queued nodes only, and that every node is
up to date or queued. -/
structure InvW (g : G V) : Prop where
  wf : WF g
  q : QInv g
  users : ∀ m k, k ∈ (g.man m).users ↔ g.alive k = true ∧ isOp g k = true ∧ g.gman k = m
  manFreeze : ∀ m, g.defs.length ≤ m → (g.man m).freeze = false
  leaves : ∀ k l, k < g.defs.length → (l ∈ g.leaves k ↔ DependsOn g.defs k l)
  virt : ∃ W : Nat → Nat, (∀ k, g.alive k = true → isOp g k = true → W k = g.gman k) ∧
    (∀ k, k < g.defs.length → W k < g.defs.length) ∧
    ∀ x y, isOp g x = true → isOp g y = true → (W x = W y ↔ Linked g.defs x y)

/-- The graph with every node of a map queued. -/
def norm (g : G V) : G V := { g with man := fun m => { g.man m with queue := (g.man m).map } }

def Sub (g : G V) : Prop := ∀ m, (g.man m).queue.Subperm (g.man m).map

theorem Sub.of_q {g : G V} (q : QInv g) : Sub g := fun m => List.subperm_of_subset (q.queueND m) (fun x hx => q.sub m x hx)

theorem InvW.norm {g : G V} (i : InvW g) : Inv (fun _ => True) (norm g) := by
  refine ⟨⟨i.wf.args_lt, i.wf.alive_lt, i.wf.alive_args, i.wf.depth_lt, i.wf.gman_eq, i.wf.gman_lt⟩,
    ⟨i.q.mono, fun _ _ h => h, i.q.mem, i.q.mapOp, i.q.mlt, i.q.uniq, i.q.mapND, i.q.mapND⟩, fun _ _ h => h, FQ.all _ (fun _ => trivial),
    i.users, i.manFreeze, i.leaves, (by rw [edgeE_false]; exact i.virt), fun _ _ h => h.elim⟩

theorem InvW.of_norm {S : Nat → Prop} {g : G V} (i : Inv S (Graph.norm g)) (s : Sub g) : InvW g := by
  refine ⟨⟨i.wf.args_lt, i.wf.alive_lt, i.wf.alive_args, i.wf.depth_lt, i.wf.gman_eq, i.wf.gman_lt⟩,
    ⟨i.q.mono, fun m x h => (s m).subset h, i.q.mem, i.q.mapOp, i.q.mlt, i.q.uniq, i.q.mapND, fun m => ?_⟩, i.users, i.manFreeze, i.leaves, i.linked⟩
  obtain ⟨l, h1, h2⟩ := s m
  exact h1.nodup_iff.1 (h2.nodup (i.q.mapND m))

theorem InvW.frame {D : Nat → Prop} {g g' : G V} (i : InvW g) (e : Frame D g g') (q : QInv g') : InvW g' := by
  refine ⟨i.wf.frame e, q, ?_, ?_, ?_, ?_⟩
  · intro m k; rw [e.users, e.alive, isOp_congr e.defs, e.gman]; exact i.users m k
  · intro m h; rw [e.freeze]; rw [e.defs] at h; exact i.manFreeze m h
  · intro k l h; rw [e.leaves, e.defs]; rw [e.defs] at h; exact i.leaves k l h
  · obtain ⟨W, w1, w2, w3⟩ := i.virt
    refine ⟨W, ?_, ?_, ?_⟩
    · intro k; rw [e.alive, isOp_congr e.defs, e.gman]; exact w1 k
    · intro k; rw [e.defs]; exact w2 k
    · intro x y; rw [isOp_congr e.defs, isOp_congr e.defs, e.defs]; exact w3 x y

theorem InvW.empty : InvW (G.empty (V := V)) := InvW.of_norm (S := fun _ => True) (Inv.empty _) (fun _ => List.Subperm.refl _)

theorem upd_norm (f : Nat → Man) (m : Nat) (x : Man) :
    (fun k => { upd f m x k with queue := (upd f m x k).map }) = upd (fun k => { f k with queue := (f k).map }) m { x with queue := x.map } := by
  funext k
  unfold upd
  split <;> rfl

theorem norm_consume (m o : Nat) (g : G V) : consume m o (norm g) = norm (consume m o g) := by
  unfold consume
  split
  · rfl
  · unfold norm
    simp only [upd_norm]

theorem sub_consume {m o : Nat} {g : G V} (s : Sub g) : Sub (consume m o g) := by
  intro k
  unfold consume
  split
  · exact s k
  · simp only [upd]
    split
    · exact List.Subperm.refl _
    · split
      · exact (s o).append (s m)
      · exact s k

theorem norm_updateGraph (n : Nat) (cs : List Nat) (g : G V) : updateGraph n cs (norm g) = norm (updateGraph n cs g) := by
  cases cs with
  | nil =>
    unfold updateGraph norm
    simp only [upd_norm]
  | cons c cs =>
    have key : ∀ (cs : List Nat) (g : G V), cs.foldl (fun g a => consume (g.gman n) (g.gman a) g) (norm g) =
        norm (cs.foldl (fun g a => consume (g.gman n) (g.gman a) g) g) := by
      intro cs
      induction cs with
      | nil => intro g; rfl
      | cons c cs ih =>
        intro g
        rw [List.foldl_cons, List.foldl_cons, ← ih]
        congr 1
        exact norm_consume _ _ g
    unfold updateGraph
    rw [← key]
    congr 1
    unfold norm
    simp only [upd_norm]

theorem sub_updateGraph {n : Nat} {cs : List Nat} {g : G V} (s : Sub g) : Sub (updateGraph n cs g) := by
  cases cs with
  | nil =>
    intro k
    simp only [updateGraph, upd]
    split
    · exact List.Subperm.refl _
    · exact s k
  | cons c cs =>
    have key : ∀ (cs : List Nat) (g : G V), Sub g → Sub (cs.foldl (fun g a => consume (g.gman n) (g.gman a) g) g) := by
      intro cs
      induction cs with
      | nil => intro g s; exact s
      | cons c cs ih => intro g s; exact ih _ (sub_consume s)
    unfold updateGraph
    refine key cs _ (fun k => ?_)
    simp only [upd]
    split
    · exact s _
    · exact s k

theorem InvW.construct {g : G V} (i : InvW g) (f : List V → Outcome V) (args : List Nat) (hides : Bool) (hargs : ∀ a ∈ args, g.alive a = true) :
    InvW (construct f args hides g) ∧ (construct f args hides g).defs = g.defs ++ [.op f args hides] ∧
      (construct f args hides g).data = upd g.data g.defs.length none ∧ (construct f args hides g).alive = upd g.alive g.defs.length true := by
  obtain ⟨a, b, c, d⟩ := construct_inv i.norm f args hides hargs
  have e : Graph.construct f args hides (Graph.norm g) = Graph.norm (Graph.construct f args hides g) := by
    unfold Graph.construct
    rw [← norm_updateGraph]
    rfl
  rw [e] at a b c d
  refine ⟨InvW.of_norm a ?_, b, c, d⟩
  unfold Graph.construct
  exact sub_updateGraph (fun m => Sub.of_q i.q m)

theorem InvW.newLeaf {g : G V} (i : InvW g) (v : Option V) : InvW (newLeaf v g) :=
  InvW.of_norm (g := Graph.newLeaf v g) (newLeaf_inv i.norm v) (fun m => Sub.of_q i.q m)

theorem InvW.setLeaf {g : G V} (i : InvW g) (n : Nat) (v : V) (ho : isOp g n = false) : InvW (setLeaf n v g) :=
  InvW.of_norm (g := Graph.setLeaf n v g) (setLeaf_inv i.norm n v ho) (fun m => Sub.of_q i.q m)

theorem InvW.setFreeze {g : G V} (i : InvW g) {m : Nat} (hm : m < g.defs.length) (b : Bool) : InvW (setFreeze m b g) := by
  have mq : ∀ m', ((Graph.setFreeze m b g).man m').queue = (g.man m').queue := by
    intro m'; simp only [Graph.setFreeze, upd]; split
    · next c => rw [c]
    · rfl
  have mm : ∀ m', ((Graph.setFreeze m b g).man m').map = (g.man m').map := by
    intro m'; simp only [Graph.setFreeze, upd]; split
    · next c => rw [c]
    · rfl
  have mu : ∀ m', ((Graph.setFreeze m b g).man m').users = (g.man m').users := by
    intro m'; simp only [Graph.setFreeze, upd]; split
    · next c => rw [c]
    · rfl
  refine ⟨⟨i.wf.args_lt, i.wf.alive_lt, i.wf.alive_args, i.wf.depth_lt, i.wf.gman_eq, i.wf.gman_lt⟩,
    ⟨i.q.mono, ?_, ?_, ?_, ?_, ?_, ?_, ?_⟩, ?_, ?_, i.leaves, i.virt⟩
  · intro m' x; rw [mq, mm]; exact i.q.sub m' x
  · intro m' x; rw [mm]; exact i.q.mem m' x
  · intro m' x; rw [mm]; exact i.q.mapOp m' x
  · intro m' x; rw [mm]; exact i.q.mlt m' x
  · intro m1 m2 x; rw [mm, mm]; exact i.q.uniq m1 m2 x
  · intro m'; rw [mm]; exact i.q.mapND m'
  · intro m'; rw [mq]; exact i.q.queueND m'
  · intro m' k; rw [mu]; exact i.users m' k
  · intro m' hm'
    have hm' : g.defs.length ≤ m' := hm'
    have : m' ≠ m := by omega
    simp only [Graph.setFreeze, upd]
    rw [if_neg this]; exact i.manFreeze m' hm'

theorem managerUpdateR_weak {sch : Sched} {m : Nat} {g : G V} (i : InvW g) : (managerUpdateR sch m g).Holds fun g' =>
    InvW g' ∧ Frame (fun m' => m' = m) g g' ∧ (∀ m', m' ≠ m → g'.man m' = g.man m') :=
  (drainR_weak sch m _ g i.wf i.q).mono fun _ h => ⟨i.frame h.2.1 h.1, h.2⟩

/-- Every call keeps the invariant, whether it returns or throws. -/
theorem stepR_inv {sch : Sched} {c : Call V} {g : G V} (i : InvW g) : (stepR sch c g).Holds InvW := by
  cases c with
  | newLeaf v => exact i.newLeaf v
  | newOp f args h =>
    show (newOpR sch f args h g).Holds InvW
    unfold newOpR
    split
    · trivial
    · split
      · rename_i h1
        have hargs : ∀ a ∈ args, g.alive a = true := fun a ha => List.all_eq_true.mp h1 a ha
        obtain ⟨ic, dc, dtc, alc⟩ := i.construct f args h hargs
        have nop : isOp (construct f args h g) g.defs.length = true := by
          rw [isOp_iff]; exact ⟨f, args, h, by rw [dc, getElem?_push, if_pos rfl]⟩
        have nal : (construct f args h g).alive g.defs.length = true := by rw [alc]; simp [upd]
        have key := (updateR_weak (notifyR_weak sch (g.defs.length + 2)) ic.wf ic.q nal nop).mono fun g' (h : _ ∧ _) => ic.frame h.2.frame h.1
        cases e : updateR (notifyR sch (g.defs.length + 2)) g.defs.length (construct f args h g) with
        | done g' => rw [e] at key; exact key
        | thrown x g' => exact i
        | abort => trivial
        | ub => trivial
      · trivial
  | assign n v b =>
    show (assignR sch n v b g).Holds InvW
    unfold assignR
    split
    · rename_i c
      simp only [Bool.and_eq_true, Bool.not_eq_true'] at c
      have i1 := i.setLeaf n v c.2
      split
      · exact (notifyR_weak sch _ n (setLeaf n v g) i1.wf i1.q).mono fun g' h => i1.frame h.2.frame h.1
      · exact i1
    · trivial
  | eval n =>
    show (evalR sch n g).Holds InvW
    unfold evalR
    split
    · split
      · exact (managerUpdateR_weak i).mono fun _ h => h.1
      · exact i
    · trivial
  | getShape n =>
    show (getShapeR sch n g).Holds InvW
    unfold getShapeR
    split
    · split
      · exact (managerUpdateR_weak i).mono fun _ h => h.1
      · exact i
    · trivial
  | freeze n b =>
    show (freezeStatusR sch n b g).Holds InvW
    unfold freezeStatusR
    split
    · rename_i c
      simp only [Bool.and_eq_true] at c
      have key : (if b = true then managerUpdateR sch (g.gman n) g else .done g).Holds fun g' => InvW g' ∧ Frame (fun m' => m' = g.gman n) g g' := by
        split
        · exact (managerUpdateR_weak i).mono fun _ h => ⟨h.1, h.2.1⟩
        · exact ⟨i, Frame.refl _ _⟩
      exact key.andThen (fun _ h => h.1) fun g1 h => h.1.setFreeze (h.1.wf.gman_lt n (by rw [isOp_congr h.2.defs]; exact c.2)) b
    · trivial
  | delete n =>
    show (deleteR n g).Holds InvW
    unfold deleteR
    split
    · rename_i c
      have h : delete n (Graph.norm g) = .ok (Graph.norm { g with alive := fun k => g.alive k && decide (k ∉ killed g n), man := fun m => { g.man m with users := (g.man m).users.filter (fun k => k ∉ killed g n) } }) := by
        unfold delete
        rw [if_pos (show (Graph.norm g).alive n = true from c)]
        rfl
      exact InvW.of_norm (delete_inv i.norm h).1 (fun m => Sub.of_q i.q m)
    · trivial

theorem runR_inv (cs : List (Sched × Call V)) : ∀ {g g' : G V}, InvW g → runR cs g = some g' → InvW g' := by
  induction cs with
  | nil => intro g g' i h; cases h; exact i
  | cons c cs ih =>
    intro g g' i h
    have s := stepR_inv (sch := c.1) (c := c.2) i
    rw [runR] at h
    cases e : stepR c.1 c.2 g with
    | done g1 => rw [e] at h s; exact ih s h
    | thrown x g1 => rw [e] at h s; exact ih s h
    | abort => rw [e] at h; cases h
    | ub => rw [e] at h; cases h

end Graph
end Verif
