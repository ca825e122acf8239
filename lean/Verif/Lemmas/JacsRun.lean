import Verif.Lemmas.Jacs
/-!
# The invariants along a history
-/
namespace Verif
namespace Jacs
open React (upd forEach)
open Spec

theorem below_le {g : St} (i : WInv g) {n m : Nat} (h : Under g.nodes n m) : m ≤ n := by
  induction h with
  | refl => exact Nat.le_refl _
  | @arg n a m args b e hm _ ih =>
    have := i.args_lt n a (by rw [argsOf_eq e]; exact hm)
    omega

theorem below_alive {g : St} (i : WInv g) {n m : Nat} (h : Under g.nodes n m) (al : g.alive n = true) : g.alive m = true := by
  induction h with
  | refl => exact al
  | @arg n a m args b e hm _ ih => exact ih (i.args_alive n a al (by rw [argsOf_eq e]; exact hm))

/-- Anything strictly below a node is below every node of the same definition. -/
theorem below_same {ns ns' : List Node} {n N m : Nat} (h : Under ns n m) (ne : m ≠ n) (hd : ns'[N]? = ns[n]?)
    (mono : ∀ a b, Under ns a b → Under ns' a b) : Under ns' N m := by
  cases h with
  | refl => exact absurd rfl ne
  | arg e hm hb => exact .arg (hd.trans e) hm (mono _ _ hb)

theorem WInv.grow {g g' : St} (i : WInv g) (d : Node) (hn : g'.nodes = g.nodes ++ [d])
    (hal : ∀ k, g'.alive k = if k = g.nodes.length then true else g.alive k) (hargs : ∀ a ∈ d.args, g.alive a = true)
    (ho : ∀ k v j e, g'.jac k v = some j → e ∈ j.list →
      (k ≠ g.nodes.length ∧ ∃ u j0, g.jac k u = some j0 ∧ e ∈ j0.list) ∨ (e.orig = g.nodes.length ∧ (d.args = [] ∨ k = g.nodes.length)) ∨
      (k = g.nodes.length ∧ ∃ n u j0, g.jac n u = some j0 ∧ e ∈ j0.list ∧ (n ∈ d.args ∨ g.nodes[n]? = some d)))
    (hk : ∀ k v j, g'.jac k v = some j → v ∈ g'.leaves k)
    (hl : ∀ k v j, g'.jac k v = some j → (k ≠ g.nodes.length ∧ ∃ u j0, g.jac k u = some j0) ∨ (k = g.nodes.length ∧ d ≠ .leaf))
    (hg : ∀ k v, g'.got k v = true → ∃ j, g'.jac k v = some j)
    (hop : ∀ k h, g'.nodes[k]? = some (.op [] h) → g'.leaves k = []) : WInv g' := by
  have len : g'.nodes.length = g.nodes.length + 1 := by rw [hn]; simp
  have hA := argsOf_push hn
  have old : ∀ k, k < g.nodes.length → g'.nodes[k]? = g.nodes[k]? := by
    intro k hk; rw [hn, List.getElem?_append_left hk]
  have new : g'.nodes[g.nodes.length]? = some d := by rw [hn]; simp
  have mono : ∀ a b, Under g.nodes a b → Under g'.nodes a b := by
    intro a b h; rw [hn]; exact h.append _
  have argN : ∀ a ∈ d.args, a < g.nodes.length := fun a ha => i.alive_lt a (hargs a ha)
  have belowN : ∀ a ∈ d.args, Under g'.nodes g.nodes.length a := by
    intro a ha; exact below_arg (by rw [hA, if_pos rfl]; exact ha)
  refine ⟨?_, ?_, ?_, ?_, ?_, hk, ?_, hg, hop⟩
  · intro k h
    rw [hal] at h; rw [len]
    split at h
    · omega
    · have := i.alive_lt k h; omega
  · intro k a h
    rw [hA] at h
    split at h
    · next c => rw [c]; exact argN a h
    · exact i.args_lt k a h
  · intro k a h hm
    rw [hA] at hm; rw [hal] at h ⊢
    split at hm
    · have := argN a hm; rw [if_neg (by omega)]; exact hargs a hm
    · next c =>
      rw [if_neg c] at h
      have h1 := i.args_alive k a h hm
      have := i.alive_lt a h1
      rw [if_neg (by omega)]; exact h1
  · intro k v j e hj he
    rw [len]
    rcases ho k v j e hj he with ⟨_, u, j0, h1, h2⟩ | ⟨h1, _⟩ | ⟨_, n, u, j0, h1, h2, _⟩
    · have := i.orig_lt k u j0 e h1 h2; omega
    · omega
    · have := i.orig_lt n u j0 e h1 h2; omega
  · intro k v j e a hj he ha
    rw [hA] at ha
    rcases ho k v j e hj he with ⟨_, u, j0, h1, h2⟩ | ⟨h1, h2⟩ | ⟨hkN, n, u, j0, h1, h2, h3⟩
    · have := i.orig_lt k u j0 e h1 h2
      rw [if_neg (by omega)] at ha
      obtain ⟨x, y⟩ := i.orig_args k u j0 e a h1 h2 ha
      exact ⟨x, mono _ _ y⟩
    · rw [if_pos h1] at ha
      rcases h2 with h2 | h2
      · rw [h2] at ha; simp at ha
      · subst h2; exact ⟨argN a ha, belowN a ha⟩
    · have := i.orig_lt n u j0 e h1 h2
      rw [if_neg (by omega)] at ha
      obtain ⟨x, y⟩ := i.orig_args n u j0 e a h1 h2 ha
      subst hkN
      rcases h3 with h3 | h3
      · have := argN n h3
        exact ⟨by omega, (belowN n h3).trans (mono _ _ y)⟩
      · have hlt : n < g.nodes.length := (i.leafjac n u j0 h1).1
        exact ⟨by omega, below_same y (by omega) (new.trans h3.symm) mono⟩
  · intro k v j hj
    rw [len]
    rcases hl k v j hj with ⟨_, u, j0, h⟩ | ⟨h, h'⟩
    · obtain ⟨a, b⟩ := i.leafjac k u j0 h
      exact ⟨by omega, by rw [old k a]; exact b⟩
    · subst h
      refine ⟨by omega, ?_⟩
      rw [new]; intro c; exact h' (Option.some.inj c)

/-! ### New nodes -/

theorem leaves_eq {V : Type} {f : Nat → V} {n : Nat} {x : V} (k : Nat) : upd f n x k = if k = n then x else f k := rfl

theorem newLeaf_winv {g : St} (i : WInv g) : WInv (newLeaf g) := by
  have hj : ∀ k v j, (newLeaf g).jac k v = some j → k ≠ g.nodes.length ∧ g.jac k v = some j := by
    intro k v j h
    simp only [newLeaf, upd] at h
    split at h
    · cases h
    · next c => exact ⟨c, h⟩
  refine i.grow .leaf rfl (fun k => rfl) (by simp [Node.args]) ?_ ?_ ?_ ?_ ?_
  · intro k v j e h he
    obtain ⟨a, b⟩ := hj k v j h
    exact Or.inl ⟨a, v, j, b, he⟩
  · intro k v j h
    obtain ⟨a, b⟩ := hj k v j h
    show v ∈ upd g.leaves g.nodes.length [g.nodes.length] k
    rw [leaves_eq, if_neg a]; exact i.keys k v j b
  · intro k v j h
    obtain ⟨a, b⟩ := hj k v j h
    exact Or.inl ⟨a, v, j, b⟩
  · intro k v h
    simp only [newLeaf, upd] at h ⊢
    split at h
    · cases h
    · next c => rw [if_neg c]; exact i.got k v h
  · intro k b h
    show upd g.leaves g.nodes.length [g.nodes.length] k = []
    have h' : (g.nodes ++ [Node.leaf])[k]? = some (.op [] b) := h
    rw [leaves_eq]
    split
    · next c => subst c; simp at h'
    · next c =>
      refine i.opargs k b ?_
      by_cases hl : k < g.nodes.length
      · rw [List.getElem?_append_left hl] at h'; exact h'
      · rw [List.getElem?_append_right (by omega)] at h'
        cases hh : k - g.nodes.length with
        | zero => omega
        | succ m => rw [hh] at h'; simp at h'

theorem takeArg_mem {this arg : Option JList} {j : JList} {e : Entry} (h : takeArg this arg = some j) (he : e ∈ j.list) :
    this = some j ∨ ∃ j0, arg = some j0 ∧ e ∈ j0.list := by
  unfold takeArg at h
  split at h
  · exact Or.inl h
  · next j0 =>
    split at h
    · exact Or.inl h
    · split at h
      · cases h; exact Or.inr ⟨j0, rfl, he⟩
      · split at h
        · cases h; simp at he
        · exact Or.inl h

theorem fold_mem {g : St} {v : Nat} (as : List Nat) : ∀ {t : Option JList} {j : JList} {e : Entry},
    as.foldl (fun t a => takeArg t (g.jac a v)) t = some j → e ∈ j.list →
    (∃ j0, t = some j0 ∧ e ∈ j0.list) ∨ ∃ a ∈ as, ∃ j0, g.jac a v = some j0 ∧ e ∈ j0.list := by
  induction as with
  | nil => intro t j e h he; exact Or.inl ⟨j, h, he⟩
  | cons a as ih =>
    intro t j e h he
    rcases ih h he with ⟨j0, h1, h2⟩ | ⟨b, hb, j0, h1, h2⟩
    · rcases takeArg_mem h1 h2 with h3 | ⟨j1, h3, h4⟩
      · exact Or.inl ⟨j0, h3, h2⟩
      · exact Or.inr ⟨a, by simp, j1, h3, h4⟩
    · exact Or.inr ⟨b, by simp [hb], j0, h1, h2⟩

theorem inherited_mem {g : St} {args : List Nat} {v : Nat} {j : JList} {e : Entry} (h : inherited g args v = some j) (he : e ∈ j.list) :
    ∃ a ∈ args, ∃ j0, g.jac a v = some j0 ∧ e ∈ j0.list := by
  rcases fold_mem _ h he with ⟨j0, h1, _⟩ | ⟨a, ha, h1⟩
  · cases h1
  · exact ⟨a, by simpa using ha, h1⟩

theorem ignored_mem {g : St} {args : List Nat} {l : List Nat} {v : Nat} {j : JList} {e : Entry}
    (h : (if v ∈ l then none else inherited g args v) = some j) (he : e ∈ j.list) :
    ∃ a ∈ args, ∃ j0, g.jac a v = some j0 ∧ e ∈ j0.list := by
  split at h
  · cases h
  · exact inherited_mem h he

/-- The entries of a new operation: inherited, or its own. -/
theorem bornJac_mem {g : St} {args : List Nat} {hd : Bool} {ig : Option Nat} {own : Option Own} {v : Nat} {j : JList} {e : Entry}
    (h : bornJac g args hd ig own v = some j) (he : e ∈ j.list) :
    (∃ a ∈ args, ∃ j0, g.jac a v = some j0 ∧ e ∈ j0.list) ∨
    (∃ o, own = some o ∧ v ∈ o.vars ∧ e = ⟨o.reads, g.nodes.length⟩) := by
  unfold bornJac at h
  split at h
  · split at h
    · exact Or.inl (ignored_mem h he)
    · next o ho =>
      have hown : own = some o ∧ v ∈ o.vars := by
        unfold ownFor at ho
        split at ho
        · cases ho
        · split at ho
          · next c => cases ho; exact ⟨rfl, c⟩
          · cases ho
      unfold pushOwn at h
      split at h
      · cases h
        simp at he
        exact Or.inr ⟨o, hown.1, hown.2, he⟩
      · next j1 hj1 =>
        cases h
        dsimp only at he
        have : e = ⟨o.reads, g.nodes.length⟩ ∨ e ∈ j1.list := by
          split at he
          · simpa using he
          · rcases List.mem_append.mp he with h | h
            · exact Or.inr h
            · exact Or.inl (by simpa using h)
        rcases this with h | h
        · exact Or.inr ⟨o, hown.1, hown.2, h⟩
        · exact Or.inl (ignored_mem hj1 h)
  · cases h

theorem bornJac_key {g : St} {args : List Nat} {hd : Bool} {ig : Option Nat} {own : Option Own} {v : Nat} {j : JList}
    (h : bornJac g args hd ig own v = some j) : v ∈ leavesOf g args hd := by
  unfold bornJac at h
  split at h
  · next c => exact c
  · cases h

theorem newOp_ok {args : List Nat} {hd : Bool} {ig : Option Nat} {own : Option Own} {g g' : St} (h : newOp args hd ig own g = .ok g') :
    args ≠ [] ∧ (∀ a ∈ args, g.alive a = true) ∧
    g' = { g with nodes := g.nodes ++ [.op args hd], alive := upd g.alive g.nodes.length true, jac := upd g.jac g.nodes.length (bornJac g args hd ig own), got := upd g.got g.nodes.length (fun _ => false), leaves := upd g.leaves g.nodes.length (leavesOf g args hd), uid := g.uid + 1 } := by
  unfold newOp at h
  split at h
  · cases h
  · next c =>
    split at h
    · next c' =>
      rw [Bool.and_eq_true, List.all_eq_true] at c'
      cases h; exact ⟨c, c'.1, rfl⟩
    · cases h

theorem push_some {ns : List Node} {d x : Node} {k : Nat} (h : (ns ++ [d])[k]? = some x) :
    (k = ns.length ∧ x = d) ∨ (k < ns.length ∧ ns[k]? = some x) := by
  by_cases hl : k < ns.length
  · rw [List.getElem?_append_left hl] at h; exact Or.inr ⟨hl, h⟩
  · rw [List.getElem?_append_right (by omega)] at h
    cases hh : k - ns.length with
    | zero => rw [hh] at h; simp at h; exact Or.inl ⟨by omega, h.symm⟩
    | succ m => rw [hh] at h; simp at h

theorem newOp_winv {args : List Nat} {hd : Bool} {ig : Option Nat} {own : Option Own} {g g' : St} (i : WInv g)
    (h : newOp args hd ig own g = .ok g') : WInv g' := by
  obtain ⟨hne, hal, rfl⟩ := newOp_ok h
  have hj : ∀ k v j, upd g.jac g.nodes.length (bornJac g args hd ig own) k v = some j →
      (k = g.nodes.length ∧ bornJac g args hd ig own v = some j) ∨ (k ≠ g.nodes.length ∧ g.jac k v = some j) := by
    intro k v j h
    unfold upd at h
    split at h
    · next c => exact Or.inl ⟨c, h⟩
    · next c => exact Or.inr ⟨c, h⟩
  refine i.grow (.op args hd) rfl (fun k => rfl) hal ?_ ?_ ?_ ?_ ?_
  · intro k v j e h he
    rcases hj k v j h with ⟨a, b⟩ | ⟨a, b⟩
    · rcases bornJac_mem b he with ⟨x, hx, j0, h1, h2⟩ | ⟨o, _, _, h3⟩
      · exact Or.inr (Or.inr ⟨a, x, v, j0, h1, h2, Or.inl hx⟩)
      · exact Or.inr (Or.inl ⟨by rw [h3], Or.inr a⟩)
    · exact Or.inl ⟨a, v, j, b, he⟩
  · intro k v j h
    show v ∈ upd g.leaves g.nodes.length (leavesOf g args hd) k
    rw [leaves_eq]
    rcases hj k v j h with ⟨a, b⟩ | ⟨a, b⟩
    · rw [if_pos a]; exact bornJac_key b
    · rw [if_neg a]; exact i.keys k v j b
  · intro k v j h
    rcases hj k v j h with ⟨a, b⟩ | ⟨a, b⟩
    · exact Or.inr ⟨a, by simp⟩
    · exact Or.inl ⟨a, v, j, b⟩
  · intro k v h
    simp only [upd] at h ⊢
    split at h
    · cases h
    · next c => rw [if_neg c]; exact i.got k v h
  · intro k b h
    show upd g.leaves g.nodes.length (leavesOf g args hd) k = []
    rcases push_some h with ⟨h1, h2⟩ | ⟨h1, h2⟩
    · cases h2; exact absurd rfl hne
    · rw [leaves_eq, if_neg (by omega)]; exact i.opargs k b h2

theorem correct_mem {old new : Nat} {l : List Entry} {e : Entry} (h : e ∈ correct old new l) :
    e ∈ l ∨ ∃ x ∈ l, x.orig = old ∧ e = ⟨x.reads, new⟩ := by
  unfold correct at h
  split at h
  · exact Or.inl h
  · next x hx =>
    split at h
    · next c =>
      rcases List.mem_append.mp h with h | h
      · exact Or.inl (List.dropLast_subset _ h)
      · exact Or.inr ⟨x, List.mem_of_getLast? hx, c, by simpa using h⟩
    · exact Or.inl h

theorem cloneOp_jac {args : List Nat} {hd : Bool} {n : Nat} {g : St} {k v : Nat} {j : JList} (h : (cloneOp args hd n g).jac k v = some j) :
    (k ≠ g.nodes.length ∧ g.jac k v = some j) ∨
    (k = g.nodes.length ∧ ∃ j0, g.jac n v = some j0 ∧ j = { j0 with list := correct n g.nodes.length j0.list }) := by
  simp only [cloneOp, upd] at h
  split at h
  · next c =>
    cases hj : g.jac n v with
    | none => dsimp only at h; rw [hj] at h; cases h
    | some j0 => dsimp only at h; rw [hj] at h; exact Or.inr ⟨c, j0, rfl, (Option.some.inj h).symm⟩
  · next c => exact Or.inl ⟨c, h⟩

theorem cloneOp_winv {args : List Nat} {hd : Bool} {n : Nat} {g : St} (i : WInv g) (al : g.alive n = true) (hn : g.nodes[n]? = some (.op args hd)) :
    WInv (cloneOp args hd n g) := by
  have hA : argsOf g n = args := argsOf_eq hn
  refine i.grow (.op args hd) rfl (fun k => rfl) (fun a ha => i.args_alive n a al (by rw [hA]; exact ha)) ?_ ?_ ?_ ?_ ?_
  · intro k v j e h he
    rcases cloneOp_jac h with ⟨a, b⟩ | ⟨a, j0, b, rfl⟩
    · exact Or.inl ⟨a, v, j, b, he⟩
    · rcases correct_mem he with h1 | ⟨x, _, _, h3⟩
      · exact Or.inr (Or.inr ⟨a, n, v, j0, b, h1, Or.inr hn⟩)
      · exact Or.inr (Or.inl ⟨by rw [h3], Or.inr a⟩)
  · intro k v j h
    show v ∈ upd g.leaves g.nodes.length (g.leaves n) k
    rw [leaves_eq]
    rcases cloneOp_jac h with ⟨a, b⟩ | ⟨a, j0, b, _⟩
    · rw [if_neg a]; exact i.keys k v j b
    · rw [if_pos a]; exact i.keys n v j0 b
  · intro k v j h
    rcases cloneOp_jac h with ⟨a, b⟩ | ⟨a, _⟩
    · exact Or.inl ⟨a, v, j, b⟩
    · exact Or.inr ⟨a, by simp⟩
  · intro k v h
    simp only [cloneOp, upd] at h ⊢
    split at h
    · next c =>
      obtain ⟨j, hj⟩ := i.got n v h
      rw [if_pos c, hj]; exact ⟨_, rfl⟩
    · next c => rw [if_neg c]; exact i.got k v h
  · intro k b h
    show upd g.leaves g.nodes.length (g.leaves n) k = []
    rcases push_some h with ⟨h1, h2⟩ | ⟨h1, h2⟩
    · cases h2; rw [leaves_eq, if_pos h1]; exact i.opargs n hd hn
    · rw [leaves_eq, if_neg (by omega)]; exact i.opargs k b h2

theorem movedList_mem {n N k : Nat} {l : List Entry} {e : Entry} (h : e ∈ movedList n N k l) : e ∈ l ∨ e.orig = N := by
  have key : ∀ x : Entry, e = Entry.rename n N x → e = x ∨ e.orig = N := by
    intro x hx
    subst hx
    simp only [Entry.rename, rename]
    by_cases c : x.orig = n
    · exact Or.inr (by simp [c])
    · exact Or.inl (by simp [c])
  unfold movedList at h
  split at h
  · rcases List.mem_append.mp h with h | h
    · obtain ⟨x, hx, rfl⟩ := List.mem_map.mp h
      rcases key x rfl with h1 | h1
      · rw [h1]; exact Or.inl (List.dropLast_subset _ hx)
      · exact Or.inr h1
    · exact Or.inl (List.mem_of_getLast? (by simpa using h))
  · obtain ⟨x, hx, rfl⟩ := List.mem_map.mp h
    rcases key x rfl with h1 | h1
    · rw [h1]; exact Or.inl hx
    · exact Or.inr h1

theorem moveOp_jac {hd : Bool} {n : Nat} {g : St} {k v : Nat} {j : JList} (h : (moveOp hd n g).jac k v = some j) :
    k ≠ g.nodes.length ∧ ∃ j0, g.jac k v = some j0 ∧ j = { j0 with list := movedList n g.nodes.length k j0.list } := by
  simp only [moveOp, upd] at h
  split at h
  · cases h
  · next c =>
    cases hj : g.jac k v with
    | none => dsimp only at h; rw [hj] at h; cases h
    | some j0 => dsimp only at h; rw [hj] at h; exact ⟨c, j0, rfl, (Option.some.inj h).symm⟩

theorem moveOp_winv {hd : Bool} {n : Nat} {g : St} (i : WInv g) : WInv (moveOp hd n g) := by
  refine i.grow (.op [] hd) rfl (fun k => rfl) (by simp [Node.args]) ?_ ?_ ?_ ?_ ?_
  · intro k v j e h he
    obtain ⟨a, j0, b, rfl⟩ := moveOp_jac h
    rcases movedList_mem he with h1 | h1
    · exact Or.inl ⟨a, v, j0, b, h1⟩
    · exact Or.inr (Or.inl ⟨h1, Or.inl rfl⟩)
  · intro k v j h
    obtain ⟨a, j0, b, _⟩ := moveOp_jac h
    show v ∈ upd g.leaves g.nodes.length [] k
    rw [leaves_eq, if_neg a]; exact i.keys k v j0 b
  · intro k v j h
    obtain ⟨a, j0, b, _⟩ := moveOp_jac h
    exact Or.inl ⟨a, v, j0, b⟩
  · intro k v h
    simp only [moveOp, upd] at h ⊢
    split at h
    · cases h
    · next c =>
      obtain ⟨j, hj⟩ := i.got k v h
      rw [if_neg c, hj]; exact ⟨_, rfl⟩
  · intro k b h
    show upd g.leaves g.nodes.length [] k = []
    rcases push_some h with ⟨h1, h2⟩ | ⟨h1, h2⟩
    · rw [leaves_eq, if_pos h1]
    · rw [leaves_eq, if_neg (by omega)]; exact i.opargs k b h2

theorem moveLeaf_jac_eq (n : Nat) (g : St) (k v : Nat) : (moveLeaf n g).jac k v =
    if k = g.nodes.length then none else if v = n then none else if v = g.nodes.length then g.jac k n else g.jac k v := by
  simp only [moveLeaf, upd]
  split
  · rfl
  · dsimp only [upd]

theorem moveLeaf_got_eq (n : Nat) (g : St) (k v : Nat) : (moveLeaf n g).got k v =
    if k = g.nodes.length then false else if v = n then false else if v = g.nodes.length then g.got k n else g.got k v := by
  simp only [moveLeaf, upd]
  split
  · rfl
  · dsimp only [upd]

theorem moveLeaf_jac {n : Nat} {g : St} {k v : Nat} {j : JList} (h : (moveLeaf n g).jac k v = some j) :
    k ≠ g.nodes.length ∧ v ≠ n ∧ ((v = g.nodes.length ∧ g.jac k n = some j) ∨ g.jac k v = some j) := by
  rw [moveLeaf_jac_eq] at h
  split at h
  · cases h
  · next c =>
    split at h
    · cases h
    · next c1 =>
      split at h
      · next c2 => exact ⟨c, c1, Or.inl ⟨c2, h⟩⟩
      · exact ⟨c, c1, Or.inr h⟩

theorem moveLeaf_winv {n : Nat} {g : St} (i : WInv g) (hn : g.nodes[n]? = some .leaf) : WInv (moveLeaf n g) := by
  have nl : n < g.nodes.length := by
    by_contra c; rw [List.getElem?_eq_none (by omega)] at hn; cases hn
  have notn : ∀ {k v j}, g.jac k v = some j → k ≠ n := by
    intro k v j h c
    subst c; exact (i.leafjac k v j h).2 hn
  refine i.grow .leaf rfl (fun k => rfl) (by simp [Node.args]) ?_ ?_ ?_ ?_ ?_
  · intro k v j e h he
    obtain ⟨a, _, b⟩ := moveLeaf_jac h
    rcases b with ⟨_, b⟩ | b
    · exact Or.inl ⟨a, n, j, b, he⟩
    · exact Or.inl ⟨a, v, j, b, he⟩
  · intro k v j h
    obtain ⟨a, c, b⟩ := moveLeaf_jac h
    have kn : k ≠ n := by rcases b with ⟨_, b⟩ | b <;> exact notn b
    show v ∈ upd (upd (fun k => (g.leaves k).map (rename n g.nodes.length)) n [n]) g.nodes.length [g.nodes.length] k
    rw [leaves_eq, if_neg a, leaves_eq, if_neg kn]
    rcases b with ⟨e, b⟩ | b
    · exact List.mem_map.mpr ⟨n, i.keys k n j b, by simp [rename, e]⟩
    · exact List.mem_map.mpr ⟨v, i.keys k v j b, by simp [rename, c]⟩
  · intro k v j h
    obtain ⟨a, _, b⟩ := moveLeaf_jac h
    rcases b with ⟨_, b⟩ | b
    · exact Or.inl ⟨a, n, j, b⟩
    · exact Or.inl ⟨a, v, j, b⟩
  · intro k v h
    rw [moveLeaf_got_eq] at h
    rw [moveLeaf_jac_eq]
    split at h
    · cases h
    · next c =>
      split at h
      · cases h
      · next c1 =>
        rw [if_neg c, if_neg c1]
        split at h
        · next c2 => rw [if_pos c2]; exact i.got k n h
        · next c2 => rw [if_neg c2]; exact i.got k v h
  · intro k b h
    show upd (upd (fun k => (g.leaves k).map (rename n g.nodes.length)) n [n]) g.nodes.length [g.nodes.length] k = []
    rcases push_some h with ⟨_, h2⟩ | ⟨h1, h2⟩
    · cases h2
    · have kn : k ≠ n := by intro c; subst c; rw [hn] at h2; cases h2
      rw [leaves_eq, if_neg (by omega), leaves_eq, if_neg kn, i.opargs k b h2]; rfl

/-! ### Destruction -/

theorem killed_mem {g : St} (lt : ∀ k a, a ∈ argsOf g k → a < k) (n k : Nat) :
    k ∈ killed g n ↔ k < g.nodes.length ∧ (k = n ∨ ∃ a ∈ argsOf g k, a ∈ killed g n) := by
  let K : Nat → List Nat := fun j => (List.range j).foldl
    (fun acc k => if k = n ∨ ∃ a ∈ argsOf g k, a ∈ acc then k :: acc else acc) []
  have succ : ∀ j, K (j + 1) = if j = n ∨ ∃ a ∈ argsOf g j, a ∈ K j then j :: K j else K j := by
    intro j
    show (List.range (j + 1)).foldl _ [] = _
    rw [List.range_succ, List.foldl_append]
    rfl
  have bound : ∀ j x, x ∈ K j → x < j := by
    intro j
    induction j with
    | zero => intro x h; simp [K] at h
    | succ j ih =>
      intro x h
      rw [succ] at h
      split at h
      · rcases List.mem_cons.mp h with h | h
        · omega
        · have := ih x h; omega
      · have := ih x h; omega
  have stable : ∀ j x, x < j → ∀ j', j ≤ j' → (x ∈ K j ↔ x ∈ K j') := by
    intro j x hx j' hj'
    induction hj' with
    | refl => rfl
    | @step i hi ih =>
      have hi : j ≤ i := hi
      rw [ih, succ]
      split
      · rw [List.mem_cons]
        exact ⟨Or.inr, fun h => h.elim (fun h => by omega) id⟩
      · rfl
  show k ∈ K g.nodes.length ↔ k < g.nodes.length ∧ (k = n ∨ ∃ a ∈ argsOf g k, a ∈ K g.nodes.length)
  by_cases hk : k < g.nodes.length
  · rw [← stable (k + 1) k (by omega) g.nodes.length (by omega), succ]
    have hno : k ∉ K k := fun h => absurd (bound k k h) (by omega)
    have hex : (∃ a ∈ argsOf g k, a ∈ K k) ↔ ∃ a ∈ argsOf g k, a ∈ K g.nodes.length := by
      constructor
      · rintro ⟨a, h1, h2⟩; exact ⟨a, h1, (stable k a (lt k a h1) g.nodes.length (by omega)).mp h2⟩
      · rintro ⟨a, h1, h2⟩; exact ⟨a, h1, (stable k a (lt k a h1) g.nodes.length (by omega)).mpr h2⟩
    rw [← hex]
    split
    · next c => simp [hk, c]
    · next c => simp [hno, hk, c]
  · constructor
    · intro h; exact absurd (bound _ _ h) hk
    · intro h; exact absurd h.1 hk

theorem delete_ok {n : Nat} {g g' : St} (h : delete n g = .ok g') :
    g.alive n = true ∧ g' = { g with alive := fun k => g.alive k && decide (k ∉ killed g n) } := by
  unfold delete at h
  split at h
  · next c => cases h; exact ⟨c, rfl⟩
  · cases h

theorem delete_winv {n : Nat} {g g' : St} (i : WInv g) (h : delete n g = .ok g') : WInv g' := by
  obtain ⟨_, rfl⟩ := delete_ok h
  have al : ∀ k, (g.alive k && decide (k ∉ killed g n)) = true → g.alive k = true ∧ k ∉ killed g n := by
    intro k h; simpa using h
  refine ⟨fun k h => i.alive_lt k (al k h).1, i.args_lt, ?_, i.orig_lt, i.orig_args, i.keys, i.leafjac, i.got, i.opargs⟩
  intro k a h hm
  obtain ⟨h1, h2⟩ := al k h
  have ha := i.args_alive k a h1 hm
  have : a ∉ killed g n := by
    intro c
    exact h2 ((killed_mem i.args_lt n k).mpr ⟨i.alive_lt k h1, Or.inr ⟨a, hm, c⟩⟩)
  show (g.alive a && decide (a ∉ killed g n)) = true
  simp [ha, this]

theorem setGot_false {g : St} {n v k u : Nat} (h : (setGot n v false g).got k u = true) : g.got k u = true := by
  simp only [setGot, upd] at h
  split at h
  · next c =>
    unfold upd at h
    split at h
    · cases h
    · rw [c]; exact h
  · exact h

theorem forget_winv {g : St} {n v : Nat} (i : WInv g) : WInv (setGot n v false g) :=
  ⟨i.alive_lt, i.args_lt, i.args_alive, i.orig_lt, i.orig_args, i.keys, i.leafjac, fun k u h => i.got k u (setGot_false h), i.opargs⟩

theorem clone_ok {n : Nat} {g g' : St} (h : clone n g = .ok g') : g.alive n = true ∧
    ((∃ args hd, g.nodes[n]? = some (.op args hd) ∧ backUndefined g n = false ∧ g' = cloneOp args hd n g) ∨
     ((∀ args hd, g.nodes[n]? ≠ some (.op args hd)) ∧ g' = newLeaf g)) := by
  unfold clone at h
  split at h
  · next c =>
    refine ⟨c, ?_⟩
    split at h
    · next args hd e =>
      split at h
      · cases h
      · next c' => cases h; exact Or.inl ⟨args, hd, e, by simpa using c', rfl⟩
    · next hne =>
      cases h; exact Or.inr ⟨fun a b e => hne a b e, rfl⟩
  · cases h

theorem move_ok {n : Nat} {g g' : St} (i : WInv g) (h : move n g = .ok g') : g.alive n = true ∧
    ((∃ args hd, g.nodes[n]? = some (.op args hd) ∧ backUndefined g n = false ∧ g' = moveOp hd n g) ∨
     (g.nodes[n]? = some .leaf ∧ g' = moveLeaf n g)) := by
  unfold move at h
  split at h
  · next c =>
    refine ⟨c, ?_⟩
    split at h
    · next args hd e =>
      split at h
      · cases h
      · next c' => cases h; exact Or.inl ⟨args, hd, e, by simpa using c', rfl⟩
    · next hne =>
      cases h
      refine Or.inr ⟨?_, rfl⟩
      have nl := i.alive_lt n c
      cases e : g.nodes[n]? with
      | none => rw [List.getElem?_eq_none_iff] at e; omega
      | some x =>
        cases x with
        | leaf => rfl
        | op as b => exact absurd e (hne as b)
  · cases h

theorem step_winv {c : Call} {g g' : St} (i : WInv g) (h : step c g = .ok g') : WInv g' := by
  cases c with
  | newLeaf => cases h; exact newLeaf_winv i
  | newOp args hd ig own => exact newOp_winv i h
  | clone n =>
    obtain ⟨al, ⟨args, hd, e, _, rfl⟩ | ⟨_, rfl⟩⟩ := clone_ok h
    · exact cloneOp_winv i al e
    · exact newLeaf_winv i
  | move n =>
    obtain ⟨al, ⟨args, hd, e, _, rfl⟩ | ⟨e, rfl⟩⟩ := move_ok i h
    · exact moveOp_winv i
    · exact moveLeaf_winv i e
  | delete n => exact delete_winv i h
  | derive n v => exact i.ext (derive_ext i h).1
  | forget n v => cases h; exact forget_winv i

theorem empty_winv : WInv St.empty := by
  refine ⟨?_, ?_, ?_, ?_, ?_, ?_, ?_, ?_, ?_⟩ <;> simp [St.empty, argsOf]

theorem run_winv (cs : List Call) : ∀ {g g' : St}, WInv g → run cs g = .ok g' → WInv g' := by
  induction cs with
  | nil => intro g g' i h; cases h; exact i
  | cons c cs ih =>
    intro g g' i h
    obtain ⟨g1, h1, h2⟩ := Outcome.bind_eq_ok.1 h
    exact ih (step_winv i h1) h2

/-- The nodes only grow. -/
theorem step_nodes {c : Call} {g g' : St} (i : WInv g) (h : step c g = .ok g') : ∃ l, g'.nodes = g.nodes ++ l := by
  cases c with
  | newLeaf => cases h; exact ⟨_, rfl⟩
  | newOp args hd ig own => obtain ⟨_, _, rfl⟩ := newOp_ok h; exact ⟨_, rfl⟩
  | clone n =>
    obtain ⟨_, ⟨args, hd, e, _, rfl⟩ | ⟨_, rfl⟩⟩ := clone_ok h
    · exact ⟨_, rfl⟩
    · exact ⟨_, rfl⟩
  | move n =>
    obtain ⟨_, ⟨args, hd, e, _, rfl⟩ | ⟨_, rfl⟩⟩ := move_ok i h
    · exact ⟨_, rfl⟩
    · exact ⟨_, rfl⟩
  | delete n => obtain ⟨_, rfl⟩ := delete_ok h; exact ⟨[], by simp⟩
  | derive n v => exact ⟨[], by rw [(derive_ext i h).1.nodes]; simp⟩
  | forget n v => cases h; exact ⟨[], by simp [setGot]⟩

end Jacs
end Verif
