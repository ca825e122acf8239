import Verif.Lemmas.JacsSafe
import Mathlib.Data.List.Induction
/-!
# The Jacobian list an operation is born with
-/
namespace Verif.Jacs
open React (upd forEach)
open Spec

/-- Nothing to take. -/
theorem fold_none {g : St} {v : Nat} (as : List Nat) {t : Option JList} (h : ∀ a ∈ as, ∀ j, g.jac a v = some j → j.list = []) :
    as.foldl (fun t a => takeArg t (g.jac a v)) t = t := by
  induction as generalizing t with
  | nil => rfl
  | cons a as ih =>
    rw [List.foldl_cons]
    have : takeArg t (g.jac a v) = t := by
      unfold takeArg
      split
      · rfl
      · next j e => rw [if_pos (h a (by simp) j e)]
    rw [this]
    exact ih (fun b hb => h b (by simp [hb]))

/-- Lists of the same origin do not change what was taken. -/
theorem fold_same {g : St} {v : Nat} (as : List Nat) {t : JList} (h : ∀ a ∈ as, ∀ j, g.jac a v = some j → j.list = [] ∨ j.uid = t.uid) :
    as.foldl (fun t a => takeArg t (g.jac a v)) (some t) = some t := by
  induction as with
  | nil => rfl
  | cons a as ih =>
    rw [List.foldl_cons]
    have : takeArg (some t) (g.jac a v) = some t := by
      unfold takeArg
      split
      · rfl
      · next j e =>
        split
        · rfl
        · next ne =>
          rcases h a (by simp) j e with c | c
          · exact absurd c ne
          · simp [c]
    rw [this]
    exact ih (fun b hb => h b (by simp [hb]))

/-- What was taken keeps its origin. -/
theorem fold_uid {g : St} {v : Nat} (as : List Nat) : ∀ {t : JList}, ∃ t', as.foldl (fun t a => takeArg t (g.jac a v)) (some t) = some t' ∧
    t'.uid = t.uid ∧ ((t.list = [] ∧ t.terminal = true) → t'.list = [] ∧ t'.terminal = true) := by
  induction as with
  | nil => exact ⟨_, rfl, rfl, id⟩
  | cons a as ih =>
    intro t
    rw [List.foldl_cons]
    have : ∃ t1, takeArg (some t) (g.jac a v) = some t1 ∧ t1.uid = t.uid ∧ ((t.list = [] ∧ t.terminal = true) → t1.list = [] ∧ t1.terminal = true) := by
      unfold takeArg
      split
      · exact ⟨t, rfl, rfl, id⟩
      · next j e =>
        split
        · exact ⟨t, rfl, rfl, id⟩
        · dsimp only
          split
          · exact ⟨_, rfl, rfl, fun _ => ⟨rfl, rfl⟩⟩
          · exact ⟨_, rfl, rfl, id⟩
    obtain ⟨t1, h1, h2, h3⟩ := this
    rw [h1]
    obtain ⟨t2, h4, h5, h6⟩ := ih (t := t1)
    exact ⟨t2, h4, h5.trans h2, fun c => h6 (h3 c)⟩

/-- One list of another origin is enough to clear what was taken. -/
theorem fold_other {g : St} {v : Nat} (as : List Nat) : ∀ {t : JList}, (∃ a ∈ as, ∃ j, g.jac a v = some j ∧ j.list ≠ [] ∧ j.uid ≠ t.uid) →
    ∃ t', as.foldl (fun t a => takeArg t (g.jac a v)) (some t) = some t' ∧ t'.list = [] ∧ t'.terminal = true := by
  induction as with
  | nil => rintro t ⟨a, ha, _⟩; cases ha
  | cons b as ih =>
    rintro t ⟨a, ha, j, h1, h2, h3⟩
    rw [List.foldl_cons]
    rcases List.mem_cons.1 ha with rfl | ha'
    · have : takeArg (some t) (g.jac a v) = some { t with list := [], terminal := true } := by
        unfold takeArg
        rw [h1]
        simp [h2, h3]
      rw [this]
      obtain ⟨t', h4, _, h6⟩ := fold_uid (g := g) (v := v) as (t := { t with list := [], terminal := true })
      exact ⟨t', h4, h6 ⟨rfl, rfl⟩⟩
    · obtain ⟨t1, h4, h5, _⟩ := fold_uid (g := g) (v := v) [b] (t := t)
      rw [List.foldl_cons, List.foldl_nil] at h4
      rw [h4]
      exact ih ⟨a, ha', j, h1, h2, by rw [h5]; exact h3⟩

/-- The first list taken, then the rest. -/
theorem fold_first {g : St} {v : Nat} (as : List Nat) (h : ∃ a ∈ as, ∃ j, g.jac a v = some j ∧ j.list ≠ []) :
    ∃ pre a post j, as = pre ++ a :: post ∧ (∀ b ∈ pre, ∀ j, g.jac b v = some j → j.list = []) ∧ g.jac a v = some j ∧ j.list ≠ [] ∧
      as.foldl (fun t a => takeArg t (g.jac a v)) none = post.foldl (fun t a => takeArg t (g.jac a v)) (some { j with terminal := false }) := by
  induction as with
  | nil => obtain ⟨a, ha, _⟩ := h; cases ha
  | cons b as ih =>
    by_cases hb : ∃ j, g.jac b v = some j ∧ j.list ≠ []
    · obtain ⟨j, h1, h2⟩ := hb
      refine ⟨[], b, as, j, rfl, (fun _ hx => by cases hx), h1, h2, ?_⟩
      rw [List.foldl_cons]
      have : takeArg none (g.jac b v) = some { j with terminal := false } := by
        unfold takeArg; rw [h1]; simp [h2]
      rw [this]
    · have hb' : ∀ j, g.jac b v = some j → j.list = [] := fun j h1 => by
        by_contra c; exact hb ⟨j, h1, c⟩
      obtain ⟨a, ha, j, h1, h2⟩ := h
      have ha' : a ∈ as := by
        rcases List.mem_cons.1 ha with rfl | h3
        · exact absurd (hb' j h1) h2
        · exact h3
      obtain ⟨pre, c, post, jc, e1, e2, e3, e4, e5⟩ := ih ⟨a, ha', j, h1, h2⟩
      refine ⟨b :: pre, c, post, jc, by rw [e1]; rfl, ?_, e3, e4, ?_⟩
      · intro x hx
        rcases List.mem_cons.1 hx with rfl | hx
        · exact hb'
        · exact e2 x hx
      · rw [List.foldl_cons]
        have : takeArg none (g.jac b v) = none := by
          unfold takeArg
          split
          · rfl
          · next j e => rw [if_pos (hb' j e)]
        rw [this]
        exact e5

/-- An argument seen twice counts once. -/
theorem fold_again {g : St} {v : Nat} {xs : List Nat} {x : Nat} (hx : x ∈ xs) :
    takeArg (xs.foldl (fun t a => takeArg t (g.jac a v)) none) (g.jac x v) = xs.foldl (fun t a => takeArg t (g.jac a v)) none := by
  by_cases hb : ∃ j, g.jac x v = some j ∧ j.list ≠ []
  · obtain ⟨jx, h1, h2⟩ := hb
    obtain ⟨pre, a, post, j, e1, e2, e3, e4, e5⟩ := fold_first xs ⟨x, hx, jx, h1, h2⟩
    rw [e5]
    obtain ⟨t, h3, h4, _⟩ := fold_uid (g := g) (v := v) post (t := { j with terminal := false })
    rw [h3, h1]
    unfold takeArg
    dsimp only
    rw [if_neg h2]
    split
    · next ne =>
      rw [h4] at ne
      have hp : x ∈ post := by
        rw [e1] at hx
        rcases List.mem_append.1 hx with c | c
        · exact absurd (e2 x c jx h1) h2
        · rcases List.mem_cons.1 c with c | c
          · subst c; rw [e3] at h1; cases h1; exact absurd rfl ne
          · exact c
      obtain ⟨t', h5, h6, h7⟩ := fold_other (g := g) (v := v) post (t := { j with terminal := false }) ⟨x, hp, jx, h1, h2, ne⟩
      rw [h3] at h5; cases h5
      cases t; simp_all
    · rfl
  · unfold takeArg
    split
    · rfl
    · next j e =>
      rw [if_pos]
      by_contra c
      exact hb ⟨j, e, c⟩

theorem inherited_eq (g : St) (args : List Nat) (v : Nat) : inherited g args v = args.foldl (fun t a => takeArg t (g.jac a v)) none := by
  unfold inherited
  induction args using List.reverseRecOn with
  | nil => rfl
  | append_singleton xs x ih =>
    rw [List.reverse_append, List.reverse_singleton, List.singleton_append, List.foldl_append, List.foldl_cons, List.foldl_nil]
    by_cases hx : x ∈ xs
    · rw [List.dedup_cons_of_mem (by simpa using hx), ih, fold_again hx]
    · rw [List.dedup_cons_of_notMem (by simpa using hx), List.reverse_cons, List.foldl_append, List.foldl_cons, List.foldl_nil, ih]

/-! ### Fresh lists -/

def UInv (g : St) : Prop := ∀ k v j, g.jac k v = some j → j.uid < g.uid

theorem forEach_pres {α : Type} {P : St → Prop} {body : α → St → Outcome St} (hb : ∀ x g g', P g → body x g = .ok g' → P g') (xs : List α) :
    ∀ {g g' : St}, P g → forEach body xs g = .ok g' → P g' := by
  induction xs with
  | nil => intro g g' h e; cases e; exact h
  | cons x xs ih =>
    intro g g' h e
    obtain ⟨g1, h1, h2⟩ := Outcome.bind_eq_ok.1 e
    exact ih (hb x g g1 h h1) h2

theorem touch_uinv {g : St} (u : UInv g) (n v : Nat) : UInv (touch n v g) := by
  unfold touch
  split
  · exact u
  · intro k w j h
    show j.uid < g.uid + 1
    replace h : upd g.jac n (upd (g.jac n) v (some ⟨g.uid, [], false⟩)) k w = some j := h
    rw [leaves_eq] at h
    split at h
    · rw [leaves_eq] at h
      split at h
      · cases h; show g.uid < _; omega
      · have := u n w j h; omega
    · have := u k w j h; omega

theorem applyEntry_uinv {rec : Nat → St → Outcome St} (hr : ∀ a g g', UInv g → rec a g = .ok g' → UInv g') (e : Entry) (g g' : St) (u : UInv g)
    (h : applyEntry rec e g = .ok g') : UInv g' := by
  unfold applyEntry at h
  split at h
  · split at h
    · exact forEach_pres hr _ u h
    · cases h
  · cases h

theorem jacobianCall_uinv {rec : Nat → St → Outcome St} (hr : ∀ a g g', UInv g → rec a g = .ok g' → UInv g') {n v : Nat} {g g' : St} (u : UInv g)
    (h : jacobianCall rec n v g = .ok g') : UInv g' := by
  unfold jacobianCall at h
  split at h
  · cases h; exact u
  · exact forEach_pres (applyEntry_uinv hr) _ u h

theorem gradient_uinv {v : Nat} : ∀ (f n : Nat) (g g' : St), UInv g → gradient f v n g = .ok g' → UInv g' := by
  intro f
  induction f with
  | zero => intro n g g' _ h; cases h
  | succ f ih =>
    intro n g g' u h
    unfold gradient at h
    split at h
    · split at h
      · obtain ⟨g1, h1, h2⟩ := Outcome.bind_eq_ok.1 h
        cases h2
        have : UInv g1 := by
          refine forEach_pres (P := UInv) ?_ _ u h1
          intro a g g' u h
          unfold backArg at h
          split at h
          · obtain ⟨g2, h3, h4⟩ := Outcome.bind_eq_ok.1 h
            exact jacobianCall_uinv ih (ih a _ _ (touch_uinv u n v) h3) h4
          · exact ih a _ _ (touch_uinv u n v) h
        exact this
      · cases h; exact u
    · cases h

theorem derive_uinv {n v : Nat} {g g' : St} (u : UInv g) (h : derive n v g = .ok g') : UInv g' := by
  obtain ⟨g1, h1, h2⟩ := Outcome.bind_eq_ok.1 h
  exact jacobianCall_uinv (gradient_uinv _) (gradient_uinv _ _ _ _ u h1) h2

theorem takeArg_uinv {g : St} (u : UInv g) {a v : Nat} {t : Option JList} (ht : ∀ j, t = some j → j.uid < g.uid) :
    ∀ j, takeArg t (g.jac a v) = some j → j.uid < g.uid := by
  intro j h
  unfold takeArg at h
  split at h
  · exact ht j h
  · next k e =>
    split at h
    · exact ht j h
    · split at h
      · cases h; exact u a v k e
      · split at h
        · next t _ => cases h; exact ht t rfl
        · cases h; exact ht _ rfl

theorem inherited_uinv {g : St} (u : UInv g) (args : List Nat) (v : Nat) : ∀ j, inherited g args v = some j → j.uid < g.uid := by
  have : ∀ (as : List Nat) (t : Option JList), (∀ j, t = some j → j.uid < g.uid) →
      ∀ j, as.foldl (fun t a => takeArg t (g.jac a v)) t = some j → j.uid < g.uid := by
    intro as
    induction as with
    | nil => intro t h j; exact h j
    | cons a as ih => intro t h j; exact ih _ (takeArg_uinv u h) j
  exact this _ none (fun j h => by cases h)

theorem ite_inherited_uinv {g : St} (u : UInv g) {c : Prop} [Decidable c] (args : List Nat) (v : Nat) :
    ∀ j, (if c then none else inherited g args v) = some j → j.uid < g.uid := by
  intro j h
  split at h
  · cases h
  · exact inherited_uinv u args v j h

theorem bornJac_uinv {g : St} (u : UInv g) {args : List Nat} {hd : Bool} {ig : Option Nat} {own : Option Own} {v : Nat} {j : JList}
    (h : bornJac g args hd ig own v = some j) : j.uid < g.uid + 1 := by
  unfold bornJac at h
  split at h
  · split at h
    · have := ite_inherited_uinv u args v j h; omega
    · unfold pushOwn at h
      split at h
      · cases h; show g.uid < _; omega
      · next t e => cases h; have := ite_inherited_uinv u args v t e; exact Nat.lt_succ_of_lt this
  · cases h

theorem step_uinv {c : Call} {g g' : St} (i : WInv g) (u : UInv g) (h : step c g = .ok g') : UInv g' := by
  cases c with
  | newLeaf =>
    cases h
    intro k v j h
    replace h : upd g.jac g.nodes.length (fun _ => none) k v = some j := h
    rw [leaves_eq] at h
    split at h
    · cases h
    · exact u k v j h
  | newOp args hd ig own =>
    obtain ⟨_, _, _, rfl⟩ := newOp_ok h
    intro k v j h
    replace h : upd g.jac g.nodes.length (bornJac g args hd ig own) k v = some j := h
    rw [leaves_eq] at h
    show j.uid < g.uid + 1
    split at h
    · exact bornJac_uinv u h
    · have := u k v j h; omega
  | clone n =>
    obtain ⟨_, ⟨args, hd, _, _, rfl⟩ | ⟨_, rfl⟩⟩ := clone_ok h
    · intro k v j h
      replace h : upd g.jac g.nodes.length _ k v = some j := h
      rw [leaves_eq] at h
      split at h
      · obtain ⟨t, h1, h2⟩ := Option.map_eq_some_iff.1 h
        cases h2
        exact u n v t h1
      · exact u k v j h
    · intro k v j h
      replace h : upd g.jac g.nodes.length (fun _ => none) k v = some j := h
      rw [leaves_eq] at h
      split at h
      · cases h
      · exact u k v j h
  | move n =>
    obtain ⟨_, ⟨args, hd, _, _, rfl⟩ | ⟨_, rfl⟩⟩ := move_ok i h
    · intro k v j h
      show j.uid < g.uid
      unfold moveOp at h
      dsimp only at h
      rw [leaves_eq] at h
      split at h
      · cases h
      · obtain ⟨t, h1, h2⟩ := Option.map_eq_some_iff.1 h
        cases h2
        exact u k v t h1
    · intro k v j h
      show j.uid < g.uid
      rw [moveLeaf_jac_eq] at h
      split at h
      · cases h
      · split at h
        · cases h
        · split at h
          · exact u _ _ j h
          · exact u _ _ j h
  | delete n =>
    obtain ⟨_, rfl⟩ := delete_ok h
    exact u
  | derive n v => exact derive_uinv u h
  | forget n v => cases h; exact u

theorem run_uinv (cs : List Call) : ∀ {g g' : St}, WInv g → UInv g → run cs g = .ok g' → UInv g' := by
  induction cs with
  | nil => intro g g' _ u h; cases h; exact u
  | cons c cs ih =>
    intro g g' i u h
    obtain ⟨g1, h1, h2⟩ := Outcome.bind_eq_ok.1 h
    exact ih (step_winv i h1) (step_uinv i u h1) h2

theorem empty_uinv : UInv St.empty := fun k v j h => by cases h

end Verif.Jacs
