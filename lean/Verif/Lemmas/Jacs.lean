import Verif.Spec.Jacs
/-!
# Invariants of the Jacobian lists
-/
namespace Verif
namespace Jacs
open React (upd forEach)
open Spec

theorem _root_.Verif.Spec.Under.trans {ns : List Node} {a b c : Nat} (h : Under ns a b) (h' : Under ns b c) : Under ns a c := by
  induction h with
  | refl => exact h'
  | arg e m _ ih => exact .arg e m (ih h')

theorem _root_.Verif.Spec.Under.append {ns : List Node} {a b : Nat} (h : Under ns a b) (l : List Node) : Under (ns ++ l) a b := by
  induction h with
  | refl => exact .refl _
  | @arg n a m args b e hm _ ih =>
    have : n < ns.length := by
      by_contra c; rw [List.getElem?_eq_none (by omega)] at e; cases e
    exact .arg (by rw [List.getElem?_append_left this]; exact e) hm ih

theorem argsOf_eq {g : St} {n : Nat} {args : List Nat} {h : Bool} (e : g.nodes[n]? = some (.op args h)) : argsOf g n = args := by
  simp [argsOf, e, Node.args]

theorem argsOf_mem {g : St} {n a : Nat} (h : a ∈ argsOf g n) : ∃ args b, g.nodes[n]? = some (.op args b) ∧ a ∈ args := by
  unfold argsOf at h
  cases e : g.nodes[n]? with
  | none => rw [e] at h; simp at h
  | some x =>
    rw [e] at h
    cases x with
    | leaf => simp [Node.args] at h
    | op as b => exact ⟨as, b, rfl, by simpa [Node.args] using h⟩

theorem argsOf_congr {g g' : St} (h : g'.nodes = g.nodes) (n : Nat) : argsOf g' n = argsOf g n := by
  unfold argsOf; rw [h]

theorem argsOf_push {g g' : St} {d : Node} (h : g'.nodes = g.nodes ++ [d]) (n : Nat) :
    argsOf g' n = if n = g.nodes.length then d.args else argsOf g n := by
  unfold argsOf; rw [h]
  split
  · next e => subst e; simp
  · next e =>
    by_cases hl : n < g.nodes.length
    · rw [List.getElem?_append_left hl]
    · rw [List.getElem?_append_right (by omega), List.getElem?_eq_none (l := g.nodes) (by omega)]
      have : n - g.nodes.length ≠ 0 := by omega
      cases h' : n - g.nodes.length with
      | zero => omega
      | succ k => simp

theorem below_arg {g : St} {n a : Nat} (h : a ∈ argsOf g n) : Under g.nodes n a := by
  obtain ⟨args, b, e, hm⟩ := argsOf_mem h
  exact .arg e hm (.refl _)

theorem argsOf_big {g : St} {n : Nat} (h : g.nodes.length ≤ n) : argsOf g n = [] := by
  unfold argsOf; rw [List.getElem?_eq_none h]; rfl

/-- What every history keeps. -/
structure WInv (g : St) : Prop where
  alive_lt : ∀ n, g.alive n = true → n < g.nodes.length
  args_lt : ∀ n a, a ∈ argsOf g n → a < n
  args_alive : ∀ n a, g.alive n = true → a ∈ argsOf g n → g.alive a = true
  orig_lt : ∀ n v j e, g.jac n v = some j → e ∈ j.list → e.orig < g.nodes.length
  orig_args : ∀ n v j e a, g.jac n v = some j → e ∈ j.list → a ∈ argsOf g e.orig → a < n ∧ Under g.nodes n a
  keys : ∀ n v j, g.jac n v = some j → v ∈ g.leaves n
  leafjac : ∀ n v j, g.jac n v = some j → n < g.nodes.length ∧ g.nodes[n]? ≠ some .leaf
  got : ∀ n v, g.got n v = true → ∃ j, g.jac n v = some j
  opargs : ∀ n h, g.nodes[n]? = some (.op [] h) → g.leaves n = []

/-- The entry can be used: its operation is there and has the arguments it reads. -/
def Usable (g : St) (e : Entry) : Prop := g.alive e.orig = true ∧ e.reads ≤ (argsOf g e.orig).length

def Safe (g : St) (n : Nat) : Prop := ∀ v j e, g.jac n v = some j → e ∈ j.list → Usable g e

/-- What taking the gradient of `n` for `v` may change. -/
structure Ext (v n : Nat) (g g' : St) : Prop where
  nodes : g'.nodes = g.nodes
  alive : g'.alive = g.alive
  leaves : g'.leaves = g.leaves
  keep : ∀ k u j, g.jac k u = some j → g'.jac k u = some j
  fresh : ∀ k u j, g'.jac k u = some j → g.jac k u = some j ∨
    (u = v ∧ Under g.nodes n k ∧ v ∈ g.leaves k ∧ (k < g.nodes.length ∧ g.nodes[k]? ≠ some .leaf) ∧ j.list = [] ∧ j.terminal = false)
  got : ∀ k u, g'.got k u = true → g.got k u = true ∨ ∃ j, g'.jac k u = some j

theorem Ext.refl (v n : Nat) (g : St) : Ext v n g g :=
  ⟨rfl, rfl, rfl, fun _ _ _ h => h, fun _ _ _ h => Or.inl h, fun _ _ h => Or.inl h⟩

theorem Ext.trans {v n : Nat} {g g' g'' : St} (a : Ext v n g g') (b : Ext v n g' g'') : Ext v n g g'' := by
  refine ⟨b.nodes.trans a.nodes, b.alive.trans a.alive, b.leaves.trans a.leaves, fun k u j h => b.keep k u j (a.keep k u j h), ?_, ?_⟩
  · intro k u j h
    rcases b.fresh k u j h with h | h
    · exact a.fresh k u j h
    · rw [a.nodes, a.leaves] at h
      exact Or.inr h
  · intro k u h
    rcases b.got k u h with h | h
    · rcases a.got k u h with h | ⟨j, h⟩
      · exact Or.inl h
      · exact Or.inr ⟨j, b.keep k u j h⟩
    · exact Or.inr h

theorem Ext.up {v n a : Nat} {g g' : St} (h : Ext v a g g') (hb : Under g.nodes n a) : Ext v n g g' := by
  refine ⟨h.nodes, h.alive, h.leaves, h.keep, ?_, h.got⟩
  intro k u j hj
  rcases h.fresh k u j hj with h' | ⟨h1, h2, h3⟩
  · exact Or.inl h'
  · exact Or.inr ⟨h1, hb.trans h2, h3⟩

theorem Ext.list {v n : Nat} {g g' : St} (h : Ext v n g g') {k u : Nat} {j : JList} {e : Entry} (hj : g'.jac k u = some j) (he : e ∈ j.list) :
    g.jac k u = some j := by
  rcases h.fresh k u j hj with h' | ⟨_, _, _, _, h5, _⟩
  · exact h'
  · rw [h5] at he; simp at he

theorem WInv.ext {v n : Nat} {g g' : St} (i : WInv g) (h : Ext v n g g') : WInv g' := by
  have ha : ∀ k, argsOf g' k = argsOf g k := argsOf_congr h.nodes
  refine ⟨?_, ?_, ?_, ?_, ?_, ?_, ?_, ?_, ?_⟩
  · intro k hk; rw [h.nodes]; exact i.alive_lt k (by rw [← h.alive]; exact hk)
  · intro k a hk; rw [ha] at hk; exact i.args_lt k a hk
  · intro k a hk hm; rw [ha] at hm; rw [h.alive] at hk ⊢; exact i.args_alive k a hk hm
  · intro k u j e hj he
    rw [h.nodes]; exact i.orig_lt k u j e (h.list hj he) he
  · intro k u j e a hj he hm
    rw [ha] at hm
    rw [h.nodes]; exact i.orig_args k u j e a (h.list hj he) he hm
  · intro k u j hj
    rw [h.leaves]
    rcases h.fresh k u j hj with h' | ⟨h1, _, h3, _⟩
    · exact i.keys k u j h'
    · rw [h1]; exact h3
  · intro k u j hj
    rw [h.nodes]
    rcases h.fresh k u j hj with h' | ⟨_, _, _, h4, _⟩
    · exact i.leafjac k u j h'
    · exact h4
  · intro k u hk
    rcases h.got k u hk with h' | h'
    · obtain ⟨j, hj⟩ := i.got k u h'
      exact ⟨j, h.keep k u j hj⟩
    · exact h'
  · intro k b hk; rw [h.nodes] at hk; rw [h.leaves]; exact i.opargs k b hk

theorem Usable.ext {v n : Nat} {g g' : St} (h : Ext v n g g') (e : Entry) : Usable g' e ↔ Usable g e := by
  unfold Usable; rw [h.alive, argsOf_congr h.nodes]

theorem Safe.ext {v n k : Nat} {g g' : St} (h : Ext v n g g') (s : Safe g k) : Safe g' k := by
  intro u j e hj he
  exact (Usable.ext h e).mpr (s u j e (h.list hj he) he)

theorem touch_ext {g : St} {n v : Nat} (hv : v ∈ g.leaves n) (hl : n < g.nodes.length ∧ g.nodes[n]? ≠ some .leaf) :
    Ext v n g (touch n v g) ∧ ∃ j, (touch n v g).jac n v = some j := by
  unfold touch
  split
  · next j hj => exact ⟨Ext.refl _ _ _, j, hj⟩
  · next hj =>
    have hjac : ∀ k u, upd g.jac n (upd (g.jac n) v (some ⟨g.uid, [], false⟩)) k u = if k = n ∧ u = v then some ⟨g.uid, [], false⟩ else g.jac k u := by
      intro k u
      by_cases hk : k = n
      · subst hk
        by_cases hu : u = v
        · simp [upd, hu]
        · simp [upd, hu]
      · simp [upd, hk]
    refine ⟨⟨rfl, rfl, rfl, ?_, ?_, fun _ _ h => Or.inl h⟩, ⟨g.uid, [], false⟩, ?_⟩
    · intro k u j h
      show upd g.jac n (upd (g.jac n) v (some ⟨g.uid, [], false⟩)) k u = some j
      rw [hjac, if_neg]
      · exact h
      · rintro ⟨rfl, rfl⟩; rw [hj] at h; cases h
    · intro k u j h
      replace h : upd g.jac n (upd (g.jac n) v (some ⟨g.uid, [], false⟩)) k u = some j := h
      rw [hjac] at h
      split at h
      · next c =>
        obtain ⟨rfl, rfl⟩ := c
        cases h
        exact Or.inr ⟨rfl, .refl _, hv, hl, rfl, rfl⟩
      · exact Or.inl h
    · show upd g.jac n (upd (g.jac n) v (some ⟨g.uid, [], false⟩)) n v = _
      rw [hjac, if_pos ⟨rfl, rfl⟩]

/-! ### What a gradient changes -/

theorem forEach_ext {α : Type} {v n : Nat} {body : α → St → Outcome St} (xs : List α)
    (hb : ∀ x ∈ xs, ∀ g g', WInv g → body x g = .ok g' → Ext v n g g') :
    ∀ {g g' : St}, WInv g → forEach body xs g = .ok g' → Ext v n g g' := by
  induction xs with
  | nil => intro g g' _ h; cases h; exact Ext.refl _ _ _
  | cons x xs ih =>
    intro g g' i h
    obtain ⟨g1, h1, h2⟩ := Outcome.bind_eq_ok.1 h
    have e1 := hb x (by simp) g g1 i h1
    exact e1.trans (ih (fun y hy => hb y (by simp [hy])) (i.ext e1) h2)

/-- The same with the nodes fixed. -/
theorem forEach_ext' {α : Type} {v n : Nat} {ns : List Node} {body : α → St → Outcome St} (xs : List α)
    (hb : ∀ x ∈ xs, ∀ g g', WInv g → g.nodes = ns → body x g = .ok g' → Ext v n g g') :
    ∀ {g g' : St}, WInv g → g.nodes = ns → forEach body xs g = .ok g' → Ext v n g g' := by
  induction xs with
  | nil => intro g g' _ _ h; cases h; exact Ext.refl _ _ _
  | cons x xs ih =>
    intro g g' i hn h
    obtain ⟨g1, h1, h2⟩ := Outcome.bind_eq_ok.1 h
    have e1 := hb x (by simp) g g1 i hn h1
    exact e1.trans (ih (fun y hy => hb y (by simp [hy])) (i.ext e1) (e1.nodes.trans hn) h2)

theorem jacobianCall_ext {v n : Nat} {rec : Nat → St → Outcome St} (hr : ∀ a g g', WInv g → rec a g = .ok g' → Ext v a g g')
    {g g' : St} (i : WInv g) (h : jacobianCall rec n v g = .ok g') : Ext v n g g' := by
  unfold jacobianCall at h
  split at h
  · cases h; exact Ext.refl _ _ _
  · next j hj =>
    refine forEach_ext' (ns := g.nodes) j.list.reverse ?_ i rfl h
    intro e he g1 g2 i1 hn h1
    unfold applyEntry at h1
    split at h1
    · split at h1
      · refine forEach_ext' (ns := g.nodes) _ ?_ i1 hn h1
        intro a ha g3 g4 i3 hn3 h3
        have hb : Under g.nodes n a := (i.orig_args n v j e a hj (List.mem_reverse.mp he) (by
          rw [argsOf_congr hn] at ha; exact ha)).2
        exact (hr a g3 g4 i3 h3).up (by rw [hn3]; exact hb)
      · cases h1
    · cases h1

theorem setGot_ext {g : St} {n v : Nat} (h : ∃ j, g.jac n v = some j) : Ext v n g (setGot n v true g) := by
  refine ⟨rfl, rfl, rfl, fun _ _ _ h => h, fun _ _ _ h => Or.inl h, ?_⟩
  intro k u hk
  by_cases c : k = n ∧ u = v
  · obtain ⟨rfl, rfl⟩ := c; exact Or.inr h
  · left
    simp only [setGot, upd] at hk
    split at hk
    · next c1 =>
      unfold upd at hk
      split at hk
      · next c2 => exact absurd ⟨c1, c2⟩ c
      · rw [c1]; exact hk
    · exact hk

theorem backArg_ext {v n a : Nat} {rec : Nat → St → Outcome St} (hr : ∀ a g g', WInv g → rec a g = .ok g' → Ext v a g g')
    {g g' : St} (i : WInv g) (hv : v ∈ g.leaves n) (hl : n < g.nodes.length ∧ g.nodes[n]? ≠ some .leaf) (ha : Under g.nodes n a)
    (h : backArg rec n v a g = .ok g') : Ext v n g g' ∧ ∃ j, g'.jac n v = some j := by
  obtain ⟨t, j, hj⟩ := touch_ext hv hl
  have it := i.ext t
  have hb : Under (touch n v g).nodes n a := by rw [t.nodes]; exact ha
  unfold backArg at h
  split at h
  · obtain ⟨g1, h1, h2⟩ := Outcome.bind_eq_ok.1 h
    have e1 := hr a _ g1 it h1
    have e2 := jacobianCall_ext (n := a) hr (it.ext e1) h2
    have e := t.trans ((e1.trans e2).up hb)
    exact ⟨e, j, (e1.trans e2).keep n v j hj⟩
  · have e1 := hr a _ g' it h
    exact ⟨t.trans (e1.up hb), j, e1.keep n v j hj⟩

theorem forEach_back {v n : Nat} {rec : Nat → St → Outcome St} (hr : ∀ a g g', WInv g → rec a g = .ok g' → Ext v a g g') (xs : List Nat) :
    ∀ {g g' : St}, WInv g → v ∈ g.leaves n → (n < g.nodes.length ∧ g.nodes[n]? ≠ some .leaf) → (∀ a ∈ xs, Under g.nodes n a) →
    forEach (backArg rec n v) xs g = .ok g' → Ext v n g g' ∧ (xs ≠ [] → ∃ j, g'.jac n v = some j) := by
  induction xs with
  | nil => intro g g' _ _ _ _ h; cases h; exact ⟨Ext.refl _ _ _, fun c => absurd rfl c⟩
  | cons x xs ih =>
    intro g g' i hv hl ha h
    obtain ⟨g1, h1, h2⟩ := Outcome.bind_eq_ok.1 h
    obtain ⟨e1, j, hj⟩ := backArg_ext hr i hv hl (ha x (by simp)) h1
    obtain ⟨e2, _⟩ := ih (i.ext e1) (by rw [e1.leaves]; exact hv) (by rw [e1.nodes]; exact hl)
      (fun a hm => by rw [e1.nodes]; exact ha a (by simp [hm])) h2
    exact ⟨e1.trans e2, fun _ => ⟨j, e2.keep n v j hj⟩⟩

theorem gradient_ext {v : Nat} : ∀ (f n : Nat) {g g' : St}, WInv g → gradient f v n g = .ok g' →
    Ext v n g g' ∧ (v ∈ g.leaves n → g.nodes[n]? ≠ some .leaf → ∃ j, g'.jac n v = some j) := by
  intro f
  induction f with
  | zero => intro n g g' _ h; cases h
  | succ f ih =>
    intro n g g' i h
    unfold gradient at h
    split at h
    · next al =>
      split at h
      · next c =>
        obtain ⟨g1, h1, h2⟩ := Outcome.bind_eq_ok.1 h
        cases h2
        have nl : n < g.nodes.length := i.alive_lt n al
        have hne : argsOf g n ≠ [] := by
          intro c0
          cases hd : g.nodes[n]? with
          | none => rw [List.getElem?_eq_none_iff] at hd; omega
          | some x =>
            cases x with
            | leaf => exact c.2.2 hd
            | op as b =>
              rw [argsOf_eq hd] at c0; subst c0
              have := i.opargs n b hd
              rw [this] at c; simp at c
        obtain ⟨e1, hj⟩ := forEach_back (fun a g g' i h => (ih a i h).1) (argsOf g n) i c.1 ⟨nl, c.2.2⟩ (fun a ha => below_arg ha) h1
        obtain ⟨j, hj⟩ := hj hne
        exact ⟨e1.trans (setGot_ext ⟨j, hj⟩), fun _ _ => ⟨j, hj⟩⟩
      · next c =>
        cases h
        refine ⟨Ext.refl _ _ _, fun hv hl => ?_⟩
        have : g.got n v = true := by
          by_contra hg
          exact c ⟨hv, by simpa using hg, hl⟩
        exact i.got n v this
    · cases h

theorem derive_ext {n v : Nat} {g g' : St} (i : WInv g) (h : derive n v g = .ok g') :
    Ext v n g g' ∧ (v ∈ g.leaves n → g.nodes[n]? ≠ some .leaf → ∃ j, g'.jac n v = some j) := by
  obtain ⟨g1, h1, h2⟩ := Outcome.bind_eq_ok.1 h
  obtain ⟨e1, hj⟩ := gradient_ext _ n i h1
  have e2 := jacobianCall_ext (n := n) (fun a g g' i h => (gradient_ext _ a i h).1) (i.ext e1) h2
  refine ⟨e1.trans e2, fun hv hl => ?_⟩
  obtain ⟨j, hj⟩ := hj hv hl
  exact ⟨j, e2.keep n v j hj⟩

/-! ### When a gradient can be taken -/

theorem forEach_total {α : Type} {v n : Nat} {body : α → St → Outcome St} {g0 : St} (xs : List α)
    (hb : ∀ x ∈ xs, ∀ g, WInv g → Ext v n g0 g → ∃ g', body x g = .ok g' ∧ Ext v n g g') :
    ∀ {g : St}, WInv g → Ext v n g0 g → ∃ g', forEach body xs g = .ok g' ∧ Ext v n g g' := by
  induction xs with
  | nil => intro g _ _; exact ⟨g, rfl, Ext.refl _ _ _⟩
  | cons x xs ih =>
    intro g i h
    obtain ⟨g1, h1, e1⟩ := hb x (by simp) g i h
    obtain ⟨g2, h2, e2⟩ := ih (fun y hy => hb y (by simp [hy])) (i.ext e1) (h.trans e1)
    exact ⟨g2, by show (body x g >>= _) = _; rw [h1]; exact h2, e1.trans e2⟩

theorem applyEntry_total {v n f : Nat} {g0 : St} (i0 : WInv g0) {j : JList} (hj : g0.jac n v = some j) {e : Entry} (he : e ∈ j.list)
    (hu : Usable g0 e)
    (hr : ∀ a, a < n → ∀ g, WInv g → Ext v n g0 g → g.alive a = true → ∃ g', gradient f v a g = .ok g') :
    ∀ g, WInv g → Ext v n g0 g → ∃ g', applyEntry (gradient f v) e g = .ok g' ∧ Ext v n g g' := by
  intro g i h
  have hu' := (Usable.ext h e).mpr hu
  unfold applyEntry
  rw [if_pos hu'.1, if_pos hu'.2]
  refine forEach_total (g0 := g0) (argsOf g e.orig) ?_ i h
  intro a ha g1 i1 h1
  have hm : a ∈ argsOf g0 e.orig := by rw [argsOf_congr h.nodes] at ha; exact ha
  obtain ⟨lt, hb⟩ := i0.orig_args n v j e a hj he hm
  obtain ⟨g2, h2⟩ := hr a lt g1 i1 h1 (by rw [h1.alive]; exact i0.args_alive e.orig a hu.1 hm)
  exact ⟨g2, h2, ((gradient_ext _ a i1 h2).1).up (by rw [h1.nodes]; exact hb)⟩

theorem jacobianCall_total {v n f : Nat} {g : St} (i : WInv g) (hu : ∀ j e, g.jac n v = some j → e ∈ j.list → Usable g e)
    (hr : ∀ a, a < n → ∀ g', WInv g' → Ext v n g g' → g'.alive a = true → ∃ g'', gradient f v a g' = .ok g'') :
    ∃ g', jacobianCall (gradient f v) n v g = .ok g' := by
  unfold jacobianCall
  split
  · exact ⟨g, rfl⟩
  · next j hj =>
    obtain ⟨g', h, _⟩ := forEach_total (g0 := g) (v := v) (n := n) j.list.reverse
      (fun e he g1 i1 h1 => applyEntry_total i hj (List.mem_reverse.mp he) (hu j e hj (List.mem_reverse.mp he)) hr g1 i1 h1) i (Ext.refl _ _ _)
    exact ⟨g', h⟩

theorem gradient_total {v : Nat} : ∀ (f n : Nat) (g : St), WInv g → g.alive n = true → n < f →
    (∀ k, k < n → g.alive k = true → Safe g k) → ∃ g', gradient f v n g = .ok g' := by
  intro f
  induction f with
  | zero => intro n g _ _ h; omega
  | succ f ih =>
    intro n g i al hf hs
    unfold gradient
    rw [if_pos al]
    split
    · next c =>
      have nl : n < g.nodes.length := i.alive_lt n al
      have : ∃ g', forEach (backArg (gradient f v) n v) (argsOf g n) g = .ok g' ∧ Ext v n g g' := by
        refine forEach_total (g0 := g) (v := v) (n := n) (argsOf g n) ?_ i (Ext.refl _ _ _)
        intro a ha g1 i1 h1
        have lt := i.args_lt n a ha
        have aal := i.args_alive n a al ha
        obtain ⟨t, -⟩ := touch_ext (g := g1) (n := n) (v := v) (by rw [h1.leaves]; exact c.1) (by rw [h1.nodes]; exact ⟨nl, c.2.2⟩)
        have it := i1.ext t
        have ht := h1.trans t
        have safe : ∀ {g2 : St}, Ext v n g g2 → ∀ k, k < n → g2.alive k = true → Safe g2 k := by
          intro g2 h2 k hk hal
          exact (hs k hk (by rw [← h2.alive]; exact hal)).ext h2
        obtain ⟨g2, h2⟩ := ih a _ it (by rw [ht.alive]; exact aal) (by omega) (fun k hk => safe ht k (by omega))
        have e2 := (gradient_ext _ a it h2).1
        have e2n : Ext v n (touch n v g1) g2 := e2.up (by rw [ht.nodes]; exact below_arg ha)
        have i2 := it.ext e2
        have tot : ∃ g3, backArg (gradient f v) n v a g1 = .ok g3 := by
          unfold backArg
          split
          · have hs2 := safe (ht.trans e2n)
            obtain ⟨g3, h3⟩ := jacobianCall_total (n := a) (v := v) (f := f) (g := g2) i2
              (fun j e hj he => hs2 a lt (by rw [(ht.trans e2n).alive]; exact aal) v j e hj he)
              (fun b hb g' i' h' hal => ih b g' i' hal (by omega) (fun k hk hk' => by
                refine (hs2 k (by omega) ?_).ext h'
                rw [← h'.alive]; exact hk'))
            exact ⟨g3, by rw [h2]; exact h3⟩
          · exact ⟨g2, h2⟩
        obtain ⟨g3, h3⟩ := tot
        refine ⟨g3, h3, (backArg_ext (fun a g g' i h => (gradient_ext _ a i h).1) i1 (by rw [h1.leaves]; exact c.1)
          (by rw [h1.nodes]; exact ⟨nl, c.2.2⟩) (by rw [h1.nodes]; exact below_arg ha) h3).1⟩
      obtain ⟨g', h, _⟩ := this
      exact ⟨_, by rw [h]; rfl⟩
    · exact ⟨g, rfl⟩

/-- `derive` works when every entry it reads is usable … -/
theorem derive_total {n v : Nat} {g : St} (i : WInv g) (al : g.alive n = true) (hs : ∀ k, k < n → g.alive k = true → Safe g k)
    (hu : ∀ j e, g.jac n v = some j → e ∈ j.list → Usable g e) : ∃ g', derive n v g = .ok g' := by
  have nl := i.alive_lt n al
  obtain ⟨g1, h1⟩ := gradient_total (v := v) (g.nodes.length + 1) n g i al (by omega) hs
  have e1 := (gradient_ext _ n i h1).1
  obtain ⟨g2, h2⟩ := jacobianCall_total (n := n) (v := v) (f := g1.nodes.length + 1) (g := g1) (i.ext e1)
    (fun j e hj he => (Usable.ext e1 e).mpr (hu j e (e1.list hj he) he))
    (fun a ha g' i' h' hal => gradient_total _ a g' i' hal (by rw [e1.nodes]; omega) (fun k hk hk' => by
      have hh := e1.trans h'
      exact (hs k (by omega) (by rw [← hh.alive]; exact hk')).ext hh))
  exact ⟨g2, by unfold derive; rw [h1]; exact h2⟩

/-- Ends well or is undefined: no exception, and the recursion ends. -/
def OkOrUb (r : Outcome St) : Prop := (∃ g, r = .ok g) ∨ r = .ub

theorem forEach_okub {α : Type} {v n : Nat} {body : α → St → Outcome St} {g0 : St} (xs : List α)
    (hb : ∀ x ∈ xs, ∀ g, WInv g → Ext v n g0 g → OkOrUb (body x g) ∧ ∀ g', body x g = .ok g' → Ext v n g g') :
    ∀ {g : St}, WInv g → Ext v n g0 g → OkOrUb (forEach body xs g) := by
  induction xs with
  | nil => intro g _ _; exact Or.inl ⟨g, rfl⟩
  | cons x xs ih =>
    intro g i h
    obtain ⟨⟨g1, h1⟩ | h1, he⟩ := hb x (by simp) g i h
    · have e1 := he g1 h1
      rcases ih (fun y hy => hb y (by simp [hy])) (i.ext e1) (h.trans e1) with ⟨g2, h2⟩ | h2
      · exact Or.inl ⟨g2, by show (body x g >>= _) = _; rw [h1]; exact h2⟩
      · exact Or.inr (by show (body x g >>= _) = _; rw [h1]; exact h2)
    · exact Or.inr (by show (body x g >>= _) = _; rw [h1]; rfl)

theorem applyEntry_okub {v n f : Nat} {g0 : St} (i0 : WInv g0) {j : JList} (hj : g0.jac n v = some j) {e : Entry} (he : e ∈ j.list)
    (hr : ∀ a, a < n → ∀ g, WInv g → OkOrUb (gradient f v a g)) :
    ∀ g, WInv g → Ext v n g0 g → OkOrUb (applyEntry (gradient f v) e g) ∧ ∀ g', applyEntry (gradient f v) e g = .ok g' → Ext v n g g' := by
  intro g i h
  have hb : ∀ a ∈ argsOf g e.orig, a < n ∧ Under g0.nodes n a := by
    intro a ha
    exact i0.orig_args n v j e a hj he (by rw [argsOf_congr h.nodes] at ha; exact ha)
  constructor
  · unfold applyEntry
    split
    · split
      · refine forEach_okub (g0 := g0) (v := v) (n := n) (argsOf g e.orig) ?_ i h
        intro a ha g1 i1 h1
        exact ⟨hr a (hb a ha).1 g1 i1, fun g2 h2 => ((gradient_ext _ a i1 h2).1).up (by rw [h1.nodes]; exact (hb a ha).2)⟩
      · exact Or.inr rfl
    · exact Or.inr rfl
  · intro g' hg
    unfold applyEntry at hg
    split at hg
    · split at hg
      · refine forEach_ext' (ns := g.nodes) _ ?_ i rfl hg
        intro a ha g3 g4 i3 hn3 h3
        exact ((gradient_ext _ a i3 h3).1).up (by rw [hn3, h.nodes]; exact (hb a ha).2)
      · cases hg
    · cases hg

theorem jacobianCall_okub {v n f : Nat} {g : St} (i : WInv g) (hr : ∀ a, a < n → ∀ g, WInv g → OkOrUb (gradient f v a g)) :
    OkOrUb (jacobianCall (gradient f v) n v g) := by
  unfold jacobianCall
  split
  · exact Or.inl ⟨g, rfl⟩
  · next j hj =>
    exact forEach_okub (g0 := g) (v := v) (n := n) j.list.reverse
      (fun e he g1 i1 h1 => applyEntry_okub i hj (List.mem_reverse.mp he) hr g1 i1 h1) i (Ext.refl _ _ _)

theorem gradient_okub {v : Nat} : ∀ (f n : Nat) (g : St), WInv g → n < f → OkOrUb (gradient f v n g) := by
  intro f
  induction f with
  | zero => intro n g _ h; omega
  | succ f ih =>
    intro n g i hf
    unfold gradient
    split
    · next al =>
      split
      · next c =>
        have nl : n < g.nodes.length := i.alive_lt n al
        have : OkOrUb (forEach (backArg (gradient f v) n v) (argsOf g n) g) := by
          refine forEach_okub (g0 := g) (v := v) (n := n) (argsOf g n) ?_ i (Ext.refl _ _ _)
          intro a ha g1 i1 h1
          have lt := i.args_lt n a ha
          obtain ⟨t, -⟩ := touch_ext (g := g1) (n := n) (v := v) (by rw [h1.leaves]; exact c.1) (by rw [h1.nodes]; exact ⟨nl, c.2.2⟩)
          refine ⟨?_, fun g3 h3 => (backArg_ext (fun a g g' i h => (gradient_ext _ a i h).1) i1 (by rw [h1.leaves]; exact c.1)
            (by rw [h1.nodes]; exact ⟨nl, c.2.2⟩) (by rw [h1.nodes]; exact below_arg ha) h3).1⟩
          unfold backArg
          split
          · rcases ih a _ (i1.ext t) (by omega) with ⟨g2, h2⟩ | h2
            · rw [h2]
              exact jacobianCall_okub ((i1.ext t).ext (gradient_ext _ a (i1.ext t) h2).1) (fun b hb g' i' => ih b g' i' (by omega))
            · rw [h2]; exact Or.inr rfl
          · exact ih a _ (i1.ext t) (by omega)
        rcases this with ⟨g', h⟩ | h
        · exact Or.inl ⟨_, by rw [h]; rfl⟩
        · exact Or.inr (by rw [h]; rfl)
      · exact Or.inl ⟨g, rfl⟩
    · exact Or.inr rfl

/-- … and is undefined otherwise. -/
theorem derive_ub {n v : Nat} {g : St} (i : WInv g) (al : g.alive n = true)
    {j : JList} {e : Entry} (hj : g.jac n v = some j) (he : e ∈ j.list) (hu : ¬ Usable g e) : derive n v g = .ub := by
  have nl := i.alive_lt n al
  rcases gradient_okub (v := v) (g.nodes.length + 1) n g i (by omega) with ⟨g1, h1⟩ | h1
  swap
  · unfold derive; rw [h1]; rfl
  have e1 := (gradient_ext _ n i h1).1
  have i1 := i.ext e1
  have hj1 := e1.keep n v j hj
  unfold derive; rw [h1]
  show jacobianCall _ n v g1 = .ub
  unfold jacobianCall
  rw [hj1]
  show forEach (applyEntry (gradient (g1.nodes.length + 1) v)) j.list.reverse g1 = .ub
  have key : ∀ (l : List Entry), (∀ x ∈ l, x ∈ j.list) → (∃ x ∈ l, ¬ Usable g1 x) → ∀ g2, WInv g2 → Ext v n g1 g2 →
      forEach (applyEntry (gradient (g1.nodes.length + 1) v)) l g2 = .ub := by
    intro l
    induction l with
    | nil => intro _ h; obtain ⟨x, hx, _⟩ := h; simp at hx
    | cons x l ih =>
      intro hl hex g2 i2 e2
      show (applyEntry (gradient (g1.nodes.length + 1) v) x g2 >>= fun h => forEach _ l h) = _
      obtain ⟨ou, ex⟩ := applyEntry_okub (f := g1.nodes.length + 1) i1 hj1 (hl x (by simp))
        (fun a ha g' i' => gradient_okub _ a g' i' (by rw [e1.nodes]; omega)) g2 i2 e2
      by_cases hx : Usable g1 x
      · rcases ou with ⟨g3, h3⟩ | h3
        · rw [h3]
          have e3 := ex g3 h3
          refine ih (fun y hy => hl y (by simp [hy])) ?_ g3 (i2.ext e3) (e2.trans e3)
          obtain ⟨y, hy, hn⟩ := hex
          rcases List.mem_cons.mp hy with rfl | hy
          · exact absurd hx hn
          · exact ⟨y, hy, hn⟩
        · rw [h3]; rfl
      · have : applyEntry (gradient (g1.nodes.length + 1) v) x g2 = .ub := by
          have hx2 : ¬ Usable g2 x := fun c => hx ((Usable.ext e2 x).mp c)
          unfold applyEntry
          split
          · next c1 =>
            split
            · next c2 => exact absurd ⟨c1, c2⟩ hx2
            · rfl
          · rfl
        rw [this]; rfl
  exact key _ (fun x hx => List.mem_reverse.mp hx) ⟨e, List.mem_reverse.mpr he, fun c => hu ((Usable.ext e1 e).mp c)⟩ g1 i1 (Ext.refl _ _ _)

end Jacs
end Verif
