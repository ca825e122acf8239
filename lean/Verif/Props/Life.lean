import Verif.Lemmas.LifeWorld
import Verif.Props.React
/-!
# C73: lifetimes of nodes and smart pointers

The model is `Model/Life`, what a client may rely on is `Spec/Life`.
-/
namespace Verif
namespace Props
open Life
open Spec.Life (World Slot Holds Dies Unheld Uses Legal Throws Node Ptr Reached)
open React (Ord)

/-! ### Histories used in the examples

`x` a variable (0), `c` a constant (1), `y = x + c` (2), `z = y * y` (3), smart pointers `p` at `y` (4) and `q` at
the constant (5), the cached gradient of `z` at `y` (6), a second variable (7). -/

def lifeDemo : List Call :=
  [.leaf, .const, .op [0, 1], .op [2, 2], .ptr (some 2), .ptr (some 1), .cacheGrad 3 (some 2), .leaf]

def lifeRun (cs : List Call) (h : Heap) : Outcome Heap := React.forEach call cs h

noncomputable def lifeWorld (cs : List Call) : World := cs.foldl World.step World.start

/-- The calls of a list are legal one after the other. -/
def LegalRun : List Call → World → Prop
  | [], _ => True
  | c :: cs, W => Legal W c ∧ LegalRun cs (W.step c)

theorem reached_run {cs : List Call} {W : World} {h h' : Heap} (H : Reached W h) (L : LegalRun cs W) (e : lifeRun cs h = .ok h') :
    Reached (cs.foldl World.step W) h' := by
  induction cs generalizing W h with
  | nil =>
    have e : Outcome.ok h = .ok h' := e
    simp at e; subst e; exact H
  | cons c cs ih =>
    have e : (call c h >>= fun g => lifeRun cs g) = .ok h' := e
    obtain ⟨g, e1, e2⟩ := Outcome.bind_eq_ok.1 e
    exact ih (.did H L.1 e1) L.2 e2

theorem lifeDemo_legal : LegalRun lifeDemo World.start := by
  simp [lifeDemo, LegalRun, Legal, Node, World.step, World.create, World.start, Slot.of]

/-- The demonstration history is reachable. -/
theorem lifeDemo_reached : ∃ h, lifeRun lifeDemo Heap.empty = .ok h ∧ Reached (lifeWorld lifeDemo) h := by
  obtain ⟨h, e⟩ : ∃ h, lifeRun lifeDemo Heap.empty = .ok h := ⟨_, rfl⟩
  exact ⟨h, e, reached_run .start lifeDemo_legal e⟩

/-! ### Safety -/

/-- After any legal history, in any hash order, a legal call never touches freed memory, never deletes an object
twice, never recurses without end and never throws out of a destructor: it throws exactly when a smart pointer
without a slot is cleared, and otherwise returns. -/
theorem c73_safe {W : World} {h : Heap} (H : Reached W h) (c : Call) (L : Legal W c) :
    (Throws W c ∧ call c h = .throw .logicError) ∨ (¬ Throws W c ∧ ∃ h', call c h = .ok h' ∧ Reached (W.step c) h') := by
  obtain ⟨G, R⟩ := reached_rep H
  obtain ⟨h1, h2⟩ := step_rep c G R L
  by_cases ht : Throws W c
  · exact Or.inl ⟨ht, h1 ht⟩
  · obtain ⟨h', e, _⟩ := h2 ht
    exact Or.inr ⟨ht, h', e, .did H L e⟩

/-- The memory that is allocated is what the specification calls alive. -/
theorem c73_live {W : World} {h : Heap} (H : Reached W h) (k : Nat) : h.alloc k = true ↔ W.live k :=
  ((reached_rep H).2.live k).symm

/-- A smart pointer never dangles: `get` returns null or a live node, the one the specification says. -/
theorem c73_get {W : World} {h : Heap} (H : Reached W h) {p : Nat} (hp : Ptr W p) :
    get p h = .ok (W.slot p).target ∧ ∀ s, (W.slot p).target = some s → Node W s := by
  obtain ⟨G, R⟩ := reached_rep H
  have ha := (R.live p).1 hp.1
  have hd := R.slot p ha (by rw [R.kind]; exact hp.2)
  constructor
  · have e : get p h = .ok ((h.deps p)[0]?.join) := if_pos ha
    rw [e, hd]
    cases W.slot p <;> rfl
  · intro s hs
    cases e : W.slot p with
    | empty => rw [e] at hs; simp [Slot.target] at hs
    | null => rw [e] at hs; simp [Slot.target] at hs
    | «at» t =>
      rw [e] at hs
      have hs : t = s := by simpa [Slot.target] using hs
      subst hs
      exact (sane G R).slot p t hp.1 hp.2 e

/-- A live operation or generator has exactly the arguments it was built from, all alive: no null, nothing freed. -/
theorem c73_args {W : World} {h : Heap} (H : Reached W h) {k : Nat} (hl : h.alloc k = true) (hk : W.kind k = .op ∨ W.kind k = .gen) :
    h.deps k = (W.args k).map some ∧ ∀ a ∈ W.args k, h.alloc a = true := by
  obtain ⟨G, R⟩ := reached_rep H
  refine ⟨R.args k hl ((breaks_iff _).2 (by rw [R.kind]; exact hk)), ?_⟩
  intro a ha
  exact (R.live a).1 ((sane G R).args k a ((R.live k).2 hl) hk ha).1

/-- The gradients cached by a live operation are smart pointers that are alive, at live nodes or empty. -/
theorem c73_cache {W : World} {h : Heap} (H : Reached W h) {v w : Nat} (hv : h.alloc v = true) (hw : w ∈ h.cache v) :
    Ptr W w ∧ ∀ s, W.slot w = .at s → Node W s := by
  obtain ⟨G, R⟩ := reached_rep H
  have S := sane G R
  rw [R.grads] at hw
  have hp : Ptr W w := ⟨S.gradLive v w hw ((R.live v).2 hv), (S.grads v w hw).2⟩
  exact ⟨hp, fun s hs => S.slot w s hp.1 hp.2 hs⟩

/-- Every hypothesis above is met by the demonstration. -/
example : ∃ h, Reached (lifeWorld lifeDemo) h ∧ h.alloc 3 = true ∧ (lifeWorld lifeDemo).kind 3 = .op ∧
    h.deps 3 = [some 2, some 2] ∧ 6 ∈ h.cache 3 ∧ get 4 h = .ok (some 2) ∧ get 6 h = .ok (some 2) := by
  obtain ⟨h, e, H⟩ := lifeDemo_reached
  refine ⟨h, H, ?_⟩
  have e : .ok h = lifeRun lifeDemo Heap.empty := e.symm
  have : ∀ g, Outcome.ok g = lifeRun lifeDemo Heap.empty → g.alloc 3 = true ∧ g.deps 3 = [some 2, some 2] ∧ 6 ∈ g.cache 3 ∧
      get 4 g = .ok (some 2) ∧ get 6 g = .ok (some 2) := by
    intro g e; cases e; exact ⟨rfl, rfl, by decide, rfl, rfl⟩
  obtain ⟨h1, h2, h3, h4, h5⟩ := this h e
  exact ⟨h1, rfl, h2, h3, h4, h5⟩

/-! ### Deletion -/

/-- `delete n` frees exactly what must die with `n`, in whatever order the hash tables are walked: the operations
and generators built on something that dies, the constants and generators that only dying objects held, and the
gradient pointers of dying operations.  Smart pointers at something freed become null; the others, and the
arguments of all survivors, are as before. -/
theorem c73_delete {W : World} {h : Heap} (H : Reached W h) (ord : Ord) {n : Nat} (hn : Node W n) :
    ∃ h', call (.delete ord n) h = .ok h' ∧ h'.alloc n = false ∧
      (∀ k, h'.alloc k = true ↔ h.alloc k = true ∧ ¬ Dies W (fun x => x = n) k) ∧
      (∀ k, h'.alloc k = true → (W.kind k = .op ∨ W.kind k = .gen) → h'.deps k = h.deps k) ∧
      ∀ p, h'.alloc p = true → W.kind p = .ptr →
        (∀ s, W.slot p = .at s → Dies W (fun x => x = n) s → get p h' = .ok none) ∧
        ((∀ s, W.slot p = .at s → ¬ Dies W (fun x => x = n) s) → get p h' = get p h) := by
  obtain ⟨G, R⟩ := reached_rep H
  rcases c73_safe H (.delete ord n) hn with ⟨ht, _⟩ | ⟨_, h', e, H'⟩
  · exact ht.elim
  · obtain ⟨G', R'⟩ := reached_rep H'
    have hlive : ∀ k, h'.alloc k = true ↔ h.alloc k = true ∧ ¬ Dies W (fun x => x = n) k := by
      intro k
      rw [← R'.live, ← R.live]; rfl
    refine ⟨h', e, ?_, hlive, ?_, ?_⟩
    · cases hh : h'.alloc n with
      | false => rfl
      | true => exact absurd (.seed rfl) ((hlive n).1 hh).2
    · intro k hk hb
      have hb : (W.kind k).breaks = true := (breaks_iff _).2 hb
      rw [R'.args k hk (by rw [R'.kind]; exact hb), R.args k ((hlive k).1 hk).1 (by rw [R.kind]; exact hb)]; rfl
    · intro p hp hk
      have hpW : Ptr W p := ⟨(R.live p).2 ((hlive p).1 hp).1, hk⟩
      have hpW' : Ptr (W.step (.delete ord n)) p := ⟨(R'.live p).2 hp, hk⟩
      have g1 := (c73_get H hpW).1
      have g2 := (c73_get H' hpW').1
      constructor
      · intro s h1 h2
        have : (W.step (.delete ord n)).slot p = .empty := if_pos ⟨s, h1, h2⟩
        rw [g2, this]; rfl
      · intro h1
        have : (W.step (.delete ord n)).slot p = W.slot p := by
          refine if_neg ?_
          rintro ⟨s, h2, h3⟩
          exact h1 s h2 h3
        rw [g2, g1, this]

/-- Of the operations, deleting `n` frees exactly those that are computed from `n`. -/
theorem c73_delete_ops {W : World} {h h' : Heap} (H : Reached W h) (ord : Ord) {n : Nat} (hn : Node W n)
    (e : call (.delete ord n) h = .ok h') {k : Nat} (hk : W.kind k = .op) (hl : h.alloc k = true) :
    h'.alloc k = false ↔ Uses W k n := by
  obtain ⟨G, R⟩ := reached_rep H
  obtain ⟨g, e', _, h1, _⟩ := c73_delete H ord hn
  have := e.symm.trans e'
  simp at this; subst this
  rw [← op_dies (sane G R) hk]
  constructor
  · intro h2
    by_contra hc
    rw [(h1 k).2 ⟨hl, hc⟩] at h2; simp at h2
  · intro h2
    cases hh : h'.alloc k with
    | false => rfl
    | true => exact absurd h2 ((h1 k).1 hh).2

/-- Deleting a node frees no other variable, placeholder or managed constant. -/
theorem c73_delete_leaves {W : World} {h h' : Heap} (H : Reached W h) (ord : Ord) {n : Nat} (hn : Node W n)
    (e : call (.delete ord n) h = .ok h') {k : Nat} (hk : W.kind k = .leaf) (hl : h.alloc k = true) (hne : k ≠ n) :
    h'.alloc k = true := by
  obtain ⟨G, R⟩ := reached_rep H
  obtain ⟨g, e', _, h1, _⟩ := c73_delete H ord hn
  have := e.symm.trans e'
  simp at this; subst this
  refine (h1 k).2 ⟨hl, ?_⟩
  intro hd
  cases hd with
  | seed h2 => exact hne h2
  | broken h2 => rw [hk] at h2; simp at h2
  | orphan h2 => rw [hk] at h2; simp at h2
  | own h2 _ => have := ((sane G R).grads _ _ h2).2; rw [hk] at this; simp at this

/-- The order in which hash tables are walked cannot be observed. -/
theorem c73_order {W : World} {h h1 h2 : Heap} (H : Reached W h) (ord ord' : Ord) {n : Nat} (hn : Node W n)
    (e1 : call (.delete ord n) h = .ok h1) (e2 : call (.delete ord' n) h = .ok h2) :
    h1.alloc = h2.alloc ∧ ∀ p, W.kind p = .ptr → h1.alloc p = true → get p h1 = get p h2 := by
  have H1 := Reached.did (c := .delete ord n) H hn e1
  have H2 := Reached.did (c := .delete ord' n) H hn e2
  obtain ⟨_, R1⟩ := reached_rep H1
  obtain ⟨_, R2⟩ := reached_rep H2
  have hal : ∀ k, h1.alloc k = true ↔ h2.alloc k = true := by
    intro k; rw [← R1.live, ← R2.live]; rfl
  constructor
  · funext k; exact Bool.eq_iff_iff.2 (hal k)
  · intro p hk hp
    rw [(c73_get H1 (p := p) ⟨(R1.live p).2 hp, hk⟩).1, (c73_get H2 (p := p) ⟨(R2.live p).2 ((hal p).1 hp), hk⟩).1]; rfl

/-- Deleting the variable frees both operations, the cached gradient, but not the constant, which `q` still holds;
`p` becomes null; the other variable stays. -/
example : ∃ h h', Reached (lifeWorld lifeDemo) h ∧ Node (lifeWorld lifeDemo) 0 ∧ call (.delete anyOrd 0) h = .ok h' ∧
    h'.alloc 0 = false ∧ h'.alloc 1 = true ∧ h'.alloc 2 = false ∧ h'.alloc 3 = false ∧ h'.alloc 6 = false ∧ h'.alloc 7 = true ∧
    get 4 h = .ok (some 2) ∧ get 4 h' = .ok none ∧ get 5 h' = .ok (some 1) := by
  obtain ⟨h, e, H⟩ := lifeDemo_reached
  have hn : Node (lifeWorld lifeDemo) 0 := by
    simp [Node, lifeWorld, lifeDemo, World.step, World.create, World.start]
  have : ∀ g, Outcome.ok g = lifeRun lifeDemo Heap.empty → ∃ h', call (.delete anyOrd 0) g = .ok h' ∧
    h'.alloc 0 = false ∧ h'.alloc 1 = true ∧ h'.alloc 2 = false ∧ h'.alloc 3 = false ∧ h'.alloc 6 = false ∧ h'.alloc 7 = true ∧
    get 4 g = .ok (some 2) ∧ get 4 h' = .ok none ∧ get 5 h' = .ok (some 1) := by
    intro g e; cases e; exact ⟨_, rfl, rfl, rfl, rfl, rfl, rfl, rfl, rfl, rfl, rfl⟩
  obtain ⟨h', h1⟩ := this h e.symm
  exact ⟨h, h', H, hn, h1⟩

/-! ### Smart pointers -/

/-- `p = d` makes `p` point at `d`, and no other smart pointer move. -/
theorem c73_assign {W : World} {h : Heap} (H : Reached W h) (ord : Ord) {p : Nat} {d : Option Nat} (L : Legal W (.assign ord p d)) :
    ∃ h', call (.assign ord p d) h = .ok h' ∧ get p h' = .ok d ∧
      ∀ q, Ptr W q → q ≠ p → h'.alloc q = true ∧ get q h' = get q h := by
  obtain ⟨G, R⟩ := reached_rep H
  rcases c73_safe H (.assign ord p d) L with ⟨ht, _⟩ | ⟨_, h', e, H'⟩
  · exact ht.elim
  · obtain ⟨G', R'⟩ := reached_rep H'
    obtain ⟨f1, f2, f3, f4, f5, f6, f7, f8⟩ := repoint_facts (tgt := .of d) (fun v w hw => ((sane G R).grads v w hw).1) L.1.1 L.1.2
    have alive : ∀ q, Ptr W q → Ptr (W.step (.assign ord p d)) q := by
      rintro q ⟨h1, h2⟩
      refine ⟨?_, by show (W.repoint p (.of d)).kind q = .ptr; rw [f1]; exact h2⟩
      by_contra hc
      have := f8 q h1 hc
      rw [h2] at this; simp at this
    refine ⟨h', e, ?_, ?_⟩
    · have h1 : (W.step (.assign ord p d)).slot p = .of d := f5
      rw [(c73_get H' (alive p L.1)).1, h1]
      cases d <;> rfl
    · intro q hq hqp
      have h1 : (W.step (.assign ord p d)).slot q = W.slot q := f6 q hqp hq.1 hq.2
      refine ⟨(R'.live q).1 (alive q hq).1, ?_⟩
      rw [(c73_get H' (alive q hq)).1, h1, (c73_get H hq).1]

/-- `p = q`, also with a moved `q`, makes `p` point where `q` points; `q` keeps pointing there, and no other smart
pointer moves. -/
theorem c73_assign_ptr {W : World} {h : Heap} (H : Reached W h) (ord : Ord) {p q : Nat} (L : Legal W (.assignPtr ord p q)) :
    ∃ h', call (.assignPtr ord p q) h = .ok h' ∧ get p h' = get q h ∧ get q h' = get q h ∧
      ∀ r, Ptr W r → r ≠ p → h'.alloc r = true ∧ get r h' = get r h := by
  obtain ⟨G, R⟩ := reached_rep H
  rcases c73_safe H (.assignPtr ord p q) L with ⟨ht, _⟩ | ⟨_, h', e, H'⟩
  · exact ht.elim
  · obtain ⟨G', R'⟩ := reached_rep H'
    obtain ⟨f1, f2, f3, f4, f5, f6, f7, f8⟩ := repoint_facts (tgt := .empty) (fun v w hw => ((sane G R).grads v w hw).1) L.1.1 L.1.2
    have target : (Slot.copied (W.slot q)).target = (W.slot q).target := by cases W.slot q <;> rfl
    by_cases hpq : p = q
    · subst hpq
      have hW : W.step (.assignPtr ord p p) = W := if_pos rfl
      rw [hW] at H' R'
      have key : ∀ r, Ptr W r → h'.alloc r = true ∧ get r h' = get r h := by
        intro r hr
        exact ⟨(R'.live r).1 hr.1, by rw [(c73_get H' hr).1, (c73_get H hr).1]⟩
      exact ⟨h', e, (key p L.1).2, (key p L.1).2, fun r hr _ => key r hr⟩
    · have hW : W.step (.assignPtr ord p q) = (W.repoint p .empty).point p (Slot.copied (W.slot q)) := if_neg hpq
      rw [hW] at H' R'
      have alive : ∀ r, Ptr W r → Ptr ((W.repoint p .empty).point p (Slot.copied (W.slot q))) r := by
        rintro r ⟨h1, h2⟩
        refine ⟨?_, by show (W.repoint p .empty).kind r = .ptr; rw [f1]; exact h2⟩
        by_contra hc
        have := f8 r h1 hc
        rw [h2] at this; simp at this
      have other : ∀ r, Ptr W r → r ≠ p → h'.alloc r = true ∧ get r h' = get r h := by
        intro r hr hrp
        have h1 : ((W.repoint p .empty).point p (Slot.copied (W.slot q))).slot r = W.slot r := (if_neg hrp).trans (f6 r hrp hr.1 hr.2)
        exact ⟨(R'.live r).1 (alive r hr).1, by rw [(c73_get H' (alive r hr)).1, h1, (c73_get H hr).1]⟩
      refine ⟨h', e, ?_, (other q L.2 (Ne.symm hpq)).2, other⟩
      have h1 : ((W.repoint p .empty).point p (Slot.copied (W.slot q))).slot p = Slot.copied (W.slot q) := if_pos rfl
      rw [(c73_get H' (alive p L.1)).1, h1, (c73_get H L.2).1, target]

/-- Copying a smart pointer, also by "moving" it, gives a new one at the same node; the source still points there. -/
theorem c73_copy {W : World} {h : Heap} (H : Reached W h) (ord : Ord) {q : Nat} (hq : Ptr W q) :
    ∃ h', call (.copy ord q) h = .ok h' ∧ get h.next h' = get q h ∧ get q h' = get q h := by
  obtain ⟨G, R⟩ := reached_rep H
  rcases c73_safe H (.copy ord q) hq with ⟨ht, _⟩ | ⟨_, h', e, H'⟩
  · exact ht.elim
  · obtain ⟨h1, e1, H1⟩ : ∃ h1, call .null h = .ok h1 ∧ Reached (W.step .null) h1 := ⟨_, rfl, .did H trivial rfl⟩
    have e1 : h1 = fresh .ptr h := by
      have : Outcome.ok (fresh .ptr h) = .ok h1 := e1
      simpa using this.symm
    have hne : q ≠ h.next := by
      intro hc
      have := (R.live q).1 hq.1
      rw [hc, next_dead G] at this; simp at this
    have hnext : W.next = h.next := R.next.symm
    have hp1 : Ptr (W.step .null) h.next := ⟨Or.inl hnext.symm, if_pos hnext.symm⟩
    have hq1 : Ptr (W.step .null) q := ⟨Or.inr hq.1, (if_neg (by rw [hnext]; exact hne)).trans hq.2⟩
    obtain ⟨g, e2, h2, h3, _⟩ := c73_assign_ptr H1 ord (p := h.next) (q := q) ⟨hp1, hq1⟩
    have hsame : g = h' := by
      have e3 : assignPtr ord h.next q h1 = .ok g := e2
      have e4 : assignPtr ord h.next q (fresh .ptr h) = .ok h' := e
      rw [e1] at e3
      have := e3.symm.trans e4
      simpa using this
    have hget : get q h1 = get q h := by
      rw [(c73_get H1 hq1).1, (c73_get H hq).1]
      have : (W.step .null).slot q = W.slot q := if_neg (by rw [hnext]; exact hne)
      rw [this]
    subst hsame
    exact ⟨g, e, h2.trans hget, h3.trans hget⟩

/-- Clearing a smart pointer frees its target exactly when that is an unmanaged constant or a generator and nothing
else held it; whatever is freed besides is what then lost its last holder. -/
theorem c73_clear {W : World} {h : Heap} (H : Reached W h) (ord : Ord) {p s : Nat} (hp : Ptr W p) (hs : W.slot p = .at s) :
    ∃ h', call (.clear ord p) h = .ok h' ∧ get p h' = .ok none ∧
      (h'.alloc s = false ↔ (W.kind s = .const ∨ W.kind s = .gen) ∧ ∀ x, Holds W x s → x = p) ∧
      ∀ k, h'.alloc k = true ↔ h.alloc k = true ∧ ¬ Dies (W.point p .empty) (Unheld (W.point p .empty) s) k := by
  obtain ⟨G, R⟩ := reached_rep H
  rcases c73_safe H (.clear ord p) hp with ⟨ht, _⟩ | ⟨_, h', e, H'⟩
  · have ht : W.slot p = .empty := ht
    rw [hs] at ht; simp at ht
  · obtain ⟨G', R'⟩ := reached_rep H'
    have hg : ∀ v w, w ∈ W.grads v → W.kind v = .op := fun v w hw => ((sane G R).grads v w hw).1
    obtain ⟨f1, f2, f3, f4, f5, f6, f7, f8⟩ := repoint_facts (tgt := .empty) hg hp.1 hp.2
    have hW : W.step (.clear ord p) = W.repoint p .empty := if_neg (by rw [hs]; simp)
    have hW2 : W.repoint p .empty = (W.point p .empty).without (Unheld (W.point p .empty) s) := by unfold World.repoint; rw [hs]
    rw [hW] at H' R'
    have hp' : Ptr (W.repoint p .empty) p := by
      refine ⟨?_, by rw [f1]; exact hp.2⟩
      by_contra hc
      have := f8 p hp.1 hc
      rw [hp.2] at this; simp at this
    have hlive : ∀ k, h'.alloc k = true ↔ h.alloc k = true ∧ ¬ Dies (W.point p .empty) (Unheld (W.point p .empty) s) k := by
      intro k
      rw [← R'.live, ← R.live, hW2]; rfl
    have hsn : Node W s := (sane G R).slot p s hp.1 hp.2 hs
    have hold : ∀ x, Holds (W.point p .empty) x s ↔ Holds W x s ∧ x ≠ p := by
      intro x
      by_cases hx : x = p
      · subst hx
        constructor
        · rintro ⟨_, ⟨h1, _⟩ | ⟨_, h1⟩⟩
          · have h1 : W.kind x = .op ∨ W.kind x = .gen := h1
            rw [hp.2] at h1; simp at h1
          · have h1 : (if x = x then Slot.empty else W.slot x) = .at s := h1
            rw [if_pos rfl] at h1; simp at h1
        · rintro ⟨_, h1⟩; exact absurd rfl h1
      · have h1 : (W.point p .empty).slot x = W.slot x := if_neg hx
        have h2 : Holds (W.point p .empty) x s ↔ Holds W x s := by
          unfold Holds; rw [h1]; rfl
        rw [h2]; simp [hx]
    refine ⟨h', e, by rw [(c73_get H' hp').1, f5]; rfl, ?_, hlive⟩
    constructor
    · intro hd
      have h1 : Dies (W.point p .empty) (Unheld (W.point p .empty) s) s := by
        by_contra hc
        rw [(hlive s).2 ⟨(R.live s).1 hsn.1, hc⟩] at hd; simp at hd
      have h2 : Unheld (W.point p .empty) s s := by
        by_contra hc
        exact dies_none (W := W.point p .empty) (S := Unheld (W.point p .empty) s) (by
          rintro k hk
          obtain ⟨rfl, h3⟩ := hk
          exact hc ⟨rfl, h3⟩) h1
      refine ⟨h2.2.1, ?_⟩
      intro x hx
      by_contra hc
      exact h2.2.2 x ((hold x).2 ⟨hx, hc⟩)
    · rintro ⟨h1, h2⟩
      cases hh : h'.alloc s with
      | false => rfl
      | true =>
        refine absurd ?_ ((hlive s).1 hh).2
        refine .seed ⟨rfl, h1, ?_⟩
        intro x hx
        exact ((hold x).1 hx).2 (h2 x ((hold x).1 hx).1)

/-- Destroying a smart pointer frees it and what clearing it would free. -/
theorem c73_destroy {W : World} {h g : Heap} (H : Reached W h) (ord : Ord) {p s : Nat} (L : Legal W (.destroy ord p)) (hs : W.slot p = .at s)
    (e : call (.clear ord p) h = .ok g) :
    ∃ h', call (.destroy ord p) h = .ok h' ∧ ∀ k, h'.alloc k = true ↔ g.alloc k = true ∧ k ≠ p := by
  have Hc := Reached.did (c := .clear ord p) H L.1 e
  rcases c73_safe H (.destroy ord p) L with ⟨ht, _⟩ | ⟨_, h', e', H'⟩
  · exact ht.elim
  · have hW : W.step (.clear ord p) = W.repoint p .empty := if_neg (by rw [hs]; simp)
    rw [hW] at Hc
    refine ⟨h', e', ?_⟩
    intro k
    rw [← (reached_rep H').2.live, ← (reached_rep Hc).2.live]; rfl

/-- Only `delete` frees variables, placeholders, managed constants and operations: no assignment, copy, clearing or
destruction of smart pointers does, so an operation that nothing points at any more stays allocated. -/
theorem c73_leak {W : World} {h h' : Heap} (H : Reached W h) (c : Call) (L : Legal W c) (hc : ∀ ord n, c ≠ .delete ord n)
    (e : call c h = .ok h') {k : Nat} (hk : W.kind k = .op ∨ W.kind k = .leaf) (hl : h.alloc k = true) : h'.alloc k = true := by
  obtain ⟨G, R⟩ := reached_rep H
  have hg : ∀ v w, w ∈ W.grads v → W.kind v = .op := fun v w hw => ((sane G R).grads v w hw).1
  obtain ⟨_, R'⟩ := reached_rep (Reached.did H L e)
  have hkl := (R.live k).2 hl
  have hrep : ∀ (W : World) (p : Nat) (tgt : Slot), (∀ v w, w ∈ W.grads v → W.kind v = .op) → W.live p → W.kind p = .ptr → W.live k →
      (W.kind k = .op ∨ W.kind k = .leaf) → (W.repoint p tgt).live k := by
    intro W p tgt h0 h1 h2 h3 h4
    by_contra hcn
    have := (repoint_facts (tgt := tgt) h0 h1 h2).2.2.2.2.2.2.2 k h3 hcn
    rcases h4 with h4 | h4 <;> rw [h4] at this <;> simp at this
  rw [← R'.live]
  cases c with
  | leaf => exact Or.inr hkl
  | const => exact Or.inr hkl
  | op _ => exact Or.inr hkl
  | gen _ => exact Or.inr hkl
  | null => exact Or.inr hkl
  | ptr _ => exact Or.inr hkl
  | cacheGrad _ _ => exact Or.inr hkl
  | manage _ => exact hkl
  | delete ord n => exact absurd rfl (hc ord n)
  | assign ord p d => exact hrep W p _ hg L.1.1 L.1.2 hkl hk
  | assignPtr ord p q =>
    show (World.follow W p q).live k
    unfold World.follow
    by_cases hpq : p = q
    · rw [if_pos hpq]; exact hkl
    · rw [if_neg hpq]; exact hrep W p .empty hg L.1.1 L.1.2 hkl hk
  | copy ord q =>
    show (World.follow (W.create .ptr [] .empty) W.next q).live k
    have hk2 : k ≠ W.next := by
      intro hc; rw [← R.next] at hc; rw [hc, next_dead G] at hl; simp at hl
    unfold World.follow
    by_cases hpq : W.next = q
    · rw [if_pos hpq]; exact Or.inr hkl
    · rw [if_neg hpq]
      refine hrep (W.create .ptr [] .empty) W.next .empty ?_ (Or.inl rfl) (if_pos rfl) (Or.inr hkl) ?_
      · intro v w hw
        have hw : w ∈ (if v = W.next then [] else W.grads v) := hw
        show (if v = W.next then Kind.ptr else W.kind v) = .op
        by_cases hv : v = W.next
        · rw [if_pos hv] at hw; simp at hw
        · rw [if_neg hv] at hw ⊢; exact hg v w hw
      · have : (W.create .ptr [] .empty).kind k = W.kind k := if_neg hk2
        rw [this]; exact hk
  | clear ord p =>
    show (if W.slot p = .null then W else W.repoint p .empty).live k
    by_cases hn : W.slot p = .null
    · rw [if_pos hn]; exact hkl
    · rw [if_neg hn]; exact hrep W p .empty hg L.1 L.2 hkl hk
  | destroy ord p =>
    refine ⟨hrep W p .empty hg L.1.1 L.1.2 hkl hk, ?_⟩
    rintro rfl
    have := L.1.2
    rcases hk with hk | hk <;> rw [hk] at this <;> simp at this

/-- A raw pointer to an unmanaged constant dangles once the last smart pointer that held it is cleared: building on
it touches freed memory. -/
theorem c73_dangling {W : World} {h : Heap} (H : Reached W h) (ord : Ord) {p s : Nat} (hp : Ptr W p) (hs : W.slot p = .at s)
    (hk : W.kind s = .const) (honly : ∀ x, Holds W x s → x = p) :
    ∃ h', call (.clear ord p) h = .ok h' ∧ call (.op [s]) h' = .ub ∧ call (.ptr (some s)) h' = .ub := by
  obtain ⟨G, R⟩ := reached_rep H
  obtain ⟨h', e, _, h1, _⟩ := c73_clear H ord hp hs
  obtain ⟨G', R'⟩ := reached_rep (Reached.did (c := .clear ord p) H hp e)
  have hd := h1.2 ⟨Or.inl hk, honly⟩
  have hsn : Node W s := (sane G R).slot p s hp.1 hp.2 hs
  have hne : s ≠ h'.next := by
    intro hc
    have h2 := G.inv.range s ((R.live s).1 hsn.1)
    have h3 : h'.next = W.next := by
      rw [R'.next]
      show (if W.slot p = .null then W else W.repoint p .empty).next = W.next
      rw [if_neg (by rw [hs]; simp)]
      exact (repoint_facts (tgt := .empty) (fun v w hw => ((sane G R).grads v w hw).1) hp.1 hp.2).2.2.2.1
    rw [hc, h3, R.next] at h2; omega
  have key : ∀ k, addDep h'.next (some s) (fresh k h') = .ub := by
    intro k
    have h2 : (fresh k h').alloc h'.next = true := React.upd_same _ _ _
    have h3 : (fresh k h').alloc s = false := (React.upd_ne _ _ hne).trans hd
    rw [addDep, need_eq h2, Outcome.ok_bind]
    show (attach s h'.next _ (fresh k h') >>= _) = _
    rw [attach, need, if_neg (by rw [h3]; simp)]; rfl
  refine ⟨h', e, ?_, key .ptr⟩
  show (addDep h'.next (some s) (fresh .op h') >>= _) = _
  rw [key .op]; rfl

/-- Two smart pointers at a constant; clearing the first leaves it, clearing the second frees it; the variable and
the operation on it stay when their pointer goes. -/
example : ∃ h h1 h2 h3, lifeRun [.const, .ptr (some 0), .copy anyOrd 1, .leaf, .op [3], .ptr (some 4)] Heap.empty = .ok h ∧
    get 1 h = .ok (some 0) ∧ get 2 h = .ok (some 0) ∧ call (.clear anyOrd 1) h = .ok h1 ∧ h1.alloc 0 = true ∧ get 2 h1 = .ok (some 0) ∧
    call (.clear anyOrd 2) h1 = .ok h2 ∧ h2.alloc 0 = false ∧ call (.op [0]) h2 = .ub ∧ call (.clear anyOrd 2) h2 = .throw .logicError ∧
    call (.destroy anyOrd 5) h2 = .ok h3 ∧ h3.alloc 5 = false ∧ h3.alloc 4 = true ∧ h3.alloc 3 = true :=
  ⟨_, _, _, _, rfl, rfl, rfl, rfl, rfl, rfl, rfl, rfl, rfl, rfl, rfl, rfl, rfl, rfl⟩

/-- Every hypothesis of the theorems on smart pointers is met by a history: pointer 1 alone holds the constant. -/
example : ∃ h, Reached (lifeWorld [.const, .ptr (some 0), .null]) h ∧ Ptr (lifeWorld [.const, .ptr (some 0), .null]) 1 ∧
    Ptr (lifeWorld [.const, .ptr (some 0), .null]) 2 ∧
    (lifeWorld [.const, .ptr (some 0), .null]).slot 1 = .at 0 ∧ (lifeWorld [.const, .ptr (some 0), .null]).kind 0 = .const ∧
    ∀ x, Holds (lifeWorld [.const, .ptr (some 0), .null]) x 0 → x = 1 := by
  obtain ⟨h, e⟩ : ∃ h, lifeRun [.const, .ptr (some 0), .null] Heap.empty = .ok h := ⟨_, rfl⟩
  refine ⟨h, reached_run .start ?_ e, ?_, ?_, rfl, rfl, ?_⟩
  · simp [LegalRun, Legal, Node, World.step, World.create, World.start]
  · simp [Ptr, lifeWorld, World.step, World.create, World.start]
  · simp [Ptr, lifeWorld, World.step, World.create, World.start]
  · rintro x ⟨h1, h2⟩
    simp only [lifeWorld, List.foldl, World.step, World.create, World.start, Slot.of, or_false] at h1 h2
    rcases h1 with rfl | rfl | rfl <;> simp at h2 ⊢

end Props
end Verif
