import Verif.Lemmas.Graph
import Mathlib.Data.List.Perm.Subperm
/-!
# Draining a manager
-/
namespace Verif
namespace Graph
open React (upd forEach forEach_ok forEach_inv)

variable {V : Type}

/-- What a drain may change. -/
structure Frame (D : Nat → Prop) (g g' : G V) : Prop where
  defs : g'.defs = g.defs
  alive : g'.alive = g.alive
  depth : g'.depth = g.depth
  gman : g'.gman = g.gman
  leaves : g'.leaves = g.leaves
  freeze : ∀ m, (g'.man m).freeze = (g.man m).freeze
  users : ∀ m, (g'.man m).users = (g.man m).users
  data : ∀ k, g'.data k = g.data k ∨ (isOp g k = true ∧ D (g.gman k))
  dmono : ∀ k, (g.data k).isSome = true → (g'.data k).isSome = true

theorem Frame.refl (D : Nat → Prop) (g : G V) : Frame D g g :=
  ⟨rfl, rfl, rfl, rfl, rfl, fun _ => rfl, fun _ => rfl, fun _ => Or.inl rfl, fun _ h => h⟩

theorem Frame.trans {D : Nat → Prop} {a b c : G V} (h1 : Frame D a b) (h2 : Frame D b c) : Frame D a c where
  defs := h2.defs.trans h1.defs
  alive := h2.alive.trans h1.alive
  depth := h2.depth.trans h1.depth
  gman := h2.gman.trans h1.gman
  leaves := h2.leaves.trans h1.leaves
  freeze := fun m => (h2.freeze m).trans (h1.freeze m)
  users := fun m => (h2.users m).trans (h1.users m)
  data := fun k => by
    rcases h2.data k with e2 | ⟨o, r⟩
    · rcases h1.data k with e1 | e1
      · exact Or.inl (e2.trans e1)
      · exact Or.inr e1
    · right
      rw [h1.gman, isOp_congr h1.defs] at *
      exact ⟨o, r⟩
  dmono := fun k h => h2.dmono k (h1.dmono k h)

theorem Ext.frame {R D Q : Nat → Prop} {g g' : G V} (e : Ext R D Q g g') : Frame D g g' :=
  ⟨e.defs, e.alive, e.depth, e.gman, e.leaves, e.freeze, e.users, e.data, e.dmono⟩

theorem Frame.weaken {D D' : Nat → Prop} {g g' : G V} (e : Frame D g g') (h : ∀ m, D m → D' m) : Frame D' g g' :=
  ⟨e.defs, e.alive, e.depth, e.gman, e.leaves, e.freeze, e.users,
    fun k => (e.data k).imp id (fun c => ⟨c.1, h _ c.2⟩), e.dmono⟩

theorem WF.frame {D : Nat → Prop} {g g' : G V} (w : WF g) (e : Frame D g g') : WF g' := by
  constructor
  · intro k a h; rw [argsOf_congr e.defs] at h; exact w.args_lt k a h
  · intro k h; rw [e.alive] at h; rw [e.defs]; exact w.alive_lt k h
  · intro k a h h'; rw [e.alive] at *; rw [argsOf_congr e.defs] at h'; exact w.alive_args k a h h'
  · intro k a h ho; rw [e.depth]; rw [argsOf_congr e.defs] at h; rw [isOp_congr e.defs] at ho; exact w.depth_lt k a h ho
  · intro k a h h' h''
    rw [e.alive] at h; rw [argsOf_congr e.defs] at h'; rw [isOp_congr e.defs] at h''; rw [e.gman]
    exact w.gman_eq k a h h' h''
  · intro k; rw [isOp_congr e.defs, e.defs, e.gman]; exact w.gman_lt k

/-! ### The priority queue -/

theorem exists_min (depth : Nat → Nat) (l : List Nat) (h : l ≠ []) :
    ∃ x ∈ l, ∀ y ∈ l, depth x ≤ depth y := by
  induction l with
  | nil => exact absurd rfl h
  | cons a as ih =>
    by_cases h' : as = []
    · subst h'; exact ⟨a, by simp, by simp⟩
    · obtain ⟨x, hx, hm⟩ := ih h'
      by_cases c : depth a ≤ depth x
      · refine ⟨a, by simp, ?_⟩
        intro y hy
        rcases List.mem_cons.mp hy with rfl | hy
        · exact Nat.le_refl _
        · exact Nat.le_trans c (hm y hy)
      · refine ⟨x, by simp [hx], ?_⟩
        intro y hy
        rcases List.mem_cons.mp hy with rfl | hy
        · omega
        · exact hm y hy

theorem top_none {depth : Nat → Nat} {l : List Nat} (h : top depth l = none) : l = [] := by
  by_contra c
  obtain ⟨x, hx, hm⟩ := exists_min depth l c
  unfold top at h
  rw [List.find?_eq_none] at h
  apply h x hx
  simp only [List.all_eq_true, decide_eq_true_eq]
  exact hm

theorem top_some {depth : Nat → Nat} {l : List Nat} {x : Nat} (h : top depth l = some x) :
    x ∈ l ∧ ∀ y ∈ l, depth x ≤ depth y := by
  unfold top at h
  refine ⟨List.mem_of_find?_eq_some h, ?_⟩
  have := List.find?_some h
  simpa only [List.all_eq_true, decide_eq_true_eq] using this

/-- The state after popping `x`. -/
def popState (m x : Nat) (g : G V) : G V :=
  { g with man := upd g.man m { g.man m with queue := (g.man m).queue.erase x } }

theorem popState_man_ne {m x m' : Nat} (g : G V) (h : m' ≠ m) : (popState m x g).man m' = g.man m' := by
  simp [popState, upd, h]

theorem popState_map (m x m' : Nat) (g : G V) : ((popState m x g).man m').map = (g.man m').map := by
  simp only [popState, upd]; split
  · next c => rw [c]
  · rfl

theorem popState_queue_same (m x : Nat) (g : G V) :
    ((popState m x g).man m).queue = (g.man m).queue.erase x := by
  simp [popState, upd]

theorem popState_queue_mem (m x m' y : Nat) (g : G V) (hy : y ∈ ((popState m x g).man m').queue) :
    y ∈ (g.man m').queue := by
  by_cases h : m' = m
  · subst h; rw [popState_queue_same] at hy; exact List.mem_of_mem_erase hy
  · rw [popState_man_ne g h] at hy; exact hy

theorem popState_frame (m x : Nat) (g : G V) : Frame (fun _ => False) g (popState m x g) := by
  refine ⟨rfl, rfl, rfl, rfl, rfl, ?_, ?_, fun _ => Or.inl rfl, fun _ h => h⟩
  · intro m'; simp only [popState, upd]; split
    · next c => rw [c]
    · rfl
  · intro m'; simp only [popState, upd]; split
    · next c => rw [c]
    · rfl

theorem popState_qinv {m x : Nat} {g : G V} (q : QInv g) : QInv (popState m x g) := by
  refine ⟨q.mono, ?_, ?_, ?_, ?_, ?_, ?_, ?_⟩
  · intro m' y hy
    rw [popState_map]
    exact q.sub m' y (popState_queue_mem m x m' y g hy)
  · intro m' y ha hy
    rw [popState_map] at hy
    exact q.mem m' y ha hy
  · intro m' y hy
    rw [popState_map] at hy
    exact q.mapOp m' y hy
  · intro m' y hy
    rw [popState_map] at hy
    exact q.mlt m' y hy
  · intro m1 m2 y h1 h2
    rw [popState_map] at h1 h2
    exact q.uniq m1 m2 y h1 h2
  · intro m'; rw [popState_map]; exact q.mapND m'
  · intro m'
    by_cases h : m' = m
    · subst h; rw [popState_queue_same]; exact (q.queueND m').erase x
    · rw [popState_man_ne g h]; exact q.queueND m'

/-- What is left when the drain of `m` ends. -/
structure Drained (S : Nat → Prop) (m : Nat) (g g' : G V) : Prop where
  qinv : QInv g'
  frame : Frame (fun m' => m' = m) g g'
  fq : FQ g' S
  queue : (g'.man m).queue = []
  map : (g'.man m).map = []
  others : ∀ m', m' ≠ m → g'.man m' = g.man m'

/-- One iteration. -/
theorem drainOne_spec {S : Nat → Prop} {sch : Sched} {m x d : Nat} {g g' : G V} (w : WF g) (q : QInv g) (p : PopLe g d)
    (hx : x ∈ (g.man m).queue) (hmin : ∀ y ∈ (g.man m).queue, g.depth x ≤ g.depth y) (hd : d ≤ g.depth x + 1)
    (fq : FQ g S) (h : drainOne sch m x g = .ok g') :
    QInv g' ∧ Frame (fun m' => m' = m) g g' ∧ FQ g' S ∧ PopLe g' (g.depth x + 1) ∧
      (∀ y ∈ (g'.man m).queue, g.depth x ≤ g.depth y) ∧ (∀ m', m' ≠ m → g'.man m' = g.man m') ∧
      (g'.man m).map.length + (g.man m).queue.length = (g.man m).map.length + (g'.man m).queue.length + 1 := by
  unfold drainOne at h
  by_cases ha : g.alive x = true
  · rw [if_pos ha] at h
    change (forward x (popState m x g) >>= fun g => notify sch (g.defs.length + 1) x g) = _ at h
    rw [Outcome.bind_eq_ok] at h
    obtain ⟨g1, h1, h2⟩ := h
    have hm : g.gman x = m := q.mem m x ha (q.sub m x hx)
    have w0 := w.frame (popState_frame m x g)
    have q0 : QInv (popState m x g) := popState_qinv q
    have fq0 : FQ (popState m x g) (fun k => S k ∨ k = x) := by
      intro k hk hS
      have hkx : k ≠ x := fun c => hS (Or.inr c)
      rcases fq k hk (fun c => hS (Or.inl c)) with hf | hq
      · exact Or.inl (hf.of_same rfl rfl (fun _ _ => rfl))
      · right
        change k ∈ ((popState m x g).man (g.gman k)).queue
        by_cases c : g.gman k = m
        · rw [c, popState_queue_same]; rw [c] at hq
          exact (List.mem_erase_of_ne hkx).mpr hq
        · rw [popState_man_ne g c]; exact hq
    have p0 : PopLe (popState m x g) (g.depth x + 1) := by
      intro m' y h1 h2
      change g.depth y < g.depth x + 1
      rw [popState_map] at h1
      by_cases hyq : y ∈ (g.man m').queue
      · by_cases c : m' = m
        · subst c
          rw [popState_queue_same] at h2
          by_cases hyx : y = x
          · rw [hyx]; exact Nat.lt_succ_self _
          · exact absurd ((List.mem_erase_of_ne hyx).mpr hyq) h2
        · rw [popState_man_ne g c] at h2
          exact absurd hyq h2
      · exact Nat.lt_of_lt_of_le (p m' y h1 hyq) hd
    obtain ⟨q1, e1, f1⟩ := forward_spec w0 q0 fq0 h1
    have w1 := w0.ext e1
    have hop : isOp g x = true := (q.mapOp m x (q.sub m x hx)).1
    have hop1 : isOp g1 x = true := by rw [isOp_congr e1.defs]; exact hop
    have gm1 : g1.gman x = m := by rw [e1.gman]; exact hm
    have d1 : g1.depth = g.depth := e1.depth
    obtain ⟨q2, e2, f2⟩ := notify_spec sch _ x g1 g' S (g.depth x + 1) h2 w1 q1 (p0.ext e1)
      (by rw [d1, if_pos hop1]) f1
    refine ⟨q2, ?_, f2, (p0.ext e1).ext e2, ?_, ?_, ?_⟩
    · have a0 : Frame (fun m' => m' = m) g (popState m x g) := (popState_frame m x g).weaken (fun _ h => h.elim)
      have a1 : Frame (fun m' => m' = m) (popState m x g) g1 := e1.frame.weaken (fun m' h => by rw [h]; exact hm)
      have a2 : Frame (fun m' => m' = m) g1 g' := e2.frame.weaken (fun m' h => by rw [h.1 hop1]; exact gm1)
      exact a0.trans (a1.trans a2)
    · intro y hy
      rcases e2.qnew m y hy with hy | hy
      · rcases e1.qnew m y hy with hy | hy
        · exact hmin y (popState_queue_mem m x m y g hy)
        · exact hy.elim
      · rw [d1] at hy; exact Nat.le_of_lt (hy hop1)
    · intro m' hm'
      rw [e2.man m' (fun c => hm' (by rw [c hop1]; exact gm1)), e1.man m' (fun c => hm' (by rw [c]; exact hm)),
        popState_man_ne g hm']
    · have l1 := e1.len m
      have l2 := e2.len m
      rw [popState_map, popState_queue_same, List.length_erase_of_mem hx] at l1
      have : 0 < (g.man m).queue.length := List.length_pos_of_mem hx
      omega
  · rw [if_neg ha] at h; simp at h

/-- The state after the loop: `update_map_.clear()`. -/
def clearMap (m : Nat) (g : G V) : G V := { g with man := upd g.man m { g.man m with map := [] } }

theorem clearMap_spec {S : Nat → Prop} {m : Nat} {g : G V} (q : QInv g) (fq : FQ g S)
    (hq : (g.man m).queue = []) : Drained S m g (clearMap m g) := by
  have hne : ∀ m', m' ≠ m → (clearMap m g).man m' = g.man m' := by
    intro m' h; simp [clearMap, upd, h]
  have hqueue : ∀ m', ((clearMap m g).man m').queue = (g.man m').queue := by
    intro m'; by_cases h : m' = m
    · subst h; simp [clearMap, upd]
    · rw [hne m' h]
  have hmap : ((clearMap m g).man m).map = [] := by simp [clearMap, upd]
  have hsub : ∀ m' x, x ∈ ((clearMap m g).man m').map → x ∈ (g.man m').map := by
    intro m' x hx
    by_cases h : m' = m
    · subst h; rw [hmap] at hx; simp at hx
    · rw [hne m' h] at hx; exact hx
  refine ⟨⟨q.mono, ?_, ?_, ?_, ?_, ?_, ?_, ?_⟩, ⟨rfl, rfl, rfl, rfl, rfl, ?_, ?_, fun _ => Or.inl rfl, fun _ h => h⟩,
    ?_, by rw [hqueue, hq], hmap, hne⟩
  · intro m' x hx
    rw [hqueue] at hx
    by_cases h : m' = m
    · subst h; rw [hq] at hx; simp at hx
    · rw [hne m' h]; exact q.sub m' x hx
  · intro m' x ha hx; exact q.mem m' x ha (hsub m' x hx)
  · intro m' x hx; exact q.mapOp m' x (hsub m' x hx)
  · intro m' x hx; exact q.mlt m' x (hsub m' x hx)
  · intro m1 m2 x h1 h2; exact q.uniq m1 m2 x (hsub m1 x h1) (hsub m2 x h2)
  · intro m'
    by_cases h : m' = m
    · subst h; rw [hmap]; exact List.nodup_nil
    · rw [hne m' h]; exact q.mapND m'
  · intro m'; rw [hqueue]; exact q.queueND m'
  · intro m'; simp only [clearMap, upd]; split
    · next c => rw [c]
    · rfl
  · intro m'; simp only [clearMap, upd]; split
    · next c => rw [c]
    · rfl
  · intro k ha hS
    rcases fq k ha hS with hf | hk
    · exact Or.inl (hf.of_same rfl rfl (fun _ _ => rfl))
    · right; rw [hqueue]; exact hk

theorem drain_none {sch : Sched} {m fuel : Nat} {g : G V}
    (h : top g.depth (sch.pop fuel (g.man m).queue) = none) : drain sch m fuel g = .ok (clearMap m g) := by
  cases fuel <;> (unfold drain; rw [h]; rfl)

theorem drain_zero {sch : Sched} {m x : Nat} {g : G V}
    (h : top g.depth (sch.pop 0 (g.man m).queue) = some x) : drain sch m 0 g = .abort := by
  unfold drain; rw [h]

theorem drain_succ {sch : Sched} {m x fuel : Nat} {g : G V}
    (h : top g.depth (sch.pop (fuel + 1) (g.man m).queue) = some x) :
    drain sch m (fuel + 1) g = drainOne sch m x g >>= fun g => drain sch m fuel g := by
  rw [drain]; simp only [h]

theorem pop_top {sch : Sched} {m x fuel : Nat} {g : G V}
    (h : top g.depth (sch.pop fuel (g.man m).queue) = some x) :
    x ∈ (g.man m).queue ∧ ∀ y ∈ (g.man m).queue, g.depth x ≤ g.depth y := by
  have pm := sch.pop_perm fuel (g.man m).queue
  have := top_some h
  exact ⟨pm.mem_iff.mp this.1, fun y hy => this.2 y (pm.mem_iff.mpr hy)⟩

theorem drain_spec (S : Nat → Prop) (sch : Sched) (m : Nat) (fuel : Nat) : ∀ (g g' : G V) (d : Nat),
    drain sch m fuel g = .ok g' → WF g → QInv g → PopLe g d → (∀ x ∈ (g.man m).queue, d ≤ g.depth x + 1) →
    FQ g S → Drained S m g g' := by
  induction fuel with
  | zero =>
    intro g g' d h w q p hd fq
    cases e : top g.depth (sch.pop 0 (g.man m).queue) with
    | none =>
      rw [drain_none e] at h
      cases h
      have : (g.man m).queue = [] := by
        have := top_none e
        have pm := sch.pop_perm 0 (g.man m).queue
        rw [this] at pm
        exact List.nil_perm.mp pm
      exact clearMap_spec q fq this
    | some x => rw [drain_zero e] at h; cases h
  | succ fuel ih =>
    intro g g' d h w q p hd fq
    cases e : top g.depth (sch.pop (fuel + 1) (g.man m).queue) with
    | none =>
      rw [drain_none e] at h
      cases h
      have : (g.man m).queue = [] := by
        have := top_none e
        have pm := sch.pop_perm (fuel + 1) (g.man m).queue
        rw [this] at pm
        exact List.nil_perm.mp pm
      exact clearMap_spec q fq this
    | some x =>
      rw [drain_succ e, Outcome.bind_eq_ok] at h
      obtain ⟨g1, h1, h2⟩ := h
      obtain ⟨hx, hmin⟩ := pop_top e
      obtain ⟨q1, fr, f1, p1, hq1, ho, _⟩ := drainOne_spec w q p hx hmin (hd x hx) fq h1
      have w1 := w.frame fr
      have r := ih g1 g' (g.depth x + 1) h2 w1 q1 p1 (by intro y hy; rw [fr.depth]; exact Nat.succ_le_succ (hq1 y hy)) f1
      refine ⟨r.qinv, fr.trans r.frame, r.fq, r.queue, r.map, ?_⟩
      intro m' hm'
      rw [r.others m' hm', ho m' hm']

/-- Between calls the map holds exactly the queued nodes. -/
def Settled (g : G V) : Prop := ∀ m x, x ∈ (g.man m).map → x ∈ (g.man m).queue

theorem Settled.popLe {g : G V} (s : Settled g) (d : Nat) : PopLe g d :=
  fun m x h1 h2 => absurd (s m x h1) h2

theorem managerUpdate_spec {S : Nat → Prop} {sch : Sched} {m : Nat} {g g' : G V} (w : WF g) (q : QInv g) (s : Settled g)
    (fq : FQ g S) (h : managerUpdate sch m g = .ok g') : Drained S m g g' ∧ Settled g' := by
  have r := drain_spec S sch m _ g g' 0 h w q (s.popLe 0) (fun _ _ => Nat.zero_le _) fq
  refine ⟨r, ?_⟩
  intro m' x hx
  by_cases c : m' = m
  · subst c; rw [r.map] at hx; simp at hx
  · rw [r.others m' c] at *; exact s m' x hx

/-! ### Termination and success -/

/-- No transfer function throws. -/
def Total (g : G V) : Prop :=
  ∀ (k : Nat) (f : List V → Outcome V) (args : List Nat) (b : Bool),
    g.defs[k]? = some (.op f args b) → ∀ vs, ∃ v, f vs = .ok v

theorem forward_total {g : G V} {n : Nat} (t : Total g) (op : isOp g n = true)
    (gd : ∀ a ∈ argsOf g n, (g.data a).isSome = true) :
    ∃ g', forward n g = .ok g' ∧ g'.defs = g.defs := by
  obtain ⟨f, args, b, e⟩ := (isOp_iff g n).mp op
  rw [argsOf_op e] at gd
  obtain ⟨vs, hv⟩ := mapM_some args gd
  obtain ⟨v, hf⟩ := t n f args b e vs
  refine ⟨{ g with data := upd g.data n (some v) }, ?_, rfl⟩
  unfold forward
  rw [e]
  simp only [hv, hf]
  rfl

theorem Total.congr {g g' : G V} (t : Total g) (h : g'.defs = g.defs) : Total g' := by
  intro k f args b e; rw [h] at e; exact t k f args b e

theorem addUpdate_defs (n : Nat) (g : G V) : (addUpdate n g).defs = g.defs := by
  unfold addUpdate; split <;> rfl

theorem updateWith_total {rec : Nat → G V → Outcome (G V)} {n : Nat} {g : G V} (t : Total g)
    (op : isOp g n = true)
    (hr : ∀ g1 : G V, g1.defs = g.defs → ∃ g2, rec n g1 = .ok g2 ∧ g2.defs = g1.defs) :
    ∃ g', updateWith rec n g = .ok g' ∧ g'.defs = g.defs := by
  unfold updateWith
  by_cases hg : (argsOf g n).all (good g) = true
  · rw [if_pos hg]
    have gd : ∀ a ∈ argsOf g n, (g.data a).isSome = true := fun a ha => List.all_eq_true.mp hg a ha
    by_cases hc : ((g.man (g.gman n)).freeze || decide (1 < (argsOf g n).length)) = true
    · rw [if_pos hc]; exact ⟨_, rfl, addUpdate_defs n g⟩
    · rw [if_neg hc]
      obtain ⟨g1, h1, e1⟩ := forward_total t op gd
      obtain ⟨g2, h2, e2⟩ := hr g1 e1
      exact ⟨g2, by rw [h1]; exact h2, e2.trans e1⟩
  · rw [if_neg hg]; exact ⟨g, rfl, rfl⟩

theorem notify_total (sch : Sched) (fuel : Nat) : ∀ (n : Nat) (g : G V), Total g →
    (∀ k a, a ∈ argsOf g k → a < k) → n < g.defs.length → g.defs.length < fuel + n →
    ∃ g', notify sch fuel n g = .ok g' ∧ g'.defs = g.defs := by
  induction fuel with
  | zero => intro n g _ _ h1 h2; omega
  | succ fuel ih =>
    intro n g t lt h1 h2
    rw [notify]
    have hmem : ∀ k, k ∈ sch.aud n (audience g n) ↔ k ∈ audience g n :=
      fun k => (sch.aud_perm n _).mem_iff
    obtain ⟨g', e, _, e'⟩ := forEach_inv (P := fun l g1 => (∀ k ∈ l, k ∈ audience g n) ∧ g1.defs = g.defs)
      (updateWith (notify sch fuel)) (sch.aud n (audience g n)) g ⟨fun k hk => (hmem k).mp hk, rfl⟩
      (by
        intro k ks g1 ⟨hl, e1⟩
        have hka := (mem_audience g n k).mp (hl k (by simp))
        have hop : isOp g1 k = true := by rw [isOp_congr e1]; exact isOp_of_arg hka.2.2
        have hnk := lt k n hka.2.2
        obtain ⟨g2, h2', e2⟩ := updateWith_total (t.congr e1) hop (rec := notify sch fuel)
          (by
            intro g2 e2
            refine ih k g2 ((t.congr e1).congr e2) ?_ ?_ ?_
            · intro j a; rw [argsOf_congr (e2.trans e1)]; exact lt j a
            · rw [e2, e1]; exact hka.1
            · rw [e2, e1]; omega)
        exact ⟨g2, h2', fun j hj => hl j (by simp [hj]), e2.trans e1⟩)
    exact ⟨g', e, e'⟩

theorem drainOne_total {sch : Sched} {m x : Nat} {g : G V} (w : WF g) (q : QInv g) (t : Total g)
    (al : g.alive x = true) (hx : x ∈ (g.man m).queue) : ∃ g', drainOne sch m x g = .ok g' := by
  unfold drainOne
  rw [if_pos al]
  have hm := q.mapOp m x (q.sub m x hx)
  obtain ⟨g1, h1, e1⟩ := forward_total (g := popState m x g) (n := x) t hm.1 hm.2
  have e1 : g1.defs = g.defs := e1
  obtain ⟨g2, h2, e2⟩ := notify_total sch (g1.defs.length + 1) x g1 (t.congr e1)
    (by intro k a; rw [argsOf_congr e1]; exact w.args_lt k a)
    (by rw [e1]; exact w.alive_lt x al) (by omega)
  refine ⟨g2, ?_⟩
  change (forward x (popState m x g) >>= fun g => notify sch (g.defs.length + 1) x g) = _
  rw [h1]
  exact h2

theorem isOp_lt {g : G V} {x : Nat} (h : isOp g x = true) : x < g.defs.length := by
  obtain ⟨f, as, b, e⟩ := (isOp_iff g x).mp h
  by_contra c
  rw [List.getElem?_eq_none (by omega)] at e
  cases e

theorem map_length_le {g : G V} (q : QInv g) (m : Nat) : (g.man m).map.length ≤ g.defs.length := by
  have h : (g.man m).map ⊆ List.range g.defs.length := by
    intro x hx
    exact List.mem_range.mpr (isOp_lt (q.mapOp m x hx).1)
  have := (List.Nodup.subperm (q.mapND m) h).length_le
  simpa using this

theorem drain_total (S : Nat → Prop) (sch : Sched) (m : Nat) (fuel : Nat) : ∀ (g : G V) (d : Nat),
    WF g → QInv g → Total g → (∀ x, x < g.defs.length → g.alive x = true) → PopLe g d →
    (∀ x ∈ (g.man m).queue, d ≤ g.depth x + 1) → FQ g S →
    g.defs.length + (g.man m).queue.length ≤ fuel + (g.man m).map.length →
    ∃ g', drain sch m fuel g = .ok g' := by
  induction fuel with
  | zero =>
    intro g d w q t al p hd fq hf
    cases e : top g.depth (sch.pop 0 (g.man m).queue) with
    | none => exact ⟨_, drain_none e⟩
    | some x =>
      have := map_length_le q m
      have := List.length_pos_of_mem (pop_top e).1
      omega
  | succ fuel ih =>
    intro g d w q t al p hd fq hf
    cases e : top g.depth (sch.pop (fuel + 1) (g.man m).queue) with
    | none => exact ⟨_, drain_none e⟩
    | some x =>
      obtain ⟨hx, hmin⟩ := pop_top e
      obtain ⟨g1, h1⟩ := drainOne_total (sch := sch) w q t (al x (isOp_lt (q.mapOp m x (q.sub m x hx)).1)) hx
      obtain ⟨q1, fr, f1, p1, hq1, ho, hl⟩ := drainOne_spec w q p hx hmin (hd x hx) fq h1
      obtain ⟨g', h'⟩ := ih g1 (g.depth x + 1) (w.frame fr) q1 (t.congr fr.defs)
        (by rw [fr.defs, fr.alive]; exact al) p1
        (by intro y hy; rw [fr.depth]; exact Nat.succ_le_succ (hq1 y hy)) f1 (by rw [fr.defs]; omega)
      exact ⟨g', by rw [drain_succ e, h1]; exact h'⟩

theorem managerUpdate_total {S : Nat → Prop} (sch : Sched) (m : Nat) {g : G V} (w : WF g) (q : QInv g) (s : Settled g)
    (fq : FQ g S) (t : Total g) (al : ∀ x, x < g.defs.length → g.alive x = true) :
    ∃ g', managerUpdate sch m g = .ok g' := by
  refine drain_total S sch m _ g 0 w q t al (s.popLe 0) (fun _ _ => Nat.zero_le _) fq ?_
  have h : (g.man m).queue ⊆ (g.man m).map := fun x hx => q.sub m x hx
  have := (List.Nodup.subperm (q.queueND m) h).length_le
  omega

end Graph
end Verif
