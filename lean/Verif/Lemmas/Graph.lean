import Verif.Model.Graph
import Verif.Lemmas.React
import Mathlib.Data.List.Nodup
/-!
# The update machinery of the graph: notification and draining
-/
namespace Verif
namespace Graph
open React (upd forEach forEach_ok forEach_inv)

variable {V : Type}

/-- Structure of the graph. -/
structure WF (g : G V) : Prop where
  args_lt : ∀ k a, a ∈ argsOf g k → a < k
  alive_lt : ∀ k, g.alive k = true → k < g.defs.length
  alive_args : ∀ k a, g.alive k = true → a ∈ argsOf g k → g.alive a = true
  depth_lt : ∀ k a, a ∈ argsOf g k → isOp g a = true → g.depth a < g.depth k
  gman_eq : ∀ k a, g.alive k = true → a ∈ argsOf g k → isOp g a = true → g.gman a = g.gman k
  gman_lt : ∀ k, isOp g k = true → g.gman k < g.defs.length

/-- Bookkeeping of the queues. -/
structure QInv (g : G V) : Prop where
  mono : ∀ k, isOp g k = true → (g.data k).isSome = true → ∀ a ∈ argsOf g k, (g.data a).isSome = true
  sub : ∀ m x, x ∈ (g.man m).queue → x ∈ (g.man m).map
  mem : ∀ m x, g.alive x = true → x ∈ (g.man m).map → g.gman x = m
  mapOp : ∀ m x, x ∈ (g.man m).map → isOp g x = true ∧ ∀ a ∈ argsOf g x, (g.data a).isSome = true
  mlt : ∀ m x, x ∈ (g.man m).map → m < g.defs.length
  uniq : ∀ m m' x, x ∈ (g.man m).map → x ∈ (g.man m').map → m = m'
  mapND : ∀ m, (g.man m).map.Nodup
  queueND : ∀ m, (g.man m).queue.Nodup

/-- The data of `k` agrees with the data of its arguments. -/
def Fresh (g : G V) (k : Nat) : Prop :=
  ∀ f args h, g.defs[k]? = some (.op f args h) → ∀ vs, args.mapM g.data = some vs →
    ∃ v, f vs = .ok v ∧ g.data k = some v

/-- Every live node outside `S` is fresh or queued. -/
def FQ (g : G V) (S : Nat → Prop) : Prop :=
  ∀ k, g.alive k = true → ¬ S k → Fresh g k ∨ k ∈ (g.man (g.gman k)).queue

/-- What an update may change, with `R` the managers whose queues and `D` the managers whose data are
concerned, and `Q` the nodes that may be queued. -/
structure Ext (R D Q : Nat → Prop) (g g' : G V) : Prop where
  defs : g'.defs = g.defs
  alive : g'.alive = g.alive
  depth : g'.depth = g.depth
  gman : g'.gman = g.gman
  leaves : g'.leaves = g.leaves
  freeze : ∀ m, (g'.man m).freeze = (g.man m).freeze
  users : ∀ m, (g'.man m).users = (g.man m).users
  data : ∀ k, g'.data k = g.data k ∨
    (isOp g k = true ∧ D (g.gman k))
  dmono : ∀ k, (g.data k).isSome = true → (g'.data k).isSome = true
  man : ∀ m, ¬ R m → g'.man m = g.man m
  popped : ∀ m x, x ∈ (g'.man m).map → x ∉ (g'.man m).queue →
    x ∈ (g.man m).map ∧ x ∉ (g.man m).queue
  len : ∀ m, (g'.man m).map.length + (g.man m).queue.length =
    (g.man m).map.length + (g'.man m).queue.length
  qmono : ∀ m x, x ∈ (g.man m).queue → x ∈ (g'.man m).queue
  qnew : ∀ m x, x ∈ (g'.man m).queue → x ∈ (g.man m).queue ∨ Q x

theorem argsOf_congr {g g' : G V} (h : g'.defs = g.defs) (k : Nat) : argsOf g' k = argsOf g k := by
  simp [argsOf, h]

theorem isOp_congr {g g' : G V} (h : g'.defs = g.defs) (k : Nat) : isOp g' k = isOp g k := by
  simp [isOp, h]

theorem audience_congr {g g' : G V} (h : g'.defs = g.defs) (ha : g'.alive = g.alive) (k : Nat) :
    audience g' k = audience g k := by
  simp [audience, h, ha, argsOf_congr h]

theorem mem_audience (g : G V) (n k : Nat) :
    k ∈ audience g n ↔ k < g.defs.length ∧ g.alive k = true ∧ n ∈ argsOf g k := by
  simp [audience]

theorem isOp_of_arg {g : G V} {n k : Nat} (h : n ∈ argsOf g k) : isOp g k = true := by
  unfold argsOf at h; unfold isOp
  cases e : g.defs[k]? with
  | none => rw [e] at h; simp at h
  | some d => cases d with
    | leaf => rw [e] at h; simp [Def.args] at h
    | op f as b => simp [Def.isOp]

theorem argsOf_op {g : G V} {k : Nat} {f : List V → Outcome V} {args : List Nat} {h : Bool}
    (e : g.defs[k]? = some (.op f args h)) : argsOf g k = args := by
  simp [argsOf, e, Def.args]

theorem isOp_iff (g : G V) (k : Nat) :
    isOp g k = true ↔ ∃ f args h, g.defs[k]? = some (.op f args h) := by
  unfold isOp
  cases e : g.defs[k]? with
  | none => simp
  | some d => cases d with
    | leaf => simp [Def.isOp]
    | op f as b => simp [Def.isOp]

theorem Ext.refl (R D Q : Nat → Prop) (g : G V) : Ext R D Q g g :=
  ⟨rfl, rfl, rfl, rfl, rfl, fun _ => rfl, fun _ => rfl, fun _ => Or.inl rfl, fun _ h => h, fun _ _ => rfl,
    fun _ _ h1 h2 => ⟨h1, h2⟩, fun _ => rfl, fun _ _ h => h, fun _ _ h => Or.inl h⟩

theorem Ext.trans {R D Q : Nat → Prop} {a b c : G V} (h1 : Ext R D Q a b) (h2 : Ext R D Q b c) :
    Ext R D Q a c where
  defs := h2.defs.trans h1.defs
  alive := h2.alive.trans h1.alive
  depth := h2.depth.trans h1.depth
  gman := h2.gman.trans h1.gman
  leaves := h2.leaves.trans h1.leaves
  freeze := fun m => (h2.freeze m).trans (h1.freeze m)
  users := fun m => (h2.users m).trans (h1.users m)
  data := fun k => by
    rcases h2.data k with e2 | ⟨o, r⟩
    · rcases h1.data k with e1 | e1
      · exact Or.inl (e2.trans e1)
      · exact Or.inr e1
    · right
      rw [h1.gman, isOp_congr h1.defs] at *
      exact ⟨o, r⟩
  dmono := fun k h => h2.dmono k (h1.dmono k h)
  man := fun m h => (h2.man m h).trans (h1.man m h)
  popped := fun m x h h' => by
    have := h2.popped m x h h'
    exact h1.popped m x this.1 this.2
  len := fun m => by have := h1.len m; have := h2.len m; omega
  qmono := fun m x h => h2.qmono m x (h1.qmono m x h)
  qnew := fun m x h => by
    rcases h2.qnew m x h with h | h
    · exact h1.qnew m x h
    · exact Or.inr h

theorem Ext.weaken {R R' D D' Q Q' : Nat → Prop} {a b : G V} (h1 : Ext R D Q a b) (h : ∀ m, R m → R' m)
    (hD : ∀ m, D m → D' m) (hQ : ∀ k, Q k → Q' k) : Ext R' D' Q' a b where
  defs := h1.defs
  alive := h1.alive
  depth := h1.depth
  gman := h1.gman
  leaves := h1.leaves
  freeze := h1.freeze
  users := h1.users
  data := fun k => (h1.data k).imp id (fun e => ⟨e.1, hD _ e.2⟩)
  dmono := h1.dmono
  man := fun m hm => h1.man m (fun c => hm (h m c))
  popped := h1.popped
  len := h1.len
  qmono := h1.qmono
  qnew := fun m x hx => (h1.qnew m x hx).imp id (hQ x)

theorem WF.ext {R D Q : Nat → Prop} {g g' : G V} (w : WF g) (e : Ext R D Q g g') : WF g' := by
  constructor
  · intro k a h; rw [argsOf_congr e.defs] at h; exact w.args_lt k a h
  · intro k h; rw [e.alive] at h; rw [e.defs]; exact w.alive_lt k h
  · intro k a h h'; rw [e.alive] at *; rw [argsOf_congr e.defs] at h'; exact w.alive_args k a h h'
  · intro k a h ho; rw [e.depth]; rw [argsOf_congr e.defs] at h; rw [isOp_congr e.defs] at ho; exact w.depth_lt k a h ho
  · intro k a h h' h''
    rw [e.alive] at h; rw [argsOf_congr e.defs] at h'; rw [isOp_congr e.defs] at h''; rw [e.gman]
    exact w.gman_eq k a h h' h''
  · intro k; rw [isOp_congr e.defs, e.defs, e.gman]; exact w.gman_lt k

theorem mapM_congr {α β : Type} {f f' : α → Option β} (l : List α) (h : ∀ a ∈ l, f a = f' a) :
    l.mapM f = l.mapM f' := by
  induction l with
  | nil => rfl
  | cons a as ih =>
    rw [List.mapM_cons, List.mapM_cons, h a (by simp), ih (fun b hb => h b (by simp [hb]))]

theorem mapM_some {α β : Type} {f : α → Option β} (l : List α) (h : ∀ a ∈ l, (f a).isSome = true) :
    ∃ vs, l.mapM f = some vs := by
  induction l with
  | nil => exact ⟨[], rfl⟩
  | cons a as ih =>
    obtain ⟨vs, e⟩ := ih (fun b hb => h b (by simp [hb]))
    obtain ⟨v, e'⟩ := Option.isSome_iff_exists.mp (h a (by simp))
    exact ⟨v :: vs, by simp [List.mapM_cons, e, e']⟩

theorem mapM_isSome {α β : Type} {f : α → Option β} (l : List α) (vs : List β) (h : l.mapM f = some vs) :
    ∀ a ∈ l, (f a).isSome = true := by
  induction l generalizing vs with
  | nil => simp
  | cons a as ih =>
    intro b hb
    rw [List.mapM_cons] at h
    cases e : f a with
    | none => rw [e] at h; simp at h
    | some v =>
      rw [e] at h
      cases e' : as.mapM f with
      | none => rw [e'] at h; simp at h
      | some ws =>
        rcases List.mem_cons.mp hb with rfl | hb
        · rw [e]; rfl
        · exact ih ws e' b hb

theorem forward_ok {n : Nat} {g g' : G V} (h : forward n g = .ok g') :
    ∃ f args b vs v, g.defs[n]? = some (.op f args b) ∧ args.mapM g.data = some vs ∧ f vs = .ok v ∧
      g' = { g with data := upd g.data n (some v) } := by
  unfold forward at h
  cases e : g.defs[n]? with
  | none => rw [e] at h; simp at h
  | some d => cases d with
    | leaf => rw [e] at h; simp at h
    | op f args b =>
      rw [e] at h
      cases e2 : args.mapM g.data with
      | none => simp only [e2] at h; cases h
      | some vs =>
        simp only [e2] at h
        rw [Outcome.bind_eq_ok] at h
        obtain ⟨v, hv, h⟩ := h
        cases h
        exact ⟨f, args, b, vs, v, rfl, e2, hv, rfl⟩

theorem Fresh.of_same {g g' : G V} {k : Nat} (hf : Fresh g k) (hd : g'.defs = g.defs)
    (hk : g'.data k = g.data k) (ha : ∀ a ∈ argsOf g k, g'.data a = g.data a) : Fresh g' k := by
  intro f args b e vs hv
  rw [hd] at e
  rw [argsOf_op e] at ha
  rw [mapM_congr args ha] at hv
  rw [hk]
  exact hf f args b e vs hv

/-- The effect of a forward pass. -/
theorem forward_spec {n : Nat} {g g' : G V} {S : Nat → Prop} (w : WF g) (q : QInv g)
    (fq : FQ g (fun k => S k ∨ k = n)) (h : forward n g = .ok g') :
    QInv g' ∧ Ext (fun m => m = g.gman n) (fun m => m = g.gman n) (fun _ => False) g g' ∧ FQ g' (fun k => S k ∨ k ∈ audience g' n) := by
  obtain ⟨f, args, b, vs, v, e1, e2, e3, rfl⟩ := forward_ok h
  have hop : isOp g n = true := (isOp_iff g n).mpr ⟨f, args, b, e1⟩
  have dm : ∀ k, (g.data k).isSome = true → ((upd g.data n (some v)) k).isSome = true := by
    intro k hk; unfold upd; split
    · rfl
    · exact hk
  have ex : Ext (fun m => m = g.gman n) (fun m => m = g.gman n) (fun _ => False) g { g with data := upd g.data n (some v) } := by
    refine ⟨rfl, rfl, rfl, rfl, rfl, fun _ => rfl, fun _ => rfl, ?_, dm, fun _ _ => rfl,
      fun _ _ h1 h2 => ⟨h1, h2⟩, fun _ => rfl, fun _ _ h => h, fun _ _ h => Or.inl h⟩
    intro k
    by_cases hk : k = n
    · subst hk; exact Or.inr ⟨hop, rfl⟩
    · left; simp [upd, hk]
  refine ⟨?_, ex, ?_⟩
  · refine ⟨?_, q.sub, q.mem, ?_, q.mlt, q.uniq, q.mapND, q.queueND⟩
    · intro k ho hs a ha
      by_cases hk : k = n
      · subst hk
        have ha' : a ∈ args := by rw [← argsOf_op e1]; exact ha
        exact dm a (mapM_isSome args vs e2 a ha')
      · have : (g.data k).isSome = true := by simpa [upd, hk] using hs
        exact dm a (q.mono k ho this a ha)
    · intro m x hx
      have := q.mapOp m x hx
      exact ⟨this.1, fun a ha => dm a (this.2 a ha)⟩
  · intro k ha hS
    by_cases hk : k = n
    · subst hk
      left
      intro f' args' b' e' vs' hv'
      have e' : g.defs[k]? = some (.op f' args' b') := e'
      rw [e1] at e'
      cases e'
      have : args.mapM (upd g.data k (some v)) = args.mapM g.data := by
        apply mapM_congr
        intro a ha'
        have : a < k := w.args_lt k a (by rw [argsOf_op e1]; exact ha')
        simp [upd, Nat.ne_of_lt this]
      rw [this, e2] at hv'
      cases hv'
      exact ⟨v, e3, by simp [upd]⟩
    · have hn : k ∉ audience { g with data := upd g.data n (some v) } n := fun c => hS (Or.inr c)
      have hna : n ∉ argsOf g k := by
        intro c
        exact hn ((mem_audience _ n k).mpr ⟨w.alive_lt k ha, ha, c⟩)
      rcases fq k ha (by rintro (c | c); exacts [hS (Or.inl c), hk c]) with hf | hq
      · left
        refine hf.of_same rfl (by simp [upd, hk]) ?_
        intro a haa
        have : a ≠ n := fun c => hna (c ▸ haa)
        simp [upd, this]
      · exact Or.inr hq

theorem FQ.mono {g : G V} {S S' : Nat → Prop} (h : FQ g S) (hs : ∀ k, S k → S' k) : FQ g S' :=
  fun k ha hS => h k ha (fun c => hS (hs k c))

/-- The effect of queueing. -/
theorem addUpdate_spec {n : Nat} {g : G V} {S : Nat → Prop} (q : QInv g) (al : g.alive n = true)
    (op : isOp g n = true) (gl : g.gman n < g.defs.length) (gd : ∀ a ∈ argsOf g n, (g.data a).isSome = true)
    (hp : n ∈ (g.man (g.gman n)).map → n ∈ (g.man (g.gman n)).queue)
    (fq : FQ g (fun k => S k ∨ k = n)) :
    QInv (addUpdate n g) ∧ Ext (fun m => m = g.gman n) (fun _ => False) (fun k => k = n) g (addUpdate n g) ∧ FQ (addUpdate n g) S := by
  unfold addUpdate
  by_cases hm : n ∈ (g.man (g.gman n)).map
  · rw [if_pos hm]
    refine ⟨q, Ext.refl _ _ _ _, ?_⟩
    intro k ha hS
    by_cases hk : k = n
    · subst hk; exact Or.inr (hp hm)
    · exact fq k ha (by rintro (c | c); exacts [hS c, hk c])
  · rw [if_neg hm]
    have hq : n ∉ (g.man (g.gman n)).queue := fun c => hm (q.sub _ _ c)
    have qm : ∀ m x, x ∈ (g.man m).queue → x ∈ (upd g.man (g.gman n) { g.man (g.gman n) with queue := n :: (g.man (g.gman n)).queue, map := n :: (g.man (g.gman n)).map } m).queue := by
      intro m x hx
      unfold upd; split
      · next c => subst c; exact List.mem_cons_of_mem _ hx
      · exact hx
    refine ⟨⟨q.mono, ?_, ?_, ?_, ?_, ?_, ?_, ?_⟩, ⟨rfl, rfl, rfl, rfl, rfl, ?_, ?_, fun _ => Or.inl rfl, fun _ h => h,
      ?_, ?_, ?_, qm, ?_⟩, ?_⟩
    · intro m x hx
      simp only [upd] at hx ⊢
      split at hx
      · next c =>
        rw [if_pos c]
        rcases List.mem_cons.mp hx with rfl | hx
        · simp
        · exact List.mem_cons_of_mem _ (q.sub _ _ hx)
      · next c => rw [if_neg c]; exact q.sub m x hx
    · intro m x hxa hx
      simp only [upd] at hx
      split at hx
      · next c =>
        rcases List.mem_cons.mp hx with rfl | hx
        · exact c.symm
        · rw [c]; exact q.mem _ x hxa hx
      · exact q.mem m x hxa hx
    · intro m x hx
      simp only [upd] at hx
      split at hx
      · rcases List.mem_cons.mp hx with rfl | hx
        · exact ⟨op, gd⟩
        · exact q.mapOp _ x hx
      · exact q.mapOp m x hx
    · intro m x hx
      simp only [upd] at hx
      split at hx
      · next c => rw [c]; exact gl
      · exact q.mlt m x hx
    · have key : ∀ m x, x ∈ (upd g.man (g.gman n) { g.man (g.gman n) with queue := n :: (g.man (g.gman n)).queue, map := n :: (g.man (g.gman n)).map } m).map → (x = n ∧ m = g.gman n) ∨ x ∈ (g.man m).map := by
        intro m x hx
        simp only [upd] at hx
        split at hx
        · next c =>
          rcases List.mem_cons.mp hx with rfl | hx
          · exact Or.inl ⟨rfl, c⟩
          · exact Or.inr (c ▸ hx)
        · exact Or.inr hx
      intro m m' x h1 h2
      rcases key m x h1 with ⟨e, e1⟩ | h1 <;> rcases key m' x h2 with ⟨e', e2⟩ | h2
      · rw [e1, e2]
      · rw [e1]; rw [e] at h2; exact q.mem m' n al h2
      · rw [e2]; rw [e'] at h1; exact (q.mem m n al h1).symm
      · exact q.uniq m m' x h1 h2
    · intro m
      simp only [upd]
      split
      · exact List.nodup_cons.mpr ⟨hm, q.mapND _⟩
      · exact q.mapND m
    · intro m
      simp only [upd]
      split
      · exact List.nodup_cons.mpr ⟨hq, q.queueND _⟩
      · exact q.queueND m
    · intro m; simp only [upd]; split
      · next c => rw [c]
      · rfl
    · intro m; simp only [upd]; split
      · next c => rw [c]
      · rfl
    · intro m hmm; simp only [upd]; rw [if_neg hmm]
    · intro m x h1 h2
      simp only [upd] at h1 h2
      split at h1
      · next c =>
        rw [if_pos c] at h2
        rw [c]
        rcases List.mem_cons.mp h1 with rfl | h1
        · exact absurd (by simp) h2
        · exact ⟨h1, fun c => h2 (List.mem_cons_of_mem _ c)⟩
      · next c => rw [if_neg c] at h2; exact ⟨h1, h2⟩
    · intro m
      simp only [upd]; split
      · next c => rw [c]; simp only [List.length_cons]; omega
      · rfl
    · intro m x hx
      simp only [upd] at hx
      split at hx
      · next c =>
        rcases List.mem_cons.mp hx with rfl | hx
        · exact Or.inr rfl
        · rw [c]; exact Or.inl hx
      · exact Or.inl hx
    · intro k ha hS
      by_cases hk : k = n
      · subst hk; right; simp [upd]
      · rcases fq k ha (by rintro (c | c); exacts [hS c, hk c]) with hf | hq
        · exact Or.inl (hf.of_same rfl rfl (fun _ _ => rfl))
        · exact Or.inr (qm _ _ hq)

/-- Popped nodes are less deep than `d`. -/
def PopLe (g : G V) (d : Nat) : Prop :=
  ∀ m x, x ∈ (g.man m).map → x ∉ (g.man m).queue → g.depth x < d

theorem PopLe.ext {R D Q : Nat → Prop} {g g' : G V} {d : Nat} (p : PopLe g d) (e : Ext R D Q g g') : PopLe g' d := by
  intro m x h1 h2
  have := e.popped m x h1 h2
  rw [e.depth]
  exact p m x this.1 this.2

/-- The specification of a notification. -/
def NotifyOK (rec : Nat → G V → Outcome (G V)) : Prop :=
  ∀ n g g' (S : Nat → Prop) d, rec n g = .ok g' → WF g → QInv g → PopLe g d → d ≤ (if isOp g n = true then g.depth n + 1 else 0) →
    FQ g (fun k => S k ∨ k ∈ audience g n) →
    QInv g' ∧ Ext (fun m => isOp g n = true → m = g.gman n)
      (fun m => (isOp g n = true → m = g.gman n) ∧ (g.man m).freeze = false)
      (fun k => isOp g n = true → g.depth n < g.depth k) g g' ∧ FQ g' S

theorem updateWith_spec {rec : Nat → G V → Outcome (G V)} (hr : NotifyOK rec) {n : Nat} {g g' : G V}
    {S : Nat → Prop} {d : Nat} (w : WF g) (q : QInv g) (p : PopLe g d) (al : g.alive n = true)
    (op : isOp g n = true) (hd : d ≤ g.depth n) (fq : FQ g (fun k => S k ∨ k = n))
    (h : updateWith rec n g = .ok g') :
    QInv g' ∧ Ext (fun m => m = g.gman n) (fun m => m = g.gman n ∧ (g.man m).freeze = false)
      (fun k => g.depth n ≤ g.depth k) g g' ∧ FQ g' S := by
  unfold updateWith at h
  by_cases hg : (argsOf g n).all (good g) = true
  · rw [if_pos hg] at h
    have gd : ∀ a ∈ argsOf g n, (g.data a).isSome = true := fun a ha => List.all_eq_true.mp hg a ha
    by_cases hc : ((g.man (g.gman n)).freeze || decide (1 < (argsOf g n).length)) = true
    · rw [if_pos hc] at h
      cases h
      have hp : n ∈ (g.man (g.gman n)).map → n ∈ (g.man (g.gman n)).queue := by
        intro hm
        by_contra hq
        have := p _ _ hm hq
        omega
      obtain ⟨q1, e1, f1⟩ := addUpdate_spec q al op (w.gman_lt n op) gd hp fq
      exact ⟨q1, e1.weaken (fun _ h => h) (fun _ h => h.elim) (fun _ h => h ▸ Nat.le_refl _), f1⟩
    · rw [if_neg hc, Outcome.bind_eq_ok] at h
      obtain ⟨g1, h1, h2⟩ := h
      have fz : (g.man (g.gman n)).freeze = false := by
        cases e : (g.man (g.gman n)).freeze with
        | false => rfl
        | true => simp [e] at hc
      obtain ⟨q1, e1, f1⟩ := forward_spec w q fq h1
      have w1 := w.ext e1
      obtain ⟨q2, e2, f2⟩ := hr n g1 g' S d h2 w1 q1 (p.ext e1) (by rw [e1.depth, isOp_congr e1.defs, if_pos op]; omega) f1
      have op1 : isOp g1 n = true := by rw [isOp_congr e1.defs]; exact op
      refine ⟨q2, (e1.weaken (fun _ h => h) ?_ (fun _ h => h.elim)).trans (e2.weaken ?_ ?_ ?_), f2⟩
      · intro m hm; exact ⟨hm, by rw [hm]; exact fz⟩
      · intro m hm
        rw [hm op1, e1.gman]
      · intro m hm
        refine ⟨by rw [hm.1 op1, e1.gman], ?_⟩
        rw [← e1.freeze]; exact hm.2
      · intro k hk; rw [e1.depth] at hk; exact Nat.le_of_lt (hk op1)
  · rw [if_neg hg] at h
    cases h
    refine ⟨q, Ext.refl _ _ _ _, ?_⟩
    intro k ha hS
    by_cases hk : k = n
    · subst hk
      left
      intro f args b e vs hv
      exfalso
      apply hg
      rw [List.all_eq_true]
      intro a haa
      rw [argsOf_op e] at haa
      exact mapM_isSome args vs hv a haa
    · exact fq k ha (by rintro (c | c); exacts [hS c, hk c])

theorem notify_spec (sch : Sched) (fuel : Nat) : NotifyOK (notify (V := V) sch fuel) := by
  induction fuel with
  | zero => intro n g g' S d h; simp [notify] at h
  | succ fuel ih =>
    intro n g g' S d h w q p hd fq
    rw [notify] at h
    have hmem : ∀ k, k ∈ sch.aud n (audience g n) ↔ k ∈ audience g n :=
      fun k => (sch.aud_perm n _).mem_iff
    let R : Nat → Prop := fun m => isOp g n = true → m = g.gman n
    let D : Nat → Prop := fun m => R m ∧ (g.man m).freeze = false
    have key := forEach_ok
      (P := fun l g1 => (∀ k ∈ l, k ∈ audience g n) ∧ QInv g1 ∧ Ext R D (fun k => isOp g n = true → g.depth n < g.depth k) g g1 ∧
        FQ g1 (fun k => S k ∨ k ∈ l)) _ (sch.aud n (audience g n)) g g'
      ⟨fun k hk => (hmem k).mp hk, q, Ext.refl _ _ _ _,
        fq.mono (by intro k hk; rcases hk with hk | hk; exacts [Or.inl hk, Or.inr ((hmem k).mpr hk)])⟩
      (by
        intro k ks g1 g2 ⟨hl, q1, e1, f1⟩ hk
        have hka := (mem_audience g n k).mp (hl k (by simp))
        have hop : isOp g k = true := isOp_of_arg hka.2.2
        have w1 := w.ext e1
        have := updateWith_spec (S := fun j => S j ∨ j ∈ ks) ih w1 q1 (p.ext e1) (by rw [e1.alive]; exact hka.2.1)
          (by rw [isOp_congr e1.defs]; exact hop)
          (d := d) (by
            rw [e1.depth]
            by_cases c : isOp g n = true
            · rw [if_pos c] at hd; exact Nat.le_trans hd (w.depth_lt k n hka.2.2 c)
            · rw [if_neg c] at hd; omega)
          (f1.mono (by
            intro j hj
            rcases hj with hj | hj
            · exact Or.inl (Or.inl hj)
            · rcases List.mem_cons.mp hj with rfl | hj
              · exact Or.inr rfl
              · exact Or.inl (Or.inr hj))) hk
        obtain ⟨q2, e2, f2⟩ := this
        have hR : ∀ m, m = g1.gman k → R m := by
          intro m hm hn
          rw [hm, e1.gman]
          exact (w.gman_eq k n hka.2.1 hka.2.2 hn).symm
        refine ⟨fun j hj => hl j (by simp [hj]), q2, e1.trans (e2.weaken hR ?_ ?_), f2⟩
        · intro m hm
          exact ⟨hR m hm.1, by rw [← e1.freeze]; exact hm.2⟩
        · intro j hj hn
          rw [e1.depth] at hj
          exact Nat.lt_of_lt_of_le (w.depth_lt k n hka.2.2 hn) hj) h
    obtain ⟨_, q2, e2, f2⟩ := key
    exact ⟨q2, e2, f2.mono (by simp)⟩

end Graph
end Verif
