import Verif.Lemmas.FaultStuck
import Verif.Spec.Fault
/-!
# The graph after exceptions: what assigning every leaf again repairs
-/
namespace Verif
namespace Graph
open React (upd)

variable {V : Type}

/-- `k` is an operation over `s`. -/
inductive Above (g : G V) (s : Nat) : Nat → Prop
  | arg {k : Nat} : s ∈ argsOf g k → Above g s k
  | step {a k : Nat} : Above g s a → a ∈ argsOf g k → Above g s k

theorem Above.congr {g g' : G V} (hd : g'.defs = g.defs) {s k : Nat} (h : Above g s k) : Above g' s k := by
  induction h with
  | arg h => exact .arg (by rw [argsOf_congr hd]; exact h)
  | step _ h ih => exact .step ih (by rw [argsOf_congr hd]; exact h)

theorem Above.data {g : G V} {s k : Nat} (h : Above g s k) (f : Nat → Option V) : Above { g with data := f } s k :=
  Above.congr (g := g) (g' := { g with data := f }) rfl h

theorem Above.man {g : G V} {s k : Nat} (h : Above g s k) (f : Nat → Man) : Above { g with man := f } s k :=
  Above.congr (g := g) (g' := { g with man := f }) rfl h

theorem Above.here {g : G V} (w : WF g) {s k : Nat} (h : Above g s k) (hk : g.alive k = true) (hs : isOp g s = true) :
    g.alive s = true ∧ g.gman s = g.gman k := by
  induction h with
  | arg h => exact ⟨w.alive_args _ _ hk h, w.gman_eq _ _ hk h hs⟩
  | @step a k h1 h2 ih =>
    have ha := w.alive_args _ _ hk h2
    have ho : isOp g a = true := by
      cases h1 with
      | arg h => exact isOp_of_arg h
      | step _ h => exact isOp_of_arg h
    have := ih ha
    exact ⟨this.1, this.2.trans (w.gman_eq _ _ hk h2 ho)⟩

/-- Through which argument of the first node the path goes. -/
theorem Above.first {g : G V} (w : WF g) {s k : Nat} (h : Above g s k) (hk : g.alive k = true) :
    ∃ c, s ∈ argsOf g c ∧ g.alive c = true ∧ (k = c ∨ Above g c k) := by
  induction h with
  | @arg k h => exact ⟨k, h, hk, Or.inl rfl⟩
  | @step a k h1 h2 ih =>
    obtain ⟨c, h3, h4, h5⟩ := ih (w.alive_args _ _ hk h2)
    refine ⟨c, h3, h4, Or.inr ?_⟩
    rcases h5 with rfl | h5
    · exact .arg h2
    · exact .step h5 h2

/-- Every operation of the graph `m` is up to date, or is at or over a queued node, over a node of `A`, or at or over one
of `B`. -/
def Due (m : Nat) (g : G V) (A B : Nat → Prop) : Prop :=
  ∀ k, g.alive k = true → isOp g k = true → g.gman k = m →
    Fresh g k ∨ (∃ s ∈ (g.man m).queue, k = s ∨ Above g s k) ∨ (∃ s, A s ∧ Above g s k) ∨ ∃ s, B s ∧ (k = s ∨ Above g s k)

/-- The nodes registered in `m` are queued, or of depth less than `d`. -/
def PL (m d : Nat) (g : G V) : Prop := ∀ x ∈ (g.man m).map, x ∈ (g.man m).queue ∨ g.depth x < d

theorem Due.mono {m : Nat} {g : G V} {A B A' B' : Nat → Prop} (j : Due m g A B) (ha : ∀ s, A s → A' s) (hb : ∀ s, B s → B' s) : Due m g A' B' := by
  intro k h1 h2 h3
  rcases j k h1 h2 h3 with h | h | ⟨s, h, h'⟩ | ⟨s, h, h'⟩
  · exact Or.inl h
  · exact Or.inr (Or.inl h)
  · exact Or.inr (Or.inr (Or.inl ⟨s, ha s h, h'⟩))
  · exact Or.inr (Or.inr (Or.inr ⟨s, hb s h, h'⟩))

/-- Data of one node change. -/
theorem Due.setData {m : Nat} {g : G V} {A B : Nat → Prop} {n : Nat} {v : Option V} (j : Due m g A (fun k => B k ∨ k = n))
    (hf : isOp g n = true → Fresh { g with data := upd g.data n v } n) :
    Due m { g with data := upd g.data n v } (fun s => (A s ∧ s ≠ n) ∨ s = n) B := by
  intro k h1 h2 h3
  change g.alive k = true at h1
  change isOp g k = true at h2
  change g.gman k = m at h3
  by_cases hk : k = n
  · subst hk; exact Or.inl (hf h2)
  by_cases hab : Above g n k
  · exact Or.inr (Or.inr (Or.inl ⟨n, Or.inr rfl, hab.data _⟩))
  rcases j k h1 h2 h3 with h | ⟨s, h, h'⟩ | ⟨s, h, h'⟩ | ⟨s, h, h'⟩
  · refine Or.inl (fun f args b e vs hv => ?_)
    have e' : g.defs[k]? = some (.op f args b) := e
    have hn : n ∉ args := fun c => hab (.arg (by rw [argsOf_op e']; exact c))
    have hm : args.mapM (upd g.data n v) = args.mapM g.data := by
      refine mapM_congr args (fun a ha => ?_)
      unfold upd
      exact if_neg (fun c : a = n => hn (c ▸ ha))
    obtain ⟨u, h4, h5⟩ := h f args b e' vs (hm ▸ hv)
    refine ⟨u, h4, ?_⟩
    show upd g.data n v k = some u
    unfold upd
    rw [if_neg hk]; exact h5
  · exact Or.inr (Or.inl ⟨s, h, h'.imp id (fun q => q.data _)⟩)
  · by_cases hs : s = n
    · subst hs; exact absurd h' hab
    · exact Or.inr (Or.inr (Or.inl ⟨s, Or.inl ⟨h, hs⟩, h'.data _⟩))
  · rcases h with h | rfl
    · exact Or.inr (Or.inr (Or.inr ⟨s, h, h'.imp id (fun q => q.data _)⟩))
    · exact absurd h' (by rintro (c | c); exacts [hk c, hab c])

theorem forwardR_done {n : Nat} {g g' : G V} (h : forwardR n g = .done g') : ∃ f args b vs v, g.defs[n]? = some (.op f args b) ∧
    args.mapM g.data = some vs ∧ f vs = .ok v ∧ g' = { g with data := upd g.data n (some v) } := by
  unfold forwardR at h
  split at h
  · rename_i f args b e
    split at h
    · rename_i vs e1
      split at h
      · rename_i v e2
        cases h
        exact ⟨f, args, b, vs, v, e, e1, e2, rfl⟩
      · cases h
      · cases h
      · cases h
    · cases h
  · cases h

theorem Due.forward {m : Nat} {g g' : G V} {A B : Nat → Prop} {n : Nat} (w : WF g) (j : Due m g A (fun k => B k ∨ k = n))
    (h : forwardR n g = .done g') : Due m g' (fun s => (A s ∧ s ≠ n) ∨ s = n) B := by
  obtain ⟨f, args, b, vs, v, e, e1, e2, rfl⟩ := forwardR_done h
  refine j.setData (fun _ => ?_)
  intro f' args' b' e' vs' h'
  have e'' : g.defs[n]? = some (.op f' args' b') := e'
  rw [e] at e''
  cases e''
  have hm : args.mapM (upd g.data n (some v)) = args.mapM g.data := by
    refine mapM_congr args (fun a ha => ?_)
    have := w.args_lt n a (by rw [argsOf_op e]; exact ha)
    unfold upd
    rw [if_neg (by omega)]
  have h'' : args.mapM (upd g.data n (some v)) = some vs' := h'
  rw [hm, e1] at h''
  cases h''
  exact ⟨v, e2, by simp [upd]⟩

theorem Due.add {m d : Nat} {g : G V} {A B : Nat → Prop} {n : Nat} (w : WF g) (p : PL m d g) (hd : d ≤ g.depth n) (ho : isOp g n = true)
    (j : Due m g A (fun k => B k ∨ k = n)) : Due m (addUpdate n g) A B ∧ PL m d (addUpdate n g) := by
  have hq : ∀ s, s ∈ (g.man m).queue → s ∈ ((addUpdate n g).man m).queue := by
    intro s hs
    rw [addUpdate_man]
    split
    · exact hs
    · split
      · rename_i _ h; rw [h] at hs; exact List.mem_cons_of_mem _ hs
      · exact hs
  have hdf : (addUpdate n g).defs = g.defs := by unfold addUpdate; split <;> rfl
  have hal : (addUpdate n g).alive = g.alive := by unfold addUpdate; split <;> rfl
  have hgm : (addUpdate n g).gman = g.gman := by unfold addUpdate; split <;> rfl
  have hdp : (addUpdate n g).depth = g.depth := by unfold addUpdate; split <;> rfl
  have hdt : (addUpdate n g).data = g.data := by unfold addUpdate; split <;> rfl
  constructor
  · intro k h1 h2 h3
    rw [hal] at h1; rw [isOp_congr hdf] at h2; rw [hgm] at h3
    rcases j k h1 h2 h3 with h | ⟨s, h, h'⟩ | ⟨s, h, h'⟩ | ⟨s, h, h'⟩
    · left; intro f args b e vs hv; rw [hdf] at e; rw [hdt] at hv ⊢; exact h f args b e vs hv
    · exact Or.inr (Or.inl ⟨s, hq s h, h'.imp id (fun q => q.congr hdf)⟩)
    · exact Or.inr (Or.inr (Or.inl ⟨s, h, h'.congr hdf⟩))
    · rcases h with h | rfl
      · exact Or.inr (Or.inr (Or.inr ⟨s, h, h'.imp id (fun q => q.congr hdf)⟩))
      · have gs : g.gman s = m := by
          rcases h' with rfl | h'
          · exact h3
          · rw [(h'.here w h1 ho).2]; exact h3
        refine Or.inr (Or.inl ⟨s, ?_, h'.imp id (fun q => q.congr hdf)⟩)
        by_cases hm : s ∈ (g.man m).map
        · rcases p s hm with h | h
          · exact hq s h
          · omega
        · rw [addUpdate_man, if_neg (by rw [gs]; exact hm), if_pos gs.symm]
          exact List.mem_cons_self
  · intro x hx
    rw [hdp]
    rw [addUpdate_man] at hx
    split at hx
    · exact (p x hx).imp (hq x) id
    · rename_i hn
      split at hx
      · rename_i h
        rcases List.mem_cons.1 hx with rfl | hx
        · left; rw [addUpdate_man, if_neg hn, if_pos h]; exact List.mem_cons_self
        · rw [← h] at hx
          exact (p x hx).imp (hq x) id
      · exact (p x hx).imp (hq x) id

/-- Null data spread upwards. -/
theorem above_null {g : G V} (q : QInv g) {n k : Nat} (hn : ∃ a ∈ argsOf g n, (g.data a).isSome = false) (h : k = n ∨ Above g n k) :
    ∃ a ∈ argsOf g k, (g.data a).isSome = false := by
  rcases h with rfl | h
  · exact hn
  · have key : ∀ j, (∃ a ∈ argsOf g j, (g.data a).isSome = false) → (g.data j).isSome = false := by
      rintro j ⟨a, ha, hb⟩
      cases e : (g.data j).isSome with
      | false => rfl
      | true =>
        have := q.mono j (isOp_of_arg ha) e a ha
        rw [hb] at this; cases this
    induction h with
    | @arg k h => exact ⟨n, h, key n hn⟩
    | @step a k h1 h2 ih => exact ⟨a, h2, key a ih⟩

theorem Due.bad {m : Nat} {g : G V} {A B : Nat → Prop} {n : Nat} (q : QInv g) (hn : ∃ a ∈ argsOf g n, (g.data a).isSome = false)
    (j : Due m g A (fun k => B k ∨ k = n)) : Due m g A B := by
  intro k h1 h2 h3
  rcases j k h1 h2 h3 with h | h | h | ⟨s, h, h'⟩
  · exact Or.inl h
  · exact Or.inr (Or.inl h)
  · exact Or.inr (Or.inr (Or.inl h))
  · rcases h with h | rfl
    · exact Or.inr (Or.inr (Or.inr ⟨s, h, h'⟩))
    · left
      obtain ⟨a, ha, hb⟩ := above_null q hn h'
      intro f args b e vs hv
      rw [argsOf_op e] at ha
      have := mapM_isSome args vs hv a ha
      rw [hb] at this; cases this

/-- What telling the observers of `n` does. -/
def NotifyJ (m d : Nat) (rec : Nat → G V → Res (G V)) : Prop :=
  ∀ n (g g' : G V) (A B : Nat → Prop), rec n g = .done g' → WF g → QInv g → PL m d g → d ≤ (if isOp g n = true then g.depth n + 1 else 0) →
    Due m g (fun s => A s ∨ s = n) B → Due m g' A B ∧ PL m d g'

theorem updateR_due {m d : Nat} {rec : Nat → G V → Res (G V)} (hr : NotifyJ m d rec) {n : Nat} {g g' : G V} {A B : Nat → Prop}
    (h : updateR rec n g = .done g') (w : WF g) (q : QInv g) (p : PL m d g) (hd : d ≤ g.depth n) (ho : isOp g n = true)
    (j : Due m g A (fun k => B k ∨ k = n)) : Due m g' A B ∧ PL m d g' := by
  unfold updateR at h
  split at h
  · split at h
    · cases h
      exact Due.add w p hd ho j
    · cases e : forwardR n g with
      | done g1 =>
        rw [e] at h
        change rec n g1 = .done g' at h
        have ws := forwardR_weak (n := n) w q
        rw [e] at ws
        obtain ⟨q1, e1⟩ := ws
        have j1 := Due.forward w j e
        obtain ⟨f, args, b, vs, v, _, _, _, rfl⟩ := forwardR_done e
        exact hr n _ g' A B h (w.ext e1) q1 p (by
          change d ≤ (if isOp g n = true then g.depth n + 1 else 0)
          rw [if_pos ho]; exact Nat.le_succ_of_le hd) (j1.mono (fun s hs => hs.imp (fun c => c.1) id) (fun _ c => c))
      | thrown x g1 => rw [e] at h; cases h
      | abort => rw [e] at h; cases h
      | ub => rw [e] at h; cases h
  · cases h
    rename_i hg
    refine ⟨Due.bad q ?_ j, p⟩
    rw [List.all_eq_true] at hg
    push Not at hg
    obtain ⟨a, ha, hb⟩ := hg
    exact ⟨a, ha, by simpa [good] using hb⟩

theorem forEachR_done {α σ : Type} (P : List α → σ → Prop) (body : α → σ → Res σ) : ∀ (l : List α) (s s' : σ), P l s →
    (∀ x xs s s1, P (x :: xs) s → body x s = .done s1 → P xs s1) → forEachR body l s = .done s' → P [] s' := by
  intro l
  induction l with
  | nil => intro s s' h _ e; cases e; exact h
  | cons x xs ih =>
    intro s s' h hs e
    rw [forEachR] at e
    cases e1 : body x s with
    | done s1 => rw [e1] at e; exact ih s1 s' (hs x xs s s1 h e1) hs e
    | thrown _ _ => rw [e1] at e; cases e
    | abort => rw [e1] at e; cases e
    | ub => rw [e1] at e; cases e

theorem notifyR_due (m d : Nat) (sch : Sched) (fuel : Nat) : NotifyJ (V := V) m d (notifyR sch fuel) := by
  induction fuel with
  | zero => intro n g g' A B h; cases h
  | succ fuel ih =>
    intro n g g' A B h w q p hd j
    rw [notifyR] at h
    have hmem : ∀ k, k ∈ sch.aud n (audience g n) ↔ k ∈ audience g n := fun k => (sch.aud_perm n _).mem_iff
    have j0 : Due m g A (fun s => B s ∨ s ∈ sch.aud n (audience g n)) := by
      intro k h1 h2 h3
      rcases j k h1 h2 h3 with h | h | ⟨s, h, h'⟩ | ⟨s, h, h'⟩
      · exact Or.inl h
      · exact Or.inr (Or.inl h)
      · rcases h with h | rfl
        · exact Or.inr (Or.inr (Or.inl ⟨s, h, h'⟩))
        · obtain ⟨c, c1, c2, c3⟩ := h'.first w h1
          exact Or.inr (Or.inr (Or.inr ⟨c, Or.inr ((hmem c).2 ((mem_audience g s c).2 ⟨w.alive_lt c c2, c2, c1⟩)), c3⟩))
      · exact Or.inr (Or.inr (Or.inr ⟨s, Or.inl h, h'⟩))
    have := forEachR_done (P := fun l g1 => (∀ k ∈ l, k ∈ audience g n) ∧ WF g1 ∧ QInv g1 ∧ g1.defs = g.defs ∧ g1.alive = g.alive ∧ g1.depth = g.depth ∧
        PL m d g1 ∧ Due m g1 A (fun s => B s ∨ s ∈ l)) _ _ g g' ⟨fun k hk => (hmem k).1 hk, w, q, rfl, rfl, rfl, p, j0⟩ ?_ h
    · obtain ⟨_, _, _, _, _, _, p', j'⟩ := this
      exact ⟨j'.mono (fun _ c => c) (fun s c => c.elim id (fun c => by simp at c)), p'⟩
    · rintro k ks g1 g2 ⟨hl, w1, q1, d1, a1, dp1, p1, j1⟩ hu
      have hka := (mem_audience g n k).mp (hl k (by simp))
      have hop : isOp g1 k = true := by rw [isOp_congr d1]; exact isOp_of_arg hka.2.2
      have ws := updateR_weak (notifyR_weak sch fuel) (n := k) w1 q1 (by rw [a1]; exact hka.2.1) hop
      rw [hu] at ws
      obtain ⟨q2, e2⟩ := ws
      have := updateR_due ih (n := k) (A := A) (B := fun s => B s ∨ s ∈ ks) hu w1 q1 p1
        (by
          rw [dp1]
          by_cases c : isOp g n = true
          · rw [if_pos c] at hd; exact Nat.le_trans hd (w.depth_lt k n hka.2.2 c)
          · rw [if_neg c] at hd; omega) hop
        (j1.mono (fun _ c => c) (fun s c => by
          rcases c with c | c
          · exact Or.inl (Or.inl c)
          · rcases List.mem_cons.1 c with c | c
            · exact Or.inr c
            · exact Or.inl (Or.inr c)))
      exact ⟨fun x hx => hl x (by simp [hx]), w1.ext e2, q2, e2.defs.trans d1, e2.alive.trans a1, e2.depth.trans dp1, this.2, this.1⟩

theorem popState_due {m d x : Nat} {g : G V} {A : Nat → Prop} (p : PL m d g) (hx : x ∈ (g.man m).queue) (hd : ∀ y ∈ (g.man m).queue, d ≤ g.depth y + 1)
    (j : Due m g A (fun _ => False)) : Due m (popState m x g) A (fun k => k = x) ∧ PL m (g.depth x + 1) (popState m x g) := by
  have hq : ((popState m x g).man m).queue = (g.man m).queue.erase x := by simp [popState, upd]
  have hm : ((popState m x g).man m).map = (g.man m).map := by simp [popState, upd]
  have split : ∀ y ∈ (g.man m).queue, y = x ∨ y ∈ (g.man m).queue.erase x := fun y hy => by
    by_cases e : y = x
    · exact Or.inl e
    · exact Or.inr ((List.mem_erase_of_ne e).2 hy)
  constructor
  · intro k h1 h2 h3
    rcases j k h1 h2 h3 with h | ⟨s, h, h'⟩ | ⟨s, h, h'⟩ | ⟨s, h, h'⟩
    · exact Or.inl h
    · rcases split s h with rfl | c
      · exact Or.inr (Or.inr (Or.inr ⟨s, rfl, h'.imp id (fun c => c.man _)⟩))
      · exact Or.inr (Or.inl ⟨s, by rw [hq]; exact c, h'.imp id (fun c => c.man _)⟩)
    · exact Or.inr (Or.inr (Or.inl ⟨s, h, h'.man _⟩))
    · exact h.elim
  · intro y hy
    rw [hm] at hy
    show y ∈ ((popState m x g).man m).queue ∨ g.depth y < g.depth x + 1
    rcases p y hy with h | h
    · rcases split y h with rfl | c
      · exact Or.inr (Nat.lt_succ_self _)
      · left; rw [hq]; exact c
    · exact Or.inr (Nat.lt_of_lt_of_le h (hd x hx))

theorem drainR_due (sch : Sched) (m : Nat) (A : Nat → Prop) (fuel : Nat) : ∀ (g g' : G V) (d : Nat), drainR sch m fuel g = .done g' → WF g → QInv g →
    PL m d g → (∀ y ∈ (g.man m).queue, d ≤ g.depth y + 1) → Due m g A (fun _ => False) →
    Due m g' A (fun _ => False) ∧ (g'.man m).queue = [] ∧ (g'.man m).map = [] := by
  have base : ∀ g : G V, (g.man m).queue = [] → Due m g A (fun _ => False) →
      Due m (clearMap m g) A (fun _ => False) ∧ ((clearMap m g).man m).queue = [] ∧ ((clearMap m g).man m).map = [] := by
    intro g hq j
    refine ⟨?_, by simpa [clearMap, upd] using hq, by simp [clearMap, upd]⟩
    intro k h1 h2 h3
    rcases j k h1 h2 h3 with h | ⟨s, h, h'⟩ | ⟨s, h, h'⟩ | ⟨s, h, h'⟩
    · exact Or.inl h
    · rw [hq] at h; simp at h
    · exact Or.inr (Or.inr (Or.inl ⟨s, h, h'.man _⟩))
    · exact h.elim
  induction fuel with
  | zero =>
    intro g g' d h w q p hd j
    cases e : top g.depth (sch.pop 0 (g.man m).queue) with
    | none => rw [drainR_none e] at h; cases h; exact base g (pop_none e) j
    | some x => rw [drainR_zero e] at h; cases h
  | succ fuel ih =>
    intro g g' d h w q p hd j
    cases e : top g.depth (sch.pop (fuel + 1) (g.man m).queue) with
    | none => rw [drainR_none e] at h; cases h; exact base g (pop_none e) j
    | some x =>
      rw [drainR_succ e] at h
      cases e1 : drainOneR sch m x g with
      | done g1 =>
        rw [e1] at h
        change drainR sch m fuel g1 = .done g' at h
        have ws := drainOneR_weak (sch := sch) w q (pop_top e).1
        rw [e1] at ws
        have hx := (pop_top e).1
        have hop : isOp g x = true := (q.mapOp m x (q.sub m x hx)).1
        obtain ⟨j0, p0⟩ := popState_due p hx hd j
        unfold drainOneR at e1
        split at e1
        · rename_i hal
          change ((forwardR x (popState m x g)).andThen fun g => notifyR sch (g.defs.length + 1) x g) = .done g1 at e1
          have w0 := w.frame (popState_frame m x g)
          have q0 : QInv (popState m x g) := popState_qinv q
          cases e2 : forwardR x (popState m x g) with
          | done g2 =>
            rw [e2] at e1
            change notifyR sch (g2.defs.length + 1) x g2 = .done g1 at e1
            have ws2 := forwardR_weak (n := x) w0 q0
            rw [e2] at ws2
            obtain ⟨q2, x2⟩ := ws2
            have j2 := Due.forward (B := fun _ => False) w0 (j0.mono (fun _ c => c) (fun _ c => Or.inr c)) e2
            obtain ⟨f, args, b, vs, v, _, _, _, rfl⟩ := forwardR_done e2
            have w2 := w0.ext x2
            have ws3 := notifyR_weak sch (g.defs.length + 1) x _ w2 q2
            have e3 : notifyR sch (g.defs.length + 1) x { popState m x g with data := upd (popState m x g).data x (some v) } = .done g1 := e1
            rw [e3] at ws3
            obtain ⟨q3, x3⟩ := ws3
            obtain ⟨j3, p3⟩ := notifyR_due m (g.depth x + 1) sch _ x _ g1 A (fun _ => False) e1 w2 q2 p0 (by
              change g.depth x + 1 ≤ (if isOp g x = true then g.depth x + 1 else 0)
              rw [if_pos hop])
              (j2.mono (fun s hs => hs.imp (fun c => c.1) id) (fun _ c => c))
            refine ih g1 g' (g.depth x + 1) h (w.frame ws.2.1) ws.1 p3 ?_ j3
            intro y hy
            rw [x3.depth]
            show g.depth x + 1 ≤ g.depth y + 1
            apply Nat.succ_le_succ
            rcases x3.qnew m y hy with c | c
            · have c' : y ∈ (g.man m).queue := List.erase_subset (by
                have : y ∈ ((popState m x g).man m).queue := c
                simpa [popState, upd] using this)
              exact (pop_top e).2 y c'
            · exact Nat.le_of_lt (c hop)
          | thrown a b => rw [e2] at e1; cases e1
          | abort => rw [e2] at e1; cases e1
          | ub => rw [e2] at e1; cases e1
        · cases e1
      | thrown a b => rw [e1] at h; cases h
      | abort => rw [e1] at h; cases h
      | ub => rw [e1] at h; cases h

theorem drainR_cleared (sch : Sched) (m fuel : Nat) : ∀ (g g' : G V), drainR sch m fuel g = .done g' → (g'.man m).queue = [] ∧ (g'.man m).map = [] := by
  have base : ∀ g : G V, (g.man m).queue = [] → ((clearMap m g).man m).queue = [] ∧ ((clearMap m g).man m).map = [] :=
    fun g hq => ⟨by simpa [clearMap, upd] using hq, by simp [clearMap, upd]⟩
  induction fuel with
  | zero =>
    intro g g' h
    cases e : top g.depth (sch.pop 0 (g.man m).queue) with
    | none => rw [drainR_none e] at h; cases h; exact base g (pop_none e)
    | some x => rw [drainR_zero e] at h; cases h
  | succ fuel ih =>
    intro g g' h
    cases e : top g.depth (sch.pop (fuel + 1) (g.man m).queue) with
    | none => rw [drainR_none e] at h; cases h; exact base g (pop_none e)
    | some x =>
      rw [drainR_succ e] at h
      cases e1 : drainOneR sch m x g with
      | done g1 => rw [e1] at h; exact ih g1 g' h
      | thrown a b => rw [e1] at h; cases h
      | abort => rw [e1] at h; cases h
      | ub => rw [e1] at h; cases h

/-- Operations have arguments. -/
def NE (g : G V) : Prop := ∀ k, isOp g k = true → argsOf g k ≠ []

theorem NE.congr {g g' : G V} (h : NE g) (hd : g'.defs = g.defs) : NE g' := fun k hk => by
  rw [argsOf_congr hd]; exact h k (by rw [← isOp_congr hd]; exact hk)

theorem NE.push {g g' : G V} (h : NE g) {x : Def V} (hd : g'.defs = g.defs ++ [x]) (hx : x.isOp = true → x.args ≠ []) : NE g' := by
  intro k hk
  unfold isOp at hk
  unfold argsOf
  rw [hd] at hk ⊢
  by_cases c : k < g.defs.length
  · rw [List.getElem?_append_left c] at hk ⊢
    exact h k hk
  · by_cases c' : k = g.defs.length
    · subst c'
      simp at hk ⊢
      exact hx hk
    · rw [List.getElem?_eq_none (by simp; omega)] at hk; simp at hk

theorem stepR_ne {sch : Sched} {c : Call V} {g : G V} (i : InvW g) (n : NE g) : (stepR sch c g).Holds NE := by
  cases c with
  | newLeaf v => exact NE.push (g' := newLeaf v g) n rfl (fun h => by cases h)
  | newOp f args h =>
    show (newOpR sch f args h g).Holds NE
    unfold newOpR
    split
    · trivial
    · rename_i hne
      split
      · rename_i hal
        have hargs : ∀ a ∈ args, g.alive a = true := by simpa using hal
        obtain ⟨ic, dc, tc, ac⟩ := i.construct f args h hargs
        have hop : isOp (construct f args h g) g.defs.length = true := by unfold isOp; rw [dc]; simp [Def.isOp]
        have ws := updateR_weak (notifyR_weak sch (g.defs.length + 2)) (n := g.defs.length) ic.wf ic.q (by rw [ac]; simp [upd]) hop
        have n1 : NE (construct f args h g) := n.push dc (fun _ => hne)
        cases e : updateR (notifyR sch (g.defs.length + 2)) g.defs.length (construct f args h g) with
        | done a => rw [e] at ws; exact n1.congr ws.2.defs
        | thrown a b => exact n
        | abort => trivial
        | ub => trivial
      · trivial
  | assign l v b =>
    show (assignR sch l v b g).Holds NE
    unfold assignR
    split
    · rename_i c
      simp only [Bool.and_eq_true, Bool.not_eq_true'] at c
      have i1 := i.setLeaf l v c.2
      have n1 : NE (setLeaf l v g) := NE.congr n (g' := setLeaf l v g) rfl
      split
      · exact (notifyR_weak sch _ l (setLeaf l v g) i1.wf i1.q).mono fun g' h => n1.congr h.2.defs
      · exact n1
    · trivial
  | eval l =>
    show (evalR sch l g).Holds NE
    unfold evalR
    split
    · split
      · exact (managerUpdateR_weak i).mono fun _ h => n.congr h.2.1.defs
      · exact n
    · trivial
  | getShape l =>
    show (getShapeR sch l g).Holds NE
    unfold getShapeR
    split
    · split
      · exact (managerUpdateR_weak i).mono fun _ h => n.congr h.2.1.defs
      · exact n
    · trivial
  | freeze l b =>
    show (freezeStatusR sch l b g).Holds NE
    unfold freezeStatusR
    split
    · have key : (if b = true then managerUpdateR sch (g.gman l) g else .done g).Holds fun g' => NE g' := by
        split
        · exact (managerUpdateR_weak i).mono fun _ h => n.congr h.2.1.defs
        · exact n
      exact key.andThen (fun _ h => h) fun g1 h => NE.congr h (g' := setFreeze (g1.gman l) b g1) rfl
    · trivial
  | delete l =>
    show (deleteR l g).Holds NE
    unfold deleteR
    split
    · exact n.congr rfl
    · trivial

theorem runR_ne (cs : List (Sched × Call V)) : ∀ {g g' : G V}, InvW g → NE g → runR cs g = some g' → InvW g' ∧ NE g' := by
  induction cs with
  | nil => intro g g' i nf h; cases h; exact ⟨i, nf⟩
  | cons c cs ih =>
    intro g g' i nf h
    have s := stepR_inv (sch := c.1) (c := c.2) i
    have t := stepR_ne (sch := c.1) (c := c.2) i nf
    rw [runR] at h
    cases e : stepR c.1 c.2 g with
    | done g1 => rw [e] at h s t; exact ih s t h
    | thrown x g1 => rw [e] at h s t; exact ih s t h
    | abort => rw [e] at h; cases h
    | ub => rw [e] at h; cases h

/-- Every operation is over some leaf. -/
theorem above_leaf {g : G V} (w : WF g) (ne : NE g) : ∀ k, isOp g k = true → ∃ s, isOp g s = false ∧ Above g s k := by
  intro k
  induction k using Nat.strongRecOn with
  | _ k ih =>
    intro hk
    obtain ⟨a, ha⟩ := List.exists_mem_of_ne_nil _ (ne k hk)
    cases e : isOp g a with
    | false => exact ⟨a, e, .arg ha⟩
    | true =>
      obtain ⟨s, h1, h2⟩ := ih a (w.args_lt k a ha) e
      exact ⟨s, h1, .step h2 ha⟩

/-- Assignments that notify and return, to leaves of a graph without a backlog. -/
theorem assigns_due (m : Nat) (as : List (Sched × Call V)) : ∀ (g g' : G V) (A : Nat → Prop), InvW g → PL m 0 g → Due m g A (fun _ => False) →
    (∀ c ∈ as, ∃ l v, c.2 = .assign l v true) → run as g = .ok g' →
    InvW g' ∧ PL m 0 g' ∧ Due m g' (fun s => A s ∧ ¬ ∃ c ∈ as, ∃ v, c.2 = .assign s v true) (fun _ => False) ∧
      g'.defs = g.defs ∧ g'.alive = g.alive ∧ g'.gman = g.gman ∧ (∀ m, (g'.man m).freeze = (g.man m).freeze) ∧
      ∀ (t : Spec.Told V) l, isOp g l = false → g.data l = t.leaf l → g'.data l = ((as.map Prod.snd).foldl Spec.tell t).leaf l := by
  induction as with
  | nil =>
    intro g g' A i p j _ h
    cases h
    exact ⟨i, p, j.mono (fun s hs => ⟨hs, by simp⟩) (fun _ c => c), rfl, rfl, rfl, fun _ => rfl, fun t l _ h => h⟩
  | cons c cs ih =>
    intro g g' A i p j ha h
    obtain ⟨l, v, hc⟩ := ha c (by simp)
    rw [run, Outcome.bind_eq_ok] at h
    obtain ⟨g1, h1, h2⟩ := h
    rw [← stepR_erase, Res.erase_ok] at h1
    have i1 := stepR_inv (sch := c.1) (c := c.2) i
    rw [h1] at i1
    rw [hc] at h1
    change assignR c.1 l v true g = .done g1 at h1
    unfold assignR at h1
    split at h1
    · rename_i hb
      simp only [Bool.and_eq_true, Bool.not_eq_true'] at hb
      rw [if_pos rfl] at h1
      change notifyR c.1 (g.defs.length + 1) l (setLeaf l v g) = .done g1 at h1
      have i0 := i.setLeaf l v hb.2
      have j0 : Due m (setLeaf l v g) (fun s => (A s ∧ s ≠ l) ∨ s = l) (fun _ => False) :=
        Due.setData (j.mono (fun _ c => c) (fun _ c => c.elim)) (fun h => by rw [hb.2] at h; cases h)
      obtain ⟨j1, p1⟩ := notifyR_due m 0 c.1 _ l _ g1 _ _ h1 i0.wf i0.q p (Nat.zero_le _) j0
      have ws := notifyR_weak c.1 (g.defs.length + 1) l _ i0.wf i0.q
      rw [h1] at ws
      obtain ⟨_, x⟩ := ws
      obtain ⟨a1, a2, a3, a4, a5, a6, a7, a8⟩ := ih g1 g' _ i1 p1 j1 (fun d hd => ha d (by simp [hd])) h2
      refine ⟨a1, a2, a3.mono ?_ (fun _ c => c), a4.trans x.defs, a5.trans x.alive, a6.trans x.gman, fun m' => (a7 m').trans (x.freeze m'), ?_⟩
      · rintro s ⟨⟨b1, b2⟩, b3⟩
        refine ⟨b1, ?_⟩
        rintro ⟨d, hd, u, hu⟩
        rcases List.mem_cons.1 hd with rfl | hd
        · rw [hc] at hu; cases hu; exact b2 rfl
        · exact b3 ⟨d, hd, u, hu⟩
      · intro t k hk ht
        have hk1 : isOp g1 k = false := by rw [isOp_congr x.defs]; exact hk
        have := a8 (Spec.tell t (.assign l v true)) k hk1 ?_
        · rw [this, List.map_cons, List.foldl_cons, hc]
        · rcases x.data k with e | ⟨e, _⟩
          · rw [e]
            show upd g.data l (some v) k = upd t.leaf l (some v) k
            unfold upd
            split
            · rfl
            · exact ht
          · have : isOp g k = true := e
            rw [hk] at this; cases this
    · cases h1

/-- A leaf that the calls assign has the value they give it, whatever was told before. -/
theorem told_leaf (as : List (Call V)) (l : Nat) : ∀ (t t' : Spec.Told V), (∀ c ∈ as, ∃ l v, c = .assign l v true) →
    (t.leaf l = t'.leaf l ∨ ∃ c ∈ as, ∃ v, c = .assign l v true) → (as.foldl Spec.tell t).leaf l = (as.foldl Spec.tell t').leaf l := by
  induction as with
  | nil => intro t t' _ h; rcases h with h | ⟨c, h, _⟩; exacts [h, by simp at h]
  | cons c cs ih =>
    intro t t' ha h
    obtain ⟨k, v, rfl⟩ := ha c (by simp)
    refine ih _ _ (fun d hd => ha d (by simp [hd])) ?_
    by_cases e : k = l
    · left; subst e; simp [Spec.tell, upd]
    · rcases h with h | ⟨d, hd, u, hu⟩
      · left
        show upd t.leaf k (some v) l = upd t'.leaf k (some v) l
        unfold upd
        rw [h]
      · rcases List.mem_cons.1 hd with rfl | hd
        · cases hu; exact absurd rfl e
        · exact Or.inr ⟨d, hd, u, hu⟩

theorem Above.left {g : G V} {x k n : Nat} (hx : x ∈ argsOf g k) (h : Above g k n) : Above g x n := by
  induction h with
  | arg h => exact .step (.arg hx) h
  | step _ h ih => exact .step ih h

theorem argsOf_mem {g : G V} {a k : Nat} (h : a ∈ argsOf g k) : ∃ f args b, g.defs[k]? = some (.op f args b) ∧ a ∈ args := by
  obtain ⟨f, args, b, e⟩ := (isOp_iff g k).mp (isOp_of_arg h)
  exact ⟨f, args, b, e, by rw [argsOf_op e] at h; exact h⟩

theorem Above.uses {g : G V} {l n : Nat} (h : Above g l n) : Spec.Uses g.defs n l := by
  induction h with
  | arg h => obtain ⟨f, args, b, e, ha⟩ := argsOf_mem h; exact .arg e ha (.self _)
  | step _ h ih => obtain ⟨f, args, b, e, ha⟩ := argsOf_mem h; exact .arg e ha ih

theorem computes_congr {nodes : List (Def V)} {leaf leaf' : Nat → Option V} {n : Nat} {v : V} (h : Spec.Computes nodes leaf n v) :
    (∀ l, Spec.Uses nodes n l → nodes[l]? = some .leaf → leaf l = leaf' l) → Spec.Computes nodes leaf' n v := by
  induction h with
  | @leaf n v h1 h2 => intro hl; exact .leaf h1 (by rw [← hl n (.self n) h1]; exact h2)
  | @op n f args b vs v h1 h2 _ h4 ih =>
    intro hl
    exact .op h1 h2 (fun i a w ha hw => ih i a w ha hw (fun l hu => hl l (.arg h1 (List.mem_of_getElem? ha) hu))) h4

end Graph
end Verif
