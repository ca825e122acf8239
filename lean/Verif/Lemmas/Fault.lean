import Verif.Model.Fault
import Verif.Lemmas.GraphFreeze
/-!
# The graph after exceptions: erasure, and the invariant that survives
-/
namespace Verif
namespace Graph
open React (upd forEach)

variable {V : Type}

namespace Res

/-- The property of the state a call ends in, whether it returns or throws. -/
def Holds {σ : Type} (P : σ → Prop) : Res σ → Prop
  | .done s => P s
  | .thrown _ s => P s
  | .abort => True
  | .ub => True

theorem Holds.mono {σ : Type} {P Q : σ → Prop} {r : Res σ} (h : r.Holds P) (hpq : ∀ s, P s → Q s) : r.Holds Q := by
  cases r <;> first | exact hpq _ h | trivial

theorem Holds.andThen {σ : Type} {P Q : σ → Prop} {r : Res σ} {k : σ → Res σ} (h : r.Holds P) (hq : ∀ s, P s → Q s)
    (hk : ∀ s, P s → (k s).Holds Q) : (r.andThen k).Holds Q := by
  cases r <;> first | exact hk _ h | exact hq _ h | trivial

theorem erase_andThen {σ : Type} (r : Res σ) (k : σ → Res σ) : (r.andThen k).erase = r.erase >>= fun s => (k s).erase := by
  cases r <;> rfl

theorem erase_ok {σ : Type} {r : Res σ} {s : σ} : r.erase = .ok s ↔ r = .done s := by
  cases r <;> simp [erase]

end Res

/-! ### Erasure -/

theorem forEachR_erase {α σ : Type} (body : α → σ → Res σ) (l : List α) (s : σ) :
    (forEachR body l s).erase = forEach (fun x s => (body x s).erase) l s := by
  induction l generalizing s with
  | nil => rfl
  | cons x xs ih =>
    rw [forEachR, Res.erase_andThen, forEach]
    simp only [ih]

theorem forwardR_erase (n : Nat) (g : G V) : (forwardR n g).erase = forward n g := by
  unfold forwardR forward
  cases e : g.defs[n]? with
  | none => rfl
  | some d =>
    cases d with
    | leaf => rfl
    | op f args h =>
      cases e2 : args.mapM g.data with
      | none => simp only [e2]; rfl
      | some vs =>
        simp only [e2]
        cases e3 : f vs <;> rfl

theorem updateR_erase (rec : Nat → G V → Res (G V)) (n : Nat) (g : G V) :
    (updateR rec n g).erase = updateWith (fun n g => (rec n g).erase) n g := by
  unfold updateR updateWith
  split
  · split
    · rfl
    · rw [Res.erase_andThen, forwardR_erase]
  · rfl

theorem notifyR_erase (sch : Sched) (fuel : Nat) : ∀ (n : Nat) (g : G V), (notifyR sch fuel n g).erase = notify sch fuel n g := by
  induction fuel with
  | zero => intro n g; rfl
  | succ fuel ih =>
    intro n g
    rw [notifyR, notify, forEachR_erase]
    congr 1
    funext x s
    rw [updateR_erase]
    congr 1
    funext n g
    exact ih n g

theorem drainOneR_erase (sch : Sched) (m x : Nat) (g : G V) : (drainOneR sch m x g).erase = drainOne sch m x g := by
  unfold drainOneR drainOne
  split
  · rw [Res.erase_andThen, forwardR_erase]
    simp only [notifyR_erase]
  · rfl

theorem drainR_none {sch : Sched} {m fuel : Nat} {g : G V} (h : top g.depth (sch.pop fuel (g.man m).queue) = none) :
    drainR sch m fuel g = .done (clearMap m g) := by
  cases fuel <;> (unfold drainR; rw [h]; rfl)

theorem drainR_zero {sch : Sched} {m x : Nat} {g : G V} (h : top g.depth (sch.pop 0 (g.man m).queue) = some x) :
    drainR sch m 0 g = .abort := by
  unfold drainR; rw [h]

theorem drainR_succ {sch : Sched} {m x fuel : Nat} {g : G V} (h : top g.depth (sch.pop (fuel + 1) (g.man m).queue) = some x) :
    drainR sch m (fuel + 1) g = (drainOneR sch m x g).andThen fun g => drainR sch m fuel g := by
  rw [drainR]; simp only [h]

theorem drainR_erase (sch : Sched) (m : Nat) (fuel : Nat) : ∀ g : G V, (drainR sch m fuel g).erase = drain sch m fuel g := by
  induction fuel with
  | zero =>
    intro g
    cases e : top g.depth (sch.pop 0 (g.man m).queue) with
    | none => rw [drainR_none e, drain_none e]; rfl
    | some x => rw [drainR_zero e, drain_zero e]; rfl
  | succ fuel ih =>
    intro g
    cases e : top g.depth (sch.pop (fuel + 1) (g.man m).queue) with
    | none => rw [drainR_none e, drain_none e]; rfl
    | some x =>
      rw [drainR_succ e, drain_succ e, Res.erase_andThen, drainOneR_erase]
      simp only [ih]

theorem managerUpdateR_erase (sch : Sched) (m : Nat) (g : G V) : (managerUpdateR sch m g).erase = managerUpdate sch m g :=
  drainR_erase sch m _ g

/-- Every call throws, aborts, is undefined or returns with the same state as in the model without `catch`. -/
theorem stepR_erase (sch : Sched) (c : Call V) (g : G V) : (stepR sch c g).erase = step sch c g := by
  cases c with
  | newLeaf v => rfl
  | newOp f args h =>
    show (newOpR sch f args h g).erase = newOp sch f args h g
    unfold newOpR newOp
    split
    · rfl
    · split
      · have : ∀ r : Res (G V), (unwind g r).erase = r.erase := by intro r; cases r <;> rfl
        rw [this, updateR_erase]
        congr 1
        funext n g
        exact notifyR_erase sch _ n g
      · rfl
  | assign n v b =>
    show (assignR sch n v b g).erase = assign sch n v b g
    unfold assignR assign
    split
    · split
      · exact notifyR_erase sch _ n _
      · rfl
    · rfl
  | eval n =>
    show (evalR sch n g).erase = _
    show _ = (eval sch n g >>= fun r => .ok r.2)
    unfold evalR eval
    split
    · split
      · rw [managerUpdateR_erase]
        cases managerUpdate sch (g.gman n) g <;> rfl
      · rfl
    · rfl
  | getShape n =>
    show (getShapeR sch n g).erase = getShape sch n g
    unfold getShapeR getShape
    split
    · split
      · exact managerUpdateR_erase sch _ g
      · rfl
    · rfl
  | freeze n b =>
    show (freezeStatusR sch n b g).erase = freezeStatus sch n b g
    unfold freezeStatusR freezeStatus
    split
    · rw [Res.erase_andThen]
      congr 1
      split
      · exact managerUpdateR_erase sch _ g
      · rfl
    · rfl
  | delete n =>
    show (deleteR n g).erase = delete n g
    unfold deleteR delete
    split <;> rfl

/-- Histories without exceptions are those of the model without `catch`. -/
theorem runR_of_run (cs : List (Sched × Call V)) : ∀ {g g' : G V}, run cs g = .ok g' → runR cs g = some g' := by
  induction cs with
  | nil => intro g g' h; cases h; rfl
  | cons c cs ih =>
    intro g g' h
    rw [run, Outcome.bind_eq_ok] at h
    obtain ⟨g1, h1, h2⟩ := h
    rw [← stepR_erase, Res.erase_ok] at h1
    rw [runR, h1]
    exact ih h2

theorem forEachR_holds {α σ : Type} (P : σ → Prop) (body : α → σ → Res σ) (l : List α) (s : σ) (h0 : P s)
    (hs : ∀ x ∈ l, ∀ s, P s → (body x s).Holds P) : (forEachR body l s).Holds P := by
  induction l generalizing s with
  | nil => exact h0
  | cons x xs ih =>
    exact (hs x (by simp) s h0).andThen (fun _ h => h) (fun s h => ih s h (fun y hy => hs y (by simp [hy])))

/-! ### What an update may change, whether it returns or throws -/

theorem FQ.all (g : G V) {S : Nat → Prop} (h : ∀ k, S k) : FQ g S := fun k _ hk => absurd (h k) hk

/-- What a notification may change. -/
def NotifyW (rec : Nat → G V → Res (G V)) : Prop :=
  ∀ n g, WF g → QInv g → (rec n g).Holds fun g' =>
    QInv g' ∧ Ext (fun m => isOp g n = true → m = g.gman n)
      (fun m => (isOp g n = true → m = g.gman n) ∧ (g.man m).freeze = false) (fun k => isOp g n = true → g.depth n < g.depth k) g g'

theorem forwardR_weak {n : Nat} {g : G V} (w : WF g) (q : QInv g) : (forwardR n g).Holds fun g' =>
    QInv g' ∧ Ext (fun m => m = g.gman n) (fun m => m = g.gman n) (fun _ => False) g g' := by
  cases h : forwardR n g with
  | done g' =>
    have h' : forward n g = .ok g' := by rw [← forwardR_erase, h]; rfl
    obtain ⟨a, b, _⟩ := forward_spec (S := fun _ => True) w q (FQ.all g (fun _ => Or.inl trivial)) h'
    exact ⟨a, b⟩
  | thrown e g' =>
    have : g' = g := by
      unfold forwardR at h
      split at h
      · split at h
        · split at h <;> cases h; rfl
        · cases h; rfl
      · cases h
    subst this
    exact ⟨q, Ext.refl _ _ _ _⟩
  | abort => trivial
  | ub => trivial

theorem addUpdate_weak {n : Nat} {g : G V} (q : QInv g) (al : g.alive n = true) (op : isOp g n = true) (gl : g.gman n < g.defs.length)
    (gd : ∀ a ∈ argsOf g n, (g.data a).isSome = true) :
    QInv (addUpdate n g) ∧ Ext (fun m => m = g.gman n) (fun _ => False) (fun k => k = n) g (addUpdate n g) := by
  by_cases hm : n ∈ (g.man (g.gman n)).map
  · unfold addUpdate
    rw [if_pos hm]
    exact ⟨q, Ext.refl _ _ _ _⟩
  · obtain ⟨a, b, _⟩ := addUpdate_spec (S := fun _ => True) q al op gl gd (fun h => absurd h hm) (FQ.all g (fun _ => Or.inl trivial))
    exact ⟨a, b⟩

theorem updateR_weak {rec : Nat → G V → Res (G V)} (hr : NotifyW rec) {n : Nat} {g : G V} (w : WF g) (q : QInv g)
    (al : g.alive n = true) (op : isOp g n = true) : (updateR rec n g).Holds fun g' =>
    QInv g' ∧ Ext (fun m => m = g.gman n) (fun m => m = g.gman n ∧ (g.man m).freeze = false) (fun k => g.depth n ≤ g.depth k) g g' := by
  unfold updateR
  by_cases hg : (argsOf g n).all (good g) = true
  · rw [if_pos hg]
    have gd : ∀ a ∈ argsOf g n, (g.data a).isSome = true := fun a ha => List.all_eq_true.mp hg a ha
    by_cases hc : ((g.man (g.gman n)).freeze || decide (1 < (argsOf g n).length)) = true
    · rw [if_pos hc]
      obtain ⟨q1, e1⟩ := addUpdate_weak q al op (w.gman_lt n op) gd
      exact ⟨q1, e1.weaken (fun _ h => h) (fun _ h => h.elim) (fun _ h => h ▸ Nat.le_refl _)⟩
    · rw [if_neg hc]
      have fz : (g.man (g.gman n)).freeze = false := by
        cases e : (g.man (g.gman n)).freeze with
        | false => rfl
        | true => simp [e] at hc
      have base : ∀ g1, Ext (fun m => m = g.gman n) (fun m => m = g.gman n) (fun _ => False) g g1 →
          Ext (fun m => m = g.gman n) (fun m => m = g.gman n ∧ (g.man m).freeze = false) (fun k => g.depth n ≤ g.depth k) g g1 :=
        fun g1 e1 => e1.weaken (fun _ h => h) (fun m hm => ⟨hm, by rw [hm]; exact fz⟩) (fun _ h => h.elim)
      refine (forwardR_weak w q).andThen (fun g1 h => ⟨h.1, base g1 h.2⟩) (fun g1 h => ?_)
      obtain ⟨q1, e1⟩ := h
      have w1 := w.ext e1
      have op1 : isOp g1 n = true := by rw [isOp_congr e1.defs]; exact op
      refine (hr n g1 w1 q1).mono (fun g' h => ⟨h.1, (base g1 e1).trans (h.2.weaken ?_ ?_ ?_)⟩)
      · intro m hm
        rw [hm op1, e1.gman]
      · intro m hm
        refine ⟨by rw [hm.1 op1, e1.gman], ?_⟩
        rw [← e1.freeze]; exact hm.2
      · intro k hk; rw [e1.depth] at hk; exact Nat.le_of_lt (hk op1)
  · rw [if_neg hg]
    exact ⟨q, Ext.refl _ _ _ _⟩

theorem notifyR_weak (sch : Sched) (fuel : Nat) : NotifyW (notifyR (V := V) sch fuel) := by
  induction fuel with
  | zero => intro n g _ _; trivial
  | succ fuel ih =>
    intro n g w q
    rw [notifyR]
    have hmem : ∀ k, k ∈ sch.aud n (audience g n) ↔ k ∈ audience g n := fun k => (sch.aud_perm n _).mem_iff
    refine forEachR_holds _ _ _ _ ⟨q, Ext.refl _ _ _ _⟩ (fun k hk g1 h => ?_)
    obtain ⟨q1, e1⟩ := h
    have hka := (mem_audience g n k).mp ((hmem k).mp hk)
    have hop : isOp g k = true := isOp_of_arg hka.2.2
    have w1 := w.ext e1
    refine (updateR_weak ih w1 q1 (by rw [e1.alive]; exact hka.2.1) (by rw [isOp_congr e1.defs]; exact hop)).mono (fun g2 h => ?_)
    obtain ⟨q2, e2⟩ := h
    have hR : ∀ m, m = g1.gman k → (isOp g n = true → m = g.gman n) := by
      intro m hm hn
      rw [hm, e1.gman]
      exact (w.gman_eq k n hka.2.1 hka.2.2 hn).symm
    refine ⟨q2, e1.trans (e2.weaken hR ?_ ?_)⟩
    · intro m hm
      exact ⟨hR m hm.1, by rw [← e1.freeze]; exact hm.2⟩
    · intro j hj hn
      rw [e1.depth] at hj
      exact Nat.lt_of_lt_of_le (w.depth_lt k n hka.2.2 hn) hj

/-- One iteration. -/
theorem drainOneR_weak {sch : Sched} {m x : Nat} {g : G V} (w : WF g) (q : QInv g) (hx : x ∈ (g.man m).queue) :
    (drainOneR sch m x g).Holds fun g' => QInv g' ∧ Frame (fun m' => m' = m) g g' ∧ (∀ m', m' ≠ m → g'.man m' = g.man m') := by
  unfold drainOneR
  by_cases ha : g.alive x = true
  · rw [if_pos ha]
    change ((forwardR x (popState m x g)).andThen fun g => notifyR sch (g.defs.length + 1) x g).Holds _
    have hm : g.gman x = m := q.mem m x ha (q.sub m x hx)
    have w0 := w.frame (popState_frame m x g)
    have q0 : QInv (popState m x g) := popState_qinv q
    have hop : isOp g x = true := (q.mapOp m x (q.sub m x hx)).1
    have a0 : Frame (fun m' => m' = m) g (popState m x g) := (popState_frame m x g).weaken (fun _ h => h.elim)
    have b0 : ∀ m', m' ≠ m → (popState m x g).man m' = g.man m' := fun m' h => popState_man_ne g h
    refine (forwardR_weak w0 q0).andThen (fun g1 h => ⟨h.1, a0.trans (h.2.frame.weaken (fun m' h => by rw [h]; exact hm)), fun m' hm' => ?_⟩) (fun g1 h => ?_)
    · rw [h.2.man m' (fun c => hm' (by rw [c]; exact hm)), b0 m' hm']
    · obtain ⟨q1, e1⟩ := h
      have w1 := w0.ext e1
      have hop1 : isOp g1 x = true := by rw [isOp_congr e1.defs]; exact hop
      have gm1 : g1.gman x = m := by rw [e1.gman]; exact hm
      have a1 : Frame (fun m' => m' = m) (popState m x g) g1 := e1.frame.weaken (fun m' h => by rw [h]; exact hm)
      refine (notifyR_weak sch _ x g1 w1 q1).mono (fun g2 h => ⟨h.1, a0.trans (a1.trans (h.2.frame.weaken (fun m' h => by rw [h.1 hop1]; exact gm1))), fun m' hm' => ?_⟩)
      rw [h.2.man m' (fun c => hm' (by rw [c hop1]; exact gm1)), e1.man m' (fun c => hm' (by rw [c]; exact hm)), b0 m' hm']
  · rw [if_neg ha]; trivial

theorem clearMap_weak {m : Nat} {g : G V} (q : QInv g) (h : (g.man m).queue = []) :
    QInv (clearMap m g) ∧ Frame (fun m' => m' = m) g (clearMap m g) ∧ (∀ m', m' ≠ m → (clearMap m g).man m' = g.man m') := by
  have := clearMap_spec (S := fun _ => True) q (FQ.all g (fun _ => trivial)) h
  exact ⟨this.qinv, this.frame, this.others⟩

theorem pop_none {sch : Sched} {m fuel : Nat} {g : G V} (e : top g.depth (sch.pop fuel (g.man m).queue) = none) : (g.man m).queue = [] := by
  have := top_none e
  have pm := sch.pop_perm fuel (g.man m).queue
  rw [this] at pm
  exact List.nil_perm.mp pm

theorem drainR_weak (sch : Sched) (m fuel : Nat) : ∀ g : G V, WF g → QInv g →
    (drainR sch m fuel g).Holds fun g' => QInv g' ∧ Frame (fun m' => m' = m) g g' ∧ (∀ m', m' ≠ m → g'.man m' = g.man m') := by
  induction fuel with
  | zero =>
    intro g w q
    cases e : top g.depth (sch.pop 0 (g.man m).queue) with
    | none => rw [drainR_none e]; exact clearMap_weak q (pop_none e)
    | some x => rw [drainR_zero e]; trivial
  | succ fuel ih =>
    intro g w q
    cases e : top g.depth (sch.pop (fuel + 1) (g.man m).queue) with
    | none => rw [drainR_none e]; exact clearMap_weak q (pop_none e)
    | some x =>
      rw [drainR_succ e]
      refine (drainOneR_weak w q (pop_top e).1).andThen (fun _ h => h) (fun g1 h => ?_)
      exact (ih g1 (w.frame h.2.1) h.1).mono (fun g2 h2 => ⟨h2.1, h.2.1.trans h2.2.1, fun m' hm' => by rw [h2.2.2 m' hm', h.2.2 m' hm']⟩)

end Graph
end Verif
