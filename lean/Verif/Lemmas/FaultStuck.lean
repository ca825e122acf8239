import Verif.Lemmas.FaultInv
/-!
# The graph after exceptions: nodes that an interrupted update leaves behind
-/
namespace Verif
namespace Graph
open React (upd)

variable {V : Type}

/-- Nothing is frozen, and only operations of several arguments are registered for an update. -/
structure NF (g : G V) : Prop where
  fz : ∀ m, (g.man m).freeze = false
  many : ∀ m x, x ∈ (g.man m).map → 1 < (argsOf g x).length

/-- Every node of `K` is registered for an update but no longer queued, or its only argument is in `K`. -/
def Closed (K : Nat → Prop) (g : G V) : Prop :=
  ∀ x, K x → (x ∈ (g.man (g.gman x)).map ∧ x ∉ (g.man (g.gman x)).queue) ∨ ∃ a, K a ∧ argsOf g x = [a]

/-- What a part of an update leaves alone. -/
structure Kept (K : Nat → Prop) (g g' : G V) : Prop where
  nf : NF g'
  closed : Closed K g'
  defs : g'.defs = g.defs
  gman : g'.gman = g.gman
  data : ∀ x, K x → g'.data x = g.data x

theorem Kept.refl {K : Nat → Prop} {g : G V} (n : NF g) (c : Closed K g) : Kept K g g := ⟨n, c, rfl, rfl, fun _ _ => rfl⟩

theorem Kept.trans {K : Nat → Prop} {a b c : G V} (h1 : Kept K a b) (h2 : Kept K b c) : Kept K a c :=
  ⟨h2.nf, h2.closed, h2.defs.trans h1.defs, h2.gman.trans h1.gman, fun x hx => (h2.data x hx).trans (h1.data x hx)⟩

theorem setData_kept {K : Nat → Prop} {g : G V} (nf : NF g) (c : Closed K g) (n : Nat) (v : Option V) (hn : ¬ K n) :
    Kept K g { g with data := upd g.data n v } := by
  refine ⟨⟨nf.fz, nf.many⟩, c, rfl, rfl, fun x hx => ?_⟩
  show upd g.data n v x = _
  unfold upd
  rw [if_neg]
  rintro rfl
  exact hn hx

theorem forwardR_kept {K : Nat → Prop} {g : G V} (nf : NF g) (c : Closed K g) (n : Nat) (hn : ¬ K n) :
    (forwardR n g).Holds (Kept K g) := by
  unfold forwardR
  split
  · split
    · split
      · exact setData_kept nf c n _ hn
      · exact Kept.refl nf c
      · trivial
      · trivial
    · exact Kept.refl nf c
  · trivial

theorem addUpdate_man (n m : Nat) (g : G V) : (addUpdate n g).man m =
    if n ∈ (g.man (g.gman n)).map then g.man m
    else if m = g.gman n then { g.man (g.gman n) with queue := n :: (g.man (g.gman n)).queue, map := n :: (g.man (g.gman n)).map } else g.man m := by
  unfold addUpdate
  split
  · rfl
  · rfl

theorem addUpdate_kept {K : Nat → Prop} {g : G V} (nf : NF g) (c : Closed K g) (n : Nat) (hn : 1 < (argsOf g n).length) :
    Kept K g (addUpdate n g) := by
  have hd : (addUpdate n g).defs = g.defs := addUpdate_defs n g
  have hg : (addUpdate n g).gman = g.gman := by unfold addUpdate; split <;> rfl
  have hdata : (addUpdate n g).data = g.data := by unfold addUpdate; split <;> rfl
  by_cases hm : n ∈ (g.man (g.gman n)).map
  · have : addUpdate n g = g := by unfold addUpdate; rw [if_pos hm]
    rw [this]
    exact Kept.refl nf c
  · refine ⟨⟨fun m => ?_, fun m x hx => ?_⟩, fun x hx => ?_, hd, hg, fun x _ => by rw [hdata]⟩
    · rw [addUpdate_man, if_neg hm]
      split
      · exact nf.fz _
      · exact nf.fz m
    · rw [argsOf_congr hd]
      rw [addUpdate_man, if_neg hm] at hx
      split at hx
      · rcases List.mem_cons.1 hx with rfl | hx
        · exact hn
        · exact nf.many _ x hx
      · exact nf.many m x hx
    · rw [argsOf_congr hd, hg]
      rcases c x hx with ⟨h1, h2⟩ | h
      · left
        rw [addUpdate_man, if_neg hm]
        split
        · rename_i e
          rw [e] at h1 h2
          refine ⟨List.mem_cons_of_mem _ h1, fun h => ?_⟩
          rcases List.mem_cons.1 h with rfl | h
          · exact hm h1
          · exact h2 h
        · exact ⟨h1, h2⟩
      · exact Or.inr h

/-- What a notification from outside `K` leaves alone. -/
def NotifyK (K : Nat → Prop) (rec : Nat → G V → Res (G V)) : Prop :=
  ∀ n g, NF g → Closed K g → ¬ K n → (rec n g).Holds (Kept K g)

theorem updateR_kept {K : Nat → Prop} {rec : Nat → G V → Res (G V)} (hr : NotifyK K rec) {n k : Nat} {g : G V} (nf : NF g)
    (c : Closed K g) (hn : ¬ K n) (hk : n ∈ argsOf g k) : (updateR rec k g).Holds (Kept K g) := by
  unfold updateR
  split
  · by_cases h1 : 1 < (argsOf g k).length
    · rw [if_pos (by simp [h1])]
      exact addUpdate_kept nf c k h1
    · rw [if_neg (by simp [nf.fz]; omega)]
      have hkK : ¬ K k := by
        intro hK
        rcases c k hK with ⟨h, _⟩ | ⟨a, ha, he⟩
        · exact h1 (nf.many _ k h)
        · rw [he] at hk
          rw [List.mem_singleton.1 hk] at hn
          exact hn ha
      refine (forwardR_kept nf c k hkK).andThen (fun _ h => h) (fun g1 h => ?_)
      exact (hr k g1 h.nf h.closed hkK).mono (fun g2 h2 => h.trans h2)
  · exact Kept.refl nf c

theorem notifyR_kept (K : Nat → Prop) (sch : Sched) (fuel : Nat) : NotifyK (V := V) K (notifyR sch fuel) := by
  induction fuel with
  | zero => intro n g _ _ _; trivial
  | succ fuel ih =>
    intro n g nf c hn
    rw [notifyR]
    refine forEachR_holds _ _ _ _ (Kept.refl nf c) (fun k hk g1 h => ?_)
    have hka := (mem_audience g n k).mp ((sch.aud_perm n _).mem_iff.mp hk)
    exact (updateR_kept ih h.nf h.closed hn (by rw [argsOf_congr h.defs]; exact hka.2.2)).mono (fun g2 h2 => h.trans h2)

theorem popState_kept {K : Nat → Prop} {g : G V} (nf : NF g) (c : Closed K g) (m x : Nat) : Kept K g (popState m x g) := by
  refine ⟨⟨fun m' => ?_, fun m' y hy => ?_⟩, fun y hy => ?_, rfl, rfl, fun _ _ => rfl⟩
  · exact ((popState_frame m x g).freeze m').trans (nf.fz m')
  · rw [popState_map] at hy
    exact nf.many m' y hy
  · rcases c y hy with ⟨h1, h2⟩ | h
    · left
      refine ⟨by rw [popState_map]; exact h1, fun h => h2 (popState_queue_mem m x _ y g h)⟩
    · exact Or.inr h

theorem drainOneR_kept {K : Nat → Prop} {sch : Sched} {m x : Nat} {g : G V} (q : QInv g) (nf : NF g) (c : Closed K g)
    (hx : x ∈ (g.man m).queue) : (drainOneR sch m x g).Holds (Kept K g) := by
  unfold drainOneR
  split
  · rename_i ha
    change ((forwardR x (popState m x g)).andThen fun g => notifyR sch (g.defs.length + 1) x g).Holds _
    have hm : g.gman x = m := q.mem m x ha (q.sub m x hx)
    have hK : ¬ K x := by
      intro hK
      rcases c x hK with ⟨_, h⟩ | ⟨a, _, he⟩
      · rw [hm] at h; exact h hx
      · have := nf.many m x (q.sub m x hx)
        rw [he] at this
        simp at this
    have k0 := popState_kept nf c m x
    refine (forwardR_kept k0.nf k0.closed x hK).andThen (fun _ h => k0.trans h) (fun g1 h => ?_)
    exact (notifyR_kept K sch _ x g1 h.nf h.closed hK).mono (fun g2 h2 => (k0.trans h).trans h2)
  · trivial

/-- An update leaves the nodes of `K` alone; one that throws keeps `K` closed. -/
theorem drainR_kept {K : Nat → Prop} (sch : Sched) (m fuel : Nat) : ∀ g : G V, WF g → QInv g → NF g → Closed K g →
    (∀ g', drainR sch m fuel g = .done g' → NF g' ∧ ∀ x, K x → g'.data x = g.data x) ∧ (∀ e g', drainR sch m fuel g = .thrown e g' → Kept K g g') := by
  have base : ∀ g : G V, NF g → NF (clearMap m g) := by
    intro g nf
    refine ⟨fun m' => ?_, fun m' x hx => ?_⟩
    · unfold clearMap upd
      simp only
      split
      · exact nf.fz _
      · exact nf.fz m'
    · unfold clearMap upd at hx
      simp only at hx
      split at hx
      · simp at hx
      · exact nf.many m' x hx
  induction fuel with
  | zero =>
    intro g w q nf c
    cases e : top g.depth (sch.pop 0 (g.man m).queue) with
    | none =>
      rw [drainR_none e]
      exact ⟨fun g' h => by cases h; exact ⟨base g nf, fun _ _ => rfl⟩, fun _ _ h => by cases h⟩
    | some x => rw [drainR_zero e]; exact ⟨fun _ h => by (cases h), fun _ _ h => by (cases h)⟩
  | succ fuel ih =>
    intro g w q nf c
    cases e : top g.depth (sch.pop (fuel + 1) (g.man m).queue) with
    | none =>
      rw [drainR_none e]
      exact ⟨fun g' h => by cases h; exact ⟨base g nf, fun _ _ => rfl⟩, fun _ _ h => by cases h⟩
    | some x =>
      rw [drainR_succ e]
      have hw := drainOneR_weak (sch := sch) w q (pop_top e).1
      have hk := drainOneR_kept (K := K) (sch := sch) q nf c (pop_top e).1
      cases e1 : drainOneR sch m x g with
      | done g1 =>
        rw [e1] at hw hk
        obtain ⟨i1, i2⟩ := ih g1 (w.frame hw.2.1) hw.1 hk.nf hk.closed
        refine ⟨fun g' h => ?_, fun x g' h => ?_⟩
        · obtain ⟨a, b⟩ := i1 g' h
          exact ⟨a, fun x hx => (b x hx).trans (hk.data x hx)⟩
        · exact Kept.trans hk (i2 x g' h)
      | thrown x g1 =>
        rw [e1] at hk
        exact ⟨fun _ h => by (cases h), fun _ _ h => by cases h; exact hk⟩
      | abort => exact ⟨fun _ h => by (cases h), fun _ _ h => by (cases h)⟩
      | ub => exact ⟨fun _ h => by (cases h), fun _ _ h => by (cases h)⟩

/-! ### Where an exception comes from -/

/-- The operation `x` fails on the current data of its arguments. -/
def Fails (e : Exc) (g : G V) (x : Nat) : Prop :=
  ∃ f args h vs, g.defs[x]? = some (.op f args h) ∧ args.mapM g.data = some vs ∧ f vs = .throw e

/-- Reached from `n` through operations of one argument. -/
inductive Push (g : G V) (n : Nat) : Nat → Prop
  | direct {x : Nat} : g.alive x = true → argsOf g x = [n] → Push g n x
  | step {a x : Nat} : Push g n a → g.alive x = true → argsOf g x = [a] → Push g n x

theorem Push.congr {g g' : G V} (hd : g'.defs = g.defs) (ha : g'.alive = g.alive) {n x : Nat} (p : Push g n x) : Push g' n x := by
  induction p with
  | direct h1 h2 => exact .direct (by rw [ha]; exact h1) (by rw [argsOf_congr hd]; exact h2)
  | step _ h1 h2 ih => exact .step ih (by rw [ha]; exact h1) (by rw [argsOf_congr hd]; exact h2)

theorem Push.above {g : G V} {n k x : Nat} (hk : g.alive k = true) (ha : argsOf g k = [n]) (p : Push g k x) : Push g n x := by
  induction p with
  | direct h1 h2 => exact .step (.direct hk ha) h1 h2
  | step _ h1 h2 ih => exact .step ih h1 h2

theorem forwardR_thrown {n : Nat} {g g' : G V} {e : Exc} (h : forwardR n g = .thrown e g') (hs : ∀ a ∈ argsOf g n, (g.data a).isSome = true) :
    g' = g ∧ Fails e g n := by
  unfold forwardR at h
  split at h
  · rename_i f args b e1
    have hs' : ∀ a ∈ args, (g.data a).isSome = true := fun a ha => hs a (by rw [argsOf_op e1]; exact ha)
    obtain ⟨vs, hv⟩ := mapM_some args hs'
    rw [hv] at h
    simp only at h
    split at h
    · cases h
    · rename_i e2
      cases h
      exact ⟨rfl, f, args, b, vs, e1, hv, e2⟩
    · cases h
    · cases h
  · cases h

theorem forEachR_thrown {α σ : Type} (P : σ → Prop) (body : α → σ → Res σ) (l : List α) (s s' : σ) (e : Exc) (h0 : P s)
    (hs : ∀ x ∈ l, ∀ s, P s → (body x s).Holds P) (h : forEachR body l s = .thrown e s') :
    ∃ x ∈ l, ∃ s1, P s1 ∧ body x s1 = .thrown e s' := by
  induction l generalizing s with
  | nil => cases h
  | cons x xs ih =>
    rw [forEachR] at h
    have hx := hs x (by simp) s h0
    cases e1 : body x s with
    | done s1 =>
      rw [e1] at h hx
      obtain ⟨y, hy, r⟩ := ih s1 hx (fun z hz => hs z (by simp [hz])) h
      exact ⟨y, by simp [hy], r⟩
    | thrown e2 s1 =>
      rw [e1] at h
      cases h
      exact ⟨x, by simp, s, h0, e1⟩
    | abort => rw [e1] at h; cases h
    | ub => rw [e1] at h; cases h

theorem notifyR_thrown (sch : Sched) (fuel : Nat) : ∀ (n : Nat) (g g' : G V) (e : Exc), WF g → QInv g → NF g →
    notifyR sch fuel n g = .thrown e g' → ∃ x, Push g n x ∧ Fails e g' x := by
  induction fuel with
  | zero => intro n g g' e _ _ _ h; cases h
  | succ fuel ih =>
    intro n g g' e w q nf h
    rw [notifyR] at h
    have hmem : ∀ k, k ∈ sch.aud n (audience g n) → k ∈ audience g n := fun k hk => (sch.aud_perm n _).mem_iff.mp hk
    obtain ⟨k, hk, g1, ⟨q1, e1, k1⟩, hb⟩ := forEachR_thrown
      (fun g1 => QInv g1 ∧ Ext (fun _ => True) (fun _ => True) (fun _ => True) g g1 ∧ Kept (fun _ => False) g g1) _ _ _ _ _
      ⟨q, Ext.refl _ _ _ _, Kept.refl nf (fun _ h => h.elim)⟩ (by
        intro k hk g1 ⟨q1, e1, k1⟩
        have hka := (mem_audience g n k).mp (hmem k hk)
        have w1 := w.ext e1
        have a1 := updateR_weak (notifyR_weak sch fuel) w1 q1 (by rw [e1.alive]; exact hka.2.1) (by rw [isOp_congr e1.defs]; exact isOp_of_arg hka.2.2)
        have a2 := updateR_kept (notifyR_kept (fun _ => False) sch fuel) k1.nf k1.closed (n := n) (fun h => h) (k := k) (by rw [argsOf_congr e1.defs]; exact hka.2.2)
        cases e2 : updateR (notifyR sch fuel) k g1 with
        | done g2 => rw [e2] at a1 a2; exact ⟨a1.1, e1.trans (a1.2.weaken (fun _ _ => trivial) (fun _ _ => trivial) (fun _ _ => trivial)), Kept.trans k1 a2⟩
        | thrown _ g2 => rw [e2] at a1 a2; exact ⟨a1.1, e1.trans (a1.2.weaken (fun _ _ => trivial) (fun _ _ => trivial) (fun _ _ => trivial)), Kept.trans k1 a2⟩
        | abort => trivial
        | ub => trivial) h
    have hka := (mem_audience g n k).mp (hmem k hk)
    have w1 := w.ext e1
    have hal : g1.alive k = true := by rw [e1.alive]; exact hka.2.1
    have harg : n ∈ argsOf g1 k := by rw [argsOf_congr e1.defs]; exact hka.2.2
    unfold updateR at hb
    split at hb
    · rename_i hg
      have gd : ∀ a ∈ argsOf g1 k, (g1.data a).isSome = true := fun a ha => List.all_eq_true.mp hg a ha
      split at hb
      · cases hb
      · rename_i hc
        have hlen : ¬ 1 < (argsOf g1 k).length := fun h => hc (by simp [h])
        have hone : argsOf g1 k = [n] := by
          cases h1 : argsOf g1 k with
          | nil => rw [h1] at harg; cases harg
          | cons y ys =>
            cases ys with
            | nil => rw [h1] at harg; rw [List.mem_singleton.1 harg]
            | cons z zs => rw [h1] at hlen; simp at hlen
        have hone' : argsOf g k = [n] := by rw [← argsOf_congr e1.defs]; exact hone
        have fw := forwardR_weak (n := k) w1 q1
        have fk := forwardR_kept (K := fun _ => False) k1.nf k1.closed k (fun h => h)
        cases e2 : forwardR k g1 with
        | done g2 =>
          rw [e2] at hb fw fk
          obtain ⟨x, px, fx⟩ := ih k g2 g' e (w1.ext fw.2) fw.1 fk.nf hb
          refine ⟨x, ?_, fx⟩
          have px' : Push g k x := px.congr (by rw [fw.2.defs, e1.defs]) (by rw [fw.2.alive, e1.alive])
          exact px'.above hka.2.1 hone'
        | thrown e3 g2 =>
          rw [e2] at hb
          cases hb
          obtain ⟨rfl, hf⟩ := forwardR_thrown e2 gd
          exact ⟨k, .direct hka.2.1 hone', hf⟩
        | abort => rw [e2] at hb; cases hb
        | ub => rw [e2] at hb; cases hb
    · cases hb

theorem notifyR_map (sch : Sched) (fuel : Nat) : ∀ (n : Nat) (g : G V), (notifyR sch fuel n g).Holds fun g' =>
    ∀ m x, x ∈ (g.man m).map → x ∈ (g'.man m).map := by
  induction fuel with
  | zero => intro n g; trivial
  | succ fuel ih =>
    intro n g
    rw [notifyR]
    refine forEachR_holds _ _ _ _ (fun _ _ h => h) (fun k _ g1 h => ?_)
    unfold updateR
    split
    · split
      · intro m x hx
        rw [addUpdate_man]
        split
        · exact h m x hx
        · split
          · rename_i e
            rw [← e]
            exact List.mem_cons_of_mem _ (h m x hx)
          · exact h m x hx
      · have fw : (forwardR k g1).Holds fun g2 => g2.man = g1.man := by
          unfold forwardR
          split
          · split
            · split <;> first | rfl | trivial
            · rfl
          · trivial
        refine fw.andThen (fun g2 e m x hx => by rw [e]; exact h m x hx) (fun g2 e => ?_)
        exact (ih k g2).mono (fun g3 h3 m x hx => h3 m x (by rw [e]; exact h m x hx))
    · exact h

/-- Left behind by an interrupted update. -/
inductive Stuck (g : G V) : Nat → Prop
  | popped {x : Nat} : x ∈ (g.man (g.gman x)).map → x ∉ (g.man (g.gman x)).queue → Stuck g x
  | fed {a x : Nat} : Stuck g a → argsOf g x = [a] → Stuck g x

theorem stuck_closed (g : G V) : Closed (Stuck g) g := by
  intro x hx
  cases hx with
  | popped h1 h2 => exact Or.inl ⟨h1, h2⟩
  | fed h1 h2 => exact Or.inr ⟨_, h1, h2⟩

theorem Push.stuck {g : G V} {n x : Nat} (hn : Stuck g n) (p : Push g n x) : Stuck g x := by
  induction p with
  | direct _ h => exact .fed hn h
  | step _ _ h ih => exact .fed ih h

theorem Push.here {g : G V} (w : WF g) {n x : Nat} (hn : isOp g n = true) (p : Push g n x) :
    g.alive x = true ∧ isOp g x = true ∧ g.gman x = g.gman n := by
  induction p with
  | direct h1 h2 => exact ⟨h1, isOp_of_arg (by rw [h2]; exact List.mem_singleton.2 rfl), (w.gman_eq _ _ h1 (by rw [h2]; exact List.mem_singleton.2 rfl) hn).symm⟩
  | step _ h1 h2 ih =>
    exact ⟨h1, isOp_of_arg (by rw [h2]; exact List.mem_singleton.2 rfl), ((w.gman_eq _ _ h1 (by rw [h2]; exact List.mem_singleton.2 rfl) ih.2.1).symm).trans ih.2.2⟩

/-- An update that throws has an operation that fails, which it leaves behind. -/
theorem drainR_thrown (sch : Sched) (m fuel : Nat) : ∀ (g g' : G V) (e : Exc), WF g → QInv g → NF g → drainR sch m fuel g = .thrown e g' →
    ∃ x, Fails e g' x ∧ Stuck g' x ∧ g'.alive x = true ∧ isOp g' x = true ∧ g'.gman x = m := by
  induction fuel with
  | zero =>
    intro g g' e w q nf h
    cases e1 : top g.depth (sch.pop 0 (g.man m).queue) with
    | none => rw [drainR_none e1] at h; cases h
    | some x => rw [drainR_zero e1] at h; cases h
  | succ fuel ih =>
    intro g g' e w q nf h
    cases e1 : top g.depth (sch.pop (fuel + 1) (g.man m).queue) with
    | none => rw [drainR_none e1] at h; cases h
    | some x =>
      rw [drainR_succ e1] at h
      have hx := (pop_top e1).1
      have hw := drainOneR_weak (sch := sch) w q hx
      have hk := drainOneR_kept (K := fun _ => False) (sch := sch) q nf (fun _ h => h.elim) hx
      cases e2 : drainOneR sch m x g with
      | done g1 =>
        rw [e2] at h hw hk
        exact ih g1 g' e (w.frame hw.2.1) hw.1 hk.nf h
      | thrown e3 g1 =>
        rw [e2] at h hw
        cases h
        clear hk ih
        unfold drainOneR at e2
        split at e2
        · rename_i ha
          change ((forwardR x (popState m x g)).andThen fun g => notifyR sch (g.defs.length + 1) x g) = _ at e2
          have hm : g.gman x = m := q.mem m x ha (q.sub m x hx)
          have w0 := w.frame (popState_frame m x g)
          have q0 : QInv (popState m x g) := popState_qinv q
          have nf0 := (popState_kept (K := fun _ => False) nf (fun _ h => h.elim) m x).nf
          have hop := q.mapOp m x (q.sub m x hx)
          have hst : Closed (fun y => y = x) (popState m x g) := by
            rintro y rfl
            left
            show y ∈ ((popState m y g).man (g.gman y)).map ∧ y ∉ ((popState m y g).man (g.gman y)).queue
            rw [hm, popState_map, popState_queue_same]
            exact ⟨q.sub m y hx, fun h => ((q.queueND m).mem_erase_iff.1 h).1 rfl⟩
          have stk : ∀ g2 : G V, g2.gman = g.gman → g2.defs = g.defs → ((x ∈ (g2.man m).map ∧ x ∉ (g2.man m).queue)) → Stuck g2 x := by
            intro g2 h1 _ h3
            refine .popped ?_ ?_ <;> rw [h1, hm]
            · exact h3.1
            · exact h3.2
          have fw := forwardR_weak (n := x) w0 q0
          cases e4 : forwardR x (popState m x g) with
          | thrown e5 g2 =>
            rw [e4] at e2
            cases e2
            obtain ⟨rfl, hf⟩ := forwardR_thrown e4 hop.2
            refine ⟨x, hf, stk _ rfl rfl ?_, ha, hop.1, hm⟩
            rcases hst x rfl with h | ⟨a, rfl, h⟩
            · rw [show (popState m x g).gman x = m from hm] at h; exact h
            · exact absurd (w0.args_lt a a (by rw [h]; simp)) (Nat.lt_irrefl _)
          | done g2 =>
            rw [e4] at e2 fw
            have e2 : notifyR sch (g2.defs.length + 1) x g2 = .thrown e g' := e2
            have w2 := w0.ext fw.2
            have nf2 : NF g2 := by
              have := forwardR_kept (K := fun _ => False) nf0 (fun _ h => h.elim) x (fun h => h)
              rw [e4] at this
              exact this.nf
            have nw := notifyR_weak sch (g2.defs.length + 1) x g2 w2 fw.1
            rw [e2] at nw
            obtain ⟨y, py, fy⟩ := notifyR_thrown sch _ x g2 g' e w2 fw.1 nf2 e2
            have w3 := w2.ext nw.2
            have hd : g'.defs = g.defs := by rw [nw.2.defs, fw.2.defs]; rfl
            have hg : g'.gman = g.gman := by rw [nw.2.gman, fw.2.gman]; rfl
            have py1 : Push g' x y := py.congr nw.2.defs nw.2.alive
            have hop1 : isOp g' x = true := by rw [isOp_congr hd]; exact hop.1
            obtain ⟨p1, p2, p3⟩ := py1.here w3 hop1
            refine ⟨y, fy, py1.stuck (stk g' hg hd ?_), p1, p2, by rw [p3, hg]; exact hm⟩
            -- `x` is still registered and not queued
            have hp : x ∈ ((popState m x g).man m).map ∧ x ∉ ((popState m x g).man m).queue := by
              rcases hst x rfl with h | ⟨a, rfl, h⟩
              · rw [show (popState m x g).gman x = m from hm] at h; exact h
              · exact absurd (w0.args_lt a a (by rw [h]; simp)) (Nat.lt_irrefl _)
            have hman : (g2.man m).map = ((popState m x g).man m).map ∧ (g2.man m).queue = ((popState m x g).man m).queue := by
              have : forward x (popState m x g) = .ok g2 := by rw [← forwardR_erase, e4]; rfl
              obtain ⟨f', as', z', vs, v, _, _, _, rfl⟩ := forward_ok this
              exact ⟨rfl, rfl⟩
            rw [← hman.1, ← hman.2] at hp
            have hnq : x ∉ (g'.man m).queue := by
              intro hq
              rcases nw.2.qnew m x hq with h | h
              · exact hp.2 h
              · exact absurd (h (by rw [isOp_congr (nw.2.defs.symm.trans hd)]; exact hop.1)) (Nat.lt_irrefl _)
            refine ⟨?_, hnq⟩
            have hmp := notifyR_map sch (g2.defs.length + 1) x g2
            rw [e2] at hmp
            exact hmp m x hp.1
          | abort => rw [e4] at e2; cases e2
          | ub => rw [e4] at e2; cases e2
        · cases e2
      | abort => rw [e2] at h; cases h
      | ub => rw [e2] at h; cases h

/-! ### Histories without freezing -/

theorem NF.empty : NF (G.empty (V := V)) := ⟨fun _ => rfl, fun m x hx => by simp [G.empty] at hx⟩

theorem NF.consume {g : G V} (nf : NF g) (m o : Nat) : NF (consume m o g) := by
  refine ⟨fun k => ?_, fun k x hx => ?_⟩
  · unfold Graph.consume
    split
    · exact nf.fz k
    · simp only [upd]
      split
      · rfl
      · split
        · exact nf.fz m
        · exact nf.fz k
  · rw [argsOf_congr (consume_defs m o g)]
    unfold Graph.consume at hx
    split at hx
    · exact nf.many k x hx
    · simp only [upd] at hx
      split at hx
      · simp at hx
      · split at hx
        · rcases List.mem_append.1 hx with h | h
          · exact nf.many o x h
          · exact nf.many m x h
        · exact nf.many k x hx

theorem NF.updateGraph {g : G V} (nf : NF g) (n : Nat) (cs : List Nat) : NF (updateGraph n cs g) := by
  cases cs with
  | nil =>
    refine ⟨fun k => ?_, fun k x hx => ?_⟩
    · simp only [Graph.updateGraph, upd]
      split
      · rfl
      · exact nf.fz k
    · simp only [Graph.updateGraph, upd] at hx
      split at hx
      · simp at hx
      · exact nf.many k x hx
  | cons c cs =>
    have key : ∀ (cs : List Nat) (g : G V), NF g → NF (cs.foldl (fun g a => Graph.consume (g.gman n) (g.gman a) g) g) := by
      intro cs
      induction cs with
      | nil => intro g h; exact h
      | cons c cs ih => intro g h; exact ih _ (h.consume _ _)
    unfold Graph.updateGraph
    refine key cs _ ⟨fun k => ?_, fun k x hx => ?_⟩
    · simp only [upd]
      split
      · exact nf.fz _
      · exact nf.fz k
    · simp only [upd] at hx
      split at hx
      · exact nf.many _ x hx
      · exact nf.many k x hx

theorem stepR_nf {sch : Sched} {c : Call V} {g : G V} (i : InvW g) (nf : NF g) (hc : ∀ m, c ≠ .freeze m true) : (stepR sch c g).Holds NF := by
  have hlt : ∀ m x, x ∈ (g.man m).map → x ≠ g.defs.length := fun m x hx e => by
    have := isOp_lt (i.q.mapOp m x hx).1
    omega
  have hup : ∀ m, (managerUpdateR sch m g).Holds NF := by
    intro m
    obtain ⟨a, b⟩ := drainR_kept (K := fun _ => False) sch m (g.defs.length + 1) g i.wf i.q nf (fun _ h => h.elim)
    cases e : managerUpdateR sch m g with
    | done g' => exact (a g' e).1
    | thrown x g' => exact (b x g' e).nf
    | abort => trivial
    | ub => trivial
  cases c with
  | newLeaf v =>
    refine ⟨nf.fz, fun m x hx => ?_⟩
    have hx : x ∈ (g.man m).map := hx
    rw [argsOf_push (g := g) (g' := newLeaf v g) rfl, if_neg (hlt m x hx)]
    exact nf.many m x hx
  | newOp f args h =>
    show (newOpR sch f args h g).Holds NF
    unfold newOpR
    split
    · trivial
    · split
      · rename_i h1
        have hargs : ∀ a ∈ args, g.alive a = true := fun a ha => List.all_eq_true.mp h1 a ha
        have n0 : NF (construct f args h g) := by
          unfold construct
          apply NF.updateGraph
          refine ⟨nf.fz, fun m x hx => ?_⟩
          have hx : x ∈ (g.man m).map := hx
          rw [argsOf_push (g := g) (d := .op f args h) rfl, if_neg (hlt m x hx)]
          exact nf.many m x hx
        cases e : updateR (notifyR sch (g.defs.length + 2)) g.defs.length (construct f args h g) with
        | done g' =>
          have : ∀ r, updateR (notifyR sch (g.defs.length + 2)) g.defs.length (construct f args h g) = r → r.Holds NF := by
            intro r hr
            unfold updateR at hr
            split at hr
            · split at hr
              · rename_i hc
                rw [← hr]
                have h1 : 1 < (argsOf (construct f args h g) g.defs.length).length := by
                  simpa [n0.fz] using hc
                exact (addUpdate_kept (K := fun _ => False) n0 (fun _ h => h.elim) _ h1).nf
              · rw [← hr]
                refine (forwardR_kept (K := fun _ => False) n0 (fun _ h => h.elim) _ (fun h => h)).andThen (fun _ h => h.nf) (fun g1 h => ?_)
                exact (notifyR_kept (fun _ => False) sch _ _ g1 h.nf h.closed (fun h => h)).mono (fun _ h => h.nf)
            · rw [← hr]; exact n0
          exact this _ e
        | thrown x g' => exact nf
        | abort => trivial
        | ub => trivial
      · trivial
  | assign n v b =>
    show (assignR sch n v b g).Holds NF
    have n1 : NF (setLeaf n v g) := ⟨nf.fz, nf.many⟩
    unfold assignR
    split
    · split
      · exact (notifyR_kept (fun _ => False) sch _ n (setLeaf n v g) n1 (fun _ h => h.elim) (fun h => h)).mono (fun _ h => h.nf)
      · exact n1
    · trivial
  | eval n =>
    show (evalR sch n g).Holds NF
    unfold evalR
    split
    · split
      · exact hup _
      · exact nf
    · trivial
  | getShape n =>
    show (getShapeR sch n g).Holds NF
    unfold getShapeR
    split
    · split
      · exact hup _
      · exact nf
    · trivial
  | freeze n b =>
    cases b with
    | true => exact absurd rfl (hc n)
    | false =>
      show (freezeStatusR sch n false g).Holds NF
      unfold freezeStatusR
      split
      · refine ⟨fun m => ?_, fun m x hx => ?_⟩
        · simp only [setFreeze, upd]
          split
          · rfl
          · exact nf.fz m
        · refine nf.many m x ?_
          simp only [setFreeze, upd] at hx
          split at hx
          · rename_i e
            rw [e]; exact hx
          · exact hx
      · trivial
  | delete n =>
    show (deleteR n g).Holds NF
    unfold deleteR
    split
    · exact ⟨nf.fz, nf.many⟩
    · trivial

theorem runR_nf (cs : List (Sched × Call V)) : ∀ {g g' : G V}, InvW g → NF g → (∀ c ∈ cs, ∀ m, c.2 ≠ .freeze m true) → runR cs g = some g' →
    InvW g' ∧ NF g' := by
  induction cs with
  | nil => intro g g' i nf _ h; cases h; exact ⟨i, nf⟩
  | cons c cs ih =>
    intro g g' i nf hz h
    have s := stepR_inv (sch := c.1) (c := c.2) i
    have t := stepR_nf (sch := c.1) (c := c.2) i nf (hz c (by simp))
    rw [runR] at h
    cases e : stepR c.1 c.2 g with
    | done g1 => rw [e] at h s t; exact ih s t (fun d hd => hz d (by simp [hd])) h
    | thrown x g1 => rw [e] at h s t; exact ih s t (fun d hd => hz d (by simp [hd])) h
    | abort => rw [e] at h; cases h
    | ub => rw [e] at h; cases h

/-- Assignments leave `K` alone. -/
theorem assigns_kept {K : Nat → Prop} (cs : List (Sched × Call V)) : ∀ {g g' : G V}, InvW g → NF g → Closed K g → (∀ x, K x → isOp g x = true) →
    (∀ c ∈ cs, ∃ n v b, c.2 = .assign n v b) → runR cs g = some g' → Kept K g g' ∧ InvW g' := by
  induction cs with
  | nil => intro g g' i nf c _ _ h; cases h; exact ⟨Kept.refl nf c, i⟩
  | cons c cs ih =>
    intro g g' i nf cl hop hz h
    obtain ⟨n, v, b, hc⟩ := hz c (by simp)
    have s := stepR_inv (sch := c.1) (c := c.2) i
    have t : (stepR c.1 c.2 g).Holds (Kept K g) := by
      rw [hc]
      show (assignR c.1 n v b g).Holds (Kept K g)
      unfold assignR
      split
      · rename_i h1
        simp only [Bool.and_eq_true, Bool.not_eq_true'] at h1
        have hn : ¬ K n := fun hK => by rw [hop n hK] at h1; exact absurd h1.2 (by simp)
        have k0 : Kept K g (setLeaf n v g) := setData_kept nf cl n (some v) hn
        split
        · exact (notifyR_kept K c.1 _ n (setLeaf n v g) k0.nf k0.closed hn).mono (fun _ h => k0.trans h)
        · exact k0
      · trivial
    have key : ∀ g1, InvW g1 → Kept K g g1 → runR cs g1 = some g' → Kept K g g' ∧ InvW g' := by
      intro g1 i1 k1 h1
      obtain ⟨a, b⟩ := ih i1 k1.nf k1.closed (fun x hx => by rw [isOp_congr k1.defs]; exact hop x hx) (fun d hd => hz d (by simp [hd])) h1
      exact ⟨k1.trans a, b⟩
    rw [runR] at h
    cases e : stepR c.1 c.2 g with
    | done g1 => rw [e] at h s t; exact key g1 s t h
    | thrown x g1 => rw [e] at h s t; exact key g1 s t h
    | abort => rw [e] at h; cases h
    | ub => rw [e] at h; cases h

end Graph
end Verif
