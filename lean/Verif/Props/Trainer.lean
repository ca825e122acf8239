import Verif.Model.Trainer
import Verif.Props.Moves
/-!
# C90: what a trainer owns and which parameters it trains
-/
namespace Verif.Props
open Verif.Spec Verif.Nets Verif.Tensor Verif.Leaf

variable {T : Type}

/-- A trainer is in order: its three placeholders and the parameters of its network exist and are all different, and it
trains the parameters of its network that its updater does not ignore. -/
structure InOrder (g : Trainer T) (s : Store T) : Prop where
  nodup : g.owned.Nodup
  live : ∀ x ∈ g.owned, ∃ v, s.mem.at_ x = some v
  changes : ∀ x, x ∈ g.changes ↔ x ∈ g.brain.vars ∧ x ∉ g.updater.ignored
  once : g.changes.Nodup

theorem mem_calculate (u : Updater T) (a : MLP) (x : Nat) : x ∈ u.calculate a ↔ x ∈ a.vars ∧ x ∉ u.ignored := by
  simp [Updater.calculate]

theorem new_placeholder_wf (e : Env T) (s : List Nat) (l : List Char) : (⟨l, Leaf.newVariable e s none⟩ : Var T).leaf.data.WF := new_wf e s

/-- Making a trainer: it has three new placeholders, owns the very parameters of the network given to it, trains those its
updater does not ignore, and nothing in memory changes.  The updater given is copied: changing it afterwards does not concern the trainer. -/
theorem c90_new (e : Env T) (a : MLP) (u : Updater T) (scope : List Char) (s : Store T) (hs : StoreOk s) (o : Nat) (ho : a.nOut = some o)
    (hnd : a.vars.Nodup) (hl : ∀ x ∈ a.vars, ∃ v, s.mem.at_ x = some v) :
    ∃ g s', trainerNew e a u scope s = .ok (g, s') ∧ StoreOk s' ∧ InOrder g s' ∧ g.brain = a ∧ g.updater = u ∧ g.scope = scope ∧ s'.hollow = s.hollow ∧
      (∀ x v, s.mem.at_ x = some v → s'.mem.at_ x = some v) ∧ ∀ x ∈ [g.testIn, g.trainIn, g.wanted], s.mem.at_ x = none ∧ x ∉ s.hollow := by
  set v1 : Var T := ⟨scope ++ "_in".toList, Leaf.newVariable e [a.nIn, 0] none⟩ with h1
  set v2 : Var T := ⟨"train_in".toList, Leaf.newVariable e [a.nIn, 0] none⟩ with h2
  set v3 : Var T := ⟨"expected_out".toList, Leaf.newVariable e [o, 0] none⟩ with h3
  obtain ⟨a1, a2, a3, a4, a5⟩ := alloc_ok s.mem hs.ok v1 (new_placeholder_wf e _ _)
  obtain ⟨b1, b2, b3, b4, b5⟩ := alloc_ok (s.mem.alloc v1).2 a1 v2 (new_placeholder_wf e _ _)
  obtain ⟨c1, c2, c3, c4, c5⟩ := alloc_ok ((s.mem.alloc v1).2.alloc v2).2 b1 v3 (new_placeholder_wf e _ _)
  set m3 := (((s.mem.alloc v1).2.alloc v2).2.alloc v3).2 with hm3
  rw [a3] at b2 b4
  rw [b3, a3] at c2 c4
  have keep : ∀ x v, s.mem.at_ x = some v → m3.at_ x = some v := fun x v h => c5 x v (b5 x v (a5 x v h))
  have hfree : ∀ x ∈ [s.mem.next, s.mem.next + 1, s.mem.next + 1 + 1], s.mem.at_ x = none ∧ x ∉ s.hollow := fun x hx => by
    have hx : s.mem.next ≤ x := by simp only [List.mem_cons, List.not_mem_nil, or_false] at hx; omega
    exact ⟨hs.ok.none_of_le hx, fun c => by have := (hs.apart x c).2; omega⟩
  refine ⟨⟨scope, a, s.mem.next, s.mem.next + 1, s.mem.next + 1 + 1, u, u.calculate a⟩, ⟨m3, s.hollow⟩, ?_, ⟨c1, hs.nodup, fun x hx => ?_⟩, ⟨?_, fun x hx => ?_, mem_calculate u a, hnd.filter _⟩,
    rfl, rfl, rfl, rfl, keep, hfree⟩
  · simp only [trainerNew, ho]
    rfl
  · have hb := (hs.apart x hx).2
    refine ⟨?_, by show x < m3.next; rw [c3, b3, a3]; omega⟩
    have e3 : ∀ (m : Mem T) (v : Var T), x < m.next → (m.alloc v).2.at_ x = m.at_ x := fun m v h => by simp only [Mem.alloc]; rw [if_neg (by omega)]
    show m3.at_ x = none
    rw [hm3, e3 _ _ (by rw [b3, a3]; omega), e3 _ _ (by rw [a3]; omega), e3 _ _ hb]
    exact (hs.apart x hx).1
  · refine List.nodup_append.mpr ⟨by simp; omega, hnd, fun x hx y hy => ?_⟩
    rintro rfl
    obtain ⟨v, hv⟩ := hl x hy
    rw [(hfree x hx).1] at hv; cases hv
  · rcases List.mem_append.mp hx with hx | hx
    · simp only [List.mem_cons, List.not_mem_nil, or_false] at hx
      rcases hx with rfl | rfl | rfl
      · exact ⟨v1, c5 _ _ (b5 _ _ a4)⟩
      · exact ⟨v2, c5 _ _ b4⟩
      · exact ⟨v3, c4⟩
    · obtain ⟨v, hv⟩ := hl x hx
      exact ⟨v, keep x v hv⟩

theorem changeAll_ok (f : Nat → Leaf T → Leaf T) (xs : List Nat) : ∀ (m : Mem T), xs.Nodup → (∀ x ∈ xs, ∃ v, m.at_ x = some v) →
    ∃ m', changeAll f xs m = .ok m' ∧ (∀ x, x ∉ xs → m'.at_ x = m.at_ x) ∧ ∀ x ∈ xs, ∀ v, m.at_ x = some v → m'.at_ x = some ⟨v.label, f x v.leaf⟩ := by
  induction xs with
  | nil => intro m _ _; exact ⟨m, rfl, fun _ _ => rfl, fun x hx => absurd hx (by simp)⟩
  | cons x xs ih =>
    intro m hnd hl
    rw [List.nodup_cons] at hnd
    obtain ⟨v, hv⟩ := hl x (by simp)
    have hset : ∀ y, (m.set x (some ⟨v.label, f x v.leaf⟩)).at_ y = if y = x then some ⟨v.label, f x v.leaf⟩ else m.at_ y := fun y => rfl
    obtain ⟨m', h1, h2, h3⟩ := ih (m.set x (some ⟨v.label, f x v.leaf⟩)) hnd.2 fun y hy => by
      have hyx : y ≠ x := fun c => hnd.1 (c ▸ hy)
      rw [hset, if_neg hyx]; exact hl y (by simp [hy])
    refine ⟨m', by simp only [changeAll, Mem.deref, hv, Outcome.ok_bind, h1], fun y hy => ?_, fun y hy w hw => ?_⟩
    · rw [List.mem_cons, not_or] at hy
      rw [h2 y hy.2, hset, if_neg hy.1]
    · by_cases hyx : y = x
      · subst hyx
        rw [hv] at hw; injection hw with hw; subst hw
        rw [h2 y hnd.1, hset, if_pos rfl]
      · have hy : y ∈ xs := by simpa [hyx] using hy
        exact h3 y hy w (by rw [hset, if_neg hyx]; exact hw)

/-- Training changes exactly the two placeholders of the trainer and the parameters of its network that are not ignored;
an ignored parameter, and every variable of another network, stays as it was. -/
theorem c90_train (fi fw : Leaf T → Leaf T) (f : Nat → Leaf T → Leaf T) (g : Trainer T) (s : Store T) (h : InOrder g s) :
    ∃ s', trainerTrain fi fw f g s = .ok s' ∧ s'.hollow = s.hollow ∧
      (∀ v, s.mem.at_ g.trainIn = some v → s'.mem.at_ g.trainIn = some ⟨v.label, fi v.leaf⟩) ∧ (∀ v, s.mem.at_ g.wanted = some v → s'.mem.at_ g.wanted = some ⟨v.label, fw v.leaf⟩) ∧
      (∀ x ∈ g.brain.vars, x ∉ g.updater.ignored → ∀ v, s.mem.at_ x = some v → s'.mem.at_ x = some ⟨v.label, f x v.leaf⟩) ∧
      (∀ x, x ∉ g.brain.vars ∨ x ∈ g.updater.ignored → x ≠ g.trainIn → x ≠ g.wanted → s'.mem.at_ x = s.mem.at_ x) := by
  have hn := h.nodup
  simp only [Trainer.owned, List.cons_append, List.nil_append, List.nodup_cons, List.mem_cons, not_or] at hn
  obtain ⟨-, ⟨t1, t2⟩, t3, -⟩ := hn
  obtain ⟨v, hv⟩ := h.live g.trainIn (by simp [Trainer.owned])
  obtain ⟨w, hw⟩ := h.live g.wanted (by simp [Trainer.owned])
  have hb : ∀ x ∈ g.changes, x ∈ g.brain.vars := fun x hx => ((h.changes x).1 hx).1
  set m1 := s.mem.set g.trainIn (some ⟨v.label, fi v.leaf⟩) with hm1
  set m2 := m1.set g.wanted (some ⟨w.label, fw w.leaf⟩) with hm2
  have e1 : ∀ y, m1.at_ y = if y = g.trainIn then some ⟨v.label, fi v.leaf⟩ else s.mem.at_ y := fun y => rfl
  have e2 : ∀ y, m2.at_ y = if y = g.wanted then some ⟨w.label, fw w.leaf⟩ else m1.at_ y := fun y => rfl
  have e3 : ∀ y, y ≠ g.trainIn → y ≠ g.wanted → m2.at_ y = s.mem.at_ y := fun y h1 h2 => by rw [e2, if_neg h2, e1, if_neg h1]
  have ne : ∀ x ∈ g.brain.vars, x ≠ g.trainIn ∧ x ≠ g.wanted := fun x hx => ⟨fun c => t2 (c ▸ hx), fun c => t3 (c ▸ hx)⟩
  obtain ⟨m', c1, c2, c3⟩ := changeAll_ok f g.changes m2 h.once fun x hx => by
    rw [e3 x (ne x (hb x hx)).1 (ne x (hb x hx)).2]; exact h.live x (List.mem_append.mpr (.inr (hb x hx)))
  refine ⟨⟨m', s.hollow⟩, ?_, rfl, fun u hu => ?_, fun u hu => ?_, fun x hx hi u hu => ?_, fun x hx n1 n2 => ?_⟩
  · have d1 : s.mem.deref g.trainIn = .ok v := by simp only [Mem.deref, hv]
    have d2 : m1.deref g.wanted = .ok w := by simp only [Mem.deref, e1, if_neg (Ne.symm t1), hw]
    simp only [trainerTrain, d1, Outcome.ok_bind, ← hm1, d2, ← hm2, c1]
  · rw [hv] at hu; injection hu with hu; subst hu
    show m'.at_ _ = _
    rw [c2 _ (fun c => t2 (hb _ c)), e2, if_neg t1, e1, if_pos rfl]
  · rw [hw] at hu; injection hu with hu; subst hu
    show m'.at_ _ = _
    rw [c2 _ (fun c => t3 (hb _ c)), e2, if_pos rfl]
  · exact c3 x ((h.changes x).2 ⟨hx, hi⟩) u (by rw [e3 x (ne x hx).1 (ne x hx).2]; exact hu)
  · show m'.at_ x = _
    rw [c2 x (fun c => ?_), e3 x n1 n2]
    have := (h.changes x).1 c
    tauto

/-- Copying a trainer: three new placeholders and a network of its own, all copies; the original's scope and learning rate;
nothing in memory changes.  The copy trains **every** parameter of its network, whatever the original's updater ignores. -/
theorem c90_copy (e : Env T) (hmem : ∀ n, e.fits n = true) (g : Trainer T) (scope : List Char) (s : Store T) (hs : StoreOk s) (h : InOrder g s)
    (hi : ∀ x ∈ g.updater.ignored, x < s.mem.next) :
    ∃ c s', trainerCopy e g scope s = .ok (c, s') ∧ StoreOk s' ∧ InOrder c s' ∧ s'.hollow = s.hollow ∧ (∀ x v, s.mem.at_ x = some v → s'.mem.at_ x = some v) ∧
      (∀ x ∈ c.owned, s.mem.at_ x = none ∧ x ∉ s.hollow) ∧
      List.Forall₂ (fun x y => ∃ v v', s.mem.at_ x = some v ∧ s'.mem.at_ y = some v' ∧ CopyOf v.leaf v'.leaf) g.owned c.owned ∧
      SameLayers g.brain.layers c.brain.layers ∧ c.scope = g.scope ∧ c.updater.rate = g.updater.rate ∧ ∀ x, x ∈ c.changes ↔ x ∈ c.brain.vars := by
  have lt : ∀ x ∈ g.owned, x < s.mem.next := fun x hx => by obtain ⟨v, hv⟩ := h.live x hx; exact hs.ok.lt x v hv
  have q1 : g.testIn ∈ g.owned := by simp [Trainer.owned]
  have q2 : g.trainIn ∈ g.owned := by simp [Trainer.owned]
  have q3 : g.wanted ∈ g.owned := by simp [Trainer.owned]
  have q4 : ∀ x ∈ g.brain.vars, x ∈ g.owned := fun x hx => by simp [Trainer.owned, hx]
  obtain ⟨x1, m1, d1, k1⟩ := cloneVar_ok e hmem g.testIn none s.mem hs.ok (h.live _ q1)
  obtain ⟨x2, m2, d2, k2⟩ := cloneVar_ok e hmem g.trainIn none m1 k1.ok (by rw [k1.old _ (lt _ q2)]; exact h.live _ q2)
  have k12 := k1.trans k2 (fun x hx => lt x (by simp at hx; subst hx; exact q2))
  obtain ⟨x3, m3, d3, k3⟩ := cloneVar_ok e hmem g.wanted none m2 k2.ok (by rw [k12.old _ (lt _ q3)]; exact h.live _ q3)
  have k13 := k12.trans k3 (fun x hx => lt x (by simp at hx; subst hx; exact q3))
  obtain ⟨qs, m4, d4, d5, k4⟩ := mlpCopyFrom_ok e hmem (copyScope g.brain.scope scope) g.brain.layers 0 m3 k3.ok (fun x hx => by
    rw [k13.old x (lt x (q4 x hx))]; exact h.live x (q4 x hx))
  have k := k13.trans k4 (fun x hx => lt x (q4 x hx))
  set b : MLP := ⟨copyScope g.brain.scope scope, g.brain.nIn, g.brain.nOut, qs⟩ with hb
  let c : Trainer T := ⟨g.scope, b, x1, x2, x3, g.updater, g.updater.calculate b⟩
  have ho : c.owned = [x1] ++ [x2] ++ [x3] ++ qs.flatMap fun p => p.1.vars := rfl
  have hgo : g.owned = [g.testIn] ++ [g.trainIn] ++ [g.wanted] ++ g.brain.layers.flatMap fun p => p.1.vars := rfl
  have hall : ∀ x, x ∈ c.changes ↔ x ∈ c.brain.vars := fun x => by
    rw [show c.changes = g.updater.calculate b from rfl, mem_calculate]
    refine ⟨And.left, fun hx => ⟨hx, fun hc => ?_⟩⟩
    have h1 := hi x hc
    have h2 := (k.fresh x (by rw [← ho]; exact List.mem_append.mpr (.inr hx))).1
    omega
  refine ⟨c, ⟨m4, s.hollow⟩, ?_, ⟨k.ok, hs.nodup, fun x hx => ?_⟩, ⟨by rw [ho]; exact k.nodup, fun y hy => ?_, mem_calculate g.updater b, ?_⟩, rfl,
    fun x v hx => by show m4.at_ x = _; rw [k.old x (hs.ok.lt x v hx)]; exact hx, fun x hx => ?_, by rw [ho, hgo]; exact k.copy, d5, rfl, rfl, hall⟩
  · simp only [trainerCopy, d1, d2, d3, Outcome.ok_bind, mlpClone, d4]
    rfl
  · have hb := hs.apart x hx
    exact ⟨by show m4.at_ x = none; rw [k.old x hb.2]; exact hb.1, Nat.lt_of_lt_of_le hb.2 k.le⟩
  · rw [ho] at hy
    have : ∀ {xs ys : List Nat}, List.Forall₂ (fun x y => ∃ v v', s.mem.at_ x = some v ∧ m4.at_ y = some v' ∧ CopyOf v.leaf v'.leaf) xs ys → ∀ y ∈ ys, ∃ v, m4.at_ y = some v := by
      intro xs ys hf
      induction hf with
      | nil => simp
      | cons h _ ih =>
        obtain ⟨_, v', _, h2, _⟩ := h
        intro y hy
        rcases List.mem_cons.mp hy with rfl | hy
        · exact ⟨v', h2⟩
        · exact ih y hy
    exact this k.copy y hy
  · have : b.vars.Nodup := by have h2 := k.nodup; exact (List.nodup_append.mp h2).2.1
    exact this.filter _
  · have h2 := (k.fresh x (by rw [← ho]; exact hx)).1
    exact ⟨hs.ok.none_of_le h2, fun c => by have := (hs.apart x c).2; omega⟩

/-- A copy and its original are independent: training either one leaves every variable of the other one as it is. -/
theorem c90_copy_independent (e : Env T) (hmem : ∀ n, e.fits n = true) (g : Trainer T) (scope : List Char) (s : Store T) (hs : StoreOk s) (h : InOrder g s)
    (hi : ∀ x ∈ g.updater.ignored, x < s.mem.next) (fi fw : Leaf T → Leaf T) (f : Nat → Leaf T → Leaf T) :
    ∃ c s', trainerCopy e g scope s = .ok (c, s') ∧
      (∃ s'', trainerTrain fi fw f c s' = .ok s'' ∧ ∀ x v, s.mem.at_ x = some v → s''.mem.at_ x = some v) ∧
      ∃ s'', trainerTrain fi fw f g s' = .ok s'' ∧ ∀ x ∈ c.owned, s''.mem.at_ x = s'.mem.at_ x := by
  obtain ⟨c, s', c1, c2, c3, c4, c5, c6, -⟩ := c90_copy e hmem g scope s hs h hi
  have mine : ∀ x v, s.mem.at_ x = some v → x ∉ c.owned := fun x v hv hx => by rw [(c6 x hx).1] at hv; cases hv
  have hg : InOrder g s' := ⟨h.nodup, fun x hx => by obtain ⟨v, hv⟩ := h.live x hx; exact ⟨v, c5 x v hv⟩, h.changes, h.once⟩
  refine ⟨c, s', c1, ?_, ?_⟩
  · obtain ⟨s'', t1, _, _, _, _, t4⟩ := c90_train fi fw f c s' c3
    refine ⟨s'', t1, fun x v hv => ?_⟩
    have := mine x v hv
    simp only [Trainer.owned, List.mem_append, List.mem_cons, List.not_mem_nil, or_false, not_or] at this
    rw [t4 x (.inl this.2) this.1.2.1 this.1.2.2]
    exact c5 x v hv
  · obtain ⟨s'', t1, _, _, _, _, t4⟩ := c90_train fi fw f g s' hg
    refine ⟨s'', t1, fun x hx => ?_⟩
    have hno : x ∉ g.owned := fun hx' => by obtain ⟨v, hv⟩ := h.live x hx'; exact mine x v hv hx
    simp only [Trainer.owned, List.mem_append, List.mem_cons, List.not_mem_nil, or_false, not_or] at hno
    exact t4 x (.inl hno.2) hno.1.2.1 hno.1.2.2

/-- Negative: a parameter frozen in the original is trained in the copy. -/
theorem c90_copy_thaws (e : Env T) (hmem : ∀ n, e.fits n = true) (g : Trainer T) (scope : List Char) (s : Store T) (hs : StoreOk s) (h : InOrder g s)
    (hi : ∀ x ∈ g.updater.ignored, x < s.mem.next) (k x : Nat) (hk : g.brain.vars[k]? = some x) (hx : x ∈ g.updater.ignored) (fi fw : Leaf T → Leaf T)
    (f : Nat → Leaf T → Leaf T) :
    (∃ s', trainerTrain fi fw f g s = .ok s' ∧ s'.mem.at_ x = s.mem.at_ x) ∧
    ∃ c s', trainerCopy e g scope s = .ok (c, s') ∧ ∃ y v s'', c.brain.vars[k]? = some y ∧ s'.mem.at_ y = some v ∧
      trainerTrain fi fw f c s' = .ok s'' ∧ s''.mem.at_ y = some ⟨v.label, f y v.leaf⟩ := by
  have hxb : x ∈ g.brain.vars := List.mem_of_getElem? hk
  have hn := h.nodup
  simp only [Trainer.owned, List.cons_append, List.nil_append, List.nodup_cons, List.mem_cons, not_or] at hn
  refine ⟨?_, ?_⟩
  · obtain ⟨s', t1, _, _, _, _, t4⟩ := c90_train fi fw f g s h
    exact ⟨s', t1, t4 x (.inr hx) (fun c => hn.2.1.2 (c ▸ hxb)) (fun c => hn.2.2.1 (c ▸ hxb))⟩
  · obtain ⟨c, s', c1, c2, c3, c4, c5, c6, c7, c8, c9, c10, c11⟩ := c90_copy e hmem g scope s hs h hi
    refine ⟨c, s', c1, ?_⟩
    have hlen : g.brain.vars.length = c.brain.vars.length := by
      have := c7.length_eq
      simp only [Trainer.owned, List.length_append, List.length_cons, List.length_nil] at this
      omega
    have hklt : k < c.brain.vars.length := by rw [← hlen]; exact (List.getElem?_eq_some_iff.mp hk).1
    have hy : c.brain.vars[k] ∈ c.brain.vars := List.getElem_mem hklt
    obtain ⟨v, hv⟩ := c3.live _ (List.mem_append.mpr (.inr hy))
    obtain ⟨s'', t1, _, _, _, t3, _⟩ := c90_train fi fw f c s' c3
    exact ⟨c.brain.vars[k], v, s'', List.getElem?_eq_getElem hklt, hv, t1, t3 _ hy ((c3.changes _).1 ((c11 _).2 hy)).2 v hv⟩

/-- Deleting a trainer deletes its placeholders and its network, and nothing else. -/
theorem c90_delete (g : Trainer T) (s : Store T) (hs : StoreOk s) (h : InOrder g s) :
    ∃ s', trainerDelete g s = .ok s' ∧ StoreOk s' ∧ (∀ x, s'.mem.at_ x = if x ∈ g.owned then none else s.mem.at_ x) ∧ ∀ x, x ∈ s'.hollow ↔ x ∈ s.hollow := by
  obtain ⟨t, h1, h2, h3, h4⟩ := storeDelete_ok g.owned s hs h.nodup fun x hx => .inr (h.live x hx)
  refine ⟨t, h1, h2, h3, fun x => ?_⟩
  rw [h4]
  refine ⟨And.left, fun hx => ⟨hx, fun c => ?_⟩⟩
  obtain ⟨v, hv⟩ := h.live x c
  rw [(hs.apart x hx).1] at hv; cases hv

/-- Negative: a network belongs to the trainer it is given to.  Two trainers over one network train the same parameters, and
deleting both is undefined; so is deleting the network as well. -/
theorem c90_shared_network_ub (g g' : Trainer T) (s : Store T) (hs : StoreOk s) (h : InOrder g s) (h' : InOrder g' s) (hb : g'.brain = g.brain)
    (hne : g.brain.vars ≠ []) (hp : ∀ x ∈ [g'.testIn, g'.trainIn, g'.wanted], x ∉ g.owned) :
    (trainerDelete g s >>= trainerDelete g') = .ub ∧ (trainerDelete g s >>= fun t => mlpDelete g.brain t.mem) = .ub := by
  obtain ⟨t, h1, h2, h3, h4⟩ := c90_delete g s hs h
  obtain ⟨x, xs, hx⟩ := List.exists_cons_of_ne_nil hne
  have hxo : x ∈ g.owned := List.mem_append.mpr (.inr (by rw [hx]; simp))
  have gone : t.mem.at_ x = none := by rw [h3, if_pos hxo]
  have nh : x ∉ t.hollow := fun c => by
    obtain ⟨v, hv⟩ := h.live x hxo
    rw [(hs.apart x ((h4 x).1 c)).1] at hv; cases hv
  refine ⟨?_, ?_⟩
  · rw [h1, Outcome.ok_bind]
    have hnd : [g'.testIn, g'.trainIn, g'.wanted].Nodup := (List.nodup_append.mp h'.nodup).1
    obtain ⟨t', d1, _, d3, d4⟩ := storeDelete_ok [g'.testIn, g'.trainIn, g'.wanted] t h2 hnd fun y hy => by
      obtain ⟨v, hv⟩ := h'.live y (List.mem_append.mpr (.inl hy))
      exact .inr ⟨v, by rw [h3, if_neg (hp y hy)]; exact hv⟩
    have app : ∀ (as bs : List Nat) (r : Store T), Store.deleteAll (as ++ bs) r = (Store.deleteAll as r >>= Store.deleteAll bs) := by
      intro as
      induction as with
      | nil => intro bs r; rfl
      | cons a as ih =>
        intro bs r
        simp only [List.cons_append, Store.deleteAll]
        cases r.delete a with
        | ok r' => rw [Outcome.ok_bind, Outcome.ok_bind, ih]
        | ub => rfl
        | abort => rfl
        | _ => rfl
    unfold trainerDelete Trainer.owned
    rw [app, d1, Outcome.ok_bind, hb, hx]
    have nx : x ∉ t'.hollow := fun c => nh ((d4 x).1 c).1
    have gx : t'.mem.at_ x = none := by rw [d3]; split <;> [rfl; exact gone]
    simp only [Store.deleteAll, Store.delete, if_neg nx, Mem.delete, Mem.deref, gx, Outcome.ub_bind]
  · rw [h1, Outcome.ok_bind]
    unfold mlpDelete
    rw [hx]
    simp only [Mem.deleteAll, Mem.delete, Mem.deref, gone, Outcome.ub_bind]

/-- Copy assignment: the target's own placeholders and network are deleted and it becomes a copy of the other trainer, whose
variables stay; assigning a trainer to itself does nothing. -/
theorem c90_assign (e : Env T) (hmem : ∀ n, e.fits n = true) (g g' : Trainer T) (s : Store T) (hs : StoreOk s) (h : InOrder g s) (h' : InOrder g' s)
    (hd : ∀ x ∈ g.owned, x ∉ g'.owned) (hi : ∀ x ∈ g'.updater.ignored, x < s.mem.next) :
    trainerAssign e true g g s = .ok (g, s) ∧
    ∃ c s', trainerAssign e false g g' s = .ok (c, s') ∧ StoreOk s' ∧ InOrder c s' ∧ InOrder g' s' ∧ (∀ x ∈ g.owned, s'.mem.at_ x = none) ∧
      (∀ x v, x ∉ g.owned → s.mem.at_ x = some v → s'.mem.at_ x = some v) ∧ (∀ x ∈ c.owned, x ∉ g'.owned) ∧
      List.Forall₂ (fun x y => ∃ v v', s.mem.at_ x = some v ∧ s'.mem.at_ y = some v' ∧ CopyOf v.leaf v'.leaf) g'.owned c.owned ∧
      c.scope = g'.scope ∧ c.updater.rate = g'.updater.rate := by
  refine ⟨rfl, ?_⟩
  obtain ⟨t, h1, h2, h3, h4⟩ := c90_delete g s hs h
  have kt : ∀ x, x ∉ g.owned → t.mem.at_ x = s.mem.at_ x := fun x hx => by rw [h3, if_neg hx]
  have h't : InOrder g' t := ⟨h'.nodup, fun x hx => by rw [kt x fun c => hd x c hx]; exact h'.live x hx, h'.changes, h'.once⟩
  have hnext : t.mem.next = s.mem.next := by
    have : ∀ (xs : List Nat) (r r' : Store T), Store.deleteAll xs r = .ok r' → r'.mem.next = r.mem.next := by
      intro xs
      induction xs with
      | nil => intro r r' hr; injection hr with hr; rw [hr]
      | cons x xs ih =>
        intro r r' hr
        obtain ⟨r1, e1, e2⟩ := Outcome.bind_eq_ok.mp hr
        rw [ih r1 r' e2]
        unfold Store.delete at e1
        split at e1
        · injection e1 with e1; rw [← e1]
        · obtain ⟨m, e3, e4⟩ := Outcome.bind_eq_ok.mp e1
          obtain ⟨v, _, e5⟩ := Outcome.bind_eq_ok.mp e3
          injection e4 with e4
          injection e5 with e5
          rw [← e4, ← e5]; rfl
    exact this _ _ _ h1
  obtain ⟨c, s', c1, c2, c3, c4, c5, c6, c7, _, c9, c10, _⟩ := c90_copy e hmem g' [] t h2 h't (by rw [hnext]; exact hi)
  refine ⟨c, s', ?_, c2, c3, ⟨h'.nodup, fun x hx => by obtain ⟨v, hv⟩ := h't.live x hx; exact ⟨v, c5 x v hv⟩, h'.changes, h'.once⟩, fun x hx => ?_, fun x v hx hv => c5 x v (by rw [kt x hx]; exact hv), fun x hx hx' => ?_, ?_, c9, c10⟩
  · simp only [trainerAssign, Bool.false_eq_true, if_false, h1, Outcome.ok_bind, c1]
  · -- the addresses of the target are not reused
    have hlt : x < s.mem.next := by obtain ⟨v, hv⟩ := h.live x hx; exact hs.ok.lt x v hv
    have hcopy : ∀ y, y < t.mem.next → s'.mem.at_ y = t.mem.at_ y := by
      obtain ⟨a, a1, b1⟩ := Outcome.bind_eq_ok.mp c1
      obtain ⟨b, a2, b2⟩ := Outcome.bind_eq_ok.mp b1
      obtain ⟨d, a3, b3⟩ := Outcome.bind_eq_ok.mp b2
      obtain ⟨r, a4, b4⟩ := Outcome.bind_eq_ok.mp b3
      have q : ∀ z ∈ [g'.testIn, g'.trainIn, g'.wanted], ∃ v, t.mem.at_ z = some v := fun z hz => h't.live z (List.mem_append.mpr (.inl hz))
      have l : ∀ z v, t.mem.at_ z = some v → z < t.mem.next := fun z v hz => h2.ok.lt z v hz
      obtain ⟨x1, m1, d1, k1⟩ := cloneVar_ok e hmem g'.testIn none t.mem h2.ok (q _ (by simp))
      rw [d1] at a1; injection a1 with a1; subst a1
      obtain ⟨v2, q2⟩ := q g'.trainIn (by simp)
      obtain ⟨x2, m2, d2, k2⟩ := cloneVar_ok e hmem g'.trainIn none m1 k1.ok ⟨v2, by rw [k1.old _ (l _ v2 q2)]; exact q2⟩
      dsimp only at a2
      rw [d2] at a2; injection a2 with a2; subst a2
      have k12 := k1.trans k2 (fun x hx => by simp at hx; subst hx; exact l _ v2 q2)
      obtain ⟨v3, q3⟩ := q g'.wanted (by simp)
      obtain ⟨x3, m3, d3, k3⟩ := cloneVar_ok e hmem g'.wanted none m2 k2.ok ⟨v3, by rw [k12.old _ (l _ v3 q3)]; exact q3⟩
      dsimp only at a3
      rw [d3] at a3; injection a3 with a3; subst a3
      have k13 := k12.trans k3 (fun x hx => by simp at hx; subst hx; exact l _ v3 q3)
      have hv : ∀ x ∈ g'.brain.vars, ∃ v, t.mem.at_ x = some v := fun x hx => h't.live x (List.mem_append.mpr (.inr hx))
      obtain ⟨qs, m4, d4, _, k4⟩ := mlpCopyFrom_ok e hmem (copyScope g'.brain.scope []) g'.brain.layers 0 m3 k3.ok (fun x hx => by
        obtain ⟨v, hv⟩ := hv x hx
        exact ⟨v, by rw [k13.old x (l x v hv)]; exact hv⟩)
      have k := k13.trans k4 (fun x hx => by obtain ⟨v, hv⟩ := hv x hx; exact l x v hv)
      dsimp only at a4
      simp only [mlpClone, d4, Outcome.ok_bind] at a4
      injection a4 with a4; subst a4
      injection b4 with b4
      injection b4 with _ b4
      subst b4
      exact k.old
    rw [hcopy x (by rw [hnext]; exact hlt), h3, if_pos hx]
  · obtain ⟨v, hv⟩ := h't.live x hx'
    rw [(c6 x hx).1] at hv; cases hv
  · have : ∀ {xs ys : List Nat}, (∀ x ∈ xs, x ∉ g.owned) → List.Forall₂ (fun x y => ∃ v v', t.mem.at_ x = some v ∧ s'.mem.at_ y = some v' ∧ CopyOf v.leaf v'.leaf) xs ys →
        List.Forall₂ (fun x y => ∃ v v', s.mem.at_ x = some v ∧ s'.mem.at_ y = some v' ∧ CopyOf v.leaf v'.leaf) xs ys := by
      intro xs ys hx hf
      induction hf with
      | nil => exact .nil
      | cons hh _ ih =>
        obtain ⟨v, v', p1, p2⟩ := hh
        exact .cons ⟨v, v', by rw [← kt _ (hx _ (by simp))]; exact p1, p2⟩ (ih fun z hz => hx z (by simp [hz]))
    exact this (fun x hx c => hd x c hx) c7

/-- Moving a trainer: the new one has the very same network, with its parameters where they were, the same updater, and
trains exactly what the old one trained; so an ignored parameter stays ignored.  Training the old one is undefined, deleting
both, in either order, is not, and leaves nothing of either behind. -/
theorem c90_move (rest : List Char → List Char) (g : Trainer T) (s : Store T) (hs : StoreOk s) (h : InOrder g s) (fi fw : Leaf T → Leaf T)
    (f : Nat → Leaf T → Leaf T) :
    ∃ c d s', trainerMove rest g s = .ok (c, d, s') ∧ InOrder c s' ∧ c.brain = g.brain ∧ c.scope = g.scope ∧ c.updater = g.updater ∧ (∀ x, x ∈ c.changes ↔ x ∈ g.changes) ∧
      (∀ x ∈ g.brain.vars, s'.mem.at_ x = s.mem.at_ x) ∧
      s'.mem.at_ c.testIn = s.mem.at_ g.testIn ∧ s'.mem.at_ c.trainIn = s.mem.at_ g.trainIn ∧ s'.mem.at_ c.wanted = s.mem.at_ g.wanted ∧
      trainerTrain fi fw f d s' = .ub ∧
      (∃ t, (trainerDelete c s' >>= trainerDelete d) = .ok t ∧ ∀ y ∈ c.owned ++ g.owned, t.mem.at_ y = none ∧ y ∉ t.hollow) ∧
      ∃ t, (trainerDelete d s' >>= trainerDelete c) = .ok t ∧ ∀ y ∈ c.owned ++ g.owned, t.mem.at_ y = none ∧ y ∉ t.hollow := by
  have lt : ∀ x ∈ g.owned, x < s.mem.next := fun x hx => by obtain ⟨v, hv⟩ := h.live x hx; exact hs.ok.lt x v hv
  have q1 : g.testIn ∈ g.owned := by simp [Trainer.owned]
  have q2 : g.trainIn ∈ g.owned := by simp [Trainer.owned]
  have q3 : g.wanted ∈ g.owned := by simp [Trainer.owned]
  have q4 : ∀ x ∈ g.brain.vars, x ∈ g.owned := fun x hx => by simp [Trainer.owned, hx]
  have n1 := lt _ q1
  have n2 := lt _ q2
  have n3 := lt _ q3
  have hn := h.nodup
  simp only [Trainer.owned, List.cons_append, List.nil_append, List.nodup_cons, List.mem_cons, not_or] at hn
  obtain ⟨⟨t1, t2, t3⟩, ⟨t4, t5⟩, t6, nv⟩ := hn
  obtain ⟨u1, l1⟩ := h.live _ q1
  obtain ⟨u2, l2⟩ := h.live _ q2
  obtain ⟨u3, l3⟩ := h.live _ q3
  obtain ⟨a1, a2, a3, a4⟩ := moveVar_ok hs l1
  generalize hs1 : (⟨(s.mem.alloc u1).2.set g.testIn none, g.testIn :: s.hollow⟩ : Store T) = s1 at a1 a2
  have m1 : s1.mem.next = s.mem.next + 1 := by rw [← hs1]; rfl
  have k1 : ∀ y, y ≠ g.testIn → y < s.mem.next → s1.mem.at_ y = s.mem.at_ y := by rw [← hs1]; exact a4
  have r1 : s1.mem.at_ s.mem.next = some u1 := by rw [← hs1]; exact a3
  have z1 : s1.hollow = g.testIn :: s.hollow := by rw [← hs1]
  obtain ⟨b1, b2, b3, b4⟩ := moveVar_ok a2 (x := g.trainIn) (v := u2) (by rw [k1 _ (fun c => t1 c.symm) n2]; exact l2)
  generalize hs2 : (⟨(s1.mem.alloc u2).2.set g.trainIn none, g.trainIn :: s1.hollow⟩ : Store T) = s2 at b1 b2
  have m2 : s2.mem.next = s.mem.next + 2 := by rw [← hs2]; show s1.mem.next + 1 = _; omega
  have k2 : ∀ y, y ≠ g.trainIn → y < s1.mem.next → s2.mem.at_ y = s1.mem.at_ y := by rw [← hs2]; exact b4
  have r2 : s2.mem.at_ s1.mem.next = some u2 := by rw [← hs2]; exact b3
  have z2 : s2.hollow = g.trainIn :: s1.hollow := by rw [← hs2]
  obtain ⟨c1, c2, c3, c4⟩ := moveVar_ok b2 (x := g.wanted) (v := u3) (by
    rw [k2 _ (fun c => t4 c.symm) (by omega), k1 _ (fun c => t2 c.symm) n3]; exact l3)
  generalize hs3 : (⟨(s2.mem.alloc u3).2.set g.wanted none, g.wanted :: s2.hollow⟩ : Store T) = s3 at c1 c2
  have k3 : ∀ y, y ≠ g.wanted → y < s2.mem.next → s3.mem.at_ y = s2.mem.at_ y := by rw [← hs3]; exact c4
  have r3 : s3.mem.at_ s2.mem.next = some u3 := by rw [← hs3]; exact c3
  have z3 : s3.hollow = g.wanted :: g.trainIn :: g.testIn :: s.hollow := by rw [← hs3, z2, z1]
  rw [m1] at b1 r2
  rw [m2] at c1 r3
  have p1 : s3.mem.at_ s.mem.next = some u1 := by rw [k3 _ (by omega) (by omega), k2 _ (by omega) (by omega)]; exact r1
  have p2 : s3.mem.at_ (s.mem.next + 1) = some u2 := by rw [k3 _ (by omega) (by omega)]; exact r2
  have kb : ∀ x ∈ g.brain.vars, s3.mem.at_ x = s.mem.at_ x := fun x hx => by
    have := lt x (q4 x hx)
    rw [k3 x (fun c => t6 (c ▸ hx)) (by omega), k2 x (fun c => t5 (c ▸ hx)) (by omega), k1 x (fun c => t3 (c ▸ hx)) this]
  let c : Trainer T := ⟨g.scope, g.brain, s.mem.next, s.mem.next + 1, s.mem.next + 2, g.updater, g.updater.calculate g.brain⟩
  let d : Trainer T := ⟨rest g.scope, mlpLeft rest g.brain, g.testIn, g.trainIn, g.wanted, g.updater, g.changes⟩
  have co : c.owned = [s.mem.next, s.mem.next + 1, s.mem.next + 2] ++ g.brain.vars := rfl
  have dO : d.owned = [g.testIn, g.trainIn, g.wanted] := rfl
  have cl : ∀ x ∈ c.owned, ∃ v, s3.mem.at_ x = some v := fun x hx => by
    rw [co] at hx
    rcases List.mem_append.mp hx with hx | hx
    · simp only [List.mem_cons, List.not_mem_nil, or_false] at hx
      rcases hx with rfl | rfl | rfl
      · exact ⟨_, p1⟩
      · exact ⟨_, p2⟩
      · exact ⟨_, r3⟩
    · rw [kb x hx]; exact h.live x (q4 x hx)
  have cnd : c.owned.Nodup := by
    rw [co]
    refine List.nodup_append.mpr ⟨by simp, nv, fun x hx y hy => ?_⟩
    have := lt y (q4 y hy)
    simp only [List.mem_cons, List.not_mem_nil, or_false] at hx; omega
  have dh : ∀ x ∈ d.owned, x ∈ s3.hollow := fun x hx => by
    rw [dO] at hx
    rw [z3]
    simp only [List.mem_cons, List.not_mem_nil, or_false] at hx ⊢
    rcases hx with rfl | rfl | rfl <;> simp
  have dnd : d.owned.Nodup := by rw [dO]; simp [t1, t2, t4]
  have apart : ∀ x ∈ c.owned, x ∉ d.owned := fun x hx hx' => by
    obtain ⟨v, hv⟩ := cl x hx
    rw [(c2.apart x (dh x hx')).1] at hv; cases hv
  have hsub : ∀ y ∈ c.owned ++ g.owned, y ∈ c.owned ∨ y ∈ d.owned := fun y hy => by
    rcases List.mem_append.mp hy with hy | hy
    · exact .inl hy
    · rcases List.mem_append.mp hy with hy | hy
      · exact .inr hy
      · exact .inl (by rw [co]; exact List.mem_append.mpr (.inr hy))
  have two : ∀ xs ys : List Nat, (xs ++ ys).Nodup → (∀ x ∈ xs ++ ys, x ∈ s3.hollow ∨ ∃ v, s3.mem.at_ x = some v) → (∀ y ∈ c.owned ++ g.owned, y ∈ xs ++ ys) →
      ∃ t, (Store.deleteAll xs s3 >>= Store.deleteAll ys) = .ok t ∧ ∀ y ∈ c.owned ++ g.owned, t.mem.at_ y = none ∧ y ∉ t.hollow := by
    intro xs ys hn hx hz
    obtain ⟨na, nb, dj⟩ := List.nodup_append.mp hn
    obtain ⟨t1, e1, e2, e3, e4⟩ := storeDelete_ok xs s3 c2 na fun x hx' => hx x (by simp [hx'])
    obtain ⟨t2, f1, f2, f3, f4⟩ := storeDelete_ok ys t1 e2 nb fun y hy => by
      have hne : y ∉ xs := fun c => dj y c y hy rfl
      rcases hx y (by simp [hy]) with h | ⟨v, h⟩
      · exact .inl ((e4 y).2 ⟨h, hne⟩)
      · exact .inr ⟨v, by rw [e3, if_neg hne]; exact h⟩
    refine ⟨t2, by rw [e1, Outcome.ok_bind, f1], fun y hy => ?_⟩
    rcases List.mem_append.mp (hz y hy) with hy | hy
    · refine ⟨?_, fun c => ((e4 y).1 ((f4 y).1 c).1).2 hy⟩
      rw [f3]
      split
      · rfl
      · rw [e3, if_pos hy]
    · exact ⟨by rw [f3, if_pos hy], fun c => ((f4 y).1 c).2 hy⟩
  have live2 : ∀ x, x ∈ c.owned ∨ x ∈ d.owned → x ∈ s3.hollow ∨ ∃ v, s3.mem.at_ x = some v := fun x hx => by
    rcases hx with hx | hx
    · exact .inr (cl x hx)
    · exact .inl (dh x hx)
  refine ⟨c, d, s3, ?_, ⟨cnd, cl, mem_calculate g.updater g.brain, nv.filter _⟩, rfl, rfl, rfl, fun x => (mem_calculate g.updater g.brain x).trans (h.changes x).symm, kb,
    by rw [l1]; exact p1, by rw [l2]; exact p2, by rw [l3]; exact r3, ?_, ?_, ?_⟩
  · simp only [trainerMove, a1, b1, c1, Outcome.ok_bind]
    rfl
  · have hno : s3.mem.at_ d.trainIn = none := (c2.apart _ (dh _ (by rw [dO]; show g.trainIn ∈ _; simp))).1
    simp only [trainerTrain, Mem.deref, hno, Outcome.ub_bind]
  · refine two c.owned d.owned (List.nodup_append.mpr ⟨cnd, dnd, fun x hx y hy => ?_⟩) (fun x hx => live2 x (List.mem_append.mp hx)) fun y hy => List.mem_append.mpr (hsub y hy)
    rintro rfl; exact apart x hx hy
  · refine two d.owned c.owned (List.nodup_append.mpr ⟨dnd, cnd, fun x hx y hy => ?_⟩) (fun x hx => live2 x (List.mem_append.mp hx).symm) fun y hy => List.mem_append.mpr (hsub y hy).symm
    rintro rfl; exact apart x hy hx

/-- Any settings of the updater: what it ignores is what was ignored since the last clearing, and the learning rate is the
last one set. -/
theorem c90_settings (u : Updater T) (xs : List Nat) (r : T) (a : MLP) (x : Nat) :
    (x ∈ (u.ignore xs).calculate a ↔ x ∈ u.calculate a ∧ x ∉ xs) ∧ (x ∈ u.clear.calculate a ↔ x ∈ a.vars) ∧ (u.setRate r).calculate a = u.calculate a ∧
      (u.setRate r).rate = r ∧ (u.ignore xs).rate = u.rate ∧ u.clear.rate = u.rate := by
  refine ⟨?_, ?_, rfl, rfl, rfl, rfl⟩
  · rw [mem_calculate, mem_calculate]
    simp only [Updater.ignore, List.mem_append, not_or]
    tauto
  · rw [mem_calculate]
    simp [Updater.clear]

/-- A perceptron with two layers in memory, and a trainer that leaves its first layer alone: it is in order, as the theorems
ask. -/
example : ∃ (g : Trainer Nat) (s : Store Nat), StoreOk s ∧ InOrder g s ∧ g.brain.vars.length = 4 ∧ (∀ x ∈ g.updater.ignored, x < s.mem.next) ∧
    g.updater.ignored = [0, 1] ∧ g.changes = [2, 3] := by
  have hm : MemOk (⟨0, fun _ => none⟩ : Mem Nat) := ⟨fun x v h => (by cases h), fun x v h => (by cases h)⟩
  obtain ⟨g1, _, g3, g4⟩ := newFrom_grown exEnv (fun _ => rfl) (fun _ _ => 1) ['a'] [(3, 7), (1, 8)] 0 2 ⟨0, fun _ => none⟩ hm
  obtain ⟨g, s, h1, h2, h3, h4, h5, _⟩ := c90_new exEnv (mlpNew exEnv (fun _ _ => 1) 2 [(3, 7), (1, 8)] ['a'] ⟨0, fun _ => none⟩).1 ⟨(5 : Nat), [0, 1]⟩ ['g']
    ⟨(mlpNew exEnv (fun _ _ => 1) 2 [(3, 7), (1, 8)] ['a'] ⟨0, fun _ => none⟩).2, []⟩ ⟨g1.ok, by simp, by simp⟩ 1 rfl g1.nodup g3.live
  refine ⟨g, s, h2, h3, by rw [h4]; rfl, fun x hx => ?_, by rw [h5], ?_⟩
  · rw [h5] at hx
    have hb : x ∈ g.brain.vars := by
      rw [h4]
      show x ∈ [0, 1, 2, 3]
      simp only [List.mem_cons, List.not_mem_nil, or_false] at hx ⊢
      omega
    obtain ⟨v, hv⟩ := h3.live x (List.mem_append.mpr (.inr hb))
    exact h2.ok.lt x v hv
  · injection h1 with h1
    injection h1 with h1 _
    rw [← h1]
    rfl

end Verif.Props
