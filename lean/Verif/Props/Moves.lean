import Verif.Lemmas.Moves
/-!
# C88: programs that copy, move and delete networks
-/
namespace Verif.Props
open Verif.Spec Verif.Nets Verif.Tensor Verif.Leaf

variable {T : Type}

theorem read_shown {m : Mem T} {xs : List Nat} {ps : List (Param T)} (h : Shown m xs ps) :
    (xs.mapM fun x => (m.at_ x).map fun v => Param.of v.leaf) = some ps := by
  unfold Shown at h
  induction h with
  | nil => rfl
  | cons h _ ih =>
    obtain ⟨v, h1, h2⟩ := h
    rw [List.mapM_cons, ih, h1, ← h2]
    rfl

theorem read_is {m : Mem T} {a : MLP} {s : NetVal T} (h : Is m a s) : NetVal.read m a = some s := by
  unfold NetVal.read
  rw [read_shown h.params, h.scope, h.nIn, h.nOut, h.layers]
  rfl

/-- **C88, histories.**  For every program that makes, clones, copy-assigns, moves, move-assigns, changes and deletes
perceptrons, in any order and number:

* if it uses a network that does not exist or a parameter a network does not have, the outcome is undefined; in every other
  case it runs to its end, deletes nothing twice and reads nothing deleted;
* then every network is the value it would be if networks were values: a copy has the value of its original, a move takes
  the value and leaves a network without layers, a change changes one parameter of one network;
* every variable in memory is a parameter of exactly one existing network, once. -/
theorem c88_history (e : Env T) (hmem : ∀ n, e.fits n = true) (winit : Nat → Nat → T) (rest : List Char → List Char) (ss : List (Step T))
    (hp : ∀ s ∈ ss, Proper s) :
    (Program.start.run e.zero winit rest ss = none → World.start.run e winit rest ss = .ub) ∧
    ∀ P, Program.start.run e.zero winit rest ss = some P → ∃ w, World.start.run e winit rest ss = .ok w ∧
      w.made = P.made ∧ (∀ i, (w.net i).bind (NetVal.read w.mem) = P.net i) ∧ (∀ i, w.net i = none ↔ P.net i = none) ∧
      (∀ i a, w.net i = some a → a.vars.Nodup) ∧
      ∀ x v, w.mem.at_ x = some v → ∃! i, ∃ a, w.net i = some a ∧ x ∈ a.vars := by
  obtain ⟨h1, h2⟩ := Inv.start.run e hmem winit rest ss hp
  refine ⟨h1, fun P hP => ?_⟩
  obtain ⟨w, hw, h⟩ := h2 P hP
  refine ⟨w, hw, h.made, fun i => ?_, h.some_iff, h.nodup, fun x v hx => ?_⟩
  · cases hi : w.net i with
    | none => exact (h.isNot i hi).symm
    | some a =>
      obtain ⟨s, hs, his⟩ := h.is i a hi
      rw [Option.bind_some, read_is his, hs]
  · obtain ⟨i, a, ha, hxa⟩ := h.owner x v hx
    refine ⟨i, ⟨a, ha, hxa⟩, ?_⟩
    rintro j ⟨b, hb, hxb⟩
    exact h.disj j i b a x hb ha hxb hxa

/-- **C88, no leak.**  When a program has deleted all the perceptrons it made, moved-from ones included, no variable is
left in memory. -/
theorem c88_no_leak (e : Env T) (hmem : ∀ n, e.fits n = true) (winit : Nat → Nat → T) (rest : List Char → List Char) (ss : List (Step T))
    (hp : ∀ s ∈ ss, Proper s) (w : World T) (hw : World.start.run e winit rest ss = .ok w) (hall : ∀ i, w.net i = none) (x : Nat) :
    w.mem.at_ x = none := by
  obtain ⟨h1, h2⟩ := c88_history e hmem winit rest ss hp
  cases hP : Program.start.run e.zero winit rest ss with
  | none => rw [h1 hP] at hw; cases hw
  | some P =>
    obtain ⟨w', hw', _, _, _, _, own⟩ := h2 P hP
    rw [hw] at hw'; injection hw' with hw'; subst hw'
    cases hx : w.mem.at_ x with
    | none => rfl
    | some v =>
      obtain ⟨i, ⟨a, ha, _⟩, _⟩ := own x v hx
      rw [hall i] at ha; cases ha

/-- **C88, moving keeps the variables.**  A moved perceptron has the very variables of the one it was moved from (so graphs
built on them stay connected), with the same activations; nothing in memory changes.  The old one is left without any. -/
theorem c88_move_same (e : Env T) (winit : Nat → Nat → T) (rest : List Char → List Char) (w w' : World T) (i : Nat) (a : MLP)
    (hi : w.net i = some a) (hb : i < w.made) (h : w.step e winit rest (.move i) = .ok w') :
    w'.mem = w.mem ∧ (∃ b, w'.net w.made = some b ∧ b.vars = a.vars ∧ b.layers.map Prod.snd = a.layers.map Prod.snd ∧ b.scope = a.scope) ∧
      ∃ c, w'.net i = some c ∧ c.vars = [] ∧ c.nIn = a.nIn ∧ c.nOut = a.nOut := by
  have hu : w.use i = .ok a := by unfold World.use; rw [hi]
  simp only [World.step, hu, Outcome.ok_bind] at h
  injection h with h
  subst h
  refine ⟨rfl, ⟨(mlpMove rest a).1, by simp only [World.add, World.setNet, ↓reduceIte], rfl, rfl, rfl⟩, mlpLeft rest a, ?_, rfl, rfl, rfl⟩
  show (if i = w.made then _ else if i = i then _ else _) = _
  rw [if_neg (by omega), if_pos rfl]; rfl

/-- The same for move assignment: the target's own variables are gone, it has the very variables of the other one, and no
other variable changes. -/
theorem c88_move_assign_same (e : Env T) (winit : Nat → Nat → T) (rest : List Char → List Char) (w w' : World T) (i j : Nat) (a b : MLP)
    (hij : i ≠ j) (hi : w.net i = some a) (hj : w.net j = some b) (hm : MemOk w.mem) (hnd : a.vars.Nodup) (hl : ∀ x ∈ a.vars, ∃ v, w.mem.at_ x = some v)
    (h : w.step e winit rest (.moveAssign i j) = .ok w') :
    (∀ x, w'.mem.at_ x = if x ∈ a.vars then none else w.mem.at_ x) ∧ (∃ c, w'.net i = some c ∧ c.vars = b.vars ∧ c.scope = b.scope) ∧
      ∃ c, w'.net j = some c ∧ c.vars = [] := by
  have hu : w.use i = .ok a := by unfold World.use; rw [hi]
  have hv : w.use j = .ok b := by unfold World.use; rw [hj]
  obtain ⟨m, d1, _, _, d4⟩ := deleteAll_ok a.vars w.mem hm hnd hl
  simp only [World.step, hu, hv, Outcome.ok_bind, if_neg hij, mlpMoveAssign, d1] at h
  injection h with h
  subst h
  refine ⟨d4, ⟨(mlpMove rest b).1, ?_, rfl, rfl⟩, mlpLeft rest b, ?_, rfl⟩
  · show (if i = j then _ else if i = i then _ else _) = _
    rw [if_neg hij, if_pos rfl]
  · show (if j = j then _ else _) = _
    rw [if_pos rfl]; rfl

/-! ### Machines whose variables are moved one by one -/

/-- Hollow variables are there, with no contents. -/
structure StoreOk (s : Store T) : Prop where
  ok : MemOk s.mem
  nodup : s.hollow.Nodup
  apart : ∀ x ∈ s.hollow, s.mem.at_ x = none ∧ x < s.mem.next

theorem moveVar_ok {s : Store T} (hs : StoreOk s) {x : Nat} {v : Var T} (hx : s.mem.at_ x = some v) :
    moveVar (some x) s = .ok (s.mem.next, ⟨(s.mem.alloc v).2.set x none, x :: s.hollow⟩) ∧
    StoreOk (⟨(s.mem.alloc v).2.set x none, x :: s.hollow⟩ : Store T) ∧
    ((s.mem.alloc v).2.set x none).at_ s.mem.next = some v ∧
    (∀ y, y ≠ x → y < s.mem.next → ((s.mem.alloc v).2.set x none).at_ y = s.mem.at_ y) := by
  have hn : x ∉ s.hollow := fun c => by rw [(hs.apart x c).1] at hx; cases hx
  have hlt := hs.ok.lt x v hx
  obtain ⟨a1, _, _, a4, _⟩ := alloc_ok s.mem hs.ok v (hs.ok.wf x v hx)
  have hset : ∀ y, ((s.mem.alloc v).2.set x none).at_ y = if y = x then none else (s.mem.alloc v).2.at_ y := fun y => rfl
  refine ⟨by simp only [moveVar, if_neg hn, Mem.deref, hx, Outcome.ok_bind, Mem.alloc], ⟨⟨fun y u hy => ?_, fun y u hy => ?_⟩, ?_, fun y hy => ?_⟩, ?_, fun y h1 h2 => ?_⟩
  · rw [hset] at hy
    split at hy
    · cases hy
    · exact a1.lt y u hy
  · rw [hset] at hy
    split at hy
    · cases hy
    · exact a1.wf y u hy
  · exact List.nodup_cons.mpr ⟨hn, hs.nodup⟩
  · rcases List.mem_cons.mp hy with rfl | hy
    · exact ⟨by rw [hset, if_pos rfl], Nat.lt_succ_of_lt hlt⟩
    · obtain ⟨k1, k2⟩ := hs.apart y hy
      refine ⟨?_, Nat.lt_succ_of_lt k2⟩
      rw [hset]
      split
      · rfl
      · simp only [Mem.alloc]; rw [if_neg (by omega)]; exact k1
  · rw [hset, if_neg (by omega)]; exact a4
  · rw [hset, if_neg h1]
    simp only [Mem.alloc]; rw [if_neg (by omega)]

theorem storeDelete_ok (xs : List Nat) : ∀ (s : Store T), StoreOk s → xs.Nodup → (∀ x ∈ xs, x ∈ s.hollow ∨ ∃ v, s.mem.at_ x = some v) →
    ∃ s', Store.deleteAll xs s = .ok s' ∧ StoreOk s' ∧ (∀ y, s'.mem.at_ y = if y ∈ xs then none else s.mem.at_ y) ∧
      ∀ y, y ∈ s'.hollow ↔ y ∈ s.hollow ∧ y ∉ xs := by
  induction xs with
  | nil => intro s hs _ _; exact ⟨s, rfl, hs, fun y => by simp, fun y => by simp⟩
  | cons x xs ih =>
    intro s hs hnd hx
    rw [List.nodup_cons] at hnd
    have step : ∃ s1, s.delete x = .ok s1 ∧ StoreOk s1 ∧ (∀ y, s1.mem.at_ y = if y = x then none else s.mem.at_ y) ∧ ∀ y, y ∈ s1.hollow ↔ y ∈ s.hollow ∧ y ≠ x := by
      by_cases hh : x ∈ s.hollow
      · refine ⟨⟨s.mem, s.hollow.erase x⟩, by simp only [Store.delete, if_pos hh], ⟨hs.ok, hs.nodup.erase x, fun y hy => hs.apart y (List.mem_of_mem_erase hy)⟩, fun y => ?_, fun y => ?_⟩
        · split
          · rename_i e; rw [e]; exact (hs.apart x hh).1
          · rfl
        · rw [hs.nodup.mem_erase_iff]; exact and_comm
      · obtain ⟨v, hv⟩ := (hx x (by simp)).resolve_left hh
        refine ⟨⟨s.mem.set x none, s.hollow⟩, by simp only [Store.delete, if_neg hh, Mem.delete, Mem.deref, hv, Outcome.ok_bind], ⟨⟨fun y u hy => ?_, fun y u hy => ?_⟩, hs.nodup, fun y hy => ?_⟩, fun y => rfl, fun y => ?_⟩
        · simp only [Mem.set] at hy ⊢
          split at hy
          · cases hy
          · exact hs.ok.lt y u hy
        · simp only [Mem.set] at hy
          split at hy
          · cases hy
          · exact hs.ok.wf y u hy
        · obtain ⟨k1, k2⟩ := hs.apart y hy
          refine ⟨?_, k2⟩
          simp only [Mem.set]
          split
          · rfl
          · exact k1
        · exact ⟨fun h => ⟨h, fun c => hh (c ▸ h)⟩, fun h => h.1⟩
    obtain ⟨s1, g1, g2, g3, g4⟩ := step
    obtain ⟨s', h1, h2, h3, h4⟩ := ih s1 g2 hnd.2 fun y hy => by
      have hne : y ≠ x := fun c => hnd.1 (c ▸ hy)
      rcases hx y (by simp [hy]) with h | ⟨v, h⟩
      · exact .inl ((g4 y).2 ⟨h, hne⟩)
      · exact .inr ⟨v, by rw [g3, if_neg hne]; exact h⟩
    refine ⟨s', by simp only [Store.deleteAll, g1, Outcome.ok_bind, h1], h2, fun y => ?_, fun y => ?_⟩
    · rw [h3, g3]
      by_cases h5 : y ∈ xs
      · simp [h5]
      · by_cases h6 : y = x
        · simp [h6]
        · simp [h5, h6]
    · rw [h4, g4, List.mem_cons]
      exact ⟨fun ⟨⟨a, b⟩, c⟩ => ⟨a, fun d => d.elim b c⟩, fun ⟨a, b⟩ => ⟨⟨a, fun c => b (.inl c)⟩, fun c => b (.inr c)⟩⟩

/-- **C88, Boltzmann machines.**  Moving a restricted Boltzmann machine makes three new variables which hold exactly what
the three of the old machine held (label, data, initialisation, initializer); no other variable changes.  The old machine
keeps its three variables, hollow; both machines can be deleted, in either order, after which none of the six is left.
The new machine has the old one's scope and number of inputs, but asking for its number of outputs is undefined. -/
theorem c88_rbm_move (rest : List Char → List Char) (a : RBM) (w h v : Nat) (s : Store T) (hs : StoreOk s)
    (hw : a.weight = some w) (hh : a.hbias = some h) (hv : a.vbias = some v) (hnd : [w, h, v].Nodup) (hl : ∀ x ∈ [w, h, v], ∃ u, s.mem.at_ x = some u) :
    ∃ b a' w' h' v' s', rbmMove rest a s = .ok (b, a', s') ∧ b.vars = [some w', some h', some v'] ∧ b.scope = a.scope ∧ b.nIn = a.nIn ∧ b.noutput = .ub ∧
      s'.mem.at_ w' = s.mem.at_ w ∧ s'.mem.at_ h' = s.mem.at_ h ∧ s'.mem.at_ v' = s.mem.at_ v ∧ [w', h', v'].Nodup ∧ (∀ y ∈ [w', h', v'], s.mem.at_ y = none) ∧
      (∀ y u, y ∉ [w, h, v] → s.mem.at_ y = some u → s'.mem.at_ y = some u) ∧
      a'.vars = a.vars ∧ (∀ x ∈ [w, h, v], x ∈ s'.hollow ∧ s'.mem.at_ x = none) ∧
      (∃ t, (rbmDelete b s' >>= rbmDelete a') = .ok t ∧ (∀ y ∈ [w, h, v, w', h', v'], t.mem.at_ y = none ∧ y ∉ t.hollow)) ∧
      ∃ t, (rbmDelete a' s' >>= rbmDelete b) = .ok t ∧ (∀ y ∈ [w, h, v, w', h', v'], t.mem.at_ y = none ∧ y ∉ t.hollow) := by
  obtain ⟨u1, l1⟩ := hl w (by simp)
  obtain ⟨u2, l2⟩ := hl h (by simp)
  obtain ⟨u3, l3⟩ := hl v (by simp)
  have n1 := hs.ok.lt w u1 l1
  have n2 := hs.ok.lt h u2 l2
  have n3 := hs.ok.lt v u3 l3
  simp only [List.nodup_cons, List.mem_cons, List.not_mem_nil, or_false, not_or, List.nodup_nil, and_true, not_false_eq_true] at hnd
  obtain ⟨⟨d1, d2⟩, d3⟩ := hnd
  obtain ⟨a1, a2, a3, a4⟩ := moveVar_ok hs l1
  generalize hs1 : (⟨(s.mem.alloc u1).2.set w none, w :: s.hollow⟩ : Store T) = s1 at a1 a2
  have m1 : s1.mem.next = s.mem.next + 1 := by rw [← hs1]; rfl
  have k1 : ∀ y, y ≠ w → y < s.mem.next → s1.mem.at_ y = s.mem.at_ y := by rw [← hs1]; exact a4
  have r1 : s1.mem.at_ s.mem.next = some u1 := by rw [← hs1]; exact a3
  have z1 : s1.hollow = w :: s.hollow := by rw [← hs1]
  obtain ⟨b1, b2, b3, b4⟩ := moveVar_ok a2 (x := h) (v := u2) (by rw [k1 h (fun c => d1 c.symm) n2]; exact l2)
  generalize hs2 : (⟨(s1.mem.alloc u2).2.set h none, h :: s1.hollow⟩ : Store T) = s2 at b1 b2
  have m2 : s2.mem.next = s.mem.next + 2 := by rw [← hs2]; show s1.mem.next + 1 = _; omega
  have k2 : ∀ y, y ≠ h → y < s1.mem.next → s2.mem.at_ y = s1.mem.at_ y := by rw [← hs2]; exact b4
  have r2 : s2.mem.at_ s1.mem.next = some u2 := by rw [← hs2]; exact b3
  have z2 : s2.hollow = h :: s1.hollow := by rw [← hs2]
  obtain ⟨c1, c2, c3, c4⟩ := moveVar_ok b2 (x := v) (v := u3) (by
    rw [k2 v (fun c => d3 c.symm) (by omega), k1 v (fun c => d2 c.symm) n3]; exact l3)
  generalize hs3 : (⟨(s2.mem.alloc u3).2.set v none, v :: s2.hollow⟩ : Store T) = s3 at c1 c2
  have m3 : s3.mem.next = s.mem.next + 3 := by rw [← hs3]; show s2.mem.next + 1 = _; omega
  have k3 : ∀ y, y ≠ v → y < s2.mem.next → s3.mem.at_ y = s2.mem.at_ y := by rw [← hs3]; exact c4
  have r3 : s3.mem.at_ s2.mem.next = some u3 := by rw [← hs3]; exact c3
  have z3 : s3.hollow = v :: h :: w :: s.hollow := by rw [← hs3, z2, z1]
  rw [m1] at b1 r2
  rw [m2] at c1 r3
  have q1 : s3.mem.at_ s.mem.next = some u1 := by rw [k3 _ (by omega) (by omega), k2 _ (by omega) (by omega)]; exact r1
  have q2 : s3.mem.at_ (s.mem.next + 1) = some u2 := by rw [k3 _ (by omega) (by omega)]; exact r2
  have free : ∀ y, s.mem.next ≤ y → s.mem.at_ y = none := fun y hy => hs.ok.none_of_le hy
  have holl : ∀ x ∈ [w, h, v], x ∈ s3.hollow := fun x hx => by
    rw [z3]; simp only [List.mem_cons, List.not_mem_nil, or_false] at hx ⊢; tauto
  -- deleting two lists one after the other
  have two : ∀ xs ys : List Nat, (xs ++ ys).Nodup → (∀ x ∈ xs ++ ys, x ∈ s3.hollow ∨ ∃ v, s3.mem.at_ x = some v) → ∀ zs : List Nat, (∀ z ∈ zs, z ∈ xs ++ ys) →
      ∃ t, (Store.deleteAll xs s3 >>= Store.deleteAll ys) = .ok t ∧ ∀ y ∈ zs, t.mem.at_ y = none ∧ y ∉ t.hollow := by
    intro xs ys hn hx zs hz
    obtain ⟨na, nb, dj⟩ := List.nodup_append.mp hn
    obtain ⟨t1, e1, e2, e3, e4⟩ := storeDelete_ok xs s3 c2 na fun x hx' => hx x (by simp [hx'])
    obtain ⟨t2, f1, f2, f3, f4⟩ := storeDelete_ok ys t1 e2 nb fun y hy => by
      have hne : y ∉ xs := fun c => dj y c y hy rfl
      rcases hx y (by simp [hy]) with h | ⟨v, h⟩
      · exact .inl ((e4 y).2 ⟨h, hne⟩)
      · exact .inr ⟨v, by rw [e3, if_neg hne]; exact h⟩
    refine ⟨t2, by rw [e1, Outcome.ok_bind, f1], fun y hy => ?_⟩
    rcases List.mem_append.mp (hz y hy) with hy | hy
    · refine ⟨?_, fun c => ((e4 y).1 ((f4 y).1 c).1).2 hy⟩
      rw [f3]
      split
      · rfl
      · rw [e3, if_pos hy]
    · exact ⟨by rw [f3, if_pos hy], fun c => ((f4 y).1 c).2 hy⟩
  refine ⟨⟨a.scope, a.nIn, none, some s.mem.next, some (s.mem.next + 1), some (s.mem.next + 2)⟩, ⟨rest a.scope, a.nIn, a.nHidden, a.weight, a.hbias, a.vbias⟩,
    s.mem.next, s.mem.next + 1, s.mem.next + 2, s3, ?_, rfl, rfl, rfl, rfl, by rw [q1, l1], by rw [q2, l2], by rw [r3, l3], by simp, fun y hy => ?_, fun y u hy hu => ?_, rfl, fun x hx => ⟨holl x hx, (c2.apart x (holl x hx)).1⟩, ?_, ?_⟩
  · simp only [rbmMove, rbmMoveHelper, hw, hh, hv, a1, b1, c1, Outcome.ok_bind]
  · apply free
    simp only [List.mem_cons, List.not_mem_nil, or_false] at hy
    omega
  · simp only [List.mem_cons, List.not_mem_nil, or_false, not_or] at hy
    have := hs.ok.lt y u hu
    rw [k3 _ hy.2.2 (by omega), k2 _ hy.2.1 (by omega), k1 _ hy.1 this]; exact hu
  · show ∃ t, (Store.deleteAll [s.mem.next, s.mem.next + 1, s.mem.next + 2] s3 >>= Store.deleteAll (a.weight.toList ++ a.hbias.toList ++ a.vbias.toList)) = .ok t ∧ _
    rw [hw, hh, hv]
    refine two [s.mem.next, s.mem.next + 1, s.mem.next + 2] [w, h, v] ?_ ?_ _ ?_
    · simp only [List.cons_append, List.nil_append, List.nodup_cons, List.mem_cons, List.not_mem_nil, or_false, not_or, List.nodup_nil, and_true, not_false_eq_true]
      omega
    · intro x hx
      simp only [List.cons_append, List.nil_append, List.mem_cons, List.not_mem_nil, or_false] at hx
      rcases hx with rfl | rfl | rfl | rfl | rfl | rfl
      · exact .inr ⟨_, q1⟩
      · exact .inr ⟨_, q2⟩
      · exact .inr ⟨_, r3⟩
      · exact .inl (holl _ (by simp))
      · exact .inl (holl _ (by simp))
      · exact .inl (holl _ (by simp))
    · intro z hz
      simp only [List.cons_append, List.nil_append, List.mem_cons, List.not_mem_nil, or_false] at hz ⊢
      tauto
  · show ∃ t, (Store.deleteAll (a.weight.toList ++ a.hbias.toList ++ a.vbias.toList) s3 >>= Store.deleteAll [s.mem.next, s.mem.next + 1, s.mem.next + 2]) = .ok t ∧ _
    rw [hw, hh, hv]
    refine two [w, h, v] [s.mem.next, s.mem.next + 1, s.mem.next + 2] ?_ ?_ _ ?_
    · simp only [List.cons_append, List.nil_append, List.nodup_cons, List.mem_cons, List.not_mem_nil, or_false, not_or, List.nodup_nil, and_true, not_false_eq_true]
      omega
    · intro x hx
      simp only [List.cons_append, List.nil_append, List.mem_cons, List.not_mem_nil, or_false] at hx
      rcases hx with rfl | rfl | rfl | rfl | rfl | rfl
      · exact .inl (holl _ (by simp))
      · exact .inl (holl _ (by simp))
      · exact .inl (holl _ (by simp))
      · exact .inr ⟨_, q1⟩
      · exact .inr ⟨_, q2⟩
      · exact .inr ⟨_, r3⟩
    · intro z hz
      simp only [List.cons_append, List.nil_append, List.mem_cons, List.not_mem_nil, or_false] at hz ⊢
      tauto

/-- A Boltzmann machine that was moved away can be moved again: the result has three new variables, all different and all
hollow, and everything else stays; all six can be deleted, in either order of the two machines. -/
theorem c88_rbm_move_again (rest : List Char → List Char) (a : RBM) (w h v : Nat) (s : Store T) (hs : StoreOk s)
    (hw : a.weight = some w) (hh : a.hbias = some h) (hv : a.vbias = some v) (hnd : [w, h, v].Nodup) (hl : ∀ x ∈ [w, h, v], x ∈ s.hollow) :
    ∃ b a' w' h' v' s', rbmMove rest a s = .ok (b, a', s') ∧ b.vars = [some w', some h', some v'] ∧ [w', h', v'].Nodup ∧
      (∀ y ∈ [w', h', v'], y ∉ s.hollow ∧ s.mem.at_ y = none) ∧ (∀ y, y ∈ s'.hollow ↔ y ∈ [w', h', v'] ∨ y ∈ s.hollow) ∧ s'.mem.at_ = s.mem.at_ ∧ a'.vars = a.vars ∧
      (∃ t, (rbmDelete b s' >>= rbmDelete a') = .ok t ∧ t.mem.at_ = s.mem.at_ ∧ ∀ y, y ∈ t.hollow ↔ y ∈ s.hollow ∧ y ∉ [w, h, v]) ∧
      ∃ t, (rbmDelete a' s' >>= rbmDelete b) = .ok t ∧ t.mem.at_ = s.mem.at_ ∧ ∀ y, y ∈ t.hollow ↔ y ∈ s.hollow ∧ y ∉ [w, h, v] := by
  have hb : ∀ x ∈ s.hollow, x < s.mem.next := fun x hx => (hs.apart x hx).2
  have swap : ∀ {A B C D : Prop}, (C ∨ B ∨ A ∨ D) ↔ (A ∨ B ∨ C) ∨ D := by intros; tauto
  let s3 : Store T := ⟨⟨s.mem.next + 3, s.mem.at_⟩, (s.mem.next + 2) :: (s.mem.next + 1) :: s.mem.next :: s.hollow⟩
  have ok3 : StoreOk s3 := by
    refine ⟨⟨fun y u hy => ?_, fun y u hy => hs.ok.wf y u hy⟩, ?_, fun y hy => ?_⟩
    · have := hs.ok.lt y u hy; show y < s.mem.next + 3; omega
    · simp only [s3, List.nodup_cons, List.mem_cons, not_or]
      refine ⟨⟨by omega, by omega, fun c => ?_⟩, ⟨by omega, fun c => ?_⟩, fun c => ?_, hs.nodup⟩ <;> (have := hb _ c; omega)
    · simp only [s3, List.mem_cons] at hy
      show s.mem.at_ y = none ∧ y < s.mem.next + 3
      rcases hy with rfl | rfl | rfl | hy
      · exact ⟨hs.ok.none_of_le (by omega), by omega⟩
      · exact ⟨hs.ok.none_of_le (by omega), by omega⟩
      · exact ⟨hs.ok.none_of_le (by omega), by omega⟩
      · have := hs.apart y hy; exact ⟨this.1, by omega⟩
  have two : ∀ xs ys : List Nat, (xs ++ ys).Nodup → (∀ x, x ∈ xs ++ ys ↔ x ∈ [w, h, v] ∨ x ∈ [s.mem.next, s.mem.next + 1, s.mem.next + 2]) →
      ∃ t, (Store.deleteAll xs s3 >>= Store.deleteAll ys) = .ok t ∧ t.mem.at_ = s.mem.at_ ∧ ∀ y, y ∈ t.hollow ↔ y ∈ s.hollow ∧ y ∉ [w, h, v] := by
    intro xs ys hn hz
    have hin : ∀ x ∈ xs ++ ys, x ∈ s3.hollow := fun x hx => by
      rcases (hz x).1 hx with c | c
      · have := hl x c; simp only [s3, List.mem_cons]; tauto
      · simp only [s3, List.mem_cons, List.not_mem_nil, or_false] at c ⊢; tauto
    have hnone : ∀ x ∈ xs ++ ys, s.mem.at_ x = none := fun x hx => (ok3.apart x (hin x hx)).1
    obtain ⟨na, nb, dj⟩ := List.nodup_append.mp hn
    obtain ⟨t1, e1, e2, e3, e4⟩ := storeDelete_ok xs s3 ok3 na fun x hx => .inl (hin x (by simp [hx]))
    obtain ⟨t2, f1, f2, f3, f4⟩ := storeDelete_ok ys t1 e2 nb fun y hy => .inl ((e4 y).2 ⟨hin y (by simp [hy]), fun c => dj y c y hy rfl⟩)
    refine ⟨t2, by rw [e1, Outcome.ok_bind, f1], ?_, fun y => ?_⟩
    · funext y
      rw [f3, e3]
      split_ifs with g1 g2
      · exact (hnone y (by simp [g1])).symm
      · exact (hnone y (by simp [g2])).symm
      · rfl
    · rw [f4, e4]
      have hzy := hz y
      rw [List.mem_append] at hzy
      have hbig : y ∈ [s.mem.next, s.mem.next + 1, s.mem.next + 2] → y ∉ s.hollow := fun c c' => by
        have := hb y c'
        simp only [List.mem_cons, List.not_mem_nil, or_false] at c; omega
      have hs3 : y ∈ s3.hollow ↔ y ∈ [s.mem.next, s.mem.next + 1, s.mem.next + 2] ∨ y ∈ s.hollow := by
        simp only [s3, List.mem_cons, List.not_mem_nil, or_false]; exact swap
      tauto
  have nd6 : ([w, h, v] ++ [s.mem.next, s.mem.next + 1, s.mem.next + 2]).Nodup := by
    refine List.nodup_append.mpr ⟨hnd, by simp, fun x hx y hy => ?_⟩
    have := hb x (hl x hx)
    simp only [List.mem_cons, List.not_mem_nil, or_false] at hy; omega
  have nd6' : ([s.mem.next, s.mem.next + 1, s.mem.next + 2] ++ [w, h, v]).Nodup := (List.perm_append_comm.nodup_iff).1 nd6
  refine ⟨⟨a.scope, a.nIn, none, some s.mem.next, some (s.mem.next + 1), some (s.mem.next + 2)⟩, ⟨rest a.scope, a.nIn, a.nHidden, a.weight, a.hbias, a.vbias⟩,
    s.mem.next, s.mem.next + 1, s.mem.next + 2, s3, ?_, rfl, by simp, fun y hy => ?_, fun y => ?_, rfl, rfl, ?_, ?_⟩
  · have g1 : w ∈ s.hollow := hl w (by simp)
    have g2 : h ∈ s.mem.next :: s.hollow := by have := hl h (by simp); simp [this]
    have g3 : v ∈ (s.mem.next + 1) :: s.mem.next :: s.hollow := by have := hl v (by simp); simp [this]
    have o1 : moveVar (some w) s = .ok (s.mem.next, ⟨⟨s.mem.next + 1, s.mem.at_⟩, s.mem.next :: s.hollow⟩) := if_pos g1
    have o2 : moveVar (some h) (⟨⟨s.mem.next + 1, s.mem.at_⟩, s.mem.next :: s.hollow⟩ : Store T) = .ok (s.mem.next + 1, ⟨⟨s.mem.next + 2, s.mem.at_⟩, (s.mem.next + 1) :: s.mem.next :: s.hollow⟩) := if_pos g2
    have o3 : moveVar (some v) (⟨⟨s.mem.next + 2, s.mem.at_⟩, (s.mem.next + 1) :: s.mem.next :: s.hollow⟩ : Store T) = .ok (s.mem.next + 2, s3) := if_pos g3
    simp only [rbmMove, rbmMoveHelper, hw, hh, hv, o1, o2, o3, Outcome.ok_bind]
  · have : s.mem.next ≤ y := by simp only [List.mem_cons, List.not_mem_nil, or_false] at hy; omega
    exact ⟨fun c => by have := hb y c; omega, hs.ok.none_of_le this⟩
  · simp only [s3, List.mem_cons, List.not_mem_nil, or_false]; exact swap
  · show ∃ t, (Store.deleteAll [s.mem.next, s.mem.next + 1, s.mem.next + 2] s3 >>= Store.deleteAll (a.weight.toList ++ a.hbias.toList ++ a.vbias.toList)) = .ok t ∧ _
    rw [hw, hh, hv]
    exact two [s.mem.next, s.mem.next + 1, s.mem.next + 2] [w, h, v] nd6' (fun x => by rw [List.mem_append]; exact or_comm)
  · show ∃ t, (Store.deleteAll (a.weight.toList ++ a.hbias.toList ++ a.vbias.toList) s3 >>= Store.deleteAll [s.mem.next, s.mem.next + 1, s.mem.next + 2]) = .ok t ∧ _
    rw [hw, hh, hv]
    exact two [w, h, v] [s.mem.next, s.mem.next + 1, s.mem.next + 2] nd6 (fun x => by rw [List.mem_append])

/-- Negative: move-assigning one Boltzmann machine to another does nothing at all: the target keeps its own parameters. -/
theorem c88_rbm_move_assign_noop (rest : List Char → List Char) (a b : RBM) (s : Store T) : rbmMoveAssign rest false a b s = .ok (a, b, s) := rfl

/-- Negative: move-assigning a Boltzmann machine to itself is undefined. -/
theorem c88_rbm_self_move_assign_ub (rest : List Char → List Char) (a : RBM) (s : Store T) (hs : StoreOk s)
    (hnd : (a.weight.toList ++ a.hbias.toList ++ a.vbias.toList).Nodup)
    (hl : ∀ x ∈ a.weight.toList ++ a.hbias.toList ++ a.vbias.toList, x ∈ s.hollow ∨ ∃ v, s.mem.at_ x = some v) : rbmMoveAssign rest true a a s = .ub := by
  obtain ⟨t, h1, _⟩ := storeDelete_ok _ s hs hnd hl
  simp only [rbmMoveAssign, if_true, rbmDelete, h1, Outcome.ok_bind, rbmMoveHelper, moveVar, Outcome.ub_bind]

/-- Negative: a moved deep belief network has the Boltzmann machines of the old one but no output layer: asking it for
its parameters, as training and saving do, is undefined.  The old one is left with the output layer alone. -/
theorem c88_dbn_move_no_output (rest : List Char → List Char) (d : DBN) (f : FC) (hf : d.log = some f) :
    (dbnMove rest d).1.layers = d.layers ∧ (dbnMove rest d).1.vars = .ub ∧ (dbnMove rest d).2.vars = .ok (f.vars.map some) ∧ (dbnMove rest d).2.nIn = d.nIn := by
  refine ⟨rfl, rfl, ?_, rfl⟩
  simp only [dbnMove, DBN.vars, hf, List.flatMap_nil, List.nil_append]

/-- Still nothing is deleted twice or left behind: deleting both the moved network and the old one, in either order,
deletes what deleting the old one alone would have deleted. -/
theorem c88_dbn_destroy (rest : List Char → List Char) (d : DBN) (s : Store T) (hs : StoreOk s) (hnd : d.owned.Nodup)
    (hl : ∀ x ∈ d.owned, x ∈ s.hollow ∨ ∃ v, s.mem.at_ x = some v) :
    (∃ t, (dbnDelete (dbnMove rest d).1 s >>= dbnDelete (dbnMove rest d).2) = .ok t ∧ (∀ y, t.mem.at_ y = if y ∈ d.owned then none else s.mem.at_ y) ∧ ∀ y, y ∈ t.hollow ↔ y ∈ s.hollow ∧ y ∉ d.owned) ∧
    ∃ t, (dbnDelete (dbnMove rest d).2 s >>= dbnDelete (dbnMove rest d).1) = .ok t ∧ (∀ y, t.mem.at_ y = if y ∈ d.owned then none else s.mem.at_ y) ∧ ∀ y, y ∈ t.hollow ↔ y ∈ s.hollow ∧ y ∉ d.owned := by
  have two : ∀ xs ys : List Nat, (xs ++ ys).Nodup → (∀ x ∈ xs ++ ys, x ∈ s.hollow ∨ ∃ v, s.mem.at_ x = some v) → (∀ z, z ∈ d.owned ↔ z ∈ xs ++ ys) →
      ∃ t, (Store.deleteAll xs s >>= Store.deleteAll ys) = .ok t ∧ (∀ y, t.mem.at_ y = if y ∈ d.owned then none else s.mem.at_ y) ∧ ∀ y, y ∈ t.hollow ↔ y ∈ s.hollow ∧ y ∉ d.owned := by
    intro xs ys hn hx hz
    obtain ⟨na, nb, dj⟩ := List.nodup_append.mp hn
    obtain ⟨t1, e1, e2, e3, e4⟩ := storeDelete_ok xs s hs na fun x hx' => hx x (by simp [hx'])
    obtain ⟨t2, f1, f2, f3, f4⟩ := storeDelete_ok ys t1 e2 nb fun y hy => by
      have hne : y ∉ xs := fun c => dj y c y hy rfl
      rcases hx y (by simp [hy]) with h | ⟨v, h⟩
      · exact .inl ((e4 y).2 ⟨h, hne⟩)
      · exact .inr ⟨v, by rw [e3, if_neg hne]; exact h⟩
    refine ⟨t2, by rw [e1, Outcome.ok_bind, f1], fun y => ?_, fun y => ?_⟩
    · rw [f3, e3]
      by_cases h1 : y ∈ xs <;> by_cases h2 : y ∈ ys <;> simp [hz, h1, h2]
    · rw [f4, e4, hz, List.mem_append]; tauto
  have o1 : (dbnMove rest d).1.owned ++ (dbnMove rest d).2.owned = d.owned := by simp [dbnMove, DBN.owned]
  refine ⟨two _ _ (by rw [o1]; exact hnd) (by rw [o1]; exact hl) (by rw [o1]; exact fun _ => Iff.rfl), two _ _ ?_ ?_ ?_⟩
  · rw [← o1] at hnd; exact (List.perm_append_comm.nodup_iff).mp hnd
  · intro x hx
    apply hl
    rw [← o1, List.mem_append]
    exact (List.mem_append.mp hx).symm
  · intro z
    rw [← o1, List.mem_append, List.mem_append]; exact or_comm

/-- A moved Q-network has the very variables of both networks of the old one, its settings and counters, but not its replay
memory: the old one, now without layers, keeps that. -/
theorem c88_dqn_move {S E : Type} (rest : List Char → List Char) (own : List E) (q : DQN S E) :
    (dqnMove rest own q).1.source.vars = q.source.vars ∧ (dqnMove rest own q).1.target.vars = q.target.vars ∧ (dqnMove rest own q).1.scope = q.scope ∧
    (dqnMove rest own q).1.state = q.state ∧ (dqnMove rest own q).1.experiences = own ∧
    (dqnMove rest own q).2.experiences = q.experiences ∧ (dqnMove rest own q).2.source.vars = [] ∧ (dqnMove rest own q).2.target.vars = [] := ⟨rfl, rfl, rfl, rfl, rfl, rfl, rfl, rfl⟩

/-- Negative: move assignment leaves the target's own replay memory in place, so it goes on training the networks it took
with what another agent had stored. -/
theorem c88_dqn_move_assign_keeps_memory {S E : Type} (rest : List Char → List Char) (p q : DQN S E) (m : Mem T) (hm : MemOk m)
    (hnd : (p.source.vars ++ p.target.vars).Nodup) (hl : ∀ x ∈ p.source.vars ++ p.target.vars, ∃ v, m.at_ x = some v) :
    ∃ p' q' m', dqnMoveAssign rest p q m = .ok (p', q', m') ∧ p'.experiences = p.experiences ∧ p'.source.vars = q.source.vars ∧ p'.target.vars = q.target.vars ∧
      p'.state = q.state ∧ ∀ x, m'.at_ x = if x ∈ p.source.vars ++ p.target.vars then none else m.at_ x := by
  obtain ⟨m', d1, _, _, d4⟩ := deleteAll_ok _ m hm hnd hl
  exact ⟨(dqnMove rest p.experiences q).1, (dqnMove rest p.experiences q).2, m', by simp only [dqnMoveAssign, d1, Outcome.ok_bind], rfl, rfl, rfl, rfl, d4⟩

/-- Move assignment of a deep belief network: the target's own variables are deleted, no other variable changes, it takes
the Boltzmann machines of the other network and has no output layer; the other network keeps its output layer alone. -/
theorem c88_dbn_move_assign (rest : List Char → List Char) (d d' : DBN) (s : Store T) (hs : StoreOk s) (hnd : d.owned.Nodup)
    (hl : ∀ x ∈ d.owned, x ∈ s.hollow ∨ ∃ v, s.mem.at_ x = some v) :
    ∃ a b t, dbnMoveAssign rest d d' s = .ok (a, b, t) ∧ (∀ y, t.mem.at_ y = if y ∈ d.owned then none else s.mem.at_ y) ∧ (∀ y, y ∈ t.hollow ↔ y ∈ s.hollow ∧ y ∉ d.owned) ∧
      a.layers = d'.layers ∧ a.scope = d'.scope ∧ a.nIn = d'.nIn ∧ a.nOut = d'.nOut ∧ a.vars = .ub ∧ b.layers = [] ∧ b.log = d'.log := by
  obtain ⟨t, h1, _, h2, h3⟩ := storeDelete_ok _ s hs hnd hl
  exact ⟨(dbnMove rest d').1, (dbnMove rest d').2, t, by simp only [dbnMoveAssign, dbnDelete, h1, Outcome.ok_bind], h2, h3, rfl, rfl, rfl, rfl, rfl, rfl, rfl⟩

/-! ### Examples -/

/-- A network is made, changed, moved, cloned, changed again, assigned back and partly deleted; the history is one the
theorem speaks of, and the values are as expected. -/
def exMoves : List (Step Int) :=
  [.new 2 [(1, 7)] ['a'], .put 0 1 ⟨⟨some [5], [1], [1]⟩, true, none⟩, .move 0, .clone 1 ['b'], .put 1 1 ⟨⟨some [6], [1], [1]⟩, true, none⟩, .moveAssign 0 2, .delete 2]

example : (∀ s ∈ exMoves, Proper s) ∧ ∃ P, Program.start.run 0 (fun _ _ => 1) (fun _ => []) exMoves = some P ∧
    (P.net 0).map (fun a => (a.scope, a.params.map Param.data)) = some (['b'], [none, some [5]]) ∧
    (P.net 1).map (fun a => (a.scope, a.params.map Param.data)) = some (['a'], [none, some [6]]) ∧ (P.net 2).isNone = true := by
  refine ⟨?_, _, rfl, rfl, rfl, rfl⟩
  intro s hs
  simp only [exMoves, List.mem_cons, List.not_mem_nil, or_false] at hs
  rcases hs with rfl | rfl | rfl | rfl | rfl | rfl | rfl
  · trivial
  · intro b hb; simp only [Option.some.injEq] at hb; subst hb; exact ⟨by decide, rfl⟩
  · trivial
  · trivial
  · intro b hb; simp only [Option.some.injEq] at hb; subst hb; exact ⟨by decide, rfl⟩
  · trivial
  · trivial

/-- Deleting a network twice is not such a history. -/
example : Program.start.run (0 : Int) (fun _ _ => 1) (fun _ => []) [.new 2 [(1, 7)] ['a'], .move 0, .delete 0, .delete 0] = none := rfl

/-- A new machine can be moved. -/
example : ∃ b a' s', rbmMove (fun _ => []) (rbmNew exEnv (fun _ => 1) 2 3 ['r'] ⟨0, fun _ => none⟩).1 ⟨(rbmNew exEnv (fun _ => 1) 2 3 ['r'] ⟨0, fun _ => none⟩).2, []⟩ = .ok (b, a', s') ∧
    b.vars = [some 3, some 4, some 5] ∧ s'.hollow = [2, 1, 0] := ⟨_, _, _, rfl, rfl, rfl⟩

/-- A machine that was moved away, as `c88_rbm_move_again` takes it, and a deep belief network as `c88_dbn_move_assign`
takes it: one machine and an output layer, the machine's variables hollow and those of the output layer not. -/
example : StoreOk (⟨⟨6, fun _ => none⟩, [2, 1, 0]⟩ : Store Int) ∧ [0, 1, 2].Nodup ∧ ∀ x ∈ [0, 1, 2], x ∈ [2, 1, 0] :=
  ⟨⟨⟨(fun _ _ h => nomatch h), (fun _ _ h => nomatch h)⟩, by decide, fun x hx => ⟨rfl, by simp at hx; show x < 6; omega⟩⟩, by decide, by decide⟩

example : ∃ (d : DBN) (s : Store Int), d.layers.length = 1 ∧ d.log ≠ none ∧ StoreOk s ∧ d.owned.Nodup ∧ ∀ x ∈ d.owned, x ∈ s.hollow ∨ ∃ v, s.mem.at_ x = some v := by
  let u : Var Int := ⟨['v'], ⟨⟨none, [], []⟩, false, none⟩⟩
  refine ⟨⟨['d'], 2, 1, [⟨['r'], 2, some 1, some 0, some 1, some 2⟩], some ⟨['o'], [(3, 4)]⟩⟩, ⟨⟨5, fun k => if k = 3 ∨ k = 4 then some u else none⟩, [2, 1, 0]⟩, rfl, by simp, ⟨⟨fun x v h => ?_, fun x v h => ?_⟩, by decide, fun x hx => ?_⟩, by decide, ?_⟩
  · dsimp only at h
    split at h
    · show x < 5; omega
    · cases h
  · dsimp only at h
    split at h
    · injection h with h
      subst h
      intro b hb; cases hb
    · cases h
  · simp only [List.mem_cons, List.not_mem_nil, or_false] at hx
    refine ⟨if_neg (by omega), ?_⟩
    show x < 5; omega
  · show ∀ x ∈ [0, 1, 2, 3, 4], _
    intro x hx
    simp only [List.mem_cons, List.not_mem_nil, or_false] at hx
    rcases hx with rfl | rfl | rfl | rfl | rfl
    · exact .inl (by decide)
    · exact .inl (by decide)
    · exact .inl (by decide)
    · exact .inr ⟨u, rfl⟩
    · exact .inr ⟨u, rfl⟩

end Verif.Props
