import Verif.Spec.Moves
import Verif.Props.Nets
/-! # Invariant of programs over perceptrons -/
namespace Verif.Nets
open Verif Verif.Spec Verif.Props Verif.Leaf Verif.Tensor

variable {T : Type}

theorem param_copy {l l' : Leaf T} (h : CopyOf l l') : Param.of l' = Param.of l := by
  obtain ⟨h1, h2, h3, h4, h5, h6⟩ := h
  unfold Param.of
  rw [h1, h2, h3, h4, h6]
  cases hi : l.isInit with
  | false => rfl
  | true => rw [h5 hi]

/-- The variables `xs` show the parameters `ps`. -/
def Shown (m : Mem T) (xs : List Nat) (ps : List (Param T)) : Prop :=
  List.Forall₂ (fun x p => ∃ v, m.at_ x = some v ∧ Param.of v.leaf = p) xs ps

theorem Shown.mono {m m' : Mem T} {xs : List Nat} {ps : List (Param T)} (h : Shown m xs ps) (k : ∀ x ∈ xs, m'.at_ x = m.at_ x) : Shown m' xs ps := by
  unfold Shown at *
  induction h with
  | nil => exact .nil
  | cons h _ ih =>
    obtain ⟨v, h1, h2⟩ := h
    exact .cons ⟨v, by rw [k _ (by simp)]; exact h1, h2⟩ (ih fun x hx => k x (by simp [hx]))

theorem Shown.live {m : Mem T} {xs : List Nat} {ps : List (Param T)} (h : Shown m xs ps) : ∀ x ∈ xs, ∃ v, m.at_ x = some v := by
  unfold Shown at h
  induction h with
  | nil => simp
  | cons h _ ih =>
    obtain ⟨v, h1, _⟩ := h
    intro x hx
    rcases List.mem_cons.mp hx with rfl | hx
    · exact ⟨v, h1⟩
    · exact ih x hx

theorem Shown.len {m : Mem T} {xs : List Nat} {ps : List (Param T)} (h : Shown m xs ps) : xs.length = ps.length := h.length_eq

theorem Shown.put {m : Mem T} {xs : List Nat} {ps : List (Param T)} (h : Shown m xs ps) (nd : xs.Nodup) :
    ∀ {k x : Nat} {u : Var T}, xs[k]? = some x → Shown (m.set x (some u)) xs (ps.set k (Param.of u.leaf)) := by
  unfold Shown at *
  induction h with
  | nil => intro k x u hk; simp at hk
  | @cons y p ys qs hh ht ih =>
    intro k x u hk
    rw [List.nodup_cons] at nd
    cases k with
    | zero =>
      simp only [List.getElem?_cons_zero, Option.some.injEq] at hk
      subst hk
      refine .cons ⟨u, by simp [Mem.set], rfl⟩ (Shown.mono (m := m) ht fun z hz => ?_)
      simp only [Mem.set]
      rw [if_neg fun c : z = y => nd.1 (c ▸ hz)]
    | succ k =>
      rw [List.getElem?_cons_succ] at hk
      obtain ⟨v, h1, h2⟩ := hh
      refine .cons ⟨v, ?_, h2⟩ (ih nd.2 hk)
      simp only [Mem.set]
      rw [if_neg fun c : y = x => nd.1 (c ▸ List.mem_of_getElem? hk)]
      exact h1

/-- The variables `ys` of `m'` are new since `m` and nothing else happened. -/
structure Grown (m m' : Mem T) (ys : List Nat) : Prop where
  ok : MemOk m'
  old : ∀ x v, m.at_ x = some v → m'.at_ x = some v
  free : ∀ y ∈ ys, m.at_ y = none
  nodup : ys.Nodup
  only : ∀ x v, m'.at_ x = some v → m.at_ x = some v ∨ x ∈ ys

theorem _root_.Verif.Props.MemOk.none_of_le {m : Mem T} (h : MemOk m) {x : Nat} (hx : m.next ≤ x) : m.at_ x = none := by
  cases e : m.at_ x with
  | none => rfl
  | some v => have := h.lt x v e; omega

theorem grown_of_copies {m m' : Mem T} {xs ys : List Nat} (hm : MemOk m) (c : Copies m m' xs ys) : Grown m m' ys := by
  refine ⟨c.ok, fun x v h => by rw [c.old x (hm.lt x v h)]; exact h, fun y hy => hm.none_of_le (c.fresh y hy).1, c.nodup, fun x v h => ?_⟩
  by_cases hx : x < m.next
  · exact .inl (by rw [← c.old x hx]; exact h)
  · exact .inr (c.new x (by omega) (c.ok.lt x v h))

theorem shown_of_copies {m m' : Mem T} {xs ys : List Nat} {ps : List (Param T)} (c : Copies m m' xs ys) (h : Shown m xs ps) : Shown m' ys ps := by
  have := c.copy
  clear c
  unfold Shown at *
  induction h generalizing ys with
  | nil => cases this; exact .nil
  | cons h _ ih =>
    cases this with
    | cons h2 t =>
      obtain ⟨v, h1, h3⟩ := h
      obtain ⟨w, w', g1, g2, g3⟩ := h2
      rw [h1] at g1; injection g1 with g1; subst g1
      exact .cons ⟨w', g2, by rw [param_copy g3]; exact h3⟩ (ih t)

theorem sameLayers_view {ps qs : List (FC × Nat)} (h : SameLayers ps qs) :
    qs.map (fun p => (p.1.vars.length, p.2)) = ps.map fun p => (p.1.vars.length, p.2) := by
  have hl : ∀ f : FC, f.vars.length = 2 * f.wb.length := fun f => by simp [FC.vars, List.length_flatMap]; omega
  unfold SameLayers at h
  induction h with
  | nil => rfl
  | cons h _ ih => rw [List.map_cons, List.map_cons, ih, h.1, hl, hl, h.2]

theorem param_new (e : Env T) (hmem : ∀ n, e.fits n = true) (s : List Nat) (hs : s ≠ []) (g : Nat → T) :
    Param.of (newVariable e s (some g)) = Param.new s g := by
  unfold Param.of newVariable Param.new
  simp only [Tensor.new]
  by_cases hf : Full s
  · have h0 : 0 ∉ s := fun h => by have := hf.2 0 h; omega
    rw [if_pos ((Shape.isFullyDefined_iff s).2 hf), if_neg h0]
    simp [allocBuf, hmem, h0]
  · have h0 : 0 ∈ s := by
      by_contra h
      exact hf ⟨hs, fun d hd => Nat.pos_of_ne_zero fun c => h (c ▸ hd)⟩
    rw [if_neg fun c => hf ((Shape.isFullyDefined_iff s).1 c), if_pos h0]
    simp [h0]

theorem newFrom_grown (e : Env T) (hmem : ∀ n, e.fits n = true) (winit : Nat → Nat → T) (scope : List Char) (hs : List (Nat × Nat)) :
    ∀ (level n : Nat) (m : Mem T), MemOk m →
      Grown m (mlpNewFrom e winit scope level n hs m).2 ((mlpNewFrom e winit scope level n hs m).1.flatMap fun p => p.1.vars) ∧
      (∀ y ∈ (mlpNewFrom e winit scope level n hs m).1.flatMap fun p => p.1.vars, m.next ≤ y) ∧
      Shown (mlpNewFrom e winit scope level n hs m).2 ((mlpNewFrom e winit scope level n hs m).1.flatMap fun p => p.1.vars) (newParams e.zero winit n hs) ∧
      (mlpNewFrom e winit scope level n hs m).1.map (fun p => (p.1.vars.length, p.2)) = hs.map fun h => (2, h.2) := by
  have wfn : ∀ s i, (newVariable e s i : Leaf T).data.WF := fun s _ => new_wf e s
  induction hs with
  | nil =>
    intro level n m hm
    exact ⟨⟨hm, fun _ _ h => h, by simp [mlpNewFrom], by simp [mlpNewFrom], fun _ _ h => .inl h⟩, by simp [mlpNewFrom], .nil, rfl⟩
  | cons h hs ih =>
    intro level n m hm
    obtain ⟨a1, a2, a3, a4, a5⟩ := alloc_ok m hm ⟨weightLabel (scope ++ ":hidden_".toList ++ num level) 0, newVariable e [h.1, n] (some (winit n))⟩ (wfn _ _)
    obtain ⟨b1, b2, b3, b4, b5⟩ := alloc_ok _ a1 ⟨biasLabel (scope ++ ":hidden_".toList ++ num level) 0, newVariable e [h.1] (some fun _ => e.zero)⟩ (wfn _ _)
    obtain ⟨c1, c2, c3, c4⟩ := ih (level + 1) h.1 _ b1
    have e1 : (mlpNewFrom e winit scope level n (h :: hs) m).1.flatMap (fun p => p.1.vars) =
        m.next :: (m.next + 1) :: (mlpNewFrom e winit scope (level + 1) h.1 hs ((m.alloc ⟨weightLabel (scope ++ ":hidden_".toList ++ num level) 0, newVariable e [h.1, n] (some (winit n))⟩).2.alloc
          ⟨biasLabel (scope ++ ":hidden_".toList ++ num level) 0, newVariable e [h.1] (some fun _ => e.zero)⟩).2).1.flatMap (fun p => p.1.vars) := rfl
    have e2 : (mlpNewFrom e winit scope level n (h :: hs) m).2 =
        (mlpNewFrom e winit scope (level + 1) h.1 hs ((m.alloc ⟨weightLabel (scope ++ ":hidden_".toList ++ num level) 0, newVariable e [h.1, n] (some (winit n))⟩).2.alloc
          ⟨biasLabel (scope ++ ":hidden_".toList ++ num level) 0, newVariable e [h.1] (some fun _ => e.zero)⟩).2).2 := rfl
    have w1 := c1.old _ _ (b5 _ _ a4)
    rw [a3] at b4 b3
    have w2 := c1.old _ _ b4
    rw [b3] at c2
    rw [e1, e2]
    refine ⟨⟨c1.ok, fun x v hx => c1.old x v (b5 x v (a5 x v hx)), fun y hy => ?_, ?_, fun x v hx => ?_⟩, fun y hy => ?_, ?_, ?_⟩
    · rcases List.mem_cons.mp hy with rfl | hy
      · exact hm.none_of_le (Nat.le_refl _)
      · rcases List.mem_cons.mp hy with rfl | hy
        · exact hm.none_of_le (by omega)
        · have := c2 y hy; exact hm.none_of_le (by omega)
    · rw [List.nodup_cons, List.nodup_cons]
      refine ⟨fun hy => ?_, fun hy => ?_, c1.nodup⟩
      · rcases List.mem_cons.mp hy with hy | hy
        · omega
        · have := c2 _ hy; omega
      · have := c2 _ hy; omega
    · rcases c1.only x v hx with hx | hx
      · simp only [Mem.alloc] at hx
        by_cases h1 : x = m.next + 1
        · exact .inr (by simp [h1])
        · by_cases h2 : x = m.next
          · exact .inr (by simp [h2])
          · simp only [h1, h2, ↓reduceIte] at hx; exact .inl hx
      · exact .inr (by simp only [List.mem_cons]; exact .inr (.inr hx))
    · rcases List.mem_cons.mp hy with rfl | hy
      · exact Nat.le_refl _
      · rcases List.mem_cons.mp hy with rfl | hy
        · omega
        · have := c2 y hy; omega
    · exact .cons ⟨_, w1, param_new e hmem _ (by simp) _⟩ (.cons ⟨_, w2, param_new e hmem _ (by simp) _⟩ c3)
    · show (_ :: _ : List (Nat × Nat)) = _ :: _
      rw [← c4]; rfl

/-- A perceptron in memory is the value `s`. -/
structure Is (m : Mem T) (a : MLP) (s : NetVal T) : Prop where
  scope : a.scope = s.scope
  nIn : a.nIn = s.nIn
  nOut : a.nOut = s.nOut
  layers : a.layers.map (fun p => (p.1.vars.length, p.2)) = s.layers
  params : Shown m a.vars s.params

structure Inv (w : World T) (P : Program T) : Prop where
  ok : MemOk w.mem
  made : w.made = P.made
  bound : ∀ i a, w.net i = some a → i < w.made
  is : ∀ i a, w.net i = some a → ∃ s, P.net i = some s ∧ Is w.mem a s
  isNot : ∀ i, w.net i = none → P.net i = none
  nodup : ∀ i a, w.net i = some a → a.vars.Nodup
  disj : ∀ i j a b x, w.net i = some a → w.net j = some b → x ∈ a.vars → x ∈ b.vars → i = j
  owner : ∀ x v, w.mem.at_ x = some v → ∃ i a, w.net i = some a ∧ x ∈ a.vars

theorem Inv.start : Inv (World.start : World T) Program.start :=
  ⟨⟨fun x v h => by simp [World.start] at h, fun x v h => by simp [World.start] at h⟩, rfl, fun i a h => by simp [World.start] at h, fun i a h => by simp [World.start] at h,
    fun _ _ => rfl, fun i a h => by simp [World.start] at h, fun i j a b x h => by simp [World.start] at h, fun x v h => by simp [World.start] at h⟩

/-- Deleting a network. -/
theorem Inv.remove {w : World T} {P : Program T} (h : Inv w P) {i : Nat} {a : MLP} (ha : w.net i = some a) :
    ∃ m, Mem.deleteAll a.vars w.mem = .ok m ∧ Inv ({ w with mem := m }.setNet i none) (P.set i none) := by
  obtain ⟨s, hs, his⟩ := h.is i a ha
  obtain ⟨m, d1, d2, d3, d4⟩ := deleteAll_ok a.vars w.mem h.ok (h.nodup i a ha) his.params.live
  refine ⟨m, d1, d2, h.made, fun j b hb => ?_, fun j b hb => ?_, fun j hj => ?_, fun j b hb => ?_, fun j k b c x hb hc hx hy => ?_, fun x v hx => ?_⟩
  · simp only [World.setNet] at hb ⊢
    split at hb
    · cases hb
    · exact h.bound j b hb
  · simp only [World.setNet] at hb
    split at hb
    · cases hb
    · rename_i hne
      obtain ⟨t, ht, hit⟩ := h.is j b hb
      refine ⟨t, by simp only [Program.set]; rw [if_neg hne]; exact ht, hit.scope, hit.nIn, hit.nOut, hit.layers, hit.params.mono fun x hx => ?_⟩
      show m.at_ x = w.mem.at_ x
      rw [d4, if_neg fun c => hne (h.disj j i b a x hb ha hx c)]
  · simp only [World.setNet] at hj
    simp only [Program.set]
    split at hj
    · rw [if_pos (by assumption)]
    · rw [if_neg (by assumption)]; exact h.isNot j hj
  · simp only [World.setNet] at hb
    split at hb
    · cases hb
    · exact h.nodup j b hb
  · simp only [World.setNet] at hb hc
    split at hb
    · cases hb
    · split at hc
      · cases hc
      · exact h.disj j k b c x hb hc hx hy
  · have hx : m.at_ x = some v := hx
    rw [d4] at hx
    split at hx
    · cases hx
    · rename_i hn
      obtain ⟨j, b, hb, hxb⟩ := h.owner x v hx
      refine ⟨j, b, ?_, hxb⟩
      simp only [World.setNet]
      rw [if_neg]
      · exact hb
      · rintro rfl
        rw [ha] at hb; injection hb with hb; subst hb
        exact hn hxb

/-- A network with new parameters takes an empty place. -/
theorem Inv.place {w : World T} {P : Program T} (h : Inv w P) {i n : Nat} {a : MLP} {s : NetVal T} {m : Mem T} (hi : w.net i = none)
    (hn : i < n) (hn' : w.made ≤ n) (g : Grown w.mem m a.vars) (hs : Is m a s) :
    Inv ⟨m, n, fun k => if k = i then some a else w.net k⟩ ⟨n, fun k => if k = i then some s else P.net k⟩ := by
  have apart : ∀ j b x, w.net j = some b → x ∈ b.vars → x ∉ a.vars := fun j b x hb hx hxa => by
    obtain ⟨t, _, hit⟩ := h.is j b hb
    obtain ⟨v, hv⟩ := hit.params.live x hx
    rw [g.free x hxa] at hv; cases hv
  refine ⟨g.ok, rfl, fun j b hb => ?_, fun j b hb => ?_, fun j hj => ?_, fun j b hb => ?_, fun j k b c x hb hc hx hy => ?_, fun x v hx => ?_⟩
  · dsimp only at hb ⊢
    split at hb
    · omega
    · have := h.bound j b hb; omega
  · dsimp only at hb ⊢
    split at hb
    · injection hb with hb; subst hb
      exact ⟨s, by rw [if_pos (by assumption)], hs⟩
    · obtain ⟨t, ht, hit⟩ := h.is j b hb
      refine ⟨t, by rw [if_neg (by assumption)]; exact ht, hit.scope, hit.nIn, hit.nOut, hit.layers, hit.params.mono fun x hx => ?_⟩
      obtain ⟨v, hv⟩ := hit.params.live x hx
      rw [hv]; exact g.old x v hv
  · dsimp only at hj ⊢
    split at hj
    · cases hj
    · rw [if_neg (by assumption)]; exact h.isNot j hj
  · dsimp only at hb
    split at hb
    · injection hb with hb; subst hb; exact g.nodup
    · exact h.nodup j b hb
  · dsimp only at hb hc
    split at hb
    · injection hb with hb; subst hb
      split at hc
      · omega
      · exact absurd hx (apart k c x hc hy)
    · split at hc
      · injection hc with hc; subst hc
        exact absurd hy (apart j b x hb hx)
      · exact h.disj j k b c x hb hc hx hy
  · rcases g.only x v hx with hx | hx
    · obtain ⟨j, b, hb, hxb⟩ := h.owner x v hx
      refine ⟨j, b, ?_, hxb⟩
      dsimp only
      rw [if_neg]
      · exact hb
      · rintro rfl; rw [hi] at hb; cases hb
    · exact ⟨i, a, by dsimp only; rw [if_pos rfl], hx⟩

/-- A network's parameters go to an empty place. -/
theorem Inv.transfer {w : World T} {P : Program T} (h : Inv w P) (rest : List Char → List Char) {i j n : Nat} {b : MLP} {s : NetVal T}
    (hi : w.net i = none) (hj : w.net j = some b) (hs : P.net j = some s) (hn : i < n) (hn' : w.made ≤ n) :
    Inv ⟨w.mem, n, fun k => if k = j then some (mlpLeft rest b) else if k = i then some b else w.net k⟩
      ⟨n, fun k => if k = j then some (s.left rest) else if k = i then some s else P.net k⟩ := by
  have hij : i ≠ j := fun c => by subst c; rw [hi] at hj; cases hj
  obtain ⟨s', hs', his⟩ := h.is j b hj
  rw [hs] at hs'; injection hs' with hs'; subst hs'
  -- where a network of the new world was before
  have back : ∀ k c, (if k = j then some (mlpLeft rest b) else if k = i then some b else w.net k) = some c →
      ∀ x ∈ c.vars, ∃ k', w.net k' = some c ∧ ((k = i ∧ k' = j) ∨ (k ≠ i ∧ k ≠ j ∧ k' = k)) := by
    intro k c hc x hx
    split at hc
    · injection hc with hc; subst hc
      simp [mlpLeft, MLP.vars] at hx
    · split at hc
      · injection hc with hc; subst hc
        exact ⟨j, hj, .inl ⟨by assumption, rfl⟩⟩
      · exact ⟨k, hc, .inr ⟨by assumption, by assumption, rfl⟩⟩
  refine ⟨h.ok, rfl, fun k c hc => ?_, fun k c hc => ?_, fun k hk => ?_, fun k c hc => ?_, fun k l c d x hc hd hx hy => ?_, fun x v hx => ?_⟩
  · dsimp only at hc ⊢
    split at hc
    · have := h.bound j b hj; omega
    · split at hc
      · omega
      · have := h.bound k c hc; omega
  · dsimp only at hc ⊢
    split at hc
    · injection hc with hc; subst hc
      refine ⟨s.left rest, by rw [if_pos (by assumption)], ?_, his.nIn, his.nOut, rfl, .nil⟩
      show rest b.scope = rest s.scope
      rw [his.scope]
    · split at hc
      · injection hc with hc; subst hc
        exact ⟨s, by rw [if_neg (by assumption), if_pos (by assumption)], his⟩
      · obtain ⟨t, ht, hit⟩ := h.is k c hc
        exact ⟨t, by rw [if_neg (by assumption), if_neg (by assumption)]; exact ht, hit⟩
  · dsimp only at hk ⊢
    split at hk
    · cases hk
    · split at hk
      · cases hk
      · rw [if_neg (by assumption), if_neg (by assumption)]; exact h.isNot k hk
  · dsimp only at hc
    split at hc
    · injection hc with hc; subst hc; simp [mlpLeft, MLP.vars]
    · split at hc
      · injection hc with hc; subst hc; exact h.nodup j b hj
      · exact h.nodup k c hc
  · obtain ⟨k', e1, f1⟩ := back k c hc x hx
    obtain ⟨l', e2, f2⟩ := back l d hd x hy
    have := h.disj k' l' c d x e1 e2 hx hy
    omega
  · obtain ⟨k, c, hc, hxc⟩ := h.owner x v hx
    by_cases hkj : k = j
    · subst hkj
      rw [hj] at hc; injection hc with hc; subst hc
      exact ⟨i, b, by dsimp only; rw [if_neg hij, if_pos rfl], hxc⟩
    · refine ⟨k, c, ?_, hxc⟩
      dsimp only
      rw [if_neg hkj, if_neg]
      · exact hc
      · rintro rfl; rw [hi] at hc; cases hc

theorem Inv.some_iff {w : World T} {P : Program T} (h : Inv w P) (i : Nat) : w.net i = none ↔ P.net i = none := by
  refine ⟨h.isNot i, fun e => ?_⟩
  cases hw : w.net i with
  | none => rfl
  | some a => obtain ⟨s, hs, _⟩ := h.is i a hw; rw [e] at hs; cases hs

/-- The step of the program does what the step of the values says, and is undefined exactly when that one is. -/
theorem Inv.step (e : Env T) (hmem : ∀ n, e.fits n = true) (winit : Nat → Nat → T) (rest : List Char → List Char) {w : World T} {P : Program T}
    (h : Inv w P) (s : Step T) (hp : Proper s) :
    (P.step e.zero winit rest s = none → w.step e winit rest s = .ub) ∧
    ∀ P', P.step e.zero winit rest s = some P' → ∃ w', w.step e winit rest s = .ok w' ∧ Inv w' P' := by
  have fresh : w.net w.made = none := by
    cases hw : w.net w.made with
    | none => rfl
    | some a => have := h.bound _ a hw; omega
  have use_ub : ∀ i, P.net i = none → w.use i = .ub := fun i hi => by
    unfold World.use; rw [(h.some_iff i).2 hi]
  have use_ok : ∀ i t, P.net i = some t → ∃ a, w.net i = some a ∧ w.use i = .ok a ∧ Is w.mem a t := fun i t hi => by
    cases hw : w.net i with
    | none => rw [(h.some_iff i).1 hw] at hi; cases hi
    | some a =>
      obtain ⟨t', ht, hit⟩ := h.is i a hw
      rw [hi] at ht; injection ht with ht; subst ht
      exact ⟨a, rfl, by unfold World.use; rw [hw], hit⟩
  cases s with
  | new nIn hiddens scope =>
    refine ⟨fun c => by simp [Program.step] at c, fun P' hP => ?_⟩
    simp only [Program.step, Option.some.injEq] at hP
    subst hP
    refine ⟨_, rfl, ?_⟩
    obtain ⟨g1, _, g3, g4⟩ := newFrom_grown e hmem winit scope hiddens 0 nIn w.mem h.ok
    have := h.place (i := w.made) (n := w.made + 1) (a := (mlpNew e winit nIn hiddens scope w.mem).1) (s := NetVal.new e.zero winit nIn hiddens scope)
      fresh (by omega) (by omega) g1 ⟨rfl, rfl, rfl, g4, g3⟩
    unfold World.add Program.add
    rw [← h.made]; exact this
  | clone i scope =>
    cases hi : P.net i with
    | none =>
      refine ⟨fun _ => ?_, fun P' hP => by simp [Program.step, hi] at hP⟩
      simp only [World.step, use_ub i hi]; rfl
    | some t =>
      refine ⟨fun c => by simp [Program.step, hi] at c, fun P' hP => ?_⟩
      simp only [Program.step, hi, Option.map_some, Option.some.injEq] at hP
      subst hP
      obtain ⟨a, ha, hu, his⟩ := use_ok i t hi
      obtain ⟨qs, m', h1, h2, c⟩ := mlpCopyFrom_ok e hmem (copyScope a.scope scope) a.layers 0 w.mem h.ok his.params.live
      refine ⟨w.add ⟨copyScope a.scope scope, a.nIn, a.nOut, qs⟩ m', by simp only [World.step, hu, Outcome.ok_bind, mlpClone, h1], ?_⟩
      have := h.place (i := w.made) (n := w.made + 1) (a := ⟨copyScope a.scope scope, a.nIn, a.nOut, qs⟩)
        (s := { t with scope := if scope = [] then t.scope ++ "_cpy".toList else scope })
        fresh (by omega) (by omega) (grown_of_copies h.ok c)
        ⟨by simp only [copyScope, his.scope], his.nIn, his.nOut, (sameLayers_view h2).trans his.layers, shown_of_copies c his.params⟩
      unfold World.add Program.add
      rw [← h.made]; exact this
  | assign i j =>
    cases hi : P.net i with
    | none =>
      refine ⟨fun _ => ?_, fun P' hP => by simp [Program.step, hi] at hP⟩
      simp only [World.step, use_ub i hi]; rfl
    | some t =>
      obtain ⟨a, ha, hu, his⟩ := use_ok i t hi
      cases hj : P.net j with
      | none =>
        refine ⟨fun _ => ?_, fun P' hP => by simp [Program.step, hi, hj] at hP⟩
        simp only [World.step, hu, use_ub j hj]; rfl
      | some r =>
        refine ⟨fun c => by simp [Program.step, hi, hj] at c, fun P' hP => ?_⟩
        simp only [Program.step, hi, hj, Option.map_some, Option.bind_some, Option.some.injEq] at hP
        subst hP
        obtain ⟨b, hb, hu2, his2⟩ := use_ok j r hj
        by_cases hij : i = j
        · subst hij
          rw [ha] at hb; injection hb with hb; subst hb
          refine ⟨{ w with mem := w.mem }.setNet i (some a), by simp [World.step, hu, mlpAssign], ?_⟩
          have e1 : { w with mem := w.mem }.setNet i (some a) = w := by
            unfold World.setNet
            have : (fun k => if k = i then some a else w.net k) = w.net := by
              funext k; split
              · rename_i hk; rw [hk, ha]
              · rfl
            simp only [this]
          have e2 : P.set i (some r) = P := by
            unfold Program.set
            have : (fun k => if k = i then some r else P.net k) = P.net := by
              funext k; split
              · rename_i hk; rw [hk, hj]
              · rfl
            simp only [this]
          rw [e1, e2]; exact h
        · obtain ⟨m1, d1, hr⟩ := h.remove ha
          have hb' : ({ w with mem := m1 }.setNet i none).net j = some b := by
            simp only [World.setNet]; rw [if_neg fun c => hij c.symm]; exact hb
          obtain ⟨r', hr', his3⟩ := hr.is j b hb'
          have : r' = r := by
            simp only [Program.set] at hr'
            rw [if_neg fun c => hij c.symm, hj] at hr'
            injection hr' with hr'; exact hr'.symm
          subst this
          obtain ⟨qs, m', h1, h2, c⟩ := mlpCopyFrom_ok e hmem b.scope b.layers 0 m1 hr.ok his3.params.live
          refine ⟨{ w with mem := m' }.setNet i (some ⟨b.scope, b.nIn, b.nOut, qs⟩), ?_, ?_⟩
          · simp only [World.step, hu, hu2, Outcome.ok_bind, mlpAssign, beq_eq_false_iff_ne.mpr hij, Bool.false_eq_true, if_false, d1, h1]
          · have := hr.place (i := i) (n := w.made) (a := ⟨b.scope, b.nIn, b.nOut, qs⟩) (s := r') (by simp [World.setNet]) (h.bound i a ha) (Nat.le_refl _)
              (grown_of_copies hr.ok c) ⟨his3.scope, his3.nIn, his3.nOut, (sameLayers_view h2).trans his3.layers, shown_of_copies c his3.params⟩
            have e1 : ({ w with mem := m' } : World T).setNet i (some ⟨b.scope, b.nIn, b.nOut, qs⟩) =
                ⟨m', w.made, fun k => if k = i then some ⟨b.scope, b.nIn, b.nOut, qs⟩ else ({ w with mem := m1 }.setNet i none).net k⟩ := by
              simp only [World.setNet, World.mk.injEq, true_and]
              funext k; split <;> rfl
            have e2 : P.set i (some r') = ⟨w.made, fun k => if k = i then some r' else (P.set i none).net k⟩ := by
              simp only [Program.set, Program.mk.injEq, h.made, true_and]
              funext k; split <;> rfl
            rw [e1, e2]; exact this
  | move i =>
    cases hi : P.net i with
    | none =>
      refine ⟨fun _ => ?_, fun P' hP => by simp [Program.step, hi] at hP⟩
      simp only [World.step, use_ub i hi]; rfl
    | some t =>
      refine ⟨fun c => by simp [Program.step, hi] at c, fun P' hP => ?_⟩
      simp only [Program.step, hi, Option.map_some, Option.some.injEq] at hP
      subst hP
      obtain ⟨a, ha, hu, his⟩ := use_ok i t hi
      refine ⟨(w.setNet i (some (mlpMove rest a).2)).add (mlpMove rest a).1 w.mem, by simp only [World.step, hu, Outcome.ok_bind], ?_⟩
      have hne : w.made ≠ i := fun c => by rw [← c, fresh] at ha; cases ha
      have := h.transfer rest (i := w.made) (j := i) (n := w.made + 1) fresh ha hi (by omega) (by omega)
      have e1 : (w.setNet i (some (mlpMove rest a).2)).add (mlpMove rest a).1 w.mem =
          ⟨w.mem, w.made + 1, fun k => if k = i then some (mlpLeft rest a) else if k = w.made then some a else w.net k⟩ := by
        simp only [World.setNet, World.add, World.mk.injEq, true_and]
        funext k
        by_cases h1 : k = w.made
        · have h2 : k ≠ i := by omega
          simp only [h2, h1, ↓reduceIte, hne]; rfl
        · simp only [h1, ↓reduceIte]; rfl
      have e2 : (P.set i (some (t.left rest))).add t = ⟨w.made + 1, fun k => if k = i then some (t.left rest) else if k = w.made then some t else P.net k⟩ := by
        simp only [Program.set, Program.add, Program.mk.injEq, h.made, true_and]
        funext k
        by_cases h1 : k = P.made
        · have h2 : P.made ≠ i := by rw [h.made] at hne; exact hne
          simp only [h1, ↓reduceIte, h2]
        · simp only [h1, ↓reduceIte]
      rw [e1, e2]; exact this
  | moveAssign i j =>
    cases hi : P.net i with
    | none =>
      refine ⟨fun _ => ?_, fun P' hP => by simp [Program.step, hi] at hP⟩
      simp only [World.step, use_ub i hi]; rfl
    | some t =>
      obtain ⟨a, ha, hu, his⟩ := use_ok i t hi
      cases hj : P.net j with
      | none =>
        refine ⟨fun _ => ?_, fun P' hP => by simp [Program.step, hi, hj] at hP⟩
        simp only [World.step, hu, use_ub j hj]; rfl
      | some r =>
        refine ⟨fun c => by simp [Program.step, hi, hj] at c, fun P' hP => ?_⟩
        simp only [Program.step, hi, hj, Option.map_some, Option.bind_some, Option.some.injEq] at hP
        subst hP
        obtain ⟨b, hb, hu2, his2⟩ := use_ok j r hj
        by_cases hij : i = j
        · refine ⟨w, by simp only [World.step, hu, hu2, Outcome.ok_bind, if_pos hij], ?_⟩
          rw [if_pos hij]; exact h
        · rw [if_neg hij]
          obtain ⟨m1, d1, hr⟩ := h.remove ha
          have hb' : ({ w with mem := m1 }.setNet i none).net j = some b := by
            simp only [World.setNet]; rw [if_neg fun c => hij c.symm]; exact hb
          have hj' : (P.set i none).net j = some r := by
            simp only [Program.set]; rw [if_neg fun c => hij c.symm]; exact hj
          refine ⟨({ w with mem := m1 }.setNet i (some (mlpMove rest b).1)).setNet j (some (mlpMove rest b).2),
            by simp only [World.step, hu, hu2, Outcome.ok_bind, if_neg hij, mlpMoveAssign, d1], ?_⟩
          have := hr.transfer rest (i := i) (j := j) (n := w.made) (by simp [World.setNet]) hb' hj' (h.bound i a ha) (Nat.le_refl _)
          have e1 : (({ w with mem := m1 } : World T).setNet i (some (mlpMove rest b).1)).setNet j (some (mlpMove rest b).2) =
              ⟨m1, w.made, fun k => if k = j then some (mlpLeft rest b) else if k = i then some b else ({ w with mem := m1 }.setNet i none).net k⟩ := by
            simp only [World.setNet, World.mk.injEq, true_and]
            funext k
            by_cases h1 : k = j
            · rw [if_pos h1, if_pos h1]; rfl
            · rw [if_neg h1, if_neg h1]
              by_cases h2 : k = i
              · rw [if_pos h2, if_pos h2]; rfl
              · rw [if_neg h2, if_neg h2, if_neg h2]
          have e2 : (P.set i (some r)).set j (some (r.left rest)) = ⟨w.made, fun k => if k = j then some (r.left rest) else if k = i then some r else (P.set i none).net k⟩ := by
            simp only [Program.set, Program.mk.injEq, h.made, true_and]
            funext k
            by_cases h2 : k = i
            · rw [if_pos h2, if_pos h2]
            · rw [if_neg h2, if_neg h2, if_neg h2]
          rw [e1, e2]; exact this
  | delete i =>
    cases hi : P.net i with
    | none =>
      refine ⟨fun _ => ?_, fun P' hP => by simp [Program.step, hi] at hP⟩
      simp only [World.step, use_ub i hi]; rfl
    | some t =>
      refine ⟨fun c => by simp [Program.step, hi] at c, fun P' hP => ?_⟩
      simp only [Program.step, hi, Option.map_some, Option.some.injEq] at hP
      subst hP
      obtain ⟨a, ha, hu, his⟩ := use_ok i t hi
      obtain ⟨m1, d1, hr⟩ := h.remove ha
      exact ⟨_, by simp only [World.step, hu, Outcome.ok_bind, mlpDelete, d1], hr⟩
  | put i k l =>
    cases hi : P.net i with
    | none =>
      refine ⟨fun _ => ?_, fun P' hP => by simp [Program.step, hi] at hP⟩
      simp only [World.step, use_ub i hi]; rfl
    | some t =>
      obtain ⟨a, ha, hu, his⟩ := use_ok i t hi
      by_cases hk : k < t.params.length
      · refine ⟨fun c => by simp [Program.step, hi, hk] at c, fun P' hP => ?_⟩
        simp only [Program.step, hi, Option.bind_some, if_pos hk, Option.some.injEq] at hP
        subst hP
        have hx : a.vars[k]? = some (a.vars[k]'(by rw [his.params.len]; exact hk)) := List.getElem?_eq_getElem _
        generalize a.vars[k]'(by rw [his.params.len]; exact hk) = x at hx
        have hxa : x ∈ a.vars := List.mem_of_getElem? hx
        obtain ⟨v, hv⟩ := his.params.live x hxa
        refine ⟨{ w with mem := w.mem.set x (some ⟨v.label, l⟩) }, by simp only [World.step, hu, Outcome.ok_bind, nth, hx, Mem.deref, hv], ?_⟩
        have other : ∀ y, y ≠ x → (w.mem.set x (some ⟨v.label, l⟩)).at_ y = w.mem.at_ y := fun y hy => by
          simp only [Mem.set]; rw [if_neg hy]
        refine ⟨⟨fun y u hy => ?_, fun y u hy => ?_⟩, h.made, h.bound, fun j b hb => ?_, fun j hj => ?_, h.nodup, h.disj, fun y u hy => ?_⟩
        · simp only [Mem.set] at hy ⊢
          split at hy
          · rename_i e; rw [e]; exact h.ok.lt x v hv
          · exact h.ok.lt y u hy
        · simp only [Mem.set] at hy
          split at hy
          · injection hy with hy; subst hy; exact hp
          · exact h.ok.wf y u hy
        · by_cases hji : j = i
          · subst hji
            have hb : w.net j = some b := hb
            rw [ha] at hb; injection hb with hb; subst hb
            refine ⟨{ t with params := t.params.set k (Param.of l) }, by simp [Program.set], his.scope, his.nIn, his.nOut, his.layers, ?_⟩
            exact his.params.put (h.nodup j a ha) (u := ⟨v.label, l⟩) hx
          · obtain ⟨s, hs, hit⟩ := h.is j b hb
            refine ⟨s, by simp only [Program.set]; rw [if_neg hji]; exact hs, hit.scope, hit.nIn, hit.nOut, hit.layers, hit.params.mono fun y hy => ?_⟩
            exact other y fun c => hji (h.disj j i b a x hb ha (c ▸ hy) hxa)
        · have hji : j ≠ i := fun c => by
            have hj : w.net j = none := hj
            rw [c, ha] at hj; cases hj
          simp only [Program.set]; rw [if_neg hji]; exact h.isNot j hj
        · by_cases hyx : y = x
          · exact ⟨i, a, ha, hyx ▸ hxa⟩
          · have hy : (w.mem.set x (some ⟨v.label, l⟩)).at_ y = some u := hy
            rw [other y hyx] at hy; exact h.owner y u hy
      · refine ⟨fun _ => ?_, fun P' hP => by simp [Program.step, hi, hk] at hP⟩
        have hx : a.vars[k]? = none := by rw [List.getElem?_eq_none_iff, his.params.len]; omega
        simp only [World.step, hu, Outcome.ok_bind, nth, hx]; rfl

theorem Inv.run (e : Env T) (hmem : ∀ n, e.fits n = true) (winit : Nat → Nat → T) (rest : List Char → List Char) (ss : List (Step T)) :
    ∀ {w : World T} {P : Program T}, Inv w P → (∀ s ∈ ss, Proper s) →
      (P.run e.zero winit rest ss = none → w.run e winit rest ss = .ub) ∧
      ∀ P', P.run e.zero winit rest ss = some P' → ∃ w', w.run e winit rest ss = .ok w' ∧ Inv w' P' := by
  induction ss with
  | nil =>
    intro w P h _
    refine ⟨fun c => by simp [Program.run] at c, fun P' hP => ?_⟩
    simp only [Program.run, Option.some.injEq] at hP
    subst hP
    exact ⟨w, rfl, h⟩
  | cons s ss ih =>
    intro w P h hp
    obtain ⟨h1, h2⟩ := h.step e hmem winit rest s (hp s (by simp))
    cases hs : P.step e.zero winit rest s with
    | none =>
      refine ⟨fun _ => ?_, fun P' hP => by simp [Program.run, hs] at hP⟩
      simp only [World.run, h1 hs]; rfl
    | some P1 =>
      obtain ⟨w1, g1, g2⟩ := h2 P1 hs
      obtain ⟨k1, k2⟩ := ih g2 fun s hs => hp s (by simp [hs])
      simp only [Program.run, hs, Option.bind_some, World.run, g1, Outcome.ok_bind]
      exact ⟨k1, k2⟩

end Verif.Nets
