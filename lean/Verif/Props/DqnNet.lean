import Verif.Lemmas.DqnNet
import Verif.Props.Rbm
import Verif.Props.Descent
import Verif.Props.Dqn
/-!
# C67: training a deep-Q agent
-/
namespace Verif.Props
open Spec Backprop Finset Dqn
open scoped Classical
variable {shp : Backprop.Leaf → List Nat} {val : Backprop.Leaf → Nat → Nat → ℝ} {v : Nat}

namespace Qn
variable {S : QSetup}

theorem netOut_copy : ∀ (ls ks : List NetLayer) (n : Nat), ls.map (·.out) = ks.map (·.out) → netOut n ls = netOut n ks := by
  intro ls
  induction ls with
  | nil => intro ks n h; cases ks with
    | nil => rfl
    | cons k ks => simp at h
  | cons l ls ih => intro ks n h; cases ks with
    | nil => simp at h
    | cons k ks =>
      simp only [List.map_cons, List.cons.injEq] at h
      show netOut l.out ls = netOut k.out ks
      rw [h.1]; exact ih ks _ h.2

/-- The expected values. -/
theorem future (hS : S.Fits shp) (γ : ℝ) : ∃ f o, qFuture S.net γ = .ok f ∧ propUp S.net.tgt (.leaf ⟨false, S.net.next⟩) = .ok o ∧
    Typed shp f ∧ dims shp f = (S.B, 1) ∧ IsVec shp f ∧ (∀ a, f ≠ .sum0 a) ∧ (∀ v, v ∉ params S.net.tgt → Free v f) ∧
    (∀ val j, den shp val f j 0 = val ⟨false, S.net.reward⟩ j 0 +
      γ * (maxOf (fun i => feed (netSpec val S.net.tgt) S.n (fun z => val ⟨false, S.net.next⟩ z j) i) S.acts * val ⟨false, S.net.nmask⟩ j 0)) := by
  have tx : Typed shp (.leaf ⟨false, S.net.next⟩) := ⟨S.n, S.B, hS.pos.1, hS.pos.2, .inl hS.next⟩
  have dx : dims shp (.leaf ⟨false, S.net.next⟩) = (S.n, S.B) := by simp only [dims, hS.next, leafSize]
  have tm : Typed shp (.leaf ⟨false, S.net.nmask⟩) := ⟨S.B, 1, hS.pos.2, by decide, .inr ⟨rfl, hS.nmask⟩⟩
  have dm : dims shp (.leaf ⟨false, S.net.nmask⟩) = (S.B, 1) := by simp only [dims, hS.nmask, leafSize]
  have tr : Typed shp (.leaf ⟨false, S.net.reward⟩) := ⟨S.B, 1, hS.pos.2, by decide, .inr ⟨rfl, hS.reward⟩⟩
  have dr : dims shp (.leaf ⟨false, S.net.reward⟩) = (S.B, 1) := by simp only [dims, hS.reward, leafSize]
  obtain ⟨o, p1, p2, p3, p4⟩ := propUp_den (shp := shp) S.net.tgt (.leaf ⟨false, S.net.next⟩) S.n S.B tx dx hS.target
  have hA : netOut S.n S.net.tgt = S.acts := (netOut_copy _ _ _ hS.copy).symm
  rw [hA] at p3
  have hfo : ∀ v, v ∉ params S.net.tgt → Free v o := fun v hv => propUp_free S.net.tgt _ S.n S.B tx (free_ph _) dx hS.target hv o p1
  set X : Term := .bin .mul (.max0 (.un .ident o)) (.leaf ⟨false, S.net.nmask⟩) with hX
  have dX : dims shp (.max0 (.un .ident o)) = dims shp (.leaf ⟨false, S.net.nmask⟩) := by
    rw [dm]; show ((dims shp o).2, 1) = _; rw [p3]
  have tX : Typed shp X := ⟨⟨p2, by simp⟩, .inl tm, .inl dX⟩
  have xX : dims shp X = (S.B, 1) := (dims_bin dX).trans (dX.trans dm)
  have vX : IsVec shp X := ⟨trivial, S.B, hS.nmask⟩
  have fX : ∀ v, v ∉ params S.net.tgt → Free v X := fun v hv => ⟨hfo v hv, free_ph _⟩
  have eX : ∀ val j, den shp val X j 0 = maxOf (fun i => feed (netSpec val S.net.tgt) S.n (fun z => val ⟨false, S.net.next⟩ z j) i) S.acts * val ⟨false, S.net.nmask⟩ j 0 := by
    intro val j
    rw [hX, den_bin dX]
    show maxOf (fun i => den shp val o i j) (dims shp o).1 * _ = _
    rw [p3]
    congr 2
    funext i
    exact p4 val i j
  have hmul : mul (.max0 (unop .ident o)) (.leaf ⟨false, S.net.nmask⟩) = X := by
    rw [unop_nc p2.nc]
    exact mul_nc (shp := shp) (by simp) ⟨p2, by simp⟩ tm
  have hq : qFuture S.net γ = .ok (add (.leaf ⟨false, S.net.reward⟩) (mulL γ X)) := by
    unfold qFuture
    rw [p1, Outcome.ok_bind, hmul]
  have vr : IsVec shp (.leaf ⟨false, S.net.reward⟩) := ⟨S.B, hS.reward⟩
  have hlast : ∀ Y, Typed shp Y → dims shp Y = (S.B, 1) → IsVec shp Y → (∀ v, v ∉ params S.net.tgt → Free v Y) →
      (∀ val j, den shp val Y j 0 = γ * den shp val X j 0) → mulL γ X = Y →
      ∃ f o, qFuture S.net γ = .ok f ∧ propUp S.net.tgt (.leaf ⟨false, S.net.next⟩) = .ok o ∧
        Typed shp f ∧ dims shp f = (S.B, 1) ∧ IsVec shp f ∧ (∀ a, f ≠ .sum0 a) ∧ (∀ v, v ∉ params S.net.tgt → Free v f) ∧
        (∀ val j, den shp val f j 0 = val ⟨false, S.net.reward⟩ j 0 +
          γ * (maxOf (fun i => feed (netSpec val S.net.tgt) S.n (fun z => val ⟨false, S.net.next⟩ z j) i) S.acts * val ⟨false, S.net.nmask⟩ j 0)) := by
    intro Y h1 h2 h3 h4 h5 h6
    refine ⟨.bin .add (.leaf ⟨false, S.net.reward⟩) Y, o, ?_, p1, ⟨tr, .inl h1, .inl (dr.trans h2.symm)⟩, (dims_bin (dr.trans h2.symm)).trans dr, ⟨vr, h3⟩, by simp,
      fun v hv => ⟨free_ph _, h4 v hv⟩, fun val j => ?_⟩
    · rw [hq, h6, add_nc (by simp) h1.nc, node2_typed tr h1]
    · rw [den_bin (dr.trans h2.symm), h5, eX]; rfl
  rw [mulL_nc γ tX.nc] at hlast
  by_cases h0 : 0 = γ
  · refine ⟨.leaf ⟨false, S.net.reward⟩, o, ?_, p1, tr, dr, vr, by simp, fun v _ => free_ph _, fun val j => ?_⟩
    · rw [hq, mulL_nc γ tX.nc, if_pos h0]
      rw [add_const_right 0 (by simp), if_pos rfl]
    · rw [← h0, zero_mul, add_zero]; rfl
  by_cases h1 : 1 = γ
  · exact hlast X tX xX vX fX (fun val j => by rw [← h1, one_mul]) (by rw [if_neg h0, if_pos h1])
  by_cases h2 : -1 = γ
  · refine hlast (.un .neg X) ⟨tX, by simp⟩ xX vX fX (fun val j => by rw [← h2, neg_one_mul]; rfl) (by rw [if_neg h0, if_neg h1, if_pos h2]; rfl)
  · exact hlast (.un (.mulL γ) X) ⟨tX, by simp⟩ xX vX fX (fun val j => rfl) (by rw [if_neg h0, if_neg h1, if_neg h2])

/-- The error node, its parts, and the variables it depends on. -/
theorem error (hS : S.Fits shp) (γ : ℝ) : ∃ o f o', Parts S shp o f ∧ qError S.net γ = .ok (Qn.E S o f) ∧
    propUp S.net.src (.leaf ⟨false, S.net.x⟩) = .ok o ∧ propUp S.net.tgt (.leaf ⟨false, S.net.next⟩) = .ok o' ∧
    (∀ v, v ∉ params S.net.tgt → Free v f) ∧ (∀ v, v ∉ params S.net.src → v ∉ params S.net.tgt → Free v (Qn.E S o f)) ∧
    (∀ val i j, den shp val o i j = feed (netSpec val S.net.src) S.n (fun z => val ⟨false, S.net.x⟩ z j) i) ∧
    (∀ val j, den shp val f j 0 = val ⟨false, S.net.reward⟩ j 0 +
      γ * (maxOf (fun i => feed (netSpec val S.net.tgt) S.n (fun z => val ⟨false, S.net.next⟩ z j) i) S.acts * val ⟨false, S.net.nmask⟩ j 0)) := by
  have tx : Typed shp (.leaf ⟨false, S.net.x⟩) := ⟨S.n, S.B, hS.pos.1, hS.pos.2, .inl hS.states⟩
  have dx : dims shp (.leaf ⟨false, S.net.x⟩) = (S.n, S.B) := by simp only [dims, hS.states, leafSize]
  obtain ⟨o, p1, p2, p3, p4⟩ := propUp_den (shp := shp) S.net.src (.leaf ⟨false, S.net.x⟩) S.n S.B tx dx hS.source
  obtain ⟨f, o', f1, f2, f3, f4, f5, f6, f7, f8⟩ := future hS γ
  have hP : Parts S shp o f := ⟨hS.pos.2, p2, p3, f3, f4, f5, hS.omask⟩
  refine ⟨o, f, o', hP, ?_, p1, f2, f7, fun v hv hv' => ?_, p4, f8⟩
  · unfold qError
    rw [p1, Outcome.ok_bind, f1, Outcome.ok_bind, error_eq hP f6]
  · have hfo := propUp_free S.net.src _ S.n S.B tx (free_ph _) dx hS.source hv o p1
    have : Free v (Qn.P S o f) := ⟨⟨hfo, free_ph _⟩, f7 v hv'⟩
    exact ⟨this, this⟩

/-- Giving a placeholder its data, whether or not it has been given some before. -/
theorem feed_any (env : Env ℝ) (hm : ∀ n, env.fits n = true) (ρ : Backprop.Leaf → Tensor ℝ) (x n B : Nat) (data : List ℝ) (decl : List Nat)
    (hn : 0 < n) (hB : 0 < B) (hx : (shp ⟨false, x⟩ = [n, B] ∧ decl = [n, 0]) ∨ (B = 1 ∧ shp ⟨false, x⟩ = [n] ∧ decl = [0])) (hd : data.length = n * B)
    (hρ : (∃ f, Holds (ρ ⟨false, x⟩) (shp ⟨false, x⟩) f) ∨ ρ ⟨false, x⟩ = Tensor.new env decl) :
    ∃ t, feedLeaf env ρ x data = .ok (put ρ ⟨false, x⟩ t) ∧ Holds t (shp ⟨false, x⟩) (fun c => data.getD (c.getD 0 0 + n * c.getD 1 0) 0) := by
  have hx' : shp ⟨false, x⟩ = [n, B] ∨ (B = 1 ∧ shp ⟨false, x⟩ = [n]) := hx.imp (·.1) (fun h => ⟨h.1, h.2.1⟩)
  have tx : Typed shp (.leaf ⟨false, x⟩) := ⟨n, B, hn, hB, hx'⟩
  have hsz : leafSize (shp ⟨false, x⟩) = (n, B) := by
    rcases hx' with h | ⟨h', h⟩ <;> rw [h] <;> simp [leafSize, *]
  have hfull : Full (shp ⟨false, x⟩) := by
    rcases hx' with h | ⟨h', h⟩ <;> rw [h]
    · exact ⟨by simp, by simp; omega⟩
    · exact ⟨by simp, by simp; omega⟩
  have hpos : 0 < n * B := Nat.mul_pos hn hB
  have hne : data ≠ [] := by rintro rfl; simp at hd; omega
  have hvol : vol (shp ⟨false, x⟩) = n * B := by
    rcases hx' with h | ⟨h', h⟩ <;> rw [h] <;> simp [vol, *]
  have hfin : ∀ s allowed, s = shp ⟨false, x⟩ → Holds ⟨some data, s, allowed⟩ (shp ⟨false, x⟩) (fun c => data.getD (c.getD 0 0 + n * c.getD 1 0) 0) := by
    rintro s allowed rfl
    refine holds_leaf (f := fun i j => data.getD (i + n * j) 0) tx rfl rfl (by rw [hsz]; exact hd) (fun i j hi hj => ?_)
    rw [hsz] at hi hj ⊢
    have hlt : i + n * j < data.length := by
      rw [hd]
      calc i + n * j < n + n * j := by simpa using hi
        _ = n * (j + 1) := by ring
        _ ≤ n * B := Nat.mul_le_mul_left n hj
    simp [hlt]
  rcases hρ with ⟨f, hh⟩ | hnew
  · have hw := holds_wf hh
    obtain ⟨hf, ha, buf, hr, hlen, _⟩ := hh
    obtain ⟨s, _, _, _, h4, h5⟩ := (assign_step env hm ⟨ρ ⟨false, x⟩, true, none⟩ (.inr ⟨buf, hr, hw⟩) data hne).2
      (.inr ⟨shp ⟨false, x⟩, hf, by
        show Refines (shp ⟨false, x⟩) (ρ ⟨false, x⟩).getShape
        rw [Tensor.getShape_of_alloc ((Tensor.isAlloc_iff _).2 ⟨ha ▸ hf, buf, hr⟩), ha]
        exact ⟨rfl, fun i _ => .inr rfl⟩, by rw [hvol, hd]⟩)
    have h6 := h4 buf hr
    exact ⟨_, by unfold feedLeaf; rw [h5]; rfl, hfin _ _ (h6.trans ha)⟩
  · have hnf : ¬Full decl := by
      rcases hx with ⟨_, rfl⟩ | ⟨_, _, rfl⟩ <;> simp [Full]
    have hnew' : ρ ⟨false, x⟩ = ⟨none, [], decl⟩ := by
      rw [hnew]; unfold Tensor.new
      rw [if_neg (by rw [Shape.isFullyDefined_iff]; exact hnf)]
    have hgs : (⟨none, [], decl⟩ : Tensor ℝ).getShape = decl := by simp [Tensor.getShape, Tensor.isAlloc]
    have href : Refines (shp ⟨false, x⟩) decl := by
      rcases hx with ⟨h, rfl⟩ | ⟨_, h, rfl⟩ <;> rw [h]
      · refine ⟨rfl, fun i hi => ?_⟩
        have : i = 0 ∨ i = 1 := by simp at hi; omega
        rcases this with rfl | rfl <;> simp
      · refine ⟨rfl, fun i hi => ?_⟩
        have : i = 0 := by simpa using hi
        subst this; simp
    obtain ⟨s, h1, h2, h3, _, h5⟩ := (assign_step env hm ⟨⟨none, [], decl⟩, false, none⟩ (.inl ⟨decl, rfl, hnf, rfl⟩) data hne).2
      (.inr ⟨shp ⟨false, x⟩, hfull, by rw [hgs]; exact href, by rw [hvol, hd]⟩)
    have h6 : Verif.Leaf.assignPlaceholder env ⟨⟨none, [], decl⟩, true, none⟩ data = .ok ⟨⟨some data, s, decl⟩, true, none⟩ := h5
    refine ⟨⟨some data, s, decl⟩, by unfold feedLeaf; rw [hnew', h6]; rfl, hfin _ _ ?_⟩
    rw [hgs] at h3
    rw [hd] at h2
    rcases hx with ⟨h, rfl⟩ | ⟨hB1, h, rfl⟩
    · have hr := h3 (by simp)
      rw [h]
      match s, hr.1 with
      | [a, b], _ =>
        have ha := hr.2 0 (by simp)
        simp only [List.getD_cons_zero] at ha
        have ha : a = n := by omega
        subst ha
        have : a * b = a * B := by simpa [vol] using h2
        rw [Nat.eq_of_mul_eq_mul_left hn this]
    · have hr := h3 (by simp)
      rw [h]
      match s, hr.1 with
      | [a], _ =>
        have : a = n * B := by simpa [vol] using h2
        rw [this, hB1, Nat.mul_one]

theorem flat_get {α : Type} (g : α → List ℝ) (n : Nat) : ∀ (l : List α), (∀ x ∈ l, (g x).length = n) → ∀ (i j : Nat), i < n → ∀ x, l[j]? = some x →
    (l.flatMap g).getD (i + n * j) 0 = (g x).getD i 0 := by
  intro l
  induction l with
  | nil => intro _ i j _ x h; simp at h
  | cons a l ih =>
    intro hl i j hi x hx
    have ha : (g a).length = n := hl a (by simp)
    rw [List.flatMap_cons]
    cases j with
    | zero =>
      simp only [List.getElem?_cons_zero, Option.some.injEq] at hx
      subst hx
      rw [Nat.mul_zero, Nat.add_zero, List.getD_eq_getElem?_getD, List.getElem?_append_left (by rw [ha]; exact hi), ← List.getD_eq_getElem?_getD]
    | succ j =>
      simp only [List.getElem?_cons_succ] at hx
      rw [List.getD_eq_getElem?_getD, List.getElem?_append_right (by rw [ha, Nat.mul_succ]; omega), ha, ← List.getD_eq_getElem?_getD]
      rw [← ih (fun x hx => hl x (by simp [hx])) i j hi x hx]
      congr 1
      rw [Nat.mul_succ]; omega

theorem flat_len {α : Type} (g : α → List ℝ) (n : Nat) (l : List α) (h : ∀ x ∈ l, (g x).length = n) : (l.flatMap g).length = n * l.length := by
  induction l with
  | nil => rfl
  | cons a l ih =>
    rw [List.flatMap_cons, List.length_append, ih (fun x hx => h x (by simp [hx])), h a (by simp), List.length_cons, Nat.mul_succ, Nat.add_comm]

/-- The leaves after a batch has been entered. -/
noncomputable def entered (S : QSetup) (es : List Exp) (val : Backprop.Leaf → Nat → Nat → ℝ) : Backprop.Leaf → Nat → Nat → ℝ := fun l i j =>
  if l = ⟨false, S.net.x⟩ then (batchOf S.n S.acts es).states.getD (i + S.n * j) 0
  else if l = ⟨false, S.net.omask⟩ then (batchOf S.n S.acts es).actionMask.getD (i + S.acts * j) 0
  else if l = ⟨false, S.net.next⟩ then (batchOf S.n S.acts es).newStates.getD (i + S.n * j) 0
  else if l = ⟨false, S.net.nmask⟩ then (batchOf S.n S.acts es).newStatesMask.getD (i + S.B * j) 0
  else if l = ⟨false, S.net.reward⟩ then (batchOf S.n S.acts es).rewards.getD (i + S.B * j) 0
  else val l i j

theorem acts_pos (hS : S.Fits shp) : 0 < S.acts := netOut_pos S.net.src S.n hS.pos.1 hS.source

structure Lens (S : QSetup) (es : List Exp) : Prop where
  states : (batchOf S.n S.acts es).states.length = S.n * S.B
  omask : (batchOf S.n S.acts es).actionMask.length = S.acts * S.B
  next : (batchOf S.n S.acts es).newStates.length = S.n * S.B
  nmask : (batchOf S.n S.acts es).newStatesMask.length = S.B * 1
  reward : (batchOf S.n S.acts es).rewards.length = S.B * 1

theorem new_len {es : List Exp} (hes : ∀ e ∈ es, S.Legal e) : ∀ e ∈ es, (if e.newObservation = [] then List.replicate S.n (0 : ℝ) else e.newObservation).length = S.n := by
  intro e he
  rcases (hes e he).2.2 with h | h
  · rw [if_pos h]; simp
  · split_ifs
    · simp
    · exact h

theorem lens {es : List Exp} (hlen : es.length = S.B) (hes : ∀ e ∈ es, S.Legal e) : Lens S es := by
  refine ⟨?_, ?_, ?_, ?_, ?_⟩ <;> simp only [batchOf]
  · rw [flat_len _ S.n _ (fun e he => (hes e he).1), hlen]
  · rw [flat_len _ S.acts _ (fun e _ => by simp [oneHot]), hlen]
  · rw [flat_len _ S.n _ (new_len hes), hlen]
  · simp [hlen]
  · simp [hlen]

/-- Entering a batch. -/
theorem feed_all (env : Env ℝ) (hm : ∀ n, env.fits n = true) (hS : S.Fits shp) (ρ : Backprop.Leaf → Tensor ℝ) (hρ : S.Ready env shp ρ val) (es : List Exp)
    (hlen : es.length = S.B) (hes : ∀ e ∈ es, S.Legal e) :
    ∃ ρ', qFeed env S.net (batchOf S.n S.acts es) ρ = .ok ρ' ∧ LeavesHold ρ' shp (entered S es val) := by
  have hA := acts_pos hS
  obtain ⟨l1, l2, l3, l4, l5⟩ := lens hlen hes
  have hnd := hS.other
  simp only [QSetup.inputs, List.nodup_cons, List.mem_cons, List.not_mem_nil, or_false, not_or, not_false_eq_true, true_and, List.nodup_nil, and_true] at hnd
  obtain ⟨⟨x1, x2, x3, x4⟩, ⟨y1, y2, y3⟩, ⟨z1, z2⟩, w1⟩ := hnd
  have ne : ∀ {a b : Nat}, a ≠ b → (⟨false, a⟩ : Backprop.Leaf) ≠ ⟨false, b⟩ := fun h h' => h (by injection h')
  have g1 := hρ.given S.net.x (by simp [QSetup.inputs])
  have g2 := hρ.given S.net.omask (by simp [QSetup.inputs])
  have g3 := hρ.given S.net.next (by simp [QSetup.inputs])
  have g4 := hρ.given S.net.nmask (by simp [QSetup.inputs])
  have g5 := hρ.given S.net.reward (by simp [QSetup.inputs])
  rw [if_neg (by simp [x2, x3]), if_neg x4] at g1
  rw [if_neg (by simp [Ne.symm z2, Ne.symm w1]), if_pos rfl] at g2
  rw [if_neg (by simp [y1, y2]), if_neg y3] at g3
  rw [if_pos (.inl rfl)] at g4
  rw [if_pos (.inr rfl)] at g5
  obtain ⟨t1, f1, h1⟩ := feed_any (shp := shp) env hm ρ S.net.x S.n S.B _ [S.n, 0] hS.pos.1 hS.pos.2 (.inl ⟨hS.states, rfl⟩) l1 g1
  obtain ⟨t2, f2, h2⟩ := feed_any (shp := shp) env hm (put ρ ⟨false, S.net.x⟩ t1) S.net.omask S.acts S.B _ [S.acts, 0] hA hS.pos.2 (.inl ⟨hS.omask, rfl⟩) l2
    (by unfold put; rw [if_neg (ne (Ne.symm x4))]; exact g2)
  obtain ⟨t3, f3, h3⟩ := feed_any (shp := shp) env hm (put (put ρ ⟨false, S.net.x⟩ t1) ⟨false, S.net.omask⟩ t2) S.net.next S.n S.B _ [S.n, 0] hS.pos.1 hS.pos.2 (.inl ⟨hS.next, rfl⟩) l3
    (by unfold put; rw [if_neg (ne y3), if_neg (ne (Ne.symm x1))]; exact g3)
  obtain ⟨t4, f4, h4⟩ := feed_any (shp := shp) env hm (put (put (put ρ ⟨false, S.net.x⟩ t1) ⟨false, S.net.omask⟩ t2) ⟨false, S.net.next⟩ t3) S.net.nmask S.B 1 _ [0] hS.pos.2 (by decide) (.inr ⟨rfl, hS.nmask, rfl⟩) l4
    (by unfold put; rw [if_neg (ne (Ne.symm y1)), if_neg (ne z2), if_neg (ne (Ne.symm x2))]; exact g4)
  obtain ⟨t5, f5, h5⟩ := feed_any (shp := shp) env hm (put (put (put (put ρ ⟨false, S.net.x⟩ t1) ⟨false, S.net.omask⟩ t2) ⟨false, S.net.next⟩ t3) ⟨false, S.net.nmask⟩ t4) S.net.reward S.B 1 _ [0] hS.pos.2 (by decide) (.inr ⟨rfl, hS.reward, rfl⟩) l5
    (by unfold put; rw [if_neg (ne (Ne.symm z1)), if_neg (ne (Ne.symm y2)), if_neg (ne w1), if_neg (ne (Ne.symm x3))]; exact g5)
  refine ⟨_, by unfold qFeed; rw [f1, Outcome.ok_bind, f2, Outcome.ok_bind, f3, Outcome.ok_bind, f4, Outcome.ok_bind, f5], fun l => ?_⟩
  unfold put
  by_cases c1 : l = ⟨false, S.net.x⟩
  · subst c1
    rw [if_neg (ne x3), if_neg (ne x2), if_neg (ne x1), if_neg (ne x4), if_pos rfl]
    simp only [entered, if_true]
    exact h1
  by_cases c2 : l = ⟨false, S.net.omask⟩
  · subst c2
    rw [if_neg (ne (Ne.symm w1)), if_neg (ne (Ne.symm z2)), if_neg (ne (Ne.symm y3)), if_pos rfl]
    simp only [entered, if_true, if_neg c1]
    exact h2
  by_cases c3 : l = ⟨false, S.net.next⟩
  · subst c3
    rw [if_neg (ne y2), if_neg (ne y1), if_pos rfl]
    simp only [entered, if_true, if_neg c1, if_neg c2]
    exact h3
  by_cases c4 : l = ⟨false, S.net.nmask⟩
  · subst c4
    rw [if_neg (ne z1), if_pos rfl]
    simp only [entered, if_true, if_neg c1, if_neg c2, if_neg c3]
    exact h4
  by_cases c5 : l = ⟨false, S.net.reward⟩
  · subst c5
    rw [if_pos rfl]
    simp only [entered, if_true, if_neg c1, if_neg c2, if_neg c3, if_neg c4]
    exact h5
  · rw [if_neg c5, if_neg c4, if_neg c3, if_neg c2, if_neg c1]
    simp only [entered, if_neg c1, if_neg c2, if_neg c3, if_neg c4, if_neg c5]
    exact hρ.holds l (fun x hx => by
      simp only [QSetup.inputs, List.mem_cons, List.not_mem_nil, or_false] at hx
      rcases hx with rfl | rfl | rfl | rfl | rfl <;> assumption)

theorem sum_list (g : Exp → ℝ) : ∀ (es : List Exp) (F : Nat → ℝ), (∀ (j : Nat) e, es[j]? = some e → F j = g e) → ∑ j ∈ range es.length, F j = (es.map g).sum := by
  intro es
  induction es with
  | nil => intro F _; simp
  | cons e es ih =>
    intro F h
    rw [List.length_cons, sum_range_succ', List.map_cons, List.sum_cons, add_comm, h 0 e rfl, ih (fun j => F (j + 1)) (fun j x hx => h (j + 1) x hx)]

/-- The value of the error node is the loss. -/
theorem error_value (hS : S.Fits shp) (γ : ℝ) {o f : Term} (hP : Parts S shp o f)
    (ho : ∀ val i j, den shp val o i j = feed (netSpec val S.net.src) S.n (fun z => val ⟨false, S.net.x⟩ z j) i)
    (hf : ∀ val j, den shp val f j 0 = val ⟨false, S.net.reward⟩ j 0 +
      γ * (maxOf (fun i => feed (netSpec val S.net.tgt) S.n (fun z => val ⟨false, S.net.next⟩ z j) i) S.acts * val ⟨false, S.net.nmask⟩ j 0))
    (es : List Exp) (hlen : es.length = S.B) (hes : ∀ e ∈ es, S.Legal e) (w u : Backprop.Leaf → Nat → Nat → ℝ) (hw : ∀ v, w ⟨true, v⟩ = u ⟨true, v⟩)
    (hph : ∀ x, w ⟨false, x⟩ = entered S es val ⟨false, x⟩) : den shp w (Qn.E S o f) 0 0 = S.loss γ es u := by
  rw [hP.E.2.2, QSetup.loss, hlen]
  congr 1
  have hnd := hS.other
  simp only [QSetup.inputs, List.nodup_cons, List.mem_cons, List.not_mem_nil, or_false, not_or, not_false_eq_true, true_and, List.nodup_nil, and_true] at hnd
  obtain ⟨⟨x1, x2, x3, x4⟩, ⟨y1, y2, y3⟩, ⟨z1, z2⟩, w1⟩ := hnd
  have ne : ∀ {a b : Nat}, a ≠ b → (⟨false, a⟩ : Backprop.Leaf) ≠ ⟨false, b⟩ := fun h h' => h (by injection h')
  have v1 : ∀ i j, w ⟨false, S.net.x⟩ i j = (batchOf S.n S.acts es).states.getD (i + S.n * j) 0 := by
    intro i j; rw [hph]; simp only [entered, if_true]
  have v2 : ∀ i j, w ⟨false, S.net.omask⟩ i j = (batchOf S.n S.acts es).actionMask.getD (i + S.acts * j) 0 := by
    intro i j; rw [hph]; simp only [entered, if_true, if_neg (ne (Ne.symm x4))]
  have v3 : ∀ i j, w ⟨false, S.net.next⟩ i j = (batchOf S.n S.acts es).newStates.getD (i + S.n * j) 0 := by
    intro i j; rw [hph]; simp only [entered, if_true, if_neg (ne (Ne.symm x1)), if_neg (ne y3)]
  have v4 : ∀ i j, w ⟨false, S.net.nmask⟩ i j = (batchOf S.n S.acts es).newStatesMask.getD (i + S.B * j) 0 := by
    intro i j; rw [hph]; simp only [entered, if_true, if_neg (ne (Ne.symm x2)), if_neg (ne z2), if_neg (ne (Ne.symm y1))]
  have v5 : ∀ i j, w ⟨false, S.net.reward⟩ i j = (batchOf S.n S.acts es).rewards.getD (i + S.B * j) 0 := by
    intro i j; rw [hph]; simp only [entered, if_true, if_neg (ne (Ne.symm x3)), if_neg (ne w1), if_neg (ne (Ne.symm y2)), if_neg (ne (Ne.symm z1))]
  rw [← hlen]
  refine sum_list _ es _ (fun j e he => ?_)
  have hmem : e ∈ es := List.mem_of_getElem? he
  obtain ⟨q1, q2, q3⟩ := hes e hmem
  have hA : netOut S.n S.net.tgt = S.acts := (netOut_copy _ _ _ hS.copy).symm
  have hq : ∀ i, i < S.acts → den shp w o i j = feed (netSpec u S.net.src) S.n (fun z => e.observation.getD z 0) i := by
    intro i hi
    rw [ho]
    refine feed_congr S.net.src S.n _ _ hS.source (fun v _ p q _ => by rw [hw]) (fun z hz => ?_) i hi
    rw [v1]
    exact flat_get _ S.n es (fun e he => (hes e he).1) z j hz e he
  have hmask : ∀ i, i < S.acts → w ⟨false, S.net.omask⟩ i j = if i = e.action then 1 else 0 := by
    intro i hi
    rw [v2]
    simp only [batchOf]
    rw [flat_get _ S.acts es (fun e _ => by simp [oneHot]) i j hi e he]
    simp [oneHot, hi]
  have hsum : ∑ i ∈ range S.acts, den shp w (Qn.M S o) i j = feed (netSpec u S.net.src) S.n (fun z => e.observation.getD z 0) e.action := by
    rw [sum_eq_single e.action]
    · rw [hP.M.2.2, hq _ q2, hmask _ q2, if_pos rfl, mul_one]
    · intro i hi hne
      rw [hP.M.2.2, hmask _ (mem_range.1 hi), if_neg hne, mul_zero]
    · intro h; exact absurd (mem_range.2 q2) h
  have hgoal : den shp w f j 0 = S.goal γ u e := by
    rw [hf, v4, v5, QSetup.goal]
    have r1 : (batchOf S.n S.acts es).rewards.getD (j + S.B * 0) 0 = e.reward := by simp [batchOf, he]
    have r2 : (batchOf S.n S.acts es).newStatesMask.getD (j + S.B * 0) 0 = if e.newObservation = [] then 0 else 1 := by simp [batchOf, he]
    rw [r1, r2]
    congr 1
    by_cases hn : e.newObservation = []
    · simp [hn]
    · rw [if_neg hn, if_neg hn, mul_one]
      congr 1
      refine maxOf_congr (fun i hi => ?_)
      refine feed_congr S.net.tgt S.n _ _ hS.target (fun v _ p q _ => by rw [hw]) (fun z hz => ?_) i (by rw [hA]; exact hi)
      rw [v3]
      simp only [batchOf]
      rw [flat_get _ S.n es (new_len hes) z j hz e he, if_neg hn]
  rw [hsum, hgoal]


/-- Updates of the source network. -/
theorem source_all (env : Env ℝ) (hm : ∀ n, env.fits n = true) (hz : env.zero = 0) (on : Bool) (lr : ℝ) (ρ₀ : Backprop.Leaf → Tensor ℝ)
    (hρ : LeavesHold ρ₀ shp val) (e : Term) (G : Nat → Nat → Nat → ℝ) : ∀ (vs : List Nat) (ρ : Backprop.Leaf → Tensor ℝ), vs.Nodup →
    (∀ v ∈ vs, Typed shp (.leaf ⟨true, v⟩) ∧ ∃ d, derive v e = .ok d ∧ (∀ c, d ≠ .const c) ∧
      Is shp val d (leafSize (shp ⟨true, v⟩)).1 (leafSize (shp ⟨true, v⟩)).2 (G v)) →
    (∀ v ∈ vs, ρ ⟨true, v⟩ = ρ₀ ⟨true, v⟩) →
    ∃ ρ', qSource env on lr e ρ₀ vs ρ = .ok ρ' ∧ (∀ l, (∀ v ∈ vs, l ≠ ⟨true, v⟩) → ρ' l = ρ l) ∧
      ∀ v ∈ vs, Holds (ρ' ⟨true, v⟩) (shp ⟨true, v⟩)
        (fun c => val ⟨true, v⟩ (c.getD 0 0) (c.getD 1 0) - lr * (5 / |G v 0 0| * G v (c.getD 0 0) (c.getD 1 0))) := by
  intro vs
  induction vs with
  | nil => intro ρ _ _ _; exact ⟨ρ, rfl, fun _ _ => rfl, fun v hv => absurd hv (by simp)⟩
  | cons v vs ih =>
    intro ρ hnd hd hsame
    obtain ⟨hv, hnd⟩ := List.nodup_cons.1 hnd
    obtain ⟨hty, d, h1, h2, h3⟩ := hd v (by simp)
    have hclip : clipNorm 5 d = .ok (.clipn 5 d) := by
      cases d <;> first | exact absurd rfl (h2 _) | exact if_pos (by norm_num)
    have hpos := typed_pos hty
    have hI : Is shp val (.clipn 5 d) (leafSize (shp ⟨true, v⟩)).1 (leafSize (shp ⟨true, v⟩)).2 (fun p q => 5 / |G v 0 0| * G v p q) := by
      rcases h3 with ⟨c, hc, _⟩ | ⟨q1, q2, q3⟩
      · exact absurd hc (h2 c)
      · refine .inr ⟨q1, q2, fun i j hi hj => ?_⟩
        simp only [den]
        rw [q3 i j hi hj, q3 0 0 hpos.1 hpos.2]
        ring
    obtain ⟨t', h4, h5⟩ := vgb_update env hm hz on lr ρ₀ hρ (.clipn 5 d) _ (by simp) ⟨true, v⟩ hty hI (ρ ⟨true, v⟩) (by rw [hsame v (by simp)]; exact hρ _)
    have hne : ∀ u ∈ vs, (⟨true, u⟩ : Backprop.Leaf) ≠ ⟨true, v⟩ := by
      intro u hu h; injection h with _ h; exact hv (h ▸ hu)
    obtain ⟨ρ', h6, h7, h8⟩ := ih (put ρ ⟨true, v⟩ t') hnd (fun u hu => hd u (by simp [hu])) (fun u hu => by
      unfold put; rw [if_neg (hne u hu)]; exact hsame u (by simp [hu]))
    refine ⟨ρ', ?_, fun l hl => ?_, fun u hu => ?_⟩
    · rw [qSource, qUpdate, h1, Outcome.ok_bind, hclip, Outcome.ok_bind, h4, Outcome.ok_bind, h6]
    · rw [h7 l (fun u hu => hl u (by simp [hu]))]
      unfold put; rw [if_neg (hl v (by simp))]
    · rcases List.mem_cons.1 hu with rfl | hu
      · rw [h7 _ (fun w hw h => by injection h with _ h; exact hv (h ▸ hw))]
        unfold put; rw [if_pos rfl]; exact h5
      · exact h8 u hu

/-- Updates of the target network. -/
theorem target_all (env : Env ℝ) (hm : ∀ n, env.fits n = true) (hz : env.zero = 0) (on : Bool) (α : ℝ) : ∀ (ps : List (Nat × Nat)) (ρ : Backprop.Leaf → Tensor ℝ)
    (val : Backprop.Leaf → Nat → Nat → ℝ), LeavesHold ρ shp val → (ps.map (·.1)).Nodup →
    (∀ p ∈ ps, Typed shp (.leaf ⟨true, p.1⟩) ∧ shp ⟨true, p.2⟩ = shp ⟨true, p.1⟩ ∧ p.2 ∉ ps.map (·.1)) →
    ∃ ρ' val', qTarget env on α ps ρ = .ok ρ' ∧ LeavesHold ρ' shp val' ∧
      (∀ p ∈ ps, ∀ i j, val' ⟨true, p.1⟩ i j = (1 - α) * val ⟨true, p.1⟩ i j + α * val ⟨true, p.2⟩ i j) ∧
      ∀ l, (∀ p ∈ ps, l ≠ ⟨true, p.1⟩) → val' l = val l := by
  intro ps
  induction ps with
  | nil => intro ρ val h _ _; exact ⟨ρ, val, rfl, h, fun p hp => absurd hp (by simp), fun _ _ => rfl⟩
  | cons p ps ih =>
    intro ρ val hρ hnd hp
    obtain ⟨t, s⟩ := p
    obtain ⟨hty, hsh, hnm⟩ := hp (t, s) (by simp)
    simp only [List.map_cons, List.nodup_cons] at hnd
    simp only [List.map_cons, List.mem_cons, not_or] at hnm
    have hne : (⟨true, t⟩ : Backprop.Leaf) ≠ ⟨true, s⟩ := fun h => hnm.1 (by injection h with _ h; exact h.symm)
    have tys : Typed shp (.leaf ⟨true, s⟩) := by
      obtain ⟨a, b, h1, h2, h3⟩ := hty
      exact ⟨a, b, h1, h2, by rw [hsh]; exact h3⟩
    have hd : dims shp (.leaf ⟨true, t⟩) = dims shp (.leaf ⟨true, s⟩) := by simp only [dims, hsh]
    have hsub : sub (.leaf ⟨true, t⟩) (.leaf ⟨true, s⟩) = .bin .sub (.leaf ⟨true, t⟩) (.leaf ⟨true, s⟩) := by
      unfold sub; rw [if_neg (by simpa using hne)]; rfl
    obtain ⟨x, h1, h2⟩ := rbm_update env hm hz on α ρ hρ (.bin .sub (.leaf ⟨true, t⟩) (.leaf ⟨true, s⟩))
      (fun i j => val ⟨true, t⟩ i j - val ⟨true, s⟩ i j) (by simp) ⟨true, t⟩ hty
      (.inr ⟨⟨hty, .inl tys, .inl hd⟩, dims_bin hd, fun i j _ _ => by rw [den_bin hd]; rfl⟩) (ρ ⟨true, t⟩) (hρ _)
    let val₁ : Backprop.Leaf → Nat → Nat → ℝ := fun l i j => if l = ⟨true, t⟩ then val ⟨true, t⟩ i j - α * (val ⟨true, t⟩ i j - val ⟨true, s⟩ i j) else val l i j
    have hρ₁ : LeavesHold (put ρ ⟨true, t⟩ x) shp val₁ := by
      intro l
      unfold put
      by_cases hl : l = ⟨true, t⟩
      · subst hl
        simp only [val₁, if_true]
        exact h2
      · simp only [val₁, if_neg hl]
        exact hρ l
    obtain ⟨ρ', val', a1, a2, a3, a4⟩ := ih (put ρ ⟨true, t⟩ x) val₁ hρ₁ hnd.2 (fun p hp' => by
      obtain ⟨b1, b2, b3⟩ := hp p (by simp [hp'])
      exact ⟨b1, b2, fun h => b3 (by simp only [List.map_cons, List.mem_cons]; exact .inr h)⟩)
    refine ⟨ρ', val', ?_, a2, fun p hp' i j => ?_, fun l hl => ?_⟩
    · rw [qTarget, hsub, h1, Outcome.ok_bind, a1]
    · rcases List.mem_cons.1 hp' with rfl | hp''
      · rw [a4 _ (fun p hp'' h => hnd.1 (by injection h with _ h; exact List.mem_map.2 ⟨p, hp'', h.symm⟩))]
        simp only [val₁, if_true]
        ring
      · rw [a3 p hp'' i j]
        have n1 : (⟨true, p.1⟩ : Backprop.Leaf) ≠ ⟨true, t⟩ := fun h => hnd.1 (by injection h with _ h; exact List.mem_map.2 ⟨p, hp'', h⟩)
        have n2 : (⟨true, p.2⟩ : Backprop.Leaf) ≠ ⟨true, t⟩ := fun h => by
          injection h with _ h
          exact (hp p hp').2.2 (by rw [h]; simp)
        simp only [val₁, if_neg n1, if_neg n2]
    · rw [a4 l (fun p hp'' => hl p (by simp [hp'']))]
      funext i j
      simp only [val₁, if_neg (hl (t, s) (by simp))]

theorem qVars_eq (ls : List NetLayer) : qVars ls = params ls := rfl

theorem params_length (ls : List NetLayer) : (params ls).length = 2 * (ls.map (·.out)).length := by
  induction ls with
  | nil => rfl
  | cons l ls ih =>
    have : params (l :: ls) = l.w :: l.bias :: params ls := by simp [params]
    rw [this]; simp [ih]; omega

theorem zip_fst {α β : Type} : ∀ (l : List α) (k : List β), l.length = k.length → (l.zip k).map (·.1) = l := by
  intro l
  induction l with
  | nil => intro k _; rfl
  | cons a l ih => intro k h; cases k with
    | nil => simp at h
    | cons b k => simp at h; simp [ih k h]

/-- Counterparts have the same shape. -/
theorem zip_shapes : ∀ (ls ks : List NetLayer) (n : Nat), ls.map (·.out) = ks.map (·.out) → NetShapes shp n ls → NetShapes shp n ks →
    ∀ p ∈ (params ks).zip (params ls), shp ⟨true, p.2⟩ = shp ⟨true, p.1⟩ := by
  intro ls
  induction ls with
  | nil => intro ks n h _ _ p hp; cases ks with
    | nil => simp [params] at hp
    | cons k ks => simp at h
  | cons l ls ih => intro ks n h hl hk p hp; cases ks with
    | nil => simp at h
    | cons k ks =>
      simp only [List.map_cons, List.cons.injEq] at h
      have e1 : params (l :: ls) = l.w :: l.bias :: params ls := by simp [params]
      have e2 : params (k :: ks) = k.w :: k.bias :: params ks := by simp [params]
      rw [e1, e2] at hp
      simp only [List.zip_cons_cons, List.mem_cons] at hp
      obtain ⟨_, l2, l3, l4⟩ := hl
      obtain ⟨_, k2, k3, k4⟩ := hk
      rcases hp with rfl | rfl | hp
      · show shp ⟨true, l.w⟩ = shp ⟨true, k.w⟩
        rw [l2, k2, h.1]
      · show shp ⟨true, l.bias⟩ = shp ⟨true, k.bias⟩
        rw [l3, k3, h.1]
      · exact ih ks l.out h.2 l4 (by rw [h.1]; exact k4) p hp

theorem entered_var (es : List Exp) (v : Nat) : entered S es val ⟨true, v⟩ = val ⟨true, v⟩ := by
  funext i j
  unfold entered
  rw [if_neg (by simp), if_neg (by simp), if_neg (by simp), if_neg (by simp), if_neg (by simp)]

/-- The gradient of the error node, after a batch has been entered. -/
theorem gradient (hS : S.Fits shp) (hAB : S.acts ≠ S.B ∨ S.B = 1) (γ : ℝ) {e : Term} (he : qError S.net γ = .ok e) (es : List Exp) (hlen : es.length = S.B)
    (hes : ∀ x ∈ es, S.Legal x) (hv : v ∈ params S.net.src) :
    ∃ d G, derive v e = .ok d ∧ (∀ c, d ≠ .const c) ∧ Is shp (entered S es val) d (leafSize (shp ⟨true, v⟩)).1 (leafSize (shp ⟨true, v⟩)).2 G ∧
      ∀ p q, IsEntry shp v p q → HasDerivAt (fun s => S.loss γ es (setAt val v p q s)) (G p q) (val ⟨true, v⟩ p q) := by
  obtain ⟨o, f, o', hP, h1, h2, h3, h4, _, h6, h7⟩ := error hS γ
  rw [he] at h1; cases h1
  have tx : Typed shp (.leaf ⟨false, S.net.x⟩) := ⟨S.n, S.B, hS.pos.1, hS.pos.2, .inl hS.states⟩
  have dx : dims shp (.leaf ⟨false, S.net.x⟩) = (S.n, S.B) := by simp only [dims, hS.states, leafSize]
  have hnd := List.nodup_append.1 hS.nodup
  obtain ⟨o₂, k, c', gf, q1, q2, q3, q4⟩ := propUp_inv (val := entered S es val) S.net.src (.leaf ⟨false, S.net.x⟩) S.n S.B tx (free_ph _) dx hS.source hnd.1 hv
  rw [h2] at q1; cases q1
  obtain ⟨d, G, d1, d2, d3, d4⟩ := derive_E hP hAB q2 q3 q4 (h4 v (fun hv' => hnd.2.2 v hv v hv' rfl))
  refine ⟨d, G, d1, d2, d3, fun p q hpq => ?_⟩
  have h8 := d4 p q hpq.1 hpq.2
  rw [entered_var] at h8
  refine h8.congr_of_eventuallyEq (Filter.Eventually.of_forall fun s => ?_)
  refine (error_value (val := val) hS γ hP h6 h7 es hlen hes _ _ (fun u => ?_) (fun x => ?_)).symm
  · funext i j; simp only [setAt, entered_var]
  · funext i j; simp [setAt]

/-- The trained variables are the parameters of the source network. -/
theorem trained (hS : S.Fits shp) (γ : ℝ) {e o' : Term} (he : qError S.net γ = .ok e)
    (ho : propUp S.net.tgt (.leaf ⟨false, S.net.next⟩) = .ok o') (v : Nat) : v ∈ params S.net.src ↔ ¬Free v e ∧ Free v o' := by
  obtain ⟨o, f, o₁, hP, h1, h2, h3, h4, h5, h6, h7⟩ := error hS γ
  rw [he] at h1; cases h1
  rw [ho] at h3; cases h3
  have hnd := List.nodup_append.1 hS.nodup
  have tx : Typed shp (.leaf ⟨false, S.net.x⟩) := ⟨S.n, S.B, hS.pos.1, hS.pos.2, .inl hS.states⟩
  have dx : dims shp (.leaf ⟨false, S.net.x⟩) = (S.n, S.B) := by simp only [dims, hS.states, leafSize]
  have ty : Typed shp (.leaf ⟨false, S.net.next⟩) := ⟨S.n, S.B, hS.pos.1, hS.pos.2, .inl hS.next⟩
  have dy : dims shp (.leaf ⟨false, S.net.next⟩) = (S.n, S.B) := by simp only [dims, hS.next, leafSize]
  constructor
  · intro hv
    refine ⟨fun hf => ?_, propUp_free S.net.tgt _ S.n S.B ty (free_ph _) dy hS.target (fun hv' => hnd.2.2 v hv v hv' rfl) o' ho⟩
    obtain ⟨o₂, k, c', gf, q1, q2, q3, q4⟩ := propUp_inv (val := fun _ _ _ => 0) S.net.src (.leaf ⟨false, S.net.x⟩) S.n S.B tx (free_ph _) dx hS.source hnd.1 hv
    rw [h2] at q1; cases q1
    have hfo : Free v o := hf.1.1.1
    have := free_uses.1 hfo
    rw [q3.used] at this; cases this
  · rintro ⟨hf, hf'⟩
    by_contra hv
    by_cases hv' : v ∈ params S.net.tgt
    · obtain ⟨o₂, k, c', gf, q1, q2, q3, q4⟩ := propUp_inv (val := fun _ _ _ => 0) S.net.tgt (.leaf ⟨false, S.net.next⟩) S.n S.B ty (free_ph _) dy hS.target hnd.2.1 hv'
      rw [ho] at q1; cases q1
      have := free_uses.1 hf'
      rw [q3.used] at this; cases this
    · exact hf (h5 v hv hv')

end Qn

/-- The error node holds the loss: the mean over the mini-batch of the squared difference between the score of the action
taken and the reward plus the discounted best score of the target network. -/
theorem c67_error (env : Env ℝ) (hm : ∀ n, env.fits n = true) (on : Bool) (S : QSetup) (hS : S.Fits shp) (γ : ℝ) (ρ : Backprop.Leaf → Tensor ℝ)
    (hρ : S.Ready env shp ρ val) (es : List Exp) (hlen : es.length = S.B) (hes : ∀ e ∈ es, S.Legal e) :
    ∃ b e ρ' t, assemble S.n S.acts es = .ok b ∧ qError S.net γ = .ok e ∧ qFeed env S.net b ρ = .ok ρ' ∧ eval env on ρ' e = .ok t ∧
      Holds t [1] (fun _ => S.loss γ es val) := by
  obtain ⟨o, f, o', hP, h1, _, _, _, _, h6, h7⟩ := Qn.error hS γ
  obtain ⟨ρ', f1, f2⟩ := Qn.feed_all env hm hS ρ hρ es hlen hes
  obtain ⟨t, t1, t2, _, t4⟩ := eval_typedG env hm on ρ' f2 _ false hP.E.1
  obtain ⟨x, hx⟩ := t4 ⟨trivial, trivial⟩
  rw [hP.E.2.1] at t2
  refine ⟨_, _, ρ', t, assemble_eq _ _ es (fun e he => (hes e he).2.1), h1, f1, t1, ?_⟩
  rcases t2 with h | ⟨_, h⟩
  · have := h.shape
    rw [hx] at this; simp at this
  · refine holds_congr h (fun c hc => ?_)
    have h0 : c.getD 0 0 = 0 := by simpa using hc.2 0 (by simp)
    rw [h0]
    exact Qn.error_value (val := val) hS γ hP h6 h7 es hlen hes _ _ (fun v => Qn.entered_var es v) (fun _ => rfl)

/-- The derivative of the error node with respect to a parameter of the source network evaluates to the gradient of the
loss, unless there are as many actions as samples in a mini-batch (and more than one). -/
theorem c67_gradient (env : Env ℝ) (hm : ∀ n, env.fits n = true) (on : Bool) (S : QSetup) (hS : S.Fits shp) (hAB : S.acts ≠ S.B ∨ S.B = 1) (γ : ℝ)
    (ρ : Backprop.Leaf → Tensor ℝ) (hρ : S.Ready env shp ρ val) (es : List Exp) (hlen : es.length = S.B) (hes : ∀ e ∈ es, S.Legal e) (hv : v ∈ params S.net.src) :
    ∃ b e ρ' d t G, assemble S.n S.acts es = .ok b ∧ qError S.net γ = .ok e ∧ qFeed env S.net b ρ = .ok ρ' ∧ derive v e = .ok d ∧ eval env on ρ' d = .ok t ∧
      Batch t (leafSize (shp ⟨true, v⟩)).1 (leafSize (shp ⟨true, v⟩)).2 G ∧
      ∀ p q, IsEntry shp v p q → HasDerivAt (fun s => S.loss γ es (setAt val v p q s)) (G p q) (val ⟨true, v⟩ p q) := by
  obtain ⟨o, f, o', hP, h1, _⟩ := Qn.error hS γ
  obtain ⟨ρ', f1, f2⟩ := Qn.feed_all env hm hS ρ hρ es hlen hes
  obtain ⟨d, G, d1, d2, d3, d4⟩ := Qn.gradient (val := val) hS hAB γ h1 es hlen hes hv
  obtain ⟨t, t1, _, t2⟩ := eval_is env hm on ρ' f2 d3
  exact ⟨_, _, ρ', d, t, G, assemble_eq _ _ es (fun e he => (hes e he).2.1), h1, f1, d1, t1, t2 d2, d4⟩

/-- A training step. -/
theorem c67_train (env : Env ℝ) (hm : ∀ n, env.fits n = true) (hz : env.zero = 0) (on : Bool) (lr γ α : ℝ) (S : QSetup) (hS : S.Fits shp)
    (hAB : S.acts ≠ S.B ∨ S.B = 1) (e o : Term) (he : qError S.net γ = .ok e) (ho : propUp S.net.tgt (.leaf ⟨false, S.net.next⟩) = .ok o)
    (vs : List Nat) (hvs : QTrains vs e o) (ρ : Backprop.Leaf → Tensor ℝ) (val : Backprop.Leaf → Nat → Nat → ℝ) (hρ : S.Ready env shp ρ val)
    (es : List Exp) (hlen : es.length = S.B) (hes : ∀ x ∈ es, S.Legal x) :
    ∃ b ρ' val', assemble S.n S.acts es = .ok b ∧ qTrain env on lr γ α S.net vs b ρ = .ok ρ' ∧ S.Ready env shp ρ' val' ∧
      (S.Stuck γ es val ∨ S.Step shp lr γ α es val val') := by
  have hmem : ∀ v, v ∈ vs ↔ v ∈ params S.net.src := fun v => (hvs.2 v).trans (Qn.trained hS γ he ho v).symm
  obtain ⟨ρ₁, f1, f2⟩ := Qn.feed_all env hm hS ρ hρ es hlen hes
  have hex : ∀ v, ∃ G : Nat → Nat → ℝ, v ∈ params S.net.src → (∃ d, derive v e = .ok d ∧ (∀ c, d ≠ .const c) ∧
      Is shp (Qn.entered S es val) d (leafSize (shp ⟨true, v⟩)).1 (leafSize (shp ⟨true, v⟩)).2 G) ∧
      ∀ p q, IsEntry shp v p q → HasDerivAt (fun s => S.loss γ es (setAt val v p q s)) (G p q) (val ⟨true, v⟩ p q) := by
    intro v
    by_cases hv : v ∈ params S.net.src
    · obtain ⟨d, G, d1, d2, d3, d4⟩ := Qn.gradient (val := val) hS hAB γ he es hlen hes hv
      exact ⟨G, fun _ => ⟨⟨d, d1, d2, d3⟩, d4⟩⟩
    · exact ⟨fun _ _ => 0, fun h => absurd h hv⟩
  choose G hG using hex
  have hty : ∀ v ∈ params S.net.src, Typed shp (.leaf ⟨true, v⟩) := param_typed S.net.src S.n hS.pos.1 hS.source
  obtain ⟨ρ₂, a1, a2, a3⟩ := Qn.source_all env hm hz on lr ρ₁ f2 e G vs ρ₁ hvs.1
    (fun v hv => ⟨hty v ((hmem v).1 hv), (hG v ((hmem v).1 hv)).1⟩) (fun _ _ => rfl)
  let val₂ : Backprop.Leaf → Nat → Nat → ℝ := fun l i j =>
    if l.trainable = true ∧ l.id ∈ vs then Qn.entered S es val l i j - lr * (5 / |G l.id 0 0| * G l.id i j) else Qn.entered S es val l i j
  have hρ₂ : LeavesHold ρ₂ shp val₂ := by
    intro l
    obtain ⟨t, v⟩ := l
    by_cases h : t = true ∧ v ∈ vs
    · obtain ⟨rfl, h⟩ := h
      simpa [val₂, h] using a3 v h
    · rw [a2 ⟨t, v⟩ (fun u hu hx => by injection hx with h4 h5; exact h ⟨h4, h5 ▸ hu⟩)]
      simp only [val₂, if_neg h]
      exact f2 _
  have hnd := List.nodup_append.1 hS.nodup
  have hlens : (params S.net.src).length = (params S.net.tgt).length := by rw [Qn.params_length, Qn.params_length, hS.copy]
  have hfst : ((params S.net.tgt).zip (params S.net.src)).map (·.1) = params S.net.tgt := Qn.zip_fst _ _ hlens.symm
  obtain ⟨ρ₃, val₃, b1, b2, b3, b4⟩ := Qn.target_all env hm hz on α ((params S.net.tgt).zip (params S.net.src)) ρ₂ val₂ hρ₂ (by rw [hfst]; exact hnd.2.1)
    (fun p hp => ⟨param_typed S.net.tgt S.n hS.pos.1 hS.target _ (List.of_mem_zip (a := p.1) (b := p.2) hp).1,
      Qn.zip_shapes S.net.src S.net.tgt S.n hS.copy hS.source hS.target p hp, by
        rw [hfst]
        exact fun h => hnd.2.2 p.2 (List.of_mem_zip (a := p.1) (b := p.2) hp).2 p.2 h rfl⟩)
  have hkeep : ∀ v, v ∉ params S.net.tgt → val₃ ⟨true, v⟩ = val₂ ⟨true, v⟩ := by
    intro v hv
    refine b4 _ (fun p hp h => hv ?_)
    injection h with _ h
    rw [h]; exact (List.of_mem_zip (a := p.1) (b := p.2) hp).1
  have hsrc : ∀ v ∈ params S.net.src, v ∉ params S.net.tgt := fun v hv hv' => hnd.2.2 v hv v hv' rfl
  refine ⟨_, ρ₃, val₃, assemble_eq _ _ es (fun e he => (hes e he).2.1), ?_, ⟨fun l _ => b2 l, fun x _ => .inl ⟨_, b2 _⟩⟩, ?_⟩
  · unfold qTrain
    have : qPairs S.net = .ok ((params S.net.tgt).zip (params S.net.src)) := by
      unfold qPairs
      rw [Qn.qVars_eq, Qn.qVars_eq, hlens]
      simp
    rw [he, Outcome.ok_bind, this, Outcome.ok_bind, f1, Outcome.ok_bind, a1, Outcome.ok_bind, b1]
  · by_cases hst : S.Stuck γ es val
    · exact .inl hst
    · refine .inr ⟨fun v hv => ⟨G v, ?_, fun p q hpq => ⟨(hG v hv).2 p q hpq, ?_⟩⟩, fun ts hts p q _ => ?_, fun v hv hv' => ?_⟩
      · intro h0
        have hp := typed_pos (hty v hv)
        have := (hG v hv).2 0 0 hp
        rw [h0] at this
        exact hst ⟨v, hv, this⟩
      · rw [hkeep v (hsrc v hv)]
        simp only [val₂]
        rw [if_pos ⟨trivial, (hmem v).2 hv⟩, Qn.entered_var]
      · have hm1 := List.of_mem_zip (a := ts.1) (b := ts.2) hts
        rw [b3 ts hts, hkeep ts.2 (hsrc _ hm1.2)]
        congr 2
        simp only [val₂]
        rw [if_neg (fun h => hsrc _ ((hmem _).1 h.2) hm1.1), Qn.entered_var]
      · rw [hkeep v hv']
        funext i j
        simp only [val₂]
        rw [if_neg (fun h => hv ((hmem _).1 h.2)), Qn.entered_var]

/-- Any number of training steps, starting with a new agent or any other. -/
theorem c67_learns (env : Env ℝ) (hm : ∀ n, env.fits n = true) (hz : env.zero = 0) (on : Bool) (lr γ α : ℝ) (S : QSetup) (hS : S.Fits shp)
    (hAB : S.acts ≠ S.B ∨ S.B = 1) (e o : Term) (he : qError S.net γ = .ok e) (ho : propUp S.net.tgt (.leaf ⟨false, S.net.next⟩) = .ok o)
    (vs : List Nat) (hvs : QTrains vs e o) : ∀ (bs : List (List Exp)) (ρ : Backprop.Leaf → Tensor ℝ) (val : Backprop.Leaf → Nat → Nat → ℝ),
    S.Ready env shp ρ val → (∀ es ∈ bs, es.length = S.B ∧ ∀ x ∈ es, S.Legal x) →
    ∃ ds ρ' val', List.Forall₂ (fun es b => assemble S.n S.acts es = .ok b) bs ds ∧ qTrainMany env on lr γ α S.net vs ds ρ = .ok ρ' ∧
      S.Ready env shp ρ' val' ∧ S.Learns shp lr γ α bs val val' := by
  intro bs
  induction bs with
  | nil => intro ρ val h _; exact ⟨[], ρ, val, .nil, rfl, h, .nil⟩
  | cons es bs ih =>
    intro ρ val h hb
    obtain ⟨b, ρ₁, val₁, h1, h2, h3, h4⟩ := c67_train env hm hz on lr γ α S hS hAB e o he ho vs hvs ρ val h es (hb es (by simp)).1 (hb es (by simp)).2
    obtain ⟨ds, ρ₂, val₂, h5, h6, h7, h8⟩ := ih ρ₁ val₁ h3 (fun x hx => hb x (by simp [hx]))
    refine ⟨b :: ds, ρ₂, val₂, .cons h1 h5, by rw [qTrainMany, h2, Outcome.ok_bind, h6], h7, ?_⟩
    rcases h4 with h4 | h4
    · exact .stuck h4
    · exact .cons h4 h8

namespace Qn
variable {S : QSetup}

/-- The gradient of the error node cannot be evaluated when there are as many actions as samples. -/
theorem square (hS : S.Fits shp) (hA : S.acts = S.B) (hB : 1 < S.B) (γ : ℝ) {e : Term} (he : qError S.net γ = .ok e)
    (env : Env ℝ) (hm : ∀ n, env.fits n = true) (on : Bool) (ρ : Backprop.Leaf → Tensor ℝ) (hρ : LeavesHold ρ shp val) (hv : v ∈ params S.net.src) :
    ∃ d, derive v e = .ok d ∧ (∀ c, d ≠ .const c) ∧ eval env on ρ d = .ub := by
  obtain ⟨o, f, o', hP, h1, h2, h3, h4, _, h6, h7⟩ := error hS γ
  rw [he] at h1; cases h1
  have tx : Typed shp (.leaf ⟨false, S.net.x⟩) := ⟨S.n, S.B, hS.pos.1, hS.pos.2, .inl hS.states⟩
  have dx : dims shp (.leaf ⟨false, S.net.x⟩) = (S.n, S.B) := by simp only [dims, hS.states, leafSize]
  have hnd := List.nodup_append.1 hS.nodup
  obtain ⟨o₂, k, c', gf, q1, q2, q3, q4⟩ := propUp_inv (val := val) S.net.src (.leaf ⟨false, S.net.x⟩) S.n S.B tx (free_ph _) dx hS.source hnd.1 hv
  rw [h2] at q1; cases q1
  have hf : Free v f := h4 v (fun hv' => hnd.2.2 v hv v hv' rfl)
  obtain ⟨gf', gM, i2, hg, hnc⟩ := mask_inv hP q3 q4
  obtain ⟨e1, e2⟩ := info_E hP i2 hg hf
  obtain ⟨g', hg', hI⟩ := i2.grad
  rw [hg] at hg'; cases hg'
  obtain ⟨m1, m2, _⟩ := hP.M
  rw [m2] at hI
  rcases hI with ⟨c, hc, _⟩ | ⟨g1, g2, g3⟩
  · exact absurd hc (hnc c)
  obtain ⟨t1, t2, t3, _⟩ := hP.td
  obtain ⟨a, a1, a2, _⟩ := eval_typedG env hm on ρ hρ (.un (.mulL 2) (.grp 0 gM)) true ⟨⟨g1, rfl⟩, by simp⟩
  obtain ⟨b, b1, b2, _, b4⟩ := eval_typedG env hm on ρ hρ (td S o f) false t1
  obtain ⟨w, hw⟩ := b4 t3
  have gd : dims shp (.un (.mulL 2) (.grp 0 gM)) = (S.acts, S.B) := g2
  rw [gd, hA] at a2
  rw [t2] at b2
  have hgP : eval env on ρ (gP S o f gM) = .ub := by
    unfold gP
    rw [eval, a1, Outcome.ok_bind, b1, Outcome.ok_bind]
    rcases a2 with a2 | ⟨h, _⟩
    · rcases b2 with b2 | ⟨_, b2⟩
      · have := b2.shape
        rw [hw] at this; simp at this
      · exact c54_square_ub env Expr.K2.mul.fn false b a S.B [] _ _ hB b2 a2 (hm _)
    · omega
  have hR : eval env on ρ (R S o f gM) = .ub := by
    have h2 : eval env on ρ (.bin .mul (gP S o f gM) (.nelems (P S o f))) = .ub := by rw [eval, hgP]; rfl
    unfold R
    rw [eval, h2]; rfl
  obtain ⟨d, d1, d2, d3⟩ := q2.bad env on ρ hm hρ (R S o f gM) (by intro c; simp [R]) hR
  refine ⟨d, ?_, d2, d3⟩
  unfold derive Info.derive
  rw [e1, Outcome.ok_bind, e2, d1]

theorem feed_last (ls : List (LayerSpec ℝ)) (l : LayerSpec ℝ) : ∀ (n : Nat) (x : Nat → ℝ) (i : Nat),
    feed (ls ++ [l]) n x i = l.act ((∑ z ∈ range (width ls n), feed ls n x z * l.w i z) + l.bias i) := by
  induction ls with
  | nil => intro n x i; rfl
  | cons k ks ih => intro n x i; exact ih k.out _ i

theorem setAt_other {u : Nat} (h : u ≠ v) (p q : Nat) (s : ℝ) : setAt val v p q s ⟨true, u⟩ = val ⟨true, u⟩ := by
  funext i j
  unfold setAt
  rw [if_neg (fun hh => h (by have := hh.1; injection this))]

/-- The score of an action other than the first does not depend on the first bias of the last layer. -/
theorem feed_bias (ls : List NetLayer) (l : NetLayer) (hnd : (params (ls ++ [l])).Nodup) (s : ℝ) (n : Nat) (x : Nat → ℝ) (i : Nat) (hi : i ≠ 0) :
    feed (netSpec (setAt val l.bias 0 0 s) (ls ++ [l])) n x i = feed (netSpec val (ls ++ [l])) n x i := by
  have hp : params (ls ++ [l]) = params ls ++ [l.w, l.bias] := by simp [params]
  rw [hp] at hnd
  obtain ⟨_, h2, h3⟩ := List.nodup_append.1 hnd
  have hw : l.w ≠ l.bias := by simpa using h2
  have hls : netSpec (setAt val l.bias 0 0 s) ls = netSpec val ls := by
    unfold netSpec
    refine List.map_congr_left (fun k hk => ?_)
    have k1 : k.w ≠ l.bias := h3 _ (by unfold params; exact List.mem_flatMap.2 ⟨k, hk, by simp⟩) _ (by simp)
    have k2 : k.bias ≠ l.bias := h3 _ (by unfold params; exact List.mem_flatMap.2 ⟨k, hk, by simp⟩) _ (by simp)
    rw [setAt_other k1, setAt_other k2]
  have e : ∀ val : Backprop.Leaf → Nat → Nat → ℝ, netSpec val (ls ++ [l]) = netSpec val ls ++ [⟨l.out, val ⟨true, l.w⟩, fun i => val ⟨true, l.bias⟩ i 0, actFn l.act⟩] := by
    intro val; simp [netSpec]
  rw [e, e, feed_last, feed_last, hls]
  simp [setAt, hw, hi]

end Qn

/-- With as many actions as samples in a mini-batch, and more than one, training reads out of bounds. -/
theorem c67_square_ub (env : Env ℝ) (hm : ∀ n, env.fits n = true) (on : Bool) (lr γ α : ℝ) (hlr : lr ≠ 0) (S : QSetup) (hS : S.Fits shp)
    (hA : S.acts = S.B) (hB : 1 < S.B) (hne : S.net.src ≠ []) (e o : Term) (he : qError S.net γ = .ok e)
    (ho : propUp S.net.tgt (.leaf ⟨false, S.net.next⟩) = .ok o) (vs : List Nat) (hvs : QTrains vs e o) (ρ : Backprop.Leaf → Tensor ℝ) (hρ : S.Ready env shp ρ val)
    (es : List Exp) (hlen : es.length = S.B) (hes : ∀ x ∈ es, S.Legal x) :
    ∃ b, assemble S.n S.acts es = .ok b ∧ qTrain env on lr γ α S.net vs b ρ = .ub := by
  have hmem : ∀ v, v ∈ vs ↔ v ∈ params S.net.src := fun v => (hvs.2 v).trans (Qn.trained hS γ he ho v).symm
  obtain ⟨ρ₁, f1, f2⟩ := Qn.feed_all env hm hS ρ hρ es hlen hes
  refine ⟨_, assemble_eq _ _ es (fun e he => (hes e he).2.1), ?_⟩
  have hlens : (params S.net.src).length = (params S.net.tgt).length := by rw [Qn.params_length, Qn.params_length, hS.copy]
  have hp : qPairs S.net = .ok ((params S.net.tgt).zip (params S.net.src)) := by
    unfold qPairs
    rw [Qn.qVars_eq, Qn.qVars_eq, hlens]
    simp
  obtain ⟨v, us, rfl⟩ : ∃ v us, vs = v :: us := by
    cases vs with
    | cons v us => exact ⟨v, us, rfl⟩
    | nil =>
      obtain ⟨l, ls, hl⟩ := List.exists_cons_of_ne_nil hne
      have := (hmem l.w).2 (by rw [hl]; simp [params])
      simp at this
  obtain ⟨d, d1, d2, d3⟩ := Qn.square hS hA hB γ he env hm on ρ₁ f2 ((hmem v).1 (by simp))
  have hclip : clipNorm 5 d = .ok (.clipn 5 d) := by
    cases d <;> first | exact absurd rfl (d2 _) | exact if_pos (by norm_num)
  have hev : eval env on ρ₁ (.clipn 5 d) = .ub := by rw [eval, d3]; rfl
  have hst : stepArg env on ρ₁ (mulR (.clipn 5 d) lr) = .ub := by
    rw [mulR_nc lr (by simp), if_neg (Ne.symm hlr)]
    by_cases h1 : 1 = lr
    · rw [if_pos h1]
      show (eval env on ρ₁ (.clipn 5 d) >>= _) = _
      rw [hev]; rfl
    · rw [if_neg h1]
      by_cases h2 : -1 = lr
      · rw [if_pos h2]
        show (eval env on ρ₁ (.un .neg (.clipn 5 d)) >>= _) = _
        rw [eval, hev]; rfl
      · rw [if_neg h2]
        show (eval env on ρ₁ (.un (.mulR lr) (.clipn 5 d)) >>= _) = _
        rw [eval, hev]; rfl
  unfold qTrain
  rw [he, Outcome.ok_bind, hp, Outcome.ok_bind, f1, Outcome.ok_bind, qSource, qUpdate, d1, Outcome.ok_bind, hclip, Outcome.ok_bind, vgbUpdate, hst]
  rfl

/-- A mini-batch in which no sample took the first action leaves a parameter stuck … -/
theorem c67_stuck (S : QSetup) (hS : S.Fits shp) (hne : S.net.src ≠ []) (γ : ℝ) (es : List Exp) (h0 : ∀ e ∈ es, e.action ≠ 0) : S.Stuck γ es val := by
  obtain ⟨ls, l, hl⟩ : ∃ ls l, S.net.src = ls ++ [l] := ⟨_, _, (List.dropLast_append_getLast hne).symm⟩
  have hnd := List.nodup_append.1 hS.nodup
  have hb : l.bias ∈ params S.net.src := by rw [hl]; unfold params; exact List.mem_flatMap.2 ⟨l, by simp, by simp⟩
  refine ⟨l.bias, hb, ?_⟩
  have : (fun s => S.loss γ es (setAt val l.bias 0 0 s)) = fun _ => S.loss γ es val := by
    funext s
    unfold QSetup.loss
    congr 2
    refine List.map_congr_left (fun e he => ?_)
    congr 2
    · rw [hl] at hnd ⊢
      exact Qn.feed_bias ls l hnd.1 s S.n _ _ (h0 e he)
    · unfold QSetup.goal
      have : netSpec (setAt val l.bias 0 0 s) S.net.tgt = netSpec val S.net.tgt := by
        unfold netSpec
        refine List.map_congr_left (fun k hk => ?_)
        have k1 : k.w ≠ l.bias := fun h => hnd.2.2 _ hb _ (by unfold params; exact List.mem_flatMap.2 ⟨k, hk, by simp⟩) h.symm
        have k2 : k.bias ≠ l.bias := fun h => hnd.2.2 _ hb _ (by unfold params; exact List.mem_flatMap.2 ⟨k, hk, by simp⟩) h.symm
        rw [Qn.setAt_other k1, Qn.setAt_other k2]
      rw [this]
  rw [this]
  exact hasDerivAt_const _ _


/-- … and then the norm its gradient is divided by is zero. -/
theorem c67_division (env : Env ℝ) (hm : ∀ n, env.fits n = true) (on : Bool) (S : QSetup) (hS : S.Fits shp) (hAB : S.acts ≠ S.B ∨ S.B = 1) (γ : ℝ)
    (ρ : Backprop.Leaf → Tensor ℝ) (hρ : S.Ready env shp ρ val) (es : List Exp) (hlen : es.length = S.B) (hes : ∀ e ∈ es, S.Legal e) :
    S.Stuck γ es val ↔ ∃ v ∈ params S.net.src, ∃ b e ρ' d t, assemble S.n S.acts es = .ok b ∧ qError S.net γ = .ok e ∧ qFeed env S.net b ρ = .ok ρ' ∧
      derive v e = .ok d ∧ eval env on ρ' (l2norm d) = .ok t ∧ Holds t [1] (fun _ => 0) := by
  obtain ⟨o, f, o', hP, h1, _⟩ := Qn.error hS γ
  obtain ⟨ρ', f1, f2⟩ := Qn.feed_all env hm hS ρ hρ es hlen hes
  have key : ∀ v ∈ params S.net.src, ∃ d t G, derive v (Qn.E S o f) = .ok d ∧ eval env on ρ' (l2norm d) = .ok t ∧ Holds t [1] (fun _ => |G|) ∧
      HasDerivAt (fun s => S.loss γ es (setAt val v 0 0 s)) G (val ⟨true, v⟩ 0 0) := by
    intro v hv
    obtain ⟨d, G, d1, d2, d3, d4⟩ := Qn.gradient (val := val) hS hAB γ h1 es hlen hes hv
    have hpos := typed_pos (param_typed S.net.src S.n hS.pos.1 hS.source v hv)
    have hn : l2norm d = .l2 d := by cases d <;> first | rfl | exact absurd rfl (d2 _)
    rcases d3 with ⟨c, hc, _⟩ | ⟨q1, q2, q3⟩
    · exact absurd hc (d2 c)
    obtain ⟨t, t1, t2, _, t4⟩ := eval_typedG env hm on ρ' f2 (.l2 d) false q1
    obtain ⟨x, hx⟩ := t4 trivial
    refine ⟨d, t, G 0 0, d1, by rw [hn]; exact t1, ?_, d4 0 0 hpos⟩
    rcases t2 with h | ⟨_, h⟩
    · have := h.shape
      rw [hx] at this; simp [dims] at this
    · refine holds_congr h (fun c hc => ?_)
      show |den shp _ d 0 0| = _
      rw [q3 0 0 hpos.1 hpos.2]
  constructor
  · rintro ⟨v, hv, h0⟩
    obtain ⟨d, t, G, k1, k2, k3, k4⟩ := key v hv
    have : G = 0 := k4.unique h0
    subst this
    rw [abs_zero] at k3
    exact ⟨v, hv, _, _, ρ', d, t, assemble_eq _ _ es (fun e he => (hes e he).2.1), h1, f1, k1, k2, k3⟩
  · rintro ⟨v, hv, b, e, ρ'', d, t, c1, c2, c3, c4, c5, c6⟩
    rw [assemble_eq _ _ es (fun e he => (hes e he).2.1)] at c1; cases c1
    rw [h1] at c2; cases c2
    rw [f1] at c3; cases c3
    obtain ⟨d', t', G, k1, k2, k3, k4⟩ := key v hv
    rw [c4] at k1; cases k1
    rw [c5] at k2; cases k2
    obtain ⟨x, x1, _, x2⟩ := k3.data
    obtain ⟨y, y1, _, y2⟩ := c6.data
    rw [x1] at y1; cases y1
    have hin : InRange [1] [0] := ⟨rfl, fun i hi => by simp at hi; subst hi; simp⟩
    have := (x2 [0] hin).symm.trans (y2 [0] hin)
    have : |G| = 0 := by injection this
    rw [abs_eq_zero.1 this] at k4
    exact ⟨v, hv, k4⟩

/-- An agent with three actions, observations of length two, a hidden layer and mini-batches of `B` samples. -/
def qExample (B : Nat) : QSetup :=
  ⟨⟨[⟨0, 1, 4, .tanh⟩, ⟨2, 3, 3, .identity⟩], [⟨4, 5, 4, .tanh⟩, ⟨6, 7, 3, .identity⟩], 0, 1, 2, 3, 4⟩, 2, B⟩

/-- The shapes of its leaves. -/
def qExampleShapes (B : Nat) (l : Backprop.Leaf) : List Nat :=
  if l.trainable then [[4, 2], [4], [3, 4], [3], [4, 2], [4], [3, 4], [3]].getD l.id [1]
  else [[2, B], [2, B], [B], [B], [3, B]].getD l.id [1]

theorem qExample_fits (B : Nat) (hB : 0 < B) : (qExample B).Fits (qExampleShapes B) :=
  ⟨⟨Nat.two_pos, hB⟩, rfl, rfl, rfl, rfl, rfl, (by decide : List.Nodup [0, 1, 2, 3, 4]), ⟨by decide, rfl, rfl, by decide, rfl, rfl, trivial⟩, ⟨by decide, rfl, rfl, by decide, rfl, rfl, trivial⟩,
    rfl, (by decide : List.Nodup [0, 1, 2, 3, 4, 5, 6, 7])⟩

theorem qExample_ready (env : Env ℝ) (B : Nat) (hB : 0 < B) : ∃ ρ val, (qExample B).Ready env (qExampleShapes B) ρ val := by
  have hs : ∀ l, Full (qExampleShapes B l) := by
    rintro ⟨t, i⟩
    have hall : ∀ (L : List (List Nat)), (∀ s ∈ L, Full s) → Full (L.getD i [1]) := by
      intro L hL
      rw [List.getD_eq_getElem?_getD]
      cases h : L[i]? with
      | none => exact ⟨by simp, by simp⟩
      | some s => exact hL s (List.mem_of_getElem? h)
    unfold qExampleShapes
    split_ifs
    · exact hall _ (by simp [Full])
    · exact hall _ (by simp [Full]; omega)
  choose ρ hρ using fun l => full_tensor (qExampleShapes B l) (hs l) (fun c => (c.getD 0 0 : ℝ) + 2 * c.getD 1 0)
  let ρ' : Backprop.Leaf → Tensor ℝ := fun l => if l = ⟨false, 0⟩ then Tensor.new env [2, 0] else ρ l
  refine ⟨ρ', fun _ i j => (i : ℝ) + 2 * j, fun l hl => ?_, fun x hx => ?_⟩
  · have : l ≠ ⟨false, 0⟩ := hl 0 (by simp [QSetup.inputs, qExample])
    simp only [ρ', if_neg this]
    exact hρ l
  · by_cases h : x = 0
    · subst h
      right
      simp only [ρ', if_true]
      rw [if_neg (by simp [qExample]), if_neg (by simp [qExample])]
      rfl
    · left
      have : (⟨false, x⟩ : Backprop.Leaf) ≠ ⟨false, 0⟩ := fun hh => h (by injection hh)
      simp only [ρ', if_neg this]
      exact ⟨_, hρ _⟩

/-- The hypotheses of `c67_error`, `c67_gradient`, `c67_train` and `c67_division` can be met, with a placeholder that has
not been given anything yet; the trained variables may be in any order. -/
example (env : Env ℝ) (γ : ℝ) : ∃ (S : QSetup) (shp : Backprop.Leaf → List Nat) (ρ : Backprop.Leaf → Tensor ℝ) (val : Backprop.Leaf → Nat → Nat → ℝ) (e o : Term)
    (vs : List Nat) (es : List Exp), S.Fits shp ∧ S.Ready env shp ρ val ∧ (S.acts ≠ S.B ∨ S.B = 1) ∧ qError S.net γ = .ok e ∧
    propUp S.net.tgt (.leaf ⟨false, S.net.next⟩) = .ok o ∧ QTrains vs e o ∧ vs.length = 4 ∧ es.length = S.B ∧ S.B = 2 ∧ ∀ x ∈ es, S.Legal x := by
  have hS := qExample_fits 2 (by decide)
  obtain ⟨ρ, val, hρ⟩ := qExample_ready env 2 (by decide)
  obtain ⟨o, f, o', _, h1, _, h3, _⟩ := Qn.error hS γ
  refine ⟨qExample 2, qExampleShapes 2, ρ, val, _, o', [2, 3, 1, 0], [⟨[1, 2], 0, 1, [3, 4]⟩, ⟨[1, 2], 2, -1, []⟩], hS, hρ, .inl (by decide), h1, h3,
    ⟨by decide, fun v => ?_⟩, rfl, rfl, rfl, ?_⟩
  · rw [← Qn.trained hS γ h1 h3]
    show v ∈ [2, 3, 1, 0] ↔ v ∈ [0, 1, 2, 3]
    simp only [List.mem_cons, List.not_mem_nil, or_false]
    omega
  · intro x hx
    simp only [List.mem_cons, List.not_mem_nil, or_false] at hx
    rcases hx with rfl | rfl
    · exact ⟨rfl, by decide, .inr rfl⟩
    · exact ⟨rfl, by decide, .inl rfl⟩

/-- Three actions and mini-batches of three for `c67_square_ub`, and for `c67_stuck` a batch in which every sample took
the last action. -/
example (env : Env ℝ) : (qExample 3).acts = (qExample 3).B ∧ 1 < (qExample 3).B ∧ (qExample 3).net.src ≠ [] ∧ (qExample 3).Fits (qExampleShapes 3) ∧
    (∃ ρ val, (qExample 3).Ready env (qExampleShapes 3) ρ val) ∧ (∀ x ∈ List.replicate 3 (⟨[1, 2], 2, -1, []⟩ : Exp), (qExample 3).Legal x ∧ x.action ≠ 0) := by
  refine ⟨rfl, by decide, by simp [qExample], qExample_fits 3 (by decide), qExample_ready env 3 (by decide), fun x hx => ?_⟩
  rw [List.eq_of_mem_replicate hx]
  exact ⟨⟨rfl, by decide, .inl rfl⟩, by decide⟩

/-- A mini-batch that leaves nothing stuck: one unit that computes `x * w + b` with all values one, and a reward of zero. -/
example : ∃ (S : QSetup) (shp : Backprop.Leaf → List Nat) (val : Backprop.Leaf → Nat → Nat → ℝ) (es : List Exp), S.Fits shp ∧ S.net.src ≠ [] ∧
    es.length = S.B ∧ (∀ x ∈ es, S.Legal x) ∧ ¬S.Stuck 0 es val := by
  let shp : Backprop.Leaf → List Nat := fun l => if l = ⟨true, 1⟩ ∨ l = ⟨true, 3⟩ ∨ l = ⟨false, 2⟩ ∨ l = ⟨false, 3⟩ then [1] else [1, 1]
  refine ⟨⟨⟨[⟨0, 1, 1, .identity⟩], [⟨2, 3, 1, .identity⟩], 0, 1, 2, 3, 4⟩, 1, 1⟩, shp, fun _ _ _ => 1, [⟨[1], 0, 0, []⟩],
    ⟨⟨by decide, by decide⟩, rfl, rfl, rfl, rfl, rfl, (by decide : List.Nodup [0, 1, 2, 3, 4]), ⟨by decide, rfl, rfl, trivial⟩, ⟨by decide, rfl, rfl, trivial⟩, rfl, (by decide : List.Nodup [0, 1, 2, 3])⟩,
    by simp, rfl, fun x hx => ?_, fun h => ?_⟩
  · rw [List.mem_singleton.1 hx]
    exact ⟨rfl, by decide, .inl rfl⟩
  · obtain ⟨v, hv, h⟩ := h
    have hq : HasDerivAt (fun s : ℝ => (s + 1) ^ 2) 4 1 := by
      have := ((hasDerivAt_id (1 : ℝ)).add_const 1).fun_pow 2
      refine this.congr_deriv ?_
      norm_num
    have hv : v = 0 ∨ v = 1 := by simpa [params] using hv
    have e : (fun s => QSetup.loss ⟨⟨[⟨0, 1, 1, .identity⟩], [⟨2, 3, 1, .identity⟩], 0, 1, 2, 3, 4⟩, 1, 1⟩ 0 [⟨[1], 0, 0, []⟩] (setAt (fun _ _ _ => (1 : ℝ)) v 0 0 s)) =
        fun s : ℝ => (s + 1) ^ 2 := by
      funext s
      rcases hv with rfl | rfl
      · simp [QSetup.loss, QSetup.goal, netSpec, feed, actFn, setAt]
      · simp [QSetup.loss, QSetup.goal, netSpec, feed, actFn, setAt, add_comm]
    rw [e] at h
    exact four_ne_zero (hq.unique h)

end Verif.Props
