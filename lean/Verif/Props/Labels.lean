import Verif.Props.Nets
import Verif.Props.IO
/-!
# C62: names of parameters

The label of every parameter of a network, new or copied, as a function of the network's scope and the position of
the parameter; no two parameters of one perceptron have the same label.  Also the remaining owners of C52.
-/
namespace Verif.Props
open Verif.Spec Verif.Tensor Verif.Nets Verif.Leaf

variable {T : Type}

/-- The label of the variable at an address. -/
def labelAt (m : Mem T) (x : Nat) : Option (List Char) := (m.at_ x).map Var.label

/-- `decimal n`: the decimal digits of `n`. -/
def decimal (n : Nat) : List Char := Nat.toDigits 10 n

theorem decimal_inj {i j : Nat} (h : decimal i = decimal j) : i = j := by
  have := congrArg (fun l => Nat.ofDigitChars 10 l 0) h
  simpa [decimal, Nat.ofDigitChars_ten_toDigits] using this

/-- The labels of a perceptron of `n` layers with one input each, whose layers have the given prefix. -/
def layerLabels (pre : List Char) (n : Nat) : List (List Char) :=
  (List.range n).flatMap fun i => [pre ++ decimal i ++ "_weights_0".toList, pre ++ decimal i ++ "_bias_0".toList]

theorem weights_bias_ne (p q : List Char) : p ++ "_weights_0".toList ≠ q ++ "_bias_0".toList := by
  intro h
  have := congrArg List.reverse h
  simp at this

theorem layerLabels_nodup (pre : List Char) (n : Nat) : (layerLabels pre n).Nodup := by
  unfold layerLabels
  rw [List.nodup_flatMap]
  refine ⟨fun i _ => ?_, ?_⟩
  · simp only [List.nodup_cons, List.mem_singleton, List.not_mem_nil, not_false_eq_true, List.nodup_nil, and_true]
    exact weights_bias_ne _ _
  · apply List.Pairwise.imp _ (List.nodup_range (n := n))
    intro i j hij x hx hy
    simp only [List.mem_cons, List.not_mem_nil, or_false] at hx hy
    rcases hx with rfl | rfl <;> rcases hy with hy | hy
    · exact hij (decimal_inj (List.append_cancel_left (List.append_cancel_right hy)))
    · exact weights_bias_ne _ _ hy
    · exact weights_bias_ne _ _ hy.symm
    · exact hij (decimal_inj (List.append_cancel_left (List.append_cancel_right hy)))

theorem cloneVar_label {e : Env T} {x y : Nat} {lab : Option (List Char)} {m m' : Mem T} (h : cloneVar e x lab m = .ok (y, m')) :
    m'.next = m.next + 1 ∧ (∀ z, z < m.next → m'.at_ z = m.at_ z) ∧ y < m'.next ∧ labelAt m' y = if lab = none then labelAt m x else lab := by
  obtain ⟨v, h1, h⟩ := Outcome.bind_eq_ok.mp h
  obtain ⟨l, _, h⟩ := Outcome.bind_eq_ok.mp h
  have hv : m.at_ x = some v := by
    simp only [Mem.deref] at h1
    split at h1
    · injection h1 with h1; subst h1; assumption
    · cases h1
  injection h with h
  injection h with h2 h3
  subst h2 h3
  refine ⟨rfl, fun z hz => by simp only [Mem.alloc]; rw [if_neg (by omega)], by simp [Mem.alloc], ?_⟩
  cases lab <;> simp [labelAt, Mem.alloc, hv]

/-- The labels of the pairs of a copied layer. -/
theorem fcCopyFrom_label {e : Env T} {scope : List Char} (ps : List (Nat × Nat)) : ∀ (i : Nat) (m m' : Mem T) (qs : List (Nat × Nat)),
    fcCopyFrom e scope i ps m = .ok (qs, m') → m.next ≤ m'.next ∧ (∀ z, z < m.next → m'.at_ z = m.at_ z) ∧
      (∀ z ∈ qs.flatMap (fun p => [p.1, p.2]), z < m'.next) ∧
      (qs.flatMap fun p => [p.1, p.2]).map (labelAt m') = (List.range' i ps.length).flatMap fun k => [some (weightLabel scope k), some (biasLabel scope k)] := by
  induction ps with
  | nil =>
    intro i m m' qs h
    injection h with h; injection h with h1 h2; subst h1 h2
    exact ⟨Nat.le_refl _, fun _ _ => rfl, (by simp), rfl⟩
  | cons p ps ih =>
    intro i m m' qs h
    obtain ⟨w, h1, h⟩ := Outcome.bind_eq_ok.mp h
    obtain ⟨b, h2, h⟩ := Outcome.bind_eq_ok.mp h
    obtain ⟨r, h3, h⟩ := Outcome.bind_eq_ok.mp h
    injection h with h; injection h with h4 h5; subst h4 h5
    obtain ⟨a1, a2, a3, a4⟩ := cloneVar_label h1
    obtain ⟨b1, b2, b3, b4⟩ := cloneVar_label h2
    obtain ⟨c1, c2, c3, c4⟩ := ih (i + 1) _ _ _ h3
    refine ⟨by omega, fun z hz => by rw [c2 z (by omega), b2 z (by omega), a2 z hz], fun z hz => ?_, ?_⟩
    · simp only [List.flatMap_cons, List.cons_append, List.nil_append, List.mem_cons] at hz
      rcases hz with rfl | rfl | hz
      · omega
      · omega
      · exact c3 z hz
    · simp only [List.flatMap_cons, List.map_append, List.length_cons, List.range'_succ, c4, List.map_cons, List.map_nil]
      congr 2
      · have : labelAt r.2 w.1 = labelAt w.2 w.1 := by simp only [labelAt]; rw [c2 _ (by omega), b2 _ a3]
        rw [this, a4]; rfl
      · have : labelAt r.2 b.1 = labelAt b.2 b.1 := by simp only [labelAt]; rw [c2 _ (by omega)]
        rw [this, b4]; rfl

theorem forall₂_mem {R S : Nat → Nat → Prop} {p q : List Nat} (h : List.Forall₂ R p q) :
    (∀ x y, x ∈ p → R x y → S x y) → List.Forall₂ S p q := by
  induction h with
  | nil => intro _; exact .nil
  | cons h _ ih => intro H; exact .cons (H _ _ (by simp) h) (ih fun x y hx => H x y (by simp [hx]))

/-- C62: the parameters of a new perceptron are labelled `scope:hidden_i_weights_0` and `scope:hidden_i_bias_0`, in
order of the layers; all labels differ. -/
theorem c62_mlp_new (e : Env T) (winit : Nat → Nat → T) (nIn : Nat) (hiddens : List (Nat × Nat)) (scope : List Char) (m : Mem T) :
    (mlpNew e winit nIn hiddens scope m).1.scope = scope ∧
    (mlpNew e winit nIn hiddens scope m).1.vars.map (labelAt (mlpNew e winit nIn hiddens scope m).2) =
      (layerLabels (scope ++ ":hidden_".toList) hiddens.length).map some ∧
    ((mlpNew e winit nIn hiddens scope m).1.vars.map (labelAt (mlpNew e winit nIn hiddens scope m).2)).Nodup := by
  have key : ∀ (hs : List (Nat × Nat)) (level n : Nat) (m : Mem T),
      m.next ≤ (mlpNewFrom e winit scope level n hs m).2.next ∧
      (∀ z, z < m.next → (mlpNewFrom e winit scope level n hs m).2.at_ z = m.at_ z) ∧
      ((mlpNewFrom e winit scope level n hs m).1.flatMap fun p => p.1.vars).map (labelAt (mlpNewFrom e winit scope level n hs m).2) =
        ((List.range' level hs.length).flatMap fun i => [scope ++ ":hidden_".toList ++ decimal i ++ "_weights_0".toList,
          scope ++ ":hidden_".toList ++ decimal i ++ "_bias_0".toList]).map some := by
    intro hs
    induction hs with
    | nil => intro level n m; exact ⟨Nat.le_refl _, fun _ _ => rfl, rfl⟩
    | cons h hs ih =>
      intro level n m
      obtain ⟨i1, i2, i3⟩ := ih (level + 1) h.1 (fcNew e winit [n] h.1 (scope ++ ":hidden_".toList ++ num level) m).2
      have hn : (fcNew e winit [n] h.1 (scope ++ ":hidden_".toList ++ num level) m).2.next = m.next + 2 := rfl
      rw [hn] at i1 i2
      refine ⟨by simp only [mlpNewFrom]; omega, fun z hz => ?_, ?_⟩
      · simp only [mlpNewFrom]
        rw [i2 z (by omega)]
        show (if z = m.next + 1 then _ else if z = m.next then _ else m.at_ z) = _
        rw [if_neg (by omega), if_neg (by omega)]
      · simp only [mlpNewFrom, List.flatMap_cons, List.map_append, i3, List.length_cons, List.range'_succ]
        congr 1
        have e1 : (fcNew e winit [n] h.1 (scope ++ ":hidden_".toList ++ num level) m).1.vars = [m.next, m.next + 1] := rfl
        rw [e1]
        simp only [List.map_cons, List.map_nil, labelAt]
        rw [i2 _ (by omega), i2 _ (by omega)]
        simp only [fcNew, fcNewFrom, Mem.alloc]
        simp [weightLabel, biasLabel, num, decimal]
  obtain ⟨_, _, k⟩ := key hiddens 0 nIn m
  have k' : (mlpNew e winit nIn hiddens scope m).1.vars.map (labelAt (mlpNew e winit nIn hiddens scope m).2) =
      (layerLabels (scope ++ ":hidden_".toList) hiddens.length).map some := by
    rw [← List.range_eq_range'] at k; exact k
  refine ⟨rfl, k', ?_⟩
  rw [k']
  exact (layerLabels_nodup _ _).map (fun a b h => by injection h)

/-- C62: the parameters of a copied perceptron (each of whose layers has one input, as those of every new perceptron
have) are labelled by the scope of the copy - the one asked for or, if none, the original's followed by `_cpy` - as
`scope:hiddensi_weights_0` and `scope:hiddensi_bias_0`: not the names a new perceptron of that scope would use. -/
theorem c62_mlp_clone (e : Env T) (a b : MLP) (scope : List Char) (m m' : Mem T) (h : mlpClone e a scope m = .ok (b, m'))
    (h1 : ∀ p ∈ a.layers, p.1.wb.length = 1) :
    b.scope = (if scope = [] then a.scope ++ "_cpy".toList else scope) ∧
    b.vars.map (labelAt m') = (layerLabels (b.scope ++ ":hiddens".toList) a.layers.length).map some ∧
    (b.vars.map (labelAt m')).Nodup := by
  have key : ∀ (sc : List Char) (ps : List (FC × Nat)) (i : Nat) (m m' : Mem T) (qs : List (FC × Nat)), (∀ p ∈ ps, p.1.wb.length = 1) →
      mlpCopyFrom e sc i ps m = .ok (qs, m') → m.next ≤ m'.next ∧ (∀ z, z < m.next → m'.at_ z = m.at_ z) ∧
      (qs.flatMap fun p => p.1.vars).map (labelAt m') =
        ((List.range' i ps.length).flatMap fun i => [sc ++ ":hiddens".toList ++ decimal i ++ "_weights_0".toList,
          sc ++ ":hiddens".toList ++ decimal i ++ "_bias_0".toList]).map some := by
    intro sc ps
    induction ps with
    | nil =>
      intro i m m' qs _ h
      injection h with h; injection h with h1 h2; subst h1 h2
      exact ⟨Nat.le_refl _, fun _ _ => rfl, rfl⟩
    | cons p ps ih =>
      intro i m m' qs hp h
      obtain ⟨f, h1, h⟩ := Outcome.bind_eq_ok.mp h
      obtain ⟨r, h2, h⟩ := Outcome.bind_eq_ok.mp h
      injection h with h; injection h with h3 h4; subst h3 h4
      obtain ⟨g, h5, h6⟩ := Outcome.bind_eq_ok.mp h1
      injection h6 with h6; subst h6
      obtain ⟨a1, a2, a3, a4⟩ := fcCopyFrom_label _ _ _ _ _ h5
      obtain ⟨b1, b2, b3⟩ := ih (i + 1) _ _ _ (fun q hq => hp q (by simp [hq])) h2
      simp only at b1 b2
      refine ⟨by omega, fun z hz => by rw [b2 z (by omega), a2 z hz], ?_⟩
      simp only [List.flatMap_cons, List.map_append, b3, List.length_cons, List.range'_succ]
      congr 1
      have e1 : (FC.vars ⟨copyScope p.1.scope (sc ++ ":hiddens".toList ++ num i), g.1⟩).map (labelAt r.2) = (g.1.flatMap fun p => [p.1, p.2]).map (labelAt g.2) := by
        apply List.map_congr_left
        intro z hz
        simp only [labelAt]
        rw [b2 z (a3 z hz)]
      rw [e1, a4, hp p (by simp)]
      have e2 : copyScope p.1.scope (sc ++ ":hiddens".toList ++ num i) = sc ++ ":hiddens".toList ++ num i := by
        unfold copyScope; rw [if_neg (by simp)]
      rw [e2]
      simp [weightLabel, biasLabel, num, decimal, Nat.toDigits, Nat.toDigitsCore, Nat.digitChar]
  obtain ⟨r, h2, h3⟩ := Outcome.bind_eq_ok.mp h
  injection h3 with h3; injection h3 with h3 h4; subst h3 h4
  obtain ⟨_, _, k⟩ := key _ _ _ _ _ _ h1 h2
  rw [← List.range_eq_range'] at k
  refine ⟨rfl, k, ?_⟩
  have k' : (MLP.vars ⟨copyScope a.scope scope, a.nIn, a.nOut, r.1⟩).map (labelAt r.2) =
      (layerLabels (copyScope a.scope scope ++ ":hiddens".toList) a.layers.length).map some := k
  rw [k']
  exact (layerLabels_nodup _ _).map (fun a b h => by injection h)

example : ∃ b m', mlpClone exEnv (mlpNew exEnv (fun _ _ => 1) 2 [(1, 0), (3, 1)] ['n'] ⟨0, fun _ => none⟩).1 []
      (mlpNew exEnv (fun _ _ => 1) 2 [(1, 0), (3, 1)] ['n'] ⟨0, fun _ => none⟩).2 = .ok (b, m') ∧
    labelAt m' 1 = some "n:hidden_0_bias_0".toList ∧ b.vars = [4, 5, 6, 7] ∧ labelAt m' 6 = some "n_cpy:hiddens1_weights_0".toList :=
  ⟨_, _, rfl, by decide, rfl, by decide⟩

/-- C62: a new restricted Boltzmann machine has three new, different, uninitialised parameters: a weight of shape
`[hidden, visible]`, a hidden and a visible bias initialised to 0, with labels made from its scope. -/
theorem c62_rbm_new (e : Env T) (init : Nat → T) (nIn nHidden : Nat) (scope : List Char) (m : Mem T) (hm : MemOk m) :
    ∃ w h v, (rbmNew e init nIn nHidden scope m).1 = ⟨scope, nIn, some nHidden, some w, some h, some v⟩ ∧ [w, h, v].Nodup ∧
      (∀ x ∈ [w, h, v], m.at_ x = none) ∧ MemOk (rbmNew e init nIn nHidden scope m).2 ∧
      (∀ x u, m.at_ x = some u → (rbmNew e init nIn nHidden scope m).2.at_ x = some u) ∧
      (rbmNew e init nIn nHidden scope m).2.at_ w = some ⟨scope ++ "_weights".toList, newVariable e [nHidden, nIn] (some init)⟩ ∧
      (rbmNew e init nIn nHidden scope m).2.at_ h = some ⟨scope ++ "_hidden_bias".toList, newVariable e [nHidden] (some fun _ => e.zero)⟩ ∧
      (rbmNew e init nIn nHidden scope m).2.at_ v = some ⟨scope ++ "_visible_bias".toList, newVariable e [nIn] (some fun _ => e.zero)⟩ ∧
      (rbmNew e init nIn nHidden scope m).1.noutput = .ok nHidden := by
  have wfn : ∀ s i, (newVariable e s i : Leaf T).data.WF := fun s _ => new_wf e s
  obtain ⟨a1, a2, a3, a4, a5⟩ := alloc_ok m hm ⟨scope ++ "_weights".toList, newVariable e [nHidden, nIn] (some init)⟩ (wfn _ _)
  obtain ⟨b1, b2, b3, b4, b5⟩ := alloc_ok _ a1 ⟨scope ++ "_hidden_bias".toList, newVariable e [nHidden] (some fun _ => e.zero)⟩ (wfn _ _)
  obtain ⟨c1, c2, c3, c4, c5⟩ := alloc_ok _ b1 ⟨scope ++ "_visible_bias".toList, newVariable e [nIn] (some fun _ => e.zero)⟩ (wfn _ _)
  refine ⟨m.next, m.next + 1, m.next + 2, rfl, by simp, ?_, c1, fun x u hx => c5 x u (b5 x u (a5 x u hx)), c5 _ _ (b5 _ _ a4), c5 _ _ b4, c4, rfl⟩
  intro x hx
  cases hu : m.at_ x with
  | none => rfl
  | some u => have := hm.lt x u hu; simp at hx; omega

/-- C62: a copy of a restricted Boltzmann machine has the scope asked for, but its parameters keep the labels of the
original's. -/
theorem c62_rbm_clone (e : Env T) (a b : RBM) (scope : List Char) (m m' : Mem T) (h : rbmClone e a scope m = .ok (b, m')) :
    b.scope = (if scope = [] then a.scope ++ "_cpy".toList else scope) ∧ ∃ x y z x' y' z', a.vars = [some x, some y, some z] ∧
      b.vars = [some x', some y', some z'] ∧ (x < m.next → labelAt m' x' = labelAt m x) ∧ (y < m.next → labelAt m' y' = labelAt m y) ∧
      (z < m.next → labelAt m' z' = labelAt m z) := by
  obtain ⟨w, h1, h⟩ := Outcome.bind_eq_ok.mp h
  obtain ⟨hb, h2, h⟩ := Outcome.bind_eq_ok.mp h
  obtain ⟨v, h3, h⟩ := Outcome.bind_eq_ok.mp h
  injection h with h; injection h with h4 h5; subst h4 h5
  have ptr : ∀ {p : Option Nat} {m : Mem T} {r : Nat × Mem T}, clonePtr e p m = .ok r → ∃ x, p = some x ∧ cloneVar e x none m = .ok r := by
    intro p m r h
    cases p with
    | none => cases h
    | some x => exact ⟨x, rfl, h⟩
  obtain ⟨x, e1, h1⟩ := ptr h1
  obtain ⟨y, e2, h2⟩ := ptr h2
  obtain ⟨z, e3, h3⟩ := ptr h3
  obtain ⟨a1, a2, a3, a4⟩ := cloneVar_label h1
  obtain ⟨b1, b2, b3, b4⟩ := cloneVar_label h2
  obtain ⟨c1, c2, c3, c4⟩ := cloneVar_label h3
  rw [if_pos rfl] at a4 b4 c4
  refine ⟨rfl, x, y, z, w.1, hb.1, v.1, by simp [RBM.vars, e1, e2, e3], rfl, fun _ => ?_, fun hy => ?_, fun hz => ?_⟩
  · rw [← a4]; simp only [labelAt]; rw [c2 _ (by omega), b2 _ a3]
  · have : labelAt w.2 y = labelAt m y := by simp only [labelAt]; rw [a2 y hy]
    rw [← this, ← b4]; simp only [labelAt]; rw [c2 _ b3]
  · have : labelAt hb.2 z = labelAt m z := by simp only [labelAt]; rw [b2 z (by omega), a2 z hz]
    rw [← this, ← c4]

/-- C62: the machines of a copied deep belief network are as many as the original's and have the scopes `scope:rbm_i`. -/
theorem c62_dbn_clone (e : Env T) (d d' : DBN) (scope : List Char) (m m' : Mem T) (h : dbnClone e d scope m = .ok (d', m')) :
    d'.scope = (if scope = [] then d.scope ++ "_cpy".toList else scope) ∧ d'.nIn = d.nIn ∧ d'.nOut = d.nOut ∧
    d'.layers.map RBM.scope = (List.range d.layers.length).map fun i => d'.scope ++ ":rbm_".toList ++ decimal i := by
  have key : ∀ (sc : List Char) (as : List RBM) (i : Nat) (m m' : Mem T) (bs : List RBM), dbnCopyFrom e sc i as m = .ok (bs, m') →
      bs.map RBM.scope = (List.range' i as.length).map fun i => sc ++ ":rbm_".toList ++ decimal i := by
    intro sc as
    induction as with
    | nil =>
      intro i m m' bs h
      injection h with h; injection h with h1 h2; subst h1
      rfl
    | cons a as ih =>
      intro i m m' bs h
      obtain ⟨f, h1, h⟩ := Outcome.bind_eq_ok.mp h
      obtain ⟨r, h2, h⟩ := Outcome.bind_eq_ok.mp h
      injection h with h; injection h with h3 h4; subst h3 h4
      have hs := (c62_rbm_clone e a f.1 _ m f.2 h1).1
      rw [if_neg (by simp)] at hs
      rw [List.map_cons, hs, ih (i + 1) _ _ _ h2, List.length_cons, List.range'_succ, List.map_cons]
      rfl
  obtain ⟨r, h1, h2⟩ := Outcome.bind_eq_ok.mp h
  injection h2 with h2; injection h2 with h2 h3; subst h2 h3
  refine ⟨rfl, rfl, rfl, ?_⟩
  have := key _ _ _ _ _ _ h1
  rw [← List.range_eq_range'] at this
  exact this

/-- Two machines cloned out of a two-layer network. -/
example : ∃ d m', dbnClone exEnv ⟨['d'], 3, 2, [(rbmNew exEnv id 3 2 ['a'] ⟨0, fun _ => none⟩).1,
        (rbmNew exEnv id 2 2 ['b'] (rbmNew exEnv id 3 2 ['a'] ⟨0, fun _ => none⟩).2).1], none⟩ []
      (rbmNew exEnv id 2 2 ['b'] (rbmNew exEnv id 3 2 ['a'] ⟨0, fun _ => none⟩).2).2 = .ok (d, m') ∧
    d.layers.map RBM.scope = ["d_cpy:rbm_0".toList, "d_cpy:rbm_1".toList] ∧ labelAt m' 6 = labelAt m' 0 ∧
    labelAt m' 6 = some "a_weights".toList := ⟨_, _, rfl, by decide, by decide, by decide⟩

/-- C52: assigning one layer to another deletes the target's parameters and gives it new copies of the source's; the
target keeps its own scope, and labels its new parameters with it.  Assigning a layer to itself changes nothing. -/
theorem c52_fc_assign (e : Env T) (hmem : ∀ n, e.fits n = true) (a b : FC) (m : Mem T) (hm : MemOk m)
    (hnd : (a.vars ++ b.vars).Nodup) (hl : ∀ x ∈ a.vars ++ b.vars, ∃ v, m.at_ x = some v) :
    fcAssign e true a a m = .ok (a, m) ∧
    ∃ a' m', fcAssign e false a b m = .ok (a', m') ∧ a'.scope = a.scope ∧ a'.wb.length = b.wb.length ∧
      MemOk m' ∧ (∀ x ∈ a.vars, m'.at_ x = none) ∧ (∀ x v, x ∉ a.vars → m.at_ x = some v → m'.at_ x = some v) ∧
      (∀ y ∈ a'.vars, m.at_ y = none) ∧ a'.vars.Nodup ∧
      List.Forall₂ (fun x y => ∃ v v', m.at_ x = some v ∧ m'.at_ y = some v' ∧ CopyOf v.leaf v'.leaf) b.vars a'.vars ∧
      a'.vars.map (labelAt m') = ((List.range b.wb.length).flatMap fun k =>
        [a.scope ++ "_weights_".toList ++ decimal k, a.scope ++ "_bias_".toList ++ decimal k]).map some := by
  refine ⟨rfl, ?_⟩
  obtain ⟨na, nb, dj⟩ := List.nodup_append.mp hnd
  obtain ⟨m1, d1, d2, d3, d4⟩ := deleteAll_ok a.vars m hm na fun x hx => hl x (by simp [hx])
  have keep : ∀ x ∈ b.vars, m1.at_ x = m.at_ x := fun x hx => by
    rw [d4, if_neg fun c => dj x c x hx rfl]
  obtain ⟨qs, m', h1, h2, c⟩ := fcCopyFrom_ok e hmem a.scope b.wb 0 m1 d2 fun x hx => by
    rw [keep x hx]; exact hl x (List.mem_append.mpr (.inr hx))
  obtain ⟨_, _, _, lab⟩ := fcCopyFrom_label _ _ _ _ _ h1
  have lt : ∀ x v, m.at_ x = some v → x < m1.next := fun x v hx => by rw [d3]; exact hm.lt x v hx
  refine ⟨⟨a.scope, qs⟩, m', ?_, rfl, h2, c.ok, fun x hx => ?_, fun x v hn hx => ?_, fun y hy => ?_, c.nodup, ?_, ?_⟩
  · simp only [fcAssign, Bool.false_eq_true, if_false, d1, Outcome.ok_bind, h1]
  · obtain ⟨v, hv⟩ := hl x (List.mem_append.mpr (.inl hx))
    rw [c.old x (lt x v hv), d4, if_pos hx]
  · rw [c.old x (lt x v hx), d4, if_neg hn]; exact hx
  · cases h : m.at_ y with
    | none => rfl
    | some v => have := lt y v h; have := (c.fresh y hy).1; omega
  · exact forall₂_mem c.copy fun x y hx ⟨v, v', h1, h2, h3⟩ => ⟨v, v', by rw [← keep x hx]; exact h1, h2, h3⟩
  · rw [← List.range_eq_range'] at lab
    show (qs.flatMap fun p => [p.1, p.2]).map (labelAt m') = _
    rw [lab, List.map_flatMap]
    rfl

end Verif.Props
