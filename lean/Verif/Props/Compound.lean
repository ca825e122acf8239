import Verif.Model.Compound
import Verif.Props.IO
/-!
# C51: saving and initialising compounds
-/
namespace Verif.Props
open Verif.Spec Verif.Tensor Verif.IO Verif.Compound Verif.Leaf

variable {T : Type}

/-- A variable whose elements are what its initializer yields. -/
def Fresh (l l' : Leaf T) : Prop :=
  ∃ g, l.init = some g ∧ l'.init = some g ∧ l'.isInit = true ∧ Full l'.data.alloc ∧ l'.data.raw = some ((List.range (vol l'.data.alloc)).map g)

theorem init0_fresh (e : Env T) (hmem : ∀ n, e.fits n = true) (l l' : Leaf T) (hw : l.data.WF) (h : init0 e l = .ok l') :
    Fresh l l' ∧ l'.data.WF := by
  unfold init0 at h
  split at h
  · cases h
  · rename_i g hg
    unfold initWith at h
    have fin : ∀ t : Tensor T, t.WF → (∃ b, t.raw = some b) → ∀ t', fillWith t g = .ok t' →
        Full t'.alloc ∧ t'.raw = some ((List.range (vol t'.alloc)).map g) ∧ t'.WF := by
      rintro t hw ⟨b, hb⟩ t' h
      rw [fillWith_eq hw hb] at h
      injection h with h; subst h
      obtain ⟨h1, h2⟩ := hw b hb
      exact ⟨h1, by rw [h2], zip_wf hw hb (by simp)⟩
    split at h
    · rename_i ha
      obtain ⟨t, h1, h2⟩ := Outcome.bind_eq_ok.mp h
      injection h2 with h2; subst h2
      obtain ⟨_, b, hb⟩ := (isAlloc_iff _).1 ha
      obtain ⟨q1, q2, q3⟩ := fin _ hw ⟨b, hb⟩ t h1
      exact ⟨⟨g, hg, hg, rfl, q1, q2⟩, q3⟩
    · rename_i ha
      obtain ⟨⟨t, b⟩, h1, h2⟩ := Outcome.bind_eq_ok.mp h
      cases b with
      | false => cases h2
      | true =>
        simp only [if_true] at h2
        obtain ⟨t', h3, h4⟩ := Outcome.bind_eq_ok.mp h2
        injection h4 with h4; subst h4
        have hw' := allocate_wf e _ hw h1
        have hb : ∃ b, t.raw = some b := by
          unfold allocate at h1
          rw [if_neg ha] at h1
          have : ∃ s, l.data.allocateShape e s = .ok (t, true) := by
            split at h1
            · exact ⟨_, h1⟩
            · exact ⟨_, h1⟩
          obtain ⟨s, h1⟩ := this
          rw [Bool.not_eq_true] at ha
          simp only [allocateShape, ha, Bool.false_and, Bool.false_eq_true, if_false] at h1
          split at h1
          · injection h1 with h1; simp only [Prod.mk.injEq] at h1
            rw [← h1.1]; simp [allocBuf, hmem]
          · simp at h1
        obtain ⟨q1, q2, q3⟩ := fin _ hw' hb t' h3
        exact ⟨⟨g, hg, hg, rfl, q1, q2⟩, q3⟩

theorem initAll_spec (e : Env T) (hmem : ∀ n, e.fits n = true) (vars : List Nat) : ∀ (h h' : Heap T), HeapOk h → initAll e vars h = .ok h' →
    HeapOk h' ∧ (∀ x, x ∉ vars → h' x = h x) ∧ ∀ x ∈ vars, ∃ l l', h x = .leaf l ∧ h' x = .leaf l' ∧ Fresh l l' := by
  induction vars with
  | nil =>
    intro h h' hh hi
    injection hi with hi; subst hi
    exact ⟨hh, fun _ _ => rfl, fun x hx => by simp at hx⟩
  | cons x xs ih =>
    intro h h' hh hi
    obtain ⟨h1, hi, h2⟩ := Outcome.bind_eq_ok.mp hi
    unfold initAt at hi
    split at hi
    · rename_i l hl
      obtain ⟨l', h3, h4⟩ := Outcome.bind_eq_ok.mp hi
      injection h4 with h4; subst h4
      obtain ⟨f, w⟩ := init0_fresh e hmem l l' (hh x l hl) h3
      have hh1 : HeapOk (h.set x (.leaf l')) := by
        intro y m hy
        simp only [Heap.set] at hy
        split at hy
        · injection hy with hy; subst hy; exact w
        · exact hh y m hy
      obtain ⟨k1, k2, k3⟩ := ih _ _ hh1 h2
      refine ⟨k1, fun y hy => ?_, fun y hy => ?_⟩
      · rw [List.mem_cons, not_or] at hy
        rw [k2 y hy.2]; simp [Heap.set, hy.1]
      · by_cases hyx : y = x
        · subst hyx
          by_cases hm : y ∈ xs
          · obtain ⟨m, m', q1, q2, q3⟩ := k3 y hm
            simp only [Heap.set, if_true] at q1
            injection q1 with q1; subst q1
            obtain ⟨g, f1, f2, f3⟩ := f
            obtain ⟨g', f1', f3'⟩ := q3
            rw [f2] at f1'; cases f1'
            exact ⟨l, m', hl, q2, g, f1, f3'⟩
          · exact ⟨l, l', hl, by rw [k2 y hm]; simp [Heap.set], f⟩
        · obtain ⟨m, m', q1, q2, q3⟩ := k3 y (by simpa [hyx] using hy)
          simp only [Heap.set, if_neg hyx] at q1
          exact ⟨m, m', q1, q2, q3⟩
    · cases hi

/-- The file holds a usable entry for every one of `n` positions of a label. -/
def AllThere (file : File) (label : List Char) (n : Nat) : Prop :=
  ∃ repo, file = .repo repo ∧ ∀ i, i < n → ∃ p, repo (key label i) = some p ∧ ProtoOk p

theorem read_heap (r : ByteRep T) (e : Env T) (label : List Char) (vars : List Nat) (file : File) (h h1 : Heap T) (un : List Nat) (ok : Bool)
    (hh : HeapOk h) (hv : ∀ x ∈ vars, ∃ l, h x = .leaf l) (hr : readInorder r e vars label file h = .ok (h1, un, ok)) :
    HeapOk h1 ∧ (∀ x, x ∉ vars → h1 x = h x) ∧ ((ok && un.isEmpty) = true ↔ AllThere file label vars.length) := by
  cases file with
  | absent =>
    simp only [readInorder] at hr
    injection hr with hr; simp only [Prod.mk.injEq] at hr; obtain ⟨rfl, rfl, rfl⟩ := hr
    exact ⟨hh, fun _ _ => rfl, by simp [AllThere]⟩
  | corrupt =>
    simp only [readInorder] at hr
    injection hr with hr; simp only [Prod.mk.injEq] at hr; obtain ⟨rfl, rfl, rfl⟩ := hr
    exact ⟨hh, fun _ _ => rfl, by simp [AllThere]⟩
  | repo repo =>
    simp only [readInorder, Outcome.bind_eq_ok] at hr
    obtain ⟨⟨h2, un2⟩, hr1, hr⟩ := hr
    injection hr with hr; simp only [Prod.mk.injEq] at hr; obtain ⟨rfl, rfl, rfl⟩ := hr
    classical
    obtain ⟨g1, g2, g3, _⟩ := readFrom_unfound r e repo label vars 0 h h2 un2
      (fun i x => decide (∀ p, repo (IO.key label i) = some p → ¬ ((∃ l, h x = .leaf l) ∧ ProtoOk p))) hh (fun i x => by simp) hr1
    refine ⟨g3, g2, ?_⟩
    rw [Bool.true_and, List.isEmpty_iff, g1, List.map_eq_nil_iff, List.filter_eq_nil_iff]
    constructor
    · intro H
      refine ⟨repo, rfl, fun i hi => ?_⟩
      have := H (vars[i], i) (by rw [List.mem_zipIdx_iff_getElem?]; simp [hi])
      simp only [decide_eq_true_eq, not_forall, not_not] at this
      obtain ⟨p, hp, _, q⟩ := this
      exact ⟨p, hp, q⟩
    · rintro ⟨repo', he, H⟩ ⟨x, i⟩ hx
      injection he with he; subst he
      rw [List.mem_zipIdx_iff_getElem?] at hx
      have hi : i < vars.length := by
        by_contra c
        rw [List.getElem?_eq_none (by omega)] at hx; cases hx
      obtain ⟨p, hp, q⟩ := H i hi
      simp only [decide_eq_true_eq, not_forall, not_not]
      exact ⟨p, hp, hv x (List.mem_of_getElem? hx), q⟩

/-- **C51.**  Initialising a compound whose parameters are not all in the file (it is absent, unreadable, or lacks a
usable entry for one of them): if it returns, every parameter, loaded or not, holds exactly what its initializer
yields for its shape; nodes that are not parameters are unchanged. -/
theorem c51_fallback (r : ByteRep T) (e : Env T) (hmem : ∀ n, e.fits n = true) (own readscope label : List Char) (vars : List Nat) (file : File) (h h' : Heap T)
    (hlab : label = if readscope = [] then own else readscope) (hh : HeapOk h) (hv : ∀ x ∈ vars, ∃ l, h x = .leaf l)
    (hn : ¬ AllThere file label vars.length) (hr : initCompound r e own readscope vars file h = .ok h') :
    (∀ x, x ∉ vars → h' x = h x) ∧
    ∀ x ∈ vars, ∃ l g, h' x = .leaf l ∧ l.init = some g ∧ l.isInit = true ∧ Full l.data.alloc ∧
      l.data.raw = some ((List.range (vol l.data.alloc)).map g) := by
  unfold initCompound at hr
  obtain ⟨⟨h1, un, ok⟩, h2, h3⟩ := Outcome.bind_eq_ok.mp hr
  obtain ⟨k1, k2, k3⟩ := read_heap r e _ vars file h h1 un ok hh hv h2
  have : scopeOr readscope own = label := by rw [hlab]; rfl
  rw [this] at k3
  rw [if_neg (by rw [k3]; exact hn)] at h3
  obtain ⟨_, j2, j3⟩ := initAll_spec e hmem vars h1 h' k1 h3
  refine ⟨fun x hx => by rw [j2 x hx, k2 x hx], fun x hx => ?_⟩
  obtain ⟨l, l', _, q2, g, _, q3, q4, q5, q6⟩ := j3 x hx
  exact ⟨l', g, q2, q3, q4, q5, q6⟩

/-- **C51.**  When the file has a usable entry for every parameter, each parameter takes the shapes stored under its
position and is initialised; no initializer is run, so the parameters with what they hold are exactly what loading
leaves. -/
theorem c51_loaded (r : ByteRep T) (e : Env T) (own readscope label : List Char) (vars : List Nat) (file : File) (h h' : Heap T)
    (hlab : label = if readscope = [] then own else readscope) (hh : HeapOk h) (hnd : vars.Nodup) (hv : ∀ x ∈ vars, ∃ l, h x = .leaf l)
    (hn : AllThere file label vars.length) (hr : initCompound r e own readscope vars file h = .ok h') :
    readInorder r e vars label file h = .ok (h', [], true) ∧ (∀ x, x ∉ vars → h' x = h x) ∧
    ∀ (i : Nat) x, vars[i]? = some x → ∃ repo p l, file = .repo repo ∧ repo (key label i) = some p ∧ h' x = .leaf l ∧ l.isInit = true ∧
      l.data.alloc = p.alloc ∧ l.data.allowed = p.allow ∧ ∃ buf, l.data.raw = some buf := by
  unfold initCompound at hr
  obtain ⟨⟨h1, un, ok⟩, h2, h3⟩ := Outcome.bind_eq_ok.mp hr
  obtain ⟨k1, k2, k3⟩ := read_heap r e _ vars file h h1 un ok hh hv h2
  have : scopeOr readscope own = label := by rw [hlab]; rfl
  rw [this] at k3 h2
  rw [if_pos (k3.mpr hn)] at h3
  injection h3 with h3
  have k4 := k3.mpr hn
  rw [Bool.and_eq_true, List.isEmpty_iff] at k4
  simp only at h3 k4
  obtain ⟨rfl, rfl⟩ := k4
  subst h3
  refine ⟨h2, k2, fun i x hi => ?_⟩
  obtain ⟨repo, rfl, H⟩ := hn
  obtain ⟨p, hp, q⟩ := H i (by
    by_contra c
    rw [List.getElem?_eq_none (by omega)] at hi; cases hi)
  obtain ⟨l, hl⟩ := hv x (List.mem_of_getElem? hi)
  obtain ⟨l', w1, w2, w3, w4, w5⟩ := (c40_effect r e repo label vars h h1 [] true hh hnd h2 i x l hi hl).1 p hp q
  exact ⟨repo, p, l', rfl, hp, w1, w2, w3, w4, w5⟩

theorem evals_of (h : Heap T) (vars : List Nat) (hv : ∀ x ∈ vars, ∃ l, h x = .leaf l ∧ l.isInit = true) :
    ∃ ts : List (Tensor T), vars.map (evalAt h) = ts.map some ∧ ts.length = vars.length ∧
      ∀ (i : Nat) x l, vars[i]? = some x → h x = .leaf l → ts[i]? = some l.data := by
  induction vars with
  | nil => exact ⟨[], rfl, rfl, fun i x l hi => by simp at hi⟩
  | cons x xs ih =>
    obtain ⟨ts, h1, h2, h3⟩ := ih fun y hy => hv y (by simp [hy])
    obtain ⟨l, hl, hi⟩ := hv x (by simp)
    refine ⟨l.data :: ts, ?_, by simp [h2], fun i y m hy hm => ?_⟩
    · rw [List.map_cons, List.map_cons, h1]
      congr 1
      simp [evalAt, hl, Leaf.eval, hi]
    · cases i with
      | zero =>
        simp only [List.getElem?_cons_zero, Option.some.injEq] at hy
        subst hy
        rw [hl] at hm; cases hm; rfl
      | succ i => exact h3 i y m hy hm

/-- **C51.**  Save and initialise: the parameters of a compound (initialised, holding data) are saved into a file that
was absent or readable; then other saves under other labels follow; then a compound with as many parameters is
initialised from the file under the same label.  The save reports success, and the initialisation gives every
parameter the saved data and shapes and changes nothing else. -/
theorem c51_roundtrip (r : ByteRep T) (hr : LawfulRep r) (e : Env T) (hmem : ∀ n, e.fits n = true)
    (own ws own' rs label : List Char) (hlab : label = if ws = [] then own else ws) (hlab' : label = if rs = [] then own' else rs)
    (vars vars' : List Nat) (hlen : vars'.length = vars.length) (hnd : vars'.Nodup) (h g : Heap T)
    (hv : ∀ x ∈ vars, ∃ l buf, h x = .leaf l ∧ l.isInit = true ∧ Saveable l.data buf)
    (hv' : ∀ x ∈ vars', ∃ l, g x = .leaf l ∧ l.data.WF)
    (f₀ : File) (hf : f₀ ≠ .corrupt) :
    ∃ states f₁, save r own ws vars false f₀ h = .ok (states, true) ∧ states.getLast? = some f₁ ∧ f₁ ≠ .corrupt ∧
      ∀ (others : List (List Char × List (Option (Tensor T)))) f, (∀ w ∈ others, w.1 ≠ label) → writeAll r others f₁ = .ok f → (∃ g', initCompound r e own' rs vars' f g = .ok g' ∧ (∀ x, x ∉ vars' → g' x = g x) ∧
        ∀ (i : Nat) x y l, vars[i]? = some x → vars'[i]? = some y → h x = .leaf l →
          ∃ l', g y = .leaf l' ∧ g' y = .leaf ⟨l.data, true, l'.init⟩) := by
  obtain ⟨ts, e1, e2, e3⟩ := evals_of h vars fun x hx => by
    obtain ⟨l, _, h1, h2, _⟩ := hv x hx
    exact ⟨l, h1, h2⟩
  have hts : ∀ t ∈ ts, ∃ buf, Saveable t buf := by
    intro t ht
    obtain ⟨i, hi, rfl⟩ := List.mem_iff_getElem.mp ht
    have hi' : i < vars.length := by omega
    obtain ⟨l, buf, h1, _, h2⟩ := hv vars[i] (by simp)
    have := e3 i vars[i] l (by simp [hi']) h1
    rw [List.getElem?_eq_getElem hi] at this
    injection this with this
    exact ⟨buf, by rw [this]; exact h2⟩
  have hopen : opened f₀ ≠ none := by
    cases f₀ with
    | corrupt => exact absurd rfl hf
    | absent => simp [opened]
    | repo r => simp [opened]
  obtain ⟨repo0, hop⟩ := Option.ne_none_iff_exists'.1 hopen
  obtain ⟨repo1, hw⟩ := writeFrom_ok r label (ts.map some) 0 repo0 (by
    intro t ht
    simp only [List.mem_map, Option.some.injEq, exists_eq_right] at ht
    obtain ⟨buf, hs⟩ := hts t ht
    intro b hb; rw [hs.data] at hb; cases hb; exact ⟨hs.full, hs.size⟩)
  have hsl : scopeOr ws own = label := by rw [hlab]; rfl
  have hsl' : scopeOr rs own' = label := by rw [hlab']; rfl
  have hwi : writeInorder r (ts.map some) label false f₀ = .ok ([f₀, .repo Repo.empty, .repo repo1], true) := by
    unfold writeInorder
    simp only [hop, hw, Outcome.ok_bind]; rfl
  refine ⟨[f₀, .repo Repo.empty, .repo repo1], .repo repo1, ?_, rfl, (by simp), fun others f ho hall => ?_⟩
  · unfold save
    rw [hsl, e1, hwi]
  · obtain ⟨g', q1, q2, q3⟩ := c39_roundtrip r hr e hmem label ts hts f₀ f hopen others ho (by
      simp only [writeAll, hwi, Outcome.ok_bind]; exact hall) vars' g (by omega) hnd hv'
    refine ⟨g', ?_, q2, fun i x y l hx hy hl => q3 i y l.data hy (e3 i x l hx hl)⟩
    unfold initCompound
    rw [hsl', q1]; rfl

/-- **C51, a Q-network.**  Both networks of a Q-network are saved and restored: saving reports success, and initialising
a Q-network with as many parameters in each network, all of them different variables, from the file under the same
scope gives every parameter the saved data and shapes and changes nothing else. -/
theorem c51_qnet (r : ByteRep T) (hr : LawfulRep r) (e : Env T) (hmem : ∀ n, e.fits n = true)
    (q q' : QNet) (ws rs scope : List Char) (hne : scope ≠ []) (hsc : scope = if ws = [] then q.scope else ws) (hsc' : scope = if rs = [] then q'.scope else rs)
    (hs : q'.source.length = q.source.length) (ht : q'.target.length = q.target.length) (hnd : (q'.source ++ q'.target).Nodup) (h g : Heap T)
    (hv : ∀ x ∈ q.source ++ q.target, ∃ l buf, h x = .leaf l ∧ l.isInit = true ∧ Saveable l.data buf)
    (hv' : ∀ x ∈ q'.source ++ q'.target, ∃ l, g x = .leaf l ∧ l.data.WF) (f₀ : File) (hf : f₀ ≠ .corrupt) :
    ∃ states f g', saveQ r q ws false false f₀ h = .ok (states, true) ∧ states.getLast? = some f ∧ initQ r e q' rs f g = .ok g' ∧
      (∀ x, x ∉ q'.source ++ q'.target → g' x = g x) ∧
      ∀ (i : Nat) x y l, h x = .leaf l → (q.source[i]? = some x ∧ q'.source[i]? = some y) ∨ (q.target[i]? = some x ∧ q'.target[i]? = some y) →
        ∃ l', g y = .leaf l' ∧ g' y = .leaf ⟨l.data, true, l'.init⟩ := by
  obtain ⟨nd1, nd2, dj⟩ := List.nodup_append.mp hnd
  have e1 : scopeOr ws q.scope = scope := by rw [hsc]; rfl
  have e2 : scopeOr rs q'.scope = scope := by rw [hsc']; rfl
  have tne : targetPrefix ++ scope ≠ [] := by simp [targetPrefix]
  have lt : targetPrefix ++ scope ≠ scope := fun c => by
    have := congrArg List.length c
    rw [List.length_append] at this
    have : targetPrefix.length = 7 := rfl
    omega
  obtain ⟨st1, f1, s1, l1, c1, k1⟩ := c51_roundtrip r hr e hmem q.sourceScope scope q'.sourceScope scope scope (by rw [if_neg hne]) (by rw [if_neg hne])
    q.source q'.source hs nd1 h g (fun x hx => hv x (by simp [hx])) (fun x hx => hv' x (by simp [hx])) f₀ hf
  obtain ⟨ts, d1, d2, d3⟩ := evals_of h q.target fun x hx => by
    obtain ⟨l, _, h1, h2, _⟩ := hv x (by simp [hx])
    exact ⟨l, h1, h2⟩
  have last1 : st1.getLastD f₀ = f1 := by rw [List.getLastD_eq_getLast?, l1]; rfl
  have tgt := fun (g1 : Heap T) hv1 => c51_roundtrip r hr e hmem q.targetScope (targetPrefix ++ scope) q'.targetScope (targetPrefix ++ scope) (targetPrefix ++ scope)
    (by rw [if_neg tne]) (by rw [if_neg tne]) q.target q'.target ht nd2 h g1 (fun x hx => hv x (by simp [hx])) hv1 f1 c1
  obtain ⟨st2, f2, s2, l2, _, _⟩ := tgt g (fun x hx => hv' x (by simp [hx]))
  have w2 : writeAll r [(targetPrefix ++ scope, q.target.map (evalAt h))] f1 = .ok f2 := by
    simp only [save, scopeOr, if_neg tne] at s2
    simp only [writeAll, s2, Outcome.ok_bind]
    rw [List.getLastD_eq_getLast?, l2]; rfl
  obtain ⟨g1, i1, u1, v1⟩ := k1 _ f2 (fun w hw => by rw [List.mem_singleton] at hw; rw [hw]; exact lt) w2
  have g1t : ∀ x ∈ q'.target, g1 x = g x := fun x hx => u1 x fun c => dj x c x hx rfl
  obtain ⟨st2', f2', s2', l2', _, k2⟩ := tgt g1 (fun x hx => by rw [g1t x hx]; exact hv' x (by simp [hx]))
  rw [s2] at s2'
  injection s2' with s2'
  simp only [Prod.mk.injEq, and_true] at s2'
  subst s2'
  rw [l2] at l2'
  cases l2'
  obtain ⟨g2, i2, u2, v2⟩ := k2 [] f2 (by simp) rfl
  refine ⟨st1 ++ st2, f2, g2, ?_, ?_, ?_, fun x hx => ?_, fun i x y l hl hc => ?_⟩
  · simp only [saveQ, e1, s1, Outcome.ok_bind, last1, s2]; rfl
  · rw [List.getLast?_append, l2]; rfl
  · simp only [initQ, e2, i1, Outcome.ok_bind, i2]
  · rw [List.mem_append, not_or] at hx
    rw [u2 x hx.2, u1 x hx.1]
  · rcases hc with ⟨hx, hy⟩ | ⟨hx, hy⟩
    · obtain ⟨l', w1, w2⟩ := v1 i x y l hx hy hl
      exact ⟨l', w1, by rw [u2 y fun c => dj y (List.mem_of_getElem? hy) y c rfl]; exact w2⟩
    · obtain ⟨l', w1, w2⟩ := v2 i x y l hx hy hl
      exact ⟨l', by rw [← g1t y (List.mem_of_getElem? hy)]; exact w1, w2⟩

/-- **C51, first use.**  A compound whose variables are new, with initializers and fully defined shapes, is initialised
when there is no file: every parameter holds what its initializer yields. -/
theorem c51_first_use (r : ByteRep T) (e : Env T) (hmem : ∀ n, e.fits n = true) (own readscope : List Char) (vars : List Nat) (h : Heap T)
    (file : File) (hfile : file = .absent ∨ file = .corrupt)
    (hv : ∀ x ∈ vars, ∃ s g, Full s ∧ h x = .leaf (newVariable e s (some g))) (hnd : vars.Nodup) :
    ∃ h', initCompound r e own readscope vars file h = .ok h' ∧ (∀ x, x ∉ vars → h' x = h x) ∧
      ∀ x ∈ vars, ∀ s g, Full s → h x = .leaf (newVariable e s (some g)) → h' x = .leaf ⟨⟨some ((List.range (vol s)).map g), s, s⟩, true, some g⟩ := by
  have hred : initCompound r e own readscope vars file h = initAll e vars h := by
    rcases hfile with rfl | rfl <;> rfl
  rw [hred]
  clear hred
  induction vars generalizing h with
  | nil => exact ⟨h, rfl, fun _ _ => rfl, fun x hx => by simp at hx⟩
  | cons x xs ih =>
    rw [List.nodup_cons] at hnd
    obtain ⟨s, g, hs, hx⟩ := hv x (by simp)
    obtain ⟨h', q1, q2, q3⟩ := ih (h.set x (.leaf ⟨⟨some ((List.range (vol s)).map g), s, s⟩, true, some g⟩)) (fun y hy => by
      have : y ≠ x := fun c => hnd.1 (c ▸ hy)
      simp only [Heap.set, if_neg this]
      exact hv y (by simp [hy])) hnd.2
    refine ⟨h', ?_, fun y hy => ?_, fun y hy s' g' hs' hy' => ?_⟩
    · simp only [initAll, initAt, hx, (c55_initialize_new e s g hmem).2.1 hs, Outcome.ok_bind]
      exact q1
    · rw [List.mem_cons, not_or] at hy
      rw [q2 y hy.2]; simp [Heap.set, hy.1]
    · by_cases hyx : y = x
      · subst hyx
        rw [q2 y hnd.1]
        rw [hy'] at hx
        injection hx with hx
        simp only [newVariable, Leaf.mk.injEq, Option.some.injEq, true_and] at hx
        have e1 : ∀ s : Shape, (Tensor.new e s).allowed = s := fun s => by unfold Tensor.new; split <;> rfl
        have e2 : s' = s := by have := congrArg Tensor.allowed hx.1; rwa [e1, e1] at this
        simp [Heap.set, e2, hx.2]
      · exact q3 y (by simpa [hyx] using hy) s' g' hs' (by simp only [Heap.set, if_neg hyx]; exact hy')

/-- Negative: initialising from a file can change the shape of a parameter (here from 1 element to 2): a stored entry
replaces both shapes of the variable without being compared with them. -/
theorem c51_foreign_shape : ¬ ∀ (repo : Repo) (h h' : Heap Nat) (l l' : Leaf Nat), initCompound exRep exEnv ['s'] [] [0] (.repo repo) h = .ok h' →
    h 0 = .leaf l → h' 0 = .leaf l' → l.data.raw ≠ none → l'.data.alloc = l.data.alloc := by
  intro hall
  have := hall (fun _ => some ⟨[1, 2], [2], [2]⟩) (fun _ => .leaf ⟨⟨some [0], [1], [1]⟩, true, some fun _ => 0⟩) _ _ _ rfl rfl rfl (by simp)
  simp at this

/-- Two parameters of which one is in the file: both are initialised anew. -/
example : ∃ h', initCompound exRep exEnv ['s'] [] [0, 1] (.repo (Repo.empty.set (key ['s'] 0) ⟨[9], [1], [1]⟩))
    (fun _ => .leaf ⟨⟨some [0], [1], [1]⟩, false, some fun _ => 4⟩) = .ok h' ∧ h' 0 = .leaf ⟨⟨some [4], [1], [1]⟩, true, some fun _ => 4⟩ := ⟨_, rfl, rfl⟩

/-- A Q-network with one parameter in each network, saved and restored into another one. -/
example : ∃ states f g', saveQ exRep ⟨['q'], ['a'], [0], ['b'], [1]⟩ [] false false .absent
      (fun x => .leaf ⟨⟨some [x + 5], [1], [1]⟩, true, some fun _ => 4⟩) = .ok (states, true) ∧ states.getLast? = some f ∧
    initQ exRep exEnv ⟨['p'], ['c'], [7], ['d'], [9]⟩ ['q'] f (fun _ => .leaf ⟨⟨some [0], [1], [1]⟩, false, some fun _ => 4⟩) = .ok g' ∧
    g' 7 = .leaf ⟨⟨some [5], [1], [1]⟩, true, some fun _ => 4⟩ ∧ g' 9 = .leaf ⟨⟨some [6], [1], [1]⟩, true, some fun _ => 4⟩ :=
  ⟨_, _, _, rfl, rfl, rfl, rfl, rfl⟩

end Verif.Props
