import Verif.Spec.Meta
import Verif.Props.Ask
/-!
# C81: metadata and the axis of grouping
-/
namespace Verif.Props
open Meta Spec
open Ask (Arith Op Node Ext Wf Inv)
open scoped Classical

variable {fmt : ℝ → List Char} {env : Expr.Env} {S S' : Meta.St}

/-! ### Metadata of new nodes -/

theorem birth_other {nodes : List Node} {m : Map} {n k : Nat} (h : k ≠ n) : birth nodes m n k = m k := by
  unfold birth
  cases sourceOf nodes n with
  | none => rfl
  | some a => funext key; simp [extract, h]

theorem source_mem {o : Op} {args : List Nat} {a : Nat} (h : source o args = some a) : a ∈ args := by
  unfold source at h
  split at h <;> simp at h <;> simp [h]

theorem sourceOf_lt {nodes : List Node} (wf : ∀ (n : Nat) (o : Op) (args : List Nat), nodes[n]? = some (.op o args) → ∀ a ∈ args, a < n) {n a : Nat}
    (h : sourceOf nodes n = some a) : a < n := by
  unfold sourceOf at h
  cases e : nodes[n]? with
  | none => rw [e] at h; cases h
  | some x => cases x with
    | leaf => rw [e] at h; cases h
    | const d => rw [e] at h; cases h
    | op o args => rw [e] at h; exact wf n o args e a (source_mem h)

theorem sourceOf_iff {T : Ask.St} {n a : Nat} : sourceOf T.nodes n = some a ↔ TakesAfter T n a := by
  constructor
  · intro h
    unfold sourceOf at h
    cases e : T.nodes[n]? with
    | none => rw [e] at h; cases h
    | some x => cases x with
      | leaf => rw [e] at h; cases h
      | const d => rw [e] at h; cases h
      | op o args =>
        rw [e] at h
        simp only [source] at h
        split at h <;> simp only [Option.some.injEq, reduceCtorEq] at h <;> subst h
        · exact ⟨_, .inl ⟨_, e⟩⟩
        · exact ⟨_, .inr (.inl e)⟩
        · exact ⟨_, .inr (.inr (.inl e))⟩
        · exact ⟨_, .inr (.inr (.inr (.inr ⟨_, _, e⟩)))⟩
        · exact ⟨_, .inr (.inr (.inr (.inl ⟨_, _, e⟩)))⟩
  · rintro ⟨rest, ⟨k, e⟩ | e | e | ⟨nm, cmp, e⟩ | ⟨c, l, e⟩⟩ <;> (unfold IsOp at e; simp [sourceOf, e, source])

theorem births_split {nodes : List Node} {lo hi : Nat} (h : lo ≤ hi) (m : Map) : births nodes lo (hi + 1) m = birth nodes (births nodes lo hi m) hi := by
  unfold births
  rw [show hi + 1 - lo = (hi - lo) + 1 by omega, List.range'_concat, List.foldl_append]
  simp only [List.foldl_cons, List.foldl_nil]
  congr 1; omega

theorem births_old {nodes : List Node} {lo hi : Nat} (h : lo ≤ hi) (m : Map) {k : Nat} (hk : k < lo ∨ hi ≤ k) : births nodes lo hi m k = m k := by
  induction hi, h using Nat.le_induction with
  | base => simp [births]
  | succ hi h ih =>
    rw [births_split h, birth_other (by omega)]
    exact ih (by omega)

/-- Nodes that do not exist have no metadata. -/
def Clean (S : Meta.St) : Prop := ∀ k, S.base.nodes.length ≤ k → ∀ key, S.data k key = none

theorem births_new {nodes : List Node} {lo hi : Nat} (h : lo ≤ hi) {m : Map} (hm : ∀ k, lo ≤ k → ∀ key, m k key = none)
    (wf : ∀ (n : Nat) (o : Op) (args : List Nat), nodes[n]? = some (.op o args) → ∀ a ∈ args, a < n) {k : Nat} (h1 : lo ≤ k) (h2 : k < hi) (key : List Char) :
    (∀ a, sourceOf nodes k = some a → births nodes lo hi m k key = births nodes lo hi m a key) ∧
    (sourceOf nodes k = none → births nodes lo hi m k key = none) := by
  induction hi, h using Nat.le_induction with
  | base => omega
  | succ hi h ih =>
    rw [births_split h]
    by_cases c : k = hi
    · subst c
      have old : births nodes lo k m k key = none := by rw [births_old h m (Or.inr (Nat.le_refl k))]; exact hm k h key
      constructor
      · intro a ha
        have := sourceOf_lt wf ha
        rw [birth_other (nodes := nodes) (n := k) (k := a) (by omega)]
        simp only [birth, ha, extract, if_true, old]
      · intro ha
        simp only [birth, ha, old]
    · rw [birth_other (nodes := nodes) (n := hi) c]
      obtain ⟨i1, i2⟩ := ih (by omega)
      refine ⟨fun a ha => ?_, i2⟩
      have := sourceOf_lt wf ha
      rw [birth_other (nodes := nodes) (n := hi) (k := a) (by omega)]
      exact i1 a ha

/-! ### One call -/

theorem exec_step {c : Ask.Call} {r : Nat} (he : Meta.exec env c S = .ok (r, S')) :
    Ask.exec env c S.base = .ok (r, S'.base) ∧ S'.data = births S'.base.nodes S.base.nodes.length S'.base.nodes.length S.data := by
  unfold Meta.exec at he
  rw [Outcome.bind_eq_ok] at he
  obtain ⟨⟨n, T⟩, h1, h2⟩ := he
  cases h2
  exact ⟨h1, rfl⟩

/-- What a call of a function of the library does to metadata. -/
theorem exec_data (hW : Wf S.base) (hC : Clean S) {c : Ask.Call} {r : Nat} (he : Meta.exec env c S = .ok (r, S')) :
    (Wf S'.base ∧ Clean S' ∧ Ext S.base S'.base ∧ r < S'.base.nodes.length) ∧
    (∀ k, k < S.base.nodes.length → S'.data k = S.data k) ∧
    (∀ k, S.base.nodes.length ≤ k → k < S'.base.nodes.length → ∀ key, (∀ a, TakesAfter S'.base k a → S'.data k key = S'.data a key) ∧
      ((∀ a, ¬ TakesAfter S'.base k a) → S'.data k key = none)) := by
  obtain ⟨h1, h2⟩ := exec_step he
  obtain ⟨_, _, e, x, l, w, _⟩ := exec_gets hW h1
  cases e
  have le := x.le
  refine ⟨⟨w, fun k hk key => ?_, x, l⟩, fun k hk => ?_, fun k h3 h4 key => ?_⟩
  · rw [h2, births_old le _ (Or.inr hk)]; exact hC k (by omega) key
  · rw [h2, births_old le _ (Or.inl hk)]
  · obtain ⟨i1, i2⟩ := births_new le hC w h3 h4 key
    rw [h2]
    refine ⟨fun a ha => i1 a (sourceOf_iff.mpr ha), fun hn => i2 ?_⟩
    cases e : sourceOf S'.base.nodes k with
    | none => rfl
    | some a => exact absurd (sourceOf_iff.mp e) (hn a)

theorem set_ok {n : Nat} {key : List Char} {v r : Nat} (h : Meta.set n key v S = .ok (r, S')) :
    n < S.base.nodes.length ∧ r = n ∧ S'.base = S.base ∧ ∀ k q, S'.data k q = if k = n ∧ q = key then some v else S.data k q := by
  unfold Meta.set at h
  split at h
  · cases h; exact ⟨by assumption, rfl, rfl, fun _ _ => rfl⟩
  · cases h

theorem elem_makes {T T' : Ask.St} {k : Expr.K1} {a r : Nat} (h : Ask.exec env (.elem k a) T = .ok (r, T')) :
    T'.nodes.length = T.nodes.length ∨ (T'.nodes.length = T.nodes.length + 1 ∧ r = T.nodes.length) := by
  unfold Ask.exec at h
  split at h
  · simp only [Ask.body, Ask.get1] at h
    split at h
    · cases h; exact .inl rfl
    · simp only [Ask.push, Ask.note, Outcome.ok.injEq, Prod.mk.injEq] at h
      obtain ⟨rfl, rfl⟩ := h
      right; simp
  · cases h

/-- What any call does: existing nodes keep their metadata, new ones take it after their source; except where the call sets
it. -/
theorem step_data (hW : Wf S.base) (hC : Clean S) {c : Meta.Call} {r : Nat} (he : Meta.step env c S = .ok (r, S')) :
    (Wf S'.base ∧ Clean S' ∧ Ext S.base S'.base ∧ r < S'.base.nodes.length) ∧
    (∀ n key v, Sets c r n key v → S'.data n key = some v) ∧
    (∀ k key, (∀ v, ¬ Sets c r k key v) → (k < S.base.nodes.length → S'.data k key = S.data k key) ∧
      (S.base.nodes.length ≤ k → k < S'.base.nodes.length →
        (∀ a, TakesAfter S'.base k a → S'.data k key = S'.data a key) ∧ ((∀ a, ¬ TakesAfter S'.base k a) → S'.data k key = none))) := by
  cases c with
  | fn c =>
    obtain ⟨a, b, d⟩ := exec_data hW hC he
    refine ⟨a, ?_, fun k key _ => ⟨fun hk => by rw [b k hk], fun h1 h2 => d k h1 h2 key⟩⟩
    rintro n key v (h | ⟨_, _, _, h⟩) <;> cases h
  | arith o x y =>
    obtain ⟨a, b, d⟩ := exec_data hW hC he
    refine ⟨a, ?_, fun k key _ => ⟨fun hk => by rw [b k hk], fun h1 h2 => d k h1 h2 key⟩⟩
    rintro n key v (h | ⟨_, _, _, h⟩) <;> cases h
  | set n key v =>
    obtain ⟨h1, rfl, h3, h4⟩ := set_ok he
    refine ⟨⟨h3 ▸ hW, fun k hk q => ?_, h3 ▸ Ext.rfl, h3 ▸ h1⟩, ?_, fun k q hn => ⟨fun _ => ?_, fun h5 h6 => ?_⟩⟩
    · rw [h3] at hk
      rw [h4, if_neg (by rintro ⟨rfl, _⟩; omega)]; exact hC k hk q
    · rintro n' key' v' (h | ⟨_, _, _, h⟩)
      · cases h; rw [h4, if_pos ⟨rfl, rfl⟩]
      · cases h
    · rw [h4, if_neg]
      rintro ⟨rfl, rfl⟩; exact hn v (.inl rfl)
    · rw [h3] at h6; omega
  | reduceGrad axis b =>
    simp only [Meta.step] at he
    rw [Outcome.bind_eq_ok] at he
    obtain ⟨⟨n, S1⟩, e1, e2⟩ := he
    obtain ⟨⟨w, cl, x, l⟩, old, new⟩ := exec_data hW hC e1
    obtain ⟨h1, rfl, h3, h4⟩ := set_ok e2
    refine ⟨⟨h3 ▸ w, fun k hk q => ?_, h3 ▸ x, h3 ▸ l⟩, ?_, fun k q hn => ?_⟩
    · rw [h3] at hk
      rw [h4, if_neg (by rintro ⟨rfl, _⟩; omega)]; exact cl k hk q
    · rintro n' key' v' (h | ⟨rfl, rfl, _, h⟩)
      · cases h
      · cases h; rw [h4, if_pos ⟨rfl, rfl⟩]
    · have hk : ¬ (k = r ∧ q = groupKey) := by
        rintro ⟨rfl, rfl⟩; exact hn axis (.inr ⟨rfl, rfl, b, rfl⟩)
      rw [h4, if_neg hk]
      refine ⟨fun h5 => by rw [old k h5], fun h5 h6 => ?_⟩
      rw [h3] at h6 ⊢
      refine ⟨fun a ha => ?_, (new k h5 h6 q).2⟩
      rw [(new k h5 h6 q).1 a ha, h4, if_neg]
      rintro ⟨rfl, rfl⟩
      obtain ⟨e3, _⟩ := exec_step e1
      have lt := sourceOf_lt w (sourceOf_iff.mpr ha)
      dsimp only at *
      rcases elem_makes e3 with c | ⟨c1, c2⟩ <;> omega

theorem init_clean : Clean Meta.St.init := fun _ _ _ => rfl

theorem runs_wf {tr : List (Meta.Call × Nat)} (h : Runs fmt Meta.St.init tr S) : Wf S.base ∧ Clean S := by
  induction h with
  | nil => exact ⟨init_wf, init_clean⟩
  | snoc h1 h2 ih =>
    obtain ⟨w, c⟩ := ih
    obtain ⟨⟨w', c', _⟩, _⟩ := step_data w c h2
    exact ⟨w', c'⟩

/-! ## C81 -/

/-- Existing nodes keep their metadata through every call except those that set it: neither finding a node again nor
building on it changes anything. -/
theorem c81_kept {tr : List (Meta.Call × Nat)} (hr : Runs fmt Meta.St.init tr S) {h : Expr.Hash} {c : Meta.Call} {r : Nat}
    (he : Meta.step ⟨h, fmt⟩ c S = .ok (r, S')) (k : Nat) (hk : k < S.base.nodes.length) (key : List Char) (hn : ∀ v, ¬ Sets c r k key v) :
    S'.data k key = S.data k key := by
  obtain ⟨w, c⟩ := runs_wf hr
  exact ((step_data w c he).2.2 k key hn).1 hk

/-- A new node has the metadata its source has at that moment, and none if it takes after nobody. -/
theorem c81_born {tr : List (Meta.Call × Nat)} (hr : Runs fmt Meta.St.init tr S) {h : Expr.Hash} {c : Meta.Call} {r : Nat}
    (he : Meta.step ⟨h, fmt⟩ c S = .ok (r, S')) (k : Nat) (h1 : S.base.nodes.length ≤ k) (h2 : k < S'.base.nodes.length) (key : List Char)
    (hn : ∀ v, ¬ Sets c r k key v) :
    (∀ a, TakesAfter S'.base k a → S'.data k key = S'.data a key) ∧ ((∀ a, ¬ TakesAfter S'.base k a) → S'.data k key = none) := by
  obtain ⟨w, c⟩ := runs_wf hr
  exact ((step_data w c he).2.2 k key hn).2 h1 h2

theorem takes_lt {T : Ask.St} (w : Wf T) {n a : Nat} (h : TakesAfter T n a) : a < n := sourceOf_lt w (sourceOf_iff.mpr h)

theorem takes_back {T T' : Ask.St} (x : Ext T T') {n a : Nat} (hn : n < T.nodes.length) (h : TakesAfter T' n a) : TakesAfter T n a := by
  obtain ⟨rest, h⟩ := h
  refine ⟨rest, ?_⟩
  rcases h with ⟨k, e⟩ | e | e | ⟨nm, cmp, e⟩ | ⟨c, l, e⟩
  · exact .inl ⟨k, x.back hn e⟩
  · exact .inr (.inl (x.back hn e))
  · exact .inr (.inr (.inl (x.back hn e)))
  · exact .inr (.inr (.inr (.inl ⟨nm, cmp, x.back hn e⟩)))
  · exact .inr (.inr (.inr (.inr ⟨c, l, x.back hn e⟩)))

theorem takes_len {T : Ask.St} {n a : Nat} (h : TakesAfter T n a) : n < T.nodes.length := by
  have key : ∀ o args, IsOp T n o args → n < T.nodes.length := fun o args e => (List.getElem?_eq_some_iff.1 e).1
  obtain ⟨rest, ⟨k, e⟩ | e | e | ⟨nm, cmp, e⟩ | ⟨c, l, e⟩⟩ := h
  all_goals exact key _ _ e

theorem takes_mono {T T' : Ask.St} (x : Ext T T') {n a : Nat} (h : TakesAfter T n a) : TakesAfter T' n a := by
  obtain ⟨rest, h⟩ := h
  refine ⟨rest, ?_⟩
  rcases h with ⟨k, e⟩ | e | e | ⟨nm, cmp, e⟩ | ⟨c, l, e⟩
  · exact .inl ⟨k, x.get e⟩
  · exact .inr (.inl (x.get e))
  · exact .inr (.inr (.inl (x.get e)))
  · exact .inr (.inr (.inr (.inl ⟨nm, cmp, x.get e⟩)))
  · exact .inr (.inr (.inr (.inr ⟨c, l, x.get e⟩)))

/-- What was last set on a node is what it has. -/
theorem c81_set {tr : List (Meta.Call × Nat)} (hr : Runs fmt Meta.St.init tr S) (n : Nat) (key : List Char) (v : Nat) (hs : LastSet n key v tr) :
    S.data n key = some v := by
  have aux : S.data n key = some v ∧ n < S.base.nodes.length := by
    induction hr with
    | nil => generalize e : ([] : List (Meta.Call × Nat)) = l at hs; cases hs <;> simp at e
    | @snoc S1 S2 tr' h c r h1 h2 ih =>
      obtain ⟨w, cl⟩ := runs_wf h1
      obtain ⟨⟨w', c', x, l⟩, st, ke⟩ := step_data w cl h2
      generalize e : tr' ++ [(c, r)] = l' at hs
      cases hs with
      | now hx =>
        obtain ⟨rfl, e2⟩ := List.append_inj' e rfl
        cases e2
        refine ⟨st n key v hx, ?_⟩
        rcases hx with rfl | ⟨rfl, _⟩
        · simp only [Meta.step] at h2
          obtain ⟨h5, _, h6, _⟩ := set_ok h2
          rw [h6]; exact h5
        · exact l
      | before hx hs' =>
        obtain ⟨rfl, e2⟩ := List.append_inj' e rfl
        cases e2
        obtain ⟨i1, i2⟩ := ih hs'
        exact ⟨by rw [(ke n key hx).1 i2]; exact i1, Nat.lt_of_lt_of_le i2 x.le⟩
  exact aux.1

/-- A node on which a key was never set, and which takes after nobody, does not have it. -/
theorem c81_none {tr : List (Meta.Call × Nat)} (hr : Runs fmt Meta.St.init tr S) (n : Nat) (key : List Char) (hs : NeverSet n key tr)
    (ht : ∀ a, ¬ TakesAfter S.base n a) : S.data n key = none := by
  induction hr with
  | nil => rfl
  | @snoc S1 S2 tr' h c r h1 h2 ih =>
    obtain ⟨w, cl⟩ := runs_wf h1
    obtain ⟨⟨w', c', x, l⟩, st, ke⟩ := step_data w cl h2
    have hx : ∀ v, ¬ Sets c r n key v := fun v => hs c r v (by simp)
    by_cases k1 : n < S1.base.nodes.length
    · rw [(ke n key hx).1 k1]
      exact ih (fun c r v hm => hs c r v (by simp [hm])) (fun a ha => ht a (takes_mono x ha))
    · by_cases k2 : n < S2.base.nodes.length
      · exact ((ke n key hx).2 (by omega) k2).2 ht
      · exact c' n (by omega) key

theorem early_runs {S0 : Meta.St} {tr : List (Meta.Call × Nat)} (h : Early fmt S0 tr S) : Runs fmt S0 tr S := by
  induction h with
  | nil => exact .nil _
  | snoc _ h2 _ ih => exact .snoc ih h2

/-- C81.  If metadata is only set on nodes nobody takes after yet, then at any time every node on which a key was never set
has the value of the node it takes after: metadata is a function of the graph and of what was set. -/
theorem c81_inherited {tr : List (Meta.Call × Nat)} (hr : Early fmt Meta.St.init tr S) (n a : Nat) (key : List Char) (hs : NeverSet n key tr)
    (ht : TakesAfter S.base n a) : S.data n key = S.data a key := by
  induction hr with
  | nil => have := takes_len ht; simp [Meta.St.init, Ask.St.init] at this
  | @snoc S1 S2 tr' h c r h1 h2 hE ih =>
    obtain ⟨w, cl⟩ := runs_wf (early_runs h1)
    obtain ⟨⟨w', c', x, l⟩, st, ke⟩ := step_data w cl h2
    have hx : ∀ v, ¬ Sets c r n key v := fun v => hs c r v (by simp)
    have lt := takes_lt w' ht
    by_cases k1 : n < S1.base.nodes.length
    · have ht1 := takes_back x k1 ht
      have i := ih (fun c r v hm => hs c r v (by simp [hm])) ht1
      rw [(ke n key hx).1 k1, i]
      by_cases hv : ∃ v, Sets c r a key v
      · obtain ⟨v, hv⟩ := hv
        rw [st a key v hv]
        exact hE a key v hv n ht1
      · rw [(ke a key (fun v h => hv ⟨v, h⟩)).1 (by omega)]
    · exact ((ke n key hx).2 (by omega) (takes_len ht)).1 a ht

/-! ### The axis of grouping -/

theorem step_base (hW : Wf S.base) (hC : Clean S) {c : Meta.Call} {r : Nat} (he : Meta.step env c S = .ok (r, S')) :
    Inv S.base → Apart env.fmt S'.base → Inv S'.base := by
  cases c with
  | fn c =>
    obtain ⟨h1, _⟩ := exec_step he
    obtain ⟨_, _, e, _, _, _, g⟩ := exec_gets hW h1
    cases e
    exact fun i a => (g i a).1
  | arith o x y =>
    obtain ⟨h1, _⟩ := exec_step he
    obtain ⟨_, _, e, _, _, _, g⟩ := exec_gets hW h1
    cases e
    exact fun i a => (g i a).1
  | set n key v =>
    obtain ⟨_, _, h3, _⟩ := set_ok he
    rw [h3]; exact fun i _ => i
  | reduceGrad axis b =>
    simp only [Meta.step] at he
    rw [Outcome.bind_eq_ok] at he
    obtain ⟨⟨n, S1⟩, e1, e2⟩ := he
    obtain ⟨_, _, h3, _⟩ := set_ok e2
    obtain ⟨h1, _⟩ := exec_step e1
    obtain ⟨_, _, e, _, _, _, g⟩ := exec_gets hW h1
    cases e
    rw [h3]
    exact fun i a => (g i a).1

theorem runs_inv {tr : List (Meta.Call × Nat)} (h : Runs fmt Meta.St.init tr S) (hA : Apart fmt S.base) : Inv S.base := by
  induction h with
  | nil => exact Ask.init_inv
  | @snoc S1 S2 tr' h c r h1 h2 ih =>
    obtain ⟨w, cl⟩ := runs_wf h1
    obtain ⟨⟨_, _, x, _⟩, _⟩ := step_data w cl h2
    exact step_base w cl h2 (ih (Ask.Apart.back x hA)) hA

/-- The operators on two nodes work along the axis the nodes are grouped by at the moment of the call. -/
theorem c81_dispatch {tr : List (Meta.Call × Nat)} (hr : Runs fmt Meta.St.init tr S) {h : Expr.Hash} (o : Arith) (a b r : Nat)
    (he : Meta.step ⟨h, fmt⟩ (.arith o a b) S = .ok (r, S')) (hA : Apart fmt S'.base) :
    Grouped S'.base o (S.data a "grouping".toList) (S.data b "grouping".toList) a b r := by
  obtain ⟨w, cl⟩ := runs_wf hr
  simp only [Meta.step] at he
  obtain ⟨h1, _⟩ := exec_step he
  obtain ⟨_, _, e, x, _, _, g⟩ := exec_gets w h1
  cases e
  have m := (g (runs_inv hr (Ask.Apart.back x hA)) hA).2
  have nc : ∀ cap a', dispatch o (S.data a groupKey) (S.data b groupKey) a b ≠ .clipNorm cap a' := by
    intro cap a'
    unfold dispatch
    split <;> (try split) <;> simp
  have m : Means S'.base (dispatch o (S.data a groupKey) (S.data b groupKey) a b) r := by
    rcases m with m | ⟨cap, a', b', e, _⟩
    · exact m
    · exact absurd e (nc cap a')
  change Grouped S'.base o (S.data a groupKey) (S.data b groupKey) a b r
  generalize S.data a groupKey = ga at m ⊢
  generalize S.data b groupKey = gb at m ⊢
  unfold dispatch at m
  cases ga with
  | none => cases gb with
    | none => exact .inr (.inr ⟨.inl ⟨rfl, rfl⟩, m⟩)
    | some j => exact .inr (.inl ⟨j, rfl, rfl, m⟩)
  | some i => cases gb with
    | none => exact .inl ⟨i, rfl, .inl rfl, m⟩
    | some j =>
      simp only at m
      split at m
      · next c => exact .inl ⟨i, rfl, .inr (by rw [c]), m⟩
      · next c => exact .inr (.inr ⟨.inr ⟨i, j, rfl, rfl, c⟩, m⟩)

/-- The gradients of a reduction along one axis: the identity of the gradient of its argument, grouped by that axis. -/
theorem c81_reduce {tr : List (Meta.Call × Nat)} (hr : Runs fmt Meta.St.init tr S) {h : Expr.Hash} (i b r : Nat)
    (he : Meta.step ⟨h, fmt⟩ (.reduceGrad i b) S = .ok (r, S')) (hA : Apart fmt S'.base) :
    IsOp S'.base r (.elem .ident) [b] ∧ S'.data r "grouping".toList = some i := by
  obtain ⟨w, cl⟩ := runs_wf hr
  refine ⟨?_, (step_data w cl he).2.1 r _ i (.inr ⟨rfl, rfl, b, rfl⟩)⟩
  simp only [Meta.step] at he
  rw [Outcome.bind_eq_ok] at he
  obtain ⟨⟨n, S1⟩, e1, e2⟩ := he
  obtain ⟨_, rfl, h3, _⟩ := set_ok e2
  obtain ⟨h1, _⟩ := exec_step e1
  obtain ⟨_, _, e, x, _, _, g⟩ := exec_gets w h1
  cases e
  rw [h3] at hA ⊢
  rcases (g (runs_inv hr (Ask.Apart.back x hA)) hA).2 with m | ⟨_, _, _, e, _⟩
  · exact m
  · cases e

theorem runs_ext {S0 : Meta.St} {tr : List (Meta.Call × Nat)} (h : Runs fmt S0 tr S) (w : Wf S0.base) (cl : Clean S0) :
    Wf S.base ∧ Clean S ∧ Ext S0.base S.base := by
  induction h with
  | nil => exact ⟨w, cl, .rfl⟩
  | @snoc S1 S2 tr' h c r h1 h2 ih =>
    obtain ⟨w1, c1, x1⟩ := ih
    obtain ⟨⟨w', c', x, _⟩, _⟩ := step_data w1 c1 h2
    exact ⟨w', c', x1.trans x⟩

theorem runs_append {S0 S1 S2 : Meta.St} {tr tr' : List (Meta.Call × Nat)} (h : Runs fmt S0 tr S1) (h' : Runs fmt S1 tr' S2) : Runs fmt S0 (tr ++ tr') S2 := by
  induction h' with
  | nil => simpa using h
  | snoc _ h2 ih => rw [← List.append_assoc]; exact .snoc ih h2

/-- C81, what does not hold: reductions whose arguments have the same gradient b share one gradient node, and the axis of the
one differentiated last is everybody's.  A product of the first gradient with a node of no axis is then taken along the
wrong axis. -/
theorem c81_overwritten {tr tr' : List (Meta.Call × Nat)} (hr : Runs fmt Meta.St.init tr S) {h h' : Expr.Hash} (i j b n m : Nat) {S1 S2 S3 : Meta.St}
    (h1 : Meta.step ⟨h, fmt⟩ (.reduceGrad i b) S = .ok (n, S1)) (h2 : Runs fmt S1 tr' S2)
    (h3 : Meta.step ⟨h', fmt⟩ (.reduceGrad j b) S2 = .ok (m, S3)) (hA : Apart fmt S3.base) :
    m = n ∧ S1.data n "grouping".toList = some i ∧ S3.data n "grouping".toList = some j ∧
    ∀ (h : Expr.Hash) (o : Arith) (x r : Nat) (S4 : Meta.St), S3.data x "grouping".toList = none → Meta.step ⟨h, fmt⟩ (.arith o n x) S3 = .ok (r, S4) → Apart fmt S4.base →
      Binary S4.base o (.axial o false j) n x r := by
  have r1 : Runs fmt Meta.St.init (tr ++ [(.reduceGrad i b, n)]) S1 := .snoc hr h1
  have r2 := runs_append r1 h2
  have r3 := Runs.snoc r2 h3
  obtain ⟨w1, c1⟩ := runs_wf r1
  obtain ⟨w2, c2⟩ := runs_wf r2
  obtain ⟨_, _, x2⟩ := runs_ext h2 w1 c1
  obtain ⟨⟨_, _, x3, _⟩, _⟩ := step_data w2 c2 h3
  have A2 := Ask.Apart.back x3 hA
  have A1 := Ask.Apart.back x2 A2
  obtain ⟨o1, d1⟩ := c81_reduce hr i b n h1 A1
  obtain ⟨o3, d3⟩ := c81_reduce r2 j b m h3 hA
  have I3 := runs_inv r3 hA
  have e : m = n := I3.uniq m n _ _ o3 (x3.get (x2.get o1)) (by simp)
  subst e
  refine ⟨rfl, d1, d3, fun h o x r S4 hx h4 hA4 => ?_⟩
  rcases c81_dispatch r3 o m x r h4 hA4 with ⟨k, e1, _, hb⟩ | ⟨k, e1, _⟩ | ⟨e1 | ⟨k, l, _, e1, _⟩, _⟩
  · rw [d3] at e1; cases e1; exact hb
  · rw [d3] at e1; cases e1
  · rw [d3] at e1; cases e1.1
  · rw [hx] at e1; cases e1

end Verif.Props
