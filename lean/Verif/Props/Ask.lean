import Verif.Lemmas.AskNames
/-!
# C79: which node an operator returns
-/
namespace Verif.Props
open Spec Ask
open Expr (K1 Hash)
open scoped Classical
variable {S S' S1 S2 S3 : St} {fmt : ℝ → List Char} {env : Expr.Env} {h h' : Hash} {cs cs' : List (Hash × Call)}

/-- What a call returns: what was asked for, or, asked to clip the norm of a node b, b clipped. -/
def Gives (S : St) (c : Call) (n : Nat) : Prop :=
  Means S c n ∨ ∃ cap a b, c = .clipNorm cap a ∧ IsOp S a .l2norm [b] ∧ IsOp S n (.clipNorm cap) [a, b]

theorem binary_gets (hW : Wf S) {o : Arith} {op : Op} (ho : Binary2 op) (hu : Either op = o.unordered) (hT : ∀ i j, op ≠ .transpose i j) {a b : Nat}
    (ha : a < S.nodes.length) (hb : b < S.nodes.length) :
    Gets env.fmt S ((if a = b then onSame env o a op else get2 env op o.unordered a b) S) (fun S' n => Binary S' o op a b n) := by
  by_cases hab : a = b
  · subst hab
    rw [if_pos rfl]
    cases o with
    | add => exact (get2_gets hW ho (by simpa [Arith.unordered] using hu) ha ha hT).weaken fun _ _ _ h => .inl (h.elim id fun h => h.2)
    | sub => exact (push_gets hW (fun _ _ h => by cases h)).weaken fun _ _ _ h => .inr ⟨rfl, h⟩
    | mul => exact (get1_gets hW (fun _ _ => Iff.rfl) ha (fun _ _ h => by cases h) rfl).weaken fun _ _ _ h => .inr ⟨rfl, h⟩
    | div => exact (push_gets hW (fun _ _ h => by cases h)).weaken fun _ _ _ h => .inr ⟨rfl, h⟩
  · rw [if_neg hab]
    refine (get2_gets hW ho hu ha hb hT).weaken fun _ _ _ h => ?_
    cases o with
    | add => exact h.imp id fun h => h.2
    | sub => exact .inl ⟨hab, h.resolve_right fun h => by cases h.1⟩
    | mul => exact .inl ⟨hab, h.imp id fun h => h.2⟩
    | div => exact .inl ⟨hab, h.resolve_right fun h => by cases h.1⟩

theorem ordered_gets (hW : Wf S) {op : Op} (ho : Binary2 op) (hu : Either op = false) (hT : ∀ i j, op ≠ .transpose i j) {a b : Nat}
    (ha : a < S.nodes.length) (hb : b < S.nodes.length) : Gets env.fmt S (get2 env op false a b S) (fun S' n => IsOp S' n op [a, b]) :=
  (get2_gets hW ho hu ha hb hT).weaken fun _ _ _ h => h.resolve_right fun h => by cases h.1

theorem single_gets (hW : Wf S) {op : Op} (ho : Unary op) (hu : Either op = false) (hT : ∀ i j, op ≠ .transpose i j) {a : Nat}
    (ha : a < S.nodes.length) : Gets env.fmt S (get1 env op a (push (.op op [a])) S) (fun S' n => IsOp S' n op [a]) :=
  get1_gets hW ho ha (fun i j h => absurd h (hT i j)) hu

theorem isOp_mono {o : Op} {args : List Nat} : ∀ S S' n, Ext S S' → IsOp S n o args → IsOp S' n o args := fun _ _ _ h hn => h.get hn

theorem mean_gets (hW : Wf S) {name : List Char} {f : Shape → Outcome (List Nat)} {k : Option Nat} {a : Nat} (ha : a < S.nodes.length) :
    Gets env.fmt S (andThen (getExtract env name f [a]) (fun d =>
      andThen (get1 env (.compress "reduce_sum".toList sumOf k) a (push (.op (.compress "reduce_sum".toList sumOf k) [a]))) fun s =>
      get2 env (.arith .div) false s d) S)
      (fun S' n => ∃ s d, IsOp S' s (.compress "reduce_sum".toList sumOf k) [a] ∧ IsOp S' d (.extract name f) [a] ∧ IsOp S' n (.arith .div) [s, d]) := by
  refine (andThen_gets (P := fun S' d => IsOp S' d (.extract name f) [a])
    (Q := fun d S' n => ∃ s, IsOp S' s (.compress "reduce_sum".toList sumOf k) [a] ∧ IsOp S' n (.arith .div) [s, d])
    isOp_mono (getExtract_gets hW (by simp) (by simpa using ha)) fun d S1 e1 l1 w1 => ?_).weaken ?_
  · exact andThen_gets (P := fun S' s => IsOp S' s (.compress "reduce_sum".toList sumOf k) [a]) (Q := fun s S' n => IsOp S' n (.arith .div) [s, d])
      isOp_mono (single_gets w1 (fun _ _ => Iff.rfl) rfl (fun _ _ h => by cases h) (Nat.lt_of_lt_of_le ha e1.le)) fun s S2 e2 l2 w2 =>
      ordered_gets w2 (fun _ _ => Iff.rfl) rfl (fun _ _ h => by cases h) l2 (Nat.lt_of_lt_of_le l1 e2.le)
  rintro S3 n _ ⟨d, h1, s, h2, h3⟩
  exact ⟨s, d, h2, h1, h3⟩

theorem flag_gets (hW : Wf S) {a : Nat} (ha : a < S.nodes.length) (t : Bool) :
    Gets env.fmt S ((if t then transposed env a else ret a) S) (fun S' n => t = true ∧ Transposed S' 0 1 a n ∨ t = false ∧ n = a) := by
  cases t with
  | true => exact (transposed_gets hW ha).weaken fun _ _ _ h => .inl ⟨rfl, h⟩
  | false => exact ret_gets hW ha (.inr ⟨rfl, rfl⟩)

theorem constData_some {a : Nat} {d : List ℝ} : constData S a = some d ↔ IsConst S a d := by
  unfold constData IsConst
  split
  · rename_i h; rw [h]; simp
  · rename_i h
    constructor
    · intro h; cases h
    · intro h'; exact absurd h' (h d)

/-- Every allowed call. -/
theorem body_gets (hW : Wf S) (c : Call) (hc : ∀ a ∈ c.args, a < S.nodes.length) (hf : Allowed S c) :
    Gets env.fmt S (body env c S) (fun S' n => Gives S' c n) := by
  have lift : ∀ {r : Outcome (Nat × St)}, Gets env.fmt S r (fun S' n => Means S' c n) → Gets env.fmt S r (fun S' n => Gives S' c n) :=
    fun h => h.weaken fun _ _ _ h => .inl h
  cases c with
  | leaf => exact lift (push_gets hW (fun _ _ h => by cases h))
  | const d => exact lift (push_gets hW (fun _ _ h => by cases h))
  | elem k a => exact lift (single_gets hW (fun _ _ => Iff.rfl) rfl (fun _ _ h => by cases h) (hc a (by simp [Call.args])))
  | arith o a b => exact lift (binary_gets hW (fun _ _ => Iff.rfl) rfl (fun _ _ h => by cases h) (hc a (by simp [Call.args])) (hc b (by simp [Call.args])))
  | axial o l k a b => exact lift (binary_gets hW (fun _ _ => Iff.rfl) rfl (fun _ _ h => by cases h) (hc a (by simp [Call.args])) (hc b (by simp [Call.args])))
  | cond name cmp a b => exact lift (ordered_gets hW (fun _ _ => Iff.rfl) rfl (fun _ _ h => by cases h) (hc a (by simp [Call.args])) (hc b (by simp [Call.args])))
  | transpose i j a => exact lift (transpose_gets hW (hc a (by simp [Call.args])))
  | fit a b =>
    refine lift ?_
    have ha := hc a (by simp [Call.args])
    simp only [body]
    by_cases h0 : constData S a = some [0]
    · rw [if_pos h0]
      refine ret_gets hW ha (.inl ⟨?_, rfl⟩)
      unfold constData at h0
      split at h0
      · rename_i h; cases h0; exact h
      · cases h0
    · rw [if_neg h0]
      obtain ⟨m, T, h1, h2, h3, h4, h5⟩ := ordered_gets (env := env) hW (op := .fit) (fun _ _ => Iff.rfl) rfl (fun _ _ h => by cases h) ha (hc b (by simp [Call.args]))
      refine ⟨m, T, h1, h2, h3, h4, fun hI hA => ⟨(h5 hI hA).1, .inr ⟨fun hz => h0 ?_, (h5 hI hA).2⟩⟩⟩
      have := h2.back ha hz
      simp [constData, this]
  | extend i m a =>
    refine lift ?_
    simp only [body]
    by_cases h0 : m = 0
    · rw [if_pos h0]
      exact (push_gets hW (fun _ _ h => by cases h)).weaken fun _ _ _ h => .inl ⟨h0, h⟩
    · rw [if_neg h0]
      by_cases h1 : m = 1
      · rw [if_pos h1]
        exact ret_gets hW (hc a (by simp [Call.args])) (.inr (.inl ⟨h1, rfl⟩))
      · rw [if_neg h1]
        exact (single_gets hW (fun _ _ => Iff.rfl) rfl (fun _ _ h => by cases h) (hc a (by simp [Call.args]))).weaken fun _ _ _ h => .inr (.inr ⟨by omega, h⟩)
  | compress name f k a => exact lift (single_gets hW (fun _ _ => Iff.rfl) rfl (fun _ _ h => by cases h) (hc a (by simp [Call.args])))
  | argCompress name f k a => exact lift (single_gets hW (fun _ _ => Iff.rfl) rfl (fun _ _ h => by cases h) (hc a (by simp [Call.args])))
  | mean k a =>
    cases k with
    | none => 
      have h := mean_gets (env := env) (k := none) (name := "shape_nelems".toList) (f := allSize) hW (hc a (by simp [Call.args]))
      rw [allSize_eq] at h
      exact lift (by simp only [body, allSize_eq]; exact h)
    | some k =>
      have h := mean_gets (env := env) (k := some k) (name := "axis_".toList ++ dec k ++ "_size".toList) (f := axisSize k) hW (hc a (by simp [Call.args]))
      rw [axisSize_eq] at h
      exact lift (by simp only [body, axisSize_eq]; exact h)
  | flip ds a => exact lift (single_gets hW (fun _ _ => Iff.rfl) rfl (fun _ _ h => by cases h) (hc a (by simp [Call.args])))
  | cross i j a b => exact lift (ordered_gets hW (fun _ _ => Iff.rfl) rfl (fun _ _ h => by cases h) (hc a (by simp [Call.args])) (hc b (by simp [Call.args])))
  | conv i j a b =>
    have ha := hc a (by simp [Call.args])
    exact lift (andThen_gets isOp_mono (single_gets hW (fun _ _ => Iff.rfl) rfl (fun _ _ h => by cases h) (hc b (by simp [Call.args]))) fun f S1 e1 l1 w1 =>
      ordered_gets w1 (fun _ _ => Iff.rfl) rfl (fun _ _ h => by cases h) (Nat.lt_of_lt_of_le ha e1.le) l1)
  | matmul ta tb a b =>
    have ha := hc a (by simp [Call.args])
    have hb := hc b (by simp [Call.args])
    have mono : ∀ (t : Bool) (a : Nat), ∀ S S' n, Ext S S' → (t = true ∧ Transposed S 0 1 a n ∨ t = false ∧ n = a) → (t = true ∧ Transposed S' 0 1 a n ∨ t = false ∧ n = a) :=
      fun t a _ _ _ h => Or.imp (fun x => ⟨x.1, Transposed.mono h x.2⟩) id
    simp only [body]
    refine lift ((andThen_gets (fmt := env.fmt) (P := fun S' n => ta = true ∧ Transposed S' 0 1 a n ∨ ta = false ∧ n = a)
      (Q := fun a' S' n => ∃ b', (tb = true ∧ Transposed S' 0 1 b b' ∨ tb = false ∧ b' = b) ∧ IsOp S' n .matmul [a', b'])
      (mono ta a) (flag_gets (env := env) hW ha ta) fun a' S1 e1 l1 w1 => ?_).weaken ?_)
    · exact andThen_gets (P := fun S' n => tb = true ∧ Transposed S' 0 1 b n ∨ tb = false ∧ n = b) (Q := fun b' S' n => IsOp S' n .matmul [a', b'])
        (mono tb b) (flag_gets w1 (Nat.lt_of_lt_of_le hb e1.le) tb) fun b' S2 e2 l2 w2 =>
        ordered_gets w2 (fun _ _ => Iff.rfl) rfl (fun _ _ h => by cases h) (Nat.lt_of_lt_of_le l1 e2.le) l2
    rintro S3 n _ ⟨a', h1, b', h2, h3⟩
    exact ⟨a', b', h1, h2, h3⟩
  | l2norm a =>
    obtain ⟨m, T, h1, h2, h3, h4, h5⟩ := l2norm_gets (env := env) hW (hc a (by simp [Call.args]))
    refine lift ⟨m, T, h1, h2, h3, h4, fun hI hA => ⟨(h5 hI hA).1, (h5 hI hA).2.imp ?_ fun h => ⟨fun d hd => h.1 d (h2.back (hc a (by simp [Call.args])) hd), h.2⟩⟩⟩
    rintro ⟨d, hd, hm⟩
    exact ⟨d, h2.get hd, hm⟩
  | clipNorm cap a =>
    have ha := hc a (by simp [Call.args])
    simp only [body]
    · rw [if_pos (show 0 < cap from hf)]
      cases hk : constData S a with
      | some d =>
        have hd : IsConst S a d := by
          unfold constData at hk
          split at hk
          · rename_i h; cases hk; exact h
          · cases hk
        obtain ⟨m, T, h1, h2, h3, h4, h5⟩ := push_gets (fmt := env.fmt) hW (x := .const (clipData cap d)) (fun _ _ h => by cases h)
        exact ⟨m, T, h1, h2, h3, h4, fun hI hA => ⟨(h5 hI hA).1, .inl (.inl ⟨d, h2.get hd, by rw [← clipData_eq]; exact (h5 hI hA).2⟩)⟩⟩
      | none =>
        have hd : ∀ d, ¬ IsConst S a d := by
          intro d h
          simp [constData, show S.nodes[a]? = _ from h] at hk
        obtain ⟨m, T, h1, h2, h3, h4, h5⟩ := clip_gets (env := env) (c := cap) hW ha hd
        refine ⟨m, T, h1, h2, h3, h4, fun hI hA => ⟨(h5 hI hA).1, ?_⟩⟩
        rcases (h5 hI hA).2 with h | ⟨b, hb1, hb2⟩
        · exact .inl (.inr ⟨fun d h' => hd d (h2.back ha h'), h⟩)
        · exact .inr ⟨cap, a, b, rfl, hb1, hb2⟩
  | sample m a =>
    have ha := hc a (by simp [Call.args])
    simp only [body]
    cases hk : constData S a with
    | some d =>
      have hd : d = [] := hf d (constData_some.1 hk)
      simp only
      · rw [if_pos hd]
        have hd' : IsConst S a [] := by
          unfold constData at hk
          split at hk
          · rename_i h; cases hk; rw [← hd]; exact h
          · cases hk
        obtain ⟨m', T, h1, h2, h3, h4, h5⟩ := push_gets (fmt := env.fmt) hW (x := .const []) (fun _ _ h => by cases h)
        exact lift ⟨m', T, h1, h2, h3, h4, fun hI hA => ⟨(h5 hI hA).1, .inl ⟨h2.get hd', (h5 hI hA).2⟩⟩⟩
    | none =>
      have hd : ∀ d, ¬ IsConst S a d := by
        intro d h
        simp [constData, show S.nodes[a]? = _ from h] at hk
      obtain ⟨m', T, h1, h2, h3, h4, h5⟩ := single_gets (env := env) hW (op := .sample m) (fun _ _ => Iff.rfl) rfl (fun _ _ h => by cases h) ha
      exact lift ⟨m', T, h1, h2, h3, h4, fun hI hA => ⟨(h5 hI hA).1, .inr ⟨fun d h => hd d (h2.back ha h), (h5 hI hA).2⟩⟩⟩
  | asConst a =>
    have ha := hc a (by simp [Call.args])
    have ha' : ∀ b ∈ [a], b < S.nodes.length := by simpa using ha
    simp only [body]
    refine lift ?_
    cases hh : (audience env S a "constant_immutable".toList).head? with
    | some p =>
      have hp := mem_audience.1 (List.mem_of_mem_head? hh)
      refine ⟨p, _, rfl, note_ext _, ?_, hW, fun hI hA => ?_⟩
      · obtain ⟨_, _, h1, _⟩ := hp
        exact isOp_lt h1
      · obtain ⟨o, args, h1, _, h3⟩ := hp
        exact absurd h3 (hA.2 o (List.mem_cons_of_mem _ (hI.asked _ _ _ h1)))
    | none =>
      exact ⟨S.nodes.length, _, rfl, (note_ext _).trans ⟨⟨_, rfl⟩, fun _ h => h⟩, by simp [note], push_wf (S := note .asConst S) hW (fun _ _ h => (by cases h; exact ha')),
        fun hI _ => ⟨push_inv (note_inv hI) List.mem_cons_self ha' ⟨a, rfl⟩ (fun h => absurd rfl h) (fun h => by cases h) (fun _ _ _ h => by cases h), by simp [Means, IsOp, note]⟩⟩
  | extract name f args =>
    cases args with
    | nil => exact absurd rfl hf
    | cons a as => exact lift (getExtract_gets (args := a :: as) hW (by simp) hc)

theorem body_allowed {c : Call} {n : Nat} (he : body env c S = .ok (n, S')) : Allowed S c := by
  cases c with
  | clipNorm cap a =>
    simp only [body] at he
    split at he
    · assumption
    · cases he
  | sample m a =>
    intro d hd
    simp only [body, constData_some.2 hd] at he
    split at he
    · assumption
    · cases he
  | extract name f args =>
    rintro rfl
    cases he
  | _ => trivial

theorem exec_gets (hW : Wf S) {c : Call} {n : Nat} (he : exec env c S = .ok (n, S')) : Gets env.fmt S (.ok (n, S')) (fun S' n => Gives S' c n) := by
  rw [← he]
  unfold exec at he ⊢
  split at he
  · rename_i hc
    rw [if_pos hc]
    exact body_gets hW c hc (body_allowed he)
  · cases he

theorem run_gets (hW : Wf S) (hr : run fmt cs S = .ok S') : Ext S S' ∧ Wf S' ∧ (Inv S → Apart fmt S' → Inv S') := by
  induction cs generalizing S with
  | nil => cases hr; exact ⟨.rfl, hW, fun h _ => h⟩
  | cons c cs ih =>
    obtain ⟨h, c⟩ := c
    obtain ⟨⟨n, S1⟩, h1, h2⟩ := Outcome.bind_eq_ok.mp hr
    obtain ⟨m, T, e, x1, _, w1, g1⟩ := exec_gets (env := ⟨h, fmt⟩) hW h1
    cases e
    obtain ⟨x2, w2, g2⟩ := ih w1 h2
    exact ⟨x1.trans x2, w2, fun hI hA => g2 (g1 hI (Apart.back x2 hA)).1 hA⟩

theorem init_wf : Wf St.init := init_inv.wf

/-- C79: whatever was built before and whatever order hash sets are iterated in, as long as no two different operations
of the history have the same name every call returns a node of exactly the operation, the parameters and the arguments
asked for (addition and multiplication: in either order; transposition of a transposed node: the node itself), and
existing nodes are left as they are.  The exception is `clip_norm` of a node that is itself an `l2norm`. -/
theorem c79_asked (hr : run fmt cs St.init = .ok S) (c : Call) (n : Nat) (he : exec ⟨h, fmt⟩ c S = .ok (n, S')) (hA : Apart fmt S') :
    (∀ (k : Nat) (x : Node), S.nodes[k]? = some x → S'.nodes[k]? = some x) ∧
    (Means S' c n ∨ ∃ cap a b, c = .clipNorm cap a ∧ IsOp S' a .l2norm [b] ∧ IsOp S' n (.clipNorm cap) [a, b]) := by
  obtain ⟨x0, w0, g0⟩ := run_gets init_wf hr
  obtain ⟨m, T, e, x1, _, _, g1⟩ := exec_gets (env := ⟨h, fmt⟩) w0 he
  cases e
  exact ⟨fun k x hk => x1.get hk, (g1 (g0 init_inv (Apart.back x1 hA)) hA).2⟩

theorem isOp_inj {n : Nat} {o o' : Op} {args args' : List Nat} (h1 : IsOp S n o args) (h2 : IsOp S n o' args') : o = o' ∧ args = args' := by
  unfold IsOp at h1 h2
  rw [h1] at h2
  simp only [Option.some.injEq, Node.op.injEq] at h2
  exact h2

theorem isOp_not_const {n : Nat} {o : Op} {args : List Nat} {d : List ℝ} (h1 : IsOp S n o args) (h2 : IsConst S n d) : False := by
  unfold IsOp at h1; unfold IsConst at h2
  rw [h1] at h2; cases h2

theorem transposed_unique (hI : Inv S) {i j a n m : Nat} (h1 : Transposed S i j a n) (h2 : Transposed S i j a m) : n = m := by
  rcases h1 with h1 | h1 <;> rcases h2 with h2 | h2
  · exact hI.uniq _ _ _ _ h1 h2 (by simp)
  · exact absurd h2 (hI.once _ _ _ _ _ h1)
  · exact absurd h1 (hI.once _ _ _ _ _ h2)
  · simpa using (isOp_inj h1 h2).2

theorem binary_unique (hI : Inv S) {o : Arith} {op : Op} (he : Either op = o.unordered) (hop : op ≠ .asConst) {a b n m : Nat} (hn : ∀ d, ¬ IsConst S n d)
    (h1 : Binary S o op a b n) (h2 : Binary S o op a b m) : n = m := by
  have key : o.unordered = true → (IsOp S n op [a, b] ∨ IsOp S n op [b, a]) → (IsOp S m op [a, b] ∨ IsOp S m op [b, a]) → n = m := by
    intro hu h1 h2
    rcases h1 with h1 | h1 <;> rcases h2 with h2 | h2
    · exact hI.uniq _ _ _ _ h1 h2 hop
    · exact hI.either _ _ _ _ _ h1 h2 (he.trans hu)
    · exact hI.either _ _ _ _ _ h1 h2 (he.trans hu)
    · exact hI.uniq _ _ _ _ h1 h2 hop
  cases o with
  | add => exact key rfl h1 h2
  | sub =>
    rcases h1 with ⟨_, h1⟩ | ⟨_, h1⟩
    · rcases h2 with ⟨_, h2⟩ | ⟨h, h2⟩
      · exact hI.uniq _ _ _ _ h1 h2 hop
      · contradiction
    · exact absurd h1 (hn _)
  | mul =>
    rcases h1 with ⟨hh, h1⟩ | ⟨hh, h1⟩ <;> rcases h2 with ⟨hh', h2⟩ | ⟨hh', h2⟩
    · exact key rfl h1 h2
    · contradiction
    · contradiction
    · exact hI.uniq _ _ _ _ h1 h2 (by simp)
  | div =>
    rcases h1 with ⟨_, h1⟩ | ⟨_, h1⟩
    · rcases h2 with ⟨_, h2⟩ | ⟨h, h2⟩
      · exact hI.uniq _ _ _ _ h1 h2 hop
      · contradiction
    · exact absurd h1 (hn _)

/-- At most one node is what a call asks for, constants apart. -/
theorem means_unique (hI : Inv S) {c : Call} {n m : Nat} (hn : ∀ d, ¬ IsConst S n d) (hl : c ≠ .leaf) (hc : ∀ a, c ≠ .asConst a)
    (h1 : Means S c n) (h2 : Means S c m) : n = m := by
  cases c with
  | leaf => exact absurd rfl hl
  | const d => exact absurd h1 (hn d)
  | elem k a => exact hI.uniq _ _ _ _ h1 h2 (by simp)
  | arith o a b => exact binary_unique hI rfl (by simp) hn h1 h2
  | axial o l k a b => exact binary_unique hI rfl (by simp) hn h1 h2
  | cond name cmp a b => exact hI.uniq _ _ _ _ h1 h2 (by simp)
  | transpose i j a => exact transposed_unique hI h1 h2
  | fit a b =>
    rcases h1 with ⟨h, rfl⟩ | ⟨h, h1⟩ <;> rcases h2 with ⟨h', rfl⟩ | ⟨h', h2⟩
    · rfl
    · contradiction
    · contradiction
    · exact hI.uniq _ _ _ _ h1 h2 (by simp)
  | extend i k a =>
    rcases h1 with ⟨_, h⟩ | ⟨h, rfl⟩ | ⟨h, h1⟩
    · exact absurd h (hn _)
    · rcases h2 with ⟨h', _⟩ | ⟨_, rfl⟩ | ⟨h', _⟩
      · omega
      · rfl
      · omega
    · rcases h2 with ⟨h', _⟩ | ⟨h', rfl⟩ | ⟨h', h2⟩
      · omega
      · omega
      · exact hI.uniq _ _ _ _ h1 h2 (by simp)
  | compress name f k a => exact hI.uniq _ _ _ _ h1 h2 (by simp)
  | argCompress name f k a => exact hI.uniq _ _ _ _ h1 h2 (by simp)
  | mean k a =>
    cases k with
    | none =>
      obtain ⟨s, d, a1, a2, a3⟩ := h1
      obtain ⟨s', d', b1, b2, b3⟩ := h2
      rw [hI.uniq _ _ _ _ b1 a1 (by simp), hI.uniq _ _ _ _ b2 a2 (by simp)] at b3
      exact hI.uniq _ _ _ _ a3 b3 (by simp)
    | some k =>
      obtain ⟨s, d, a1, a2, a3⟩ := h1
      obtain ⟨s', d', b1, b2, b3⟩ := h2
      rw [hI.uniq _ _ _ _ b1 a1 (by simp), hI.uniq _ _ _ _ b2 a2 (by simp)] at b3
      exact hI.uniq _ _ _ _ a3 b3 (by simp)
  | flip ds a => exact hI.uniq _ _ _ _ h1 h2 (by simp)
  | cross i j a b => exact hI.uniq _ _ _ _ h1 h2 (by simp)
  | conv i j a b =>
    obtain ⟨f, a1, a2⟩ := h1
    obtain ⟨f', b1, b2⟩ := h2
    rw [hI.uniq _ _ _ _ b1 a1 (by simp)] at b2
    exact hI.uniq _ _ _ _ a2 b2 (by simp)
  | matmul ta tb a b =>
    obtain ⟨x, y, a1, a2, a3⟩ := h1
    obtain ⟨x', y', b1, b2, b3⟩ := h2
    have flag : ∀ (t : Bool) (a x x' : Nat), (t = true ∧ Transposed S 0 1 a x ∨ t = false ∧ x = a) → (t = true ∧ Transposed S 0 1 a x' ∨ t = false ∧ x' = a) → x = x' := by
      intro t a x x' h h'
      rcases h with ⟨e, h⟩ | ⟨e, h⟩ <;> rcases h' with ⟨e', h'⟩ | ⟨e', h'⟩
      · exact transposed_unique hI h h'
      · rw [e] at e'; cases e'
      · rw [e] at e'; cases e'
      · rw [h, h']
    rw [← flag ta a x x' a1 b1, ← flag tb b y y' a2 b2] at b3
    exact hI.uniq _ _ _ _ a3 b3 (by simp)
  | l2norm a =>
    rcases h1 with ⟨d, _, h⟩ | ⟨h, h1⟩
    · exact absurd h (hn _)
    · rcases h2 with ⟨d, hd, _⟩ | ⟨_, h2⟩
      · exact absurd hd (h d)
      · exact hI.uniq _ _ _ _ h1 h2 (by simp)
  | clipNorm cap a =>
    rcases h1 with ⟨d, _, h⟩ | ⟨h, l, hl, h1⟩
    · exact absurd h (hn _)
    · rcases h2 with ⟨d, hd, _⟩ | ⟨_, l', hl', h2⟩
      · exact absurd hd (h d)
      · rw [hI.uniq _ _ _ _ hl' hl (by simp)] at h2
        exact hI.uniq _ _ _ _ h1 h2 (by simp)
  | sample k a =>
    rcases h1 with ⟨_, h⟩ | ⟨h, h1⟩
    · exact absurd h (hn _)
    · rcases h2 with ⟨hd, _⟩ | ⟨_, h2⟩
      · exact absurd hd (h _)
      · exact hI.uniq _ _ _ _ h1 h2 (by simp)
  | asConst a => exact absurd rfl (hc a)
  | extract name f args => exact hI.uniq _ _ _ _ h1 h2 (by simp)

theorem isConst_iff (h : Ext S S') {a : Nat} (ha : a < S.nodes.length) {d : List ℝ} : IsConst S a d ↔ IsConst S' a d := ⟨h.get, h.back ha⟩

theorem binary_mono (h : Ext S S') {o : Arith} {op : Op} {a b n : Nat} (hm : Binary S o op a b n) : Binary S' o op a b n := by
  cases o with
  | add => exact hm.imp h.get h.get
  | sub => exact hm.imp (fun x => ⟨x.1, h.get x.2⟩) (fun x => ⟨x.1, h.get x.2⟩)
  | mul => exact hm.imp (fun x => ⟨x.1, x.2.imp h.get h.get⟩) (fun x => ⟨x.1, h.get x.2⟩)
  | div => exact hm.imp (fun x => ⟨x.1, h.get x.2⟩) (fun x => ⟨x.1, h.get x.2⟩)

/-- Nodes made later do not change what a node means. -/
theorem means_mono (h : Ext S S') {c : Call} (hc : ∀ a ∈ c.args, a < S.nodes.length) {n : Nat} (hm : Means S c n) : Means S' c n := by
  cases c with
  | leaf => exact h.get hm
  | const d => exact h.get hm
  | elem k a => exact h.get hm
  | arith o a b => exact binary_mono h hm
  | axial o l k a b => exact binary_mono h hm
  | cond name cmp a b => exact h.get hm
  | transpose i j a => exact Transposed.mono h hm
  | fit a b =>
    have := isConst_iff h (hc a (by simp [Call.args])) (d := [0])
    exact hm.imp (fun x => ⟨this.1 x.1, x.2⟩) (fun x => ⟨fun y => x.1 (this.2 y), h.get x.2⟩)
  | extend i k a => exact hm.imp (fun x => ⟨x.1, h.get x.2⟩) (Or.imp id fun x => ⟨x.1, h.get x.2⟩)
  | compress name f k a => exact h.get hm
  | argCompress name f k a => exact h.get hm
  | mean k a =>
    cases k with
    | none => obtain ⟨s, d, h1, h2, h3⟩ := hm; exact ⟨s, d, h.get h1, h.get h2, h.get h3⟩
    | some k => obtain ⟨s, d, h1, h2, h3⟩ := hm; exact ⟨s, d, h.get h1, h.get h2, h.get h3⟩
  | flip ds a => exact h.get hm
  | cross i j a b => exact h.get hm
  | conv i j a b => obtain ⟨f, h1, h2⟩ := hm; exact ⟨f, h.get h1, h.get h2⟩
  | matmul ta tb a b =>
    obtain ⟨x, y, h1, h2, h3⟩ := hm
    exact ⟨x, y, h1.imp (fun z => ⟨z.1, Transposed.mono h z.2⟩) id, h2.imp (fun z => ⟨z.1, Transposed.mono h z.2⟩) id, h.get h3⟩
  | l2norm a =>
    have := fun d => isConst_iff h (hc a (by simp [Call.args])) (d := d)
    exact hm.imp (fun ⟨d, x, y⟩ => ⟨d, h.get x, h.get y⟩) (fun x => ⟨fun d y => x.1 d ((this d).2 y), h.get x.2⟩)
  | clipNorm cap a =>
    have := fun d => isConst_iff h (hc a (by simp [Call.args])) (d := d)
    exact hm.imp (fun ⟨d, x, y⟩ => ⟨d, h.get x, h.get y⟩) (fun ⟨x, l, h1, h2⟩ => ⟨fun d y => x d ((this d).2 y), l, h.get h1, h.get h2⟩)
  | sample k a =>
    have := fun d => isConst_iff h (hc a (by simp [Call.args])) (d := d)
    exact hm.imp (fun x => ⟨h.get x.1, h.get x.2⟩) (fun x => ⟨fun d y => x.1 d ((this d).2 y), h.get x.2⟩)
  | asConst a => exact h.get hm
  | extract name f args => exact h.get hm

theorem exec_args {c : Call} {n : Nat} (he : exec env c S = .ok (n, S')) : ∀ a ∈ c.args, a < S.nodes.length := by
  unfold exec at he
  split at he
  · assumption
  · cases he

/-- C79: made again after any further history, a call returns the node it returned before, unless that node is a
constant.  Calls that make nodes of their own (leaves, `as_constant`) and `clip_norm` of an `l2norm` apart. -/
theorem c79_again (hr : run fmt cs St.init = .ok S) (c : Call) (n m : Nat) (he : exec ⟨h, fmt⟩ c S = .ok (n, S1)) (hr' : run fmt cs' S1 = .ok S2)
    (he' : exec ⟨h', fmt⟩ c S2 = .ok (m, S3)) (hA : Apart fmt S3) (hn : ∀ d, ¬ IsConst S1 n d) (hl : c ≠ .leaf) (hc : ∀ a, c ≠ .asConst a)
    (hcl : ∀ cap a, c = .clipNorm cap a → ∀ b, ¬ IsOp S a .l2norm [b]) : m = n := by
  obtain ⟨x0, w0, g0⟩ := run_gets init_wf hr
  obtain ⟨_, _, e, x1, l1, w1, g1⟩ := exec_gets (env := ⟨h, fmt⟩) w0 he
  cases e
  obtain ⟨x2, w2, g2⟩ := run_gets w1 hr'
  obtain ⟨_, _, e, x3, l3, w3, g3⟩ := exec_gets (env := ⟨h', fmt⟩) w2 he'
  cases e
  have ha := exec_args he
  have hA2 := Apart.back x3 hA
  have hA1 := Apart.back x2 hA2
  obtain ⟨i1, p1⟩ := g1 (g0 init_inv (Apart.back x1 hA1)) hA1
  obtain ⟨i3, p3⟩ := g3 (g2 i1 hA2) hA
  have hno : ∀ T, Ext S T → ∀ k, ¬ ∃ cap a b, c = .clipNorm cap a ∧ IsOp T a .l2norm [b] ∧ IsOp T k (.clipNorm cap) [a, b] := by
    rintro T hT k ⟨cap, a, b, rfl, h1, _⟩
    exact hcl cap a rfl b (hT.back (ha a (by simp [Call.args])) h1)
  have q1 := p1.resolve_right (hno _ x1 n)
  have q3 := p3.resolve_right (hno _ (x1.trans (x2.trans x3)) m)
  have x13 := x2.trans x3
  exact (means_unique i3 (fun d hd => hn d (x13.back l1 hd)) hl hc (means_mono x13 (fun a h => Nat.lt_of_lt_of_le (ha a h) x1.le) q1) q3).symm

/-- C79: exactly the allowed calls on existing nodes succeed, whatever was built before.  A cap that is not positive and an
extraction from no node abort; sampling with constant probabilities writes outside an empty vector. -/
theorem c79_succeeds (hr : run fmt cs St.init = .ok S) (c : Call) :
    ((∃ n S', exec ⟨h, fmt⟩ c S = .ok (n, S')) ↔ (∀ a ∈ c.args, a < S.nodes.length) ∧ Allowed S c) ∧
    (∀ cap a, a < S.nodes.length → cap ≤ 0 → exec ⟨h, fmt⟩ (.clipNorm cap a) S = .abort) ∧
    (∀ m a d, IsConst S a d → d ≠ [] → exec ⟨h, fmt⟩ (.sample m a) S = .ub) ∧
    (∀ name f, exec ⟨h, fmt⟩ (.extract name f []) S = .abort) := by
  obtain ⟨x0, w0, g0⟩ := run_gets init_wf hr
  refine ⟨⟨?_, ?_⟩, ?_, ?_, ?_⟩
  · rintro ⟨n, S', he⟩
    refine ⟨exec_args he, ?_⟩
    unfold exec at he
    rw [if_pos (exec_args he)] at he
    exact body_allowed he
  · rintro ⟨hc, hf⟩
    obtain ⟨n, S', h1, _⟩ := body_gets (env := ⟨h, fmt⟩) w0 c hc hf
    exact ⟨n, S', by unfold exec; rw [if_pos hc, h1]⟩
  · intro cap a ha hcap
    unfold exec
    rw [if_pos (by simpa [Call.args] using ha)]
    simp only [body]
    rw [if_neg (not_lt.2 hcap)]
  · intro m a d hd hne
    have ha : a < S.nodes.length := (List.getElem?_eq_some_iff.1 hd).1
    unfold exec
    rw [if_pos (by simpa [Call.args] using ha)]
    simp only [body, constData_some.2 hd]
    rw [if_neg hne]
  · intro name f
    unfold exec
    rw [if_pos (by simp [Call.args])]
    simp only [body, getExtract]

theorem run_asks {cs : List (Hash × Call)} (hown : ∀ c ∈ cs, OwnCall c.2) {l : List ℝ} (h2 : (2 : ℝ) ∈ l) (hl : ∀ c ∈ cs, ∀ x ∈ numbersIn c.2, x ∈ l)
    (hr : run fmt cs S = .ok S') (hS : ∀ o ∈ S.asked, Own o ∧ ∀ x ∈ numbersOf o, x ∈ l) : ∀ o ∈ S'.asked, Own o ∧ ∀ x ∈ numbersOf o, x ∈ l := by
  induction cs generalizing S with
  | nil => cases hr; exact hS
  | cons c cs ih =>
    obtain ⟨h, c⟩ := c
    obtain ⟨⟨n, S1⟩, h1, h2'⟩ := Outcome.bind_eq_ok.mp hr
    exact ih (fun c hc => hown c (List.mem_cons_of_mem _ hc)) (fun c hc => hl c (List.mem_cons_of_mem _ hc)) h2'
      (exec_asks (hown _ List.mem_cons_self) h2 (hl _ List.mem_cons_self) S n S1 h1 hS)

/-- C79: the library's own functions never look for two different operations under one name, as long as the numbers in
the calls are printed differently. -/
theorem c79_own_names (hown : ∀ c ∈ cs, OwnCall c.2) (hf : Printable fmt) (hd : PrintedApart fmt (cs.map Prod.snd)) (hr : run fmt cs St.init = .ok S) :
    Apart fmt S := by
  have key := run_asks hown (l := 2 :: (cs.map Prod.snd).flatMap numbersIn) List.mem_cons_self
    (fun c hc x hx => List.mem_cons_of_mem _ (List.mem_flatMap.2 ⟨c.2, List.mem_map_of_mem hc, hx⟩)) hr (fun o ho => by cases ho)
  exact ⟨fun o ho o' ho' => own_label_inj hf (key o ho).1 (key o' ho').1 fun x hx y hy => hd x ((key o ho).2 x hx) y ((key o' ho').2 y hy),
    fun o ho => own_label_ne hf (key o ho).1⟩

/-- C79: so in every history of calls of the library's own functions each call returns what it asks for. -/
theorem c79_own (hown : ∀ c ∈ cs, OwnCall c.2) (hf : Printable fmt) (c : Call) (hc : OwnCall c) (hd : PrintedApart fmt (cs.map Prod.snd ++ [c]))
    (hr : run fmt cs St.init = .ok S) (n : Nat) (he : exec ⟨h, fmt⟩ c S = .ok (n, S')) :
    Means S' c n ∨ ∃ cap a b, c = .clipNorm cap a ∧ IsOp S' a .l2norm [b] ∧ IsOp S' n (.clipNorm cap) [a, b] := by
  have hr' : run fmt (cs ++ [(h, c)]) St.init = .ok S' := by
    clear hown hd
    generalize St.init = S0 at hr ⊢
    induction cs generalizing S0 with
    | nil => cases hr; simp only [run, List.nil_append, he, Outcome.ok_bind]
    | cons x cs ih =>
      obtain ⟨hx, x⟩ := x
      obtain ⟨⟨m, S1⟩, h1, h2⟩ := Outcome.bind_eq_ok.mp hr
      simp only [run, List.cons_append, h1, Outcome.ok_bind]
      exact ih _ h2
  refine (c79_asked hr c n he (c79_own_names (cs := cs ++ [(h, c)]) ?_ hf (by simpa using hd) hr')).2
  intro x hx
  rcases List.mem_append.1 hx with hx | hx
  · exact hown x hx
  · simp only [List.mem_singleton] at hx; subst hx; exact hc

end Verif.Props
