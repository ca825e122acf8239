import Verif.Lemmas.ExprShare
import Verif.Props.Expr
/-!
# C64: asking for the same node again

`cs` and `cs'` are arbitrary histories; every call has its own hash iteration order.
-/
namespace Verif.Props
open Expr Spec
variable {fmt : ℝ → List Char} {cs cs' : List (Hash × Call)} {S S1 S2 S3 : St} {h h' : Hash}

theorem history_snoc {S0 : St} {c : Call} {n : Nat} (hr : run fmt cs S0 = .ok S) (h1 : exec ⟨h, fmt⟩ c S = .ok (n, S1)) :
    run fmt (cs ++ [(h, c)]) S0 = .ok S1 := by
  induction cs generalizing S0 with
  | nil => cases hr; simp only [List.nil_append, run]; rw [h1]; rfl
  | cons c0 cs ih =>
    obtain ⟨⟨n0, S01⟩, g1, g2⟩ := Outcome.bind_eq_ok.mp hr
    simp only [List.cons_append, run]
    rw [g1]
    exact ih g2

theorem history_append {S0 : St} (hr : run fmt cs S0 = .ok S) (h1 : run fmt cs' S = .ok S1) : run fmt (cs ++ cs') S0 = .ok S1 := by
  induction cs generalizing S0 with
  | nil => cases hr; exact h1
  | cons c0 cs ih =>
    obtain ⟨⟨n0, S01⟩, g1, g2⟩ := Outcome.bind_eq_ok.mp hr
    simp only [List.cons_append, run]
    rw [g1]
    exact ih g2

theorem exec_lt {env : Env} {c : Call} {r : Nat × St} (h1 : exec env c S = .ok r) : ∀ a ∈ c.args, a < S.nodes.length := by
  unfold exec at h1
  split at h1
  · rename_i hh
    intro a ha
    exact of_decide_eq_true (List.all_eq_true.mp hh a ha)
  · cases h1

/-- C64: asked for the same operation on the same nodes a second time, after whatever has happened in between, the
library either folds it to the same constant again, or makes no node at all and (no names clashing) returns the node it
returned the first time. -/
theorem c64_asked_again (hr : run fmt cs St.init = .ok S) (c : Call) (hc : (∃ k a, c = .un k a) ∨ ∃ k a b, c = .bin k a b) (n m : Nat)
    (h1 : exec ⟨h, fmt⟩ c S = .ok (n, S1)) (h2 : run fmt cs' S1 = .ok S2) (h3 : exec ⟨h', fmt⟩ c S2 = .ok (m, S3)) :
    (∃ d, S1.nodes[n]? = some (.const d) ∧ S3.nodes = S2.nodes ++ [.const d] ∧ m = S2.nodes.length) ∨
    (S3.nodes = S2.nodes ∧ (NoClash fmt S3 → m = n)) := by
  have I := reach hr
  obtain ⟨I1, e1, _⟩ := exec_inv (env := ⟨h, fmt⟩) I (Or.inl trivial) h1
  obtain ⟨I2, e2⟩ := run_inv I1 (fun _ _ => Or.inl trivial) h2
  have U : Uniq fmt S2 := uniq_run uniq_init (history_append (history_snoc hr h1) h2)
  have l1 := exec_lt h1
  have l3 := exec_lt h3
  rcases hc with ⟨k, a, rfl⟩ | ⟨k, a, b, rfl⟩
  · have ha := l1 a (by simp [Call.args])
    rw [exec_un ha] at h1
    rw [exec_un (l3 a (by simp [Call.args]))] at h3
    exact again_callUn k a ha h h' n S1 S2 m S3 h1 e2 (e1.trans e2) I2 U h3
  · have ha := l1 a (by simp [Call.args])
    have hb := l1 b (by simp [Call.args])
    rw [exec_bin ha hb] at h1
    rw [exec_bin (l3 a (by simp [Call.args])) (l3 b (by simp [Call.args]))] at h3
    exact again_callBin k a b ha hb h h' n S1 S2 m S3 h1 e2 (e1.trans e2) I2 U h3

/-- C64: sums and products of nodes that are not constants: asked for with the arguments exchanged, no node is made
and (no names clashing) the first answer is returned. -/
theorem c64_commutes (hr : run fmt cs St.init = .ok S) (k : K2) (hk : k = .add ∨ k = .mul) (a b n m : Nat)
    (ha : ∀ d, S.nodes[a]? ≠ some (.const d)) (hb : ∀ d, S.nodes[b]? ≠ some (.const d))
    (h1 : exec ⟨h, fmt⟩ (.bin k a b) S = .ok (n, S1)) (h2 : run fmt cs' S1 = .ok S2) (h3 : exec ⟨h', fmt⟩ (.bin k b a) S2 = .ok (m, S3)) :
    S3.nodes = S2.nodes ∧ (NoClash fmt S3 → m = n) := by
  have I := reach hr
  obtain ⟨I1, e1, _⟩ := exec_inv (env := ⟨h, fmt⟩) I (Or.inl trivial) h1
  obtain ⟨I2, e2⟩ := run_inv I1 (fun _ _ => Or.inl trivial) h2
  have U : Uniq fmt S2 := uniq_run uniq_init (history_append (history_snoc hr h1) h2)
  have la := exec_lt h1 a (by simp [Call.args])
  have lb := exec_lt h1 b (by simp [Call.args])
  rw [exec_bin la lb] at h1
  rw [exec_bin (exec_lt h3 b (by simp [Call.args])) (exec_lt h3 a (by simp [Call.args]))] at h3
  have nc : ∀ a, (∀ d, S.nodes[a]? ≠ some (.const d)) → constData S a = none := by
    intro a ha
    unfold constData
    split
    · rename_i d hd; exact absurd hd (ha d)
    · rfl
  have na : ∀ x, constData S a ≠ some [x] := by rw [nc a ha]; simp
  have nb : ∀ x, constData S b ≠ some [x] := by rw [nc b hb]; simp
  have hu : k.unordered = true := by rcases hk with rfl | rfl <;> rfl
  rcases again_swapped k hu a b la lb na nb h h' n S1 S2 m S3 h1 e2 (e1.trans e2) I2 U h3 with ⟨d, g1, g2, g3⟩ | g
  · -- the first answer is not a constant
    exfalso
    have hn : ∀ nd, S1.nodes[n]? = some nd → nd.args ≠ [] := by
      intro nd hnd
      rcases hk with rfl | rfl
      · have e : callBin ⟨h, fmt⟩ .add a b S = binary ⟨h, fmt⟩ .add a b S :=
          pick_none (fun x => if x = 0 then ret b S else addL ⟨h, fmt⟩ x b S) (fun y => if y = 0 then ret a S else addR ⟨h, fmt⟩ a y S) _ na nb
        rw [e] at h1
        exact binary_args h1 hnd
      · by_cases hab : a = b
        · subst hab
          have e : callBin ⟨h, fmt⟩ .mul a a S = unary ⟨h, fmt⟩ (.pow 2) a S := by
            show (if a = a then pow ⟨h, fmt⟩ a 2 S else _) = _
            rw [if_pos rfl]
            unfold pow
            rw [if_neg (by norm_num), if_neg (by norm_num)]
            unfold unop
            rw [nc a ha]
          rw [e] at h1
          exact unary_args h1 hnd
        · have e : callBin ⟨h, fmt⟩ .mul a b S = binary ⟨h, fmt⟩ .mul a b S :=
            (if_neg hab).trans (pick_none (fun x => if x = 0 then mkConst [0] S else mulL ⟨h, fmt⟩ x b S) (fun y => if y = 0 then mkConst [0] S else mulR ⟨h, fmt⟩ a y S) _ na nb)
          rw [e] at h1
          exact binary_args h1 hnd
    exact hn _ g1 rfl
  · exact g

/-- C64: the library never holds two nodes for the same operation on the same arguments, nor two sums or two products
of the same arguments in either order. -/
theorem c64_no_duplicates (hr : run fmt cs St.init = .ok S) (p q : Nat) :
    (∀ k a, S.nodes[p]? = some (.un k a) → S.nodes[q]? = some (.un k a) → p = q) ∧
    (∀ k a b, S.nodes[p]? = some (.bin k a b) → S.nodes[q]? = some (.bin k a b) → p = q) ∧
    (∀ k a b, k = .add ∨ k = .mul → S.nodes[p]? = some (.bin k a b) → S.nodes[q]? = some (.bin k b a) → p = q) := by
  have U := uniq_run uniq_init hr
  refine ⟨fun k a hp hq => U p q _ _ hp hq (by simp [Node.args]) rfl (.inl rfl), fun k a b hp hq => U p q _ _ hp hq (by simp [Node.args]) rfl (.inl rfl), fun k a b hk hp hq => ?_⟩
  refine U p q _ _ hp hq (by simp [Node.args]) rfl (.inr ⟨?_, rfl⟩)
  rcases hk with rfl | rfl
  · exact .inl rfl
  · exact .inr rfl

/-- C64: a derivative asked for a second time, after whatever has happened in between, is the same node, and nothing
is changed by asking. -/
theorem c64_derive_again (hr : run fmt cs St.init = .ok S) (n x d : Nat)
    (h1 : exec ⟨h, fmt⟩ (.derive n x) S = .ok (d, S1)) (h2 : run fmt cs' S1 = .ok S2) :
    exec ⟨h', fmt⟩ (.derive n x) S2 = .ok (d, S2) := by
  have I := reach hr
  obtain ⟨I1, e1, _⟩ := exec_inv (env := ⟨h, fmt⟩) I (Or.inl trivial) h1
  obtain ⟨I2, e2⟩ := run_inv I1 (fun _ _ => Or.inl trivial) h2
  have x0 := e1.trans e2
  have ln := exec_lt h1 n (by simp [Call.args])
  have lx := exec_lt h1 x (by simp [Call.args])
  obtain ⟨nx, hx⟩ : ∃ nx, S.nodes[x]? = some nx := ⟨_, List.getElem?_eq_getElem lx⟩
  have hargs : ∀ T : St, S.nodes.length ≤ T.nodes.length → (Call.derive n x).args.all (fun a => decide (a < T.nodes.length)) = true := by
    intro T hT
    simp only [Call.args, List.all_cons, List.all_nil, Bool.and_true, Bool.and_eq_true, decide_eq_true_eq]
    omega
  unfold exec at h1 ⊢
  rw [if_pos (hargs S (le_refl _))] at h1
  rw [if_pos (hargs S2 x0.length)]
  simp only [hx] at h1
  simp only [x0.node hx]
  cases nx with
  | leaf tr =>
    cases tr with
    | true => exact gradient_again I ln h1 x0 fun hc => run_cached hc h2
    | false =>
      simp only at h1 ⊢
      split at h1 <;> rename_i hh
      · rw [if_pos hh]; cases h1; rfl
      · rw [if_neg hh]; cases h1; rfl
  | const l => cases h1; rfl
  | un k a =>
    simp only at h1 ⊢
    split at h1 <;> rename_i hh
    · rw [if_pos hh]; cases h1; rfl
    · cases h1
  | bin k a b =>
    simp only at h1 ⊢
    split at h1 <;> rename_i hh
    · rw [if_pos hh]; cases h1; rfl
    · cases h1

/-- Two variables `x` and `y`. -/
def stXY : St := { St.init with nodes := [.const [0], .const [1], .leaf true, .leaf true] }
theorem run_stXY (fmt : ℝ → List Char) : run fmt [(idHash, .leaf true), (idHash, .leaf true)] St.init = .ok stXY := rfl

/-- `x + y`, then `y + x`, then `x + y` again: one node; and its derivative, asked for twice, is one node. -/
example (fmt : ℝ → List Char) : ∃ n S1 m S2 k S3, exec ⟨idHash, fmt⟩ (.bin .add 2 3) stXY = .ok (n, S1) ∧ exec ⟨idHash, fmt⟩ (.bin .add 3 2) S1 = .ok (m, S2) ∧
    exec ⟨idHash, fmt⟩ (.bin .add 2 3) S2 = .ok (k, S3) ∧ S2.nodes = S1.nodes ∧ S3.nodes.length = S1.nodes.length := by
  have v2 : Val stXY (fun _ => 1) 0 2 1 := .leaf (tr := true) rfl
  have v3 : Val stXY (fun _ => 1) 0 3 1 := .leaf (tr := true) rfl
  have hr := run_stXY fmt
  obtain ⟨n, S1, h1⟩ := c34_binary_succeeds (h := idHash) hr .add 2 3 _ 0 1 1 2 v2 v3 (by norm_num [meant2])
  obtain ⟨_, e1, _⟩ := exec_inv (env := ⟨idHash, fmt⟩) (reach hr) (Or.inl trivial) h1
  have r1 := history_snoc hr h1
  obtain ⟨m, S2, h2⟩ := c34_binary_succeeds (h := idHash) r1 .add 3 2 _ 0 1 1 2 (v3.mono e1) (v2.mono e1) (by norm_num [meant2])
  obtain ⟨_, e2, _⟩ := exec_inv (env := ⟨idHash, fmt⟩) (reach r1) (Or.inl trivial) h2
  have r2 := history_snoc r1 h2
  obtain ⟨k, S3, h3⟩ := c34_binary_succeeds (h := idHash) r2 .add 2 3 _ 0 1 1 2 (v2.mono (e1.trans e2)) (v3.mono (e1.trans e2)) (by norm_num [meant2])
  have c2 := (c64_commutes (cs' := []) hr .add (.inl rfl) 2 3 n m (by simp [stXY, St.init]) (by simp [stXY, St.init]) h1 rfl h2).1
  have hsame : S3.nodes = S2.nodes := by
    refine (c64_commutes (cs' := []) r1 .add (.inl rfl) 3 2 m k ?_ ?_ h2 rfl h3).1
    · intro d; rw [e1.node (show stXY.nodes[3]? = some (.leaf true) from rfl)]; simp
    · intro d; rw [e1.node (show stXY.nodes[2]? = some (.leaf true) from rfl)]; simp
  exact ⟨n, S1, m, S2, k, S3, h1, h2, h3, c2, by rw [hsame, c2]⟩

/-- The derivative of `y` by `x`, asked for twice. -/
example (fmt : ℝ → List Char) : ∃ d S1, exec ⟨idHash, fmt⟩ (.derive 3 2) stXY = .ok (d, S1) ∧ exec ⟨idHash, fmt⟩ (.derive 3 2) S1 = .ok (d, S1) := by
  obtain ⟨d, S1, h1⟩ := c36_succeeds (h := idHash) (run_stXY fmt) 3 2 (by simp [stXY]) rfl
  exact ⟨d, S1, h1, c64_derive_again (cs' := []) (run_stXY fmt) 3 2 d h1 rfl⟩

end Verif.Props
