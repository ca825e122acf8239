import Verif.Lemmas.JacsSafe
/-!
# C84: derivatives of copied, moved and destroyed operations
-/
namespace Verif.Props
open Jacs Spec

/-- Whatever is built, copied, moved, destroyed and derived: taking the derivative of a live node uses no destroyed
operation, as long as operations are copied only while their own Jacobian is the last one and moved only
while no other operation keeps it. -/
theorem c84_safe (cs : List Call) (g : St) (hr : run cs St.empty = .ok g) (hh : ∀ c ∈ cs, Honest c) (hf : AlwaysJ CopyFit cs St.empty)
    (n v : Nat) (al : g.alive n = true) : ∃ g', derive n v g = .ok g' := by
  obtain ⟨i, s⟩ := run_sinv cs empty_winv empty_sinv hh hf hr
  exact s.derive i al v

/-- Without copies and moves of operations that is always so. -/
theorem c84_safe_plain (cs : List Call) (g : St) (hr : run cs St.empty = .ok g) (hh : ∀ c ∈ cs, Honest c) (hf : AlwaysJ NoCopies cs St.empty)
    (n v : Nat) (al : g.alive n = true) : ∃ g', derive n v g = .ok g' :=
  c84_safe cs g hr hh (plain_fit cs empty_winv hf) n v al

/-- With copies too, if every Jacobian is set at the back (products of matrices). -/
theorem c84_safe_back (cs : List Call) (g : St) (hr : run cs St.empty = .ok g) (hh : ∀ c ∈ cs, Honest c) (hb : ∀ c ∈ cs, AtBack c)
    (hf : AlwaysJ NoMoves cs St.empty) (n v : Nat) (al : g.alive n = true) : ∃ g', derive n v g = .ok g' :=
  c84_safe cs g hr hh (back_fit cs empty_winv (fun n v j e h => by cases h) hb hf) n v al

/-- Deriving changes no definition, destroys nothing and leaves every Jacobian where it is. -/
theorem c84_derive_keeps (cs : List Call) (g g' : St) (hr : run cs St.empty = .ok g) (n v : Nat) (h : derive n v g = .ok g') :
    g'.nodes = g.nodes ∧ g'.alive = g.alive ∧ g'.leaves = g.leaves ∧
    (∀ k u j, g.jac k u = some j → g'.jac k u = some j) ∧ (∀ k u j, g'.jac k u = some j → j.list ≠ [] → g.jac k u = some j) := by
  have i := run_winv cs empty_winv hr
  have e := (derive_ext i h).1
  refine ⟨e.nodes, e.alive, e.leaves, e.keep, fun k u j h1 h2 => ?_⟩
  rcases e.fresh k u j h1 with h3 | ⟨_, _, _, _, h3, _⟩
  · exact h3
  · exact absurd h3 h2

/-- An operation can be copied, and moved, exactly when it keeps no empty list; otherwise doing so is undefined. -/
theorem c84_clone_iff (cs : List Call) (g : St) (hr : run cs St.empty = .ok g) (n : Nat) (hn : LiveOp g n) :
    ((∃ g', clone n g = .ok g') ↔ ∀ v j, g.jac n v = some j → j.list ≠ []) ∧
    ((∃ g', move n g = .ok g') ↔ ∀ v j, g.jac n v = some j → j.list ≠ []) ∧
    (clone n g = .ub ↔ ∃ v j, g.jac n v = some j ∧ j.list = []) ∧ (move n g = .ub ↔ ∃ v j, g.jac n v = some j ∧ j.list = []) := by
  have i := run_winv cs empty_winv hr
  obtain ⟨al, args, hd, e⟩ := hn
  have hi := backUndefined_iff i n
  by_cases hb : backUndefined g n = true
  · have hc : clone n g = .ub := by unfold clone; rw [if_pos al, e]; simp [hb]
    have hm : move n g = .ub := by unfold move; rw [if_pos al, e]; simp [hb]
    obtain ⟨v, j, h1, h2⟩ := hi.mp hb
    refine ⟨⟨?_, fun h => absurd h2 (h v j h1)⟩, ⟨?_, fun h => absurd h2 (h v j h1)⟩, ⟨fun _ => ⟨v, j, h1, h2⟩, fun _ => hc⟩, ⟨fun _ => ⟨v, j, h1, h2⟩, fun _ => hm⟩⟩
    · rintro ⟨g', h⟩; rw [hc] at h; cases h
    · rintro ⟨g', h⟩; rw [hm] at h; cases h
  · have hc : clone n g = .ok (cloneOp args hd n g) := by unfold clone; rw [if_pos al, e]; simp [hb]
    have hm : move n g = .ok (moveOp hd n g) := by unfold move; rw [if_pos al, e]; simp [hb]
    have no : ¬ ∃ v j, g.jac n v = some j ∧ j.list = [] := fun h => hb (hi.mpr h)
    have all : ∀ v j, g.jac n v = some j → j.list ≠ [] := fun v j h1 h2 => no ⟨v, j, h1, h2⟩
    refine ⟨⟨fun _ => all, fun _ => ⟨_, hc⟩⟩, ⟨fun _ => all, fun _ => ⟨_, hm⟩⟩, ⟨fun h => ?_, fun h => absurd h no⟩, ⟨fun h => ?_, fun h => absurd h no⟩⟩
    · rw [hc] at h; cases h
    · rw [hm] at h; cases h

/-- An operation through which no derivative was ever taken, and whose arguments brought no two different
Jacobians for a variable, can be copied and moved. -/
theorem c84_clone_untouched (cs : List Call) (g : St) (hr : run cs St.empty = .ok g) (n : Nat) (hn : LiveOp g n)
    (hd : ∀ m u, Call.derive m u ∈ cs → ¬ Under g.nodes m n) (hb : ∀ v, ¬ Branches g n v) :
    (∃ g', clone n g = .ok g') ∧ ∃ g', move n g = .ok g' := by
  have i := run_winv cs empty_winv hr
  have e : EInv cs g := by
    have := run_einv cs (ds := []) empty_winv (fun n v j h => by cases h) hr
    simpa using this
  have all : ∀ v j, g.jac n v = some j → j.list ≠ [] := by
    intro v j h1 h2
    rcases e n v j h1 h2 with h3 | ⟨m, u, h3, h4⟩
    · exact hb v ⟨j, h1, h3⟩
    · exact hd m u h3 h4
  obtain ⟨h1, h2, _⟩ := c84_clone_iff cs g hr n hn
  exact ⟨h1.mpr all, h2.mpr all⟩

/-- After the derivative for a variable has been taken from an operation that has no Jacobian for it, copying the
operation is undefined, and so is moving it. -/
theorem c84_clone_after_derive (cs : List Call) (g g' : St) (hr : run cs St.empty = .ok g) (n v : Nat) (hn : LiveOp g n)
    (hv : v ∈ g.leaves n) (hj : NoJac g n v) (h : derive n v g = .ok g') : clone n g' = .ub ∧ move n g' = .ub := by
  have i := run_winv cs empty_winv hr
  obtain ⟨al, args, hd, e⟩ := hn
  obtain ⟨ex, hx⟩ := derive_ext i h
  obtain ⟨j, h1⟩ := hx hv (by rw [e]; simp)
  have h2 : j.list = [] := by
    rcases ex.fresh n v j h1 with h3 | ⟨_, _, _, _, h3, _⟩
    · exact hj j h3
    · exact h3
  have hr' : run (cs ++ [.derive n v]) St.empty = .ok g' := by
    have : ∀ (cs : List Call) (a b c : St), run cs a = .ok b → derive n v b = .ok c → run (cs ++ [.derive n v]) a = .ok c := by
      intro cs
      induction cs with
      | nil => intro a b c h1 h2; cases h1; show (derive n v a >>= fun g => run [] g) = _; rw [h2]; rfl
      | cons x xs ih =>
        intro a b c h1 h2
        obtain ⟨g1, h3, h4⟩ := Outcome.bind_eq_ok.1 h1
        show (step x a >>= fun g => run (xs ++ [.derive n v]) g) = _
        rw [h3]; exact ih g1 b c h4 h2
    exact this cs _ g g' hr h
  have := c84_clone_iff _ g' hr' n ⟨by rw [ex.alive]; exact al, args, hd, by rw [ex.nodes]; exact e⟩
  exact ⟨this.2.2.1.mpr ⟨v, j, h1, h2⟩, this.2.2.2.mpr ⟨v, j, h1, h2⟩⟩

/-- The copy of an operation whose own Jacobian is the last one keeps the same list, with itself in the place of
the original; it has the same arguments and leaves, and the original is as it was. -/
theorem c84_copy_list (cs : List Call) (g g' : St) (hr : run cs St.empty = .ok g) (n : Nat) (hn : LiveOp g n) (ho : OwnLast g n)
    (h : clone n g = .ok g') :
    g'.nodes[g.nodes.length]? = g.nodes[n]? ∧ g'.leaves g.nodes.length = g.leaves n ∧ g'.alive g.nodes.length = true ∧
    (∀ v, g'.jac g.nodes.length v = (g.jac n v).map (fun j => { j with list := j.list.map (fun e => ⟨e.reads, if e.orig = n then g.nodes.length else e.orig⟩) })) ∧
    ∀ k, k < g.nodes.length → g'.nodes[k]? = g.nodes[k]? ∧ g'.alive k = g.alive k ∧ g'.jac k = g.jac k ∧ g'.leaves k = g.leaves k := by
  obtain ⟨al, args, hd, e⟩ := hn
  obtain ⟨_, ⟨args', hd', e', _, rfl⟩ | ⟨hno, _⟩⟩ := clone_ok h
  swap
  · exact absurd e (hno args hd)
  rw [e] at e'; cases e'
  have same : ∀ (l : List Entry), (∀ x ∈ l.dropLast, x.orig ≠ n) →
      correct n g.nodes.length l = l.map (fun e => ⟨e.reads, if e.orig = n then g.nodes.length else e.orig⟩) := by
    intro l hl
    have idm : ∀ (l : List Entry), (∀ x ∈ l, x.orig ≠ n) → l.map (fun e => (⟨e.reads, if e.orig = n then g.nodes.length else e.orig⟩ : Entry)) = l := by
      intro l
      induction l with
      | nil => intro _; rfl
      | cons x xs ih =>
        intro hx
        rw [List.map_cons, ih (fun y hy => hx y (by simp [hy])), if_neg (hx x (by simp))]
    unfold correct
    split
    · next hn => rw [List.getLast?_eq_none_iff] at hn; subst hn; rfl
    · next x hx =>
      have hs := List.dropLast_append_getLast? x hx
      conv_rhs => rw [← hs]
      rw [List.map_append, idm _ hl]
      split
      · next c => simp [c]
      · next c => rw [List.map_singleton, if_neg c]; exact hs.symm
  refine ⟨?_, ?_, ?_, ?_, ?_⟩
  · show (g.nodes ++ [Node.op args hd])[g.nodes.length]? = _
    rw [e]; simp
  · simp [cloneOp, React.upd]
  · simp [cloneOp, React.upd]
  · intro v
    show React.upd g.jac g.nodes.length _ g.nodes.length v = _
    simp only [React.upd, if_true]
    cases hj : g.jac n v with
    | none => rfl
    | some j =>
      simp only [Option.map_some]
      rw [same j.list (fun x hx => ho v j x hj hx)]
  · intro k hk
    refine ⟨?_, ?_, ?_, ?_⟩
    · show (g.nodes ++ [Node.op args hd])[k]? = _
      rw [List.getElem?_append_left hk]
    · simp [cloneOp, React.upd, Nat.ne_of_lt hk]
    · simp [cloneOp, React.upd, Nat.ne_of_lt hk]
    · simp [cloneOp, React.upd, Nat.ne_of_lt hk]

/-- Such a copy outlives the original: the original is destroyed, the copy is not, and it can be derived for every
variable. -/
theorem c84_copy_outlives (cs : List Call) (g g1 g2 : St) (hr : run cs St.empty = .ok g) (hh : ∀ c ∈ cs, Honest c) (hf : AlwaysJ CopyFit cs St.empty)
    (n : Nat) (hn : LiveOp g n) (ho : OwnLast g n) (h1 : clone n g = .ok g1) (h2 : delete n g1 = .ok g2) :
    g2.alive n = false ∧ g2.alive g.nodes.length = true ∧ ∀ v, ∃ g3, derive g.nodes.length v g2 = .ok g3 := by
  obtain ⟨i, s⟩ := run_sinv cs empty_winv empty_sinv hh hf hr
  have i1 : WInv g1 := step_winv (c := .clone n) i h1
  have s1 : SInv g1 := step_sinv (c := .clone n) i s trivial ho h1
  have i2 : WInv g2 := step_winv (c := .delete n) i1 h2
  have s2 : SInv g2 := step_sinv (c := .delete n) i1 s1 trivial trivial h2
  obtain ⟨hd1, _, hd3, _⟩ := c84_copy_list cs g g1 hr n hn ho h1
  obtain ⟨al, args, hd, e⟩ := hn
  have nl := i.alive_lt n al
  obtain ⟨aln, rfl⟩ := delete_ok h2
  have N : g.nodes.length ∉ killed g1 n := by
    intro c
    rcases ((killed_mem i1.args_lt n _).mp c).2 with c1 | ⟨a, ha, c1⟩
    · omega
    · have hA : argsOf g1 g.nodes.length = args := argsOf_eq (hd1.trans e)
      rw [hA] at ha
      have := i.args_lt n a (by rw [argsOf_eq e]; exact ha)
      have := killed_ge i1 a c1
      omega
  have self : n ∈ killed g1 n := (killed_mem i1.args_lt n n).mpr ⟨i1.alive_lt n aln, Or.inl rfl⟩
  have alN : (g1.alive g.nodes.length && decide (g.nodes.length ∉ killed g1 n)) = true := by simp [hd3, N]
  refine ⟨by simp [self], alN, fun v => s2.derive i2 alN v⟩

/-- A copy of an operation whose own Jacobian stands before an inherited one still points to the original: after the
original is destroyed, deriving the copy is undefined. -/
theorem c84_copy_dangles (cs : List Call) (g g1 g2 : St) (hr : run cs St.empty = .ok g) (n v : Nat) (hn : LiveOp g n)
    (j : JList) (e : Entry) (hj : g.jac n v = some j) (he : e ∈ j.list.dropLast) (hen : e.orig = n)
    (h1 : clone n g = .ok g1) (h2 : delete n g1 = .ok g2) :
    g2.alive g.nodes.length = true ∧ derive g.nodes.length v g2 = .ub := by
  have i := run_winv cs empty_winv hr
  have i1 : WInv g1 := step_winv (c := .clone n) i h1
  have i2 : WInv g2 := step_winv (c := .delete n) i1 h2
  obtain ⟨al, args, hd, e0⟩ := hn
  have nl := i.alive_lt n al
  obtain ⟨_, ⟨args', hd', e', _, hg⟩ | ⟨hno, _⟩⟩ := clone_ok h1
  swap
  · exact absurd e0 (hno args hd)
  rw [e0] at e'; cases e'
  obtain ⟨aln, rfl⟩ := delete_ok h2
  have new : g1.nodes[g.nodes.length]? = some (.op args hd) := by
    rw [hg]; show (g.nodes ++ [Node.op args hd])[g.nodes.length]? = _; simp
  have N : g.nodes.length ∉ killed g1 n := by
    intro c
    rcases ((killed_mem i1.args_lt n _).mp c).2 with c1 | ⟨a, ha, c1⟩
    · omega
    · rw [argsOf_eq new] at ha
      have := i.args_lt n a (by rw [argsOf_eq e0]; exact ha)
      have := killed_ge i1 a c1
      omega
  have self : n ∈ killed g1 n := (killed_mem i1.args_lt n n).mpr ⟨i1.alive_lt n aln, Or.inl rfl⟩
  have al1 : g1.alive g.nodes.length = true := by rw [hg]; simp [cloneOp, React.upd]
  have alN : (g1.alive g.nodes.length && decide (g.nodes.length ∉ killed g1 n)) = true := by simp [al1, N]
  have hjN : g1.jac g.nodes.length v = some { j with list := correct n g.nodes.length j.list } := by
    rw [hg]; simp [cloneOp, React.upd, hj]
  have hmem : e ∈ correct n g.nodes.length j.list := by
    have : e ∈ (correct n g.nodes.length j.list).dropLast := by rw [correct_dropLast]; exact he
    exact List.dropLast_subset _ this
  refine ⟨alN, derive_ub i2 alN hjN hmem ?_⟩
  rintro ⟨c, _⟩
  rw [hen] at c
  simp [self] at c

/-- Moving an operation whose Jacobian another one has inherited breaks the other: deriving it asks the empty
shell for the arguments. -/
theorem c84_move_breaks (cs : List Call) (g g' : St) (hr : run cs St.empty = .ok g) (n k v : Nat) (hn : LiveOp g n) (hk : g.alive k = true)
    (ne : k ≠ n) (j : JList) (e : Entry) (hj : g.jac k v = some j) (he : e ∈ j.list) (hen : e.orig = n) (hre : 0 < e.reads)
    (h : move n g = .ok g') : g'.alive k = true ∧ derive k v g' = .ub := by
  have i := run_winv cs empty_winv hr
  have i' : WInv g' := step_winv (c := .move n) i h
  obtain ⟨al, args, hd, e0⟩ := hn
  have kl := i.alive_lt k hk
  obtain ⟨_, ⟨args', hd', e', _, rfl⟩ | ⟨e', _⟩⟩ := move_ok i h
  swap
  · rw [e0] at e'; cases e'
  have alk : (moveOp hd' n g).alive k = true := by simp [moveOp, React.upd, hk]
  have hj' : (moveOp hd' n g).jac k v = some { j with list := movedList n g.nodes.length k j.list } := by
    simp [moveOp, React.upd, Nat.ne_of_lt kl, hj]
  have hm : (⟨e.reads, g.nodes.length⟩ : Entry) ∈ movedList n g.nodes.length k j.list := by
    unfold movedList
    rw [if_neg ne]
    exact List.mem_map.mpr ⟨e, he, by simp [Entry.rename, rename, hen]⟩
  refine ⟨alk, derive_ub i' alk hj' hm ?_⟩
  rintro ⟨_, c⟩
  have : argsOf (moveOp hd' n g) g.nodes.length = [] :=
    argsOf_eq (h := hd') (by show (g.nodes ++ [Node.op [] hd'])[g.nodes.length]? = _; simp)
  dsimp only at c
  rw [this] at c
  simp at c
  omega

/-- A variable that has moved is not a leaf of the operations on it any more: they keep the address it had, and
their derivative for it is the constant zero. -/
theorem c84_moved_variable (cs : List Call) (g g' : St) (hr : run cs St.empty = .ok g) (v n : Nat) (hn : LiveOp g n)
    (hv : g.nodes[v]? = some .leaf) (h : move v g = .ok g') :
    v ∉ g'.leaves n ∧ (v ∈ g.leaves n → g.nodes.length ∈ g'.leaves n) ∧ derive n v g' = .ok g' := by
  have i := run_winv cs empty_winv hr
  obtain ⟨al, args, hd, e0⟩ := hn
  have nl := i.alive_lt n al
  have vl := getElem_op_lt hv
  have nv : n ≠ v := by intro c; subst c; rw [e0] at hv; cases hv
  obtain ⟨_, ⟨args', hd', e', _, rfl⟩ | ⟨_, rfl⟩⟩ := move_ok i h
  · rw [hv] at e'; cases e'
  have hl : (moveLeaf v g).leaves n = (g.leaves n).map (rename v g.nodes.length) := by
    show React.upd (React.upd (fun k => (g.leaves k).map (rename v g.nodes.length)) v [v]) g.nodes.length [g.nodes.length] n = _
    rw [leaves_eq, if_neg (by omega), leaves_eq, if_neg nv]
  have h1 : v ∉ (moveLeaf v g).leaves n := by
    rw [hl, List.mem_map]
    rintro ⟨x, _, hx⟩
    unfold rename at hx
    split at hx
    · omega
    · next c => exact c hx
  refine ⟨h1, ?_, ?_⟩
  · intro hm
    rw [hl, List.mem_map]
    exact ⟨v, hm, by simp [rename]⟩
  · have al' : (moveLeaf v g).alive n = true := by simp [moveLeaf, React.upd, al]
    have hg : gradient ((moveLeaf v g).nodes.length + 1) v n (moveLeaf v g) = .ok (moveLeaf v g) := by
      unfold gradient
      rw [if_pos al', if_neg (fun c => h1 c.1)]
    unfold derive
    rw [hg]
    show jacobianCall _ n v (moveLeaf v g) = _
    unfold jacobianCall
    rw [moveLeaf_jac_eq, if_neg (by omega), if_pos rfl]

/-! ### Cases -/

/-- `x`, `w`, `b`; `m = matmul(x, w)`; `s = sigmoid(m)`; `a = add_axial(s, b)` with its Jacobian for what `s` is made of. -/
def jhist : List Call :=
  [.newLeaf, .newLeaf, .newLeaf, .newOp [0, 1] false none (some ⟨false, 2, [0, 1]⟩), .newOp [3] false none none,
   .newOp [4, 2] false none (some ⟨true, 0, [0, 1]⟩)]

theorem jhist_runs : ∃ g, run jhist St.empty = .ok g ∧ LiveOp g 3 ∧ LiveOp g 4 ∧ LiveOp g 5 ∧ g.nodes.length = 6 ∧ OwnLast g 3 ∧
    g.jac 4 1 = some ⟨0, [⟨2, 3⟩], false⟩ ∧ g.jac 5 1 = some ⟨0, [⟨0, 5⟩, ⟨2, 3⟩], false⟩ ∧ g.jac 5 2 = none ∧ 2 ∈ g.leaves 5 ∧ g.nodes[1]? = some .leaf ∧
    (∀ m u, Call.derive m u ∈ jhist → ¬ Under g.nodes m 3) ∧ ∀ v, ¬ Branches g 3 v := by
  have j3 : ∀ {g : St}, run jhist St.empty = .ok g → ∀ v, g.jac 3 v = if v ∈ [0, 1] then some ⟨0, [⟨2, 3⟩], false⟩ else none := by
    intro g h v
    cases h
    show bornJac _ [0, 1] false none (some ⟨false, 2, [0, 1]⟩) v = _
    by_cases h0 : v = 0
    · subst h0; rfl
    · by_cases h1 : v = 1
      · subst h1; rfl
      · unfold bornJac
        have : v ∉ [0, 1] := by simp [h0, h1]
        rw [if_neg this, if_neg]
        intro c
        exact this c
  refine ⟨_, rfl, ⟨rfl, _, _, rfl⟩, ⟨rfl, _, _, rfl⟩, ⟨rfl, _, _, rfl⟩, rfl, ?_, rfl, rfl, rfl, by decide, rfl, ?_, ?_⟩
  · intro v j e hj he
    rw [j3 rfl] at hj
    split at hj
    · cases hj; simp at he
    · cases hj
  · intro m u h; simp [jhist] at h
  · rintro v ⟨j, hj, ht⟩
    rw [j3 rfl] at hj
    split at hj
    · cases hj; cases ht
    · cases hj

example : (∀ c ∈ jhist, Honest c) ∧ AlwaysJ NoCopies jhist St.empty := by
  refine ⟨?_, ?_⟩
  · intro c hc
    simp only [jhist, List.mem_cons, List.not_mem_nil, or_false] at hc
    rcases hc with rfl | rfl | rfl | rfl | rfl | rfl <;> simp [Honest]
  · exact ⟨trivial, fun _ _ => ⟨trivial, fun _ _ => ⟨trivial, fun _ _ => ⟨trivial, fun _ _ => ⟨trivial, fun _ _ => ⟨trivial, fun _ _ => trivial⟩⟩⟩⟩⟩⟩

/-- The product and its copy: every Jacobian at the back, and the original destroyed. -/
def jhist2 : List Call := [.newLeaf, .newLeaf, .newOp [0, 1] false none (some ⟨false, 2, [0, 1]⟩), .clone 2, .delete 2]

example : (∀ c ∈ jhist2, Honest c) ∧ (∀ c ∈ jhist2, AtBack c) ∧ AlwaysJ NoMoves jhist2 St.empty ∧
    ∃ g, run jhist2 St.empty = .ok g ∧ g.alive 3 = true ∧ g.alive 2 = false ∧ g.jac 3 1 = some ⟨0, [⟨2, 3⟩], false⟩ := by
  refine ⟨?_, ?_, ?_, _, rfl, rfl, rfl, rfl⟩
  · intro c hc
    simp only [jhist2, List.mem_cons, List.not_mem_nil, or_false] at hc
    rcases hc with rfl | rfl | rfl | rfl | rfl <;> simp [Honest]
  · intro c hc
    simp only [jhist2, List.mem_cons, List.not_mem_nil, or_false] at hc
    rcases hc with rfl | rfl | rfl | rfl | rfl <;> simp [AtBack]
  · exact ⟨trivial, fun _ _ => ⟨trivial, fun _ _ => ⟨trivial, fun _ _ => ⟨trivial, fun _ _ => ⟨trivial, fun _ _ => trivial⟩⟩⟩⟩⟩

/-- The biased sum of `jhist`: its copy is undefined to derive once the original is gone … -/
theorem c84_axial_copy : run (jhist ++ [.clone 5, .delete 5, .derive 6 1]) St.empty = .ub ∧
    ∃ g, run (jhist ++ [.clone 5, .derive 6 1]) St.empty = .ok g := ⟨rfl, _, rfl⟩

/-- … it cannot be copied after being derived for `b`, for which it has no Jacobian … -/
theorem c84_bias_copy : run (jhist ++ [.derive 5 2, .clone 5]) St.empty = .ub ∧ ∃ g, run (jhist ++ [.derive 5 1, .clone 5]) St.empty = .ok g :=
  ⟨rfl, _, rfl⟩

/-- … and after the product was moved, what is built on it cannot be derived. -/
theorem c84_product_moved : run (jhist ++ [.move 3, .derive 4 1]) St.empty = .ub ∧ ∃ g, run (jhist ++ [.move 3, .derive 3 1]) St.empty = .ok g :=
  ⟨rfl, _, rfl⟩

end Verif.Props
