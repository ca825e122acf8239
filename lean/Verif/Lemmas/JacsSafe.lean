import Verif.Lemmas.JacsRun
/-!
# Which Jacobians stay usable, and which operations can be copied
-/
namespace Verif
namespace Jacs
open React (upd forEach)
open Spec

/-- Every Jacobian a live operation keeps is its own or one of an operation below it. -/
def SInv (g : St) : Prop :=
  ∀ n v j e, g.alive n = true → g.jac n v = some j → e ∈ j.list → Under g.nodes n e.orig ∧ e.reads ≤ (argsOf g e.orig).length

theorem SInv.safe {g : St} (i : WInv g) (s : SInv g) {n : Nat} (al : g.alive n = true) : Safe g n := by
  intro v j e hj he
  obtain ⟨h1, h2⟩ := s n v j e al hj he
  exact ⟨below_alive i h1 al, h2⟩

theorem SInv.derive {g : St} (i : WInv g) (s : SInv g) {n : Nat} (al : g.alive n = true) (v : Nat) : ∃ g', derive n v g = .ok g' :=
  derive_total i al (fun _ _ hk => s.safe i hk) (fun j e hj he => s.safe i al v j e hj he)

theorem correct_fit {old new : Nat} {l : List Entry} {e : Entry} (hf : ∀ x ∈ l.dropLast, x.orig ≠ old) (h : e ∈ correct old new l) :
    (e ∈ l ∧ e.orig ≠ old) ∨ (e.orig = new ∧ ∃ x ∈ l, x.orig = old ∧ e.reads = x.reads) := by
  unfold correct at h
  split at h
  · next hl =>
    rw [List.getLast?_eq_none_iff] at hl
    rw [hl] at h; simp at h
  · next x hx =>
    split at h
    · next c =>
      rcases List.mem_append.mp h with h | h
      · exact Or.inl ⟨List.dropLast_subset _ h, hf e h⟩
      · have : e = ⟨x.reads, new⟩ := by simpa using h
        exact Or.inr ⟨by rw [this], x, List.mem_of_getLast? hx, c, by rw [this]⟩
    · next c =>
      refine Or.inl ⟨h, ?_⟩
      have hs := List.dropLast_append_getLast? x hx
      rw [← hs] at h
      rcases List.mem_append.mp h with h | h
      · exact hf e h
      · have : e = x := by simpa using h
        rw [this]; exact c

theorem getElem_op_lt {ns : List Node} {n : Nat} {x : Node} (h : ns[n]? = some x) : n < ns.length := by
  by_contra c; rw [List.getElem?_eq_none (by omega)] at h; cases h

theorem step_sinv {c : Call} {g g' : St} (i : WInv g) (s : SInv g) (hh : Honest c) (hf : CopyFit g c) (h : step c g = .ok g') : SInv g' := by
  -- an entry an old node had before
  have keep : ∀ {d : Node} {k v : Nat} {j : JList} {e : Entry}, g'.nodes = g.nodes ++ [d] → g.alive k = true → g.jac k v = some j → e ∈ j.list →
      Under g'.nodes k e.orig ∧ e.reads ≤ (argsOf g' e.orig).length := by
    intro d k v j e hn al hj he
    obtain ⟨h1, h2⟩ := s k v j e al hj he
    have := i.orig_lt k v j e hj he
    refine ⟨by rw [hn]; exact h1.append _, ?_⟩
    rw [argsOf_push hn, if_neg (by omega)]; exact h2
  have oldal : ∀ {k : Nat}, k ≠ g.nodes.length → upd g.alive g.nodes.length true k = true → g.alive k = true := by
    intro k hk h; rw [leaves_eq, if_neg hk] at h; exact h
  have newleaf : g' = newLeaf g → SInv g' := by
    rintro rfl k v j e al hj he
    have hk : k ≠ g.nodes.length ∧ g.jac k v = some j := by
      simp only [newLeaf, upd] at hj
      split at hj
      · cases hj
      · next c => exact ⟨c, hj⟩
    exact keep rfl (oldal hk.1 al) hk.2 he
  cases c with
  | newLeaf => cases h; exact newleaf rfl
  | newOp args hd ig own =>
    obtain ⟨_, hal, rfl⟩ := newOp_ok h
    intro k v j e al hj he
    by_cases hk : k = g.nodes.length
    · have hj' : bornJac g args hd ig own v = some j := by
        simp only [upd, if_pos hk] at hj; exact hj
      rcases bornJac_mem hj' he with ⟨a, ha, j0, h1, h2⟩ | ⟨o, ho, _, h3⟩
      · obtain ⟨h4, h5⟩ := keep (d := .op args hd) rfl (hal a ha) h1 h2
        refine ⟨?_, h5⟩
        rw [hk]
        exact .arg (args := args) (h := hd) (by show (g.nodes ++ [Node.op args hd])[g.nodes.length]? = _; simp) ha h4
      · rw [h3]
        refine ⟨by rw [hk]; exact .refl _, ?_⟩
        rw [argsOf_push (d := .op args hd) rfl, if_pos rfl]
        subst ho
        exact hh
    · have hj' : g.jac k v = some j := by
        simp only [upd, if_neg hk] at hj; exact hj
      exact keep (d := .op args hd) rfl (oldal hk al) hj' he
  | clone n =>
    obtain ⟨aln, ⟨args, hd, e0, _, rfl⟩ | ⟨_, rfl⟩⟩ := clone_ok h
    · intro k v j e al hj he
      rcases cloneOp_jac hj with ⟨a, b⟩ | ⟨a, j0, b, rfl⟩
      · exact keep (d := .op args hd) rfl (oldal a al) b he
      · have new : (cloneOp args hd n g).nodes[g.nodes.length]? = some (.op args hd) := by
          show (g.nodes ++ [Node.op args hd])[g.nodes.length]? = _; simp
        rcases correct_fit (fun x hx => hf v j0 x b hx) he with ⟨h1, h2⟩ | ⟨h1, x, hx, h2, h3⟩
        · obtain ⟨h3, h4⟩ := keep (d := .op args hd) rfl aln b h1
          refine ⟨?_, h4⟩
          rw [a]
          refine below_same (ns := (cloneOp args hd n g).nodes) h3 h2 ?_ (fun _ _ h => h)
          rw [new]
          show _ = (g.nodes ++ [Node.op args hd])[n]?
          rw [List.getElem?_append_left (getElem_op_lt e0), e0]
        · refine ⟨by rw [a, h1]; exact .refl _, ?_⟩
          rw [h1, argsOf_eq new, h3]
          obtain ⟨_, h5⟩ := s n v j0 x aln b hx
          rw [h2, argsOf_eq e0] at h5
          exact h5
    · exact newleaf rfl
  | move n =>
    obtain ⟨aln, ⟨args, hd, e0, _, rfl⟩ | ⟨e0, rfl⟩⟩ := move_ok i h
    · have hfit : OwnLast g n ∧ Unheard g n := by
        rcases hf with hf | hf
        · rw [e0] at hf; cases hf
        · exact hf
      intro k v j e al hj he
      obtain ⟨a, j0, b, rfl⟩ := moveOp_jac hj
      have alk := oldal a al
      have id1 : ∀ x : Entry, x.orig ≠ n → Entry.rename n g.nodes.length x = x := by
        intro x hx; simp [Entry.rename, rename, hx]
      have : e ∈ j0.list := by
        dsimp only at he
        unfold movedList at he
        split at he
        · next c =>
          subst c
          rcases List.mem_append.mp he with h | h
          · obtain ⟨x, hx, rfl⟩ := List.mem_map.mp h
            rw [id1 x (hfit.1 v j0 x b hx)]; exact List.dropLast_subset _ hx
          · exact List.mem_of_getLast? (by simpa using h)
        · next c =>
          obtain ⟨x, hx, rfl⟩ := List.mem_map.mp he
          rw [id1 x (hfit.2 k v j0 x c alk b hx)]; exact hx
      exact keep (d := .op [] hd) rfl alk b this
    · intro k v j e al hj he
      obtain ⟨a, _, b⟩ := moveLeaf_jac hj
      rcases b with ⟨_, b⟩ | b
      · exact keep (d := .leaf) rfl (oldal a al) b he
      · exact keep (d := .leaf) rfl (oldal a al) b he
  | delete n =>
    obtain ⟨_, rfl⟩ := delete_ok h
    intro k v j e al hj he
    refine s k v j e ?_ hj he
    have al' : (g.alive k && decide (k ∉ killed g n)) = true := al
    rw [Bool.and_eq_true] at al'
    exact al'.1
  | derive n v =>
    have e1 := (derive_ext i h).1
    intro k u j e al hj he
    rw [e1.nodes, argsOf_congr e1.nodes]
    exact s k u j e (by rw [← e1.alive]; exact al) (e1.list hj he) he
  | forget n v => cases h; exact s

theorem run_sinv (cs : List Call) : ∀ {g g' : St}, WInv g → SInv g → (∀ c ∈ cs, Honest c) → AlwaysJ CopyFit cs g → run cs g = .ok g' →
    WInv g' ∧ SInv g' := by
  induction cs with
  | nil => intro g g' i s _ _ h; cases h; exact ⟨i, s⟩
  | cons c cs ih =>
    intro g g' i s hh hf h
    obtain ⟨g1, h1, h2⟩ := Outcome.bind_eq_ok.1 h
    exact ih (step_winv i h1) (step_sinv i s (hh c (by simp)) hf.1 h1) (fun c hc => hh c (by simp [hc])) (hf.2 g1 h1) h2

theorem empty_sinv : SInv St.empty := by intro n v j e al; cases al

/-! ### Jacobians at the back -/

/-- Every operation's own Jacobian is the last of its lists. -/
def BackInv (g : St) : Prop := ∀ n, OwnLast g n

theorem correct_dropLast (old new : Nat) (l : List Entry) : (correct old new l).dropLast = l.dropLast := by
  unfold correct
  split
  · rfl
  · split
    · simp
    · rfl

theorem step_back {c : Call} {g g' : St} (i : WInv g) (s : BackInv g) (hb : AtBack c) (hm : NoMoves g c) (h : step c g = .ok g') : BackInv g' := by
  have newleaf : BackInv (newLeaf g) := by
    intro k v j e hj he
    simp only [newLeaf, upd] at hj
    split at hj
    · cases hj
    · exact s k v j e hj he
  have small : ∀ {k u j e}, g.jac k u = some j → e ∈ j.list → e.orig ≠ g.nodes.length := by
    intro k u j e hj he
    have := i.orig_lt k u j e hj he
    omega
  cases c with
  | newLeaf => cases h; exact newleaf
  | newOp args hd ig own =>
    obtain ⟨_, hal, rfl⟩ := newOp_ok h
    intro k v j e hj he
    by_cases hk : k = g.nodes.length
    · have hj' : bornJac g args hd ig own v = some j := by
        simp only [upd, if_pos hk] at hj; exact hj
      rw [hk]
      have inh : ∀ {l : List Nat} {j1 : JList} {x : Entry}, (if v ∈ l then none else inherited g args v) = some j1 → x ∈ j1.list → x.orig ≠ g.nodes.length := by
        intro l j1 x h1 h2
        obtain ⟨a, _, j0, h3, h4⟩ := ignored_mem h1 h2
        exact small h3 h4
      unfold bornJac at hj'
      split at hj'
      · split at hj'
        · exact inh hj' (List.dropLast_subset _ he)
        · next o ho =>
          have hfr : o.front = false := by
            unfold ownFor at ho
            split at ho
            · cases ho
            · split at ho
              · cases ho; exact hb
              · cases ho
          unfold pushOwn at hj'
          split at hj'
          · cases hj'; simp at he
          · next j1 hj1 =>
            cases hj'
            rw [hfr] at he
            simp only [Bool.false_eq_true, if_false, List.dropLast_concat] at he
            exact inh hj1 he
      · cases hj'
    · have hj' : g.jac k v = some j := by
        simp only [upd, if_neg hk] at hj; exact hj
      exact s k v j e hj' he
  | clone n =>
    obtain ⟨aln, ⟨args, hd, e0, _, rfl⟩ | ⟨_, rfl⟩⟩ := clone_ok h
    · intro k v j e hj he
      rcases cloneOp_jac hj with ⟨a, b⟩ | ⟨a, j0, b, rfl⟩
      · exact s k v j e b he
      · dsimp only at he
        rw [correct_dropLast] at he
        rw [a]; exact small b (List.dropLast_subset _ he)
    · exact newleaf
  | move n =>
    obtain ⟨aln, ⟨args, hd, e0, _, rfl⟩ | ⟨e0, rfl⟩⟩ := move_ok i h
    · have hm' : g.nodes[n]? = some .leaf := hm
      rw [e0] at hm'; cases hm'
    · intro k v j e hj he
      obtain ⟨a, _, b⟩ := moveLeaf_jac hj
      rcases b with ⟨_, b⟩ | b
      · exact s k n j e b he
      · exact s k v j e b he
  | delete n =>
    obtain ⟨_, rfl⟩ := delete_ok h
    exact s
  | derive n v =>
    have e1 := (derive_ext i h).1
    intro k u j e hj he
    exact s k u j e (e1.list hj (List.dropLast_subset _ he)) he
  | forget n v => cases h; exact s

theorem back_fit (cs : List Call) : ∀ {g : St}, WInv g → BackInv g → (∀ c ∈ cs, AtBack c) → AlwaysJ NoMoves cs g → AlwaysJ CopyFit cs g := by
  induction cs with
  | nil => intro g _ _ _ _; trivial
  | cons c cs ih =>
    intro g i s hb hm
    refine ⟨?_, fun g' h => ih (step_winv i h) (step_back i s (hb c (by simp)) hm.1 h) (fun c hc => hb c (by simp [hc])) (hm.2 g' h)⟩
    cases c with
    | clone n => exact s n
    | move n => exact Or.inl hm.1
    | _ => trivial

theorem plain_fit (cs : List Call) : ∀ {g : St}, WInv g → AlwaysJ NoCopies cs g → AlwaysJ CopyFit cs g := by
  induction cs with
  | nil => intro g _ _; trivial
  | cons c cs ih =>
    intro g i hm
    refine ⟨?_, fun g' h => ih (step_winv i h) (hm.2 g' h)⟩
    cases c with
    | clone n =>
      intro v j e hj _
      exact absurd hm.1 (i.leafjac n v j hj).2
    | move n => exact Or.inl hm.1
    | _ => trivial

/-! ### Empty lists -/

/-- An empty list comes from two branches or from a derivative. -/
def EInv (cs : List Call) (g : St) : Prop :=
  ∀ n v j, g.jac n v = some j → j.list = [] → j.terminal = true ∨ ∃ m u, Call.derive m u ∈ cs ∧ Under g.nodes m n

theorem takeArg_good {this arg : Option JList} (h : ∀ j, this = some j → j.list = [] → j.terminal = true) :
    ∀ j, takeArg this arg = some j → j.list = [] → j.terminal = true := by
  intro j hj he
  unfold takeArg at hj
  split at hj
  · exact h j hj he
  · next j0 =>
    split at hj
    · exact h j hj he
    · next c =>
      split at hj
      · cases hj; exact absurd he c
      · split at hj
        · cases hj; rfl
        · exact h j hj he

theorem fold_good {g : St} {v : Nat} (as : List Nat) : ∀ {t : Option JList}, (∀ j, t = some j → j.list = [] → j.terminal = true) →
    ∀ j, as.foldl (fun t a => takeArg t (g.jac a v)) t = some j → j.list = [] → j.terminal = true := by
  induction as with
  | nil => intro t h; exact h
  | cons a as ih => intro t h; exact ih (takeArg_good h)

theorem bornJac_empty {g : St} {args : List Nat} {hd : Bool} {ig : Option Nat} {own : Option Own} {v : Nat} {j : JList}
    (h : bornJac g args hd ig own v = some j) (he : j.list = []) : j.terminal = true := by
  unfold bornJac at h
  split at h
  · split at h
    · split at h
      · cases h
      · exact fold_good _ (fun j h => by cases h) j h he
    · next o _ =>
      unfold pushOwn at h
      split at h
      · cases h; simp at he
      · cases h
        dsimp only at he
        split at he <;> simp at he
  · cases h

theorem correct_nil {old new : Nat} {l : List Entry} (h : correct old new l = []) : l = [] := by
  unfold correct at h
  split at h
  · exact h
  · split at h
    · simp at h
    · exact h

theorem movedList_nil {n N k : Nat} {l : List Entry} (h : movedList n N k l = []) : l = [] := by
  unfold movedList at h
  split at h
  · rw [List.append_eq_nil_iff] at h
    have h2 : l.getLast? = none := by
      cases hl : l.getLast? with
      | none => rfl
      | some x => rw [hl] at h; simp at h
    exact List.getLast?_eq_none_iff.mp h2
  · exact List.map_eq_nil_iff.mp h

theorem backUndefined_iff {g : St} (i : WInv g) (n : Nat) : backUndefined g n = true ↔ ∃ v j, g.jac n v = some j ∧ j.list = [] := by
  unfold backUndefined
  rw [List.any_eq_true]
  constructor
  · rintro ⟨v, _, h⟩
    split at h
    · next j hj => exact ⟨v, j, hj, by simpa using h⟩
    · cases h
  · rintro ⟨v, j, hj, he⟩
    exact ⟨v, i.keys n v j hj, by rw [hj]; simp [he]⟩

theorem step_einv {cs : List Call} {c : Call} {g g' : St} (i : WInv g) (s : EInv cs g) (h : step c g = .ok g') : EInv (cs ++ [c]) g' := by
  obtain ⟨l, hl⟩ := step_nodes i h
  have keep : ∀ {k v j}, g.jac k v = some j → j.list = [] → j.terminal = true ∨ ∃ m u, Call.derive m u ∈ cs ++ [c] ∧ Under g'.nodes m k := by
    intro k v j h1 h2
    rcases s k v j h1 h2 with h3 | ⟨m, u, h3, h4⟩
    · exact Or.inl h3
    · exact Or.inr ⟨m, u, by simp [h3], by rw [hl]; exact h4.append _⟩
  have newleaf : g' = newLeaf g → EInv (cs ++ [c]) g' := by
    intro hg k v j hj he
    rw [hg] at hj
    simp only [newLeaf, upd] at hj
    split at hj
    · cases hj
    · exact keep hj he
  cases c with
  | newLeaf => exact newleaf (by cases h; rfl)
  | newOp args hd ig own =>
    obtain ⟨_, hal, hg⟩ := newOp_ok h
    intro k v j hj he
    rw [hg] at hj
    by_cases hk : k = g.nodes.length
    · have hj' : bornJac g args hd ig own v = some j := by
        simp only [upd, if_pos hk] at hj; exact hj
      exact Or.inl (bornJac_empty hj' he)
    · have hj' : g.jac k v = some j := by
        simp only [upd, if_neg hk] at hj; exact hj
      exact keep hj' he
  | clone n =>
    obtain ⟨aln, ⟨args, hd, e0, hu, hg⟩ | ⟨_, hg⟩⟩ := clone_ok h
    · intro k v j hj he
      rw [hg] at hj
      rcases cloneOp_jac hj with ⟨a, b⟩ | ⟨a, j0, b, rfl⟩
      · exact keep b he
      · have := (backUndefined_iff i n).mpr ⟨v, j0, b, correct_nil he⟩
        rw [hu] at this; cases this
    · exact newleaf hg
  | move n =>
    obtain ⟨aln, ⟨args, hd, e0, _, hg⟩ | ⟨e0, hg⟩⟩ := move_ok i h
    · intro k v j hj he
      rw [hg] at hj
      obtain ⟨a, j0, b, rfl⟩ := moveOp_jac hj
      have hnil : j0.list = [] := movedList_nil he
      have := keep b hnil
      exact this
    · intro k v j hj he
      rw [hg] at hj
      obtain ⟨a, _, b⟩ := moveLeaf_jac hj
      rcases b with ⟨_, b⟩ | b
      · exact keep b he
      · exact keep b he
  | delete n =>
    obtain ⟨_, hg⟩ := delete_ok h
    intro k v j hj he
    rw [hg] at hj
    exact keep hj he
  | derive n v =>
    have e1 := (derive_ext i h).1
    intro k u j hj he
    rcases e1.fresh k u j hj with h1 | ⟨_, h2, _⟩
    · exact keep h1 he
    · exact Or.inr ⟨n, v, by simp, by rw [hl]; exact h2.append _⟩
  | forget n v =>
    intro k u j hj he
    cases h
    exact keep hj he

theorem run_einv (cs : List Call) : ∀ {ds : List Call} {g g' : St}, WInv g → EInv ds g → run cs g = .ok g' → EInv (ds ++ cs) g' := by
  induction cs with
  | nil => intro ds g g' i s h; cases h; simpa using s
  | cons c cs ih =>
    intro ds g g' i s h
    obtain ⟨g1, h1, h2⟩ := Outcome.bind_eq_ok.1 h
    have := ih (ds := ds ++ [c]) (step_winv i h1) (step_einv i s h1) h2
    simpa using this

theorem killed_ge {g : St} (i : WInv g) {n : Nat} : ∀ k, k ∈ killed g n → n ≤ k := by
  intro k
  induction k using Nat.strongRecOn with
  | _ k ih =>
    intro h
    rcases ((killed_mem i.args_lt n k).mp h).2 with h1 | ⟨a, ha, h1⟩
    · omega
    · have := i.args_lt k a ha
      have := ih a this h1
      omega

end Jacs
end Verif
