import Verif.Lemmas.FaultRecover
import Verif.Props.Graph
/-!
# C71: the computation graph after exceptions the caller catches
-/
namespace Verif.Props
open Graph Spec
open React (upd)

variable {V : Type}

/-- Without exceptions these histories are those of C30 to C33: a call of one model returns exactly when it does in the
other, with the same state, and throws the same exception. -/
theorem c71_same_calls (sch : Sched) (c : Call V) (g : G V) :
    (∀ g', stepR sch c g = .done g' ↔ step sch c g = .ok g') ∧ (∀ e, (∃ g', stepR sch c g = .thrown e g') ↔ step sch c g = .throw e) := by
  have h := stepR_erase sch c g
  rw [← h]
  refine ⟨fun g' => Res.erase_ok.symm, fun e => ?_⟩
  cases r : stepR sch c g with
  | done a => exact ⟨fun ⟨_, h⟩ => (by cases h), fun h => (by cases h)⟩
  | thrown e' a => exact ⟨fun ⟨_, h⟩ => (by cases h; rfl), fun h => (by cases h; exact ⟨a, rfl⟩)⟩
  | abort => exact ⟨fun ⟨_, h⟩ => (by cases h), fun h => (by cases h)⟩
  | ub => exact ⟨fun ⟨_, h⟩ => (by cases h), fun h => (by cases h)⟩

/-- After any history, whatever was thrown and caught in it, two operations are in the same graph exactly when they are
linked by argument edges. -/
theorem c71_same_graph_iff_linked (cs : List (Sched × Call V)) (g : G V) (hr : runR cs G.empty = some g) (a b : Nat)
    (ha : g.alive a = true) (hb : g.alive b = true) (oa : isOp g a = true) (ob : isOp g b = true) :
    isSameGraph g a b = true ↔ Linked g.defs a b := by
  have i := runR_inv cs InvW.empty hr
  obtain ⟨W, w1, _, w3⟩ := i.virt
  rw [← w3 a b oa ob, w1 a ha oa, w1 b hb ob]
  simp [isSameGraph]

/-- After any history, whatever was thrown and caught in it, `get_leaves` returns the leaves reachable through arguments. -/
theorem c71_leaves (cs : List (Sched × Call V)) (g : G V) (hr : runR cs G.empty = some g) (k l : Nat) (hk : k < g.defs.length) :
    l ∈ g.leaves k ↔ DependsOn g.defs k l :=
  (runR_inv cs InvW.empty hr).leaves k l hk

/-- What an exception from `eval` means and what it leaves: some operation of the graph of `n` whose arguments all have
values fails on them.  From then on, whatever values are assigned to leaves, with whatever notifications, the next
evaluation of any node that returns leaves that operation the value it had before: its failure, and every correction of
its arguments made before that evaluation, is silently forgotten. -/
theorem c71_failure_masked (cs : List (Sched × Call V)) (g g1 : G V) (sch : Sched) (n : Nat) (e : Exc)
    (hr : runR cs G.empty = some g) (hz : ∀ c ∈ cs, ∀ m, c.2 ≠ .freeze m true) (he : evalR sch n g = .thrown e g1) :
    ∃ x, g1.alive x = true ∧ isSameGraph g1 x n = true ∧
      (∃ f args h vs, g1.defs[x]? = some (.op f args h) ∧ args.mapM g1.data = some vs ∧ f vs = .throw e) ∧
      ∀ (as : List (Sched × Call V)) (g2 : G V), (∀ c ∈ as, ∃ l v b, c.2 = .assign l v b) → runR as g1 = some g2 →
        ∀ (sch' : Sched) (n' : Nat) (g3 : G V), evalR sch' n' g2 = .done g3 → g3.data x = g1.data x := by
  obtain ⟨i, nf⟩ := runR_nf cs InvW.empty NF.empty hz hr
  have i1 := stepR_inv (sch := sch) (c := .eval n) i
  have nf1 := stepR_nf (sch := sch) (c := .eval n) i nf (fun m h => by cases h)
  have e' : stepR sch (.eval n) g = .thrown e g1 := he
  rw [e'] at i1 nf1
  change InvW g1 at i1
  change NF g1 at nf1
  unfold evalR at he
  split at he
  · split at he
    · obtain ⟨x, hf, hs, ha, ho, hm⟩ := drainR_thrown _ _ _ _ _ _ i.wf i.q nf he
      have fr := managerUpdateR_weak (sch := sch) (m := g.gman n) i
      rw [he] at fr
      have hgm : g1.gman = g.gman := fr.2.1.gman
      refine ⟨x, ha, ?_, hf, ?_⟩
      · simp [isSameGraph, hm, hgm]
      · intro as g2 has h2 sch' n' g3 h3
        have hop : ∀ y, Stuck g1 y → isOp g1 y = true := by
          intro y hy
          cases hy with
          | popped h1 _ => exact (i1.q.mapOp _ _ h1).1
          | fed _ h => exact isOp_of_arg (by rw [h]; exact List.mem_singleton.2 rfl)
        obtain ⟨k, i2⟩ := assigns_kept as i1 nf1 (stuck_closed g1) hop has h2
        rw [← k.data x hs]
        unfold evalR at h3
        split at h3
        · split at h3
          · exact ((drainR_kept sch' _ _ g2 i2.wf i2.q k.nf k.closed).1 g3 h3).2 x hs
          · cases h3; rfl
        · cases h3
    · cases he
  · cases he

/-- Two numbers added, unless the first is 0. -/
def nonzeroF (vs : List Nat) : Outcome Nat := if vs.head? = some 0 then .throw .logicError else .ok vs.sum

/-- Leaf 0 is 1, leaf 1 is 5, operation 2 adds them and is evaluated; then leaf 0 becomes 0. -/
def hist71 : List (Sched × Call Nat) :=
  [.newLeaf (some 1), .newLeaf (some 5), .newOp nonzeroF [0, 1] false, .eval 2, .assign 0 0 true].map (fun c => (idSched, c))

example : ∃ g g1, runR hist71 G.empty = some g ∧ (∀ c ∈ hist71, ∀ m, c.2 ≠ .freeze m true) ∧
    evalR idSched 2 g = .thrown .logicError g1 ∧ g1.data 2 = some 6 := by
  refine ⟨_, _, rfl, ?_, rfl, rfl⟩
  intro c hc m; simp [hist71] at hc; rcases hc with rfl | rfl | rfl | rfl | rfl <;> simp

theorem nonzero_computes {leaf : Nat → Option Nat} {a b v : Nat} (h0 : leaf 0 = some a) (h1 : leaf 1 = some b) :
    Computes [.leaf, .leaf, .op nonzeroF [0, 1] false] leaf 2 v ↔ nonzeroF [a, b] = .ok v := by
  constructor
  · intro h
    cases h with
    | leaf h _ => cases h
    | @op n f args b vs v e1 e2 e3 e4 =>
      cases e1
      match vs, e2, e4 with
      | [w, u], _, e4 =>
        have p := e3 0 0 w rfl rfl
        have q := e3 1 1 u rfl rfl
        cases p with
        | op h _ _ _ => cases h
        | leaf _ p => cases q with
          | op h _ _ _ => cases h
          | leaf _ q =>
            rw [h0] at p; rw [h1] at q
            cases p; cases q; exact e4
  · intro h
    refine Computes.op (vs := [a, b]) rfl rfl ?_ h
    intro i x w hx hw
    match i, hx, hw with
    | 0, hx, hw => cases hx; cases hw; exact .leaf rfl h0
    | 1, hx, hw => cases hx; cases hw; exact .leaf rfl h1

/-- Correcting the argument after a caught exception does not help: `eval` throws, the leaf is given a good value with
notification, and `eval` then returns the value from before the failure, which the expression does not have. -/
theorem c71_fix_ignored :
    ∃ (cs : List (Sched × Call Nat)) (g g' : G Nat), (∀ c ∈ cs, Loud c.2) ∧ runR cs G.empty = some g ∧
      evalR idSched 2 g = .done g' ∧ g'.data 2 = some 6 ∧ Computes g'.defs g'.data 2 15 ∧ ¬ Computes g'.defs g'.data 2 6 := by
  refine ⟨hist71 ++ [(idSched, .eval 2), (idSched, .assign 0 10 true)], _, _, ?_, rfl, rfl, rfl, ?_, ?_⟩
  · intro c hc; simp [hist71] at hc; rcases hc with rfl | rfl | rfl | rfl | rfl | rfl | rfl <;> simp [Loud]
  · exact (nonzero_computes (a := 10) (b := 5) rfl rfl).2 rfl
  · intro h
    have := (nonzero_computes (a := 10) (b := 5) rfl rfl).1 h
    cases this

/-- Leaf 0 is 1; operations 1 and 2 have it as their only argument, and the second fails on 0. -/
def hist71b : List (Sched × Call Nat) :=
  [.newLeaf (some 1), .newOp sumF [0] false, .newOp nonzeroF [0] false].map (fun c => (idSched, c))

/-- The other hash order. -/
def revSched : Sched := ⟨fun _ l => l.reverse, fun _ l => l, fun _ l => l.reverse_perm, fun _ l => .refl l⟩

/-- An assignment that throws has stored the value, but which operations have heard of it depends on the order in which
the container of observers is walked: the same program with two hash orders gives two values of the same operation. -/
theorem c71_assign_partly_told :
    ∃ (g ga gb ga' gb' : G Nat), runR hist71b G.empty = some g ∧
      assignR idSched 0 0 true g = .thrown .logicError ga ∧ assignR revSched 0 0 true g = .thrown .logicError gb ∧
      ga.data 0 = some 0 ∧ gb.data 0 = some 0 ∧
      evalR idSched 1 ga = .done ga' ∧ evalR idSched 1 gb = .done gb' ∧ ga'.data 1 = some 0 ∧ gb'.data 1 = some 1 :=
  ⟨_, _, _, _, _, rfl, rfl, rfl, rfl, rfl, rfl, rfl, rfl, rfl⟩

/-- Exactly which constructions throw: those of an operation of one argument, which has a value that the new operation
fails on, unless the argument is an operation of a frozen graph.  Nothing is changed by them. -/
theorem c71_construct_throws_iff (cs : List (Sched × Call V)) (g : G V) (hr : runR cs G.empty = some g)
    (sch : Sched) (f : List V → Outcome V) (args : List Nat) (h : Bool) (e : Exc) (g' : G V) :
    newOpR sch f args h g = .thrown e g' ↔
      g' = g ∧ ∃ a v, args = [a] ∧ g.alive a = true ∧ g.data a = some v ∧ f [v] = .throw e ∧ ¬ Frozen g a := by
  have i := runR_inv cs InvW.empty hr
  by_cases h0 : args = []
  · subst h0
    simp [newOpR]
  unfold newOpR
  rw [if_neg h0]
  by_cases hal : args.all g.alive = true
  · rw [if_pos hal]
    have hargs : ∀ a ∈ args, g.alive a = true := by simpa using hal
    obtain ⟨ic, dc, tc, ac⟩ := i.construct f args h hargs
    have hda : (construct f args h g).defs[g.defs.length]? = some (.op f args h) := by rw [dc]; simp
    have har : argsOf (construct f args h g) g.defs.length = args := by unfold argsOf; rw [hda]; rfl
    have hlt : ∀ a ∈ args, a ≠ g.defs.length := fun a ha => by have := i.wf.alive_lt a (hargs a ha); omega
    have hdat : ∀ a ∈ args, (construct f args h g).data a = g.data a := by
      intro a ha
      rw [tc, React.upd, if_neg (hlt a ha)]
    constructor
    · intro ht
      unfold updateR at ht
      rw [har] at ht
      split at ht
      · rename_i hg
        split at ht
        · cases ht
        · rename_i hf
          simp only [Bool.or_eq_true, decide_eq_true_eq, not_or, Bool.not_eq_true] at hf
          obtain ⟨hz, hl⟩ := hf
          obtain ⟨a, rfl⟩ : ∃ a, args = [a] := by
            match args, h0, hl with
            | [a], _, _ => exact ⟨a, rfl⟩
            | a :: b :: l, _, hl => simp at hl
          have hga : ((construct f [a] h g).data a).isSome = true := by
            have := hg; simp [good] at this; exact this
          rw [hdat a (by simp)] at hga
          obtain ⟨v, hv⟩ := Option.isSome_iff_exists.1 hga
          have hm : [a].mapM (construct f [a] h g).data = some [v] := by simp [hdat a (by simp), hv]
          have hfz : ¬ Frozen g a := by
            rintro ⟨⟨f', as', h', e1⟩, e2⟩
            have ho : isOp g a = true := by unfold isOp; rw [e1]; rfl
            have : ((construct f [a] h g).man ((construct f [a] h g).gman g.defs.length)).freeze = (g.man (g.gman a)).freeze := by
              simp [construct, ho, updateGraph, React.upd]
            rw [this, e2] at hz; cases hz
          cases hr : f [v] with
          | ok w =>
            have hfw : forwardR g.defs.length (construct f [a] h g) = .done { construct f [a] h g with data := upd (construct f [a] h g).data g.defs.length (some w) } := by
              unfold forwardR; rw [hda]; simp only [hm, hr]
            rw [hfw] at ht
            have hau : audience { construct f [a] h g with data := upd (construct f [a] h g).data g.defs.length (some w) } g.defs.length = [] := by
              rw [List.eq_nil_iff_forall_not_mem]
              intro k hk
              have := (mem_audience _ _ k).mp hk
              have l1 := ic.wf.args_lt k _ this.2.2
              have l2 : k < (construct f [a] h g).defs.length := this.1
              rw [dc] at l2; simp at l2; omega
            have hno : notifyR sch (g.defs.length + 2) g.defs.length { construct f [a] h g with data := upd (construct f [a] h g).data g.defs.length (some w) } = .done { construct f [a] h g with data := upd (construct f [a] h g).data g.defs.length (some w) } := by
              rw [notifyR, hau]
              have : sch.aud g.defs.length [] = [] := List.perm_nil.1 (sch.aud_perm _ [])
              rw [this]; rfl
            rw [Res.andThen, hno] at ht; cases ht
          | throw x =>
            have hfw : forwardR g.defs.length (construct f [a] h g) = .thrown x (construct f [a] h g) := by
              unfold forwardR; rw [hda]; simp only [hm, hr]
            rw [hfw] at ht; cases ht
            exact ⟨rfl, a, v, rfl, hargs a (by simp), hv, hr, hfz⟩
          | abort =>
            have hfw : forwardR g.defs.length (construct f [a] h g) = .abort := by
              unfold forwardR; rw [hda]; simp only [hm, hr]
            rw [hfw] at ht; cases ht
          | ub =>
            have hfw : forwardR g.defs.length (construct f [a] h g) = .ub := by
              unfold forwardR; rw [hda]; simp only [hm, hr]
            rw [hfw] at ht; cases ht
      · cases ht
    · rintro ⟨rfl, a, v, rfl, ha, hv, hf, hz⟩
      have hm : [a].mapM (construct f [a] h g').data = some [v] := by simp [hdat a (by simp), hv]
      have hfw : forwardR g'.defs.length (construct f [a] h g') = .thrown e (construct f [a] h g') := by
        unfold forwardR; rw [hda]; simp only [hm, hf]
      have hfr : ((construct f [a] h g').man ((construct f [a] h g').gman g'.defs.length)).freeze = false := by
        cases ho : isOp g' a with
        | true =>
          have e1 : ((construct f [a] h g').man ((construct f [a] h g').gman g'.defs.length)).freeze = (g'.man (g'.gman a)).freeze := by
            simp [construct, ho, updateGraph, React.upd]
          rw [e1]
          cases e2 : (g'.man (g'.gman a)).freeze with
          | false => rfl
          | true => exact absurd ⟨(isOp_iff g' a).mp ho, e2⟩ hz
        | false => simp [construct, ho, updateGraph, React.upd]
      have hgd : (argsOf (construct f [a] h g') g'.defs.length).all (good (construct f [a] h g')) = true := by
        rw [har]; simp [good, hdat a (by simp), hv]
      unfold updateR
      rw [if_pos hgd, if_neg (by rw [hfr, har]; simp), hfw]
      rfl
  · rw [if_neg hal]
    constructor
    · intro h; cases h
    · rintro ⟨_, a, v, rfl, ha, _⟩
      simp [ha] at hal
example : ∃ g, runR hist71b G.empty = some g ∧ (∃ g', assignR idSched 0 0 true g = .thrown .logicError g' ∧
    newOpR idSched nonzeroF [0] false g' = .thrown .logicError g') :=
  ⟨_, rfl, _, rfl, rfl⟩

/-- How to recover.  Once an evaluation of `n` has returned (what it returned may be wrong), assigning every leaf of the
expression anew, with notifications and without exceptions, brings `n` up to date: the next evaluation that returns gives
the value of the expression for the values assigned. -/
theorem c71_recovery (cs as : List (Sched × Call V)) (g g1 g2 g3 : G V) (s s' : Sched) (n : Nat)
    (hr : runR cs G.empty = some g) (hz : ¬ Frozen g n) (h1 : evalR s n g = .done g1)
    (ha : ∀ c ∈ as, ∃ l v, c.2 = .assign l v true)
    (hall : ∀ l, Uses g.defs n l → g.defs[l]? = some .leaf → ∃ c ∈ as, ∃ v, c.2 = .assign l v true)
    (h2 : run as g1 = .ok g2) (h3 : evalR s' n g2 = .done g3) (v : V) :
    g3.data n = some v ↔ Computes g.defs (told (as.map Prod.snd)).leaf n v := by
  obtain ⟨i, ne⟩ := runR_ne cs InvW.empty (fun k hk => by simp [isOp, G.empty] at hk) hr
  have hal : g.alive n = true := by
    unfold evalR at h1
    split at h1
    · assumption
    · cases h1
  -- after the first evaluation
  have st1 : InvW g1 ∧ g1.defs = g.defs ∧ g1.alive = g.alive ∧ g1.gman = g.gman ∧ (∀ m, (g1.man m).freeze = (g.man m).freeze) ∧
      (isOp g n = true → (g1.man (g.gman n)).queue = [] ∧ (g1.man (g.gman n)).map = []) := by
    unfold evalR at h1
    rw [if_pos hal] at h1
    cases ho : isOp g n with
    | true =>
      have hf : (g.man (g.gman n)).freeze = false := by
        cases e : (g.man (g.gman n)).freeze with
        | false => rfl
        | true => exact absurd ⟨(isOp_iff g n).mp ho, e⟩ hz
      rw [if_pos (by rw [ho, hf]; rfl)] at h1
      have ws := managerUpdateR_weak (sch := s) (m := g.gman n) i
      rw [h1] at ws
      obtain ⟨a, b, _⟩ := ws
      exact ⟨a, b.defs, b.alive, b.gman, b.freeze, fun _ => drainR_cleared _ _ _ _ _ h1⟩
    | false =>
      rw [if_neg (by rw [ho]; simp)] at h1
      cases h1
      exact ⟨i, rfl, rfl, rfl, fun _ => rfl, fun h => by cases h⟩
  obtain ⟨i1, d1, al1, gm1, fz1, cl1⟩ := st1
  have told : ∀ l, (∃ c ∈ as, ∃ v, c.2 = .assign l v true) →
      ((as.map Prod.snd).foldl tell ⟨[], g1.data⟩).leaf l = (told (as.map Prod.snd)).leaf l := by
    intro l hc
    refine told_leaf (as.map Prod.snd) l _ _ ?_ (Or.inr ?_)
    · intro c hc
      obtain ⟨d, hd, rfl⟩ := List.mem_map.1 hc
      exact ha d hd
    · obtain ⟨d, hd, u, hu⟩ := hc
      exact ⟨d.2, List.mem_map.2 ⟨d, hd, rfl⟩, u, hu⟩
  have key : ∃ A : Nat → Prop, InvW g3 ∧ g3.defs = g.defs ∧ g3.alive = g.alive ∧ g3.gman = g.gman ∧
      (∀ l, isOp g l = false → (∃ c ∈ as, ∃ v, c.2 = .assign l v true) → g3.data l = (Spec.told (as.map Prod.snd)).leaf l) ∧
      (∀ l, A l → isOp g l = false ∧ ¬ ∃ c ∈ as, ∃ v, c.2 = .assign l v true) ∧
      (isOp g n = true → (g3.man (g.gman n)).queue = [] ∧ Due (g.gman n) g3 A (fun _ => False)) := by
    cases ho : isOp g n with
    | true =>
      obtain ⟨q1, mp1⟩ := cl1 ho
      have hf : (g.man (g.gman n)).freeze = false := by
        cases e : (g.man (g.gman n)).freeze with
        | false => rfl
        | true => exact absurd ⟨(isOp_iff g n).mp ho, e⟩ hz
      have p1 : PL (g.gman n) 0 g1 := fun x hx => by rw [mp1] at hx; simp at hx
      have j1 : Due (g.gman n) g1 (fun l => isOp g l = false) (fun _ => False) := by
        intro k hk1 hk2 hk3
        obtain ⟨l, hl1, hl2⟩ := above_leaf i1.wf (ne.congr d1) k hk2
        exact Or.inr (Or.inr (Or.inl ⟨l, (isOp_congr d1 l).symm.trans hl1, hl2⟩))
      obtain ⟨i2, p2, j2, d2, al2, gm2, fz2, lf2⟩ := assigns_due (g.gman n) as g1 g2 _ i1 p1 j1 ha h2
      have hg2 : g2.gman n = g.gman n := by rw [gm2, gm1]
      unfold evalR at h3
      rw [if_pos (by rw [al2, al1]; exact hal),
        if_pos (by rw [isOp_congr (d2.trans d1), ho, hg2, fz2, fz1, hf]; rfl), hg2] at h3
      obtain ⟨j3, q3, _⟩ := drainR_due s' (g.gman n) _ _ g2 g3 0 h3 i2.wf i2.q p2 (fun _ _ => Nat.zero_le _) j2
      have ws := managerUpdateR_weak (sch := s') (m := g.gman n) i2
      rw [show managerUpdateR s' (g.gman n) g2 = .done g3 from h3] at ws
      obtain ⟨i3, fr, _⟩ := ws
      refine ⟨_, i3, fr.defs.trans (d2.trans d1), fr.alive.trans (al2.trans al1), fr.gman.trans (gm2.trans gm1), ?_, fun l hl => hl, fun _ => ⟨q3, j3⟩⟩
      intro l hl hc
      have e3 : g3.data l = g2.data l := by
        rcases fr.data l with e | e
        · exact e
        · have : isOp g2 l = true := e.1
          rw [isOp_congr (d2.trans d1), hl] at this; cases this
      rw [e3, lf2 ⟨[], g1.data⟩ l (by rw [isOp_congr d1]; exact hl) rfl]
      exact told l hc
    | false =>
      obtain ⟨i2, p2, j2, d2, al2, gm2, fz2, lf2⟩ := assigns_due g1.defs.length as g1 g2 (fun _ => False) i1
        (fun x hx => absurd (i1.q.mlt _ x hx) (by omega)) (fun k _ hk2 hk3 => absurd (i1.wf.gman_lt k hk2) (by omega)) ha h2
      unfold evalR at h3
      rw [if_pos (by rw [al2, al1]; exact hal), if_neg (by rw [isOp_congr (d2.trans d1), ho]; simp)] at h3
      cases h3
      refine ⟨fun _ => False, i2, d2.trans d1, al2.trans al1, gm2.trans gm1, ?_, fun _ h => h.elim, fun h => by cases h⟩
      intro l hl hc
      rw [lf2 ⟨[], g1.data⟩ l (by rw [isOp_congr d1]; exact hl) rfl]
      exact told l hc
  obtain ⟨A, i3, d3, al3, gm3, lf3, hA, j3⟩ := key
  have up : ∀ l, l = n ∨ Above g3 l n → Uses g.defs n l := by
    rintro l (rfl | h)
    · exact .self l
    · rw [← d3]; exact h.uses
  have fresh : ∀ k, (k = n ∨ Above g3 k n) → isOp g3 k = true → Fresh g3 k := by
    intro k hk ho
    have hal3 : g3.alive n = true := by rw [al3]; exact hal
    have hn : isOp g3 n = true ∧ g3.alive k = true ∧ g3.gman k = g3.gman n := by
      rcases hk with rfl | hk
      · exact ⟨ho, hal3, rfl⟩
      · obtain ⟨a, b⟩ := hk.here i3.wf hal3 ho
        refine ⟨?_, a, b⟩
        cases hk with
        | arg h => exact isOp_of_arg h
        | step _ h => exact isOp_of_arg h
    obtain ⟨hn, hak, hgk⟩ := hn
    obtain ⟨q3, j⟩ := j3 (by rw [← isOp_congr d3]; exact hn)
    rcases j k hak ho (by rw [hgk, gm3]) with h | ⟨s, h, _⟩ | ⟨l, h, h'⟩ | ⟨_, h, _⟩
    · exact h
    · rw [q3] at h; simp at h
    · obtain ⟨b1, b2⟩ := hA l h
      have hln : Above g3 l n := by
        rcases hk with rfl | hk
        · exact h'
        · clear * - h' hk
          induction hk with
          | arg h => exact .step h' h
          | step _ h ih => exact .step ih h
      have hlt : l < g.defs.length := by
        obtain ⟨a, b⟩ : ∃ a, l ∈ argsOf g3 a ∧ a < g3.defs.length := by
          obtain ⟨c, c1, c2, _⟩ := hln.first i3.wf hal3
          exact ⟨c, c1, i3.wf.alive_lt c c2⟩
        have := i3.wf.args_lt a l b.1
        rw [← d3]; omega
      exact absurd (hall l (up l (Or.inr hln)) (leaf_of_not_op b1 hlt)) b2
    · exact h.elim
  have fc := fresh_computes (g := norm g3) i3.norm (t := ⟨g3.defs, g3.data⟩) ⟨rfl, fun _ _ => rfl⟩ (fun k => k = n ∨ Above g3 k n) ?_ ?_
    (fun k hk ho => fresh k hk ho) n (Or.inl rfl) v
  · refine fc.trans ?_
    show Computes g3.defs g3.data n v ↔ _
    rw [d3]
    have hleaf : ∀ l, Uses g.defs n l → g.defs[l]? = some .leaf → g3.data l = (Spec.told (as.map Prod.snd)).leaf l :=
      fun l h1 h2 => lf3 l (isOp_leaf h2) (hall l h1 h2)
    exact ⟨fun h => computes_congr h hleaf, fun h => computes_congr h (fun l h1 h2 => (hleaf l h1 h2).symm)⟩
  · rintro k (rfl | h)
    · exact i3.wf.alive_lt k (by rw [al3]; exact hal)
    · have hal3 : g3.alive n = true := by rw [al3]; exact hal
      obtain ⟨c, c1, c2, _⟩ := h.first i3.wf hal3
      have := i3.wf.args_lt c k c1
      have := i3.wf.alive_lt c c2
      show k < g3.defs.length
      omega
  · rintro k x hk hx
    have hx' : x ∈ argsOf g3 k := hx
    rcases hk with rfl | h
    · exact Or.inr (.arg hx')
    · exact Or.inr (h.left hx')

/-- The failed history of C71, evaluated once more (it returns the old 6), with both leaves assigned again. -/
example : ∃ g g1 g2 g3 : G Nat, runR (hist71 ++ [(idSched, .eval 2)]) G.empty = some g ∧ ¬ Frozen g 2 ∧ evalR idSched 2 g = .done g1 ∧ g1.data 2 = some 6 ∧
    run [(idSched, .assign 0 10 true), (idSched, .assign 1 5 true)] g1 = .ok g2 ∧ evalR idSched 2 g2 = .done g3 ∧ g3.data 2 = some 15 ∧
    ∀ l, Uses g.defs 2 l → g.defs[l]? = some .leaf → l = 0 ∨ l = 1 := by
  refine ⟨_, _, _, _, rfl, ?_, rfl, rfl, rfl, rfl, rfl, ?_⟩
  · rintro ⟨_, h⟩; cases h
  · intro l _ h
    match l, h with
    | 0, _ => exact Or.inl rfl
    | 1, _ => exact Or.inr rfl
    | 2, h => cases h
    | _ + 3, h => cases h

end Verif.Props
