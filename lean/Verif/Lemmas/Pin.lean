import Verif.Lemmas.Train
/-!
# Nodes that are never recomputed

A unary operation on a leaf that is only ever assigned silently keeps the value it was given at its construction.
-/
namespace Verif
namespace Graph
open React (upd forEach)
open Spec (Told tell told Moved Computes Respects)

variable {V : Type}

/-- The nodes with a value in `pin` read a leaf of `src` only, have that value and are not queued; nobody else
reads the leaves of `src`. -/
structure Pin (src : Nat → Prop) (pin : Nat → Option V) (g : G V) : Prop where
  args : ∀ q c, pin q = some c → ∃ m, src m ∧ argsOf g q = [m]
  data : ∀ q c, pin q = some c → g.data q = some c
  queue : ∀ q c, pin q = some c → ∀ x, q ∉ (g.man x).queue
  leaf : ∀ m, src m → g.defs[m]? = some .leaf
  only : ∀ m, src m → ∀ k, m ∈ argsOf g k → (pin k).isSome = true

variable {src : Nat → Prop} {pin : Nat → Option V}

theorem Pin.of_same {g g' : G V} (p : Pin src pin g) (hd : g'.defs = g.defs) (ht : ∀ q c, pin q = some c → g'.data q = g.data q)
    (hq : ∀ q c, pin q = some c → ∀ x, q ∈ (g'.man x).queue → ∃ x', q ∈ (g.man x').queue) : Pin src pin g' := by
  refine ⟨?_, ?_, ?_, ?_, ?_⟩
  · intro q c h; rw [argsOf_congr hd]; exact p.args q c h
  · intro q c h; rw [ht q c h]; exact p.data q c h
  · intro q c h x hx
    obtain ⟨x', hx'⟩ := hq q c h x hx
    exact p.queue q c h x' hx'
  · intro m h; rw [hd]; exact p.leaf m h
  · intro m h k; rw [argsOf_congr hd]; exact p.only m h k

theorem forward_pin {n : Nat} {g g' : G V} (p : Pin src pin g) (hn : pin n = none) (h : forward n g = .ok g') : Pin src pin g' := by
  obtain ⟨f, args, b, vs, v, _, _, _, rfl⟩ := forward_ok h
  refine p.of_same rfl ?_ (fun q c _ x hx => ⟨x, hx⟩)
  intro q c h
  have : q ≠ n := by intro e; rw [e, hn] at h; cases h
  simp [upd, this]

theorem addUpdate_pin {n : Nat} {g : G V} (p : Pin src pin g) (hn : pin n = none) : Pin src pin (addUpdate n g) := by
  unfold addUpdate
  split
  · exact p
  · refine p.of_same rfl (fun _ _ _ => rfl) ?_
    intro q c h x hx
    have hne : q ≠ n := by intro e; rw [e, hn] at h; cases h
    refine ⟨x, ?_⟩
    simp only [upd] at hx
    split at hx
    · next e => subst e; simpa [hne] using hx
    · exact hx

theorem updateWith_pin {rec : Nat → G V → Outcome (G V)} (hr : ∀ n g g', isOp g n = true → Pin src pin g → rec n g = .ok g' → Pin src pin g')
    {n : Nat} {g g' : G V} (p : Pin src pin g) (hn : pin n = none) (h : updateWith rec n g = .ok g') : Pin src pin g' := by
  unfold updateWith at h
  split at h
  · split at h
    · cases h; exact addUpdate_pin p hn
    · rw [Outcome.bind_eq_ok] at h
      obtain ⟨g1, h1, h2⟩ := h
      refine hr n g1 g' ?_ (forward_pin p hn h1) h2
      obtain ⟨f, args, b, vs, v, e, _, _, rfl⟩ := forward_ok h1
      exact (isOp_iff _ n).mpr ⟨f, args, b, e⟩
  · cases h; exact p

theorem forEach_pin {body : Nat → G V → Outcome (G V)} (l : List Nat)
    (hb : ∀ n ∈ l, ∀ g g', Pin src pin g → body n g = .ok g' → Pin src pin g') : ∀ {g g' : G V}, Pin src pin g →
    forEach body l g = .ok g' → Pin src pin g' := by
  induction l with
  | nil => intro g g' p h; cases h; exact p
  | cons x xs ih =>
    intro g g' p h
    rw [forEach, Outcome.bind_eq_ok] at h
    obtain ⟨g1, h1, h2⟩ := h
    exact ih (fun n hn => hb n (by simp [hn])) (hb x (by simp) g g1 p h1) h2

/-- The readers of a node other than the pinned leaves are not pinned. -/
theorem Pin.reader {g : G V} (p : Pin src pin g) {n k : Nat} (hn : ¬ src n) (hk : n ∈ argsOf g k) : pin k = none := by
  cases e : pin k with
  | none => rfl
  | some c =>
    obtain ⟨m, h1, h2⟩ := p.args k c e
    rw [h2, List.mem_singleton] at hk
    exact absurd (hk ▸ h1) hn

theorem Pin.not_src {g : G V} (p : Pin src pin g) {n : Nat} (hn : isOp g n = true) : ¬ src n := by
  intro c
  rw [isOp_leaf (p.leaf n c)] at hn; cases hn

theorem notify_pin (sch : Sched) (fuel : Nat) : ∀ (n : Nat) (g g' : G V), ¬ src n → Pin src pin g → notify sch fuel n g = .ok g' → Pin src pin g' := by
  induction fuel with
  | zero => intro n g g' _ _ h; cases h
  | succ fuel ih =>
    intro n g g' hn p h
    rw [notify] at h
    refine forEach_pin _ ?_ p h
    intro k hk g1 g2 p1 h1
    have hk := ((sch.aud_perm n (audience g n)).mem_iff).mp hk
    rw [mem_audience] at hk
    exact updateWith_pin (fun n' g g' ho p h => ih n' g g' (p.not_src ho) p h) p1 (p.reader hn hk.2.2) h1

theorem drainOne_pin {sch : Sched} {m x : Nat} {g g' : G V} (p : Pin src pin g) (hx : x ∈ (g.man m).queue)
    (h : drainOne sch m x g = .ok g') : Pin src pin g' := by
  unfold drainOne at h
  split at h
  · rw [Outcome.bind_eq_ok] at h
    obtain ⟨g1, h1, h2⟩ := h
    have hxn : pin x = none := by
      cases e : pin x with
      | none => rfl
      | some c => exact absurd hx (p.queue x c e m)
    have p0 : Pin src pin { g with man := upd g.man m { g.man m with queue := (g.man m).queue.erase x } } := by
      refine p.of_same rfl (fun _ _ _ => rfl) ?_
      intro q c h y hy
      refine ⟨y, ?_⟩
      simp only [upd] at hy
      split at hy
      · next e => subst e; exact List.mem_of_mem_erase hy
      · exact hy
    have p1 := forward_pin p0 hxn h1
    refine notify_pin sch _ x g1 g' (p1.not_src ?_) p1 h2
    obtain ⟨f, args, b, vs, v, e, _, _, rfl⟩ := forward_ok h1
    exact (isOp_iff _ x).mpr ⟨f, args, b, e⟩
  · cases h

theorem drain_pin (sch : Sched) (m : Nat) (fuel : Nat) : ∀ (g g' : G V), Pin src pin g → drain sch m fuel g = .ok g' → Pin src pin g' := by
  have done : ∀ (g : G V), Pin src pin g → Pin src pin { g with man := upd g.man m { g.man m with map := [] } } := by
    intro g p
    refine p.of_same rfl (fun _ _ _ => rfl) ?_
    intro q c h y hy
    refine ⟨y, ?_⟩
    simp only [upd] at hy
    split at hy
    · next e => subst e; exact hy
    · exact hy
  induction fuel with
  | zero =>
    intro g g' p h
    cases e : top g.depth (sch.pop 0 (g.man m).queue) with
    | none => rw [drain_none e] at h; cases h; exact done g p
    | some x => rw [drain_zero e] at h; cases h
  | succ fuel ih =>
    intro g g' p h
    cases e : top g.depth (sch.pop (fuel + 1) (g.man m).queue) with
    | none => rw [drain_none e] at h; cases h; exact done g p
    | some x =>
      rw [drain_succ e, Outcome.bind_eq_ok] at h
      obtain ⟨g1, h1, h2⟩ := h
      exact ih g1 g' (drainOne_pin p (((sch.pop_perm _ _).mem_iff).mp (top_some e).1) h1) h2

theorem managerUpdate_pin {sch : Sched} {m : Nat} {g g' : G V} (p : Pin src pin g) (h : managerUpdate sch m g = .ok g') : Pin src pin g' :=
  drain_pin sch m _ g g' p h

theorem consume_queue (m o x : Nat) (g : G V) (q : Nat) (h : q ∈ ((consume m o g).man x).queue) : ∃ x', q ∈ (g.man x').queue := by
  unfold consume at h
  split at h
  · exact ⟨x, h⟩
  · simp only [upd] at h
    split at h
    · simp at h
    · split at h
      · simp only [List.mem_append] at h
        rcases h with h | h
        · exact ⟨o, h⟩
        · exact ⟨m, h⟩
      · exact ⟨x, h⟩

theorem foldl_consume_queue (n : Nat) (cs : List Nat) : ∀ (g : G V) (x q : Nat),
    q ∈ ((cs.foldl (fun g a => consume (g.gman n) (g.gman a) g) g).man x).queue → ∃ x', q ∈ (g.man x').queue := by
  induction cs with
  | nil => intro g x q h; exact ⟨x, h⟩
  | cons c cs ih =>
    intro g x q h
    obtain ⟨x', h'⟩ := ih _ x q h
    exact consume_queue _ _ x' g q h'

theorem construct_queue (f : List V → Outcome V) (args : List Nat) (hides : Bool) (g : G V) (x q : Nat)
    (h : q ∈ ((construct f args hides g).man x).queue) : ∃ x', q ∈ (g.man x').queue := by
  unfold construct updateGraph at h
  split at h
  · simp only [upd] at h
    split at h
    · simp at h
    · exact ⟨x, h⟩
  · next c cs _ =>
    obtain ⟨x', h'⟩ := foldl_consume_queue _ cs _ x q h
    simp only [upd] at h'
    split at h'
    · exact ⟨_, h'⟩
    · exact ⟨x', h'⟩

theorem updateWith_queue_new {sch : Sched} {fuel n : Nat} {g g' : G V} (hlast : ∀ k, n ∉ argsOf g k) (h : updateWith (notify sch fuel) n g = .ok g')
    (x q : Nat) (hq : q ∈ (g'.man x).queue) : q = n ∨ q ∈ (g.man x).queue := by
  unfold updateWith at h
  split at h
  · split at h
    · cases h
      unfold addUpdate at hq
      split at hq
      · exact Or.inr hq
      · simp only [upd] at hq
        split at hq
        · next e => subst e; simpa using hq
        · exact Or.inr hq
    · rw [Outcome.bind_eq_ok] at h
      obtain ⟨g1, h1, h2⟩ := h
      obtain ⟨f, args, b, vs, v, e, _, _, rfl⟩ := forward_ok h1
      cases fuel with
      | zero => cases h2
      | succ fuel =>
        have : audience { g with data := upd g.data n (some v) } n = [] := by
          rw [List.eq_nil_iff_forall_not_mem]
          intro k hk
          rw [mem_audience] at hk
          exact hlast k hk.2.2
        rw [notify_none this] at h2
        cases h2
        exact Or.inr hq
  · cases h; exact Or.inr hq

/-- Constructing an operation that does not read the pinned leaves. -/
theorem newOp_pin {S : Nat → Prop} {sch : Sched} {f : List V → Outcome V} {args : List Nat} {hides : Bool} {g g' : G V} (i : Inv S g)
    (p : Pin src pin g) (hlt : ∀ q c, pin q = some c → q < g.defs.length) (ha : ∀ a ∈ args, ¬ src a) (h : newOp sch f args hides g = .ok g') : Pin src pin g' := by
  obtain ⟨_, hd, hdata, hne, hal, _⟩ := newOp_spec i h
  have argsg : ∀ k, argsOf g' k = if k = g.defs.length then args else argsOf g k := fun k => by
    rw [argsOf_push hd]; rfl
  unfold newOp at h
  rw [if_neg hne, if_pos (List.all_eq_true.mpr hal)] at h
  obtain ⟨ic, dc, _, _⟩ := construct_inv i f args hides hal
  refine ⟨?_, ?_, ?_, ?_, ?_⟩
  · intro q c hq
    obtain ⟨m, h1, h2⟩ := p.args q c hq
    exact ⟨m, h1, by rw [argsg, if_neg (Nat.ne_of_lt (hlt q c hq))]; exact h2⟩
  · intro q c hq; rw [hdata q (hlt q c hq)]; exact p.data q c hq
  · intro q c hq x hx
    rcases updateWith_queue_new (fun k hk => by
        have := ic.wf.args_lt k _ hk
        have : isOp (construct f args hides g) k = true := isOp_of_arg hk
        have := isOp_lt this
        rw [dc] at this; simp at this
        omega) h x q hx with e | hx
    · exact absurd e (Nat.ne_of_lt (hlt q c hq))
    · obtain ⟨x', hx'⟩ := construct_queue f args hides g x q hx
      exact p.queue q c hq x' hx'
  · intro m hm
    have := p.leaf m hm
    rw [hd]
    obtain ⟨hl, _⟩ := List.getElem?_eq_some_iff.mp this
    rw [List.getElem?_append_left hl]; exact this
  · intro m hm k hk
    rw [argsg] at hk
    split at hk
    · exact absurd hm (ha m hk)
    · exact p.only m hm k hk

theorem Pin.lt {g : G V} (p : Pin src pin g) {q : Nat} {c : V} (h : pin q = some c) : q < g.defs.length := by
  obtain ⟨m, _, e⟩ := p.args q c h
  refine isOp_lt (isOp_of_arg (n := m) ?_)
  rw [e]; simp

theorem assign_pin {sch : Sched} {n : Nat} {v : V} {b : Bool} {g g' : G V} (p : Pin src pin g)
    (hn : (src n ∧ b = false) ∨ (¬ src n ∧ b = true)) (h : assign sch n v b g = .ok g') : Pin src pin g' := by
  unfold assign at h
  split at h
  · next c =>
    simp only [Bool.and_eq_true, Bool.not_eq_true'] at c
    have p0 : Pin src pin { g with data := upd g.data n (some v) } := by
      refine p.of_same rfl ?_ (fun q c _ x hx => ⟨x, hx⟩)
      intro q c' hq
      have : q ≠ n := by
        intro e
        obtain ⟨m, _, ea⟩ := p.args q c' hq
        have : isOp g q = true := isOp_of_arg (n := m) (by rw [ea]; simp)
        rw [e, c.2] at this; cases this
      simp [upd, this]
    rcases hn with ⟨h1, rfl⟩ | ⟨h1, rfl⟩
    · rw [if_neg (by simp)] at h; cases h; exact p0
    · rw [if_pos rfl] at h
      exact notify_pin sch _ n _ g' h1 p0 h
  · cases h

/-- Every such call keeps the invariant, with the pinned nodes stale. -/
theorem step_pin {sch : Sched} {c : Call V} {g g' : G V} {t : Told V} (i : Inv (fun k => (pin k).isSome = true) g) (a : Agrees t g)
    (p : Pin src pin g) (hc : Respects src c) (h : step sch c g = .ok g') :
    Inv (fun k => (pin k).isSome = true) g' ∧ Agrees (tell t c) g' ∧ Pin src pin g' := by
  have main : Spec.Loud c → Inv (fun k => (pin k).isSome = true) g' ∧ Agrees (tell t c) g' := fun hl => step_inv i a (Or.inl hl) h
  cases c with
  | newLeaf v =>
    obtain ⟨i1, a1⟩ := main trivial
    refine ⟨i1, a1, ?_⟩
    cases h
    have hd : (newLeaf v g).defs = g.defs ++ [.leaf] := rfl
    have argsg : ∀ k, k < g.defs.length → argsOf (newLeaf v g) k = argsOf g k := fun k hk => by
      rw [argsOf_push hd, if_neg (Nat.ne_of_lt hk)]
    refine ⟨?_, ?_, fun q c hq => p.queue q c hq, ?_, ?_⟩
    · intro q c hq; rw [argsg q (p.lt hq)]; exact p.args q c hq
    · intro q c hq
      show upd g.data g.defs.length v q = _
      rw [upd, if_neg (Nat.ne_of_lt (p.lt hq))]; exact p.data q c hq
    · intro m hm
      have := p.leaf m hm
      obtain ⟨hl, _⟩ := List.getElem?_eq_some_iff.mp this
      show (g.defs ++ [Def.leaf])[m]? = _
      rw [List.getElem?_append_left hl]; exact this
    · intro m hm k hk
      by_cases e : k = g.defs.length
      · rw [argsOf_push hd, if_pos e] at hk; simp [Def.args] at hk
      · rw [argsOf_push hd, if_neg e] at hk; exact p.only m hm k hk
  | newOp f args hd =>
    obtain ⟨i1, a1⟩ := main trivial
    exact ⟨i1, a1, newOp_pin i p (fun q c hq => p.lt hq) hc h⟩
  | assign n v b =>
    refine ⟨?_, ?_, assign_pin p hc h⟩
    · rcases hc with ⟨h1, rfl⟩ | ⟨_, rfl⟩
      · obtain ⟨i1, _, _, e⟩ := assign_silent i h
        refine i1.weaken ?_
        rintro k (hk | hk)
        · exact hk
        · rw [mem_audience] at hk; exact p.only n h1 k hk.2.2
      · exact (main rfl).1
    · exact (step_inv (S := fun _ => True) (i.weaken fun _ _ => trivial) a (Or.inr fun _ => trivial) h).2
  | eval n =>
    obtain ⟨i1, a1⟩ := main trivial
    refine ⟨i1, a1, ?_⟩
    simp only [step, eval] at h
    split at h
    · split at h
      · rw [Outcome.bind_eq_ok] at h
        obtain ⟨r, h1, h2⟩ := h
        rw [Outcome.bind_eq_ok] at h1
        obtain ⟨g1, h1, h3⟩ := h1
        cases h3; cases h2
        exact managerUpdate_pin p h1
      · cases h; exact p
    · cases h
  | getShape n =>
    obtain ⟨i1, a1⟩ := main trivial
    refine ⟨i1, a1, ?_⟩
    simp only [step, getShape] at h
    split at h
    · split at h
      · exact managerUpdate_pin p h
      · cases h; exact p
    · cases h
  | freeze n b =>
    obtain ⟨i1, a1⟩ := main trivial
    refine ⟨i1, a1, ?_⟩
    simp only [step, freezeStatus] at h
    split at h
    · rw [Outcome.bind_eq_ok] at h
      obtain ⟨g1, h1, h2⟩ := h
      cases h2
      have p1 : Pin src pin g1 := by
        split at h1
        · exact managerUpdate_pin p h1
        · cases h1; exact p
      refine p1.of_same rfl (fun _ _ _ => rfl) ?_
      intro q c hq y hy
      refine ⟨y, ?_⟩
      simp only [setFreeze, upd] at hy
      split at hy
      · next e => subst e; exact hy
      · exact hy
    · cases h
  | delete n =>
    obtain ⟨i1, a1⟩ := main trivial
    refine ⟨i1, a1, ?_⟩
    simp only [step, delete] at h
    split at h
    · cases h
      exact p.of_same rfl (fun _ _ _ => rfl) (fun q c hq y hy => ⟨y, hy⟩)
    · cases h

theorem run_pin (cs : List (Sched × Call V)) : ∀ {g g' : G V} {t : Told V}, Inv (fun k => (pin k).isSome = true) g → Agrees t g →
    Pin src pin g → (∀ c ∈ cs, Respects src c.2) → run cs g = .ok g' →
    Inv (fun k => (pin k).isSome = true) g' ∧ Agrees ((cs.map Prod.snd).foldl tell t) g' ∧ Pin src pin g' := by
  induction cs with
  | nil => intro g g' t i a p _ h; cases h; exact ⟨i, a, p⟩
  | cons c cs ih =>
    intro g g' t i a p hc h
    rw [run, Outcome.bind_eq_ok] at h
    obtain ⟨g1, h1, h2⟩ := h
    obtain ⟨i1, a1, p1⟩ := step_pin i a p (hc c (by simp)) h1
    exact ih i1 a1 p1 (fun x hx => hc x (by simp [hx])) h2

/-- The nodes with the pinned ones turned into leaves. -/
def pinNodes (pin : Nat → Option V) (nodes : List (Def V)) : List (Def V) :=
  nodes.mapIdx fun k d => if (pin k).isSome = true then .leaf else d

/-- … with their values. -/
def pinLeaf (pin : Nat → Option V) (leaf : Nat → Option V) : Nat → Option V := fun k => (pin k).orElse fun _ => leaf k

theorem pinNodes_get (pin : Nat → Option V) (nodes : List (Def V)) (k : Nat) :
    (pinNodes pin nodes)[k]? = if (pin k).isSome = true then nodes[k]?.map (fun _ => .leaf) else nodes[k]? := by
  unfold pinNodes
  rw [List.getElem?_mapIdx]
  split <;> cases nodes[k]? <;> rfl

/-- When every live operation of a closed set is fresh or pinned, its data are the values with the pinned nodes
as leaves. -/
theorem pinned_computes {S : Nat → Prop} {g : G V} (i : Inv S g) {t : Told V} (a : Agrees t g) (p : Pin src pin g) (C : Nat → Prop)
    (hC : ∀ k, C k → k < g.defs.length) (cl : ∀ k x, C k → x ∈ argsOf g k → C x)
    (hf : ∀ k, C k → isOp g k = true → pin k = none → Fresh g k) (n : Nat) (hn : C n)
    (v : V) : g.data n = some v ↔ Computes (pinNodes pin t.nodes) (pinLeaf pin t.leaf) n v := by
  constructor
  · induction n using Nat.strongRecOn generalizing v with
    | _ n ih =>
      intro hv
      cases ep : pin n with
      | some c =>
        have := p.data n c ep
        rw [hv] at this; cases this
        refine .leaf ?_ (by simp [pinLeaf, ep])
        rw [pinNodes_get, ep, if_pos (by rfl), ← a.nodes, List.getElem?_eq_getElem (hC n hn)]; rfl
      | none =>
      cases e : isOp g n with
      | false =>
        have hl := leaf_of_not_op e (hC n hn)
        refine .leaf (by rw [pinNodes_get, ep, if_neg (by simp), ← a.nodes]; exact hl) ?_
        show (pin n).orElse _ = _
        rw [ep]
        show t.leaf n = _
        rw [← a.leaf n hl]; exact hv
      | true =>
        obtain ⟨f, args, b, ed⟩ := (isOp_iff g n).mp e
        have hargs : ∀ x ∈ args, (g.data x).isSome = true := by
          have := i.q.mono n e (by rw [hv]; rfl)
          rw [argsOf_op ed] at this; exact this
        obtain ⟨vs, hvs⟩ := mapM_some args hargs
        obtain ⟨w, h1, h2⟩ := hf n hn e ep f args b ed vs hvs
        rw [hv] at h2; cases h2
        obtain ⟨l1, l2⟩ := (mapM_eq_some args vs).mp hvs
        refine .op (by rw [pinNodes_get, ep, if_neg (by simp), ← a.nodes]; exact ed) l1 ?_ h1
        intro j x w' h3 h4
        have hx : x ∈ argsOf g n := by rw [argsOf_op ed]; exact List.mem_of_getElem? h3
        exact ih x (i.wf.args_lt n x hx) (cl n x hn hx) w' (l2 j x w' h3 h4)
  · intro h
    induction h with
    | @leaf n v h1 h2 =>
      cases ep : pin n with
      | some c =>
        simp only [pinLeaf, ep] at h2
        have h2 : some c = some v := h2
        rw [p.data n c ep]; exact h2
      | none =>
        rw [pinNodes_get, ep, if_neg (by simp), ← a.nodes] at h1
        simp only [pinLeaf, ep] at h2
        have h2 : t.leaf n = some v := h2
        rw [a.leaf _ h1]; exact h2
    | @op n f args b vs v h1 h2 _ h4 ih =>
      rw [pinNodes_get] at h1
      cases ep : pin n with
      | some c =>
        rw [ep, if_pos (by rfl)] at h1
        cases e : t.nodes[n]? <;> rw [e] at h1 <;> cases h1
      | none =>
        rw [ep, if_neg (by simp), ← a.nodes] at h1
        have e : isOp g n = true := (isOp_iff g n).mpr ⟨f, args, b, h1⟩
        have hvs : args.mapM g.data = some vs := by
          refine (mapM_eq_some args vs).mpr ⟨h2, fun j x w h5 h6 => ih j x w h5 h6 (cl n x hn ?_)⟩
          rw [argsOf_op h1]; exact List.mem_of_getElem? h5
        obtain ⟨w, h5, h6⟩ := hf n hn e ep f args b h1 vs hvs
        rw [h4] at h5; cases h5
        exact h6

/-- After a drain, the nodes of the manager have their values. -/
theorem drained_pinned {sch : Sched} {m : Nat} {g g1 : G V} (i : Inv (fun k => (pin k).isSome = true) g) {t : Told V} (a : Agrees t g)
    (p : Pin src pin g) (h : managerUpdate sch m g = .ok g1) (n : Nat) (hn : g.alive n = true) (hm : isOp g n = true → g.gman n = m) (v : V) :
    g1.data n = some v ↔ Computes (pinNodes pin t.nodes) (pinLeaf pin t.leaf) n v := by
  obtain ⟨i1, d⟩ := managerUpdate_inv i h
  have a1 := a.frame d.frame
  refine pinned_computes i1 a1 (managerUpdate_pin p h) (fun k => g1.alive k = true ∧ (isOp g1 k = true → g1.gman k = m)) ?_ ?_ ?_ n ?_ v
  · intro k hk; exact i1.wf.alive_lt k hk.1
  · intro k x hk hx
    refine ⟨i1.wf.alive_args k x hk.1 hx, fun ho => ?_⟩
    rw [i1.wf.gman_eq k x hk.1 hx ho]
    exact hk.2 (isOp_of_arg hx)
  · intro k hk ho hp
    rcases i1.fq k hk.1 (by rw [hp]; simp) with h | h
    · exact h
    · rw [hk.2 ho, d.queue] at h; simp at h
  · exact ⟨by rw [d.frame.alive]; exact hn, by rw [d.frame.gman, isOp_congr d.frame.defs]; exact hm⟩

/-- Pinning a new node: a unary operation on a leaf nobody reads. -/
theorem Pin.extend {S : Nat → Prop} {sch : Sched} {f : List V → Outcome V} {m : Nat} {v c : V} {g g' : G V} (i : Inv S g) (p : Pin src pin g)
    (hm : g.defs[m]? = some .leaf) (hv : g.data m = some v) (hr : ∀ k, m ∉ argsOf g k) (hf : f [v] = .ok c)
    (h : newOp sch f [m] false g = .ok g') : Pin (fun x => src x ∨ x = m) (upd pin g.defs.length (some c)) g' := by
  obtain ⟨_, hd, hdata, hne, hal, _⟩ := newOp_spec i h
  have argsg : ∀ k, argsOf g' k = if k = g.defs.length then [m] else argsOf g k := fun k => by
    rw [argsOf_push hd]; rfl
  have hml : m < g.defs.length := by
    by_contra c; rw [List.getElem?_eq_none (by omega)] at hm; cases hm
  have pn : ∀ q, pin q ≠ none → q ≠ g.defs.length := by
    intro q hq e
    cases ep : pin q with
    | none => exact hq ep
    | some c => exact Nat.ne_of_lt (p.lt ep) e
  obtain ⟨ic, dc, dtc, alc⟩ := construct_inv i f [m] false hal
  have gn : (construct f [m] false g).gman g.defs.length = g.defs.length ∧ (construct f [m] false g).man g.defs.length = { users := [g.defs.length] } := by
    unfold construct
    have : [m].filter (isOp g) = [] := by simp [isOp_leaf hm]
    rw [this]
    simp [updateGraph, upd]
  have ga : argsOf (construct f [m] false g) g.defs.length = [m] := by
    rw [argsOf_push dc, if_pos rfl]; rfl
  have nd : g'.data g.defs.length = some c ∧ ∀ x, g'.man x = (construct f [m] false g).man x := by
    unfold newOp at h
    rw [if_neg hne, if_pos (List.all_eq_true.mpr hal)] at h
    have gd : (construct f [m] false g).data m = some v := by
      rw [dtc, upd, if_neg (Nat.ne_of_lt hml)]; exact hv
    unfold updateWith at h
    rw [ga, if_pos (by simp [good, gd]), gn.1, gn.2, if_neg (by simp), Outcome.bind_eq_ok] at h
    obtain ⟨g1, h1, h2⟩ := h
    obtain ⟨f', args, b, vs, w, e1, e2, e3, rfl⟩ := forward_ok h1
    rw [dc, getElem?_push, if_pos rfl] at e1
    cases e1
    simp only [List.mapM_cons, List.mapM_nil, gd] at e2
    cases e2
    rw [hf] at e3; cases e3
    have : audience { construct f [m] false g with data := upd (construct f [m] false g).data g.defs.length (some c) } g.defs.length = [] := by
      exact (audience_congr rfl rfl _).trans (audience_last ic g.defs.length (by rw [dc]; simp))
    rw [notify_none this] at h2
    cases h2
    exact ⟨by simp [upd], fun _ => rfl⟩
  refine ⟨?_, ?_, ?_, ?_, ?_⟩
  · intro q c' hq
    by_cases e : q = g.defs.length
    · exact ⟨m, Or.inr rfl, by rw [argsg, if_pos e]⟩
    · rw [upd, if_neg e] at hq
      obtain ⟨m', h1, h2⟩ := p.args q c' hq
      exact ⟨m', Or.inl h1, by rw [argsg, if_neg e]; exact h2⟩
  · intro q c' hq
    by_cases e : q = g.defs.length
    · rw [upd, if_pos e] at hq; cases hq; rw [e]; exact nd.1
    · rw [upd, if_neg e] at hq
      rw [hdata q (p.lt hq)]; exact p.data q c' hq
  · intro q c' hq x hx
    rw [nd.2] at hx
    obtain ⟨x', hx'⟩ := construct_queue f [m] false g x q hx
    by_cases e : q = g.defs.length
    · have := i.q.mapOp x' q (i.q.sub x' q hx')
      have := isOp_lt this.1
      omega
    · rw [upd, if_neg e] at hq
      exact p.queue q c' hq x' hx'
  · intro x hx
    have hx : g.defs[x]? = some .leaf := by
      rcases hx with hx | rfl
      · exact p.leaf x hx
      · exact hm
    obtain ⟨hl, _⟩ := List.getElem?_eq_some_iff.mp hx
    rw [hd, List.getElem?_append_left hl]; exact hx
  · intro x hx k hk
    rw [argsg] at hk
    rw [upd]
    split at hk
    · next e => rw [if_pos e]; rfl
    · next e =>
      rw [if_neg e]
      rcases hx with hx | rfl
      · exact p.only x hx k hk
      · exact absurd hk (hr k)

end Graph
end Verif
