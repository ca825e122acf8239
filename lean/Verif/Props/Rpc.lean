import Verif.Lemmas.Rpc
import Verif.Lemmas.RpcLog
import Verif.Lemmas.AskNames
/-!
# C82: what a visualisation client sees
-/
namespace Verif.Props
open Verif.Spec Verif.Record Verif.Rpc
open Verif.React (Net)

/-! ### Keys -/

theorem colon_split {a b x y : List Char} (ha : ':' ∉ a) (hb : ':' ∉ b) (h : a ++ ':' :: x = b ++ ':' :: y) : a = b ∧ x = y := by
  induction a generalizing b with
  | nil =>
    cases b with
    | nil => exact ⟨rfl, by simpa using h⟩
    | cons c b => simp only [List.nil_append, List.cons_append, List.cons.injEq] at h; exact absurd (h.1 ▸ List.mem_cons_self) hb
  | cons c a ih =>
    cases b with
    | nil => simp only [List.nil_append, List.cons_append, List.cons.injEq] at h; exact absurd (h.1 ▸ List.mem_cons_self) ha
    | cons d b =>
      simp only [List.cons_append, List.cons.injEq] at h
      obtain ⟨h1, h2⟩ := ih (fun m => ha (List.mem_cons_of_mem _ m)) (fun m => hb (List.mem_cons_of_mem _ m)) h.2
      exact ⟨by rw [h.1, h1], h2⟩

theorem digits_clean (n : Nat) : ':' ∉ Nat.toDigits 10 n := fun h => by
  have := Nat.isDigit_of_mem_toDigits (b := 10) (by omega) (by omega) h
  exact absurd this (by decide)

theorem edgeKey_eq {m m' : EdgeMsg} (h : ':' ∉ m.obs) (h' : ':' ∉ m'.obs) (e : edgeKey m = edgeKey m') :
    m.obs = m'.obs ∧ m.sub = m'.sub ∧ m.idx = m'.idx := by
  obtain ⟨h1, h2⟩ := colon_split (digits_clean _) (digits_clean _) e
  obtain ⟨h3, h4⟩ := colon_split h h' h2
  have := congrArg (Nat.ofDigitChars 10 · 0) h1
  exact ⟨h3, h4, by simpa [Nat.ofDigitChars_ten_toDigits] using this⟩

theorem mem_edgeMsgs {u : Uids} {l : List Ev} {m : EdgeMsg} (h : m ∈ l.filterMap (edgeMsg u)) :
    ∃ o s i b, m = ⟨u.obs o, u.sub s, i, b⟩ ∧ ((∃ r, Ev.capture r o s i ∈ l) ∨ Ev.release o s i ∈ l) := by
  obtain ⟨ev, h1, h2⟩ := List.mem_filterMap.1 h
  cases ev with
  | capture r o s i => simp only [edgeMsg, Option.some.injEq] at h2; exact ⟨o, s, i, true, h2.symm, .inl ⟨r, h1⟩⟩
  | release o s i => simp only [edgeMsg, Option.some.injEq] at h2; exact ⟨o, s, i, false, h2.symm, .inr h1⟩
  | gone s => simp [edgeMsg] at h2

theorem last_logged {u : Uids} (hd : Distinct u) (o s i : Nat) (l : List Ev) :
    LastOf edgeKey (l.filterMap (edgeMsg u)) ⟨u.obs o, u.sub s, i, true⟩ ↔ Logged l o s i := by
  have same : ∀ o' s' i', edgeKey ⟨u.obs o', u.sub s', i', true⟩ = edgeKey ⟨u.obs o, u.sub s, i, true⟩ → o' = o ∧ s' = s ∧ i' = i := by
    intro o' s' i' h
    obtain ⟨h1, h2, h3⟩ := edgeKey_eq (hd.2.2 o') (hd.2.2 o) h
    exact ⟨hd.2.1 h1, hd.1 h2, h3⟩
  induction l using List.reverseRecOn with
  | nil => simp only [List.filterMap_nil]; exact ⟨fun h => absurd h lastOf_nil, fun ⟨_, _, _, h, _⟩ => by simp at h⟩
  | append_singleton l e ih =>
    rw [logged_snoc, List.filterMap_append]
    cases e with
    | gone t => simpa [edgeMsg, List.filterMap] using ih
    | capture r o' s' i' =>
      simp only [List.filterMap_cons, edgeMsg, List.filterMap_nil]
      rw [lastOf_snoc]
      constructor
      · rintro (h | ⟨h, hk⟩)
        · simp only [EdgeMsg.mk.injEq, and_true] at h
          obtain ⟨h1, h2, h3⟩ := h
          exact .inl ⟨r, by rw [hd.2.1 h1, hd.1 h2, h3]⟩
        · exact .inr ⟨ih.1 h, by simp⟩
      · rintro (⟨r', h⟩ | ⟨h, _⟩)
        · injection h with _ h1 h2 h3; subst h1 h2 h3; exact .inl rfl
        · by_cases c : edgeKey ⟨u.obs o', u.sub s', i', true⟩ = edgeKey ⟨u.obs o, u.sub s, i, true⟩
          · obtain ⟨rfl, rfl, rfl⟩ := same _ _ _ c
            exact .inl rfl
          · exact .inr ⟨ih.2 h, c⟩
    | release o' s' i' =>
      simp only [List.filterMap_cons, edgeMsg, List.filterMap_nil]
      rw [lastOf_snoc]
      constructor
      · rintro (h | ⟨h, hk⟩)
        · simp at h
        · refine .inr ⟨ih.1 h, fun h => ?_⟩
          injection h with h1 h2 h3; subst h1 h2 h3; exact hk rfl
      · rintro (⟨r', h⟩ | ⟨h, hn⟩)
        · cases h
        · refine .inr ⟨ih.2 h, fun c => hn ?_⟩
          obtain ⟨rfl, rfl, rfl⟩ := same o' s' i' c
          rfl

/-! ### Invariants -/

structure EdgeSt (u : Uids) (k : Nat) (S : Srv) : Prop where
  track : Track edgeKey (S.net.book.log.filterMap (edgeMsg u)) k S.edges
  log : LogInv S.net
  net : React.Inv S.net

theorem empty_linv : LogInv Net.empty := fun o s i => by
  constructor
  · rintro ⟨pre, post, r, h, _⟩; simp [Net.empty] at h
  · intro h; simp [Net.empty] at h

/-- A successful call that changes the graph, taken apart. -/
theorem op_ok {u : Uids} {o : React.Op} {S S' : Srv} (e : step u (.op o) S = .ok S') :
    S' = S ∨ ∃ net new, React.step o S.net = .ok net ∧ net.book.log = S.net.book.log ++ new ∧
      (∀ s, Ev.gone s ∈ new ↔ (S.net.sAlive s = true ∧ net.sAlive s = false)) ∧ S'.net = net ∧
      S.nodes.feed nodeKey (new.filterMap (nodeMsg u)) = .ok S'.nodes ∧ S.edges.feed edgeKey (new.filterMap (edgeMsg u)) = .ok S'.edges := by
  simp only [step] at e
  split at e
  · rename_i net hs
    right
    obtain ⟨new, h1, h2⟩ := step_more o hs
    obtain ⟨n, e1, e2⟩ := Outcome.bind_eq_ok.1 e
    obtain ⟨c, e3, e4⟩ := Outcome.bind_eq_ok.1 e2
    injection e4 with e4; subst e4
    rw [h1, List.drop_left] at e1 e3
    exact ⟨net, new, hs, h1, h2, rfl, e1, e3⟩
  · injection e with e; exact .inl e.symm
  · simp at e
  · simp at e

theorem calm_edges {u : Uids} {k : Nat} {S : Srv} (hd : Distinct u) (h : CalmEdges u k S) : EdgeSt u k S := by
  induction h with
  | start => exact ⟨track_new, empty_linv, React.Inv.empty⟩
  | @step S S' a h e calm ih =>
    cases a with
    | op o =>
      rcases op_ok e with rfl | ⟨net, new, h1, h2, _, h4, _, h6⟩
      · exact ih
      · have hf : ∀ v, (sentTo k S.edges).getLast? = some v → ∀ d ∈ new.filterMap (edgeMsg u), edgeKey v ≠ edgeKey d := by
          intro v hv d hdn hk
          obtain ⟨o, s, i, b, rfl, _⟩ := mem_edgeMsgs (ih.track.sent v (List.mem_of_getLast? hv))
          obtain ⟨o', s', i', b', rfl, hm⟩ := mem_edgeMsgs hdn
          obtain ⟨g1, g2, g3⟩ := edgeKey_eq (hd.2.2 o) (hd.2.2 o') hk
          simp only at g1 g2 g3
          have g1 := hd.2.1 g1; have g2 := hd.1 g2
          subst g1 g2 g3
          exact calm _ _ _ _ hv ⟨new, by rw [h4]; exact h2, hm⟩
        obtain ⟨c', f1, f2, _⟩ := track_feed ih.track hf
        rw [h6] at f1; injection f1 with f1; subst f1
        refine ⟨?_, ?_, ?_⟩
        · rw [h4, h2, List.filterMap_append]; exact f2
        · rw [h4]; exact step_linv ih.net ih.log o h1
        · rw [h4]; exact (React.react_step_inv ih.net o h1).1
    | update s =>
      obtain ⟨g, e1, e2⟩ := Outcome.bind_eq_ok.1 e
      obtain ⟨n, e3, e4⟩ := Outcome.bind_eq_ok.1 e2
      injection e4 with e4; subst e4
      exact ⟨ih.track, ih.log, ih.net⟩
    | nodeGet j =>
      obtain ⟨n, e3, e4⟩ := Outcome.bind_eq_ok.1 e
      injection e4 with e4; subst e4
      exact ⟨ih.track, ih.log, ih.net⟩
    | edgeGet j =>
      obtain ⟨n, e3, e4⟩ := Outcome.bind_eq_ok.1 e
      injection e4 with e4; subst e4
      by_cases hj : j = k
      · subst hj
        obtain ⟨c', f1, f2⟩ := track_get ih.track
        rw [e3] at f1; injection f1 with f1; subst f1
        exact ⟨f2, ih.log, ih.net⟩
      · exact ⟨(track_other ih.track hj e3).1, ih.log, ih.net⟩

/-- A stream with nothing left to read, in a history in which no edge changed while it was the last one the client had been
told of: the client shows exactly the edges of the graph. -/
theorem c82_edges {u : Uids} {k : Nat} {S S' : Srv} (hd : Distinct u) (h : CalmEdges u k S) (e : step u (.edgeGet k) S = .ok S')
    (hn : S'.edges.out = S.edges.out) (x y : List Char) (i : Nat) :
    Shows (sentTo k S.edges) x y i ↔ ∃ o s, x = u.obs o ∧ y = u.sub s ∧ Edge S.net o i s := by
  have I := calm_edges hd h
  obtain ⟨n, e3, e4⟩ := Outcome.bind_eq_ok.1 e
  injection e4 with e4; subst e4
  have key : ∀ o s, Shows (sentTo k S.edges) (u.obs o) (u.sub s) i ↔ Edge S.net o i s := by
    intro o s
    have h1 : ∀ m ∈ sentTo k S.edges, edgeKey m = edgeKey ⟨u.obs o, u.sub s, i, true⟩ → m = ⟨u.obs o, u.sub s, i, true⟩ ∨ m = ⟨u.obs o, u.sub s, i, false⟩ := by
      intro m hm hk
      obtain ⟨o', s', i', b', rfl, _⟩ := mem_edgeMsgs (I.track.sent m hm)
      obtain ⟨g1, g2, g3⟩ := edgeKey_eq (hd.2.2 o') (hd.2.2 o) hk
      simp only at g1 g2 g3
      rw [g1, g2, g3]
      cases b' <;> simp
    have h2 := last_of_two (key := edgeKey) (a := ⟨u.obs o, u.sub s, i, true⟩) (b := ⟨u.obs o, u.sub s, i, false⟩) (by simp) rfl _ h1
    rw [Shows, h2, track_end I.track e3 hn, last_logged hd, I.log o s i, Edge, ← I.net.mirror]; rfl
  constructor
  · intro hs
    obtain ⟨pre, post, hm, _⟩ := id hs
    obtain ⟨o, s, i', b, he, _⟩ := mem_edgeMsgs (I.track.sent _ (hm ▸ (by simp) : (⟨x, y, i, true⟩ : EdgeMsg) ∈ sentTo k S.edges))
    injection he with h1 h2 h3 h4
    subst h1 h2
    exact ⟨o, s, rfl, rfl, (key o s).1 hs⟩
  · rintro ⟨o, s, rfl, rfl, he⟩
    exact (key o s).2 he

/-- Reading does not unsettle a calm history. -/
theorem calm_read {u : Uids} {k : Nat} {S S' : Srv} (h : CalmEdges u k S) {j : Nat} (e : step u (.edgeGet j) S = .ok S') : CalmEdges u k S' := by
  refine h.step e fun o s i b _ ht => ?_
  obtain ⟨n, _, e4⟩ := Outcome.bind_eq_ok.1 e
  injection e4 with e4; subst e4
  obtain ⟨new, h1, h2⟩ := ht
  have : new = [] := by simpa using h1
  subst this
  simp at h2

/-- Reading on, the client comes to the end; the graph does not change, and every call on the way and the one that finds
nothing succeed. -/
theorem c82_edges_end {u : Uids} {k : Nat} {S : Srv} (hd : Distinct u) (h : CalmEdges u k S) :
    ∃ n S' S'', run u (List.replicate n (.edgeGet k)) S = .ok S' ∧ CalmEdges u k S' ∧ S'.net = S.net ∧
      step u (.edgeGet k) S' = .ok S'' ∧ S''.edges.out = S'.edges.out := by
  obtain ⟨n, hn⟩ := left_exists (calm_edges hd h).track
  refine ⟨n, ?_⟩
  induction n generalizing S with
  | zero =>
    obtain ⟨c, h1, h2⟩ := left_end hn
    exact ⟨S, { S with edges := c }, rfl, h, rfl, by simp [step, h1], h2⟩
  | succ n ih =>
    obtain ⟨c, h1, h2, _⟩ := left_get hn
    have e : step u (.edgeGet k) S = .ok { S with edges := c } := by simp [step, h1]
    obtain ⟨S', S'', g1, g2, g3, g4, g5⟩ := ih (S := { S with edges := c }) (calm_read h e) h2
    refine ⟨S', S'', ?_, g2, g3, g4, g5⟩
    rw [List.replicate_succ, run, e]; exact g1

theorem feed_out {T : Type} {key : T → List Char} {ms : List T} {c c' : Chan T} (e : c.feed key ms = .ok c') : c'.out = c.out := by
  obtain ⟨x, _, h2⟩ := Outcome.bind_eq_ok.1 e
  injection h2 with h2; subst h2; rfl

theorem late_from {u : Uids} {k : Nat} (acts : List Act) (hk : ∀ a ∈ acts, a ≠ .edgeGet k) : ∀ {S S' : Srv}, CalmEdges u k S →
    sentTo k S.edges = [] → run u acts S = .ok S' → CalmEdges u k S' := by
  induction acts with
  | nil => intro S S' h _ e; injection e with e; exact e ▸ h
  | cons a acts ih =>
    intro S S' h h0 e
    obtain ⟨S1, e1, e2⟩ := Outcome.bind_eq_ok.1 e
    refine ih (fun a ha => hk a (List.mem_cons_of_mem _ ha)) (h.step e1 (fun o s i b hl => by rw [h0] at hl; simp at hl)) ?_ e2
    cases a with
    | op o =>
      rcases op_ok e1 with rfl | ⟨net, new, _, _, _, _, _, h6⟩
      · exact h0
      · rw [sentTo, feed_out h6]; exact h0
    | update s =>
      obtain ⟨g, e1, e2⟩ := Outcome.bind_eq_ok.1 e1
      obtain ⟨n, e3, e4⟩ := Outcome.bind_eq_ok.1 e2
      injection e4 with e4; subst e4
      exact h0
    | nodeGet j =>
      obtain ⟨n, e3, e4⟩ := Outcome.bind_eq_ok.1 e1
      injection e4 with e4; subst e4
      exact h0
    | edgeGet j =>
      obtain ⟨n, e3, e4⟩ := Outcome.bind_eq_ok.1 e1
      injection e4 with e4; subst e4
      have hj : j ≠ k := fun hj => hk (.edgeGet j) (by simp) (by rw [hj])
      obtain ⟨x, h1, h2⟩ := Outcome.bind_eq_ok.1 e3
      injection h2 with h2; subst h2
      have hk : ¬ k = j := fun h => hj h.symm
      show sentTo k (⟨_, _, _⟩ : Chan EdgeMsg) = []
      rw [sent_get]; simp [hk, h0]

/-- However the graph changed and whatever other clients read meanwhile: a client that subscribes now is in a calm history, so
that reading on it comes to show exactly the edges of the graph. -/
theorem c82_late_client {u : Uids} {k : Nat} {acts : List Act} {S : Srv} (hd : Distinct u) (hk : ∀ a ∈ acts, a ≠ .edgeGet k)
    (e : run u acts Srv.init = .ok S) :
    ∃ n S', run u (List.replicate n (.edgeGet k)) S = .ok S' ∧ S'.net = S.net ∧
      ∀ x y i, Shows (sentTo k S'.edges) x y i ↔ ∃ o s, x = u.obs o ∧ y = u.sub s ∧ Edge S.net o i s := by
  obtain ⟨n, S', S'', h1, h2, h3, h4, h5⟩ := c82_edges_end hd (late_from acts hk .start rfl e)
  refine ⟨n, S', h1, h3, fun x y i => ?_⟩
  rw [c82_edges hd h2 h4 h5, h3]

/-! ### Nodes -/

theorem lastOf_marks {new : List NodeMsg} {ms : List NodeMsg} {x : List Char} (hn : ∀ m ∈ new, m.removed = true) :
    LastOf nodeKey (ms ++ new) ⟨x, true⟩ ↔ ⟨x, true⟩ ∈ new ∨ LastOf nodeKey ms ⟨x, true⟩ := by
  induction new using List.reverseRecOn with
  | nil => simp
  | append_singleton new d ih =>
    have ih := ih (fun m hm => hn m (by simp [hm]))
    have hdr := hn d (by simp)
    rw [← List.append_assoc, lastOf_snoc, ih, List.mem_append, List.mem_singleton]
    obtain ⟨y, b⟩ := d
    simp only at hdr; subst hdr
    by_cases c : x = y
    · subst c; simp
    · have : nodeKey ⟨y, true⟩ ≠ nodeKey ⟨x, true⟩ := fun h => c h.symm
      simp only [NodeMsg.mk.injEq, c, this, ne_eq, not_false_iff, and_true, false_and, false_or, or_false]

theorem mem_nodeMsgs {u : Uids} (hd : Distinct u) {l : List Ev} {t : Nat} : (⟨u.sub t, true⟩ : NodeMsg) ∈ l.filterMap (nodeMsg u) ↔ Ev.gone t ∈ l := by
  rw [List.mem_filterMap]
  constructor
  · rintro ⟨ev, h1, h2⟩
    cases ev with
    | gone s => simp only [nodeMsg, Option.some.injEq, NodeMsg.mk.injEq, and_true] at h2; rw [← hd.1 h2]; exact h1
    | capture r o s i => simp [nodeMsg] at h2
    | release o s i => simp [nodeMsg] at h2
  · intro h; exact ⟨_, h, rfl⟩

theorem nodeMsgs_form {u : Uids} {l : List Ev} {m : NodeMsg} (h : m ∈ l.filterMap (nodeMsg u)) : m.removed = true ∧ ∃ s, m.id = u.sub s := by
  obtain ⟨ev, h1, h2⟩ := List.mem_filterMap.1 h
  cases ev with
  | gone s => simp only [nodeMsg, Option.some.injEq] at h2; subst h2; exact ⟨rfl, s, rfl⟩
  | capture r o s i => simp [nodeMsg] at h2
  | release o s i => simp [nodeMsg] at h2

structure NodeSt (u : Uids) (k : Nat) (past : List Srv) (S : Srv) (ms : List NodeMsg) : Prop where
  track : Track nodeKey ms k S.nodes
  form : ∀ m ∈ ms, ∃ s, m.id = u.sub s
  died : ∀ t, LastOf nodeKey ms ⟨u.sub t, true⟩ ↔ Died past S t

theorem died_same {past : List Srv} {S S' : Srv} (h : S'.net.sAlive = S.net.sAlive) (t : Nat) : Died (S :: past) S' t ↔ Died past S t := by
  simp only [Died, List.mem_cons, h]
  constructor
  · rintro ⟨⟨P, rfl | hp, h1⟩, h2⟩
    · rw [h1] at h2; cases h2
    · exact ⟨⟨P, hp, h1⟩, h2⟩
  · rintro ⟨⟨P, hp, h1⟩, h2⟩
    exact ⟨⟨P, .inr hp, h1⟩, h2⟩

theorem calm_nodes {u : Uids} {k : Nat} {past : List Srv} {S : Srv} (hd : Distinct u) (h : CalmNodes u k past S) : ∃ ms, NodeSt u k past S ms := by
  induction h with
  | start =>
    refine ⟨[], track_new, by simp, fun t => ⟨fun h => absurd h lastOf_nil, ?_⟩⟩
    rintro ⟨⟨P, hp, _⟩, _⟩; simp at hp
  | @step past S S' a h e calm fresh ih =>
    obtain ⟨ms, I⟩ := ih
    have idle : S'.net = S.net → S'.nodes = S.nodes → ∃ ms, NodeSt u k (S :: past) S' ms := by
      intro h1 h2
      refine ⟨ms, by rw [h2]; exact I.track, I.form, fun t => ?_⟩
      rw [died_same (by rw [h1]), I.died]
    have lastForm : ∀ v, (sentTo k S.nodes).getLast? = some v → ∃ s, v = ⟨u.sub s, v.removed⟩ := by
      intro v hv
      obtain ⟨s, hs⟩ := I.form v (I.track.sent v (List.mem_of_getLast? hv))
      exact ⟨s, by rw [← hs]⟩
    cases a with
    | op o =>
      rcases op_ok e with rfl | ⟨net, new, h1, h2, h3, h4, h5, _⟩
      · exact idle rfl rfl
      · have hf : ∀ v, (sentTo k S.nodes).getLast? = some v → ∀ d ∈ new.filterMap (nodeMsg u), nodeKey v ≠ nodeKey d := by
          intro v hv d hdn hk
          obtain ⟨s, hs⟩ := lastForm v hv
          obtain ⟨r, t, ht⟩ := nodeMsgs_form hdn
          have hst : u.sub s = u.sub t := by
            have : v.id = d.id := hk
            rw [hs, ht] at this; exact this
          have hg : Ev.gone s ∈ new := by
            rw [← mem_nodeMsgs hd, hst, ← ht]
            obtain ⟨x, b⟩ := d
            simp only at r; subst r; exact hdn
          rw [hs] at hv
          exact calm _ _ hv (.inr (by rw [h4]; exact (h3 s).1 hg))
        obtain ⟨c', f1, f2, _⟩ := track_feed I.track hf
        rw [h5] at f1; injection f1 with f1; subst f1
        refine ⟨_, f2, fun m hm => ?_, fun t => ?_⟩
        · rcases List.mem_append.1 hm with hm | hm
          · exact I.form m hm
          · exact (nodeMsgs_form hm).2
        · rw [lastOf_marks (fun m hm => (nodeMsgs_form hm).1), mem_nodeMsgs hd, h3, I.died]
          simp only [Died, List.mem_cons, h4]
          rcases step_gone o h1 with ⟨s, rfl, g0, g1, _⟩ | ⟨_, g1, _⟩
          · have fr := fresh s rfl
            rw [g1]
            by_cases c : t = s
            · subst c
              simp only [g0, React.upd_same]
              constructor
              · rintro (⟨h, _⟩ | ⟨⟨P, hp, h⟩, _⟩)
                · cases h
                · rw [fr P hp] at h; cases h
              · rintro ⟨_, h⟩; cases h
            · rw [React.upd_ne _ _ c]
              constructor
              · rintro (⟨h, h'⟩ | ⟨⟨P, hp, h⟩, h'⟩)
                · rw [h] at h'; cases h'
                · exact ⟨⟨P, .inr hp, h⟩, h'⟩
              · rintro ⟨⟨P, rfl | hp, hq⟩, h'⟩
                · exact .inl ⟨hq, h'⟩
                · exact .inr ⟨⟨P, hp, hq⟩, h'⟩
          · have mono := g1 t
            constructor
            · rintro (⟨h, h'⟩ | ⟨⟨P, hp, h⟩, h'⟩)
              · exact ⟨⟨S, .inl rfl, h⟩, h'⟩
              · refine ⟨⟨P, .inr hp, h⟩, ?_⟩
                cases c : net.sAlive t with
                | false => rfl
                | true => rw [mono c] at h'; cases h'
            · rintro ⟨⟨P, rfl | hp, hq⟩, h'⟩
              · exact .inl ⟨hq, h'⟩
              · cases c : S.net.sAlive t with
                | true => exact .inl ⟨rfl, h'⟩
                | false => exact .inr ⟨⟨P, hp, hq⟩, rfl⟩
    | update s =>
      obtain ⟨g, e1, e2⟩ := Outcome.bind_eq_ok.1 e
      obtain ⟨n, e3, e4⟩ := Outcome.bind_eq_ok.1 e2
      injection e4 with e4; subst e4
      have hs : S.net.sAlive s = true := by
        by_contra hc; simp [React.needS, hc] at e1
      obtain ⟨c', f1, f2, _⟩ := track_feed (ms := [⟨u.sub s, false⟩]) I.track (by
        intro v hv d hdn hk
        obtain ⟨t, ht⟩ := lastForm v hv
        rw [List.mem_singleton] at hdn; subst hdn
        have : v.id = u.sub s := hk
        rw [ht] at this
        have := hd.1 this; subst this
        rw [ht] at hv
        exact calm _ _ hv (.inl rfl))
      rw [e3] at f1; injection f1 with f1; subst f1
      refine ⟨_, f2, fun m hm => ?_, fun t => ?_⟩
      · rcases List.mem_append.1 hm with hm | hm
        · exact I.form m hm
        · rw [List.mem_singleton] at hm; subst hm; exact ⟨s, rfl⟩
      · rw [lastOf_snoc, died_same (by rfl), I.died]
        constructor
        · rintro (h | h)
          · simp at h
          · exact h.1
        · intro h
          refine .inr ⟨h, fun hk => ?_⟩
          have : u.sub s = u.sub t := hk
          have := hd.1 this; subst this
          rw [h.2] at hs; cases hs
    | edgeGet j =>
      obtain ⟨n, e3, e4⟩ := Outcome.bind_eq_ok.1 e
      injection e4 with e4; subst e4
      exact idle rfl rfl
    | nodeGet j =>
      obtain ⟨n, e3, e4⟩ := Outcome.bind_eq_ok.1 e
      injection e4 with e4; subst e4
      refine ⟨ms, ?_, I.form, fun t => by rw [died_same (by rfl), I.died]⟩
      by_cases hj : j = k
      · subst hj
        obtain ⟨c', f1, f2⟩ := track_get I.track
        rw [e3] at f1; injection f1 with f1; subst f1
        exact f2
      · exact (track_other I.track hj e3).1

/-- The same for nodes: the client has been told of exactly the nodes that died. -/
theorem c82_nodes {u : Uids} {k : Nat} {past : List Srv} {S S' : Srv} (hd : Distinct u) (h : CalmNodes u k past S)
    (e : step u (.nodeGet k) S = .ok S') (hn : S'.nodes.out = S.nodes.out) (x : List Char) :
    ShowsGone (sentTo k S.nodes) x ↔ ∃ s, x = u.sub s ∧ Died past S s := by
  obtain ⟨ms, I⟩ := calm_nodes hd h
  obtain ⟨n, e3, e4⟩ := Outcome.bind_eq_ok.1 e
  injection e4 with e4; subst e4
  have h1 : ∀ m ∈ sentTo k S.nodes, nodeKey m = nodeKey ⟨x, true⟩ → m = ⟨x, true⟩ ∨ m = ⟨x, false⟩ := by
    rintro ⟨y, b⟩ _ hk
    have : y = x := hk
    subst this; cases b <;> simp
  rw [ShowsGone, last_of_two (key := nodeKey) (a := ⟨x, true⟩) (b := ⟨x, false⟩) (by simp) rfl _ h1, track_end I.track e3 hn]
  constructor
  · intro hl
    obtain ⟨s, hs⟩ := I.form _ hl.mem
    simp only at hs; subst hs
    exact ⟨s, rfl, (I.died s).1 hl⟩
  · rintro ⟨s, rfl, hs⟩; exact (I.died s).2 hs

theorem c82_nodes_end {u : Uids} {k : Nat} {past : List Srv} {S : Srv} (hd : Distinct u) (h : CalmNodes u k past S) :
    ∃ n S' S'', run u (List.replicate n (.nodeGet k)) S = .ok S' ∧ (∃ past', CalmNodes u k past' S' ∧ ∀ s, Died past' S' s ↔ Died past S s) ∧
      S'.net = S.net ∧ step u (.nodeGet k) S' = .ok S'' ∧ S''.nodes.out = S'.nodes.out := by
  obtain ⟨ms, I⟩ := calm_nodes hd h
  obtain ⟨n, hn⟩ := left_exists I.track
  refine ⟨n, ?_⟩
  clear I ms
  induction n generalizing S past with
  | zero =>
    obtain ⟨c, h1, h2⟩ := left_end hn
    exact ⟨S, { S with nodes := c }, rfl, ⟨past, h, fun _ => Iff.rfl⟩, rfl, by simp [step, h1], h2⟩
  | succ n ih =>
    obtain ⟨c, h1, h2, _⟩ := left_get hn
    have e : step u (.nodeGet k) S = .ok { S with nodes := c } := by simp [step, h1]
    have hc : CalmNodes u k (S :: past) { S with nodes := c } := by
      refine h.step e (fun s b _ ht => ?_) (fun s hs => by cases hs)
      rcases ht with ht | ⟨h1, h2⟩
      · cases ht
      · simp only at h2; rw [h1] at h2; cases h2
    obtain ⟨S', S'', g1, ⟨past', g2, g2'⟩, g3, g4, g5⟩ := ih (S := { S with nodes := c }) hc h2
    refine ⟨S', S'', ?_, ⟨past', g2, fun s => (g2' s).trans (died_same (by rfl) s)⟩, g3, g4, g5⟩
    rw [List.replicate_succ, run, e]; exact g1

/-! ### The recorder does not disturb the graph -/

theorem feed_ok {T : Type} {key : T → List Char} (ms : List T) : ∀ {c : Chan T} {L : List (Nat × T)}, Cache.Inv key c.cache L →
    ∃ c' L', c.feed key ms = .ok c' ∧ Cache.Inv key c'.cache L' := by
  induction ms with
  | nil => intro c L h; exact ⟨c, L, rfl, h⟩
  | cons d ms ih =>
    intro c L h
    obtain ⟨c', a1, a2, _⟩ := Cache.add_inv key h d
    obtain ⟨c'', L', b1, b2⟩ := ih (c := { c with cache := c' }) a2
    refine ⟨c'', L', ?_, b2⟩
    simp only [Chan.feed, Cache.Cache.addAll, a1, Outcome.ok_bind] at b1 ⊢
    exact b1

def Sound (S : Srv) : Prop := (∃ L, Cache.Inv nodeKey S.nodes.cache L) ∧ ∃ L, Cache.Inv edgeKey S.edges.cache L

theorem step_sound {u : Uids} {a : Act} {S S' : Srv} (h : Sound S) (e : step u a S = .ok S') : Sound S' := by
  obtain ⟨⟨L, h1⟩, M, h2⟩ := h
  cases a with
  | op o =>
    rcases op_ok e with rfl | ⟨net, new, _, _, _, _, h5, h6⟩
    · exact ⟨⟨L, h1⟩, M, h2⟩
    · obtain ⟨c, L', a1, a2⟩ := feed_ok (new.filterMap (nodeMsg u)) h1
      obtain ⟨d, M', b1, b2⟩ := feed_ok (new.filterMap (edgeMsg u)) h2
      rw [h5] at a1; rw [h6] at b1
      injection a1 with a1; injection b1 with b1
      subst a1 b1
      exact ⟨⟨L', a2⟩, M', b2⟩
  | update s =>
    obtain ⟨g, e1, e2⟩ := Outcome.bind_eq_ok.1 e
    obtain ⟨n, e3, e4⟩ := Outcome.bind_eq_ok.1 e2
    injection e4 with e4; subst e4
    obtain ⟨c, L', a1, a2⟩ := feed_ok [⟨u.sub s, false⟩] h1
    rw [e3] at a1; injection a1 with a1; subst a1
    exact ⟨⟨L', a2⟩, M, h2⟩
  | nodeGet j =>
    obtain ⟨n, e3, e4⟩ := Outcome.bind_eq_ok.1 e
    injection e4 with e4; subst e4
    exact ⟨⟨L, by rw [get_cache e3]; exact h1⟩, M, h2⟩
  | edgeGet j =>
    obtain ⟨n, e3, e4⟩ := Outcome.bind_eq_ok.1 e
    injection e4 with e4; subst e4
    exact ⟨⟨L, h1⟩, M, by rw [get_cache e3]; exact h2⟩

theorem run_sound {u : Uids} (acts : List Act) : ∀ {S S' : Srv}, Sound S → run u acts S = .ok S' → Sound S' := by
  induction acts with
  | nil => intro S S' h e; injection e with e; exact e ▸ h
  | cons a acts ih =>
    intro S S' h e
    obtain ⟨S1, e1, e2⟩ := Outcome.bind_eq_ok.1 e
    exact ih (step_sound h e1) e2

theorem init_sound : Sound Srv.init := ⟨⟨[], Cache.new_inv _⟩, [], Cache.new_inv _⟩

/-- Whatever was read meanwhile, a change of the graph does exactly what it does without clients. -/
theorem c82_harmless {u : Uids} {acts : List Act} {S : Srv} (e : run u acts Srv.init = .ok S) (o : React.Op) {net : Net}
    (ho : React.step o S.net = .ok net) : ∃ S', step u (.op o) S = .ok S' ∧ S'.net = net := by
  obtain ⟨⟨L, h1⟩, M, h2⟩ := run_sound acts init_sound e
  obtain ⟨c, L', a1, a2⟩ := feed_ok ((net.book.log.drop S.net.book.log.length).filterMap (nodeMsg u)) h1
  obtain ⟨d, M', b1, b2⟩ := feed_ok ((net.book.log.drop S.net.book.log.length).filterMap (edgeMsg u)) h2
  exact ⟨⟨net, c, d⟩, by simp [step, ho, told, a1, b1], rfl⟩

/-- The graph is the one its changes alone produce. -/
theorem c82_graph_alone {u : Uids} (acts : List Act) : ∀ {S S' : Srv}, run u acts S = .ok S' →
    React.run (opsOf acts) S.net = .ok S'.net := by
  induction acts with
  | nil => intro S S' e; injection e with e; exact e ▸ rfl
  | cons a acts ih =>
    intro S S' e
    obtain ⟨S1, e1, e2⟩ := Outcome.bind_eq_ok.1 e
    have := ih e2
    cases a with
    | op o =>
      simp only [opsOf, React.run]
      simp only [step] at e1
      split at e1
      · rename_i net hs
        obtain ⟨n, f1, f2⟩ := Outcome.bind_eq_ok.1 e1
        obtain ⟨c, f3, f4⟩ := Outcome.bind_eq_ok.1 f2
        injection f4 with f4; subst f4
        rw [hs]; exact this
      · rename_i x hs
        injection e1 with e1; subst e1
        rw [hs]; exact this
      · simp at e1
      · simp at e1
    | update s =>
      obtain ⟨g, f1, f2⟩ := Outcome.bind_eq_ok.1 e1
      obtain ⟨n, e3, e4⟩ := Outcome.bind_eq_ok.1 f2
      injection e4 with e4; subst e4
      exact this
    | nodeGet j =>
      obtain ⟨n, e3, e4⟩ := Outcome.bind_eq_ok.1 e1
      injection e4 with e4; subst e4
      exact this
    | edgeGet j =>
      obtain ⟨n, e3, e4⟩ := Outcome.bind_eq_ok.1 e1
      injection e4 with e4; subst e4
      exact this

/-! ### What goes wrong -/

theorem edgeKey_rm (a b : List Char) (i : Nat) : edgeKey ⟨a, b, i, false⟩ = edgeKey ⟨a, b, i, true⟩ := rfl
theorem edgeKey_10 (a b c d : List Char) : ¬ edgeKey ⟨a, b, 1, true⟩ = edgeKey ⟨c, d, 0, true⟩ := fun h => by
  have := (colon_split (digits_clean _) (digits_clean _) h).1
  simp only at this
  exact absurd this (by decide)
theorem edgeKey_01 (a b c d : List Char) : ¬ edgeKey ⟨c, d, 0, true⟩ = edgeKey ⟨a, b, 1, true⟩ := fun h => edgeKey_10 _ _ _ _ h.symm

/-- Negative: a client that has read the only entry and is outrun by the removal of the edge makes the server crash. -/
theorem c82_crash (u : Uids) (o s k : Nat) :
    run u [.op (.newSubject s), .op (.newObserver o [some s]), .edgeGet k, .op (.removeDependency o 0), .edgeGet k] Srv.init = .ub := by
  simp [run, step, Srv.init, Net.empty, React.step, React.newSubject, React.newObserver, React.addDependency, React.attachOpt, React.attach, React.needS,
    React.needO, React.upd, React.forEach, List.filterMap_cons, told, Chan.feed, Chan.new, Chan.get, edgeMsg, nodeMsg, Record.capture, Rec.note, Record.release, React.removeDependency, React.detach, React.popNulls,
    Cache.Cache.addAll, Cache.Cache.add, Cache.Cache.detach, Cache.Cache.new, Cache.Cache.pushBack, Cache.Cache.put, Cache.Cache.get, Cache.Cache.deref,
    Cache.Cache.unlink, Cache.Cache.setNext, Cache.Cache.setPrev, Cache.Cache.grabTruth, Cache.Cache.grabLoop, edgeKey_rm]

/-- Negative: a client that is told of the removal of the oldest edge, the last one it had been told of, is not told of the
next one: there is nothing left for it to read, and it does not show an edge of the graph. -/
theorem c82_missed (u : Uids) (o s t k : Nat) (hst : s ≠ t) : ∃ S S',
    run u [.op (.newSubject s), .op (.newSubject t), .op (.newObserver o [some s, some t]), .edgeGet k, .op (.removeDependency o 0), .edgeGet k] Srv.init = .ok S ∧
    step u (.edgeGet k) S = .ok S' ∧ S'.edges.out = S.edges.out ∧
    sentTo k S.edges = [⟨u.obs o, u.sub s, 0, true⟩, ⟨u.obs o, u.sub s, 0, false⟩] ∧ Edge S.net o 1 t := by
  have key : (run u [.op (.newSubject s), .op (.newSubject t), .op (.newObserver o [some s, some t]), .edgeGet k, .op (.removeDependency o 0), .edgeGet k] Srv.init >>=
      fun S => step u (.edgeGet k) S >>= fun S' => .ok (S'.edges.out, S.edges.out, S.net.deps o)) =
      .ok ([(k, ⟨u.obs o, u.sub s, 0, true⟩), (k, ⟨u.obs o, u.sub s, 0, false⟩)], [(k, ⟨u.obs o, u.sub s, 0, true⟩), (k, ⟨u.obs o, u.sub s, 0, false⟩)], [none, some t]) := by
    have hts : ¬ t = s := fun h => hst h.symm
    simp [run, step, Srv.init, Net.empty, React.step, React.newSubject, React.newObserver, React.addDependency, React.attachOpt, React.attach, React.needS,
      React.needO, React.upd, React.forEach, List.filterMap_cons, told, Chan.feed, Chan.new, Chan.get, edgeMsg, nodeMsg, Record.capture, Rec.note, Record.release, React.removeDependency, React.detach, React.popNulls,
      Cache.Cache.addAll, Cache.Cache.add, Cache.Cache.detach, Cache.Cache.new, Cache.Cache.pushBack, Cache.Cache.put, Cache.Cache.get, Cache.Cache.deref,
      Cache.Cache.unlink, Cache.Cache.setNext, Cache.Cache.setPrev, Cache.Cache.grabTruth, Cache.Cache.grabLoop, Cache.Cache.advance, edgeKey_rm, edgeKey_10, edgeKey_01, hst, hts]
  obtain ⟨S, h1, h2⟩ := Outcome.bind_eq_ok.1 key
  obtain ⟨S', h3, h4⟩ := Outcome.bind_eq_ok.1 h2
  injection h4 with h4
  simp only [Prod.mk.injEq] at h4
  obtain ⟨g1, g2, g3⟩ := h4
  refine ⟨S, S', h1, h3, by rw [g1, g2], by simp [sentTo, g2], by simp [Edge, g3]⟩

/-! ### Examples -/

def exUids : Uids := ⟨fun n => 's' :: Nat.toDigits 10 n, fun n => 'o' :: Nat.toDigits 10 n⟩

theorem exUids_distinct : Distinct exUids := by
  have inj : ∀ a b, Nat.toDigits 10 a = Nat.toDigits 10 b → a = b := fun a b h => by
    have := congrArg (Nat.ofDigitChars 10 · 0) h
    simpa [Nat.ofDigitChars_ten_toDigits] using this
  refine ⟨fun a b h => inj a b (by simpa [exUids] using h), fun a b h => inj a b (by simpa [exUids] using h), fun o h => ?_⟩
  rcases List.mem_cons.1 h with h | h
  · exact absurd h (by decide)
  · exact digits_clean o h

/-- Two subjects, an observer of both; the client reads both edges, the first one is removed, the client hears of it; it hears
of an update of the second subject, the first subject dies, the client hears of it. -/
def exActs : List Act :=
  [.op (.newSubject 0), .op (.newSubject 1), .op (.newObserver 7 [some 0, some 1]), .edgeGet 3, .edgeGet 3, .op (.removeDependency 7 0), .edgeGet 3,
    .update 1, .nodeGet 3, .op (.destroySubject ⟨id, id, fun _ => .refl _, fun _ => .refl _⟩ 0), .nodeGet 3]

def exOut : Outcome (List EdgeMsg × List NodeMsg × List (Option Nat)) :=
  run exUids exActs Srv.init >>= fun S => .ok (sentTo 3 S.edges, sentTo 3 S.nodes, S.net.deps 7)

example : exOut = .ok ([⟨exUids.obs 7, exUids.sub 0, 0, true⟩, ⟨exUids.obs 7, exUids.sub 1, 1, true⟩, ⟨exUids.obs 7, exUids.sub 0, 0, false⟩],
    [⟨exUids.sub 1, false⟩, ⟨exUids.sub 0, true⟩], [none, some 1]) := rfl

/-- A check that a history is calm for a client. -/
def quiet (u : Uids) (k : Nat) : List Act → Srv → Bool
  | [], _ => true
  | a :: as, S =>
    match step u a S with
    | .ok S' => ((S'.net.book.log.drop S.net.book.log.length).filterMap (edgeMsg u)).all (fun m => (sentTo k S.edges).getLast?.all fun v => decide (edgeKey m ≠ edgeKey v)) && quiet u k as S'
    | _ => true

theorem quiet_calm {u : Uids} {k : Nat} (as : List Act) : ∀ {S S' : Srv}, CalmEdges u k S → quiet u k as S = true → run u as S = .ok S' → CalmEdges u k S' := by
  induction as with
  | nil => intro S S' h _ e; injection e with e; exact e ▸ h
  | cons a as ih =>
    intro S S' h hq e
    obtain ⟨S1, e1, e2⟩ := Outcome.bind_eq_ok.1 e
    simp only [quiet, e1, Bool.and_eq_true, List.all_eq_true] at hq
    refine ih (h.step e1 fun o s i b hl ht => ?_) hq.2 e2
    obtain ⟨new, h1, h2⟩ := ht
    rw [h1, List.drop_left, hl] at hq
    rcases h2 with ⟨r, h2⟩ | h2
    · have := hq.1 _ (List.mem_filterMap.2 ⟨_, h2, rfl⟩)
      simp [edgeKey] at this
    · have := hq.1 _ (List.mem_filterMap.2 ⟨_, h2, rfl⟩)
      simp [edgeKey] at this

example : ∃ S S', CalmEdges exUids 3 S ∧ step exUids (.edgeGet 3) S = .ok S' ∧ S'.edges.out = S.edges.out ∧ S.net.deps 7 = [none, some 1] := by
  refine ⟨_, _, quiet_calm exActs .start (by rfl) rfl, rfl, rfl, rfl⟩
example : Distinct exUids := exUids_distinct
example : ∀ a ∈ exActs, a ≠ .edgeGet 4 := by simp [exActs]

/-- Two subjects, an update of the second, which the client hears of, the first one dies. -/
example : ∃ past S, CalmNodes exUids 3 past S ∧ Died past S 0 ∧ ¬ Died past S 1 := by
  have c1 : CalmNodes exUids 3 _ _ := CalmNodes.start.step (a := .op (.newSubject 0)) rfl (fun s b h => by simp [sentTo, Srv.init, Chan.new] at h) (fun s _ P hp => by simp at hp)
  have c2 := c1.step (a := .op (.newSubject 1)) rfl (fun s b h => by simp [sentTo, Srv.init, Chan.new] at h) (fun s hs P hp => by
    have : s = 1 := by injection hs with hs; injection hs with hs; exact hs.symm
    simp only [List.mem_singleton] at hp; subst hp; rfl)
  have c3 := c2.step (a := .update 1) rfl (fun s b h => by simp [sentTo, Srv.init, Chan.new] at h) (fun s hs => by cases hs)
  have c4 := c3.step (a := .nodeGet 3) rfl (fun s b h => by simp [sentTo, Srv.init, Chan.new] at h) (fun s hs => by cases hs)
  have c5 := c4.step (a := .op (.destroySubject ⟨id, id, fun _ => .refl _, fun _ => .refl _⟩ 0)) rfl (fun s b h ht => by
      have h1 : some (⟨exUids.sub 1, false⟩ : NodeMsg) = some ⟨exUids.sub s, b⟩ := h
      injection h1 with h1; injection h1 with h1
      have h1 := exUids_distinct.1 h1; subst h1
      rcases ht with ht | ⟨_, ht⟩
      · cases ht
      · have : true = false := ht
        cases this)
    (fun s hs => by cases hs)
  refine ⟨_, _, c5, ⟨⟨_, List.mem_cons_self, rfl⟩, rfl⟩, fun h => ?_⟩
  have : true = false := h.2
  cases this

end Verif.Props
