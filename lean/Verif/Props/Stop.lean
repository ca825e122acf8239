import Verif.Lemmas.Stop
/-!
# C75: stopping, joining and losing threads

`tr` is the history of any interleaving of the main thread and its workers, whatever the workers' programs.
-/
namespace Verif.Props
open Stop Spec

variable {σ : Type} {code : σ → Instr σ} {S T : Sys σ} {tr tr' a c : List Ev} {w h : Nat} {s : σ} {b : Bool}

/-- `stop_throw` throws exactly when the thread was told to stop before, and only its own stop counts. -/
theorem c75_throw_iff (hr : Run code Sys.init (a ++ .polled w b :: c) S) : b = true ↔ Ev.stored w ∈ a := by
  obtain ⟨A, B, h1, h2, _⟩ := hr.split rfl
  rw [← (inv_run h1).flag w]
  cases h2 with
  | pass _ _ hf => rw [hf]
  | interrupt _ _ hf => rw [hf]

/-- `stop_wait` returns only for a thread that was told to stop. -/
theorem c75_wait_iff (hr : Run code Sys.init (a ++ .tested w b :: c) S) : b = true ↔ Ev.stored w ∈ a := by
  obtain ⟨A, B, h1, h2, _⟩ := hr.split rfl
  rw [← (inv_run h1).flag w]
  cases h2 with
  | waited _ _ hf => rw [hf]
  | test _ _ hf => rw [hf]

/-- After `stop_throw` threw, the thread does nothing but end; after its end it does nothing. -/
theorem c75_over (hr : Run code Sys.init tr S) :
    (tr = a ++ .ended w :: c → ∀ e ∈ c, Doer e ≠ some w) ∧ (tr = a ++ .polled w true :: c → ∀ e ∈ c, Doer e = some w → e = .ended w) := by
  have key : ∀ {a c : List Ev} {e x : Ev}, tr = a ++ x :: c → e ∈ c → Doer e = some w →
      (x = .ended w → False) ∧ (x = .polled w true → e = .ended w) := by
    intro a c e x ht he hd
    obtain ⟨c1, c2, rfl⟩ := List.append_of_mem he
    rw [show a ++ x :: (c1 ++ e :: c2) = (a ++ x :: c1) ++ e :: c2 by simp] at ht
    subst ht
    obtain ⟨A, B, h1, h2, _⟩ := hr.split rfl
    have I := inv_run h1
    constructor
    · rintro rfl
      have := (I.ended w).mpr (by simp)
      cases h2 <;> simp [Doer] at hd <;> simp_all
    · rintro rfl
      have := I.thrown w (by simp)
      cases h2 <;> simp [Doer] at hd <;> simp_all
  exact ⟨fun ht e he hd => (key ht he hd).1 rfl, fun ht e he hd => (key ht he hd).2 rfl⟩

/-- `join`, and the destructor of a joinable handle, return only when the thread has ended. -/
theorem c75_join (hr : Run code Sys.init (a ++ .joined w :: c) S) : Ev.ended w ∈ a := by
  obtain ⟨A, B, h1, h2, _⟩ := hr.split rfl
  rw [← (inv_run h1).ended w]
  cases h2 with
  | joined _ he _ => exact he
  | destroyed _ he => exact he

/-- A thread is held by exactly one handle until it is joined or detached, and by none afterwards, however the
handles are moved; a handle that holds a thread stops that thread. -/
theorem c75_one_owner (hr : Run code Sys.init tr S) (hs : Ev.started w ∈ tr) :
    ((Ev.joined w ∈ tr ∨ Ev.detached w ∈ tr) ↔ ∀ h H, S.hs h = some H → H.thr ≠ some w) ∧
    (∀ h k H K, S.hs h = some H → S.hs k = some K → H.thr = some w → K.thr = some w → h = k) ∧
    (∀ h H, S.hs h = some H → H.thr = some w → H.flag = some w) := by
  have O := own_run hr
  have I := inv_run hr
  refine ⟨⟨?_, ?_⟩, fun h k H K => O.uniq h k H K w, fun h H => O.same h H w⟩
  · rintro hg h H h1 h2
    obtain ⟨h3, h4⟩ := O.gone h H w h1 h2
    exact hg.elim h3 h4
  · intro hn
    by_cases h1 : Ev.joined w ∈ tr
    · exact Or.inl h1
    · by_cases h2 : Ev.detached w ∈ tr
      · exact Or.inr h2
      · obtain ⟨h, H, h3, h4⟩ := O.kept w ((I.started w).mpr hs) h1 h2
        exact absurd h4 (hn h H h3)

/-- A thread is joined or detached at most once. -/
theorem c75_let_go_once {x : Ev} (hx : x = .joined w ∨ x = .detached w) (hr : Run code Sys.init (a ++ x :: c) S) :
    Ev.joined w ∉ a ∧ Ev.detached w ∉ a := by
  obtain ⟨A, B, h1, h2, _⟩ := hr.split rfl
  have O := own_run h1
  have I := inv_run h1
  rcases hx with rfl | rfl
  · cases h2 with
    | joined hi _ _ => obtain ⟨H, h3, h4⟩ := I.joining _ _ hi; exact O.gone _ H w h3 h4
    | destroyed hi _ => obtain ⟨H, h3, h4⟩ := I.destroying _ _ hi; exact O.gone _ H w h3 h4
  · cases h2 with
    | detach _ h3 h4 => exact O.gone _ _ w h3 h4

/-- When every handle is gone, every thread that was not detached has ended. -/
theorem c75_no_leak (hr : Run code Sys.init tr S) (hn : ∀ h, S.hs h = none) (hs : Ev.started w ∈ tr) : Ev.ended w ∈ tr ∨ Ev.detached w ∈ tr := by
  have I := inv_run hr
  by_cases he : S.ws w = .ended
  · exact Or.inl ((I.ended w).mp he)
  · rcases I.owned w ((I.started w).mpr hs) he with h | ⟨h, H, h1, _⟩
    · exact Or.inr h
    · rw [hn h] at h1; cases h1

/-- A thread told to stop that comes to a `stop_throw` within `n` steps of its own makes at most `n + 2` more, whatever
the other threads do, and can always make the next one until it has ended. -/
theorem c75_polling_stops {n : Nat} (hr : Run code Sys.init tr S) (hs : Ev.stored w ∈ tr) (hw : S.ws w = .run s) (hp : Polls code n s)
    (hr' : Run code S tr' T) : steps w tr' ≤ n + 2 ∧ (T.ws w = .ended ∨ ∃ e U, Doer e = some w ∧ Step code T e U) := by
  have hf := ((inv_run hr).flag w).mpr hs
  obtain ⟨m, h1, h2, h3⟩ := left_run hr hf (by rw [hw]; exact .run hp) hr'
  refine ⟨by omega, ?_⟩
  by_cases he : T.ws w = .ended
  · exact Or.inl he
  · exact Or.inr (left_live h3 h2 he)

/-- A thread asleep in `stop_wait` although its `stop` has returned tested the flag before the flag was set and went
to sleep after the notification: there is no other way. -/
theorem c75_lost_only (hr : Run code Sys.init tr S) (hw : S.ws w = .asleep s) (hs : Ev.stored w ∈ tr) (hn : S.pc ≠ .notifying w) :
    ∃ a b c, tr = a ++ .tested w false :: b ++ .slept w :: c ∧ Ev.stored w ∉ a ∧ Ev.stored w ∈ b ∧ Ev.stored w ∉ c ∧ Ev.notified w ∉ c := by
  obtain ⟨a, b, c, rfl, h1, _, _, h4, h5⟩ := (sleep_run hr).asleep w s hw
  have h6 : Ev.stored w ∉ c := fun h => hn (h5 h)
  refine ⟨a, b, c, rfl, h1, ?_, h6, h4⟩
  simpa [h1, h6] using hs

/-- That way is always open: whenever a thread is between its test and its sleep, the main thread can stop it and
destroy its handle, and the destructor then never returns unless the system wakes the thread for no reason. -/
theorem c75_lost_wakeup {H : Handle} (hr : Run code Sys.init tr S) (hi : S.pc = .idle) (hh : S.hs h = some H) (ht : H.thr = some w) (hw : S.ws w = .tested s) :
    ∃ T, Run code S [.stored w, .notified w, .slept w, .main] T ∧ T.ws w = .asleep s ∧ T.pc = .destroying h w ∧
      ∀ tr' U, Run code T tr' U → Ev.woke w ∉ tr' → U.ws w = .asleep s ∧ U.pc = .destroying h w := by
  have hf := (own_run hr).same h H w hh ht
  have hlt : w < S.nw := lt_of_ws (inv_run hr) (by rw [hw]; simp)
  have s1 : Step code S (.stored w) { S with flag := upd S.flag w true, pc := .notifying w } := .stop hi hh hf (by rw [hw]; simp)
  have s2 : Step code { S with flag := upd S.flag w true, pc := .notifying w } (.notified w)
      { S with ws := upd S.ws w (wake (S.ws w)), flag := upd S.flag w true, pc := .idle } := .notify rfl (by show S.ws w ≠ _; rw [hw]; simp)
  have s3 : Step code { S with ws := upd S.ws w (wake (S.ws w)), flag := upd S.flag w true, pc := .idle } (.slept w)
      { S with ws := upd (upd S.ws w (wake (S.ws w))) w (.asleep s), flag := upd S.flag w true, pc := .idle } :=
    .sleep (by show upd S.ws w (wake (S.ws w)) w = _; rw [upd_same, hw]; rfl)
  have s4 : Step code { S with ws := upd (upd S.ws w (wake (S.ws w))) w (.asleep s), flag := upd S.flag w true, pc := .idle } .main
      { S with ws := upd (upd S.ws w (wake (S.ws w))) w (.asleep s), flag := upd S.flag w true, pc := .destroying h w } :=
    .destroyJoin (w := w) (h := h) rfl hh ht
  have hR := (((Run.one s1).append (Run.one s2)).append (Run.one s3)).append (Run.one s4)
  refine ⟨_, hR, upd_same _ _ _, rfl, ?_⟩
  intro tr' U hU hk
  have key : ∀ {tr' : List Ev} {T U : Sys σ}, T.ws w = .asleep s → T.pc = .destroying h w → w < T.nw → Run code T tr' U → Ev.woke w ∉ tr' →
      U.ws w = .asleep s ∧ U.pc = .destroying h w ∧ Ev.notified w ∉ tr' := by
    intro tr' T U h1 h2 h3 h4 h5
    induction h4 with
    | nil => exact ⟨h1, h2, by simp⟩
    | @snoc A B tr' e hr hs ih =>
      simp only [List.mem_append, List.mem_singleton, not_or] at h5
      obtain ⟨h6, h7, h8⟩ := ih h5.1
      have hne : e ≠ .notified w := by
        rintro rfl
        cases hs with
        | notify hi _ => rw [h7] at hi; cases hi
      have h9 : Ev.notified w ∉ tr' ++ [e] := by simp [h8, Ne.symm hne]
      refine ⟨(asleep_run h3 h1 (.snoc hr hs) (by simp [h5.1, h5.2]) h9).1, ?_, h9⟩
      cases hs with
      | work => exact h7
      | pass => exact h7
      | interrupt => exact h7
      | waited => exact h7
      | test => exact h7
      | sleep => exact h7
      | spurious => exact h7
      | done => exact h7
      | leave => exact h7
      | destroyed hi he => rw [h7] at hi; cases hi; rw [h6] at he; cases he
      | joined hi => rw [h7] at hi; cases hi
      | notify hi => rw [h7] at hi; cases hi
      | spawn _ hi => rw [h7] at hi; cases hi
      | mk hi => rw [h7] at hi; cases hi
      | moveCtor hi => rw [h7] at hi; cases hi
      | moveAssign hi => rw [h7] at hi; cases hi
      | moveSelf hi => rw [h7] at hi; cases hi
      | stop hi => rw [h7] at hi; cases hi
      | join hi => rw [h7] at hi; cases hi
      | joinThrow hi => rw [h7] at hi; cases hi
      | detach hi => rw [h7] at hi; cases hi
      | detachThrow hi => rw [h7] at hi; cases hi
      | destroy hi => rw [h7] at hi; cases hi
      | destroyJoin hi => rw [h7] at hi; cases hi
  obtain ⟨h1, h2, _⟩ := key (T := { S with ws := upd (upd S.ws w (wake (S.ws w))) w (.asleep s), flag := upd S.flag w true, pc := .destroying h w })
    (upd_same _ _ _) rfl hlt hU hk
  exact ⟨h1, h2⟩

/-- A second `stop` brings it back: the thread is asleep no more and `stop_wait` returns at its next step. -/
theorem c75_stop_again {H : Handle} {s' : σ} (hi : S.pc = .idle) (hh : S.hs h = some H) (hf : H.flag = some w) (hw : S.ws w = .asleep s) (hc : code s = .wait s') :
    ∃ T, Run code S [.stored w, .notified w, .tested w true] T ∧ T.ws w = .run s' := by
  have s1 : Step code S (.stored w) { S with flag := upd S.flag w true, pc := .notifying w } := .stop hi hh hf (by rw [hw]; simp)
  have s2 : Step code { S with flag := upd S.flag w true, pc := .notifying w } (.notified w)
      { S with ws := upd S.ws w (wake (S.ws w)), flag := upd S.flag w true, pc := .idle } := .notify rfl (by show S.ws w ≠ _; rw [hw]; simp)
  have s3 : Step code { S with ws := upd S.ws w (wake (S.ws w)), flag := upd S.flag w true, pc := .idle } (.tested w true)
      { S with ws := upd (upd S.ws w (wake (S.ws w))) w (.run s'), flag := upd S.flag w true, pc := .idle } :=
    .waited (s := s) (by show upd S.ws w (wake (S.ws w)) w = _; rw [upd_same, hw]; rfl) hc (upd_same _ _ _)
  exact ⟨_, ((Run.one s1).append (Run.one s2)).append (Run.one s3), upd_same _ _ _⟩

/-- Exactly when a use of the API is undefined behaviour: `stop` on a handle that was default-constructed, or whose
thread has ended, or whose thread ends inside `stop`, before the notification. -/
theorem c75_ub_iff (hr : Run code Sys.init tr S) :
    Faults code S .ub ↔ (S.pc = .idle ∧ ∃ h H, S.hs h = some H ∧ (H.flag = none ∨ ∃ w, H.flag = some w ∧ Ev.ended w ∈ tr)) ∨
      ∃ w, S.pc = .notifying w ∧ Ev.ended w ∈ tr := by
  have I := inv_run hr
  constructor
  · intro hf
    cases hf with
    | @uninit h H h1 h2 h3 => exact Or.inl ⟨h1, h, H, h2, Or.inl h3⟩
    | @dangling h w H h1 h2 h3 h4 => exact Or.inl ⟨h1, h, H, h2, Or.inr ⟨w, h3, (I.ended w).mp h4⟩⟩
    | @race w h1 h2 => exact Or.inr ⟨w, h1, (I.ended w).mp h2⟩
  · rintro (⟨h1, h, H, h2, h3 | ⟨w, h3, h4⟩⟩ | ⟨w, h1, h2⟩)
    · exact .uninit h1 h2 h3
    · exact .dangling h1 h2 h3 ((I.ended w).mpr h4)
    · exact .race h1 ((I.ended w).mpr h2)

/-- So `stop` after `join` is undefined … -/
theorem c75_stop_after_join (hr : Run code Sys.init tr S) (hj : S.pc = .joining h w) (hs : Step code S (.joined w) T) : Faults code T .ub := by
  obtain ⟨H, h1, h2⟩ := (inv_run hr).joining h w hj
  have h3 := (own_run hr).same h H w h1 h2
  cases hs with
  | joined hi he hH =>
    rw [hj] at hi; cases hi
    rw [h1] at hH; cases hH
    exact .dangling (h := h) (w := w) rfl (upd_same _ _ _) h3 he
  | destroyed hi => rw [hj] at hi; cases hi

/-- … and no call of `stop` on a running thread that reacts to it is safe: some schedule ends the thread between the
store and the notification. -/
theorem c75_stop_races {n : Nat} {H : Handle} (hi : S.pc = .idle) (hh : S.hs h = some H) (hf : H.flag = some w) (hw : S.ws w = .run s) (hp : Polls code n s) :
    ∃ tr' T, Run code S (.stored w :: tr') T ∧ Ev.notified w ∉ tr' ∧ Faults code T .ub := by
  have s1 : Step code S (.stored w) { S with flag := upd S.flag w true, pc := .notifying w } := .stop hi hh hf (by rw [hw]; simp)
  obtain ⟨tr', T, h1, h2, h3, _, h5⟩ := left_ends (code := code) (S := { S with flag := upd S.flag w true, pc := .notifying w }) (w := w) (n := n + 2)
    (upd_same _ _ _) (by show Left code _ (S.ws w); rw [hw]; exact .run hp)
  exact ⟨tr', T, (Run.one s1).append h1, fun h => absurd (h5 _ h) (by simp [Doer]), .race h3 h2⟩

/-- `std::terminate`: exactly when some worker's function is about to throw something else, or a handle that still
holds a thread may be assigned to — even a thread that has ended. -/
theorem c75_terminate_iff : Faults code S .terminate ↔ (∃ w s, S.ws w = .run s ∧ code s = .fail) ∨
    (S.pc = .idle ∧ ∃ h k H K w, h ≠ k ∧ S.hs h = some H ∧ S.hs k = some K ∧ H.thr = some w) := by
  constructor
  · intro hf
    cases hf with
    | @overwrite h k w H K h1 h2 h3 h4 h5 => exact Or.inr ⟨h1, h, k, H, K, w, h5, h2, h4, h3⟩
    | @fail w s h1 h2 => exact Or.inl ⟨w, s, h1, h2⟩
  · rintro (⟨w, s, h1, h2⟩ | ⟨h1, h, k, H, K, w, h5, h2, h4, h3⟩)
    · exact .fail h1 h2
    · exact .overwrite h1 h2 h3 h4 h5

/-! ## The recorder's server thread -/

/-- What `rpc_record`'s constructor leaves: one handle holding one thread. -/
def recordState : Sys Server := ⟨upd (fun _ => .absent) 0 (.run .setup), upd (fun _ => false) 0 false, 1,
  upd (upd (upd (upd (upd (fun _ => none) 0 (some ⟨none, none⟩)) 1 (some ⟨some 0, some 0⟩)) 1 (some ⟨none, some 0⟩)) 0 (some ⟨some 0, some 0⟩)) 1 none, .idle⟩

theorem recordState_run : Run serverCode Sys.init [.main, .started 0, .main, .main] recordState := by
  have s1 := Run.one (Step.mk (code := serverCode) (S := Sys.init) (h := 0) rfl rfl)
  have s2 := Run.snoc s1 (Step.spawn (h := 1) Server.setup rfl rfl)
  have s3 := Run.snoc s2 (Step.moveAssign (h := 0) (h' := 1) rfl rfl rfl rfl (by decide))
  exact Run.snoc s3 (Step.destroy (h := 1) rfl rfl rfl)


/-- Destroying the recorder (`server_.stop()`, then the handle) can go well … -/
theorem c75_record_good : ∃ T, Run serverCode recordState
    [.worked 0, .tested 0 false, .slept 0, .stored 0, .notified 0, .main, .tested 0 true, .worked 0, .ended 0, .joined 0] T ∧ T.hs 0 = none := by
  have s1 := Run.one (Step.work (code := serverCode) (S := recordState) (w := 0) (s := .setup) (s' := .waiting) rfl rfl rfl)
  have s2 := Run.snoc s1 (Step.test (w := 0) (s := .waiting) (s' := .shutdown) rfl rfl rfl)
  have s3 := Run.snoc s2 (Step.sleep (w := 0) (s := .waiting) rfl)
  have s4 := Run.snoc s3 (Step.stop (h := 0) (w := 0) (H := ⟨some 0, some 0⟩) rfl rfl rfl (by intro h; cases h))
  have s5 := Run.snoc s4 (Step.notify (w := 0) rfl (by intro h; cases h))
  have s6 := Run.snoc s5 (Step.destroyJoin (h := 0) (w := 0) (H := ⟨some 0, some 0⟩) rfl rfl rfl)
  have s7 := Run.snoc s6 (Step.waited (w := 0) (s := .waiting) (s' := .shutdown) rfl rfl rfl)
  have s8 := Run.snoc s7 (Step.work (w := 0) (s := .shutdown) (s' := .finished) (next := fun s => s = .finished) rfl rfl rfl)
  have s9 := Run.snoc s8 (Step.done (w := 0) (s := .finished) rfl rfl)
  exact ⟨_, Run.snoc s9 (Step.destroyed (h := 0) (w := 0) rfl rfl), rfl⟩

/-- … hang for ever … -/
theorem c75_record_hang : ∃ T, Run serverCode recordState [.worked 0, .tested 0 false, .stored 0, .notified 0, .slept 0, .main] T ∧
    ∀ tr' U, Run serverCode T tr' U → Ev.woke 0 ∉ tr' → U.pc = .destroying 0 0 := by
  have s1 := Run.one (Step.work (code := serverCode) (S := recordState) (w := 0) (s := .setup) (s' := .waiting) rfl rfl rfl)
  have s2 := Run.snoc s1 (Step.test (w := 0) (s := .waiting) (s' := .shutdown) rfl rfl rfl)
  obtain ⟨T, h1, _, _, h4⟩ := c75_lost_wakeup (h := 0) (w := 0) (s := .waiting) (H := ⟨some 0, some 0⟩) (recordState_run.append s2) rfl rfl rfl rfl
  exact ⟨T, s2.append h1, fun tr' U hU hn => (h4 tr' U hU hn).2⟩

/-- … or use the thread's flag after the thread is gone, even if the recorder is destroyed as soon as it is built. -/
theorem c75_record_ub : ∃ tr' T, Run serverCode recordState (.stored 0 :: tr') T ∧ Ev.notified 0 ∉ tr' ∧ Faults serverCode T .ub :=
  c75_stop_races (n := 3) (h := 0) (w := 0) (s := .setup) (H := ⟨some 0, some 0⟩) rfl rfl rfl rfl
    (.work (next := fun s => s = .waiting) rfl ⟨_, rfl⟩ (by
      rintro _ rfl
      exact .wait rfl (.work (next := fun s => s = .finished) rfl ⟨_, rfl⟩ (by rintro _ rfl; exact .done rfl))))

/-! ## A worker that works and polls -/

/-- `while (true) { work; stop_throw(); }` -/
def pollCode : Bool → Instr Bool
  | false => .work (fun s => s = true)
  | true => .poll false

/-- One handle, one polling worker. -/
def pollState : Sys Bool := ⟨upd (fun _ => .absent) 0 (.run false), upd (fun _ => false) 0 false, 1, upd (fun _ => none) 0 (some ⟨some 0, some 0⟩), .idle⟩

theorem pollState_run : Run pollCode Sys.init [.started 0] pollState :=
  Run.one (Step.spawn (code := pollCode) (S := Sys.init) (h := 0) false rfl rfl)

/-- Polls once in vain, is stopped, interrupted, joined by hand; its handle is destroyed. -/
example : ∃ T, Run pollCode Sys.init ([.started 0] ++ [.worked 0, .polled 0 false, .worked 0, .stored 0, .notified 0, .main, .polled 0 true, .ended 0, .joined 0, .main]) T ∧
    (∀ h, T.hs h = none) := by
  have s1 := Run.snoc pollState_run (Step.work (w := 0) (s := false) (s' := true) rfl rfl rfl)
  have s2 := Run.snoc s1 (Step.pass (w := 0) (s := true) (s' := false) rfl rfl rfl)
  have s3 := Run.snoc s2 (Step.work (w := 0) (s := false) (s' := true) rfl rfl rfl)
  have s4 := Run.snoc s3 (Step.stop (h := 0) (w := 0) (H := ⟨some 0, some 0⟩) rfl rfl rfl (by intro h; cases h))
  have s5 := Run.snoc s4 (Step.notify (w := 0) rfl (by intro h; cases h))
  have s6 := Run.snoc s5 (Step.join (h := 0) (w := 0) (H := ⟨some 0, some 0⟩) rfl rfl rfl)
  have s7 := Run.snoc s6 (Step.interrupt (w := 0) (s := true) (s' := false) rfl rfl rfl)
  have s8 := Run.snoc s7 (Step.leave (w := 0) rfl)
  have s9 := Run.snoc s8 (Step.joined (h := 0) (w := 0) (H := ⟨some 0, some 0⟩) rfl rfl rfl)
  refine ⟨_, Run.snoc s9 (Step.destroy (h := 0) (H := ⟨none, some 0⟩) rfl rfl rfl), ?_⟩
  intro h
  by_cases h0 : h = 0
  · subst h0; rfl
  · simp [upd, h0, pollState]

/-- The polling worker comes to `stop_throw` within one step from anywhere. -/
example (s : Bool) : Polls pollCode 1 s := by
  cases s
  · exact .work (next := fun s => s = true) rfl ⟨_, rfl⟩ (by rintro _ rfl; exact .poll rfl)
  · exact .poll rfl

/-- A state in which `join` is about to return, after which `stop` is undefined. -/
example : ∃ T U, Run pollCode Sys.init [.started 0, .stored 0, .notified 0, .worked 0, .polled 0 true, .ended 0, .main] T ∧ T.pc = .joining 0 0 ∧
    Step pollCode T (.joined 0) U ∧ Faults pollCode U .ub := by
  have s4 := Run.snoc pollState_run (Step.stop (h := 0) (w := 0) (H := ⟨some 0, some 0⟩) rfl rfl rfl (by intro h; cases h))
  have s5 := Run.snoc s4 (Step.notify (w := 0) rfl (by intro h; cases h))
  have s6 := Run.snoc s5 (Step.work (w := 0) (s := false) (s' := true) rfl rfl rfl)
  have s7 := Run.snoc s6 (Step.interrupt (w := 0) (s := true) (s' := false) rfl rfl rfl)
  have s8 := Run.snoc s7 (Step.leave (w := 0) rfl)
  have s9 := Run.snoc s8 (Step.join (h := 0) (w := 0) (H := ⟨some 0, some 0⟩) rfl rfl rfl)
  have key : ∀ (l : List Ev) (S : Sys Bool), Run pollCode Sys.init l S → S.pc = .joining 0 0 → S.ws 0 = .ended → S.hs 0 = some ⟨some 0, some 0⟩ →
      ∃ U, Step pollCode S (.joined 0) U ∧ Faults pollCode U .ub :=
    fun _ S hr h1 h2 h3 => ⟨_, .joined h1 h2 h3, c75_stop_after_join hr h1 (.joined h1 h2 h3)⟩
  obtain ⟨U, h1, h2⟩ := key _ _ s9 rfl rfl rfl
  exact ⟨_, U, s9, rfl, h1, h2⟩

/-- Detached before it is stopped: the handle can be destroyed and the thread runs on. -/
example : ∃ T, Run pollCode Sys.init [.started 0, .detached 0, .main] T ∧ T.ws 0 = .run false :=
  ⟨_, Run.snoc (Run.snoc pollState_run (Step.detach (h := 0) (w := 0) (H := ⟨some 0, some 0⟩) rfl rfl rfl)) (Step.destroy (h := 0) (H := ⟨none, some 0⟩) rfl rfl rfl), rfl⟩

/-- Asleep after a lost notification, stopped again. -/
example : ∃ S T, Run serverCode recordState [.worked 0, .tested 0 false, .stored 0, .notified 0, .slept 0] S ∧ S.ws 0 = .asleep .waiting ∧
    Run serverCode S [.stored 0, .notified 0, .tested 0 true] T ∧ T.ws 0 = .run .shutdown := by
  have s1 := Run.one (Step.work (code := serverCode) (S := recordState) (w := 0) (s := .setup) (s' := .waiting) rfl rfl rfl)
  have s2 := Run.snoc s1 (Step.test (w := 0) (s := .waiting) (s' := .shutdown) rfl rfl rfl)
  have s3 := Run.snoc s2 (Step.stop (h := 0) (w := 0) (H := ⟨some 0, some 0⟩) rfl rfl rfl (by intro h; cases h))
  have s4 := Run.snoc s3 (Step.notify (w := 0) rfl (by intro h; cases h))
  have s5 := Run.snoc s4 (Step.sleep (w := 0) (s := .waiting) rfl)
  have key : ∀ (l : List Ev) (S : Sys Server), Run serverCode recordState l S → S.pc = .idle → S.ws 0 = .asleep .waiting → S.hs 0 = some ⟨some 0, some 0⟩ →
      ∃ T, Run serverCode S [.stored 0, .notified 0, .tested 0 true] T ∧ T.ws 0 = .run .shutdown :=
    fun _ S _ h1 h2 h3 => c75_stop_again h1 h3 rfl h2 rfl
  obtain ⟨T, h1, h2⟩ := key _ _ s5 rfl rfl rfl
  exact ⟨_, T, s5, rfl, h1, h2⟩

/-- Two handles, one of them holding a thread: assigning to it would terminate. -/
example : ∃ T, Run pollCode Sys.init [.started 0, .main] T ∧ Faults pollCode T .terminate := by
  have s1 := Run.snoc pollState_run (Step.mk (h := 1) rfl rfl)
  exact ⟨_, s1, c75_terminate_iff.mpr (Or.inr ⟨rfl, 0, 1, _, _, 0, by decide, rfl, rfl, rfl⟩)⟩

end Verif.Props
