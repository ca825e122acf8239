import Verif.Lemmas.Rpc
import Verif.Spec.Notify
/-!
# C83: subscriptions run until they are ended, and how they end
-/
namespace Verif.Props
open Verif.Spec Verif.Notify Verif.Rpc

variable {T : Type} {key : T → List Char}

/-! ### One step -/

theorem hub_const {s t : Hub T} {a : Event T} {k : Nat} (h : Step key s a t) (hk : s.place k ≠ .idle) :
    t.client k = s.client k ∧ t.edge k = s.edge k ∧ t.place k ≠ .idle := by
  have put : ∀ (j : Nat) (p : Place), p ≠ .idle → (s.put j p).place k ≠ .idle := by
    intro j p hp
    simp only [Hub.put]
    split
    · exact hp
    · exact hk
  have wk : ∀ w, (s.wake w).client k = s.client k ∧ (s.wake w).edge k = s.edge k ∧ (s.wake w).place k ≠ .idle := by
    intro w
    cases w with
    | none => exact ⟨rfl, rfl, hk⟩
    | some j => exact ⟨rfl, rfl, put j _ (by simp)⟩
  cases h with
  | @subscribe j c e hj =>
    have : k ≠ j := fun h => hk (h ▸ hj)
    simp [Hub.enrol, this, hk]
  | go => exact ⟨rfl, rfl, put _ _ (by simp)⟩
  | leave => exact ⟨rfl, rfl, put _ _ (by simp)⟩
  | write => exact ⟨rfl, rfl, put _ _ (by simp)⟩
  | sleep => exact ⟨rfl, rfl, put _ _ (by simp)⟩
  | @add _ w => exact wk _
  | endSub => exact ⟨rfl, rfl, hk⟩
  | clear => exact ⟨rfl, rfl, hk⟩
  | escape => exact wk _
  | spurious => exact ⟨rfl, rfl, put _ _ (by simp)⟩

theorem steps_ind {P : Hub T → Prop} {Q : Event T → Prop} (hP : ∀ s a t, P s → Q a → Step key s a t → P t) {s t : Hub T} {as : List (Event T)}
    (h : Steps key s as t) (h0 : P s) (hQ : ∀ a ∈ as, Q a) : P t := by
  induction h with
  | nil => exact h0
  | cons h1 _ ih => exact ih (hP _ _ _ h0 (hQ _ (by simp)) h1) (fun a ha => hQ a (by simp [ha]))

/-! ### Running -/

/-- A stream goes on as long as nobody ends the subscription of its client. -/
theorem c83_runs {s t : Hub T} {as : List (Event T)} {k : Nat} (h : Steps key s as t) (h1 : s.place k ≠ .idle) (h2 : s.place k ≠ .ended)
    (h3 : s.subs (s.client k) = true) (hn : ∀ a ∈ as, ¬ Ends (s.client k) a) : t.place k ≠ .ended ∧ t.subs (s.client k) = true := by
  have := steps_ind (P := fun t => t.place k ≠ .idle ∧ t.client k = s.client k ∧ t.place k ≠ .ended ∧ t.subs (s.client k) = true) (Q := fun a => ¬ Ends (s.client k) a)
    (by
      intro x a y ⟨i1, i2, i3, i4⟩ hq st
      obtain ⟨c1, _, c3⟩ := hub_const st i1
      refine ⟨c3, c1.trans i2, ?_⟩
      have put : ∀ (j : Nat) (p : Place), p ≠ .ended → (x.put j p).place k ≠ .ended := by
        intro j p hp
        simp only [Hub.put]
        split
        · exact hp
        · exact i3
      have wk : ∀ w, (x.wake w).place k ≠ .ended := by
        intro w
        cases w with
        | none => exact i3
        | some j => exact put j _ (by simp)
      have wks : ∀ w, (x.wake w).subs = x.subs := by intro w; cases w <;> rfl
      cases st with
      | @subscribe j c e hj =>
        have : k ≠ j := fun h => i1 (h ▸ hj)
        simp only [Hub.enrol, this, if_false]
        exact ⟨i3, by split <;> simp_all⟩
      | go => exact ⟨put _ _ (by simp), i4⟩
      | @leave j hj hs =>
        refine ⟨?_, i4⟩
        by_cases c : k = j
        · subst c; rw [i2, i4] at hs; cases hs
        · simpa [Hub.put, c] using i3
      | write => exact ⟨put _ _ (by simp), i4⟩
      | sleep => exact ⟨put _ _ (by simp), i4⟩
      | add => exact ⟨wk _, by show (x.wake _).subs _ = true; rw [wks]; exact i4⟩
      | @endSub c =>
        refine ⟨i3, ?_⟩
        have : ¬ s.client k = c := fun h => hq h.symm
        simpa [this] using i4
      | clear => exact absurd trivial hq
      | escape => exact ⟨wk _, by rw [wks]; exact i4⟩
      | spurious => exact ⟨put _ _ (by simp), i4⟩) h ⟨h1, rfl, h2, h3⟩ hn
  exact this.2.2

/-! ### Ending -/

theorem sent_out {k : Nat} {c c' : Chan T} (h : c'.out = c.out) : sentTo k c' = sentTo k c := by rw [sentTo, h]; rfl

theorem feed_written {k : Nat} {c c' : Chan T} {ms : List T} (e : c.feed key ms = .ok c') : sentTo k c' = sentTo k c := by
  obtain ⟨x, _, h2⟩ := Outcome.bind_eq_ok.1 e
  injection h2 with h2; subst h2; rfl

theorem get_written {k j : Nat} {c c' : Chan T} (e : c.get j = .ok c') : sentTo k c' = sentTo k c ∨ (k = j ∧ ∃ m, sentTo k c' = sentTo k c ++ [m]) := by
  obtain ⟨x, h1, h2⟩ := Outcome.bind_eq_ok.1 e
  injection h2 with h2; subst h2
  rw [sent_get]
  by_cases c : k = j
  · obtain ⟨i, o⟩ := x
    cases o with
    | none => exact .inl (by simp)
    | some m => exact .inr ⟨c, m, by simp [c]⟩
  · exact .inl (by simp [c])

/-- What a step does to the messages of a stream. -/
theorem step_written {s t : Hub T} {a : Event T} {k : Nat} (h : Step key s a t) (hk : s.place k ≠ .idle) :
    written t k = written s k ∨ (s.place k = .read ∧ t.place k ≠ .read ∧ ∃ m, written t k = written s k ++ [m]) := by
  obtain ⟨_, he, _⟩ := hub_const h hk
  simp only [written, he]
  have wkc : ∀ w, (s.wake w).chan = s.chan := by intro w; cases w <;> rfl
  cases h with
  | subscribe => exact .inl rfl
  | go => exact .inl rfl
  | leave => exact .inl rfl
  | @write j c hj hg _ =>
    simp only [Hub.give]
    split
    · rename_i hej
      rcases get_written (k := k) hg with h | ⟨rfl, m, h⟩
      · left; rw [h, hej]
      · exact .inr ⟨hj, by simp [Hub.put], m, by rw [h, hej]⟩
    · exact .inl rfl
  | @sleep j c hj hg ho =>
    simp only [Hub.give]
    split
    · rename_i hej
      left; rw [sent_out ho, hej]
    · exact .inl rfl
  | @add e m w c hf _ =>
    simp only [Hub.give]
    split
    · rename_i hej
      left; rw [feed_written hf, hej]
    · left; rw [wkc]
  | endSub => exact .inl rfl
  | clear => exact .inl rfl
  | escape => left; rw [wkc]
  | spurious => exact .inl rfl

theorem subs_stays {s t : Hub T} {a : Event T} {c : Nat} (h : Step key s a t) (h0 : s.subs c = false) (hn : ¬ Subscribes c a) : t.subs c = false := by
  have wks : ∀ w, (s.wake w).subs = s.subs := by intro w; cases w <;> rfl
  cases h with
  | @subscribe j d e hj =>
    have : ¬ c = d := fun h => hn h.symm
    simpa [Hub.enrol, this] using h0
  | go => exact h0
  | leave => exact h0
  | write => exact h0
  | sleep => exact h0
  | add => show (s.wake _).subs c = false; rw [wks]; exact h0
  | endSub => simp [h0]
  | clear => rfl
  | escape => rw [wks]; exact h0
  | spurious => exact h0

/-- A stream whose client is not subscribed does not come to read again. -/
theorem no_read {s t : Hub T} {a : Event T} {k : Nat} (h : Step key s a t) (hk : s.place k ≠ .idle) (h0 : s.subs (s.client k) = false)
    (ht : t.place k = .read) : s.place k = .read ∧ written t k = written s k := by
  have main : s.place k = .read := by
    have put : ∀ (j : Nat) (p : Place), p ≠ .read → (s.put j p).place k = .read → s.place k = .read := by
      intro j p hp h
      simp only [Hub.put] at h
      split at h
      · exact absurd h hp
      · exact h
    have wk : ∀ w, (s.wake w).place k = .read → s.place k = .read := by
      intro w h
      cases w with
      | none => exact h
      | some j => exact put j _ (by simp) h
    cases h with
    | @subscribe j c e hj =>
      have : k ≠ j := fun h => hk (h ▸ hj)
      simpa [Hub.enrol, this] using ht
    | @go j hj hs =>
      by_cases c : k = j
      · subst c; rw [h0] at hs; cases hs
      · simpa [Hub.put, c] using ht
    | leave => exact put _ _ (by simp) ht
    | write => exact put _ _ (by simp) ht
    | sleep => exact put _ _ (by simp) ht
    | add => exact wk _ ht
    | endSub => exact ht
    | clear => exact ht
    | escape => exact wk _ ht
    | spurious => exact put _ _ (by simp) ht
  refine ⟨main, ?_⟩
  rcases step_written h hk with h | ⟨_, h, _⟩
  · exact h
  · exact absurd ht h

/-- Once the client's subscription has been ended, and unless it subscribes again, a stream of the client is written at most
one more message, and that only if it was about to read. -/
theorem c83_last {s t : Hub T} {as : List (Event T)} {k : Nat} (h : Steps key s as t) (h1 : s.place k ≠ .idle)
    (h2 : s.subs (s.client k) = false) (hn : ∀ a ∈ as, ¬ Subscribes (s.client k) a) :
    written t k = written s k ∨ (s.place k = .read ∧ ∃ m, written t k = written s k ++ [m]) := by
  have := steps_ind (Q := fun a => ¬ Subscribes (s.client k) a)
    (P := fun t => t.place k ≠ .idle ∧ t.client k = s.client k ∧ t.subs (s.client k) = false ∧ (t.place k = .read → s.place k = .read ∧ written t k = written s k) ∧
      (written t k = written s k ∨ (s.place k = .read ∧ ∃ m, written t k = written s k ++ [m])))
    (by
      intro x a y ⟨i1, i2, i3, i4, i5⟩ hq st
      obtain ⟨c1, _, c3⟩ := hub_const st i1
      refine ⟨c3, c1.trans i2, subs_stays st i3 hq, fun hy => ?_, ?_⟩
      · obtain ⟨g1, g2⟩ := no_read st i1 (by rw [i2]; exact i3) hy
        obtain ⟨g3, g4⟩ := i4 g1
        exact ⟨g3, g2.trans g4⟩
      · rcases step_written st i1 with g | ⟨g1, g2, m, g3⟩
        · rw [g]; exact i5
        · obtain ⟨g4, g5⟩ := i4 g1
          exact .inr ⟨g4, m, by rw [g3, g5]⟩) h ⟨h1, rfl, h2, fun h => ⟨h, rfl⟩, .inl rfl⟩ hn
  exact this.2.2.2.2

/-- How many steps a stream has left when its client is no longer subscribed. -/
def rank : Place → Nat
  | .idle => 0
  | .test => 1
  | .read => 2
  | .wait => 1
  | .ended => 0

theorem rank_step {s t : Hub T} {a : Event T} {k : Nat} (h : Step key s a t) (hk : s.place k ≠ .idle) (h0 : s.subs (s.client k) = false) :
    rank (t.place k) + (if ownStep k a then 1 else 0) ≤ rank (s.place k) := by
  have wk : ∀ e w, Wakes s e w → rank ((s.wake w).place k) ≤ rank (s.place k) := by
    intro e w hw
    cases w with
    | none => exact Nat.le_refl _
    | some j =>
      simp only [Hub.wake, Hub.put]
      split
      · rename_i c; subst c; rw [hw.1]; simp [rank]
      · exact Nat.le_refl _
  cases h with
  | @subscribe j c e hj =>
    have : k ≠ j := fun h => hk (h ▸ hj)
    simp [Hub.enrol, this, ownStep]
  | @go j hj hs =>
    by_cases c : k = j
    · subst c; rw [h0] at hs; cases hs
    · have : ¬ j = k := fun h => c h.symm
      simp [Hub.put, c, ownStep, this]
  | @leave j hj hs =>
    by_cases c : k = j
    · subst c; simp [Hub.put, ownStep, hj, rank]
    · have : ¬ j = k := fun h => c h.symm
      simp [Hub.put, c, ownStep, this]
  | @write j _ hj _ _ =>
    by_cases c : k = j
    · subst c; simp [Hub.put, Hub.give, ownStep, hj, rank]
    · have : ¬ j = k := fun h => c h.symm
      simp [Hub.put, Hub.give, c, ownStep, this]
  | @sleep j _ hj _ _ =>
    by_cases c : k = j
    · subst c; simp [Hub.put, Hub.give, ownStep, hj, rank]
    · have : ¬ j = k := fun h => c h.symm
      simp [Hub.put, Hub.give, c, ownStep, this]
  | add _ hw => simpa [ownStep, Hub.give] using wk _ _ hw
  | endSub => simp [ownStep]
  | clear => simp [ownStep]
  | escape hw => simpa [ownStep] using wk _ _ hw
  | @spurious j hj =>
    by_cases c : k = j
    · subst c; simp [Hub.put, ownStep, hj, rank]
    · simp [Hub.put, c, ownStep]

/-- Once its client's subscription has been ended, a stream takes at most two steps of its own. -/
theorem c83_two_steps {s t : Hub T} {as : List (Event T)} {k : Nat} (h : Steps key s as t) (h1 : s.place k ≠ .idle)
    (h2 : s.subs (s.client k) = false) (hn : ∀ a ∈ as, ¬ Subscribes (s.client k) a) : (as.filter (ownStep k)).length ≤ 2 := by
  have : (as.filter (ownStep k)).length + rank (t.place k) ≤ rank (s.place k) := by
    induction h with
    | nil => simp
    | @cons s t r a as st _ ih =>
      obtain ⟨c1, _, c3⟩ := hub_const st h1
      have hs := subs_stays st h2 (hn a (by simp))
      have := ih c3 (by rw [c1]; exact hs) (fun b hb => by rw [c1]; exact hn b (by simp [hb]))
      have hr := rank_step st h1 h2
      rw [List.filter_cons]
      split
      · rename_i ho; rw [ho] at hr; simp only [if_true, List.length_cons] at hr ⊢; omega
      · rename_i ho; simp only [ho] at hr; simp at hr; omega
  have hr : rank (s.place k) ≤ 2 := by cases s.place k <;> simp [rank]
  omega

/-- A stream that is neither ended nor waiting can take a step, unless its reading crashes. -/
theorem c83_moves {s : Hub T} {k : Nat} (h1 : s.place k ≠ .idle) (h2 : s.place k ≠ .ended) (h3 : s.place k ≠ .wait)
    (h4 : ∃ c, (s.chan (s.edge k)).get k = .ok c) : ∃ a t, Step key s a t ∧ ownStep k a = true := by
  cases hp : s.place k with
  | idle => exact absurd hp h1
  | ended => exact absurd hp h2
  | wait => exact absurd hp h3
  | test =>
    cases hs : s.subs (s.client k) with
    | true => exact ⟨.test k, _, .go hp hs, by simp [ownStep]⟩
    | false => exact ⟨.test k, _, .leave hp hs, by simp [ownStep]⟩
  | read =>
    obtain ⟨c, hc⟩ := h4
    by_cases ho : c.out = (s.chan (s.edge k)).out
    · exact ⟨.read k, _, .sleep hp hc ho, by simp [ownStep]⟩
    · exact ⟨.read k, _, .write hp hc ho, by simp [ownStep]⟩

/-! ### Waiting -/

/-- A waiting stream waits until something is added to its cache, `escape_wait` is called on it, or it wakes for no reason:
neither `EndSubscription` nor the clearing of all subscriptions ends its wait. -/
theorem c83_asleep {s t : Hub T} {as : List (Event T)} {k : Nat} (h : Steps key s as t) (h1 : s.place k = .wait)
    (hn : ∀ a ∈ as, ¬ Rouses s k a) : t.place k = .wait := by
  have := steps_ind (Q := fun a => ¬ Rouses s k a) (P := fun t => t.place k = .wait ∧ t.edge k = s.edge k)
    (by
      intro x a y ⟨i1, i2⟩ hq st
      obtain ⟨_, c2, _⟩ := hub_const st (by rw [i1]; simp)
      refine ⟨?_, c2.trans i2⟩
      have put : ∀ (j : Nat) (p : Place), x.place j ≠ .wait → (x.put j p).place k = .wait := by
        intro j p hp
        have : ¬ k = j := fun h => hp (h ▸ i1)
        simp [Hub.put, this, i1]
      have wk : ∀ e w, Wakes x e w → ¬ e = x.edge k → (x.wake w).place k = .wait := by
        intro e w hw he
        cases w with
        | none => exact i1
        | some j =>
          have : ¬ k = j := fun h => he (h ▸ hw.2.symm)
          simp [Hub.wake, Hub.put, this, i1]
      cases st with
      | @subscribe j c e hj =>
        have : ¬ k = j := fun h => by rw [h, hj] at i1; cases i1
        simp [Hub.enrol, this, i1]
      | go hj _ => exact put _ _ (by rw [hj]; simp)
      | leave hj _ => exact put _ _ (by rw [hj]; simp)
      | write hj _ _ => exact put _ _ (by rw [hj]; simp)
      | sleep hj _ _ => exact put _ _ (by rw [hj]; simp)
      | add _ hw => exact wk _ _ hw (by rw [i2]; exact hq)
      | endSub => exact i1
      | clear => exact i1
      | escape hw => exact wk _ _ hw (by rw [i2]; exact hq)
      | @spurious j hj =>
        have : ¬ k = j := fun h => hq h.symm
        simp [Hub.put, this, i1]) h ⟨h1, rfl⟩ hn
  exact this.1

/-! ### Shutting down -/

theorem steps_split {s t : Hub T} {as bs : List (Event T)} (h : Steps key s (as ++ bs) t) : ∃ r, Steps key s as r ∧ Steps key r bs t := by
  induction as generalizing s with
  | nil => exact ⟨s, .nil, h⟩
  | cons a as ih =>
    cases h with
    | cons h1 h2 =>
      obtain ⟨r, g1, g2⟩ := ih h2
      exact ⟨r, .cons h1 g1, g2⟩

/-- `clear_subscriptions`, gui_notifier.cpp:73-78. -/
def shut (v w : Option Nat) : List (Event T) := [.clear, .escape false v, .escape true w]

theorem wake_place {s : Hub T} {e : Bool} {w : Option Nat} (hw : Wakes s e w) (k : Nat) :
    (s.wake w).place k = s.place k ∨ (w = some k ∧ s.place k = .wait ∧ s.edge k = e ∧ (s.wake w).place k = .test) := by
  cases w with
  | none => exact .inl rfl
  | some j =>
    by_cases c : k = j
    · subst c; exact .inr ⟨rfl, hw.1, hw.2, by simp [Hub.wake, Hub.put]⟩
    · left; simp [Hub.wake, Hub.put, c]

theorem wake_edge (s : Hub T) (w : Option Nat) : (s.wake w).edge = s.edge := by cases w <;> rfl
theorem wake_subs (s : Hub T) (w : Option Nat) : (s.wake w).subs = s.subs := by cases w <;> rfl
theorem wake_chan (s : Hub T) (w : Option Nat) : (s.wake w).chan = s.chan := by cases w <;> rfl

/-- What shutting down leaves. -/
theorem shut_spec {s t : Hub T} {v w : Option Nat} (h : Steps key s (shut v w) t) :
    ∃ r, Wakes s false v ∧ r = { s.wake v with subs := fun _ => false } ∧ Wakes r true w ∧ t = r.wake w := by
  cases h with | cons h1 h => cases h with | cons h2 h => cases h with | cons h3 h => cases h with | nil =>
  cases h1; cases h2; cases h3
  rename_i hv hw
  cases v with
  | none => exact ⟨_, hv, rfl, hw, rfl⟩
  | some j => exact ⟨_, hv, rfl, hw, rfl⟩

/-- If at most one stream waits on each cache and none is about to read, then clearing the subscriptions wakes all that wait;
and unless there are new subscriptions every stream is from then on about to leave, or has ended. -/
theorem c83_shutdown {s t : Hub T} {v w : Option Nat} {as : List (Event T)} (h : Steps key s (shut v w ++ as) t)
    (h1 : ∀ j k, s.place j = .wait → s.place k = .wait → s.edge j = s.edge k → j = k) (h2 : ∀ k, s.place k ≠ .read)
    (hn : ∀ c, ∀ a ∈ as, ¬ Subscribes c a) (k : Nat) (hk : s.place k ≠ .idle) : t.place k = .test ∨ t.place k = .ended := by
  obtain ⟨r, g1, g2⟩ := steps_split h
  obtain ⟨r', e1, e2, e3, e4⟩ := shut_spec g1
  have hr : (r.place k = .test ∨ r.place k = .ended) ∧ r.subs = fun _ => false := by
    subst e4
    refine ⟨?_, by rw [wake_subs, e2]⟩
    have p1 := wake_place e1 k
    have p2 := wake_place e3 k
    have e2p : r'.place k = (s.wake v).place k := by rw [e2]
    have e2e : r'.edge = s.edge := by rw [e2]; exact wake_edge s v
    cases hp : s.place k with
    | idle => exact absurd hp hk
    | read => exact absurd hp (h2 k)
    | test =>
      rcases p1 with p1 | ⟨_, p1, _⟩
      · rcases p2 with p2 | ⟨_, _, _, p2⟩
        · left; rw [p2, e2p, p1, hp]
        · exact .inl p2
      · rw [hp] at p1; cases p1
    | ended =>
      rcases p1 with p1 | ⟨_, p1, _⟩
      · rcases p2 with p2 | ⟨_, _, _, p2⟩
        · right; rw [p2, e2p, p1, hp]
        · exact .inl p2
      · rw [hp] at p1; cases p1
    | wait =>
      left
      rcases p1 with p1 | ⟨_, _, _, p1⟩
      · rcases p2 with p2 | ⟨_, _, _, p2⟩
        · exfalso
          cases he : s.edge k with
          | false =>
            cases v with
            | none => exact e1 k hp he
            | some j =>
              have := h1 j k e1.1 hp (by rw [e1.2, he])
              subst this
              simp [Hub.wake, Hub.put, hp] at p1
          | true =>
            have hw : r'.place k = .wait := by rw [e2p, p1, hp]
            cases w with
            | none => exact e3 k hw (by rw [e2e, he])
            | some j =>
              have hj : s.place j = .wait := by
                have := e3.1
                rw [e2] at this
                rcases wake_place e1 j with q | ⟨_, q, _⟩
                · rw [← q]; exact this
                · exact q
              have := h1 j k hj hp (by rw [← e2e, e3.2, e2e, he])
              subst this
              simp [Hub.wake, Hub.put, hw] at p2
        · exact p2
      · rcases p2 with p2 | ⟨_, _, _, p2⟩
        · rw [p2, e2p, p1]
        · exact p2
  have := steps_ind (Q := fun a => ∀ c, ¬ Subscribes c a) (P := fun t => (t.place k = .test ∨ t.place k = .ended) ∧ t.subs = fun _ => false)
    (by
      intro x a y ⟨i1, i2⟩ hq st
      have hid : x.place k ≠ .idle := by rcases i1 with i | i <;> simp [i]
      have hsub : ∀ c, y.subs c = false := fun c => subs_stays st (by rw [i2]) (hq c)
      refine ⟨?_, funext hsub⟩
      have hrk := rank_step st hid (by rw [i2])
      have hrd : y.place k ≠ .read := fun hy => by
        have := (no_read st hid (by rw [i2]) hy).1
        rcases i1 with i | i <;> simp [i] at this
      have hwt : y.place k ≠ .wait := by
        intro hy
        have put : ∀ (j : Nat) (p : Place), p ≠ .wait → (x.put j p).place k ≠ .wait := by
          intro j p hp
          simp only [Hub.put]
          split
          · exact hp
          · rcases i1 with i | i <;> simp [i]
        cases st with
        | subscribe => exact hq _ rfl
        | go => exact put _ _ (by simp) hy
        | leave => exact put _ _ (by simp) hy
        | write => exact put _ _ (by simp) hy
        | @sleep j _ hj _ _ =>
          have : k ≠ j := fun c => by subst c; rcases i1 with i | i <;> simp [i] at hj
          simp [Hub.give, Hub.put, this] at hy
          rcases i1 with i | i <;> simp [i] at hy
        | @add _ _ w _ _ hw =>
          have : (x.wake w).place k = .wait := hy
          rcases wake_place hw k with q | ⟨_, _, _, q⟩
          · rw [q] at this; rcases i1 with i | i <;> simp [i] at this
          · rw [q] at this; cases this
        | endSub => have hy : x.place k = .wait := hy; rcases i1 with i | i <;> simp [i] at hy
        | clear => have hy : x.place k = .wait := hy; rcases i1 with i | i <;> simp [i] at hy
        | @escape _ w hw =>
          rcases wake_place hw k with q | ⟨_, _, _, q⟩
          · rw [q] at hy; rcases i1 with i | i <;> simp [i] at hy
          · rw [q] at hy; cases hy
        | spurious => exact put _ _ (by simp) hy
      have hidy := (hub_const st hid).2.2
      cases hy : y.place k with
      | idle => exact absurd hy hidy
      | test => exact .inl rfl
      | read => exact absurd hy hrd
      | wait => exact absurd hy hwt
      | ended => exact .inr rfl) g2 hr (fun a ha c => hn c a ha)
  exact this.1

/-- Negative: if two streams wait on one cache when the server is shut down, one of them goes on waiting, until something is
added to the cache. -/
theorem c83_hangs {s t : Hub T} {v w : Option Nat} {as : List (Event T)} (h : Steps key s (shut v w ++ as) t) {j k : Nat} (hjk : j ≠ k)
    (hj : s.place j = .wait) (hk : s.place k = .wait) (he : s.edge j = s.edge k) (hn : ∀ a ∈ as, ¬ Rouses s j a ∧ ¬ Rouses s k a) :
    t.place j = .wait ∨ t.place k = .wait := by
  obtain ⟨r, g1, g2⟩ := steps_split h
  obtain ⟨r', e1, e2, e3, e4⟩ := shut_spec g1
  have e2e : r'.edge = s.edge := by rw [e2]; exact wake_edge s v
  have e4e : r.edge = s.edge := by rw [e4, wake_edge]; exact e2e
  have stay : ∀ i, s.place i = .wait → v ≠ some i → w ≠ some i → r.place i = .wait := by
    intro i hi hv hw
    rw [e4]
    rcases wake_place e3 i with q | ⟨q, _⟩
    · rw [q, e2]
      show (s.wake v).place i = .wait
      rcases wake_place e1 i with q | ⟨q, _⟩
      · rw [q, hi]
      · exact absurd q hv
    · exact absurd q hw
  have key : r.place j = .wait ∨ r.place k = .wait := by
    cases hed : s.edge j with
    | false =>
      have nw : ∀ i, s.edge i = false → w ≠ some i := by
        rintro i hi rfl
        have := e3.2
        rw [e2e, hi] at this; cases this
      by_cases c : v = some j
      · exact .inr (stay k hk (by rw [c]; simpa using hjk) (nw k (by rw [← he, hed])))
      · exact .inl (stay j hj c (nw j hed))
    | true =>
      have nv : ∀ i, s.edge i = true → v ≠ some i := by
        rintro i hi rfl
        have := e1.2
        rw [hi] at this; cases this
      by_cases c : w = some j
      · exact .inr (stay k hk (nv k (by rw [← he, hed])) (by rw [c]; simpa using hjk))
      · exact .inl (stay j hj (nv j hed) c)
  have rr : ∀ i a, ¬ Rouses s i a → ¬ Rouses r i a := by
    intro i a ha
    cases a <;> simp only [Rouses, e4e] at ha ⊢ <;> exact ha
  rcases key with q | q
  · exact .inl (c83_asleep g2 q fun a ha => rr _ _ (hn a ha).1)
  · exact .inr (c83_asleep g2 q fun a ha => rr _ _ (hn a ha).2)

/-- Negative: a stream that has seen its subscription and finds nothing to read after the server was shut down waits, until
something is added to its cache. -/
theorem c83_late_wait {s t : Hub T} {v w : Option Nat} {as : List (Event T)} {k : Nat} (h : Steps key s (shut v w ++ .read k :: as) t)
    (hk : s.place k = .read) (hc : ∃ c, (s.chan (s.edge k)).get k = .ok c ∧ c.out = (s.chan (s.edge k)).out) (hn : ∀ a ∈ as, ¬ Rouses s k a) :
    t.place k = .wait := by
  obtain ⟨r, g1, g2⟩ := steps_split h
  obtain ⟨r', e1, e2, e3, e4⟩ := shut_spec g1
  have e2e : r'.edge = s.edge := by rw [e2]; exact wake_edge s v
  have e4e : r.edge = s.edge := by rw [e4, wake_edge]; exact e2e
  have e4c : r.chan = s.chan := by rw [e4, wake_chan, e2]; exact wake_chan s v
  obtain ⟨c, hc, ho⟩ := hc
  cases g2 with
  | @cons _ q _ _ _ st g3 =>
    have hq : q.place k = .wait ∧ q.edge = s.edge := by
      cases st with
      | write _ h2 h3 =>
        rw [e4e, e4c, hc] at h2; injection h2 with h2; subst h2
        rw [e4e, e4c] at h3; exact absurd ho h3
      | sleep _ _ _ => exact ⟨by simp [Hub.give, Hub.put], e4e⟩
    refine c83_asleep g3 hq.1 fun a ha => ?_
    have := hn a ha
    cases a <;> simp only [Rouses, hq.2] at this ⊢ <;> exact this

/-- Negative: a client that subscribes after the subscriptions have been cleared is served for ever. -/
theorem c83_late_client {s t : Hub T} {v w : Option Nat} {as : List (Event T)} {k c : Nat} {e : Bool}
    (h : Steps key s (shut v w ++ .subscribe k c e :: as) t) (hn : ∀ a ∈ as, ¬ Ends c a) : t.place k ≠ .ended := by
  obtain ⟨r, _, g2⟩ := steps_split h
  cases g2 with
  | @cons _ q _ _ _ st g3 =>
    cases st with
    | subscribe hk =>
      refine (c83_runs (k := k) g3 (by simp [Hub.enrol]) (by simp [Hub.enrol]) (by simp [Hub.enrol]) ?_).1
      simpa [Hub.enrol] using hn

/-! ### Examples -/

/-- Two clients wait on the node cache. -/
theorem ex_waiting : ∃ s : Hub NodeMsg, Steps nodeKey Hub.new [.subscribe 0 5 false, .test 0, .read 0, .subscribe 1 6 false, .test 1, .read 1] s ∧
    s.place 0 = .wait ∧ s.place 1 = .wait ∧ s.edge 0 = s.edge 1 ∧ s.subs (s.client 0) = true :=
  ⟨_, .cons (.subscribe rfl) (.cons (.go rfl rfl) (.cons (.sleep (c := ⟨Cache.Cache.new, fun j => if j = 0 then none else none, []⟩) rfl rfl rfl) (.cons (.subscribe rfl) (.cons (.go rfl rfl)
    (.cons (.sleep (c := ⟨Cache.Cache.new, fun j => if j = 1 then none else if j = 0 then none else none, []⟩) rfl rfl rfl) .nil))))), rfl, rfl, rfl, rfl⟩

/-- One client, a message, the end of the subscription while it is about to read. -/
example : ∃ s t : Hub NodeMsg, Steps nodeKey Hub.new [.subscribe 0 5 false, .test 0, .add false ⟨['a'], true⟩ none, .endSub 5] s ∧
    s.place 0 = .read ∧ s.subs (s.client 0) = false ∧ Steps nodeKey s [.read 0, .test 0] t ∧ written t 0 = [⟨['a'], true⟩] ∧ t.place 0 = .ended := by
  refine ⟨_, _, .cons (.subscribe rfl) (.cons (.go rfl rfl) (.cons (.add rfl ?_) (.cons .endSub .nil))), rfl, rfl,
    .cons (.write rfl rfl ?_) (.cons (.leave rfl rfl) .nil), rfl, rfl⟩
  · intro k hk
    simp only [Hub.put, Hub.enrol] at hk
    split at hk
    · cases hk
    · cases hk
  · simp [Hub.give, Hub.wake, Hub.put, Hub.enrol, Hub.new]

/-- One client waits; the server shuts down; the stream ends. -/
example : ∃ s t : Hub NodeMsg, Steps nodeKey Hub.new [.subscribe 0 5 false, .test 0, .read 0] s ∧ s.place 0 = .wait ∧
    Steps nodeKey s (shut (some 0) none ++ [.test 0]) t ∧ t.place 0 = .ended := by
  refine ⟨_, _, .cons (.subscribe rfl) (.cons (.go rfl rfl) (.cons (.sleep (c := ⟨Cache.Cache.new, fun j => if j = 0 then none else none, []⟩) rfl rfl rfl) .nil)), rfl,
    .cons .clear (.cons (.escape ⟨rfl, rfl⟩) (.cons (.escape ?_) (.cons (.leave rfl rfl) .nil))), rfl⟩
  intro k hk
  simp only [Hub.give, Hub.wake, Hub.put, Hub.enrol] at hk ⊢
  split at hk
  · cases hk
  · cases hk

end Verif.Props
