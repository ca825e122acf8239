import Verif.Spec.Dqn
import Verif.Props.Leaf
import Mathlib.Data.List.Induction
import Mathlib.Tactic.Linarith
import Mathlib.Tactic.FieldSimp
import Mathlib.Tactic.Ring
/-!
# C46, C47, C48, C58: the deep-Q agent
-/
namespace Verif.Props
open Spec Dqn

/-! ### Vocabulary -/

theorem everyNth_snoc {α : Type} (k : Nat) (l : List α) (x : α) :
    everyNth k (l ++ [x]) = everyNth k l ++ if l.length % k = 0 then [x] else [] := by
  unfold everyNth
  rw [List.length_append, List.length_singleton, List.range_succ, List.filterMap_append]
  congr 1
  · apply List.filterMap_congr
    intro i hi
    have := List.mem_range.1 hi
    rw [List.getElem?_append_left this]
  · by_cases h : l.length % k = 0 <;> simp [h]

theorem due_zero (k : Nat) : due k 0 = 0 := by
  unfold due
  rcases Nat.eq_zero_or_pos k with h | h
  · subst h; rfl
  · exact Nat.div_eq_of_lt (by omega)

theorem due_succ {k : Nat} (hk : 0 < k) (n : Nat) : due k (n + 1) = due k n + if n % k = 0 then 1 else 0 := by
  unfold due
  have e1 : n + 1 + k - 1 = n + k := by omega
  rw [e1, Nat.add_div_right _ hk]
  by_cases h : n % k = 0
  · rw [if_pos h]
    obtain ⟨m, rfl⟩ := Nat.dvd_of_mod_eq_zero h
    rw [Nat.mul_div_cancel_left _ hk]
    have : k * m + k - 1 = (k - 1) + k * m := by omega
    rw [this, Nat.add_mul_div_left _ _ hk, Nat.div_eq_of_lt (by omega)]; omega
  · rw [if_neg h]
    have hm := Nat.mod_lt n hk
    have hd := Nat.div_add_mod n k
    generalize n / k = q at *
    generalize n % k = r at *
    subst hd
    have h1 : k * (q + 1) = k * q + k := by rw [Nat.mul_add, Nat.mul_one]
    have : k * q + r + k - 1 = (r - 1) + k * (q + 1) := by omega
    rw [this, Nat.add_mul_div_left _ _ hk, Nat.div_eq_of_lt (by omega)]; omega

theorem everyNth_length {α : Type} {k : Nat} (hk : 0 < k) (l : List α) : (everyNth k l).length = due k l.length := by
  induction l using List.reverseRecOn with
  | nil => simp [everyNth, due_zero]
  | append_singleton l x ih =>
    rw [everyNth_snoc, List.length_append, ih, List.length_append, List.length_singleton, due_succ hk]
    by_cases h : l.length % k = 0 <;> simp [h]

theorem offered_snoc (cs : List Call) (c : Call) : offered (cs ++ [c]) = offered cs ++ offered [c] := by
  induction cs with
  | nil => rfl
  | cons d cs ih => cases d <;> simp [offered, ih]

theorem actions_snoc (cs : List Call) (c : Call) : actions (cs ++ [c]) = actions cs + actions [c] := by
  induction cs with
  | nil => simp [actions]
  | cons d cs ih => cases d <;> simp [actions, ih]; omega

theorem readyTrains_snoc (k cap m b : Nat) (cs : List Call) (c : Call) :
    readyTrains k cap m b (cs ++ [c]) = readyTrains k cap m b cs + readyTrains k cap m (b + (offered cs).length) [c] := by
  induction cs generalizing b with
  | nil => simp [readyTrains, offered]
  | cons d cs ih => 
    cases d with
    | store e =>
      simp only [List.cons_append, readyTrains, offered, ih, List.length_cons]
      rw [Nat.add_assoc, Nat.add_comm 1]
    | train idx =>
      simp only [List.cons_append, readyTrains, offered, ih]; omega
    | action r r' b => simp only [List.cons_append, readyTrains, offered, ih]

theorem legal_snoc (k cap n b : Nat) (cs : List Call) (c : Call) :
    LegalCalls k cap n b (cs ++ [c]) ↔ LegalCalls k cap n b cs ∧ LegalCalls k cap n (b + (offered cs).length) [c] := by
  induction cs generalizing b with
  | nil => simp [LegalCalls, offered]
  | cons d cs ih =>
    cases d <;> simp [LegalCalls, offered, ih, and_assoc]
    have : ∀ x, b + 1 + x = b + (x + 1) := fun x => by omega
    simp [this]

theorem run_snoc {p : Params} {ni no : Nat} {a : Agent} {cs : List Call} {c : Call} :
    run p ni no a (cs ++ [c]) = run p ni no a cs >>= fun x => step p ni no x.1 c >>= fun y => .ok (y.1, x.2 ++ [y.2]) := by
  induction cs generalizing a with
  | nil => simp only [List.nil_append, run, Outcome.ok_bind]
  | cons d cs ih =>
    simp only [List.cons_append, run]
    cases step p ni no a d with
    | ok x =>
      simp only [Outcome.ok_bind, ih]
      cases run p ni no x.1 cs with
      | ok y =>
        simp only [Outcome.ok_bind]
        cases step p ni no y.1 c <;> simp
      | _ => simp
    | _ => simp

/-! ### What the memory holds -/

/-- What a memory of `cap` holds after recording `l` (shown below). -/
def holds (cap : Nat) (l : List Exp) : List Exp :=
  if l.length ≤ cap then l else (l.getLast?.toList ++ (l.take cap).tail).take cap

theorem holds_length (cap : Nat) (l : List Exp) : (holds cap l).length = min cap l.length := by
  unfold holds
  by_cases h : l.length ≤ cap
  · rw [if_pos h]; omega
  · rw [if_neg h]
    have hl : l ≠ [] := by rintro rfl; simp at h
    rw [List.getLast?_eq_getLast_of_ne_nil hl]
    simp; omega

theorem remember_holds (cap : Nat) (l : List Exp) (e : Exp) : remember cap (holds cap l) e = holds cap (l ++ [e]) := by
  unfold remember
  by_cases h : l.length < cap
  · have h1 : holds cap l = l := by simp [holds, h.le]
    rw [h1, if_neg (by simp; omega)]
    rw [holds, if_pos (by simp; omega)]
  · have hlen := holds_length cap l
    rw [if_pos (by simp [hlen]; omega)]
    have hc : ¬ (l ++ [e]).length ≤ cap := by simp; omega
    have hb : backToFront (holds cap l ++ [e]) = ((holds cap l ++ [e]).set 0 e).dropLast := by
      simp [backToFront]
    rw [hb]
    conv_rhs => rw [holds, if_neg hc]
    rw [List.getLast?_append, List.getLast?_singleton]
    rcases Nat.eq_zero_or_pos cap with h0 | h0
    · subst h0
      have : holds 0 l = [] := List.eq_nil_of_length_eq_zero (by simp [hlen])
      simp [this]
    · -- at least one slot
      have ht : (holds cap l).tail = (l.take cap).tail := by
        unfold holds
        by_cases h2 : l.length ≤ cap
        · rw [if_pos h2, List.take_of_length_le h2]
        · rw [if_neg h2]
          have hl : l ≠ [] := by rintro rfl; simp at h2
          rw [List.getLast?_eq_getLast_of_ne_nil hl]
          obtain ⟨c, rfl⟩ : ∃ c, cap = c + 1 := ⟨cap - 1, by omega⟩
          simp only [Option.toList_some, List.singleton_append, List.take_succ_cons, List.tail_cons]
          rw [List.take_of_length_le]; simp
      cases hm : holds cap l with
      | nil => rw [hm] at hlen; simp at hlen; omega
      | cons x xs =>
        rw [hm] at ht
        simp only [List.tail_cons] at ht
        subst ht
        simp only [List.cons_append, List.set_cons_zero, Option.some_or, Option.toList_some, List.nil_append]
        rw [List.take_append_of_le_length (by omega)]
        rw [← List.cons_append, List.dropLast_concat]
        rw [hm] at hlen
        exact (List.take_of_length_le (l := e :: (List.take cap l).tail) (by simp only [List.length_cons] at hlen ⊢; omega)).symm

/-! ### The invariant of every history -/

structure After (p : Params) (cs : List Call) (a : Agent) : Prop where
  pos : offered cs ≠ [] → 0 < p.storeInterval
  calls : a.nStore = (offered cs).length
  mem : a.experiences = holds p.maxExp (everyNth p.storeInterval (offered cs))
  acts : a.actionsExecuted = actions cs
  ready : a.nTrain = readyTrains p.storeInterval p.maxExp p.miniBatch 0 cs
  iter : a.iteration = due p.trainInterval a.nTrain
  enough : 0 < a.nTrain → p.miniBatch ≤ a.experiences.length

theorem memory_size {p : Params} {cs : List Call} {a : Agent} (h : After p cs a) :
    a.experiences.length = min p.maxExp (due p.storeInterval (offered cs).length) := by
  rw [h.mem, holds_length]
  by_cases hz : offered cs = []
  · simp [hz, everyNth, due_zero]
  · rw [everyNth_length (h.pos hz)]

theorem step_after {p : Params} {ni no : Nat} {cs : List Call} {a a' : Agent} {c : Call} {r : Report}
    (h : After p cs a) (hs : step p ni no a c = .ok (a', r)) : After p (cs ++ [c]) a' := by
  have hms := memory_size h
  obtain ⟨i1, i2, i3, i4, i5, i6, i7⟩ := h
  cases c with
  | store e =>
    simp only [step, store] at hs
    by_cases h0 : p.storeInterval = 0
    · simp [h0] at hs
    rw [if_neg h0] at hs
    have hpos : 0 < p.storeInterval := by omega
    have ho : offered (cs ++ [.store e]) = offered cs ++ [e] := by rw [offered_snoc]; rfl
    have hr : readyTrains p.storeInterval p.maxExp p.miniBatch 0 (cs ++ [.store e]) = a.nTrain := by
      rw [readyTrains_snoc, i5]; rfl
    have ha : actions (cs ++ [Call.store e]) = actions cs := by rw [actions_snoc]; rfl
    by_cases hm : a.nStore % p.storeInterval = 0
    · rw [if_pos hm] at hs
      simp only [Outcome.ok_bind, Outcome.ok.injEq, Prod.mk.injEq] at hs
      obtain ⟨rfl, -⟩ := hs
      have hmem : remember p.maxExp a.experiences e = holds p.maxExp (everyNth p.storeInterval (offered (cs ++ [.store e]))) := by
        rw [ho, everyNth_snoc, if_pos (by rw [← i2]; exact hm), i3, remember_holds]
      refine ⟨fun _ => hpos, by simp [ho, i2], hmem, by simp [ha, i4], hr.symm, i6, fun hn => ?_⟩
      show p.miniBatch ≤ (remember p.maxExp a.experiences e).length
      rw [hmem, holds_length, ho, everyNth_snoc, List.length_append]
      have := i7 hn
      rw [i3, holds_length] at this
      omega
    · rw [if_neg hm] at hs
      simp only [Outcome.ok_bind, Outcome.ok.injEq, Prod.mk.injEq] at hs
      obtain ⟨rfl, -⟩ := hs
      refine ⟨fun _ => hpos, by simp [ho, i2], ?_, by simp [ha, i4], hr.symm, i6, i7⟩
      rw [ho, everyNth_snoc, if_neg (by rw [← i2]; exact hm), List.append_nil]; exact i3
  | train idx =>
    simp only [step, train] at hs
    by_cases h0 : p.trainInterval = 0
    · simp [h0] at hs
    rw [if_neg h0] at hs
    have ho : offered (cs ++ [.train idx]) = offered cs := by rw [offered_snoc]; simp [offered]
    have ha : actions (cs ++ [Call.train idx]) = actions cs := by rw [actions_snoc]; rfl
    have hr : readyTrains p.storeInterval p.maxExp p.miniBatch 0 (cs ++ [.train idx]) =
        a.nTrain + if p.miniBatch ≤ a.experiences.length then 1 else 0 := by
      rw [readyTrains_snoc, ← i5, hms]; simp [readyTrains]
    have hd := due_succ (k := p.trainInterval) (by omega) a.nTrain
    by_cases hm : a.nTrain % p.trainInterval = 0
    · rw [if_pos hm] at hs
      by_cases hl : a.experiences.length < p.miniBatch
      · rw [if_pos hl] at hs
        simp only [Outcome.ok_bind, Outcome.ok.injEq, Prod.mk.injEq] at hs
        obtain ⟨rfl, -⟩ := hs
        rw [if_neg (by omega)] at hr
        exact ⟨by rw [ho]; exact i1, by rw [ho]; exact i2, by rw [ho]; exact i3, by rw [ha]; exact i4, by rw [hr]; rfl, i6, i7⟩
      · rw [if_neg hl] at hs
        rw [Outcome.bind_eq_ok] at hs
        obtain ⟨x, hx, hs⟩ := hs
        rw [Outcome.bind_eq_ok] at hx
        obtain ⟨sm, -, hx⟩ := hx
        rw [Outcome.bind_eq_ok] at hx
        obtain ⟨b, -, hx⟩ := hx
        injection hx with hx; subst hx
        injection hs with hs
        simp only [Prod.mk.injEq] at hs
        obtain ⟨rfl, -⟩ := hs
        rw [if_pos (by omega)] at hr
        rw [if_pos hm] at hd
        exact ⟨by rw [ho]; exact i1, by rw [ho]; exact i2, by rw [ho]; exact i3, by rw [ha]; exact i4, hr.symm,
          by show a.iteration + 1 = due _ (a.nTrain + 1); rw [hd, i6], fun _ => by show _ ≤ a.experiences.length; omega⟩
    · rw [if_neg hm] at hs
      simp only [Outcome.ok_bind, Outcome.ok.injEq, Prod.mk.injEq] at hs
      obtain ⟨rfl, -⟩ := hs
      have hn : 0 < a.nTrain := by
        rcases Nat.eq_zero_or_pos a.nTrain with h | h
        · rw [h] at hm; simp at hm
        · exact h
      rw [if_pos (i7 hn)] at hr
      rw [if_neg hm] at hd
      exact ⟨by rw [ho]; exact i1, by rw [ho]; exact i2, by rw [ho]; exact i3, by rw [ha]; exact i4, hr.symm,
        by show a.iteration = due _ (a.nTrain + 1); rw [hd, i6]; rfl, fun _ => i7 hn⟩
  | action r1 r2 best =>
    have ho : offered (cs ++ [.action r1 r2 best]) = offered cs := by rw [offered_snoc]; simp [offered]
    have ha : actions (cs ++ [.action r1 r2 best]) = actions cs + 1 := by rw [actions_snoc]; rfl
    have hr : readyTrains p.storeInterval p.maxExp p.miniBatch 0 (cs ++ [.action r1 r2 best]) = a.nTrain := by
      rw [readyTrains_snoc, i5]; rfl
    have : a' = { a with actionsExecuted := a.actionsExecuted + 1 } := by
      simp only [step, action] at hs
      rw [Outcome.bind_eq_ok] at hs
      obtain ⟨x, hx, hs⟩ := hs
      injection hs with hs
      simp only [Prod.mk.injEq] at hs
      obtain ⟨rfl, -⟩ := hs
      split at hx
      · injection hx with hx; subst hx; rfl
      · rw [Outcome.bind_eq_ok] at hx
        obtain ⟨b, -, hx⟩ := hx
        cases b with
        | nil => simp at hx
        | cons v b => simp only [Outcome.ok.injEq] at hx; subst hx; rfl
    subst this
    exact ⟨by rw [ho]; exact i1, by rw [ho]; exact i2, by rw [ho]; exact i3, by rw [ha]; simp [i4], hr.symm, i6, i7⟩

theorem run_after {p : Params} {ni no : Nat} {cs : List Call} {a : Agent} {rs : List Report}
    (h : run p ni no fresh cs = .ok (a, rs)) : After p cs a := by
  induction cs using List.reverseRecOn generalizing a rs with
  | nil =>
    simp only [run, Outcome.ok.injEq, Prod.mk.injEq] at h
    obtain ⟨rfl, -⟩ := h
    exact ⟨by simp [offered], rfl, by simp [fresh, holds, offered, everyNth], rfl, rfl, by simp [fresh, due_zero], by simp [fresh]⟩
  | append_singleton cs c ih =>
    rw [run_snoc, Outcome.bind_eq_ok] at h
    obtain ⟨x, hx, h⟩ := h
    rw [Outcome.bind_eq_ok] at h
    obtain ⟨y, hy, h⟩ := h
    injection h with h
    simp only [Prod.mk.injEq] at h
    obtain ⟨rfl, -⟩ := h
    exact step_after (ih hx) hy

/-! ### C46 -/

/-- **C46.** After any history of calls the memory holds as many experiences as there were recorded ones
(numbers 0, k, 2k, ... of those offered), but never more than its capacity; and until that is reached it is
exactly the recorded ones in order. -/
theorem c46_memory (p : Params) (ni no : Nat) (cs : List Call) (a : Agent) (rs : List Report)
    (h : run p ni no fresh cs = .ok (a, rs)) :
    a.experiences.length = min p.maxExp (due p.storeInterval (offered cs).length) ∧
    (due p.storeInterval (offered cs).length ≤ p.maxExp → a.experiences = everyNth p.storeInterval (offered cs)) := by
  have hi := run_after h
  refine ⟨memory_size hi, fun hle => ?_⟩
  by_cases hz : offered cs = []
  · rw [hi.mem, hz]; simp [everyNth, holds]
  · rw [hi.mem, holds, if_pos]
    rwa [everyNth_length (hi.pos hz)]

/-- What `everyNth` means: its `j`-th entry is entry `j * k`. -/
theorem c46_every_nth {α : Type} (k : Nat) (hk : 0 < k) (l : List α) (j : Nat) : (everyNth k l)[j]? = l[j * k]? := by
  induction l using List.reverseRecOn with
  | nil => simp [everyNth]
  | append_singleton l x ih =>
    rw [everyNth_snoc]
    have hlen := everyNth_length hk l
    have hd : due k l.length * k < l.length + k ∧ l.length ≤ due k l.length * k := by
      unfold due
      have h1 := Nat.div_mul_le_self (l.length + k - 1) k
      have h2 := Nat.lt_div_mul_add hk (a := l.length + k - 1)
      omega
    by_cases hj : j < (everyNth k l).length
    · rw [List.getElem?_append_left hj, ih]
      have : j * k < l.length := by
        have h3 : (j + 1) * k ≤ due k l.length * k := Nat.mul_le_mul_right k (by omega)
        rw [Nat.succ_mul] at h3
        omega
      rw [List.getElem?_append_left this]
    · rw [List.getElem?_append_right (by omega)]
      have hjk : l.length ≤ j * k := by
        have : due k l.length * k ≤ j * k := Nat.mul_le_mul_right k (by omega)
        omega
      rw [List.getElem?_append_right hjk]
      by_cases hm : l.length % k = 0
      · rw [if_pos hm]
        have he : due k l.length * k = l.length := by
          obtain ⟨m, hm'⟩ := Nat.dvd_of_mod_eq_zero hm
          unfold due
          rw [hm']
          have : k * m + k - 1 = (k - 1) + k * m := by omega
          rw [this, Nat.add_mul_div_left _ _ hk, Nat.div_eq_of_lt (by omega), Nat.zero_add, Nat.mul_comm]
        rw [hlen]
        rcases Nat.eq_or_lt_of_le (Nat.not_lt.1 hj) with heq | hlt
        · rw [← heq, hlen, he]; simp
        · rw [hlen] at hlt
          have h3 : (due k l.length + 1) * k ≤ j * k := Nat.mul_le_mul_right k hlt
          rw [Nat.succ_mul] at h3
          rw [List.getElem?_eq_none (by simp; omega), List.getElem?_eq_none (by simp; omega)]
      · rw [if_neg hm]
        have hne : j * k ≠ l.length := by
          intro he; rw [← he] at hm; simp at hm
        rw [List.getElem?_eq_none (by simp), List.getElem?_eq_none (by simp; omega)]

/-! ### C47 -/

/-- **C47.** Once `cap` experiences have been recorded, the memory is the latest recorded one followed by the
second to the `cap`-th recorded ones, however many more are recorded: each new experience displaces the one
before it, not the oldest. -/
theorem c47_displaced (p : Params) (ni no : Nat) (cs : List Call) (a : Agent) (rs : List Report)
    (h : run p ni no fresh cs = .ok (a, rs)) (hc : 0 < p.maxExp)
    (hf : p.maxExp < due p.storeInterval (offered cs).length) :
    a.experiences[0]? = (everyNth p.storeInterval (offered cs)).getLast? ∧
    ∀ i : Nat, 0 < i → i < p.maxExp → a.experiences[i]? = (everyNth p.storeInterval (offered cs))[i]? := by
  have hi := run_after h
  have hz : offered cs ≠ [] := by
    intro hz; rw [hz] at hf; simp [due_zero] at hf
  rw [← everyNth_length (hi.pos hz)] at hf
  rw [hi.mem, holds, if_neg (by omega)]
  generalize everyNth p.storeInterval (offered cs) = l at *
  have hl : l ≠ [] := by rintro rfl; simp at hf
  rw [List.getLast?_eq_getLast_of_ne_nil hl]
  constructor
  · simp [hc]
  · intro i h1 h2
    obtain ⟨i, rfl⟩ : ∃ k, i = k + 1 := ⟨i - 1, by omega⟩
    simp [h2]

/-- **C47**, negative: whenever the memory is full, recording another experience overwrites the first slot and
leaves the others as they were, so the order of recording plays no part. -/
theorem c47_overwrites_first (p : Params) (ni no : Nat) (cs : List Call) (a : Agent) (rs : List Report) (e : Exp)
    (h : run p ni no fresh cs = .ok (a, rs)) (hk : 0 < p.storeInterval) (hc : 0 < p.maxExp)
    (hf : a.experiences.length = p.maxExp) :
    ∃ a', step p ni no a (.store e) = .ok (a', .none) ∧ a'.experiences =
      if (offered cs).length % p.storeInterval = 0 then e :: a.experiences.tail else a.experiences := by
  have hn := (run_after h).calls
  simp only [step, store]
  rw [if_neg (by omega), ← hn]
  by_cases hm : a.nStore % p.storeInterval = 0
  · rw [if_pos hm, if_pos hm]
    refine ⟨_, rfl, ?_⟩
    show remember p.maxExp a.experiences e = _
    rw [remember, if_pos (by simp; omega)]
    cases hx : a.experiences with
    | nil => rw [hx] at hf; simp at hf; omega
    | cons x xs =>
      have : (x :: xs ++ [e]).getLast? = some e := by rw [List.getLast?_append]; rfl
      simp only [backToFront, this]
      simp only [List.cons_append, List.set_cons_zero, List.tail_cons]
      rw [← List.cons_append, List.dropLast_concat]
  · rw [if_neg hm, if_neg hm]
    exact ⟨_, rfl, rfl⟩

/-- **C47**, a full history: with room for two, the fourth experience displaces the third, and the second, now
the oldest, stays. -/
theorem c47_not_oldest_first (p : Params) (ni no : Nat) (hp : p.maxExp = 2) (hk : p.storeInterval = 1) (e₁ e₂ e₃ e₄ : Exp) :
    ∃ a rs, run p ni no fresh [.store e₁, .store e₂, .store e₃, .store e₄] = .ok (a, rs) ∧ a.experiences = [e₄, e₂] := by
  refine ⟨_, _, by simp [run, step, store, hk, remember, hp, fresh, backToFront]; exact ⟨rfl, rfl⟩, rfl⟩

/-! ### C48 -/

/-- **C48.** Between its bounds, for every count and parameters. -/
theorem c48_between (p : Params) (n : Nat) (initial : ℝ) :
    min initial p.randActionProb ≤ linearAnnealing p n initial ∧ linearAnnealing p n initial ≤ max initial p.randActionProb := by
  unfold linearAnnealing
  by_cases h : p.explorationPeriod ≤ n
  · rw [if_pos h]; exact ⟨min_le_right _ _, le_max_right _ _⟩
  · rw [if_neg h]
    push Not at h
    have hn : (0 : ℝ) ≤ n := Nat.cast_nonneg n
    have hp : 0 < p.explorationPeriod := lt_of_le_of_lt hn h
    have e : (n : ℝ) * (initial - p.randActionProb) / p.explorationPeriod = (n / p.explorationPeriod) * (initial - p.randActionProb) := by ring
    rw [e]
    have h0 : 0 ≤ n / p.explorationPeriod := div_nonneg hn hp.le
    have h1 : n / p.explorationPeriod ≤ 1 := (div_le_one hp).2 h.le
    rcases le_total initial p.randActionProb with hle | hle
    · rw [min_eq_left hle, max_eq_right hle]; constructor <;> nlinarith
    · rw [min_eq_right hle, max_eq_left hle]; constructor <;> nlinarith

/-- **C48.** It never moves away from the final probability as actions are executed. -/
theorem c48_monotone (p : Params) (initial : ℝ) (m n : Nat) (h : m ≤ n) :
    (p.randActionProb ≤ initial → linearAnnealing p n initial ≤ linearAnnealing p m initial) ∧
    (initial ≤ p.randActionProb → linearAnnealing p m initial ≤ linearAnnealing p n initial) := by
  have hmn : (m : ℝ) ≤ n := Nat.cast_le.2 h
  by_cases hn : p.explorationPeriod ≤ n
  · have e : linearAnnealing p n initial = p.randActionProb := by rw [linearAnnealing, if_pos hn]
    have hb := c48_between p m initial
    rw [e]
    exact ⟨fun hle => by rw [min_eq_right hle] at hb; exact hb.1, fun hle => by rw [max_eq_right hle] at hb; exact hb.2⟩
  · have hm : ¬ p.explorationPeriod ≤ m := fun hm => hn (hm.trans hmn)
    unfold linearAnnealing
    rw [if_neg hn, if_neg hm]
    push Not at hm
    have hp : 0 < p.explorationPeriod := lt_of_le_of_lt (Nat.cast_nonneg m) hm
    have e : ∀ k : ℝ, k * (initial - p.randActionProb) / p.explorationPeriod = (k / p.explorationPeriod) * (initial - p.randActionProb) := fun k => by ring
    rw [e, e]
    have hq : (m : ℝ) / p.explorationPeriod ≤ n / p.explorationPeriod := div_le_div_of_nonneg_right hmn hp.le
    constructor <;> intro hle <;> nlinarith

/-- **C48.** It is the final probability from the end of the exploration period on, the initial one at the
start of a positive period, and on the straight line between them meanwhile. -/
theorem c48_values (p : Params) (n : Nat) (initial : ℝ) :
    (p.explorationPeriod ≤ n → linearAnnealing p n initial = p.randActionProb) ∧
    (0 < p.explorationPeriod → linearAnnealing p 0 initial = initial) ∧
    ((n : ℝ) < p.explorationPeriod → (linearAnnealing p n initial - initial) * p.explorationPeriod = n * (p.randActionProb - initial)) := by
  refine ⟨fun h => by rw [linearAnnealing, if_pos h], fun h => by rw [linearAnnealing, if_neg (by simpa using h)]; simp, fun h => ?_⟩
  rw [linearAnnealing, if_neg (not_le.2 h)]
  have hp : p.explorationPeriod ≠ 0 := (lt_of_le_of_lt (Nat.cast_nonneg n) h).ne'
  field_simp; ring

/-- **C48.** After any history, the next action is random exactly when the first draw falls below the
annealed probability of the number of actions including this one; a random action is one of the outputs when the draws
are from [0, 1); otherwise it is the first entry of what the network says. -/
theorem c48_action (p : Params) (ni no : Nat) (cs : List Call) (a : Agent) (rs : List Report) (r r' : ℝ) (v : ℝ) (b : List ℝ)
    (h : run p ni no fresh cs = .ok (a, rs)) :
    (r < linearAnnealing p (actions cs + 1) 1 → 0 < no → 0 ≤ r' → r' < 1 → ∀ best, ∃ a' k, k < no ∧
      step p ni no a (.action r r' best) = .ok (a', .chose (k : ℕ)) ∧ (k : ℝ) ≤ r' * no ∧ r' * no < k + 1) ∧
    (linearAnnealing p (actions cs + 1) 1 ≤ r → ∃ a', step p ni no a (.action r r' (.ok (v :: b))) = .ok (a', .chose v)) := by
  have hi := (run_after h).acts
  constructor
  · intro hr hno h0 h1 best
    have hno' : (0 : ℝ) < no := Nat.cast_pos.2 hno
    have hnn : 0 ≤ r' * no := mul_nonneg h0 hno'.le
    have hz : (0 : ℤ) ≤ ⌊r' * no⌋ := Int.floor_nonneg.2 hnn
    obtain ⟨k, hk⟩ := Int.eq_ofNat_of_zero_le hz
    have hk' : ((⌊r' * no⌋ : ℤ) : ℝ) = (k : ℝ) := by rw [hk]; simp
    have h2 := Int.floor_le (r' * (no : ℝ))
    have h3 := Int.lt_floor_add_one (r' * (no : ℝ))
    rw [hk'] at h2 h3
    refine ⟨{ a with actionsExecuted := a.actionsExecuted + 1 }, k, ?_, ?_, h2, h3⟩
    · have : (k : ℝ) < no := by nlinarith
      exact_mod_cast this
    · simp only [step, action, hi]
      rw [if_pos hr, hk']; rfl
  · intro hr
    exact ⟨_, by simp only [step, action, hi]; rw [if_neg (not_lt.2 hr)]; rfl⟩

/-! ### C58: the training schedule -/

theorem randomSample_ok {mem : List Exp} {idx : List Nat} (hi : ∀ i ∈ idx, i < mem.length) (k : Nat) (hk : k ≤ idx.length) :
    ∃ l, randomSample k mem idx = .ok l ∧ l.map some = (idx.take k).map (fun i => mem[i]?) := by
  induction k with
  | zero => exact ⟨[], rfl, by simp⟩
  | succ k ih =>
    obtain ⟨l, h1, h2⟩ := ih (by omega)
    have hlt : idx[k] < mem.length := hi _ (List.getElem_mem _)
    refine ⟨l ++ [mem[idx[k]]], ?_, ?_⟩
    · simp only [randomSample, h1, Outcome.ok_bind]
      rw [Outcome.read_of_lt idx k (by omega), Outcome.ok_bind, Outcome.read_of_lt mem _ hlt, Outcome.ok_bind]
    · rw [List.take_add_one, List.map_append, List.map_append, h2]
      congr 1
      simp [show k < idx.length by omega]

theorem write_oneHot (n i : Nat) (h : i < n) : Outcome.write (List.replicate n (0 : ℝ)) i 1 = .ok (oneHot n i) := by
  rw [Outcome.write, if_pos (by simpa using h)]
  congr 1
  apply List.ext_getElem
  · simp [oneHot]
  · intro j h1 h2
    rw [List.getElem_set]
    simp only [oneHot, List.getElem_map, List.getElem_range, List.getElem_replicate]
    by_cases hj : i = j
    · simp [hj]
    · rw [if_neg hj, if_neg (Ne.symm hj)]

/-- What the batch of a list of samples is. -/
def batchOf (ni no : Nat) (l : List Exp) : Batch where
  states := l.flatMap (·.observation)
  newStates := l.flatMap fun e => if e.newObservation = [] then List.replicate ni 0 else e.newObservation
  actionMask := l.flatMap fun e => oneHot no e.action
  newStatesMask := l.map fun e => if e.newObservation = [] then 0 else 1
  rewards := l.map (·.reward)

theorem assembleFrom_eq (ni no : Nat) (l : List Exp) (h : ∀ e ∈ l, e.action < no) (b : Batch) :
    assembleFrom ni no b l = .ok ⟨b.states ++ (batchOf ni no l).states, b.newStates ++ (batchOf ni no l).newStates,
      b.actionMask ++ (batchOf ni no l).actionMask, b.newStatesMask ++ (batchOf ni no l).newStatesMask,
      b.rewards ++ (batchOf ni no l).rewards⟩ := by
  induction l generalizing b with
  | nil => simp [assembleFrom, batchOf]
  | cons e es ih =>
    simp only [assembleFrom, addSample]
    rw [write_oneHot no e.action (h e (by simp)), Outcome.ok_bind, Outcome.ok_bind, ih (fun x hx => h x (by simp [hx]))]
    simp [batchOf, List.isEmpty_iff]

theorem assemble_eq (ni no : Nat) (l : List Exp) (h : ∀ e ∈ l, e.action < no) : assemble ni no l = .ok (batchOf ni no l) := by
  rw [assemble, assembleFrom_eq ni no l h]; simp

theorem mem_everyNth {α : Type} {k : Nat} {l : List α} {x : α} (h : x ∈ everyNth k l) : x ∈ l := by
  unfold everyNth at h
  rw [List.mem_filterMap] at h
  obtain ⟨i, -, h⟩ := h
  split at h
  · exact List.mem_of_getElem? h
  · simp at h

theorem mem_holds {cap : Nat} {l : List Exp} {x : Exp} (h : x ∈ holds cap l) : x ∈ l := by
  unfold holds at h
  split at h
  · exact h
  · have := List.mem_of_mem_take h
    rw [List.mem_append] at this
    rcases this with h' | h'
    · cases hl : l.getLast? with
      | none => simp [hl] at h'
      | some y =>
        simp [hl] at h'; subst h'
        exact List.mem_of_getLast? hl
    · exact List.mem_of_mem_take (List.mem_of_mem_tail h')

/-- Everything remembered was offered. -/
theorem c46_only_offered (p : Params) (ni no : Nat) (cs : List Call) (a : Agent) (rs : List Report)
    (h : run p ni no fresh cs = .ok (a, rs)) (e : Exp) (he : e ∈ a.experiences) : e ∈ offered cs := by
  rw [(run_after h).mem] at he
  exact mem_everyNth (mem_holds he)

theorem legal_offered {k cap no b : Nat} {cs : List Call} (h : LegalCalls k cap no b cs) : ∀ e ∈ offered cs, e.action < no := by
  induction cs generalizing b with
  | nil => simp [offered]
  | cons c cs ih =>
    cases c with
    | store e =>
      simp only [offered, List.mem_cons, forall_eq_or_imp]
      exact ⟨h.1, ih h.2⟩
    | train idx => exact ih h.2
    | action r r' b => exact ih h.2

/-- One training call: what it does, for every shuffle of the indices of the memory. -/
theorem train_eq (p : Params) (ni no : Nat) (idx : List Nat) (a : Agent) (ht : 0 < p.trainInterval)
    (hp : idx.Perm (List.range a.experiences.length)) (ha : ∀ e ∈ a.experiences, e.action < no)
    (hm : a.nTrain % p.trainInterval = 0) (hl : p.miniBatch ≤ a.experiences.length) :
    ∃ l : List Exp, l.map some = (idx.take p.miniBatch).map (fun i => a.experiences[i]?) ∧
      train p ni no idx a = .ok ({ a with iteration := a.iteration + 1, nTrain := a.nTrain + 1 }, some (batchOf ni no l)) := by
  have hi : ∀ i ∈ idx, i < a.experiences.length := fun i hi => List.mem_range.1 (hp.mem_iff.1 hi)
  obtain ⟨l, h1, h2⟩ := randomSample_ok hi p.miniBatch (by rw [hp.length_eq]; simpa using hl)
  refine ⟨l, h2, ?_⟩
  rw [train, if_neg (by omega), if_pos hm, if_neg (by omega), h1, Outcome.ok_bind, assemble_eq, Outcome.ok_bind]
  intro e he
  have : some e ∈ l.map some := List.mem_map_of_mem he
  rw [h2, List.mem_map] at this
  obtain ⟨i, -, hi'⟩ := this
  exact ha e (List.mem_of_getElem? hi')

theorem run_ok (p : Params) (ni no : Nat) (cs : List Call) (hk : 0 < p.storeInterval) (ht : 0 < p.trainInterval)
    (hl : LegalCalls p.storeInterval p.maxExp no 0 cs) : ∃ a rs, run p ni no fresh cs = .ok (a, rs) := by
  induction cs using List.reverseRecOn with
  | nil => exact ⟨_, _, rfl⟩
  | append_singleton cs c ih =>
    rw [legal_snoc] at hl
    obtain ⟨a, rs, h⟩ := ih hl.1
    have hi := run_after h
    have hms := memory_size hi
    suffices ∃ x, step p ni no a c = .ok x by
      obtain ⟨x, hx⟩ := this
      exact ⟨x.1, rs ++ [x.2], by rw [run_snoc, h, Outcome.ok_bind, hx, Outcome.ok_bind]⟩
    cases c with
    | store e =>
      simp only [step, store]
      rw [if_neg (by omega)]
      split <;> exact ⟨_, rfl⟩
    | train idx =>
      obtain ⟨hleg, hp, -⟩ := hl
      rw [Nat.zero_add, ← hms] at hp
      by_cases hm : a.nTrain % p.trainInterval = 0
      · by_cases hle : p.miniBatch ≤ a.experiences.length
        · obtain ⟨l, -, h2⟩ := train_eq p ni no idx a ht hp
            (fun e he => legal_offered hleg e (c46_only_offered p ni no cs a rs h e he)) hm hle
          exact ⟨_, by simp only [step, h2]; rfl⟩
        · exact ⟨_, by simp only [step, train]; rw [if_neg (by omega), if_pos hm, if_pos (by omega)]; rfl⟩
      · exact ⟨_, by simp only [step, train]; rw [if_neg (by omega), if_neg hm]; rfl⟩
    | action r r' best =>
      obtain ⟨-, ⟨v, b, rfl⟩, -⟩ := hl
      simp only [step, action]
      split <;> exact ⟨_, rfl⟩

/-- **C58.** With positive intervals no legal history of calls fails, and the number of training rounds is the
number of `train` calls numbered 0, t, 2t, ... among those made when enough experience was held. -/
theorem c58_schedule (p : Params) (ni no : Nat) (cs : List Call) (hk : 0 < p.storeInterval) (ht : 0 < p.trainInterval)
    (hl : LegalCalls p.storeInterval p.maxExp no 0 cs) :
    ∃ a rs, run p ni no fresh cs = .ok (a, rs) ∧
      a.iteration = due p.trainInterval (readyTrains p.storeInterval p.maxExp p.miniBatch 0 cs) := by
  obtain ⟨a, rs, h⟩ := run_ok p ni no cs hk ht hl
  have hi := run_after h
  exact ⟨a, rs, h, by rw [hi.iter, hi.ready]⟩

/-- **C58.** After any legal history a `train` call trains if and only if enough experience is held and its
number among the `train` calls made in that situation is a multiple of the interval.  It then trains on
`mini_batch_size` experiences at distinct places of the memory; the batch lists their observations, rewards,
one-hot actions and next observations, with zeros and a zero mask where there is no next observation. -/
theorem c58_train (p : Params) (ni no : Nat) (cs : List Call) (idx : List Nat) (a : Agent) (rs : List Report)
    (ht : 0 < p.trainInterval) (h : run p ni no fresh cs = .ok (a, rs))
    (hl : LegalCalls p.storeInterval p.maxExp no 0 (cs ++ [.train idx])) :
    ∃ a' r, step p ni no a (.train idx) = .ok (a', r) ∧ a'.experiences = a.experiences ∧
      if p.miniBatch ≤ min p.maxExp (due p.storeInterval (offered cs).length) ∧
          p.trainInterval ∣ readyTrains p.storeInterval p.maxExp p.miniBatch 0 cs
      then a'.iteration = a.iteration + 1 ∧ ∃ (places : List Nat) (l : List Exp) (b : Batch), r = .trained b ∧
          places.Nodup ∧ places.length = p.miniBatch ∧ l.map some = places.map (fun i => a.experiences[i]?) ∧
          b.states = l.flatMap (·.observation) ∧ b.rewards = l.map (·.reward) ∧
          b.actionMask = l.flatMap (fun e => oneHot no e.action) ∧
          b.newStates = l.flatMap (fun e => if e.newObservation = [] then List.replicate ni 0 else e.newObservation) ∧
          b.newStatesMask = l.map (fun e => if e.newObservation = [] then 0 else 1)
      else a'.iteration = a.iteration ∧ r = .none := by
  have hi := run_after h
  have hms := memory_size hi
  rw [legal_snoc] at hl
  obtain ⟨hl, hp, -⟩ := hl
  rw [Nat.zero_add, ← hms] at hp
  rw [← hms, ← hi.ready]
  by_cases hm : a.nTrain % p.trainInterval = 0
  · by_cases hle : p.miniBatch ≤ a.experiences.length
    · simp only [if_pos (show (p.miniBatch ≤ a.experiences.length ∧ p.trainInterval ∣ a.nTrain) from ⟨hle, Nat.dvd_of_mod_eq_zero hm⟩)]
      obtain ⟨l, h1, h2⟩ := train_eq p ni no idx a ht hp
        (fun e he => legal_offered hl e (c46_only_offered p ni no cs a rs h e he)) hm hle
      refine ⟨{ a with iteration := a.iteration + 1, nTrain := a.nTrain + 1 }, .trained (batchOf ni no l), by simp only [step, h2]; rfl, rfl, rfl, idx.take p.miniBatch, l, batchOf ni no l, rfl, ?_, ?_, h1, rfl, rfl, rfl, rfl, rfl⟩
      · exact ((hp.nodup_iff).2 List.nodup_range).sublist (List.take_sublist _ _)
      · rw [List.length_take, hp.length_eq, List.length_range]; omega
    · simp only [if_neg (show ¬ (p.miniBatch ≤ a.experiences.length ∧ p.trainInterval ∣ a.nTrain) from fun hh => hle hh.1)]
      exact ⟨_, _, by simp only [step, train]; rw [if_neg (by omega), if_pos hm, if_pos (by omega)]; rfl, rfl, rfl, rfl⟩
  · simp only [if_neg (show ¬ (p.miniBatch ≤ a.experiences.length ∧ p.trainInterval ∣ a.nTrain) from fun hh => hm (Nat.mod_eq_zero_of_dvd hh.2))]
    exact ⟨{ a with nTrain := a.nTrain + 1 }, .none, by simp only [step, train]; rw [if_neg (by omega), if_neg hm]; rfl, rfl, rfl, rfl⟩

/-- **C58.** Every choice of distinct places of the memory is the sample of some shuffle. -/
theorem c58_any_sample (n : Nat) (places : List Nat) (hn : places.Nodup) (hr : ∀ i ∈ places, i < n) :
    ∃ idx : List Nat, idx.Perm (List.range n) ∧ idx.take places.length = places := by
  have hsub : places.Subperm (List.range n) := List.subperm_of_subset hn (fun i hi => List.mem_range.2 (hr i hi))
  obtain ⟨q, hq, hs⟩ := hsub
  obtain ⟨rest, hrest⟩ := hs.exists_perm_append
  exact ⟨places ++ rest, ((hq.symm.append_right rest).trans hrest.symm), by simp⟩

theorem readyTrains_zero {k cap m : Nat} (hc : cap < m) (b : Nat) (cs : List Call) : readyTrains k cap m b cs = 0 := by
  induction cs generalizing b with
  | nil => rfl
  | cons c cs ih =>
    cases c with
    | store e => exact ih _
    | train idx =>
      simp only [readyTrains, ih]
      rw [if_neg (by omega)]
    | action r r' best => exact ih _

/-- **C58**, negative: if the batch is larger than the memory the agent never trains. -/
theorem c58_never (p : Params) (ni no : Nat) (cs : List Call) (a : Agent) (rs : List Report) (hc : p.maxExp < p.miniBatch)
    (h : run p ni no fresh cs = .ok (a, rs)) : a.iteration = 0 := by
  have hi := run_after h
  have : readyTrains p.storeInterval p.maxExp p.miniBatch 0 cs = 0 := readyTrains_zero hc 0 cs
  rw [hi.iter, hi.ready, this, due_zero]

/-- **C58**, negative: an interval of zero is undefined behaviour at the first call. -/
theorem c58_zero_interval (p : Params) (ni no : Nat) (a : Agent) :
    (p.storeInterval = 0 → ∀ e, step p ni no a (.store e) = .ub) ∧ (p.trainInterval = 0 → ∀ idx, step p ni no a (.train idx) = .ub) := by
  constructor
  · intro h e; simp [step, store, h]
  · intro h idx; simp [step, train, h]

/-- **C58**, negative: an action beyond the outputs, once sampled, is written out of bounds. -/
theorem c58_bad_action (ni no : Nat) (e : Exp) (es : List Exp) (h : no ≤ e.action) : assemble ni no (e :: es) = .ub := by
  simp [assemble, assembleFrom, addSample, Outcome.write, not_lt.2 h]

/-! ### The batches fit the placeholders -/

theorem flatMap_length {α : Type} (f : α → List ℝ) (n : Nat) (l : List α) (h : ∀ x ∈ l, (f x).length = n) : (l.flatMap f).length = n * l.length := by
  induction l with
  | nil => simp
  | cons x xs ih =>
    rw [List.flatMap_cons, List.length_append, h x (by simp), ih (fun y hy => h y (by simp [hy])), List.length_cons]
    rw [Nat.mul_succ, Nat.add_comm]

/-- The reports of a history of legal calls: every batch has the right sizes. -/
theorem batch_sizes (p : Params) (ni no : Nat) (cs : List Call) (a : Agent) (rs : List Report)
    (ht : 0 < p.trainInterval) (h : run p ni no fresh cs = .ok (a, rs)) (hl : LegalCalls p.storeInterval p.maxExp no 0 cs)
    (ho : ∀ e ∈ offered cs, e.observation.length = ni ∧ (e.newObservation = [] ∨ e.newObservation.length = ni)) :
    ∀ b, .trained b ∈ rs → b.states.length = ni * p.miniBatch ∧ b.newStates.length = ni * p.miniBatch ∧
      b.actionMask.length = no * p.miniBatch ∧ b.newStatesMask.length = p.miniBatch ∧ b.rewards.length = p.miniBatch := by
  induction cs using List.reverseRecOn generalizing a rs with
  | nil =>
    simp only [run, Outcome.ok.injEq, Prod.mk.injEq] at h
    intro b hb; rw [← h.2] at hb; simp at hb
  | append_singleton cs c ih =>
    rw [run_snoc, Outcome.bind_eq_ok] at h
    obtain ⟨⟨a₁, rs₁⟩, h1, h⟩ := h
    rw [Outcome.bind_eq_ok] at h
    obtain ⟨⟨a₂, r⟩, h2, h⟩ := h
    simp only [Outcome.ok.injEq, Prod.mk.injEq] at h
    obtain ⟨-, rfl⟩ := h
    have hl' := (legal_snoc _ _ _ _ _ _).1 hl
    have ho' : ∀ e ∈ offered cs, e.observation.length = ni ∧ (e.newObservation = [] ∨ e.newObservation.length = ni) :=
      fun e he => ho e (by rw [offered_snoc]; exact List.mem_append_left _ he)
    intro b hb
    rw [List.mem_append] at hb
    rcases hb with hb | hb
    · exact ih a₁ rs₁ h1 hl'.1 ho' b hb
    · rw [List.mem_singleton] at hb
      subst hb
      cases c with
      | store e =>
        simp only [step] at h2
        rw [Outcome.bind_eq_ok] at h2
        obtain ⟨x, -, h2⟩ := h2
        simp at h2
      | action r r' best =>
        simp only [step] at h2
        rw [Outcome.bind_eq_ok] at h2
        obtain ⟨x, -, h2⟩ := h2
        simp at h2
      | train idx =>
        obtain ⟨a', r', h3, -, h4⟩ := c58_train p ni no cs idx a₁ rs₁ ht h1 hl
        rw [h2] at h3
        simp only [Outcome.ok.injEq, Prod.mk.injEq] at h3
        obtain ⟨rfl, rfl⟩ := h3
        split at h4
        · obtain ⟨-, places, l, b', hb, -, hlen, hlm, s1, s2, s3, s4, s5⟩ := h4
          injection hb with hb; subst hb
          have hll : l.length = p.miniBatch := by rw [← hlen, ← List.length_map (f := fun i => a₁.experiences[i]?) (as := places), ← hlm, List.length_map]
          have hmem : ∀ e ∈ l, e ∈ offered cs := by
            intro e he
            have : some e ∈ l.map some := List.mem_map_of_mem he
            rw [hlm, List.mem_map] at this
            obtain ⟨i, -, hi'⟩ := this
            exact c46_only_offered p ni no cs a₁ rs₁ h1 e (List.mem_of_getElem? hi')
          refine ⟨?_, ?_, ?_, by rw [s5, List.length_map, hll], by rw [s2, List.length_map, hll]⟩
          · rw [s1, flatMap_length _ ni l (fun e he => (ho' e (hmem e he)).1), hll]
          · rw [s4, flatMap_length _ ni l (fun e he => ?_), hll]
            rcases (ho' e (hmem e he)).2 with h0 | h0
            · rw [if_pos h0]; simp
            · split
              · simp
              · exact h0
          · rw [s3, flatMap_length _ no l (fun e _ => by simp [oneHot]), hll]
        · exact absurd h4.2 (by simp)

/-- The batches among the reports. -/
def batches (rs : List Report) : List Batch := rs.filterMap fun | .trained b => some b | _ => none

theorem accepts (e : Env ℝ) (hmem : ∀ n, e.fits n = true) (s : Shape) (n : Nat) (hn : 0 < n) (hf : Fills s n) (ds : List (List ℝ))
    (hd : ∀ d ∈ ds, d.length = n) : ∃ l, Leaf.assignAll e (Leaf.placeholder e s) ds = .ok l ∧ (ds ≠ [] → l.data.raw = ds.getLast?) := by
  cases ds with
  | nil => exact ⟨_, rfl, by simp⟩
  | cons d ds =>
    have hdn := hd d (by simp)
    have hne : ∀ x ∈ d :: ds, x ≠ [] := by
      intro x hx h0
      have := hd x hx
      rw [h0] at this; simp at this; omega
    obtain ⟨l, l₁, h1, -, -, -, h5, -⟩ := (c43_history e hmem s d ds).2 ⟨by rw [hdn]; exact hf, fun x hx => by rw [hd x (by simp [hx]), hdn]⟩
    exact ⟨l, h1, fun _ => h5⟩

/-- **C58.** When every observation offered has the network's input size (or, for the next one, is empty), all
the batches of any legal history are accepted in turn by the placeholders they are entered into, each of which
then holds the latest. -/
theorem c58_batches_fit (p : Params) (ni no : Nat) (cs : List Call) (a : Agent) (rs : List Report) (e : Env ℝ)
    (hmem : ∀ n, e.fits n = true) (hni : 0 < ni) (hno : 0 < no) (hmb : 0 < p.miniBatch)
    (ht : 0 < p.trainInterval) (h : run p ni no fresh cs = .ok (a, rs)) (hl : LegalCalls p.storeInterval p.maxExp no 0 cs)
    (ho : ∀ x ∈ offered cs, x.observation.length = ni ∧ (x.newObservation = [] ∨ x.newObservation.length = ni))
    (shape : Shape) (part : Batch → List ℝ)
    (hpart : (shape, part) ∈ ([([ni, 0], (·.states)), ([ni, 0], (·.newStates)), ([no, 0], (·.actionMask)),
      ([0], (·.newStatesMask)), ([0], (·.rewards))] : List (Shape × (Batch → List ℝ)))) :
    ∃ l, Leaf.assignAll e (Leaf.placeholder e shape) ((batches rs).map part) = .ok l ∧
      (batches rs ≠ [] → l.data.raw = (batches rs).getLast?.map part) := by
  have hs := batch_sizes p ni no cs a rs ht h hl ho
  have hmb' : ∀ b ∈ batches rs, Report.trained b ∈ rs := by
    intro b hb
    simp only [batches, List.mem_filterMap] at hb
    obtain ⟨r, hr, hb⟩ := hb
    cases r <;> simp at hb
    subst hb; exact hr
  have hfill2 : ∀ k, 0 < k → Fills [k, 0] (k * p.miniBatch) := by
    intro k hk
    exact Or.inr ⟨[k, p.miniBatch], by simp [Full]; omega, (by refine ⟨rfl, fun i hi => ?_⟩; match i, hi with | 0, _ => exact Or.inr rfl | 1, _ => exact Or.inl rfl), by simp [vol]⟩
  have hfill1 : Fills [0] p.miniBatch := Or.inr ⟨[p.miniBatch], by simp [Full]; omega, by simp [Refines], by simp [vol]⟩
  suffices ∃ n, 0 < n ∧ Fills shape n ∧ ∀ b ∈ batches rs, (part b).length = n by
    obtain ⟨n, hn, hf, hlen⟩ := this
    obtain ⟨l, h1, h2⟩ := accepts e hmem shape n hn hf ((batches rs).map part) (by simpa using hlen)
    exact ⟨l, h1, fun hne => by rw [h2 (by simpa using hne), List.getLast?_map]⟩
  simp only [List.mem_cons, Prod.mk.injEq, List.not_mem_nil, or_false] at hpart
  rcases hpart with ⟨rfl, rfl⟩ | ⟨rfl, rfl⟩ | ⟨rfl, rfl⟩ | ⟨rfl, rfl⟩ | ⟨rfl, rfl⟩
  · exact ⟨_, Nat.mul_pos hni hmb, hfill2 ni hni, fun b hb => (hs b (hmb' b hb)).1⟩
  · exact ⟨_, Nat.mul_pos hni hmb, hfill2 ni hni, fun b hb => (hs b (hmb' b hb)).2.1⟩
  · exact ⟨_, Nat.mul_pos hno hmb, hfill2 no hno, fun b hb => (hs b (hmb' b hb)).2.2.1⟩
  · exact ⟨_, hmb, hfill1, fun b hb => (hs b (hmb' b hb)).2.2.2.1⟩
  · exact ⟨_, hmb, hfill1, fun b hb => (hs b (hmb' b hb)).2.2.2.2⟩

/-! ### A concrete agent -/

/-- Trains every second time on batches of 2 out of at most 3 experiences. -/
noncomputable def exParams : Params := ⟨2, 1 / 20, 1000, 1, 2, 3⟩
def exExp (k : Nat) : Exp := ⟨[(k : ℝ), 1], k % 2, 1, []⟩
noncomputable def exCalls : List Call := [.train [], .store (exExp 0), .train [0], .store (exExp 1), .train [1, 0], .train [0, 1],
  .action 1 0 (.ok [1]), .store (exExp 2), .store (exExp 3), .train [2, 0, 1]]

example : LegalCalls exParams.storeInterval exParams.maxExp 2 0 exCalls := by
  simp only [exCalls, LegalCalls, exParams, exExp, due]
  refine ⟨by decide, by decide, by decide, by decide, by decide, by decide, ⟨1, [], rfl⟩, by decide, by decide, by decide, trivial⟩
example : readyTrains exParams.storeInterval exParams.maxExp exParams.miniBatch 0 exCalls = 3 := rfl
example : due exParams.trainInterval 3 = 2 := rfl
example : (offered exCalls).length = 4 ∧ ∀ x ∈ offered exCalls, x.observation.length = 2 ∧ (x.newObservation = [] ∨ x.newObservation.length = 2) := by
  simp [offered, exCalls, exExp]
example : ∃ a rs, run exParams 2 2 fresh exCalls = .ok (a, rs) ∧ a.iteration = 2 := by
  have hl : LegalCalls exParams.storeInterval exParams.maxExp 2 0 exCalls := by
    simp only [exCalls, LegalCalls, exParams, exExp, due]
    refine ⟨by decide, by decide, by decide, by decide, by decide, by decide, ⟨1, [], rfl⟩, by decide, by decide, by decide, trivial⟩
  exact c58_schedule exParams 2 2 exCalls (by simp [exParams]) (by simp [exParams]) hl

end Verif.Props
