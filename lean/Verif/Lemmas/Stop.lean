import Verif.Spec.Stop
/-!
# Lemmas on stoppable threads
-/
namespace Verif.Stop
open Spec
variable {σ : Type} {code : σ → Instr σ} {S T U : Sys σ} {tr tr' : List Ev} {e : Ev} {w : Nat}

theorem upd_same {α : Type} (f : Nat → α) (k : Nat) (v : α) : upd f k v k = v := if_pos rfl
theorem upd_ne {α : Type} (f : Nat → α) {k n : Nat} (v : α) (h : n ≠ k) : upd f k v n = f n := if_neg h

theorem Run.append (h : Run code S tr T) (h' : Run code T tr' U) : Run code S (tr ++ tr') U := by
  induction h' with
  | nil => simpa using h
  | snoc _ hs ih => rw [← List.append_assoc]; exact .snoc ih hs

theorem Run.one (h : Step code S e T) : Run code S [e] T := .snoc (tr := []) (.nil S) h

/-- Every event of a run has its step. -/
theorem Run.split {a c : List Ev} {tr : List Ev} (h : Run code S tr U) : tr = a ++ e :: c →
    ∃ T T', Run code S a T ∧ Step code T e T' ∧ Run code T' c U := by
  induction h generalizing c with
  | nil => intro he; simp at he
  | @snoc T U tr e' h hs ih =>
    intro he
    rcases List.eq_nil_or_concat c with rfl | ⟨c', x, rfl⟩
    · obtain ⟨rfl, rfl⟩ := List.append_singleton_inj.mp he
      exact ⟨T, U, h, hs, .nil U⟩
    · rw [List.concat_eq_append, ← List.cons_append, ← List.append_assoc] at he
      obtain ⟨h1, rfl⟩ := List.append_singleton_inj.mp he
      obtain ⟨A, B, h2, h3, h4⟩ := ih h1
      rw [List.concat_eq_append]
      exact ⟨A, B, h2, h3, .snoc h4 hs⟩

/-! ## What holds in every state reached -/

structure Inv (tr : List Ev) (S : Sys σ) : Prop where
  flag : ∀ w, S.flag w = true ↔ Ev.stored w ∈ tr
  hflag : ∀ h H w, S.hs h = some H → H.flag = some w → w < S.nw
  hthr : ∀ h H w, S.hs h = some H → H.thr = some w → w < S.nw
  notifying : ∀ w, S.pc = .notifying w → w < S.nw
  joining : ∀ h w, S.pc = .joining h w → ∃ H, S.hs h = some H ∧ H.thr = some w
  destroying : ∀ h w, S.pc = .destroying h w → ∃ H, S.hs h = some H ∧ H.thr = some w
  absent : ∀ w, S.nw ≤ w → S.ws w = .absent
  nostore : ∀ w, Ev.stored w ∈ tr → w < S.nw
  ended : ∀ w, S.ws w = .ended ↔ Ev.ended w ∈ tr
  thrown : ∀ w, Ev.polled w true ∈ tr → S.ws w = .leaving ∨ S.ws w = .ended
  started : ∀ w, w < S.nw ↔ Ev.started w ∈ tr
  owned : ∀ w, w < S.nw → S.ws w ≠ .ended → Ev.detached w ∈ tr ∨ ∃ h H, S.hs h = some H ∧ H.thr = some w

theorem inv_init : Inv (σ := σ) [] Sys.init := by
  constructor <;> simp [Sys.init]

theorem lt_of_ws (I : Inv tr S) (h : S.ws w ≠ .absent) : w < S.nw := by
  rcases Nat.lt_or_ge w S.nw with hl | hl
  · exact hl
  · exact absurd (I.absent w hl) h

/-- A step of worker `w` that does not end it and leaves everything else alone. -/
theorem inv_worker (I : Inv tr S) (e : Ev) (x : WS σ) (hw : S.ws w ≠ .absent) (hne : S.ws w ≠ .ended) (hl : S.ws w ≠ .leaving ∨ x = .ended)
    (hx : x = .ended ↔ e = .ended w) (hp : e = .polled w true → x = .leaving) (hd : Doer e = some w) :
    Inv (tr ++ [e]) { S with ws := upd S.ws w x } := by
  have hs : ∀ v, e ≠ .stored v := by rintro v rfl; simp [Doer] at hd
  have hst : ∀ v, e ≠ .started v := by rintro v rfl; simp [Doer] at hd
  have hdt : ∀ v, e ≠ .detached v := by rintro v rfl; simp [Doer] at hd
  have lw := lt_of_ws I hw
  refine ⟨?_, I.hflag, I.hthr, I.notifying, I.joining, I.destroying, ?_, ?_, ?_, ?_, ?_, ?_⟩
  · intro v
    simp only [List.mem_append, List.mem_singleton]
    rw [show (Ev.stored v = e) ↔ False from ⟨fun h => hs v h.symm, False.elim⟩, or_false]
    exact I.flag v
  · intro v hv
    have : v ≠ w := by rintro rfl; exact absurd lw (by simpa using hv)
    show upd S.ws w x v = _
    rw [upd_ne _ _ this]; exact I.absent v hv
  · intro v hv
    rcases List.mem_append.mp hv with hv | hv
    · exact I.nostore v hv
    · exact absurd (List.mem_singleton.mp hv).symm (hs v)
  · intro v
    show upd S.ws w x v = _ ↔ _
    by_cases hv : v = w
    · subst hv
      rw [upd_same, hx]
      simp only [List.mem_append, List.mem_singleton]
      rw [← I.ended v]
      exact ⟨fun h => Or.inr h.symm, fun h => h.elim (fun h => absurd h hne) Eq.symm⟩
    · rw [upd_ne _ _ hv, I.ended v]
      simp only [List.mem_append, List.mem_singleton]
      refine ⟨Or.inl, fun h => h.elim id ?_⟩
      rintro rfl
      simp [Doer] at hd
      exact absurd hd hv
  · intro v hv
    show upd S.ws w x v = _ ∨ upd S.ws w x v = _
    by_cases hv' : v = w
    · subst hv'
      rw [upd_same]
      rcases List.mem_append.mp hv with hv | hv
      · rcases I.thrown v hv with h | h
        · exact Or.inr (hl.resolve_left (fun hh => hh h))
        · exact absurd h hne
      · exact Or.inl (hp (List.mem_singleton.mp hv).symm)
    · rw [upd_ne _ _ hv']
      rcases List.mem_append.mp hv with hv | hv
      · exact I.thrown v hv
      · rw [← List.mem_singleton.mp hv] at hd
        simp [Doer] at hd
        exact absurd hd hv'
  · intro v
    simp only [List.mem_append, List.mem_singleton]
    rw [show (Ev.started v = e) ↔ False from ⟨fun h => hst v h.symm, False.elim⟩, or_false]
    exact I.started v
  · intro v hv hn
    by_cases hv' : v = w
    · subst hv'
      exact (I.owned v hv hne).imp (fun h => List.mem_append_left _ h) id
    · have hn' : upd S.ws w x v ≠ .ended := hn
      rw [upd_ne _ _ hv'] at hn'
      exact (I.owned v hv hn').imp (fun h => List.mem_append_left _ h) id

/-- A step of the main thread that only changes the handles (and the program counter, to `idle`). -/
theorem inv_handles (I : Inv tr S) (e : Ev) (hs' : Nat → Option Handle) (he : e = .main ∨ e = .threw ∨ (∃ v, e = .joined v) ∨ ∃ v, e = .detached v)
    (hf : ∀ h H w, hs' h = some H → H.flag = some w → w < S.nw) (ht : ∀ h H w, hs' h = some H → H.thr = some w → w < S.nw)
    (ho : ∀ v, v < S.nw → S.ws v ≠ .ended → Ev.detached v ∈ tr ++ [e] ∨ ∃ h H, hs' h = some H ∧ H.thr = some v) :
    Inv (tr ++ [e]) { S with hs := hs', pc := .idle } := by
  have h1 : ∀ v, Ev.stored v ∈ tr ++ [e] ↔ Ev.stored v ∈ tr := by
    intro v; rcases he with rfl | rfl | ⟨v, rfl⟩ | ⟨v, rfl⟩ <;> simp
  have h2 : ∀ v, Ev.ended v ∈ tr ++ [e] ↔ Ev.ended v ∈ tr := by
    intro v; rcases he with rfl | rfl | ⟨v, rfl⟩ | ⟨v, rfl⟩ <;> simp
  have h3 : ∀ v, Ev.polled v true ∈ tr ++ [e] ↔ Ev.polled v true ∈ tr := by
    intro v; rcases he with rfl | rfl | ⟨v, rfl⟩ | ⟨v, rfl⟩ <;> simp
  have h4 : ∀ v, Ev.started v ∈ tr ++ [e] ↔ Ev.started v ∈ tr := by
    intro v; rcases he with rfl | rfl | ⟨v, rfl⟩ | ⟨v, rfl⟩ <;> simp
  exact ⟨fun v => (I.flag v).trans (h1 v).symm, hf, ht, (fun v hv => by cases hv), (fun h v hv => by cases hv), (fun h v hv => by cases hv), I.absent,
    fun v hv => I.nostore v ((h1 v).mp hv), fun v => (I.ended v).trans (h2 v).symm, fun v hv => I.thrown v ((h3 v).mp hv),
    fun v => (I.started v).trans (h4 v).symm, ho⟩

/-- The main thread begins to join. -/
theorem inv_wait (I : Inv tr S) (p : PC) (hn : ∀ w, p ≠ .notifying w) (hj : ∀ h w, p = .joining h w → ∃ H, S.hs h = some H ∧ H.thr = some w)
    (hd : ∀ h w, p = .destroying h w → ∃ H, S.hs h = some H ∧ H.thr = some w) : Inv (tr ++ [.main]) { S with pc := p } := by
  refine ⟨?_, I.hflag, I.hthr, fun v hv => absurd hv (hn v), hj, hd, I.absent, ?_, ?_, ?_, ?_, ?_⟩
  · intro v; simpa using I.flag v
  · intro v hv; exact I.nostore v (by simpa using hv)
  · intro v; simpa using I.ended v
  · intro v hv; exact I.thrown v (by simpa using hv)
  · intro v; simpa using I.started v
  · intro v hv hne; simpa using I.owned v hv hne

theorem idle_eq (h : S.pc = .idle) (hs' : Nat → Option Handle) : ({ S with hs := hs' } : Sys σ) = { S with hs := hs', pc := .idle } := by
  rw [← h]

/-- Handing a thread from one handle to another keeps every thread owned. -/
theorem owned_move (I : Inv tr S) {h h' : Nat} {H : Handle} (hh : ∀ G, S.hs h = some G → G.thr = none) (hH : S.hs h' = some H) (hne : h ≠ h') (v : Nat)
    (hv : v < S.nw) (hn : S.ws v ≠ .ended) :
    Ev.detached v ∈ tr ++ [.main] ∨ ∃ k K, upd (upd S.hs h' (some ⟨none, H.flag⟩)) h (some H) k = some K ∧ K.thr = some v := by
  rcases I.owned v hv hn with h1 | ⟨k, K, h1, h2⟩
  · exact Or.inl (List.mem_append_left _ h1)
  · right
    by_cases hk : k = h'
    · subst hk
      rw [hH] at h1; cases h1
      exact ⟨h, H, upd_same _ _ _, h2⟩
    · have hk' : k ≠ h := by
        rintro rfl
        rw [hh K h1] at h2; cases h2
      exact ⟨k, K, by rw [upd_ne _ _ hk', upd_ne _ _ hk]; exact h1, h2⟩

theorem inv_move (I : Inv tr S) (hi : S.pc = .idle) {h h' : Nat} {H : Handle} (hh : ∀ G, S.hs h = some G → G.thr = none) (hH : S.hs h' = some H) (hne : h ≠ h') :
    Inv (tr ++ [.main]) { S with hs := upd (upd S.hs h' (some ⟨none, H.flag⟩)) h (some H) } := by
  rw [idle_eq hi]
  refine inv_handles I .main _ (Or.inl rfl) ?_ ?_ (owned_move I hh hH hne)
  · intro k K v hk hf
    by_cases h1 : k = h
    · subst h1; rw [upd_same] at hk; cases hk; exact I.hflag h' _ v hH hf
    · rw [upd_ne _ _ h1] at hk
      by_cases h2 : k = h'
      · subst h2; rw [upd_same] at hk; cases hk; exact I.hflag k H v hH hf
      · rw [upd_ne _ _ h2] at hk; exact I.hflag k K v hk hf
  · intro k K v hk hf
    by_cases h1 : k = h
    · subst h1; rw [upd_same] at hk; cases hk; exact I.hthr h' _ v hH hf
    · rw [upd_ne _ _ h1] at hk
      by_cases h2 : k = h'
      · subst h2; rw [upd_same] at hk; cases hk; cases hf
      · rw [upd_ne _ _ h2] at hk; exact I.hthr k K v hk hf

/-- A handle lets go of its thread. -/
theorem inv_release (I : Inv tr S) {h : Nat} {H : Handle} (hH : S.hs h = some H) (e : Ev) (he : e = .main ∨ e = .threw ∨ (∃ v, e = .joined v) ∨ ∃ v, e = .detached v)
    (ho : ∀ v, H.thr = some v → S.ws v = .ended ∨ e = .detached v) (G : Option Handle) (hG : ∀ K, G = some K → K = ⟨none, H.flag⟩) :
    Inv (tr ++ [e]) { S with hs := upd S.hs h G, pc := .idle } := by
  refine inv_handles I e _ he ?_ ?_ ?_
  · intro k K v hk hf
    by_cases h1 : k = h
    · subst h1; rw [upd_same] at hk; rw [hG K hk] at hf; exact I.hflag k H v hH hf
    · rw [upd_ne _ _ h1] at hk; exact I.hflag k K v hk hf
  · intro k K v hk hf
    by_cases h1 : k = h
    · subst h1; rw [upd_same] at hk; rw [hG K hk] at hf; cases hf
    · rw [upd_ne _ _ h1] at hk; exact I.hthr k K v hk hf
  · intro v hv hn
    rcases I.owned v hv hn with h1 | ⟨k, K, h1, h2⟩
    · exact Or.inl (List.mem_append_left _ h1)
    · by_cases hk : k = h
      · subst hk
        rw [hH] at h1; cases h1
        rcases ho v h2 with h3 | h3
        · exact absurd h3 hn
        · left; rw [h3]; simp
      · exact Or.inr ⟨k, K, by rw [upd_ne _ _ hk]; exact h1, h2⟩

theorem inv_same (I : Inv tr S) (hi : S.pc = .idle) (e : Ev) (he : e = .main ∨ e = .threw) : Inv (tr ++ [e]) S := by
  have := inv_handles I e S.hs (he.imp id Or.inl) I.hflag I.hthr (fun v hv hn => (I.owned v hv hn).imp (fun h => List.mem_append_left _ h) id)
  rw [← idle_eq hi] at this
  exact this

theorem inv_step (I : Inv tr S) (h : Step code S e T) : Inv (tr ++ [e]) T := by
  cases h with
  | @mk h hi hn =>
    rw [idle_eq hi]
    refine inv_handles I .main _ (Or.inl rfl) ?_ ?_ ?_
    · intro k K v hk hf
      by_cases h1 : k = h
      · subst h1; rw [upd_same] at hk; cases hk; cases hf
      · rw [upd_ne _ _ h1] at hk; exact I.hflag k K v hk hf
    · intro k K v hk hf
      by_cases h1 : k = h
      · subst h1; rw [upd_same] at hk; cases hk; cases hf
      · rw [upd_ne _ _ h1] at hk; exact I.hthr k K v hk hf
    · intro v hv hn'
      refine (I.owned v hv hn').imp (fun h => List.mem_append_left _ h) ?_
      rintro ⟨k, K, h1, h2⟩
      exact ⟨k, K, by rw [upd_ne _ _ (by rintro rfl; rw [hn] at h1; cases h1)]; exact h1, h2⟩
  | @spawn h s hi hn =>
    refine ⟨?_, ?_, ?_, ?_, ?_, ?_, ?_, ?_, ?_, ?_, ?_, ?_⟩
    · intro v
      show upd S.flag S.nw false v = true ↔ _
      by_cases hv : v = S.nw
      · subst hv
        rw [upd_same]
        simp only [List.mem_append, List.mem_singleton, reduceCtorEq, or_false, Bool.false_eq_true, false_iff]
        intro h'
        exact absurd (I.nostore _ h') (by omega)
      · rw [upd_ne _ _ hv, I.flag v]; simp
    · intro k K v hk hf
      have hk' : upd S.hs h (some ⟨some S.nw, some S.nw⟩) k = some K := hk
      show v < S.nw + 1
      by_cases h1 : k = h
      · subst h1; rw [upd_same] at hk'; cases hk'; cases hf; omega
      · rw [upd_ne _ _ h1] at hk'; have := I.hflag k K v hk' hf; omega
    · intro k K v hk hf
      have hk' : upd S.hs h (some ⟨some S.nw, some S.nw⟩) k = some K := hk
      show v < S.nw + 1
      by_cases h1 : k = h
      · subst h1; rw [upd_same] at hk'; cases hk'; cases hf; omega
      · rw [upd_ne _ _ h1] at hk'; have := I.hthr k K v hk' hf; omega
    · intro v hv; rw [show S.pc = .notifying v from hv] at hi; cases hi
    · intro k v hv; rw [show S.pc = .joining k v from hv] at hi; cases hi
    · intro k v hv; rw [show S.pc = .destroying k v from hv] at hi; cases hi
    · intro v hv
      have hv' : S.nw + 1 ≤ v := hv
      show upd S.ws S.nw _ v = _
      rw [upd_ne _ _ (by omega)]; exact I.absent v (by omega)
    · intro v hv
      have : Ev.stored v ∈ tr := by simpa using hv
      have := I.nostore v this
      show v < S.nw + 1
      omega
    · intro v
      show upd S.ws S.nw _ v = _ ↔ _
      have hm : Ev.ended v ∈ tr ++ [Ev.started S.nw] ↔ Ev.ended v ∈ tr := by simp
      rw [hm, ← I.ended v]
      by_cases hv : v = S.nw
      · subst hv
        rw [upd_same, I.absent _ (Nat.le_refl _)]
        simp
      · rw [upd_ne _ _ hv]
    · intro v hv
      have hv' : Ev.polled v true ∈ tr := by simpa using hv
      have h1 := I.thrown v hv'
      show upd S.ws S.nw _ v = _ ∨ upd S.ws S.nw _ v = _
      have : v ≠ S.nw := by
        rintro rfl
        rw [I.absent _ (Nat.le_refl _)] at h1
        rcases h1 with h1 | h1 <;> cases h1
      rw [upd_ne _ _ this]; exact h1
    · intro v
      show v < S.nw + 1 ↔ _
      simp only [List.mem_append, List.mem_singleton, Ev.started.injEq]
      rw [← I.started v]
      omega
    · intro v hv hne
      have hv' : v < S.nw + 1 := hv
      by_cases hvw : v = S.nw
      · subst hvw
        exact Or.inr ⟨h, _, upd_same _ _ _, rfl⟩
      · have hne' : upd S.ws S.nw (.run s) v ≠ .ended := hne
        rw [upd_ne _ _ hvw] at hne'
        refine (I.owned v (by omega) hne').imp (fun h => List.mem_append_left _ h) ?_
        rintro ⟨k, K, h1, h2⟩
        exact ⟨k, K, (upd_ne _ _ (by rintro rfl; rw [hn] at h1; cases h1)).trans h1, h2⟩
  | @moveCtor h h' H hi hn hH =>
    exact inv_move I hi (fun G hG => by rw [hn] at hG; cases hG) hH (by rintro rfl; rw [hn] at hH; cases hH)
  | @moveAssign h h' G H hi hG ht hH hne =>
    exact inv_move I hi (fun G' hG' => by rw [hG] at hG'; cases hG'; exact ht) hH hne
  | moveSelf hi _ => exact inv_same I hi .main (Or.inl rfl)
  | @stop h w H hi hH hf hne =>
    refine ⟨?_, I.hflag, I.hthr, ?_, ?_, ?_, I.absent, ?_, ?_, ?_, ?_, ?_⟩
    · intro v
      show upd S.flag w true v = true ↔ _
      by_cases hv : v = w
      · subst hv; rw [upd_same]; simp
      · rw [upd_ne _ _ hv, I.flag v]; simp [hv]
    · intro v hv; cases hv; exact I.hflag h H w hH hf
    · intro k v hv; cases hv
    · intro k v hv; cases hv
    · intro v hv
      simp only [List.mem_append, List.mem_singleton, Ev.stored.injEq] at hv
      rcases hv with hv | rfl
      · exact I.nostore v hv
      · exact I.hflag h H v hH hf
    · intro v; simpa using I.ended v
    · intro v hv; exact I.thrown v (by simpa using hv)
    · intro v; simpa using I.started v
    · intro v hv hn; simpa using I.owned v hv hn
  | @notify w hi hne =>
    have he : ∀ v, upd S.ws w (wake (S.ws w)) v = .ended ↔ S.ws v = .ended := by
      intro v
      by_cases hv : v = w
      · subst hv; rw [upd_same]; cases h : S.ws v <;> simp [wake]
      · rw [upd_ne _ _ hv]
    have hl : ∀ v, upd S.ws w (wake (S.ws w)) v = .leaving ↔ S.ws v = .leaving := by
      intro v
      by_cases hv : v = w
      · subst hv; rw [upd_same]; cases h : S.ws v <;> simp [wake]
      · rw [upd_ne _ _ hv]
    refine ⟨?_, I.hflag, I.hthr, ?_, ?_, ?_, ?_, ?_, ?_, ?_, ?_, ?_⟩
    · intro v; simpa using I.flag v
    · intro v hv; cases hv
    · intro k v hv; cases hv
    · intro k v hv; cases hv
    · intro v hv
      show upd S.ws w (wake (S.ws w)) v = _
      have : v ≠ w := by rintro rfl; have := I.notifying v hi; have hv' : S.nw ≤ v := hv; omega
      rw [upd_ne _ _ this]; exact I.absent v hv
    · intro v hv; exact I.nostore v (by simpa using hv)
    · intro v; rw [show ({ S with ws := upd S.ws w (wake (S.ws w)), pc := .idle } : Sys σ).ws v = upd S.ws w (wake (S.ws w)) v from rfl, he]; simpa using I.ended v
    · intro v hv
      have := I.thrown v (by simpa using hv)
      exact this.imp (hl v).mpr (he v).mpr
    · intro v; simpa using I.started v
    · intro v hv hn
      have := I.owned v hv (fun h => hn ((he v).mpr h))
      simpa using this
  | @join h w H hi hH ht =>
    refine inv_wait I _ (fun v => by simp) ?_ (fun k v hk => by cases hk)
    intro k v hk; cases hk; exact ⟨H, hH, ht⟩
  | joinThrow hi _ _ => exact inv_same I hi .threw (Or.inr rfl)
  | @joined h w H hi he hH =>
    refine inv_release I hH _ (Or.inr (Or.inr (Or.inl ⟨w, rfl⟩))) ?_ _ (by rintro K ⟨⟩; rfl)
    intro v hv
    obtain ⟨H', h1, h2⟩ := I.joining h w hi
    rw [hH] at h1; cases h1
    rw [hv] at h2; cases h2
    exact Or.inl he
  | @detach h w H hi hH ht =>
    rw [idle_eq hi]
    refine inv_release I hH _ (Or.inr (Or.inr (Or.inr ⟨w, rfl⟩))) ?_ _ (by rintro K ⟨⟩; rfl)
    intro v hv; rw [ht] at hv; cases hv; exact Or.inr rfl
  | detachThrow hi _ _ => exact inv_same I hi .threw (Or.inr rfl)
  | @destroy h H hi hH ht =>
    rw [idle_eq hi]
    refine inv_release I hH _ (Or.inl rfl) ?_ _ (by rintro K ⟨⟩)
    intro v hv; rw [ht] at hv; cases hv
  | @destroyJoin h w H hi hH ht =>
    refine inv_wait I _ (fun v => by simp) (fun k v hk => by cases hk) ?_
    intro k v hk; cases hk; exact ⟨H, hH, ht⟩
  | @destroyed h w hi he =>
    obtain ⟨H, hH, ht⟩ := I.destroying h w hi
    refine inv_release I hH _ (Or.inr (Or.inr (Or.inl ⟨w, rfl⟩))) ?_ _ (by rintro K ⟨⟩)
    intro v hv; rw [ht] at hv; cases hv; exact Or.inl he
  | @work w s s' next h1 _ _ => exact inv_worker I _ _ (by rw [h1]; simp) (by rw [h1]; simp) (Or.inl (by rw [h1]; simp)) (by simp) (by simp) rfl
  | @pass w s s' h1 _ _ => exact inv_worker I _ _ (by rw [h1]; simp) (by rw [h1]; simp) (Or.inl (by rw [h1]; simp)) (by simp) (by simp) rfl
  | @interrupt w s s' h1 _ _ => exact inv_worker I _ _ (by rw [h1]; simp) (by rw [h1]; simp) (Or.inl (by rw [h1]; simp)) (by simp) (by simp) rfl
  | @waited w s s' h1 _ _ => exact inv_worker I _ _ (by rw [h1]; simp) (by rw [h1]; simp) (Or.inl (by rw [h1]; simp)) (by simp) (by simp) rfl
  | @test w s s' h1 _ _ => exact inv_worker I _ _ (by rw [h1]; simp) (by rw [h1]; simp) (Or.inl (by rw [h1]; simp)) (by simp) (by simp) rfl
  | @sleep w s h1 => exact inv_worker I _ _ (by rw [h1]; simp) (by rw [h1]; simp) (Or.inl (by rw [h1]; simp)) (by simp) (by simp) rfl
  | @spurious w s h1 => exact inv_worker I _ _ (by rw [h1]; simp) (by rw [h1]; simp) (Or.inl (by rw [h1]; simp)) (by simp) (by simp) rfl
  | @done w s h1 _ => exact inv_worker I _ _ (by rw [h1]; simp) (by rw [h1]; simp) (Or.inl (by rw [h1]; simp)) (by simp) (by simp) rfl
  | @leave w h1 => exact inv_worker I _ _ (by rw [h1]; simp) (by rw [h1]; simp) (Or.inr rfl) (by simp) (by simp) rfl

theorem inv_run (h : Run code Sys.init tr S) : Inv tr S := by
  generalize h0 : (Sys.init : Sys σ) = S0 at h
  induction h with
  | nil => subst h0; exact inv_init
  | snoc _ hs ih => exact inv_step ih hs

/-! ## Threads that slept through the stop -/

/-- How a worker got where it is in `stop_wait`. -/
structure Sleep (tr : List Ev) (S : Sys σ) : Prop where
  tested : ∀ w s, S.ws w = .tested s → ∃ a b, tr = a ++ Ev.tested w false :: b ∧ Ev.stored w ∉ a ∧ ∀ e ∈ b, Doer e ≠ some w
  asleep : ∀ w s, S.ws w = .asleep s → ∃ a b c, tr = a ++ Ev.tested w false :: b ++ Ev.slept w :: c ∧ Ev.stored w ∉ a ∧
    (∀ e ∈ b, Doer e ≠ some w) ∧ (∀ e ∈ c, Doer e ≠ some w) ∧ Ev.notified w ∉ c ∧ (Ev.stored w ∈ c → S.pc = .notifying w)

theorem ws_step (h : Step code S e T) (hd : Doer e ≠ some w) : T.ws w = S.ws w ∨ (e = .notified w ∧ T.ws w = wake (S.ws w)) ∨ e = .started w ∧ ∃ s, T.ws w = .run s := by
  cases h with
  | @spawn h s hi hn =>
    by_cases hv : w = S.nw
    · subst hv; exact Or.inr (Or.inr ⟨rfl, s, upd_same _ _ _⟩)
    · exact Or.inl (upd_ne _ _ hv)
  | @notify v hi hne =>
    by_cases hv : w = v
    · subst hv; exact Or.inr (Or.inl ⟨rfl, upd_same _ _ _⟩)
    · exact Or.inl (upd_ne _ _ hv)
  | work => left; exact upd_ne _ _ (by rintro rfl; exact hd rfl)
  | pass => left; exact upd_ne _ _ (by rintro rfl; exact hd rfl)
  | interrupt => left; exact upd_ne _ _ (by rintro rfl; exact hd rfl)
  | waited => left; exact upd_ne _ _ (by rintro rfl; exact hd rfl)
  | test => left; exact upd_ne _ _ (by rintro rfl; exact hd rfl)
  | sleep => left; exact upd_ne _ _ (by rintro rfl; exact hd rfl)
  | spurious => left; exact upd_ne _ _ (by rintro rfl; exact hd rfl)
  | done => left; exact upd_ne _ _ (by rintro rfl; exact hd rfl)
  | leave => left; exact upd_ne _ _ (by rintro rfl; exact hd rfl)
  | _ => exact Or.inl rfl

/-- Only the main thread's own step ends its notifying. -/
theorem pc_step (h : Step code S e T) (hp : S.pc = .notifying w) : T.pc = .notifying w ∨ e = .notified w := by
  cases h with
  | @notify v hi _ => rw [hi] at hp; cases hp; exact Or.inr rfl
  | work => exact Or.inl hp
  | pass => exact Or.inl hp
  | interrupt => exact Or.inl hp
  | waited => exact Or.inl hp
  | test => exact Or.inl hp
  | sleep => exact Or.inl hp
  | spurious => exact Or.inl hp
  | done => exact Or.inl hp
  | leave => exact Or.inl hp
  | mk hi => rw [hi] at hp; cases hp
  | spawn _ hi => rw [hi] at hp; cases hp
  | moveCtor hi => rw [hi] at hp; cases hp
  | moveAssign hi => rw [hi] at hp; cases hp
  | moveSelf hi => rw [hi] at hp; cases hp
  | stop hi => rw [hi] at hp; cases hp
  | join hi => rw [hi] at hp; cases hp
  | joinThrow hi => rw [hi] at hp; cases hp
  | joined hi => rw [hi] at hp; cases hp
  | detach hi => rw [hi] at hp; cases hp
  | detachThrow hi => rw [hi] at hp; cases hp
  | destroy hi => rw [hi] at hp; cases hp
  | destroyJoin hi => rw [hi] at hp; cases hp
  | destroyed hi => rw [hi] at hp; cases hp

theorem stored_step (h : Step code S (.stored w) T) : T.pc = .notifying w := by
  cases h; rfl

/-- What a step of the worker itself can be when it ends in `stop_wait`. -/
theorem into_tested (h : Step code S e T) (hd : Doer e = some w) {s : σ} (ht : T.ws w = .tested s) : e = .tested w false ∧ S.flag w = false := by
  cases h <;> simp [Doer] at hd
  case test h1 h2 h3 => subst hd; exact ⟨rfl, h3⟩
  all_goals (subst hd; rw [show (_ : Sys σ).ws _ = _ from upd_same _ _ _] at ht; cases ht)

theorem into_asleep (h : Step code S e T) (hd : Doer e = some w) {s : σ} (ht : T.ws w = .asleep s) : e = .slept w ∧ S.ws w = .tested s := by
  cases h <;> simp [Doer] at hd
  case sleep h1 => subst hd; rw [show (_ : Sys σ).ws _ = _ from upd_same _ _ _] at ht; cases ht; exact ⟨rfl, h1⟩
  all_goals (subst hd; rw [show (_ : Sys σ).ws _ = _ from upd_same _ _ _] at ht; cases ht)

theorem sleep_run (h : Run code Sys.init tr S) : Sleep tr S := by
  generalize h0 : (Sys.init : Sys σ) = S0 at h
  induction h with
  | nil => subst h0; constructor <;> (intro w s h; simp [Sys.init] at h)
  | @snoc T U tr e hr hs ih =>
    subst h0
    have I := inv_run hr
    have D := ih
    constructor
    · intro w s hw
      by_cases hd : Doer e = some w
      · obtain ⟨rfl, hf⟩ := into_tested hs hd hw
        refine ⟨tr, [], rfl, ?_, by simp⟩
        rw [← I.flag w, hf]; simp
      · rcases ws_step hs hd with h1 | ⟨_, h1⟩ | ⟨_, s', h1⟩
        · rw [h1] at hw
          obtain ⟨a, b, h2, h3, h4⟩ := D.tested w s hw
          refine ⟨a, b ++ [e], by rw [h2]; simp, h3, ?_⟩
          intro x hx
          rcases List.mem_append.mp hx with hx | hx
          · exact h4 x hx
          · rw [List.mem_singleton.mp hx]; exact hd
        · rw [h1] at hw
          cases hww : T.ws w with
          | tested s' =>
            rw [hww] at hw
            obtain ⟨a, b, h2, h3, h4⟩ := D.tested w s' hww
            refine ⟨a, b ++ [e], by rw [h2]; simp, h3, ?_⟩
            intro x hx
            rcases List.mem_append.mp hx with hx | hx
            · exact h4 x hx
            · rw [List.mem_singleton.mp hx]; exact hd
          | _ => rw [hww] at hw; simp [wake] at hw
        · rw [h1] at hw; cases hw
    · intro w s hw
      by_cases hd : Doer e = some w
      · obtain ⟨rfl, ht⟩ := into_asleep hs hd hw
        obtain ⟨a, b, h2, h3, h4⟩ := D.tested w s ht
        exact ⟨a, b, [], by rw [h2], h3, h4, by simp, by simp, by simp⟩
      · rcases ws_step hs hd with h1 | ⟨_, h1⟩ | ⟨_, s', h1⟩
        · rw [h1] at hw
          obtain ⟨a, b, c, h2, h3, h4, h5, h6, h7⟩ := D.asleep w s hw
          have hnn : e ≠ .notified w := by
            rintro rfl
            cases hs with
            | notify hi hne =>
              have h1' : upd T.ws w (wake (T.ws w)) w = T.ws w := h1
              rw [upd_same, hw] at h1'
              cases h1'
          refine ⟨a, b, c ++ [e], by rw [h2]; simp, h3, h4, ?_, ?_, ?_⟩
          · intro x hx
            rcases List.mem_append.mp hx with hx | hx
            · exact h5 x hx
            · rw [List.mem_singleton.mp hx]; exact hd
          · intro hx
            rcases List.mem_append.mp hx with hx | hx
            · exact h6 hx
            · exact hnn (List.mem_singleton.mp hx).symm
          · intro hx
            rcases List.mem_append.mp hx with hx | hx
            · exact (pc_step hs (h7 hx)).resolve_right hnn
            · rw [← List.mem_singleton.mp hx] at hs; exact stored_step hs
        · rw [h1] at hw
          cases hww : T.ws w <;> rw [hww] at hw <;> simp [wake] at hw
        · rw [h1] at hw; cases hw

/-! ## Who holds a thread -/

structure Own (tr : List Ev) (S : Sys σ) : Prop where
  same : ∀ h H w, S.hs h = some H → H.thr = some w → H.flag = some w
  uniq : ∀ h k H K w, S.hs h = some H → S.hs k = some K → H.thr = some w → K.thr = some w → h = k
  gone : ∀ h H w, S.hs h = some H → H.thr = some w → Ev.joined w ∉ tr ∧ Ev.detached w ∉ tr
  kept : ∀ w, w < S.nw → Ev.joined w ∉ tr → Ev.detached w ∉ tr → ∃ h H, S.hs h = some H ∧ H.thr = some w

theorem own_keep (O : Own tr S) (hh : T.hs = S.hs) (hn : T.nw = S.nw) (hj : ∀ w, e ≠ .joined w) (hd : ∀ w, e ≠ .detached w) : Own (tr ++ [e]) T := by
  have h1 : ∀ w, Ev.joined w ∈ tr ++ [e] ↔ Ev.joined w ∈ tr := by
    intro w; simp only [List.mem_append, List.mem_singleton]
    exact ⟨fun h => h.elim id (fun h => absurd h.symm (hj w)), Or.inl⟩
  have h2 : ∀ w, Ev.detached w ∈ tr ++ [e] ↔ Ev.detached w ∈ tr := by
    intro w; simp only [List.mem_append, List.mem_singleton]
    exact ⟨fun h => h.elim id (fun h => absurd h.symm (hd w)), Or.inl⟩
  constructor
  · rw [hh]; exact O.same
  · rw [hh]; exact O.uniq
  · rw [hh]; intro h H w a b; rw [h1, h2]; exact O.gone h H w a b
  · rw [hh, hn]; intro w a b c; rw [h1] at b; rw [h2] at c; exact O.kept w a b c

theorem own_move (O : Own tr S) {h h' : Nat} {H : Handle} (hh : ∀ G, S.hs h = some G → G.thr = none) (hH : S.hs h' = some H) (hne : h ≠ h') :
    Own (tr ++ [.main]) { S with hs := upd (upd S.hs h' (some ⟨none, H.flag⟩)) h (some H) } := by
  have hl : ∀ k K w, upd (upd S.hs h' (some ⟨none, H.flag⟩)) h (some H) k = some K → K.thr = some w →
      (k = h ∧ K = H) ∨ (k ≠ h ∧ k ≠ h' ∧ S.hs k = some K) := by
    intro k K w hk hw
    by_cases h1 : k = h
    · subst h1; rw [upd_same] at hk; cases hk; exact Or.inl ⟨rfl, rfl⟩
    · rw [upd_ne _ _ h1] at hk
      by_cases h2 : k = h'
      · subst h2; rw [upd_same] at hk; cases hk; cases hw
      · rw [upd_ne _ _ h2] at hk; exact Or.inr ⟨h1, h2, hk⟩
  constructor
  · intro k K w hk hw
    rcases hl k K w hk hw with ⟨rfl, rfl⟩ | ⟨_, _, h1⟩
    · exact O.same h' _ w hH hw
    · exact O.same k K w h1 hw
  · intro k l K L w hk hl' hK hL
    rcases hl k K w hk hK with ⟨rfl, rfl⟩ | ⟨_, h2, h1⟩ <;> rcases hl l L w hl' hL with ⟨rfl, rfl⟩ | ⟨_, h4, h3⟩
    · rfl
    · exact absurd (O.uniq h' l _ L w hH h3 hK hL).symm h4
    · exact absurd (O.uniq h' k _ K w hH h1 hL hK).symm h2
    · exact O.uniq k l K L w h1 h3 hK hL
  · intro k K w hk hw
    simp only [List.mem_append, List.mem_singleton, reduceCtorEq, or_false]
    rcases hl k K w hk hw with ⟨rfl, rfl⟩ | ⟨_, _, h1⟩
    · exact O.gone h' _ w hH hw
    · exact O.gone k K w h1 hw
  · intro w hw hj hd
    simp only [List.mem_append, List.mem_singleton, reduceCtorEq, or_false] at hj hd
    obtain ⟨k, K, h1, h2⟩ := O.kept w hw hj hd
    by_cases hk : k = h'
    · subst hk
      rw [hH] at h1; cases h1
      exact ⟨h, H, upd_same _ _ _, h2⟩
    · have hk' : k ≠ h := by
        rintro rfl
        rw [hh K h1] at h2; cases h2
      exact ⟨k, K, ((upd_ne _ _ hk').trans (upd_ne _ _ hk)).trans h1, h2⟩

/-- A handle that has no thread, or whose thread is let go of by this very step, is replaced or destroyed. -/
theorem own_release (O : Own tr S) {h : Nat} {H : Handle} (hH : S.hs h = some H) (e : Ev) (G : Option Handle) (hG : ∀ K, G = some K → K.thr = none)
    (he : (e = .main ∧ H.thr = none) ∨ ∃ v, H.thr = some v ∧ (e = .joined v ∨ e = .detached v)) :
    Own (tr ++ [e]) { S with hs := upd S.hs h G, pc := .idle } := by
  have hl : ∀ k K w, upd S.hs h G k = some K → K.thr = some w → k ≠ h ∧ S.hs k = some K := by
    intro k K w hk hw
    by_cases h1 : k = h
    · subst h1; rw [upd_same] at hk; rw [hG K hk] at hw; cases hw
    · rw [upd_ne _ _ h1] at hk; exact ⟨h1, hk⟩
  constructor
  · intro k K w hk hw; exact O.same k K w (hl k K w hk hw).2 hw
  · intro k l K L w hk hl' hK hL
    exact O.uniq k l K L w (hl k K w hk hK).2 (hl l L w hl' hL).2 hK hL
  · intro k K w hk hw
    obtain ⟨h1, h2⟩ := hl k K w hk hw
    have h3 := O.gone k K w h2 hw
    have : ∀ v, H.thr = some v → w ≠ v := by
      rintro v hv rfl
      exact h1 (O.uniq k h K H w h2 hH hw hv)
    rcases he with ⟨rfl, _⟩ | ⟨v, hv, rfl | rfl⟩
    · simpa using h3
    · simpa [this v hv] using h3
    · simpa [this v hv] using h3
  · intro w hw hj hd
    obtain ⟨k, K, h1, h2⟩ := O.kept w hw (fun h => hj (List.mem_append_left _ h)) (fun h => hd (List.mem_append_left _ h))
    have hk : k ≠ h := by
      rintro rfl
      rw [hH] at h1; cases h1
      rcases he with ⟨rfl, h3⟩ | ⟨v, hv, rfl | rfl⟩
      · rw [h3] at h2; cases h2
      · rw [hv] at h2; cases h2; simp at hj
      · rw [hv] at h2; cases h2; simp at hd
    exact ⟨k, K, (upd_ne _ _ hk).trans h1, h2⟩

theorem own_step (I : Inv tr S) (O : Own tr S) (J : ∀ w, Ev.joined w ∈ tr ∨ Ev.detached w ∈ tr → w < S.nw) (h : Step code S e T) : Own (tr ++ [e]) T := by
  cases h with
  | @mk h hi hn =>
    have hl : ∀ k K w, upd S.hs h (some ⟨none, none⟩) k = some K → K.thr = some w → S.hs k = some K := by
      intro k K w hk hw
      by_cases h1 : k = h
      · subst h1; rw [upd_same] at hk; cases hk; cases hw
      · rw [upd_ne _ _ h1] at hk; exact hk
    constructor
    · intro k K w hk hw; exact O.same k K w (hl k K w hk hw) hw
    · intro k l K L w hk hl' hK hL
      exact O.uniq k l K L w (hl k K w hk hK) (hl l L w hl' hL) hK hL
    · intro k K w hk hw
      simpa using O.gone k K w (hl k K w hk hw) hw
    · intro w hw hj hd
      obtain ⟨k, K, h1, h2⟩ := O.kept w hw (fun h => hj (List.mem_append_left _ h)) (fun h => hd (List.mem_append_left _ h))
      exact ⟨k, K, (upd_ne _ _ (by rintro rfl; rw [hn] at h1; cases h1)).trans h1, h2⟩
  | @spawn h s hi hn =>
    have hl : ∀ k K w, upd S.hs h (some ⟨some S.nw, some S.nw⟩) k = some K → K.thr = some w →
        (k = h ∧ K = ⟨some S.nw, some S.nw⟩ ∧ w = S.nw) ∨ (S.hs k = some K ∧ w < S.nw) := by
      intro k K w hk hw
      by_cases h1 : k = h
      · subst h1; rw [upd_same] at hk; cases hk; cases hw; exact Or.inl ⟨rfl, rfl, rfl⟩
      · rw [upd_ne _ _ h1] at hk; exact Or.inr ⟨hk, I.hthr k K w hk hw⟩
    constructor
    · intro k K w hk hw
      rcases hl k K w hk hw with ⟨_, rfl, rfl⟩ | ⟨h1, _⟩
      · rfl
      · exact O.same k K w h1 hw
    · intro k l K L w hk hl' hK hL
      rcases hl k K w hk hK with ⟨rfl, _, h0⟩ | ⟨h1, h2⟩ <;> rcases hl l L w hl' hL with ⟨rfl, _, h0'⟩ | ⟨h3, h4⟩
      · rfl
      · omega
      · omega
      · exact O.uniq k l K L w h1 h3 hK hL
    · intro k K w hk hw
      simp only [List.mem_append, List.mem_singleton, reduceCtorEq, or_false]
      rcases hl k K w hk hw with ⟨_, _, rfl⟩ | ⟨h1, _⟩
      · exact ⟨fun h => Nat.lt_irrefl _ (J _ (Or.inl h)), fun h => Nat.lt_irrefl _ (J _ (Or.inr h))⟩
      · exact O.gone k K w h1 hw
    · intro w hw hj hd
      have hw' : w < S.nw + 1 := hw
      by_cases hv : w = S.nw
      · subst hv; exact ⟨h, _, upd_same _ _ _, rfl⟩
      · obtain ⟨k, K, h1, h2⟩ := O.kept w (by omega) (fun h => hj (List.mem_append_left _ h)) (fun h => hd (List.mem_append_left _ h))
        exact ⟨k, K, (upd_ne _ _ (by rintro rfl; rw [hn] at h1; cases h1)).trans h1, h2⟩
  | @moveCtor h h' H hi hn hH =>
    exact own_move O (fun G hG => by rw [hn] at hG; cases hG) hH (by rintro rfl; rw [hn] at hH; cases hH)
  | @moveAssign h h' G H hi hG ht hH hne =>
    exact own_move O (fun G' hG' => by rw [hG] at hG'; cases hG'; exact ht) hH hne
  | @joined h w H hi he hH =>
    obtain ⟨H', h1, h2⟩ := I.joining h w hi
    rw [hH] at h1; cases h1
    exact own_release O hH _ _ (by rintro K ⟨⟩; rfl) (Or.inr ⟨w, h2, Or.inl rfl⟩)
  | @detach h w H hi hH ht =>
    rw [idle_eq hi]
    exact own_release O hH _ _ (by rintro K ⟨⟩; rfl) (Or.inr ⟨w, ht, Or.inr rfl⟩)
  | @destroy h H hi hH ht =>
    rw [idle_eq hi]
    exact own_release O hH _ _ (by rintro K ⟨⟩) (Or.inl ⟨rfl, ht⟩)
  | @destroyed h w hi he =>
    obtain ⟨H, hH, ht⟩ := I.destroying h w hi
    exact own_release O hH _ _ (by rintro K ⟨⟩) (Or.inr ⟨w, ht, Or.inl rfl⟩)
  | _ => exact own_keep O rfl rfl (fun w h => by cases h) (fun w h => by cases h)

/-- A joined or detached worker was started. -/
theorem let_go (h : Run code Sys.init tr S) : ∀ w, Ev.joined w ∈ tr ∨ Ev.detached w ∈ tr → w < S.nw := by
  generalize h0 : (Sys.init : Sys σ) = S0 at h
  induction h with
  | nil => intro w h; simp at h
  | @snoc T U tr e hr hs ih =>
    subst h0
    have I := inv_run hr
    have I' := inv_step I hs
    intro w hw
    have hold : (Ev.joined w ∈ tr ∨ Ev.detached w ∈ tr) → w < U.nw := by
      intro h
      have := (I.started w).mp (ih w h)
      exact (I'.started w).mpr (List.mem_append_left _ this)
    have hthr : ∀ h H, T.hs h = some H → H.thr = some w → w < U.nw := by
      intro h H h1 h2
      have := (I.started w).mp (I.hthr h H w h1 h2)
      exact (I'.started w).mpr (List.mem_append_left _ this)
    simp only [List.mem_append, List.mem_singleton] at hw
    rcases hw with (hw | hw) | (hw | hw)
    · exact hold (Or.inl hw)
    · subst hw
      cases hs with
      | joined hi _ _ => obtain ⟨H, h1, h2⟩ := I.joining _ _ hi; exact hthr _ H h1 h2
      | destroyed hi _ => obtain ⟨H, h1, h2⟩ := I.destroying _ _ hi; exact hthr _ H h1 h2
    · exact hold (Or.inr hw)
    · subst hw
      cases hs with
      | detach _ h1 h2 => exact hthr _ _ h1 h2

theorem own_run (h : Run code Sys.init tr S) : Own tr S := by
  generalize h0 : (Sys.init : Sys σ) = S0 at h
  induction h with
  | nil => subst h0; constructor <;> simp [Sys.init]
  | snoc hr hs ih => subst h0; exact own_step (inv_run hr) ih (let_go hr) hs

/-! ## A worker told to stop -/

theorem steps_nil : steps w [] = 0 := rfl

theorem steps_snoc_self (hd : Doer e = some w) : steps w (tr ++ [e]) = steps w tr + 1 := by
  simp [steps, List.filter_append, hd]

theorem steps_snoc_other (hd : Doer e ≠ some w) : steps w (tr ++ [e]) = steps w tr := by
  simp [steps, List.filter_append, hd]

/-- The flag of a started worker stays set. -/
theorem flag_step (h : Step code S e T) (hf : S.flag w = true) (hw : w < S.nw) : T.flag w = true := by
  cases h with
  | @spawn h s hi hn => exact (upd_ne _ _ (by omega)).trans hf
  | @stop h v H hi hH hfl hne =>
    by_cases hv : w = v
    · subst hv; exact upd_same _ _ _
    · exact (upd_ne _ _ hv).trans hf
  | _ => exact hf

theorem nw_step (h : Step code S e T) : S.nw ≤ T.nw := by
  cases h with
  | spawn => exact Nat.le_succ _
  | _ => exact Nat.le_refl _

theorem Polls.mono {n m : Nat} {s : σ} (h : Polls code n s) (hm : n ≤ m) : Polls code m s := by
  induction h generalizing m with
  | poll h => exact .poll h
  | done h => exact .done h
  | @work n s next h he _ ih =>
    obtain ⟨k, rfl⟩ := Nat.exists_eq_add_of_le hm
    rw [show n + 1 + k = (n + k) + 1 by omega]
    exact .work h he (fun s' hs => ih s' hs (by omega))
  | @wait n s s' h _ ih =>
    obtain ⟨k, rfl⟩ := Nat.exists_eq_add_of_le hm
    rw [show n + 1 + k = (n + k) + 1 by omega]
    exact .wait h (ih (by omega))

/-- How far a worker told to stop is from its end. -/
inductive Left (code : σ → Instr σ) : Nat → WS σ → Prop where
  | run {n : Nat} {s : σ} : Polls code n s → Left code (n + 2) (.run s)
  | leaving {n : Nat} : Left code (n + 1) .leaving
  | ended {n : Nat} : Left code n .ended

/-- A step of its own brings it nearer. -/
theorem left_step {n : Nat} (h : Step code S e T) (hf : S.flag w = true) (hl : Left code n (S.ws w)) (hd : Doer e = some w) :
    ∃ m, n = m + 1 ∧ Left code m (T.ws w) := by
  cases h <;> simp [Doer] at hd <;> subst hd
  case work s s' next h1 h2 h3 =>
    rw [h1] at hl
    cases hl with
    | @run n _ hp =>
      refine ⟨n + 1, rfl, ?_⟩
      rw [show (_ : Sys σ).ws _ = _ from upd_same _ _ _]
      cases hp with
      | poll h => rw [h2] at h; cases h
      | done h => rw [h2] at h; cases h
      | work h he ha => rw [h2] at h; cases h; exact .run (ha _ h3)
      | wait h => rw [h2] at h; cases h
  case pass h3 => rw [hf] at h3; cases h3
  case interrupt s s' h1 h2 h3 =>
    rw [h1] at hl
    cases hl with
    | @run n _ hp =>
      refine ⟨n + 1, rfl, ?_⟩
      rw [show (_ : Sys σ).ws _ = _ from upd_same _ _ _]
      exact .leaving
  case waited s s' h1 h2 h3 =>
    rw [h1] at hl
    cases hl with
    | @run n _ hp =>
      refine ⟨n + 1, rfl, ?_⟩
      rw [show (_ : Sys σ).ws _ = _ from upd_same _ _ _]
      cases hp with
      | poll h => rw [h2] at h; cases h
      | done h => rw [h2] at h; cases h
      | work h he ha => rw [h2] at h; cases h
      | wait h hp => rw [h2] at h; cases h; exact .run hp
  case test h3 => rw [hf] at h3; cases h3
  case sleep h1 => rw [h1] at hl; cases hl
  case spurious h1 => rw [h1] at hl; cases hl
  case done s h1 h2 =>
    rw [h1] at hl
    cases hl with
    | @run n _ hp => exact ⟨n + 1, rfl, by rw [show (_ : Sys σ).ws _ = _ from upd_same _ _ _]; exact .ended⟩
  case leave h1 =>
    rw [h1] at hl
    cases hl with
    | @leaving n => exact ⟨n, rfl, by rw [show (_ : Sys σ).ws _ = _ from upd_same _ _ _]; exact .ended⟩

/-- A step of another thread leaves it where it is. -/
theorem left_other {n : Nat} (I : Inv tr S) (h : Step code S e T) (hl : Left code n (S.ws w)) (hd : Doer e ≠ some w) : Left code n (T.ws w) := by
  rcases ws_step h hd with h1 | ⟨_, h1⟩ | ⟨he, s, h1⟩
  · rw [h1]; exact hl
  · rw [h1]
    generalize S.ws w = x at hl
    cases hl with
    | run h => exact .run h
    | leaving => exact .leaving
    | ended => exact .ended
  · exfalso
    subst he
    cases h with
    | spawn => rw [I.absent _ (Nat.le_refl _)] at hl; cases hl

theorem left_run {n : Nat} (h : Run code Sys.init tr S) (hf : S.flag w = true) (hl : Left code n (S.ws w)) (h' : Run code S tr' T) :
    ∃ m, steps w tr' + m = n ∧ Left code m (T.ws w) ∧ T.flag w = true := by
  induction h' with
  | nil => exact ⟨n, by simp [steps_nil], hl, hf⟩
  | @snoc T U tr' e hr hs ih =>
    obtain ⟨m, h1, h2, h3⟩ := ih
    have I := inv_run (h.append hr)
    have hw : w < T.nw := lt_of_ws I (by intro h; rw [h] at h2; cases h2)
    have hf' := flag_step hs h3 hw
    by_cases hd : Doer e = some w
    · obtain ⟨k, rfl, hk⟩ := left_step hs h3 h2 hd
      exact ⟨k, by rw [steps_snoc_self hd]; omega, hk, hf'⟩
    · exact ⟨m, by rw [steps_snoc_other hd]; exact h1, left_other I hs h2 hd, hf'⟩

/-- It can always make the next step. -/
theorem left_live {n : Nat} (hf : S.flag w = true) (hl : Left code n (S.ws w)) (hn : S.ws w ≠ .ended) : ∃ e T, Doer e = some w ∧ Step code S e T := by
  generalize hx : S.ws w = x at hl
  cases hl with
  | run hp =>
    cases hp with
    | poll h => exact ⟨_, _, rfl, .interrupt hx h hf⟩
    | done h => exact ⟨_, _, rfl, .done hx h⟩
    | work h he _ => obtain ⟨s', hs⟩ := he; exact ⟨_, _, rfl, .work hx h hs⟩
    | wait h _ => exact ⟨_, _, rfl, .waited hx h hf⟩
  | leaving => exact ⟨_, _, rfl, .leave hx⟩
  | ended => exact absurd hx hn

/-- Alone, it ends. -/
theorem left_ends {n : Nat} (hf : S.flag w = true) (hl : Left code n (S.ws w)) :
    ∃ tr T, Run code S tr T ∧ T.ws w = .ended ∧ T.pc = S.pc ∧ T.hs = S.hs ∧ ∀ e ∈ tr, Doer e = some w := by
  induction n generalizing S with
  | zero =>
    refine ⟨[], S, .nil S, ?_, rfl, rfl, by simp⟩
    generalize S.ws w = x at hl
    cases hl; rfl
  | succ n ih =>
    by_cases hne : S.ws w = .ended
    · exact ⟨[], S, .nil S, hne, rfl, rfl, by simp⟩
    · obtain ⟨e, T, hd, hs⟩ := left_live hf hl hne
      obtain ⟨m, hm, hl'⟩ := left_step hs hf hl hd
      cases hm
      have hpc : T.pc = S.pc ∧ T.hs = S.hs ∧ T.flag = S.flag := by
        cases hs <;> simp [Doer] at hd <;> exact ⟨rfl, rfl, rfl⟩
      obtain ⟨tr, U, h1, h2, h3, h4, h5⟩ := ih (S := T) (by rw [hpc.2.2]; exact hf) hl'
      refine ⟨_, U, (Run.one hs).append h1, h2, h3.trans hpc.1, h4.trans hpc.2.1, ?_⟩
      intro x hx
      rcases List.mem_cons.mp hx with rfl | hx
      · exact hd
      · exact h5 x hx

/-! ## A worker asleep -/

theorem asleep_run {s : σ} (I : w < S.nw) (hw : S.ws w = .asleep s) (h : Run code S tr T) (h1 : Ev.woke w ∉ tr) (h2 : Ev.notified w ∉ tr) :
    T.ws w = .asleep s ∧ steps w tr = 0 ∧ w < T.nw := by
  induction h with
  | nil => exact ⟨hw, rfl, I⟩
  | @snoc T U tr e hr hs ih =>
    simp only [List.mem_append, List.mem_singleton, not_or] at h1 h2
    obtain ⟨h3, h4, h5⟩ := ih h1.1 h2.1
    have hd : Doer e ≠ some w := by
      intro hd
      cases hs <;> simp [Doer] at hd <;> subst hd
      case spurious => exact h1.2 rfl
      all_goals simp_all
    refine ⟨?_, by rw [steps_snoc_other hd]; exact h4, Nat.lt_of_lt_of_le h5 (nw_step hs)⟩
    rcases ws_step hs hd with h6 | ⟨h6, _⟩ | ⟨h6, _⟩
    · rw [h6]; exact h3
    · exact absurd h6.symm h2.2
    · subst h6
      cases hs
      omega

end Verif.Stop
