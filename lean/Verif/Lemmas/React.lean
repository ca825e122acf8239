import Verif.Model.React
import Mathlib.Tactic.Tauto
import Mathlib.Tactic.ByContra
import Mathlib.Data.List.Basic
import Mathlib.Data.List.TakeWhile
import Mathlib.Data.List.Nodup
/-! # Lemmas about subjects and observers -/
namespace Verif
namespace React

/-- Observer `o` lists subject `s` at position `j`. -/
def Dep (h : Net) (o j s : Nat) : Prop := (h.deps o)[j]? = some (some s)

structure Inv (h : Net) : Prop where
  mirror : ∀ o j s, Dep h o j s ↔ (o, j) ∈ h.aud s
  depAlive : ∀ o j s, Dep h o j s → h.sAlive s = true ∧ h.oAlive o = true
  kill : ∀ o s, s ∈ h.ondeath o ↔ o ∈ h.killers s
  killAlive : ∀ o s, s ∈ h.ondeath o → h.sAlive s = true ∧ h.oAlive o = true
  audNodup : ∀ s, (h.aud s).Nodup
  killersNodup : ∀ s, (h.killers s).Nodup
  ondeathNodup : ∀ o, (h.ondeath o).Nodup

/-- Lifetimes and registrations agree. -/
structure SameLife (h h' : Net) : Prop where
  killers : h'.killers = h.killers
  ondeath : h'.ondeath = h.ondeath
  sAlive : h'.sAlive = h.sAlive
  oAlive : h'.oAlive = h.oAlive

theorem SameLife.refl (h : Net) : SameLife h h := ⟨rfl, rfl, rfl, rfl⟩

theorem SameLife.trans {a b c : Net} (h1 : SameLife a b) (h2 : SameLife b c) : SameLife a c :=
  ⟨h2.1.trans h1.1, h2.2.trans h1.2, h2.3.trans h1.3, h2.4.trans h1.4⟩

theorem upd_same {α : Type} (f : Nat → α) (k : Nat) (v : α) : upd f k v k = v := by simp [upd]

theorem upd_ne {α : Type} (f : Nat → α) {k x : Nat} (v : α) (h : x ≠ k) : upd f k v x = f x := by
  simp [upd, h]

theorem Inv.empty : Inv Net.empty := by
  constructor <;> simp [Net.empty, Dep]

/-- Invariant rule for loops. -/
theorem forEach_inv {α σ : Type} (P : List α → σ → Prop) (body : α → σ → Outcome σ) (l : List α) (h : σ)
    (h0 : P l h) (hs : ∀ x xs g, P (x :: xs) g → ∃ g', body x g = .ok g' ∧ P xs g') :
    ∃ g', forEach body l h = .ok g' ∧ P [] g' := by
  induction l generalizing h with
  | nil => exact ⟨h, rfl, h0⟩
  | cons x xs ih =>
    obtain ⟨g, h1, h2⟩ := hs x xs h h0
    obtain ⟨g', h3, h4⟩ := ih g h2
    exact ⟨g', by simp [forEach, h1, h3], h4⟩

/-- Safety rule for loops: whatever a loop that succeeds ends in. -/
theorem forEach_ok {α σ : Type} (P : List α → σ → Prop) (body : α → σ → Outcome σ) (l : List α) (h h' : σ)
    (h0 : P l h) (hs : ∀ x xs g g', P (x :: xs) g → body x g = .ok g' → P xs g')
    (hr : forEach body l h = .ok h') : P [] h' := by
  induction l generalizing h with
  | nil => simp [forEach] at hr; exact hr ▸ h0
  | cons x xs ih =>
    rw [forEach, Outcome.bind_eq_ok] at hr
    obtain ⟨g, h1, h2⟩ := hr
    exact ih g (hs x xs h g h0 h1) h2

/-! ### attach, detach -/

theorem attach_eq {h : Net} {s : Nat} (o i : Nat) (ha : h.sAlive s = true) :
    attach s o i h = .ok { h with aud := upd h.aud s (if (o, i) ∈ h.aud s then h.aud s else (o, i) :: h.aud s), book := Record.capture (h.recb o) o s i h.book } := by
  simp [attach, needS, ha]

theorem mem_attach {h : Net} {s o i x j t : Nat} :
    (x, j) ∈ upd h.aud s (if (o, i) ∈ h.aud s then h.aud s else (o, i) :: h.aud s) t ↔
      (x, j) ∈ h.aud t ∨ (t = s ∧ x = o ∧ j = i) := by
  by_cases ht : t = s
  · subst ht
    rw [upd_same]
    split
    · rename_i hm
      constructor
      · exact Or.inl
      · rintro (h1 | ⟨_, rfl, rfl⟩)
        · exact h1
        · exact hm
    · simp [Prod.ext_iff, or_comm]
  · rw [upd_ne _ _ ht]; simp [ht]

theorem nodup_attach {h : Net} {s o i : Nat} (hn : ∀ t, (h.aud t).Nodup) (t : Nat) :
    (upd h.aud s (if (o, i) ∈ h.aud s then h.aud s else (o, i) :: h.aud s) t).Nodup := by
  by_cases ht : t = s
  · subst ht
    rw [upd_same]
    split
    · exact hn _
    · rename_i hm; exact List.nodup_cons.2 ⟨hm, hn _⟩
  · rw [upd_ne _ _ ht]; exact hn _

theorem detach_eq {h : Net} {s : Nat} (o i : Nat) (ha : h.sAlive s = true) :
    detach s o i h = .ok { h with aud := upd h.aud s ((h.aud s).filter (fun p => p ≠ (o, i))), book := Record.release o s i h.book } := by
  simp [detach, needS, ha]

theorem mem_detach {h : Net} {s o i x j t : Nat} :
    (x, j) ∈ upd h.aud s ((h.aud s).filter (fun p => p ≠ (o, i))) t ↔
      (x, j) ∈ h.aud t ∧ ¬ (t = s ∧ x = o ∧ j = i) := by
  by_cases ht : t = s
  · subst ht
    rw [upd_same]
    simp [Prod.ext_iff]; tauto
  · rw [upd_ne _ _ ht]; simp [ht]

theorem nodup_detach {h : Net} {s o i : Nat} (hn : ∀ t, (h.aud t).Nodup) (t : Nat) :
    (upd h.aud s ((h.aud s).filter (fun p => p ≠ (o, i))) t).Nodup := by
  by_cases ht : t = s
  · subst ht
    rw [upd_same]; exact (hn _).filter _
  · rw [upd_ne _ _ ht]; exact hn _

/-! ### lists of dependencies -/

theorem popNulls_spec (l : List (Option Nat)) : ∃ k, l = popNulls l ++ List.replicate k none := by
  refine ⟨(l.reverse.takeWhile Option.isNone).length, ?_⟩
  have h1 : l.reverse.takeWhile Option.isNone
      = List.replicate (l.reverse.takeWhile Option.isNone).length none := by
    rw [List.eq_replicate_iff]
    refine ⟨rfl, fun b hb => ?_⟩
    have := List.mem_takeWhile_imp hb
    simpa using this
  have h2 := List.takeWhile_append_dropWhile (p := Option.isNone) (l := l.reverse)
  have h3 : l = (l.reverse.dropWhile Option.isNone).reverse ++ (l.reverse.takeWhile Option.isNone).reverse := by
    rw [← List.reverse_append, h2, List.reverse_reverse]
  rw [popNulls]
  conv => lhs; rw [h3]
  rw [h1]; simp

theorem popNulls_get (l : List (Option Nat)) (j s : Nat) :
    (popNulls l)[j]? = some (some s) ↔ l[j]? = some (some s) := by
  obtain ⟨k, hk⟩ := popNulls_spec l
  conv => rhs; rw [hk]
  rw [List.getElem?_append]
  split
  · rfl
  · rename_i hl
    rw [List.getElem?_eq_none (by omega), List.getElem?_replicate]
    split <;> simp

theorem popNulls_last (l : List (Option Nat)) : popNulls l = [] ∨ ∃ s, (popNulls l).getLast? = some (some s) := by
  unfold popNulls
  rw [List.getLast?_reverse]
  cases h : l.reverse.dropWhile Option.isNone with
  | nil => left; rfl
  | cons a as =>
    right
    have := List.head?_dropWhile_not (p := Option.isNone) l.reverse
    rw [h] at this
    cases a with
    | none => simp at this
    | some s => exact ⟨s, rfl⟩

theorem setSlot_get (l : List (Option Nat)) (i : Nat) (d : Option Nat) (j s : Nat) :
    (setSlot l i d)[j]? = some (some s) ↔ (j = i ∧ d = some s) ∨ (j ≠ i ∧ l[j]? = some (some s)) := by
  unfold setSlot
  rw [List.getElem?_set]
  by_cases hj : i = j
  · subst hj
    have : i < (l ++ List.replicate (i + 1 - l.length) none).length := by simp; omega
    rw [if_pos rfl, if_pos this]; simp
  · rw [if_neg hj, List.getElem?_append]
    have hj' : j ≠ i := fun h => hj h.symm
    split
    · simp [hj']
    · rw [List.getElem?_eq_none (l := l) (by omega), List.getElem?_replicate]
      split <;> simp [hj']

theorem setSlot_length (l : List (Option Nat)) (i : Nat) (d : Option Nat) :
    (setSlot l i d).length = max l.length (i + 1) := by
  simp [setSlot]; omega

theorem dep_upd {h : Net} {o : Nat} {l : List (Option Nat)} {aud : Nat → List (Nat × Nat)} {bk : Record.Rec}
    {rb : Nat → Bool} {x j t : Nat} :
    Dep { h with aud := aud, book := bk, recb := rb, deps := upd h.deps o l } x j t ↔
      (x = o ∧ l[j]? = some (some t)) ∨ (x ≠ o ∧ Dep h x j t) := by
  unfold Dep
  by_cases hx : x = o
  · subst hx; simp [upd_same]
  · simp [upd_ne _ _ hx, hx]

/-- A net with the same lifetimes and registrations and mirrored edges between live objects. -/
theorem Inv.mk' {h h' : Net} (hI : Inv h) (hl : SameLife h h')
    (hm : ∀ o j s, Dep h' o j s ↔ (o, j) ∈ h'.aud s)
    (hd : ∀ o j s, Dep h' o j s → h.sAlive s = true ∧ h.oAlive o = true)
    (hn : ∀ s, (h'.aud s).Nodup) : Inv h' where
  mirror := hm
  depAlive := by rw [hl.3, hl.4]; exact hd
  kill := by rw [hl.1, hl.2]; exact hI.kill
  killAlive := by rw [hl.2, hl.3, hl.4]; exact hI.killAlive
  audNodup := hn
  killersNodup := by rw [hl.1]; exact hI.killersNodup
  ondeathNodup := by rw [hl.2]; exact hI.ondeathNodup

/-! ### single operations -/

theorem removeDependency_spec {h : Net} {o i s : Nat} (hI : Inv h) (hd : Dep h o i s) :
    ∃ h', removeDependency o i h = .ok h' ∧ Inv h' ∧ SameLife h h' ∧ h'.broken = h.broken ∧
      (∀ x j t, Dep h' x j t ↔ Dep h x j t ∧ ¬ (x = o ∧ j = i)) ∧
      h'.deps = upd h.deps o (popNulls ((h.deps o).set i none)) := by
  obtain ⟨hs, ho⟩ := hI.depAlive o i s hd
  have hd' : (h.deps o)[i]? = some (some s) := hd
  have hlt : i < (h.deps o).length := by
    by_contra hc
    rw [List.getElem?_eq_none (by omega)] at hd'; simp at hd'
  have hdep : ∀ x j t, Dep { h with aud := upd h.aud s ((h.aud s).filter (fun p => p ≠ (o, i))), book := Record.release o s i h.book, deps := upd h.deps o (popNulls ((h.deps o).set i none)) } x j t ↔ Dep h x j t ∧ ¬ (x = o ∧ j = i) := by
    intro x j t
    rw [dep_upd, popNulls_get, List.getElem?_set]
    by_cases hx : x = o
    · subst hx
      by_cases hj : i = j
      · subst hj; simp [hlt]
      · have hj' : ¬ j = i := fun h => hj h.symm
        simp [hj, hj', Dep]
    · simp [hx]
  refine ⟨_, ?_, ?_, ?_, ?_, hdep, rfl⟩
  · rw [removeDependency, needO, if_pos ho, Outcome.ok_bind, hd']
    simp only
    rw [detach_eq o i hs, Outcome.ok_bind]
  · refine hI.mk' ⟨rfl, rfl, rfl, rfl⟩ ?_ ?_ (nodup_detach hI.audNodup)
    · intro x j t
      rw [hdep, mem_detach, ← hI.mirror]
      constructor
      · rintro ⟨h1, h2⟩
        exact ⟨h1, fun h3 => h2 h3.2⟩
      · rintro ⟨h1, h2⟩
        refine ⟨h1, ?_⟩
        rintro ⟨rfl, rfl⟩
        have h1' : (h.deps x)[j]? = some (some t) := h1
        rw [hd'] at h1'
        simp at h1'
        exact h2 ⟨h1'.symm, rfl, rfl⟩
    · intro x j t h1
      exact hI.depAlive x j t ((hdep x j t).1 h1).1
  · exact ⟨rfl, rfl, rfl, rfl⟩
  · rfl

theorem addDependency_spec {h : Net} {o : Nat} {d : Option Nat} (hI : Inv h) (ho : h.oAlive o = true)
    (hs : ∀ s, d = some s → h.sAlive s = true) :
    ∃ h', addDependency o d h = .ok h' ∧ Inv h' ∧ SameLife h h' ∧ h'.broken = h.broken ∧
      (∀ x j t, Dep h' x j t ↔ Dep h x j t ∨ (x = o ∧ j = (h.deps o).length ∧ d = some t)) ∧
      h'.deps = upd h.deps o (h.deps o ++ [d]) := by
  have hdep : ∀ aud bk, ∀ x j t, Dep { h with aud := aud, book := bk, deps := upd h.deps o (h.deps o ++ [d]) } x j t ↔ Dep h x j t ∨ (x = o ∧ j = (h.deps o).length ∧ d = some t) := by
    intro aud bk x j t
    rw [dep_upd, List.getElem?_append]
    unfold Dep
    by_cases hx : x = o
    · subst hx
      simp only [true_and, ne_eq, not_true_eq_false, false_and, or_false]
      split
      · have : j ≠ (h.deps x).length := by omega
        simp [this]
      · rename_i hlt
        rw [List.getElem?_eq_none (l := h.deps x) (by omega)]
        by_cases hj : j = (h.deps x).length
        · simp [hj]
        · rw [List.getElem?_eq_none (by simp; omega)]; simp [hj]
    · simp [hx]
  cases d with
  | none =>
    refine ⟨{ h with deps := upd h.deps o (h.deps o ++ [none]) }, by rw [addDependency, needO, if_pos ho, Outcome.ok_bind]; rfl, ?_, ⟨rfl, rfl, rfl, rfl⟩, rfl, hdep _ _, rfl⟩
    refine hI.mk' ⟨rfl, rfl, rfl, rfl⟩ ?_ ?_ hI.audNodup
    · intro x j t; rw [hdep, ← hI.mirror]; simp
    · intro x j t; rw [hdep]; simpa using hI.depAlive x j t
  | some s =>
    have hsa := hs s rfl
    refine ⟨{ h with aud := upd h.aud s (if (o, (h.deps o).length) ∈ h.aud s then h.aud s else (o, (h.deps o).length) :: h.aud s), book := Record.capture (h.recb o) o s (h.deps o).length h.book, deps := upd h.deps o (h.deps o ++ [some s]) }, by rw [addDependency, needO, if_pos ho, Outcome.ok_bind]; rw [attachOpt, attach_eq _ _ hsa]; rfl, ?_, ⟨rfl, rfl, rfl, rfl⟩, rfl, hdep _ _, rfl⟩
    refine hI.mk' ⟨rfl, rfl, rfl, rfl⟩ ?_ ?_ (nodup_attach hI.audNodup)
    · intro x j t
      rw [hdep, mem_attach, ← hI.mirror]
      refine or_congr_right ⟨fun ⟨a, b, c⟩ => ⟨by simpa using c.symm, a, b⟩, fun ⟨a, b, c⟩ => ⟨b, c, by rw [a]⟩⟩
    · intro x j t
      rw [hdep]
      rintro (h1 | ⟨rfl, rfl, h3⟩)
      · exact hI.depAlive x j t h1
      · simp at h3; subst h3; exact ⟨hsa, ho⟩

theorem replaceDependency_spec {h : Net} {o i : Nat} {d : Option Nat} (hI : Inv h) (ho : h.oAlive o = true)
    (hs : ∀ s, d = some s → h.sAlive s = true) :
    ∃ h', replaceDependency o d i h = .ok h' ∧ Inv h' ∧ SameLife h h' ∧ h'.broken = h.broken ∧
      (∀ x j t, Dep h' x j t ↔ (x = o ∧ j = i ∧ d = some t) ∨ (¬ (x = o ∧ j = i) ∧ Dep h x j t)) ∧
      h'.deps = upd h.deps o (setSlot (h.deps o) i d) := by
  have hdep : ∀ aud bk, ∀ x j t, Dep { h with aud := aud, book := bk, deps := upd h.deps o (setSlot (h.deps o) i d) } x j t ↔ (x = o ∧ j = i ∧ d = some t) ∨ (¬ (x = o ∧ j = i) ∧ Dep h x j t) := by
    intro aud bk x j t
    rw [dep_upd, setSlot_get]
    by_cases hx : x = o
    · subst hx
      by_cases hj : j = i <;> simp [hj, Dep]
    · simp [hx]
  -- the state after the first attach
  obtain ⟨aud1, bk1, h1, hm1, hn1⟩ : ∃ (aud1 : Nat → List (Nat × Nat)) (bk1 : Record.Rec),
      attachOpt d o i h = Outcome.ok { h with aud := aud1, book := bk1 } ∧
      (∀ x j t, (x, j) ∈ aud1 t ↔ (x, j) ∈ h.aud t ∨ (d = some t ∧ x = o ∧ j = i)) ∧
      (∀ t, (aud1 t).Nodup) := by
    cases d with
    | none => exact ⟨h.aud, h.book, rfl, by simp, hI.audNodup⟩
    | some s =>
      refine ⟨_, _, attach_eq o i (hs s rfl), ?_, nodup_attach hI.audNodup⟩
      intro x j t
      rw [mem_attach]
      simp [eq_comm]
  obtain ⟨aud2, bk2, h2, hm2, hn2⟩ : ∃ (aud2 : Nat → List (Nat × Nat)) (bk2 : Record.Rec),
      detachLast o i d { h with aud := aud1, book := bk1 } = Outcome.ok { h with aud := aud2, book := bk2 } ∧
      (∀ x j t, (x, j) ∈ aud2 t ↔ (x, j) ∈ aud1 t ∧ ¬ (x = o ∧ j = i ∧ Dep h o i t ∧ d ≠ some t)) ∧
      (∀ t, (aud2 t).Nodup) := by
    unfold detachLast
    cases hg : (h.deps o)[i]? with
    | none =>
      refine ⟨aud1, bk1, by simp only, ?_, hn1⟩
      intro x j t
      simp [Dep, hg]
    | some l =>
      cases l with
      | none =>
        refine ⟨aud1, bk1, by simp only, ?_, hn1⟩
        intro x j t
        simp [Dep, hg]
      | some last =>
        have hla := (hI.depAlive o i last hg).1
        by_cases hne : some last ≠ d
        · refine ⟨_, _, by simp only; rw [if_pos hne, detach_eq (h := { h with aud := aud1, book := bk1 }) o i hla], ?_, nodup_detach (h := { h with aud := aud1 }) hn1⟩
          intro x j t
          rw [mem_detach (h := { h with aud := aud1 })]
          simp only [Dep, hg]
          constructor
          · rintro ⟨a, b⟩
            refine ⟨a, fun ⟨c1, c2, c3, c4⟩ => b ⟨?_, c1, c2⟩⟩
            simp at c3; exact c3.symm
          · rintro ⟨a, b⟩
            refine ⟨a, fun ⟨c1, c2, c3⟩ => b ⟨c2, c3, by simp [c1], ?_⟩⟩
            rw [c1]; exact fun h => hne h.symm
        · refine ⟨aud1, bk1, by simp only; rw [if_neg hne], ?_, hn1⟩
          have : some last = d := by simpa using hne
          subst this
          intro x j t
          simp only [Dep, hg]
          constructor
          · intro a; exact ⟨a, fun ⟨_, _, c3, c4⟩ => c4 (by simpa using c3)⟩
          · exact fun a => a.1
  refine ⟨{ h with aud := aud2, book := bk2, deps := upd h.deps o (setSlot (h.deps o) i d) }, ?_, ?_, ⟨rfl, rfl, rfl, rfl⟩, rfl, hdep aud2 bk2, rfl⟩
  · rw [replaceDependency, needO, if_pos ho, Outcome.ok_bind, h1, Outcome.ok_bind, h2, Outcome.ok_bind]
  · refine hI.mk' ⟨rfl, rfl, rfl, rfl⟩ ?_ ?_ hn2
    · intro x j t
      rw [hdep]
      show _ ↔ (x, j) ∈ aud2 t
      rw [hm2, hm1, ← hI.mirror]
      by_cases hxj : x = o ∧ j = i
      · obtain ⟨rfl, rfl⟩ := hxj
        simp only [true_and, not_true_eq_false, false_and, or_false, and_true]
        tauto
      · have h1 : ¬ (x = o ∧ j = i ∧ d = some t) := fun a => hxj ⟨a.1, a.2.1⟩
        have h2 : ¬ (d = some t ∧ x = o ∧ j = i) := fun a => hxj a.2
        have h3 : ¬ (x = o ∧ j = i ∧ Dep h o i t ∧ d ≠ some t) := fun a => hxj ⟨a.1, a.2.1⟩
        simp only [h1, h3, hxj, not_false_eq_true, true_and, false_or, or_false, and_true, and_false]
    · intro x j t
      rw [hdep]
      rintro (⟨rfl, rfl, h3⟩ | ⟨_, h3⟩)
      · exact ⟨hs t h3, ho⟩
      · exact hI.depAlive x j t h3

/-! ### registrations -/

theorem mem_cons_upd {f : Nat → List Nat} {k v x y : Nat} :
    y ∈ upd f k (v :: f k) x ↔ y ∈ f x ∨ (x = k ∧ y = v) := by
  by_cases hx : x = k
  · subst hx; rw [upd_same]; simp [or_comm]
  · rw [upd_ne _ _ hx]; simp [hx]

theorem mem_filter_upd {f : Nat → List Nat} {k v x y : Nat} :
    y ∈ upd f k ((f k).filter (· ≠ v)) x ↔ y ∈ f x ∧ ¬ (x = k ∧ y = v) := by
  by_cases hx : x = k
  · subst hx; rw [upd_same]; simp
  · rw [upd_ne _ _ hx]; simp [hx]

theorem nodup_filter_upd {f : Nat → List Nat} {k v : Nat} (hn : ∀ x, (f x).Nodup) (x : Nat) :
    (upd f k ((f k).filter (· ≠ v)) x).Nodup := by
  by_cases hx : x = k
  · subst hx; rw [upd_same]; exact (hn _).filter _
  · rw [upd_ne _ _ hx]; exact hn _

theorem nodup_cons_upd {f : Nat → List Nat} {k v : Nat} (hn : ∀ x, (f x).Nodup) (hv : v ∉ f k) (x : Nat) :
    (upd f k (v :: f k) x).Nodup := by
  by_cases hx : x = k
  · subst hx; rw [upd_same]; exact List.nodup_cons.2 ⟨hv, hn _⟩
  · rw [upd_ne _ _ hx]; exact hn _

/-- The net after registration (o, s) has been removed on both sides. -/
def unreg (o s : Nat) (h : Net) : Net :=
  { h with ondeath := upd h.ondeath o ((h.ondeath o).filter (· ≠ s)),
           killers := upd h.killers s ((h.killers s).filter (· ≠ o)) }

/-- The net after registration (o, s) has been entered on both sides. -/
def reg (o s : Nat) (h : Net) : Net :=
  { h with ondeath := upd h.ondeath o (s :: h.ondeath o),
           killers := upd h.killers s (o :: h.killers s) }

theorem unreg_inv {h : Net} {o s : Nat} (hI : Inv h) : Inv (unreg o s h) where
  mirror := hI.mirror
  depAlive := hI.depAlive
  kill := by
    intro x t
    show t ∈ upd h.ondeath o _ x ↔ x ∈ upd h.killers s _ t
    rw [mem_filter_upd, mem_filter_upd, hI.kill]
    tauto
  killAlive := by
    intro x t
    show t ∈ upd h.ondeath o _ x → _
    rw [mem_filter_upd]
    exact fun a => hI.killAlive x t a.1
  audNodup := hI.audNodup
  killersNodup := nodup_filter_upd hI.killersNodup
  ondeathNodup := nodup_filter_upd hI.ondeathNodup

theorem reg_inv {h : Net} {o s : Nat} (hI : Inv h) (ho : h.oAlive o = true) (hs : h.sAlive s = true)
    (hn : s ∉ h.ondeath o) : Inv (reg o s h) where
  mirror := hI.mirror
  depAlive := hI.depAlive
  kill := by
    intro x t
    show t ∈ upd h.ondeath o _ x ↔ x ∈ upd h.killers s _ t
    rw [mem_cons_upd, mem_cons_upd, hI.kill]
    tauto
  killAlive := by
    intro x t
    show t ∈ upd h.ondeath o _ x → _
    rw [mem_cons_upd]
    rintro (a | ⟨rfl, rfl⟩)
    · exact hI.killAlive x t a
    · exact ⟨hs, ho⟩
  audNodup := hI.audNodup
  killersNodup := nodup_cons_upd hI.killersNodup (by rw [← hI.kill]; exact hn)
  ondeathNodup := nodup_cons_upd hI.ondeathNodup hn

theorem removeOndeath_eq {h : Net} {o s : Nat} (hI : Inv h) (ho : h.oAlive o = true) :
    removeOndeath o s h = .ok (if s ∈ h.ondeath o then unreg o s h else h) := by
  by_cases hm : s ∈ h.ondeath o
  · have hs := (hI.killAlive o s hm).1
    have hk := (hI.kill o s).1 hm
    rw [if_pos hm, removeOndeath, if_pos ho, dif_pos hm, detachKiller, if_pos hs, dif_pos hk,
      removeOndeath, if_pos ho, dif_neg]
    · rfl
    · simp [upd_same]
  · rw [if_neg hm, removeOndeath, if_pos ho, dif_neg hm]

theorem detachKiller_eq {h : Net} {o s : Nat} (hI : Inv h) (hs : h.sAlive s = true) :
    detachKiller s o h = .ok (if s ∈ h.ondeath o then unreg o s h else h) := by
  by_cases hm : s ∈ h.ondeath o
  · have ho := (hI.killAlive o s hm).2
    have hk := (hI.kill o s).1 hm
    rw [if_pos hm, detachKiller, if_pos hs, dif_pos hk, removeOndeath, if_pos ho, dif_pos hm,
      detachKiller, if_pos hs, dif_neg]
    · rfl
    · simp [upd_same]
  · rw [if_neg hm, detachKiller, if_pos hs, dif_neg (by rw [← hI.kill]; exact hm)]

theorem addOndeath_eq {h : Net} {o s : Nat} (hI : Inv h) (ho : h.oAlive o = true) (hs : h.sAlive s = true) :
    addOndeath o s h = .ok (if s ∈ h.ondeath o then h else reg o s h) := by
  by_cases hm : s ∈ h.ondeath o
  · rw [if_pos hm, addOndeath, if_pos ho, dif_neg (by simpa using hm)]
  · have hk : o ∉ h.killers s := by rw [← hI.kill]; exact hm
    rw [if_neg hm, addOndeath, if_pos ho, dif_pos hm, attachKiller, if_pos hs, dif_pos hk,
      addOndeath, if_pos ho, dif_neg]
    · rfl
    · simp [upd_same]

theorem attachKiller_eq {h : Net} {o s : Nat} (hI : Inv h) (ho : h.oAlive o = true) (hs : h.sAlive s = true) :
    attachKiller s o h = .ok (if s ∈ h.ondeath o then h else reg o s h) := by
  by_cases hm : s ∈ h.ondeath o
  · rw [if_pos hm, attachKiller, if_pos hs, dif_neg (by rw [← hI.kill]; simpa using hm)]
  · have hk : o ∉ h.killers s := by rw [← hI.kill]; exact hm
    rw [if_neg hm, attachKiller, if_pos hs, dif_pos hk, addOndeath, if_pos ho, dif_pos hm,
      attachKiller, if_pos hs, dif_neg]
    · rfl
    · simp [upd_same]

/-! ### loops of operations -/

/-- Empty, or ending in a subject: no trailing null pointer. -/
def Tidy (l : List (Option Nat)) : Prop := l = [] ∨ ∃ s, l.getLast? = some (some s)

theorem tidy_popNulls (l : List (Option Nat)) : Tidy (popNulls l) := popNulls_last l

theorem tidy_append_some (l : List (Option Nat)) (s : Nat) : Tidy (l ++ [some s]) := by
  right; exact ⟨s, by simp⟩

theorem tidy_iff (l : List (Option Nat)) :
    Tidy l ↔ l.length = 0 ∨ ∃ s, l[l.length - 1]? = some (some s) := by
  unfold Tidy
  rw [List.getLast?_eq_getElem?, List.length_eq_zero_iff]

theorem tidy_setSlot {l : List (Option Nat)} (hl : Tidy l) (i s : Nat) : Tidy (setSlot l i (some s)) := by
  rw [tidy_iff] at *
  right
  rw [setSlot_length]
  by_cases hi : i + 1 ≥ l.length
  · exact ⟨s, by rw [setSlot_get]; left; exact ⟨by omega, rfl⟩⟩
  · rcases hl with h0 | ⟨t, ht⟩
    · omega
    · refine ⟨t, ?_⟩
      rw [setSlot_get]; right
      refine ⟨by omega, ?_⟩
      rw [← ht]; congr 1; omega

theorem tidy_upd {f : Nat → List (Option Nat)} {o x : Nat} {l : List (Option Nat)} (hl : Tidy l)
    (hx : Tidy (f x)) : Tidy (upd f o l x) := by
  by_cases h : x = o
  · subst h; rw [upd_same]; exact hl
  · rw [upd_ne _ _ h]; exact hx

theorem forEach_append {α σ : Type} (body : α → σ → Outcome σ) (a b : List α) (h : σ) :
    forEach body (a ++ b) h = forEach body a h >>= forEach body b := by
  induction a generalizing h with
  | nil => rfl
  | cons x xs ih =>
    rw [List.cons_append, forEach, forEach]
    cases hb : body x h <;> simp [ih]

/-- Removing several dependencies of `o`. -/
theorem removeAll_spec {h : Net} {o : Nat} {l : List Nat} (hI : Inv h) (hn : l.Nodup)
    (hl : ∀ j ∈ l, ∃ s, Dep h o j s) :
    ∃ h', forEach (removeDependency o) l h = .ok h' ∧ Inv h' ∧ SameLife h h' ∧ h'.broken = h.broken ∧
      (∀ x j t, Dep h' x j t ↔ Dep h x j t ∧ ¬ (x = o ∧ j ∈ l)) ∧
      (∀ x, Tidy (h.deps x) → Tidy (h'.deps x)) := by
  induction l generalizing h with
  | nil => exact ⟨h, rfl, hI, SameLife.refl h, rfl, by simp, fun _ hx => hx⟩
  | cons i l ih =>
    obtain ⟨s, hd⟩ := hl i (by simp)
    obtain ⟨h1, e1, I1, L1, b1, d1, t1⟩ := removeDependency_spec hI hd
    obtain ⟨hni, hn'⟩ := List.nodup_cons.1 hn
    obtain ⟨h2, e2, I2, L2, b2, d2, t2⟩ := ih I1 hn' (by
      intro j hj
      obtain ⟨t, ht⟩ := hl j (by simp [hj])
      refine ⟨t, (d1 _ _ _).2 ⟨ht, ?_⟩⟩
      rintro ⟨_, rfl⟩
      exact hni hj)
    refine ⟨h2, by simp [forEach, e1, e2], I2, L1.trans L2, by rw [b2, b1], ?_, ?_⟩
    · intro x j t
      rw [d2, d1]
      simp only [List.mem_cons]
      tauto
    · intro x hx
      apply t2
      rw [t1]
      exact tidy_upd (tidy_popNulls _) hx

theorem mem_indices {h : Net} {s o j : Nat} : j ∈ indices h s o ↔ (o, j) ∈ h.aud s := by
  unfold indices
  simp only [List.mem_map, List.mem_filter, beq_iff_eq, Prod.exists]
  constructor
  · rintro ⟨a, b, ⟨h1, rfl⟩, rfl⟩; exact h1
  · intro h1; exact ⟨o, j, ⟨h1, rfl⟩, rfl⟩

theorem nodup_indices {h : Net} {s o : Nat} (hn : (h.aud s).Nodup) : (indices h s o).Nodup := by
  unfold indices
  refine List.Nodup.map_on ?_ (hn.filter _)
  intro x hx y hy hxy
  simp only [List.mem_filter, beq_iff_eq] at hx hy
  exact Prod.ext (hx.2.trans hy.2.symm) hxy

theorem mem_viewers {h : Net} {s o : Nat} : o ∈ viewers h s ↔ ∃ j, (o, j) ∈ h.aud s := by
  unfold viewers
  simp [List.mem_eraseDups]

theorem nodup_eraseDups (l : List Nat) : l.eraseDups.Nodup := by
  generalize hn : l.length = n
  induction n using Nat.strongRecOn generalizing l with
  | _ n ih =>
    cases l with
    | nil => simp
    | cons a as =>
      rw [List.eraseDups_cons, List.nodup_cons]
      constructor
      · rw [List.mem_eraseDups]; simp
      · refine ih _ ?_ _ rfl
        have := List.length_filter_le (fun b => !b == a) as
        simp at hn
        omega

theorem nodup_viewers {h : Net} {s : Nat} : (viewers h s).Nodup := nodup_eraseDups _

/-- One viewer unsubscribed from `s`. -/
theorem unsubscribe_spec {h : Net} {s v : Nat} (ord : Ord) (hI : Inv h) :
    ∃ h', updateUnsubscribe ord v (indices h s v) h = .ok h' ∧ Inv h' ∧ SameLife h h' ∧
      h'.broken = v :: h.broken ∧
      (∀ x j t, Dep h' x j t ↔ Dep h x j t ∧ ¬ (x = v ∧ t = s)) ∧
      (∀ x, Tidy (h.deps x) → Tidy (h'.deps x)) := by
  obtain ⟨h', e, I, L, b, d, t⟩ := removeAll_spec (h := h) (o := v) (l := ord.nat (indices h s v)) hI
    ((ord.nat_perm _).nodup_iff.2 (nodup_indices (hI.audNodup s)))
    (fun j hj => ⟨s, (hI.mirror v j s).2 (mem_indices.1 ((ord.nat_perm _).mem_iff.1 hj))⟩)
  refine ⟨{ h' with broken := v :: h'.broken }, ?_, ?_, L.trans ⟨rfl, rfl, rfl, rfl⟩, by simp [b], ?_, t⟩
  · simp [updateUnsubscribe, e]
  · exact I.mk' ⟨rfl, rfl, rfl, rfl⟩ I.mirror I.depAlive I.audNodup
  · intro x j y
    show Dep h' x j y ↔ _
    rw [d, (ord.nat_perm _).mem_iff, mem_indices, ← hI.mirror]
    constructor
    · rintro ⟨h1, h2⟩
      refine ⟨h1, ?_⟩
      rintro ⟨rfl, rfl⟩
      exact h2 ⟨rfl, h1⟩
    · rintro ⟨h1, h2⟩
      refine ⟨h1, ?_⟩
      rintro ⟨rfl, h3⟩
      unfold Dep at h1 h3
      rw [h1] at h3
      simp at h3
      exact h2 ⟨rfl, h3⟩

theorem notifyUnsubscribe_spec {h : Net} {s : Nat} (ord : Ord) (hI : Inv h) :
    ∃ h', notify id ord s (updateUnsubscribe ord) h = .ok h' ∧ Inv h' ∧ SameLife h h' ∧
      h'.broken = (ord.nat (viewers h s)).reverse ++ h.broken ∧
      (∀ x j t, Dep h' x j t ↔ Dep h x j t ∧ t ≠ s) ∧
      (∀ x, Tidy (h.deps x) → Tidy (h'.deps x)) := by
  have key : ∀ (vs : List Nat) (g : Net), Inv g → vs.Nodup → (∀ v ∈ vs, ∃ j, Dep g v j s) →
      ∃ h', forEach (notifyOne id s (updateUnsubscribe ord)) vs g = .ok h' ∧ Inv h' ∧ SameLife g h' ∧
        h'.broken = vs.reverse ++ g.broken ∧
        (∀ x j t, Dep h' x j t ↔ Dep g x j t ∧ ¬ (x ∈ vs ∧ t = s)) ∧
        (∀ x, Tidy (g.deps x) → Tidy (h'.deps x)) := by
    intro vs
    induction vs with
    | nil => intro g hg _ _; exact ⟨g, rfl, hg, SameLife.refl g, rfl, by simp, fun _ hx => hx⟩
    | cons v vs ih =>
      intro g hg hn hv
      obtain ⟨hvn, hn'⟩ := List.nodup_cons.1 hn
      obtain ⟨j0, hj0⟩ := hv v (by simp)
      obtain ⟨g1, e1, I1, L1, b1, d1, t1⟩ := unsubscribe_spec (s := s) (v := v) ord hg
      obtain ⟨g2, e2, I2, L2, b2, d2, t2⟩ := ih g1 I1 hn' (by
        intro w hw
        obtain ⟨j, hj⟩ := hv w (by simp [hw])
        refine ⟨j, (d1 _ _ _).2 ⟨hj, ?_⟩⟩
        rintro ⟨rfl, _⟩
        exact hvn hw)
      have hne : indices g s v ≠ [] := by
        intro h0
        have := mem_indices.2 ((hg.mirror v j0 s).1 hj0)
        rw [h0] at this; simp at this
      refine ⟨g2, ?_, I2, L1.trans L2, by simp [b2, b1], ?_, fun x hx => t2 x (t1 x hx)⟩
      · rw [forEach, notifyOne]
        simp only [id]
        rw [if_pos hne, e1, Outcome.ok_bind, e2]
      · intro x j t
        rw [d2, d1]
        simp only [List.mem_cons]
        tauto
  obtain ⟨h', e, I, L, b, d, t⟩ := key (ord.nat (viewers h s)) h hI
    ((ord.nat_perm _).nodup_iff.2 nodup_viewers) (by
      intro v hv
      obtain ⟨j, hj⟩ := mem_viewers.1 ((ord.nat_perm _).mem_iff.1 hv)
      exact ⟨j, (hI.mirror _ _ _).2 hj⟩)
  refine ⟨h', e, I, L, b, ?_, t⟩
  intro x j y
  rw [d, (ord.nat_perm _).mem_iff, mem_viewers]
  constructor
  · rintro ⟨h1, h2⟩
    refine ⟨h1, ?_⟩
    rintro rfl
    exact h2 ⟨⟨j, (hI.mirror _ _ _).1 h1⟩, rfl⟩
  · rintro ⟨h1, h2⟩
    exact ⟨h1, fun h3 => h2 h3.2⟩

/-- The killers of `s` told to forget it. -/
theorem forgetAll_spec {h : Net} {s : Nat} (ks : List Nat) (hI : Inv h)
    (hk : ∀ k ∈ ks, h.oAlive k = true) :
    ∃ h', forEach (fun k => removeOndeath k s) ks h = .ok h' ∧ Inv h' ∧
      h'.aud = h.aud ∧ h'.deps = h.deps ∧ h'.sAlive = h.sAlive ∧ h'.oAlive = h.oAlive ∧
      h'.broken = h.broken ∧ (∀ x t, t ∈ h'.ondeath x ↔ t ∈ h.ondeath x ∧ ¬ (x ∈ ks ∧ t = s)) := by
  induction ks generalizing h with
  | nil => exact ⟨h, rfl, hI, rfl, rfl, rfl, rfl, rfl, by simp⟩
  | cons k ks ih =>
    have e1 := removeOndeath_eq (s := s) hI (hk k (by simp))
    by_cases hm : s ∈ h.ondeath k
    · rw [if_pos hm] at e1
      obtain ⟨h2, e2, I2, r1, r2, r3, r4, r5, r6⟩ := ih (h := unreg k s h) (unreg_inv hI)
        (fun x hx => hk x (by simp [hx]))
      refine ⟨h2, by simp [forEach, e1, e2], I2, r1, r2, r3, r4, r5, ?_⟩
      intro x t
      rw [r6]
      show t ∈ upd h.ondeath k _ x ∧ _ ↔ _
      rw [mem_filter_upd]
      simp only [List.mem_cons]
      tauto
    · rw [if_neg hm] at e1
      obtain ⟨h2, e2, I2, r1, r2, r3, r4, r5, r6⟩ := ih hI (fun x hx => hk x (by simp [hx]))
      refine ⟨h2, by simp [forEach, e1, e2], I2, r1, r2, r3, r4, r5, ?_⟩
      intro x t
      rw [r6]
      simp only [List.mem_cons]
      constructor
      · rintro ⟨a, b⟩
        refine ⟨a, ?_⟩
        rintro ⟨rfl | c, rfl⟩
        · exact hm a
        · exact b ⟨c, rfl⟩
      · tauto

theorem destroySubject_spec {h : Net} {s : Nat} (ord : Ord) (hI : Inv h) (hs : h.sAlive s = true) :
    ∃ h', destroySubject ord s h = .ok h' ∧ Inv h' ∧
      h'.sAlive = upd h.sAlive s false ∧ h'.oAlive = h.oAlive ∧
      h'.broken = (ord.nat (viewers h s)).reverse ++ h.broken ∧
      (∀ x j t, Dep h' x j t ↔ Dep h x j t ∧ t ≠ s) ∧
      (∀ x t, t ∈ h'.ondeath x ↔ t ∈ h.ondeath x ∧ t ≠ s) ∧
      (∀ x, Tidy (h.deps x) → Tidy (h'.deps x)) := by
  obtain ⟨h1, e1, I1, r1, r2, r3, r4, r5, r6⟩ := forgetAll_spec (s := s) (ord.nat (h.killers s)) hI (by
    intro k hk
    have := (ord.nat_perm _).mem_iff.1 hk
    rw [← hI.kill] at this
    exact (hI.killAlive k s this).2)
  have r6' : ∀ x t, t ∈ h1.ondeath x ↔ t ∈ h.ondeath x ∧ t ≠ s := by
    intro x t
    rw [r6, (ord.nat_perm _).mem_iff, ← hI.kill]
    constructor
    · rintro ⟨a, b⟩
      refine ⟨a, ?_⟩
      rintro rfl
      exact b ⟨a, rfl⟩
    · tauto
  obtain ⟨h2, e2, I2, L2, b2, d2, t2⟩ := notifyUnsubscribe_spec (s := s) ord I1
  have hdep : ∀ x j t, Dep h2 x j t ↔ Dep h x j t ∧ t ≠ s := by
    intro x j t
    rw [d2]; unfold Dep; rw [r2]
  have hod : ∀ x t, t ∈ h2.ondeath x ↔ t ∈ h.ondeath x ∧ t ≠ s := by
    intro x t; rw [L2.2]; exact r6' x t
  refine ⟨{ h2 with sAlive := upd h2.sAlive s false, book := Record.gone s h2.book }, ?_, ?_, ?_, ?_, ?_, hdep, hod, ?_⟩
  · rw [destroySubject, needS, if_pos hs, Outcome.ok_bind, e1, Outcome.ok_bind, e2]; rfl
  · constructor
    · exact I2.mirror
    · intro x j t hd
      show upd h2.sAlive s false t = true ∧ h2.oAlive x = true
      have h3 := ((hdep x j t).1 hd).2
      rw [upd_ne _ _ h3]
      exact I2.depAlive x j t hd
    · exact I2.kill
    · intro x t hd
      show upd h2.sAlive s false t = true ∧ h2.oAlive x = true
      have h3 := ((hod x t).1 hd).2
      rw [upd_ne _ _ h3]
      exact I2.killAlive x t hd
    · exact I2.audNodup
    · exact I2.killersNodup
    · exact I2.ondeathNodup
  · show upd h2.sAlive s false = _
    rw [L2.3, r3]
  · show h2.oAlive = _
    rw [L2.4, r4]
  · show h2.broken = _
    rw [b2, r5]; simp [viewers, r1]
  · intro x hx
    apply t2
    rw [r2]; exact hx

end React
end Verif
