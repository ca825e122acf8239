import Verif.Lemmas.LifeDel
import Verif.Spec.Life
/-! # Lemmas about lifetimes: the calls of a client -/
namespace Verif
namespace Life
open React (upd forEach popNulls Ord upd_same upd_ne Tidy AllNull)

/-- Between two calls of a client. -/
structure Good (h : Heap) : Prop where
  inv : Inv NoSt h
  full : Full h
  quiet : ∀ k, h.dying k = false
  bound : ∀ v w, w ∈ h.cache v → w < h.next

theorem good_empty : Good Heap.empty where
  inv := by
    refine ⟨?_, ?_, ?_, ?_, ?_, ?_, ?_, ?_, ?_, ?_, ?_, ?_, ?_, ?_, ?_, ?_⟩ <;> intros <;> simp_all [Heap.empty, NoSt]
  full := by intro k h1; simp [Heap.empty] at h1
  quiet := fun _ => rfl
  bound := by intro v w h1; simp [Heap.empty] at h1

theorem count_le_next (h : Heap) : count h ≤ h.next := by
  unfold count
  refine le_trans (List.length_filter_le _ _) ?_
  simp

theorem fresh_good {h : Heap} (G : Good h) (k : Kind) : Good (fresh k h) := by
  have hd : h.alloc h.next = false := by
    cases e : h.alloc h.next with
    | false => rfl
    | true => exact absurd (G.inv.range _ e) (lt_irrefl _)
  have hno : ∀ i s, (h.next, i) ∉ h.aud s := fun i s hm => by
    have := (G.inv.live _ _ _ hm).2; rw [hd] at this; simp at this
  have hnd : ∀ o i : Nat, (h.deps o)[i]? ≠ some (some h.next) := fun o i hm => by
    have := (G.inv.live _ _ _ (G.inv.back' hm)).1; rw [hd] at this; simp at this
  have haud : ∀ x j t, (x, j) ∈ upd h.aud h.next [] t → (x, j) ∈ h.aud t ∧ t ≠ h.next ∧ x ≠ h.next := by
    intro x j t hm
    by_cases ht : t = h.next
    · subst ht; rw [upd_same] at hm; simp at hm
    · rw [upd_ne _ _ ht] at hm
      exact ⟨hm, ht, fun e => hno j t (e ▸ hm)⟩
  have hcache : ∀ v w, w ∈ upd h.cache h.next [] v → w ∈ h.cache v ∧ v ≠ h.next ∧ w ≠ h.next := by
    intro v w hm
    by_cases hv : v = h.next
    · subst hv; rw [upd_same] at hm; simp at hm
    · rw [upd_ne _ _ hv] at hm
      exact ⟨hm, hv, fun e => lt_irrefl _ (e ▸ G.bound v w hm)⟩
  refine ⟨⟨?_, ?_, ?_, ?_, ?_, ?_, ?_, ?_, ?_, ?_, ?_, ?_, ?_, ?_, ?_, ?_⟩, ?_, ?_, ?_⟩
  · intro o i s hm
    obtain ⟨h1, h2, h3⟩ := haud o i s hm
    left
    show (upd h.deps h.next [] o)[i]? = _
    rw [upd_ne _ _ h3]; exact G.inv.link' h1
  · intro o i s hm
    have hm : (upd h.deps h.next [] o)[i]? = some (some s) := hm
    by_cases ho : o = h.next
    · subst ho; rw [upd_same] at hm; simp at hm
    · rw [upd_ne _ _ ho] at hm
      left
      show (o, i) ∈ upd h.aud h.next [] s
      have hs : s ≠ h.next := fun e => hnd o i (e ▸ hm)
      rw [upd_ne _ _ hs]; exact G.inv.back' hm
  · intro o i s hm
    obtain ⟨h1, h2, h3⟩ := haud o i s hm
    show upd h.alloc h.next true s = true ∧ upd h.alloc h.next true o = true
    rw [upd_ne _ _ h2, upd_ne _ _ h3]; exact G.inv.live _ _ _ h1
  · intro s
    show (upd h.aud h.next [] s).Nodup
    by_cases ht : s = h.next
    · subst ht; rw [upd_same]; simp
    · rw [upd_ne _ _ ht]; exact G.inv.nodup s
  · intro o i hf; exact hf.elim
  · intro x hx
    have hx : upd h.dying h.next false x = true := hx
    by_cases ht : x = h.next
    · subst ht; rw [upd_same] at hx; simp at hx
    · rw [upd_ne _ _ ht, G.quiet] at hx; simp at hx
  · intro x hx
    have hx : upd h.alloc h.next true x = true := hx
    show x < h.next + 1
    by_cases ht : x = h.next
    · omega
    · rw [upd_ne _ _ ht] at hx
      have := G.inv.range x hx; omega
  · intro p hp
    have hp : upd h.kind h.next k p = .ptr := hp
    show upd h.aud h.next [] p = []
    by_cases ht : p = h.next
    · subst ht; rw [upd_same]
    · rw [upd_ne _ _ ht] at hp ⊢; exact G.inv.ptrAud p hp
  · intro p hp
    have hp : upd h.kind h.next k p = .ptr := hp
    show (upd h.deps h.next [] p).length ≤ 1
    by_cases ht : p = h.next
    · subst ht; rw [upd_same]; simp
    · rw [upd_ne _ _ ht] at hp ⊢; exact G.inv.ptrLen p hp
  · intro p _
    show upd h.dying h.next false p = false
    by_cases ht : p = h.next
    · subst ht; rw [upd_same]
    · rw [upd_ne _ _ ht]; exact G.quiet p
  · intro p h1 h2
    have h1 : (upd h.kind h.next k p).breaks = false := h1
    have h2 : upd h.kind h.next k p ≠ .ptr := h2
    show upd h.deps h.next [] p = []
    by_cases ht : p = h.next
    · subst ht; rw [upd_same]
    · rw [upd_ne _ _ ht] at h1 h2 ⊢; exact G.inv.leafDeps p h1 h2
  · intro v w hm
    obtain ⟨h1, h2, h3⟩ := hcache v w hm
    show upd h.kind h.next k v = .op ∧ upd h.kind h.next k w = .ptr
    rw [upd_ne _ _ h2, upd_ne _ _ h3]; exact G.inv.cacheKind v w h1
  · intro v w hm ha _
    obtain ⟨h1, h2, h3⟩ := hcache v w hm
    have ha : upd h.alloc h.next true v = true := ha
    show upd h.alloc h.next true w = true
    rw [upd_ne _ _ h2] at ha
    rw [upd_ne _ _ h3]; exact G.inv.cacheLive v w h1 ha (G.quiet v)
  · intro v w hm ha
    obtain ⟨h1, h2, h3⟩ := hcache v w hm
    have ha : upd h.alloc h.next true v = false := ha
    show upd h.alloc h.next true w = false
    rw [upd_ne _ _ h2] at ha
    rw [upd_ne _ _ h3]; exact G.inv.cacheDead v w h1 ha
  · intro v v' w h1 h2
    exact G.inv.cacheOwn v v' w (hcache v w h1).1 (hcache v' w h2).1
  · intro v
    show (upd h.cache h.next [] v).Nodup
    by_cases ht : v = h.next
    · subst ht; rw [upd_same]; simp
    · rw [upd_ne _ _ ht]; exact G.inv.cacheNodup v
  · intro x h1 h2 h3
    have h1 : upd h.alloc h.next true x = true := h1
    have h3 : (upd h.kind h.next k x).breaks = true := h3
    show none ∉ upd h.deps h.next [] x
    by_cases ht : x = h.next
    · subst ht; rw [upd_same]; simp
    · rw [upd_ne _ _ ht] at h1 h3 ⊢; exact G.full x h1 (G.quiet x) h3
  · intro x
    show upd h.dying h.next false x = false
    by_cases ht : x = h.next
    · subst ht; rw [upd_same]
    · rw [upd_ne _ _ ht]; exact G.quiet x
  · intro v w hm
    have := G.bound v w (hcache v w hm).1
    show w < h.next + 1
    omega

/-- What changes when an argument or target is added. -/
structure Added (o : Nat) (d : Option Nat) (h h' : Heap) : Prop where
  good : Good h'
  next : h'.next = h.next
  kind : h'.kind = h.kind
  alloc : h'.alloc = h.alloc
  cache : h'.cache = h.cache
  deps : h'.deps = upd h.deps o (h.deps o ++ [d])

theorem getElem?_snoc {α : Type} (l : List α) (a : α) (i : Nat) (b : α) :
    (l ++ [a])[i]? = some b ↔ l[i]? = some b ∨ (i = l.length ∧ b = a) := by
  by_cases h : i < l.length
  · rw [List.getElem?_append_left h]
    constructor
    · exact Or.inl
    · rintro (h1 | h1)
      · exact h1
      · omega
  · rw [List.getElem?_append_right (by omega), List.getElem?_eq_none (l := l) (by omega)]
    constructor
    · intro h1
      have h2 : i - l.length = 0 := by
        by_contra hc
        rw [List.getElem?_eq_none (by simp; omega)] at h1; simp at h1
      rw [h2] at h1
      simp at h1
      exact Or.inr ⟨by omega, h1.symm⟩
    · rintro (h1 | ⟨h1, h2⟩)
      · simp at h1
      · subst h1 h2; simp

theorem addDep_good {h : Heap} {o : Nat} {d : Option Nat} (G : Good h) (ho : h.alloc o = true)
    (hk : (h.kind o = .ptr ∧ h.deps o = []) ∨ ((h.kind o).breaks = true ∧ d ≠ none))
    (hd : ∀ s, d = some s → h.alloc s = true ∧ h.kind s ≠ .ptr) : ∃ h', addDep o d h = .ok h' ∧ Added o d h h' := by
  have hbk : ∀ x, (h.kind x).breaks = true → h.kind x ≠ .ptr := by
    intro x h1 h2; rw [h2] at h1; simp [Kind.breaks] at h1
  have hq := G.quiet
  rw [addDep, need_eq ho, Outcome.ok_bind]
  cases d with
  | none =>
    have hk : h.kind o = .ptr ∧ h.deps o = [] := by
      rcases hk with h1 | h1
      · exact h1
      · exact absurd rfl h1.2
    refine ⟨_, rfl, ⟨⟨?_, ?_, hq, G.bound⟩, rfl, rfl, rfl, rfl, rfl⟩⟩
    · refine ⟨?_, ?_, G.inv.live, G.inv.nodup, G.inv.stale, G.inv.dyingAlloc, G.inv.range, G.inv.ptrAud, ?_, G.inv.ptrDying, ?_,
        G.inv.cacheKind, G.inv.cacheLive, G.inv.cacheDead, G.inv.cacheOwn, G.inv.cacheNodup⟩
      · intro x i s hm
        left
        show (upd h.deps o _ x)[i]? = _
        have h1 := G.inv.link' hm
        by_cases hx : x = o
        · subst hx; rw [hk.2] at h1; simp at h1
        · rw [upd_ne _ _ hx]; exact h1
      · intro x i s hm
        have hm : (upd h.deps o (h.deps o ++ [none]) x)[i]? = some (some s) := hm
        by_cases hx : x = o
        · subst hx; rw [upd_same, hk.2, getElem?_snoc] at hm; simp at hm
        · rw [upd_ne _ _ hx] at hm; exact G.inv.back _ _ _ hm
      · intro p hp
        show (upd h.deps o _ p).length ≤ 1
        by_cases hx : p = o
        · subst hx; rw [upd_same, hk.2]; simp
        · rw [upd_ne _ _ hx]; exact G.inv.ptrLen p hp
      · intro p h1 h2
        show upd h.deps o _ p = []
        have hx : p ≠ o := by rintro rfl; exact h2 hk.1
        rw [upd_ne _ _ hx]; exact G.inv.leafDeps p h1 h2
    · intro x h1 h2 h3
      show none ∉ upd h.deps o _ x
      have hx : x ≠ o := by rintro rfl; exact hbk x h3 hk.1
      rw [upd_ne _ _ hx]; exact G.full x h1 h2 h3
  | some s =>
    obtain ⟨hs, hsp⟩ := hd s rfl
    have hnot : (o, (h.deps o).length) ∉ h.aud s := by
      intro hm
      have := G.inv.link' hm
      simp at this
    have e : attach s o (h.deps o).length h = .ok { h with aud := upd h.aud s ((o, (h.deps o).length) :: h.aud s) } := by
      rw [attach, need_eq hs, Outcome.ok_bind, if_neg hnot]
    refine ⟨{ h with aud := upd h.aud s ((o, (h.deps o).length) :: h.aud s), deps := upd h.deps o (h.deps o ++ [some s]) }, by show (attach s o (h.deps o).length h >>= _) = _; rw [e, Outcome.ok_bind], ⟨⟨?_, ?_, hq, G.bound⟩, rfl, rfl, rfl, rfl, rfl⟩⟩
    · have haud : ∀ x j t, (x, j) ∈ upd h.aud s ((o, (h.deps o).length) :: h.aud s) t ↔
          (x, j) ∈ h.aud t ∨ (t = s ∧ x = o ∧ j = (h.deps o).length) := by
        intro x j t
        by_cases ht : t = s
        · subst ht; rw [upd_same, List.mem_cons, Prod.mk.injEq]; tauto
        · rw [upd_ne _ _ ht]; simp [ht]
      refine ⟨?_, ?_, ?_, ?_, G.inv.stale, G.inv.dyingAlloc, G.inv.range, ?_, ?_, G.inv.ptrDying, ?_,
        G.inv.cacheKind, G.inv.cacheLive, G.inv.cacheDead, G.inv.cacheOwn, G.inv.cacheNodup⟩
      · intro x i t hm
        left
        show (upd h.deps o (h.deps o ++ [some s]) x)[i]? = _
        rcases (haud x i t).1 hm with h1 | ⟨rfl, rfl, rfl⟩
        · by_cases hx : x = o
          · subst hx; rw [upd_same, getElem?_snoc]; exact Or.inl (G.inv.link' h1)
          · rw [upd_ne _ _ hx]; exact G.inv.link' h1
        · rw [upd_same, getElem?_snoc]; exact Or.inr ⟨rfl, rfl⟩
      · intro x i t hm
        have hm : (upd h.deps o (h.deps o ++ [some s]) x)[i]? = some (some t) := hm
        left
        refine (haud x i t).2 ?_
        by_cases hx : x = o
        · subst hx
          rw [upd_same, getElem?_snoc] at hm
          rcases hm with h1 | ⟨h1, h2⟩
          · exact Or.inl (G.inv.back' h1)
          · exact Or.inr ⟨by simpa using h2, rfl, h1⟩
        · rw [upd_ne _ _ hx] at hm; exact Or.inl (G.inv.back' hm)
      · intro x i t hm
        rcases (haud x i t).1 hm with h1 | ⟨rfl, rfl, rfl⟩
        · exact G.inv.live _ _ _ h1
        · exact ⟨hs, ho⟩
      · intro t
        show (upd h.aud s _ t).Nodup
        by_cases ht : t = s
        · subst ht; rw [upd_same]; exact List.nodup_cons.2 ⟨hnot, G.inv.nodup t⟩
        · rw [upd_ne _ _ ht]; exact G.inv.nodup t
      · intro p hp
        show upd h.aud s _ p = []
        have hx : p ≠ s := by rintro rfl; exact hsp hp
        rw [upd_ne _ _ hx]; exact G.inv.ptrAud p hp
      · intro p hp
        show (upd h.deps o _ p).length ≤ 1
        by_cases hx : p = o
        · subst hx
          rcases hk with h1 | h1
          · rw [upd_same, h1.2]; simp
          · exact absurd hp (hbk p h1.1)
        · rw [upd_ne _ _ hx]; exact G.inv.ptrLen p hp
      · intro p h1 h2
        show upd h.deps o _ p = []
        have hx : p ≠ o := by
          rintro rfl
          rcases hk with h3 | h3
          · exact h2 h3.1
          · rw [h3.1] at h1; simp at h1
        rw [upd_ne _ _ hx]; exact G.inv.leafDeps p h1 h2
    · intro x h1 h2 h3
      show none ∉ upd h.deps o (h.deps o ++ [some s]) x
      by_cases hx : x = o
      · subst hx; rw [upd_same]
        simp only [List.mem_append, List.mem_singleton, not_or]
        exact ⟨G.full x h1 h2 h3, by simp⟩
      · rw [upd_ne _ _ hx]; exact G.full x h1 h2 h3

/-- The arguments of a new operation are added one by one. -/
theorem addArgs_good {o : Nat} (args : List Nat) {h : Heap} (G : Good h) (ho : h.alloc o = true) (hk : (h.kind o).breaks = true)
    (ha : ∀ s ∈ args, h.alloc s = true ∧ h.kind s ≠ .ptr) :
    ∃ h', forEach (fun s => addDep o (some s)) args h = .ok h' ∧ Good h' ∧ h'.next = h.next ∧ h'.kind = h.kind ∧
      h'.alloc = h.alloc ∧ h'.cache = h.cache ∧ h'.deps = upd h.deps o (h.deps o ++ args.map some) := by
  induction args generalizing h with
  | nil =>
    refine ⟨h, rfl, G, rfl, rfl, rfl, rfl, ?_⟩
    funext x
    by_cases hx : x = o
    · subst hx; rw [upd_same]; simp
    · rw [upd_ne _ _ hx]
  | cons s args ih =>
    obtain ⟨g, e, A⟩ := addDep_good (d := some s) G ho (Or.inr ⟨hk, by simp⟩) (by
      intro t ht; cases ht; exact ha s (by simp))
    obtain ⟨h', e', G', h1, h2, h3, h4, h5⟩ := ih A.good (by rw [A.alloc]; exact ho) (by rw [A.kind]; exact hk) (by
      intro t ht; rw [A.alloc, A.kind]; exact ha t (by simp [ht]))
    refine ⟨h', by rw [forEach, e, Outcome.ok_bind, e'], G', h1.trans A.next, h2.trans A.kind, h3.trans A.alloc, h4.trans A.cache, ?_⟩
    rw [h5, A.deps]
    funext x
    by_cases hx : x = o
    · subst hx; simp [upd_same]
    · simp [upd_ne _ _ hx]

end Life
end Verif
