import Verif.Model.Life
import Verif.Lemmas.React2
/-! # Lemmas about lifetimes: what a release does -/
namespace Verif
namespace Life
open React (upd forEach popNulls Ord upd_same upd_ne Tidy AllNull tidy_popNulls popNulls_get popNulls_spec tidy_iff
  forEach_append nodup_eraseDups)

/-- Consistency of the heap.  `St o i` marks slots whose registration is being changed. -/
structure Inv (St : Nat → Nat → Prop) (h : Heap) : Prop where
  link : ∀ o i s, (o, i) ∈ h.aud s → (h.deps o)[i]? = some (some s) ∨ St o i
  back : ∀ (o i s : Nat), (h.deps o)[i]? = some (some s) → (o, i) ∈ h.aud s ∨ St o i
  live : ∀ o i s, (o, i) ∈ h.aud s → h.alloc s = true ∧ h.alloc o = true
  nodup : ∀ s, (h.aud s).Nodup
  stale : ∀ o i, St o i → h.dying o = true ∨ h.kind o = .ptr
  dyingAlloc : ∀ k, h.dying k = true → h.alloc k = true
  range : ∀ k, h.alloc k = true → k < h.next
  ptrAud : ∀ p, h.kind p = .ptr → h.aud p = []
  ptrLen : ∀ p, h.kind p = .ptr → (h.deps p).length ≤ 1
  ptrDying : ∀ p, h.kind p = .ptr → h.dying p = false
  leafDeps : ∀ k, (h.kind k).breaks = false → h.kind k ≠ .ptr → h.deps k = []
  cacheKind : ∀ v w, w ∈ h.cache v → h.kind v = .op ∧ h.kind w = .ptr
  cacheLive : ∀ v w, w ∈ h.cache v → h.alloc v = true → h.dying v = false → h.alloc w = true
  cacheDead : ∀ v w, w ∈ h.cache v → h.alloc v = false → h.alloc w = false
  cacheOwn : ∀ v v' w, w ∈ h.cache v → w ∈ h.cache v' → v = v'
  cacheNodup : ∀ v, (h.cache v).Nodup

/-- An operation or generator that is not being destroyed has all its arguments. -/
def Full (h : Heap) : Prop := ∀ k, h.alloc k = true → h.dying k = false → (h.kind k).breaks = true → none ∉ h.deps k

/-- A set of objects closed under what must die with them. -/
structure Closed (h : Heap) (P : Nat → Prop) : Prop where
  brk : ∀ k i s, (k, i) ∈ h.aud s → (h.kind k).breaks = true → P s → P k
  orph : ∀ c, (h.kind c).loose = true → (∃ o i, (o, i) ∈ h.aud c) → (∀ o i, (o, i) ∈ h.aud c → P o) → P c
  own : ∀ v w, w ∈ h.cache v → P v → P w

/-- What deletions do to the heap; `A` are the objects being destroyed or changed meanwhile. -/
structure Shr (A : Nat → Prop) (h h' : Heap) : Prop where
  next : h'.next = h.next
  kind : h'.kind = h.kind
  dying : h'.dying = h.dying
  cache : h'.cache = h.cache
  alloc : ∀ k, h'.alloc k = true → h.alloc k = true
  stack : ∀ k, h.dying k = true → h.alloc k = true → h'.alloc k = true
  sub : ∀ o i s, (o, i) ∈ h'.aud s → (o, i) ∈ h.aud s
  keep : ∀ k, h'.alloc k = true → (h.kind k).breaks = true → ¬ A k → h'.deps k = h.deps k
  edge : ∀ o i s, (o, i) ∈ h.aud s → h'.alloc o = true → h'.alloc s = true → ¬ A o → ¬ A s → (o, i) ∈ h'.aud s
  orphan : ∀ c, h'.alloc c = true → (h.kind c).loose = true → ¬ A c → h'.aud c = [] → h.aud c = []
  ptr : ∀ p, h'.alloc p = true → h.kind p = .ptr → ¬ A p → h'.deps p = h.deps p ∨
    ∃ s, h.deps p = [some s] ∧ (h'.alloc s = false ∨ A s) ∧ h'.deps p = []
  min : ∀ P, Closed h P → (∀ k, A k → P k) → ∀ k, h.alloc k = true → h'.alloc k = false → P k

theorem Shr.refl (A : Nat → Prop) (h : Heap) : Shr A h h where
  next := rfl
  kind := rfl
  dying := rfl
  cache := rfl
  alloc _ h := h
  stack _ _ h := h
  sub _ _ _ h := h
  keep _ _ _ _ := rfl
  edge _ _ _ h _ _ _ _ := h
  orphan _ _ _ _ h := h
  ptr _ _ _ _ := Or.inl rfl
  min _ _ _ k h1 h2 := by rw [h1] at h2; simp at h2

theorem Shr.closed {A : Nat → Prop} {h h' : Heap} {St : Nat → Nat → Prop} (S : Shr A h h') (I : Inv St h) (I' : Inv St h')
    {P : Nat → Prop} (C : Closed h P) (hA : ∀ k, A k → P k) : Closed h' P where
  brk k i s he hb hs := C.brk k i s (S.sub _ _ _ he) (by rw [← S.kind]; exact hb) hs
  orph c hl he ha := by
    obtain ⟨o, i, he⟩ := he
    by_cases hAc : A c
    · exact hA c hAc
    refine C.orph c (by rw [← S.kind]; exact hl) ⟨o, i, S.sub _ _ _ he⟩ ?_
    intro o' i' he'
    by_cases hAo : A o'
    · exact hA o' hAo
    by_cases hal : h'.alloc o' = true
    · exact ha o' i' (S.edge o' i' c he' hal (I'.live _ _ _ he).1 hAo hAc)
    · exact S.min P C hA o' (I.live _ _ _ he').2 (by simpa using hal)
  own v w hw hv := C.own v w (by rw [← S.cache]; exact hw) hv

theorem Shr.trans {A : Nat → Prop} {a b c : Heap} {St : Nat → Nat → Prop} (S : Shr A a b) (T : Shr A b c) (I : Inv St a)
    (I' : Inv St b) : Shr A a c where
  next := T.next.trans S.next
  kind := T.kind.trans S.kind
  dying := T.dying.trans S.dying
  cache := T.cache.trans S.cache
  alloc k h := S.alloc k (T.alloc k h)
  stack k h1 h2 := T.stack k (by rw [S.dying]; exact h1) (S.stack k h1 h2)
  sub o i s h := S.sub o i s (T.sub o i s h)
  keep k h1 h2 h3 := (T.keep k h1 (by rw [S.kind]; exact h2) h3).trans (S.keep k (T.alloc k h1) h2 h3)
  edge o i s he ho hs hA hB := T.edge o i s (S.edge o i s he (T.alloc _ ho) (T.alloc _ hs) hA hB) ho hs hA hB
  orphan k h1 h2 h3 h4 := S.orphan k (T.alloc _ h1) h2 h3 (T.orphan k h1 (by rw [S.kind]; exact h2) h3 h4)
  ptr p h1 h2 h3 := by
    rcases S.ptr p (T.alloc _ h1) h2 h3 with e | ⟨s, e1, e2, e3⟩
    · rcases T.ptr p h1 (by rw [S.kind]; exact h2) h3 with f | ⟨s, f1, f2, f3⟩
      · exact Or.inl (f.trans e)
      · exact Or.inr ⟨s, by rw [← e]; exact f1, f2, f3⟩
    · right
      refine ⟨s, e1, e2.imp_left ?_, ?_⟩
      · intro hn
        cases hc : c.alloc s with
        | false => rfl
        | true => rw [T.alloc s hc] at hn; simp at hn
      · rcases T.ptr p h1 (by rw [S.kind]; exact h2) h3 with f | ⟨s, f1, f2, f3⟩
        · exact f.trans e3
        · exact f3
  min P C hA k h1 h2 := by
    cases hb : b.alloc k with
    | false => exact S.min P C hA k h1 hb
    | true => exact T.min P (S.closed I I' C hA) hA k hb h2

theorem Shr.mono {A B : Nat → Prop} {h h' : Heap} (S : Shr A h h') (hAB : ∀ k, A k → B k) : Shr B h h' where
  next := S.next
  kind := S.kind
  dying := S.dying
  cache := S.cache
  alloc := S.alloc
  stack := S.stack
  sub := S.sub
  keep k h1 h2 h3 := S.keep k h1 h2 (fun h => h3 (hAB _ h))
  edge o i s he ho hs hA hB := S.edge o i s he ho hs (fun h => hA (hAB _ h)) (fun h => hB (hAB _ h))
  orphan k h1 h2 h3 h4 := S.orphan k h1 h2 (fun h => h3 (hAB _ h)) h4
  ptr p h1 h2 h3 := by
    rcases S.ptr p h1 h2 (fun h => h3 (hAB _ h)) with e | ⟨s, e1, e2, e3⟩
    · exact Or.inl e
    · exact Or.inr ⟨s, e1, e2.imp_right (hAB s), e3⟩
  min P C hA k h1 h2 := S.min P C (fun k h => hA k (hAB k h)) k h1 h2

/-- An object that is gone at the end, and had to go, need not be listed. -/
theorem Shr.drop {A B : Nat → Prop} {h h' : Heap} {x : Nat} (S : Shr B h h') (hB : ∀ k, B k → A k ∨ k = x)
    (hx : h'.alloc x = false) (hP : ∀ P, Closed h P → (∀ k, A k → P k) → P x) : Shr A h h' := by
  have hne : ∀ k, h'.alloc k = true → ¬ A k → ¬ B k := by
    intro k h1 h2 h3
    rcases hB k h3 with h4 | h4
    · exact h2 h4
    · subst h4; rw [hx] at h1; simp at h1
  exact {
    next := S.next
    kind := S.kind
    dying := S.dying
    cache := S.cache
    alloc := S.alloc
    stack := S.stack
    sub := S.sub
    keep := fun k h1 h2 h3 => S.keep k h1 h2 (hne k h1 h3)
    edge := fun o i s he ho hs hA hB => S.edge o i s he ho hs (hne _ ho hA) (hne _ hs hB)
    orphan := fun k h1 h2 h3 h4 => S.orphan k h1 h2 (hne k h1 h3) h4
    ptr := by
      intro p h1 h2 h3
      rcases S.ptr p h1 h2 (hne p h1 h3) with e | ⟨s, e1, e2, e3⟩
      · exact Or.inl e
      · refine Or.inr ⟨s, e1, ?_, e3⟩
        rcases e2 with e2 | e2
        · exact Or.inl e2
        · rcases hB s e2 with e4 | e4
          · exact Or.inr e4
          · subst e4; exact Or.inl hx
    min := by
      intro P C hA k h1 h2
      refine S.min P C ?_ k h1 h2
      intro j hj
      rcases hB j hj with h3 | h3
      · exact hA j h3
      · subst h3; exact hP P C hA }

/-! ### the measure -/

/-- The objects whose destructor has not begun. -/
def count (h : Heap) : Nat := ((List.range h.next).filter (fun k => h.alloc k && !h.dying k)).length

theorem filter_len_le {p q : Nat → Bool} (l : List Nat) (h : ∀ k ∈ l, p k = true → q k = true) :
    (l.filter p).length ≤ (l.filter q).length := by
  induction l with
  | nil => simp
  | cons a l ih =>
    have ih := ih (fun k hk => h k (by simp [hk]))
    have ha := h a (by simp)
    simp only [List.filter_cons]
    cases hp : p a with
    | false =>
      cases q a <;> simp <;> omega
    | true =>
      rw [ha hp]; simp; exact ih

theorem filter_len_lt {p q : Nat → Bool} (l : List Nat) (h : ∀ k ∈ l, p k = true → q k = true) (x : Nat) (hx : x ∈ l)
    (hp : p x = false) (hq : q x = true) : (l.filter p).length < (l.filter q).length := by
  induction l with
  | nil => simp at hx
  | cons a l ih =>
    have hle := filter_len_le l (fun k hk => h k (by simp [hk]))
    simp only [List.filter_cons]
    rcases List.mem_cons.1 hx with rfl | hx
    · rw [hp, hq]; simp; omega
    · have ih := ih (fun k hk => h k (by simp [hk])) hx
      have ha := h a (by simp)
      cases hp' : p a with
      | false => cases q a <;> simp <;> omega
      | true => rw [ha hp']; simp; exact ih

theorem Shr.count_le {A : Nat → Prop} {h h' : Heap} (S : Shr A h h') : count h' ≤ count h := by
  unfold count
  rw [S.next, S.dying]
  refine filter_len_le _ ?_
  intro k _ hk
  simp only [Bool.and_eq_true] at hk ⊢
  exact ⟨S.alloc k hk.1, hk.2⟩

theorem count_mark {h : Heap} {n : Nat} (hr : ∀ k, h.alloc k = true → k < h.next)
    (ha : h.alloc n = true) (hd : h.dying n = false) : count (mark n h) < count h := by
  unfold count
  refine filter_len_lt _ ?_ n (List.mem_range.2 (hr n ha)) ?_ ?_
  · intro k _ hk
    simp only [mark, Bool.and_eq_true, Bool.not_eq_true'] at hk ⊢
    refine ⟨hk.1, ?_⟩
    have := hk.2
    unfold upd at this
    by_cases hkn : k = n
    · rw [if_pos hkn] at this; simp at this
    · rwa [if_neg hkn] at this
  · simp [mark, upd]
  · simp [ha, hd]

/-! ### one release -/

theorem need_eq {n : Nat} {h : Heap} (ha : h.alloc n = true) : need n h = .ok h := by rw [need, if_pos ha]

theorem mem_unlink {h : Heap} {s o i x j t : Nat} :
    (x, j) ∈ (unlink s o i h).aud t ↔ (x, j) ∈ h.aud t ∧ ¬ (t = s ∧ x = o ∧ j = i) := by
  show (x, j) ∈ upd h.aud s _ t ↔ _
  by_cases ht : t = s
  · subst ht; rw [upd_same]; simp; tauto
  · rw [upd_ne _ _ ht]; simp [ht]

theorem mark_inv {St : Nat → Nat → Prop} {h : Heap} {n : Nat} (I : Inv St h) (ha : h.alloc n = true)
    (hk : h.kind n ≠ .ptr) : Inv St (mark n h) where
  link := I.link
  back := I.back
  live := I.live
  nodup := I.nodup
  stale o i hs := by
    rcases I.stale o i hs with h1 | h1
    · left; show upd h.dying n true o = true
      unfold upd; split
      · rfl
      · exact h1
    · exact Or.inr h1
  dyingAlloc k hd := by
    have hd : upd h.dying n true k = true := hd
    by_cases hkn : k = n
    · rw [hkn]; exact ha
    · rw [upd_ne _ _ hkn] at hd; exact I.dyingAlloc k hd
  range := I.range
  ptrAud := I.ptrAud
  ptrLen := I.ptrLen
  ptrDying p hp := by
    show upd h.dying n true p = false
    rw [upd_ne _ _ (by rintro rfl; exact hk hp)]; exact I.ptrDying p hp
  leafDeps := I.leafDeps
  cacheKind := I.cacheKind
  cacheLive v w hw hv hd := by
    have hd : upd h.dying n true v = false := hd
    by_cases hvn : v = n
    · rw [hvn, upd_same] at hd; simp at hd
    · rw [upd_ne _ _ hvn] at hd; exact I.cacheLive v w hw hv hd
  cacheDead := I.cacheDead
  cacheOwn := I.cacheOwn
  cacheNodup := I.cacheNodup

theorem free_inv {St : Nat → Nat → Prop} {h : Heap} {n : Nat} (I : Inv St h) (hout : ∀ i s, (n, i) ∉ h.aud s)
    (hin : h.aud n = []) (hst : ∀ i, ¬ St n i) (hown : ∀ v, n ∈ h.cache v → h.dying v = true)
    (hmem : ∀ w ∈ h.cache n, h.alloc w = false) : Inv St (free n h) where
  link := I.link
  back := I.back
  live o i s he := by
    have h1 := I.live o i s he
    have hs : s ≠ n := by rintro rfl; rw [show (free s h).aud = h.aud from rfl, hin] at he; simp at he
    have ho : o ≠ n := by rintro rfl; exact hout i s he
    show upd h.alloc n false s = true ∧ upd h.alloc n false o = true
    rw [upd_ne _ _ hs, upd_ne _ _ ho]; exact h1
  nodup := I.nodup
  stale o i hs := by
    have ho : o ≠ n := by rintro rfl; exact hst i hs
    show upd h.dying n false o = true ∨ _
    rw [upd_ne _ _ ho]; exact I.stale o i hs
  dyingAlloc k hd := by
    have hd : upd h.dying n false k = true := hd
    show upd h.alloc n false k = true
    by_cases hkn : k = n
    · rw [hkn, upd_same] at hd; simp at hd
    · rw [upd_ne _ _ hkn] at hd ⊢; exact I.dyingAlloc k hd
  range k hk := by
    have hk : upd h.alloc n false k = true := hk
    by_cases hkn : k = n
    · rw [hkn, upd_same] at hk; simp at hk
    · rw [upd_ne _ _ hkn] at hk; exact I.range k hk
  ptrAud := I.ptrAud
  ptrLen := I.ptrLen
  ptrDying p hp := by
    show upd h.dying n false p = false
    by_cases hpn : p = n
    · rw [hpn, upd_same]
    · rw [upd_ne _ _ hpn]; exact I.ptrDying p hp
  leafDeps := I.leafDeps
  cacheKind := I.cacheKind
  cacheLive v w hw hv hd := by
    have hv : upd h.alloc n false v = true := hv
    have hd : upd h.dying n false v = false := hd
    show upd h.alloc n false w = true
    have hvn : v ≠ n := by rintro rfl; rw [upd_same] at hv; simp at hv
    rw [upd_ne _ _ hvn] at hv hd
    have hwn : w ≠ n := by
      intro hwn
      have := hown v (hwn ▸ hw)
      rw [hd] at this; simp at this
    rw [upd_ne _ _ hwn]; exact I.cacheLive v w hw hv hd
  cacheDead v w hw hv := by
    have hv : upd h.alloc n false v = false := hv
    show upd h.alloc n false w = false
    by_cases hwn : w = n
    · rw [hwn, upd_same]
    · rw [upd_ne _ _ hwn]
      by_cases hvn : v = n
      · exact hmem w (hvn ▸ hw)
      · rw [upd_ne _ _ hvn] at hv; exact I.cacheDead v w hw hv
  cacheOwn := I.cacheOwn
  cacheNodup := I.cacheNodup

/-- The registration of slot `(o, i)` is taken back. -/
theorem unlink_inv {St : Nat → Nat → Prop} {h : Heap} {s o i : Nat} (I : Inv St h)
    (ho : h.dying o = true ∨ h.kind o = .ptr) :
    Inv (fun x j => St x j ∨ (x = o ∧ j = i)) (unlink s o i h) where
  link x j t he := by
    rcases I.link x j t (mem_unlink.1 he).1 with h1 | h1
    · exact Or.inl h1
    · exact Or.inr (Or.inl h1)
  back x j t hd := by
    rcases I.back x j t hd with h1 | h1
    · by_cases hx : x = o ∧ j = i
      · exact Or.inr (Or.inr hx)
      · exact Or.inl (mem_unlink.2 ⟨h1, fun h2 => hx h2.2⟩)
    · exact Or.inr (Or.inl h1)
  live x j t he := I.live x j t (mem_unlink.1 he).1
  nodup t := by
    show (upd h.aud s _ t).Nodup
    by_cases ht : t = s
    · subst ht; rw [upd_same]; exact (I.nodup t).filter _
    · rw [upd_ne _ _ ht]; exact I.nodup t
  stale x j hs := by
    rcases hs with hs | ⟨rfl, rfl⟩
    · exact I.stale x j hs
    · exact ho
  dyingAlloc := I.dyingAlloc
  range := I.range
  ptrAud p hp := by
    show upd h.aud s _ p = []
    by_cases ht : p = s
    · subst ht; rw [upd_same, I.ptrAud p hp]; rfl
    · rw [upd_ne _ _ ht]; exact I.ptrAud p hp
  ptrLen := I.ptrLen
  ptrDying := I.ptrDying
  leafDeps := I.leafDeps
  cacheKind := I.cacheKind
  cacheLive := I.cacheLive
  cacheDead := I.cacheDead
  cacheOwn := I.cacheOwn
  cacheNodup := I.cacheNodup

/-- A slot whose registration was taken back gets a new content that is registered. -/
theorem setDeps_inv {St : Nat → Nat → Prop} {h : Heap} {o i : Nat} {l : List (Option Nat)}
    (I : Inv (fun x j => St x j ∨ (x = o ∧ j = i)) h)
    (hne : h.kind o = .ptr → l.length ≤ 1) (hleaf : (h.kind o).breaks = false → h.kind o ≠ .ptr → l = [])
    (hl : ∀ j s, j ≠ i → (l[j]? = some (some s) ↔ (h.deps o)[j]? = some (some s)))
    (hi : ∀ s : Nat, l[i]? = some (some s) ↔ (o, i) ∈ h.aud s) :
    Inv St { h with deps := upd h.deps o l } where
  link x j t he := by
    show (upd h.deps o l x)[j]? = _ ∨ _
    by_cases hx : x = o
    · subst hx; rw [upd_same]
      by_cases hj : j = i
      · subst hj; exact Or.inl ((hi t).2 he)
      · rcases I.link x j t he with h1 | h1 | h1
        · exact Or.inl ((hl j t hj).2 h1)
        · exact Or.inr h1
        · exact absurd h1.2 hj
    · rw [upd_ne _ _ hx]
      rcases I.link x j t he with h1 | h1 | h1
      · exact Or.inl h1
      · exact Or.inr h1
      · exact absurd h1.1 hx
  back x j t hd := by
    have hd : (upd h.deps o l x)[j]? = some (some t) := hd
    by_cases hx : x = o
    · subst hx; rw [upd_same] at hd
      by_cases hj : j = i
      · subst hj; exact Or.inl ((hi t).1 hd)
      · rcases I.back x j t ((hl j t hj).1 hd) with h1 | h1 | h1
        · exact Or.inl h1
        · exact Or.inr h1
        · exact absurd h1.2 hj
    · rw [upd_ne _ _ hx] at hd
      rcases I.back x j t hd with h1 | h1 | h1
      · exact Or.inl h1
      · exact Or.inr h1
      · exact absurd h1.1 hx
  live := I.live
  nodup := I.nodup
  stale x j hs := I.stale x j (Or.inl hs)
  dyingAlloc := I.dyingAlloc
  range := I.range
  ptrAud := I.ptrAud
  ptrLen p hp := by
    show (upd h.deps o l p).length ≤ 1
    by_cases hx : p = o
    · subst hx; rw [upd_same]; exact hne hp
    · rw [upd_ne _ _ hx]; exact I.ptrLen p hp
  ptrDying := I.ptrDying
  leafDeps k h1 h2 := by
    show upd h.deps o l k = []
    by_cases hx : k = o
    · subst hx; rw [upd_same]; exact hleaf h1 h2
    · rw [upd_ne _ _ hx]; exact I.leafDeps k h1 h2
  cacheKind := I.cacheKind
  cacheLive := I.cacheLive
  cacheDead := I.cacheDead
  cacheOwn := I.cacheOwn
  cacheNodup := I.cacheNodup

theorem popNulls_len (l : List (Option Nat)) : (popNulls l).length ≤ l.length := by
  obtain ⟨k, hk⟩ := popNulls_spec l
  conv => rhs; rw [hk]
  simp

/-- What is known of a recursive `delete` of an orphan. -/
def Reaps (rec : Nat → Heap → Outcome Heap) (fuel : Nat) : Prop :=
  ∀ (St : Nat → Nat → Prop) (h : Heap) (n : Nat), Inv St h → Full h → h.alloc n = true → h.dying n = false →
    (h.kind n).loose = true → h.aud n = [] → count h ≤ fuel →
    ∃ h', rec n h = .ok h' ∧ Inv St h' ∧ Full h' ∧ Shr (fun k => k = n ∨ h.dying k = true) h h' ∧ h'.alloc n = false ∧
      (∀ k, h'.alloc k = true → h'.deps k = h.deps k) ∧
      (∀ k, h.alloc k = true → h'.alloc k = false → (h.kind k).loose = true) ∧
      (∀ x j t, (x, j) ∈ h.aud t → h'.alloc x = true → (x, j) ∈ h'.aud t)

/-- A registration is taken back and the subject, if orphaned, deleted. -/
theorem release_spec {rec : Nat → Heap → Outcome Heap} {fuel : Nat} (hR : Reaps rec fuel) {St : Nat → Nat → Prop} {h : Heap}
    {o i s : Nat} (I : Inv St h) (F : Full h) (ho : h.dying o = true ∨ h.kind o = .ptr) (hs : h.alloc s = true)
    (hoa : h.alloc o = true) (he : (o, i) ∈ h.aud s) (hc : count h ≤ fuel) :
    ∃ h', release rec s o i h = .ok h' ∧ Inv (fun x j => St x j ∨ (x = o ∧ j = i)) h' ∧ Full h' ∧
      Shr (fun k => k = o ∨ h.dying k = true) h h' ∧ h'.alloc o = true ∧
      (∀ k, h'.alloc k = true → h'.deps k = h.deps k) ∧
      (∀ k, h.alloc k = true → h'.alloc k = false → (h.kind k).loose = true) ∧
      (o, i) ∉ h'.aud s ∧
      (∀ x j t, (x, j) ∈ h.aud t → h'.alloc x = true → ¬ (t = s ∧ x = o ∧ j = i) → (x, j) ∈ h'.aud t) ∧
      (h'.alloc s = false ↔ ((h.kind s).loose = true ∧ h.dying s = false ∧ ∀ x j, (x, j) ∈ h.aud s → x = o ∧ j = i)) := by
  have I1 := unlink_inv (s := s) (i := i) I ho
  have hemp : (unlink s o i h).aud s = [] ↔ ∀ x j, (x, j) ∈ h.aud s → x = o ∧ j = i := by
    rw [List.eq_nil_iff_forall_not_mem]
    constructor
    · intro h1 x j hm
      by_contra hcn
      exact h1 (x, j) (mem_unlink.2 ⟨hm, fun h2 => hcn h2.2⟩)
    · rintro h1 ⟨x, j⟩ hm
      have := mem_unlink.1 hm
      exact this.2 ⟨rfl, h1 x j this.1⟩
  have S1 : Shr (fun k => (k = o ∨ h.dying k = true) ∨ k = s) h (unlink s o i h) := {
    next := rfl, kind := rfl, dying := rfl, cache := rfl
    alloc := fun _ h => h
    stack := fun _ _ h => h
    sub := fun _ _ _ h => (mem_unlink.1 h).1
    keep := fun _ _ _ _ => rfl
    edge := fun x j t hm _ _ hA _ => mem_unlink.2 ⟨hm, fun h2 => hA (Or.inl (Or.inl h2.2.1))⟩
    orphan := by
      intro c _ _ hA hem
      have hcs : c ≠ s := fun h => hA (Or.inr h)
      have : upd h.aud s _ c = [] := hem
      rwa [upd_ne _ _ hcs] at this
    ptr := fun _ _ _ _ => Or.inl rfl
    min := by
      intro P _ _ k h1 h2
      rw [show (unlink s o i h).alloc k = h.alloc k from rfl, h1] at h2; simp at h2 }
  rw [release, need_eq hs, Outcome.ok_bind]
  by_cases hh : (unlink s o i h).aud s = [] ∧ (h.kind s).loose = true ∧ h.dying s = false
  · rw [if_pos hh]
    obtain ⟨h', e, I', F', S', hd, hdep, hlo, hout⟩ := hR _ (unlink s o i h) s I1 F hs hh.2.2 hh.2.1 hh.1 hc
    have S2 : Shr (fun k => (k = o ∨ h.dying k = true) ∨ k = s) h h' := by
      refine Shr.trans (St := fun x j => St x j ∨ (x = o ∧ j = i)) S1 (S'.mono ?_) ?_ I1
      · rintro k (h1 | h1)
        · exact Or.inr h1
        · exact Or.inl (Or.inr h1)
      · exact { I with
          link := fun x j t h1 => (I.link x j t h1).imp_right Or.inl
          back := fun x j t h1 => (I.back x j t h1).imp_right Or.inl
          stale := I1.stale }
    have S3 : Shr (fun k => k = o ∨ h.dying k = true) h h' := by
      refine S2.drop (x := s) (fun k h => h) hd ?_
      intro P C hA
      refine C.orph s hh.2.1 ⟨o, i, he⟩ ?_
      intro x j hm
      exact hA x (Or.inl ((hemp.1 hh.1) x j hm).1)
    refine ⟨h', e, I', F', S3, ?_, hdep, hlo, ?_, ?_, ?_⟩
    · rcases ho with h1 | h1
      · exact S3.stack o h1 hoa
      · cases hc : h'.alloc o with
        | true => rfl
        | false =>
          have := hlo o hoa hc
          rw [show (unlink s o i h).kind o = h.kind o from rfl, h1] at this; simp [Kind.loose] at this
    · intro hm
      have := (I'.live _ _ _ hm).1
      rw [hd] at this; simp at this
    · intro x j t hm hx hn
      exact hout x j t (mem_unlink.2 ⟨hm, hn⟩) hx
    · simp only [hd, true_iff]
      exact ⟨hh.2.1, hh.2.2, hemp.1 hh.1⟩
  · rw [if_neg hh]
    refine ⟨_, rfl, I1, F, ?_, hoa, fun _ _ => rfl, ?_, ?_, ?_, ?_⟩
    · exact { S1 with
        keep := fun _ _ _ _ => rfl
        edge := fun x j t hm _ _ hA _ => mem_unlink.2 ⟨hm, fun h2 => hA (Or.inl h2.2.1)⟩
        orphan := by
          intro c _ hl hA hem
          by_cases hcs : c = s
          · subst hcs
            refine absurd ⟨hem, hl, ?_⟩ hh
            have : ¬ h.dying c = true := fun h => hA (Or.inr h)
            simpa using this
          · have : upd h.aud s _ c = [] := hem
            rwa [upd_ne _ _ hcs] at this
        ptr := fun _ _ _ _ => Or.inl rfl
        min := by
          intro P _ _ k h1 h2
          rw [show (unlink s o i h).alloc k = h.alloc k from rfl, h1] at h2; simp at h2 }
    · intro k h1 h2
      rw [show (unlink s o i h).alloc k = h.alloc k from rfl, h1] at h2; simp at h2
    · intro hm
      exact (mem_unlink.1 hm).2 ⟨rfl, rfl, rfl⟩
    · intro x j t hm _ hn
      exact mem_unlink.2 ⟨hm, hn⟩
    · rw [show (unlink s o i h).alloc s = h.alloc s from rfl, hs]
      simp only [Bool.true_eq_false, false_iff]
      rintro ⟨h1, h2, h3⟩
      exact hh ⟨hemp.2 h3, h1, h2⟩

/-- Outcome of a change made by the destructor of `o`, or by the smart pointer `o`. -/
structure Quiet (St : Nat → Nat → Prop) (o : Nat) (h h' : Heap) : Prop where
  inv : Inv St h'
  full : Full h'
  shr : Shr (fun k => k = o ∨ h.dying k = true) h h'
  self : h'.alloc o = true
  deps : ∀ k, h'.alloc k = true → k ≠ o → h'.deps k = h.deps k
  loose : ∀ k, h.alloc k = true → h'.alloc k = false → (h.kind k).loose = true
  out : ∀ x j t, (x, j) ∈ h.aud t → h'.alloc x = true → x ≠ o → (x, j) ∈ h'.aud t

theorem Quiet.refl {St : Nat → Nat → Prop} {o : Nat} {h : Heap} (I : Inv St h) (F : Full h) (ho : h.alloc o = true) :
    Quiet St o h h :=
  ⟨I, F, Shr.refl _ _, ho, fun _ _ _ => rfl, fun k h1 h2 => by rw [h1] at h2; simp at h2, fun _ _ _ h _ _ => h⟩

theorem Quiet.trans {St : Nat → Nat → Prop} {o : Nat} {a b c : Heap} (I : Inv St a) (Q : Quiet St o a b) (R : Quiet St o b c) :
    Quiet St o a c where
  inv := R.inv
  full := R.full
  shr := Q.shr.trans (R.shr.mono (by intro k hk; rw [Q.shr.dying] at hk; exact hk)) I Q.inv
  self := R.self
  deps k h1 h2 := (R.deps k h1 h2).trans (Q.deps k (R.shr.alloc k h1) h2)
  loose k h1 h2 := by
    cases hb : b.alloc k with
    | false => exact Q.loose k h1 hb
    | true => rw [← Q.shr.kind]; exact R.loose k hb h2
  out x j t h1 h2 h3 := R.out x j t (Q.out x j t h1 (R.shr.alloc _ h2) h3) h2 h3

theorem removeDep_spec {rec : Nat → Heap → Outcome Heap} {fuel : Nat} (hR : Reaps rec fuel) {St : Nat → Nat → Prop} {h : Heap}
    {o i s : Nat} (I : Inv St h) (F : Full h) (ho : h.dying o = true ∨ h.kind o = .ptr) (hst : ∀ j, ¬ St o j)
    (hoa : h.alloc o = true) (hd : (h.deps o)[i]? = some (some s)) (hc : count h ≤ fuel) :
    ∃ h', removeDep rec o i h = .ok h' ∧ Quiet St o h h' ∧ h'.deps o = popNulls ((h.deps o).set i none) ∧
      (h'.alloc s = false ↔ ((h.kind s).loose = true ∧ h.dying s = false ∧ ∀ x j, (x, j) ∈ h.aud s → x = o ∧ j = i)) := by
  have he : (o, i) ∈ h.aud s := (I.back o i s hd).resolve_right (hst i)
  have hs := (I.live _ _ _ he).1
  obtain ⟨g, e, I', F', S', hog, hdep, hlo, hni, hout, hiff⟩ := release_spec hR I F ho hs hoa he hc
  have hdo : g.deps o = h.deps o := hdep o hog
  have hget : ∀ j t, j ≠ i → ((popNulls ((g.deps o).set i none))[j]? = some (some t) ↔ (g.deps o)[j]? = some (some t)) := by
    intro j t hj
    rw [popNulls_get, List.getElem?_set_ne (fun h => hj h.symm)]
  have hno : ∀ t : Nat, (popNulls ((g.deps o).set i none))[i]? = some (some t) ↔ (o, i) ∈ g.aud t := by
    intro t
    rw [popNulls_get]
    constructor
    · intro h1
      rw [List.getElem?_set] at h1
      simp at h1
    · intro h1
      exfalso
      have h2 := S'.sub _ _ _ h1
      rcases I.link _ _ _ h2 with h3 | h3
      · rw [hd] at h3; simp at h3; subst h3; exact hni h1
      · exact hst i h3
  refine ⟨{ g with deps := upd g.deps o (popNulls ((g.deps o).set i none)) }, ?_, ?_, ?_, hiff⟩
  · rw [removeDep, need_eq hoa, Outcome.ok_bind, hd]
    show (release rec s o i h >>= fun h => blank o i h) = _
    rw [e, Outcome.ok_bind, blank, need_eq hog, Outcome.ok_bind]
  · refine ⟨setDeps_inv I' ?_ ?_ hget hno, ?_, ?_, hog, ?_, hlo, ?_⟩
    · intro hp
      have := popNulls_len ((g.deps o).set i none)
      have := I'.ptrLen o hp
      simp at *; omega
    · intro h1 h2
      rw [I'.leafDeps o h1 h2]; rfl
    · intro k h1 h2 h3
      show none ∉ upd g.deps o _ k
      by_cases hk : k = o
      · subst hk
        rcases ho with h4 | h4
        · have h2 : g.dying k = false := h2
          rw [S'.dying, h4] at h2; simp at h2
        · have h3 : (g.kind k).breaks = true := h3
          rw [S'.kind, h4] at h3; simp [Kind.breaks] at h3
      · rw [upd_ne _ _ hk]; exact F' k h1 h2 h3
    · exact {
        next := S'.next, kind := S'.kind, dying := S'.dying, cache := S'.cache
        alloc := S'.alloc, stack := S'.stack, sub := S'.sub
        keep := by
          intro k h1 h2 h3
          show upd g.deps o _ k = _
          rw [upd_ne _ _ (fun h => h3 (Or.inl h))]
          exact S'.keep k h1 h2 h3
        edge := S'.edge, orphan := S'.orphan
        ptr := by
          intro p h1 h2 h3
          show upd g.deps o _ p = _ ∨ ∃ s, _ ∧ _ ∧ upd g.deps o _ p = _
          rw [upd_ne _ _ (fun h => h3 (Or.inl h))]
          exact S'.ptr p h1 h2 h3
        min := S'.min }
    · intro k h1 h2
      show upd g.deps o _ k = _
      rw [upd_ne _ _ h2]; exact hdep k h1
    · intro x j t h1 h2 h3
      exact hout x j t h1 h2 (fun h => h3 h.2.1)
  · show upd g.deps o _ o = _
    rw [upd_same, hdo]

/-- The loop of `~iobserver`. -/
theorem dropDeps_spec {rec : Nat → Heap → Outcome Heap} {fuel : Nat} (hR : Reaps rec fuel) {St : Nat → Nat → Prop} {h : Heap}
    {o : Nat} (I : Inv St h) (F : Full h) (ho : h.dying o = true ∨ h.kind o = .ptr) (hst : ∀ j, ¬ St o j)
    (hoa : h.alloc o = true) (ht : Tidy (h.deps o) ∨ AllNull (h.deps o)) (hc : count h ≤ fuel) :
    ∃ h', dropDeps rec o h = .ok h' ∧ Quiet St o h h' ∧ AllNull (h'.deps o) := by
  rw [dropDeps, need_eq hoa, Outcome.ok_bind]
  by_cases hn : AllNull (h.deps o)
  · refine ⟨h, ?_, Quiet.refl I F hoa, hn⟩
    have key : ∀ l : List Nat, (∀ i ∈ l, i < (h.deps o).length) → forEach (removeDep rec o) l h = .ok h := by
      intro l
      induction l with
      | nil => intro _; rfl
      | cons i l ih =>
        intro hl
        have h1 : removeDep rec o i h = .ok h := by
          have := hl i (by simp)
          rw [removeDep, need_eq hoa, Outcome.ok_bind]
          cases hg : (h.deps o)[i]? with
          | none => rw [List.getElem?_eq_none_iff] at hg; omega
          | some v =>
            cases v with
            | none => rfl
            | some w => exact absurd hg (hn i w)
        rw [forEach, h1, Outcome.ok_bind, ih (fun i hi => hl i (by simp [hi]))]
    exact key _ (fun i hi => List.mem_range.1 hi)
  · have ht' := ht.resolve_right hn
    rw [tidy_iff] at ht'
    rcases ht' with h0 | ⟨m, hm⟩
    · exfalso; apply hn
      intro j s
      rw [List.getElem?_eq_none (by omega)]; simp
    · have hpos : 0 < (h.deps o).length := by
        by_contra hcn
        rw [List.getElem?_eq_none (by omega)] at hm; simp at hm
      have key : ∀ k, k ≤ (h.deps o).length → ∃ g, forEach (removeDep rec o) (List.range k) h = .ok g ∧ Quiet St o h g ∧
          (∀ j s : Nat, (g.deps o)[j]? = some (some s) ↔ k ≤ j ∧ (h.deps o)[j]? = some (some s)) ∧
          (k < (h.deps o).length → (g.deps o).length = (h.deps o).length) := by
        intro k
        induction k with
        | zero => intro _; exact ⟨h, rfl, Quiet.refl I F hoa, by simp, fun _ => rfl⟩
        | succ k ih =>
          intro hk
          obtain ⟨g, e, Q, hg, hlen⟩ := ih (by omega)
          have hlen := hlen (by omega)
          rw [List.range_succ, forEach_append, e, Outcome.ok_bind, forEach]
          show ∃ g', (removeDep rec o k g >>= fun h => forEach (removeDep rec o) [] h) = _ ∧ _
          cases hgk : (g.deps o)[k]? with
          | none => rw [List.getElem?_eq_none_iff] at hgk; omega
          | some v =>
            cases v with
            | none =>
              refine ⟨g, ?_, Q, ?_, fun _ => hlen⟩
              · rw [removeDep, need_eq Q.self, Outcome.ok_bind, hgk]; rfl
              · intro j s
                rw [hg]
                constructor
                · rintro ⟨h1, h2⟩
                  refine ⟨?_, h2⟩
                  by_contra hcn
                  have hjk : j = k := by omega
                  subst hjk
                  have := (hg j s).2 ⟨h1, h2⟩
                  rw [hgk] at this; simp at this
                · rintro ⟨h1, h2⟩
                  exact ⟨by omega, h2⟩
            | some s =>
              obtain ⟨g', e', Q', hd', _⟩ := removeDep_spec hR Q.inv Q.full
                (by rw [Q.shr.dying, Q.shr.kind]; exact ho) hst Q.self hgk (Q.shr.count_le.trans hc)
              refine ⟨g', by rw [e']; rfl, Q.trans I Q', ?_, ?_⟩
              · intro j t
                rw [hd', popNulls_get, List.getElem?_set]
                by_cases hjk : k = j
                · subst hjk; rw [if_pos rfl]
                  constructor
                  · intro h1; split at h1 <;> simp at h1
                  · rintro ⟨h1, _⟩; omega
                · rw [if_neg hjk, hg]
                  constructor
                  · rintro ⟨h1, h2⟩; exact ⟨by omega, h2⟩
                  · rintro ⟨h1, h2⟩; exact ⟨by omega, h2⟩
              · intro hk2
                have h1 : (popNulls ((g.deps o).set k none))[(h.deps o).length - 1]? = some (some m) := by
                  rw [popNulls_get, List.getElem?_set_ne (by omega), hg]
                  exact ⟨by omega, hm⟩
                have h2 := popNulls_len ((g.deps o).set k none)
                rw [hd']
                have h3 : (h.deps o).length - 1 < (popNulls ((g.deps o).set k none)).length := by
                  by_contra hcn
                  rw [List.getElem?_eq_none (by omega)] at h1; simp at h1
                rw [List.length_set] at h2
                omega
      obtain ⟨g, e, Q, hg, _⟩ := key _ (le_refl _)
      refine ⟨g, e, Q, ?_⟩
      intro j s hj
      obtain ⟨h1, h2⟩ := (hg j s).1 hj
      rw [List.getElem?_eq_none h1] at h2; simp at h2

/-! ### orphans -/

theorem Shr.close {A : Nat → Prop} {h h1 : Heap} {n : Nat} (S : Shr A (mark n h) h1) (hd : h.dying n = false) (hA : A n) :
    Shr A h (free n h1) where
  next := S.next
  kind := S.kind
  dying := by
    show upd h1.dying n false = h.dying
    rw [S.dying]
    funext k
    show upd (upd h.dying n true) n false k = _
    by_cases hk : k = n
    · subst hk; rw [upd_same, hd]
    · rw [upd_ne _ _ hk, upd_ne _ _ hk]
  cache := S.cache
  alloc k hk := by
    have hk : upd h1.alloc n false k = true := hk
    by_cases hkn : k = n
    · rw [hkn, upd_same] at hk; simp at hk
    · rw [upd_ne _ _ hkn] at hk; exact S.alloc k hk
  stack k h2 h3 := by
    have hkn : k ≠ n := by rintro rfl; rw [hd] at h2; simp at h2
    show upd h1.alloc n false k = true
    rw [upd_ne _ _ hkn]
    exact S.stack k (by show upd h.dying n true k = true; rw [upd_ne _ _ hkn]; exact h2) h3
  sub := S.sub
  keep k h2 h3 h4 := by
    have hkn : k ≠ n := by rintro rfl; exact h4 hA
    have h2 : upd h1.alloc n false k = true := h2
    rw [upd_ne _ _ hkn] at h2
    exact S.keep k h2 h3 h4
  edge o i s he h2 h3 h4 h5 := by
    have h2 : upd h1.alloc n false o = true := h2
    have h3 : upd h1.alloc n false s = true := h3
    rw [upd_ne _ _ (by rintro rfl; exact h4 hA)] at h2
    rw [upd_ne _ _ (by rintro rfl; exact h5 hA)] at h3
    exact S.edge o i s he h2 h3 h4 h5
  orphan c h2 h3 h4 h5 := by
    have h2 : upd h1.alloc n false c = true := h2
    rw [upd_ne _ _ (by rintro rfl; exact h4 hA)] at h2
    exact S.orphan c h2 h3 h4 h5
  ptr p h2 h3 h4 := by
    have h2 : upd h1.alloc n false p = true := h2
    rw [upd_ne _ _ (by rintro rfl; exact h4 hA)] at h2
    rcases S.ptr p h2 h3 h4 with e | ⟨s, e1, e2, e3⟩
    · exact Or.inl e
    · refine Or.inr ⟨s, e1, ?_, e3⟩
      rcases e2 with e2 | e2
      · left; show upd h1.alloc n false s = false
        unfold upd; split
        · rfl
        · exact e2
      · exact Or.inr e2
  min P C hP k h2 h3 := by
    have h3 : upd h1.alloc n false k = false := h3
    by_cases hkn : k = n
    · subst hkn; exact hP k hA
    · rw [upd_ne _ _ hkn] at h3
      exact S.min P ⟨C.brk, C.orph, C.own⟩ hP k h2 h3

theorem noThrow_ok (h : Heap) : noThrow (.ok h) = .ok h := rfl

/-- The `delete this` of an orphan, and of everything it alone kept. -/
theorem reap (ord : Ord) (fuel : Nat) : Reaps (del ord fuel) fuel := by
  induction fuel with
  | zero =>
    intro St h n I F ha hd _ _ hc
    have := count_mark I.range ha hd
    omega
  | succ fuel ih =>
    intro St h n I F ha hd hl hau hc
    have hnp : h.kind n ≠ .ptr := by intro h1; rw [h1] at hl; simp [Kind.loose] at hl
    have hno : h.kind n ≠ .op := by intro h1; rw [h1] at hl; simp [Kind.loose] at hl
    have hcache : h.cache n = [] := by
      rw [List.eq_nil_iff_forall_not_mem]
      intro w hw
      exact hno (I.cacheKind n w hw).1
    have hcm := count_mark I.range ha hd
    have hmd : (mark n h).dying n = true := upd_same _ _ _
    have hstn : ∀ j, ¬ St n j := by
      intro j hj
      rcases I.stale n j hj with h1 | h1
      · rw [hd] at h1; simp at h1
      · exact hnp h1
    have Fm : Full (mark n h) := by
      intro k h1 h2 h3
      refine F k h1 ?_ h3
      have h2 : upd h.dying n true k = false := h2
      by_cases hkn : k = n
      · rw [hkn, upd_same] at h2; simp at h2
      · rwa [upd_ne _ _ hkn] at h2
    have htidy : Tidy (h.deps n) ∨ AllNull (h.deps n) := by
      by_cases hb : (h.kind n).breaks = true
      · left
        have hf := F n ha hd hb
        rw [tidy_iff]
        by_cases h0 : (h.deps n).length = 0
        · exact Or.inl h0
        · right
          have hlt : (h.deps n).length - 1 < (h.deps n).length := by omega
          cases hx : (h.deps n)[(h.deps n).length - 1] with
          | none => exact absurd (hx ▸ List.getElem_mem hlt) hf
          | some s => exact ⟨s, by rw [List.getElem?_eq_getElem hlt, hx]⟩
      · left; left; exact I.leafDeps n (by simpa using hb) hnp
    obtain ⟨g, e, Q, hnull⟩ := dropDeps_spec (o := n) ih (mark_inv I ha hnp) Fm (Or.inl hmd) hstn ha htidy (by omega)
    have hga : g.aud n = [] := by
      rw [List.eq_nil_iff_forall_not_mem]
      rintro ⟨x, j⟩ hm
      have := Q.shr.sub _ _ _ hm
      rw [show (mark n h).aud n = h.aud n from rfl, hau] at this; simp at this
    have hgout : ∀ i s, (n, i) ∉ g.aud s := by
      intro i s hm
      rcases Q.inv.link _ _ _ hm with h1 | h1
      · exact hnull i s h1
      · exact hstn i h1
    have hperm : ∀ l : List Nat, l = [] → ord.nat l = [] := by
      rintro l rfl; exact (ord.nat_perm []).eq_nil
    have hvw : viewers g n = [] := by simp [viewers, hga]
    refine ⟨free n g, ?_, ?_, ?_, ?_, ?_, ?_, ?_, ?_⟩
    · rw [del, need_eq ha, Outcome.ok_bind, if_neg (by rw [hd]; simp), hperm _ hcache, forEach, Outcome.ok_bind, e,
        Outcome.ok_bind, hperm _ hvw, forEach, Outcome.ok_bind]; rfl
    · refine free_inv Q.inv hgout hga hstn ?_ ?_
      · intro v hv
        exact absurd (Q.inv.cacheKind v n hv).2 (by rw [Q.shr.kind]; exact hnp)
      · intro w hw
        rw [Q.shr.cache, show (mark n h).cache n = h.cache n from rfl, hcache] at hw; simp at hw
    · intro k h1 h2 h3
      have h1 : upd g.alloc n false k = true := h1
      have h2 : upd g.dying n false k = false := h2
      have hkn : k ≠ n := by rintro rfl; rw [upd_same] at h1; simp at h1
      rw [upd_ne _ _ hkn] at h1 h2
      exact Q.full k h1 h2 h3
    · refine (Shr.close Q.shr hd (Or.inl rfl)).mono ?_
      rintro k (h1 | h1)
      · exact Or.inl h1
      · have h1 : upd h.dying n true k = true := h1
        by_cases hkn : k = n
        · exact Or.inl hkn
        · rw [upd_ne _ _ hkn] at h1; exact Or.inr h1
    · exact upd_same _ _ _
    · intro k h1
      have h1 : upd g.alloc n false k = true := h1
      have hkn : k ≠ n := by rintro rfl; rw [upd_same] at h1; simp at h1
      rw [upd_ne _ _ hkn] at h1
      exact Q.deps k h1 hkn
    · intro k h1 h2
      have h2 : upd g.alloc n false k = false := h2
      by_cases hkn : k = n
      · rw [hkn]; exact hl
      · rw [upd_ne _ _ hkn] at h2; exact Q.loose k h1 h2
    · intro x j t h1 h2
      have h2 : upd g.alloc n false x = true := h2
      have hxn : x ≠ n := by rintro rfl; rw [upd_same] at h2; simp at h2
      rw [upd_ne _ _ hxn] at h2
      exact Q.out x j t h1 h2 hxn

end Life
end Verif
