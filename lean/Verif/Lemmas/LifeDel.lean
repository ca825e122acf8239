import Verif.Lemmas.Life
/-! # Lemmas about lifetimes: what `delete` does -/
namespace Verif
namespace Life
open React (upd forEach popNulls Ord upd_same upd_ne Tidy AllNull tidy_popNulls popNulls_get popNulls_spec tidy_iff
  forEach_append nodup_eraseDups)

/-- No slot is being changed. -/
def NoSt : Nat → Nat → Prop := fun _ _ => False

theorem Inv.link' {h : Heap} (I : Inv NoSt h) {o i s : Nat} (he : (o, i) ∈ h.aud s) : (h.deps o)[i]? = some (some s) :=
  (I.link o i s he).resolve_right id

theorem Inv.back' {h : Heap} (I : Inv NoSt h) {o i s : Nat} (he : (h.deps o)[i]? = some (some s)) : (o, i) ∈ h.aud s :=
  (I.back o i s he).resolve_right id

theorem Shr.free {A : Nat → Prop} {h g : Heap} {n : Nat} (S : Shr A h g) (hd : h.dying n = false) (hA : A n) :
    Shr A h (free n g) where
  next := S.next
  kind := S.kind
  dying := by
    show upd g.dying n false = h.dying
    rw [S.dying]
    funext k
    by_cases hk : k = n
    · subst hk; rw [upd_same, hd]
    · rw [upd_ne _ _ hk]
  cache := S.cache
  alloc k hk := by
    have hk : upd g.alloc n false k = true := hk
    by_cases hkn : k = n
    · rw [hkn, upd_same] at hk; simp at hk
    · rw [upd_ne _ _ hkn] at hk; exact S.alloc k hk
  stack k h2 h3 := by
    have hkn : k ≠ n := by rintro rfl; rw [hd] at h2; simp at h2
    show upd g.alloc n false k = true
    rw [upd_ne _ _ hkn]
    exact S.stack k h2 h3
  sub := S.sub
  keep k h2 h3 h4 := by
    have hkn : k ≠ n := by rintro rfl; exact h4 hA
    have h2 : upd g.alloc n false k = true := h2
    rw [upd_ne _ _ hkn] at h2
    exact S.keep k h2 h3 h4
  edge o i s he h2 h3 h4 h5 := by
    have h2 : upd g.alloc n false o = true := h2
    have h3 : upd g.alloc n false s = true := h3
    rw [upd_ne _ _ (by rintro rfl; exact h4 hA)] at h2
    rw [upd_ne _ _ (by rintro rfl; exact h5 hA)] at h3
    exact S.edge o i s he h2 h3 h4 h5
  orphan c h2 h3 h4 h5 := by
    have h2 : upd g.alloc n false c = true := h2
    rw [upd_ne _ _ (by rintro rfl; exact h4 hA)] at h2
    exact S.orphan c h2 h3 h4 h5
  ptr p h2 h3 h4 := by
    have h2 : upd g.alloc n false p = true := h2
    rw [upd_ne _ _ (by rintro rfl; exact h4 hA)] at h2
    rcases S.ptr p h2 h3 h4 with e | ⟨s, e1, e2, e3⟩
    · exact Or.inl e
    · refine Or.inr ⟨s, e1, ?_, e3⟩
      rcases e2 with e2 | e2
      · left; show upd g.alloc n false s = false
        unfold upd; split
        · rfl
        · exact e2
      · exact Or.inr e2
  min P C hP k h2 h3 := by
    have h3 : upd g.alloc n false k = false := h3
    by_cases hkn : k = n
    · subst hkn; exact hP k hA
    · rw [upd_ne _ _ hkn] at h3
      exact S.min P C hP k h2 h3

theorem free_full {h : Heap} {n : Nat} (F : Full h) : Full (free n h) := by
  intro k h1 h2 h3
  have h1 : upd h.alloc n false k = true := h1
  have h2 : upd h.dying n false k = false := h2
  have hkn : k ≠ n := by rintro rfl; rw [upd_same] at h1; simp at h1
  rw [upd_ne _ _ hkn] at h1 h2
  exact F k h1 h2 h3

theorem short_tidy {l : List (Option Nat)} (h : l.length ≤ 1) : Tidy l ∨ AllNull l := by
  match l, h with
  | [], _ => exact Or.inl (Or.inl rfl)
  | [none], _ =>
    right; intro j s hj
    cases j with
    | zero => simp at hj
    | succ j => simp at hj
  | [some s], _ => exact Or.inl (Or.inr ⟨s, rfl⟩)

/-- The destruction of a smart pointer. -/
theorem dropPtr_spec {rec : Nat → Heap → Outcome Heap} {fuel : Nat} (hR : Reaps rec fuel) {h : Heap} {p : Nat}
    (I : Inv NoSt h) (F : Full h) (hp : h.kind p = .ptr) (ha : h.alloc p = true)
    (hown : ∀ v, p ∈ h.cache v → h.dying v = true) (hc : count h ≤ fuel) :
    ∃ h', dropPtr rec p h = .ok h' ∧ Inv NoSt h' ∧ Full h' ∧ Shr (fun k => k = p ∨ h.dying k = true) h h' ∧
      h'.alloc p = false ∧ (∀ k, h'.alloc k = true → h'.deps k = h.deps k) ∧
      (∀ k, h.alloc k = true → h'.alloc k = false → (h.kind k).loose = true ∨ k = p) := by
  obtain ⟨g, e, Q, hnull⟩ := dropDeps_spec (o := p) hR I F (Or.inr hp) (fun _ h => h) ha (short_tidy (I.ptrLen p hp)) hc
  refine ⟨free p g, by rw [dropPtr, e, noThrow_ok, Outcome.ok_bind], ?_, free_full Q.full, Q.shr.free (I.ptrDying p hp) (Or.inl rfl),
    upd_same _ _ _, ?_, ?_⟩
  · refine free_inv Q.inv ?_ (Q.inv.ptrAud p (by rw [Q.shr.kind]; exact hp)) (fun _ h => h) ?_ ?_
    · intro i s hm
      exact hnull i s (Q.inv.link' hm)
    · intro v hv
      rw [Q.shr.dying]; rw [Q.shr.cache] at hv; exact hown v hv
    · intro w hw
      have := (Q.inv.cacheKind p w hw).1
      rw [Q.shr.kind, hp] at this; simp at this
  · intro k hk
    have hk : upd g.alloc p false k = true := hk
    have hkn : k ≠ p := by rintro rfl; rw [upd_same] at hk; simp at hk
    rw [upd_ne _ _ hkn] at hk
    exact Q.deps k hk hkn
  · intro k h1 h2
    have h2 : upd g.alloc p false k = false := h2
    by_cases hkn : k = p
    · exact Or.inr hkn
    · rw [upd_ne _ _ hkn] at h2; exact Or.inl (Q.loose k h1 h2)

/-- The destruction of the members of an operation. -/
theorem dropMembers_spec {rec : Nat → Heap → Outcome Heap} {fuel : Nat} (hR : Reaps rec fuel) {n : Nat} (ws : List Nat) {h : Heap}
    (I : Inv NoSt h) (F : Full h) (hn : h.dying n = true) (hws : ∀ w ∈ ws, w ∈ h.cache n ∧ h.alloc w = true)
    (hnd : ws.Nodup) (hc : count h ≤ fuel) :
    ∃ h', forEach (dropPtr rec) ws h = .ok h' ∧ Inv NoSt h' ∧ Full h' ∧ Shr (fun k => h.dying k = true) h h' ∧
      (∀ w ∈ ws, h'.alloc w = false) ∧ (∀ k, h'.alloc k = true → h'.deps k = h.deps k) := by
  induction ws generalizing h with
  | nil => exact ⟨h, rfl, I, F, Shr.refl _ _, by simp, fun _ _ => rfl⟩
  | cons w ws ih =>
    have hw := hws w (by simp)
    obtain ⟨g, e, Ig, Fg, Sg, hdead, hdep, hlo⟩ := dropPtr_spec hR I F (I.cacheKind n w hw.1).2 hw.2 (by
      intro v hv
      rw [I.cacheOwn v n w hv hw.1]; exact hn) hc
    rw [List.nodup_cons] at hnd
    obtain ⟨h', e', I', F', S', hd', hdep'⟩ := ih Ig Fg (by rw [Sg.dying]; exact hn) (by
      intro x hx
      have hx' := hws x (by simp [hx])
      refine ⟨by rw [Sg.cache]; exact hx'.1, ?_⟩
      cases hg : g.alloc x with
      | true => rfl
      | false =>
        rcases hlo x hx'.2 hg with h1 | h1
        · rw [(I.cacheKind n x hx'.1).2] at h1; simp [Kind.loose] at h1
        · subst h1; exact absurd hx hnd.1) hnd.2 (Sg.count_le.trans hc)
    have Sg' : Shr (fun k => h.dying k = true) h g := by
      refine Sg.drop (x := w) (fun k hk => hk.symm) hdead ?_
      intro P C hA
      exact C.own n w hw.1 (hA n hn)
    refine ⟨h', by rw [forEach, e, Outcome.ok_bind, e'], I', F', ?_, ?_, ?_⟩
    · exact Sg'.trans (S'.mono (fun k hk => by rw [Sg.dying] at hk; exact hk)) I Ig
    · intro x hx
      rcases List.mem_cons.1 hx with rfl | hx
      · cases hh : h'.alloc x with
        | false => rfl
        | true => rw [S'.alloc x hh] at hdead; simp at hdead
      · exact hd' x hx
    · intro k hk
      exact (hdep' k hk).trans (hdep k (S'.alloc k hk))

/-! ### unsubscribing one viewer -/

/-- The edge `(v, i) → n` is removed on both sides. -/
def cut (n v i : Nat) (h : Heap) : Heap :=
  { unlink n v i h with deps := upd h.deps v (popNulls ((h.deps v).set i none)) }

theorem removeDep_dying {rec : Nat → Heap → Outcome Heap} {h : Heap} {n v i : Nat} (hn : h.alloc n = true)
    (hv : h.alloc v = true) (hdy : h.dying n = true) (hd : (h.deps v)[i]? = some (some n)) :
    removeDep rec v i h = .ok (cut n v i h) := by
  rw [removeDep, need_eq hv, Outcome.ok_bind, hd]
  show (release rec n v i h >>= fun h => blank v i h) = _
  rw [release, need_eq hn, Outcome.ok_bind, if_neg (by rw [hdy]; simp), Outcome.ok_bind, blank,
    need_eq (show (unlink n v i h).alloc v = true from hv), Outcome.ok_bind]
  rfl

theorem cut_inv {h : Heap} {n v i : Nat} (I : Inv NoSt h) (he : (v, i) ∈ h.aud n) : Inv NoSt (cut n v i h) where
  link x j t hm := by
    left
    obtain ⟨h1, h2⟩ := mem_unlink.1 hm
    have h3 := I.link' h1
    show (upd h.deps v _ x)[j]? = _
    by_cases hx : x = v
    · subst hx
      rw [upd_same, popNulls_get, List.getElem?_set]
      by_cases hj : i = j
      · subst hj
        exfalso
        have := I.link' he
        rw [h3] at this
        simp at this
        exact h2 ⟨this, rfl, rfl⟩
      · rw [if_neg hj]; exact h3
    · rw [upd_ne _ _ hx]; exact h3
  back x j t hd := by
    left
    have hd : (upd h.deps v (popNulls ((h.deps v).set i none)) x)[j]? = some (some t) := hd
    by_cases hx : x = v
    · subst hx
      rw [upd_same, popNulls_get, List.getElem?_set] at hd
      by_cases hj : i = j
      · subst hj; simp at hd
      · rw [if_neg hj] at hd
        exact mem_unlink.2 ⟨I.back' hd, fun h2 => hj h2.2.2.symm⟩
    · rw [upd_ne _ _ hx] at hd
      exact mem_unlink.2 ⟨I.back' hd, fun h2 => hx h2.2.1⟩
  live x j t hm := I.live x j t (mem_unlink.1 hm).1
  nodup t := by
    show (upd h.aud n _ t).Nodup
    by_cases ht : t = n
    · subst ht; rw [upd_same]; exact (I.nodup t).filter _
    · rw [upd_ne _ _ ht]; exact I.nodup t
  stale _ _ h := h.elim
  dyingAlloc := I.dyingAlloc
  range := I.range
  ptrAud p hp := by
    show upd h.aud n _ p = []
    by_cases ht : p = n
    · subst ht; rw [upd_same, I.ptrAud p hp]; rfl
    · rw [upd_ne _ _ ht]; exact I.ptrAud p hp
  ptrLen p hp := by
    show (upd h.deps v _ p).length ≤ 1
    by_cases hx : p = v
    · subst hx; rw [upd_same]
      have h1 := popNulls_len ((h.deps p).set i none)
      have h2 := I.ptrLen p hp
      rw [List.length_set] at h1; omega
    · rw [upd_ne _ _ hx]; exact I.ptrLen p hp
  ptrDying := I.ptrDying
  leafDeps k h1 h2 := by
    show upd h.deps v _ k = []
    by_cases hx : k = v
    · subst hx; rw [upd_same, I.leafDeps k h1 h2]; rfl
    · rw [upd_ne _ _ hx]; exact I.leafDeps k h1 h2
  cacheKind := I.cacheKind
  cacheLive := I.cacheLive
  cacheDead := I.cacheDead
  cacheOwn := I.cacheOwn
  cacheNodup := I.cacheNodup

/-- The result of removing some edges from `v` to `n`. -/
structure Unsub (n v : Nat) (is : List Nat) (h g : Heap) : Prop where
  inv : Inv NoSt g
  next : g.next = h.next
  kind : g.kind = h.kind
  alloc : g.alloc = h.alloc
  dying : g.dying = h.dying
  cache : g.cache = h.cache
  aud : ∀ x j t, (x, j) ∈ g.aud t ↔ (x, j) ∈ h.aud t ∧ ¬ (t = n ∧ x = v ∧ j ∈ is)
  deps : ∀ k, k ≠ v → g.deps k = h.deps k
  tidy : is ≠ [] → Tidy (g.deps v)

theorem unsub {rec : Nat → Heap → Outcome Heap} {n v : Nat} (is : List Nat) {h : Heap} (I : Inv NoSt h) (hn : h.alloc n = true)
    (hv : h.alloc v = true) (hdy : h.dying n = true) (his : ∀ i ∈ is, (v, i) ∈ h.aud n) (hnd : is.Nodup) :
    ∃ g, forEach (removeDep rec v) is h = .ok g ∧ Unsub n v is h g := by
  induction is generalizing h with
  | nil => exact ⟨h, rfl, I, rfl, rfl, rfl, rfl, rfl, by simp, fun _ _ => rfl, fun h => absurd rfl h⟩
  | cons i is ih =>
    have he := his i (by simp)
    rw [List.nodup_cons] at hnd
    have Ic := cut_inv I he
    obtain ⟨g, e, U⟩ := ih Ic hn hv hdy (by
      intro j hj
      refine mem_unlink.2 ⟨his j (by simp [hj]), ?_⟩
      rintro ⟨_, _, rfl⟩
      exact hnd.1 hj) hnd.2
    refine ⟨g, by rw [forEach, removeDep_dying hn hv hdy (I.link' he), Outcome.ok_bind, e], U.inv, U.next, U.kind, U.alloc, U.dying,
      U.cache, ?_, ?_, ?_⟩
    · intro x j t
      rw [U.aud, show (x, j) ∈ (cut n v i h).aud t ↔ _ from mem_unlink]
      simp only [List.mem_cons]
      tauto
    · intro k hk
      rw [U.deps k hk]
      exact upd_ne _ _ hk
    · intro _
      by_cases h0 : is = []
      · subst h0
        simp [forEach] at e
        rw [← e]
        show Tidy (upd h.deps v _ v)
        rw [upd_same]; exact tidy_popNulls _
      · exact U.tidy h0

theorem mem_indices {h : Heap} {n v j : Nat} : j ∈ indices h n v ↔ (v, j) ∈ h.aud n := by
  unfold indices
  simp only [List.mem_map, List.mem_filter, beq_iff_eq, Prod.exists]
  constructor
  · rintro ⟨a, b, ⟨h1, rfl⟩, rfl⟩; exact h1
  · intro h1; exact ⟨v, j, ⟨h1, rfl⟩, rfl⟩

theorem nodup_indices {h : Heap} {n v : Nat} (hn : (h.aud n).Nodup) : (indices h n v).Nodup := by
  unfold indices
  refine List.Nodup.map_on ?_ (hn.filter _)
  intro x hx y hy hxy
  simp only [List.mem_filter, beq_iff_eq] at hx hy
  exact Prod.ext (hx.2.trans hy.2.symm) hxy

theorem mem_viewers {h : Heap} {n v : Nat} : v ∈ viewers h n ↔ ∃ j, (v, j) ∈ h.aud n := by
  unfold viewers
  simp [List.mem_eraseDups]

/-! ### delete -/

/-- What is known of a recursive `delete`. -/
def Dels (rec : Nat → Heap → Outcome Heap) (fuel : Nat) : Prop :=
  ∀ (h : Heap) (n : Nat), Inv NoSt h → Full (mark n h) → h.alloc n = true → h.dying n = false → h.kind n ≠ .ptr →
    (Tidy (h.deps n) ∨ AllNull (h.deps n)) → (∀ k, h.dying k = true → ∀ i s, (k, i) ∉ h.aud s) → count h ≤ fuel →
    ∃ h', rec n h = .ok h' ∧ Inv NoSt h' ∧ Full h' ∧ Shr (fun k => k = n ∨ h.dying k = true) h h' ∧ h'.alloc n = false

/-- One turn of the notification of the viewers of `n`, whose destructor runs. -/
theorem turn_spec {rec : Nat → Heap → Outcome Heap} {fuel : Nat} (hD : Dels rec fuel) (ord : Ord) {h : Heap} {n v : Nat}
    (I : Inv NoSt h) (F : Full h) (hdy : h.dying n = true)
    (hq : ∀ k, h.dying k = true → ∀ i s, (k, i) ∉ h.aud s) (hc : count h ≤ fuel) :
    ∃ g, turn rec ord n v h = .ok g ∧ Inv NoSt g ∧ Full g ∧ Shr (fun k => h.dying k = true) h g ∧ ∀ i, (v, i) ∉ g.aud n := by
  have hn := I.dyingAlloc n hdy
  by_cases h0 : indices h n v = []
  · refine ⟨h, by rw [turn, if_pos h0], I, F, Shr.refl _ _, ?_⟩
    intro i hi
    rw [← mem_indices, h0] at hi; simp at hi
  · obtain ⟨i0, hi0⟩ := List.exists_mem_of_ne_nil _ h0
    rw [mem_indices] at hi0
    have hv := (I.live _ _ _ hi0).2
    have hvd : h.dying v = false := by
      cases hx : h.dying v with
      | false => rfl
      | true => exact absurd hi0 (hq v hx i0 n)
    have hperm := ord.nat_perm (indices h n v)
    obtain ⟨g, e, U⟩ := unsub (rec := rec) (ord.nat (indices h n v)) I hn hv hdy
      (fun i hi => mem_indices.1 (hperm.mem_iff.1 hi)) (hperm.nodup_iff.2 (nodup_indices (I.nodup n)))
    have hne : ord.nat (indices h n v) ≠ [] := by
      intro h1
      rw [h1] at hperm
      exact h0 hperm.symm.eq_nil
    have hgn : ∀ i, (v, i) ∉ g.aud n := by
      intro i hi
      obtain ⟨h1, h2⟩ := (U.aud v i n).1 hi
      exact h2 ⟨rfl, rfl, hperm.mem_iff.2 (mem_indices.2 h1)⟩
    have hsub : ∀ x j t, (x, j) ∈ g.aud t → (x, j) ∈ h.aud t := fun x j t hm => ((U.aud x j t).1 hm).1
    rw [turn, if_neg h0, e, Outcome.ok_bind, broken]
    -- the state between
    have Sg : Shr (fun k => h.dying k = true ∨ k = v) h g := {
      next := U.next, kind := U.kind, dying := U.dying, cache := U.cache
      alloc := fun k hk => by rw [U.alloc] at hk; exact hk
      stack := fun k _ hk => by rw [U.alloc]; exact hk
      sub := hsub
      keep := fun k _ _ hA => U.deps k (fun h => hA (Or.inr h))
      edge := fun x j t hm _ _ hA hB => (U.aud x j t).2 ⟨hm, fun h2 => hA (Or.inr h2.2.1)⟩
      orphan := by
        intro c _ _ hA hem
        rw [List.eq_nil_iff_forall_not_mem] at hem ⊢
        rintro ⟨x, j⟩ hm
        refine hem (x, j) ((U.aud x j c).2 ⟨hm, ?_⟩)
        rintro ⟨rfl, _⟩
        exact hA (Or.inl hdy)
      ptr := fun p _ _ hA => Or.inl (U.deps p (fun h => hA (Or.inr h)))
      min := fun P _ _ k h1 h2 => by rw [U.alloc, h1] at h2; simp at h2 }
    by_cases hb : (g.kind v).breaks = true
    · rw [if_pos hb]
      have hvp : g.kind v ≠ .ptr := by intro h1; rw [h1] at hb; simp [Kind.breaks] at hb
      obtain ⟨g', e', I', F', S', hd'⟩ := hD g v U.inv (by
          intro k h1 h2 h3
          have h2 : upd g.dying v true k = false := h2
          have hkv : k ≠ v := by rintro rfl; rw [upd_same] at h2; simp at h2
          rw [upd_ne _ _ hkv] at h2
          show none ∉ g.deps k
          rw [U.deps k hkv]
          refine F k ?_ ?_ ?_
          · rw [← U.alloc]; exact h1
          · rw [← U.dying]; exact h2
          · rw [← U.kind]; exact h3)
        (by rw [U.alloc]; exact hv) (by rw [U.dying]; exact hvd) hvp (Or.inl (U.tidy hne)) (by
          intro k hk i s hm
          rw [U.dying] at hk
          exact hq k hk i s (hsub _ _ _ hm)) (Sg.count_le.trans hc)
      have S2 : Shr (fun k => h.dying k = true ∨ k = v) h g' := by
        refine Sg.trans (S'.mono ?_) I U.inv
        rintro k (h1 | h1)
        · exact Or.inr h1
        · rw [U.dying] at h1; exact Or.inl h1
      refine ⟨g', e', I', F', S2.drop (x := v) (fun k h => h) hd' ?_, ?_⟩
      · intro P C hA
        exact C.brk v i0 n hi0 (by rw [← U.kind]; exact hb) (hA n hdy)
      · intro i hi
        exact hgn i (S'.sub _ _ _ hi)
    · rw [if_neg hb]
      have hvp : h.kind v = .ptr := by
        by_contra hcn
        have := I.leafDeps v (by rw [← U.kind]; simpa using hb) hcn
        have h2 := I.link' hi0
        rw [this] at h2; simp at h2
      have hlen := I.ptrLen v hvp
      have hi00 : i0 = 0 ∧ h.deps v = [some n] := by
        have h2 := I.link' hi0
        match hdv : h.deps v, hlen with
        | [], _ => rw [hdv] at h2; simp at h2
        | [a], _ =>
          rw [hdv] at h2
          cases i0 with
          | zero => simp at h2; rw [h2]; exact ⟨rfl, rfl⟩
          | succ i => simp at h2
      have hgd : g.deps v = [] := by
        rcases U.tidy hne with h1 | ⟨s, h1⟩
        · exact h1
        · exfalso
          rw [List.getLast?_eq_getElem?] at h1
          have h2 := U.inv.back' h1
          have h3 := I.link' (hsub _ _ _ h2)
          have hlt : (g.deps v).length - 1 < (h.deps v).length := by
            by_contra hcn
            rw [List.getElem?_eq_none (by omega)] at h3; simp at h3
          rw [hi00.2] at h3 hlt
          have hz : (g.deps v).length - 1 = 0 := by simp at hlt; omega
          rw [hz] at h2 h3
          simp at h3
          subst h3
          exact hgn 0 h2
      rw [if_pos hgd]
      refine ⟨g, rfl, U.inv, ?_, ?_, hgn⟩
      · intro k h1 h2 h3
        have hkv : k ≠ v := by rintro rfl; exact hb h3
        rw [U.deps k hkv]
        refine F k ?_ ?_ ?_
        · rw [← U.alloc]; exact h1
        · rw [← U.dying]; exact h2
        · rw [← U.kind]; exact h3
      · exact { Sg with
          keep := by
            intro k _ h2 hA
            refine U.deps k ?_
            rintro rfl
            exact hb (by rw [U.kind]; exact h2)
          edge := by
            intro x j t hm _ _ _ hB
            refine (U.aud x j t).2 ⟨hm, ?_⟩
            rintro ⟨rfl, _⟩
            exact hB hdy
          orphan := by
            intro c _ _ hA hem
            rw [List.eq_nil_iff_forall_not_mem] at hem ⊢
            rintro ⟨x, j⟩ hm
            refine hem (x, j) ((U.aud x j c).2 ⟨hm, ?_⟩)
            rintro ⟨rfl, _⟩
            exact hA hdy
          ptr := by
            intro p _ _ hA
            by_cases hpv : p = v
            · subst hpv
              exact Or.inr ⟨n, hi00.2, Or.inr hdy, hgd⟩
            · exact Or.inl (U.deps p hpv)
          min := fun P _ _ k h1 h2 => by rw [U.alloc, h1] at h2; simp at h2 }

/-- `delete`: it succeeds whatever hangs on the node, and what it does. -/
theorem del_spec (ord : Ord) (fuel : Nat) : Dels (del ord fuel) fuel := by
  induction fuel with
  | zero =>
    intro h n I F ha hd _ _ _ hc
    have := count_mark I.range ha hd
    omega
  | succ fuel ih =>
    intro h n I F ha hd hnp htidy hq hc
    have hR := reap ord fuel
    have hcm := count_mark I.range ha hd
    have hmd : (mark n h).dying n = true := upd_same _ _ _
    have Im := mark_inv I ha hnp
    have hpc := ord.nat_perm (h.cache n)
    obtain ⟨g0, e0, I0, F0, S0, hd0, hdep0⟩ := dropMembers_spec hR (n := n) (ord.nat (h.cache n)) Im F hmd (by
      intro w hw
      have hw := hpc.mem_iff.1 hw
      exact ⟨hw, I.cacheLive n w hw ha hd⟩) (hpc.nodup_iff.2 (I.cacheNodup n)) (by omega)
    have ha0 : g0.alloc n = true := S0.stack n hmd ha
    have hmd0 : g0.dying n = true := by rw [S0.dying]; exact hmd
    obtain ⟨g1, e1, Q1, hnull⟩ := dropDeps_spec (o := n) hR I0 F0 (Or.inl hmd0) (fun _ h => h) ha0
      (by rw [hdep0 n ha0]; exact htidy) (by have := S0.count_le; omega)
    have hmd1 : g1.dying n = true := by rw [Q1.shr.dying]; exact hmd0
    have S1 : Shr (fun k => (mark n h).dying k = true) (mark n h) g1 := by
      refine S0.trans (Q1.shr.mono ?_) Im I0
      rintro k (h1 | h1)
      · subst h1; exact hmd
      · rw [S0.dying] at h1; exact h1
    have hout1 : ∀ i s, (n, i) ∉ g1.aud s := fun i s hm => hnull i s (Q1.inv.link' hm)
    have hq1 : ∀ k, g1.dying k = true → ∀ i s, (k, i) ∉ g1.aud s := by
      intro k hk i s hm
      by_cases hkn : k = n
      · subst hkn; exact hout1 i s hm
      · rw [S1.dying] at hk
        have hk : upd h.dying n true k = true := hk
        rw [upd_ne _ _ hkn] at hk
        exact hq k hk i s (S1.sub _ _ _ hm)
    have hpv := ord.nat_perm (viewers g1 n)
    have key : ∀ (l : List Nat) (g : Heap), Inv NoSt g → Full g → Shr (fun k => g1.dying k = true) g1 g →
        (∀ v i, (v, i) ∈ g.aud n → v ∈ l) →
        ∃ g', forEach (turn (del ord fuel) ord n) l g = .ok g' ∧ Inv NoSt g' ∧ Full g' ∧
          Shr (fun k => g1.dying k = true) g1 g' ∧ g'.aud n = [] := by
      intro l
      induction l with
      | nil =>
        intro g Ig Fg Sg hl
        refine ⟨g, rfl, Ig, Fg, Sg, ?_⟩
        rw [List.eq_nil_iff_forall_not_mem]
        rintro ⟨x, j⟩ hm
        exact absurd (hl x j hm) (by simp)
      | cons v l ihl =>
        intro g Ig Fg Sg hl
        obtain ⟨g', e', I', F', S', hn'⟩ := turn_spec (v := v) ih ord Ig Fg (by rw [Sg.dying]; exact hmd1) (by
          intro k hk i s hm
          rw [Sg.dying] at hk
          exact hq1 k hk i s (Sg.sub _ _ _ hm)) (by
            have a := Sg.count_le
            have b := S1.count_le
            omega)
        obtain ⟨g'', e'', I'', F'', S'', hn''⟩ := ihl g' I' F'
          (Sg.trans (S'.mono (fun k hk => by rw [Sg.dying] at hk; exact hk)) Q1.inv Ig) (by
            intro x j hm
            rcases List.mem_cons.1 (hl x j (S'.sub _ _ _ hm)) with h1 | h1
            · subst h1; exact absurd hm (hn' j)
            · exact h1)
        exact ⟨g'', by rw [forEach, e', Outcome.ok_bind, e''], I'', F'', S'', hn''⟩
    obtain ⟨g2, e2, I2, F2, S2, hau2⟩ := key (ord.nat (viewers g1 n)) g1 Q1.inv Q1.full (Shr.refl _ _) (by
      intro v i hm
      exact hpv.mem_iff.2 (mem_viewers.2 ⟨i, hm⟩))
    have S3 : Shr (fun k => (mark n h).dying k = true) (mark n h) g2 :=
      S1.trans (S2.mono (fun k hk => by rw [S1.dying] at hk; exact hk)) Im Q1.inv
    refine ⟨free n g2, ?_, ?_, free_full F2, ?_, upd_same _ _ _⟩
    · rw [del, need_eq ha, Outcome.ok_bind, if_neg (by rw [hd]; simp), e0, Outcome.ok_bind, e1, Outcome.ok_bind, e2,
        Outcome.ok_bind]; rfl
    · refine free_inv I2 ?_ hau2 (fun _ h => h) ?_ ?_
      · intro i s hm
        exact hout1 i s (S2.sub _ _ _ hm)
      · intro v hv
        have := (I2.cacheKind v n hv).2
        rw [S3.kind] at this
        exact absurd this hnp
      · intro w hw
        rw [S3.cache] at hw
        have h1 := hd0 w (hpc.mem_iff.2 hw)
        cases hh : g2.alloc w with
        | false => rfl
        | true =>
          rw [Q1.shr.alloc w (S2.alloc w hh)] at h1; simp at h1
    · refine (Shr.close S3 hd hmd).mono ?_
      intro k h1
      have h1 : upd h.dying n true k = true := h1
      by_cases hkn : k = n
      · exact Or.inl hkn
      · rw [upd_ne _ _ hkn] at h1; exact Or.inr h1

end Life
end Verif
