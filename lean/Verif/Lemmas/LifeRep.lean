import Verif.Lemmas.LifeCalls
/-! # Lemmas about lifetimes: the heap and the world of the specification -/
namespace Verif
namespace Life
open React (upd forEach popNulls Ord upd_same upd_ne Tidy AllNull)
open Spec.Life (World Slot Holds Dies Unheld Legal Throws Node Ptr Reached)

def slotList : Slot → List (Option Nat)
  | .empty => []
  | .null => [none]
  | .at s => [some s]

theorem slotList_len (x : Slot) : (slotList x).length ≤ 1 := by cases x <;> simp [slotList]

theorem slotList_get (x : Slot) (s : Nat) : (slotList x)[0]? = some (some s) ↔ x = .at s := by
  cases x <;> simp [slotList]

theorem slotList_of (d : Option Nat) : slotList (.of d) = [d] := by cases d <;> rfl

theorem slotList_nil (x : Slot) : slotList x = [] ↔ x = .empty := by cases x <;> simp [slotList]

theorem breaks_iff (k : Kind) : k.breaks = true ↔ k = .op ∨ k = .gen := by cases k <;> simp [Kind.breaks]

theorem loose_iff (k : Kind) : k.loose = true ↔ k = .const ∨ k = .gen := by cases k <;> simp [Kind.loose]

/-- The heap shows the world. -/
structure Rep (W : World) (h : Heap) : Prop where
  next : h.next = W.next
  kind : h.kind = W.kind
  live : ∀ k, W.live k ↔ h.alloc k = true
  args : ∀ k, h.alloc k = true → (h.kind k).breaks = true → h.deps k = (W.args k).map some
  slot : ∀ p, h.alloc p = true → h.kind p = .ptr → h.deps p = slotList (W.slot p)
  grads : h.cache = W.grads

theorem rep_start : Rep World.start Heap.empty := by
  refine ⟨rfl, rfl, ?_, ?_, ?_, rfl⟩ <;> simp [World.start, Heap.empty]

theorem holds_iff {W : World} {h : Heap} (R : Rep W h) (I : Inv NoSt h) {o c : Nat} : Holds W o c ↔ ∃ i, (o, i) ∈ h.aud c := by
  constructor
  · rintro ⟨h1, ⟨h2, h3⟩ | ⟨h2, h3⟩⟩
    · have ha := (R.live o).1 h1
      rw [← R.kind] at h2
      have hd := R.args o ha ((breaks_iff _).2 h2)
      obtain ⟨i, hi⟩ := List.mem_iff_getElem?.1 h3
      exact ⟨i, I.back' (by rw [hd, List.getElem?_map, hi]; rfl)⟩
    · have ha := (R.live o).1 h1
      rw [← R.kind] at h2
      have hd := R.slot o ha h2
      exact ⟨0, I.back' (by rw [hd, h3]; rfl)⟩
  · rintro ⟨i, hm⟩
    have ha := (I.live _ _ _ hm).2
    have hl := I.link' hm
    refine ⟨(R.live o).2 ha, ?_⟩
    by_cases hb : (h.kind o).breaks = true
    · left
      rw [R.args o ha hb, List.getElem?_map] at hl
      refine ⟨by rw [← R.kind]; exact (breaks_iff _).1 hb, ?_⟩
      cases e : (W.args o)[i]? with
      | none => rw [e] at hl; simp at hl
      | some x =>
        rw [e] at hl
        simp at hl; subst hl
        exact List.mem_of_getElem? e
    · by_cases hp : h.kind o = .ptr
      · right
        refine ⟨by rw [← R.kind]; exact hp, ?_⟩
        rw [R.slot o ha hp] at hl
        have : i = 0 := by
          by_contra hc
          rw [List.getElem?_eq_none (by have := slotList_len (W.slot o); omega)] at hl
          simp at hl
        subst this
        exact (slotList_get _ _).1 hl
      · rw [I.leafDeps o (by simpa using hb) hp] at hl; simp at hl

/-- Which objects are gone after a deletion, whatever the order it went in. -/
theorem dies_exact {W : World} {g h' : Heap} {S : Nat → Prop} {St : Nat → Nat → Prop}
    (hlive : ∀ k, W.live k ↔ g.alloc k = true) (hkind : g.kind = W.kind)
    (hobs : ∀ o c, Holds W o c ↔ ∃ i, (o, i) ∈ g.aud c) (hcache : g.cache = W.grads)
    (I : Inv St g) (I' : Inv St h') (hSt : ∀ o i, St o i → (g.kind o).breaks = false)
    (T : Shr S g h') (hdead : ∀ k, S k → h'.alloc k = false) :
    (∀ k, Dies W S k → h'.alloc k = false) ∧ ∀ k, W.live k → h'.alloc k = false → Dies W S k := by
  have hargs : ∀ k c, (g.kind k).breaks = true → g.alloc k = true → (c ∈ W.args k ↔ ∃ i, (k, i) ∈ g.aud c) := by
    intro k c hb ha
    rw [← hobs]
    constructor
    · intro h1; exact ⟨(hlive k).2 ha, Or.inl ⟨by rw [← hkind]; exact (breaks_iff _).1 hb, h1⟩⟩
    · rintro ⟨_, ⟨_, h1⟩ | ⟨h1, _⟩⟩
      · exact h1
      · rw [← hkind] at h1; rw [h1] at hb; simp [Kind.breaks] at hb
  constructor
  · intro k hk
    induction hk with
    | seed h1 => exact hdead _ h1
    | @broken k s h1 h2 h3 _ ih =>
      cases e : h'.alloc k with
      | false => rfl
      | true =>
        have hb : (g.kind k).breaks = true := by rw [hkind]; exact (breaks_iff _).2 h1
        obtain ⟨i, hi⟩ := (hargs k s hb ((hlive k).1 h2)).1 h3
        have hl : (g.deps k)[i]? = some (some s) := by
          rcases I.link _ _ _ hi with h4 | h4
          · exact h4
          · rw [hSt _ _ h4] at hb; simp at hb
        have hnS : ¬ S k := fun hs => by rw [hdead k hs] at e; simp at e
        rw [← T.keep k e hb hnS] at hl
        rcases I'.back _ _ _ hl with h4 | h4
        · rw [(I'.live _ _ _ h4).1] at ih; simp at ih
        · rw [hSt _ _ h4] at hb; simp at hb
    | @orphan c o h1 h2 h3 _ ih =>
      cases e : h'.alloc c with
      | false => rfl
      | true =>
        have hlo : (g.kind c).loose = true := by rw [hkind]; exact (loose_iff _).2 h1
        have hnS : ¬ S c := fun hs => by rw [hdead c hs] at e; simp at e
        obtain ⟨i, hi⟩ := (hobs o c).1 h3
        by_cases hn : h'.aud c = []
        · rw [T.orphan c e hlo hnS hn] at hi; simp at hi
        · obtain ⟨⟨x, j⟩, hx⟩ := List.exists_mem_of_ne_nil _ hn
          have := ih x ((hobs x c).2 ⟨j, T.sub _ _ _ hx⟩)
          rw [(I'.live _ _ _ hx).2] at this; simp at this
    | @own v w h1 _ ih =>
      exact I'.cacheDead v w (by rw [T.cache, hcache]; exact h1) ih
  · intro k h1 h2
    refine T.min (Dies W S) ⟨?_, ?_, ?_⟩ (fun k hk => .seed hk) k ((hlive k).1 h1) h2
    · intro k i s hm hb hs
      have ha := (I.live _ _ _ hm).2
      exact .broken (by rw [← hkind]; exact (breaks_iff _).1 hb) ((hlive k).2 ha) ((hargs k s hb ha).2 ⟨i, hm⟩) hs
    · rintro c hlo ⟨o, i, hm⟩ hall
      refine .orphan (by rw [← hkind]; exact (loose_iff _).1 hlo) ((hlive c).2 (I.live _ _ _ hm).1) ((hobs o c).2 ⟨i, hm⟩) ?_
      intro x hx
      obtain ⟨j, hj⟩ := (hobs x c).1 hx
      exact hall x j hj
    · intro v w hw hv
      exact .own (by rw [← hcache]; exact hw) hv

/-! ### delete -/

theorem full_mark {h : Heap} (F : Full h) (n : Nat) : Full (mark n h) := by
  intro k h1 h2 h3
  have h2 : upd h.dying n true k = false := h2
  by_cases hk : k = n
  · subst hk; rw [upd_same] at h2; simp at h2
  · rw [upd_ne _ _ hk] at h2; exact F k h1 h2 h3

theorem map_some_tidy (l : List Nat) : Tidy (l.map some) := by
  rcases List.eq_nil_or_concat l with rfl | ⟨l, a, rfl⟩
  · exact Or.inl rfl
  · right; exact ⟨a, by simp⟩

theorem delete_rep {W : World} {h : Heap} {n : Nat} (ord : Ord) (G : Good h) (R : Rep W h) (hn : h.alloc n = true)
    (hk : h.kind n ≠ .ptr) :
    ∃ h', delete ord n h = .ok h' ∧ Good h' ∧ Rep (W.without (fun k => k = n)) h' := by
  have htidy : Tidy (h.deps n) ∨ AllNull (h.deps n) := by
    by_cases hb : (h.kind n).breaks = true
    · left; rw [R.args n hn hb]; exact map_some_tidy _
    · left; left; exact G.inv.leafDeps n (by simpa using hb) hk
  obtain ⟨h', e, I', F', T, hd⟩ := del_spec ord h.next h n G.inv (full_mark G.full n) hn (G.quiet n) hk htidy
    (by intro k hk; rw [G.quiet] at hk; simp at hk) (count_le_next h)
  have T := T.mono (B := fun k => k = n) (by
    rintro k (h1 | h1)
    · exact h1
    · rw [G.quiet] at h1; simp at h1)
  obtain ⟨E1, E2⟩ := dies_exact R.live R.kind (fun o c => holds_iff R G.inv) R.grads G.inv I' (by intro o i hf; exact hf.elim) T
    (by rintro k rfl; exact hd)
  refine ⟨h', e, ⟨I', F', by intro k; rw [T.dying]; exact G.quiet k, by intro v w; rw [T.cache, T.next]; exact G.bound v w⟩, ?_⟩
  refine ⟨T.next.trans R.next, T.kind.trans R.kind, ?_, ?_, ?_, T.cache.trans R.grads⟩
  · intro k
    show W.live k ∧ ¬ Dies W _ k ↔ _
    constructor
    · rintro ⟨h1, h2⟩
      cases e : h'.alloc k with
      | true => rfl
      | false => exact absurd (E2 k h1 e) h2
    · intro h1
      refine ⟨(R.live k).2 (T.alloc k h1), fun h2 => ?_⟩
      rw [E1 k h2] at h1; simp at h1
  · intro k ha hb
    rw [T.kind] at hb
    rw [T.keep k ha hb (by rintro rfl; rw [hd] at ha; simp at ha)]
    exact R.args k (T.alloc k ha) hb
  · intro p ha hp
    rw [T.kind] at hp
    have hpn : ¬ p = n := by rintro rfl; exact hk hp
    have hs := R.slot p (T.alloc p ha) hp
    rcases T.ptr p ha hp hpn with h1 | ⟨s, h1, h2, h3⟩
    · have hsl : (W.without (fun k => k = n)).slot p = W.slot p := by
        refine if_neg ?_
        rintro ⟨s, h2, h3⟩
        have h4 : (p, 0) ∈ h'.aud s := I'.back' (by rw [h1, hs, h2]; rfl)
        have h5 := E1 s h3
        rw [(I'.live _ _ _ h4).1] at h5; simp at h5
      rw [hsl, h1, hs]
    · have hsl : W.slot p = .at s := (slotList_get _ _).1 (by rw [← hs, h1]; rfl)
      have hdead : h'.alloc s = false := by
        rcases h2 with h2 | h2
        · exact h2
        · rw [h2]; exact hd
      have hsa : h.alloc s = true := (G.inv.live _ _ _ (G.inv.back' (o := p) (i := 0) (by rw [h1]; rfl))).1
      have hsl' : (W.without (fun k => k = n)).slot p = .empty := if_pos ⟨s, hsl, E2 s ((R.live s).2 hsa) hdead⟩
      rw [hsl', h3]; rfl

/-! ### smart pointers -/

theorem attach0 {h : Heap} {p s : Nat} (G : Good h) (hp : h.kind p = .ptr) (ha : h.alloc p = true)
    (hs : h.alloc s = true) (hsp : h.kind s ≠ .ptr) :
    ∃ g, attach s p 0 h = .ok g ∧ Inv (fun x j => x = p ∧ j = 0) g ∧ g.next = h.next ∧ g.kind = h.kind ∧ g.alloc = h.alloc ∧
      g.dying = h.dying ∧ g.deps = h.deps ∧ g.cache = h.cache ∧
      ∀ x j t, (x, j) ∈ g.aud t ↔ (x, j) ∈ h.aud t ∨ (t = s ∧ x = p ∧ j = 0) := by
  refine ⟨{ h with aud := upd h.aud s (if (p, 0) ∈ h.aud s then h.aud s else (p, 0) :: h.aud s) }, by rw [attach, need_eq hs, Outcome.ok_bind], ?_, rfl, rfl, rfl, rfl, rfl, rfl, ?_⟩
  all_goals
    have haud : ∀ x j t, (x, j) ∈ upd h.aud s (if (p, 0) ∈ h.aud s then h.aud s else (p, 0) :: h.aud s) t ↔
        (x, j) ∈ h.aud t ∨ (t = s ∧ x = p ∧ j = 0) := by
      intro x j t
      by_cases ht : t = s
      · subst ht; rw [upd_same]
        by_cases hm : (p, 0) ∈ h.aud t
        · rw [if_pos hm]
          constructor
          · exact Or.inl
          · rintro (h1 | ⟨_, rfl, rfl⟩)
            · exact h1
            · exact hm
        · rw [if_neg hm, List.mem_cons, Prod.mk.injEq]; tauto
      · rw [upd_ne _ _ ht]; simp [ht]
  · refine ⟨?_, ?_, ?_, ?_, ?_, G.inv.dyingAlloc, G.inv.range, ?_, G.inv.ptrLen, G.inv.ptrDying, G.inv.leafDeps,
        G.inv.cacheKind, G.inv.cacheLive, G.inv.cacheDead, G.inv.cacheOwn, G.inv.cacheNodup⟩
    · intro o i t hm
      rcases (haud o i t).1 hm with h1 | ⟨_, h2, h3⟩
      · exact Or.inl (G.inv.link' h1)
      · exact Or.inr ⟨h2, h3⟩
    · intro o i t hm
      exact Or.inl ((haud o i t).2 (Or.inl (G.inv.back' hm)))
    · intro o i t hm
      rcases (haud o i t).1 hm with h1 | ⟨h1, h2, h3⟩
      · exact G.inv.live _ _ _ h1
      · subst h1 h2; exact ⟨hs, ha⟩
    · intro t
      show (upd h.aud s _ t).Nodup
      by_cases ht : t = s
      · subst ht; rw [upd_same]
        by_cases hm : (p, 0) ∈ h.aud t
        · rw [if_pos hm]; exact G.inv.nodup t
        · rw [if_neg hm]; exact List.nodup_cons.2 ⟨hm, G.inv.nodup t⟩
      · rw [upd_ne _ _ ht]; exact G.inv.nodup t
    · rintro o i ⟨rfl, _⟩; exact Or.inr hp
    · intro q hq
      show upd h.aud s _ q = []
      have hx : q ≠ s := by rintro rfl; exact hsp hq
      rw [upd_ne _ _ hx]; exact G.inv.ptrAud q hq
  · exact haud

/-- The slot of a smart pointer is written last. -/
theorem settle {g : Heap} {p : Nat} {tgt : Slot} (I : Inv (fun x j => x = p ∧ j = 0) g) (F : Full g) (hq : ∀ k, g.dying k = false)
    (hb : ∀ v w, w ∈ g.cache v → w < g.next) (hp : g.kind p = .ptr) (hto : ∀ s, tgt = .at s ↔ (p, 0) ∈ g.aud s) :
    Good { g with deps := upd g.deps p (slotList tgt) } := by
  refine ⟨?_, ?_, hq, hb⟩
  · refine setDeps_inv (i := 0) (o := p) (St := NoSt) ⟨?_, ?_, I.live, I.nodup, ?_, I.dyingAlloc, I.range, I.ptrAud, I.ptrLen, I.ptrDying, I.leafDeps,
        I.cacheKind, I.cacheLive, I.cacheDead, I.cacheOwn, I.cacheNodup⟩ ?_ ?_ ?_ ?_
    · intro o i s hm
      rcases I.link o i s hm with h1 | h1
      · exact Or.inl h1
      · exact Or.inr (Or.inr h1)
    · intro o i s hm
      rcases I.back o i s hm with h1 | h1
      · exact Or.inl h1
      · exact Or.inr (Or.inr h1)
    · rintro o i (h1 | h1)
      · exact h1.elim
      · exact I.stale o i h1
    · intro _; exact slotList_len tgt
    · intro _ h2; exact absurd hp h2
    · intro j s hj
      have h1 := slotList_len tgt
      have h2 := I.ptrLen p hp
      rw [List.getElem?_eq_none (by omega), List.getElem?_eq_none (by omega)]
    · intro s
      rw [slotList_get]; exact hto s
  · intro k h1 h2 h3
    show none ∉ upd g.deps p _ k
    have hx : k ≠ p := by
      rintro rfl
      have h3 : (g.kind k).breaks = true := h3
      rw [hp] at h3; simp [Kind.breaks] at h3
    rw [upd_ne _ _ hx]; exact F k h1 h2 h3

/-- What the release of a target does, in detail. -/
theorem release_exact {St : Nat → Nat → Prop} {h : Heap} {p s : Nat} (ord : Ord) (I : Inv St h) (hSt : ∀ o i, St o i → o = p ∧ i = 0)
    (F : Full h) (hq : ∀ k, h.dying k = false) (hp : h.kind p = .ptr) (ha : h.alloc p = true) (he : (p, 0) ∈ h.aud s) :
    ∃ h', release (del ord h.next) s p 0 h = .ok h' ∧ Inv (fun x j => x = p ∧ j = 0) h' ∧ Inv (fun x j => x = p ∧ j = 0) (unlink s p 0 h) ∧
      Full h' ∧ h'.alloc p = true ∧
      (∀ k, h'.alloc k = true → h'.deps k = h.deps k) ∧
      (∀ x j t, (x, j) ∈ (unlink s p 0 h).aud t → h'.alloc x = true → (x, j) ∈ h'.aud t) ∧
      Shr (fun k => k = s ∧ (h.kind s).loose = true ∧ (unlink s p 0 h).aud s = []) (unlink s p 0 h) h' ∧
      ((h.kind s).loose = true → (unlink s p 0 h).aud s = [] → h'.alloc s = false) ∧
      (∀ k, h.alloc k = true → h'.alloc k = false → (h.kind k).loose = true) := by
  have hs := (I.live _ _ _ he).1
  have I1 : Inv (fun x j => x = p ∧ j = 0) (unlink s p 0 h) := by
    have := unlink_inv (s := s) (i := 0) I (Or.inr hp)
    have e : (fun x j => St x j ∨ (x = p ∧ j = 0)) = fun x j => x = p ∧ j = 0 := by
      funext x j
      exact propext ⟨fun h => h.elim (hSt x j) id, Or.inr⟩
    rw [e] at this; exact this
  rw [release, need_eq hs, Outcome.ok_bind]
  by_cases hc : (unlink s p 0 h).aud s = [] ∧ (h.kind s).loose = true ∧ h.dying s = false
  · rw [if_pos hc]
    obtain ⟨h', e, I', F', T, hd, hdep, hlo, hed⟩ := reap ord h.next _ (unlink s p 0 h) s I1 F hs hc.2.2 hc.2.1 hc.1 (count_le_next _)
    refine ⟨h', e, I', I1, F', ?_, hdep, hed, ?_, fun _ _ => hd, hlo⟩
    · cases hh : h'.alloc p with
      | true => rfl
      | false =>
        have := hlo p ha hh
        have hp' : (unlink s p 0 h).kind p = .ptr := hp
        rw [hp'] at this; simp [Kind.loose] at this
    · refine T.mono ?_
      rintro k (h1 | h1)
      · exact ⟨h1, hc.2.1, hc.1⟩
      · have h1 : h.dying k = true := h1
        rw [hq] at h1; simp at h1
  · rw [if_neg hc]
    refine ⟨_, rfl, I1, I1, F, ha, fun _ _ => rfl, fun _ _ _ h _ => h, Shr.refl _ _, ?_, ?_⟩
    · intro h1 h2
      exact absurd ⟨h2, h1, hq s⟩ hc
    · intro k h1 h2
      have h2 : h.alloc k = false := h2
      rw [h1] at h2; simp at h2

/-- A smart pointer lets go of `s` for `to`: what it now holds is registered in `h0` already. -/
theorem repoint_rep {W : World} {h h0 : Heap} {p s : Nat} {tgt : Slot} {St : Nat → Nat → Prop} (ord : Ord) (G : Good h) (R : Rep W h)
    (hp : h.kind p = .ptr) (ha : h.alloc p = true) (hs : W.slot p = .at s) (hto : tgt ≠ .at s)
    (I0 : Inv St h0) (hSt : ∀ o i, St o i → o = p ∧ i = 0)
    (hnext : h0.next = h.next) (hkind : h0.kind = h.kind) (halloc : h0.alloc = h.alloc) (hdying : h0.dying = h.dying)
    (hdeps : h0.deps = h.deps) (hcache : h0.cache = h.cache)
    (haud : ∀ x j t, (x, j) ∈ h0.aud t ↔ (x, j) ∈ h.aud t ∨ (tgt = .at t ∧ x = p ∧ j = 0)) :
    ∃ g, release (del ord h0.next) s p 0 h0 = .ok g ∧ g.alloc p = true ∧ g.deps p = [some s] ∧ g.kind = h.kind ∧
      (∀ k, g.alloc k = true → g.deps k = h.deps k) ∧
      (∀ k, h.alloc k = true → g.alloc k = false → (h.kind k).loose = true) ∧
      Good { g with deps := upd g.deps p (slotList tgt) } ∧ Rep (W.repoint p tgt) { g with deps := upd g.deps p (slotList tgt) } := by
  have hdp : h.deps p = [some s] := by rw [R.slot p ha hp, hs]; rfl
  have he : (p, 0) ∈ h.aud s := G.inv.back' (by rw [hdp]; rfl)
  have F0 : Full h0 := by
    intro k h1 h2 h3
    rw [hdeps]; rw [halloc] at h1; rw [hdying] at h2; rw [hkind] at h3
    exact G.full k h1 h2 h3
  obtain ⟨g, e, I', I1, F', hap, hdep, hed, T, hdead, hlo⟩ := release_exact (p := p) (s := s) ord I0 hSt F0
    (by intro k; rw [hdying]; exact G.quiet k) (by rw [hkind]; exact hp) (by rw [halloc]; exact ha) ((haud _ _ _).2 (Or.inl he))
  have hmem : ∀ x j t, (x, j) ∈ (unlink s p 0 h0).aud t ↔
      ((x, j) ∈ h.aud t ∧ ¬ (t = s ∧ x = p ∧ j = 0)) ∨ (tgt = .at t ∧ x = p ∧ j = 0) := by
    intro x j t
    rw [mem_unlink, haud]
    constructor
    · rintro ⟨h1 | h1, h2⟩
      · exact Or.inl ⟨h1, h2⟩
      · exact Or.inr h1
    · rintro (⟨h1, h2⟩ | h1)
      · exact ⟨Or.inl h1, h2⟩
      · refine ⟨Or.inr h1, ?_⟩
        rintro ⟨rfl, _, _⟩; exact hto h1.1
  have honly : ∀ j t, (p, j) ∈ h.aud t → t = s ∧ j = 0 := by
    intro j t hm
    have := G.inv.link' hm
    rw [hdp] at this
    have hj : j = 0 := by
      by_contra hc
      rw [List.getElem?_eq_none (by simp; omega)] at this; simp at this
    subst hj
    simp at this; exact ⟨this.symm, rfl⟩
  have hobs : ∀ o c, Holds (W.point p tgt) o c ↔ ∃ i, (o, i) ∈ (unlink s p 0 h0).aud c := by
    intro o c
    by_cases hop : o = p
    · subst hop
      constructor
      · rintro ⟨_, ⟨h1, _⟩ | ⟨_, h1⟩⟩
        · have h1 : W.kind o = .op ∨ W.kind o = .gen := h1
          rw [← R.kind, hp] at h1; simp at h1
        · have h1 : (if o = o then tgt else W.slot o) = .at c := h1
          rw [if_pos rfl] at h1
          exact ⟨0, (hmem _ _ _).2 (Or.inr ⟨h1, rfl, rfl⟩)⟩
      · rintro ⟨i, hm⟩
        rcases (hmem _ _ _).1 hm with ⟨h1, h2⟩ | ⟨h1, _, _⟩
        · obtain ⟨h3, h4⟩ := honly i c h1
          exact absurd ⟨h3, rfl, h4⟩ h2
        · refine ⟨(R.live o).2 ha, Or.inr ⟨by show W.kind o = _; rw [← R.kind]; exact hp, ?_⟩⟩
          show (if o = o then tgt else W.slot o) = _
          rw [if_pos rfl]; exact h1
    · have hsl : (W.point p tgt).slot o = W.slot o := if_neg hop
      have h1 : Holds (W.point p tgt) o c ↔ Holds W o c := by
        unfold Holds
        rw [hsl]; rfl
      rw [h1, holds_iff R G.inv]
      constructor
      · rintro ⟨i, hm⟩; exact ⟨i, (hmem _ _ _).2 (Or.inl ⟨hm, by rintro ⟨_, h2, _⟩; exact hop h2⟩)⟩
      · rintro ⟨i, hm⟩
        rcases (hmem _ _ _).1 hm with ⟨h1, _⟩ | ⟨_, h2, _⟩
        · exact ⟨i, h1⟩
        · exact absurd h2 hop
  have hseed : (fun k => k = s ∧ (h0.kind s).loose = true ∧ (unlink s p 0 h0).aud s = []) = Unheld (W.point p tgt) s := by
    funext k
    apply propext
    unfold Unheld
    rw [hkind, loose_iff, R.kind]
    have : (unlink s p 0 h0).aud s = [] ↔ ∀ x, ¬ Holds (W.point p tgt) x s := by
      rw [List.eq_nil_iff_forall_not_mem]
      constructor
      · intro h1 x hx
        obtain ⟨i, hi⟩ := (hobs x s).1 hx
        exact h1 _ hi
      · rintro h1 ⟨x, j⟩ hm
        exact h1 x ((hobs x s).2 ⟨j, hm⟩)
    rw [this]; rfl
  rw [hseed] at T
  obtain ⟨E1, E2⟩ := dies_exact (W := W.point p tgt) (S := Unheld (W.point p tgt) s) (g := unlink s p 0 h0) (h' := g)
    (by intro k; show W.live k ↔ h0.alloc k = true; rw [halloc]; exact R.live k)
    (by show h0.kind = W.kind; rw [hkind, R.kind]) hobs (by show h0.cache = W.grads; rw [hcache, R.grads]) I1 I'
    (by rintro o i ⟨rfl, _⟩; show (h0.kind o).breaks = false; rw [hkind, hp]; rfl) T
    (by
      intro k hk
      rw [← hseed] at hk
      obtain ⟨rfl, h2, h3⟩ := hk
      exact hdead h2 h3)
  have hgk : g.kind = h.kind := T.kind.trans hkind
  have hgd : g.deps p = [some s] := by rw [hdep p hap, hdeps, hdp]
  refine ⟨g, e, hap, hgd, hgk, by intro k hk; rw [hdep k hk, hdeps], by intro k h1 h2; rw [← hkind]; exact hlo k (by rw [halloc]; exact h1) h2, ?_, ?_⟩
  · refine settle I' F' ?_ ?_ (by rw [hgk]; exact hp) ?_
    · intro k; rw [T.dying]; show h0.dying k = false; rw [hdying]; exact G.quiet k
    · intro v w
      rw [T.cache, T.next]; show w ∈ h0.cache v → w < h0.next
      rw [hcache, hnext]; exact G.bound v w
    · intro t
      constructor
      · intro h1; exact hed _ _ _ ((hmem _ _ _).2 (Or.inr ⟨h1, rfl, rfl⟩)) hap
      · intro h1
        rcases (hmem _ _ _).1 (T.sub _ _ _ h1) with ⟨h2, h3⟩ | ⟨h2, _, _⟩
        · obtain ⟨h4, h5⟩ := honly 0 t h2
          exact absurd ⟨h4, rfl, h5⟩ h3
        · exact h2
  · have hW : W.repoint p tgt = (W.point p tgt).without (Unheld (W.point p tgt) s) := by
      unfold World.repoint; rw [hs]
    rw [hW]
    refine ⟨?_, ?_, ?_, ?_, ?_, ?_⟩
    · show g.next = W.next; rw [T.next]; show h0.next = W.next; rw [hnext, R.next]
    · show g.kind = W.kind; rw [hgk, R.kind]
    · intro k
      show W.live k ∧ ¬ Dies _ _ k ↔ g.alloc k = true
      constructor
      · rintro ⟨h1, h2⟩
        cases e : g.alloc k with
        | true => rfl
        | false => exact absurd (E2 k h1 e) h2
      · intro h1
        refine ⟨(R.live k).2 (by rw [← halloc]; exact T.alloc k h1), fun h2 => ?_⟩
        rw [E1 k h2] at h1; simp at h1
    · intro k h1' h2'
      have h2 : (g.kind k).breaks = true := h2'
      have h1 : g.alloc k = true := h1'
      show upd g.deps p _ k = (W.args k).map some
      rw [hgk] at h2
      have hx : k ≠ p := by intro e; rw [e, hp] at h2; simp [Kind.breaks] at h2
      rw [upd_ne _ _ hx, hdep k h1, hdeps]
      exact R.args k (by rw [← halloc]; exact T.alloc k h1) h2
    · intro q h1' h2'
      have h2 : g.kind q = .ptr := h2'
      have h1 : g.alloc q = true := h1'
      rw [hgk] at h2
      show upd g.deps p _ q = slotList (World.slot _ q)
      by_cases hx : q = p
      · subst hx
        have hsl : (W.point q tgt).slot q = tgt := if_pos rfl
        have hsl' : ((W.point q tgt).without (Unheld (W.point q tgt) s)).slot q = (W.point q tgt).slot q := by
          refine if_neg ?_
          rintro ⟨t, h3, h4⟩
          rw [hsl] at h3
          have h5 := hed _ _ _ ((hmem q 0 t).2 (Or.inr ⟨h3, rfl, rfl⟩)) h1
          have h6 := (I'.live _ _ _ h5).1
          rw [E1 t h4] at h6; simp at h6
        rw [upd_same, hsl', hsl]
      · have hsl : (W.point p tgt).slot q = W.slot q := if_neg hx
        have hq := R.slot q (by rw [← halloc]; exact T.alloc q h1) h2
        have hsl' : ((W.point p tgt).without (Unheld (W.point p tgt) s)).slot q = (W.point p tgt).slot q := by
          refine if_neg ?_
          rintro ⟨t, h3, h4⟩
          rw [hsl] at h3
          have h5 : (q, 0) ∈ g.aud t := (I'.back q 0 t (by rw [hdep q h1, hdeps, hq, h3]; rfl)).resolve_right (by rintro ⟨h, _⟩; exact hx h)
          have h6 := (I'.live _ _ _ h5).1
          rw [E1 t h4] at h6; simp at h6
        rw [upd_ne _ _ hx, hsl', hsl, hdep q h1, hdeps, hq]
    · show g.cache = W.grads; rw [T.cache]; show h0.cache = W.grads; rw [hcache, R.grads]

end Life
end Verif
