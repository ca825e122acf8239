import Verif.Lemmas.LifeRep
/-! # Lemmas about lifetimes: every call does what the specification says -/
namespace Verif
namespace Life
open React (upd forEach popNulls Ord upd_same upd_ne Tidy AllNull)
open Spec.Life (World Slot Holds Dies Unheld Legal Throws Node Ptr Reached)

theorem next_dead {h : Heap} (G : Good h) : h.alloc h.next = false := by
  cases e : h.alloc h.next with
  | false => rfl
  | true => exact absurd (G.inv.range _ e) (lt_irrefl _)

/-- A new object, once what it is built on is there. -/
theorem create_rep {W : World} {h g : Heap} {k : Kind} {args : List Nat} {sl : Slot} (R : Rep W h) (hn : g.next = h.next + 1)
    (hk : g.kind = upd h.kind h.next k) (ha : g.alloc = upd h.alloc h.next true) (hc : g.cache = upd h.cache h.next [])
    (hd : ∀ x, x ≠ h.next → g.deps x = h.deps x) (hb : k.breaks = true → g.deps h.next = args.map some)
    (hp : k = .ptr → g.deps h.next = slotList sl) : Rep (W.create k args sl) g := by
  have e : W.next = h.next := R.next.symm
  refine ⟨by rw [hn, R.next]; rfl, ?_, ?_, ?_, ?_, ?_⟩
  · rw [hk]; funext x
    show _ = if x = W.next then k else W.kind x
    rw [e]
    by_cases hx : x = h.next
    · subst hx; rw [upd_same, if_pos rfl]
    · rw [upd_ne _ _ hx, if_neg hx, R.kind]
  · intro x
    show x = W.next ∨ W.live x ↔ _
    rw [e, ha]
    by_cases hx : x = h.next
    · subst hx; rw [upd_same]; simp
    · rw [upd_ne _ _ hx, R.live]; simp [hx]
  · intro x h1 h2
    show _ = List.map some (if x = W.next then args else W.args x)
    rw [ha] at h1; rw [hk] at h2; rw [e]
    by_cases hx : x = h.next
    · subst hx; rw [upd_same] at h2; rw [if_pos rfl]; exact hb h2
    · rw [upd_ne _ _ hx] at h1 h2; rw [if_neg hx, hd x hx]; exact R.args x h1 h2
  · intro x h1 h2
    show _ = slotList (if x = W.next then sl else W.slot x)
    rw [ha] at h1; rw [hk] at h2; rw [e]
    by_cases hx : x = h.next
    · subst hx; rw [upd_same] at h2; rw [if_pos rfl]; exact hp h2
    · rw [upd_ne _ _ hx] at h1 h2; rw [if_neg hx, hd x hx]; exact R.slot x h1 h2
  · rw [hc]; funext x
    show _ = if x = W.next then [] else W.grads x
    rw [e]
    by_cases hx : x = h.next
    · subst hx; rw [upd_same, if_pos rfl]
    · rw [upd_ne _ _ hx, if_neg hx, R.grads]

theorem fresh_rep {W : World} {h : Heap} (R : Rep W h) (k : Kind) : Rep (W.create k [] .empty) (fresh k h) := by
  refine create_rep R rfl rfl rfl rfl ?_ ?_ ?_
  · intro x hx; exact upd_ne _ _ hx
  · intro _; exact upd_same _ _ _
  · intro _; exact upd_same _ _ _

theorem newNode_rep {W : World} {h : Heap} (G : Good h) (R : Rep W h) (k : Kind) (hk : k.breaks = true) (args : List Nat)
    (ha : ∀ a ∈ args, h.alloc a = true ∧ h.kind a ≠ .ptr) :
    ∃ h', newNode k args h = .ok h' ∧ Good h' ∧ Rep (W.create k args .empty) h' := by
  have hne : ∀ a ∈ args, a ≠ h.next := by
    intro a h1 h2
    have := (ha a h1).1
    rw [h2, next_dead G] at this; simp at this
  obtain ⟨h', e, G', h1, h2, h3, h4, h5⟩ := addArgs_good (o := h.next) args (fresh_good G k) (upd_same _ _ _)
    (by show (upd h.kind h.next k h.next).breaks = true; rw [upd_same]; exact hk) (by
      intro s hs
      show upd h.alloc h.next true s = true ∧ upd h.kind h.next k s ≠ .ptr
      rw [upd_ne _ _ (hne s hs), upd_ne _ _ (hne s hs)]; exact ha s hs)
  have hdn : (fresh k h).deps h.next = [] := upd_same _ _ _
  refine ⟨h', e, G', create_rep R h1 h2 h3 h4 ?_ ?_ ?_⟩
  · intro x hx
    rw [h5, upd_ne _ _ hx]; exact upd_ne _ _ hx
  · intro _
    rw [h5, upd_same, hdn]; rfl
  · rintro rfl; simp [Kind.breaks] at hk

theorem newPtr_rep {W : World} {h : Heap} (G : Good h) (R : Rep W h) (d : Option Nat)
    (hd : ∀ s, d = some s → h.alloc s = true ∧ h.kind s ≠ .ptr) :
    ∃ h', newPtr d h = .ok h' ∧ Good h' ∧ Rep (W.create .ptr [] (.of d)) h' ∧ h'.next = h.next + 1 ∧
      h'.kind = upd h.kind h.next .ptr ∧ h'.alloc = upd h.alloc h.next true ∧ h'.cache = upd h.cache h.next [] := by
  have hdn : (fresh .ptr h).deps h.next = [] := upd_same _ _ _
  obtain ⟨h', e, A⟩ := addDep_good (o := h.next) (d := d) (fresh_good G .ptr) (upd_same _ _ _)
    (Or.inl ⟨upd_same _ _ _, hdn⟩) (by
      intro s hs
      have hne : s ≠ h.next := by
        intro h2
        have := (hd s hs).1
        rw [h2, next_dead G] at this; simp at this
      show upd h.alloc h.next true s = true ∧ upd h.kind h.next .ptr s ≠ .ptr
      rw [upd_ne _ _ hne, upd_ne _ _ hne]; exact hd s hs)
  refine ⟨h', e, A.good, create_rep R A.next A.kind A.alloc A.cache ?_ ?_ ?_, A.next, A.kind, A.alloc, A.cache⟩
  · intro x hx
    rw [A.deps, upd_ne _ _ hx]; exact upd_ne _ _ hx
  · intro h1; simp [Kind.breaks] at h1
  · intro _
    rw [A.deps, upd_same, hdn, slotList_of]; rfl

/-- Only a slot changed. -/
theorem point_rep {W : World} {h g : Heap} {p : Nat} {tgt : Slot} (R : Rep W h) (hp : h.kind p = .ptr) (h1 : g.next = h.next)
    (h2 : g.kind = h.kind) (h3 : g.alloc = h.alloc) (h4 : g.cache = h.cache) (h5 : g.deps = upd h.deps p (slotList tgt)) :
    Rep (W.point p tgt) g := by
  refine ⟨h1.trans R.next, h2.trans R.kind, ?_, ?_, ?_, h4.trans R.grads⟩
  · intro k; rw [h3]; exact R.live k
  · intro k h6 h7
    rw [h3] at h6; rw [h2] at h7
    have hx : k ≠ p := by rintro rfl; rw [hp] at h7; simp [Kind.breaks] at h7
    rw [h5, upd_ne _ _ hx]; exact R.args k h6 h7
  · intro q h6 h7
    rw [h3] at h6; rw [h2] at h7
    rw [h5]
    show _ = slotList (if q = p then tgt else W.slot q)
    by_cases hx : q = p
    · subst hx; rw [upd_same, if_pos rfl]
    · rw [upd_ne _ _ hx, if_neg hx]; exact R.slot q h6 h7

theorem dies_none {W : World} {S : Nat → Prop} (hS : ∀ k, ¬ S k) {k : Nat} (h : Dies W S k) : False := by
  induction h with
  | seed h1 => exact hS _ h1
  | broken _ _ _ _ ih => exact ih
  | orphan _ _ h3 _ ih => exact ih _ h3
  | own _ _ ih => exact ih

theorem without_none {W : World} {S : Nat → Prop} (hS : ∀ k, ¬ S k) : W.without S = W := by
  have h1 : (fun k => W.live k ∧ ¬ Dies W S k) = W.live := by
    funext k; exact propext ⟨fun h => h.1, fun h => ⟨h, fun hd => dies_none hS hd⟩⟩
  have h2 : (W.without S).slot = W.slot := by
    funext p; exact if_neg (by rintro ⟨s, _, hd⟩; exact dies_none hS hd)
  have h3 : (W.without S).live = W.live := h1
  cases e : W.without S with
  | mk a b c d e' f =>
    rw [e] at h2 h3
    have e1 : W.next = a := by have := congrArg World.next e; exact this
    have e2 : W.kind = b := by have := congrArg World.kind e; exact this
    have e4 : W.args = d := by have := congrArg World.args e; exact this
    have e6 : W.grads = f := by have := congrArg World.grads e; exact this
    cases W
    simp only at h2 h3 e1 e2 e4 e6
    rw [h2, h3, e1, e2, e4, e6]

theorem repoint_other {W : World} {p : Nat} {tgt : Slot} (h : ∀ s, W.slot p ≠ .at s) : W.repoint p tgt = W.point p tgt := by
  unfold World.repoint
  cases e : W.slot p with
  | empty => rfl
  | null => rfl
  | «at» s => exact absurd e (h s)

theorem repoint_same {W : World} {p s : Nat} (hl : W.live p) (hk : W.kind p = .ptr) (h : W.slot p = .at s) :
    W.repoint p (.at s) = W.point p (.at s) := by
  have : W.repoint p (.at s) = (W.point p (.at s)).without (Unheld (W.point p (.at s)) s) := by unfold World.repoint; rw [h]
  rw [this]
  refine without_none ?_
  rintro k ⟨_, _, h1⟩
  exact h1 p ⟨hl, Or.inr ⟨hk, if_pos rfl⟩⟩

theorem settle0 {h : Heap} {p : Nat} {tgt : Slot} (G : Good h) (hp : h.kind p = .ptr) (hn : ∀ s, h.deps p ≠ [some s])
    (ht : ∀ s, tgt ≠ .at s) : Good { h with deps := upd h.deps p (slotList tgt) } := by
  refine settle (g := h) ⟨?_, ?_, G.inv.live, G.inv.nodup, ?_, G.inv.dyingAlloc, G.inv.range, G.inv.ptrAud, G.inv.ptrLen, G.inv.ptrDying, G.inv.leafDeps,
        G.inv.cacheKind, G.inv.cacheLive, G.inv.cacheDead, G.inv.cacheOwn, G.inv.cacheNodup⟩ G.full G.quiet G.bound hp ?_
  · intro o i s hm; exact Or.inl (G.inv.link' hm)
  · intro o i s hm; exact Or.inl (G.inv.back' hm)
  · rintro o i ⟨rfl, _⟩; exact Or.inr hp
  · intro s
    constructor
    · intro h1; exact absurd h1 (ht s)
    · intro h1
      have h2 := G.inv.link' h1
      have h3 := G.inv.ptrLen p hp
      exfalso
      cases e : h.deps p with
      | nil => rw [e] at h2; simp at h2
      | cons a l =>
        rw [e] at h2 h3
        have h2 : a = some s := by simpa using h2
        have hl : l = [] := by
          cases l with
          | nil => rfl
          | cons _ _ => simp at h3
        rw [h2, hl] at e
        exact hn s e

theorem slot_deps {W : World} {h : Heap} {p : Nat} (R : Rep W h) (ha : h.alloc p = true) (hp : h.kind p = .ptr) :
    (W.slot p = .empty ∧ h.deps p = []) ∨ (W.slot p = .null ∧ h.deps p = [none]) ∨ ∃ s, W.slot p = .at s ∧ h.deps p = [some s] := by
  have h1 := R.slot p ha hp
  cases e : W.slot p with
  | empty => left; rw [e] at h1; exact ⟨rfl, h1⟩
  | null => right; left; rw [e] at h1; exact ⟨rfl, h1⟩
  | «at» s => right; right; rw [e] at h1; exact ⟨s, rfl, h1⟩

theorem assign_rep {W : World} {h : Heap} {p : Nat} {d : Option Nat} (ord : Ord) (G : Good h) (R : Rep W h) (hp : h.kind p = .ptr)
    (ha : h.alloc p = true) (hd : ∀ s, d = some s → h.alloc s = true ∧ h.kind s ≠ .ptr) :
    ∃ h', assign ord p d h = .ok h' ∧ Good h' ∧ Rep (W.repoint p (.of d)) h' := by
  rw [assign, need_eq ha, Outcome.ok_bind]
  rcases slot_deps R ha hp with ⟨hs, hdp⟩ | ⟨hs, hdp⟩ | ⟨s, hs, hdp⟩
  · rw [if_pos hdp]
    obtain ⟨h', e, A⟩ := addDep_good (d := d) G ha (Or.inl ⟨hp, hdp⟩) hd
    refine ⟨h', e, A.good, ?_⟩
    rw [repoint_other (by rw [hs]; simp)]
    exact point_rep R hp A.next A.kind A.alloc A.cache (by rw [A.deps, hdp, slotList_of]; rfl)
  · rw [if_neg (by rw [hdp]; simp), repoint_other (by rw [hs]; simp)]
    cases d with
    | none =>
      have e : releaseLast (del ord h.next) none p h = .ok h := by rw [releaseLast, hdp]; rfl
      refine ⟨{ h with deps := upd h.deps p (slotList .null) }, ?_, settle0 G hp (by rw [hdp]; simp) (by simp), point_rep R hp rfl rfl rfl rfl rfl⟩
      rw [show attachTo none p h = .ok h from rfl, Outcome.ok_bind, e, Outcome.ok_bind, need_eq ha, Outcome.ok_bind, hdp]; rfl
    | some t =>
      obtain ⟨ht, htk⟩ := hd t rfl
      obtain ⟨g, e, I, h1, h2, h3, h4, h5, h6, h7⟩ := attach0 G hp ha ht htk
      have e1 : releaseLast (del ord g.next) (some t) p g = .ok g := by rw [releaseLast, h5, hdp]; rfl
      refine ⟨{ g with deps := upd g.deps p (slotList (.at t)) }, ?_, ?_, point_rep R hp h1 h2 h3 h6 (by show upd g.deps p _ = _; rw [h5]; rfl)⟩
      · rw [show attachTo (some t) p h = attach t p 0 h from rfl, e, Outcome.ok_bind, e1, Outcome.ok_bind,
          need_eq (by rw [h3]; exact ha), Outcome.ok_bind, h5, hdp]; rfl
      · refine settle I ?_ ?_ ?_ (by rw [h2]; exact hp) ?_
        · intro k a b c; rw [h5]; rw [h3] at a; rw [h4] at b; rw [h2] at c; exact G.full k a b c
        · rw [h4]; exact G.quiet
        · rw [h6, h1]; exact G.bound
        · intro s
          rw [h7]
          constructor
          · intro h8; right; exact ⟨by simpa using h8.symm, rfl, rfl⟩
          · rintro (h8 | ⟨h8, _⟩)
            · have := G.inv.link' h8
              rw [hdp] at this; simp at this
            · rw [h8]
  · rw [if_neg (by rw [hdp]; simp)]
    by_cases hsame : d = some s
    · subst hsame
      rw [show Slot.of (some s) = .at s from rfl, repoint_same ((R.live p).2 ha) (by rw [← R.kind]; exact hp) hs]
      obtain ⟨ht, htk⟩ := hd s rfl
      have hm : (p, 0) ∈ h.aud s := G.inv.back' (by rw [hdp]; rfl)
      obtain ⟨g, e, I, h1, h2, h3, h4, h5, h6, h7⟩ := attach0 G hp ha ht htk
      have e1 : releaseLast (del ord g.next) (some s) p g = .ok g := by
        rw [releaseLast, h5, hdp]
        show (if some s ≠ some s then _ else _) = _
        rw [if_neg (by simp)]
      refine ⟨{ g with deps := upd g.deps p (slotList (.at s)) }, ?_, ?_, point_rep R hp h1 h2 h3 h6 (by show upd g.deps p _ = _; rw [h5])⟩
      · rw [show attachTo (some s) p h = attach s p 0 h from rfl, e, Outcome.ok_bind, e1, Outcome.ok_bind,
          need_eq (by rw [h3]; exact ha), Outcome.ok_bind, h5, hdp]; rfl
      · refine settle I ?_ ?_ ?_ (by rw [h2]; exact hp) ?_
        · intro k a b c; rw [h5]; rw [h3] at a; rw [h4] at b; rw [h2] at c; exact G.full k a b c
        · rw [h4]; exact G.quiet
        · rw [h6, h1]; exact G.bound
        · intro t
          rw [h7]
          constructor
          · intro h8; right; exact ⟨by simpa using h8.symm, rfl, rfl⟩
          · rintro (h8 | ⟨h8, _⟩)
            · have := G.inv.link' h8
              rw [hdp] at this; simpa using this
            · rw [h8]
    · cases d with
      | none =>
        obtain ⟨g, e, hap, hgd, hgk, _, _, G', R'⟩ := repoint_rep (h0 := h) (tgt := .null) ord G R hp ha hs (by simp) G.inv (by intro o i hf; exact hf.elim)
          rfl rfl rfl rfl rfl rfl (by intro x j t; simp)
        refine ⟨_, ?_, G', R'⟩
        have e1 : releaseLast (del ord h.next) none p h = .ok g := by
          rw [releaseLast, hdp]
          show (if some s ≠ none then _ else _) = _
          rw [if_pos (by simp)]; exact e
        rw [show attachTo none p h = .ok h from rfl, Outcome.ok_bind, e1, Outcome.ok_bind, need_eq hap, Outcome.ok_bind, hgd]; rfl
      | some t =>
        obtain ⟨ht, htk⟩ := hd t rfl
        obtain ⟨g0, e0, I, h1, h2, h3, h4, h5, h6, h7⟩ := attach0 G hp ha ht htk
        obtain ⟨g, e, hap, hgd, hgk, _, _, G', R'⟩ := repoint_rep (h0 := g0) (tgt := .at t) ord G R hp ha hs
          (by intro h8; apply hsame; simpa using h8) I (by intro o i hf; exact hf)
          h1 h2 h3 h4 h5 h6 (by
            intro x j u; rw [h7]
            constructor
            · rintro (h8 | ⟨h8, h9⟩)
              · exact Or.inl h8
              · exact Or.inr ⟨by rw [h8], h9⟩
            · rintro (h8 | ⟨h8, h9⟩)
              · exact Or.inl h8
              · exact Or.inr ⟨by simpa using h8.symm, h9⟩)
        refine ⟨_, ?_, G', R'⟩
        have e1 : releaseLast (del ord g0.next) (some t) p g0 = .ok g := by
          rw [releaseLast, h5, hdp]
          show (if some s ≠ some t then _ else _) = _
          rw [if_pos (fun h8 => hsame h8.symm)]; exact e
        rw [show attachTo (some t) p h = attach t p 0 h from rfl, e0, Outcome.ok_bind, e1, Outcome.ok_bind, need_eq hap,
          Outcome.ok_bind, hgd]; rfl

/-- Clearing a smart pointer that has a slot. -/
theorem clear_rep {W : World} {h : Heap} {p s : Nat} (ord : Ord) (G : Good h) (R : Rep W h) (hp : h.kind p = .ptr)
    (ha : h.alloc p = true) (hs : W.slot p = .at s) :
    ∃ h', clear ord p h = .ok h' ∧ Good h' ∧ Rep (W.repoint p .empty) h' ∧ h'.alloc p = true ∧ h'.kind = h.kind := by
  have hdp : h.deps p = [some s] := by rw [R.slot p ha hp, hs]; rfl
  obtain ⟨g, e, hap, hgd, hgk, _, _, G', R'⟩ := repoint_rep (h0 := h) (tgt := .empty) ord G R hp ha hs (by simp) G.inv (by intro o i hf; exact hf.elim)
    rfl rfl rfl rfl rfl rfl (by intro x j t; simp)
  refine ⟨_, ?_, G', R', hap, hgk⟩
  rw [clear, removeDep, need_eq ha, Outcome.ok_bind, hdp]
  show (release (del ord h.next) s p 0 h >>= fun h => blank p 0 h) = _
  rw [e, Outcome.ok_bind, blank, need_eq hap, Outcome.ok_bind, hgd]; rfl

theorem follow_rep {W : World} {h : Heap} {p q : Nat} (ord : Ord) (G : Good h) (R : Rep W h) (hp : h.kind p = .ptr)
    (ha : h.alloc p = true) (hq : h.kind q = .ptr) (haq : h.alloc q = true) :
    ∃ h', assignPtr ord p q h = .ok h' ∧ Good h' ∧ Rep (W.follow p q) h' := by
  rw [assignPtr, need_eq ha, Outcome.ok_bind, need_eq haq, Outcome.ok_bind]
  by_cases hpq : p = q
  · rw [if_pos hpq]
    refine ⟨h, rfl, G, ?_⟩
    unfold World.follow; rw [if_pos hpq]; exact R
  · rw [if_neg hpq]
    have hmain : ∃ g, forEach (releaseOwn (del ord h.next) p) (List.range (h.deps p).length) h = .ok g ∧ g.alloc p = true ∧ g.alloc q = true ∧
        g.kind = h.kind ∧ g.deps q = h.deps q ∧ Good { g with deps := upd g.deps p [] } ∧ Rep (W.repoint p .empty) { g with deps := upd g.deps p [] } := by
      rcases slot_deps R ha hp with ⟨hs, hdp⟩ | ⟨hs, hdp⟩ | ⟨s, hs, hdp⟩
      · refine ⟨h, by rw [hdp]; rfl, ha, haq, rfl, rfl, settle0 (tgt := .empty) G hp (by rw [hdp]; simp) (by simp), ?_⟩
        rw [repoint_other (by rw [hs]; simp)]
        exact point_rep R hp rfl rfl rfl rfl rfl
      · refine ⟨h, ?_, ha, haq, rfl, rfl, settle0 (tgt := .empty) G hp (by rw [hdp]; simp) (by simp), ?_⟩
        · have e1 : releaseOwn (del ord h.next) p 0 h = .ok h := by rw [releaseOwn, hdp]; rfl
          rw [hdp]
          show (releaseOwn (del ord h.next) p 0 h >>= _) = _
          rw [e1]; rfl
        · rw [repoint_other (by rw [hs]; simp)]
          exact point_rep R hp rfl rfl rfl rfl rfl
      · obtain ⟨g, e, hap, hgd, hgk, hdep, hlo, G', R'⟩ := repoint_rep (h0 := h) (tgt := .empty) ord G R hp ha hs (by simp) G.inv
          (by intro o i hf; exact hf.elim) rfl rfl rfl rfl rfl rfl (by intro x j t; simp)
        have hgq : g.alloc q = true := by
          cases hh : g.alloc q with
          | true => rfl
          | false =>
            have := hlo q haq hh
            rw [hq] at this; simp [Kind.loose] at this
        refine ⟨g, ?_, hap, hgq, hgk, hdep q hgq, G', R'⟩
        have e1 : releaseOwn (del ord h.next) p 0 h = .ok g := by rw [releaseOwn, hdp]; exact e
        rw [hdp]
        show (releaseOwn (del ord h.next) p 0 h >>= _) = _
        rw [e1]; rfl
    obtain ⟨g, e, hap, hgq, hgk, hgd, G', R'⟩ := hmain
    rw [e, Outcome.ok_bind, need_eq hap, Outcome.ok_bind, need_eq hgq, Outcome.ok_bind, hgd]
    have hW : W.follow p q = (W.repoint p .empty).point p (W.slot q).copied := by
      conv => lhs; unfold World.follow
      rw [if_neg hpq]
    rw [hW]
    have hkp : g.kind p = .ptr := by rw [hgk]; exact hp
    rcases slot_deps R haq hq with ⟨hs, hdq⟩ | ⟨hs, hdq⟩ | ⟨t, hs, hdq⟩
    · rw [hs, hdq]
      refine ⟨_, rfl, G', ?_⟩
      refine point_rep R' hkp rfl rfl rfl rfl ?_
      funext x
      show upd g.deps p [] x = upd (upd g.deps p []) p [] x
      by_cases hx : x = p
      · subst hx; rw [upd_same, upd_same]
      · rw [upd_ne _ _ hx, upd_ne _ _ hx, upd_ne _ _ hx]
    · rw [hs, hdq]
      refine ⟨_, rfl, G', ?_⟩
      refine point_rep R' hkp rfl rfl rfl rfl ?_
      funext x
      show upd g.deps p [] x = upd (upd g.deps p []) p [] x
      by_cases hx : x = p
      · subst hx; rw [upd_same, upd_same]
      · rw [upd_ne _ _ hx, upd_ne _ _ hx, upd_ne _ _ hx]
    · rw [hs, hdq]
      have hm := G'.inv.back' (o := q) (i := 0) (s := t) (by
        show (upd g.deps p [] q)[0]? = _
        rw [upd_ne _ _ (Ne.symm hpq), hgd, hdq]; rfl)
      have hta := (G'.inv.live _ _ _ hm).1
      have htk : g.kind t ≠ .ptr := by
        intro h1
        have := G'.inv.ptrAud t h1
        rw [this] at hm; simp at hm
      obtain ⟨h', e', A⟩ := addDep_good (o := p) (d := some t) G' hap (Or.inl ⟨hkp, upd_same _ _ _⟩) (by
        intro u hu; cases hu; exact ⟨hta, htk⟩)
      refine ⟨h', ?_, A.good, ?_⟩
      · show (addDep p (some t) _ >>= _) = _
        rw [e']; rfl
      · refine point_rep R' hkp A.next A.kind A.alloc A.cache ?_
        rw [A.deps]
        show upd _ p (upd g.deps p [] p ++ [some t]) = _
        rw [upd_same]; rfl

theorem free_good {h : Heap} {p : Nat} (G : Good h) (hp : h.kind p = .ptr) (hdp : AllNull (h.deps p))
    (hown : ∀ v, p ∉ h.cache v) : Good (free p h) := by
  refine ⟨free_inv G.inv ?_ (G.inv.ptrAud p hp) (fun _ h => h) (fun v hv => absurd hv (hown v)) ?_, free_full G.full, ?_, G.bound⟩
  · intro i s hm
    exact hdp i s (G.inv.link' hm)
  · intro w hw
    have := (G.inv.cacheKind p w hw).1
    rw [hp] at this; simp at this
  · intro k
    show upd h.dying p false k = false
    by_cases hk : k = p
    · subst hk; rw [upd_same]
    · rw [upd_ne _ _ hk]; exact G.quiet k

theorem free_rep {W : World} {h : Heap} {p : Nat} (R : Rep W h) : Rep { W with live := fun k => W.live k ∧ k ≠ p } (free p h) := by
  have hal : ∀ k, (free p h).alloc k = true ↔ h.alloc k = true ∧ k ≠ p := by
    intro k
    show upd h.alloc p false k = true ↔ _
    by_cases hk : k = p
    · subst hk; rw [upd_same]; simp
    · rw [upd_ne _ _ hk]; simp [hk]
  refine ⟨R.next, R.kind, ?_, ?_, ?_, R.grads⟩
  · intro k
    rw [hal]
    show W.live k ∧ k ≠ p ↔ _
    rw [R.live]
  · intro k h1 h2; exact R.args k ((hal k).1 h1).1 h2
  · intro k h1 h2; exact R.slot k ((hal k).1 h1).1 h2

theorem destroy_rep {W : World} {h : Heap} {p : Nat} (ord : Ord) (G : Good h) (R : Rep W h) (hp : h.kind p = .ptr)
    (ha : h.alloc p = true) (hown : ∀ v, p ∉ h.cache v) :
    ∃ h', destroyPtr ord p h = .ok h' ∧ Good h' ∧ Rep { W.repoint p .empty with live := fun k => (W.repoint p .empty).live k ∧ k ≠ p } h' := by
  rw [destroyPtr, dropPtr, dropDeps, need_eq ha, Outcome.ok_bind]
  have hself : (∀ s, h.deps p ≠ [some s]) → AllNull (h.deps p) → (∀ s, W.slot p ≠ .at s) →
      Good (free p h) ∧ Rep { W.repoint p .empty with live := fun k => (W.repoint p .empty).live k ∧ k ≠ p } (free p h) := by
    intro h1 h2 h3
    refine ⟨free_good G hp h2 hown, ?_⟩
    rw [repoint_other h3]
    have R2 := free_rep (p := p) R
    refine ⟨R2.next, R2.kind, R2.live, R2.args, ?_, R2.grads⟩
    intro k h4 h5
    have hkp : k ≠ p := by
      intro e
      have h4 : upd h.alloc p false k = true := h4
      rw [e, upd_same] at h4; simp at h4
    show _ = slotList (if k = p then Slot.empty else W.slot k)
    rw [if_neg hkp]; exact R2.slot k h4 h5
  rcases slot_deps R ha hp with ⟨hs, hdp⟩ | ⟨hs, hdp⟩ | ⟨s, hs, hdp⟩
  · obtain ⟨G2, R2⟩ := hself (by rw [hdp]; simp) (by rw [hdp]; intro j s; simp) (by rw [hs]; simp)
    exact ⟨_, by rw [hdp]; rfl, G2, R2⟩
  · obtain ⟨G2, R2⟩ := hself (by rw [hdp]; simp) (by
        rw [hdp]; intro j s
        cases j <;> simp) (by rw [hs]; simp)
    refine ⟨_, ?_, G2, R2⟩
    have e1 : removeDep (del ord h.next) p 0 h = .ok h := by rw [removeDep, need_eq ha, Outcome.ok_bind, hdp]; rfl
    rw [hdp]
    show (noThrow (removeDep (del ord h.next) p 0 h >>= _) >>= _) = _
    rw [e1]; rfl
  · obtain ⟨g, e, G2, R2, hap, hgk⟩ := clear_rep ord G R hp ha hs
    have hgp : g.kind p = .ptr := by rw [hgk]; exact hp
    have hsl : (W.repoint p .empty).slot p = .empty := by
      have : W.repoint p .empty = (W.point p .empty).without (Unheld (W.point p .empty) s) := by unfold World.repoint; rw [hs]
      rw [this]
      have h1 : (W.point p .empty).slot p = .empty := if_pos rfl
      have h2 : ((W.point p .empty).without (Unheld (W.point p .empty) s)).slot p = (W.point p .empty).slot p := by
        refine if_neg ?_
        rintro ⟨t, h3, _⟩
        rw [h1] at h3; simp at h3
      rw [h2, h1]
    refine ⟨free p g, ?_, free_good G2 hgp ?_ ?_, free_rep R2⟩
    · have e1 : removeDep (del ord h.next) p 0 h = .ok g := e
      rw [hdp]
      show (noThrow (removeDep (del ord h.next) p 0 h >>= _) >>= _) = _
      rw [e1]; rfl
    · rw [R2.slot p hap hgp, hsl]; intro j t; simp [slotList]
    · intro v hv
      apply hown v
      have : g.cache = (W.repoint p .empty).grads := R2.grads
      rw [this] at hv
      have h3 : (W.repoint p .empty).grads = W.grads := by unfold World.repoint; rw [hs]; rfl
      rw [h3, ← R.grads] at hv; exact hv

theorem manage_rep {W : World} {h : Heap} {c : Nat} (G : Good h) (R : Rep W h) (ha : h.alloc c = true)
    (hc : h.kind c = .const ∨ h.kind c = .leaf) :
    ∃ h', manage c h = .ok h' ∧ Good h' ∧ Rep { W with kind := fun x => if x = c then .leaf else W.kind x } h' := by
  have hk : ∀ x k, k ≠ .leaf → k ≠ .const → (upd h.kind c .leaf x = k ↔ h.kind x = k) := by
    intro x k h1 h2
    by_cases hx : x = c
    · subst hx; rw [upd_same]
      rcases hc with h3 | h3
      · rw [h3]; exact ⟨fun h => absurd h.symm h1, fun h => absurd h.symm h2⟩
      · rw [h3]
    · rw [upd_ne _ _ hx]
  have hb : ∀ x, (upd h.kind c .leaf x).breaks = (h.kind x).breaks := by
    intro x
    by_cases hx : x = c
    · subst hx; rw [upd_same]
      rcases hc with h3 | h3 <;> rw [h3] <;> rfl
    · rw [upd_ne _ _ hx]
  have hptr : ∀ x, upd h.kind c .leaf x = .ptr ↔ h.kind x = .ptr := fun x => hk x .ptr (by simp) (by simp)
  have hop : ∀ x, upd h.kind c .leaf x = .op ↔ h.kind x = .op := fun x => hk x .op (by simp) (by simp)
  refine ⟨{ h with kind := upd h.kind c .leaf }, by rw [manage, need_eq ha, Outcome.ok_bind], ⟨?_, ?_, G.quiet, G.bound⟩, ?_⟩
  · refine ⟨G.inv.link, G.inv.back, G.inv.live, G.inv.nodup, ?_, G.inv.dyingAlloc, G.inv.range, ?_, ?_, ?_, ?_, ?_,
      G.inv.cacheLive, G.inv.cacheDead, G.inv.cacheOwn, G.inv.cacheNodup⟩
    · intro o i hf; exact hf.elim
    · intro p hp; exact G.inv.ptrAud p ((hptr p).1 hp)
    · intro p hp; exact G.inv.ptrLen p ((hptr p).1 hp)
    · intro p hp; exact G.quiet p
    · intro k h1 h2
      exact G.inv.leafDeps k (by rw [← hb]; exact h1) (fun h3 => h2 ((hptr k).2 h3))
    · intro v w hw
      have := G.inv.cacheKind v w hw
      exact ⟨(hop v).2 this.1, (hptr w).2 this.2⟩
  · intro k h1 h2 h3
    exact G.full k h1 h2 (by rw [← hb]; exact h3)
  · refine ⟨R.next, ?_, R.live, ?_, ?_, R.grads⟩
    · funext x
      show upd h.kind c .leaf x = if x = c then .leaf else W.kind x
      by_cases hx : x = c
      · subst hx; rw [upd_same, if_pos rfl]
      · rw [upd_ne _ _ hx, if_neg hx, R.kind]
    · intro k h1 h2; exact R.args k h1 (by rw [← hb]; exact h2)
    · intro k h1 h2; exact R.slot k h1 ((hptr k).1 h2)

theorem cacheGrad_rep {W : World} {h : Heap} {v : Nat} {d : Option Nat} (G : Good h) (R : Rep W h) (ha : h.alloc v = true)
    (hv : h.kind v = .op) (hd : ∀ s, d = some s → h.alloc s = true ∧ h.kind s ≠ .ptr) :
    ∃ h', cacheGrad v d h = .ok h' ∧ Good h' ∧ Rep (W.step (.cacheGrad v d)) h' := by
  obtain ⟨g, e, G', R', h1, h2, h3, h4⟩ := newPtr_rep G R d hd
  have hvn : v ≠ h.next := by rintro rfl; rw [next_dead G] at ha; simp at ha
  have hgv : g.cache v = h.cache v := by rw [h4, upd_ne _ _ hvn]
  have hga : g.alloc v = true := by rw [h3, upd_ne _ _ hvn]; exact ha
  have hgn : g.alloc h.next = true := by rw [h3, upd_same]
  have hcache : ∀ x w, w ∈ upd g.cache v (h.next :: g.cache v) x → w ∈ g.cache x ∨ (x = v ∧ w = h.next) := by
    intro x w hm
    by_cases hx : x = v
    · subst hx; rw [upd_same, List.mem_cons] at hm
      rcases hm with h5 | h5
      · exact Or.inr ⟨rfl, h5⟩
      · exact Or.inl h5
    · rw [upd_ne _ _ hx] at hm; exact Or.inl hm
  have hnot : ∀ x, h.next ∉ g.cache x := by
    intro x hm
    rw [h4] at hm
    by_cases hx : x = h.next
    · rw [hx, upd_same] at hm; simp at hm
    · rw [upd_ne _ _ hx] at hm; exact lt_irrefl _ (G.bound x _ hm)
  refine ⟨{ g with cache := upd g.cache v (h.next :: g.cache v) }, ?_, ⟨?_, G'.full, G'.quiet, ?_⟩, ?_⟩
  · rw [cacheGrad, need_eq ha, Outcome.ok_bind, e, Outcome.ok_bind]
  · have I := G'.inv
    refine ⟨I.link, I.back, I.live, I.nodup, I.stale, I.dyingAlloc, I.range, I.ptrAud, I.ptrLen, I.ptrDying, I.leafDeps, ?_, ?_, ?_, ?_, ?_⟩
    · intro x w hm
      rcases hcache x w hm with h5 | ⟨rfl, rfl⟩
      · exact I.cacheKind x w h5
      · exact ⟨by rw [h2, upd_ne _ _ hvn]; exact hv, by rw [h2, upd_same]⟩
    · intro x w hm h6 h7
      rcases hcache x w hm with h5 | ⟨rfl, rfl⟩
      · exact I.cacheLive x w h5 h6 h7
      · exact hgn
    · intro x w hm h6
      rcases hcache x w hm with h5 | ⟨rfl, rfl⟩
      · exact I.cacheDead x w h5 h6
      · have h6 : g.alloc x = false := h6
        rw [hga] at h6; simp at h6
    · intro x y w hx hy
      rcases hcache x w hx with h5 | ⟨rfl, rfl⟩
      · rcases hcache y w hy with h6 | ⟨rfl, rfl⟩
        · exact I.cacheOwn x y w h5 h6
        · exact absurd h5 (hnot x)
      · rcases hcache y _ hy with h6 | ⟨h6, _⟩
        · exact absurd h6 (hnot y)
        · exact h6.symm
    · intro x
      show (upd g.cache v _ x).Nodup
      by_cases hx : x = v
      · subst hx; rw [upd_same]; exact List.nodup_cons.2 ⟨hnot x, I.cacheNodup x⟩
      · rw [upd_ne _ _ hx]; exact I.cacheNodup x
  · intro x w hm
    show w < g.next
    rcases hcache x w hm with h5 | ⟨rfl, rfl⟩
    · exact G'.bound x w h5
    · omega
  · refine ⟨R'.next, R'.kind, R'.live, R'.args, R'.slot, ?_⟩
    funext x
    show upd g.cache v (h.next :: g.cache v) x = if x = v then W.next :: W.grads v else (W.create .ptr [] (.of d)).grads x
    by_cases hx : x = v
    · subst hx; rw [upd_same, if_pos rfl, hgv, R.grads, R.next]
    · rw [upd_ne _ _ hx, if_neg hx, R'.grads]

/-- Every legal call does what the specification says, and throws when it says so. -/
theorem step_rep {W : World} {h : Heap} (c : Call) (G : Good h) (R : Rep W h) (L : Legal W c) :
    (Throws W c → call c h = .throw .logicError) ∧
      (¬ Throws W c → ∃ h', call c h = .ok h' ∧ Good h' ∧ Rep (W.step c) h') := by
  have node : ∀ s, Node W s → h.alloc s = true ∧ h.kind s ≠ .ptr := by
    rintro s ⟨h1, h2⟩; exact ⟨(R.live s).1 h1, by rw [R.kind]; exact h2⟩
  have ptr : ∀ s, Ptr W s → h.alloc s = true ∧ h.kind s = .ptr := by
    rintro s ⟨h1, h2⟩; exact ⟨(R.live s).1 h1, by rw [R.kind]; exact h2⟩
  cases c with
  | leaf => exact ⟨fun h => h.elim, fun _ => ⟨_, rfl, fresh_good G _, fresh_rep R _⟩⟩
  | const => exact ⟨fun h => h.elim, fun _ => ⟨_, rfl, fresh_good G _, fresh_rep R _⟩⟩
  | null => exact ⟨fun h => h.elim, fun _ => ⟨_, rfl, fresh_good G _, fresh_rep R _⟩⟩
  | op args => exact ⟨fun h => h.elim, fun _ => newNode_rep G R .op rfl args (fun a h1 => node a (L a h1))⟩
  | gen a => exact ⟨fun h => h.elim, fun _ => newNode_rep G R .gen rfl [a] (by
      intro b hb; rw [List.mem_singleton] at hb; subst hb; exact node b L)⟩
  | ptr d =>
    refine ⟨fun h => h.elim, fun _ => ?_⟩
    obtain ⟨h', e, G', R', _⟩ := newPtr_rep G R d (fun s hs => node s (L s hs))
    exact ⟨h', e, G', R'⟩
  | copy ord q =>
    refine ⟨fun h => h.elim, fun _ => ?_⟩
    obtain ⟨h1, h2⟩ := ptr q L
    have hne : q ≠ h.next := by rintro rfl; rw [next_dead G] at h1; simp at h1
    obtain ⟨h', e, G', R'⟩ := follow_rep (p := h.next) (q := q) ord (fresh_good G .ptr) (fresh_rep R .ptr) (upd_same _ _ _) (upd_same _ _ _)
      (by show upd h.kind h.next .ptr q = .ptr; rw [upd_ne _ _ hne]; exact h2)
      (by show upd h.alloc h.next true q = true; rw [upd_ne _ _ hne]; exact h1)
    refine ⟨h', e, G', ?_⟩
    rw [R.next] at R'; exact R'
  | assign ord p d =>
    refine ⟨fun h => h.elim, fun _ => ?_⟩
    exact assign_rep ord G R (ptr p L.1).2 (ptr p L.1).1 (fun s hs => node s (L.2 s hs))
  | assignPtr ord p q =>
    refine ⟨fun h => h.elim, fun _ => ?_⟩
    exact follow_rep ord G R (ptr p L.1).2 (ptr p L.1).1 (ptr q L.2).2 (ptr q L.2).1
  | clear ord p =>
    obtain ⟨ha, hp⟩ := ptr p L
    constructor
    · intro ht
      have hdp : h.deps p = [] := by rw [R.slot p ha hp, show W.slot p = .empty from ht]; rfl
      show clear ord p h = _
      rw [clear, removeDep, need_eq ha, Outcome.ok_bind, hdp]; rfl
    · intro ht
      rcases slot_deps R ha hp with ⟨hs, hdp⟩ | ⟨hs, hdp⟩ | ⟨s, hs, hdp⟩
      · exact absurd hs ht
      · refine ⟨h, ?_, G, ?_⟩
        · show clear ord p h = _
          rw [clear, removeDep, need_eq ha, Outcome.ok_bind, hdp]; rfl
        · show Rep (if W.slot p = .null then W else W.repoint p .empty) h
          rw [if_pos hs]; exact R
      · obtain ⟨g, e, G', R', _⟩ := clear_rep ord G R hp ha hs
        refine ⟨g, e, G', ?_⟩
        show Rep (if W.slot p = .null then W else W.repoint p .empty) g
        rw [if_neg (by rw [hs]; simp)]; exact R'
  | destroy ord p =>
    refine ⟨fun h => h.elim, fun _ => ?_⟩
    obtain ⟨ha, hp⟩ := ptr p L.1
    refine destroy_rep ord G R hp ha ?_
    intro v hv
    cases hh : h.alloc v with
    | true => exact L.2 v ((R.live v).2 hh) (by rw [← R.grads]; exact hv)
    | false =>
      have := G.inv.cacheDead v p hv hh
      rw [ha] at this; simp at this
  | delete ord n =>
    refine ⟨fun h => h.elim, fun _ => ?_⟩
    exact delete_rep ord G R (node n L).1 (node n L).2
  | manage c =>
    refine ⟨fun h => h.elim, fun _ => ?_⟩
    exact manage_rep G R ((R.live c).1 L.1) (by rw [R.kind]; exact L.2)
  | cacheGrad v d =>
    refine ⟨fun h => h.elim, fun _ => ?_⟩
    exact cacheGrad_rep G R ((R.live v).1 L.1) (by rw [R.kind]; exact L.2.1) (fun s hs => node s (L.2.2 s hs))

theorem reached_rep {W : World} {h : Heap} (H : Reached W h) : Good h ∧ Rep W h := by
  induction H with
  | start => exact ⟨good_empty, rep_start⟩
  | @did W h h' c _ L e ih =>
    obtain ⟨h1, h2⟩ := step_rep c ih.1 ih.2 L
    by_cases ht : Throws W c
    · exact absurd (e.symm.trans (h1 ht)) (by simp)
    · obtain ⟨g, e', G', R'⟩ := h2 ht
      have := e.symm.trans e'
      simp at this; subst this
      exact ⟨G', R'⟩

end Life
end Verif
