import Verif.Lemmas.Cache
import Verif.Spec.Cache
import Verif.Spec.Rpc
import Mathlib.Data.List.Induction
/-!
# What streams reading a cache were given
-/
namespace Verif.Rpc
open Spec Cache

variable {T : Type} {key : T → List Char}

/-- `v` is the last of its key. -/
def LastOf (key : T → List Char) (l : List T) (v : T) : Prop := ∃ pre post, l = pre ++ v :: post ∧ ∀ m ∈ post, key m ≠ key v

theorem lastOf_nil {v : T} : ¬ LastOf key [] v := by rintro ⟨pre, post, h, _⟩; simp at h

theorem lastOf_snoc {l : List T} {d v : T} : LastOf key (l ++ [d]) v ↔ v = d ∨ (LastOf key l v ∧ key d ≠ key v) := by
  constructor
  · rintro ⟨pre, post, h, hp⟩
    rcases List.eq_nil_or_concat post with rfl | ⟨q, x, rfl⟩
    · have := List.append_inj' h rfl
      simp at this
      exact .inl this.2.symm
    · rw [List.concat_eq_append, ← List.cons_append, ← List.append_assoc] at h
      have := List.append_inj' h rfl
      simp only [List.cons.injEq, and_true] at this
      obtain ⟨rfl, rfl⟩ := this
      exact .inr ⟨⟨pre, q, rfl, fun m hm => hp m (by simp [hm])⟩, hp d (by simp)⟩
  · rintro (rfl | ⟨⟨pre, post, rfl, hp⟩, hd⟩)
    · exact ⟨l, [], rfl, by simp⟩
    · refine ⟨pre, post ++ [d], by simp, fun m hm => ?_⟩
      rcases List.mem_append.1 hm with hm | hm
      · exact hp m hm
      · rw [List.mem_singleton.1 hm]; exact hd

theorem LastOf.mem {l : List T} {v : T} (h : LastOf key l v) : v ∈ l := by obtain ⟨pre, post, rfl, _⟩ := h; simp

theorem lastOf_exists {l : List T} {m : T} (h : m ∈ l) : ∃ v, LastOf key l v ∧ key v = key m := by
  induction l using List.reverseRecOn with
  | nil => simp at h
  | append_singleton l d ih =>
    by_cases c : key d = key m
    · exact ⟨d, lastOf_snoc.2 (.inl rfl), c⟩
    · rcases List.mem_append.1 h with h | h
      · obtain ⟨v, h1, h2⟩ := ih h
        exact ⟨v, lastOf_snoc.2 (.inr ⟨h1, by rw [h2]; exact c⟩), h2⟩
      · rw [List.mem_singleton.1 h] at c; exact absurd rfl c

theorem lastOf_uniq {l : List T} {v w : T} (h : LastOf key l v) (h' : LastOf key l w) (hk : key v = key w) : v = w := by
  induction l using List.reverseRecOn with
  | nil => exact absurd h lastOf_nil
  | append_singleton l d ih =>
    rcases lastOf_snoc.1 h with rfl | ⟨h1, h2⟩ <;> rcases lastOf_snoc.1 h' with rfl | ⟨h3, h4⟩
    · rfl
    · exact absurd hk h4
    · exact absurd hk.symm h2
    · exact ih h1 h3

theorem mem_latest {ds : List T} {v : T} : v ∈ latest key ds ↔ LastOf key ds v := by
  induction ds using List.reverseRecOn with
  | nil => simp [latest, lastOf_nil]
  | append_singleton l d ih =>
    rw [lastOf_snoc, ← ih]
    simp only [latest, List.foldl_append, List.foldl_cons, List.foldl_nil, List.mem_append, List.mem_filter, List.mem_singleton, decide_eq_true_eq]
    constructor
    · rintro (⟨h1, h2⟩ | h)
      · exact .inr ⟨h1, fun h => h2 h.symm⟩
      · exact .inl h
    · rintro (h | ⟨h1, h2⟩)
      · exact .inr h
      · exact .inl ⟨h1, fun h => h2 h.symm⟩

theorem latest_snoc {ds : List T} {d : T} : latest key (ds ++ [d]) = (latest key ds).filter (fun x => key x ≠ key d) ++ [d] := by simp [latest]

/-- Where stream k is in the list: at its beginning, or at an entry, having been given the latest of everything up to it. -/
def At (key : T → List Char) (c : Chan T) (L : List (Nat × T)) (k : Nat) : Prop :=
  (c.iter k = none ∧ sentTo k c = []) ∨
  ∃ A x B, L = A ++ x :: B ∧ c.iter k = some x.1 ∧ (sentTo k c).getLast? = some x.2 ∧ ∀ y, y ∈ A ∨ y = x → LastOf key (sentTo k c) y.2

/-- ds were added, and stream k read. -/
structure Track (key : T → List Char) (ds : List T) (k : Nat) (c : Chan T) : Prop where
  sent : ∀ m ∈ sentTo k c, m ∈ ds
  at' : ∃ L, Inv key c.cache L ∧ L.map Prod.snd = latest key ds ∧ At key c L k

theorem track_new {k : Nat} : Track key [] k (Chan.new : Chan T) :=
  ⟨fun m h => by simp [sentTo, Chan.new] at h, [], new_inv key, rfl, .inl ⟨rfl, rfl⟩⟩

theorem track_add {ds : List T} {k : Nat} {c : Chan T} (h : Track key ds k c) (d : T) (hd : ∀ v, (sentTo k c).getLast? = some v → key v ≠ key d) :
    ∃ c', c.cache.add key d = .ok c' ∧ Track key (ds ++ [d]) k { c with cache := c' } := by
  obtain ⟨L, hI, hL, hA⟩ := h.at'
  obtain ⟨c', a1, a2, _⟩ := add_inv key hI d
  refine ⟨c', a1, fun m hm => List.mem_append_left _ (h.sent m hm), _, a2, ?_, ?_⟩
  · rw [latest_snoc, ← hL, List.map_append, List.filter_map]; rfl
  · rcases hA with h0 | ⟨A, x, B, rfl, h1, h2, h3⟩
    · exact .inl h0
    · have hx : key x.2 ≠ key d := hd _ h2
      refine .inr ⟨A.filter (fun x => key x.2 ≠ key d), x, B.filter (fun x => key x.2 ≠ key d) ++ [(c.cache.fresh, d)], ?_, h1, h2, fun y hy => ?_⟩
      · simp [List.filter_cons, hx]
      · refine h3 y ?_
        rcases hy with hy | hy
        · exact .inl (List.mem_filter.1 hy).1
        · exact .inr hy

theorem track_feed {ms : List T} {k : Nat} : ∀ {ds : List T} {c : Chan T}, Track key ds k c →
    (∀ v, (sentTo k c).getLast? = some v → ∀ d ∈ ms, key v ≠ key d) → ∃ c', c.feed key ms = .ok c' ∧ Track key (ds ++ ms) k c' ∧ c'.out = c.out := by
  induction ms with
  | nil => intro ds c h _; exact ⟨c, rfl, by simpa using h, rfl⟩
  | cons d ms ih =>
    intro ds c h hd
    obtain ⟨c', a1, a2⟩ := track_add h d (fun v hv => hd v hv d (by simp))
    obtain ⟨c'', b1, b2, b3⟩ := ih a2 (fun v hv e he => hd v hv e (by simp [he]))
    refine ⟨c'', ?_, by simpa using b2, b3⟩
    simp only [Chan.feed, Cache.addAll, a1, Outcome.ok_bind] at b1 ⊢
    exact b1

theorem sent_get {c : Chan T} {k j : Nat} {o : Option T} {ca : Cache (List Char) T} {it : Nat → Option Nat} :
    sentTo j (⟨ca, it, c.out ++ o.toList.map fun v => (k, v)⟩ : Chan T) = sentTo j c ++ (if j = k then o.toList else []) := by
  cases o with
  | none => simp [sentTo]
  | some v =>
    by_cases hj : j = k
    · subst hj; simp [sentTo]
    · have : ¬ k = j := fun h => hj h.symm
      simp [sentTo, hj, this]

theorem chan_get {c : Chan T} {k : Nat} {i : Option Nat} {o : Option T} (h : c.cache.get (c.iter k) = .ok (i, o)) :
    c.get k = .ok ⟨c.cache, fun j => if j = k then i else c.iter j, c.out ++ o.toList.map fun v => (k, v)⟩ := by
  rw [Chan.get, h]; rfl

theorem get_cache {c c' : Chan T} {k : Nat} (h : c.get k = .ok c') : c'.cache = c.cache := by
  obtain ⟨x, _, h2⟩ := Outcome.bind_eq_ok.1 h
  injection h2 with h2; subst h2; rfl

/-- Another stream reading does not matter. -/
theorem track_other {ds : List T} {c c' : Chan T} {k j : Nat} (h : Track key ds k c) (hj : j ≠ k) (e : c.get j = .ok c') :
    Track key ds k c' ∧ sentTo k c' = sentTo k c := by
  obtain ⟨x, h1, h2⟩ := Outcome.bind_eq_ok.1 e
  injection h2 with h2; subst h2
  obtain ⟨L, hI, hL, hA⟩ := h.at'
  have hk : ¬ k = j := fun h => hj h.symm
  have hs : sentTo k (⟨c.cache, fun i => if i = j then x.1 else c.iter i, c.out ++ x.2.toList.map fun v => (j, v)⟩ : Chan T) = sentTo k c := by
    rw [sent_get]; simp [hk]
  refine ⟨⟨by rw [hs]; exact h.sent, L, hI, hL, ?_⟩, hs⟩
  rcases hA with ⟨g1, g2⟩ | ⟨A, x, B, g0, g1, g2, g3⟩
  · exact .inl ⟨by simp [hk, g1], by rw [hs]; exact g2⟩
  · exact .inr ⟨A, x, B, g0, by simp [hk, g1], by rw [hs]; exact g2, by rw [hs]; exact g3⟩

theorem track_get {ds : List T} {c : Chan T} {k : Nat} (h : Track key ds k c) : ∃ c', c.get k = .ok c' ∧ Track key ds k c' := by
  obtain ⟨L, hI, hL, hA⟩ := h.at'
  have memL : ∀ x ∈ L, x.2 ∈ ds := fun x hx => (mem_latest.1 (hL ▸ List.mem_map_of_mem hx : x.2 ∈ latest key ds)).mem
  have keysL := hI.keys
  rcases hA with ⟨h1, h2⟩ | ⟨A, x, B, rfl, h1, h2, h3⟩
  · refine ⟨_, chan_get (by rw [h1]; exact get_none hI), ⟨fun m hm => ?_, L, hI, hL, ?_⟩⟩
    · rw [sent_get] at hm
      rcases List.mem_append.1 hm with hm | hm
      · exact h.sent m hm
      · simp only [if_true] at hm
        cases L with
        | nil => simp at hm
        | cons y L => simp at hm; subst hm; exact memL y (by simp)
    · cases L with
      | nil =>
        refine .inl ⟨by simp, ?_⟩
        rw [sent_get]; simp [h2]
      | cons y L =>
        refine .inr ⟨[], y, L, rfl, by simp, ?_, ?_⟩
        · rw [sent_get]; simp
        · rw [sent_get, h2]
          rintro z (hz | rfl)
          · simp at hz
          · simp only [if_true, List.head?_cons, Option.map_some, Option.toList_some]
            exact ⟨[], [], rfl, by simp⟩
  · refine ⟨_, chan_get (by rw [h1]; exact get_some hI), ⟨fun m hm => ?_, _, hI, hL, ?_⟩⟩
    · rw [sent_get] at hm
      rcases List.mem_append.1 hm with hm | hm
      · exact h.sent m hm
      · simp only [if_true] at hm
        cases B with
        | nil => simp at hm
        | cons y L => simp at hm; subst hm; exact memL y (by simp)
    · cases B with
      | nil =>
        refine .inr ⟨A, x, [], rfl, by simp, ?_, ?_⟩
        · rw [sent_get]; simpa using h2
        · rw [sent_get]; simpa using h3
      | cons y B =>
        refine .inr ⟨A ++ [x], y, B, by simp, by simp, ?_, ?_⟩
        · rw [sent_get]; simp
        · rw [sent_get]
          simp only [if_true, List.head?_cons, Option.map_some, Option.toList_some]
          rintro z hz
          rw [lastOf_snoc]
          rcases hz with hz | rfl
          · right
            have hz' : z ∈ A ∨ z = x := by simpa using hz
            refine ⟨h3 z hz', ?_⟩
            simp only [List.map_append, List.map_cons, List.nodup_append, List.nodup_cons, List.mem_cons, List.mem_map] at keysL
            obtain ⟨_, ⟨k1, _⟩, k3⟩ := keysL
            rcases hz' with hz' | rfl
            · exact fun e => k3 (key z.2) ⟨z, hz', rfl⟩ (key y.2) (.inr (.inl rfl)) e.symm
            · exact fun e => k1 (.inl e.symm)
          · exact .inl rfl

/-- A stream for which there is nothing left knows the last of every key. -/
theorem track_end {ds : List T} {c c' : Chan T} {k : Nat} (h : Track key ds k c) (hg : c.get k = .ok c') (hn : c'.out = c.out) (v : T) :
    LastOf key (sentTo k c) v ↔ LastOf key ds v := by
  obtain ⟨L, hI, hL, hA⟩ := h.at'
  have key' : ∀ y, y ∈ L → LastOf key (sentTo k c) y.2 := by
    rcases hA with ⟨h1, h2⟩ | ⟨A, x, B, rfl, h1, h2, h3⟩
    · rw [chan_get (by rw [h1]; exact get_none hI)] at hg
      injection hg with hg
      subst hg
      cases L with
      | nil => intro y hy; simp at hy
      | cons y L => simp at hn
    · rw [chan_get (by rw [h1]; exact get_some hI)] at hg
      injection hg with hg
      subst hg
      cases B with
      | nil => intro y hy; exact h3 y (by simpa using hy)
      | cons y B => simp at hn
  constructor
  · intro hv
    obtain ⟨w, hw, hk⟩ := lastOf_exists (key := key) (h.sent v hv.mem)
    have : w ∈ latest key ds := mem_latest.2 hw
    rw [← hL, List.mem_map] at this
    obtain ⟨y, hy, rfl⟩ := this
    rw [lastOf_uniq hv (key' y hy) hk.symm]; exact hw
  · intro hv
    have : v ∈ latest key ds := mem_latest.2 hv
    rw [← hL, List.mem_map] at this
    obtain ⟨y, hy, rfl⟩ := this
    exact key' y hy

/-- How many reads are left. -/
def Left (key : T → List Char) (c : Chan T) (k n : Nat) : Prop := ∃ L, Inv key c.cache L ∧
  ((c.iter k = none ∧ n = L.length) ∨ ∃ A x B, L = A ++ x :: B ∧ c.iter k = some x.1 ∧ n = B.length)

theorem left_exists {ds : List T} {c : Chan T} {k : Nat} (h : Track key ds k c) : ∃ n, Left key c k n := by
  obtain ⟨L, hI, _, hA⟩ := h.at'
  rcases hA with ⟨h1, _⟩ | ⟨A, x, B, h0, h1, _⟩
  · exact ⟨_, L, hI, .inl ⟨h1, rfl⟩⟩
  · exact ⟨_, L, hI, .inr ⟨A, x, B, h0, h1, rfl⟩⟩

theorem left_get {c : Chan T} {k n : Nat} (h : Left key c k (n + 1)) : ∃ c', c.get k = .ok c' ∧ Left key c' k n ∧ c'.out ≠ c.out := by
  obtain ⟨L, hI, hl⟩ := h
  rcases hl with ⟨h1, h2⟩ | ⟨A, x, B, rfl, h1, h2⟩
  · cases L with
    | nil => simp at h2
    | cons y L =>
      refine ⟨_, chan_get (by rw [h1]; exact get_none hI), ⟨_, hI, .inr ⟨[], y, L, rfl, by simp, by simpa using h2⟩⟩, by simp⟩
  · cases B with
    | nil => simp at h2
    | cons y B =>
      refine ⟨_, chan_get (by rw [h1]; exact get_some hI), ⟨_, hI, .inr ⟨A ++ [x], y, B, by simp, by simp, by simpa using h2⟩⟩, by simp⟩

theorem left_end {c : Chan T} {k : Nat} (h : Left key c k 0) : ∃ c', c.get k = .ok c' ∧ c'.out = c.out := by
  obtain ⟨L, hI, hl⟩ := h
  rcases hl with ⟨h1, h2⟩ | ⟨A, x, B, rfl, h1, h2⟩
  · cases L with
    | nil => exact ⟨_, chan_get (by rw [h1]; exact get_none hI), by simp⟩
    | cons y L => simp at h2
  · cases B with
    | nil => exact ⟨_, chan_get (by rw [h1]; exact get_some hI), by simp⟩
    | cons y B => simp at h2

/-- Among two messages of a key, the last one counts. -/
theorem last_of_two {a b : T} (hab : a ≠ b) (hk : key b = key a) (l : List T) (h2 : ∀ m ∈ l, key m = key a → m = a ∨ m = b) :
    (∃ pre post, l = pre ++ a :: post ∧ b ∉ post) ↔ LastOf key l a := by
  constructor
  · rintro ⟨pre, post, rfl, hb⟩
    obtain ⟨v, hv, hkv⟩ := lastOf_exists (key := key) (l := pre ++ a :: post) (m := a) (by simp)
    rcases h2 v hv.mem hkv with rfl | rfl
    · exact hv
    · exfalso
      clear hkv h2
      induction post using List.reverseRecOn with
      | nil =>
        rcases lastOf_snoc.1 hv with h | h
        · exact hab h.symm
        · exact h.2 hk.symm
      | append_singleton post d ih =>
        rw [← List.cons_append, ← List.append_assoc] at hv
        simp only [List.mem_append, List.mem_singleton, not_or] at hb
        rcases lastOf_snoc.1 hv with h | h
        · exact hb.2 h
        · exact ih h.1 hb.1
  · rintro ⟨pre, post, rfl, hp⟩
    exact ⟨pre, post, rfl, fun hb => hp b hb hk⟩

end Verif.Rpc
