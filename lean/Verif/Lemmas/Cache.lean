import Verif.Model.Cache
import Verif.Spec.Cache
/-! Helper lemmas about the shareable cache. -/
namespace Verif.Cache
open Verif.Spec
variable {K T : Type}

def hd (L : List (Nat × T)) : Option Nat := L.head?.map Prod.fst
def lst (L : List (Nat × T)) : Option Nat := L.getLast?.map Prod.fst

/-- The nodes of `L` are linked in order, with `p` before the first and `q` after the last. -/
def Seg (h : Nat → Option (CNode T)) : Option Nat → List (Nat × T) → Option Nat → Prop
  | _, [], _ => True
  | p, x :: L, q => h x.1 = some ⟨(hd L).or q, p, x.2⟩ ∧ Seg h (some x.1) L q

@[simp] theorem hd_nil : hd ([] : List (Nat × T)) = none := rfl
@[simp] theorem hd_cons (x : Nat × T) (L) : hd (x :: L) = some x.1 := rfl
@[simp] theorem lst_nil : lst ([] : List (Nat × T)) = none := rfl
@[simp] theorem lst_snoc (L : List (Nat × T)) (x) : lst (L ++ [x]) = some x.1 := by simp [lst]
theorem lst_cons (x : Nat × T) (L) : lst (x :: L) = (lst L).or (some x.1) := by
  cases L with
  | nil => rfl
  | cons y L =>
    simp only [lst, List.getLast?_cons_cons]
    cases h : (y :: L).getLast? with
    | none => simp at h
    | some v => rfl
theorem hd_append (A B : List (Nat × T)) : hd (A ++ B) = (hd A).or (hd B) := by cases A <;> simp [hd]

theorem Seg.append {h : Nat → Option (CNode T)} {A B : List (Nat × T)} {p q : Option Nat} :
    Seg h p (A ++ B) q ↔ Seg h p A ((hd B).or q) ∧ Seg h ((lst A).or p) B q := by
  induction A generalizing p with
  | nil => simp [Seg]
  | cons x A ih =>
    simp only [List.cons_append, Seg, ih, hd_append, lst_cons, and_assoc, Option.or_assoc, Option.or_some]
    cases lst A <;> simp

theorem Seg.frame {h h' : Nat → Option (CNode T)} {L : List (Nat × T)} {p q : Option Nat}
    (hs : Seg h p L q) (hf : ∀ x ∈ L, h' x.1 = h x.1) : Seg h' p L q := by
  induction L generalizing p with
  | nil => trivial
  | cons x L ih => exact ⟨by rw [hf x (by simp)]; exact hs.1, ih hs.2 fun y hy => hf y (by simp [hy])⟩

theorem put_heap_ne (c : Cache K T) (i k : Nat) (n : CNode T) (h : k ≠ i) : (c.put i n).heap k = c.heap k := by simp [Cache.put, h]
theorem put_heap_eq (c : Cache K T) (i : Nat) (n : CNode T) : (c.put i n).heap i = some n := by simp [Cache.put]

theorem setNext_heap_ne (c : Cache K T) (p v : Option Nat) (k : Nat) (h : p ≠ some k) : (c.setNext p v).heap k = c.heap k := by
  unfold Cache.setNext
  split
  · rfl
  · rename_i i
    split
    · rfl
    · exact put_heap_ne _ _ _ _ fun hh => h (by rw [hh])

theorem setPrev_heap_ne (c : Cache K T) (p v : Option Nat) (k : Nat) (h : p ≠ some k) : (c.setPrev p v).heap k = c.heap k := by
  unfold Cache.setPrev
  split
  · rfl
  · rename_i i
    split
    · rfl
    · exact put_heap_ne _ _ _ _ fun hh => h (by rw [hh])

theorem setNext_rest (c : Cache K T) (p v : Option Nat) :
    (c.setNext p v).fresh = c.fresh ∧ (c.setNext p v).head = c.head ∧ (c.setNext p v).tail = c.tail ∧ (c.setNext p v).umap = c.umap := by
  unfold Cache.setNext
  split
  · exact ⟨rfl, rfl, rfl, rfl⟩
  · split <;> exact ⟨rfl, rfl, rfl, rfl⟩

theorem setPrev_rest (c : Cache K T) (p v : Option Nat) :
    (c.setPrev p v).fresh = c.fresh ∧ (c.setPrev p v).head = c.head ∧ (c.setPrev p v).tail = c.tail ∧ (c.setPrev p v).umap = c.umap := by
  unfold Cache.setPrev
  split
  · exact ⟨rfl, rfl, rfl, rfl⟩
  · split <;> exact ⟨rfl, rfl, rfl, rfl⟩

/-- Setting the successor of the last node. -/
theorem Seg.setNext {c : Cache K T} {L : List (Nat × T)} {p q : Option Nat} (v : Option Nat) (hs : Seg c.heap p L q)
    (hn : (L.map Prod.fst).Nodup) : Seg (c.setNext (lst L) v).heap p L v := by
  rcases List.eq_nil_or_concat L with rfl | ⟨A, x, rfl⟩
  · trivial
  · rw [List.concat_eq_append] at *
    rw [lst_snoc]
    rw [Seg.append] at hs ⊢
    simp only [List.map_append, List.map_cons, List.map_nil, List.nodup_append, List.mem_map] at hn
    have hne : ∀ y ∈ A, y.1 ≠ x.1 := fun y hy => hn.2.2 y.1 ⟨y, hy, rfl⟩ x.1 (by simp)
    refine ⟨?_, ?_⟩
    · exact (hs.1.frame fun y hy => setNext_heap_ne _ _ _ _ (by simp only [ne_eq, Option.some.injEq]; exact fun h => hne y hy h.symm))
    · refine ⟨?_, trivial⟩
      have := hs.2.1
      simp only [Cache.setNext, this, put_heap_eq, hd_nil, Option.none_or]

/-- Setting the predecessor of the first node. -/
theorem Seg.setPrev {c : Cache K T} {L : List (Nat × T)} {p q : Option Nat} (v : Option Nat) (hs : Seg c.heap p L q)
    (hn : (L.map Prod.fst).Nodup) : Seg (c.setPrev (hd L) v).heap v L q := by
  cases L with
  | nil => trivial
  | cons x A =>
    simp only [List.map_cons, List.nodup_cons, List.mem_map] at hn
    refine ⟨?_, ?_⟩
    · have := hs.1
      simp only [hd_cons, Cache.setPrev, this, put_heap_eq]
    · exact hs.2.frame fun y hy => setPrev_heap_ne _ _ _ _ (by
        simp only [hd_cons, ne_eq, Option.some.injEq]; exact fun h => hn.1 ⟨y, hy, h.symm⟩)

structure Inv (hasher : T → K) (c : Cache K T) (L : List (Nat × T)) : Prop where
  seg : Seg c.heap none L none
  nodup : (L.map Prod.fst).Nodup
  lt : ∀ x ∈ L, x.1 < c.fresh
  head : c.head = hd L
  tail : c.tail = lst L
  umap : ∀ k n, c.umap k = some n ↔ ∃ d, (n, d) ∈ L ∧ hasher d = k
  keys : (L.map fun x => hasher x.2).Nodup

/-- The part of the invariant that concerns the list alone. -/
structure LInv (c : Cache K T) (L : List (Nat × T)) : Prop where
  seg : Seg c.heap none L none
  nodup : (L.map Prod.fst).Nodup
  lt : ∀ x ∈ L, x.1 < c.fresh
  head : c.head = hd L
  tail : c.tail = lst L

theorem new_inv (hasher : T → K) : Inv hasher (Cache.new : Cache K T) [] :=
  ⟨trivial, .nil, by simp, rfl, rfl, by simp [Cache.new], .nil⟩

theorem lst_or_eq_none {L : List (Nat × T)} : lst L = none ↔ L = [] := by
  rcases List.eq_nil_or_concat L with rfl | ⟨A, x, rfl⟩ <;> simp [List.concat_eq_append]

theorem pushBack_inv {c : Cache K T} {L : List (Nat × T)} (h : LInv c L) (d : T) :
    LInv (c.pushBack d).1 (L ++ [(c.fresh, d)]) ∧ (c.pushBack d).2 = c.fresh ∧ (c.pushBack d).1.umap = c.umap ∧
      (c.pushBack d).1.fresh = c.fresh + 1 := by
  have hfr : c.fresh ∉ L.map Prod.fst := by
    rw [List.mem_map]; rintro ⟨x, hx, hh⟩; have := h.lt x hx; omega
  have hnd : ((L ++ [(c.fresh, d)]).map Prod.fst).Nodup := by
    rw [List.map_append, List.nodup_append]
    refine ⟨h.nodup, by simp, ?_⟩
    rintro a ha b hb rfl
    simp at hb; subst hb; exact hfr ha
  have hlt : ∀ x ∈ L ++ [(c.fresh, d)], x.1 < c.fresh + 1 := by
    intro x hx
    rcases List.mem_append.1 hx with hx | hx
    · have := h.lt x hx; omega
    · simp at hx; subst hx; exact Nat.lt_succ_self _
  rcases List.eq_nil_or_concat L with rfl | ⟨A, x, rfl⟩
  · have ht : c.tail = none := h.tail
    simp only [Cache.pushBack, ht]
    refine ⟨⟨⟨by simp [Cache.put], trivial⟩, hnd, hlt, rfl, rfl⟩, by simp [Cache.put]⟩
  · have ht : c.tail = some x.1 := by rw [h.tail, List.concat_eq_append, lst_snoc]
    have hlst : lst (A.concat x) = some x.1 := by rw [List.concat_eq_append, lst_snoc]
    simp only [Cache.pushBack, ht]
    obtain ⟨r1, r2, r3, r4⟩ := setNext_rest (c.put c.fresh ⟨none, some x.1, d⟩) (some x.1) (some c.fresh)
    refine ⟨⟨?_, hnd, hlt, ?_, by rw [lst_snoc]⟩, trivial, by simp only [r4]; rfl, trivial⟩
    · rw [Seg.append]
      constructor
      · have h1 : Seg (c.put c.fresh ⟨none, some x.1, d⟩).heap none (A.concat x) none :=
          h.seg.frame fun y hy => put_heap_ne _ _ _ _ (by have := h.lt y hy; omega)
        have := h1.setNext (some c.fresh) h.nodup
        rw [hlst] at this
        simpa using this
      · refine ⟨?_, trivial⟩
        rw [hlst]
        have hne : x.1 ≠ c.fresh := by have := h.lt x (by simp); omega
        rw [setNext_heap_ne _ _ _ _ (by simpa using hne)]
        simp [Cache.put]
    · simp only [r2]
      rw [hd_append]
      have : c.head = hd (A.concat x) := h.head
      rw [show (c.put c.fresh ⟨none, some x.1, d⟩).head = c.head from rfl, this]
      cases A <;> simp [List.concat_eq_append]

theorem unlink_inv {c : Cache K T} {A B : List (Nat × T)} {i : Nat} {d0 : T} (h : LInv c (A ++ (i, d0) :: B)) :
    ∃ c', c.unlink (some i) = .ok c' ∧ LInv c' (A ++ B) ∧ c'.umap = c.umap ∧ c'.fresh = c.fresh := by
  obtain ⟨hseg, hnd, hlt, hhead, htail⟩ := h
  rw [Seg.append] at hseg
  obtain ⟨sA, sB⟩ := hseg
  obtain ⟨hi, sB⟩ := sB
  simp only [Option.or_none, hd_cons] at sA hi sB
  simp only [List.map_append, List.map_cons, List.nodup_append, List.nodup_cons, List.mem_cons] at hnd
  obtain ⟨nA, ⟨niB, nB⟩, nAB⟩ := hnd
  have niA : i ∉ A.map Prod.fst := fun hm => nAB i hm i (.inl rfl) rfl
  have neA : ∀ y ∈ A, y.1 ≠ i := fun y hy hh => niA (hh ▸ List.mem_map_of_mem hy)
  have neB : ∀ y ∈ B, y.1 ≠ i := fun y hy hh => niB (hh ▸ List.mem_map_of_mem hy)
  have nAB' : ∀ y ∈ A, ∀ z ∈ B, y.1 ≠ z.1 := fun y hy z hz => nAB y.1 (List.mem_map_of_mem hy) z.1 (.inr (List.mem_map_of_mem hz))
  have hnd' : ((A ++ B).map Prod.fst).Nodup := by
    rw [List.map_append, List.nodup_append]
    exact ⟨nA, nB, fun a ha b hb => nAB a ha b (.inr hb)⟩
  have hlt' : ∀ x ∈ A ++ B, x.1 < c.fresh := fun x hx => hlt x (by
    rcases List.mem_append.1 hx with hx | hx <;> simp [hx])
  have lstmem : ∀ {L : List (Nat × T)} {k}, lst L = some k → ∃ x ∈ L, x.1 = k := by
    intro L k hk
    simp only [lst, Option.map_eq_some_iff] at hk
    obtain ⟨x, hx, rfl⟩ := hk
    exact ⟨x, List.mem_of_getLast? hx, rfl⟩
  have hdmem : ∀ {L : List (Nat × T)} {k}, hd L = some k → ∃ x ∈ L, x.1 = k := by
    intro L k hk
    simp only [hd, Option.map_eq_some_iff] at hk
    obtain ⟨x, hx, rfl⟩ := hk
    exact ⟨x, List.mem_of_head? hx, rfl⟩
  simp only [Cache.unlink, Cache.deref, hi, Outcome.ok_bind]
  refine ⟨_, rfl, ?_⟩
  -- heads and tails
  generalize hc1 : (if c.head = some i then { c with head := hd B } else c) = c1
  have c1head : c1.head = hd (A ++ B) ∧ c1.heap = c.heap ∧ c1.tail = c.tail ∧ c1.umap = c.umap ∧ c1.fresh = c.fresh := by
    rw [← hc1]
    cases A with
    | nil => rw [if_pos (by rw [hhead]; rfl)]; exact ⟨rfl, rfl, rfl, rfl, rfl⟩
    | cons x A =>
      rw [if_neg (by rw [hhead]; simp only [List.cons_append, hd_cons, Option.some.injEq]; exact neA x (by simp))]
      exact ⟨by rw [hhead]; rfl, rfl, rfl, rfl, rfl⟩
  generalize hc2 : (if decide (c.tail = some i) = true then { c1 with tail := lst A } else c1) = c2
  have htl : c.tail = some i ↔ B = [] := by
    rw [htail]
    rcases List.eq_nil_or_concat B with rfl | ⟨B', x, rfl⟩
    · simp
    · rw [List.concat_eq_append] at *
      rw [show A ++ (i, d0) :: (B' ++ [x]) = (A ++ (i, d0) :: B') ++ [x] by simp, lst_snoc]
      simp only [Option.some.injEq]
      constructor
      · intro hh; exact absurd hh (neB x (by simp))
      · intro hh; simp at hh
  have lstB : B ≠ [] → lst (A ++ (i, d0) :: B) = lst (A ++ B) := by
    intro hB
    rcases List.eq_nil_or_concat B with rfl | ⟨B', x, rfl⟩
    · exact absurd rfl hB
    · rw [List.concat_eq_append, ← List.append_assoc, lst_snoc, show A ++ (i, d0) :: (B' ++ [x]) = (A ++ (i, d0) :: B') ++ [x] by simp, lst_snoc]
  have c2ok : c2.tail = lst (A ++ B) ∧ c2.head = hd (A ++ B) ∧ c2.heap = c.heap ∧ c2.umap = c.umap ∧ c2.fresh = c.fresh := by
    obtain ⟨q1, q2, q3, q4, q5⟩ := c1head
    rw [← hc2]
    by_cases hB : B = []
    · subst hB
      rw [if_pos (by simp [htl])]
      exact ⟨by simp, q1, q2, q4, q5⟩
    · rw [if_neg (by simp [htl, hB])]
      exact ⟨by rw [q3, htail, lstB hB], q1, q2, q4, q5⟩
  obtain ⟨t2, h2, hp2, u2, f2⟩ := c2ok
  obtain ⟨e1, e2, e3, e4⟩ := setNext_rest c2 (lst A) (hd B)
  generalize hc3 : c2.setNext (lst A) (hd B) = c3 at *
  have sA3 : Seg c3.heap none A (hd B) := by
    rw [← hc3]; rw [← hp2] at sA; exact sA.setNext _ nA
  have sB3 : Seg c3.heap (some i) B none := by
    refine sB.frame fun y hy => ?_
    rw [← hc3, setNext_heap_ne _ _ _ _ (fun hh => by obtain ⟨z, hz, hzy⟩ := lstmem hh; exact nAB' z hz y hy hzy), hp2]
  obtain ⟨e5, e6, e7, e8⟩ := setPrev_rest c3 (hd B) (lst A)
  generalize hc4 : c3.setPrev (hd B) (lst A) = c4 at *
  have sB4 : Seg c4.heap (lst A) B none := by
    rw [← hc4]; exact sB3.setPrev _ nB
  have sA4 : Seg c4.heap none A (hd B) := by
    refine sA3.frame fun y hy => ?_
    rw [← hc4, setPrev_heap_ne _ _ _ _ (fun hh => by obtain ⟨z, hz, hzy⟩ := hdmem hh; exact nAB' y hy z hz hzy.symm)]
  have s4 : Seg c4.heap none (A ++ B) none := by
    rw [Seg.append]; simpa using ⟨sA4, sB4⟩
  obtain ⟨e9, e10, e11, e12⟩ := setPrev_rest c4 (some i) none
  generalize hc5 : c4.setPrev (some i) none = c5 at *
  have neAB : ∀ y ∈ A ++ B, some i ≠ some y.1 := by
    intro y hy hh
    injection hh with hh
    rcases List.mem_append.1 hy with h | h
    · exact neA y h hh.symm
    · exact neB y h hh.symm
  have s5 : Seg c5.heap none (A ++ B) none := s4.frame fun y hy => by
    rw [← hc5, setPrev_heap_ne _ _ _ _ (neAB y hy)]
  obtain ⟨e13, e14, e15, e16⟩ := setNext_rest c5 (some i) c5.tail
  have fin : LInv c5 (A ++ B) ∧ c5.umap = c.umap ∧ c5.fresh = c.fresh :=
    ⟨⟨s5, hnd', by rw [e9, e5, e1, f2]; exact hlt', by rw [e10, e6, e2, h2], by rw [e11, e7, e3, t2]⟩,
      by rw [e12, e8, e4, u2], by rw [e9, e5, e1, f2]⟩
  split
  · refine ⟨⟨s5.frame fun y hy => setNext_heap_ne _ _ _ _ (neAB y hy), hnd', ?_, ?_, ?_⟩, ?_, ?_⟩
    · rw [e13]; exact fin.1.lt
    · rw [e14]; exact fin.1.head
    · rw [e15]; exact fin.1.tail
    · rw [e16]; exact fin.2.1
    · rw [e13]; exact fin.2.2
  · exact fin

/-- One `add_latest`. -/
theorem add_inv [DecidableEq K] (hasher : T → K) {c : Cache K T} {L : List (Nat × T)} (h : Inv hasher c L) (d : T) :
    ∃ c', c.add hasher d = .ok c' ∧
      Inv hasher c' (L.filter (fun x => hasher x.2 ≠ hasher d) ++ [(c.fresh, d)]) ∧ c'.fresh = c.fresh + 1 := by
  have hl : LInv c L := ⟨h.seg, h.nodup, h.lt, h.head, h.tail⟩
  have mid : ∃ c1, c.detach (hasher d) = .ok c1 ∧
      LInv c1 (L.filter (fun x => hasher x.2 ≠ hasher d)) ∧ c1.umap = c.umap ∧ c1.fresh = c.fresh := by
    unfold Cache.detach
    cases hu : c.umap (hasher d) with
    | none =>
      have : L.filter (fun x => hasher x.2 ≠ hasher d) = L := by
        rw [List.filter_eq_self]
        intro x hx
        simp only [decide_eq_true_eq]
        intro hk
        have := (h.umap (hasher d) x.1).2 ⟨x.2, hx, hk⟩
        rw [hu] at this; cases this
      rw [this]
      exact ⟨c, rfl, hl, rfl, rfl⟩
    | some i =>
      obtain ⟨d0, hm, hk⟩ := (h.umap _ _).1 hu
      obtain ⟨A, B, rfl⟩ := List.append_of_mem hm
      have hkeys := h.keys
      simp only [List.map_append, List.map_cons, List.nodup_append, List.nodup_cons, List.mem_cons] at hkeys
      obtain ⟨_, ⟨k1, _⟩, k3⟩ := hkeys
      have : (A ++ (i, d0) :: B).filter (fun x => hasher x.2 ≠ hasher d) = A ++ B := by
        rw [List.filter_append, List.filter_cons]
        simp only [hk, ne_eq, not_true_eq_false, decide_false, Bool.false_eq_true, if_false]
        congr 1
        · rw [List.filter_eq_self]
          intro x hx
          simp only [decide_eq_true_eq]
          intro hh
          exact k3 (hasher x.2) (List.mem_map_of_mem (f := fun x => hasher x.2) hx) (hasher d0) (.inl rfl) (by rw [hh, hk])
        · rw [List.filter_eq_self]
          intro x hx
          simp only [decide_eq_true_eq]
          intro hh
          exact k1 (by rw [hk, ← hh]; exact List.mem_map_of_mem (f := fun x => hasher x.2) hx)
      rw [this]
      exact unlink_inv hl
  obtain ⟨c1, m1, m2, m3, m4⟩ := mid
  simp only [Cache.add, m1, Outcome.ok_bind]
  obtain ⟨p1, p2, p3, p4⟩ := pushBack_inv m2 d
  rw [m4] at p1
  refine ⟨_, rfl, ⟨p1.seg, p1.nodup, p1.lt, p1.head, p1.tail, ?_, ?_⟩, by rw [p4, m4]⟩
  · intro k n
    simp only [p2, p3, m3, m4]
    by_cases hk : k = hasher d
    · subst hk
      rw [if_pos rfl]
      constructor
      · intro hh; injection hh with hh; subst hh; exact ⟨d, by simp, rfl⟩
      · rintro ⟨d', hm, hk'⟩
        rcases List.mem_append.1 hm with hm | hm
        · rw [List.mem_filter] at hm
          simp only [decide_eq_true_eq] at hm
          exact absurd hk' hm.2
        · simp at hm; rw [hm.1]
    · rw [if_neg hk, h.umap]
      constructor
      · rintro ⟨d', hm, hk'⟩
        refine ⟨d', List.mem_append.2 (.inl (List.mem_filter.2 ⟨hm, ?_⟩)), hk'⟩
        simp only [decide_eq_true_eq, hk']; exact hk
      · rintro ⟨d', hm, hk'⟩
        rcases List.mem_append.1 hm with hm | hm
        · exact ⟨d', (List.mem_filter.1 hm).1, hk'⟩
        · simp at hm; rw [hm.2] at hk'; exact absurd hk'.symm hk
  · rw [List.map_append, List.nodup_append]
    refine ⟨h.keys.sublist (List.filter_sublist.map _), by simp, ?_⟩
    rintro a ha b hb rfl
    simp only [List.map_cons, List.map_nil, List.mem_singleton] at hb
    subst hb
    rw [List.mem_map] at ha
    obtain ⟨x, hx, hk⟩ := ha
    rw [List.mem_filter] at hx
    simp only [decide_eq_true_eq] at hx
    exact hx.2 hk

/-- A history of `add_latest` from a state with known contents. -/
theorem addAll_inv [DecidableEq K] (hasher : T → K) (ds : List T) : ∀ {c : Cache K T} {L : List (Nat × T)}, Inv hasher c L →
    ∃ c' L', c.addAll hasher ds = .ok c' ∧ Inv hasher c' L' ∧
      L'.map Prod.snd = ds.foldl (fun l d => l.filter (fun x => hasher x ≠ hasher d) ++ [d]) (L.map Prod.snd) ∧
      (∀ x ∈ L, (∀ d ∈ ds, hasher d ≠ hasher x.2) → x ∈ L') := by
  induction ds with
  | nil => intro c L h; exact ⟨c, L, rfl, h, rfl, fun x hx _ => hx⟩
  | cons d ds ih =>
    intro c L h
    obtain ⟨c1, a1, a2, _⟩ := add_inv hasher h d
    obtain ⟨c', L', b1, b2, b3, b4⟩ := ih a2
    refine ⟨c', L', by simp only [Cache.addAll, a1, Outcome.ok_bind, b1], b2, ?_, fun x hx hk => b4 x ?_ fun d' hd' => hk d' (by simp [hd'])⟩
    · rw [b3, List.foldl_cons]
      congr 1
      rw [List.map_append]
      congr 1
      clear b3 b4 b2 b1 a2 a1 ih h
      rw [List.filter_map]; rfl
    · refine List.mem_append.2 (.inl (List.mem_filter.2 ⟨hx, ?_⟩))
      simp only [decide_eq_true_eq]
      exact fun hh => hk d (by simp) hh.symm

/-- `get_latest` with a null iterator. -/
theorem get_none {hasher : T → K} {c : Cache K T} {L : List (Nat × T)} (h : Inv hasher c L) :
    c.get none = .ok (L.head?.map Prod.fst, L.head?.map Prod.snd) := by
  unfold Cache.get
  cases L with
  | nil => simp only [h.head]; rfl
  | cons x L =>
    simp only [h.head, hd_cons]
    have := h.seg.1
    simp only [Cache.deref, this, Outcome.ok_bind]; rfl

/-- `get_latest` with the iterator on a node of the list moves to the next one. -/
theorem get_some {hasher : T → K} {c : Cache K T} {A B : List (Nat × T)} {x : Nat × T} (h : Inv hasher c (A ++ x :: B)) :
    c.get (some x.1) = .ok ((B.head?.map Prod.fst).or (some x.1), B.head?.map Prod.snd) := by
  have hseg := h.seg
  rw [Seg.append] at hseg
  obtain ⟨_, hx, sB⟩ := hseg
  simp only [Option.or_none] at hx sB
  have hg : c.grabTruth (some x.1) = .ok (some x.1, false) := by
    unfold Cache.grabTruth
    by_cases hA : A = []
    · subst hA
      rw [if_pos (.inl (by rw [h.head]; rfl))]
    · have hne : c.head ≠ some x.1 := by
        rw [h.head]
        cases A with
        | nil => exact absurd rfl hA
        | cons y A =>
          have := h.nodup
          simp only [List.cons_append, List.map_cons, List.nodup_cons, List.map_append, List.mem_append, List.mem_cons, not_or] at this
          simp only [List.cons_append, hd_cons, ne_eq, Option.some.injEq]
          exact fun hh => this.1.2.1 hh
      rw [if_neg (by simp [hne])]
      obtain ⟨k, hk⟩ : ∃ k, lst A = some k := by
        cases hl : lst A with
        | none => exact absurd (lst_or_eq_none.1 hl) hA
        | some k => exact ⟨k, rfl⟩
      rw [hk] at hx
      simp only [Cache.deref, hx, Outcome.ok_bind, Cache.grabLoop, Option.isNone_some]
  simp only [Cache.get, hg, Outcome.ok_bind, Bool.false_eq_true, false_and, if_false, Cache.advance, Cache.deref, hx]
  cases B with
  | nil => simp
  | cons y B =>
    have hy := sB.1
    simp only [hd_cons, hy, Outcome.ok_bind]; rfl

end Verif.Cache
