import Verif.Lemmas.Cache
/-!
# C44: shareable cache
-/
namespace Verif.Props
open Verif.Spec Verif.Cache

variable {K T : Type}

/-- `k` successive `get_latest` calls of one consumer, none of which waits for a producer. -/
def reads (c : Cache K T) : Option Nat → Nat → Outcome (Option Nat × List (Option T))
  | it, 0 => .ok (it, [])
  | it, k + 1 => c.get it >>= fun x => reads c x.1 k >>= fun y => .ok (y.1, x.2 :: y.2)

theorem reads_from {hasher : T → K} {c : Cache K T} : ∀ (B A : List (Nat × T)) (x : Nat × T), Inv hasher c (A ++ x :: B) →
    ∀ k, k ≤ B.length → reads c (some x.1) k = .ok ((B.take k).foldl (fun _ y => some y.1) (some x.1), (B.take k).map fun y => some y.2)
  | _, _, _, _, 0, _ => by simp [reads]
  | [], _, _, _, k + 1, hk => by simp at hk
  | y :: B, A, x, h, k + 1, hk => by
    have ih := reads_from B (A ++ [x]) y (by simpa using h) k (by simpa using hk)
    simp only [reads, get_some h, Outcome.ok_bind, List.head?_cons, Option.map_some, Option.some_or, ih, List.take_succ_cons, List.foldl_cons, List.map_cons]

theorem reads_none {hasher : T → K} {c : Cache K T} {L : List (Nat × T)} (h : Inv hasher c L) (k : Nat) (hk : k ≤ L.length) :
    reads c none k = .ok ((L.take k).foldl (fun _ y => some y.1) none, (L.take k).map fun y => some y.2) := by
  cases k with
  | zero => simp [reads]
  | succ k =>
    cases L with
    | nil => simp at hk
    | cons x L =>
      have ih := reads_from L [] x h k (by simpa using hk)
      simp only [reads, get_none h, Outcome.ok_bind, List.head?_cons, Option.map_some, ih, List.take_succ_cons, List.foldl_cons, List.map_cons]

theorem reads_add {c : Cache K T} (j : Nat) : ∀ (k : Nat) (it : Option Nat), reads c it (k + j) =
    (reads c it k >>= fun x => reads c x.1 j >>= fun y => .ok (y.1, x.2 ++ y.2))
  | 0, it => by
    simp only [Nat.zero_add, reads, Outcome.ok_bind, List.nil_append]
    cases reads c it j <;> rfl
  | k + 1, it => by
    rw [show k + 1 + j = (k + j) + 1 by omega]
    simp only [reads, bind_assoc, Outcome.ok_bind, reads_add j k, List.cons_append]

theorem foldl_last (L : List (Nat × T)) (a : Option Nat) : L.foldl (fun _ y => some y.1) a = (lst L).or a := by
  induction L generalizing a with
  | nil => simp
  | cons x L ih => rw [List.foldl_cons, ih, lst_cons]; cases lst L <;> simp

/-- Adding never fails, and afterwards a consumer that starts (null iterator) reads the latest value of every key, once
each, in the order of last update, and then nothing, for every history of additions. -/
theorem c44_fresh_consumer [DecidableEq K] (hasher : T → K) (ds : List T) :
    ∃ c it, (Cache.new : Cache K T).addAll hasher ds = .ok c ∧
      reads c none ((latest hasher ds).length + 1) = .ok (it, (latest hasher ds).map some ++ [none]) := by
  obtain ⟨c, L, h1, h2, h3, _⟩ := addAll_inv hasher ds (new_inv (K := K) hasher)
  have h3' : L.map Prod.snd = latest hasher ds := h3
  have hlen : (latest hasher ds).length = L.length := by rw [← h3']; simp
  have hr : reads c none (L.length + 1) = _ := reads_add (c := c) 1 L.length none
  rw [reads_none h2 _ (Nat.le_refl _), List.take_length] at hr
  have hlast : ∃ it, reads c (L.foldl (fun _ y => some y.1) none) 1 = .ok (it, [none]) := by
    rw [foldl_last]
    rcases List.eq_nil_or_concat L with rfl | ⟨A, x, rfl⟩
    · exact ⟨none, by simp [reads, get_none h2]⟩
    · rw [List.concat_eq_append] at *
      exact ⟨some x.1, by simp [reads, get_some h2]⟩
  obtain ⟨it, hit⟩ := hlast
  refine ⟨c, it, h1, ?_⟩
  rw [hlen, hr]
  simp only [Outcome.ok_bind, hit]
  rw [← h3', List.map_map]; rfl

/-- A consumer whose last delivered value `v` has not been superseded since continues exactly after `v` in the current
order: whatever else was added meanwhile, the next call delivers the entry following `v`, or nothing if `v` is the last. -/
theorem c44_continue [DecidableEq K] (hasher : T → K) (ds ds' : List T) (k : Nat) (v : T) (hv : (latest hasher ds)[k]? = some v)
    (hk : ∀ d ∈ ds', hasher d ≠ hasher v) :
    ∃ c it c' it' vs l1 l2, (Cache.new : Cache K T).addAll hasher ds = .ok c ∧ reads c none (k + 1) = .ok (it, vs) ∧
      vs = ((latest hasher ds).take (k + 1)).map some ∧ c.addAll hasher ds' = .ok c' ∧
      latest hasher (ds ++ ds') = l1 ++ v :: l2 ∧ (∀ x ∈ l1 ++ l2, hasher x ≠ hasher v) ∧ c'.get it = .ok (it', l2.head?) := by
  obtain ⟨c, L, h1, h2, h3, _⟩ := addAll_inv hasher ds (new_inv (K := K) hasher)
  have h3' : L.map Prod.snd = latest hasher ds := h3
  rw [← h3', List.getElem?_map, Option.map_eq_some_iff] at hv
  obtain ⟨x, hx, rfl⟩ := hv
  have hkl : k < L.length := (List.getElem?_eq_some_iff.1 hx).1
  obtain ⟨c', L', g1, g2, g3, g4⟩ := addAll_inv hasher ds' h2
  have hxL : x ∈ L := List.mem_of_getElem? hx
  have hxL' := g4 x hxL hk
  obtain ⟨A, B, rfl⟩ := List.append_of_mem hxL'
  have hit : (L.take (k + 1)).foldl (fun _ y => some y.1) none = some x.1 := by
    rw [foldl_last, ← List.take_append_getElem hkl, lst_snoc]
    rw [List.getElem?_eq_getElem hkl] at hx
    injection hx with hx; rw [hx]; rfl
  have hr := reads_none h2 (k + 1) (by omega)
  rw [hit] at hr
  refine ⟨c, some x.1, c', (B.head?.map Prod.fst).or (some x.1), _, A.map Prod.snd, B.map Prod.snd, h1, hr, ?_, g1, ?_, ?_, ?_⟩
  · rw [← h3', ← List.map_take, List.map_map]; rfl
  · have : latest hasher (ds ++ ds') = (A ++ x :: B).map Prod.snd := by
      rw [g3, latest, List.foldl_append]
      congr 1
      exact h3.symm
    rw [this]; simp
  · have hkeys := g2.keys
    simp only [List.map_append, List.map_cons, List.nodup_append, List.nodup_cons, List.mem_cons] at hkeys
    obtain ⟨_, ⟨k1, _⟩, k3⟩ := hkeys
    intro y hy hh
    rcases List.mem_append.1 hy with hy | hy
    · rw [List.mem_map] at hy
      obtain ⟨z, hz, rfl⟩ := hy
      exact k3 (hasher z.2) (List.mem_map_of_mem (f := fun x => hasher x.2) hz) _ (.inl rfl) hh
    · rw [List.mem_map] at hy
      obtain ⟨z, hz, rfl⟩ := hy
      exact k1 (by rw [← hh]; exact List.mem_map_of_mem (f := fun x => hasher x.2) hz)
  · rw [get_some g2, List.head?_map]

/-! ### Several consumers, no key added twice -/

/-- The values added in a history. -/
def addsOf : List (Act T) → List T
  | [] => []
  | .add d _ :: as => d :: addsOf as
  | .get _ :: as => addsOf as

/-- What one consumer was given. -/
def deliveredTo (k : Nat) (out : List (Nat × T)) : List T := (out.filter fun x => decide (x.1 = k)).map Prod.snd

/-- State of a system without superseded entries: consumer `k` has read the first `pos k` entries. -/
structure PosInv (hasher : T → K) (s : Sys K T) (L : List (Nat × T)) (pos : Nat → Nat) : Prop where
  inv : Inv hasher s.cache L
  iter : ∀ k, pos k ≤ L.length ∧ s.iter k = if pos k = 0 then none else (L[pos k - 1]?).map Prod.fst

theorem get_pos {hasher : T → K} {s : Sys K T} {L : List (Nat × T)} {pos : Nat → Nat} (h : PosInv hasher s L pos) (k : Nat) :
    ∃ it, s.cache.get (s.iter k) = .ok (it, (L[pos k]?).map Prod.snd) ∧
      it = if min (pos k + 1) L.length = 0 then none else (L[min (pos k + 1) L.length - 1]?).map Prod.fst := by
  obtain ⟨h1, h2⟩ := h.iter k
  by_cases h0 : pos k = 0
  · rw [if_pos h0] at h2
    rw [h2, get_none h.inv, h0]
    refine ⟨_, by rw [List.head?_eq_getElem?], ?_⟩
    cases L with
    | nil => rfl
    | cons x L => simp
  · rw [if_neg h0] at h2
    have hlt : pos k - 1 < L.length := by omega
    rw [List.getElem?_eq_getElem hlt] at h2
    have hsplit : L = L.take (pos k - 1) ++ L[pos k - 1] :: L.drop (pos k) := by
      have := List.take_append_drop (pos k - 1) L
      rw [List.drop_eq_getElem_cons hlt, show pos k - 1 + 1 = pos k by omega] at this
      exact this.symm
    have hinv := h.inv
    rw [hsplit] at hinv
    rw [h2, Option.map_some, get_some hinv]
    rw [List.head?_drop]
    refine ⟨_, rfl, ?_⟩
    by_cases hl : pos k < L.length
    · rw [List.getElem?_eq_getElem hl, Nat.min_eq_left (by omega), if_neg (by omega), Nat.add_sub_cancel, List.getElem?_eq_getElem hl]; rfl
    · rw [List.getElem?_eq_none (by omega), Nat.min_eq_right (by omega), if_neg (by omega), show L.length - 1 = pos k - 1 by omega,
        List.getElem?_eq_getElem hlt]; rfl

theorem run_pos [DecidableEq K] (hasher : T → K) (as : List (Act T)) : ∀ (s : Sys K T) (L : List (Nat × T)) (pos : Nat → Nat),
    PosInv hasher s L pos → (L.map Prod.snd ++ addsOf as).Pairwise (fun a b => hasher a ≠ hasher b) →
    ∃ s' out L' pos', s.run hasher as = .ok (s', out) ∧ PosInv hasher s' L' pos' ∧ L'.map Prod.snd = L.map Prod.snd ++ addsOf as ∧
      ∀ k, pos k ≤ pos' k ∧ deliveredTo k out = ((L'.map Prod.snd).drop (pos k)).take (pos' k - pos k) := by
  induction as with
  | nil =>
    intro s L pos h _
    exact ⟨s, [], L, pos, rfl, h, by simp [addsOf], fun k => ⟨Nat.le_refl _, by simp [deliveredTo]⟩⟩
  | cons a as ih =>
    intro s L pos h hd
    cases a with
    | add d w =>
      obtain ⟨c1, a1, a2, _⟩ := add_inv hasher h.inv d
      have hfil : L.filter (fun x => hasher x.2 ≠ hasher d) = L := by
        rw [List.filter_eq_self]
        intro x hx
        simp only [decide_eq_true_eq]
        simp only [addsOf] at hd
        rw [List.pairwise_append] at hd
        exact hd.2.2 x.2 (List.mem_map_of_mem hx) d (by simp)
      rw [hfil] at a2
      have h1 : PosInv hasher ⟨c1, s.iter, s.waiting.erase w⟩ (L ++ [(s.cache.fresh, d)]) pos := by
        refine ⟨a2, fun k => ?_⟩
        obtain ⟨q1, q2⟩ := h.iter k
        refine ⟨by simp; omega, ?_⟩
        show s.iter k = _
        rw [q2]
        by_cases h0 : pos k = 0
        · rw [if_pos h0, if_pos h0]
        · rw [if_neg h0, if_neg h0, List.getElem?_append_left (by omega)]
      obtain ⟨s', out, L', pos', r1, r2, r3, r4⟩ := ih _ _ pos h1 (by
        simp only [addsOf] at hd
        rw [List.map_append, List.append_assoc]; exact hd)
      refine ⟨s', out, L', pos', ?_, r2, ?_, r4⟩
      · simp only [Sys.run, Sys.step, a1, Outcome.ok_bind, r1]
      · rw [r3, List.map_append, List.append_assoc]; rfl
    | get k =>
      obtain ⟨it, g1, g2⟩ := get_pos h k
      have h1 : PosInv hasher ⟨s.cache, fun j => if j = k then it else s.iter j,
          if ((L[pos k]?).map Prod.snd).isNone then k :: s.waiting else s.waiting⟩ L
          (fun j => if j = k then min (pos k + 1) L.length else pos j) := by
        refine ⟨h.inv, fun j => ?_⟩
        by_cases hj : j = k
        · simp only [hj, if_true]
          exact ⟨Nat.min_le_right _ _, g2⟩
        · simp only [hj, if_false]
          exact h.iter j
      obtain ⟨s', out, L', pos', r1, r2, r3, r4⟩ := ih _ _ _ h1 hd
      have hpref : ∀ i, i < L.length → (L'.map Prod.snd)[i]? = (L.map Prod.snd)[i]? := by
        intro i hi
        rw [r3, List.getElem?_append_left (by simpa using hi)]
      refine ⟨s', match (L[pos k]?).map Prod.snd with | some v => (k, v) :: out | none => out, L', pos', ?_, r2, r3, fun j => ?_⟩
      · simp only [Sys.run, Sys.step, g1, Outcome.ok_bind, r1]
        cases (L[pos k]?).map Prod.snd <;> rfl
      · obtain ⟨p1, p2⟩ := r4 j
        by_cases hj : j = k
        · subst hj
          simp only [if_true] at p1 p2
          by_cases hl : pos j < L.length
          · rw [Nat.min_eq_left (by omega)] at p1 p2
            have e1 : (L[pos j]?).map Prod.snd = some L[pos j].2 := by rw [List.getElem?_eq_getElem hl]; rfl
            rw [e1]
            refine ⟨by omega, ?_⟩
            have hl' : pos j < (L'.map Prod.snd).length := by rw [r3]; simp; omega
            have e2 : (L'.map Prod.snd)[pos j] = L[pos j].2 := by
              have := hpref (pos j) hl
              rw [List.getElem?_eq_getElem hl', List.getElem?_eq_getElem (by simpa using hl)] at this
              injection this with this; rw [this]; simp
            rw [List.drop_eq_getElem_cons hl', e2, show pos' j - pos j = (pos' j - (pos j + 1)) + 1 by omega, List.take_succ_cons, ← p2]
            simp [deliveredTo]
          · rw [Nat.min_eq_right (by omega)] at p1 p2
            have hpl : pos j = L.length := by have := (h.iter j).1; omega
            rw [List.getElem?_eq_none (by omega)]
            exact ⟨by omega, by rw [hpl]; exact p2⟩
        · simp only [if_neg hj] at p1 p2
          refine ⟨p1, ?_⟩
          rw [← p2]
          cases (L[pos k]?).map Prod.snd with
          | none => rfl
          | some v =>
            have hkj : ¬ k = j := fun h => hj h.symm
            simp [deliveredTo, hkj]

/-- Any interleaving of additions with pairwise different keys and of reads by any number of consumers runs without
fault, and each consumer has been given a prefix of the additions, in order, each once; its next read delivers exactly
the next addition, if there is one. -/
theorem c44_distinct_keys [DecidableEq K] (hasher : T → K) (as : List (Act T))
    (hd : (addsOf as).Pairwise (fun a b => hasher a ≠ hasher b)) :
    ∃ s out, (Sys.new : Sys K T).run hasher as = .ok (s, out) ∧
      ∀ k, ∃ n it, n ≤ (addsOf as).length ∧ deliveredTo k out = (addsOf as).take n ∧ s.cache.get (s.iter k) = .ok (it, (addsOf as)[n]?) := by
  obtain ⟨s, out, L, pos, h1, h2, h3, h4⟩ := run_pos hasher as Sys.new [] (fun _ => 0)
    ⟨new_inv hasher, fun k => ⟨Nat.le_refl _, rfl⟩⟩ (by simpa using hd)
  simp only [List.map_nil, List.nil_append] at h3
  refine ⟨s, out, h1, fun k => ?_⟩
  obtain ⟨it, g1, _⟩ := get_pos h2 k
  refine ⟨pos k, it, ?_, ?_, ?_⟩
  · rw [← h3]; have := (h2.iter k).1; simpa using this
  · rw [(h4 k).2, h3]; simp
  · rw [g1, ← h3, List.getElem?_map]

/-! ### What goes wrong when a key is updated -/

/-- Keys of example values: the first component. -/
def exHash (x : Nat × Nat) : Nat := x.1

/-- Negative: the simplest update crashes.  A consumer has read the only entry; its key is updated; the consumer's next
read dereferences null. -/
theorem c44_update_ub : (Sys.new : Sys Nat (Nat × Nat)).run exHash [.add (1, 10) 0, .get 0, .add (1, 11) 0, .get 0] = .ub := rfl

/-- The general form: for every key function and every two values with the same key. -/
theorem c44_update_ub_all [DecidableEq K] (hasher : T → K) (v w : T) (hk : hasher w = hasher v) :
    (Sys.new : Sys K T).run hasher [.add v 0, .get 0, .add w 0, .get 0] = .ub := by
  simp [Sys.run, Sys.step, Cache.add, Cache.detach, Cache.new, Sys.new, Cache.pushBack, Cache.put, Cache.get, Cache.deref, hk,
    Cache.unlink, Cache.setNext, Cache.setPrev, Cache.grabTruth, Cache.grabLoop]

/-- Negative: an entry can be skipped.  Entries 1 and 2 are added, the consumer reads 1, then 1 is updated: the consumer is
given the new value of 1 and never entry 2. -/
theorem c44_skips : ∃ s, (Sys.new : Sys Nat (Nat × Nat)).run exHash
    [.add (1, 10) 0, .add (2, 20) 0, .get 0, .add (1, 11) 0, .get 0, .get 0, .get 0] = .ok (s, [(0, (1, 10)), (0, (1, 11))]) := ⟨_, rfl⟩

/-- Negative: an entry can be delivered twice.  All of 1, 2, 3 are read, 3 is updated: entry 2 is delivered again. -/
theorem c44_duplicates : ∃ s, (Sys.new : Sys Nat (Nat × Nat)).run exHash
    [.add (1, 10) 0, .add (2, 20) 0, .add (3, 30) 0, .get 0, .get 0, .get 0, .add (3, 31) 0, .get 0, .get 0] =
      .ok (s, [(0, (1, 10)), (0, (2, 20)), (0, (3, 30)), (0, (2, 20)), (0, (3, 31))]) := ⟨_, rfl⟩

/-- Negative: a consumer can be left waiting although there is something for it to read: two consumers wait, one addition
wakes only one of them. -/
theorem c44_lost_wakeup : ∃ s₁ s₂ s₃ o₁ o₂ o₃, (Sys.new : Sys Nat (Nat × Nat)).step exHash (.get 0) = .ok (s₁, o₁) ∧
    s₁.legal (.get 1 : Act (Nat × Nat)) ∧ s₁.step exHash (.get 1) = .ok (s₂, o₂) ∧ s₂.legal (.add (1, 10) 0) ∧
    s₂.step exHash (.add (1, 10) 0) = .ok (s₃, o₃) ∧
    1 ∈ s₃.waiting ∧ ∃ it, s₃.cache.get (s₃.iter 1) = .ok (it, some (1, 10)) := by
  refine ⟨_, _, _, _, _, _, rfl, by simp [Sys.legal, Sys.new], rfl, ?_, rfl, ?_, _, rfl⟩
  · right; simp [Sys.new, Cache.new]
  · simp [Sys.new, Cache.new]

example : latest exHash [(1, 10), (2, 20), (1, 11), (3, 30)] = [(2, 20), (1, 11), (3, 30)] := by decide
example : ∃ s out, (Sys.new : Sys Nat (Nat × Nat)).run exHash [.add (1, 10) 0, .get 5, .add (2, 20) 0, .get 7, .get 7, .get 5] = .ok (s, out) ∧
    deliveredTo 5 out = [(1, 10), (2, 20)] ∧ deliveredTo 7 out = [(1, 10), (2, 20)] := ⟨_, _, rfl, by decide, by decide⟩

end Verif.Props
