import Verif.Model.IO
import Verif.Spec.IO
import Verif.Props.Leaf
import Verif.Lemmas.ExprCalls
/-!
# C39, C40, C56: saving and loading
-/
namespace Verif.Props
open Verif.Spec Verif.Tensor Verif.IO

variable {T : Type}

/-- The key under which the `i`-th node of a label is stored determines both label and index, for all label strings
(also labels that contain colons and digits). -/
theorem c39_key_injective (l l' : List Char) (i j : Nat) (h : key l i = key l' j) : l = l' ∧ i = j := by
  have hd : ∀ n : Nat, ':' ∉ (Nat.toDigits 10 n).reverse := by
    intro n hm
    rw [List.mem_reverse] at hm
    have := Nat.isDigit_of_mem_toDigits (b := 10) (by omega) (by omega) hm
    revert this; decide
  have h' := congrArg List.reverse h
  simp only [key, List.reverse_append, List.reverse_cons, List.append_assoc, List.singleton_append] at h'
  obtain ⟨h1, h2⟩ := Expr.sep_unique (hd i) (hd j) h'
  refine ⟨List.reverse_injective h2, ?_⟩
  have h3 := congrArg (fun d => Nat.ofDigitChars 10 d.reverse 0) h1
  simpa [Nat.ofDigitChars_ten_toDigits] using h3

theorem writeFrom_spec (r : ByteRep T) (label : List Char) (ts : List (Option (Tensor T))) :
    ∀ (i : Nat) (repo repo' : Repo), writeFrom r label i ts repo = .ok repo' →
      (∀ (j : Nat) t, ts[j]? = some (some t) → ∃ p, t.serialize r TensorProto.empty = .ok p ∧ repo' (key label (i + j)) = some p) ∧
      (∀ k, (∀ (j : Nat) t, ts[j]? = some (some t) → k ≠ key label (i + j)) → repo' k = repo k) := by
  induction ts with
  | nil =>
    intro i repo repo' h
    simp only [writeFrom] at h
    injection h with h; subst h
    exact ⟨fun j t hj => by simp at hj, fun k _ => rfl⟩
  | cons a ts ih =>
    intro i repo repo' h
    cases a with
    | none =>
      simp only [writeFrom] at h
      obtain ⟨h1, h2⟩ := ih (i + 1) repo repo' h
      refine ⟨fun j t hj => ?_, fun k hk => h2 k fun j t hj => ?_⟩
      · cases j with
        | zero => simp at hj
        | succ j =>
          rw [List.getElem?_cons_succ] at hj
          have := h1 j t hj
          rw [show i + (j + 1) = i + 1 + j by omega]; exact this
      · have := hk (j + 1) t (by simpa using hj)
        rw [show i + (j + 1) = i + 1 + j by omega] at this; exact this
    | some t =>
      simp only [writeFrom, Outcome.bind_eq_ok] at h
      obtain ⟨p, hp, h⟩ := h
      obtain ⟨h1, h2⟩ := ih (i + 1) _ repo' h
      have hne : ∀ j, key label i ≠ key label (i + 1 + j) := fun j hh => by
        have := (c39_key_injective _ _ _ _ hh).2; omega
      refine ⟨fun j t' hj => ?_, fun k hk => ?_⟩
      · cases j with
        | zero =>
          simp only [List.getElem?_cons_zero, Option.some.injEq] at hj
          subst hj
          refine ⟨p, hp, ?_⟩
          rw [Nat.add_zero, h2 _ (fun j t _ => hne j)]
          simp [Repo.set]
        | succ j =>
          rw [List.getElem?_cons_succ] at hj
          have := h1 j t' hj
          rw [show i + (j + 1) = i + 1 + j by omega]; exact this
      · have hk0 : k ≠ key label i := hk 0 t (by simp)
        rw [h2 k fun j t' hj => by
          have := hk (j + 1) t' (by simpa using hj)
          rw [show i + (j + 1) = i + 1 + j by omega] at this; exact this]
        simp [Repo.set, hk0]

theorem serialize_ok (r : ByteRep T) (t : Tensor T) (hw : t.WF) (p : TensorProto) : ∃ q, t.serialize r p = .ok q := by
  unfold Tensor.serialize
  by_cases ha : t.isAlloc = true
  · obtain ⟨hf, b, hb⟩ := (isAlloc_iff t).1 ha
    rw [ha]
    simp only [Bool.not_true, Bool.false_eq_true, if_false, hb]
    rw [(getShape_full hw hb).2.2.2, if_pos (Nat.le_refl _)]
    exact ⟨_, rfl⟩
  · rw [Bool.not_eq_true] at ha
    rw [ha]; exact ⟨p, rfl⟩

theorem writeFrom_ok (r : ByteRep T) (label : List Char) (ts : List (Option (Tensor T))) :
    ∀ (i : Nat) (repo : Repo), (∀ t, some t ∈ ts → t.WF) → ∃ repo', writeFrom r label i ts repo = .ok repo' := by
  induction ts with
  | nil => intro i repo _; exact ⟨repo, rfl⟩
  | cons a ts ih =>
    intro i repo h
    cases a with
    | none => exact ih (i + 1) repo fun t ht => h t (by simp [ht])
    | some t =>
      obtain ⟨p, hp⟩ := serialize_ok r t (h t (by simp)) TensorProto.empty
      simp only [writeFrom, hp, Outcome.ok_bind]
      exact ih (i + 1) _ fun t ht => h t (by simp [ht])

/-- What a successful save leaves on disk: each initialised node is stored under its key; every other entry -- of
other labels, of this label beyond the vector, and of nodes without a value -- is what it was. -/
theorem c39_save (r : ByteRep T) (ts : List (Option (Tensor T))) (label : List Char) (f : File) (repo : Repo)
    (ho : opened f = some repo) (hw : ∀ t, some t ∈ ts → t.WF) :
    ∃ states repo', writeInorder r ts label false f = .ok (states, true) ∧ states.getLast? = some (.repo repo') ∧
      (∀ (i : Nat) t, ts[i]? = some (some t) → ∃ p, t.serialize r TensorProto.empty = .ok p ∧ repo' (key label i) = some p) ∧
      (∀ k, (∀ (i : Nat) t, ts[i]? = some (some t) → k ≠ key label i) → repo' k = repo k) ∧
      (∀ label' i, label' ≠ label → repo' (key label' i) = repo (key label' i)) := by
  obtain ⟨repo', h⟩ := writeFrom_ok r label ts 0 repo hw
  obtain ⟨h1, h2⟩ := writeFrom_spec r label ts 0 repo repo' h
  simp only [Nat.zero_add] at h1 h2
  refine ⟨[f, .repo Repo.empty, .repo repo'], repo', ?_, rfl, h1, h2, fun l' i hl => h2 _ fun j t _ hh => hl (c39_key_injective _ _ _ _ hh).1⟩
  unfold writeInorder
  simp only [ho, h, Outcome.ok_bind]; rfl

/-- An unparsable file is refused and left alone, by saving and by loading. -/
theorem c39_corrupt (r : ByteRep T) (e : Env T) (ts : List (Option (Tensor T))) (label : List Char) (fails : Bool)
    (vec : List Nat) (h : Heap T) :
    writeInorder r ts label fails .corrupt = .ok ([.corrupt], false) ∧
    readInorder r e vec label .corrupt h = .ok (h, vec, false) ∧
    readInorder r e vec label .absent h = .ok (h, vec, false) := ⟨rfl, rfl, rfl⟩

theorem writeAll_other (r : ByteRep T) (label : List Char) (ws : List (List Char × List (Option (Tensor T)))) :
    ∀ (f f' : File) (repo : Repo), opened f = some repo → (∀ w ∈ ws, w.1 ≠ label) → writeAll r ws f = .ok f' →
      ∃ repo', (f' = .repo repo' ∨ (ws = [] ∧ f' = f ∧ repo' = repo)) ∧ opened f' = some repo' ∧ ∀ i, repo' (key label i) = repo (key label i) := by
  induction ws with
  | nil =>
    intro f f' repo ho _ h
    simp only [writeAll] at h
    injection h with h; subst h
    exact ⟨repo, .inr ⟨rfl, rfl, rfl⟩, ho, fun _ => rfl⟩
  | cons w ws ih =>
    intro f f' repo ho hne h
    simp only [writeAll, writeInorder, ho, Outcome.bind_eq_ok] at h
    obtain ⟨x, ⟨repo1, h1, hx⟩, h⟩ := h
    simp only [Bool.false_eq_true, if_false] at hx
    injection hx with hx; subst hx
    obtain ⟨_, h2⟩ := writeFrom_spec r w.1 w.2 0 repo repo1 h1
    have hwl := hne w (by simp)
    have h3 : ∀ i, repo1 (key label i) = repo (key label i) := fun i =>
      h2 _ fun j t _ hh => hwl (c39_key_injective _ _ _ _ hh).1.symm
    have hl : ([f, .repo Repo.empty, .repo repo1] : List File).getLastD f = .repo repo1 := rfl
    rw [hl] at h
    obtain ⟨repo', q1, q2, q3⟩ := ih (.repo repo1) f' repo1 rfl (fun w hw => hne w (by simp [hw])) h
    refine ⟨repo', .inl ?_, q2, fun i => by rw [q3, h3]⟩
    rcases q1 with q1 | ⟨_, q1, rfl⟩
    · exact q1
    · exact q1

theorem saveable_serialize (r : ByteRep T) {t : Tensor T} {buf : List T} (h : Saveable t buf) :
    t.serialize r TensorProto.empty = .ok ⟨buf.flatMap r.enc, t.allowed, t.alloc⟩ := by
  have hw : t.WF := fun b hb => by rw [h.data] at hb; injection hb with hb; subst hb; exact ⟨h.full, h.size⟩
  obtain ⟨ha, _, _, hn⟩ := getShape_full hw h.data
  unfold Tensor.serialize
  rw [ha]
  simp only [Bool.not_true, Bool.false_eq_true, if_false, h.data, hn, Nat.le_refl, if_true, List.take_length]

theorem readFrom_roundtrip (r : ByteRep T) (hr : LawfulRep r) (e : Env T) (hmem : ∀ n, e.fits n = true) (label : List Char)
    (repo : Repo) (ts : List (Option (Tensor T))) :
    ∀ (i : Nat) (vec : List Nat) (h : Heap T), vec.length = ts.length → vec.Nodup →
      (∀ (j : Nat) a, ts[j]? = some a → ∃ t buf, a = some t ∧ Saveable t buf ∧
        repo (key label (i + j)) = some ⟨buf.flatMap r.enc, t.allowed, t.alloc⟩) →
      (∀ x ∈ vec, ∃ l, h x = .leaf l ∧ l.data.WF) →
      ∃ h', readFrom r e repo label i vec h = .ok (h', []) ∧ (∀ x, x ∉ vec → h' x = h x) ∧
        ∀ (j : Nat) x t, vec[j]? = some x → ts[j]? = some (some t) → ∃ l, h x = .leaf l ∧ h' x = .leaf ⟨t, true, l.init⟩ := by
  induction ts with
  | nil =>
    intro i vec h hl _ _ _
    have : vec = [] := by simpa using hl
    subst this
    exact ⟨h, rfl, fun _ _ => rfl, fun j x t hj => by simp at hj⟩
  | cons a ts ih =>
    intro i vec h hl hnd hrepo hleaf
    cases vec with
    | nil => simp at hl
    | cons x vec =>
      obtain ⟨t, buf, rfl, hs, hk⟩ := hrepo 0 a (by simp)
      rw [Nat.add_zero] at hk
      obtain ⟨l, hx, hlw⟩ := hleaf x (by simp)
      rw [List.nodup_cons] at hnd
      have hcomp : Shape.isCompatibleWith t.alloc t.allowed = true := (Shape.compat_same_rank hs.agree.1).2 hs.agree
      have hsz : buf.length = t.alloc.nElems := by rw [Shape.nElems_eq hs.full.1, hs.size]
      obtain ⟨q, hq1, hq2⟩ := c13_roundtrip_partial r hr e t l.data TensorProto.empty buf hs.data hs.full hsz hs.agree.1 hcomp hlw (hmem _)
      rw [saveable_serialize r hs] at hq1
      injection hq1 with hq1; subst hq1
      have ht : (⟨some buf, t.alloc, t.allowed⟩ : Tensor T) = t := by rw [← hs.data]
      rw [ht] at hq2
      have hread : (h x).readProto r e ⟨buf.flatMap r.enc, t.allowed, t.alloc⟩ = .ok (.leaf ⟨t, true, l.init⟩, true) := by
        rw [hx]
        simp only [RNode.readProto, Leaf.readProto, hq2, Outcome.ok_bind, Bool.or_true]
      obtain ⟨h', g1, g2, g3⟩ := ih (i + 1) vec (h.set x (.leaf ⟨t, true, l.init⟩)) (by simpa using hl) hnd.2
        (fun j a hj => by
          have := hrepo (j + 1) a (by simpa using hj)
          rw [show i + (j + 1) = i + 1 + j by omega] at this; exact this)
        (fun y hy => by
          have hyx : y ≠ x := fun hh => hnd.1 (hh ▸ hy)
          simp only [Heap.set, if_neg hyx]
          exact hleaf y (by simp [hy]))
      refine ⟨h', ?_, fun y hy => ?_, fun j y t' hj htj => ?_⟩
      · simp only [readFrom, hk, hread, Outcome.ok_bind, g1, if_true]
      · rw [List.mem_cons, not_or] at hy
        rw [g2 y hy.2]; simp [Heap.set, hy.1]
      · cases j with
        | zero =>
          simp only [List.getElem?_cons_zero, Option.some.injEq] at hj htj
          subst hj; subst htj
          refine ⟨l, hx, ?_⟩
          rw [g2 x hnd.1]; simp [Heap.set]
        | succ j =>
          rw [List.getElem?_cons_succ] at hj htj
          have hyx : y ≠ x := fun hh => hnd.1 (hh ▸ List.mem_of_getElem? hj)
          obtain ⟨l', w1, w2⟩ := g3 j y t' hj htj
          simp only [Heap.set, if_neg hyx] at w1
          exact ⟨l', w1, w2⟩

/-- Save under a label into any readable file, then any further saves under other labels, then load as many distinct
leaves under that label: every leaf is found, holds exactly the data and shapes saved at its position, and is
initialised; no other node changes. -/
theorem c39_roundtrip (r : ByteRep T) (hr : LawfulRep r) (e : Env T) (hmem : ∀ n, e.fits n = true)
    (label : List Char) (ts : List (Tensor T)) (hts : ∀ t ∈ ts, ∃ buf, Saveable t buf)
    (f₀ f : File) (hf : opened f₀ ≠ none) (ws : List (List Char × List (Option (Tensor T)))) (hws : ∀ w ∈ ws, w.1 ≠ label)
    (hrun : writeAll r ((label, ts.map some) :: ws) f₀ = .ok f)
    (vec : List Nat) (h : Heap T) (hlen : vec.length = ts.length) (hnd : vec.Nodup)
    (hleaf : ∀ x ∈ vec, ∃ l, h x = .leaf l ∧ l.data.WF) :
    ∃ h', readInorder r e vec label f h = .ok (h', [], true) ∧ (∀ x, x ∉ vec → h' x = h x) ∧
      ∀ (i : Nat) x t, vec[i]? = some x → ts[i]? = some t → ∃ l, h x = .leaf l ∧ h' x = .leaf ⟨t, true, l.init⟩ := by
  obtain ⟨repo0, ho⟩ := Option.ne_none_iff_exists'.1 hf
  simp only [writeAll, writeInorder, ho, Outcome.bind_eq_ok] at hrun
  obtain ⟨x, ⟨repo1, h1, hx⟩, hrun⟩ := hrun
  simp only [Bool.false_eq_true, if_false] at hx
  injection hx with hx; subst hx
  have hl : ([f₀, .repo Repo.empty, .repo repo1] : List File).getLastD f₀ = .repo repo1 := rfl
  rw [hl] at hrun
  obtain ⟨w1, _⟩ := writeFrom_spec r label (ts.map some) 0 repo0 repo1 h1
  obtain ⟨repo', q1, _, q3⟩ := writeAll_other r label ws (.repo repo1) f repo1 rfl hws hrun
  have hfr : f = .repo repo' := by
    rcases q1 with q1 | ⟨_, q1, rfl⟩
    · exact q1
    · exact q1
  subst hfr
  obtain ⟨h', g1, g2, g3⟩ := readFrom_roundtrip r hr e hmem label repo' (ts.map some) 0 vec h (by simpa using hlen) hnd
    (fun j a hj => by
      rw [List.getElem?_map, Option.map_eq_some_iff] at hj
      obtain ⟨t, ht, rfl⟩ := hj
      obtain ⟨buf, hs⟩ := hts t (List.mem_of_getElem? ht)
      obtain ⟨p, hp, hk⟩ := w1 j t (by simp [ht])
      rw [saveable_serialize r hs] at hp
      injection hp with hp; subst hp
      exact ⟨t, buf, rfl, hs, by rw [q3]; exact hk⟩) hleaf
  refine ⟨h', ?_, g2, fun i x t hi ht => g3 i x t hi (by simp [ht])⟩
  simp only [readInorder, g1, Outcome.ok_bind]

/-- Negative: a node that has no value is skipped, so an older value saved under the same label and position
survives and is what the next load restores. -/
theorem c39_stale_entry : ¬ ∀ (f : File) (ts ts' : List (Option (Tensor Nat))) (f' : File) (label : List Char)
    (h h' : Heap Nat) (l : Leaf Nat), writeAll exRep [(label, ts), (label, ts')] f = .ok f' → h 0 = .leaf l →
    readInorder exRep exEnv [0] label f' h = .ok (h', [], true) → ∃ t, some t ∈ ts' := by
  intro hall
  obtain ⟨t, ht⟩ := hall .absent [some ⟨some [5], [1], [1]⟩] [none] _ ['w'] (fun _ => .leaf ⟨⟨some [0], [1], [1]⟩, true, none⟩) _ _ rfl rfl rfl
  simp at ht

/-! ## C40 -/

theorem fromProto_flag (r : ByteRep T) (e : Env T) (t t' : Tensor T) (b : Bool) (p : TensorProto) (hw : t.WF)
    (h : t.fromProto r e false p = .ok (t', b)) : (b = true ↔ ProtoOk p) ∧ t'.WF ∧
      (b = true → t'.alloc = p.alloc ∧ t'.allowed = p.allow ∧ ∃ buf, t'.raw = some buf) ∧
      (b = false → t'.raw = t.raw ∧ t'.alloc = t.alloc) := by
  have hrank : p.alloc.length = p.allow.length := by
    apply Classical.byContradiction; intro hc
    rw [(c14_decision r e t p).1 hc] at h; cases h
  rcases fromProto_cases r e t p hw t' b h with ⟨rfl, rfl, hw'⟩ | ⟨rfl, h1, h2, h3, h4, hw'⟩
  · refine ⟨⟨fun hh => (by cases hh), fun hh => ?_⟩, hw', fun hh => (by cases hh), fun _ => ⟨rfl, rfl⟩⟩
    rw [fromProto_accept r e t p hw hrank ((Shape.compat_same_rank hrank).2 hh.2) hh.1] at h
    split at h
    · split at h
      · simp at h
      · cases h
    · cases h
  · refine ⟨⟨fun _ => ⟨h1, (Shape.compat_same_rank hrank).1 h2⟩, fun _ => rfl⟩, hw', fun _ => ⟨h3, h4, ?_⟩, fun hh => (by cases hh)⟩
    rw [fromProto_accept r e t p hw hrank h2 h1] at h
    split at h
    · split at h
      · injection h with h; simp only [Prod.mk.injEq] at h
        rw [← h.1]; exact ⟨_, rfl⟩
      · cases h
    · cases h

/-- Every leaf of a heap has consistent data. -/
def HeapOk (h : Heap T) : Prop := ∀ x l, h x = .leaf l → l.data.WF

theorem readProto_flag (r : ByteRep T) (e : Env T) (h : Heap T) (hh : HeapOk h) (x : Nat) (p : TensorProto) (n : RNode T) (b : Bool)
    (hr : (h x).readProto r e p = .ok (n, b)) :
    (b = true ↔ (∃ l, h x = .leaf l) ∧ ProtoOk p) ∧ HeapOk (h.set x n) ∧
      ((∃ l, h x = .leaf l) ↔ ∃ l, n = .leaf l) ∧
      (b = true → ∃ l, n = .leaf l ∧ l.isInit = true ∧ l.data.alloc = p.alloc ∧ l.data.allowed = p.allow ∧ ∃ buf, l.data.raw = some buf) ∧
      (b = false → (∀ l, h x = .leaf l → ∃ l', n = .leaf l' ∧ l'.isInit = l.isInit ∧ l'.data.raw = l.data.raw ∧ l'.data.alloc = l.data.alloc)) := by
  cases hx : h x with
  | other =>
    rw [hx] at hr
    simp only [RNode.readProto] at hr
    injection hr with hr; simp only [Prod.mk.injEq] at hr
    obtain ⟨rfl, rfl⟩ := hr
    refine ⟨⟨fun hb => (by cases hb), fun ⟨⟨l, hl⟩, _⟩ => (by cases hl)⟩, fun y l hy => ?_, Iff.rfl, fun hb => (by cases hb), fun _ l hl => by cases hl⟩
    simp only [Heap.set] at hy
    split at hy
    · cases hy
    · exact hh y l hy
  | leaf l =>
    rw [hx] at hr
    simp only [RNode.readProto, Leaf.readProto, Outcome.bind_eq_ok] at hr
    obtain ⟨y, ⟨⟨t', b'⟩, h1, h2⟩, h3⟩ := hr
    injection h2 with h2; subst h2
    injection h3 with h3; simp only [Prod.mk.injEq] at h3
    obtain ⟨rfl, rfl⟩ := h3
    obtain ⟨f1, f2, f3, f4⟩ := fromProto_flag r e l.data t' b' p (hh x l hx) h1
    refine ⟨⟨fun hb => ⟨⟨l, rfl⟩, f1.1 hb⟩, fun hp => f1.2 hp.2⟩, fun y l' hy => ?_, ⟨fun _ => ⟨_, rfl⟩, fun _ => ⟨_, rfl⟩⟩,
      fun hb => ⟨_, rfl, by simp only [hb, Bool.or_true], (f3 hb).1, (f3 hb).2.1, (f3 hb).2.2⟩, fun hb l' hl' => ?_⟩
    · simp only [Heap.set] at hy
      split at hy
      · injection hy with hy; subst hy; exact f2
      · exact hh y l' hy
    · injection hl' with hl'; subst hl'
      exact ⟨_, rfl, by simp only [hb, Bool.or_false], (f4 hb).1, (f4 hb).2⟩

theorem readFrom_unfound (r : ByteRep T) (e : Env T) (repo : Repo) (label : List Char) (vec : List Nat) :
    ∀ (i : Nat) (h h' : Heap T) (un : List Nat) (lost : Nat → Nat → Bool), HeapOk h →
      (∀ i x, lost i x = true ↔ ∀ p, repo (key label i) = some p → ¬ ((∃ l, h x = .leaf l) ∧ ProtoOk p)) →
      readFrom r e repo label i vec h = .ok (h', un) →
      un = ((vec.zipIdx i).filter fun q => lost q.2 q.1).map Prod.fst ∧ (∀ x, x ∉ vec → h' x = h x) ∧ HeapOk h' ∧
      (∀ x, (∃ l, h x = .leaf l) ↔ ∃ l, h' x = .leaf l) := by
  induction vec with
  | nil =>
    intro i h h' un lost hh _ hr
    simp only [readFrom] at hr
    injection hr with hr; simp only [Prod.mk.injEq] at hr
    obtain ⟨rfl, rfl⟩ := hr
    exact ⟨rfl, fun _ _ => rfl, hh, fun _ => Iff.rfl⟩
  | cons x vec ih =>
    intro i h h' un lost hh hlost hr
    rw [List.zipIdx_cons]
    simp only [readFrom] at hr
    cases hk : repo (key label i) with
    | none =>
      simp only [hk, Outcome.bind_eq_ok] at hr
      obtain ⟨⟨h1, un1⟩, hr1, hr⟩ := hr
      injection hr with hr; simp only [Prod.mk.injEq] at hr
      obtain ⟨rfl, rfl⟩ := hr
      obtain ⟨g1, g2, g3, g4⟩ := ih (i + 1) h h1 un1 lost hh hlost hr1
      have hl : lost i x = true := (hlost i x).2 fun p hp => by rw [hk] at hp; cases hp
      refine ⟨?_, fun y hy => g2 y fun hh => hy (by simp [hh]), g3, g4⟩
      rw [List.filter_cons]
      simp only [hl, if_true, List.map_cons, ← g1]
    | some p =>
      simp only [hk, Outcome.bind_eq_ok] at hr
      obtain ⟨⟨n, b⟩, hr0, ⟨h1, un1⟩, hr1, hr⟩ := hr
      injection hr with hr; simp only [Prod.mk.injEq] at hr
      obtain ⟨rfl, rfl⟩ := hr
      obtain ⟨f1, f2, f3, f4, f5⟩ := readProto_flag r e h hh x p n b hr0
      have hkind : ∀ y, (∃ l, h y = .leaf l) ↔ ∃ l, (h.set x n) y = .leaf l := by
        intro y
        by_cases hy : y = x
        · subst hy; simp only [Heap.set, if_true]; exact f3
        · simp only [Heap.set, if_neg hy]
      obtain ⟨g1, g2, g3, g4⟩ := ih (i + 1) (h.set x n) h1 un1 lost f2 (fun i y => by rw [hlost, hkind y]) hr1
      refine ⟨?_, fun y hy => ?_, g3, fun y => by rw [hkind y]; exact g4 y⟩
      · rw [List.filter_cons]
        cases hb : b with
        | true =>
          have hl : lost i x = false := by
            rw [Bool.eq_false_iff]; intro hc
            exact (hlost i x).1 hc p hk (f1.1 hb)
          simp only [hl, if_true, Bool.false_eq_true, if_false, ← g1]
        | false =>
          have hl : lost i x = true := (hlost i x).2 fun p' hp' hc => by
            rw [hk] at hp'; injection hp' with hp'; subst hp'
            rw [f1.2 hc] at hb; cases hb
          simp only [hl, if_true, Bool.false_eq_true, if_false, List.map_cons, ← g1]
      · rw [List.mem_cons, not_or] at hy
        rw [g2 y hy.2]; simp [Heap.set, hy.1]

/-- Whatever the repository and the request vector (which may name a node twice): if loading returns, it leaves in the
vector, in order, exactly the entries whose key is missing, or whose proto does not describe data of a fully defined
shape agreeing with its declared shape, or whose node is not a leaf; nodes not in the vector are unchanged. -/
theorem c40_unfound (r : ByteRep T) (e : Env T) (repo : Repo) (label : List Char) (vec : List Nat) (h h' : Heap T)
    (un : List Nat) (ok : Bool) (hh : HeapOk h) (lost : Nat → Nat → Bool)
    (hlost : ∀ i x, lost i x = true ↔ repo (key label i) = none ∨ (∀ l, h x ≠ .leaf l) ∨ ∃ p, repo (key label i) = some p ∧ ¬ ProtoOk p)
    (hr : readInorder r e vec label (.repo repo) h = .ok (h', un, ok)) :
    ok = true ∧ un = (vec.zipIdx.filter fun q => lost q.2 q.1).map Prod.fst ∧ ∀ x, x ∉ vec → h' x = h x := by
  simp only [readInorder, Outcome.bind_eq_ok] at hr
  obtain ⟨⟨h1, un1⟩, hr1, hr⟩ := hr
  injection hr with hr; simp only [Prod.mk.injEq] at hr
  obtain ⟨rfl, rfl, rfl⟩ := hr
  obtain ⟨g1, g2, _, _⟩ := readFrom_unfound r e repo label vec 0 h h1 un1 lost hh (fun i x => by
    rw [hlost]
    constructor
    · rintro (hc | hc | ⟨p, hp, hc⟩) p' hp' hcc
      · rw [hc] at hp'; cases hp'
      · obtain ⟨l, hl⟩ := hcc.1; exact hc l hl
      · rw [hp] at hp'; injection hp' with hp'; subst hp'; exact hc hcc.2
    · intro hc
      cases hk : repo (key label i) with
      | none => exact .inl rfl
      | some p =>
        right
        by_cases hl : ∃ l, h x = .leaf l
        · exact .inr ⟨p, rfl, fun hp => hc p hk ⟨hl, hp⟩⟩
        · exact .inl fun l hx => hl ⟨l, hx⟩) hr1
  exact ⟨rfl, g1, g2⟩

/-- For a vector of distinct nodes: a leaf that is found is initialised and has the shapes stored under its key; one that
is not keeps its data, allocated shape and initialisation state. -/
theorem c40_effect (r : ByteRep T) (e : Env T) (repo : Repo) (label : List Char) (vec : List Nat) (h h' : Heap T)
    (un : List Nat) (ok : Bool) (hh : HeapOk h) (hnd : vec.Nodup)
    (hr : readInorder r e vec label (.repo repo) h = .ok (h', un, ok)) (i x : Nat) (l : Leaf T) (hi : vec[i]? = some x) (hl : h x = .leaf l) :
    (∀ p, repo (key label i) = some p → ProtoOk p → ∃ l', h' x = .leaf l' ∧ l'.isInit = true ∧ l'.data.alloc = p.alloc ∧
      l'.data.allowed = p.allow ∧ ∃ buf, l'.data.raw = some buf) ∧
    ((∀ p, repo (key label i) = some p → ¬ ProtoOk p) → ∃ l', h' x = .leaf l' ∧ l'.isInit = l.isInit ∧ l'.data.raw = l.data.raw ∧
      l'.data.alloc = l.data.alloc) := by
  simp only [readInorder, Outcome.bind_eq_ok] at hr
  obtain ⟨⟨h1, un1⟩, hr1, hr⟩ := hr
  injection hr with hr; simp only [Prod.mk.injEq] at hr
  obtain ⟨rfl, rfl, rfl⟩ := hr
  have key : ∀ (vec : List Nat) (k i : Nat) (h h' : Heap T) (un : List Nat), HeapOk h → vec.Nodup →
      readFrom r e repo label k vec h = .ok (h', un) → vec[i]? = some x → h x = .leaf l →
      (∀ p, repo (key label (k + i)) = some p → ProtoOk p → ∃ l', h' x = .leaf l' ∧ l'.isInit = true ∧ l'.data.alloc = p.alloc ∧
        l'.data.allowed = p.allow ∧ ∃ buf, l'.data.raw = some buf) ∧
      ((∀ p, repo (key label (k + i)) = some p → ¬ ProtoOk p) → ∃ l', h' x = .leaf l' ∧ l'.isInit = l.isInit ∧ l'.data.raw = l.data.raw ∧
        l'.data.alloc = l.data.alloc) := by
    intro vec
    induction vec with
    | nil => intro k i h h' un _ _ _ hi; simp at hi
    | cons y vec ih =>
      intro k i h h' un hh hnd hr hi hl
      rw [List.nodup_cons] at hnd
      have unch : ∀ (j : Nat) (g g' : Heap T) u, HeapOk g → readFrom r e repo label j vec g = .ok (g', u) → ∀ z, z ∉ vec → g' z = g z :=
        fun j g g' u hg hrd => by
          classical
          exact (readFrom_unfound r e repo label vec j g g' u (fun i x => decide (∀ p, repo (IO.key label i) = some p → ¬ ((∃ l, g x = .leaf l) ∧ ProtoOk p)))
            hg (fun i x => by simp) hrd).2.1
      simp only [readFrom] at hr
      cases hk : repo (IO.key label k) with
      | none =>
        simp only [hk, Outcome.bind_eq_ok] at hr
        obtain ⟨⟨h1, un1⟩, hr1, hr⟩ := hr
        injection hr with hr; simp only [Prod.mk.injEq] at hr
        obtain ⟨rfl, rfl⟩ := hr
        cases i with
        | zero =>
          simp only [List.getElem?_cons_zero, Option.some.injEq] at hi
          subst hi
          rw [Nat.add_zero, hk, unch _ _ _ _ hh hr1 y hnd.1]
          exact ⟨fun p hp => (by cases hp), fun _ => ⟨l, hl, rfl, rfl, rfl⟩⟩
        | succ i =>
          rw [List.getElem?_cons_succ] at hi
          have := ih (k + 1) i h h1 un1 hh hnd.2 hr1 hi hl
          rw [show k + 1 + i = k + (i + 1) by omega] at this; exact this
      | some p =>
        simp only [hk, Outcome.bind_eq_ok] at hr
        obtain ⟨⟨n, b⟩, hr0, ⟨h1, un1⟩, hr1, hr⟩ := hr
        injection hr with hr; simp only [Prod.mk.injEq] at hr
        obtain ⟨rfl, rfl⟩ := hr
        obtain ⟨f1, f2, f3, f4, f5⟩ := readProto_flag r e h hh y p n b hr0
        cases i with
        | zero =>
          simp only [List.getElem?_cons_zero, Option.some.injEq] at hi
          subst hi
          rw [Nat.add_zero, hk, unch _ _ _ _ f2 hr1 y hnd.1]
          simp only [Heap.set, if_true]
          refine ⟨fun p' hp' hok => ?_, fun hno => ?_⟩
          · injection hp' with hp'; subst hp'
            exact f4 (f1.2 ⟨⟨l, hl⟩, hok⟩)
          · have hb : b = false := by
              rw [Bool.eq_false_iff]; intro hb; exact hno p rfl (f1.1 hb).2
            exact f5 hb l hl
        | succ i =>
          rw [List.getElem?_cons_succ] at hi
          have hyx : x ≠ y := fun hc => hnd.1 (hc ▸ List.mem_of_getElem? hi)
          have := ih (k + 1) i (h.set y n) h1 un1 f2 hnd.2 hr1 hi (by simp only [Heap.set, if_neg hyx]; exact hl)
          rw [show k + 1 + i = k + (i + 1) by omega] at this; exact this
  have := key vec 0 i h h1 un1 hh hnd hr1 hi hl
  rw [Nat.zero_add] at this; exact this

/-! ## C56 -/

/-- Negative: saving is not atomic.  Before the new contents are written the file is emptied, so a crash or write failure
at that point loses every entry, also those of other labels; a later load then succeeds and finds nothing. -/
theorem c56_crash_loses_everything (r : ByteRep T) (e : Env T) (ts : List (Option (Tensor T))) (label : List Char) (fails : Bool)
    (f : File) (states : List File) (ret : Bool) (hf : opened f ≠ none) (hrun : writeInorder r ts label fails f = .ok (states, ret)) :
    ∃ f' ∈ states, ∀ (label' : List Char) (vec : List Nat) (h : Heap T), readInorder r e vec label' f' h = .ok (h, vec, true) := by
  obtain ⟨repo, ho⟩ := Option.ne_none_iff_exists'.1 hf
  have hmem : File.repo Repo.empty ∈ states := by
    simp only [writeInorder, ho, Outcome.bind_eq_ok] at hrun
    obtain ⟨repo', _, hrun⟩ := hrun
    split at hrun
    · injection hrun with hrun; simp only [Prod.mk.injEq] at hrun; rw [← hrun.1]; simp
    · injection hrun with hrun; simp only [Prod.mk.injEq] at hrun; rw [← hrun.1]; simp
  refine ⟨_, hmem, fun label' vec h => ?_⟩
  have : ∀ (vec : List Nat) (i : Nat), readFrom r e Repo.empty label' i vec h = .ok (h, vec) := by
    intro vec
    induction vec with
    | nil => intro i; rfl
    | cons x vec ih => intro i; show (readFrom r e Repo.empty label' (i + 1) vec h >>= fun y => .ok (y.1, x :: y.2)) = _; rw [ih]; rfl
  simp only [readInorder, this, Outcome.ok_bind]

example : ∃ f h', writeAll exRep [(['w'], [some ⟨some [1, 2], [2], [2]⟩, some ⟨some [3], [1], [0]⟩]), (['w', ':', '0'], [some ⟨some [9], [1], [1]⟩])] .absent = .ok f ∧
    readInorder exRep exEnv [4, 7] ['w'] f (fun _ => .leaf ⟨⟨none, [], []⟩, false, none⟩) = .ok (h', [], true) ∧
    h' 4 = .leaf ⟨⟨some [1, 2], [2], [2]⟩, true, none⟩ ∧ h' 7 = .leaf ⟨⟨some [3], [1], [0]⟩, true, none⟩ := ⟨_, _, rfl, rfl, rfl, rfl⟩
example : ∃ f h', writeAll exRep [(['w'], [some ⟨some [1, 2], [2], [2]⟩, none, some ⟨some [3], [1], [0]⟩])] .absent = .ok f ∧
    readInorder exRep exEnv [4, 7, 5, 6] ['w'] f (fun x => if x = 5 then .other else .leaf ⟨⟨none, [], []⟩, false, none⟩) = .ok (h', [7, 5, 6], true) :=
  ⟨_, _, rfl, rfl⟩
example : Saveable (⟨some [3], [1], [0]⟩ : Tensor Nat) [3] := ⟨rfl, by decide, rfl, rfl, by decide⟩

end Verif.Props
