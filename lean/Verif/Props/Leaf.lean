import Verif.Model.Leaf
import Verif.Spec.Leaf
import Verif.Props.Tensor
/-!
# C41, C42, C43, C55: constants, variables, placeholders
-/
namespace Verif.Props
open Verif.Spec Verif.Tensor Verif.Leaf

variable {T : Type}

/-! ## The assigner -/

theorem combine_ok (f : T → T → T) (dest src : List T) (h : dest.length ≤ src.length) :
    combine f dest.length dest src = .ok (List.zipWith f dest src) := by
  unfold combine
  obtain ⟨s', h1, h2⟩ := Outcome.loop_inv
    (P := fun j b => b = List.zipWith f (dest.take j) (src.take j) ++ dest.drop j) dest.length
    (fun i buf => Outcome.read buf i >>= fun a => Outcome.read src i >>= fun b => Outcome.write buf i (f a b)) dest (by simp) (by
      rintro j s hj rfl
      have hjs : j < src.length := by omega
      have hl : (List.zipWith f (dest.take j) (src.take j)).length = j := by simp; omega
      have e1 : Outcome.read (List.zipWith f (dest.take j) (src.take j) ++ dest.drop j) j = .ok dest[j] := by
        rw [Outcome.read_eq_ok, List.getElem?_append_right (by omega), hl]; simp [hj]
      rw [e1, Outcome.ok_bind, Outcome.read_of_lt _ _ hjs, Outcome.ok_bind, Outcome.write_ok _ _ _ (by simp; omega)]
      refine ⟨_, rfl, ?_⟩
      rw [List.set_append_right _ _ (by omega), hl, Nat.sub_self, List.drop_eq_getElem_cons hj, List.set_cons_zero,
        ← List.take_append_getElem hj, ← List.take_append_getElem hjs, List.zipWith_append (by simp; omega)]
      simp)
  rw [h1, h2]
  congr 1
  rw [List.take_length, List.drop_length, List.append_nil]
  apply List.ext_getElem
  · simp
  · intro i h1 h2
    simp only [List.getElem_zipWith, List.getElem_take]

theorem combine_length (f : T → T → T) (src : List T) : ∀ (k i : Nat) (b r : List T),
    Outcome.loopFrom (fun i buf => Outcome.read buf i >>= fun a => Outcome.read src i >>= fun b =>
      Outcome.write buf i (f a b)) k i b = .ok r → r.length = b.length
  | 0, _, b, r, h => by simp only [Outcome.loopFrom] at h; injection h with h; rw [h]
  | k + 1, i, b, r, h => by
    rw [Outcome.loopFrom, Outcome.bind_eq_ok] at h
    obtain ⟨b1, q1, q2⟩ := h
    simp only [Outcome.bind_eq_ok] at q1
    obtain ⟨x, _, y, _, q5⟩ := q1
    rw [combine_length f src k (i + 1) b1 r q2]
    unfold Outcome.write at q5
    split at q5
    · injection q5 with q5; subst q5; simp
    · cases q5

theorem getShape_full {t : Tensor T} {buf : List T} (hw : t.WF) (h : t.raw = some buf) :
    t.isAlloc = true ∧ t.getShape = t.alloc ∧ t.getShape.nElems = buf.length ∧ t.nElems = buf.length := by
  obtain ⟨hf, hl⟩ := hw buf h
  have ha : t.isAlloc = true := (isAlloc_iff t).2 ⟨hf, buf, h⟩
  have hn : t.alloc.nElems = buf.length := by rw [Shape.nElems_eq hf.1, hl]
  exact ⟨ha, getShape_of_alloc ha, by rw [getShape_of_alloc ha, hn], by simp [Tensor.nElems, h, hn]⟩

theorem rawOf_eq {t : Tensor T} {buf : List T} (hw : t.WF) (h : t.raw = some buf) : rawOf t = .ok buf := by
  unfold rawOf
  rw [(getShape_full hw h).1, Outcome.assert_true, Outcome.ok_bind]
  simp only [h]

theorem assignVec_eq (f : T → T → T) {t : Tensor T} {buf : List T} (hw : t.WF) (h : t.raw = some buf) (d : List T) :
    assignVec f t d = if buf.length ≤ d.length then .ok { t with raw := some (List.zipWith f buf d) } else .abort := by
  unfold assignVec
  rw [(getShape_full hw h).2.2.1]
  by_cases hl : buf.length ≤ d.length
  · rw [if_pos hl, decide_eq_true hl, Outcome.assert_true, Outcome.ok_bind]
    simp only [combineAt, rawOf_eq hw h, Outcome.ok_bind]
    rw [combine_ok f buf d hl]; rfl
  · rw [if_neg hl, decide_eq_false hl]; rfl

theorem assignTensor_eq (f : T → T → T) {t a : Tensor T} {buf src : List T} (hw : t.WF) (h : t.raw = some buf)
    (ha : a.WF) (hs : a.raw = some src) :
    assignTensor f t a = if src.length = buf.length then .ok { t with raw := some (List.zipWith f buf src) } else .abort := by
  unfold assignTensor
  rw [(getShape_full hw h).2.2.1, (getShape_full ha hs).2.2.2]
  by_cases hl : src.length = buf.length
  · rw [if_pos hl, decide_eq_true hl, Outcome.assert_true, Outcome.ok_bind]
    simp only [combineAt, rawOf_eq hw h, rawOf_eq ha hs, Outcome.ok_bind]
    rw [hl, combine_ok f buf src (by omega)]; rfl
  · rw [if_neg hl, decide_eq_false hl]; rfl

theorem zipWith_second (a b : List T) (h : a.length = b.length) : List.zipWith second a b = b := by
  induction a generalizing b with
  | nil => cases b <;> simp_all
  | cons x a ih =>
    cases b with
    | nil => simp at h
    | cons y b => simp only [List.zipWith_cons_cons, second]; rw [ih b (by simpa using h)]

theorem zipWith_second_take (a b : List T) (h : a.length ≤ b.length) : List.zipWith second a b = b.take a.length := by
  induction a generalizing b with
  | nil => cases b <;> simp_all
  | cons x a ih =>
    cases b with
    | nil => simp at h
    | cons y b => simp only [List.zipWith_cons_cons, second, List.length_cons, List.take_succ_cons]; rw [ih b (by simpa using h)]

theorem zip_wf {t : Tensor T} {buf b' : List T} (hw : t.WF) (h : t.raw = some buf) (hl : b'.length = buf.length) :
    ({ t with raw := some b' } : Tensor T).WF := by
  intro b hb
  simp only [Option.some.injEq] at hb
  subst hb
  exact ⟨(hw buf h).1, by rw [hl]; exact (hw buf h).2⟩

theorem fillWith_eq {t : Tensor T} {buf : List T} (hw : t.WF) (h : t.raw = some buf) (g : Nat → T) :
    fillWith t g = .ok { t with raw := some ((List.range buf.length).map g) } := by
  unfold fillWith
  rw [rawOf_eq hw h, Outcome.ok_bind, (getShape_full hw h).2.2.1]
  obtain ⟨s', h1, h2⟩ := Outcome.loop_inv (P := fun j b => b = (List.range j).map g ++ buf.drop j) buf.length
    (fun i b => Outcome.write b i (g i)) buf (by simp) (by
      rintro j s hj rfl
      rw [Outcome.write_ok _ _ _ (by simp; omega)]
      refine ⟨_, rfl, ?_⟩
      rw [List.set_append_right _ _ (by simp)]
      simp only [List.length_map, List.length_range, Nat.sub_self]
      rw [List.drop_eq_getElem_cons hj, List.set_cons_zero, List.range_succ]
      simp)
  rw [h1, h2]
  simp

/-! ## C41 -/

/-- A constant built from a vector and any shape with at least one extent: it is initialised, its shape is
the given one where known and, among the shapes that can hold the data, has the fewest elements; its
elements are the data in order, then zeros. -/
theorem c41_constant (e : Env T) (raw : List T) (shape : Shape) (hne : shape ≠ [])
    (hmem : ∀ n, e.fits n = true) :
    ∃ l buf, constVec e raw shape = .ok l ∧ l.eval = some l.data ∧ l.data.raw = some buf ∧
      Full l.data.alloc ∧ Refines l.data.alloc shape ∧ buf.length = vol l.data.alloc ∧
      (∀ i, i < buf.length → buf[i]? = some ((raw[i]?).getD e.zero)) ∧
      (¬ Full shape → raw.length ≤ buf.length ∧
        ∀ s', Full s' → Refines s' shape → raw.length ≤ vol s' → buf.length ≤ vol s') := by
  -- what happens after allocation
  have fin : ∀ (t : Tensor T) (raw1 b0 : List T) , t.WF → t.raw = some b0 → (∃ k, raw1 = raw ++ List.replicate k e.zero) →
      ∃ buf, (Outcome.assert t.isAlloc >>= fun _ =>
        let raw2 := if t.nElems > raw.length then raw1 ++ List.replicate (t.nElems - raw.length) e.zero else raw1
        assignVec second t raw2 >>= fun t => .ok (⟨t, true, none⟩ : Leaf T)) = .ok ⟨{ t with raw := some buf }, true, none⟩ ∧
        buf.length = vol t.alloc ∧ ∀ i, i < buf.length → buf[i]? = some ((raw[i]?).getD e.zero) := by
    rintro t raw1 b0 hw hb ⟨k, rfl⟩
    obtain ⟨ha, hg, hg', hn⟩ := getShape_full hw hb
    rw [ha, Outcome.assert_true, Outcome.ok_bind, hn]
    have key : ∃ m, (if b0.length > raw.length then (raw ++ List.replicate k e.zero) ++ List.replicate (b0.length - raw.length) e.zero
        else raw ++ List.replicate k e.zero) = raw ++ List.replicate m e.zero ∧ b0.length ≤ raw.length + m := by
      by_cases h : b0.length > raw.length
      · rw [if_pos h, List.append_assoc, List.replicate_append_replicate]
        exact ⟨_, rfl, by omega⟩
      · rw [if_neg h]; exact ⟨k, rfl, by omega⟩
    obtain ⟨m, e1, e2⟩ := key
    simp only [e1]
    rw [assignVec_eq second hw hb, if_pos (by simpa using e2)]
    refine ⟨_, rfl, ?_, ?_⟩
    · rw [List.length_zipWith]; simp only [List.length_append, List.length_replicate]
      rw [Nat.min_eq_left e2]; exact (hw b0 hb).2
    · intro i hi
      rw [zipWith_second_take _ _ (by simpa using e2)] at hi ⊢
      rw [List.length_take, List.length_append, List.length_replicate, Nat.min_eq_left e2] at hi
      rw [List.getElem?_take_of_lt (by omega)]
      by_cases hr : i < raw.length
      · rw [List.getElem?_append_left hr]; simp [hr]
      · rw [List.getElem?_append_right (by omega), List.getElem?_eq_none (l := raw) (by omega),
          List.getElem?_replicate, if_pos (by omega), Option.getD_none]
  unfold constVec
  by_cases hf : Full shape
  · have ht : Tensor.new e shape = ⟨some ((List.range shape.nElems).map e.junk), shape, shape⟩ := by
      simp [Tensor.new, (Shape.isFullyDefined_iff _).2 hf, allocBuf, hmem]
    have hw := new_wf e shape
    have hal : (Tensor.new e shape).isAlloc = true := (isAlloc_iff _).2 (by rw [ht]; exact ⟨hf, _, rfl⟩)
    rw [constAlloc, if_pos hal, Outcome.ok_bind]
    obtain ⟨buf, h1, h2, h3⟩ := fin (Tensor.new e shape) raw _ hw (by rw [ht]) ⟨0, by simp⟩
    refine ⟨_, buf, h1, rfl, rfl, ?_, ?_, h2, h3, fun h => absurd hf h⟩
    · simp only [ht]; exact hf
    · simp only [ht]; exact ⟨rfl, fun i _ => .inr rfl⟩
  · have ht : Tensor.new e shape = ⟨none, [], shape⟩ := by
      simp [Tensor.new, hf, Shape.isFullyDefined_iff]
    have hal : (Tensor.new e shape).isAlloc = false := by rw [ht]; simp [isAlloc]
    rw [constAlloc, if_neg (by simp [hal])]
    -- the padded data is not empty and no longer than any shape that can hold the data
    have hk : shape.nKnown = vol (ones shape) := by
      rw [Shape.nKnown, if_neg (by simpa using hne)]
      have : ∀ (s : List Nat) (a : Nat), s.foldl (fun a b => if b ≠ 0 then a * b else a) a = a * vol (ones s) := by
        intro s
        induction s with
        | nil => intro a; simp [ones, vol]
        | cons d s ih =>
          intro a
          rw [List.foldl_cons, ih]
          by_cases hd : d = 0
          · subst hd; simp [ones, vol]
          · rw [if_pos hd]; simp only [ones, List.map_cons, if_neg hd, vol]; rw [Nat.mul_assoc]
      rw [this, Nat.one_mul]
    have hkpos : 0 < shape.nKnown := by rw [hk]; exact Shape.vol_pos (ones_pos shape)
    generalize hr1 : (if shape.nKnown > raw.length then raw ++ List.replicate (shape.nKnown - raw.length) e.zero else raw) = raw1
    have hex : ∃ k, raw1 = raw ++ List.replicate k e.zero := by
      by_cases h : shape.nKnown > raw.length
      · rw [if_pos h] at hr1; exact ⟨_, hr1.symm⟩
      · rw [if_neg h] at hr1; exact ⟨0, by simp [hr1]⟩
    have hlen : raw1.length = max shape.nKnown raw.length := by
      by_cases h : shape.nKnown > raw.length
      · rw [if_pos h] at hr1; rw [← hr1]; simp; omega
      · rw [if_neg h] at hr1; rw [← hr1]; omega
    have hal' : (Tensor.new e shape).allowed = shape := by rw [ht]
    obtain ⟨s, g1, g2, g3, g4, g5, g6⟩ := c11_loose_part (Tensor.new e shape) raw1.length (by omega) (by rw [hal']; exact hne)
      (by rw [hal']; exact hf)
    simp only [g1, Outcome.ok_bind]
    have hall : (Tensor.new e shape).allocateShape e s = .ok (⟨some ((List.range s.nElems).map e.junk), s, shape⟩, true) := by
      have hc : Shape.isCompatibleWith s shape = true := by rw [← hal']; exact g3
      simp [allocateShape, ht, isAlloc, hc, (Shape.isFullyDefined_iff _).2 g2, allocBuf, hmem]
    rw [hall]
    simp only [Outcome.ok_bind]
    have hw : (⟨some ((List.range s.nElems).map e.junk), s, shape⟩ : Tensor T).WF := by
      intro b hb
      simp only [Option.some.injEq] at hb
      subst hb
      exact ⟨g2, by simp [Shape.nElems_eq g2.1]⟩
    obtain ⟨buf, h1, h2, h3⟩ := fin ⟨some ((List.range s.nElems).map e.junk), s, shape⟩ raw1 _ hw rfl hex
    refine ⟨_, buf, h1, rfl, rfl, g2, by rw [hal'] at g4; exact g4, h2, h3, fun _ => ⟨?_, ?_⟩⟩
    · rw [h2]; show raw.length ≤ vol s
      rw [← Shape.nElems_eq g2.1]; omega
    · intro s' hs1 hs2 hs3
      rw [h2]; show vol s ≤ vol s'
      rw [← Shape.nElems_eq g2.1, ← Shape.nElems_eq hs1.1]
      refine g6 s' hs1 (by rw [hal']; exact hs2) ?_
      rw [hlen, Shape.nElems_eq hs1.1]
      refine Nat.max_le.2 ⟨?_, hs3⟩
      obtain ⟨m, hm⟩ := vol_refines shape s' hs2
      have := Shape.vol_pos hs1.2
      rw [hk, hm]
      exact Nat.le_mul_of_pos_right _ (Nat.pos_of_ne_zero (by rintro rfl; rw [hm] at this; simp at this))

/-- A scalar constant. -/
theorem c41_scalar (e : Env T) (v : T) (hmem : e.fits 1 = true) :
    constScalar e v = .ok ⟨⟨some [v], [1], [1]⟩, true, none⟩ := by
  have ht : Tensor.new e [1] = ⟨some [e.junk 0], [1], [1]⟩ := by
    simp [Tensor.new, Shape.isFullyDefined, allocBuf, Shape.nElems, hmem]
  have hal : (Tensor.new e [1]).isAlloc = true := by rw [ht]; simp [isAlloc, Shape.isFullyDefined]
  unfold constScalar
  rw [Tensor.allocate, if_pos hal, Outcome.ok_bind, fillWith_eq (new_wf e [1]) (by rw [ht])]
  rw [ht]; rfl

/-- With an undefined shape the constructor is undefined behaviour. -/
theorem c41_undefined_shape_ub (e : Env T) (raw : List T) : constVec e raw [] = .ub := by
  have ht : Tensor.new e [] = ⟨none, [], []⟩ := by simp [Tensor.new, Shape.isFullyDefined]
  unfold constVec constAlloc
  rw [ht]
  simp only [isAlloc, Shape.isFullyDefined, c11_loose_undefined (⟨none, [], []⟩ : Tensor T) _ rfl]
  simp

example : ∃ l, constVec exEnv [1, 2, 3, 4, 5] [2, 0] = .ok l ∧ l.data.raw = some [1, 2, 3, 4, 5, 0] ∧ l.data.alloc = [2, 3] := ⟨_, rfl, rfl, rfl⟩
example : ∃ l, constVec exEnv [1, 2, 3] [2] = .ok l ∧ l.data.raw = some [1, 2] ∧ l.data.alloc = [2] := ⟨_, rfl, rfl, rfl⟩

/-! ## C42 -/

theorem zipWith_mapTwo (f : T → T → T) (a b : List T) : List.zipWith f a b = mapTwo f a b := by
  induction a generalizing b with
  | nil => simp [mapTwo]
  | cons x a ih => cases b <;> simp [mapTwo, ih]

/-- Updating an allocated variable from a constant: aborts when the constant has fewer elements than the
variable, except that a zero scalar is ignored by `assign_add` and `assign_sub`; otherwise every element
becomes `f old new`, and shape and initialisation state are unchanged. -/
theorem c42_update_constant [DecidableEq T] (e : Env T) (f : T → T → T) (z : Bool) (l : Leaf T) (buf d : List T)
    (hw : l.data.WF) (hb : l.data.raw = some buf) :
    update e f z l (.const d) =
      if z = true ∧ d = [e.zero] then .ok l
      else if buf.length ≤ d.length then .ok ⟨⟨some (mapTwo f buf d), l.data.alloc, l.data.allowed⟩, l.isInit, l.init⟩
      else .abort := by
  show (if (z && decide (d = [e.zero])) = true then Outcome.ok l else assignVec f l.data d >>= fun t => .ok { l with data := t }) = _
  by_cases hz : z = true ∧ d = [e.zero]
  · rw [if_pos hz, if_pos (by simp [hz.1, hz.2])]
  · rw [if_neg hz, if_neg (by rw [Bool.and_eq_true, decide_eq_true_iff]; exact hz), assignVec_eq f hw hb]
    by_cases hl : buf.length ≤ d.length
    · rw [if_pos hl, if_pos hl, zipWith_mapTwo]; rfl
    · rw [if_neg hl, if_neg hl]; rfl

/-- Updating an allocated variable from another node: aborts when the node has no value or a different number
of elements; otherwise every element becomes `f old new`. -/
theorem c42_update_node [DecidableEq T] (e : Env T) (f : T → T → T) (z : Bool) (l : Leaf T) (a : Tensor T) (buf src : List T)
    (hw : l.data.WF) (hb : l.data.raw = some buf) (ha : a.WF) (hs : a.raw = some src) :
    update e f z l (.node none) = .abort ∧
    update e f z l (.node (some a)) =
      if src.length = buf.length then .ok ⟨⟨some (mapTwo f buf src), l.data.alloc, l.data.allowed⟩, l.isInit, l.init⟩
      else .abort := by
  refine ⟨rfl, ?_⟩
  show (assignTensor f l.data a >>= fun t => .ok { l with data := t }) = _
  rw [assignTensor_eq f hw hb ha hs]
  by_cases hl : src.length = buf.length
  · rw [if_pos hl, if_pos hl, zipWith_mapTwo]; rfl
  · rw [if_neg hl, if_neg hl]; rfl

theorem mapTwo_getElem? (f : T → T → T) (a b : List T) (h : a.length ≤ b.length) (i : Nat) (x y : T)
    (hx : a[i]? = some x) (hy : b[i]? = some y) : (mapTwo f a b)[i]? = some (f x y) ∧ (mapTwo f a b).length = a.length := by
  rw [← zipWith_mapTwo]
  exact ⟨by rw [List.getElem?_zipWith, hx, hy], by simp; omega⟩

/-- The three updates, element by element. -/
theorem c42_elements [DecidableEq T] [Add T] [Sub T] (e : Env T) (l l' : Leaf T) (buf d : List T) (hw : l.data.WF) (hb : l.data.raw = some buf)
    (hl : buf.length = d.length) :
    (assign e l (.const d) = .ok l' → l'.data.raw = some d) ∧
    (assignAdd e l (.const d) = .ok l' → d ≠ [e.zero] → ∃ b, l'.data.raw = some b ∧ b.length = buf.length ∧
      ∀ (i : Nat) x y, buf[i]? = some x → d[i]? = some y → b[i]? = some (x + y)) ∧
    (assignSub e l (.const d) = .ok l' → d ≠ [e.zero] → ∃ b, l'.data.raw = some b ∧ b.length = buf.length ∧
      ∀ (i : Nat) x y, buf[i]? = some x → d[i]? = some y → b[i]? = some (x - y)) := by
  refine ⟨fun h => ?_, fun h hz => ?_, fun h hz => ?_⟩
  · rw [assign, c42_update_constant e second false l buf d hw hb, if_neg (by simp), if_pos (by omega)] at h
    injection h with h; subst h
    show some (mapTwo second buf d) = some d
    rw [← zipWith_mapTwo, zipWith_second _ _ hl]
  · rw [assignAdd, c42_update_constant e _ true l buf d hw hb, if_neg (fun h => hz h.2), if_pos (by omega)] at h
    injection h with h; subst h
    refine ⟨_, rfl, by rw [← zipWith_mapTwo]; simp; omega, fun i x y hx hy => (mapTwo_getElem? _ _ _ (by omega) i x y hx hy).1⟩
  · rw [assignSub, c42_update_constant e _ true l buf d hw hb, if_neg (fun h => hz h.2), if_pos (by omega)] at h
    injection h with h; subst h
    refine ⟨_, rfl, by rw [← zipWith_mapTwo]; simp; omega, fun i x y hx hy => (mapTwo_getElem? _ _ _ (by omega) i x y hx hy).1⟩

/-- Assigning never initialises: `eval` before and after any update is null or not alike. -/
theorem c42_keeps_init [DecidableEq T] (e : Env T) (f : T → T → T) (z : Bool) (l l' : Leaf T) (a : Arg T)
    (h : update e f z l a = .ok l') : l'.isInit = l.isInit ∧ l'.init = l.init := by
  cases a with
  | const d =>
    simp only [update] at h
    split at h
    · injection h with h; subst h; exact ⟨rfl, rfl⟩
    · rw [Outcome.bind_eq_ok] at h
      obtain ⟨t, _, h⟩ := h
      injection h with h; subst h; exact ⟨rfl, rfl⟩
  | node t =>
    cases t with
    | none => simp only [update] at h; cases h
    | some a =>
      simp only [update] at h
      rw [Outcome.bind_eq_ok] at h
      obtain ⟨t, _, h⟩ := h
      injection h with h; subst h; exact ⟨rfl, rfl⟩

/-- Negative: the argument is not broadcast; adding a non-zero scalar constant to a variable of more than one
element aborts. -/
theorem c42_no_broadcast [DecidableEq T] (e : Env T) (f : T → T → T) (z : Bool) (l : Leaf T) (buf : List T) (v : T)
    (hw : l.data.WF) (hb : l.data.raw = some buf) (h2 : 2 ≤ buf.length) (hv : v ≠ e.zero) :
    update e f z l (.const [v]) = .abort := by
  rw [c42_update_constant e f z l buf [v] hw hb, if_neg (by simp [hv]), if_neg (by simp; omega)]

/-- Negative: assigning a constant to a variable whose shape is not fully defined, and that therefore holds no data,
aborts (unless it is the addition or subtraction of zero): assigning never allocates. -/
theorem c42_unallocated_aborts [DecidableEq T] (e : Env T) (f : T → T → T) (z : Bool) (shape : Shape)
    (init : Option (Nat → T)) (d : List T) (h : ¬ Full shape) :
    update e f z (newVariable e shape init) (.const d) =
      if z = true ∧ d = [e.zero] then .ok (newVariable e shape init) else .abort := by
  have ht : Tensor.new e shape = ⟨none, [], shape⟩ := by simp [Tensor.new, h, Shape.isFullyDefined_iff]
  simp only [update, newVariable, ht]
  by_cases hz : z = true ∧ d = [e.zero]
  · rw [if_pos hz, if_pos (by simp [hz])]
  · rw [if_neg hz, if_neg (by simpa using hz)]
    have hr : rawOf (⟨none, [], shape⟩ : Tensor T) = .abort := by simp [rawOf, isAlloc, Shape.isFullyDefined, Outcome.assert]
    unfold assignVec combineAt
    rw [hr]
    by_cases hc : Shape.nElems (⟨none, [], shape⟩ : Tensor T).getShape ≤ d.length
    · rw [decide_eq_true hc]; rfl
    · rw [decide_eq_false hc]; rfl

/-- Negative: the same with any other node. -/
theorem c42_unallocated_node_aborts [DecidableEq T] (e : Env T) (f : T → T → T) (z : Bool) (shape : Shape)
    (init : Option (Nat → T)) (a : Option (Tensor T)) (h : ¬ Full shape) :
    update e f z (newVariable e shape init) (.node a) = .abort := by
  have ht : Tensor.new e shape = ⟨none, [], shape⟩ := by simp [Tensor.new, h, Shape.isFullyDefined_iff]
  cases a with
  | none => rfl
  | some a =>
    simp only [update, newVariable, ht]
    have hr : rawOf (⟨none, [], shape⟩ : Tensor T) = .abort := by simp [rawOf, isAlloc, Shape.isFullyDefined, Outcome.assert]
    unfold assignTensor
    rw [hr]
    by_cases hc : a.nElems = Shape.nElems (⟨none, [], shape⟩ : Tensor T).getShape
    · rw [decide_eq_true hc]; rfl
    · rw [decide_eq_false hc]; rfl

example : update exEnv (· + ·) true (newVariable exEnv [2, 0] none) (.const []) = .abort ∧
    update exEnv (· + ·) true (newVariable exEnv [2, 0] none) (.const [0]) = .ok (newVariable exEnv [2, 0] none) := ⟨rfl, rfl⟩

example : ∃ l, init0 exEnv (newVariable exEnv [2] (some fun i => i + 1)) = .ok l ∧ l.data.raw = some [1, 2] ∧
    (∃ l', assignAdd exEnv l (.const [10, 20, 30]) = .ok l' ∧ l'.data.raw = some [11, 22] ∧ l'.eval.isSome = true) ∧
    assignAdd exEnv l (.const [10]) = .abort ∧ (∃ l', assignAdd exEnv l (.const [0]) = .ok l') :=
  ⟨_, rfl, rfl, ⟨_, rfl, rfl, rfl⟩, rfl, ⟨_, rfl⟩⟩

/-! ## C43 -/

/-- States of a placeholder that has only been assigned vectors. -/
def PInv (l : Leaf T) : Prop :=
  (∃ s, l.data = ⟨none, [], s⟩ ∧ ¬ Full s ∧ l.isInit = false) ∨ (∃ buf, l.data.raw = some buf ∧ l.data.WF)

theorem placeholder_inv (e : Env T) (hmem : ∀ n, e.fits n = true) (s : Shape) : PInv (placeholder e s) := by
  by_cases hf : Full s
  · right
    have ht : Tensor.new e s = ⟨some ((List.range s.nElems).map e.junk), s, s⟩ := by
      simp [Tensor.new, (Shape.isFullyDefined_iff _).2 hf, allocBuf, hmem]
    exact ⟨_, by simp [placeholder, ht]; rfl, new_wf e s⟩
  · left
    exact ⟨s, by simp [placeholder, Tensor.new, Shape.isFullyDefined_iff, hf], hf, rfl⟩

/-- One assignment in terms of the current shape (the allocated one if there is data, else the declared one):
the data is accepted exactly when it fills that shape, otherwise the call aborts.  After acceptance the
placeholder is initialised and evaluates to exactly the data, in a fully defined shape that refines the
previous one (and is the previous one if that was fully defined). -/
theorem assign_step (e : Env T) (hmem : ∀ n, e.fits n = true) (l : Leaf T) (hl : PInv l) (d : List T) (hd : d ≠ []) :
    (¬ Fills l.data.getShape d.length → assignPlaceholder e l d = .abort) ∧
    (Fills l.data.getShape d.length → ∃ s, Full s ∧ vol s = d.length ∧ (l.data.getShape ≠ [] → Refines s l.data.getShape) ∧
      (∀ buf, l.data.raw = some buf → s = l.data.alloc) ∧
      assignPlaceholder e l d = .ok ⟨⟨some d, s, l.data.allowed⟩, true, l.init⟩) := by
  have hpos : 0 < d.length := by cases d; exact absurd rfl hd; simp
  rcases hl with ⟨s, hs, hnf, hi⟩ | ⟨buf, hb, hw⟩
  · have hal : l.data.isAlloc = false := by rw [hs]; simp [isAlloc]
    have hg : l.data.getShape = l.data.allowed := by simp [getShape, hal]
    have hall : l.data.allowed = s := by rw [hs]
    rw [hg, hall]
    have hfill : Fills s d.length ↔ ∃ s', l.data.guessShape d.length = .ok (some s') := by
      by_cases hne : s = []
      · constructor
        · intro _; rw [hs]; exact ⟨[d.length], by simp [guessShape, hne, Shape.isFullyDefined, Shape.isPartDefined]⟩
        · intro _; exact .inl ⟨hne, hpos⟩
      · rw [c10_guess_complete l.data d.length hpos (by rw [hall]; exact hne)]
        rw [hall]
        constructor
        · rintro (h | ⟨s', h1, h2, h3⟩)
          · exact absurd h.1 hne
          · exact ⟨s', h1, h2, by rw [Shape.nElems_eq h1.1]; exact h3⟩
        · rintro ⟨s', h1, h2, h3⟩
          exact .inr ⟨s', h1, h2, by rw [← Shape.nElems_eq h1.1]; exact h3⟩
    rw [hfill, ← c10_agrees_with_compat l.data d.length hal]
    refine ⟨fun h => ?_, fun h => ?_⟩
    · unfold assignPlaceholder
      rw [Bool.not_eq_true] at h
      rw [h]; rfl
    · have h' := (c10_agrees_with_compat l.data d.length hal).1 h
      obtain ⟨s', hs'⟩ := h'
      obtain ⟨r, hr, hsound⟩ := c10_guess_sound l.data d.length hpos
      rw [hs'] at hr; injection hr with hr
      obtain ⟨g1, g2, g3, g4⟩ := hsound s' hr.symm
      have hvol : vol s' = d.length := by rw [← Shape.nElems_eq g1.1]; exact g2
      refine ⟨s', g1, hvol, (by rw [hall] at g4; exact g4), (fun b hb => by rw [hs] at hb; cases hb), ?_⟩
      unfold assignPlaceholder placeAlloc
      rw [h, Outcome.assert_true, Outcome.ok_bind, if_neg (by simp [hal]), hs']
      have hallo : l.data.allocateShape e s' = .ok (⟨some ((List.range s'.nElems).map e.junk), s', s⟩, true) := by
        rw [hall] at g3
        rw [hs]
        simp [allocateShape, isAlloc, g3, (Shape.isFullyDefined_iff _).2 g1, allocBuf, hmem]
      simp only [Outcome.ok_bind, hallo]
      have hw : (⟨some ((List.range s'.nElems).map e.junk), s', s⟩ : Tensor T).WF := by
        intro b hb
        simp only [Option.some.injEq] at hb
        subst hb
        exact ⟨g1, by simp [Shape.nElems_eq g1.1]⟩
      rw [assignVec_eq second hw rfl, if_pos (by simp [g2])]
      simp only [Outcome.ok_bind]
      rw [zipWith_second _ _ (by simp [g2])]
  · obtain ⟨hal, hg, hge, hn⟩ := getShape_full hw hb
    have hfull := (hw buf hb).1
    have hlen := (hw buf hb).2
    rw [hg]
    have hcomp : l.data.isCompatibleWithData d.length = decide (d.length = buf.length) := by
      unfold isCompatibleWithData
      simp only [hal, if_true, (Shape.isFullyDefined_iff _).2 hfull]
      rw [← hg, hge]
      by_cases h : d.length = buf.length <;> simp [h]
    have hfill : Fills l.data.alloc d.length ↔ d.length = buf.length := by
      constructor
      · rintro (h | ⟨s', h1, h2, h3⟩)
        · exact absurd h.1 hfull.1
        · have : s' = l.data.alloc := by
            apply List.ext_getElem h2.1
            intro i hi hi'
            have := h2.2 i hi'
            rw [getD_lt _ _ _ hi, getD_lt _ _ _ hi'] at this
            rcases this with h | h
            · have := hfull.2 _ (List.getElem_mem hi'); omega
            · exact h
          rw [← h3, this, hlen]
      · intro h; exact .inr ⟨_, hfull, ⟨rfl, fun i _ => .inr rfl⟩, by rw [h, hlen]⟩
    rw [hfill]
    refine ⟨fun h => ?_, fun h => ?_⟩
    · unfold assignPlaceholder
      rw [hcomp, decide_eq_false h]; rfl
    · refine ⟨l.data.alloc, hfull, by rw [h, hlen], fun _ => ⟨rfl, fun i _ => .inr rfl⟩, fun _ _ => rfl, ?_⟩
      unfold assignPlaceholder placeAlloc
      rw [hcomp, decide_eq_true h, Outcome.assert_true, Outcome.ok_bind, if_pos hal, Outcome.ok_bind, assignVec_eq second hw hb,
        if_pos (by omega)]
      simp only [Outcome.ok_bind]
      rw [zipWith_second _ _ (by omega)]

theorem assigned_inv {d : List T} {s a : Shape} {i : Option (Nat → T)} (h1 : Full s) (h2 : vol s = d.length) :
    PInv (⟨⟨some d, s, a⟩, true, i⟩ : Leaf T) :=
  .inr ⟨d, rfl, fun b hb => by simp only [Option.some.injEq] at hb; subst hb; exact ⟨h1, h2.symm⟩⟩

theorem assign_empty (e : Env T) (l : Leaf T) (hl : PInv l) : assignPlaceholder e l [] = .abort := by
  unfold assignPlaceholder
  rcases hl with ⟨s, hs, hnf, hi⟩ | ⟨buf, hb, hw⟩
  · have hal : l.data.isAlloc = false := by rw [hs]; simp [isAlloc]
    have hr : rawOf l.data = .abort := by simp [rawOf, hal, Outcome.assert]
    cases hc : l.data.isCompatibleWithData ([] : List T).length with
    | false => rfl
    | true =>
      rw [Outcome.assert_true, Outcome.ok_bind]
      obtain ⟨s', hs'⟩ := (c10_agrees_with_compat l.data ([] : List T).length hal).1 hc
      have hff : Shape.isFullyDefined s = false := by
        rw [Bool.eq_false_iff]; intro hh; exact hnf ((Shape.isFullyDefined_iff _).1 hh)
      have hnot : Shape.isFullyDefined s' = false := by
        unfold guessShape at hs'
        rw [hs] at hs'
        by_cases hne : s = []
        · subst hne
          simp [Shape.isFullyDefined, Shape.isPartDefined] at hs'
          subst hs'; rfl
        · simp only [hff, Bool.false_eq_true, if_false, (Shape.isPartDefined_iff _).2 hne, if_true] at hs'
          have hk := (guessLoop_fst s 0 s.length 1)
          have hpos := Shape.vol_pos (ones_pos s)
          obtain ⟨j, h1, h2, h3, h4, _⟩ := guess_part s hne hnf 1 (by omega)
          generalize hg : guessLoop s 0 s.length 1 = g at hk h4 hs'
          obtain ⟨my, f, known⟩ := g
          simp only [Nat.one_mul] at hk h4
          obtain ⟨rfl, rfl⟩ := hk
          subst h4
          simp [hpos, Outcome.write, ones_length, h1] at hs'
          subst hs'
          rw [Bool.eq_false_iff]
          intro hh
          have := ((Shape.isFullyDefined_iff _).1 hh).2 0 (by
            rw [List.mem_iff_getElem]
            exact ⟨f, by simp [ones_length, h1], by simp⟩)
          omega
      have hallo : l.data.allocateShape e s' = .ok (l.data, false) := by
        simp [allocateShape, hal, hnot]
      unfold placeAlloc
      rw [if_neg (by simp [hal]), hs']
      simp only [Outcome.ok_bind, hallo]
      unfold assignVec combineAt
      rw [hr]
      by_cases hcc : Shape.nElems l.data.getShape ≤ ([] : List T).length
      · rw [decide_eq_true hcc]; rfl
      · rw [decide_eq_false hcc]; rfl
  · obtain ⟨hal, hg, hge, hn⟩ := getShape_full hw hb
    have hfull := (hw buf hb).1
    have hpos := Shape.vol_pos hfull.2
    have hlen := (hw buf hb).2
    have hcomp : l.data.isCompatibleWithData ([] : List T).length = false := by
      unfold isCompatibleWithData
      simp only [hal, if_true, (Shape.isFullyDefined_iff _).2 hfull]
      rw [← hg, hge]
      simp; omega
    rw [hcomp]; rfl

theorem not_fills_zero (s : Shape) : ¬ Fills s 0 := by
  rintro (h | ⟨s', h1, _, h3⟩)
  · omega
  · have := Shape.vol_pos h1.2; omega

/-- `assign_step` without the condition that there is data: no data fills no shape. -/
theorem assign_step_any (e : Env T) (hmem : ∀ n, e.fits n = true) (l : Leaf T) (hl : PInv l) (d : List T) :
    (¬ Fills l.data.getShape d.length → assignPlaceholder e l d = .abort) ∧
    (Fills l.data.getShape d.length → ∃ s, Full s ∧ vol s = d.length ∧ (l.data.getShape ≠ [] → Refines s l.data.getShape) ∧
      (∀ buf, l.data.raw = some buf → s = l.data.alloc) ∧
      assignPlaceholder e l d = .ok ⟨⟨some d, s, l.data.allowed⟩, true, l.init⟩) := by
  by_cases hd : d = []
  · subst hd
    exact ⟨fun _ => assign_empty e l hl, fun h => absurd h (not_fills_zero _)⟩
  · exact assign_step e hmem l hl d hd

/-- First assignment to a new placeholder. -/
theorem c43_first (e : Env T) (hmem : ∀ n, e.fits n = true) (s : Shape) (d : List T) :
    (¬ Fills s d.length → assignPlaceholder e (placeholder e s) d = .abort) ∧
    (Fills s d.length → ∃ l, assignPlaceholder e (placeholder e s) d = .ok l ∧ l.eval = some l.data ∧
      l.data.raw = some d ∧ Full l.data.alloc ∧ vol l.data.alloc = d.length ∧ (s ≠ [] → Refines l.data.alloc s)) := by
  have hg : (placeholder e s).data.getShape = s := by
    by_cases hf : Full s
    · simp [placeholder, Tensor.new, (Shape.isFullyDefined_iff _).2 hf, allocBuf, hmem, getShape, isAlloc]
    · simp [placeholder, Tensor.new, Shape.isFullyDefined_iff, hf, getShape, isAlloc]
  have := assign_step_any e hmem (placeholder e s) (placeholder_inv e hmem s) d
  rw [hg] at this
  refine ⟨this.1, fun h => ?_⟩
  obtain ⟨s', h1, h2, h3, _, h5⟩ := this.2 h
  exact ⟨_, h5, rfl, rfl, h1, h2, h3⟩

theorem assignAll_fixed (e : Env T) (hmem : ∀ n, e.fits n = true) (ds : List (List T)) :
    ∀ (l : Leaf T) (d0 : List T), l.data.raw = some d0 → l.data.WF → l.isInit = true →
      ((∃ d ∈ ds, d.length ≠ d0.length) → assignAll e l ds = .abort) ∧
      ((∀ d ∈ ds, d.length = d0.length) →
        assignAll e l ds = .ok ⟨⟨some ((d0 :: ds).getLast (by simp)), l.data.alloc, l.data.allowed⟩, true, l.init⟩) := by
  induction ds with
  | nil =>
    intro l d0 h1 _ h3
    refine ⟨by rintro ⟨d, h, _⟩; simp at h, fun _ => ?_⟩
    obtain ⟨⟨raw, al, alw⟩, i, ini⟩ := l
    simp only at h1 h3
    subst h1 h3
    rfl
  | cons d ds ih =>
    intro l d0 h1 hw h3
    have hfull := (hw d0 h1).1
    have hlen := (hw d0 h1).2
    have hg := (getShape_full hw h1).2.1
    obtain ⟨s1, s2⟩ := assign_step_any e hmem l (.inr ⟨d0, h1, hw⟩) d
    by_cases hdl : d.length = d0.length
    · have hfill : Fills l.data.getShape d.length := by
        rw [hg]; exact .inr ⟨_, hfull, ⟨rfl, fun i _ => .inr rfl⟩, by rw [hdl, hlen]⟩
      obtain ⟨s', g1, g2, g3, g4, g5⟩ := s2 hfill
      have hs' := g4 d0 h1
      subst hs'
      have hw' : (⟨⟨some d, l.data.alloc, l.data.allowed⟩, true, l.init⟩ : Leaf T).data.WF := by
        intro b hb; simp only [Option.some.injEq] at hb; subst hb; exact ⟨g1, g2.symm⟩
      obtain ⟨k1, k2⟩ := ih _ d rfl hw' rfl
      simp only [assignAll, g5, Outcome.ok_bind]
      refine ⟨?_, ?_⟩
      · rintro ⟨d', hd', hne⟩
        apply k1
        rcases List.mem_cons.1 hd' with h | h
        · subst h; exact absurd hdl hne
        · exact ⟨d', h, by rw [hdl]; exact hne⟩
      · intro hall
        rw [k2 (fun d' h => by rw [hdl]; exact hall d' (by simp [h])), List.getLast_cons (a := d0) (l := d :: ds) (by simp)]
    · have hnf : ¬ Fills l.data.getShape d.length := by
        rw [hg]
        rintro (h | ⟨s', q1, q2, q3⟩)
        · exact absurd h.1 hfull.1
        · have : s' = l.data.alloc := by
            apply List.ext_getElem q2.1
            intro i hi hi'
            have := q2.2 i hi'
            rw [getD_lt _ _ _ hi, getD_lt _ _ _ hi'] at this
            rcases this with h | h
            · have := hfull.2 _ (List.getElem_mem hi'); omega
            · exact h
          rw [this, ← hlen] at q3
          exact hdl q3.symm
      refine ⟨fun _ => ?_, fun h => absurd (h d (by simp)) hdl⟩
      simp only [assignAll, s1 hnf]; rfl

/-- Every sequence of assignments of vectors, possibly empty, to a new placeholder: it runs to the end exactly when the
first vector fills the declared shape and all later ones have the length of the first; otherwise the call at
fault aborts.  At the end the placeholder evaluates to the last vector in the shape fixed by the first. -/
theorem c43_history (e : Env T) (hmem : ∀ n, e.fits n = true) (s : Shape) (d : List T) (ds : List (List T)) :
    (¬ (Fills s d.length ∧ ∀ x ∈ ds, x.length = d.length) → assignAll e (placeholder e s) (d :: ds) = .abort) ∧
    (Fills s d.length ∧ (∀ x ∈ ds, x.length = d.length) → ∃ l l₁, assignAll e (placeholder e s) (d :: ds) = .ok l ∧
      assignAll e (placeholder e s) [d] = .ok l₁ ∧ l.data.alloc = l₁.data.alloc ∧
      l.eval = some l.data ∧ l.data.raw = (d :: ds).getLast? ∧ Full l.data.alloc) := by
  obtain ⟨f1, f2⟩ := c43_first e hmem s d
  by_cases hf : Fills s d.length
  · obtain ⟨l, g1, g2, g3, g4, g5, _⟩ := f2 hf
    have hw : l.data.WF := by
      intro b hb; rw [g3] at hb; injection hb with hb; subst hb; exact ⟨g4, g5.symm⟩
    have hi : l.isInit = true := by
      unfold Leaf.eval at g2
      by_cases h : l.isInit = true
      · exact h
      · rw [if_neg h] at g2; cases g2
    obtain ⟨k1, k2⟩ := assignAll_fixed e hmem ds l d g3 hw hi
    simp only [assignAll, g1, Outcome.ok_bind]
    refine ⟨fun h => k1 ?_, fun h => ?_⟩
    · apply Classical.byContradiction
      intro hcon
      apply h
      refine ⟨hf, fun x hx => Classical.byContradiction fun hxl => hcon ⟨x, hx, hxl⟩⟩
    · refine ⟨_, _, k2 h.2, rfl, rfl, rfl, ?_, g4⟩
      rw [List.getLast?_eq_some_getLast (by simp)]
  · refine ⟨fun _ => ?_, fun h => absurd h.1 hf⟩
    simp only [assignAll, f1 hf]; rfl

example : ∃ l, assignAll exEnv (placeholder exEnv [2, 0]) [[1, 2, 3, 4], [5, 6, 7, 8]] = .ok l ∧
    l.data.raw = some [5, 6, 7, 8] ∧ l.data.alloc = [2, 2] := ⟨_, rfl, rfl, rfl⟩
example : assignAll exEnv (placeholder exEnv [2, 0]) [[1, 2, 3, 4], [5, 6]] = .abort := rfl
example : Fills [2, 0] 4 := .inr ⟨[2, 2], by decide, ⟨rfl, by
  intro i hi
  match i, hi with
  | 0, _ => right; rfl
  | 1, _ => left; rfl⟩, rfl⟩
example : ¬ Fills [3] 4 := by
  rintro (⟨h, _⟩ | ⟨s', h1, h2, h3⟩)
  · cases h
  · match s', h2.1 with
    | [a], _ =>
      have := h2.2 0 (by simp)
      simp [vol] at this h3
      omega

/-- Negative: assigning no data, to any placeholder that has only been assigned vectors, does not raise the documented
error: it aborts. -/
theorem c43_empty_aborts (e : Env T) (hmem : ∀ n, e.fits n = true) (s : Shape) (ds : List (List T)) (l : Leaf T)
    (h : assignAll e (placeholder e s) ds = .ok l) : assignPlaceholder e l [] = .abort := by
  have key : ∀ (ds : List (List T)) (l0 l : Leaf T), PInv l0 → assignAll e l0 ds = .ok l → PInv l := by
    intro ds
    induction ds with
    | nil => intro l0 l h1 h2; simp only [assignAll] at h2; injection h2 with h2; exact h2 ▸ h1
    | cons d ds ih =>
      intro l0 l h1 h2
      simp only [assignAll, Outcome.bind_eq_ok] at h2
      obtain ⟨l1, q1, q2⟩ := h2
      obtain ⟨k1, k2⟩ := assign_step_any e hmem l0 h1 d
      by_cases hf : Fills l0.data.getShape d.length
      · obtain ⟨s', g1, g2, _, _, g5⟩ := k2 hf
        rw [g5] at q1; injection q1 with q1; subst q1
        exact ih _ _ (assigned_inv g1 g2) q2
      · rw [k1 hf] at q1; cases q1
  exact assign_empty e l (key ds _ l (placeholder_inv e hmem s) h)

example : assignPlaceholder exEnv (placeholder exEnv [2, 0]) [] = .abort := rfl

/-! ## C55 -/

/-- `initialize()` on a variable that holds data: every element becomes what the initializer yields, the variable
is initialised and evaluates to it, its shape is unchanged. -/
theorem c55_initialize_allocated (e : Env T) (l : Leaf T) (g : Nat → T) (buf : List T) (hg : l.init = some g)
    (hw : l.data.WF) (hb : l.data.raw = some buf) :
    init0 e l = .ok ⟨⟨some ((List.range buf.length).map g), l.data.alloc, l.data.allowed⟩, true, l.init⟩ := by
  simp only [init0, hg, initWith]
  rw [if_pos (getShape_full hw hb).1, fillWith_eq hw hb]; rfl

/-- `initialize()` on a new variable: works exactly when its declared shape is fully defined, otherwise throws;
without an initializer it aborts. -/
theorem c55_initialize_new (e : Env T) (s : Shape) (g : Nat → T) (hmem : ∀ n, e.fits n = true) :
    init0 e (newVariable e s none) = .abort ∧
    (Full s → init0 e (newVariable e s (some g)) =
      .ok ⟨⟨some ((List.range (vol s)).map g), s, s⟩, true, some g⟩) ∧
    (¬ Full s → init0 e (newVariable e s (some g)) = .throw .runtimeError) := by
  refine ⟨rfl, fun hf => ?_, fun hf => ?_⟩
  · have ht : Tensor.new e s = ⟨some ((List.range s.nElems).map e.junk), s, s⟩ := by
      simp [Tensor.new, (Shape.isFullyDefined_iff _).2 hf, allocBuf, hmem]
    rw [c55_initialize_allocated e (newVariable e s (some g)) g ((List.range s.nElems).map e.junk) rfl
      (new_wf e s) (by simp [newVariable, ht])]
    simp only [newVariable, ht, List.length_map, List.length_range, Shape.nElems_eq hf.1]
  · have ht : Tensor.new e s = ⟨none, [], s⟩ := by simp [Tensor.new, hf, Shape.isFullyDefined_iff]
    have hff : Shape.isFullyDefined s = false := by
      rw [Bool.eq_false_iff]; intro hh; exact hf ((Shape.isFullyDefined_iff _).1 hh)
    have hff' : Shape.isFullyDefined [] = false := rfl
    simp [init0, newVariable, initWith, ht, isAlloc, allocate, allocateShape, hff, hff']

/-- `initialize(shape)` on a variable without data: works exactly when the given shape is fully defined and
compatible with the declared one, which it then has; otherwise throws. -/
theorem c55_initialize_shape (e : Env T) (l : Leaf T) (g : Nat → T) (s : Shape) (hg : l.init = some g)
    (hb : l.data.raw = none) (hmem : ∀ n, e.fits n = true) :
    initializeShape e l s =
      if Full s ∧ s.isCompatibleWith l.data.allowed = true then .ok ⟨⟨some ((List.range (vol s)).map g), s, l.data.allowed⟩, true, l.init⟩
      else .throw .runtimeError := by
  have hal : l.data.isAlloc = false := by simp [isAlloc, hb]
  simp only [initializeShape, hg]
  by_cases h : Full s ∧ s.isCompatibleWith l.data.allowed = true
  · have hallo : l.data.allocateShape e s = .ok (⟨some ((List.range s.nElems).map e.junk), s, l.data.allowed⟩, true) := by
      simp [allocateShape, hal, h.2, (Shape.isFullyDefined_iff _).2 h.1, allocBuf, hmem]
    have hw : (⟨some ((List.range s.nElems).map e.junk), s, l.data.allowed⟩ : Tensor T).WF := by
      intro b hb
      simp only [Option.some.injEq] at hb
      subst hb
      exact ⟨h.1, by simp [Shape.nElems_eq h.1.1]⟩
    rw [if_pos h, hallo]
    simp only [Outcome.ok_bind, if_true]
    rw [fillWith_eq hw rfl]
    simp [Shape.nElems_eq h.1.1]
  · have hallo : l.data.allocateShape e s = .ok (l.data, false) := by
      have : (s.isCompatibleWith l.data.allowed && Shape.isFullyDefined s) = false := by
        rw [Bool.eq_false_iff]; intro hh
        rw [Bool.and_eq_true] at hh
        exact h ⟨(Shape.isFullyDefined_iff _).1 hh.2, hh.1⟩
      simp [allocateShape, hal, this]
    rw [if_neg h, hallo]; rfl

/-- Negative: `initialize(shape)` throws on a variable that already holds data of a compatible shape, so a
variable cannot be initialised twice with the same shape. -/
theorem c55_reinitialize_throws (e : Env T) (l : Leaf T) (g : Nat → T) (s : Shape) (buf : List T) (hg : l.init = some g)
    (hw : l.data.WF) (hb : l.data.raw = some buf) (hc : s.isCompatibleWith l.data.alloc = true) :
    initializeShape e l s = .throw .runtimeError := by
  have hal := (getShape_full hw hb).1
  simp [initializeShape, hg, allocateShape, hal, hc]

/-- After any history of initialisations, updates and loads that returns normally: an initialised variable holds a
buffer with exactly as many elements as its fully defined shape. -/
theorem c55_history [DecidableEq T] (r : ByteRep T) (e : Env T) (hmem : ∀ n, e.fits n = true) (s : Shape) (init : Option (Nat → T))
    (ops : List (VOp T)) (l : Leaf T) (h : vrun r e (newVariable e s init) ops = .ok l) :
    ∀ t, l.eval = some t → ∃ buf, t.raw = some buf ∧ Full t.alloc ∧ buf.length = vol t.alloc := by
  have key : ∀ (ops : List (VOp T)) (l0 l : Leaf T), l0.data.WF → (l0.isInit = true → ∃ b, l0.data.raw = some b) →
      vrun r e l0 ops = .ok l → l.data.WF ∧ (l.isInit = true → ∃ b, l.data.raw = some b) := by
    have fillc : ∀ (t t' : Tensor T) g, t.WF → (∃ b, t.raw = some b) → fillWith t g = .ok t' → t'.WF ∧ ∃ b, t'.raw = some b := by
      rintro t t' g hw ⟨b, hb⟩ h
      rw [fillWith_eq hw hb] at h
      injection h with h; subst h
      exact ⟨zip_wf hw hb (by simp), _, rfl⟩
    have alc : ∀ (t : Tensor T) sh t', t.WF → t.allocateShape e sh = .ok (t', true) → t'.WF ∧ ∃ b, t'.raw = some b := by
      intro t sh t' hw h
      refine ⟨allocateShape_wf e t sh hw h, ?_⟩
      unfold allocateShape at h
      split at h
      · simp at h
      · split at h
        · split at h
          · split at h
            · simp only [Outcome.bind_eq_ok] at h
              obtain ⟨temp', _, h⟩ := h
              simp only [Outcome.pure_eq, Outcome.ok.injEq, Prod.mk.injEq] at h
              exact ⟨temp', by rw [← h.1]⟩
            · cases h
          · injection h with h; simp only [Prod.mk.injEq] at h
            rw [← h.1]; simp [allocBuf, hmem]
        · simp at h
    have tens : ∀ (t t' : Tensor T) f (src : List T), t.WF → combineAt f t.getShape.nElems t src = .ok t' →
        t'.WF ∧ (t.raw.isSome = t'.raw.isSome) := by
      intro t t' f src hw h
      cases hb : t.raw with
      | none =>
        simp [combineAt, rawOf, isAlloc, hb, Outcome.assert] at h
      | some buf =>
        simp only [combineAt, rawOf_eq hw hb, Outcome.ok_bind, Outcome.bind_eq_ok] at h
        obtain ⟨b', h1, h⟩ := h
        injection h with h; subst h
        refine ⟨zip_wf hw hb ?_, rfl⟩
        rw [(getShape_full hw hb).2.2.1] at h1
        exact combine_length f src _ _ _ _ h1
    intro ops
    induction ops with
    | nil => intro l0 l h1 h2 h; simp only [vrun] at h; injection h with h; subst h; exact ⟨h1, h2⟩
    | cons op ops ih =>
      intro l0 l h1 h2 h
      simp only [vrun, Outcome.bind_eq_ok] at h
      obtain ⟨l1, hs, h⟩ := h
      have step : l1.data.WF ∧ (l1.isInit = true → ∃ b, l1.data.raw = some b) := by
        cases op with
        | «initialize» =>
          simp only [vstep, init0] at hs
          split at hs
          · cases hs
          · rename_i g _
            simp only [initWith] at hs
            by_cases ha : l0.data.isAlloc = true
            · rw [if_pos ha, Outcome.bind_eq_ok] at hs
              obtain ⟨t, q1, q2⟩ := hs
              injection q2 with q2; subst q2
              have := fillc _ _ g h1 (h1.isAlloc_iff.1 ha) q1
              exact ⟨this.1, fun _ => this.2⟩
            · rw [if_neg ha, Outcome.bind_eq_ok] at hs
              obtain ⟨⟨t, b⟩, q1, q2⟩ := hs
              cases b with
              | false => simp at q2
              | true =>
                simp only [if_true, Outcome.bind_eq_ok] at q2
                obtain ⟨t', q3, q2⟩ := q2
                injection q2 with q2; subst q2
                unfold Tensor.allocate at q1
                rw [if_neg ha] at q1
                have hx : t.WF ∧ ∃ b, t.raw = some b := by
                  split at q1
                  · exact alc _ _ _ h1 q1
                  · exact alc _ _ _ h1 q1
                have := fillc _ _ g hx.1 hx.2 q3
                exact ⟨this.1, fun _ => this.2⟩
        | initializeShape sh =>
          simp only [vstep, initializeShape] at hs
          split at hs
          · cases hs
          · rename_i g _
            rw [Outcome.bind_eq_ok] at hs
            obtain ⟨⟨t, b⟩, q1, q2⟩ := hs
            cases b with
            | false => simp at q2
            | true =>
              simp only [if_true, Outcome.bind_eq_ok] at q2
              obtain ⟨t', q3, q2⟩ := q2
              injection q2 with q2; subst q2
              have hx := alc _ _ _ h1 q1
              have := fillc _ _ g hx.1 hx.2 q3
              exact ⟨this.1, fun _ => this.2⟩
        | update f z a =>
          simp only [vstep] at hs
          have hi := c42_keeps_init e f z l0 l1 a hs
          have hx : l1.data.WF ∧ (l0.data.raw.isSome = l1.data.raw.isSome) := by
            cases a with
            | const d =>
              simp only [update] at hs
              split at hs
              · injection hs with hs; subst hs; exact ⟨h1, rfl⟩
              · simp only [assignVec, Outcome.bind_eq_ok] at hs
                obtain ⟨t, ⟨_, _, q1⟩, q2⟩ := hs
                injection q2 with q2; subst q2
                exact tens _ _ f d h1 q1
            | node t =>
              cases t with
              | none => simp only [update] at hs; cases hs
              | some a =>
                simp only [update, assignTensor, Outcome.bind_eq_ok] at hs
                obtain ⟨t, ⟨_, q0, q1⟩, q2⟩ := hs
                injection q2 with q2; subst q2
                have q0' : a.nElems = l0.data.getShape.nElems := by
                  apply Classical.byContradiction; intro hc
                  rw [decide_eq_false hc] at q0; cases q0
                obtain ⟨_, _, _, _, q1⟩ := q1
                rw [q0'] at q1; exact tens _ _ f _ h1 q1
          refine ⟨hx.1, fun hh => ?_⟩
          rw [hi.1] at hh
          have := h2 hh
          rw [← Option.isSome_iff_exists, ← hx.2, Option.isSome_iff_exists]
          exact this
        | readProto p =>
          simp only [vstep, Leaf.readProto, Outcome.bind_eq_ok] at hs
          obtain ⟨x, ⟨⟨t, b⟩, q1, q2⟩, q3⟩ := hs
          injection q2 with q2; subst q2
          injection q3 with q3; subst q3
          rcases fromProto_cases r e l0.data p h1 t b q1 with ⟨hb, ht, hw⟩ | ⟨hb, _, _, _, _, hw⟩
          · subst hb
            refine ⟨hw, fun hh => ?_⟩
            simp only [Bool.or_false] at hh
            have := h2 hh
            simp only [ht]
            exact this
          · refine ⟨hw, fun _ => ?_⟩
            subst hb
            unfold Tensor.fromProto at q1
            simp only [Bool.not_false, if_true, Outcome.bind_eq_ok] at q1
            obtain ⟨_, _, q1⟩ := q1
            split at q1
            · simp at q1
            · simp only [Bool.false_eq_true, if_false] at q1
              obtain ⟨t4, _, q1⟩ := Outcome.bind_eq_ok.1 q1
              split at q1
              · split at q1
                · simp only [Outcome.pure_eq, Outcome.ok.injEq, Prod.mk.injEq] at q1
                  rw [← q1.1]; exact ⟨_, rfl⟩
                · cases q1
              · cases q1
      exact ih l1 l step.1 step.2 h
  intro t ht
  obtain ⟨hw, hi⟩ := key ops (newVariable e s init) l (new_wf e s) (by intro h; simp [newVariable] at h) h
  unfold Leaf.eval at ht
  by_cases hl : l.isInit = true
  · rw [if_pos hl] at ht
    injection ht with ht; subst ht
    obtain ⟨b, hb⟩ := hi hl
    exact ⟨b, hb, hw b hb⟩
  · rw [if_neg hl] at ht; cases ht

example : ∃ l, vrun exRep exEnv (newVariable exEnv [2, 0] (some fun i => i)) [.initializeShape [2, 2], .update (· + ·) true (.const [1, 1, 1, 1]), .initializeShape [2, 3]] = .ok l ∧
    l.data.raw = some [0, 1, 2, 3, 4, 5] ∧ l.data.alloc = [2, 3] := ⟨_, rfl, rfl, rfl⟩
example : init0 exEnv (newVariable exEnv [2, 0] (some fun i => i)) = .throw .runtimeError := rfl
example : ∃ l, initializeShape exEnv (newVariable exEnv [2, 0] (some fun i => i)) [2, 2] = .ok l ∧
    initializeShape exEnv l [2, 2] = .throw .runtimeError := ⟨_, rfl, rfl⟩

end Verif.Props
