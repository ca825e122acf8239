import Verif.Spec.Tensor
import Verif.Model.Op
import Verif.Lemmas.Tensor
/-! Helper lemmas: forward passes. -/
namespace Verif
open Spec
namespace Op
variable {T : Type}

theorem holds_isAlloc {t : Tensor T} {s f} (h : Holds t s f) : t.isAlloc = true := by
  obtain ⟨buf, hb, _⟩ := h.data
  exact (Tensor.isAlloc_iff t).2 ⟨h.shape ▸ h.full, buf, hb⟩

theorem holds_getShape {t : Tensor T} {s f} (h : Holds t s f) : t.getShape = s := by
  simp [Tensor.getShape, holds_isAlloc h, h.shape]

theorem holds_getRaw {t : Tensor T} {s f} (h : Holds t s f) :
    getRaw t = .ok ((List.range (vol s)).map (fun i => f (coords s i))) := by
  obtain ⟨buf, hb, hl, hd⟩ := h.data
  unfold getRaw
  rw [holds_isAlloc h]
  simp only [Outcome.assert_true, Outcome.ok_bind, hb, Outcome.ok.injEq]
  apply List.ext_getElem (by simp [hl])
  intro i h1 h2
  simp only [List.getElem_map, List.getElem_range]
  have h3 := hd (coords s i) (Shape.coords_inRange h.full.2 i)
  rw [Shape.flat_coords h.full.2 (by omega)] at h3
  rw [List.getElem?_eq_getElem h1] at h3
  exact Option.some.inj h3

/-- The buffer a tensor holding `f` in shape `s` has. -/
def bufOf (s : List Nat) (f : List Nat → T) : List T := (List.range (vol s)).map (fun i => f (coords s i))

@[simp] theorem bufOf_length (s : List Nat) (f : List Nat → T) : (bufOf s f).length = vol s := by
  simp [bufOf]

theorem read_bufOf {s : List Nat} (hs : ∀ d ∈ s, 0 < d) (f : List Nat → T) (i : Nat) (hi : i < vol s) :
    Outcome.read (bufOf s f) i = .ok (f (coords s i)) := by
  rw [Outcome.read_of_lt _ _ (by simpa using hi)]
  simp [bufOf]

theorem read_bufOf_flat {s c : List Nat} (f : List Nat → T) (h : InRange s c) :
    Outcome.read (bufOf s f) (flat s c) = .ok (f c) := by
  rw [Outcome.read_of_lt _ _ (by simpa using Shape.flat_lt h)]
  simp [bufOf, Shape.coords_flat h]

theorem holds_of_buf {s : List Nat} (hs : Full s) (f : List Nat → T) (allowed : Shape) :
    Holds (⟨some (bufOf s f), s, allowed⟩ : Tensor T) s f := by
  refine ⟨hs, rfl, _, rfl, by simp, fun c hc => ?_⟩
  have := Shape.flat_lt hc
  rw [List.getElem?_eq_getElem (by simpa using this)]
  simp [bufOf, Shape.coords_flat hc]

/-- Every allocated well-formed tensor holds something. -/
theorem exists_holds [Inhabited T] {t : Tensor T} (hw : t.WF) (ha : t.isAlloc = true) :
    ∃ f, Holds t t.alloc f := by
  obtain ⟨hf, buf, hb⟩ := (Tensor.isAlloc_iff t).1 ha
  refine ⟨fun c => buf.getD (flat t.alloc c) default, hf, rfl, buf, hb, (hw buf hb).2, fun c hc => ?_⟩
  have := Shape.flat_lt hc
  have hl := (hw buf hb).2
  rw [getD_lt _ _ _ (by omega), List.getElem?_eq_getElem (by omega)]

theorem forM'_getRaw (ts : List (Tensor T × List Nat × (List Nat → T)))
    (h : ∀ x ∈ ts, Holds x.1 x.2.1 x.2.2) :
    Outcome.forM' (ts.map (·.1)) getRaw = .ok (ts.map (fun x => bufOf x.2.1 x.2.2)) := by
  induction ts with
  | nil => rfl
  | cons a as ih =>
    have h1 := holds_getRaw (h a (by simp))
    have h2 := ih (fun b hb => h b (by simp [hb]))
    simp only [List.map_cons, Outcome.forM', h1, h2, Outcome.ok_bind, Outcome.ok.injEq, bufOf]

theorem forM'_alloc (ts : List (Tensor T × List Nat × (List Nat → T)))
    (h : ∀ x ∈ ts, Holds x.1 x.2.1 x.2.2) :
    Outcome.forM' (ts.map (fun x => some x.1)) takeArg = .ok (ts.map (·.1)) := by
  induction ts with
  | nil => rfl
  | cons a as ih =>
    have h1 := holds_isAlloc (h a (by simp))
    have h2 := ih (fun b hb => h b (by simp [hb]))
    simp only [List.map_cons, Outcome.forM', takeArg, h1, h2, Outcome.ok_bind, Outcome.assert_true]

theorem map_getShape (ts : List (Tensor T × List Nat × (List Nat → T)))
    (h : ∀ x ∈ ts, Holds x.1 x.2.1 x.2.2) :
    (ts.map (·.1)).map Tensor.getShape = ts.map (·.2.1) := by
  rw [List.map_map]
  apply List.map_congr_left
  intro x hx
  exact holds_getShape (h x hx)

/-- A first forward pass: shape, fresh buffer, kernel. -/
theorem forwardPass_new (e : Env T) (shaper : Shaper) (f : TransferFunc T)
    (ts : List (Tensor T × List Nat × (List Nat → T))) (h : ∀ x ∈ ts, Holds x.1 x.2.1 x.2.2) :
    forwardPass e shaper f none (ts.map (fun x => some x.1)) = (do
      let s ← shaper (ts.map (·.2.1))
      Outcome.assert s.isFullyDefined
      transfer f (Tensor.new e s) (ts.map (·.1))) := by
  unfold forwardPass
  rw [forM'_alloc ts h]
  simp only [Outcome.ok_bind, map_getShape ts h, prepareOut]
  cases shaper (ts.map (·.2.1)) with
  | ok s =>
    simp only [Outcome.ok_bind]
    cases s.isFullyDefined <;> rfl
  | _ => rfl

theorem transfer_new (e : Env T) (f : TransferFunc T) (s : Shape) (hs : Full s)
    (hm : e.fits s.nElems = true)
    (ts : List (Tensor T × List Nat × (List Nat → T))) (h : ∀ x ∈ ts, Holds x.1 x.2.1 x.2.2) :
    transfer f (Tensor.new e s) (ts.map (·.1)) =
      (f ((List.range (vol s)).map e.junk) (ts.map (fun x => bufOf x.2.1 x.2.2)) s (ts.map (·.2.1)))
        >>= fun d => .ok ⟨some d, s, s⟩ := by
  have hnew : Tensor.new e s = ⟨some ((List.range (vol s)).map e.junk), s, s⟩ := by
    unfold Tensor.new
    rw [if_pos ((Shape.isFullyDefined_iff s).2 hs)]
    simp [Tensor.allocBuf, hm, ← Shape.nElems_eq hs.1]
  have hal : (⟨some ((List.range (vol s)).map e.junk), s, s⟩ : Tensor T).isAlloc = true :=
    (Tensor.isAlloc_iff _).2 ⟨hs, _, rfl⟩
  unfold transfer
  rw [hnew, map_getShape ts h, forM'_getRaw ts h]
  simp only [getRaw, hal, Outcome.assert_true, Outcome.ok_bind, Tensor.getShape, if_true, Outcome.pure_eq]

/-- The standard shape of a proof that an operator computes `g` in shape `out`. -/
theorem forwardPass_holds (e : Env T) (shaper : Shaper) (f : TransferFunc T)
    (ts : List (Tensor T × List Nat × (List Nat → T))) (h : ∀ x ∈ ts, Holds x.1 x.2.1 x.2.2)
    (out : Shape) (g : List Nat → T) (hshape : shaper (ts.map (·.2.1)) = .ok out) (hout : Full out)
    (hm : e.fits out.nElems = true)
    (hk : ∀ dest : List T, dest.length = vol out →
      f dest (ts.map (fun x => bufOf x.2.1 x.2.2)) out (ts.map (·.2.1)) = .ok (bufOf out g)) :
    ∃ t', forwardPass e shaper f none (ts.map (fun x => some x.1)) = .ok t' ∧ Holds t' out g := by
  rw [forwardPass_new e shaper f ts h, hshape]
  simp only [Outcome.ok_bind, (Shape.isFullyDefined_iff out).2 hout, Outcome.assert_true]
  rw [transfer_new e f out hout hm ts h, hk _ (by simp)]
  exact ⟨_, rfl, holds_of_buf hout g out⟩

/-- A kernel that fills the output coordinate by coordinate. -/
theorem fill_bufOf {out : Shape} (hout : Full out) (body : Nat → Outcome T) (g : List Nat → T)
    (dest : List T) (hd : dest.length = vol out)
    (hb : ∀ i, i < vol out → InRange out (coords out i) → body i = .ok (g (coords out i))) :
    Outcome.fill out.nElems body dest = .ok (bufOf out g) := by
  rw [Shape.nElems_eq hout.1]
  exact Outcome.fill_ok _ _ _ _ (fun j hj => hb j hj (Shape.coords_inRange hout.2 j)) hd

/-- A forward pass on allocated arguments, in terms of their buffers. -/
theorem forwardPass_raw (e : Env T) (shaper : Shaper) (f : TransferFunc T) (data : Option (Tensor T))
    (ts : List (Tensor T × List T)) (h : ∀ x ∈ ts, x.1.isAlloc = true ∧ x.1.raw = some x.2) :
    forwardPass e shaper f data (ts.map (fun x => some x.1)) =
      (shaper (ts.map (·.1.alloc)) >>= fun s => prepareOut e data s >>= fun d => getRaw d >>= fun dest =>
        f dest (ts.map (·.2)) d.getShape (ts.map (·.1.alloc)) >>= fun r =>
          .ok { d with raw := some r }) := by
  have h1 : Outcome.forM' (ts.map (fun x => some x.1)) takeArg = .ok (ts.map (·.1)) := by
    induction ts with
    | nil => rfl
    | cons a as ih =>
      have h1 := (h a (by simp)).1
      have h2 := ih (fun b hb => h b (by simp [hb]))
      simp only [List.map_cons, Outcome.forM', takeArg, h1, h2, Outcome.ok_bind, Outcome.assert_true]
  have h2 : Outcome.forM' (ts.map (·.1)) getRaw = .ok (ts.map (·.2)) := by
    induction ts with
    | nil => rfl
    | cons a as ih =>
      have h1 := (h a (by simp))
      have h2 := ih (fun b hb => h b (by simp [hb])) (by
        simp only [List.map_cons, Outcome.forM', takeArg, h1.1, Outcome.assert_true, Outcome.ok_bind] at *
        cases hh : Outcome.forM' (as.map (fun x => some x.1)) takeArg with
        | ok v => simp_all
        | _ => simp_all)
      simp only [List.map_cons, Outcome.forM', getRaw, h1.1, h1.2, h2, Outcome.ok_bind, Outcome.assert_true]
  have h3 : (ts.map (·.1)).map Tensor.getShape = ts.map (·.1.alloc) := by
    rw [List.map_map]
    apply List.map_congr_left
    intro x hx
    simp [Tensor.getShape, (h x hx).1]
  unfold forwardPass transfer
  rw [h1]
  simp only [Outcome.ok_bind, h3, h2, Outcome.pure_eq]

theorem new_eq (e : Env T) {s : Shape} (hs : Full s) (hm : e.fits s.nElems = true) :
    Tensor.new e s = ⟨some ((List.range (vol s)).map e.junk), s, s⟩ := by
  unfold Tensor.new
  rw [if_pos ((Shape.isFullyDefined_iff s).2 hs)]
  simp [Tensor.allocBuf, hm, ← Shape.nElems_eq hs.1]

theorem full_of_inRange {s c : List Nat} (hs : s ≠ []) (h : InRange s c) : Full s := by
  refine ⟨hs, fun d hd => ?_⟩
  obtain ⟨i, hi, rfl⟩ := List.getElem_of_mem hd
  have := h.2 i hi
  rw [getD_lt _ _ _ hi] at this
  omega

end Op
end Verif
