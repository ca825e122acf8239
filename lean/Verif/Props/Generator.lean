import Verif.Spec.Generator
import Verif.Props.Leaf
import Verif.Props.Shape
/-!
# C78: generators
-/
namespace Verif.Props
open Spec Gener
variable {σ T : Type}

theorem alike_iff {a b : Shape} (ha : Full a) (hb : Full b) : a.isCompatibleWith b = true ↔ Alike a b := c04_characterisation a b ha hb

theorem alike_vol {a b : Shape} (ha : Full a) (hb : Full b) (h : Alike a b) : vol a = vol b := by
  have := c04_same_count a b ha hb ((alike_iff ha hb).2 h)
  rwa [Shape.nElems_eq ha.1, Shape.nElems_eq hb.1] at this

/-- What a generator holds is determined by what it was shown. -/
theorem holds78_unique {h : List (σ × Status)} {c c' : Option (List Nat × σ)} (h1 : Holds78 h c) (h2 : Holds78 h c') : c = c' := by
  induction h1 generalizing c' with
  | start =>
    generalize hh : ([] : List (σ × Status)) = l at h2
    cases h2 with
    | start => rfl
    | _ => simp at hh
  | @bad h c g d _ hb ih =>
    generalize hh : h ++ [(g, d)] = l at h2
    cases h2 with
    | start => simp at hh
    | bad h3 _ => obtain ⟨rfl, h4⟩ := List.append_inj' hh rfl; exact ih h3
    | first h3 hg hf =>
      obtain ⟨rfl, h4⟩ := List.append_inj' hh rfl
      simp only [List.cons.injEq, Prod.mk.injEq, and_true] at h4; obtain ⟨rfl, rfl⟩ := h4
      rcases hb with hb | hb
      · rw [hb] at hg; cases hg
      · exact absurd hf hb
    | same h3 hg hf _ =>
      obtain ⟨rfl, h4⟩ := List.append_inj' hh rfl
      simp only [List.cons.injEq, Prod.mk.injEq, and_true] at h4; obtain ⟨rfl, rfl⟩ := h4
      rcases hb with hb | hb
      · rw [hb] at hg; cases hg
      · exact absurd hf hb
    | changed h3 hg hf _ =>
      obtain ⟨rfl, h4⟩ := List.append_inj' hh rfl
      simp only [List.cons.injEq, Prod.mk.injEq, and_true] at h4; obtain ⟨rfl, rfl⟩ := h4
      rcases hb with hb | hb
      · rw [hb] at hg; cases hg
      · exact absurd hf hb
  | @first h g d h0 hg hf ih =>
    generalize hh : h ++ [(g, d)] = l at h2
    cases h2 with
    | start => simp at hh
    | bad h3 hb =>
      obtain ⟨rfl, h4⟩ := List.append_inj' hh rfl
      simp only [List.cons.injEq, Prod.mk.injEq, and_true] at h4; obtain ⟨rfl, rfl⟩ := h4
      rcases hb with hb | hb
      · rw [hb] at hg; cases hg
      · exact absurd hf hb
    | first h3 _ _ =>
      obtain ⟨rfl, h4⟩ := List.append_inj' hh rfl
      simp only [List.cons.injEq, Prod.mk.injEq, and_true] at h4; obtain ⟨rfl, rfl⟩ := h4; rfl
    | same h3 _ _ _ => obtain ⟨rfl, h4⟩ := List.append_inj' hh rfl; cases ih h3
    | changed h3 _ _ _ => obtain ⟨rfl, h4⟩ := List.append_inj' hh rfl; cases ih h3
  | @same h s g₀ g d h0 hg hf ha ih =>
    generalize hh : h ++ [(g, d)] = l at h2
    cases h2 with
    | start => simp at hh
    | bad h3 hb =>
      obtain ⟨rfl, h4⟩ := List.append_inj' hh rfl
      simp only [List.cons.injEq, Prod.mk.injEq, and_true] at h4; obtain ⟨rfl, rfl⟩ := h4
      rcases hb with hb | hb
      · rw [hb] at hg; cases hg
      · exact absurd hf hb
    | first h3 _ _ => obtain ⟨rfl, h4⟩ := List.append_inj' hh rfl; cases ih h3
    | same h3 _ _ _ => obtain ⟨rfl, h4⟩ := List.append_inj' hh rfl; exact ih h3
    | changed h3 _ _ hn =>
      obtain ⟨rfl, h4⟩ := List.append_inj' hh rfl
      simp only [List.cons.injEq, Prod.mk.injEq, and_true] at h4; obtain ⟨rfl, rfl⟩ := h4
      have := ih h3
      simp only [Option.some.injEq, Prod.mk.injEq] at this
      rw [← this.1] at hn
      exact absurd ha hn
  | @changed h s g₀ g d h0 hg hf ha ih =>
    generalize hh : h ++ [(g, d)] = l at h2
    cases h2 with
    | start => simp at hh
    | bad h3 hb =>
      obtain ⟨rfl, h4⟩ := List.append_inj' hh rfl
      simp only [List.cons.injEq, Prod.mk.injEq, and_true] at h4; obtain ⟨rfl, rfl⟩ := h4
      rcases hb with hb | hb
      · rw [hb] at hg; cases hg
      · exact absurd hf hb
    | first h3 _ _ => obtain ⟨rfl, h4⟩ := List.append_inj' hh rfl; cases ih h3
    | same h3 _ _ hn =>
      obtain ⟨rfl, h4⟩ := List.append_inj' hh rfl
      simp only [List.cons.injEq, Prod.mk.injEq, and_true] at h4; obtain ⟨rfl, rfl⟩ := h4
      have := ih h3
      simp only [Option.some.injEq, Prod.mk.injEq] at this
      rw [← this.1] at hn
      exact absurd hn ha
    | changed h3 _ _ _ =>
      obtain ⟨rfl, h4⟩ := List.append_inj' hh rfl
      simp only [List.cons.injEq, Prod.mk.injEq, and_true] at h4; obtain ⟨rfl, rfl⟩ := h4; rfl

/-- The data of a generator that holds c. -/
def DataOf (i : Init σ T) (c : Option (List Nat × σ)) (data : Option (Tensor T)) : Prop :=
  (c = none ∧ data = none) ∨
  ∃ s g t, c = some (s, g) ∧ Full s ∧ data = some t ∧ t.raw = some ((List.range (vol s)).map (i g)) ∧ t.alloc = s

theorem DataOf.wf {i : Init σ T} {s : List Nat} {g : σ} {t : Tensor T} (hs : Full s) (hr : t.raw = some ((List.range (vol s)).map (i g))) (ha : t.alloc = s) : t.WF := by
  intro b hb
  rw [hr] at hb; cases hb
  rw [ha]
  exact ⟨hs, by simp⟩

theorem fill_new (e : Env T) (hm : ∀ n, e.fits n = true) (i : Init σ T) (g : σ) (s : Shape) (hs : Full s) :
    fillBy g (some i) (Tensor.new e s) = .ok ⟨some ((List.range (vol s)).map (i g)), s, s⟩ := by
  have ht : Tensor.new e s = ⟨some ((List.range s.nElems).map e.junk), s, s⟩ := by
    simp [Tensor.new, (Shape.isFullyDefined_iff _).2 hs, Tensor.allocBuf, hm]
  simp only [fillBy]
  rw [fillWith_eq (Tensor.new_wf e s) (by rw [ht])]
  simp [ht, Shape.nElems_eq hs.1]

theorem fill_reshaped (e : Env T) (hm : ∀ n, e.fits n = true) (i : Init σ T) (g g₀ : σ) (s s' : Shape) (hs : Full s) (hs' : Full s') (t : Tensor T)
    (hr : t.raw = some ((List.range (vol s)).map (i g₀))) (ha : t.alloc = s) (hn : ¬ Alike s s') :
    ∃ t1 t2 : Tensor T, t.setShape e s' = .ok t1 ∧ fillBy g (some i) t1 = .ok t2 ∧ t2.raw = some ((List.range (vol s')).map (i g)) ∧ t2.alloc = s' := by
  have hw := DataOf.wf hs hr ha
  have hal : t.isAlloc = true := (getShape_full hw hr).1
  have hc : s'.isCompatibleWith s = false := by
    rw [Bool.eq_false_iff]; intro h
    rw [c03_symm] at h
    exact hn ((alike_iff hs hs').1 h)
  obtain ⟨res, hres, hlen, _⟩ := c12_fit e.zero ((List.range s'.nElems).map e.junk) ((List.range (vol s)).map (i g₀)) s' s hs' hs (by simp) (by simp [Shape.nElems_eq hs.1])
  obtain ⟨raw, al, allowed⟩ := t
  simp only at hr ha
  subst hr ha
  have key : ∀ a : Shape, s'.isCompatibleWith a = true →
      Tensor.allocateShape e ⟨some ((List.range (vol al)).map (i g₀)), al, a⟩ s' = .ok (⟨some res, s', a⟩, true) := by
    intro a hca
    have hal' : (⟨some ((List.range (vol al)).map (i g₀)), al, a⟩ : Tensor T).isAlloc = true := by
      simp [Tensor.isAlloc, (Shape.isFullyDefined_iff _).2 hs]
    simp only [Tensor.allocateShape, hal', hc, hca, (Shape.isFullyDefined_iff _).2 hs', Tensor.allocBuf, hm]
    simp [hres]
  have hset : ∃ a, Tensor.setShape e ⟨some ((List.range (vol al)).map (i g₀)), al, allowed⟩ s' = .ok ⟨some res, s', a⟩ := by
    unfold Tensor.setShape
    by_cases hca : allowed.isCompatibleWith s' = true
    · refine ⟨allowed, ?_⟩
      have h1 : (!Shape.isCompatibleWith allowed s' || !(⟨some ((List.range (vol al)).map (i g₀)), al, allowed⟩ : Tensor T).isAlloc) = false := by
        rw [hca, hal]; rfl
      simp only [h1]
      simp only [Bool.false_eq_true, if_false, hal, hc, Bool.not_false, Bool.and_self, if_true, Tensor.desiredShape,
        (Shape.isFullyDefined_iff _).2 hs', Bool.not_true, Outcome.ok_bind, key allowed (by rw [c03_symm]; exact hca)]
      rfl
    · refine ⟨s', ?_⟩
      have h1 : (!Shape.isCompatibleWith allowed s' || !(⟨some ((List.range (vol al)).map (i g₀)), al, allowed⟩ : Tensor T).isAlloc) = true := by
        rw [Bool.not_eq_true] at hca
        rw [hca]; rfl
      have hal' : (⟨some ((List.range (vol al)).map (i g₀)), al, s'⟩ : Tensor T).isAlloc = true := by
        simp [Tensor.isAlloc, (Shape.isFullyDefined_iff _).2 hs]
      simp only [h1]
      simp only [if_true, hal', hc, Bool.not_false, Bool.and_self, Tensor.desiredShape,
        (Shape.isFullyDefined_iff _).2 hs', Bool.not_true, Bool.false_eq_true, if_false, Outcome.ok_bind, key s' (c03_refl s')]
      rfl
  obtain ⟨a, hset⟩ := hset
  have hlen' : res.length = vol s' := by rw [hlen, Shape.nElems_eq hs'.1]
  have hw' : (⟨some res, s', a⟩ : Tensor T).WF := by
    intro b hb
    cases hb
    exact ⟨hs', hlen'⟩
  refine ⟨_, ⟨some ((List.range (vol s')).map (i g)), s', a⟩, hset, ?_, rfl, rfl⟩
  simp only [fillBy]
  rw [fillWith_eq hw' rfl, hlen']

/-- One update of a generator that holds c: what it holds afterwards, and whether it tells its audience. -/
theorem update_holds (e : Env T) (hm : ∀ n, e.fits n = true) (g : σ) (d : Status) (x : Gen σ T) (i : Init σ T) (h : List (σ × Status)) (c : Option (List Nat × σ))
    (hi : x.init = some i) (hc : Holds78 h c) (hd : DataOf i c x.data) :
    ∃ x' b c', update e g d x = .ok (x', b) ∧ x'.dep = x.dep ∧ x'.init = some i ∧ Holds78 (h ++ [(g, d)]) c' ∧ DataOf i c' x'.data ∧
      (b = false → x' = x ∧ c' = c) ∧ (b = true → d.good = true ∧ Full d.shape ∧ c' = some (d.shape, g) ∧ ∀ s g₀, c = some (s, g₀) → ¬ Alike s d.shape) := by
  unfold update
  by_cases hbad : d.good = false ∨ d.shape.isFullyDefined = false
  · rw [if_pos hbad]
    refine ⟨x, false, c, rfl, rfl, hi, .bad hc (hbad.imp id fun h => ?_), hd, fun _ => ⟨rfl, rfl⟩, fun h => by cases h⟩
    intro hf
    rw [(Shape.isFullyDefined_iff _).2 hf] at h; cases h
  · rw [if_neg hbad]
    have hg : d.good = true := by
      cases hh : d.good with
      | true => rfl
      | false => exact absurd (.inl hh) hbad
    have hf : Full d.shape := by
      rw [← Shape.isFullyDefined_iff]
      cases hh : d.shape.isFullyDefined with
      | true => rfl
      | false => exact absurd (.inr hh) hbad
    rcases hd with ⟨rfl, hn⟩ | ⟨s, g₀, t, rfl, hs, ht, hr, ha⟩
    · simp only [hn, hi, fill_new e hm i g d.shape hf, Outcome.ok_bind]
      exact ⟨_, true, _, rfl, rfl, rfl, .first hc hg hf, .inr ⟨_, g, _, rfl, hf, rfl, rfl, rfl⟩, fun h => (by cases h), fun _ => ⟨hg, hf, rfl, fun s g₀ h => (by cases h)⟩⟩
    · have hw := DataOf.wf hs hr ha
      have hgs : t.getShape = s := by rw [(getShape_full hw hr).2.1, ha]
      simp only [ht, hgs]
      by_cases hal : Alike s d.shape
      · rw [if_neg (by rw [(alike_iff hs hf).2 hal]; simp)]
        exact ⟨x, false, _, rfl, rfl, hi, .same hc hg hf hal, .inr ⟨s, g₀, t, rfl, hs, ht, hr, ha⟩, fun _ => ⟨rfl, rfl⟩, fun h => (by cases h)⟩
      · rw [if_pos (by rw [Bool.eq_false_iff]; exact fun h => hal ((alike_iff hs hf).1 h))]
        obtain ⟨t1, t2, h1, h2, h3, h4⟩ := fill_reshaped e hm i g g₀ s d.shape hs hf t hr ha hal
        rw [h1, Outcome.ok_bind, hi, h2, Outcome.ok_bind]
        refine ⟨_, true, _, rfl, rfl, rfl, .changed hc hg hf hal, .inr ⟨_, g, _, rfl, hf, rfl, h3, h4⟩, fun h => (by cases h), fun _ => ⟨hg, hf, rfl, fun s' g' h => ?_⟩⟩
        simp only [Option.some.injEq, Prod.mk.injEq] at h
        rw [← h.1]; exact hal

/-- A generator and its story. -/
def Fits78 (o : Option (Story σ T)) (x : Gen σ T) : Prop :=
  (o = none ∧ x.dep = none ∧ ∀ t, x.data = some t → t.raw = none) ∨
  ∃ y c, o = some y ∧ x.dep = some y.dep ∧ x.init = some y.init ∧ Holds78 y.shown c ∧ DataOf y.init c x.data

theorem copyOf_fits (e : Env T) (hm : ∀ n, e.fits n = true) {y : Story σ T} {x : Gen σ T} (h : Fits78 (some y) x) :
    ∃ x', copyOf e x = .ok x' ∧ Fits78 (some y) x' ∧ (∀ t, x.data = some t → ∃ t', x'.data = some t' ∧ t'.raw = t.raw ∧ t'.alloc = t.alloc) := by
  rcases h with ⟨h, _⟩ | ⟨y', c, h, h1, h2, h3, h4⟩
  · cases h
  · cases h
    unfold copyOf
    rcases h4 with ⟨rfl, hn⟩ | ⟨s, g, t, rfl, hs, ht, hr, ha⟩
    · simp only [hn]
      exact ⟨_, rfl, .inr ⟨y, none, rfl, h1, h2, h3, .inl ⟨rfl, rfl⟩⟩, fun t h => by cases h⟩
    · have hw := DataOf.wf hs hr ha
      have hc : t.copyHelper e false = .ok ⟨t.raw, t.alloc, t.allowed⟩ := by
        unfold Tensor.copyHelper
        have hlen : t.alloc.nElems = ((List.range (vol s)).map (y.init g)).length := by rw [ha, Shape.nElems_eq hs.1]; simp
        rw [if_pos (getShape_full hw hr).1]
        simp only [Tensor.allocBuf, hm, if_true, hr]
        rw [hlen, Tensor.memcpy_all (by simp)]
        rfl
      simp only [ht, hc, Outcome.ok_bind]
      exact ⟨_, rfl, .inr ⟨y, _, rfl, h1, h2, h3, .inr ⟨s, g, _, rfl, hs, rfl, hr, ha⟩⟩, fun t' h' => ⟨_, rfl, by cases h'; rfl, by cases h'; rfl⟩⟩

/-- Every generator and its story. -/
def All78 (L : List (Option (Story σ T))) (xs : List (Gen σ T)) : Prop :=
  xs.length = L.length ∧ ∀ (k : Nat) (o : Option (Story σ T)) (x : Gen σ T), L[k]? = some o → xs[k]? = some x → Fits78 o x

theorem All78.get {L : List (Option (Story σ T))} {xs : List (Gen σ T)} (h : All78 L xs) {k : Nat} {o : Option (Story σ T)} (hk : L[k]? = some o) :
    ∃ x, xs[k]? = some x ∧ Fits78 o x := by
  have hl := (List.getElem?_eq_some_iff.1 hk).1
  have : k < xs.length := by rw [h.1]; exact hl
  exact ⟨xs[k], List.getElem?_eq_getElem this, h.2 k o _ hk (List.getElem?_eq_getElem this)⟩

theorem All78.push {L : List (Option (Story σ T))} {xs : List (Gen σ T)} (h : All78 L xs) {o : Option (Story σ T)} {x : Gen σ T} (hx : Fits78 o x) :
    All78 (L ++ [o]) (xs ++ [x]) := by
  refine ⟨by simp [h.1], fun k o' x' h1 h2 => ?_⟩
  by_cases hk : k < L.length
  · rw [List.getElem?_append_left hk] at h1
    rw [List.getElem?_append_left (by rw [h.1]; exact hk)] at h2
    exact h.2 k o' x' h1 h2
  · rw [List.getElem?_append_right (by omega)] at h1
    rw [List.getElem?_append_right (by rw [h.1]; omega), h.1] at h2
    have : k - L.length = 0 := by
      have := (List.getElem?_eq_some_iff.1 h1).1
      simp at this; omega
    rw [this] at h1 h2
    simp only [List.getElem?_cons_zero, Option.some.injEq] at h1 h2
    subst h1 h2; exact hx

theorem All78.put {L : List (Option (Story σ T))} {xs : List (Gen σ T)} (h : All78 L xs) {o : Option (Story σ T)} {x : Gen σ T} (hx : Fits78 o x) (j : Nat) :
    All78 (L.set j o) (xs.set j x) := by
  refine ⟨by simp [h.1], fun k o' x' h1 h2 => ?_⟩
  by_cases hk : j = k
  · subst hk
    rw [List.getElem?_set_self'] at h1 h2
    cases hL : L[j]? with
    | none => simp [hL] at h1
    | some _ =>
      cases hX : xs[j]? with
      | none => simp [hX] at h2
      | some _ =>
        simp [hL] at h1; simp [hX] at h2
        subst h1 h2; exact hx
  · rw [List.getElem?_set_ne hk] at h1 h2
    exact h.2 k o' x' h1 h2

theorem read_get {α : Type} {xs : List α} {k : Nat} {x : α} (h : xs[k]? = some x) : Outcome.read xs k = .ok x := by
  unfold Outcome.read; rw [h]

/-- One generator when node d notifies. -/
theorem hear_fits (e : Env T) (hm : ∀ n, e.fits n = true) (g : σ) (d : Nat) (s : Status) {o : Option (Story σ T)} {x : Gen σ T} (h : Fits78 o x) :
    ∃ x' b, hear e g d s x = .ok (x', b) ∧
      Fits78 (o.map fun y => if y.dep = d then { y with shown := y.shown ++ [(g, s)] } else y) x' ∧
      (b = false → x' = x) ∧
      ∀ y, o = some y → (b = true ↔ y.dep = d ∧ s.good = true ∧ Full s.shape ∧ ∀ s₀ g₀, Holds78 y.shown (some (s₀, g₀)) → ¬ Alike s₀ s.shape) := by
  unfold hear
  rcases h with ⟨rfl, h1, h2⟩ | ⟨y, c, rfl, h1, h2, h3, h4⟩
  · rw [if_neg (by rw [h1]; simp)]
    exact ⟨x, false, rfl, .inl ⟨rfl, h1, h2⟩, fun _ => rfl, fun y hy => by cases hy⟩
  · by_cases hd : y.dep = d
    · rw [if_pos (by rw [h1, hd])]
      obtain ⟨x', b, c', q1, q2, q3, q4, q5, q6, q7⟩ := update_holds e hm g s x y.init y.shown c h2 h3 h4
      refine ⟨x', b, q1, .inr ⟨{ y with shown := y.shown ++ [(g, s)] }, c', by simp only [Option.map_some, if_pos hd], by simpa [q2] using h1, q3, q4, q5⟩, fun hb => (q6 hb).1, ?_⟩
      rintro y' hy
      cases hy
      constructor
      · intro hb
        obtain ⟨r1, r2, _, r4⟩ := q7 hb
        exact ⟨hd, r1, r2, fun s₀ g₀ hh => r4 s₀ g₀ (holds78_unique h3 hh)⟩
      · rintro ⟨_, r1, r2, r3⟩
        cases b with
        | true => rfl
        | false =>
          obtain ⟨_, rfl⟩ := q6 rfl
          exfalso
          cases c' with
          | none => cases holds78_unique q4 (.first h3 r1 r2)
          | some p =>
            obtain ⟨s₀, g₀⟩ := p
            have hna := r3 s₀ g₀ h3
            have := holds78_unique q4 (.changed h3 r1 r2 hna)
            simp only [Option.some.injEq, Prod.mk.injEq] at this
            exact hna (.inl ⟨by rw [this.1], this.1⟩)
    · rw [if_neg (by rw [h1]; simpa using hd)]
      refine ⟨x, false, rfl, .inr ⟨y, c, by simp [hd], h1, h2, h3, h4⟩, fun _ => rfl, ?_⟩
      rintro y' hy
      cases hy
      exact ⟨fun h => (by cases h), fun h => absurd h.1 hd⟩

/-- All the generators when node d notifies. -/
theorem hear_all (e : Env T) (hm : ∀ n, e.fits n = true) (g : σ) (d : Nat) (s : Status) (xs : List (Gen σ T)) (L : List (Option (Story σ T))) (h : All78 L xs) :
    ∃ rs : List (Gen σ T × Bool), Outcome.forM' xs (hear e g d s) = .ok rs ∧ rs.length = xs.length ∧
      ∀ (k : Nat) (o : Option (Story σ T)) (x : Gen σ T), L[k]? = some o → xs[k]? = some x → ∃ x' b, rs[k]? = some (x', b) ∧
        Fits78 (o.map fun y => if y.dep = d then { y with shown := y.shown ++ [(g, s)] } else y) x' ∧ (b = false → x' = x) ∧
        ∀ y, o = some y → (b = true ↔ y.dep = d ∧ s.good = true ∧ Full s.shape ∧ ∀ s₀ g₀, Holds78 y.shown (some (s₀, g₀)) → ¬ Alike s₀ s.shape) := by
  induction xs generalizing L with
  | nil => exact ⟨[], rfl, rfl, fun k o x _ h => by simp at h⟩
  | cons x xs ih =>
    cases L with
    | nil => exact absurd h.1 (by simp)
    | cons o L =>
      obtain ⟨x', b, h1, h2⟩ := hear_fits e hm g d s (h.2 0 o x rfl rfl)
      obtain ⟨rs, h3, h4, h5⟩ := ih L ⟨by simpa using h.1, fun k o' x'' q1 q2 => h.2 (k + 1) o' x'' (by simpa using q1) (by simpa using q2)⟩
      refine ⟨(x', b) :: rs, by rw [Outcome.forM', h1, Outcome.ok_bind, h3, Outcome.ok_bind], by simp [h4], ?_⟩
      intro k o' x'' q1 q2
      cases k with
      | zero =>
        simp only [List.getElem?_cons_zero, Option.some.injEq] at q1 q2
        subst q1 q2
        exact ⟨x', b, rfl, h2⟩
      | succ k =>
        simp only [List.getElem?_cons_succ] at q1 q2
        obtain ⟨z, b', r1, r2⟩ := h5 k o' x'' q1 q2
        exact ⟨z, b', by simpa using r1, r2⟩

theorem moveOf_fits {y : Story σ T} {x : Gen σ T} (h : Fits78 (some y) x) : Fits78 (some y) (moveOf x).1 ∧ Fits78 (none : Option (Story σ T)) (moveOf x).2 := by
  rcases h with ⟨h, _⟩ | ⟨y', c, h, h1, h2, h3, h4⟩
  · cases h
  · cases h
    refine ⟨.inr ⟨y, c, rfl, h1, h2, h3, ?_⟩, .inl ⟨rfl, rfl, ?_⟩⟩
    · rcases h4 with ⟨rfl, hn⟩ | ⟨s, g, t, rfl, hs, ht, hr, ha⟩
      · exact .inl ⟨rfl, by simp [moveOf, hn]⟩
      · exact .inr ⟨s, g, t.moveHelper.1, rfl, hs, by simp [moveOf, ht], hr, ha⟩
    · intro t ht
      simp only [moveOf, Option.map_eq_some_iff] at ht
      obtain ⟨t0, _, rfl⟩ := ht
      rfl

/-- One call, on states that fit their stories. -/
theorem gen_step (e : Env T) (hm : ∀ n, e.fits n = true) {g g' : σ} {D D' : Nat → Status} {L L' : List (Option (Story σ T))} {ev : Ev σ T}
    (h : Tells g D L ev g' D' L') (xs : List (Gen σ T)) (hx : All78 L xs) :
    ∃ xs' o, step e ⟨g, D, xs⟩ ev = .ok (⟨g', D', xs'⟩, o) ∧ All78 L' xs' ∧ o.length = xs'.length := by
  cases h with
  | engine => exact ⟨xs, _, rfl, hx, by simp⟩
  | get =>
    rename_i d i
    obtain ⟨x', b, c', q1, q2, q3, q4, q5, _⟩ := update_holds e hm g (D d) (⟨some d, some i, none⟩ : Gen σ T) i [] none rfl .start (.inl ⟨rfl, rfl⟩)
    exact ⟨xs ++ [x'], (xs.map fun _ => false) ++ [b], by simp only [step, q1, Outcome.ok_bind], hx.push (.inr ⟨⟨d, i, [(g, D d)]⟩, c', rfl, q2, q3, q4, q5⟩), by simp⟩
  | tell =>
    rename_i d s
    obtain ⟨rs, h1, h2, h3⟩ := hear_all e hm g d s xs L hx
    refine ⟨rs.map Prod.fst, rs.map Prod.snd, by simp only [step, h1, Outcome.ok_bind], ⟨by simp [h2, hx.1], fun k o x q1 q2 => ?_⟩, by simp⟩
    rw [List.getElem?_map, Option.map_eq_some_iff] at q1 q2
    obtain ⟨o0, q1, rfl⟩ := q1
    obtain ⟨r, q2, rfl⟩ := q2
    obtain ⟨x0, hx0, _⟩ := hx.get q1
    obtain ⟨x', b, r1, r2, _⟩ := h3 k o0 x0 q1 hx0
    rw [r1] at q2; cases q2
    exact r2
  | clone =>
    rename_i x y hy
    obtain ⟨x0, h1, h2⟩ := hx.get hy
    obtain ⟨x', h3, h4, _⟩ := copyOf_fits e hm h2
    exact ⟨xs ++ [x'], (xs.map fun _ => false) ++ [false], by simp only [step, read_get h1, Outcome.ok_bind, h3], hx.push h4, by simp⟩
  | move =>
    rename_i x y hy
    obtain ⟨x0, h1, h2⟩ := hx.get hy
    exact ⟨xs.set x (moveOf x0).2 ++ [(moveOf x0).1], (xs.map fun _ => false) ++ [false], by simp only [step, read_get h1, Outcome.ok_bind], (hx.put (moveOf_fits h2).2 x).push (moveOf_fits h2).1, by simp⟩
  | assign =>
    rename_i x z y hl hy
    obtain ⟨x0, h1, h2⟩ := hx.get hy
    have hl' : x < xs.length := by rw [hx.1]; exact hl
    by_cases hxz : x = z
    · subst hxz
      refine ⟨xs, xs.map fun _ => false, by simp only [step, read_get h1, Outcome.ok_bind, if_true], ?_, by simp⟩
      rw [show L.set x (some y) = L by
        apply List.ext_getElem?
        intro k
        rw [List.getElem?_set]
        split
        · rename_i hk; subst hk
          obtain ⟨_, hy'⟩ := List.getElem?_eq_some_iff.1 hy
          simp [hl, hy']
        · rfl]
      exact hx
    · obtain ⟨x', h3, h4, _⟩ := copyOf_fits e hm h2
      exact ⟨xs.set x x', (xs.map fun _ => false).set x true, by simp only [step, read_get (List.getElem?_eq_getElem hl'), read_get h1, Outcome.ok_bind, if_neg hxz, h3], hx.put h4 x, by simp⟩
  | self =>
    rename_i x hl
    have hl' : x < xs.length := by rw [hx.1]; exact hl
    exact ⟨xs, xs.map fun _ => false, by simp only [step, read_get (List.getElem?_eq_getElem hl'), Outcome.ok_bind, if_true], hx, by simp⟩
  | moveAssign =>
    rename_i x z y hxz hl hy
    obtain ⟨x0, h1, h2⟩ := hx.get hy
    have hl' : x < xs.length := by rw [hx.1]; exact hl
    exact ⟨(xs.set z (moveOf x0).2).set x (moveOf x0).1, (xs.map fun _ => false).set x true, by simp only [step, read_get (List.getElem?_eq_getElem hl'), read_get h1, Outcome.ok_bind, if_neg hxz],
      (hx.put (moveOf_fits h2).2 z).put (moveOf_fits h2).1 x, by simp⟩

theorem gen_run (e : Env T) (hm : ∀ n, e.fits n = true) {g g' : σ} {D D' : Nat → Status} {L L' : List (Option (Story σ T))} {evs : List (Ev σ T)}
    (h : TellsAll g D L evs g' D' L') (xs : List (Gen σ T)) (hx : All78 L xs) :
    ∃ xs' o, run e ⟨g, D, xs⟩ evs = .ok (⟨g', D', xs'⟩, o) ∧ All78 L' xs' := by
  induction h generalizing xs with
  | nil => exact ⟨xs, [], rfl, hx⟩
  | cons h1 _ ih =>
    obtain ⟨xs1, o1, q1, q2, _⟩ := gen_step e hm h1 xs hx
    obtain ⟨xs2, o2, q3, q4⟩ := ih xs1 q2
    exact ⟨xs2, o1 :: o2, by rw [run, q1, Outcome.ok_bind, q3, Outcome.ok_bind], q4⟩

/-- C78: along every program a generator holds exactly what its story says: nothing until its dependency first gives a
usable answer (good, of a fully defined shape); afterwards the values its initializer made, with the engine as it was,
when the answer's shape last stopped being like its own.  Copying and assigning hand the story on. -/
theorem c78_history (e : Env T) (hm : ∀ n, e.fits n = true) (g g' : σ) (D D' : Nat → Status) (L : List (Option (Story σ T))) (evs : List (Ev σ T))
    (h : TellsAll g D [] evs g' D' L) :
    ∃ xs o, run e ⟨g, D, []⟩ evs = .ok (⟨g', D', xs⟩, o) ∧ xs.length = L.length ∧
      ∀ (k : Nat) (y : Story σ T), L[k]? = some (some y) → ∃ (x : Gen σ T) (c : Option (List Nat × σ)), xs[k]? = some x ∧ x.dep = some y.dep ∧ Holds78 y.shown c ∧
        (c = none → goodStatus x = false ∧ getShape x = []) ∧
        ∀ s g₀, c = some (s, g₀) → goodStatus x = true ∧ getShape x = s ∧ ∃ t, x.data = some t ∧ t.expose = .ok ((List.range (vol s)).map (y.init g₀)) := by
  obtain ⟨xs, o, h1, h2⟩ := gen_run e hm h [] ⟨rfl, fun k o x q => by simp at q⟩
  refine ⟨xs, o, h1, h2.1, fun k y hk => ?_⟩
  obtain ⟨x, h3, h4⟩ := h2.get hk
  rcases h4 with ⟨h4, _⟩ | ⟨y', c, h4, h5, h6, h7, h8⟩
  · cases h4
  · cases h4
    refine ⟨x, c, h3, h5, h7, ?_, ?_⟩
    · rintro rfl
      rcases h8 with ⟨_, hn⟩ | ⟨s, g, t, hc, _⟩
      · simp [goodStatus, getShape, hn]
      · cases hc
    · rintro s g₀ rfl
      rcases h8 with ⟨hc, _⟩ | ⟨s', g, t, hc, hs, ht, hr, ha⟩
      · cases hc
      · simp only [Option.some.injEq, Prod.mk.injEq] at hc
        obtain ⟨rfl, rfl⟩ := hc
        have hw := DataOf.wf hs hr ha
        refine ⟨by simp [goodStatus, ht], by simp [getShape, ht, (getShape_full hw hr).2.1, ha], t, ht, ?_⟩
        unfold Tensor.expose
        rw [(getShape_full hw hr).1]
        simp [hr, (getShape_full hw hr).2.2.2, List.take_of_length_le]

/-- A small environment: numbers, everything can be allocated. -/
def env78 : Env Nat := { fits := fun _ => true, junk := fun _ => 99, zero := 0 }

/-- An initializer whose k-th value is the engine's state plus k. -/
def init78 : Init Nat Nat := fun g k => g + k

/-- A node that answers well with the shape [2]. -/
def deps78 : Nat → Status := fun _ => ⟨true, [2]⟩

example : ∃ L : List (Option (Story Nat Nat)), TellsAll 5 deps78 [] [.get 0 init78, .engine 7, .tell 0 ⟨true, [2, 1]⟩, .tell 0 ⟨true, [3]⟩, .clone 0, .tell 0 ⟨false, [4]⟩, .move 0] 7
    (fun k => if k = 0 then ⟨false, [4]⟩ else if k = 0 then ⟨true, [3]⟩ else if k = 0 then ⟨true, [2, 1]⟩ else deps78 k) L :=
  ⟨_, .cons .get (.cons .engine (.cons .tell (.cons .tell (.cons (.clone rfl) (.cons .tell (.cons (.move rfl) .nil))))))⟩

example : (do
    let r ← run env78 ⟨5, deps78, []⟩ [.get 0 init78, .engine 7, .tell 0 ⟨true, [2, 1]⟩, .tell 0 ⟨true, [3]⟩, .clone 0, .tell 0 ⟨false, [4]⟩, .move 0]
    .ok (r.1.gens.map fun x : Gen Nat Nat => (x.dep, getShape x, goodStatus x, x.data.bind fun t => t.raw), r.2)) =
    .ok ([(none, [], true, none), (some 0, [3], true, some [7, 8, 9]), (some 0, [3], true, some [7, 8, 9])],
      [[true], [false], [false], [true], [false, false], [false, false], [false, false, false]]) := rfl

/-- C78: when a node notifies, a generator tells its audience exactly when it depends on that node, the answer is usable,
and the generator had no values or values of an unlike shape; otherwise it is left as it was. -/
theorem c78_notifies (e : Env T) (hm : ∀ n, e.fits n = true) (g g' : σ) (D D' : Nat → Status) (L : List (Option (Story σ T))) (evs : List (Ev σ T))
    (h : TellsAll g D [] evs g' D' L) (d : Nat) (s : Status) :
    ∃ S o S' bs, run e ⟨g, D, []⟩ evs = .ok (S, o) ∧ step e S (.tell d s) = .ok (S', bs) ∧ S'.shared = S.shared ∧
      ∀ (k : Nat) (y : Story σ T), L[k]? = some (some y) → ∃ b : Bool, bs[k]? = some b ∧ (b = false → S'.gens[k]? = S.gens[k]?) ∧
        (b = true ↔ y.dep = d ∧ s.good = true ∧ Full s.shape ∧ ∀ s₀ g₀, Holds78 y.shown (some (s₀, g₀)) → ¬ Alike s₀ s.shape) := by
  obtain ⟨xs, o, h1, h2⟩ := gen_run e hm h [] ⟨rfl, fun k o x q => by simp at q⟩
  obtain ⟨rs, h3, h4, h5⟩ := hear_all e hm g' d s xs L h2
  refine ⟨_, o, ⟨g', fun k => if k = d then s else D' k, rs.map Prod.fst⟩, rs.map Prod.snd, h1, by simp only [step, h3, Outcome.ok_bind], rfl, fun k y hk => ?_⟩
  obtain ⟨x, hx, _⟩ := h2.get hk
  obtain ⟨x', b, q1, _, q3, q4⟩ := h5 k _ x hk hx
  refine ⟨b, by simp [q1], fun hb => ?_, q4 y rfl⟩
  simp [q1, q3 hb, hx]

example : (do
    let r ← run env78 ⟨5, deps78, []⟩ [.get 0 init78, .get 1 init78]
    let q ← step env78 r.1 (.tell 0 ⟨true, [2, 2]⟩)
    .ok (q.1.gens.map fun x : Gen Nat Nat => x.data.bind fun t => t.raw, q.2)) = .ok ([some [5, 6, 7, 8], some [5, 6]], [true, false]) := rfl

/-- C78: an answer that is not usable changes nothing: the generator keeps its old values and stays good. -/
theorem c78_keeps (e : Env T) (g : σ) (D : Nat → Status) (xs : List (Gen σ T)) (d : Nat) (s : Status) (hs : s.good = false ∨ ¬ Full s.shape) :
    step e ⟨g, D, xs⟩ (.tell d s) = .ok (⟨g, fun k => if k = d then s else D k, xs⟩, xs.map fun _ => false) := by
  have h1 : ∀ x : Gen σ T, hear e g d s x = .ok (x, false) := by
    intro x
    unfold hear update
    by_cases hx : x.dep = some d
    · rw [if_pos hx, if_pos]
      refine hs.imp id fun h => ?_
      rw [Bool.eq_false_iff]
      exact fun hf => h ((Shape.isFullyDefined_iff _).1 hf)
    · rw [if_neg hx]
  have h2 : ∀ ys : List (Gen σ T), Outcome.forM' ys (hear e g d s) = .ok (ys.map fun x => (x, false)) := by
    intro ys
    induction ys with
    | nil => rfl
    | cons y ys ih => rw [Outcome.forM', h1, Outcome.ok_bind, ih, Outcome.ok_bind]; rfl
  simp only [step, h2, Outcome.ok_bind, List.map_map]
  simp [Function.comp_def]

example : (do
    let r ← run env78 ⟨5, deps78, []⟩ [.get 0 init78, .tell 0 ⟨false, [9]⟩, .tell 0 ⟨true, [0, 3]⟩]
    .ok (r.1.gens.map fun x : Gen Nat Nat => (goodStatus x, getShape x, x.data.bind fun t => t.raw), r.2)) = .ok ([(true, [2], some [5, 6])], [[true], [false], [false]]) := rfl

/-- C78: after a usable answer every generator on that node is good, and has a shape like the answer's and as many values. -/
theorem c78_follows (e : Env T) (hm : ∀ n, e.fits n = true) (g g' : σ) (D D' : Nat → Status) (L : List (Option (Story σ T))) (evs : List (Ev σ T))
    (h : TellsAll g D [] evs g' D' L) (d : Nat) (s : Status) (hg : s.good = true) (hs : Full s.shape) :
    ∃ S o, run e ⟨g, D, []⟩ (evs ++ [.tell d s]) = .ok (S, o) ∧
      ∀ (k : Nat) (y : Story σ T), L[k]? = some (some y) → y.dep = d → ∃ (x : Gen σ T) (t : Tensor T) (v : List T), S.gens[k]? = some x ∧ goodStatus x = true ∧
        Alike (getShape x) s.shape ∧ x.data = some t ∧ t.expose = .ok v ∧ v.length = vol s.shape := by
  have happ : ∀ {g : σ} {D : Nat → Status} {K : List (Option (Story σ T))} {g' : σ} {D' : Nat → Status} {L : List (Option (Story σ T))} {evs : List (Ev σ T)},
      TellsAll g D K evs g' D' L → TellsAll g D K (evs ++ [.tell d s]) g' (fun k => if k = d then s else D' k)
        (L.map fun o => o.map fun y => if y.dep = d then { y with shown := y.shown ++ [(g', s)] } else y) := by
    intro g D K g' D' L evs h
    induction h with
    | nil => exact .cons .tell .nil
    | cons h1 _ ih => exact .cons h1 ih
  obtain ⟨xs, o, h1, _, h3⟩ := c78_history e hm _ _ _ _ _ _ (happ h)
  refine ⟨_, o, h1, fun k y hk hd => ?_⟩
  obtain ⟨x, c, q1, _, q3, q4, q5⟩ := h3 k { y with shown := y.shown ++ [(g', s)] } (by rw [List.getElem?_map, hk]; simp [hd])
  have hlast : ∃ s₀ g₀, c = some (s₀, g₀) ∧ Alike s₀ s.shape ∧ Full s₀ := by
    have key : ∀ (h : List (σ × Status)) (c : Option (List Nat × σ)), Holds78 h c → ∀ s₀ g₀, c = some (s₀, g₀) → Full s₀ := by
      intro h c hc
      induction hc with
      | start => intro _ _ h; cases h
      | bad _ _ ih => exact ih
      | first _ _ hf => intro s₀ g₀ h; simp only [Option.some.injEq, Prod.mk.injEq] at h; rw [← h.1]; exact hf
      | same _ _ _ _ ih => intro s₀ g₀ h; exact ih s₀ g₀ h
      | changed _ _ hf _ _ => intro s₀ g₀ h; simp only [Option.some.injEq, Prod.mk.injEq] at h; rw [← h.1]; exact hf
    obtain ⟨s₁, g₁, rfl, hal⟩ : ∃ s₀ g₀, c = some (s₀, g₀) ∧ Alike s₀ s.shape := by
      generalize hh : ({ y with shown := y.shown ++ [(g', s)] } : Story σ T).shown = l at q3
      simp only at hh
      cases q3 with
      | start => simp at hh
      | bad _ hb =>
        obtain ⟨_, h4⟩ := List.append_inj' hh rfl
        simp only [List.cons.injEq, Prod.mk.injEq, and_true] at h4; obtain ⟨_, rfl⟩ := h4
        rcases hb with hb | hb
        · rw [hg] at hb; cases hb
        · exact absurd hs hb
      | first _ _ _ =>
        obtain ⟨_, h4⟩ := List.append_inj' hh rfl
        simp only [List.cons.injEq, Prod.mk.injEq, and_true] at h4; obtain ⟨_, rfl⟩ := h4
        exact ⟨_, _, rfl, .inl ⟨rfl, rfl⟩⟩
      | same _ _ _ ha =>
        obtain ⟨_, h4⟩ := List.append_inj' hh rfl
        simp only [List.cons.injEq, Prod.mk.injEq, and_true] at h4; obtain ⟨_, rfl⟩ := h4
        exact ⟨_, _, rfl, ha⟩
      | changed _ _ _ _ =>
        obtain ⟨_, h4⟩ := List.append_inj' hh rfl
        simp only [List.cons.injEq, Prod.mk.injEq, and_true] at h4; obtain ⟨_, rfl⟩ := h4
        exact ⟨_, _, rfl, .inl ⟨rfl, rfl⟩⟩
    exact ⟨s₁, g₁, rfl, hal, key _ _ q3 s₁ g₁ rfl⟩
  obtain ⟨s₀, g₀, rfl, hal, hf⟩ := hlast
  obtain ⟨r1, r2, t, r3, r4⟩ := q5 s₀ g₀ rfl
  exact ⟨x, t, _, q1, r1, by rw [r2]; exact hal, r3, r4, by simp [alike_vol hf hs hal]⟩

/-- C78: the values do not follow the random engine: two generators made by equal initializers over nodes of equal
answers, with nothing drawn from the shared engine in between, have the same values. -/
theorem c78_twins (e : Env T) (hm : ∀ n, e.fits n = true) (g : σ) (D : Nat → Status) (d d' : Nat) (i : Init σ T) (hd : D d = D d')
    (hg : (D d).good = true) (hf : Full (D d).shape) :
    ∃ S o x y t, run e ⟨g, D, []⟩ [.get d i, .get d' i] = .ok (S, o) ∧ S.gens = [x, y] ∧ x.data = some t ∧ y.data = some t ∧
      t.expose = .ok ((List.range (vol (D d).shape)).map (i g)) := by
  have hb : ¬ ((D d).good = false ∨ (D d).shape.isFullyDefined = false) := by
    rw [hg, (Shape.isFullyDefined_iff _).2 hf]; simp
  have hu : ∀ k, update e g (D d) (⟨some k, some i, none⟩ : Gen σ T) =
      .ok (⟨some k, some i, some ⟨some ((List.range (vol (D d).shape)).map (i g)), (D d).shape, (D d).shape⟩⟩, true) := by
    intro k
    unfold update
    rw [if_neg hb]
    simp only [fill_new e hm i g _ hf, Outcome.ok_bind]
  refine ⟨⟨g, D, [⟨some d, some i, some ⟨some ((List.range (vol (D d).shape)).map (i g)), (D d).shape, (D d).shape⟩⟩,
    ⟨some d', some i, some ⟨some ((List.range (vol (D d).shape)).map (i g)), (D d).shape, (D d).shape⟩⟩]⟩, [[true], [false, true]], _, _, _, ?_, rfl, rfl, rfl, ?_⟩
  · simp only [run, step, ← hd, hu, Outcome.ok_bind, List.map_nil, List.nil_append]
    rfl
  · have hw : (⟨some ((List.range (vol (D d).shape)).map (i g)), (D d).shape, (D d).shape⟩ : Tensor T).WF := DataOf.wf hf rfl rfl
    unfold Tensor.expose
    rw [(getShape_full hw rfl).1]
    simp [(getShape_full hw rfl).2.2.2, List.take_of_length_le]

example : (deps78 0).good = true ∧ Full (deps78 0).shape ∧ deps78 0 = deps78 1 := ⟨rfl, by decide, rfl⟩

/-- C78, what does not hold: a generator that has been moved from still says it is good, though it has no values: reading
them aborts.  Its shape is the empty one. -/
theorem c78_moved_from (x : Gen σ T) (t : Tensor T) (h : x.data = some t) :
    goodStatus (moveOf x).2 = true ∧ ∃ u, (moveOf x).2.data = some u ∧ u.expose = .abort ∧ (moveOf x).2.dep = none := by
  refine ⟨by simp [goodStatus, moveOf, h], t.moveHelper.2, by simp [moveOf, h], ?_, rfl⟩
  unfold Tensor.expose
  simp [Tensor.moveHelper, Tensor.isAlloc, Outcome.assert]

/-- C78, what does not hold: a generator does not always have the shape of its dependency: going from [2] to [2, 1] is not
a change for it. -/
theorem c78_shape_not_followed :
    ∃ (S : St Nat Nat) (o : List (List Bool)) (x : Gen Nat Nat), run env78 ⟨5, deps78, []⟩ [.get 0 init78, .tell 0 ⟨true, [2, 1]⟩] = .ok (S, o) ∧
      S.gens = [x] ∧ getShape x = [2] ∧ (S.deps 0).shape = [2, 1] := ⟨_, _, _, rfl, rfl, rfl, rfl⟩

end Verif.Props
