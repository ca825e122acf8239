import Verif.Lemmas.React
/-! # Lemmas about subjects and observers, continued -/
namespace Verif
namespace React

/-- The destructor's loop up to an existing dependency. -/
theorem removeRange_spec {h : Net} {o m s : Nat} (hI : Inv h) (ho : h.oAlive o = true) (hm : Dep h o m s)
    (k : Nat) (hk : k ≤ m + 1) :
    ∃ h', forEach (removeDependency o) (List.range k) h = .ok h' ∧ Inv h' ∧ SameLife h h' ∧
      h'.broken = h.broken ∧ (∀ x j t, Dep h' x j t ↔ Dep h x j t ∧ ¬ (x = o ∧ j < k)) ∧
      (∀ x, Tidy (h.deps x) → Tidy (h'.deps x)) ∧ (k = m + 1 → Tidy (h'.deps o)) := by
  induction k with
  | zero => exact ⟨h, rfl, hI, SameLife.refl h, rfl, by simp, fun _ hx => hx, by simp⟩
  | succ k ih =>
    obtain ⟨g, e, I, L, b, d, t, _⟩ := ih (by omega)
    rw [List.range_succ, forEach_append, e, Outcome.ok_bind]
    have hgm : Dep g o m s := (d _ _ _).2 ⟨hm, by omega⟩
    have hlen : k < (g.deps o).length := by
      have : m < (g.deps o).length := by
        by_contra hc
        unfold Dep at hgm
        rw [List.getElem?_eq_none (by omega)] at hgm; simp at hgm
      omega
    cases hg : (g.deps o)[k]? with
    | none => rw [List.getElem?_eq_none_iff] at hg; omega
    | some v =>
      cases v with
      | none =>
        have hkm : k ≠ m := by
          rintro rfl
          unfold Dep at hgm
          rw [hg] at hgm; simp at hgm
        refine ⟨g, ?_, I, L, b, ?_, t, by omega⟩
        · simp [forEach, removeDependency, needO, L.4, ho, hg]
        · intro x j y
          rw [d]
          constructor
          · rintro ⟨h1, h2⟩
            refine ⟨h1, ?_⟩
            rintro ⟨rfl, h3⟩
            have : j = k := by omega
            subst this
            have h4 := (d x j y).2 ⟨h1, h2⟩
            unfold Dep at h4
            rw [hg] at h4; simp at h4
          · rintro ⟨h1, h2⟩
            exact ⟨h1, fun h3 => h2 ⟨h3.1, by omega⟩⟩
      | some w =>
        obtain ⟨g', e', I', L', b', d', t'⟩ := removeDependency_spec I (show Dep g o k w from hg)
        refine ⟨g', by simp [forEach, e'], I', L.trans L', by rw [b', b], ?_, ?_, ?_⟩
        · intro x j y
          rw [d', d]
          constructor
          · rintro ⟨⟨h1, h2⟩, h3⟩
            exact ⟨h1, fun h4 => (Nat.lt_succ_iff_lt_or_eq.1 h4.2).elim (fun h5 => h2 ⟨h4.1, h5⟩) (fun h5 => h3 ⟨h4.1, h5⟩)⟩
          · rintro ⟨h1, h2⟩
            exact ⟨⟨h1, fun h3 => h2 ⟨h3.1, by omega⟩⟩, fun h3 => h2 ⟨h3.1, by omega⟩⟩
        · intro x hx
          rw [t']
          exact tidy_upd (tidy_popNulls _) (t x hx)
        · intro _
          rw [t', upd_same]
          exact tidy_popNulls _

/-- No subject listed. -/
def AllNull (l : List (Option Nat)) : Prop := ∀ j s : Nat, l[j]? ≠ some (some s)

theorem removeNull_eq {h : Net} {o : Nat} (ho : h.oAlive o = true) (hn : AllNull (h.deps o)) (l : List Nat)
    (hl : ∀ i ∈ l, i < (h.deps o).length) : forEach (removeDependency o) l h = .ok h := by
  induction l with
  | nil => rfl
  | cons i l ih =>
    have h1 : removeDependency o i h = .ok h := by
      have := hl i (by simp)
      cases hg : (h.deps o)[i]? with
      | none => rw [List.getElem?_eq_none_iff] at hg; omega
      | some v =>
        cases v with
        | none => simp [removeDependency, needO, ho, hg]
        | some w => exact absurd hg (hn i w)
    rw [forEach, h1, Outcome.ok_bind, ih (fun i hi => hl i (by simp [hi]))]

theorem destroyLoop_spec {h : Net} {o : Nat} (hI : Inv h) (ho : h.oAlive o = true)
    (ht : Tidy (h.deps o) ∨ AllNull (h.deps o)) :
    ∃ h', forEach (removeDependency o) (List.range (h.deps o).length) h = .ok h' ∧ Inv h' ∧ SameLife h h' ∧
      h'.broken = h.broken ∧ (∀ x j t, Dep h' x j t ↔ Dep h x j t ∧ x ≠ o) ∧
      (∀ x, Tidy (h.deps x) → Tidy (h'.deps x)) := by
  by_cases hn : AllNull (h.deps o)
  · refine ⟨h, removeNull_eq ho hn _ (by simp), hI, SameLife.refl h, rfl, ?_, fun _ hx => hx⟩
    intro x j t
    constructor
    · intro hd
      refine ⟨hd, ?_⟩
      rintro rfl
      exact hn j t hd
    · exact fun hd => hd.1
  · have ht' : Tidy (h.deps o) := ht.resolve_right hn
    rw [tidy_iff] at ht'
    rcases ht' with h0 | ⟨s, hs⟩
    · exfalso; apply hn
      intro j s
      rw [List.getElem?_eq_none (by omega)]; simp
    · have hpos : 0 < (h.deps o).length := by
        by_contra hc
        rw [List.getElem?_eq_none (by omega)] at hs; simp at hs
      obtain ⟨h', e, I, L, b, d, t, _⟩ := removeRange_spec hI ho (show Dep h o _ s from hs)
        (h.deps o).length (by omega)
      refine ⟨h', e, I, L, b, ?_, t⟩
      intro x j y
      rw [d]
      constructor
      · rintro ⟨h1, h2⟩
        refine ⟨h1, ?_⟩
        rintro rfl
        apply h2
        refine ⟨rfl, ?_⟩
        by_contra hc
        unfold Dep at h1
        rw [List.getElem?_eq_none (by omega)] at h1; simp at h1
      · rintro ⟨h1, h2⟩
        exact ⟨h1, fun h3 => h2 h3.1⟩

/-- The destructor of an observer whose list has a null pointer after its last subject throws. -/
theorem destroyLoop_throw {h : Net} {o : Nat} (hI : Inv h) (ho : h.oAlive o = true)
    (ht : ¬ Tidy (h.deps o)) (hn : ¬ AllNull (h.deps o)) :
    forEach (removeDependency o) (List.range (h.deps o).length) h = .throw .logicError := by
  -- last subject
  obtain ⟨m, s, hm, hmax⟩ : ∃ m s, Dep h o m s ∧ ∀ j t, m < j → ¬ Dep h o j t := by
    have hne : ∃ j s, Dep h o j s := by
      by_contra hc
      apply hn
      intro j s hd
      exact hc ⟨j, s, hd⟩
    obtain ⟨j0, s0, h0⟩ := hne
    have : ∀ n, (∃ j s, Dep h o j s ∧ (h.deps o).length ≤ j + n) →
        ∃ m s, Dep h o m s ∧ ∀ j t, m < j → ¬ Dep h o j t := by
      intro n
      induction n with
      | zero =>
        rintro ⟨j, s, hd, hl⟩
        unfold Dep at hd
        rw [List.getElem?_eq_none (by omega)] at hd; simp at hd
      | succ n ih =>
        rintro ⟨j, s, hd, hl⟩
        by_cases hex : ∃ j' t, j < j' ∧ Dep h o j' t
        · obtain ⟨j', t, h1, h2⟩ := hex
          exact ih ⟨j', t, h2, by omega⟩
        · refine ⟨j, s, hd, fun j' t h1 h2 => hex ⟨j', t, h1, h2⟩⟩
    exact this (h.deps o).length ⟨j0, s0, h0, by omega⟩
  have hmlt : m < (h.deps o).length := by
    by_contra hc
    unfold Dep at hm
    rw [List.getElem?_eq_none (by omega)] at hm; simp at hm
  have hm1 : m + 1 < (h.deps o).length := by
    by_contra hc
    apply ht
    rw [tidy_iff]
    right
    refine ⟨s, ?_⟩
    rw [show (h.deps o).length - 1 = m by omega]; exact hm
  obtain ⟨h', e, I, L, b, d, t, td⟩ := removeRange_spec hI ho hm (m + 1) (Nat.le_refl _)
  have hnil : h'.deps o = [] := by
    have h1 := td rfl
    rcases h1 with h1 | ⟨w, hw⟩
    · exact h1
    · exfalso
      rw [List.getLast?_eq_getElem?] at hw
      have hd : Dep h' o ((h'.deps o).length - 1) w := hw
      rw [d] at hd
      obtain ⟨h2, h3⟩ := hd
      exact hmax _ _ (by omega) h2
  have hr : List.range (h.deps o).length
      = List.range (m + 1) ++ List.range' (m + 1) ((h.deps o).length - (m + 1)) := by
    have := List.range'_append (s := 0) (m := m + 1) (n := (h.deps o).length - (m + 1)) (step := 1)
    simp only [Nat.one_mul, Nat.zero_add] at this
    rw [List.range_eq_range', List.range_eq_range', this]
    congr 1
    omega
  rw [hr, forEach_append, e, Outcome.ok_bind]
  obtain ⟨k, hk⟩ : ∃ k, (h.deps o).length - (m + 1) = k + 1 := ⟨(h.deps o).length - (m + 1) - 1, by omega⟩
  rw [hk, List.range'_succ, forEach]
  have : removeDependency o (m + 1) h' = .throw .logicError := by
    simp [removeDependency, needO, L.4, ho, hnil]
  rw [this]; rfl

theorem destroyAll_spec {h : Net} (ord : Ord) {l : List Nat} (hI : Inv h) (hn : l.Nodup)
    (hl : ∀ s ∈ l, h.sAlive s = true) :
    ∃ h', forEach (destroySubject ord) l h = .ok h' ∧ Inv h' ∧
      (∀ t, h'.sAlive t = true ↔ h.sAlive t = true ∧ t ∉ l) ∧ h'.oAlive = h.oAlive ∧
      (∀ x j t, Dep h' x j t ↔ Dep h x j t ∧ t ∉ l) ∧
      (∀ x t, t ∈ h'.ondeath x ↔ t ∈ h.ondeath x ∧ t ∉ l) ∧
      (∀ x, Tidy (h.deps x) → Tidy (h'.deps x)) := by
  induction l generalizing h with
  | nil => exact ⟨h, rfl, hI, by simp, rfl, by simp, by simp, fun _ hx => hx⟩
  | cons s l ih =>
    obtain ⟨hns, hn'⟩ := List.nodup_cons.1 hn
    obtain ⟨h1, e1, I1, a1, o1, b1, d1, k1, t1⟩ := destroySubject_spec ord hI (hl s (by simp))
    obtain ⟨h2, e2, I2, a2, o2, d2, k2, t2⟩ := ih I1 hn' (by
      intro t ht
      rw [a1, upd_ne]
      · exact hl t (by simp [ht])
      · rintro rfl; exact hns ht)
    refine ⟨h2, by simp [forEach, e1, e2], I2, ?_, by rw [o2, o1], ?_, ?_, fun x hx => t2 x (t1 x hx)⟩
    · intro t
      rw [a2, a1]
      by_cases ht : t = s
      · subst ht; simp [upd_same]
      · rw [upd_ne _ _ ht]; simp [ht]
    · intro x j t; rw [d2, d1]; simp; tauto
    · intro x t; rw [k2, k1]; simp; tauto

theorem destroyObserver_spec {h : Net} {o : Nat} (ord : Ord) (hI : Inv h) (ho : h.oAlive o = true)
    (ht : Tidy (h.deps o) ∨ AllNull (h.deps o)) :
    ∃ h', destroyObserver ord o h = .ok h' ∧ Inv h' ∧
      (∀ t, h'.sAlive t = true ↔ h.sAlive t = true ∧ t ∉ h.ondeath o) ∧ h'.oAlive = upd h.oAlive o false ∧
      (∀ x j t, Dep h' x j t ↔ Dep h x j t ∧ x ≠ o ∧ t ∉ h.ondeath o) ∧
      (∀ x t, t ∈ h'.ondeath x ↔ t ∈ h.ondeath x ∧ t ∉ h.ondeath o) ∧
      (∀ x, Tidy (h.deps x) → Tidy (h'.deps x)) := by
  obtain ⟨h1, e1, I1, L1, b1, d1, t1⟩ := destroyLoop_spec hI ho ht
  have hmem : ∀ t, t ∈ ord.nat (h1.ondeath o) ↔ t ∈ h.ondeath o := by
    intro t; rw [(ord.nat_perm _).mem_iff, L1.2]
  obtain ⟨h2, e2, I2, a2, o2, d2, k2, t2⟩ := destroyAll_spec (h := h1) ord (l := ord.nat (h1.ondeath o)) I1
    ((ord.nat_perm _).nodup_iff.2 (I1.ondeathNodup o)) (by
      intro s hs
      exact (I1.killAlive o s ((ord.nat_perm _).mem_iff.1 hs)).1)
  simp only [hmem] at a2 d2 k2
  have hdep : ∀ x j t, Dep h2 x j t ↔ Dep h x j t ∧ x ≠ o ∧ t ∉ h.ondeath o := by
    intro x j t; rw [d2, d1]; tauto
  have hod : ∀ x t, t ∈ h2.ondeath x ↔ t ∈ h.ondeath x ∧ t ∉ h.ondeath o := by
    intro x t; rw [k2, L1.2]
  refine ⟨{ h2 with oAlive := upd h2.oAlive o false }, ?_, ?_, ?_, ?_, hdep, hod, fun x hx => t2 x (t1 x hx)⟩
  · rw [destroyObserver, needO, if_pos ho, Outcome.ok_bind, e1]
    show forEach _ _ h1 >>= _ = _
    rw [e2]; rfl
  · constructor
    · exact I2.mirror
    · intro x j t hd
      show h2.sAlive t = true ∧ upd h2.oAlive o false x = true
      rw [upd_ne _ _ ((hdep x j t).1 hd).2.1]
      exact I2.depAlive x j t hd
    · exact I2.kill
    · intro x t hd
      show h2.sAlive t = true ∧ upd h2.oAlive o false x = true
      have h3 := (hod x t).1 hd
      rw [upd_ne]
      · exact I2.killAlive x t hd
      · rintro rfl; exact h3.2 h3.1
    · exact I2.audNodup
    · exact I2.killersNodup
    · exact I2.ondeathNodup
  · intro t
    show h2.sAlive t = true ↔ _
    rw [a2, L1.3]
  · show upd h2.oAlive o false = _
    rw [o2, L1.4]

theorem destroyObserver_abort {h : Net} {o : Nat} (ord : Ord) (hI : Inv h) (ho : h.oAlive o = true)
    (ht : ¬ Tidy (h.deps o)) (hn : ¬ AllNull (h.deps o)) : destroyObserver ord o h = .abort := by
  rw [destroyObserver, needO, if_pos ho, Outcome.ok_bind, destroyLoop_throw hI ho ht hn]
  rfl

/-! ### construction, copying, moving -/

theorem newSubject_spec {h : Net} {s : Nat} (hI : Inv h) (hs : h.sAlive s = false) :
    ∃ h', newSubject s h = .ok h' ∧ Inv h' ∧ h'.deps = h.deps ∧ h'.ondeath = h.ondeath ∧
      h'.sAlive = upd h.sAlive s true ∧ h'.oAlive = h.oAlive ∧ h'.broken = h.broken := by
  have ha : h.aud s = [] := by
    apply List.eq_nil_iff_forall_not_mem.2
    rintro ⟨o, j⟩ hm
    have := (hI.depAlive o j s ((hI.mirror o j s).2 hm)).1
    rw [hs] at this; simp at this
  have hk : h.killers s = [] := by
    apply List.eq_nil_iff_forall_not_mem.2
    intro o hm
    have := (hI.killAlive o s ((hI.kill o s).2 hm)).1
    rw [hs] at this; simp at this
  have hau : upd h.aud s [] = h.aud := by
    funext x; unfold upd; split
    · rename_i hx; rw [hx, ha]
    · rfl
  have hku : upd h.killers s [] = h.killers := by
    funext x; unfold upd; split
    · rename_i hx; rw [hx, hk]
    · rfl
  refine ⟨{ h with sAlive := upd h.sAlive s true }, by rw [newSubject, if_neg (by simp [hs]), hau, hku], ?_,
    rfl, rfl, rfl, rfl, rfl⟩
  constructor
  · exact hI.mirror
  · intro x j t hd
    have := hI.depAlive x j t hd
    show upd h.sAlive s true t = true ∧ _
    refine ⟨?_, this.2⟩
    unfold upd; split
    · rfl
    · exact this.1
  · exact hI.kill
  · intro x t hd
    have := hI.killAlive x t hd
    show upd h.sAlive s true t = true ∧ _
    refine ⟨?_, this.2⟩
    unfold upd; split
    · rfl
    · exact this.1
  · exact hI.audNodup
  · exact hI.killersNodup
  · exact hI.ondeathNodup

theorem addAll_spec {h : Net} {o : Nat} (ds : List (Option Nat)) (hI : Inv h) (ho : h.oAlive o = true)
    (hs : ∀ s, some s ∈ ds → h.sAlive s = true) :
    ∃ h', forEach (addDependency o) ds h = .ok h' ∧ Inv h' ∧ SameLife h h' ∧ h'.broken = h.broken ∧
      h'.deps = upd h.deps o (h.deps o ++ ds) := by
  induction ds generalizing h with
  | nil =>
    refine ⟨h, rfl, hI, SameLife.refl h, rfl, ?_⟩
    funext x; unfold upd; split
    · rename_i hx; rw [hx]; simp
    · rfl
  | cons d ds ih =>
    obtain ⟨h1, e1, I1, L1, b1, _, t1⟩ := addDependency_spec (d := d) hI ho (fun s h => hs s (by simp [h]))
    obtain ⟨h2, e2, I2, L2, b2, t2⟩ := ih I1 (by rw [L1.4]; exact ho) (by
      intro s hm; rw [L1.3]; exact hs s (by simp [hm]))
    refine ⟨h2, by simp [forEach, e1, e2], I2, L1.trans L2, by rw [b2, b1], ?_⟩
    rw [t2, t1]
    funext x; unfold upd; split <;> simp

/-- An observer's lifetime begun, with nothing listed. -/
def bornO (o : Nat) (r : Bool) (h : Net) : Net :=
  { h with oAlive := upd h.oAlive o true, deps := upd h.deps o [], ondeath := upd h.ondeath o [], recb := upd h.recb o r }

theorem bornO_inv {h : Net} {o : Nat} (r : Bool) (hI : Inv h) (ho : h.oAlive o = false) : Inv (bornO o r h) := by
  have hd : ∀ j s, ¬ Dep h o j s := by
    intro j s hm
    have := (hI.depAlive o j s hm).2
    rw [ho] at this; simp at this
  have hk : h.ondeath o = [] := by
    apply List.eq_nil_iff_forall_not_mem.2
    intro s hm
    have := (hI.killAlive o s hm).2
    rw [ho] at this; simp at this
  have hku : upd h.ondeath o [] = h.ondeath := by
    funext x; unfold upd; split
    · rename_i hx; rw [hx, hk]
    · rfl
  have hdep : ∀ x j t, Dep (bornO o r h) x j t ↔ Dep h x j t := by
    intro x j t
    unfold bornO Dep upd
    simp only
    split
    · rename_i hx; subst hx
      have := hd j t
      unfold Dep at this
      simp [this]
    · rfl
  have hod : (bornO o r h).ondeath = h.ondeath := hku
  constructor
  · intro x j t; rw [hdep]; exact hI.mirror x j t
  · intro x j t hm
    rw [hdep] at hm
    have := hI.depAlive x j t hm
    refine ⟨this.1, ?_⟩
    show upd h.oAlive o true x = true
    unfold upd; split
    · rfl
    · exact this.2
  · rw [hod]; exact hI.kill
  · rw [hod]
    intro x t hm
    have := hI.killAlive x t hm
    refine ⟨this.1, ?_⟩
    show upd h.oAlive o true x = true
    unfold upd; split
    · rfl
    · exact this.2
  · exact hI.audNodup
  · exact hI.killersNodup
  · rw [hod]; exact hI.ondeathNodup

theorem newObserver_spec {h : Net} {o : Nat} {ds : List (Option Nat)} (r : Bool) (hI : Inv h) (ho : h.oAlive o = false)
    (hs : ∀ s, some s ∈ ds → h.sAlive s = true) :
    ∃ h', newObserver o ds r h = .ok h' ∧ Inv h' ∧ h'.deps = upd h.deps o ds ∧
      h'.ondeath = upd h.ondeath o [] ∧ h'.sAlive = h.sAlive ∧ h'.oAlive = upd h.oAlive o true ∧
      h'.broken = h.broken := by
  obtain ⟨h', e, I, L, b, t⟩ := addAll_spec (h := bornO o r h) (o := o) ds (bornO_inv r hI ho)
    (by simp [bornO, upd_same]) hs
  refine ⟨h', by rw [newObserver, if_neg (by simp [ho])]; exact e, I, ?_, ?_, ?_, ?_, ?_⟩
  · rw [t]
    show upd (upd h.deps o []) o (upd h.deps o [] o ++ ds) = _
    funext x; unfold upd; split <;> simp
  · rw [L.2]; rfl
  · rw [L.3]; rfl
  · rw [L.4]; rfl
  · rw [b]; rfl

theorem steal_spec {h : Net} {s other : Nat} (ord : Ord) (hI : Inv h) (hs : h.sAlive s = true)
    (ho : h.sAlive other = true) :
    ∃ h', steal ord s other h = .ok h' ∧ Inv h' ∧ SameLife h h' ∧ h'.broken = h.broken ∧
      (∀ x j t, Dep h' x j t ↔ (t = s ∧ Dep h x j other) ∨ (t ≠ other ∧ Dep h x j t)) ∧
      (∀ x, Tidy (h.deps x) → Tidy (h'.deps x)) := by
  have key : ∀ (ps : List (Nat × Nat)) (g : Net), Inv g → SameLife h g →
      (∀ p ∈ ps, h.oAlive p.1 = true) →
      ∃ h', forEach (fun p => replaceDependency p.1 (some s) p.2) ps g = .ok h' ∧ Inv h' ∧ SameLife g h' ∧
        h'.broken = g.broken ∧
        (∀ x j t, Dep h' x j t ↔ (t = s ∧ (x, j) ∈ ps) ∨ ((x, j) ∉ ps ∧ Dep g x j t)) ∧
        (∀ x, Tidy (g.deps x) → Tidy (h'.deps x)) := by
    intro ps
    induction ps with
    | nil => intro g hg _ _; exact ⟨g, rfl, hg, SameLife.refl g, rfl, by simp, fun _ hx => hx⟩
    | cons p ps ih =>
      intro g hg hl hp
      obtain ⟨g1, e1, I1, L1, b1, d1, t1⟩ := replaceDependency_spec (i := p.2) (d := some s) hg
        (by rw [hl.4]; exact hp p (by simp)) (by intro t ht; rw [hl.3]; simp at ht; exact ht ▸ hs)
      obtain ⟨g2, e2, I2, L2, b2, d2, t2⟩ := ih g1 I1 (hl.trans L1) (fun q hq => hp q (by simp [hq]))
      refine ⟨g2, by simp [forEach, e1, e2], I2, L1.trans L2, by rw [b2, b1], ?_, ?_⟩
      · intro x j t
        rw [d2, d1]
        have e : ((x, j) ∈ p :: ps) ↔ ((x = p.1 ∧ j = p.2) ∨ (x, j) ∈ ps) := by
          rw [List.mem_cons, Prod.ext_iff]
        rw [e]
        simp only [Option.some.injEq]
        constructor
        · rintro (⟨a, b⟩ | ⟨a, (⟨b1, b2, b3⟩ | ⟨b, c⟩)⟩)
          · exact Or.inl ⟨a, Or.inr b⟩
          · exact Or.inl ⟨b3.symm, Or.inl ⟨b1, b2⟩⟩
          · exact Or.inr ⟨by tauto, c⟩
        · rintro (⟨a, b⟩ | ⟨a, b⟩)
          · by_cases hps : (x, j) ∈ ps
            · exact Or.inl ⟨a, hps⟩
            · refine Or.inr ⟨hps, Or.inl ?_⟩
              have := b.resolve_right hps
              exact ⟨this.1, this.2, a.symm⟩
          · right; refine ⟨by tauto, Or.inr ⟨by tauto, b⟩⟩
      · intro x hx
        apply t2
        rw [t1]
        by_cases hxp : x = p.1
        · rw [hxp, upd_same]; exact tidy_setSlot (hxp ▸ hx) _ _
        · rw [upd_ne _ _ hxp]; exact hx
  have hmem : ∀ p, p ∈ ord.pair (h.aud other) ↔ Dep h p.1 p.2 other := by
    intro p; rw [(ord.pair_perm _).mem_iff, hI.mirror]
  obtain ⟨h', e, I, L, b, d, t⟩ := key (ord.pair (h.aud other)) h hI (SameLife.refl h) (by
    intro p hp
    exact (hI.depAlive _ _ _ ((hmem p).1 hp)).2)
  refine ⟨h', by rw [steal, needS, if_pos ho, Outcome.ok_bind]; exact e, I, L, b, ?_, t⟩
  intro x j y
  rw [d]
  simp only [hmem]
  constructor
  · rintro (h1 | ⟨h1, h2⟩)
    · exact Or.inl h1
    · refine Or.inr ⟨?_, h2⟩
      rintro rfl; exact h1 h2
  · rintro (h1 | ⟨h1, h2⟩)
    · exact Or.inl h1
    · refine Or.inr ⟨?_, h2⟩
      intro h3
      unfold Dep at h2 h3
      rw [h2] at h3; simp at h3; exact h1 h3

theorem moveSubject_spec {h : Net} {s other : Nat} (ord : Ord) (hI : Inv h) (hne : s ≠ other)
    (hs : h.sAlive s = true) (ho : h.sAlive other = true) :
    ∃ h', moveSubject ord s other h = .ok h' ∧ Inv h' ∧ SameLife h h' ∧ h'.broken = h.broken ∧
      (∀ x j t, Dep h' x j t ↔ (t = s ∧ Dep h x j other) ∨ (t ≠ other ∧ Dep h x j t)) ∧
      (∀ x, Tidy (h.deps x) → Tidy (h'.deps x)) := by
  obtain ⟨g, e, I, L, b, d, t⟩ := steal_spec ord hI hs ho
  have hg : g.aud other = [] := by
    apply List.eq_nil_iff_forall_not_mem.2
    rintro ⟨x, j⟩ hm
    rw [← I.mirror, d] at hm
    rcases hm with h1 | h1
    · exact hne h1.1.symm
    · exact h1.1 rfl
  have hau : upd g.aud other [] = g.aud := by
    funext x; unfold upd; split
    · rename_i hx; rw [hx, hg]
    · rfl
  refine ⟨g, ?_, I, L, b, d, t⟩
  rw [moveSubject, if_neg hne, needS, if_pos hs, Outcome.ok_bind, e, Outcome.ok_bind, hau]

/-- What is recorded plays no part in the edges. -/
theorem Inv.setRec {h : Net} (hI : Inv h) (rb : Nat → Bool) : Inv { h with recb := rb } :=
  ⟨hI.1, hI.2, hI.3, hI.4, hI.5, hI.6, hI.7⟩

theorem detachAll_spec {h : Net} {o : Nat} (hI : Inv h) :
    ∃ aud bk, detachAll o h = .ok { h with aud := aud, book := bk } ∧ (∀ t, (aud t).Nodup) ∧
      (∀ x j t, (x, j) ∈ aud t ↔ Dep h x j t ∧ x ≠ o) := by
  have key : ∀ k, k ≤ (h.deps o).length → ∃ aud bk,
      forEach (fun i h => match (h.deps o)[i]? with
        | some (some s) => detach s o i h
        | _ => .ok h) (List.range k) h = .ok { h with aud := aud, book := bk } ∧ (∀ t, (aud t).Nodup) ∧
      (∀ x j t, (x, j) ∈ aud t ↔ Dep h x j t ∧ ¬ (x = o ∧ j < k)) := by
    intro k
    induction k with
    | zero => intro _; exact ⟨h.aud, h.book, rfl, hI.audNodup, by intro x j t; rw [← hI.mirror]; simp⟩
    | succ k ih =>
      intro hk
      obtain ⟨aud, bk, e, n, m⟩ := ih (by omega)
      rw [List.range_succ, forEach_append, e, Outcome.ok_bind, forEach]
      cases hg : (h.deps o)[k]? with
      | none => rw [List.getElem?_eq_none_iff] at hg; omega
      | some v =>
        cases v with
        | none =>
          refine ⟨aud, bk, by simp only; rfl, n, ?_⟩
          intro x j t
          rw [m]
          constructor
          · rintro ⟨h1, h2⟩
            refine ⟨h1, ?_⟩
            rintro ⟨rfl, h3⟩
            have : j = k := by omega
            subst this
            unfold Dep at h1
            rw [hg] at h1; simp at h1
          · rintro ⟨h1, h2⟩
            exact ⟨h1, fun h3 => h2 ⟨h3.1, by omega⟩⟩
        | some s =>
          have hs := (hI.depAlive o k s hg).1
          refine ⟨_, _, by simp only; rw [detach_eq (h := { h with aud := aud, book := bk }) o k hs]; rfl,
            nodup_detach (h := { h with aud := aud }) n, ?_⟩
          intro x j t
          rw [mem_detach (h := { h with aud := aud }), m]
          constructor
          · rintro ⟨⟨h1, h2⟩, h3⟩
            refine ⟨h1, ?_⟩
            rintro ⟨rfl, h4⟩
            by_cases hj : j = k
            · subst hj
              unfold Dep at h1
              rw [hg] at h1
              simp at h1
              exact h3 ⟨h1.symm, rfl, rfl⟩
            · exact h2 ⟨rfl, by omega⟩
          · rintro ⟨h1, h2⟩
            exact ⟨⟨h1, fun h3 => h2 ⟨h3.1, by omega⟩⟩, fun h3 => h2 ⟨h3.2.1, by omega⟩⟩
  obtain ⟨aud, bk, e, n, m⟩ := key _ (Nat.le_refl _)
  refine ⟨aud, bk, e, n, ?_⟩
  intro x j t
  rw [m]
  constructor
  · rintro ⟨h1, h2⟩
    refine ⟨h1, ?_⟩
    rintro rfl
    apply h2
    refine ⟨rfl, ?_⟩
    by_contra hc
    unfold Dep at h1
    rw [List.getElem?_eq_none (by omega)] at h1; simp at h1
  · rintro ⟨h1, h2⟩
    exact ⟨h1, fun h3 => h2 h3.1⟩

/-- The net in which `o` has given up all its dependencies. -/
theorem cleared_inv {h : Net} {o : Nat} {aud : Nat → List (Nat × Nat)} {bk : Record.Rec} {rb : Nat → Bool} (hI : Inv h)
    (hn : ∀ t, (aud t).Nodup) (hm : ∀ x j t, (x, j) ∈ aud t ↔ Dep h x j t ∧ x ≠ o) :
    Inv { h with aud := aud, book := bk, recb := rb, deps := upd h.deps o [] } := by
  refine hI.mk' ⟨rfl, rfl, rfl, rfl⟩ ?_ ?_ hn
  · intro x j t
    rw [dep_upd]
    show _ ↔ (x, j) ∈ aud t
    rw [hm]
    simp
    tauto
  · intro x j t
    rw [dep_upd]
    rintro (h1 | h1)
    · simp at h1
    · exact hI.depAlive x j t h1.2

theorem copyObserver_spec {h : Net} {o other : Nat} (hI : Inv h) (hne : o ≠ other) (ho : h.oAlive o = true)
    (hother : h.oAlive other = true) :
    ∃ h', copyObserver o other h = .ok h' ∧ Inv h' ∧ SameLife h h' ∧ h'.broken = h.broken ∧
      h'.deps = upd h.deps o (((h.deps other).filterMap id).map some) := by
  obtain ⟨aud, bk, e, n, m⟩ := detachAll_spec (h := { h with recb := upd h.recb o (h.recb other) }) (o := o) (hI.setRec _)
  have hI' := cleared_inv (bk := bk) (rb := upd h.recb o (h.recb other)) hI n m
  obtain ⟨h', e', I', L', b', t'⟩ := addAll_spec (o := o) (((h.deps other).filterMap id).map some) hI' ho (by
    intro s hs
    simp only [List.mem_map, List.mem_filterMap, id] at hs
    obtain ⟨a, ⟨b, hb, hb'⟩, ha⟩ := hs
    simp at ha; subst ha; subst hb'
    obtain ⟨j, hj⟩ := List.mem_iff_getElem?.1 hb
    exact (hI.depAlive other j a hj).1)
  refine ⟨h', ?_, I', ⟨L'.1, L'.2, L'.3, L'.4⟩, b', ?_⟩
  · rw [copyObserver, needO, if_pos ho, Outcome.ok_bind, needO, if_pos hother, Outcome.ok_bind, if_neg hne, e,
      Outcome.ok_bind, ← e']
    clear e'
    generalize ({ h with aud := aud, book := bk, recb := upd h.recb o (h.recb other), deps := upd h.deps o [] } : Net) = g
    show forEach (fun s => addDependency o (some s)) (List.filterMap id (h.deps other)) g = _
    generalize List.filterMap id (h.deps other) = l
    induction l generalizing g with
    | nil => rfl
    | cons a l ih =>
      simp only [List.map_cons, forEach]
      cases addDependency o (some a) g <;> simp [ih]
  · rw [t']
    show upd (upd h.deps o []) o (upd h.deps o [] o ++ _) = _
    rw [upd_same, List.nil_append]
    funext x; unfold upd; split
    · rfl
    · simp

theorem moveObserver_spec {h : Net} {o other : Nat} (hI : Inv h) (hne : o ≠ other) (ho : h.oAlive o = true)
    (hother : h.oAlive other = true) :
    ∃ h', moveObserver o other h = .ok h' ∧ Inv h' ∧ SameLife h h' ∧ h'.broken = h.broken ∧
      h'.deps = upd (upd h.deps o (h.deps other)) other [] := by
  obtain ⟨aud0, bk0, e, n, m⟩ := detachAll_spec (h := { h with recb := upd h.recb o (h.recb other) }) (o := o) (hI.setRec _)
  have hdo : upd (upd h.deps o (h.deps other)) other [] o = h.deps other := by
    rw [upd_ne _ _ hne, upd_same]
  have key : ∀ k, k ≤ (h.deps other).length → ∃ aud bk,
      forEach (moveSlot o other) (List.range k)
        { h with aud := aud0, book := bk0, recb := upd h.recb o (h.recb other), deps := upd (upd h.deps o (h.deps other)) other [] } =
        .ok { h with aud := aud, book := bk, recb := upd h.recb o (h.recb other), deps := upd (upd h.deps o (h.deps other)) other [] } ∧
      (∀ t, (aud t).Nodup) ∧
      (∀ x j t, (x, j) ∈ aud t ↔ (x ≠ o ∧ Dep h x j t ∧ ¬ (x = other ∧ j < k)) ∨
        (x = o ∧ j < k ∧ Dep h other j t)) := by
    intro k
    induction k with
    | zero =>
      intro _
      refine ⟨aud0, bk0, rfl, n, ?_⟩
      intro x j t; rw [m]; simp; tauto
    | succ k ih =>
      intro hk
      obtain ⟨aud, bk, e, n, m⟩ := ih (by omega)
      rw [List.range_succ, forEach_append, e, Outcome.ok_bind, forEach, moveSlot]
      simp only [hdo]
      cases hg : (h.deps other)[k]? with
      | none => rw [List.getElem?_eq_none_iff] at hg; omega
      | some v =>
        cases v with
        | none =>
          refine ⟨aud, bk, by simp only; rfl, n, ?_⟩
          have hnd : ∀ t, ¬ Dep h other k t := by intro t; unfold Dep; rw [hg]; simp
          intro x j t
          rw [m]
          by_cases hj : j = k
          · subst hj
            have := hnd t
            by_cases hx : x = other
            · subst hx; simp [this]
            · simp [this, hx]
          · have : j < k ↔ j < k + 1 := by omega
            simp [this]
        | some s =>
          have hs := (hI.depAlive other k s hg).1
          obtain ⟨aud1, bk1, ha1, hn1, hm1⟩ : ∃ (aud1 : Nat → List (Nat × Nat)) (bk1 : Record.Rec),
              attach s o k { h with aud := aud, book := bk, recb := upd h.recb o (h.recb other), deps := upd (upd h.deps o (h.deps other)) other [] } =
                .ok { h with aud := aud1, book := bk1, recb := upd h.recb o (h.recb other), deps := upd (upd h.deps o (h.deps other)) other [] } ∧
              (∀ t, (aud1 t).Nodup) ∧
              ∀ x j t, (x, j) ∈ aud1 t ↔ (x, j) ∈ aud t ∨ (t = s ∧ x = o ∧ j = k) :=
            ⟨_, _, attach_eq (h := { h with aud := aud, book := bk, recb := upd h.recb o (h.recb other), deps := upd (upd h.deps o (h.deps other)) other [] }) o k hs,
              nodup_attach (h := { h with aud := aud }) n, fun x j t => mem_attach (h := { h with aud := aud })⟩
          obtain ⟨aud2, bk2, ha2, hn2, hm2⟩ : ∃ (aud2 : Nat → List (Nat × Nat)) (bk2 : Record.Rec),
              detach s other k { h with aud := aud1, book := bk1, recb := upd h.recb o (h.recb other), deps := upd (upd h.deps o (h.deps other)) other [] } =
                .ok { h with aud := aud2, book := bk2, recb := upd h.recb o (h.recb other), deps := upd (upd h.deps o (h.deps other)) other [] } ∧
              (∀ t, (aud2 t).Nodup) ∧
              ∀ x j t, (x, j) ∈ aud2 t ↔ (x, j) ∈ aud1 t ∧ ¬ (t = s ∧ x = other ∧ j = k) :=
            ⟨_, _, detach_eq (h := { h with aud := aud1, book := bk1, recb := upd h.recb o (h.recb other), deps := upd (upd h.deps o (h.deps other)) other [] }) other k hs,
              nodup_detach (h := { h with aud := aud1 }) hn1, fun x j t => mem_detach (h := { h with aud := aud1 })⟩
          refine ⟨aud2, bk2, by simp only; rw [ha1, Outcome.ok_bind, ha2]; rfl, hn2, ?_⟩
          have hdk : ∀ t, Dep h other k t ↔ t = s := by intro t; unfold Dep; rw [hg]; simp [eq_comm]
          intro x j t
          rw [hm2, hm1, m]
          by_cases hj : j = k
          · subst hj
            by_cases hx : x = other
            · subst hx
              have : x ≠ o := fun h => hne h.symm
              simp [this, hdk]
            · by_cases hxo : x = o
              · subst hxo; simp [hdk, hx]
              · simp [hx, hxo]
          · have : j < k ↔ j < k + 1 := by omega
            simp [this, hj]
  obtain ⟨aud, bk, e', n', m'⟩ := key _ (Nat.le_refl _)
  have hlt : ∀ j t, Dep h other j t → j < (h.deps other).length := by
    intro j t h1
    by_contra hc
    unfold Dep at h1
    rw [List.getElem?_eq_none (by omega)] at h1; simp at h1
  have hdep : ∀ x j t, Dep { h with aud := aud, book := bk, recb := upd h.recb o (h.recb other), deps := upd (upd h.deps o (h.deps other)) other [] } x j t ↔
      (x = o ∧ Dep h other j t) ∨ (x ≠ o ∧ x ≠ other ∧ Dep h x j t) := by
    intro x j t
    unfold Dep
    by_cases hx : x = other
    · subst hx
      have : x ≠ o := fun h => hne h.symm
      simp [upd_same, this]
    · by_cases hxo : x = o
      · subst hxo; simp [upd_ne _ _ hx, upd_same]
      · simp [upd_ne _ _ hx, upd_ne _ _ hxo, hx, hxo]
  refine ⟨{ h with aud := aud, book := bk, recb := upd h.recb o (h.recb other), deps := upd (upd h.deps o (h.deps other)) other [] }, ?_, ?_,
    ⟨rfl, rfl, rfl, rfl⟩, rfl, rfl⟩
  · rw [moveObserver, needO, if_pos ho, Outcome.ok_bind, needO, if_pos hother, Outcome.ok_bind, if_neg hne, e,
      Outcome.ok_bind]
    exact e'
  · refine hI.mk' ⟨rfl, rfl, rfl, rfl⟩ ?_ ?_ n'
    · intro x j t
      rw [hdep]
      show _ ↔ (x, j) ∈ aud t
      rw [m']
      constructor
      · rintro (⟨h1, h2⟩ | ⟨h1, h2, h3⟩)
        · exact Or.inr ⟨h1, hlt j t h2, h2⟩
        · exact Or.inl ⟨h1, h3, fun h4 => h2 h4.1⟩
      · rintro (⟨h1, h2, h3⟩ | ⟨h1, h2, h3⟩)
        · refine Or.inr ⟨h1, ?_, h2⟩
          rintro rfl
          exact h3 ⟨rfl, hlt j t h2⟩
        · exact Or.inl ⟨h1, h3⟩
    · intro x j t
      rw [hdep]
      rintro (⟨rfl, h2⟩ | ⟨h1, h2, h3⟩)
      · exact ⟨(hI.depAlive _ _ _ h2).1, ho⟩
      · exact hI.depAlive _ _ _ h3

end React
end Verif
