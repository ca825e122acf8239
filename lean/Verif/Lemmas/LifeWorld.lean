import Verif.Lemmas.LifeStep
/-! # Lemmas about lifetimes: consequences -/
namespace Verif
namespace Life
open Spec.Life (World Slot Holds Dies Unheld Legal Throws Node Ptr Reached Uses)

/-- Facts about every world a client can reach. -/
structure Sane (W : World) : Prop where
  args : ∀ k a, W.live k → (W.kind k = .op ∨ W.kind k = .gen) → a ∈ W.args k → Node W a
  slot : ∀ p s, W.live p → W.kind p = .ptr → W.slot p = .at s → Node W s
  grads : ∀ v w, w ∈ W.grads v → W.kind v = .op ∧ W.kind w = .ptr
  gradLive : ∀ v w, w ∈ W.grads v → W.live v → W.live w

theorem sane {W : World} {h : Heap} (G : Good h) (R : Rep W h) : Sane W := by
  have node : ∀ o c, Holds W o c → Node W c := by
    intro o c hc
    obtain ⟨i, hm⟩ := (holds_iff R G.inv).1 hc
    refine ⟨(R.live c).2 (G.inv.live _ _ _ hm).1, ?_⟩
    intro hk
    rw [← R.kind] at hk
    rw [G.inv.ptrAud c hk] at hm; simp at hm
  refine ⟨?_, ?_, ?_, ?_⟩
  · intro k a h1 h2 h3; exact node k a ⟨h1, Or.inl ⟨h2, h3⟩⟩
  · intro p s h1 h2 h3; exact node p s ⟨h1, Or.inr ⟨h2, h3⟩⟩
  · intro v w hw
    rw [← R.grads] at hw
    rw [← R.kind]; exact G.inv.cacheKind v w hw
  · intro v w hw hv
    rw [← R.grads] at hw
    exact (R.live w).2 (G.inv.cacheLive v w hw ((R.live v).1 hv) (G.quiet v))

/-- Deaths by loss of the last holder only. -/
inductive Orph (W : World) (S : Nat → Prop) : Nat → Prop
  | seed {k : Nat} : S k → Orph W S k
  | orphan {c o : Nat} : (W.kind c = .const ∨ W.kind c = .gen) → Holds W o c → (∀ x, Holds W x c → Orph W S x) → Orph W S c

theorem dies_orph {W : World} {s k : Nat} (hg : ∀ v w, w ∈ W.grads v → W.kind v = .op) (h : Dies W (Unheld W s) k) :
    Orph W (Unheld W s) k := by
  have hloose : ∀ k, Orph W (Unheld W s) k → W.kind k = .const ∨ W.kind k = .gen := by
    intro k hk
    cases hk with
    | seed h1 => rw [h1.1]; exact h1.2.1
    | orphan h1 _ _ => exact h1
  induction h with
  | seed h1 => exact .seed h1
  | @broken k t h1 h2 h3 _ ih =>
    have hh : Holds W k t := ⟨h2, Or.inl ⟨h1, h3⟩⟩
    cases ih with
    | seed h4 => exact absurd hh (by rw [h4.1]; exact h4.2.2 k)
    | orphan _ _ h4 => exact h4 k hh
  | orphan h1 _ h3 _ ih => exact .orphan h1 h3 ih
  | @own v w h1 _ ih =>
    have := hloose v ih
    rw [hg v w h1] at this; simp at this

theorem orph_loose {W : World} {s k : Nat} (hk : Orph W (Unheld W s) k) : W.kind k = .const ∨ W.kind k = .gen := by
  cases hk with
  | seed h1 => rw [h1.1]; exact h1.2.1
  | orphan h1 _ _ => exact h1

/-- What a smart pointer holds is not lost. -/
theorem held_survives {W : World} {s q t : Nat} (hg : ∀ v w, w ∈ W.grads v → W.kind v = .op) (hq : W.kind q = .ptr) (hh : Holds W q t) :
    ¬ Dies W (Unheld W s) t := by
  intro h
  cases dies_orph hg h with
  | seed h1 => rw [h1.1] at hh; exact h1.2.2 q hh
  | orphan _ _ h1 =>
    have := orph_loose (h1 q hh)
    rw [hq] at this; simp at this

/-- What a release does to the rest. -/
theorem repoint_facts {W : World} {p : Nat} {tgt : Slot} (hg : ∀ v w, w ∈ W.grads v → W.kind v = .op)
    (hp : W.live p) (hk : W.kind p = .ptr) :
    (W.repoint p tgt).kind = W.kind ∧ (W.repoint p tgt).args = W.args ∧ (W.repoint p tgt).grads = W.grads ∧
    (W.repoint p tgt).next = W.next ∧
    (W.repoint p tgt).slot p = tgt ∧
    (∀ q, q ≠ p → W.live q → W.kind q = .ptr → (W.repoint p tgt).slot q = W.slot q) ∧
    (∀ k, (W.repoint p tgt).live k → W.live k) ∧
    ∀ k, W.live k → ¬ (W.repoint p tgt).live k → W.kind k = .const ∨ W.kind k = .gen := by
  have hpp : (W.point p tgt).slot p = tgt := if_pos rfl
  have hpq : ∀ q, q ≠ p → (W.point p tgt).slot q = W.slot q := fun q h => if_neg h
  by_cases hs : ∃ s, W.slot p = .at s
  · obtain ⟨s, hs⟩ := hs
    have e : W.repoint p tgt = (W.point p tgt).without (Unheld (W.point p tgt) s) := by unfold World.repoint; rw [hs]
    rw [e]
    have keep : ∀ q, W.live q → W.kind q = .ptr →
        ((W.point p tgt).without (Unheld (W.point p tgt) s)).slot q = (W.point p tgt).slot q := by
      intro q h1 h2
      refine if_neg ?_
      rintro ⟨t, h3, h4⟩
      exact held_survives (W := W.point p tgt) hg (q := q) h2 ⟨h1, Or.inr ⟨h2, h3⟩⟩ h4
    refine ⟨rfl, rfl, rfl, rfl, (keep p hp hk).trans hpp, fun q h1 h2 h3 => (keep q h2 h3).trans (hpq q h1), fun k h => h.1, ?_⟩
    intro k h1 h2
    have h3 : Dies (W.point p tgt) (Unheld (W.point p tgt) s) k := by
      by_contra hc
      exact h2 ⟨h1, hc⟩
    exact orph_loose (W := W.point p tgt) (dies_orph (W := W.point p tgt) hg h3)
  · rw [repoint_other (fun s h => hs ⟨s, h⟩)]
    exact ⟨rfl, rfl, rfl, rfl, hpp, fun q h _ _ => hpq q h, fun _ h => h, fun k h1 h2 => absurd h1 h2⟩

theorem Uses_snoc {W : World} {k m n : Nat} (h : Uses W k m) (hm : W.live m) (hk : W.kind m = .op ∨ W.kind m = .gen) (hn : n ∈ W.args m) :
    Uses W k n := by
  induction h with
  | refl _ => exact .step hm hk hn (.refl n)
  | step h1 h2 h3 _ ih => exact .step h1 h2 h3 (ih hm hk hn)

theorem Uses_trans {W : World} {a b c : Nat} (h : Uses W a b) (h' : Uses W b c) : Uses W a c := by
  induction h with
  | refl _ => exact h'
  | step h1 h2 h3 _ ih => exact .step h1 h2 h3 (ih h')

/-- The last step of a chain. -/
theorem Uses_last {W : World} {k n : Nat} (h : Uses W k n) : k = n ∨ ∃ m, Uses W k m ∧ W.live m ∧ (W.kind m = .op ∨ W.kind m = .gen) ∧ n ∈ W.args m := by
  induction h with
  | refl _ => exact Or.inl rfl
  | @step k a n h1 h2 h3 _ ih =>
    right
    rcases ih with rfl | ⟨m, h5, h6⟩
    · exact ⟨k, .refl k, h1, h2, h3⟩
    · exact ⟨m, .step h1 h2 h3 h5, h6⟩

theorem op_dies {W : World} {n x : Nat} (S : Sane W) (hx : W.kind x = .op) : Dies W (fun k => k = n) x ↔ Uses W x n := by
  constructor
  · intro h
    have main : ∀ s, Dies W (fun k => k = n) s → ∀ x, W.kind x = .op → Uses W x s → Uses W x n := by
      intro s hs
      induction hs with
      | seed h1 => intro x _ hu; rw [← h1]; exact hu
      | broken h1 h2 h3 _ ih => intro x hx hu; exact ih x hx (Uses_snoc hu h2 h1 h3)
      | orphan h1 _ _ _ ih =>
        intro x hx hu
        rcases Uses_last hu with rfl | ⟨m, h5, h6, h7, h8⟩
        · rw [hx] at h1; simp at h1
        · exact ih m ⟨h6, Or.inl ⟨h7, h8⟩⟩ x hx h5
      | own h1 _ _ =>
        intro x hx hu
        have hk := (S.grads _ _ h1).2
        rcases Uses_last hu with rfl | ⟨m, h5, h6, h7, h8⟩
        · rw [hx] at hk; simp at hk
        · exact absurd hk (S.args m _ h6 h7 h8).2
    exact main x h x hx (.refl x)
  · intro h
    have main : ∀ x m, Uses W x m → m = n → Dies W (fun k => k = n) x := by
      intro x m hu
      induction hu with
      | refl m => intro h; exact .seed h
      | step h1 h2 h3 _ ih => intro h; exact .broken h2 h1 h3 (ih h)
    exact main x n h rfl

end Life
end Verif
