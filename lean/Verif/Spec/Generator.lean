import Verif.Model.Generator
import Verif.Spec.Shape
/-!
# Specification vocabulary for generators (C78)

A generator is described by the answers of its dependency it has been shown, each with the state of the random engine at
that moment.
-/
namespace Verif.Spec
open Gener
variable {σ T : Type}

/-- Fully defined shapes that are equal, or of different ranks and equal without outer ones. -/
def Alike (a b : List Nat) : Prop :=
  (a.length = b.length ∧ a = b) ∨ (a.length ≠ b.length ∧ ∃ t, TrimOf a t ∧ TrimOf b t)

/-- What a generator holds after being shown a list of answers (oldest first): nothing before the first usable one; then
the shape of the answer that last changed it and the engine's state at that moment. -/
inductive Holds78 : List (σ × Status) → Option (List Nat × σ) → Prop
  | start : Holds78 [] none
  | bad {h : List (σ × Status)} {c : Option (List Nat × σ)} {g : σ} {d : Status} :
      Holds78 h c → (d.good = false ∨ ¬ Full d.shape) → Holds78 (h ++ [(g, d)]) c
  | first {h : List (σ × Status)} {g : σ} {d : Status} :
      Holds78 h none → d.good = true → Full d.shape → Holds78 (h ++ [(g, d)]) (some (d.shape, g))
  | same {h : List (σ × Status)} {s : List Nat} {g₀ g : σ} {d : Status} :
      Holds78 h (some (s, g₀)) → d.good = true → Full d.shape → Alike s d.shape → Holds78 (h ++ [(g, d)]) (some (s, g₀))
  | changed {h : List (σ × Status)} {s : List Nat} {g₀ g : σ} {d : Status} :
      Holds78 h (some (s, g₀)) → d.good = true → Full d.shape → ¬ Alike s d.shape → Holds78 (h ++ [(g, d)]) (some (d.shape, g))

/-- A generator as its user knows it: its dependency, its initializer, and the answers it was shown. -/
structure Story (σ T : Type) where
  dep : Nat
  init : Init σ T
  shown : List (σ × Status)

/-- The stories (none: moved from) along a program. -/
inductive Tells : σ → (Nat → Status) → List (Option (Story σ T)) → Ev σ T → σ → (Nat → Status) → List (Option (Story σ T)) → Prop
  | engine {g g' : σ} {D : Nat → Status} {L : List (Option (Story σ T))} : Tells g D L (.engine g') g' D L
  | get {g : σ} {D : Nat → Status} {L : List (Option (Story σ T))} {d : Nat} {i : Init σ T} :
      Tells g D L (.get d i) g D (L ++ [some ⟨d, i, [(g, D d)]⟩])
  | tell {g : σ} {D : Nat → Status} {L : List (Option (Story σ T))} {d : Nat} {s : Status} :
      Tells g D L (.tell d s) g (fun k => if k = d then s else D k)
        (L.map fun o => o.map fun y => if y.dep = d then { y with shown := y.shown ++ [(g, s)] } else y)
  | clone {g : σ} {D : Nat → Status} {L : List (Option (Story σ T))} {x : Nat} {y : Story σ T} :
      L[x]? = some (some y) → Tells g D L (.clone x) g D (L ++ [some y])
  | move {g : σ} {D : Nat → Status} {L : List (Option (Story σ T))} {x : Nat} {y : Story σ T} :
      L[x]? = some (some y) → Tells g D L (.move x) g D (L.set x none ++ [some y])
  | assign {g : σ} {D : Nat → Status} {L : List (Option (Story σ T))} {x z : Nat} {y : Story σ T} :
      x < L.length → L[z]? = some (some y) → Tells g D L (.assign x z) g D (L.set x (some y))
  | self {g : σ} {D : Nat → Status} {L : List (Option (Story σ T))} {x : Nat} :
      x < L.length → Tells g D L (.moveAssign x x) g D L
  | moveAssign {g : σ} {D : Nat → Status} {L : List (Option (Story σ T))} {x z : Nat} {y : Story σ T} :
      x < L.length → x ≠ z → L[z]? = some (some y) → Tells g D L (.moveAssign x z) g D ((L.set z none).set x (some y))

/-- Stories at the end of a program. -/
inductive TellsAll : σ → (Nat → Status) → List (Option (Story σ T)) → List (Ev σ T) → σ → (Nat → Status) → List (Option (Story σ T)) → Prop
  | nil {g : σ} {D : Nat → Status} {L : List (Option (Story σ T))} : TellsAll g D L [] g D L
  | cons {g g' g'' : σ} {D D' D'' : Nat → Status} {L L' L'' : List (Option (Story σ T))} {ev : Ev σ T} {evs : List (Ev σ T)} :
      Tells g D L ev g' D' L' → TellsAll g' D' L' evs g'' D'' L'' → TellsAll g D L (ev :: evs) g'' D'' L''

end Verif.Spec
