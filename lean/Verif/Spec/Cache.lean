/-! # Specification vocabulary for the shareable cache -/
namespace Verif.Spec

/-- The latest value of each key, in the order of last update. -/
def latest {K T : Type} [DecidableEq K] (hasher : T → K) (ds : List T) : List T :=
  ds.foldl (fun l d => l.filter (fun x => hasher x ≠ hasher d) ++ [d]) []

end Verif.Spec
