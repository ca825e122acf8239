import Verif.Model.Expr
/-!
# Model of absolute value, clipping and norms on buffers
(app/tenncor/src/graph/operations/elementary.ipp:439-473, 950-1089)

Elements are real numbers instead of `double`.
-/
namespace Verif
namespace Norm
open scoped Classical

/-- Unary `operator +` on a constant, elementary.ipp:443-451. -/
noncomputable def absConst (d : List ℝ) : List ℝ := d.map (fun x => |x|)

/-- … and the kernel of the node otherwise, 459-466: `return +data`. -/
def absNode (d : List ℝ) : List ℝ := d.map (fun x => x)

/-- `clip_val` on a constant, elementary.ipp:954-966 (`std::swap` of the bounds first). -/
noncomputable def clipConst (lo hi : ℝ) (d : List ℝ) : List ℝ :=
  if lo > hi then d.map (Expr.clamp hi lo) else d.map (Expr.clamp lo hi)

/-- … and the kernel of the node otherwise, 972-984; the bounds were swapped before they were captured. -/
noncomputable def clipNode (lo hi : ℝ) (d : List ℝ) : List ℝ :=
  if lo > hi then d.map (Expr.clamp hi lo) else d.map (Expr.clamp lo hi)

/-- The loop `for (T acv : acvec) l2norm += acv * acv`, elementary.ipp:1003-1008, 1046-1051. -/
noncomputable def sumSq (d : List ℝ) : ℝ := d.foldl (fun acc x => acc + x * x) 0

/-- `l2norm` of a constant, elementary.ipp:1001-1010. -/
noncomputable def l2Const (d : List ℝ) : ℝ := sumSq d

/-- The kernel of `l2norm` otherwise, elementary.ipp:1017-1028: `n_elems` is that of the *output*, whose
shape is {1}. -/
noncomputable def l2Node (d : List ℝ) : ℝ := Real.sqrt (sumSq (d.take 1))

/-- `clip_norm` of a constant, elementary.ipp:1042-1062; `assert(cap > 0)` comes first. -/
noncomputable def clipNormConst (cap : ℝ) (d : List ℝ) : Outcome (List ℝ) :=
  if cap > 0 then .ok (d.map (fun x => if l2Const d > cap then x * cap / l2Const d else x)) else .abort

/-- … and otherwise the node on `{l2norm(a), a}`, 1063-1083. -/
noncomputable def clipNormNode (cap : ℝ) (d : List ℝ) : Outcome (List ℝ) :=
  if cap > 0 then .ok (d.map (fun x => x * cap / l2Node d)) else .abort

end Norm
end Verif
