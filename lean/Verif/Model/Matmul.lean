import Verif.Model.Op
/-!
# Model of matrix multiplication (app/tenncor/src/graph/operations/matmul.ipp)

Buffers are lists; every access is bounds-checked and an access outside is `ub`.
-/
namespace Verif
namespace Matmul
variable {T : Type}

/-- `STRASSEN_THRESHOLD`, matmul.ipp:11. -/
def strassenThreshold : Nat := 256

/-- The loop of `min_pad`, matmul.ipp:18-24: `insize` and `counter`. -/
def minPadLoop (insize counter : Nat) : Nat × Nat :=
  if insize > strassenThreshold then minPadLoop ((insize + 1) / 2) (counter + 1)
  else (insize, counter)
termination_by insize
decreasing_by simp only [strassenThreshold] at *; omega

/-- `min_pad`, matmul.ipp:16-26. -/
def minPad (insize : Nat) : Nat :=
  (minPadLoop insize 0).1 * 2 ^ (minPadLoop insize 0).2

section Kernels
variable [Zero T] [Add T] [Sub T] [Mul T]

/-- The innermost statement of `cubic_mul`, matmul.ipp:37-41: `c[p] += a[aidx] * b[bidx]`. -/
def cubicInner (a b : List T) (p aidx bidx : Nat) (c : List T) : Outcome (List T) := do
  let va ← Outcome.read a aidx
  let vb ← Outcome.read b bidx
  let v ← Outcome.read c p
  Outcome.write c p (v + va * vb)

/-- `cubic_mul`, matmul.ipp:28-44; `m0..m3` is `coord_map`. -/
def cubicMul (c a b : List T) (dimX dimY dimZ m0 m1 m2 m3 : Nat) : Outcome (List T) :=
  Outcome.loop dimY (fun y c => Outcome.loop dimX (fun x c =>
    Outcome.write c (x + y * dimX) 0 >>= fun c =>
      Outcome.loop dimZ (fun z c =>
        cubicInner a b (x + y * dimX) (m0 * y + m1 * z) (m2 * x + m3 * z) c) c) c) c

/-- The sub-buffer of `len` elements at `p + off` handed to a recursive call.  The model gives the
callee exactly its quadrant: an access outside it would be `ub`.  (C++ only bounds the whole buffer;
C24 proves the callee never leaves its quadrant, so nothing is lost.) -/
def slice (buf : List T) (off len : Nat) : List T := (buf.drop off).take len

/-- The whole buffer after the callee has changed its quadrant to `s`. -/
def splice (buf : List T) (off : Nat) (s : List T) : List T :=
  buf.take off ++ s ++ buf.drop (off + s.length)

/-- Body of iteration 1 of `strassen`, matmul.ipp:90-102: partition `a` into `c`, `temp`, `temp2`. -/
def part1 (a : List T) (n q : Nat) (x y : Nat) (st : List T × List T × List T) :
    Outcome (List T × List T × List T) := do
  let i := x + q * y
  let a11 ← Outcome.read a (x + n * y)
  let a12 ← Outcome.read a (x + q + n * y)
  let a21 ← Outcome.read a (x + n * (y + q))
  let a22 ← Outcome.read a (x + q + n * (y + q))
  let c ← Outcome.write st.1 i a11
  let c ← Outcome.write c (q * q + i) (a21 + a22)
  let c ← Outcome.write c (2 * (q * q) + i) a22
  let c ← Outcome.write c (3 * (q * q) + i) (a11 + a12)
  let t1 ← Outcome.write st.2.1 i (a21 - a11)
  let t2 ← Outcome.write st.2.2 i (a12 - a22)
  return (c, t1, t2)

/-- Body of iteration 2 of `strassen`, matmul.ipp:109-119: partition `b` into `a`. -/
def part2 (b : List T) (n q : Nat) (x y : Nat) (a : List T) : Outcome (List T) := do
  let i := x + q * y
  let b11 ← Outcome.read b (x + n * y)
  let a ← Outcome.write a i b11
  let b12 ← Outcome.read b (x + q + n * y)
  let a ← Outcome.write a (q * q + i) b12
  let b21 ← Outcome.read b (x + n * (y + q))
  let a ← Outcome.write a (2 * (q * q) + i) b21
  let b22 ← Outcome.read b (x + q + n * (y + q))
  Outcome.write a (3 * (q * q) + i) b22

/-- Body of iteration 3 of `strassen`, matmul.ipp:123-131; the state is `(a, b)`. -/
def part3 (c : List T) (qs : Nat) (i : Nat) (st : List T × List T) : Outcome (List T × List T) := do
  let c0 ← Outcome.read c i
  let c2 ← Outcome.read c (2 * qs + i)
  let b ← Outcome.write st.2 i (c0 + c2)
  let a0 ← Outcome.read st.1 i
  let a3 ← Outcome.read st.1 (3 * qs + i)
  let b ← Outcome.write b (qs + i) (a0 + a3)
  let a1 ← Outcome.read st.1 (qs + i)
  let b ← Outcome.write b (2 * qs + i) (a0 + a1)
  let a2 ← Outcome.read st.1 (2 * qs + i)
  let b ← Outcome.write b (3 * qs + i) (a2 + a3)
  let a ← Outcome.write st.1 (qs + i) (a1 - a3)
  let a ← Outcome.write a (2 * qs + i) (a2 - a0)
  return (a, b)

/-- Body of the last loop of `strassen`, matmul.ipp:154-164. -/
def part4 (b t1 t2 t3 : List T) (n q : Nat) (x y : Nat) (c : List T) : Outcome (List T) := do
  let i := x + q * y
  let m1 ← Outcome.read t2 i
  let m2 ← Outcome.read b i
  let m3 ← Outcome.read b (q * q + i)
  let m4 ← Outcome.read b (2 * (q * q) + i)
  let m5 ← Outcome.read b (3 * (q * q) + i)
  let m6 ← Outcome.read t3 i
  let m7 ← Outcome.read t1 i
  let c ← Outcome.write c (x + n * y) (m1 + m4 - m5 + m7)
  let c ← Outcome.write c (x + q + n * y) (m3 + m5)
  let c ← Outcome.write c (x + n * (y + q)) (m2 + m4)
  Outcome.write c (x + q + n * (y + q)) (m1 - m2 + m3 + m6)

/-- `strassen`, matmul.ipp:46-170; `th` is `STRASSEN_THRESHOLD`, `junk` the contents of fresh
`new T[]` buffers.  Returns the final contents of `c`, `a`, `b`: all three are overwritten. -/
def strassen (th : Nat) (junk : Nat → T) (c a b : List T) (n : Nat) :
    Outcome (List T × List T × List T) :=
  if n ≤ th then
    cubicMul c a b n n n n 1 1 n >>= fun c => .ok (c, a, b)
  else do
    let q := n / 2
    let qs := q * q
    let fresh := (List.range qs).map junk
    let (c, t1, t2) ← Outcome.loop q (fun x st => Outcome.loop q (fun y st => part1 a n q x y st) st)
      (c, fresh, fresh)
    let a ← Outcome.loop q (fun x a => Outcome.loop q (fun y a => part2 b n q x y a) a) a
    let (a, b) ← Outcome.loop qs (part3 c qs) (a, b)
    let (t3, t1, b2) ← strassen th junk fresh t1 (slice b (2 * qs) qs) q
    let b := splice b (2 * qs) b2
    let (t1, t2, b3) ← strassen th junk t1 t2 (slice b (3 * qs) qs) q
    let b := splice b (3 * qs) b3
    let (t2, b0, b1) ← strassen th junk t2 (slice b 0 qs) (slice b qs qs) q
    let b := splice (splice b 0 b0) qs b1
    let (b0, c1, a0) ← strassen th junk (slice b 0 qs) (slice c qs qs) (slice a 0 qs) q
    let b := splice b 0 b0
    let c := splice c qs c1
    let a := splice a 0 a0
    let (b1, c0, a1) ← strassen th junk (slice b qs qs) (slice c 0 qs) (slice a qs qs) q
    let b := splice b qs b1
    let c := splice c 0 c0
    let a := splice a qs a1
    let (b2, c2, a2) ← strassen th junk (slice b (2 * qs) qs) (slice c (2 * qs) qs) (slice a (2 * qs) qs) q
    let b := splice b (2 * qs) b2
    let c := splice c (2 * qs) c2
    let a := splice a (2 * qs) a2
    let (b3, c3, a3) ← strassen th junk (slice b (3 * qs) qs) (slice c (3 * qs) qs) (slice a (3 * qs) qs) q
    let b := splice b (3 * qs) b3
    let c := splice c (3 * qs) c3
    let a := splice a (3 * qs) a3
    let c ← Outcome.loop q (fun x c => Outcome.loop q (fun y c => part4 b t1 t2 t3 n q x y c) c) c
    return (c, a, b)
termination_by n
decreasing_by all_goals omega

/-- Copy a row: `for (i < len) dst[doff + i] = src[soff + i]`, matmul.ipp:318-323, 326-331 (loops)
and 336 (`memcpy`). -/
def copyRow (src : List T) (doff soff len : Nat) (dst : List T) : Outcome (List T) :=
  Outcome.loop len (fun i dst => Outcome.read src (soff + i) >>= fun v => Outcome.write dst (doff + i) v) dst

/-- Run `f` on the buffer starting at `buf + off`; forming a pointer past the end is undefined. -/
def onOffset (off : Nat) (f : List T → Outcome (List T)) (buf : List T) : Outcome (List T) :=
  if off ≤ buf.length then f (buf.drop off) >>= fun s => .ok (buf.take off ++ s) else .ub

/-- One batch of the Strassen branch, matmul.ipp:308-342: pad, multiply, copy back.  `memset` of
`n_mat * sizeof(T)` bytes is modelled as filling with zero. -/
def strassenBatch (th : Nat) (junk : Nat → T) (dimPad dimX dimY dimZ : Nat) (rawa rawb rawc : List T) :
    Outcome (List T) :=
  let nMat := dimPad * dimPad
  let zeros := List.replicate nMat (0 : T)
  Outcome.loop dimY (fun y a => copyRow rawa (dimPad * y) (dimZ * y) dimZ a) zeros >>= fun a =>
  Outcome.loop dimZ (fun z b => copyRow rawb (dimPad * z) (dimX * z) dimX b) zeros >>= fun b =>
  strassen th junk ((List.range nMat).map junk) a b dimPad >>= fun r =>
  Outcome.loop dimY (fun y c => copyRow r.1 (y * dimX) (y * dimPad) dimX c) rawc

/-- The forward kernel of `matmul`, matmul.ipp:281-356; `strassenOn` is `ENABLE_STRASSEN`.
`alist[0]` and `blist[0]` of an empty list, and a division by zero, are undefined. -/
def kernel (strassenOn : Bool) (junk : Nat → T) : TransferFunc T
  | dest, [sa, sb], _, [alist, blist] =>
    match alist, blist with
    | dimZ :: _, dimX :: _ =>
      let dimY := if alist.length < 2 then 1 else alist.getD 1 0
      if dimZ * dimY = 0 then .ub
      else
        let beyond2d := Shape.nElems alist / (dimZ * dimY)
        let dimPad := minPad (max (max dimX dimY) dimZ)
        if strassenOn = true ∧ dimPad > strassenThreshold then
          Outcome.loop beyond2d (fun i dest => onOffset (i * (dimX * dimY))
            (strassenBatch strassenThreshold junk dimPad dimX dimY dimZ (sa.drop (i * (dimZ * dimY)))
              (sb.drop (i * (dimX * dimZ)))) dest) dest
        else
          Outcome.loop beyond2d (fun i dest => onOffset (i * (dimX * dimY))
            (fun rawc => cubicMul rawc (sa.drop (i * (dimZ * dimY))) (sb.drop (i * (dimX * dimZ)))
              dimX dimY dimZ dimZ 1 1 dimX) dest) dest
    | _, _ => .ub
  | _, _, _, _ => .abort

end Kernels

/-- The extents beyond the first two, checked by `matmul_shaper`, matmul.ipp:188-221. -/
def beyond2d (al bl : Shape) : Outcome Shape :=
  let minend := min al.length bl.length
  if minend > 2 then
    if (al.take minend).drop 2 = (bl.take minend).drop 2 then
      if ((if al.length > bl.length then al else bl).drop minend).all (· == 1) then
        .ok ((al.take minend).drop 2)
      else .throw .logicError
    else .throw .logicError
  else .ok []

/-- `matmul_shaper`, matmul.ipp:172-241. -/
def shaper : Shaper
  | [al, bl] =>
    let ax := al.getD 0 0
    let ay := if al.length > 1 then al.getD 1 0 else 1
    let bx := bl.getD 0 0
    let byy := if bl.length > 1 then bl.getD 1 0 else 1
    beyond2d al bl >>= fun rest =>
      if ax = byy then .ok (bx :: ay :: rest) else .throw .logicError
  | _ => .ub

end Matmul
end Verif
