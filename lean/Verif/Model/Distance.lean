import Mathlib.Analysis.SpecialFunctions.Trigonometric.Arctan
import Mathlib.Analysis.SpecialFunctions.Pow.Real
import Mathlib.Analysis.Real.Sqrt
import Verif.Model.KernelCuda

/-!
# Model of the distance classes

`arma::mat` arguments whose shape the code checks are dynamic matrices `DynMat`; `arma::vec` results are lists.
A method that changes the object and may throw returns the new object state together with its outcome, because the state
after an exception is observable.
-/

namespace Verif.Model
open Verif

/-- A matrix whose shape is known at run time only (`arma::mat`): entries outside the shape are meaningless. -/
structure DynMat where
  nRows : ℕ
  nCols : ℕ
  val : ℕ → ℕ → ℝ

/-- include/gwmodelpp/spatialweight/Distance.h:19 `DistParamVariant = std::variant<arma::mat, arma::vec, arma::uword>`. -/
inductive DistParam
  | mat (m : DynMat)
  | vec (v : List ℝ)
  | uword (n : ℕ)

/-- `std::get<arma::mat>`. -/
def DistParam.getMat : DistParam → Res DynMat
  | .mat m => .ok m
  | _ => .throw .variant

/-- `std::get<arma::vec>`. -/
def DistParam.getVec : DistParam → Res (List ℝ)
  | .vec v => .ok v
  | _ => .throw .variant

/-- `std::get<arma::uword>`. -/
def DistParam.getUword : DistParam → Res ℕ
  | .uword n => .ok n
  | _ => .throw .variant

/-! ## CRSDistance -/

/-- One row of CRSDistance.h:96-100 `EuclideanDistance`: `sqrt(sum(diff % diff, 1))` for two columns. -/
noncomputable def euclid (out inn : ℕ → ℝ) : ℝ :=
  √((inn 0 - out 0) * (inn 0 - out 0) + (inn 1 - out 1) * (inn 1 - out 1))

/-- `DOUBLE_EPS` (defined in src/CMakeLists.txt:46): the tolerance of the coincidence tests. -/
noncomputable def doubleEps : ℝ := 1e-8

/-- src/gwmodelpp/spatialweight/CRSDistance.cpp:15-69 `SpGcdist`. Division by zero (`C = 0`, `S = 0`, hence `w = 0`) gives
NaN or infinity in C++: outcome `nonfinite`. -/
noncomputable def spGcdist (lon1 lon2 lat1 lat2 : ℝ) : Res ℝ :=
  let DE2RA := Real.pi / 180
  let a := 6378.137
  let f := 1.0 / 298.257223563
  if |lat1 - lat2| < doubleEps ∧ (|lon1 - lon2| < doubleEps ∨ |(|lon1| + |lon2|) - 360.0| < doubleEps) then .ok 0
  else
    let lat1R := lat1 * DE2RA
    let lat2R := lat2 * DE2RA
    let lon1R := lon1 * DE2RA
    let lon2R := lon2 * DE2RA
    let F := (lat1R + lat2R) / 2.0
    let G := (lat1R - lat2R) / 2.0
    let L := (lon1R - lon2R) / 2.0
    let sinG2 := Real.sin G ^ 2
    let cosG2 := Real.cos G ^ 2
    let sinF2 := Real.sin F ^ 2
    let cosF2 := Real.cos F ^ 2
    let sinL2 := Real.sin L ^ 2
    let cosL2 := Real.cos L ^ 2
    let S := sinG2 * cosL2 + cosF2 * sinL2
    let C := cosG2 * cosL2 + sinF2 * sinL2
    if S = 0 ∨ C = 0 then .nonfinite
    else
      let w := Real.arctan √(S / C)
      let R := √(S * C) / w
      let D := 2 * w * a
      let H1 := (3 * R - 1) / (2 * C)
      let H2 := (3 * R + 1) / (2 * S)
      .ok (D * (1 + f * H1 * sinF2 * cosG2 - f * H2 * cosF2 * sinG2))

/-- `mCalculator` (CRSDistance.h:135, 178): one element of `SpatialDistance` (CRSDistance.cpp:71-81) or of
`EuclideanDistance`, between the focus row `out` and the data row `inn`. -/
noncomputable def crsCalc (geographic : Bool) (out inn : ℕ → ℝ) : Res ℝ :=
  if geographic then spGcdist (inn 0) (out 0) (inn 1) (out 1) else .ok (euclid out inn)

/-- CRSDistance.h:211-213 the object: geographic flag and (focus points, data points). `mCalculator` is a function of the
flag after every constructor and setter, so it is not stored. -/
structure CRSDistance where
  mGeographic : Bool
  mParameter : Option (DynMat × DynMat)

/-- A loop over a list, collecting results, ended by the first abnormal one. -/
def mapRes {α β : Type*} (f : α → Res β) : List α → Res (List β)
  | [] => .ok []
  | x :: xs => (f x).bind fun y => (mapRes f xs).bind fun ys => .ok (y :: ys)

/-- `mCalculator(focusPoints.row(focus), dataPoints)`. -/
noncomputable def crsDistRow (geographic : Bool) (fp dp : DynMat) (focus : ℕ) : Res (List ℝ) :=
  mapRes (fun j => crsCalc geographic (fp.val focus) (dp.val j)) (List.range dp.nRows)

/-- CRSDistance.cpp:102-121 `makeParameter`. -/
def CRSDistance.makeParameter (d : CRSDistance) (plist : List DistParam) : CRSDistance × Res Unit :=
  match plist with
  | [p1, p2] =>
    match p1.getMat, p2.getMat with
    | .ok fp, .ok dp =>
      if fp.nCols = 2 ∧ dp.nCols = 2 then ({ d with mParameter := some (fp, dp) }, .ok ())
      else ({ d with mParameter := none }, .throw .runtime)
    | _, _ => (d, .throw .variant)
  | _ => ({ d with mParameter := none }, .throw .runtime)

/-- CRSDistance.cpp:123-132 `distance`. -/
noncomputable def CRSDistance.distance (d : CRSDistance) (focus : ℕ) : Res (List ℝ) :=
  match d.mParameter with
  | none => .throw .runtime
  | some (fp, dp) => if focus < fp.nRows then crsDistRow d.mGeographic fp dp focus else .throw .runtime

/-- Armadillo's `max` of a vector; throws if empty. -/
noncomputable def listMax : List ℝ → Res ℝ
  | [] => .throw .empty
  | x :: xs => .ok (xs.foldl max x)

/-- Armadillo's `min` of a vector; throws if empty. -/
noncomputable def listMin : List ℝ → Res ℝ
  | [] => .throw .empty
  | x :: xs => .ok (xs.foldl min x)

/-- CRSDistance.cpp:134-144 `maxDistance` (also OneDimDistance.cpp:61-71 and CRSSTDistance.cpp:122-132): loop over the
focus indices, where `row i` is the distance vector of focus `i`. -/
noncomputable def maxLoop (row : ℕ → Res (List ℝ)) : List ℕ → ℝ → Res ℝ
  | [], maxD => .ok maxD
  | i :: is, maxD =>
    (row i).bind fun r => (listMax r).bind fun d => maxLoop row is (if d > maxD then d else maxD)

/-- CRSDistance.cpp:146-156 `minDistance`'s loop. -/
noncomputable def minLoop (row : ℕ → Res (List ℝ)) : List ℕ → ℝ → Res ℝ
  | [], minD => .ok minD
  | i :: is, minD =>
    (row i).bind fun r => (listMin r).bind fun d => minLoop row is (if d < minD then d else minD)

/-- CRSDistance.cpp:134-144. -/
noncomputable def CRSDistance.maxDistance (d : CRSDistance) : Res ℝ :=
  match d.mParameter with
  | none => .throw .runtime
  | some (fp, dp) => maxLoop (crsDistRow d.mGeographic fp dp) (List.range fp.nRows) 0

/-- CRSDistance.cpp:146-156. -/
noncomputable def CRSDistance.minDistance (d : CRSDistance) : Res ℝ :=
  match d.mParameter with
  | none => .throw .runtime
  | some (fp, dp) => minLoop (crsDistRow d.mGeographic fp dp) (List.range fp.nRows) dblMax

/-- CRSDistance.cpp:83-100 copy constructor (and `clone`, CRSDistance.h:152-155): the flag and, if present, a copy of the
parameter. CUDA members not modelled. -/
def CRSDistance.clone (d : CRSDistance) : CRSDistance :=
  { mGeographic := d.mGeographic
    mParameter := match d.mParameter with
      | some (fp, dp) => some (fp, dp)
      | none => none }

/-- CRSDistance.h:133-139 constructor. -/
def CRSDistance.new (geographic : Bool) : CRSDistance := ⟨geographic, none⟩

/-- CRSDistance.h:175-182 `setGeographic`. -/
def CRSDistance.setGeographic (d : CRSDistance) (g : Bool) : CRSDistance := { d with mGeographic := g }

/-! ## MinkwoskiDistance -/

/-- MinkwoskiDistance.h:111-113: a CRSDistance with exponent and angle. -/
structure MinkwoskiDistance where
  base : CRSDistance
  mPoly : ℝ
  mTheta : ℝ

/-- MinkwoskiDistance.cpp:20-27 `CoordinateRotate`, one row. -/
noncomputable def rotate (theta : ℝ) (c : ℕ → ℝ) : ℕ → ℝ := fun k =>
  if k = 0 then c 0 * Real.cos theta - c 1 * Real.sin theta
  else c 0 * Real.sin theta + c 1 * Real.cos theta

/-- MinkwoskiDistance.h:116-119 `ChessDistance`, one row of two columns. -/
noncomputable def chessDist (out inn : ℕ → ℝ) : ℝ := max |inn 0 - out 0| |inn 1 - out 1|

/-- MinkwoskiDistance.h:121-124 `ManhattonDist`, one row. -/
noncomputable def manhattonDist (out inn : ℕ → ℝ) : ℝ := |inn 0 - out 0| + |inn 1 - out 1|

/-- MinkwoskiDistance.h:126-130 `MinkwoskiDist`: the first statement assigns an `n × 2` matrix to an `arma::vec`, which
Armadillo rejects with an exception whatever `n` is ("requested size is not compatible with column vector layout"). -/
def minkwoskiDist (_out : ℕ → ℝ) (_dp : ℕ → ℕ → ℝ) (_n : ℕ) (_p : ℝ) : Res (List ℝ) := .throw .size

/-- MinkwoskiDistance.cpp:29-51 `distance`. -/
noncomputable def MinkwoskiDistance.distance (d : MinkwoskiDistance) (focus : ℕ) : Res (List ℝ) :=
  open Classical in
  match d.base.mParameter with
  | none => .throw .runtime
  | some (fp, dp) =>
    if d.base.mGeographic then d.base.distance focus
    else if focus < fp.nRows then
      let rot := d.mPoly ≠ 2 ∧ d.mTheta ≠ 0
      let dpv := fun j => if rot then rotate d.mTheta (dp.val j) else dp.val j
      let rp := if rot then rotate d.mTheta (fp.val focus) else fp.val focus
      if d.mPoly = 1 then .ok ((List.range dp.nRows).map fun j => chessDist rp (dpv j))
      else if d.mPoly = -1 then .ok ((List.range dp.nRows).map fun j => manhattonDist rp (dpv j))
      else minkwoskiDist rp dpv dp.nRows d.mPoly
    else .throw .runtime

/-- MinkwoskiDistance.cpp:14-18 copy constructor. -/
def MinkwoskiDistance.clone (d : MinkwoskiDistance) : MinkwoskiDistance :=
  ⟨d.base.clone, d.mPoly, d.mTheta⟩

/-! ## DMatDistance -/

/-- DMatDistance.h:86-88 members; the parameter is (rowSize, total). -/
structure DMatDistance where
  mDMatFile : String
  mParameter : Option (ℕ × ℕ)

/-- DMatDistance.cpp:18-27 `makeParameter`: a wrong number of arguments drops the parameter silently. -/
def DMatDistance.makeParameter (d : DMatDistance) (plist : List DistParam) : DMatDistance × Res Unit :=
  match plist with
  | [p1, p2] =>
    match p1.getUword, p2.getUword with
    | .ok size, .ok rows => ({ d with mParameter := some (size, rows) }, .ok ())
    | _, _ => (d, .throw .variant)
  | _ => ({ d with mParameter := none }, .ok ())

/-- DMatDistance.cpp:29-42 `distance`: the reading code is commented out, an empty vector is returned. -/
def DMatDistance.distance (d : DMatDistance) (focus : ℕ) : Res (List ℝ) :=
  match d.mParameter with
  | none => .throw .runtime
  | some (_, total) => if focus ≥ total then .throw .runtime else .ok []

/-- DMatDistance.cpp:13-16 copy constructor: only the file name is copied. -/
def DMatDistance.clone (d : DMatDistance) : DMatDistance := ⟨d.mDMatFile, none⟩

/-! ## OneDimDistance -/

/-- OneDimDistance.h:110-112. -/
structure OneDimDistance where
  mParameter : Option (List ℝ × List ℝ)

/-- OneDimDistance.cpp:21-34 `makeParameter`. -/
def OneDimDistance.makeParameter (d : OneDimDistance) (plist : List DistParam) : OneDimDistance × Res Unit :=
  match plist with
  | [p1, p2] =>
    match p1.getVec, p2.getVec with
    | .ok fp, .ok dp => (⟨some (fp, dp)⟩, .ok ())
    | _, _ => (d, .throw .variant)
  | _ => (⟨none⟩, .throw .runtime)

/-- OneDimDistance.cpp:36-45 `distance` with OneDimDistance.h:48-53 `AbstractDistance`. -/
def OneDimDistance.distance (d : OneDimDistance) (focus : ℕ) : Res (List ℝ) :=
  match d.mParameter with
  | none => .throw .runtime
  | some (fp, dp) => if h : focus < fp.length then .ok (dp.map fun x => |x - fp[focus]|) else .throw .runtime

/-- OneDimDistance.cpp:47-58 `noAbsdistance`. -/
def OneDimDistance.noAbsdistance (d : OneDimDistance) (focus : ℕ) : Res (List ℝ) :=
  match d.mParameter with
  | none => .throw .runtime
  | some (fp, dp) => if h : focus < fp.length then .ok (dp.map fun x => fp[focus] - x) else .throw .runtime

/-- OneDimDistance.cpp:61-71. -/
noncomputable def OneDimDistance.maxDistance (d : OneDimDistance) : Res ℝ :=
  match d.mParameter with
  | none => .throw .runtime
  | some (fp, _) => maxLoop d.distance (List.range fp.length) 0

/-- OneDimDistance.cpp:73-83. -/
noncomputable def OneDimDistance.minDistance (d : OneDimDistance) : Res ℝ :=
  match d.mParameter with
  | none => .throw .runtime
  | some (fp, _) => minLoop d.distance (List.range fp.length) dblMax

/-- OneDimDistance.cpp:16-19 copy constructor: nothing is copied, the parameter of the copy is null. -/
def OneDimDistance.clone (_d : OneDimDistance) : OneDimDistance := ⟨none⟩

/-! ## CRSSTDistance -/

/-- CRSSTDistance.cpp:10-31 and 33-47: which calculator is stored. -/
inductive STCalc
  | orthogonal | oblique
  deriving DecidableEq

/-- CRSSTDistance.h:131-141 members. The spatial distance is modelled as a `CRSDistance` (the type GTWR uses, see the
commented casts in CRSSTDistance.cpp:62-63). `mParameter` is the number of focus points. Null inner pointers: `none`. -/
structure CRSSTDistance where
  mSpatial : Option CRSDistance
  mTemporal : Option OneDimDistance
  mLambda : ℝ
  mAngle : ℝ
  mCalc : STCalc
  mParameter : Option ℕ

/-- The sentinel written for observations of the future, CRSSTDistance.cpp:25 and 45. -/
def futureSentinel : ℝ := 10000000000000

/-- CRSSTDistance.cpp:24 / 44: one element of the combination of a spatial and a temporal distance, before the sentinel.
`c` is 1 for the orthogonal and `cos(angle)` for the oblique calculator. A negative radicand is NaN in C++; there the
sentinel overwrites it, so the value chosen by `√` for negative numbers is not observable. -/
noncomputable def stCombine (lambda c s t : ℝ) : ℝ :=
  lambda * s + (1 - lambda) * t + 2 * √(lambda * (1 - lambda) * s * t) * c

/-- CRSSTDistance.cpp:10-31 `OrthogonalSTDistance` and 33-47 `ObliqueSTDistance`. `abs(lambda - 1.0) < 1e-16` holds for
doubles in `[0,1]` only for `lambda = 1`. Vectors of different length make Armadillo throw. A negative spatial distance cannot
occur. -/
noncomputable def stDistance (cal : STCalc) (spatial : CRSDistance) (temporal : OneDimDistance) (focus : ℕ)
    (lambda angle : ℝ) : Res (List ℝ) :=
  (spatial.distance focus).bind fun sdist =>
  (if |lambda - 1| < 1e-16 then temporal.distance focus else temporal.noAbsdistance focus).bind fun tdist =>
  if sdist.length ≠ tdist.length then .throw .size
  else
    let c := match cal with
      | .orthogonal => 1
      | .oblique => Real.cos angle
    .ok (List.zipWith (fun s t => if t < 0 then futureSentinel else stCombine lambda c s t) sdist tdist)

/-- CRSSTDistance.h:100-103 `distance`: no check of `mParameter`; a null inner pointer is dereferenced. -/
noncomputable def CRSSTDistance.distance (d : CRSSTDistance) (focus : ℕ) : Res (List ℝ) :=
  match d.mSpatial, d.mTemporal with
  | some s, some t => stDistance d.mCalc s t focus d.mLambda d.mAngle
  | _, _ => .ub

/-- CRSSTDistance.cpp:49-56 default constructor. -/
noncomputable def CRSSTDistance.default : CRSSTDistance := ⟨none, none, 0, Real.pi / 2, .orthogonal, none⟩

/-- CRSSTDistance.cpp:58-66 constructor without angle: λ is stored unchecked. -/
noncomputable def CRSSTDistance.new (s : CRSDistance) (t : OneDimDistance) (lambda : ℝ) : CRSSTDistance :=
  ⟨some s.clone, some t.clone, lambda, Real.pi / 2, .orthogonal, none⟩

/-- CRSSTDistance.cpp:68-76 constructor with an angle. -/
noncomputable def CRSSTDistance.newAngle (s : CRSDistance) (t : OneDimDistance) (lambda angle : ℝ) : CRSSTDistance :=
  let a := Real.arctan (Real.tan angle)
  ⟨some s.clone, some t.clone, lambda, a, if |a - Real.pi / 2| < 1e-15 then .orthogonal else .oblique, none⟩

/-- CRSSTDistance.cpp:78-90 copy constructor: throws if the source's λ is outside `[0,1]`; copies no parameter of its own;
the inner objects are cloned (a null inner pointer is dereferenced). -/
noncomputable def CRSSTDistance.clone (d : CRSSTDistance) : Res CRSSTDistance :=
  if 0 ≤ d.mLambda ∧ d.mLambda ≤ 1 then
    match d.mSpatial, d.mTemporal with
    | some s, some t => .ok ⟨some s.clone, some t.clone, d.mLambda, d.mAngle, d.mCalc, none⟩
    | _, _ => .ub
  else .throw .runtime

/-- CRSSTDistance.h:122-129 `setLambda`. -/
noncomputable def CRSSTDistance.setLambda (d : CRSSTDistance) (lambda : ℝ) : CRSSTDistance × Res Unit :=
  if lambda ≥ 0 ∧ lambda ≤ 1 then ({ d with mLambda := lambda }, .ok ()) else (d, .throw .runtime)

/-- CRSSTDistance.cpp:92-120 `makeParameter`. If an inner `makeParameter` throws, the exception leaves this object's own
parameter as it was, but the inner objects may already have changed. -/
def CRSSTDistance.makeParameter (d : CRSSTDistance) (plist : List DistParam) : CRSSTDistance × Res Unit :=
  match plist with
  | [p1, p2, p3, p4] =>
    match p1.getMat, p2.getMat, p3.getVec, p4.getVec with
    | .ok sfp, .ok sdp, .ok tfp, .ok tdp =>
      if sfp.nRows = sdp.nRows ∧ sdp.nRows = tfp.length ∧ tfp.length = tdp.length then
        match d.mSpatial, d.mTemporal with
        | some s, some t =>
          match s.makeParameter [.mat sfp, .mat sdp] with
          | (s', .ok ()) =>
            match t.makeParameter [.vec tfp, .vec tdp] with
            | (t', .ok ()) => ({ d with mSpatial := some s', mTemporal := some t', mParameter := some sfp.nRows }, .ok ())
            | (t', r) => ({ d with mSpatial := some s', mTemporal := some t' }, r)
          | (s', r) => ({ d with mSpatial := some s' }, r)
        | _, _ => (d, .ub)
      else ({ d with mParameter := none }, .throw .runtime)
    | _, _, _, _ => (d, .throw .variant)
  | _ => ({ d with mParameter := none }, .throw .runtime)

/-- CRSSTDistance.cpp:122-132. -/
noncomputable def CRSSTDistance.maxDistance (d : CRSSTDistance) : Res ℝ :=
  match d.mParameter with
  | none => .throw .runtime
  | some total => maxLoop d.distance (List.range total) 0

/-- CRSSTDistance.cpp:134-144. -/
noncomputable def CRSSTDistance.minDistance (d : CRSSTDistance) : Res ℝ :=
  match d.mParameter with
  | none => .throw .runtime
  | some total => minLoop d.distance (List.range total) dblMax

end Verif.Model
