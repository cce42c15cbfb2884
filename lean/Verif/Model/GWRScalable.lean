import Verif.Model.GWRBasic
import Verif.Model.GWRRun
import Mathlib.Analysis.SpecialFunctions.Pow.Real

/-!
# Model of `GWRScalable`: neighbour tables, packed moment tables and the local systems they give

The minimiser of the GSL library that chooses the two parameters is not modelled: the parameters `b` (scale) and `a` (penalty) are
arbitrary. Armadillo's `sort_index` is a parameter: any permutation that sorts.
-/

namespace Verif.Model
open Verif Matrix Classical

variable {n k : ℕ}

/-! ## Neighbour tables -/

/-- GWRScalable.cpp:146, 178: `uword(bandwidth) < nDp ? uword(bandwidth) : nDp`. A negative bandwidth is excluded by `isValid`. -/
noncomputable def scaCount (bw : ℝ) (n : ℕ) : ℕ := if ⌊bw⌋₊ < n then ⌊bw⌋₊ else n

/-- GWRScalable.cpp:155-159, 183-187: the first `cnt` entries of the sorted indices; `span(0, cnt - 1)` with `cnt = 0` is out of
bounds (the unsigned difference wraps around). -/
def scaNearest (σ : Equiv.Perm (Fin n)) (cnt : ℕ) : Res (List (Fin n)) :=
  if cnt = 0 then .throw .bounds else if n < cnt then .throw .bounds else .ok ((List.ofFn σ).take cnt)

/-- A row of the table of neighbours: index and distance. `sort(d)` holds the same distances as `d` at the sorted indices. -/
abbrev NeiRow (n : ℕ) := List (Fin n × ℝ)

/-- GWRScalable.cpp:143-171 `findDataPointNeighbours`, row `i`. With CV the bandwidth is reduced by one; for 0 it wraps around and the
allocation or the access fails. With AIC the point itself, at distance 0, is put in front of the list. -/
noncomputable def scaDataNeighbours (c : Crit) (bw : ℝ) (σ : (Fin n → ℝ) → Equiv.Perm (Fin n)) (D : Fin n → Fin n → ℝ) (i : Fin n) :
    Res (NeiRow n) :=
  match c with
  | .CV => if scaCount bw n = 0 then .throw .bounds else
      (scaNearest (σ (D i)) (scaCount bw n - 1)).bind fun l => .ok (l.map fun j => (j, D i j))
  | .AIC => (scaNearest (σ (D i)) (scaCount bw n)).bind fun l => .ok ((i, 0) :: l.map fun j => (j, D i j))

/-- GWRScalable.cpp:173-191 `findNeighbours`, row of a location with distances `d` to the data points. -/
noncomputable def scaNeighbours (bw : ℝ) (σ : (Fin n → ℝ) → Equiv.Perm (Fin n)) (d : Fin n → ℝ) : Res (NeiRow n) :=
  (scaNearest (σ d) (scaCount bw n)).bind fun l => .ok (l.map fun j => (j, d j))

/-- GWRScalable.cpp:470-475 (and 306-311): the bandwidth in force after the table of neighbours has been made. -/
noncomputable def scaBw (bw : ℝ) (n : ℕ) : ℕ := if n ≤ ⌊bw⌋₊ then n - 1 else ⌊bw⌋₊

/-- GWRScalable.cpp:480, 484 (and 316, 320): the column `min(50, nBw) - 1` of the distances. Armadillo checks the index. -/
noncomputable def scaBandColumn {m : ℕ} (rows : Fin m → NeiRow n) (width : ℕ) (nBw : ℕ) : Res (Fin m → ℝ) :=
  if nBw = 0 then .throw .bounds
  else if min 50 nBw - 1 < width then .ok fun i => (((rows i).map Prod.snd)[min 50 nBw - 1]?).getD 0
  else .throw .bounds

/-- GWRScalable.cpp:466-486: the start of `fit` up to the column from which the base bandwidth is computed. Result: the table and
that column. -/
noncomputable def scaSetup (c : Crit) (bw : ℝ) (σ : (Fin n → ℝ) → Equiv.Perm (Fin n)) (D : Fin n → Fin n → ℝ) :
    Res ((Fin n → NeiRow n) × (Fin n → ℝ)) :=
  (Res.tabulate n (scaDataNeighbours c bw σ D)).bind fun rows =>
    (scaBandColumn rows (match c with | .CV => scaCount bw n - 1 | .AIC => scaCount bw n + 1) (scaBw bw n)).bind fun col =>
      .ok (rows, col)

/-- GWRScalable.cpp:477-489 (and 313-325, 359-371, 537-549): the base bandwidth from the median `m` and the base weight of a
neighbour at distance `d`; `none` for the other kernels, for which `fit` returns. -/
noncomputable def scaBaseWeight (ker : KernelType) (m d : ℝ) : Option (Res ℝ) :=
  match ker with
  | .Gaussian => some ((fdiv m (Real.sqrt 3)).bind fun band0 => (fdiv d band0).bind fun q => .ok (Real.exp (-(q ^ 2))))
  | .Exponential => some ((fdiv m 3).bind fun band0 => (fdiv d band0).bind fun q => .ok (Real.exp (-(q ^ 2))))
  | _ => none

/-! ## Packed moment tables -/

/-- GWRScalable.cpp:270-275: row `p` of `G`, the `p`-th polynomial kernel of a base weight `g`. -/
noncomputable def scaG (P p : ℕ) (g : ℝ) : ℝ := if p = 0 then 1 else g ^ ((2 : ℝ) ^ ((P : ℝ) / 2) / 2 ^ p)

/-- GWRScalable.cpp:287: the slot written by `prepare`. -/
def slotWrite (P k k1 p k2 : ℕ) : ℕ := (k1 * (P + 1) + p) * k + k2

/-- GWRScalable.cpp:29, 44: the slot read when the tables are combined. -/
def slotRead (P k k1 p k2 : ℕ) : ℕ := k1 * (P + 1) * k + p * k + k2

/-- GWRScalable.cpp:291, 32, 47: the slot of the table of responses. -/
def slotY (k p k1 : ℕ) : ℕ := p * k + k1

/-- GWRScalable.cpp:278-290: the order in which `prepare` writes. -/
def writeOrder (P k : ℕ) : List (Fin k × Fin (P + 1) × Fin k) :=
  (List.finRange k).flatMap fun k1 => (List.finRange (P + 1)).flatMap fun p => (List.finRange k).map fun k2 => (k1, p, k2)

/-- GWRScalable.cpp:278-295: the order in which `prepare` writes the table of responses. -/
def writeOrderY (P k : ℕ) : List (Fin k × Fin (P + 1)) :=
  (List.finRange k).flatMap fun k1 => (List.finRange (P + 1)).map fun p => (k1, p)

/-- GWRScalable.cpp:276-290: one column of `mMx0`, for neighbours with base weights `nei`. -/
noncomputable def tableX (P : ℕ) (x : Matrix (Fin n) (Fin k) ℝ) (nei : NeiRow n) : ℕ → ℝ :=
  (writeOrder P k).foldl (fun t q => Function.update t (slotWrite P k q.1 q.2.1 q.2.2)
    ((nei.map fun j => x j.1 q.1 * scaG P q.2.1 j.2 * x j.1 q.2.2).sum)) fun _ => 0

/-- GWRScalable.cpp:276-295: one column of `mMy0`. -/
noncomputable def tableY (P : ℕ) (x : Matrix (Fin n) (Fin k) ℝ) (y : Fin n → ℝ) (nei : NeiRow n) : ℕ → ℝ :=
  (writeOrderY P k).foldl (fun t q => Function.update t (slotY k q.2 q.1)
    ((nei.map fun j => x j.1 q.1 * scaG P q.2 j.2 * y j.1).sum)) fun _ => 0

/-- GWRScalable.cpp:19-23: `R0` before normalisation. -/
def scaPow (b : ℝ) (p : ℕ) : ℝ := b ^ (p + 1)

/-- GWRScalable.cpp:26-37: the order in which `Rx` is filled. -/
def fillOrder (P k : ℕ) : List (Fin k × Fin (P + 1) × Fin k) :=
  (List.finRange (P + 1)).flatMap fun p => (List.finRange k).flatMap fun k2 => (List.finRange k).map fun k1 => (k1, p, k2)

/-- GWRScalable.cpp:26-37: the order in which `Ry` is filled. -/
def fillOrderY (P k : ℕ) : List (Fin k × Fin (P + 1)) :=
  (List.finRange (P + 1)).flatMap fun p => (List.finRange k).map fun k2 => (k2, p)

/-- GWRScalable.cpp:25-37: `Rx` for normalised coefficients `R`. -/
noncomputable def coefX (P k : ℕ) (R : Fin (P + 1) → ℝ) : ℕ → ℝ :=
  (fillOrder P k).foldl (fun t q => Function.update t (slotRead P k q.1 q.2.1 q.2.2) (R q.2.1)) fun _ => 0

/-- GWRScalable.cpp:25-37: `Ry`. -/
noncomputable def coefY (P k : ℕ) (R : Fin (P + 1) → ℝ) : ℕ → ℝ :=
  (fillOrderY P k).foldl (fun t q => Function.update t (slotY k q.2 q.1) (R q.2)) fun _ => 0

/-- GWRScalable.cpp:38-53 (and 87-105, 433-454, 613-635): the local system for one location. Normalising divides by `sum(R0)`. -/
noncomputable def scaSystem (P : ℕ) (x : Matrix (Fin n) (Fin k) ℝ) (y : Fin n → ℝ) (nei : NeiRow n) (b a : ℝ) :
    Res (Matrix (Fin k) (Fin k) ℝ × (Fin k → ℝ)) :=
  let total := ∑ p : Fin (P + 1), scaPow b p
  if total = 0 then .nonfinite
  else
    let R := fun p : Fin (P + 1) => scaPow b p / total
    let Mx := fun s => coefX P k R s * tableX P x nei s
    let My := fun s => coefY P k R s * tableY P x y nei s
    .ok (Matrix.of (fun k1 k2 : Fin k => ∑ p : Fin (P + 1), Mx (slotRead P k k1 p k2)) + a • (xᵀ * x),
      (fun k2 : Fin k => ∑ p : Fin (P + 1), My (slotY k p k2)) + a • (xᵀ *ᵥ y))

/-! ## Local fits -/

/-- GWRScalable.cpp:638, 647 (and 455-456): the coefficients from the local system. -/
noncomputable def scaSolve (M : Matrix (Fin k) (Fin k) ℝ) (v : Fin k → ℝ) : Res (Fin k → ℝ) :=
  (invGeneral (Mᵀ * M)).bind fun r => .ok (r *ᵥ (Mᵀ *ᵥ v))

/-- GWRScalable.cpp:636-658: one location of `fitSerial`. A singular system is logged and leaves the coefficients at zero. -/
noncomputable def scaFitRow (P : ℕ) (x : Matrix (Fin n) (Fin k) ℝ) (y : Fin n → ℝ) (nei : NeiRow n) (b a : ℝ) :
    Res (Fin k → ℝ) :=
  (scaSystem P x y nei b a).bind fun s =>
    match scaSolve s.1 s.2 with
    | .ok beta => .ok beta
    | _ => .ok 0

/-- GWRScalable.cpp:638-641: the contribution of location `i` to the reported trace of the hat matrix. -/
noncomputable def scaTraceRow (P : ℕ) (x : Matrix (Fin n) (Fin k) ℝ) (y : Fin n → ℝ) (nei : NeiRow n) (b a : ℝ) (i : Fin n) : Res ℝ :=
  (scaSystem P x y nei b a).bind fun s =>
    match invGeneral (s.1ᵀ * s.1) with
    | .ok r => .ok (x i ⬝ᵥ (r *ᵥ x i))
    | _ => .ok 0

end Verif.Model
