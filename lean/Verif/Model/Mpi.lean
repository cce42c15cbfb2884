import Verif.Model.GWRBasic

/-!
# Model of the MPI code: work ranges, gathering of results, distributed matrix product

A run over `P` processes; process 0 is the master. Messages from workers arrive in any order. Each worker sends each of its
messages exactly once and MPI delivers each exactly once (trusted). Collective calls (`MPI_Bcast`, `MPI_Allreduce`, …) compute
what the MPI standard says. If a process ends with an exception the others wait for ever; such runs have the outcome of the
failing process.
-/

namespace Verif.Model
open Verif Matrix Classical

variable {n k P : ℕ}

/-- GWRBasic.cpp:75 `mWorkRangeSize = nDp / W + ((nDp % W == 0) ? 0 : 1)`. -/
def mpiRangeSize (n P : ℕ) : ℕ := n / P + if n % P = 0 then 0 else 1

/-- GWRBasic.cpp:96 `workRangeFrom` of process `q`. -/
def mpiFrom (n P q : ℕ) : ℕ := q * mpiRangeSize n P

/-- GWRBasic.cpp:98 the end of the range of process `q`. -/
def mpiTo (n P q : ℕ) : ℕ := min (mpiFrom n P q + mpiRangeSize n P) n

/-- GWRBasic.cpp:26-34 message tags of the fit. -/
inductive FitTag
  | Betas | BetasSE | SHat | QDiag
  deriving DecidableEq

/-- GWRBasic.cpp:946-951 what the master assembles. -/
structure MpiFit (n k P : ℕ) where
  betas : Matrix (Fin n) (Fin k) ℝ
  se : Matrix (Fin n) (Fin k) ℝ
  shatAll : Fin P → Fin 2 → ℝ
  qdiagAll : Fin P → Fin n → ℝ

/-- GWRBasic.cpp:955-979 one received message: source and tag; the payload is what the source computed for its range. -/
def mpiRecv (acc : Fin P → FitAcc n k) (m : MpiFit n k P) : Fin P × FitTag → MpiFit n k P
  | (q, .Betas) => { m with betas := fun i => if mpiFrom n P q ≤ i.val ∧ i.val < mpiTo n P q then (acc q).betas i else m.betas i }
  | (q, .BetasSE) => { m with se := fun i => if mpiFrom n P q ≤ i.val ∧ i.val < mpiTo n P q then (acc q).se i else m.se i }
  | (q, .SHat) => { m with shatAll := Function.update m.shatAll q (acc q).shat }
  | (q, .QDiag) => { m with qdiagAll := Function.update m.qdiagAll q (acc q).qdiag }

/-- What every process has after a distributed fit (before the standard errors are scaled). -/
structure MpiResult (n k : ℕ) where
  betas : Matrix (Fin n) (Fin k) ℝ
  se : Matrix (Fin n) (Fin k) ℝ
  shat : Fin 2 → ℝ
  qdiag : Fin n → ℝ

/-- GWRBasic.cpp:937-1021 `fitMpi` with serial cores on `p + 1` processes, messages arriving in the order `msgs`. `g1`, `g2` are
the unspecified initial contents of `shat_all`, `qdiag_all`. A worker with an empty range throws at
`mBetas.cols(first, second - 1)` (GWRBasic.cpp:997), or before that when allocating `mS` with the wrapped-around unsigned
`second - first`. -/
noncomputable def fitMpi (p : ℕ) (x : Matrix (Fin n) (Fin k) ℝ) (y : Fin n → ℝ) (W : Fin n → Fin n → ℝ) (sS sC : Bool)
    (g1 : Fin (p + 1) → Fin 2 → ℝ) (g2 : Fin (p + 1) → Fin n → ℝ) (msgs : List (Fin (p + 1) × FitTag)) : Res (MpiResult n k) :=
  if ∃ q : Fin (p + 1), q ≠ 0 ∧ mpiTo n (p + 1) q ≤ mpiFrom n (p + 1) q then .throw .bounds
  else
    (Res.tabulate (p + 1) fun q => fitCoreSerial x y W (mpiFrom n (p + 1) q) (mpiTo n (p + 1) q) sS sC (fun _ => false)).bind fun r =>
      let acc := fun q => (r q).1
      let m := msgs.foldl (mpiRecv acc)
        ⟨(acc 0).betas, (acc 0).se, Function.update g1 0 (acc 0).shat, Function.update g2 0 (acc 0).qdiag⟩
      .ok ⟨m.betas, m.se, ∑ q, m.shatAll q, ∑ q, m.qdiagAll q⟩

/-- GWRBasic.cpp:872-897 `bandwidthSizeCriterionCVMpi`: the master adds the workers' coefficient matrices, in order of arrival,
to its own. No exception is caught and the value is not checked. -/
noncomputable def criterionCVMpi (p : ℕ) (x : Matrix (Fin n) (Fin k) ℝ) (y : Fin n → ℝ) (W : Fin n → Fin n → ℝ)
    (srcs : List (Fin (p + 1))) : Res ℝ :=
  (Res.tabulate (p + 1) fun q => fitCoreCVSerial x y W (mpiFrom n (p + 1) q) (mpiTo n (p + 1) q) (fun _ => false)).bind fun r =>
    .ok (rss x y (srcs.foldl (fun b q => b + (r q).1) (r 0).1))

/-- GWRBasic.cpp:36-40 message tags of the AIC computations. -/
inductive AICTag
  | SHat | Betas
  deriving DecidableEq

/-- GWRBasic.cpp:912-927 (and 847-862) one received message: source and tag. -/
def aicRecv (r : Fin P → Matrix (Fin n) (Fin k) ℝ × (Fin 2 → ℝ)) (s : Matrix (Fin n) (Fin k) ℝ × (Fin 2 → ℝ)) :
    Fin P × AICTag → Matrix (Fin n) (Fin k) ℝ × (Fin 2 → ℝ)
  | (q, .SHat) => (s.1, s.2 + (r q).2)
  | (q, .Betas) => (s.1 + (r q).1, s.2)

/-- GWRBasic.cpp:899-935 `bandwidthSizeCriterionAICMpi` (and 831-870 `indepVarsSelectionCriterionMpi`). -/
noncomputable def criterionAICMpi (p : ℕ) (x : Matrix (Fin n) (Fin k) ℝ) (y : Fin n → ℝ) (W : Fin n → Fin n → ℝ)
    (msgs : List (Fin (p + 1) × AICTag)) : Res ℝ :=
  (Res.tabulate (p + 1) fun q => fitCoreSHatSerial x y W (mpiFrom n (p + 1) q) (mpiTo n (p + 1) q) (fun _ => false)).bind fun r =>
    let m := msgs.foldl (aicRecv fun q => (r q).1) (r 0).1
    aicc x y m.1 (m.2 0)

/-- GWRMultiscale.cpp:947-962 `fitVarMpi`, 964-1043: `MPI_Allreduce(…, MPI_MAX)` of the processes' coefficient vectors, which
are zero outside their own range. -/
noncomputable def allreduceMax (p : ℕ) (part : Fin (p + 1) → Fin n → ℝ) (i : Fin n) : ℝ :=
  Finset.univ.sup' Finset.univ_nonempty (fun q => part q i)

/-- GWRMultiscale.cpp:489-553: what process `q` computes of the coefficient vector `beta`. -/
def partVec (P : ℕ) (beta : Fin n → ℝ) (q : Fin P) (i : Fin n) : ℝ :=
  if mpiFrom n P q ≤ i.val ∧ i.val < mpiTo n P q then beta i else 0

/-! ## Distributed matrix product -/

/-- Rows held by the processes before process `q` (`cumsum`). -/
def rowsBefore {P : ℕ} (rows : Fin P → ℕ) (q : Fin P) : ℕ := ∑ q' : Fin P, if q'.val < q.val then rows q' else 0

/-- armampi.cpp:8-25 `mat_mul_mpi`: what process `pi` gets in `c`. `amem pi` is the column-major memory of its `a`, which has
`rows pi` rows; `b q` is the `rows q × nc` block of process `q`. For each root `pi`: `a_counts = rows pi * rows`, `a_disp` its
exclusive cumulative sum, process `q` receives `a_counts q` numbers from `a_disp q` on as a `rows pi × rows q` matrix, multiplies it
by its `b`, and the products are summed at `pi`. Counts and their cumulative sums are C `int`s, computed by every process for every
root; overflow is undefined behaviour. -/
noncomputable def matMulMpi {P : ℕ} (rows : Fin P → ℕ) (amem : Fin P → ℕ → ℝ) (b : Fin P → ℕ → ℕ → ℝ) (pi : Fin P) :
    Res (ℕ → ℕ → ℝ) :=
  let counts : Fin P → Fin P → ℕ := fun root q => rows root * rows q
  if ∃ root, 2 ^ 31 ≤ ∑ q, counts root q then .ub
  else .ok fun i j => ∑ q : Fin P, ∑ l ∈ Finset.range (rows q),
    let disp := ∑ q' : Fin P, if q'.val < q.val then counts pi q' else 0
    amem pi (disp + (l * rows pi + i)) * b q l j

end Verif.Model
