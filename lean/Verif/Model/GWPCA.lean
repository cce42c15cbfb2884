import Verif.Core.Res
import Mathlib.Data.Matrix.Mul
import Mathlib.Data.Real.Sqrt
import Mathlib.Algebra.Order.Antidiag.Pi
import Mathlib.LinearAlgebra.Matrix.Notation

/-!
# Model of `GWPCA`

`n + 1` locations, `p` variables, `K` kept components. Stop requests are not modelled.
-/

namespace Verif.Model
open Verif Matrix Classical

variable {n p : ℕ}

/-- What `svd(U, d, V, A)` leaves in `d` and `V`. -/
structure SvdOut (p : ℕ) where
  d : Fin p → ℝ
  V : Matrix (Fin p) (Fin p) ℝ

/-- GWPCA.cpp:49-50: `sum(xw) / sum(w)`, the weighted column means. -/
noncomputable def pcaMean (x : Matrix (Fin (n + 1)) (Fin p) ℝ) (w : Fin (n + 1) → ℝ) (c : Fin p) : ℝ :=
  (∑ l, x l c * w l) / ∑ l, w l

/-- GWPCA.cpp:50: `(x.each_row() - mean).each_col() % sqrt(w)`. -/
noncomputable def centred (x : Matrix (Fin (n + 1)) (Fin p) ℝ) (w : Fin (n + 1) → ℝ) : Matrix (Fin (n + 1)) (Fin p) ℝ :=
  Matrix.of fun l c => (x l c - pcaMean x w c) * Real.sqrt (w l)

/-- Results: percentages `pv(i, j)`, standard deviations `sdev(i, j)`, `loadings.slice(j).row(i)`, winners. -/
structure PcaOut (n p K : ℕ) where
  pv : Fin (n + 1) → Fin K → ℝ
  sdev : Fin (n + 1) → Fin p → ℝ
  loadings : Fin K → Fin (n + 1) → Fin p → ℝ
  winner : Fin (n + 1) → Fin p

/-- GWPCA.cpp:41: `variance`; `w0` holds the weights of the last location processed (33). -/
noncomputable def pcaVariance (svd : Matrix (Fin (n + 1)) (Fin p) ℝ → SvdOut p) (x : Matrix (Fin (n + 1)) (Fin p) ℝ)
    (W : Fin (n + 1) → Fin (n + 1) → ℝ) (i : Fin (n + 1)) (j : Fin p) : ℝ :=
  let d := (svd (centred x (W i))).d j / Real.sqrt (∑ l, W (Fin.last n) l)
  d * d

/-- Armadillo `index_max` of a non-empty row: the first position of the largest entry. -/
def IsFirstMax (v : Fin p → ℝ) (c : Fin p) : Prop := (∀ c', v c' ≤ v c) ∧ ∀ c', c' < c → v c' < v c

/-- GWPCA.cpp:6-45 `run` and `solveSerial`, for `K` components to keep. Errors: with fewer rows than variables `svd` returns fewer than `p`
values and `d_all.col(i) = d` has the wrong size (34); `V.col(j)` with `j ≥ p` and `variance.cols(0, K - 1)` with `K = 0` or `K > p` are out
of bounds (37, 43); weights adding up to 0 or a location without any variance give divisions by 0. -/
noncomputable def gwpca (svd : Matrix (Fin (n + 1)) (Fin p) ℝ → SvdOut p) (x : Matrix (Fin (n + 1)) (Fin p) ℝ)
    (W : Fin (n + 1) → Fin (n + 1) → ℝ) (K : ℕ) : Res (PcaOut n p K) :=
  if n + 1 < p then .throw .size
  else if h : 0 < K ∧ K ≤ p then
    if (∃ i, ∑ l, W i l = 0) ∨ (∃ i, ∑ j, pcaVariance svd x W i j = 0) then .nonfinite
    else
      .ok { pv := fun i j => pcaVariance svd x W i ⟨j, by omega⟩ * (1 / ∑ j, pcaVariance svd x W i j) * 100
            sdev := fun i j => Real.sqrt (pcaVariance svd x W i j)
            loadings := fun j i c => (svd (centred x (W i))).V c ⟨j, by omega⟩
            winner := fun i => if hw : ∃ c, IsFirstMax (fun c => (svd (centred x (W i))).V c ⟨0, by omega⟩) c then hw.choose
              else ⟨0, by omega⟩ }
  else .throw .bounds

end Verif.Model
