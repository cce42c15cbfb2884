import Verif.Spec.PCA
import Mathlib.Analysis.Matrix.Spectrum
import Mathlib.Analysis.Matrix.PosDef
import Mathlib.Data.Fin.Tuple.Sort
import Mathlib.Algebra.Order.Star.Real

/-! Every matrix has a singular value decomposition in the sense of `IsRightSVD`. -/

namespace Verif.Lemmas
open Matrix Verif.Spec

theorem exists_rightSVD {n p : ℕ} (A : Matrix (Fin n) (Fin p) ℝ) : ∃ d V, IsRightSVD A d V := by
  have hp : (Aᴴ * A).PosSemidef := posSemidef_conjTranspose_mul_self A
  let H := hp.isHermitian
  let lam := H.eigenvalues
  let v : Fin p → Fin p → ℝ := fun j => (H.eigenvectorBasis j).ofLp
  have ht : Aᴴ = Aᵀ := conjTranspose_eq_transpose_of_trivial A
  have hv : ∀ j, (Aᵀ * A) *ᵥ v j = lam j • v j := fun j => (congrArg (fun B => (B * A) *ᵥ v j) ht).symm.trans (H.mulVec_eigenvectorBasis j)
  have ho : ∀ i j, v i ⬝ᵥ v j = if i = j then 1 else 0 := fun i j => by
    have := (orthonormal_iff_ite.1 H.eigenvectorBasis.orthonormal) i j
    rw [EuclideanSpace.inner_eq_star_dotProduct, star_trivial, dotProduct_comm] at this
    exact this
  have hn : ∀ j, 0 ≤ lam j := fun j => hp.eigenvalues_nonneg j
  let σ := Tuple.sort fun j => -lam j
  have hσ : ∀ i j, i ≤ j → lam (σ j) ≤ lam (σ i) := fun i j h => by
    have := Tuple.monotone_sort (fun j => -lam j) h
    simpa using this
  refine ⟨fun j => √(lam (σ j)), Matrix.of fun c j => v (σ j) c, fun j => Real.sqrt_nonneg _, fun i j h => Real.sqrt_le_sqrt (hσ i j h), ?_, ?_⟩
  · ext i j
    have := ho (σ i) (σ j)
    simp only [mul_apply, transpose_apply, of_apply, one_apply]
    simpa [dotProduct, σ.injective.eq_iff] using this
  · ext i j
    have e : ((A * Matrix.of fun c j => v (σ j) c)ᵀ * (A * Matrix.of fun c j => v (σ j) c)) i j = v (σ i) ⬝ᵥ ((Aᵀ * A) *ᵥ v (σ j)) := by
      rw [← mulVec_mulVec, dotProduct_mulVec, vecMul_transpose]
      rfl
    rw [e, hv, dotProduct_smul, ho, diagonal_apply, Real.sq_sqrt (hn _)]
    by_cases h : i = j
    · subst h; simp
    · simp [h, σ.injective.eq_iff]

end Verif.Lemmas
