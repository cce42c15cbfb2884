import Verif.Model.GWRBasic
import Mathlib.Algebra.Order.Round

/-!
# Model of `GWDR` (geographically weighted density regression)

Every coordinate dimension has its own distance, kernel and bandwidth; `D i` lists the weight vectors of location `i`, one per dimension.
-/

namespace Verif.Model
open Verif Matrix Classical

variable {n k d T : ℕ}

/-- GWDR.cpp:219-224, 341-346: start with ones and multiply by the weights of each dimension in turn. -/
def dimWeight (ws : List (Fin n → ℝ)) : Fin n → ℝ := ws.foldl (fun w wm => fun l => w l * wm l) fun _ => 1

/-- GWDR.cpp:225-237: as `localFit`, with the general inverse `xtwx.i()`. -/
noncomputable def localFitInv (x : Matrix (Fin n) (Fin k) ℝ) (y w : Fin n → ℝ) (xi : Fin k → ℝ) : Res (LocalFit n k) :=
  (invGeneral (xtwx x w)).bind fun inv =>
    .ok { beta := inv *ᵥ (xtw x w *ᵥ y), ci := inv * xtw x w, si := xi ᵥ* (inv * xtw x w) }

/-- GWDR.cpp:207-255 `fitSerial`. -/
noncomputable def gwdrFitSerial (x : Matrix (Fin n) (Fin k) ℝ) (y : Fin n → ℝ) (D : Fin n → List (Fin n → ℝ)) (storeS : Bool)
    (stop : ℕ → Bool) : Res (FitAcc n k × Bool) :=
  serialFor (fun i => localFitInv x y (dimWeight (D i)) (x i)) (fitUpd 0 storeS false) stop (workRange n 0 n) 0 FitAcc.zero

/-- A loop body whose exceptions are caught, logged and otherwise ignored. -/
def quiet {ι ρ : Type _} (g : ι → Res ρ) (i : ι) : Res (Option ρ) :=
  match g i with
  | .ok r => .ok (some r)
  | _ => .ok none

/-- The writes of such a body. -/
def quietUpd {ι ρ σ τ : Type _} (upd : τ → ι → ρ → σ → σ) (t : τ) (i : ι) : Option ρ → σ → σ
  | some r => upd t i r
  | none => id

/-- GWDR.cpp:258-319 `fitOmp`: the `catch` keeps the exception in `except` but never clears `success`, so the function never throws. -/
noncomputable def gwdrFitOmp (x : Matrix (Fin n) (Fin k) ℝ) (y : Fin n → ℝ) (D : Fin n → List (Fin n → ℝ)) (storeS : Bool)
    (stop : ℕ → Bool) (evs : List (OmpEv (Fin n) (Fin T))) : Res (FitAcc n k × Bool) :=
  let s := ompRun (quiet fun i => localFitInv x y (dimWeight (D i)) (x i)) (quietUpd (fitUpdOmp 0 storeS false)) stop evs FitAccOmp.zero
  if s.success = true then
    .ok ({ betas := s.st.betas, se := s.st.se, shat := ∑ t, s.st.shatAll t, qdiag := ∑ t, s.st.qdiagAll t, s := s.st.s,
           c := s.st.c }, s.terminated)
  else .throw .runtime

/-- GWDR.cpp:347-356: the squared prediction error of the left-out observation. -/
noncomputable def looTerm (x : Matrix (Fin n) (Fin k) ℝ) (y : Fin n → ℝ) (W : Fin n → Fin n → ℝ) (i : Fin n) : Res ℝ :=
  (invGeneral (xtwx x (cvWeight W i))).bind fun inv =>
    let r := y i - (x *ᵥ (inv *ᵥ (xtw x (cvWeight W i) *ᵥ y))) i
    .ok (r * r)

/-- GWDR.cpp:322-366 `bandwidthCriterionCVSerial`. After a failure nothing more is computed and the result is `DBL_MAX`. -/
noncomputable def gwdrCVSerial (x : Matrix (Fin n) (Fin k) ℝ) (y : Fin n → ℝ) (D : Fin n → List (Fin n → ℝ)) (stop : ℕ → Bool) : ℝ :=
  match serialFor (looTerm x y fun i => dimWeight (D i)) (fun _ c cv => cv + c) stop (List.finRange n) 0 (0 : ℝ) with
  | .ok (cv, false) => finiteOrMax cv
  | _ => dblMax

/-- GWDR.cpp:369-417 `bandwidthCriterionCVOmp`: there is no `#pragma omp`, so the loop runs in the calling thread, number 0; `T + 1` is
`mOmpThreadNum`. Stop requests are not modelled here. -/
noncomputable def gwdrCVOmp (T : ℕ) (x : Matrix (Fin n) (Fin k) ℝ) (y : Fin n → ℝ) (D : Fin n → List (Fin n → ℝ)) : ℝ :=
  match serialFor (looTerm x y fun i => dimWeight (D i)) (fun _ c (cv : Fin (T + 1) → ℝ) => Function.update cv 0 (cv 0 + c))
    (fun _ => false) (List.finRange n) 0 (0 : Fin (T + 1) → ℝ) with
  | .ok (cv, _) => finiteOrMax (∑ t, cv t)
  | _ => dblMax

/-- GWDR.cpp:420-466 `bandwidthCriterionAICSerial`. -/
noncomputable def gwdrAICSerial (x : Matrix (Fin n) (Fin k) ℝ) (y : Fin n → ℝ) (D : Fin n → List (Fin n → ℝ)) (stop : ℕ → Bool) : ℝ :=
  criterionAIC x y false
    (serialFor (fun i => localFitInv x y (dimWeight (D i)) (x i)) shatUpd stop (List.finRange n) 0 (0, 0))

/-- GWDR.cpp:469-520 `bandwidthCriterionAICOmp`. -/
noncomputable def gwdrAICOmp (x : Matrix (Fin n) (Fin k) ℝ) (y : Fin n → ℝ) (D : Fin n → List (Fin n → ℝ)) (stop : ℕ → Bool)
    (evs : List (OmpEv (Fin n) (Fin T))) : ℝ :=
  let s := ompRun (fun i => localFitInv x y (dimWeight (D i)) (x i)) shatUpdOmp stop evs ((0, 0) : Matrix (Fin n) (Fin k) ℝ × (Fin T → Fin 2 → ℝ))
  if s.success = true then criterionAIC x y false (.ok ((s.st.1, ∑ t, s.st.2 t), s.terminated)) else dblMax

/-! ### The bandwidth optimiser (a wrapper around GSL's simplex minimiser) -/

/-- GWDR.cpp:765-777 `criterion_function`: the bandwidths tried for the simplex point `p`. -/
def triedBandwidths (n : ℕ) (p : Fin d → ℝ) : Fin d → ℝ := fun m => |p m| * n

/-- GWDR.cpp:785-790: the starting point. -/
noncomputable def startPoint (n : ℕ) (adaptive : Fin d → Bool) (bw : Fin d → ℝ) : Fin d → ℝ := fun m =>
  if adaptive m = true then bw m / n else bw m

/-- GWDR.cpp:826-831: the bandwidths stored at the end for the minimiser's best point; C `round` of a non-negative number. -/
noncomputable def finalBandwidths (n : ℕ) (p : Fin d → ℝ) : Fin d → ℝ := fun m => (⌊|p m| * n + 1 / 2⌋ : ℤ)

/-- GWDR.cpp:796-818: the loop. `size i` is the simplex size after iteration `i ≥ 1`, `bad i` whether iteration `i` ended with a GSL
error while the algorithm's status was no longer `Success`. `iter` is the number of iterations done so far. Result: number of iterations
and whether the final status is `GSL_SUCCESS`. `fuel` is only there to make the definition structural. -/
noncomputable def simplexLoop (size : ℕ → ℝ) (bad : ℕ → Bool) (eps : ℝ) (maxIter : ℕ) : ℕ → ℕ → ℕ × Bool
  | 0, iter => (iter, false)
  | fuel + 1, iter =>
    if bad (iter + 1) = true then (iter + 1, false)
    else if eps < 0 then (iter + 1, false)
    else if size (iter + 1) < eps then (iter + 1, true)
    else if iter + 1 < maxIter then simplexLoop size bad eps maxIter fuel (iter + 1)
    else (iter + 1, false)

/-- GWDR.cpp:796-818 with the loop run to its end. -/
noncomputable def simplexRun (size : ℕ → ℝ) (bad : ℕ → Bool) (eps : ℝ) (maxIter : ℕ) : ℕ × Bool :=
  simplexLoop size bad eps maxIter (maxIter + 1) 0

/-- GWDR.h:323 and GWRMultiscale.h:596 `predict`: a matrix of zeros. -/
def predictZeros (m k : ℕ) : Matrix (Fin m) (Fin k) ℝ := 0

end Verif.Model
