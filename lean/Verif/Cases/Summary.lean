import Verif.Props.GWPCA
import Verif.Props.GWSS
import Verif.Props.SummaryRun
import Verif.Cases.GWRRuns

/-! # Concrete cases for the theorems of `Props/GWPCA`, `Props/GWSS` and `Props/SummaryRun` -/

namespace Verif.Cases
open Verif Verif.Model Verif.Spec Verif.Props Matrix Classical

/-! ## Local principal components of two observations -/

theorem two_svd (i : Fin 2) : IsRightSVD (centred (n := 1) pcaX ((fun _ _ => 1 : Fin 2 → Fin 2 → ℝ) i))
    ((fun _ => pcaSvd 1 : Matrix (Fin 2) (Fin 2) ℝ → SvdOut 2) (centred (n := 1) pcaX ((fun _ _ => 1 : Fin 2 → Fin 2 → ℝ) i))).d
    ((fun _ => pcaSvd 1 : Matrix (Fin 2) (Fin 2) ℝ → SvdOut 2) (centred (n := 1) pcaX ((fun _ _ => 1 : Fin 2 → Fin 2 → ℝ) i))).V := by
  have := pcaSvd_ok 1 (by norm_num)
  rw [← pcaX_centred] at this
  exact this

example := C62_percentages_are_local_variances _ pcaX _ (fun _ _ => zero_le_one) two_svd _ (ex_gwpca 1 (by norm_num)).choose_spec
example := C62_components_maximise_variance _ pcaX _ (fun _ _ => zero_le_one) two_svd _ (ex_gwpca 1 (by norm_num)).choose_spec 1 0 ![3 / 5, 4 / 5]
  (by norm_num [Fin.sum_univ_two]) (fun j' h => absurd h (by simp))
example := C62_sdev_partial _ pcaX _ (fun _ _ => zero_le_one) two_svd _ (ex_gwpca 1 (by norm_num)).choose_spec 1 0 0 rfl
example := C63_winner_has_largest_loading _ pcaX _ _ (ex_gwpca 1 (by norm_num)).choose_spec two_pos

/-! ## Local summary statistics of five observations -/

theorem fives (i : Fin 5) : Usable ((fun _ _ => 2 : Fin 5 → Fin 5 → ℝ) i) := ⟨fun _ => zero_le_two, ⟨0, two_pos⟩⟩

/-- Two columns: the numbers 0 to 4 and their squares. -/
def squares : Fin 5 → Fin 2 → ℝ := fun l j => (l.val : ℝ) ^ (j.val + 1)

theorem five_corr : ∃ rows, gwCorrelationSerial Tuple.sort squares false (fun _ _ => 2) (fun _ => false) = .ok (rows, false) := by
  obtain ⟨_, -, -, -, h⟩ := C41_columns le_rfl squares false
  obtain ⟨rows, h, -⟩ := h Tuple.sort (fun _ _ => 2) (fun _ => false) fun _ => rfl
  exact ⟨rows, h⟩

theorem five_stopped : ∃ rows, gwAverageSerial Tuple.sort (fun (l : Fin 5) (_ : Fin 1) => (l.val : ℝ) ^ 2) true (fun _ _ => 2) (fun q => q == 0) =
    .ok (rows, true) := by
  unfold gwAverageSerial
  simp only [List.finRange_succ, serialFor]
  exact ⟨_, rfl⟩

theorem fiveThreads : Schedule (List.finRange 5) (seqEvents (fun i : Fin 5 => if i = 0 then (0 : Fin 2) else 1) (List.finRange 5)) := seqEvents_schedule _ _

example := C40_variance ex_gwss.choose_spec 3 (fives 3) 0
example := C41_columns le_rfl squares true
example := C41_too_few (firstOnly := false) (show 1 < 2 by norm_num) Tuple.sort (fun (l : Fin 5) (_ : Fin 1) => (l.val : ℝ)) (fun _ _ => 2) (fun _ => false)
example := C40_correlation_run le_rfl (fun _ => rfl) five_corr.choose_spec 3 (fives 3)
example := C42_quartiles_partial ex_sorts ex_gwss.choose_spec 3 (fives 3) 0
example := C42_defined_iff (X := squares) (stop := fun _ => false) ex_sorts fives (fun _ => rfl)
example := C42_two_points_undefined ex_sorts
example := C58_ranks ex_sorts squares 1
example := C58_ties_differ ex_sorts (fun (_ : Fin 5) (_ : Fin 1) => (7 : ℝ)) 0 1 3 (by decide)
example := (C59_average_parallel Tuple.sort (fun (l : Fin 5) (_ : Fin 1) => (l.val : ℝ) ^ 2) true (fun _ _ => 2) (fun _ => rfl) fiveThreads _).2 ex_gwss.choose_spec
example := C59_correlation_parallel le_rfl Tuple.sort squares false (fun _ _ => 2) (stop := fun _ => false) (fun _ => rfl) fiveThreads
example := C59_stopped_prefix _ _ _ _ _ _ _ _ five_stopped.choose_spec ex_gwss.choose_spec
example := C40_shape ex_gwss.choose_spec 3 (fives 3) 0
example := C40_correlation_table le_rfl ex_sorts squares false (fun _ _ => 2) (stop := fun _ => false) (fun _ => rfl)

/-! ## Whole runs: three observations on a line -/

/-- Two columns at three observations. -/
def threeCols : Fin 3 → Fin 2 → ℝ := fun l j => (l.val : ℝ) ^ (j.val + 1)

example := C115_average (ord := Tuple.sort) (X := threeCols) (par := none) line_fits lineDist_map (line_usable 1 one_pos) (ex := .serial) trivial
example := C115_quantiles (X := threeCols) (par := none) ex_sorts line_fits lineDist_map (line_usable 1 one_pos) (ex := .serial) trivial (lineW_kernel 1 one_pos)
example := C115_quantiles_need_four (X := threeCols) (par := none) ex_sorts line_fits lineDist_map (line_usable 1 one_pos) (ex := .serial) trivial
  (lineW_kernel 1 one_pos) 1 (by norm_num)
example := C115_correlation (X := threeCols) (par := none) ex_sorts le_rfl line_fits lineDist_map (line_usable 1 one_pos) false (ex := .serial) trivial
example := C116_average_units (ord := Tuple.sort) (X := threeCols) (X' := fun l j => ![2, -3] j * threeCols l j + ![0, 1] j) (par := none) line_fits lineDist_map
  (line_usable 1 one_pos) (ex := .serial) trivial ![2, -3] ![0, 1] fun _ _ => rfl
example := C116_correlation_units (X := threeCols) (X' := fun l j => ![2, -3] j * threeCols l j + ![0, 1] j) (par := none) ex_sorts le_rfl line_fits lineDist_map
  (line_usable 1 one_pos) false (ex := .serial) trivial ![2, -3] ![0, 1] fun _ _ => rfl

/-- The map in units half as long. -/
theorem half_units (i l : Fin 3) : (fun i j : Fin 3 => |(2 : ℝ)| * |((j : ℕ) : ℝ) - (i : ℕ)|) i l = 2 * (fun i j : Fin 3 => |(1 : ℝ)| * |((j : ℕ) : ℝ) - (i : ℕ)|) i l := by
  simp

example := C116_map (ord := Tuple.sort) (X := threeCols) (par := none) (par' := none) (b := ⟨1, false, .Gaussian⟩) (b' := ⟨2, false, .Gaussian⟩) (n := 3)
  ⟨rfl, rfl⟩ ⟨rfl, rfl⟩ (line_mapDistance 1) (line_mapDistance 2) (usable_fixed one_pos _ _) two_pos half_units rfl rfl (by simp) .serial false true

theorem someSvd : ∃ svd : Matrix (Fin (2 + 1)) (Fin 2) ℝ → SvdOut 2, ExactSVD svd := exactSVD_exists
theorem someSvd1 : ∃ svd : Matrix (Fin (2 + 1)) (Fin 1) ℝ → SvdOut 1, ExactSVD svd := exactSVD_exists

example := C117_run someSvd.choose_spec (par := none) line_fits lineDist_map (line_usable 1 one_pos) (lineW_kernel 1 one_pos) (fun l j => threeCols l j) (K := 2)
  (by norm_num) two_pos le_rfl
example := C117_invariance (svd := someSvd.choose) (par := none) (par' := none) (b := ⟨1, false, .Gaussian⟩) (b' := ⟨2, false, .Gaussian⟩) (n := 2)
  ⟨rfl, rfl⟩ ⟨rfl, rfl⟩ (line_mapDistance 1) (line_mapDistance 2) (usable_fixed one_pos _ _) two_pos half_units rfl rfl (by simp)
  (x := fun l j => threeCols l j) (x' := fun l j => threeCols l j + ![5, 7] j) (c := ![5, 7]) (fun _ _ => rfl) 2
example := C117_sdev_wrong someSvd1.choose_spec none

end Verif.Cases
