import Verif.Model.GWRBasic

/-!
# Model of the GPU host code of `GWRBasic`: batching of observations in groups

Device arithmetic is exact (`double` = ℝ); cuBLAS computes the products and inverses it documents and reports a singular matrix
through a non-zero `info`. Device buffers are zero-filled when constructed (`cubase::Init::Zero`, cumat.hpp:101-113). Stop requests
are not modelled here.
-/

namespace Verif.Model
open Verif Matrix Classical

variable {n k m : ℕ}

/-- A loop over group numbers whose body may end abnormally. -/
def resFold {σ : Type} (step : ℕ → σ → Res σ) : List ℕ → σ → Res σ
  | [], s => .ok s
  | i :: l, s => (step i s).bind (resFold step l)

/-- GWRBasic.cpp:602, 681, 736, 787: the number of groups. -/
def cudaGroups (first second G : ℕ) : ℕ := (second - first) / G + if (second - first) % G = 0 then 0 else 1

/-- GWRBasic.cpp:619, 693, 740, 791 `begin`. -/
def groupBegin (first G i : ℕ) : ℕ := first + i * G

/-- GWRBasic.cpp:619, 693, 740, 791 `length`. -/
def groupLength (second G b : ℕ) : ℕ := if b + G > second then second - b else G

/-- GWRBasic.cpp:620-624: stride `j` of `u_xtw` becomes `X' diag(w)` for the weights of location `begin + j`, for `j < length`; the
other strides keep what they held. A stride is represented by the weights in it; the initial zero matrix is `X' diag(0)`. -/
noncomputable def loadGroup (W : Fin m → Fin n → ℝ) (b len : ℕ) (slots : ℕ → Fin n → ℝ) : ℕ → Fin n → ℝ := fun j =>
  if h : j < len ∧ b + j < m then W ⟨b + j, h.2⟩ else slots j

/-- GWRBasic.cpp:631-641: the inversion succeeded in every one of the `mGroupLength` strides. -/
def allInvertible (x : Matrix (Fin n) (Fin k) ℝ) (G : ℕ) (slots : ℕ → Fin n → ℝ) : Prop :=
  ∀ j < G, IsUnit (xtwx x (slots j)).det

/-- GWRBasic.cpp:642-647: beta, ci and si computed from the weights in one stride. -/
noncomputable def slotFit (x : Matrix (Fin n) (Fin k) ℝ) (y : Fin n → ℝ) (w : Fin n → ℝ) (xi : Fin k → ℝ) : LocalFit n k :=
  ⟨(xtwx x w)⁻¹ *ᵥ (xtw x w *ᵥ y), (xtwx x w)⁻¹ * xtw x w, xi ᵥ* ((xtwx x w)⁻¹ * xtw x w)⟩

/-- GWRBasic.cpp:589-673 `fitCoreCuda`. Simplification: the contributions to the traces are added observation by observation, the
code adds them up per group (lines 649, 655: of the first `length` strides). Rows of S and slices of C are stored at the
observation's own index, hence `fitUpd 0`. -/
noncomputable def fitCoreCuda (x : Matrix (Fin n) (Fin k) ℝ) (y : Fin n → ℝ) (W : Fin n → Fin n → ℝ) (first second G : ℕ)
    (sS sC : Bool) : Res (FitAcc n k) :=
  (resFold (fun i (s : (ℕ → Fin n → ℝ) × FitAcc n k) =>
    let b := groupBegin first G i
    let len := groupLength second G b
    let slots := loadGroup W b len s.1
    if allInvertible x G slots then
      .ok (slots, (workRange n b (b + len)).foldl (fun a e => fitUpd 0 sS sC e (slotFit x y (slots (e.val - b)) (x e)) a) s.2)
    else .throw .runtime) (List.range (cudaGroups first second G)) (fun _ => 0, FitAcc.zero)).bind fun s => .ok s.2

/-- State of the loops that stop quietly at the first group that fails. -/
structure QuietState (n k : ℕ) where
  slots : ℕ → Fin n → ℝ
  sst : ℕ → ℝ
  betas : Matrix (Fin n) (Fin k) ℝ
  shat : Fin 2 → ℝ
  success : Bool

/-- GWRBasic.cpp:721-769 `fitCoreCVCuda`. -/
noncomputable def fitCoreCVCuda (x : Matrix (Fin n) (Fin k) ℝ) (y : Fin n → ℝ) (W : Fin n → Fin n → ℝ) (first second G : ℕ) :
    Matrix (Fin n) (Fin k) ℝ :=
  ((List.range (cudaGroups first second G)).foldl (fun (s : QuietState n k) i =>
    if s.success = false then s else
    let b := groupBegin first G i
    let len := groupLength second G b
    let slots := loadGroup (cvWeight W) b len s.slots
    if allInvertible x G slots then
      { s with slots := slots
               betas := (workRange n b (b + len)).foldl (fun bt e => setRow e (slotFit x y (slots (e.val - b)) (x e)).beta bt) s.betas }
    else { s with slots := slots, success := false }) ⟨fun _ => 0, fun _ => 0, 0, 0, true⟩).betas

/-- GWRBasic.cpp:771-826 `fitCoreSHatCuda`: `u_s` and `u_sst` have `length` strides, `u_sst.get` therefore copies `length` numbers into
the host vector `sst` of length `mGroupLength`, and line 819 adds up all of `sst`. `g` is the initial content of `sst` (line 779). -/
noncomputable def fitCoreSHatCuda (x : Matrix (Fin n) (Fin k) ℝ) (y : Fin n → ℝ) (W : Fin n → Fin n → ℝ) (first second G : ℕ)
    (g : ℕ → ℝ) : Matrix (Fin n) (Fin k) ℝ × (Fin 2 → ℝ) :=
  let s := (List.range (cudaGroups first second G)).foldl (fun (s : QuietState n k) i =>
    if s.success = false then s else
    let b := groupBegin first G i
    let len := groupLength second G b
    let slots := loadGroup W b len s.slots
    if allInvertible x G slots then
      let si : ℕ → Fin n → ℝ := fun j => if h : b + j < n then (slotFit x y (slots j) (x ⟨b + j, h⟩)).si else 0
      let sst : ℕ → ℝ := fun j => if j < len then ∑ l, si j l * si j l else s.sst j
      { slots := slots
        sst := sst
        betas := (workRange n b (b + len)).foldl (fun bt e => setRow e (slotFit x y (slots (e.val - b)) (x e)).beta bt) s.betas
        shat := ![s.shat 0 + ((workRange n b (b + len)).map fun e => si (e.val - b) e).sum,
                  s.shat 1 + ∑ j ∈ Finset.range G, sst j]
        success := true }
    else { s with slots := slots, success := false }) ⟨fun _ => 0, g, 0, 0, true⟩
  (s.betas, s.shat)

/-- GWRBasic.cpp:675-719 `predictCuda` at `m` locations: the work range is that of the `n` data points. `CRSDistance::distance` on the
device (CRSDistance.cpp:171-184) writes as many distances as there are locations, `mParameter->total`, into a buffer of `n` numbers
(GWRBasic.cpp:685), and throws for a location number `≥ total`. -/
noncomputable def predictCuda (x : Matrix (Fin n) (Fin k) ℝ) (y : Fin n → ℝ) (W : Fin m → Fin n → ℝ) (first second G : ℕ) :
    Res (Matrix (Fin m) (Fin k) ℝ) :=
  (resFold (fun i (s : (ℕ → Fin n → ℝ) × Matrix (Fin m) (Fin k) ℝ) =>
    let b := groupBegin first G i
    let len := groupLength second G b
    if n < m then .ub else if m < b + len then .throw .runtime else
    let slots := loadGroup W b len s.1
    if allInvertible x G slots then
      .ok (slots, (workRange m b (b + len)).foldl
        (fun bt e => setRow e ((xtwx x (slots (e.val - b)))⁻¹ *ᵥ (xtw x (slots (e.val - b)) *ᵥ y)) bt) s.2)
    else .throw .runtime) (List.range (cudaGroups first second G)) (fun _ => 0, 0)).bind fun s => .ok s.2

/-! ## The distance object's device copies -/

/-- The members of `CRSDistance` that matter on the device (CRSDistance.h): the current parameter (focus and data points) and the
uploaded copies. -/
structure DevDistance (α : Type) where
  param : Option (α × α)
  prepared : Bool
  dev : Option (α × α)

/-- CRSDistance.cpp:102-121 `makeParameter` with two matrices of two columns: replaces the parameter only. -/
def DevDistance.makeParameter {α : Type} (d : DevDistance α) (fp dp : α) : DevDistance α := { d with param := some (fp, dp) }

/-- CRSDistance.cpp:158-169 `prepareCuda`: uploads only the first time. Dereferencing a missing parameter is undefined. -/
def DevDistance.prepareCuda {α : Type} (d : DevDistance α) : Res (DevDistance α) :=
  if d.prepared then .ok d
  else match d.param with
    | none => .ub
    | some q => .ok { d with prepared := true, dev := some q }

/-- CRSDistance.cpp:171-184: the points the device kernel reads. -/
def DevDistance.devicePoints {α : Type} (d : DevDistance α) : Res (α × α) :=
  match d.param with
  | none => .throw .runtime
  | some _ => if d.prepared then (match d.dev with | none => .throw .logic | some q => .ok q) else .throw .logic

end Verif.Model
