import Verif.Core.Res
import Mathlib.Data.Real.Basic

/-! # Model of `GWSS::del` -/

namespace Verif.Model
open Verif

/-- Unsigned subtraction of one on `uword`, 64 bits: `0 - 1` is the greatest value. -/
def predU (m : ℕ) : ℕ := if m = 0 then 2 ^ 64 - 1 else m - 1

/-- Armadillo's `x.rows(a, b)` of a column vector: `logic_error` unless `a ≤ b` and `b` is a row. -/
def rowsOf (x : List ℝ) (a b : ℕ) : Res (List ℝ) := if a ≤ b ∧ b < x.length then .ok ((x.drop a).take (b + 1 - a)) else .throw .bounds

/-- src/gwmodelpp/GWSS.cpp:13-22 `del`. -/
def gwssDel (x : List ℝ) (rowcount : ℕ) : Res (List ℝ) :=
  if rowcount = 0 then rowsOf x (rowcount + 1) (predU x.length)
  else if rowcount = predU x.length then rowsOf x 0 (predU (predU x.length))
  else (rowsOf x 0 (predU rowcount)).bind fun a => (rowsOf x (rowcount + 1) (predU x.length)).bind fun b => .ok (a ++ b)

end Verif.Model
