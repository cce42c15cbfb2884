import Mathlib.Analysis.SpecialFunctions.Trigonometric.Inverse

/-! Independent specification of distance on the globe: the haversine great-circle distance. -/

namespace Verif.Spec

/-- Haversine of the central angle between two points given by longitude and latitude in degrees. -/
noncomputable def haversine (lon1 lat1 lon2 lat2 : ℝ) : ℝ :=
  Real.sin ((lat1 - lat2) * (Real.pi / 180) / 2) ^ 2 +
    Real.cos (lat1 * (Real.pi / 180)) * Real.cos (lat2 * (Real.pi / 180)) *
      Real.sin ((lon1 - lon2) * (Real.pi / 180) / 2) ^ 2

/-- Great-circle distance in km on a sphere with the WGS-84 equatorial radius. -/
noncomputable def greatCircle (lon1 lat1 lon2 lat2 : ℝ) : ℝ :=
  2 * 6378.137 * Real.arcsin √(haversine lon1 lat1 lon2 lat2)

/-- WGS-84 flattening. -/
noncomputable def flattening : ℝ := 1 / 298.257223563

end Verif.Spec
