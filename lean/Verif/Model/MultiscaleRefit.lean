import Verif.Model.MultiscaleModes

/-!
# Model of several fits of one `GWRMultiscale` object

What a fit leaves in the object, and a sequence of fits without changes of the settings in between.
-/

namespace Verif.Model
open Verif Matrix Classical

variable {n k : ℕ}

/-- The object after a completed fit: the predictors stay centred (GWRMultiscale.cpp:92), the weights of the variables have the bandwidths found
(219, 358), and variables whose bandwidth did not move are marked as given (346). The smallest and largest distances (207-208) are kept, too, but they
are read only for variables that are still of type `Null`, for which the next fit determines them again. The data that is not modelled further
(mX0, mY0, mBandwidthLastCriterion, mSArray, mC, mS0) is overwritten by the next fit before it is read, or only logged. -/
noncomputable def MgwrSetup.after (u : MgwrSetup n k) (o : MgwrOut n k) : MgwrSetup n k :=
  { u with x := centrePredictors u.hasIntercept u.centred u.x, bw := o.bw, init := o.init }

/-- GWRMultiscale.cpp:80-291, called once for every element of the list; what the loops do in each call is given. Returns the reports. After an exception
nothing is said. -/
noncomputable def mgwrFits (hat : Bool) : MgwrSetup n k → List (MgwrModes n k) → Res (List (MgwrReport n k))
  | _, [] => .ok []
  | u, md :: rest => (mgwrRunIn u hat md).bind fun o => (mgwrFits hat (u.after o.out) rest).bind fun os => .ok (o :: os)

end Verif.Model
