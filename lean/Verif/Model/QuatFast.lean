import Verif.Model.QuatMul

/-!
Normalisation without a square root (/repo/xo/geometry/quat.h:79-95) with rounding.
-/
namespace Xo.Norm
open Num (Fl Fmt)
open Ieee

/-- `normalize_fast( q )` (quat.h:80-81), and `normalized_fast( q )` (quat.h:84). -/
def Quat.normalizeFast (f : Fmt) (q : Quat) : Quat :=
  let sl := q.squaredLength f
  q.mulBy f (div f (ofNat 2) (add f (ofNat 1) sl))

/-- `normalize_try_fast( q, epsilon )` (quat.h:87-92), and `normalized_try_fast( q )` (quat.h:95). -/
def Quat.normalizeTryFast (f : Fmt) (q : Quat) (eps : Fl) : Quat :=
  let slen := q.squaredLength f
  if lt (Ieee.abs (sub f (ofNat 1) slen)) eps then q.mulBy f (div f (ofNat 2) (add f (ofNat 1) slen))
  else q.mulBy f (div f (ofNat 1) (sqrt f slen))

/-- The default of `epsilon` : `T( 2.107342e-08 )` (quat.h:87). -/
def tryFastEpsilon (f : Fmt) : Fl := ofRat f false (2107342 / 10 ^ 14)

/-- One step of a program that turns a body step by step and keeps its orientation normalised: `q = normalized_fast( q * r )` (quat.h:18-25, 80-84). -/
def Quat.turnFast (f : Fmt) (q r : Quat) : Quat := (Quat.mul f q r).normalizeFast f

end Xo.Norm
