import Verif.Base

/-!
# Model of `imaxdiv` (icl_core/msvc_inttypes.h)
-/
namespace Verif.Imaxdiv

/-- The smallest `intmax_t` (msvc_inttypes.h:45-319 uses the 64 bit type of msvc_stdint.h). -/
def minVal : Int := -9223372036854775808

/-- msvc_inttypes.h:289-308 `imaxdiv`, for a compiler whose `/` and `%` are `dv` and `md`. Division by zero and an
unrepresentable quotient are undefined behaviour. The additions of the fix-up are those of the mathematical integers;
`c115_no_overflow` shows that they do not overflow. -/
def imaxdivWith (dv md : Int → Int → Int) (numer denom : Int) : Outcome (Int × Int) :=
  if denom = 0 then .ub
  else if numer = minVal ∧ denom = -1 then .ub
  else
    let quot := dv numer denom
    let rem := md numer denom
    if numer < 0 ∧ rem > 0 then .ok (quot + 1, rem - denom)
    else .ok (quot, rem)

/-- msvc_inttypes.h:293-308 with the truncating division of C99 and C++11. -/
def imaxdiv (numer denom : Int) : Outcome (Int × Int) := imaxdivWith Int.tdiv Int.tmod numer denom

/-- msvc_inttypes.h:293-308 with a division rounding to minus infinity, as C89 and C++98 permit; this is the case the
fix-up is written for. -/
def imaxdivFloor (numer denom : Int) : Outcome (Int × Int) := imaxdivWith Int.fdiv Int.fmod numer denom

end Verif.Imaxdiv
