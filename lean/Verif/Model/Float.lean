import Verif.Model.Encoder
import Mathlib.Data.Int.Log
import Mathlib.Data.Rat.Floor

/-!
# Double precision

`netcode/encoder.hh:304-305, 336-344` compute with `double`: the four operations return the double nearest to the exact
result, the one with an even significand in case of a tie (IEEE 754, round-to-nearest, no excess precision).  The range
of the exponent is not modelled: the values are between 2^-16 and 2^16.
-/

namespace Netcode

/-- The integer nearest to `y`, the even one in case of a tie. Models no code: IEEE 754, used by encoder.hh:300-307, 338-344. -/
def roundEven (y : Rat) : Int :=
  if y - y.floor < 1 / 2 then y.floor
  else if 1 / 2 < y - y.floor then y.floor + 1
  else if y.floor % 2 = 0 then y.floor else y.floor + 1

/-- The weight of the last of the 53 bits of the significand of a positive number. Models no code: IEEE 754. -/
def ulp (x : Rat) : Rat := 2 ^ (Int.log 2 x - 52)

/-- The double nearest to a positive number. Models no code: IEEE 754. -/
def roundPos (x : Rat) : Rat := roundEven (x / ulp x) * ulp x

/-- The double nearest to a number. Models no code: IEEE 754. -/
def roundDouble (x : Rat) : Rat :=
  if x = 0 then 0 else if 0 < x then roundPos x else - roundPos (-x)

/-- Arithmetic on `double`, as used at encoder.hh:304-305 and 336-344. -/
def ieee : F64 := ⟨roundDouble⟩

end Netcode
