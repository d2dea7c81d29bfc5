import Verif.Model.FloatText
import Verif.Model.De
/-
`i as f64` for integers: the nearest float (ties to even), as the Rust reference has it. It is used
by serde's visitor for `f64` (see `visitF64`).
-/

namespace Kdl

/-- `i as f64`. -/
def castFloat (i : Int) : F64 := signedBits (decide (i < 0)) (decBits i.natAbs 0) (decBits_le _ _)

/-- The casts of Rust. -/
@[reducible] def rustFloatCast : FloatCast := ⟨castFloat⟩

end Kdl
