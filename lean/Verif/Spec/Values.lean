import Verif.Spec.Print
/-
Texts of values.
-/

namespace Kdl.Spec

/-- A group of decimal digits and underscores that starts with a digit. The parser
also requires each such group to be at most the largest `i128`. -/
def Group (ds : Str) : Prop :=
  ∃ c t, ds = c :: t ∧ IsDigit 10 c ∧ (∀ x ∈ t, x = '_' ∨ IsDigit 10 x) ∧ (litVal 10 ds : Int) ≤ i128Max

/-- A float literal: sign, digits, and a fraction or an exponent or both. -/
def FloatLit (t : Str) : Prop :=
  ∃ sg k ip fp ex, Sign sg k ∧ Group ip ∧ (fp = [] ∨ ∃ ds, Group ds ∧ fp = '.' :: ds) ∧
    (ex = [] ∨ ∃ e es k' ds, (e = 'e' ∨ e = 'E') ∧ Sign es k' ∧ Group ds ∧ ex = e :: (es ++ ds)) ∧
    (fp ≠ [] ∨ ex ≠ []) ∧ t = sg ++ (ip ++ (fp ++ ex))

/-- The keywords. -/
def keywords : List (Str × Value) :=
  [("#true".toList, .bool true), ("#false".toList, .bool false), ("#null".toList, .null),
   ("#nan".toList, .float F64.nan), ("#inf".toList, .float F64.inf), ("#-inf".toList, .float F64.negInf)]

/-- `NumText t v`: the text `t` is a number with value `v`. -/
inductive NumText [FloatIO] : Str → Value → Prop
  | int {t : Str} {i : I128} (h : IntLit t i.val) (hi : (i.val.natAbs : Int) ≤ i128Max) : NumText t (.integer i)
  | float {t : Str} (h : FloatLit t) : NumText t (.float (FloatIO.parse (t.filter (· ≠ '_'))))

/-- `ValText t v`: the text `t` is a value `v`. -/
inductive ValText [FloatIO] : Str → Value → Prop
  | str {t v : Str} (h : StrText t v) : ValText t (.string v)
  | num {t : Str} {v : Value} (h : NumText t v) : ValText t v
  | keyword {t : Str} {v : Value} (h : (t, v) ∈ keywords) : ValText t v

end Kdl.Spec
