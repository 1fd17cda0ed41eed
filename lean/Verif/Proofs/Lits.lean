import Mathlib.Algebra.Order.Field.Basic
import Mathlib.Tactic.NormNum

/-! Decimal literals as fractions. -/

namespace SolidsPy

variable {K : Type} [Field K] [LinearOrder K] [IsStrictOrderedRing K]

theorem lit_quarter : (0.25 : K) = 1 / 4 := by norm_num
theorem lit_half : (0.5 : K) = 1 / 2 := by norm_num
theorem lit_eighth : (0.125 : K) = 1 / 8 := by norm_num
theorem lit_one : (1.0 : K) = 1 := by norm_num
theorem lit_two : (2.0 : K) = 2 := by norm_num

end SolidsPy
