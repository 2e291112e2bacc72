import Verif.Model.FloatText
/-
The assertions of /repo/float_test.go, about the model (a constant is rounded to the type, to nearest even).  These are
tests that the model agrees with the code where the repository itself says what the code does; they prove no property.
-/
namespace Gost.Tests
open Flt

/-- The constant ±d·10^e at a type. -/
def const (f : Format) (neg : Bool) (d : Nat) (e : Int) : Flt := .fin neg (roundDec f d e)

-- Test_F32_Floor
example : floor32 (const f32 false 37 (-1)) = (const f32 false 3 0) := by decide +kernel
example : floor32 (const f32 false 3 0) = (const f32 false 3 0) := by decide +kernel
example : floor32 (const f32 true 37 (-1)) = (const f32 true 4 0) := by decide +kernel
-- Test_F64_Floor
example : floor64 (const f64 false 37 (-1)) = (const f64 false 3 0) := by decide +kernel
example : floor64 (const f64 false 3 0) = (const f64 false 3 0) := by decide +kernel
example : floor64 (const f64 true 37 (-1)) = (const f64 true 4 0) := by decide +kernel
-- Test_F32_Ceil
example : ceil32 (const f32 false 301 (-2)) = (const f32 false 4 0) := by decide +kernel
example : ceil32 (const f32 false 4 0) = (const f32 false 4 0) := by decide +kernel
-- Test_F64_Ceil
example : ceil64 (const f64 false 301 (-2)) = (const f64 false 4 0) := by decide +kernel
example : ceil64 (const f64 false 4 0) = (const f64 false 4 0) := by decide +kernel
-- Test_F32_Round
example : round32 (const f32 false 33 (-1)) = (const f32 false 3 0) := by decide +kernel
example : round32 (const f32 true 33 (-1)) = (const f32 true 3 0) := by decide +kernel
example : round32 (const f32 true 37 (-1)) = (const f32 true 4 0) := by decide +kernel
example : round32 (const f32 false 35 (-1)) = (const f32 false 4 0) := by decide +kernel
example : round32 (const f32 false 45 (-1)) = (const f32 false 5 0) := by decide +kernel
-- Test_F64_Round
example : round64 (const f64 false 33 (-1)) = (const f64 false 3 0) := by decide +kernel
example : round64 (const f64 true 33 (-1)) = (const f64 true 3 0) := by decide +kernel
example : round64 (const f64 true 37 (-1)) = (const f64 true 4 0) := by decide +kernel
example : round64 (const f64 false 35 (-1)) = (const f64 false 4 0) := by decide +kernel
example : round64 (const f64 false 45 (-1)) = (const f64 false 5 0) := by decide +kernel
-- Test_F32_Abs
example : abs32 (const f32 true 3 0) = (const f32 false 3 0) := by decide +kernel
example : abs32 (const f32 false 3 0) = (const f32 false 3 0) := by decide +kernel
-- Test_F64_Abs
example : abs64 (const f64 true 3 0) = (const f64 false 3 0) := by decide +kernel
example : abs64 (const f64 false 3 0) = (const f64 false 3 0) := by decide +kernel
-- Test_F32_Trunc
example : trunc32 (const f32 false 37 (-1)) = (const f32 false 3 0) := by decide +kernel
example : trunc32 (const f32 true 3 0) = (const f32 true 3 0) := by decide +kernel
-- Test_F64_Trunc
example : trunc64 (const f64 false 37 (-1)) = (const f64 false 3 0) := by decide +kernel
example : trunc64 (const f64 true 3 0) = (const f64 true 3 0) := by decide +kernel

end Gost.Tests
