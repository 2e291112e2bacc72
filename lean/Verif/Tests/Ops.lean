import Verif.Model.Ints
import Verif.Model.Int128
/-
The assertions of /repo/ops_test.go and /repo/bitwise_test.go, about the model (written by tools/gotests.py).  These are
tests that the model agrees with the code where the repository itself says what the code does; they prove no property.
-/
namespace Gost

-- ops_test.go:8 Test_WrappingAdd_SignedInteger
example : Ints.sWrappingAdd (BitVec.ofInt 64 (100)) (BitVec.ofInt 64 (27)) = (BitVec.ofInt 64 (127)) := by decide +kernel
example : Ints.sWrappingAdd (BitVec.ofInt 64 (9223372036854775807)) (BitVec.ofInt 64 (2)) = (BitVec.ofInt 64 (-9223372036854775807)) := by decide +kernel
example : Ints.sWrappingAdd (BitVec.ofInt 8 (100)) (BitVec.ofInt 8 (27)) = (BitVec.ofInt 8 (127)) := by decide +kernel
example : Ints.sWrappingAdd (BitVec.ofInt 8 (127)) (BitVec.ofInt 8 (2)) = (BitVec.ofInt 8 (-127)) := by decide +kernel
example : Ints.sWrappingAdd (BitVec.ofInt 16 (100)) (BitVec.ofInt 16 (27)) = (BitVec.ofInt 16 (127)) := by decide +kernel
example : Ints.sWrappingAdd (BitVec.ofInt 16 (32767)) (BitVec.ofInt 16 (2)) = (BitVec.ofInt 16 (-32767)) := by decide +kernel
example : Ints.sWrappingAdd (BitVec.ofInt 32 (100)) (BitVec.ofInt 32 (27)) = (BitVec.ofInt 32 (127)) := by decide +kernel
example : Ints.sWrappingAdd (BitVec.ofInt 32 (2147483647)) (BitVec.ofInt 32 (2)) = (BitVec.ofInt 32 (-2147483647)) := by decide +kernel
example : Ints.sWrappingAdd (BitVec.ofInt 64 (100)) (BitVec.ofInt 64 (27)) = (BitVec.ofInt 64 (127)) := by decide +kernel
example : Ints.sWrappingAdd (BitVec.ofInt 64 (9223372036854775807)) (BitVec.ofInt 64 (2)) = (BitVec.ofInt 64 (-9223372036854775807)) := by decide +kernel

-- ops_test.go:28 Test_WrappingAdd_UnsignedInteger
example : Ints.uWrappingAdd (BitVec.ofInt 64 (200)) (BitVec.ofInt 64 (55)) = (BitVec.ofInt 64 (255)) := by decide +kernel
example : Ints.uWrappingAdd (BitVec.ofInt 64 (18446744073709551615)) (BitVec.ofInt 64 (200)) = (BitVec.ofInt 64 (199)) := by decide +kernel
example : Ints.uWrappingAdd (BitVec.ofInt 8 (200)) (BitVec.ofInt 8 (55)) = (BitVec.ofInt 8 (255)) := by decide +kernel
example : Ints.uWrappingAdd (BitVec.ofInt 8 (255)) (BitVec.ofInt 8 (200)) = (BitVec.ofInt 8 (199)) := by decide +kernel
example : Ints.uWrappingAdd (BitVec.ofInt 16 (200)) (BitVec.ofInt 16 (55)) = (BitVec.ofInt 16 (255)) := by decide +kernel
example : Ints.uWrappingAdd (BitVec.ofInt 16 (65535)) (BitVec.ofInt 16 (200)) = (BitVec.ofInt 16 (199)) := by decide +kernel
example : Ints.uWrappingAdd (BitVec.ofInt 32 (200)) (BitVec.ofInt 32 (55)) = (BitVec.ofInt 32 (255)) := by decide +kernel
example : Ints.uWrappingAdd (BitVec.ofInt 32 (4294967295)) (BitVec.ofInt 32 (200)) = (BitVec.ofInt 32 (199)) := by decide +kernel
example : Ints.uWrappingAdd (BitVec.ofInt 64 (200)) (BitVec.ofInt 64 (55)) = (BitVec.ofInt 64 (255)) := by decide +kernel
example : Ints.uWrappingAdd (BitVec.ofInt 64 (18446744073709551615)) (BitVec.ofInt 64 (200)) = (BitVec.ofInt 64 (199)) := by decide +kernel

-- ops_test.go:47 Test_WrappingSub_SignedInteger
example : Ints.wrappingSub (BitVec.ofInt 64 (0)) (BitVec.ofInt 64 (127)) = (BitVec.ofInt 64 (-127)) := by decide +kernel
example : Ints.wrappingSub (BitVec.ofInt 64 (-2)) (BitVec.ofInt 64 (9223372036854775807)) = (BitVec.ofInt 64 (9223372036854775807)) := by decide +kernel
example : Ints.wrappingSub (BitVec.ofInt 8 (0)) (BitVec.ofInt 8 (127)) = (BitVec.ofInt 8 (-127)) := by decide +kernel
example : Ints.wrappingSub (BitVec.ofInt 8 (-2)) (BitVec.ofInt 8 (127)) = (BitVec.ofInt 8 (127)) := by decide +kernel
example : Ints.wrappingSub (BitVec.ofInt 16 (0)) (BitVec.ofInt 16 (127)) = (BitVec.ofInt 16 (-127)) := by decide +kernel
example : Ints.wrappingSub (BitVec.ofInt 16 (-2)) (BitVec.ofInt 16 (32767)) = (BitVec.ofInt 16 (32767)) := by decide +kernel
example : Ints.wrappingSub (BitVec.ofInt 32 (0)) (BitVec.ofInt 32 (127)) = (BitVec.ofInt 32 (-127)) := by decide +kernel
example : Ints.wrappingSub (BitVec.ofInt 32 (-2)) (BitVec.ofInt 32 (2147483647)) = (BitVec.ofInt 32 (2147483647)) := by decide +kernel
example : Ints.wrappingSub (BitVec.ofInt 64 (0)) (BitVec.ofInt 64 (127)) = (BitVec.ofInt 64 (-127)) := by decide +kernel
example : Ints.wrappingSub (BitVec.ofInt 64 (-2)) (BitVec.ofInt 64 (9223372036854775807)) = (BitVec.ofInt 64 (9223372036854775807)) := by decide +kernel

-- ops_test.go:66 Test_WrappingSub_UnsignedInteger
example : Ints.wrappingSub (BitVec.ofInt 64 (100)) (BitVec.ofInt 64 (100)) = (BitVec.ofInt 64 (0)) := by decide +kernel
example : Ints.wrappingSub (BitVec.ofInt 64 (100)) (BitVec.ofInt 64 (18446744073709551615)) = (BitVec.ofInt 64 (101)) := by decide +kernel
example : Ints.wrappingSub (BitVec.ofInt 8 (100)) (BitVec.ofInt 8 (100)) = (BitVec.ofInt 8 (0)) := by decide +kernel
example : Ints.wrappingSub (BitVec.ofInt 8 (100)) (BitVec.ofInt 8 (255)) = (BitVec.ofInt 8 (101)) := by decide +kernel
example : Ints.wrappingSub (BitVec.ofInt 16 (100)) (BitVec.ofInt 16 (100)) = (BitVec.ofInt 16 (0)) := by decide +kernel
example : Ints.wrappingSub (BitVec.ofInt 16 (100)) (BitVec.ofInt 16 (65535)) = (BitVec.ofInt 16 (101)) := by decide +kernel
example : Ints.wrappingSub (BitVec.ofInt 32 (100)) (BitVec.ofInt 32 (100)) = (BitVec.ofInt 32 (0)) := by decide +kernel
example : Ints.wrappingSub (BitVec.ofInt 32 (100)) (BitVec.ofInt 32 (4294967295)) = (BitVec.ofInt 32 (101)) := by decide +kernel
example : Ints.wrappingSub (BitVec.ofInt 64 (100)) (BitVec.ofInt 64 (100)) = (BitVec.ofInt 64 (0)) := by decide +kernel
example : Ints.wrappingSub (BitVec.ofInt 64 (100)) (BitVec.ofInt 64 (18446744073709551615)) = (BitVec.ofInt 64 (101)) := by decide +kernel

-- ops_test.go:85 Test_WrappingMul_SignedInteger
example : Ints.isizeWrappingMul (BitVec.ofInt 64 (10)) (BitVec.ofInt 64 (12)) = (BitVec.ofInt 64 (120)) := by decide +kernel
example : Ints.wrappingMul (BitVec.ofInt 8 (11)) (BitVec.ofInt 8 (12)) = (BitVec.ofInt 8 (-124)) := by decide +kernel

-- ops_test.go:92 Test_WrappingMul_UnsignedInteger
example : Ints.wrappingMul (BitVec.ofInt 64 (10)) (BitVec.ofInt 64 (12)) = (BitVec.ofInt 64 (120)) := by decide +kernel
example : Ints.wrappingMul (BitVec.ofInt 8 (25)) (BitVec.ofInt 8 (12)) = (BitVec.ofInt 8 (44)) := by decide +kernel

-- ops_test.go:99 Test_WrappingDiv_SignedInteger
example : Ints.sWrappingDiv (BitVec.ofInt 64 (100)) (BitVec.ofInt 64 (10)) = .ok (BitVec.ofInt 64 (10)) := by decide +kernel
example : Ints.sWrappingDiv (BitVec.ofInt 8 (-128)) (BitVec.ofInt 8 (-1)) = .ok (BitVec.ofInt 8 (-128)) := by decide +kernel

-- ops_test.go:106 Test_WrappingDiv_UnsignedInteger
example : Ints.uWrappingDiv (BitVec.ofInt 64 (100)) (BitVec.ofInt 64 (10)) = .ok (BitVec.ofInt 64 (10)) := by decide +kernel

-- ops_test.go:112 Test_CheckedAdd_SignedInteger
example : Ints.sCheckedAdd (BitVec.ofInt 64 (100)) (BitVec.ofInt 64 (27)) = (some (BitVec.ofInt 64 (127))) := by decide +kernel
example : Ints.sCheckedAdd (BitVec.ofInt 64 (9223372036854775807)) (BitVec.ofInt 64 (2)) = none := by decide +kernel
example : Ints.sCheckedAdd (BitVec.ofInt 64 (-9223372036854775808)) (BitVec.ofInt 64 (-2)) = none := by decide +kernel
example : Ints.sCheckedAdd (BitVec.ofInt 8 (100)) (BitVec.ofInt 8 (27)) = (some (BitVec.ofInt 8 (127))) := by decide +kernel
example : Ints.sCheckedAdd (BitVec.ofInt 8 (127)) (BitVec.ofInt 8 (2)) = none := by decide +kernel
example : Ints.sCheckedAdd (BitVec.ofInt 8 (-128)) (BitVec.ofInt 8 (-2)) = none := by decide +kernel
example : Ints.sCheckedAdd (BitVec.ofInt 16 (100)) (BitVec.ofInt 16 (27)) = (some (BitVec.ofInt 16 (127))) := by decide +kernel
example : Ints.sCheckedAdd (BitVec.ofInt 16 (32767)) (BitVec.ofInt 16 (2)) = none := by decide +kernel
example : Ints.sCheckedAdd (BitVec.ofInt 16 (-32768)) (BitVec.ofInt 16 (-2)) = none := by decide +kernel
example : Ints.sCheckedAdd (BitVec.ofInt 32 (100)) (BitVec.ofInt 32 (27)) = (some (BitVec.ofInt 32 (127))) := by decide +kernel
example : Ints.sCheckedAdd (BitVec.ofInt 32 (2147483647)) (BitVec.ofInt 32 (2)) = none := by decide +kernel
example : Ints.sCheckedAdd (BitVec.ofInt 32 (-2147483648)) (BitVec.ofInt 32 (-2)) = none := by decide +kernel
example : Ints.sCheckedAdd (BitVec.ofInt 64 (100)) (BitVec.ofInt 64 (27)) = (some (BitVec.ofInt 64 (127))) := by decide +kernel
example : Ints.sCheckedAdd (BitVec.ofInt 64 (9223372036854775807)) (BitVec.ofInt 64 (2)) = none := by decide +kernel
example : Ints.sCheckedAdd (BitVec.ofInt 64 (-9223372036854775808)) (BitVec.ofInt 64 (-2)) = none := by decide +kernel

-- ops_test.go:136 Test_CheckedAdd_UnsignedInteger
example : Ints.uCheckedAdd (BitVec.ofInt 64 (100)) (BitVec.ofInt 64 (27)) = (some (BitVec.ofInt 64 (127))) := by decide +kernel
example : Ints.uCheckedAdd (BitVec.ofInt 64 (18446744073709551615)) (BitVec.ofInt 64 (2)) = none := by decide +kernel
example : Ints.uCheckedAdd (BitVec.ofInt 8 (100)) (BitVec.ofInt 8 (27)) = (some (BitVec.ofInt 8 (127))) := by decide +kernel
example : Ints.uCheckedAdd (BitVec.ofInt 8 (255)) (BitVec.ofInt 8 (2)) = none := by decide +kernel
example : Ints.uCheckedAdd (BitVec.ofInt 16 (100)) (BitVec.ofInt 16 (27)) = (some (BitVec.ofInt 16 (127))) := by decide +kernel
example : Ints.uCheckedAdd (BitVec.ofInt 16 (65535)) (BitVec.ofInt 16 (2)) = none := by decide +kernel
example : Ints.uCheckedAdd (BitVec.ofInt 32 (100)) (BitVec.ofInt 32 (27)) = (some (BitVec.ofInt 32 (127))) := by decide +kernel
example : Ints.uCheckedAdd (BitVec.ofInt 32 (4294967295)) (BitVec.ofInt 32 (2)) = none := by decide +kernel
example : Ints.uCheckedAdd (BitVec.ofInt 64 (100)) (BitVec.ofInt 64 (27)) = (some (BitVec.ofInt 64 (127))) := by decide +kernel
example : Ints.uCheckedAdd (BitVec.ofInt 64 (18446744073709551615)) (BitVec.ofInt 64 (2)) = none := by decide +kernel

-- ops_test.go:153 Test_CheckedSub_SignedInteger
example : Ints.isizeCheckedSub (BitVec.ofInt 64 (100)) (BitVec.ofInt 64 (27)) = (some (BitVec.ofInt 64 (73))) := by decide +kernel
example : Ints.isizeCheckedSub (BitVec.ofInt 64 (-9223372036854775808)) (BitVec.ofInt 64 (2)) = none := by decide +kernel
example : Ints.isizeCheckedSub (BitVec.ofInt 64 (9223372036854775807)) (BitVec.ofInt 64 (-2)) = none := by decide +kernel
example : Ints.sCheckedSub (BitVec.ofInt 8 (100)) (BitVec.ofInt 8 (27)) = (some (BitVec.ofInt 8 (73))) := by decide +kernel
example : Ints.sCheckedSub (BitVec.ofInt 8 (-128)) (BitVec.ofInt 8 (2)) = none := by decide +kernel
example : Ints.sCheckedSub (BitVec.ofInt 8 (127)) (BitVec.ofInt 8 (-2)) = none := by decide +kernel
example : Ints.sCheckedSub (BitVec.ofInt 16 (100)) (BitVec.ofInt 16 (27)) = (some (BitVec.ofInt 16 (73))) := by decide +kernel
example : Ints.sCheckedSub (BitVec.ofInt 16 (-32768)) (BitVec.ofInt 16 (2)) = none := by decide +kernel
example : Ints.sCheckedSub (BitVec.ofInt 16 (32767)) (BitVec.ofInt 16 (-2)) = none := by decide +kernel
example : Ints.sCheckedSub (BitVec.ofInt 32 (100)) (BitVec.ofInt 32 (27)) = (some (BitVec.ofInt 32 (73))) := by decide +kernel
example : Ints.sCheckedSub (BitVec.ofInt 32 (-2147483648)) (BitVec.ofInt 32 (2)) = none := by decide +kernel
example : Ints.sCheckedSub (BitVec.ofInt 32 (2147483647)) (BitVec.ofInt 32 (-2)) = none := by decide +kernel
example : Ints.sCheckedSub (BitVec.ofInt 64 (100)) (BitVec.ofInt 64 (27)) = (some (BitVec.ofInt 64 (73))) := by decide +kernel
example : Ints.sCheckedSub (BitVec.ofInt 64 (-9223372036854775808)) (BitVec.ofInt 64 (2)) = none := by decide +kernel
example : Ints.sCheckedSub (BitVec.ofInt 64 (9223372036854775807)) (BitVec.ofInt 64 (-2)) = none := by decide +kernel

-- ops_test.go:177 Test_CheckedSub_UnsignedInteger
example : Ints.uCheckedSub (BitVec.ofInt 64 (100)) (BitVec.ofInt 64 (27)) = (some (BitVec.ofInt 64 (73))) := by decide +kernel
example : Ints.uCheckedSub (BitVec.ofInt 64 (0)) (BitVec.ofInt 64 (2)) = none := by decide +kernel
example : Ints.uCheckedSub (BitVec.ofInt 8 (100)) (BitVec.ofInt 8 (27)) = (some (BitVec.ofInt 8 (73))) := by decide +kernel
example : Ints.uCheckedSub (BitVec.ofInt 8 (0)) (BitVec.ofInt 8 (2)) = none := by decide +kernel
example : Ints.uCheckedSub (BitVec.ofInt 16 (100)) (BitVec.ofInt 16 (27)) = (some (BitVec.ofInt 16 (73))) := by decide +kernel
example : Ints.uCheckedSub (BitVec.ofInt 16 (0)) (BitVec.ofInt 16 (2)) = none := by decide +kernel
example : Ints.uCheckedSub (BitVec.ofInt 32 (100)) (BitVec.ofInt 32 (27)) = (some (BitVec.ofInt 32 (73))) := by decide +kernel
example : Ints.uCheckedSub (BitVec.ofInt 32 (0)) (BitVec.ofInt 32 (2)) = none := by decide +kernel
example : Ints.uCheckedSub (BitVec.ofInt 64 (100)) (BitVec.ofInt 64 (27)) = (some (BitVec.ofInt 64 (73))) := by decide +kernel
example : Ints.uCheckedSub (BitVec.ofInt 64 (0)) (BitVec.ofInt 64 (2)) = none := by decide +kernel

-- ops_test.go:196 Test_CheckedMul_SignedInteger
example : Ints.sCheckedMul (BitVec.ofInt 64 (10)) (BitVec.ofInt 64 (12)) = (some (BitVec.ofInt 64 (120))) := by decide +kernel
example : Ints.sCheckedMul (BitVec.ofInt 64 (9223372036854775807)) (BitVec.ofInt 64 (2)) = none := by decide +kernel
example : Ints.sCheckedMul (BitVec.ofInt 64 (-9223372036854775808)) (BitVec.ofInt 64 (2)) = none := by decide +kernel
example : Ints.sCheckedMul (BitVec.ofInt 8 (11)) (BitVec.ofInt 8 (5)) = (some (BitVec.ofInt 8 (55))) := by decide +kernel
example : Ints.sCheckedMul (BitVec.ofInt 8 (127)) (BitVec.ofInt 8 (2)) = none := by decide +kernel
example : Ints.sCheckedMul (BitVec.ofInt 8 (-128)) (BitVec.ofInt 8 (2)) = none := by decide +kernel
example : Ints.sCheckedMul (BitVec.ofInt 16 (11)) (BitVec.ofInt 16 (12)) = (some (BitVec.ofInt 16 (132))) := by decide +kernel
example : Ints.sCheckedMul (BitVec.ofInt 16 (32767)) (BitVec.ofInt 16 (2)) = none := by decide +kernel
example : Ints.sCheckedMul (BitVec.ofInt 16 (-32768)) (BitVec.ofInt 16 (2)) = none := by decide +kernel
example : Ints.sCheckedMul (BitVec.ofInt 32 (11)) (BitVec.ofInt 32 (12)) = (some (BitVec.ofInt 32 (132))) := by decide +kernel
example : Ints.sCheckedMul (BitVec.ofInt 32 (2147483647)) (BitVec.ofInt 32 (2)) = none := by decide +kernel
example : Ints.sCheckedMul (BitVec.ofInt 32 (-2147483648)) (BitVec.ofInt 32 (2)) = none := by decide +kernel
example : Ints.sCheckedMul (BitVec.ofInt 64 (11)) (BitVec.ofInt 64 (12)) = (some (BitVec.ofInt 64 (132))) := by decide +kernel
example : Ints.sCheckedMul (BitVec.ofInt 64 (9223372036854775807)) (BitVec.ofInt 64 (2)) = none := by decide +kernel
example : Ints.sCheckedMul (BitVec.ofInt 64 (-9223372036854775808)) (BitVec.ofInt 64 (2)) = none := by decide +kernel

-- ops_test.go:220 Test_CheckedMul_UnsignedInteger
example : Ints.usizeCheckedMul (BitVec.ofInt 64 (10)) (BitVec.ofInt 64 (12)) = (some (BitVec.ofInt 64 (120))) := by decide +kernel
example : Ints.usizeCheckedMul (BitVec.ofInt 64 (18446744073709551615)) (BitVec.ofInt 64 (2)) = none := by decide +kernel
example : Ints.uCheckedMul (BitVec.ofInt 8 (11)) (BitVec.ofInt 8 (5)) = (some (BitVec.ofInt 8 (55))) := by decide +kernel
example : Ints.uCheckedMul (BitVec.ofInt 8 (255)) (BitVec.ofInt 8 (2)) = none := by decide +kernel
example : Ints.uCheckedMul (BitVec.ofInt 16 (11)) (BitVec.ofInt 16 (12)) = (some (BitVec.ofInt 16 (132))) := by decide +kernel
example : Ints.uCheckedMul (BitVec.ofInt 16 (65535)) (BitVec.ofInt 16 (2)) = none := by decide +kernel
example : Ints.uCheckedMul (BitVec.ofInt 32 (11)) (BitVec.ofInt 32 (12)) = (some (BitVec.ofInt 32 (132))) := by decide +kernel
example : Ints.uCheckedMul (BitVec.ofInt 32 (4294967295)) (BitVec.ofInt 32 (2)) = none := by decide +kernel
example : Ints.uCheckedMul (BitVec.ofInt 64 (11)) (BitVec.ofInt 64 (12)) = (some (BitVec.ofInt 64 (132))) := by decide +kernel
example : Ints.uCheckedMul (BitVec.ofInt 64 (18446744073709551615)) (BitVec.ofInt 64 (2)) = none := by decide +kernel

-- ops_test.go:239 Test_CheckedDiv_SignedInteger
example : Ints.sCheckedDiv (BitVec.ofInt 64 (100)) (BitVec.ofInt 64 (10)) = .ok (some (BitVec.ofInt 64 (10))) := by decide +kernel
example : Ints.sCheckedDiv (BitVec.ofInt 64 (-9223372036854775808)) (BitVec.ofInt 64 (0)) = .ok none := by decide +kernel
example : Ints.sCheckedDiv (BitVec.ofInt 64 (-9223372036854775808)) (BitVec.ofInt 64 (-1)) = .ok none := by decide +kernel
example : Ints.sCheckedDiv (BitVec.ofInt 8 (100)) (BitVec.ofInt 8 (10)) = .ok (some (BitVec.ofInt 8 (10))) := by decide +kernel
example : Ints.sCheckedDiv (BitVec.ofInt 8 (-128)) (BitVec.ofInt 8 (0)) = .ok none := by decide +kernel
example : Ints.sCheckedDiv (BitVec.ofInt 8 (-128)) (BitVec.ofInt 8 (-1)) = .ok none := by decide +kernel
example : Ints.sCheckedDiv (BitVec.ofInt 16 (100)) (BitVec.ofInt 16 (10)) = .ok (some (BitVec.ofInt 16 (10))) := by decide +kernel
example : Ints.sCheckedDiv (BitVec.ofInt 16 (-32768)) (BitVec.ofInt 16 (0)) = .ok none := by decide +kernel
example : Ints.sCheckedDiv (BitVec.ofInt 16 (-32768)) (BitVec.ofInt 16 (-1)) = .ok none := by decide +kernel
example : Ints.sCheckedDiv (BitVec.ofInt 32 (100)) (BitVec.ofInt 32 (10)) = .ok (some (BitVec.ofInt 32 (10))) := by decide +kernel
example : Ints.sCheckedDiv (BitVec.ofInt 32 (-2147483648)) (BitVec.ofInt 32 (0)) = .ok none := by decide +kernel
example : Ints.sCheckedDiv (BitVec.ofInt 32 (-2147483648)) (BitVec.ofInt 32 (-1)) = .ok none := by decide +kernel
example : Ints.sCheckedDiv (BitVec.ofInt 64 (100)) (BitVec.ofInt 64 (10)) = .ok (some (BitVec.ofInt 64 (10))) := by decide +kernel
example : Ints.sCheckedDiv (BitVec.ofInt 64 (-9223372036854775808)) (BitVec.ofInt 64 (0)) = .ok none := by decide +kernel
example : Ints.sCheckedDiv (BitVec.ofInt 64 (-9223372036854775808)) (BitVec.ofInt 64 (-1)) = .ok none := by decide +kernel

-- ops_test.go:263 Test_CheckedDiv_UnsignedInteger
example : Ints.uCheckedDiv (BitVec.ofInt 64 (100)) (BitVec.ofInt 64 (10)) = .ok (some (BitVec.ofInt 64 (10))) := by decide +kernel
example : Ints.uCheckedDiv (BitVec.ofInt 64 (100)) (BitVec.ofInt 64 (0)) = .ok none := by decide +kernel
example : Ints.uCheckedDiv (BitVec.ofInt 8 (100)) (BitVec.ofInt 8 (10)) = .ok (some (BitVec.ofInt 8 (10))) := by decide +kernel
example : Ints.uCheckedDiv (BitVec.ofInt 8 (100)) (BitVec.ofInt 8 (0)) = .ok none := by decide +kernel
example : Ints.uCheckedDiv (BitVec.ofInt 16 (100)) (BitVec.ofInt 16 (10)) = .ok (some (BitVec.ofInt 16 (10))) := by decide +kernel
example : Ints.uCheckedDiv (BitVec.ofInt 16 (100)) (BitVec.ofInt 16 (0)) = .ok none := by decide +kernel
example : Ints.uCheckedDiv (BitVec.ofInt 32 (100)) (BitVec.ofInt 32 (10)) = .ok (some (BitVec.ofInt 32 (10))) := by decide +kernel
example : Ints.uCheckedDiv (BitVec.ofInt 32 (100)) (BitVec.ofInt 32 (0)) = .ok none := by decide +kernel
example : Ints.uCheckedDiv (BitVec.ofInt 64 (100)) (BitVec.ofInt 64 (10)) = .ok (some (BitVec.ofInt 64 (10))) := by decide +kernel
example : Ints.uCheckedDiv (BitVec.ofInt 64 (100)) (BitVec.ofInt 64 (0)) = .ok none := by decide +kernel

-- ops_test.go:282 Test_Pow_Integer
example : Ints.pow (BitVec.ofInt 64 (2)) (BitVec.ofInt 32 (3)) = (BitVec.ofInt 64 (8)) := by decide +kernel
example : Ints.pow (BitVec.ofInt 8 (2)) (BitVec.ofInt 32 (3)) = (BitVec.ofInt 8 (8)) := by decide +kernel
example : Ints.pow (BitVec.ofInt 16 (2)) (BitVec.ofInt 32 (3)) = (BitVec.ofInt 16 (8)) := by decide +kernel
example : Ints.pow (BitVec.ofInt 32 (2)) (BitVec.ofInt 32 (3)) = (BitVec.ofInt 32 (8)) := by decide +kernel
example : Ints.pow (BitVec.ofInt 64 (2)) (BitVec.ofInt 32 (3)) = (BitVec.ofInt 64 (8)) := by decide +kernel
example : Ints.pow (BitVec.ofInt 64 (2)) (BitVec.ofInt 32 (3)) = (BitVec.ofInt 64 (8)) := by decide +kernel
example : Ints.pow (BitVec.ofInt 8 (2)) (BitVec.ofInt 32 (3)) = (BitVec.ofInt 8 (8)) := by decide +kernel
example : Ints.pow (BitVec.ofInt 16 (2)) (BitVec.ofInt 32 (3)) = (BitVec.ofInt 16 (8)) := by decide +kernel
example : Ints.pow (BitVec.ofInt 32 (2)) (BitVec.ofInt 32 (3)) = (BitVec.ofInt 32 (8)) := by decide +kernel
example : Ints.pow (BitVec.ofInt 64 (2)) (BitVec.ofInt 32 (3)) = (BitVec.ofInt 64 (8)) := by decide +kernel

-- ops_test.go:298 Test_SaturatingAdd_SignedInteger
example : Ints.sSaturatingAdd (BitVec.ofInt 64 (100)) (BitVec.ofInt 64 (27)) = (BitVec.ofInt 64 (127)) := by decide +kernel
example : Ints.sSaturatingAdd (BitVec.ofInt 64 (9223372036854775807)) (BitVec.ofInt 64 (2)) = (BitVec.ofInt 64 (9223372036854775807)) := by decide +kernel
example : Ints.sSaturatingAdd (BitVec.ofInt 64 (-9223372036854775808)) (BitVec.ofInt 64 (-2)) = (BitVec.ofInt 64 (-9223372036854775808)) := by decide +kernel
example : Ints.sSaturatingAdd (BitVec.ofInt 8 (100)) (BitVec.ofInt 8 (27)) = (BitVec.ofInt 8 (127)) := by decide +kernel
example : Ints.sSaturatingAdd (BitVec.ofInt 8 (127)) (BitVec.ofInt 8 (2)) = (BitVec.ofInt 8 (127)) := by decide +kernel
example : Ints.sSaturatingAdd (BitVec.ofInt 8 (-128)) (BitVec.ofInt 8 (-2)) = (BitVec.ofInt 8 (-128)) := by decide +kernel
example : Ints.sSaturatingAdd (BitVec.ofInt 16 (100)) (BitVec.ofInt 16 (27)) = (BitVec.ofInt 16 (127)) := by decide +kernel
example : Ints.sSaturatingAdd (BitVec.ofInt 16 (32767)) (BitVec.ofInt 16 (2)) = (BitVec.ofInt 16 (32767)) := by decide +kernel
example : Ints.sSaturatingAdd (BitVec.ofInt 16 (-32768)) (BitVec.ofInt 16 (-2)) = (BitVec.ofInt 16 (-32768)) := by decide +kernel
example : Ints.sSaturatingAdd (BitVec.ofInt 32 (100)) (BitVec.ofInt 32 (27)) = (BitVec.ofInt 32 (127)) := by decide +kernel
example : Ints.sSaturatingAdd (BitVec.ofInt 32 (2147483647)) (BitVec.ofInt 32 (2)) = (BitVec.ofInt 32 (2147483647)) := by decide +kernel
example : Ints.sSaturatingAdd (BitVec.ofInt 32 (-2147483648)) (BitVec.ofInt 32 (-2)) = (BitVec.ofInt 32 (-2147483648)) := by decide +kernel
example : Ints.sSaturatingAdd (BitVec.ofInt 64 (100)) (BitVec.ofInt 64 (27)) = (BitVec.ofInt 64 (127)) := by decide +kernel
example : Ints.sSaturatingAdd (BitVec.ofInt 64 (9223372036854775807)) (BitVec.ofInt 64 (2)) = (BitVec.ofInt 64 (9223372036854775807)) := by decide +kernel
example : Ints.sSaturatingAdd (BitVec.ofInt 64 (-9223372036854775808)) (BitVec.ofInt 64 (-2)) = (BitVec.ofInt 64 (-9223372036854775808)) := by decide +kernel

-- ops_test.go:322 Test_SaturatingAdd_UnsignedInteger
example : Ints.uSaturatingAdd (BitVec.ofInt 64 (100)) (BitVec.ofInt 64 (27)) = (BitVec.ofInt 64 (127)) := by decide +kernel
example : Ints.uSaturatingAdd (BitVec.ofInt 64 (18446744073709551615)) (BitVec.ofInt 64 (200)) = (BitVec.ofInt 64 (18446744073709551615)) := by decide +kernel
example : Ints.uSaturatingAdd (BitVec.ofInt 8 (100)) (BitVec.ofInt 8 (27)) = (BitVec.ofInt 8 (127)) := by decide +kernel
example : Ints.uSaturatingAdd (BitVec.ofInt 8 (255)) (BitVec.ofInt 8 (200)) = (BitVec.ofInt 8 (255)) := by decide +kernel
example : Ints.uSaturatingAdd (BitVec.ofInt 16 (100)) (BitVec.ofInt 16 (27)) = (BitVec.ofInt 16 (127)) := by decide +kernel
example : Ints.uSaturatingAdd (BitVec.ofInt 16 (65535)) (BitVec.ofInt 16 (200)) = (BitVec.ofInt 16 (65535)) := by decide +kernel
example : Ints.uSaturatingAdd (BitVec.ofInt 32 (100)) (BitVec.ofInt 32 (27)) = (BitVec.ofInt 32 (127)) := by decide +kernel
example : Ints.uSaturatingAdd (BitVec.ofInt 32 (4294967295)) (BitVec.ofInt 32 (200)) = (BitVec.ofInt 32 (4294967295)) := by decide +kernel
example : Ints.uSaturatingAdd (BitVec.ofInt 64 (100)) (BitVec.ofInt 64 (27)) = (BitVec.ofInt 64 (127)) := by decide +kernel
example : Ints.uSaturatingAdd (BitVec.ofInt 64 (18446744073709551615)) (BitVec.ofInt 64 (200)) = (BitVec.ofInt 64 (18446744073709551615)) := by decide +kernel

-- ops_test.go:341 Test_SaturatingSub_SignedInteger
example : Ints.isizeSaturatingSub (BitVec.ofInt 64 (100)) (BitVec.ofInt 64 (27)) = (BitVec.ofInt 64 (73)) := by decide +kernel
example : Ints.isizeSaturatingSub (BitVec.ofInt 64 (-9223372036854775808)) (BitVec.ofInt 64 (2)) = (BitVec.ofInt 64 (-9223372036854775808)) := by decide +kernel
example : Ints.isizeSaturatingSub (BitVec.ofInt 64 (9223372036854775807)) (BitVec.ofInt 64 (-2)) = (BitVec.ofInt 64 (9223372036854775807)) := by decide +kernel
example : Ints.sSaturatingSub (BitVec.ofInt 8 (100)) (BitVec.ofInt 8 (27)) = (BitVec.ofInt 8 (73)) := by decide +kernel
example : Ints.sSaturatingSub (BitVec.ofInt 8 (-128)) (BitVec.ofInt 8 (2)) = (BitVec.ofInt 8 (-128)) := by decide +kernel
example : Ints.sSaturatingSub (BitVec.ofInt 8 (127)) (BitVec.ofInt 8 (-2)) = (BitVec.ofInt 8 (127)) := by decide +kernel
example : Ints.sSaturatingSub (BitVec.ofInt 16 (100)) (BitVec.ofInt 16 (27)) = (BitVec.ofInt 16 (73)) := by decide +kernel
example : Ints.sSaturatingSub (BitVec.ofInt 16 (-32768)) (BitVec.ofInt 16 (2)) = (BitVec.ofInt 16 (-32768)) := by decide +kernel
example : Ints.sSaturatingSub (BitVec.ofInt 16 (32767)) (BitVec.ofInt 16 (-2)) = (BitVec.ofInt 16 (32767)) := by decide +kernel
example : Ints.sSaturatingSub (BitVec.ofInt 32 (100)) (BitVec.ofInt 32 (27)) = (BitVec.ofInt 32 (73)) := by decide +kernel
example : Ints.sSaturatingSub (BitVec.ofInt 32 (-2147483648)) (BitVec.ofInt 32 (2)) = (BitVec.ofInt 32 (-2147483648)) := by decide +kernel
example : Ints.sSaturatingSub (BitVec.ofInt 32 (2147483647)) (BitVec.ofInt 32 (-2)) = (BitVec.ofInt 32 (2147483647)) := by decide +kernel
example : Ints.sSaturatingSub (BitVec.ofInt 64 (100)) (BitVec.ofInt 64 (27)) = (BitVec.ofInt 64 (73)) := by decide +kernel
example : Ints.sSaturatingSub (BitVec.ofInt 64 (-9223372036854775808)) (BitVec.ofInt 64 (2)) = (BitVec.ofInt 64 (-9223372036854775808)) := by decide +kernel
example : Ints.sSaturatingSub (BitVec.ofInt 64 (9223372036854775807)) (BitVec.ofInt 64 (-2)) = (BitVec.ofInt 64 (9223372036854775807)) := by decide +kernel

-- ops_test.go:365 Test_SaturatingSub_UnsignedInteger
example : Ints.uSaturatingSub (BitVec.ofInt 64 (100)) (BitVec.ofInt 64 (27)) = (BitVec.ofInt 64 (73)) := by decide +kernel
example : Ints.uSaturatingSub (BitVec.ofInt 64 (0)) (BitVec.ofInt 64 (2)) = (BitVec.ofInt 64 (0)) := by decide +kernel
example : Ints.uSaturatingSub (BitVec.ofInt 8 (100)) (BitVec.ofInt 8 (27)) = (BitVec.ofInt 8 (73)) := by decide +kernel
example : Ints.uSaturatingSub (BitVec.ofInt 8 (0)) (BitVec.ofInt 8 (2)) = (BitVec.ofInt 8 (0)) := by decide +kernel
example : Ints.uSaturatingSub (BitVec.ofInt 16 (100)) (BitVec.ofInt 16 (27)) = (BitVec.ofInt 16 (73)) := by decide +kernel
example : Ints.uSaturatingSub (BitVec.ofInt 16 (0)) (BitVec.ofInt 16 (2)) = (BitVec.ofInt 16 (0)) := by decide +kernel
example : Ints.uSaturatingSub (BitVec.ofInt 32 (100)) (BitVec.ofInt 32 (27)) = (BitVec.ofInt 32 (73)) := by decide +kernel
example : Ints.uSaturatingSub (BitVec.ofInt 32 (0)) (BitVec.ofInt 32 (2)) = (BitVec.ofInt 32 (0)) := by decide +kernel
example : Ints.uSaturatingSub (BitVec.ofInt 64 (100)) (BitVec.ofInt 64 (27)) = (BitVec.ofInt 64 (73)) := by decide +kernel
example : Ints.uSaturatingSub (BitVec.ofInt 64 (0)) (BitVec.ofInt 64 (2)) = (BitVec.ofInt 64 (0)) := by decide +kernel

-- ops_test.go:384 Test_SaturatingMul_SignedInteger
example : Ints.sSaturatingMul (BitVec.ofInt 64 (10)) (BitVec.ofInt 64 (12)) = (BitVec.ofInt 64 (120)) := by decide +kernel
example : Ints.sSaturatingMul (BitVec.ofInt 64 (9223372036854775807)) (BitVec.ofInt 64 (2)) = (BitVec.ofInt 64 (9223372036854775807)) := by decide +kernel
example : Ints.sSaturatingMul (BitVec.ofInt 64 (-9223372036854775808)) (BitVec.ofInt 64 (2)) = (BitVec.ofInt 64 (-9223372036854775808)) := by decide +kernel
example : Ints.sSaturatingMul (BitVec.ofInt 8 (11)) (BitVec.ofInt 8 (5)) = (BitVec.ofInt 8 (55)) := by decide +kernel
example : Ints.sSaturatingMul (BitVec.ofInt 8 (127)) (BitVec.ofInt 8 (2)) = (BitVec.ofInt 8 (127)) := by decide +kernel
example : Ints.sSaturatingMul (BitVec.ofInt 8 (-128)) (BitVec.ofInt 8 (2)) = (BitVec.ofInt 8 (-128)) := by decide +kernel
example : Ints.sSaturatingMul (BitVec.ofInt 16 (11)) (BitVec.ofInt 16 (12)) = (BitVec.ofInt 16 (132)) := by decide +kernel
example : Ints.sSaturatingMul (BitVec.ofInt 16 (32767)) (BitVec.ofInt 16 (2)) = (BitVec.ofInt 16 (32767)) := by decide +kernel
example : Ints.sSaturatingMul (BitVec.ofInt 16 (-32768)) (BitVec.ofInt 16 (2)) = (BitVec.ofInt 16 (-32768)) := by decide +kernel
example : Ints.sSaturatingMul (BitVec.ofInt 32 (11)) (BitVec.ofInt 32 (12)) = (BitVec.ofInt 32 (132)) := by decide +kernel
example : Ints.sSaturatingMul (BitVec.ofInt 32 (2147483647)) (BitVec.ofInt 32 (2)) = (BitVec.ofInt 32 (2147483647)) := by decide +kernel
example : Ints.sSaturatingMul (BitVec.ofInt 32 (-2147483648)) (BitVec.ofInt 32 (2)) = (BitVec.ofInt 32 (-2147483648)) := by decide +kernel
example : Ints.sSaturatingMul (BitVec.ofInt 64 (11)) (BitVec.ofInt 64 (12)) = (BitVec.ofInt 64 (132)) := by decide +kernel
example : Ints.sSaturatingMul (BitVec.ofInt 64 (9223372036854775807)) (BitVec.ofInt 64 (2)) = (BitVec.ofInt 64 (9223372036854775807)) := by decide +kernel
example : Ints.sSaturatingMul (BitVec.ofInt 64 (-9223372036854775808)) (BitVec.ofInt 64 (2)) = (BitVec.ofInt 64 (-9223372036854775808)) := by decide +kernel

-- ops_test.go:408 Test_SaturatingMul_UnsignedInteger
example : Ints.usizeSaturatingMul (BitVec.ofInt 64 (10)) (BitVec.ofInt 64 (12)) = (BitVec.ofInt 64 (120)) := by decide +kernel
example : Ints.usizeSaturatingMul (BitVec.ofInt 64 (18446744073709551615)) (BitVec.ofInt 64 (2)) = (BitVec.ofInt 64 (18446744073709551615)) := by decide +kernel
example : Ints.uSaturatingMul (BitVec.ofInt 8 (11)) (BitVec.ofInt 8 (5)) = (BitVec.ofInt 8 (55)) := by decide +kernel
example : Ints.uSaturatingMul (BitVec.ofInt 8 (255)) (BitVec.ofInt 8 (2)) = (BitVec.ofInt 8 (255)) := by decide +kernel
example : Ints.uSaturatingMul (BitVec.ofInt 16 (11)) (BitVec.ofInt 16 (12)) = (BitVec.ofInt 16 (132)) := by decide +kernel
example : Ints.uSaturatingMul (BitVec.ofInt 16 (65535)) (BitVec.ofInt 16 (2)) = (BitVec.ofInt 16 (65535)) := by decide +kernel
example : Ints.uSaturatingMul (BitVec.ofInt 32 (11)) (BitVec.ofInt 32 (12)) = (BitVec.ofInt 32 (132)) := by decide +kernel
example : Ints.uSaturatingMul (BitVec.ofInt 32 (4294967295)) (BitVec.ofInt 32 (2)) = (BitVec.ofInt 32 (4294967295)) := by decide +kernel
example : Ints.uSaturatingMul (BitVec.ofInt 64 (11)) (BitVec.ofInt 64 (12)) = (BitVec.ofInt 64 (132)) := by decide +kernel
example : Ints.uSaturatingMul (BitVec.ofInt 64 (18446744073709551615)) (BitVec.ofInt 64 (2)) = (BitVec.ofInt 64 (18446744073709551615)) := by decide +kernel

-- ops_test.go:427 Test_SaturatingDiv_SignedInteger
example : Ints.sSaturatingDiv (BitVec.ofInt 64 (100)) (BitVec.ofInt 64 (10)) = .ok (BitVec.ofInt 64 (10)) := by decide +kernel
example : Ints.sSaturatingDiv (BitVec.ofInt 64 (9223372036854775807)) (BitVec.ofInt 64 (-1)) = .ok (BitVec.ofInt 64 (-9223372036854775807)) := by decide +kernel
example : Ints.sSaturatingDiv (BitVec.ofInt 64 (-9223372036854775808)) (BitVec.ofInt 64 (-1)) = .ok (BitVec.ofInt 64 (9223372036854775807)) := by decide +kernel
example : Ints.sSaturatingDiv (BitVec.ofInt 8 (100)) (BitVec.ofInt 8 (10)) = .ok (BitVec.ofInt 8 (10)) := by decide +kernel
example : Ints.sSaturatingDiv (BitVec.ofInt 8 (127)) (BitVec.ofInt 8 (-1)) = .ok (BitVec.ofInt 8 (-127)) := by decide +kernel
example : Ints.sSaturatingDiv (BitVec.ofInt 8 (-128)) (BitVec.ofInt 8 (-1)) = .ok (BitVec.ofInt 8 (127)) := by decide +kernel
example : Ints.sSaturatingDiv (BitVec.ofInt 16 (100)) (BitVec.ofInt 16 (10)) = .ok (BitVec.ofInt 16 (10)) := by decide +kernel
example : Ints.sSaturatingDiv (BitVec.ofInt 16 (32767)) (BitVec.ofInt 16 (-1)) = .ok (BitVec.ofInt 16 (-32767)) := by decide +kernel
example : Ints.sSaturatingDiv (BitVec.ofInt 16 (-32768)) (BitVec.ofInt 16 (-1)) = .ok (BitVec.ofInt 16 (32767)) := by decide +kernel
example : Ints.sSaturatingDiv (BitVec.ofInt 32 (100)) (BitVec.ofInt 32 (10)) = .ok (BitVec.ofInt 32 (10)) := by decide +kernel
example : Ints.sSaturatingDiv (BitVec.ofInt 32 (2147483647)) (BitVec.ofInt 32 (-1)) = .ok (BitVec.ofInt 32 (-2147483647)) := by decide +kernel
example : Ints.sSaturatingDiv (BitVec.ofInt 32 (-2147483648)) (BitVec.ofInt 32 (-1)) = .ok (BitVec.ofInt 32 (2147483647)) := by decide +kernel
example : Ints.sSaturatingDiv (BitVec.ofInt 64 (100)) (BitVec.ofInt 64 (10)) = .ok (BitVec.ofInt 64 (10)) := by decide +kernel
example : Ints.sSaturatingDiv (BitVec.ofInt 64 (9223372036854775807)) (BitVec.ofInt 64 (-1)) = .ok (BitVec.ofInt 64 (-9223372036854775807)) := by decide +kernel
example : Ints.sSaturatingDiv (BitVec.ofInt 64 (-9223372036854775808)) (BitVec.ofInt 64 (-1)) = .ok (BitVec.ofInt 64 (9223372036854775807)) := by decide +kernel

-- ops_test.go:451 Test_SaturatingDiv_UnsignedInteger
example : Ints.uSaturatingDiv (BitVec.ofInt 64 (100)) (BitVec.ofInt 64 (10)) = .ok (BitVec.ofInt 64 (10)) := by decide +kernel
example : Ints.uSaturatingDiv (BitVec.ofInt 64 (0)) (BitVec.ofInt 64 (10)) = .ok (BitVec.ofInt 64 (0)) := by decide +kernel
example : Ints.uSaturatingDiv (BitVec.ofInt 8 (100)) (BitVec.ofInt 8 (10)) = .ok (BitVec.ofInt 8 (10)) := by decide +kernel
example : Ints.uSaturatingDiv (BitVec.ofInt 8 (0)) (BitVec.ofInt 8 (10)) = .ok (BitVec.ofInt 8 (0)) := by decide +kernel
example : Ints.uSaturatingDiv (BitVec.ofInt 16 (100)) (BitVec.ofInt 16 (10)) = .ok (BitVec.ofInt 16 (10)) := by decide +kernel
example : Ints.uSaturatingDiv (BitVec.ofInt 16 (0)) (BitVec.ofInt 16 (10)) = .ok (BitVec.ofInt 16 (0)) := by decide +kernel
example : Ints.uSaturatingDiv (BitVec.ofInt 32 (100)) (BitVec.ofInt 32 (10)) = .ok (BitVec.ofInt 32 (10)) := by decide +kernel
example : Ints.uSaturatingDiv (BitVec.ofInt 32 (0)) (BitVec.ofInt 32 (10)) = .ok (BitVec.ofInt 32 (0)) := by decide +kernel
example : Ints.uSaturatingDiv (BitVec.ofInt 64 (100)) (BitVec.ofInt 64 (10)) = .ok (BitVec.ofInt 64 (10)) := by decide +kernel
example : Ints.uSaturatingDiv (BitVec.ofInt 64 (0)) (BitVec.ofInt 64 (10)) = .ok (BitVec.ofInt 64 (0)) := by decide +kernel

-- ops_test.go:470 Test_U128_Add
example : ((.ok (U128.fromU64 (BitVec.ofInt 64 (10))) : Go U128) >>= fun a => (.ok (U128.fromU64 (BitVec.ofInt 64 (5))) : Go U128) >>= fun b => .ok (U128.add a b)) = (.ok (U128.fromU64 (BitVec.ofInt 64 (15))) : Go U128) := by decide +kernel
example : ((.ok (U128.fromU64 (BitVec.allOnes 64)) : Go U128) >>= fun a => (.ok (U128.fromU64 (BitVec.ofInt 64 (1))) : Go U128) >>= fun b => .ok (U128.add a b)) = (.ok ⟨1#64, 0#64⟩ : Go U128) := by decide +kernel

-- ops_test.go:477 Test_I128_Add
example : ((.ok (I128.fromI64 (BitVec.ofInt 64 (10))) : Go I128) >>= fun a => (.ok (I128.fromI64 (BitVec.ofInt 64 (5))) : Go I128) >>= fun b => .ok (I128.add a b)) = (.ok (I128.fromI64 (BitVec.ofInt 64 (15))) : Go I128) := by decide +kernel
example : ((.ok (I128.fromI64 (BitVec.intMax 64)) : Go I128) >>= fun a => (.ok (I128.fromI64 (BitVec.ofInt 64 (1))) : Go I128) >>= fun b => .ok (I128.add a b)) = (.ok ⟨0#64, ((BitVec.intMax 64) + 1#64)⟩ : Go I128) := by decide +kernel
example : (((.ok (I128.fromI64 (BitVec.intMax 64)) : Go I128) >>= fun a => (.ok (I128.fromI64 (BitVec.intMax 64)) : Go I128) >>= fun b => .ok (I128.add a b)) >>= fun a => (.ok (I128.fromI64 (BitVec.ofInt 64 (2))) : Go I128) >>= fun b => .ok (I128.add a b)) = (.ok ⟨1#64, 0#64⟩ : Go I128) := by decide +kernel
example : ((.ok (I128.fromI64 (BitVec.ofInt 64 (-10))) : Go I128) >>= fun a => (.ok (I128.fromI64 (BitVec.ofInt 64 (-5))) : Go I128) >>= fun b => .ok (I128.add a b)) = (.ok (I128.fromI64 (BitVec.ofInt 64 (-15))) : Go I128) := by decide +kernel
example : ((.ok (I128.fromI64 (BitVec.intMin 64)) : Go I128) >>= fun a => (.ok (I128.fromI64 (BitVec.ofInt 64 (-1))) : Go I128) >>= fun b => .ok (I128.add a b)) = (I128.neg <$> (.ok (I128.fromU64 ((Ints.sAbs (BitVec.intMin 64)) + 1#64)) : Go I128)) := by decide +kernel

-- ops_test.go:488 Test_U128_Sub
example : ((.ok (U128.fromU64 (BitVec.ofInt 64 (10))) : Go U128) >>= fun a => (.ok (U128.fromU64 (BitVec.ofInt 64 (5))) : Go U128) >>= fun b => .ok (U128.sub a b)) = (.ok (U128.fromU64 (BitVec.ofInt 64 (5))) : Go U128) := by decide +kernel
example : (U128.toStr <$> ((.ok (U128.fromU64 (BitVec.ofInt 64 (5))) : Go U128) >>= fun a => (.ok (U128.fromU64 (BitVec.ofInt 64 (10))) : Go U128) >>= fun b => .ok (U128.sub a b))) = (.ok ("340282366920938463463374607431768211451".toUTF8.toList) : Go GoStr) := by decide +kernel

-- ops_test.go:495 Test_I128_Sub
example : ((.ok (I128.fromI64 (BitVec.ofInt 64 (10))) : Go I128) >>= fun a => (.ok (I128.fromI64 (BitVec.ofInt 64 (5))) : Go I128) >>= fun b => .ok (I128.sub a b)) = (.ok (I128.fromI64 (BitVec.ofInt 64 (5))) : Go I128) := by decide +kernel
example : ((.ok (I128.fromI64 (BitVec.ofInt 64 (5))) : Go I128) >>= fun a => (.ok (I128.fromI64 (BitVec.ofInt 64 (10))) : Go I128) >>= fun b => .ok (I128.sub a b)) = (.ok (I128.fromI64 (BitVec.ofInt 64 (-5))) : Go I128) := by decide +kernel
example : ((.ok (I128.fromI64 (BitVec.ofInt 64 (-10))) : Go I128) >>= fun a => (.ok (I128.fromI64 (BitVec.ofInt 64 (-5))) : Go I128) >>= fun b => .ok (I128.sub a b)) = (.ok (I128.fromI64 (BitVec.ofInt 64 (-5))) : Go I128) := by decide +kernel
example : ((.ok (I128.fromI64 (BitVec.ofInt 64 (-5))) : Go I128) >>= fun a => (.ok (I128.fromI64 (BitVec.ofInt 64 (10))) : Go I128) >>= fun b => .ok (I128.sub a b)) = (.ok (I128.fromI64 (BitVec.ofInt 64 (-15))) : Go I128) := by decide +kernel
example : (I128.toStr <$> ((.ok (⟨BitVec.intMax 64, BitVec.allOnes 64⟩ : I128) : Go I128) >>= fun a => (.ok (I128.fromI64 (BitVec.ofInt 64 (-1))) : Go I128) >>= fun b => .ok (I128.sub a b))) = (.ok ("-170141183460469231731687303715884105728".toUTF8.toList) : Go GoStr) := by decide +kernel
example : (I128.toStr <$> ((.ok (⟨BitVec.intMin 64, 0#64⟩ : I128) : Go I128) >>= fun a => (.ok (I128.fromI64 (BitVec.ofInt 64 (1))) : Go I128) >>= fun b => .ok (I128.sub a b))) = (.ok ("170141183460469231731687303715884105727".toUTF8.toList) : Go GoStr) := by decide +kernel

-- ops_test.go:508 Test_I128_Mul
example : ((.ok (I128.fromI64 (BitVec.ofInt 64 (10))) : Go I128) >>= fun a => (.ok (I128.fromI64 (BitVec.ofInt 64 (5))) : Go I128) >>= fun b => .ok (I128.mul a b)) = (.ok (I128.fromI64 (BitVec.ofInt 64 (50))) : Go I128) := by decide +kernel
example : ((.ok (I128.fromI64 (BitVec.ofInt 64 (5))) : Go I128) >>= fun a => (.ok (I128.fromI64 (BitVec.ofInt 64 (10))) : Go I128) >>= fun b => .ok (I128.mul a b)) = (.ok (I128.fromI64 (BitVec.ofInt 64 (50))) : Go I128) := by decide +kernel
example : ((.ok (I128.fromI64 (BitVec.ofInt 64 (-10))) : Go I128) >>= fun a => (.ok (I128.fromI64 (BitVec.ofInt 64 (-5))) : Go I128) >>= fun b => .ok (I128.mul a b)) = (.ok (I128.fromI64 (BitVec.ofInt 64 (50))) : Go I128) := by decide +kernel
example : ((.ok (I128.fromI64 (BitVec.ofInt 64 (-5))) : Go I128) >>= fun a => (.ok (I128.fromI64 (BitVec.ofInt 64 (10))) : Go I128) >>= fun b => .ok (I128.mul a b)) = (.ok (I128.fromI64 (BitVec.ofInt 64 (-50))) : Go I128) := by decide +kernel
example : (I128.toStr <$> ((.ok (I128.fromU64 (BitVec.allOnes 64)) : Go I128) >>= fun a => (.ok (I128.fromI64 (BitVec.ofInt 64 (2))) : Go I128) >>= fun b => .ok (I128.mul a b))) = (.ok ("36893488147419103230".toUTF8.toList) : Go GoStr) := by decide +kernel

-- ops_test.go:520 Test_U128_Mul
example : ((.ok (U128.fromU64 (BitVec.ofInt 64 (10))) : Go U128) >>= fun a => (.ok (U128.fromU64 (BitVec.ofInt 64 (5))) : Go U128) >>= fun b => .ok (U128.mul a b)) = (.ok (U128.fromU64 (BitVec.ofInt 64 (50))) : Go U128) := by decide +kernel
example : ((.ok (U128.fromU64 (BitVec.ofInt 64 (5))) : Go U128) >>= fun a => (.ok (U128.fromU64 (BitVec.ofInt 64 (10))) : Go U128) >>= fun b => .ok (U128.mul a b)) = (.ok (U128.fromU64 (BitVec.ofInt 64 (50))) : Go U128) := by decide +kernel
example : (U128.toStr <$> ((.ok (U128.fromU64 (BitVec.allOnes 64)) : Go U128) >>= fun a => (.ok (U128.fromU64 (BitVec.ofInt 64 (2))) : Go U128) >>= fun b => .ok (U128.mul a b))) = (.ok ("36893488147419103230".toUTF8.toList) : Go GoStr) := by decide +kernel

-- ops_test.go:529 Test_I128_Div
example : ((.ok (I128.fromI64 (BitVec.ofInt 64 (10))) : Go I128) >>= fun a => (.ok (I128.fromI64 (BitVec.ofInt 64 (5))) : Go I128) >>= fun b => I128.div a b) = (.ok (I128.fromI64 (BitVec.ofInt 64 (2))) : Go I128) := by decide +kernel
example : ((.ok (I128.fromI64 (BitVec.ofInt 64 (5))) : Go I128) >>= fun a => (.ok (I128.fromI64 (BitVec.ofInt 64 (10))) : Go I128) >>= fun b => I128.div a b) = (.ok (I128.fromI64 (BitVec.ofInt 64 (0))) : Go I128) := by decide +kernel
example : ((.ok (I128.fromI64 (BitVec.ofInt 64 (-10))) : Go I128) >>= fun a => (.ok (I128.fromI64 (BitVec.ofInt 64 (-5))) : Go I128) >>= fun b => I128.div a b) = (.ok (I128.fromI64 (BitVec.ofInt 64 (2))) : Go I128) := by decide +kernel
example : ((.ok (I128.fromI64 (BitVec.ofInt 64 (-5))) : Go I128) >>= fun a => (.ok (I128.fromI64 (BitVec.ofInt 64 (10))) : Go I128) >>= fun b => I128.div a b) = (.ok (I128.fromI64 (BitVec.ofInt 64 (0))) : Go I128) := by decide +kernel
example : ((.ok (I128.fromI64 (BitVec.ofInt 64 (-10))) : Go I128) >>= fun a => (.ok (I128.fromI64 (BitVec.ofInt 64 (5))) : Go I128) >>= fun b => I128.div a b) = (.ok (I128.fromI64 (BitVec.ofInt 64 (-2))) : Go I128) := by decide +kernel
example : ((.ok (I128.fromI64 (BitVec.ofInt 64 (5))) : Go I128) >>= fun a => (.ok (I128.fromI64 (BitVec.ofInt 64 (-10))) : Go I128) >>= fun b => I128.div a b) = (.ok (I128.fromI64 (BitVec.ofInt 64 (0))) : Go I128) := by decide +kernel
example : (I128.toStr <$> (((.ok (I128.fromU64 (BitVec.allOnes 64)) : Go I128) >>= fun a => (.ok (I128.fromI64 (BitVec.ofInt 64 (2))) : Go I128) >>= fun b => .ok (I128.mul a b)) >>= fun a => (.ok (I128.fromI64 (BitVec.ofInt 64 (2))) : Go I128) >>= fun b => I128.div a b)) = (.ok ("18446744073709551615".toUTF8.toList) : Go GoStr) := by decide +kernel
example : (I128.toStr <$> ((.ok (I128.fromU64 (BitVec.allOnes 64)) : Go I128) >>= fun a => (.ok (I128.fromI64 (BitVec.ofInt 64 (2))) : Go I128) >>= fun b => I128.div a b)) = (.ok ("9223372036854775807".toUTF8.toList) : Go GoStr) := by decide +kernel

-- ops_test.go:545 Test_U128_Div
example : ((.ok (U128.fromU64 (BitVec.ofInt 64 (10))) : Go U128) >>= fun a => (.ok (U128.fromU64 (BitVec.ofInt 64 (5))) : Go U128) >>= fun b => U128.div a b) = (.ok (U128.fromU64 (BitVec.ofInt 64 (2))) : Go U128) := by decide +kernel
example : ((.ok (U128.fromU64 (BitVec.ofInt 64 (5))) : Go U128) >>= fun a => (.ok (U128.fromU64 (BitVec.ofInt 64 (10))) : Go U128) >>= fun b => U128.div a b) = (.ok (U128.fromU64 (BitVec.ofInt 64 (0))) : Go U128) := by decide +kernel
example : (U128.toStr <$> (((.ok (U128.fromU64 (BitVec.allOnes 64)) : Go U128) >>= fun a => (.ok (U128.fromU64 (BitVec.ofInt 64 (2))) : Go U128) >>= fun b => .ok (U128.mul a b)) >>= fun a => (.ok (U128.fromU64 (BitVec.ofInt 64 (2))) : Go U128) >>= fun b => U128.div a b)) = (.ok ("18446744073709551615".toUTF8.toList) : Go GoStr) := by decide +kernel
example : (U128.toStr <$> ((.ok (U128.fromU64 (BitVec.allOnes 64)) : Go U128) >>= fun a => (.ok (U128.fromU64 (BitVec.ofInt 64 (2))) : Go U128) >>= fun b => U128.div a b)) = (.ok ("9223372036854775807".toUTF8.toList) : Go GoStr) := by decide +kernel

-- ops_test.go:555 Test_I128_Rem
example : ((.ok (I128.fromI64 (BitVec.ofInt 64 (10))) : Go I128) >>= fun a => (.ok (I128.fromI64 (BitVec.ofInt 64 (5))) : Go I128) >>= fun b => I128.rem a b) = (.ok (I128.fromI64 (BitVec.ofInt 64 (0))) : Go I128) := by decide +kernel
example : ((.ok (I128.fromI64 (BitVec.ofInt 64 (5))) : Go I128) >>= fun a => (.ok (I128.fromI64 (BitVec.ofInt 64 (10))) : Go I128) >>= fun b => I128.rem a b) = (.ok (I128.fromI64 (BitVec.ofInt 64 (5))) : Go I128) := by decide +kernel
example : ((.ok (I128.fromI64 (BitVec.ofInt 64 (-10))) : Go I128) >>= fun a => (.ok (I128.fromI64 (BitVec.ofInt 64 (-5))) : Go I128) >>= fun b => I128.rem a b) = (.ok (I128.fromI64 (BitVec.ofInt 64 (0))) : Go I128) := by decide +kernel
example : ((.ok (I128.fromI64 (BitVec.ofInt 64 (-5))) : Go I128) >>= fun a => (.ok (I128.fromI64 (BitVec.ofInt 64 (10))) : Go I128) >>= fun b => I128.rem a b) = (.ok (I128.fromI64 (BitVec.ofInt 64 (-5))) : Go I128) := by decide +kernel
example : ((.ok (I128.fromI64 (BitVec.ofInt 64 (-10))) : Go I128) >>= fun a => (.ok (I128.fromI64 (BitVec.ofInt 64 (5))) : Go I128) >>= fun b => I128.rem a b) = (.ok (I128.fromI64 (BitVec.ofInt 64 (0))) : Go I128) := by decide +kernel
example : ((.ok (I128.fromI64 (BitVec.ofInt 64 (5))) : Go I128) >>= fun a => (.ok (I128.fromI64 (BitVec.ofInt 64 (-10))) : Go I128) >>= fun b => I128.rem a b) = (.ok (I128.fromI64 (BitVec.ofInt 64 (-5))) : Go I128) := by decide +kernel

-- ops_test.go:568 Test_U128_Rem
example : ((.ok (U128.fromU64 (BitVec.ofInt 64 (10))) : Go U128) >>= fun a => (.ok (U128.fromU64 (BitVec.ofInt 64 (5))) : Go U128) >>= fun b => U128.rem a b) = (.ok (U128.fromU64 (BitVec.ofInt 64 (0))) : Go U128) := by decide +kernel
example : ((.ok (U128.fromU64 (BitVec.ofInt 64 (5))) : Go U128) >>= fun a => (.ok (U128.fromU64 (BitVec.ofInt 64 (10))) : Go U128) >>= fun b => U128.rem a b) = (.ok (U128.fromU64 (BitVec.ofInt 64 (5))) : Go U128) := by decide +kernel

-- ops_test.go:575 Test_I128_Neg
example : (I128.toStr <$> (I128.neg <$> (.ok (I128.fromI64 (BitVec.ofInt 64 (10))) : Go I128))) = (.ok ("-10".toUTF8.toList) : Go GoStr) := by decide +kernel
example : (I128.toStr <$> (I128.neg <$> (.ok (I128.fromI64 (BitVec.ofInt 64 (-10))) : Go I128))) = (.ok ("10".toUTF8.toList) : Go GoStr) := by decide +kernel

-- bitwise_test.go:5 Test_I128_Shl
example : (I128.toStr <$> ((.ok (I128.fromU64 (BitVec.allOnes 64)) : Go I128) >>= fun a => (.ok (I128.fromI64 (BitVec.ofInt 64 (1))) : Go I128) >>= fun b => .ok (I128.shl a b))) = (.ok ("36893488147419103230".toUTF8.toList) : Go GoStr) := by decide +kernel
example : (I128.toStr <$> ((.ok (I128.fromU64 (BitVec.ofInt 64 (30))) : Go I128) >>= fun a => (.ok (I128.fromI64 (BitVec.ofInt 64 (1))) : Go I128) >>= fun b => .ok (I128.shl a b))) = (.ok ("60".toUTF8.toList) : Go GoStr) := by decide +kernel

-- bitwise_test.go:12 Test_U128_Shl
example : (U128.toStr <$> ((.ok (U128.fromU64 (BitVec.allOnes 64)) : Go U128) >>= fun a => (.ok (U128.fromU64 (BitVec.ofInt 64 (1))) : Go U128) >>= fun b => .ok (U128.shl a b))) = (.ok ("36893488147419103230".toUTF8.toList) : Go GoStr) := by decide +kernel
example : (U128.toStr <$> ((.ok (U128.fromU64 (BitVec.ofInt 64 (30))) : Go U128) >>= fun a => (.ok (U128.fromU64 (BitVec.ofInt 64 (1))) : Go U128) >>= fun b => .ok (U128.shl a b))) = (.ok ("60".toUTF8.toList) : Go GoStr) := by decide +kernel

-- bitwise_test.go:19 Test_I128_Shr
example : (((.ok (I128.fromU64 (BitVec.allOnes 64)) : Go I128) >>= fun a => (.ok (I128.fromI64 (BitVec.ofInt 64 (1))) : Go I128) >>= fun b => .ok (I128.shl a b)) >>= fun a => (.ok (I128.fromI64 (BitVec.ofInt 64 (1))) : Go I128) >>= fun b => .ok (I128.shr a b)) = (.ok (I128.fromU64 (BitVec.allOnes 64)) : Go I128) := by decide +kernel
example : (I128.toStr <$> ((.ok (I128.fromU64 (BitVec.ofInt 64 (60))) : Go I128) >>= fun a => (.ok (I128.fromI64 (BitVec.ofInt 64 (1))) : Go I128) >>= fun b => .ok (I128.shr a b))) = (.ok ("30".toUTF8.toList) : Go GoStr) := by decide +kernel

-- bitwise_test.go:26 Test_U128_Shr
example : (((.ok (U128.fromU64 (BitVec.allOnes 64)) : Go U128) >>= fun a => (.ok (U128.fromU64 (BitVec.ofInt 64 (1))) : Go U128) >>= fun b => .ok (U128.shl a b)) >>= fun a => (.ok (U128.fromU64 (BitVec.ofInt 64 (1))) : Go U128) >>= fun b => .ok (U128.shr a b)) = (.ok (U128.fromU64 (BitVec.allOnes 64)) : Go U128) := by decide +kernel
example : (U128.toStr <$> ((.ok (U128.fromU64 (BitVec.ofInt 64 (60))) : Go U128) >>= fun a => (.ok (U128.fromU64 (BitVec.ofInt 64 (1))) : Go U128) >>= fun b => .ok (U128.shr a b))) = (.ok ("30".toUTF8.toList) : Go GoStr) := by decide +kernel
end Gost
