import Verif.Model.Int128
/-
Model of /repo/const.go: the least and the greatest value of every integer type.

The constants of package math that the file names are external; the numbers below are their documented values
(MaxUint8 = 1<<8 - 1, MinInt8 = -1 << 7, MaxInt8 = 1<<7 - 1, and so on), with `int` and `uint` of 64 bits.  The
four of the 128-bit types are variables in Go: the model is their value unless a program assigns to them.
-/
namespace Gost
namespace Const

/-- const.go:5 U8_MIN. -/
def U8_MIN : BitVec 8 := 0#8
/-- const.go:6 U8_MAX. -/
def U8_MAX : BitVec 8 := 255#8
/-- const.go:8 U16_MIN. -/
def U16_MIN : BitVec 16 := 0#16
/-- const.go:9 U16_MAX. -/
def U16_MAX : BitVec 16 := 65535#16
/-- const.go:11 U32_MIN. -/
def U32_MIN : BitVec 32 := 0#32
/-- const.go:12 U32_MAX. -/
def U32_MAX : BitVec 32 := 4294967295#32
/-- const.go:14 U64_MIN. -/
def U64_MIN : BitVec 64 := 0#64
/-- const.go:15 U64_MAX. -/
def U64_MAX : BitVec 64 := 18446744073709551615#64
/-- const.go:17-20 U128_MIN. -/
def U128_MIN : U128 := { high := U64_MIN, low := U64_MIN }
/-- const.go:21-24 U128_MAX. -/
def U128_MAX : U128 := { high := U64_MAX, low := U64_MAX }
/-- const.go:26 USize_MIN. -/
def USize_MIN : BitVec 64 := 0#64
/-- const.go:27 USize_MAX. -/
def USize_MAX : BitVec 64 := 18446744073709551615#64
/-- const.go:29 I8_MIN. -/
def I8_MIN : BitVec 8 := BitVec.ofInt 8 (-128)
/-- const.go:30 I8_MAX. -/
def I8_MAX : BitVec 8 := BitVec.ofInt 8 127
/-- const.go:32 I16_MIN. -/
def I16_MIN : BitVec 16 := BitVec.ofInt 16 (-32768)
/-- const.go:33 I16_MAX. -/
def I16_MAX : BitVec 16 := BitVec.ofInt 16 32767
/-- const.go:35 I32_MIN. -/
def I32_MIN : BitVec 32 := BitVec.ofInt 32 (-2147483648)
/-- const.go:36 I32_MAX. -/
def I32_MAX : BitVec 32 := BitVec.ofInt 32 2147483647
/-- const.go:38 I64_MIN. -/
def I64_MIN : BitVec 64 := BitVec.ofInt 64 (-9223372036854775808)
/-- const.go:39 I64_MAX. -/
def I64_MAX : BitVec 64 := BitVec.ofInt 64 9223372036854775807
/-- const.go:41-44 I128_MIN. -/
def I128_MIN : I128 := { high := I64_MIN, low := U64_MIN }
/-- const.go:45-48 I128_MAX. -/
def I128_MAX : I128 := { high := I64_MAX, low := U64_MAX }
/-- const.go:50 ISize_MIN. -/
def ISize_MIN : BitVec 64 := BitVec.ofInt 64 (-9223372036854775808)
/-- const.go:51 ISize_MAX. -/
def ISize_MAX : BitVec 64 := BitVec.ofInt 64 9223372036854775807

end Const
end Gost
