import Verif.Model.Int128
/-
Model of /repo/time.go.
-/
namespace Gost
open Ints

/-- time.go:5-8 `Duration`. -/
structure Duration where
  seconds : BitVec 64
  nanoseconds : BitVec 32
  deriving DecidableEq, Repr

namespace Duration

/-- time.go:18-25 DurationNew.  `Expect` on None panics with an explicit message. -/
def new (secs : BitVec 64) (nanos : BitVec 32) : Go Duration :=
  let seconds : BitVec 64 := (nanos.udiv 1000000000#32).setWidth 64
  match uCheckedAdd secs seconds with
  | none => .error .explicit
  | some s => .ok ⟨s, nanos.umod 1000000000#32⟩

/-- time.go:28-30 DurationFromSecs. -/
def fromSecs (secs : BitVec 64) : Go Duration := new secs 0#32

/-- time.go:33-35 DurationFromMillis. -/
def fromMillis (millis : BitVec 64) : Go Duration :=
  new (millis.udiv 1000#64) ((millis.umod 1000#64).setWidth 32 * 1000000#32)

/-- time.go:38-40 DurationFromMicros. -/
def fromMicros (micros : BitVec 64) : Go Duration :=
  new (micros.udiv 1000000#64) ((micros.umod 1000000#64).setWidth 32 * 1000#32)

/-- time.go:43-45 DurationFromNanos. -/
def fromNanos (nanos : BitVec 64) : Go Duration :=
  new (nanos.udiv 1000000000#64) ((nanos.umod 1000000000#64).setWidth 32)

/-- time.go:48-50 Duration.IsZero. -/
def isZero (self : Duration) : Bool := self.seconds == 0#64 && self.nanoseconds == 0#32

/-- time.go:54-56 Duration.AsSecs. -/
def asSecs (self : Duration) : BitVec 64 := self.seconds
/-- time.go:61-63 Duration.SubsecMillis. -/
def subsecMillis (self : Duration) : BitVec 32 := self.nanoseconds.udiv 1000000#32
/-- time.go:68-70 Duration.SubsecMicros. -/
def subsecMicros (self : Duration) : BitVec 32 := self.nanoseconds.udiv 1000#32
/-- time.go:75-77 Duration.SubsecNanos. -/
def subsecNanos (self : Duration) : BitVec 32 := self.nanoseconds

/-- time.go:80-82 Duration.AsMillis. -/
def asMillis (self : Duration) : U128 :=
  ((U128.fromU64 self.seconds).mul (U128.fromU64 1000#64)).add
    (U128.fromU64 ((self.nanoseconds.udiv 1000000#32).setWidth 64))
/-- time.go:85-87 Duration.AsMicros. -/
def asMicros (self : Duration) : U128 :=
  ((U128.fromU64 self.seconds).mul (U128.fromU64 1000000#64)).add
    (U128.fromU64 ((self.nanoseconds.udiv 1000#32).setWidth 64))
/-- time.go:90-92 Duration.AsNanos. -/
def asNanos (self : Duration) : U128 :=
  ((U128.fromU64 self.seconds).mul (U128.fromU64 1000000000#64)).add
    (U128.fromU64 (self.nanoseconds.setWidth 64))

end Duration
end Gost
