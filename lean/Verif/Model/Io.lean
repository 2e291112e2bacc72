import Verif.Model.Time
import Verif.Model.Str
import Verif.Model.Conc
/-
Model of /repo/thread.go Sleep, of the printing and reading parts of /repo/io.go, and of AsRef
(/repo/convert.go and the containers).
-/
namespace Gost

/-! ### time.ParseDuration (package time, a contract) and Sleep -/
namespace Time

/-- `leadingInt` of package time: the digits at the front as a number, and what follows; `none` if the number
exceeds 2^63. -/
def leadingInt : GoStr → Nat → Option (Nat × GoStr)
  | [], x => some (x, [])
  | b :: bs, x =>
    match Dec.digitVal b with
    | none => some (x, b :: bs)
    | some d =>
      if 2 ^ 63 / 10 < x then none
      else if 2 ^ 63 < x * 10 + d then none
      else leadingInt bs (x * 10 + d)

/-- A byte that belongs to a unit: neither a digit nor '.'. -/
def unitByte (b : UInt8) : Bool := (Dec.digitVal b).isNone && b != 46

/-- `unitMap` of package time: nanoseconds per unit. -/
def unitOf (u : GoStr) : Option Nat :=
  if u = [110, 115] then some 1                       -- "ns"
  else if u = [117, 115] then some 1000               -- "us"
  else if u = [0xC2, 0xB5, 115] then some 1000        -- "µs"
  else if u = [0xCE, 0xBC, 115] then some 1000        -- "μs"
  else if u = [109, 115] then some 1000000            -- "ms"
  else if u = [115] then some 1000000000              -- "s"
  else if u = [109] then some (60 * 1000000000)       -- "m"
  else if u = [104] then some (3600 * 1000000000)     -- "h"
  else none

/-- The loop of `time.ParseDuration`: number and unit, again and again; `d` is the sum so far.  Simplified:
numbers with a fraction are not modelled (`none`), Sleep passes none. -/
def parseLoop : Nat → GoStr → Nat → Option Nat
  | 0, _, _ => none
  | fuel + 1, s, d =>
    if s.isEmpty then some d
    else
      match leadingInt s 0 with
      | none => none
      | some (v, rest) =>
        if rest.length = s.length then none
        else
          match unitOf (rest.takeWhile unitByte) with
          | none => none
          | some unit =>
            if 2 ^ 63 / unit < v then none
            else if 2 ^ 63 < d + v * unit then none
            else parseLoop fuel (rest.dropWhile unitByte) (d + v * unit)

/-- `time.ParseDuration` on strings without a sign: nanoseconds, `none` for an error. -/
def parseDuration (s : GoStr) : Option Nat :=
  if s = [48] then some 0
  else if s.isEmpty then none
  else
    match parseLoop (s.length + 1) s 0 with
    | none => none
    | some d => if 2 ^ 63 - 1 < d then none else some d
end Time

/-- thread.go:11-21 Sleep, called at time `now` (in nanoseconds): when it returns.  `wake t d` is when
`time.Sleep(d)` called at time t returns.  `fmt.Sprintf("%ds%dns", ...)` writes both numbers in decimal. -/
def sleep (wake : Nat → Nat → Nat) (now : Nat) (dur : Duration) : Go Nat :=
  let durationString := Dec.formatNat dur.seconds.toNat ++ [115] ++ (Dec.formatNat dur.nanoseconds.toNat ++ [110, 115])
  match Time.parseDuration durationString with
  | none => .error .explicit
  | some duration => .ok (wake now duration)

/-! ### Print, Println -/
namespace Io
variable {σ : Type}

/-- One write to the standard output; the state is that of the program and what has been written. -/
def write (t : GoStr) : Eff (σ × GoStr) Unit := fun s => (.ok (), (s.1, s.2 ++ t))

/-- A computation that writes nothing. -/
def quiet {α : Type} (x : Eff σ α) : Eff (σ × GoStr) α := fun s => ((x s.1).1, ((x s.1).2, s.2))

/-- io.go:14-16 Print.  `fmt.Print` of one String writes its bytes (errors of the write are ignored by the
code and not modelled). -/
def print (format : GoStr) (params : List (Fmt.Param σ)) : Eff (σ × GoStr) Unit := do
  let t ← quiet (Fmt.format format params)
  write t

/-- io.go:9-12 Println. -/
def println (format : GoStr) (params : List (Fmt.Param σ)) : Eff (σ × GoStr) Unit := do
  print format params
  write [10]

open Conc
/-- io.go:9-12 Println by goroutine `who`, once its text is formatted: two writes. -/
def printlnProc {V : Type} (who : Nat) (t : GoStr) (k : Proc V (Nat × GoStr)) : Proc V (Nat × GoStr) :=
  .emit (who, t) (.emit (who, [10]) k)

/-! ### Stdin: `fmt.Scanln(&line)` (package fmt, a contract) and ReadLine -/

/-- `isSpace` of package fmt. -/
def isSpace (r : Nat) : Bool :=
  decide ((0x09 ≤ r ∧ r ≤ 0x0d) ∨ r = 0x20 ∨ r = 0x85 ∨ r = 0xa0 ∨ r = 0x1680 ∨ (0x2000 ≤ r ∧ r ≤ 0x200a) ∨
    r = 0x2028 ∨ r = 0x2029 ∨ r = 0x202f ∨ r = 0x205f ∨ r = 0x3000)

/-- `ss.SkipSpace` when a newline is not a space: `error` is "unexpected newline"; both carry the rest of the
input. -/
def skipSpace : List Nat → Except (List Nat) (List Nat)
  | [] => .ok []
  | r :: rs =>
    if r = 13 ∧ rs.head? = some 10 then skipSpace rs
    else if r = 10 then .error rs
    else if isSpace r then skipSpace rs
    else .ok (r :: rs)

/-- The check for the end of the line in `ss.doScan`: spaces up to a newline; the first other rune is consumed
and reported as an error. -/
def endOfLine : List Nat → List Nat
  | [] => []
  | r :: rs => if r = 10 then rs else if isSpace r then endOfLine rs else rs

/-- `fmt.Scanln(&line)`: what is stored in line ("" at first) and the input left.  The error it returns is
dropped by the caller.  Input is given as runes. -/
def scanln (input : List Nat) : List Nat × List Nat :=
  match skipSpace input with
  | .error rest => ([], rest)
  | .ok [] => ([], [])
  | .ok (r :: rs) => ((r :: rs).takeWhile (!isSpace ·), endOfLine ((r :: rs).dropWhile (!isSpace ·)))

/-- io.go:81-88 Stdin.ReadLine, once it has the lock: the buffer afterwards and the input left.  Simplified: the
buffer is not nil, the input is valid UTF-8 and reading does not fail. -/
def readLine (_buffer : GoStr) (input : List Nat) : GoStr × List Nat :=
  let (line, rest) := scanln input
  (line.flatMap Utf8.encodeRune, rest)

/-- io.go:76-78 Stdin.Lock: the mutex itself. -/
def stdinLock {V E : Type} (lock : Nat) (k : Nat → Proc V E) : Proc V E := k lock

/-- io.go:81-88 Stdin.ReadLine as a goroutine sees it: lock, read (an event), unlock. -/
def readLineProc {V E : Type} (lock : Nat) (read : E) (k : Proc V E) : Proc V E :=
  .lock lock (.emit read (.unlock lock k))
end Io

/-! ### AsRef -/

/-- AsRef: `return &self` with a value receiver, so self is a new variable that holds a copy.  convert.go:8-78
(primitive types), vec.go:668-670, vec_deque.go:823-825, linked_list.go:404-406, hash_map.go:470-472,
hash_set.go:462-464, btree_map.go:1125-1127, btree_set.go:432-434, option.go:367-369, result.go:342-344,
pair.go:76-78.  `vars` are the variables; `x` the one AsRef is called on.  Result: the variables and the pointer. -/
def asRef {α : Type} (vars : List α) (x : Nat) : Go (List α × Nat) := do
  let v ← index vars x
  .ok (vars ++ [v], vars.length)
end Gost
