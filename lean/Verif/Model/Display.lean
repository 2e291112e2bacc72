import Verif.Model.Str
import Verif.Model.VecDeque
import Verif.Model.LinkedList
import Verif.Model.HashMap
import Verif.Model.BTree
/-
Model of the Display, Debug and ToString methods of the containers, of Option, Result and Pair, and of the
interfaces Display, Debug and ToString (fmt.go, to_string.go).

Whether a value implements an interface is decided by the signature of its method, so a method carries its
result type.  Methods are effectful computations (`Eff σ`): they may panic and touch the rest of the program,
but not the container that is being displayed.
-/
namespace Gost

/-- The result types a Display, Debug or ToString method can be declared with: the type `String` of the library
or Go's `string`.  They are different types. -/
inductive RetType where
  | String
  | string
  deriving DecidableEq, Repr

/-- A method without parameters that returns a string. -/
structure Method (σ : Type) where
  ret : RetType
  run : Eff σ GoStr

/-- `value.(I)` for an interface I with the one method `M() want`: succeeds iff the value has the method M with
exactly this result type. -/
def castTo {σ : Type} (want : RetType) (m : Option (Method σ)) : Option (Eff σ GoStr) :=
  match m with
  | none => none
  | some m => if m.ret = want then some m.run else none

/-- fmt.go:9-11, 93-101 interface Display and castToDisplay, given the method `Display` of the value. -/
def castToDisplay {σ : Type} (display : Option (Method σ)) : Fmt.Param σ := castTo .String display
/-- fmt.go:105-107 interface Debug: what `value.(Debug[T])` gives, given the method `Debug` of the value. -/
def castToDebug {σ : Type} (debug : Option (Method σ)) : Option (Eff σ GoStr) := castTo .string debug
/-- to_string.go:10-12, 14-22 interface ToString and castToToString, given the method `ToString` of the value. -/
def castToToString {σ : Type} (toString : Option (Method σ)) : Option (Eff σ GoStr) := castTo .String toString

/-- An ASCII literal. -/
def ascii (cs : List Char) : GoStr := cs.map fun c => UInt8.ofNat c.toNat

/-- fmt.go:13-91 Display of the primitive types: ToString (to_string.go), which has no effects. -/
def primDisplay {σ : Type} (toString : GoStr) : Option (Method σ) := some ⟨.String, pure toString⟩
/-- fmt.go:109-187 Debug of the primitive types: the name of the type and ToString in parentheses. -/
def primDebug {σ : Type} (name toString : GoStr) : Option (Method σ) :=
  some ⟨.String, pure (name ++ ascii ['('] ++ toString ++ ascii [')'])⟩

variable {σ : Type}

/-- vec.go:640-656, loop of Display; `disp e` is the Display method of `e`, if any. -/
def Vec.displayLoop {α : Type} (disp : α → Option (Method σ)) (data : List α) : Nat → Nat → GoStr → Eff σ GoStr
  | 0, _, buffer => pure buffer
  | fuel + 1, i, buffer =>
    if i < data.length then do
      let e ← Eff.lift (index data i)
      match castToDisplay (disp e) with
      | none => Eff.panic .explicit
      | some display => do
        let d ← display
        let buffer := buffer ++ d
        let buffer := if i ≠ data.length - 1 then buffer ++ ascii [',', ' '] else buffer
        Vec.displayLoop disp data fuel (i + 1) buffer
    else pure buffer
/-- vec.go:636-660 Display. -/
def Vec.display {α : Type} (disp : α → Option (Method σ)) (self : Vec α) : Eff σ GoStr := do
  let buffer ← Vec.displayLoop disp self.data (self.data.length + 1) 0 (ascii ['V', 'e', 'c', '['])
  pure (buffer ++ ascii [']'])
/-- vec.go:663-665 Debug. -/
def Vec.debug {α : Type} (disp : α → Option (Method σ)) (self : Vec α) : Eff σ GoStr := self.display disp

/-- vec_deque.go:795-811, loop of Display. -/
def VecDeque.displayLoop {α : Type} (disp : α → Option (Method σ)) (self : VecDeque α) :
    Nat → Nat → GoStr → Eff σ GoStr
  | 0, _, buffer => pure buffer
  | fuel + 1, i, buffer =>
    if i < self.len then do
      let o ← Eff.lift (self.get i)
      let e ← Eff.lift o.unwrap
      match castToDisplay (disp e) with
      | none => Eff.panic .explicit
      | some display => do
        let d ← display
        let buffer := buffer ++ d
        let buffer := if i ≠ usizeSub self.len 1 then buffer ++ ascii [',', ' '] else buffer
        VecDeque.displayLoop disp self fuel (i + 1) buffer
    else pure buffer
/-- vec_deque.go:791-815 Display. -/
def VecDeque.display {α : Type} (disp : α → Option (Method σ)) (self : VecDeque α) : Eff σ GoStr := do
  let buffer ← VecDeque.displayLoop disp self (self.len + 1) 0
    (ascii ['V', 'e', 'c', 'D', 'e', 'q', 'u', 'e', '['])
  pure (buffer ++ ascii [']'])
/-- vec_deque.go:818-820 Debug. -/
def VecDeque.debug {α : Type} (disp : α → Option (Method σ)) (self : VecDeque α) : Eff σ GoStr := self.display disp

/-- `int(n)` for a USize n. -/
def intOfUSize (n : Nat) : Int := if n < 2 ^ 63 then (n : Int) else (n : Int) - 2 ^ 64

/-- linked_list.go:369-391, loop of Display; `none` = still running after `fuel` rounds. -/
def LList.displayLoop {α : Type} (disp : α → Option (Method σ)) (h : LHeap α) (self : LList) :
    Nat → Option Nat → Nat → GoStr → Eff σ (Option GoStr)
  | 0, _, _, _ => pure none
  | fuel + 1, iter, count, buffer => do
    let (iter, wrapped) ← Eff.lift (LIter.next h iter)
    if wrapped.isNone then pure (some buffer)
    else do
      let e ← Eff.lift wrapped.unwrap
      match castToDisplay (disp e) with
      | none => Eff.panic .explicit
      | some display => do
        let d ← display
        let buffer := buffer ++ d
        let buffer := if (count : Int) < intOfUSize self.len - 1 then buffer ++ ascii [',', ' '] else buffer
        LList.displayLoop disp h self fuel iter (count + 1) buffer
/-- linked_list.go:363-396 Display. -/
def LList.display {α : Type} (disp : α → Option (Method σ)) (h : LHeap α) (self : LList) :
    Eff σ (Option GoStr) := do
  let buffer ← LList.displayLoop disp h self (LIter.rounds h) self.intoIter 0
    (ascii ['L', 'i', 'n', 'k', 'e', 'd', 'L', 'i', 's', 't', '['])
  pure (buffer.map (· ++ ascii [']']))
/-- linked_list.go:399-401 Debug. -/
def LList.debug {α : Type} (disp : α → Option (Method σ)) (h : LHeap α) (self : LList) : Eff σ (Option GoStr) :=
  self.display disp h

/-- hash_map.go:452-455 and hash_set.go:444-447, loops of Display over the entries in the order `ord`: `field`
is the call of Format. -/
def fieldsLoop {β : Type} (field : β → Eff σ GoStr) : List β → List GoStr → Eff σ (List GoStr)
  | [], fields => pure fields
  | e :: ord, fields => do
    let f ← field e
    fieldsLoop field ord (fields ++ [f])
/-- `Format("{}: {}", key, value)`. -/
def fieldKV {κ ν : Type} (dK : κ → Option (Method σ)) (dV : ν → Option (Method σ)) (key : κ) (value : ν) :
    Eff σ GoStr :=
  Fmt.format (ascii ['{', '}', ':', ' ', '{', '}']) [castToDisplay (dK key), castToDisplay (dV value)]
/-- `Format("{}", key)`. -/
def fieldK {κ : Type} (dK : κ → Option (Method σ)) (key : κ) : Eff σ GoStr :=
  Fmt.format (ascii ['{', '}']) [castToDisplay (dK key)]
/-- hash_map.go:448-462 Display; `ord` is the order of `range`. -/
def HMap.display {κ ν : Type} (dK : κ → Option (Method σ)) (dV : ν → Option (Method σ)) (ord : List (κ × ν)) :
    Eff σ GoStr := do
  let fields ← fieldsLoop (fun e => fieldKV dK dV e.1 e.2) ord []
  pure (ascii ['H', 'a', 's', 'h', 'M', 'a', 'p', '{'] ++ Strings.join fields (ascii [',', ' ']) ++ ascii ['}'])
/-- hash_map.go:465-467 Debug. -/
def HMap.debug {κ ν : Type} (dK : κ → Option (Method σ)) (dV : ν → Option (Method σ)) (ord : List (κ × ν)) :
    Eff σ GoStr := HMap.display dK dV ord
/-- hash_set.go:440-454 Display; `ord` is the order of `range`. -/
def HSet.display {κ : Type} (dK : κ → Option (Method σ)) (ord : List (κ × Unit)) : Eff σ GoStr := do
  let fields ← fieldsLoop (fun e => fieldK dK e.1) ord []
  pure (ascii ['H', 'a', 's', 'h', 'S', 'e', 't', '{'] ++ Strings.join fields (ascii [',', ' ']) ++ ascii ['}'])
/-- hash_set.go:457-459 Debug. -/
def HSet.debug {κ : Type} (dK : κ → Option (Method σ)) (ord : List (κ × Unit)) : Eff σ GoStr := HSet.display dK ord

/-- btree_map.go:1100-1110, loop of Display. -/
def BMap.displayLoop {κ ν : Type} (cmp : κ → κ → Ordering) (dK : κ → Option (Method σ))
    (dV : ν → Option (Method σ)) (h : BStore κ ν) (self : BMap) (keys : Vec κ) :
    Nat → Nat → List GoStr → Eff σ (List GoStr)
  | 0, _, fields => pure fields
  | fuel + 1, i, fields =>
    if i < keys.len then do
      let key ← Eff.lift (keys.getUnchecked i)
      let o ← Eff.lift (self.get cmp h key)
      if o.isNone then BMap.displayLoop cmp dK dV h self keys fuel (i + 1) fields
      else do
        let o ← Eff.lift (self.get cmp h key)
        let value ← Eff.lift o.unwrap
        let f ← fieldKV dK dV key value
        BMap.displayLoop cmp dK dV h self keys fuel (i + 1) (fields ++ [f])
    else pure fields
/-- btree_map.go:1092-1117 Display. -/
def BMap.display {κ ν : Type} (cmp : κ → κ → Ordering) (g : Growth) (dK : κ → Option (Method σ))
    (dV : ν → Option (Method σ)) (h : BStore κ ν) (self : BMap) : Eff σ GoStr := do
  let it ← Eff.lift (self.keys g h)
  let keys := HMap.collectToVec it
  let fields ← BMap.displayLoop cmp dK dV h self keys (keys.len + 1) 0 []
  pure (ascii ['B', 'T', 'r', 'e', 'e', 'M', 'a', 'p', '{'] ++ Strings.join fields (ascii [',', ' ']) ++ ascii ['}'])
/-- btree_map.go:1120-1122 Debug. -/
def BMap.debug {κ ν : Type} (cmp : κ → κ → Ordering) (g : Growth) (dK : κ → Option (Method σ))
    (dV : ν → Option (Method σ)) (h : BStore κ ν) (self : BMap) : Eff σ GoStr := self.display cmp g dK dV h

/-- btree_set.go:413-417, loop of Display. -/
def BSet.displayLoop {κ : Type} (dK : κ → Option (Method σ)) (keys : Vec κ) :
    Nat → Nat → List GoStr → Eff σ (List GoStr)
  | 0, _, fields => pure fields
  | fuel + 1, i, fields =>
    if i < keys.len then do
      let key ← Eff.lift (keys.getUnchecked i)
      let f ← fieldK dK key
      BSet.displayLoop dK keys fuel (i + 1) (fields ++ [f])
    else pure fields
/-- btree_set.go:405-424 Display. -/
def BSet.display {κ : Type} (g : Growth) (dK : κ → Option (Method σ)) (h : BSet.Store κ) (self : BSet) :
    Eff σ GoStr := do
  let it ← Eff.lift (self.intoIter g h)
  let keys := HMap.collectToVec it
  let fields ← BSet.displayLoop dK keys (keys.len + 1) 0 []
  pure (ascii ['B', 'T', 'r', 'e', 'e', 'S', 'e', 't', '{'] ++ Strings.join fields (ascii [',', ' ']) ++ ascii ['}'])
/-- btree_set.go:427-429 Debug. -/
def BSet.debug {κ : Type} (g : Growth) (dK : κ → Option (Method σ)) (h : BSet.Store κ) (self : BSet) :
    Eff σ GoStr := self.display g dK h

/-- The method of a pointer `*T`, given the method of the value it points to: a pointer to a value of an
interface type has no methods, all other pointers have the (value receiver) methods of the type they point
to. -/
def ptrMethod (isInterface : Bool) (m : Option (Method σ)) : Option (Method σ) :=
  if isInterface then none else m

/-- option.go:345-359 Display: the cast is applied to the pointer `self.value`; `isInterface`: T is an
interface type. -/
def Opt.display {α : Type} (isInterface : Bool) (disp : α → Option (Method σ)) (self : Opt α) : Eff σ GoStr :=
  if self.isNone then pure (ascii ['N', 'o', 'n', 'e'])
  else do
    let v ← Eff.lift (deref self.value)
    match castToDisplay (ptrMethod isInterface (disp v)) with
    | Option.some display => do
      let d ← display
      pure (ascii ['S', 'o', 'm', 'e', '('] ++ d ++ ascii [')'])
    | Option.none => Eff.panic .explicit
/-- option.go:362-364 Debug. -/
def Opt.debug {α : Type} (isInterface : Bool) (disp : α → Option (Method σ)) (self : Opt α) : Eff σ GoStr :=
  self.display isInterface disp

/-- result.go:320-334 Display; `errorText e` is `e.Error()`. -/
def Res.display {ε α : Type} (isInterface : Bool) (disp : α → Option (Method σ)) (errorText : ε → Eff σ GoStr)
    (self : Res ε α) : Eff σ GoStr :=
  if self.isOk then do
    let v ← Eff.lift (deref self.ok)
    match castToDisplay (ptrMethod isInterface (disp v)) with
    | some display => do
      let d ← display
      pure (ascii ['O', 'k', '('] ++ d ++ ascii [')'])
    | none => Eff.panic .explicit
  else do
    let e ← Eff.lift (deref self.err)
    errorText e
/-- result.go:337-339 Debug. -/
def Res.debug {ε α : Type} (isInterface : Bool) (disp : α → Option (Method σ)) (errorText : ε → Eff σ GoStr)
    (self : Res ε α) : Eff σ GoStr := self.display isInterface disp errorText

/-- pair.go:12-32 ToString; `tK`, `tV` are the ToString methods of the components, `vK`, `vV` what
`fmt.Sprintf("%v", ·)` gives for them. -/
def Pair.toString {κ ν : Type} (tK : κ → Option (Method σ)) (tV : ν → Option (Method σ)) (vK : κ → Eff σ GoStr)
    (vV : ν → Eff σ GoStr) (p : Pair κ ν) : Eff σ GoStr := do
  let key ← (match castToToString (tK p.key) with
    | Option.some toString => toString
    | Option.none => vK p.key)
  let value ← (match castToToString (tV p.value) with
    | Option.some toString => toString
    | none => vV p.value)
  pure (ascii ['P', 'a', 'i', 'r', '['] ++ key ++ ascii [',', ' '] ++ value ++ ascii [']'])

/-- The Display methods of the library's types as the interface sees them: the declared result is String for the
containers, Option and Result (vec.go:636, vec_deque.go:791, linked_list.go:363, hash_map.go:448,
hash_set.go:440, btree_map.go:1092, btree_set.go:405, option.go:345, result.go:320). -/
def displayMethod (run : Eff σ GoStr) : Option (Method σ) := some ⟨.String, run⟩
/-- Their Debug methods, likewise (vec.go:663, vec_deque.go:818, linked_list.go:399, hash_map.go:465,
hash_set.go:457, btree_map.go:1120, btree_set.go:427, option.go:362, result.go:337). -/
def debugMethod (run : Eff σ GoStr) : Option (Method σ) := some ⟨.String, run⟩
/-- pair.go:12, 35-37, 40-42: ToString, Display and Debug of a pair are declared to return `string`. -/
def Pair.method {κ ν : Type} (tK : κ → Option (Method σ)) (tV : ν → Option (Method σ)) (vK : κ → Eff σ GoStr)
    (vV : ν → Eff σ GoStr) (p : Pair κ ν) : Option (Method σ) := some ⟨.string, p.toString tK tV vK vV⟩

/-! ### The messages of panic.go -/

/-- An argument of the functions of panic.go: a gost `String`, a Go `string`, or another value; a value is as
far as Format looks at it its Display method.  A Go string has none. -/
abbrev MsgArg (σ : Type) := Arg GoStr (Option (Method σ))
/-- The argument as a parameter of Format. -/
def MsgArg.param : MsgArg σ → Fmt.Param σ
  | .gostString s => castToDisplay (primDisplay s)
  | .goString _ => castToDisplay none
  | .other d => castToDisplay d

/-- panic.go:6-8 Panic: the message it panics with. -/
def panicMessage (message : GoStr) (args : List (MsgArg σ)) : Eff σ GoStr := Fmt.format message (args.map MsgArg.param)
/-- panic.go:13-23 Assert: `none` if it returns, otherwise the message it panics with.  (In `Model/Misc.lean`,
`Assert.assert` says only whether it panics.) -/
def assertMessage (condition : Bool) (args : List (MsgArg σ)) : Eff σ (Option GoStr) :=
  if !condition then
    match args with
    | .gostString message :: _ => do
      let m ← Fmt.format message (args.map MsgArg.param)
      pure (some m)
    | _ => do
      let m ← Fmt.format (ascii ['a', 's', 's', 'e', 'r', 't', 'i', 'o', 'n', ' ', 'f', 'a', 'i', 'l', 'e', 'd']) []
      pure (some m)
  else pure none
/-- panic.go:32-43, 53-64: the extra message of AssertEq and AssertNe. -/
def extraMessage (panicMessage : GoStr) (args : List (MsgArg σ)) : Eff σ GoStr :=
  match args with
  | .gostString message :: _ => do
    let m ← Fmt.format message (args.map MsgArg.param)
    pure (panicMessage ++ ascii ['\n', '>', '>', '>', ' '] ++ m)
  | .goString message :: _ => do
    let m ← Fmt.format message (args.map MsgArg.param)
    pure (panicMessage ++ ascii ['\n', '>', '>', '>', ' '] ++ m)
  | _ => pure panicMessage
/-- panic.go:28-44 AssertEq (`sign` is `!`, `fail` is `!lhs.Eq(rhs)`) and 49-65 AssertNe (`=`, `lhs.Eq(rhs)`):
`none` if it returns, otherwise the message it panics with. -/
def assertCmpMessage {α : Type} (sign : Char) (fail : Eff σ Bool) (disp : α → Option (Method σ)) (lhs rhs : α)
    (args : List (MsgArg σ)) : Eff σ (Option GoStr) := do
  let b ← fail
  if b then do
    let m ← Fmt.format (ascii ['a', 's', 's', 'e', 'r', 't', 'i', 'o', 'n', ' ', 'f', 'a', 'i', 'l', 'e', 'd', ':',
      ' ', '{', '}', ' ', sign, '=', ' ', '{', '}']) [castToDisplay (disp lhs), castToDisplay (disp rhs)]
    let m ← extraMessage m args
    pure (some m)
  else pure none
/-- panic.go:70-76 Unimplemented, 81-87 Unreachable and 92-98 Todo: the message they panic with; `default` is
"not implemented", "unreachable" or "todo". -/
def stubMessage (default : GoStr) (messages : List GoStr) : GoStr :=
  match messages with
  | [] => default
  | m :: _ => m
end Gost
