import Verif.Go
/-
Model of /repo/option.go and /repo/result.go.

An option is a pointer; at this level the pointer is represented by `none` (nil) or `some v` (a cell
holding `v`).  No method of the library writes to a cell after creating it, so sharing of cells is
invisible here; the pointers handed out by Insert, GetOrInsert and GetOrInsertWith, through which the
user can write, are modelled with an explicit heap in `Model/OptionHeap.lean`.
Callbacks are arbitrary effectful computations (`Eff σ`).
-/
namespace Gost

/-- option.go:10-12 `Option[T]`. -/
structure Opt (α : Type u) where
  value : Option α
  deriving DecidableEq, Repr

namespace Opt
variable {σ : Type v} {α β : Type u}

/-- option.go:15-17 Some. -/
def some (v : α) : Opt α := ⟨.some v⟩
/-- option.go:20-22 None. -/
def none : Opt α := ⟨.none⟩
/-- option.go:28-30 IsSome. -/
def isSome (self : Opt α) : Bool := match self.value with | .none => false | .some _ => true
/-- option.go:48-50 IsNone. -/
def isNone (self : Opt α) : Bool := match self.value with | .none => true | .some _ => false

/-- option.go:36-42 IsSomeAnd. -/
def isSomeAnd (self : Opt α) (f : α → Eff σ Bool) : Eff σ Bool :=
  if self.isNone then pure false
  else match deref self.value with
    | .error e => Eff.panic e
    | .ok v => f v

/-- option.go:56-62 Expect. -/
def expect (self : Opt α) : Go α := if self.isNone then .error .explicit else deref self.value
/-- option.go:70-72 Unwrap. -/
def unwrap (self : Opt α) : Go α := deref self.value
/-- option.go:82-88 UnwrapOr. -/
def unwrapOr (self : Opt α) (value : α) : Go α := if self.isNone then .ok value else deref self.value
/-- option.go:94-100 UnwrapOrElse. -/
def unwrapOrElse (self : Opt α) (f : Eff σ α) : Eff σ α :=
  if self.isNone then f else Eff.lift (deref self.value)
/-- option.go:111-117 Map. -/
def map (self : Opt α) (f : α → Eff σ α) : Eff σ (Opt α) :=
  if self.isNone then pure self
  else do
    let v ← Eff.lift (deref self.value)
    let r ← f v
    pure (Opt.some r)
/-- option.go:127-133 MapOr. -/
def mapOr (self : Opt α) (defaultValue : α) (f : α → Eff σ α) : Eff σ α :=
  if self.isNone then pure defaultValue
  else do
    let v ← Eff.lift (deref self.value)
    f v
/-- option.go:139-145 MapOrElse. -/
def mapOrElse (self : Opt α) (defaultValue : Eff σ α) (f : α → Eff σ α) : Eff σ α :=
  if self.isNone then defaultValue
  else do
    let v ← Eff.lift (deref self.value)
    f v
/-- option.go:174-180 And.  `optb` is an `Option[any]`; `Option β` is the type `any` restricted to the
nil interface (`none`) and the values of one type `β`. -/
def and (self : Opt α) (optb : Opt (Option β)) : Opt (Option β) :=
  if self.isNone then Opt.some .none else optb
/-- option.go:190-196 AndThen. -/
def andThen (self : Opt α) (f : α → Eff σ (Opt (Option β))) : Eff σ (Opt (Option β)) :=
  if self.isNone then pure (Opt.some .none)
  else match deref self.value with
    | .error e => Eff.panic e
    | .ok v => f v
/-- option.go:204-212 Filter. -/
def filter (self : Opt α) (predicate : α → Eff σ Bool) : Eff σ (Opt α) :=
  if self.isNone then pure self
  else match deref self.value with
    | .error e => Eff.panic e
    | .ok v => fun s => match predicate v s with
      | (.error e, s') => (.error e, s')
      | (.ok true, s') => (.ok self, s')
      | (.ok false, s') => (.ok Opt.none, s')
/-- option.go:224-230 Or. -/
def or (self optb : Opt α) : Opt α := if self.isNone then optb else self
/-- option.go:239-245 OrElse. -/
def orElse (self : Opt α) (f : Eff σ (Opt α)) : Eff σ (Opt α) :=
  if self.isNone then f else pure self
/-- option.go:256-264 Xor. -/
def xor (self optb : Opt α) : Opt α :=
  if self.isNone then optb else if optb.isNone then self else Opt.none
/-- option.go:275-278 Insert: the new content of the option, and what the returned pointer refers to. -/
def insert (_self : Opt α) (value : α) : Opt α × Option α := (⟨.some value⟩, .some value)
/-- option.go:288-293 GetOrInsert: new content, and what the returned pointer refers to. -/
def getOrInsert (self : Opt α) (value : α) : Opt α × Option α :=
  let self := if self.isNone then ⟨.some value⟩ else self
  (self, self.value)
/-- option.go:302-308 GetOrInsertWith. -/
def getOrInsertWith (self : Opt α) (f : Eff σ α) : Eff σ (Opt α × Option α) :=
  if self.isNone then do
    let value ← f
    pure (⟨.some value⟩, .some value)
  else pure (self, self.value)
/-- option.go:317-325 Take: new content and result. -/
def take (self : Opt α) : Go (Opt α × Opt α) :=
  if self.isNone then .ok (self, self)
  else do
    let value ← deref self.value
    .ok (⟨.none⟩, Opt.some value)
/-- option.go:334-342 Replace: new content and result. -/
def replace (self : Opt α) (value : α) : Go (Opt α × Opt α) :=
  if self.isNone then .ok (self, self)
  else do
    let oldValue ← deref self.value
    .ok (⟨.some value⟩, Opt.some oldValue)
/-- option.go:372-378 Clone; `clone` is the element's `Clone` method if it has one (castToClone). -/
def clone (cloneT : Option (α → α)) (self : Opt α) : Go (Opt α) :=
  if self.isNone then .ok Opt.none
  else do
    let v ← deref self.value
    match cloneT with
    | .none => .error .nilDeref
    | .some c => .ok (Opt.some (c v))
/-- option.go:381-389 Eq; `eq` is the element's `Eq` method if it has one (castToEq). -/
def eq (eqT : Option (α → α → Bool)) (self rhs : Opt α) : Go Bool :=
  if self.isNone && rhs.isNone then .ok true
  else if self.isSome && rhs.isSome then
    match deref self.value, deref rhs.value, eqT with
    | .ok a, .ok b, .some e => .ok (e a b)
    | _, _, _ => .error .nilDeref
  else .ok false

end Opt

/-- result.go:11-14 `Result[T]`: a pointer and an `error` interface, each possibly nil. -/
structure Res (ε : Type u) (α : Type u) where
  ok : Option α
  err : Option ε
  deriving DecidableEq, Repr

namespace Res
variable {σ : Type v} {ε α : Type u}

/-- result.go:17-19 Ok. -/
def mkOk (v : α) : Res ε α := ⟨.some v, .none⟩
/-- result.go:22-24 Err; the argument is an interface value, possibly nil. -/
def mkErr (e : Option ε) : Res ε α := ⟨.none, e⟩
/-- result.go:33-35 IsOk. -/
def isOk (self : Res ε α) : Bool := match self.ok with | .none => false | .some _ => true
/-- result.go:59-61 IsErr. -/
def isErr (self : Res ε α) : Bool := match self.err with | .none => false | .some _ => true
/-- result.go:44-50 IsOkAnd. -/
def isOkAnd (self : Res ε α) (predicate : α → Eff σ Bool) : Eff σ Bool :=
  if self.isOk then
    match deref self.ok with
    | .error e => Eff.panic e
    | .ok v => predicate v
  else pure false
/-- result.go:70-76 IsErrAnd; the predicate gets the interface value. -/
def isErrAnd (self : Res ε α) (predicate : Option ε → Eff σ Bool) : Eff σ Bool :=
  if self.isErr then predicate self.err else pure false
/-- result.go:86-92 Ok. -/
def toOption (self : Res ε α) : Go (Opt α) :=
  if self.isOk then do
    let v ← deref self.ok
    .ok (Opt.some v)
  else .ok Opt.none
/-- result.go:102-108 Err: an `Option[error]` (its content is an interface value). -/
def errOption (self : Res ε α) : Opt (Option ε) := if self.isErr then Opt.some self.err else Opt.none
/-- result.go:118-124 Map. -/
def map (self : Res ε α) (f : α → Eff σ α) : Eff σ (Res ε α) :=
  if self.isOk then do
    let v ← Eff.lift (deref self.ok)
    let r ← f v
    pure (mkOk r)
  else pure self
/-- result.go:134-140 MapOr. -/
def mapOr (self : Res ε α) (defaultValue : α) (f : α → Eff σ α) : Eff σ α :=
  if self.isOk then do
    let v ← Eff.lift (deref self.ok)
    f v
  else pure defaultValue
/-- result.go:150-156 MapOrElse. -/
def mapOrElse (self : Res ε α) (defaultValue : Eff σ α) (f : α → Eff σ α) : Eff σ α :=
  if self.isOk then do
    let v ← Eff.lift (deref self.ok)
    f v
  else defaultValue
/-- result.go:166-172 MapErr. -/
def mapErr (self : Res ε α) (f : Option ε → Eff σ (Option ε)) : Eff σ (Res ε α) :=
  if self.isErr then do
    let e ← f self.err
    pure (mkErr e)
  else pure self
/-- result.go:179-185 Expect. -/
def expect (self : Res ε α) : Go α := if self.isOk then deref self.ok else .error .explicit
/-- result.go:192-198 Unwrap. -/
def unwrap (self : Res ε α) : Go α := if self.isOk then deref self.ok else .error .explicit
/-- result.go:204-210 ExpectErr. -/
def expectErr (self : Res ε α) : Go (Option ε) := if self.isErr then .ok self.err else .error .explicit
/-- result.go:216-222 UnwrapErr. -/
def unwrapErr (self : Res ε α) : Go (Option ε) := if self.isErr then .ok self.err else .error .explicit
/-- result.go:232-238 And. -/
def and (self res : Res ε α) : Res ε α := if self.isOk then res else self
/-- result.go:248-254 AndThen. -/
def andThen (self : Res ε α) (op : α → Eff σ (Res ε α)) : Eff σ (Res ε α) :=
  if self.isOk then do
    let v ← Eff.lift (deref self.ok)
    op v
  else pure self
/-- result.go:264-270 Or. -/
def or (self res : Res ε α) : Res ε α := if self.isErr then res else self
/-- result.go:280-286 OrElse. -/
def orElse (self : Res ε α) (op : Option ε → Eff σ (Res ε α)) : Eff σ (Res ε α) :=
  if self.isErr then op self.err else pure self
/-- result.go:296-302 UnwrapOr. -/
def unwrapOr (self : Res ε α) (defaultValue : α) : Go α :=
  if self.isOk then deref self.ok else .ok defaultValue
/-- result.go:311-317 UnwrapOrElse. -/
def unwrapOrElse (self : Res ε α) (f : Eff σ α) : Eff σ α :=
  if self.isOk then Eff.lift (deref self.ok) else f
/-- result.go:347-353 Clone. -/
def clone (cloneT : Option (α → α)) (self : Res ε α) : Go (Res ε α) :=
  if self.isOk then do
    let v ← deref self.ok
    match cloneT with
    | .none => .error .nilDeref
    | .some c => .ok (mkOk (c v))
  else .ok (mkErr self.err)
/-- result.go:356-364 Eq; `eqE` is Go's `==` on two error interfaces that are not nil, which may panic. -/
def eq (eqT : Option (α → α → Bool)) (eqE : ε → ε → Go Bool) (self rhs : Res ε α) : Go Bool :=
  if self.isOk && rhs.isOk then
    match deref self.ok, deref rhs.ok, eqT with
    | .ok a, .ok b, .some e => .ok (e a b)
    | _, _, _ => .error .nilDeref
  else if self.isErr && rhs.isErr then
    match self.err, rhs.err with
    | .none, .none => .ok true
    | .some a, .some b => eqE a b
    | _, _ => .ok false
  else .ok false

end Res

/-- What Go's `==` on interfaces looks at: the dynamic type, and the comparison of two values of the same type
(`none`: the type is not comparable, or has a field holding such a value). -/
structure ErrTypes (ε : Type u) where
  type : ε → Nat
  equal : ε → ε → Option Bool

/-- `a == b` for two interface values that are not nil (Go specification, "Comparison operators"). -/
def ErrTypes.eq {ε : Type u} (T : ErrTypes ε) (a b : ε) : Go Bool :=
  if T.type a ≠ T.type b then .ok false
  else match T.equal a b with
    | some r => .ok r
    | none => .error .uncomparable
end Gost
