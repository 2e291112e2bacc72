# Formal model of myyrakle/gost in Lean 4

## 1. Layout

| Path | Contents |
|---|---|
| `properties.jsonl` | the properties, one per line |
| `lean/Verif/Go.lean` | the Go semantics the model relies on: panics, slices, `make`, wrapping machine words, method dictionaries |
| `lean/Verif/Model/*.lean` | the model of the code, function by function, each definition citing the file and lines it models |
| `lean/Verif/Spec/*.lean` | specifications, written without the model's helpers |
| `lean/Verif/Lemmas/*.lean` | helper lemmas and invariants |
| `lean/Verif/Props/*.lean` | the property theorems (`Gost.Cxx_...`) and their non-vacuity examples |
| `lean/Verif/Tests/*.lean` | the assertions of the repository's own unit tests (all five `_test.go` files), about the model: tests that the model agrees with the code, not proofs of a property |
| `MANIFEST.json` | property -> theorems |
| `seeded/LOG.jsonl` | the wrong-program experiments |
| `tools/` | `manifest.py` (regenerates MANIFEST.json), `mutate.py` (seeds bugs), `cites.py` (prints cited lines), `coverage.py` (lists functions no comment cites), `gotests.py` (translates ops_test.go and bitwise_test.go) |

Naming: the theorems that settle property `Cxx` are named `Gost.Cxx_...`.  A theorem
whose name ends in `_partial` proves less than the property; its docstring states the full
property and what is missing.  A theorem whose name ends in `_fails` proves that the code
violates the full property (a counterexample, or a universally quantified class of
counterexamples).

## 2. Modelling decisions

* **Machine integers.**  The Go copies of one method for I8/I16/I32/I64 (and U8..U64) are
  textually identical up to the constants; they are modelled once, generically in the width `w`,
  on `BitVec w`.  `int`/`uint` are 64 bits (amd64/arm64).  Where the ISize/USize copy differs
  from the others (it does, several times) it has its own definition.
  Specifications are on `Int`/`Nat` through `BitVec.toInt`/`BitVec.toNat`.
* **Panics** are explicit: functions which can panic return `Except Panic α` (`Go α`).  A panic
  ends the modelled execution; the state left behind for a `recover` is not modelled unless said.
* **Callbacks** are arbitrary effectful computations `Eff σ α` over an arbitrary program state `σ`, which
  may panic; so a theorem about a method with a callback also says how often and in which order the
  callback runs.
* **nil pointers** are `Option`; a nil dereference is `Panic.nilDeref`.
* **Slices** of containers that own them exclusively are `List`s plus, where observable, a
  capacity.  Go's growth policy is a parameter, `Growth` (`newCap` with the contract that the result is large enough).
  Aliasing between two containers is modelled where the property speaks about it (explicit heaps,
  `Model/SliceHeap.lean`, `Model/DequeHeap.lean`, `Model/HeapSlice.lean`, `Model/IterHeap.lean`, `Model/Nested.lean`).
* **Sorting** goes through `SortLib`: any pair of functions that return a (stable) sorted permutation when
  `less` is a strict weak order, and some permutation otherwise.
  For comparisons with effects (`SortTrees`, C146) package sort is a finite tree of comparisons and exchanges of elements,
  which depends on the length only: the trusted facts are that `sort.Slice` and `sort.SliceStable` touch the slice only through
  `less` and exchanges, with indices in range, and end for every sequence of answers.
* **Indices and lengths** of slices are `Nat`; conversions of `USize` to them are exact because a slice
  is shorter than 2^63 (`makeLen` panics otherwise).  Arithmetic on `USize` that can wrap
  (`Len - 1` on an empty container) uses `usizeSub`/`usize`.
* **Zero values** are `default` of an `Inhabited` instance.
* **Interfaces** (`castToOrd`, `castToEq`, `castToClone`, `castToDisplay`) are optional methods
  passed as a dictionary, so that the "does not implement" panic is modelled.  Display, Debug and ToString
  methods also carry their declared result type (`String` or `string`), which decides whether a value implements
  the interface (`castTo`).
* **Lawful comparators** are a hypothesis (`LawfulOrd`) on the user's `Cmp`, shown to hold for the
  library's own types (C23).
* **Ordering** is Lean's `Ordering`, the three constants.  In the code it is an `int`; comparisons that answer with other
  numbers are the subject of C158 (`Model/RawOrder.lean`), which also shows that the three constants are read by their sign.
* **Element types** are concrete types: every element has the same methods.  Containers of an interface type, whose elements
  have different dynamic types or are nil, are modelled only where a property says so.
* **Zero values of the containers** (`Vec[T]{}`, not made by a constructor) are in `Model/Zero.lean`, callbacks that use the
  container they were called from in `Model/Reenter.lean`.
* **Pointers** (LinkedList, BTreeMap nodes) live in an explicit heap indexed by addresses, because
  nodes are shared and mutated.
* **BTreeMap** (`Model/BTree.lean`): key, value and child slots are `Option`s (nil pointers) in fixed-size
  lists; methods take the node heap and return the new one, a panic discards it.  The recursion over the
  tree is bounded by the number of nodes; going deeper than that (only possible in a cyclic heap) is
  `Panic.stackOverflow`.  `Cmp` of the keys is pure and does not panic there; `Model/BTreeUnwind.lean` has the
  methods with a `Cmp` that has effects and may panic, and keeps the node heap then.
* **Maps** are references into a heap of entry lists (`Model/HashMap.lean`), so that copies of a HashMap
  share entries.  The key type brings its own `==` (need not be reflexive: NaN) and hashability
  (`GoKey`); the order of every `range` is an argument, theorems quantify over all permutations.
* **Goroutines, channels, mutexes** are labelled transition systems; a property of "every schedule"
  is an invariant over all reachable states.
* **Files** (`Model/Os.lean`): inodes, directories with entries, symbolic and hard links, path resolution.  Failures of
  system calls, also in the middle of a write, are arguments; a crash leaves the state of the failure at that point.
* **Non-termination**: loops whose termination is not structural take fuel; the theorems show the
  fuel used by the entry point suffices, or that no fuel suffices.

## 3. Trusted base

* Lean 4.33.0's kernel and the axioms `propext`, `Classical.choice`, `Quot.sound` (no others).
* The reading of Go in `Verif/Go.lean` and the model definitions (checked against /repo by hand).
* Contracts of code outside the repository, always explicit parameters or definitions named in
  the model: `sort.SliceStable`/`sort.Slice` (sorted (stable) permutation for a strict weak order),
  Go maps (finite map; iteration in an arbitrary permutation), `math/big` and `strconv`
  (mathematical integers and their decimal numerals), Go's UTF-8 and UTF-16 encoding and decoding
  (Model/Utf8.lean), package `strings` (namespace `Strings` of Model/Str.lean and Model/Text.lean), package `unicode` (`isSpace`, `CaseTable` of Model/Text.lean), `reflect.DeepEqual` (equality),
  goroutines, channels and `sync.Mutex` (`Step` of Model/Conc.lean: a sequentially consistent interleaving
  semantics; Go promises it only to programs without data races, which C166 proves for the programs of C81, C153, C157, C160, C164, C165 and C167, from the
  happens-before relation of the Go memory model as written in Model/ConcEvents.lean), the OS file system and the functions of package `os` and
  `path/filepath` that fs.go calls (Model/Os.lean: POSIX semantics on paths given by components; every call may fail;
  no other process), `time.ParseDuration` and `time.Sleep`, `fmt.Print` and `fmt.Scanln` (Model/Io.lean: standard
  output and input are byte sequences), package `math` and the IEEE conversions between int, float32 and float64
  (first part of Model/Float.lean; functions without an exact definition there are parameters), `strconv.FormatFloat`,
  `FormatComplex` and `ParseFloat` (Model/FloatText.lean: shortest digits, layout of 'f', nearest-even reading), and Go's
  floating-point operators `+ - * /` (first part of Model/FloatArith.lean: IEEE 754, one rounding per method call), and its operators `*` and `/` on
  complex numbers (first part of Model/Complex.lean: those of the gc compiler on amd64).
* Mathlib is used only for the tactics `linarith`, `nlinarith` and `ring` (Lemmas/Float.lean, Lemmas/FloatText.lean, Props/Float.lean, Props/FloatText.lean, Props/FloatArith.lean, Props/Complex.lean). Props/ComplexError.lean also uses its ordered-field lemmas, and Props/TaskLocks.lean the multiset order of Mathlib.Logic.Hydra (`Relation.CutExpand`); Props/TaskLogic.lean uses `AddCommMonoid` for its claims.

Not modelled: the accuracy of package `math` beyond Sqrt and the exact functions, fused multiply-add in complex products (other architectures than amd64 v1), memory exhaustion, the garbage collector, data races on containers used
from several goroutines without a lock (the library makes no claim about them), and two unexported methods of
btree_map.go: `_Traverse` (lines 212-, prints a tree for debugging) and `_Insert` (lines 343-, never called).

## 4. Plan per property

* **C01** CheckedAdd is exact — Model/Ints.lean: the method and the `_HasOverflow_*` helpers on `BitVec w`; prove equality with the Int-level spec (representable or not) for every width by bound arithmetic on toInt/toNat.
* **C02** CheckedSub is exact on unsigned types — Model/Ints.lean: the method and the `_HasOverflow_*` helpers on `BitVec w`; prove equality with the Int-level spec (representable or not) for every width by bound arithmetic on toInt/toNat.
* **C03** CheckedSub is exact on signed types — Model/Ints.lean: the method and the `_HasOverflow_*` helpers on `BitVec w`; the code tests overflow of a+b, so exactness fails: witness + `_partial`: soundness of Some, and exactness on the inputs where a+b does not overflow.
* **C04** CheckedMul is exact on U8..U64 — Model/Ints.lean: the method and the `_HasOverflow_*` helpers on `BitVec w`; division bound `a > MAX / b` is equivalent to overflow; Nat division lemmas.
* **C05** CheckedMul is exact on USize — Model/Ints.lean: the method and the `_HasOverflow_*` helpers on `BitVec w`; bound MaxUint32 is used: witness, soundness, exactness when operands are small.
* **C06** CheckedMul is exact on signed types — Model/Ints.lean: the method and the `_HasOverflow_*` helpers on `BitVec w`; mixed signs always report overflow: witness, soundness, exactness for equal signs.
* **C07** CheckedDiv is exact — Model/Ints.lean: the method and the `_HasOverflow_*` helpers on `BitVec w`; case split on zero divisor and MIN/-1.
* **C08** CheckedRem is exact on unsigned types — Model/Ints.lean: the method and the `_HasOverflow_*` helpers on `BitVec w`; direct.
* **C09** CheckedRem is exact on signed types — Model/Ints.lean: the method and the `_HasOverflow_*` helpers on `BitVec w`; the sanity test after `%` is wrong for negative operands: witness, exact domain.
* **C10** WrappingAdd and WrappingSub are arithmetic mod 2^n — Model/Ints.lean: the method and the `_HasOverflow_*` helpers on `BitVec w`; the unsigned code computes in the type then corrects by MAX+1 = 0 mod 2^n; congruence.
* **C11** WrappingMul is multiplication mod 2^n (all but ISize) — Model/Ints.lean: the method and the `_HasOverflow_*` helpers on `BitVec w`; the unsigned code computes in the type then corrects by MAX+1 = 0 mod 2^n; congruence.
* **C12** ISize.WrappingMul is multiplication mod 2^64 — Model/Ints.lean: the method and the `_HasOverflow_*` helpers on `BitVec w`; witness and exact domain of the wrong correction.
* **C13** SaturatingAdd clamps — Model/Ints.lean: the method and the `_HasOverflow_*` helpers on `BitVec w`; equality with clamp.
* **C14** SaturatingSub clamps (all but ISize) — Model/Ints.lean: the method and the `_HasOverflow_*` helpers on `BitVec w`; equality with clamp, although the helper over-reports.
* **C15** ISize.SaturatingSub clamps — Model/Ints.lean: the method and the `_HasOverflow_*` helpers on `BitVec w`; witness and exact domain.
* **C16** SaturatingMul clamps on U8..U64 — Model/Ints.lean: the method and the `_HasOverflow_*` helpers on `BitVec w`; division bound `a > MAX / b` is equivalent to overflow; Nat division lemmas.
* **C17** SaturatingMul clamps on signed types and USize — Model/Ints.lean: the method and the `_HasOverflow_*` helpers on `BitVec w`; mixed signs always report overflow: witness, soundness, exactness for equal signs.
* **C18** SaturatingDiv clamps — Model/Ints.lean: the method and the `_HasOverflow_*` helpers on `BitVec w`; case split.
* **C19** AbsDiff is the exact distance — Model/Ints.lean: the method and the `_HasOverflow_*` helpers on `BitVec w`; toNat of the modular difference.
* **C20** Abs, Neg, IsPositive, IsNegative agree with the integer value — Model/Ints.lean: the method and the `_HasOverflow_*` helpers on `BitVec w`; toInt lemmas.
* **C21** Pow is exponentiation mod 2^n — Model/Ints.lean: the method and the `_HasOverflow_*` helpers on `BitVec w`; loop invariant result*base^exp, by strong induction on the exponent.
* **C22** Shl and Shr shift by the right operand — Model/Ints.lean: the code shifts by the left operand; witness, plus the equation it does satisfy.
* **C23** Cmp is a total order consistent with Eq — Model/Cmp.lean: LawfulOrd instance for each type; strings as byte lists with lexicographic order.
* **C24** F32/F64 Cmp is a total order — Model/Cmp.lean: floats abstracted to NaN or an ordered value; NaN witness; lawful without NaN.
* **C25** U128 Add and Sub are arithmetic mod 2^128 — Model/Int128.lean: pairs (high, low) of 64-bit words; value function into Int/Nat; carries by omega; multiplication loop by invariant over the 128 iterations; division through math/big = mathematical integers and decimal strings. Where Neg is wrong (low half 0 or 2^64-1): witness and exact domain.
* **C26** U128 Mul is multiplication mod 2^128 — Model/Int128.lean: pairs (high, low) of 64-bit words; value function into Int/Nat; carries by omega; multiplication loop by invariant over the 128 iterations; division through math/big = mathematical integers and decimal strings. Where Neg is wrong (low half 0 or 2^64-1): witness and exact domain.
* **C27** U128 Div and Rem satisfy the division equation — Model/Int128.lean: pairs (high, low) of 64-bit words; value function into Int/Nat; carries by omega; multiplication loop by invariant over the 128 iterations; division through math/big = mathematical integers and decimal strings. Where Neg is wrong (low half 0 or 2^64-1): witness and exact domain.
* **C28** U128 ToString is the decimal numeral — Model/Int128.lean: pairs (high, low) of 64-bit words; value function into Int/Nat; carries by omega; multiplication loop by invariant over the 128 iterations; division through math/big = mathematical integers and decimal strings. Where Neg is wrong (low half 0 or 2^64-1): witness and exact domain.
* **C29** I128 Add is addition mod 2^128 — Model/Int128.lean: pairs (high, low) of 64-bit words; value function into Int/Nat; carries by omega; multiplication loop by invariant over the 128 iterations; division through math/big = mathematical integers and decimal strings. Where Neg is wrong (low half 0 or 2^64-1): witness and exact domain.
* **C30** I128 Neg and Sub are two's-complement negation and subtraction — Model/Int128.lean: pairs (high, low) of 64-bit words; value function into Int/Nat; carries by omega; multiplication loop by invariant over the 128 iterations; division through math/big = mathematical integers and decimal strings. Where Neg is wrong (low half 0 or 2^64-1): witness and exact domain.
* **C31** I128 Mul is multiplication mod 2^128 — Model/Int128.lean: pairs (high, low) of 64-bit words; value function into Int/Nat; carries by omega; multiplication loop by invariant over the 128 iterations; division through math/big = mathematical integers and decimal strings. Where Neg is wrong (low half 0 or 2^64-1): witness and exact domain.
* **C32** I128 Div and Rem truncate toward zero — Model/Int128.lean: pairs (high, low) of 64-bit words; value function into Int/Nat; carries by omega; multiplication loop by invariant over the 128 iterations; division through math/big = mathematical integers and decimal strings. Where Neg is wrong (low half 0 or 2^64-1): witness and exact domain.
* **C33** I128 ToString is the signed decimal numeral — Model/Int128.lean: pairs (high, low) of 64-bit words; value function into Int/Nat; carries by omega; multiplication loop by invariant over the 128 iterations; division through math/big = mathematical integers and decimal strings. Where Neg is wrong (low half 0 or 2^64-1): witness and exact domain.
* **C34** 128-bit shifts shift by the right operand — Model/Int128.lean: pairs (high, low) of 64-bit words; value function into Int/Nat; carries by omega; multiplication loop by invariant over the 128 iterations; division through math/big = mathematical integers and decimal strings. Where Neg is wrong (low half 0 or 2^64-1): witness and exact domain.
* **C35** Widening conversions to 128 bits preserve the value — Model/Int128.lean: pairs (high, low) of 64-bit words; value function into Int/Nat; carries by omega; multiplication loop by invariant over the 128 iterations; division through math/big = mathematical integers and decimal strings. Where Neg is wrong (low half 0 or 2^64-1): witness and exact domain.
* **C36** I128 IsPositive and IsNegative follow the sign — Model/Int128.lean: pairs (high, low) of 64-bit words; value function into Int/Nat; carries by omega; multiplication loop by invariant over the 128 iterations; division through math/big = mathematical integers and decimal strings. Where Neg is wrong (low half 0 or 2^64-1): witness and exact domain.
* **C37** DurationNew normalises and preserves the total — Model/Time.lean on U64/U32 words and the U128 model; total nanoseconds as spec.
* **C38** Duration constructors and accessors round-trip — Model/Time.lean on U64/U32 words and the U128 model; total nanoseconds as spec.
* **C39** Option combinators obey the Option laws — Model/Option.lean: struct with pointer; abstraction to Lean Option/Except; each combinator commutes with the abstraction. And/AndThen/Replace on None: counterexample for all arguments.
* **C40** Option And/AndThen propagate None; Replace stores the value — Model/Option.lean: struct with pointer; abstraction to Lean Option/Except; each combinator commutes with the abstraction. And/AndThen/Replace on None: counterexample for all arguments.
* **C41** Result combinators obey the Result laws — Model/Option.lean: struct with pointer; abstraction to Lean Option/Except; each combinator commutes with the abstraction. And/AndThen/Replace on None: counterexample for all arguments.
* **C42** If/ElseIf/Else selects the first true branch — Model/Misc.lean: chain as list; code = last true branch; witness and characterisation.
* **C43** Pair comparison is lexicographic and lawful — Model/Misc.lean: LawfulOrd of the lexicographic combination.
* **C44** Assertions panic exactly when violated — Model/Misc.lean: decision logic.
* **C45** Vec push/pop/get/set/insert/append/clear refine a list — Model/Vec.lean: list + capacity with arbitrary growth policy; refinement per operation and by induction over histories; loops by induction; VecIter as vec+position; sort as contract; cloning and aliasing with an explicit heap of slices (Model/SliceHeap.lean).
* **C46** Vec Reserve only changes capacity — Model/Vec.lean: list + capacity with arbitrary growth policy; refinement per operation and by induction over histories; loops by induction; VecIter as vec+position; sort as contract; cloning and aliasing with an explicit heap of slices (Model/SliceHeap.lean).
* **C47** Vec Set out of range is not a panic — Model/Vec.lean: list + capacity with arbitrary growth policy; refinement per operation and by induction over histories; loops by induction; VecIter as vec+position; sort as contract; cloning and aliasing with an explicit heap of slices (Model/SliceHeap.lean).
* **C48** Vec Retain keeps exactly the accepted elements in order — Model/Vec.lean: list + capacity with arbitrary growth policy; refinement per operation and by induction over histories; loops by induction; VecIter as vec+position; sort as contract; cloning and aliasing with an explicit heap of slices (Model/SliceHeap.lean).
* **C49** Vec Dedup removes exactly consecutive repeats — Model/Vec.lean: list + capacity with arbitrary growth policy; refinement per operation and by induction over histories; loops by induction; VecIter as vec+position; sort as contract; cloning and aliasing with an explicit heap of slices (Model/SliceHeap.lean).
* **C50** Vec DedupByKey removes exactly consecutive elements with equal keys — Model/Vec.lean: list + capacity with arbitrary growth policy; refinement per operation and by induction over histories; loops by induction; VecIter as vec+position; sort as contract; cloning and aliasing with an explicit heap of slices (Model/SliceHeap.lean).
* **C51** Vec BinarySearch is correct on sorted vectors — Model/Vec.lean: list + capacity with arbitrary growth policy; refinement per operation and by induction over histories; loops by induction; VecIter as vec+position; sort as contract; cloning and aliasing with an explicit heap of slices (Model/SliceHeap.lean).
* **C52** Vec Sort yields a sorted stable permutation — Model/Vec.lean: list + capacity with arbitrary growth policy; refinement per operation and by induction over histories; loops by induction; VecIter as vec+position; sort as contract; cloning and aliasing with an explicit heap of slices (Model/SliceHeap.lean).
* **C53** Vec iterators yield each element once in order — Model/Vec.lean: list + capacity with arbitrary growth policy; refinement per operation and by induction over histories; loops by induction; VecIter as vec+position; sort as contract; cloning and aliasing with an explicit heap of slices (Model/SliceHeap.lean).
* **C54** Vec iterator Rev reverses the remaining elements — Model/Vec.lean: list + capacity with arbitrary growth policy; refinement per operation and by induction over histories; loops by induction; VecIter as vec+position; sort as contract; cloning and aliasing with an explicit heap of slices (Model/SliceHeap.lean).
* **C55** Vec Contains, Eq and Clone — Model/Vec.lean: list + capacity with arbitrary growth policy; refinement per operation and by induction over histories; loops by induction; VecIter as vec+position; sort as contract; cloning and aliasing with an explicit heap of slices (Model/SliceHeap.lean).
* **C56** VecDeque refines a double-ended queue — Model/VecDeque.lean: buffer list, head, len with 64-bit wrapping arithmetic; invariant and abstraction function; refinement for every history (simulation). Operations that read the raw buffer: witness + exact domain (head = 0).
* **C57** VecDeque Reserve guarantees capacity — Model/VecDeque.lean: buffer list, head, len with 64-bit wrapping arithmetic; invariant and abstraction function; refinement for every history (simulation). Operations that read the raw buffer: witness + exact domain (head = 0).
* **C58** VecDeque Dedup removes exactly consecutive repeats — Model/VecDeque.lean: buffer list, head, len with 64-bit wrapping arithmetic; invariant and abstraction function; refinement for every history (simulation). Operations that read the raw buffer: witness + exact domain (head = 0).
* **C59** VecDeque AsSlice returns the logical contents — Model/VecDeque.lean: buffer list, head, len with 64-bit wrapping arithmetic; invariant and abstraction function; refinement for every history (simulation). Operations that read the raw buffer: witness + exact domain (head = 0).
* **C60** VecDeque Sort and BinarySearch act on the logical contents — Model/VecDeque.lean: buffer list, head, len with 64-bit wrapping arithmetic; invariant and abstraction function; refinement for every history (simulation). Operations that read the raw buffer: witness + exact domain (head = 0).
* **C61** VecDeque iterators yield each element once in order — Model/VecDeque.lean: buffer list, head, len with 64-bit wrapping arithmetic; invariant and abstraction function; refinement for every history (simulation). Operations that read the raw buffer: witness + exact domain (head = 0).
* **C62** VecDeque Contains, Fill, Eq, Clone act on the logical contents — Model/VecDeque.lean: buffer list, head, len with 64-bit wrapping arithmetic; invariant and abstraction function; refinement for every history (simulation). Operations that read the raw buffer: witness + exact domain (head = 0).
* **C63** LinkedList refines a list at both ends — Model/LinkedList.lean: heap of nodes; separation-style predicate `segment`; refinement to List for every history over any number of lists.
* **C64** LinkedList Append moves everything and empties the other list — Model/LinkedList.lean: heap of nodes; separation-style predicate `segment`; refinement to List for every history over any number of lists.
* **C65** LinkedList iteration, Rev, Clone and Eq — Model/LinkedList.lean: heap of nodes; separation-style predicate `segment`; refinement to List for every history over any number of lists.
* **C66** BinaryHeap Pop returns a maximum — Model/BinaryHeap.lean: heap order invariant on lists with parent index (i-1)/2; sift-up and sift-to-bottom loops by induction; multiset preservation; histories by induction. Append: witness + exact domain.
* **C67** BinaryHeap IntoSortedVec is a sorted permutation — Model/BinaryHeap.lean: heap order invariant on lists with parent index (i-1)/2; sift-up and sift-to-bottom loops by induction; multiset preservation; histories by induction. Append: witness + exact domain.
* **C68** BinaryHeap Append merges the heaps — Model/BinaryHeap.lean: heap order invariant on lists with parent index (i-1)/2; sift-up and sift-to-bottom loops by induction; multiset preservation; histories by induction. Append: witness + exact domain.
* **C69** HashMap refines a finite map — Model/HashMap.lean, Model/HashSet.lean: Go map as finite association; iteration order = arbitrary permutation parameter; set algebra as membership.
* **C70** HashMap iteration yields each entry exactly once — Model/HashMap.lean, Model/HashSet.lean: Go map as finite association; iteration order = arbitrary permutation parameter; set algebra as membership.
* **C71** HashSet algebra — Model/HashMap.lean, Model/HashSet.lean: Go map as finite association; iteration order = arbitrary permutation parameter; set algebra as membership.
* **C72** BTreeMap refines an ordered finite map under insertion — Model/BTree.lean: heap of nodes with 11 key slots and 12 child slots; exact code including splitChild, removal, borrow and merge. Invariant `Good` (nothing, one leaf of at most 11 keys, or a root whose first child holds the eleven smallest keys and whose other children are empty) for exactly the histories that work; insertions work iff `Fits` (key present, fewer than 11 keys, or below the eleventh with at most 20), otherwise the key is lost.
* **C73** BTreeMap has no capacity limit — the same model; more than 21 distinct insertions panic in every order, 21 descending ones work.
* **C74** BTreeMap Remove removes the key and returns its value — the same model; with at most 11 keys Remove works iff `RemoveOk`; removing the largest leaves it there, an inner one returns the neighbour's value; with 12 keys or more exactly the calls `RemoveOkBig` work: one of the first ten keys gives the neighbour's value, the eleventh stays, the twelfth gives the eleventh's value, and from the thirteenth on Remove panics.
* **C75** BTreeMap iteration is in ascending key order — the same model; maps reached by working histories enumerate in order; after a lost insertion, a removal of the largest, or a Remove of an absent key between the twelfth and the thirteenth they do not.
* **C76** BTreeSet algebra — BTreeSet in Model/BTree.lean over the map; histories as C72/C74; comparisons right for non-empty receivers, algebra right for non-empty operands and results of at most 11 elements; failures for empty operands, twelve elements and Clone.
* **C77** Format substitutes placeholders and unescapes braces — Fmt in Model/Str.lean: the scanner as a fold; templates as a list of pieces with a renderer as spec (Props/Format.lean).
* **C78** String Push, Pop, Chars, Len are inverse and consistent — Model/Str.lean: byte strings with Go's UTF-8 encode/decode; decimal numerals.
* **C79** Integer ToString and Parse round-trip — Model/Str.lean: byte strings with Go's UTF-8 encode/decode; decimal numerals.
* **C80** StringFromUTF16 decodes every code unit — Model/Str.lean: byte strings with Go's UTF-8 encode/decode; decimal numerals.
* **C81** Mutex gives mutual exclusion — Model/Conc.lean (semantics of Go), Model/Thread.lean: transition systems with any number of goroutines; invariants over all reachable states.
* **C82** thread Join returns only after the task finished — Model/Conc.lean (semantics of Go), Model/Thread.lean: transition systems with any number of goroutines; invariants over all reachable states.
* **C83** thread Join and IsFinished can be combined freely — Model/Conc.lean (semantics of Go), Model/Thread.lean: transition systems with any number of goroutines; invariants over all reachable states.
* **C84** gokio Await returns the task's value — Model/Conc.lean (semantics of Go), Model/Thread.lean: transition systems with any number of goroutines; invariants over all reachable states.
* **C85** fs Write then Read returns the data — Model/Fs.lean: inode file system of Model/Os.lean, histories of calls; one File.Read reads at most 1 GiB.
* **C86** fs Copy makes an independent copy — Model/Fs.lean: Copy is a hard link (os.Link).
* **C87** fs ReadDir lists each entry once with its type — Model/Fs.lean: `VecWithLen` followed by Push, and `Perm()` strips the type bits. Paths: `Goes` is an inductive account of walking along a path without symbolic links; by induction over the path cleaning does not change where it goes, because `..` of a directory is the directory that has its name (`Tree`). Over a symbolic link followed by `..` it does: C87_path_link_fails.
* **C88** Copies of an Option are independent — Model/OptionHeap.lean: options as addresses in an explicit heap; frame lemma for allocation; writes through the returned pointers.
* **C89** Copies of a Vec variable are independent — Model/SliceHeap.lean: slices as (array, length) in a heap of arrays; frame property of every operation; violated for in-place writes through a copy with spare capacity.
* **C90** VecDeque Append terminates for every argument — Model/VecDeque.lean `appendSelf` with fuel; violated for a nonempty deque appended to itself.
* **C91** Copies of a VecDeque variable are independent — Model/DequeHeap.lean: deque variables with buffers in a heap; disjoint variables are independent, copies share (Props/DequeCopy.lean: what the copy may still do: pushes, Append, Reserve, Clear and reads leave the original alone).
* **C92** LinkedList Append loses no element, also appended to itself — Model/LinkedList.lean `appendSelf`; violated: the final Clear empties the list.
* **C93** Copies of a LinkedList variable are independent — two variables with the same head and tail; forward chains only (`Fwd`); PushFront/PopFront harmless, PushBack/PopBack not.
* **C94** BinaryHeap Reserve changes only the capacity — Model/BinaryHeap.lean over the Vec model; exact domain; violated whenever the vector must grow.
* **C95** HashMap finds what was inserted, for every comparable key and every map value — Go map model with a == that need not be reflexive and keys that may not be hashable; exact domain; violated by NaN keys, unhashable keys and the zero HashMap.
* **C96** A copy of a HashMap shows what is done through the original — handles are references into a heap of Go maps; proved for all histories without Clear, violated by Clear of a map with entries.
* **C97** HashMap and HashSet iterator adapters act on the remaining elements — over the VecIter model (same code); exact domain: CollectToVec and Rev only for fresh iterators.
* **C98** BTreeMap Eq compares contents — BMap.eq in Model/BTree.lean; loop invariant over the entries, pigeonhole for the missing direction. Exact for maps of admissible histories; panics when the values have no Eq.
* **C99** String Find and Contains locate the first occurrence — package strings by contract (Model/Str.lean); occurrence specified by decomposition of the string.
* **C100** String Split, Replace, Repeat — inductive specifications Pieces and Replaced (with uniqueness); Repeat exact domain n < 2^63.
* **C101** Char ToString and Display give the character — false for every character: the numeral of the code is returned.
* **C102** A spawned goroutine ends when its function has returned — false: it blocks for ever in the send on an unbuffered channel (Props/Thread.lean, Props/Gokio.lean).
* **C103** Copies of a Mutex exclude each other — false: the copy has its own lock but the same value pointer (Props/Mutex.lean).
* **C104** fs Write is all or nothing — Model/Fs.lean, failures of system calls as arguments; false: the file is truncated first. Proved: some prefix of data, nothing else touched; Props/FsConc.lean: the same if the program is killed between two system calls.
* **C105** fs RemoveFile removes files, RemoveDir removes empty directories — Model/Fs.lean; both are os.Remove, so each also removes what is the other's.
* **C106** fs Rename moves a file — Model/Fs.lean and Props/FsTree.lean; proved for files, and for directories on link-free paths; false if both are names of one file (as after Copy).
* **C107** Display of Vec, VecDeque and LinkedList lists the elements — Model/Display.lean; loops are shown equal to a recursion over the list of Display methods, spec = `shown` (run each once, join with commas). Injectivity for texts without commas.
* **C108** Display of maps and sets lists each entry once — Same spec `shown` over `entry`; order as in C70/C75. BTreeSet.Display of the empty set dereferences nil.
* **C109** Option, Result and Pair display, alone and inside other values — Methods carry their declared result type; a cast succeeds iff it is String. Pair.Display returns string, so a Pair is never displayable; Option asks a pointer, so interface types fail.
* **C110** Types with a Debug method implement Debug — The interface asks for a result of type string, all methods but that of Pair return String.
* **C111** Panic and failing assertions carry the formatted message — Model/Display.lean models the messages (Misc.lean only whether there is a panic). Assert passes the message itself as first argument of Format.
* **C112** Assignment operators store what the operator returns — variables are a list, pointers are nil or indices; the operators are a record of functions per type (signed, unsigned of any width, I128, U128; floats and strings are an arbitrary operator). C112_signed/_unsigned state the operators on Int/Nat, C112_assign the frame and result, C112_sum is by induction on the sequence.
* **C113** Sleep lasts at least the given duration — time.ParseDuration is modelled as its algorithm (numbers without fraction), time.Sleep as any function that returns late enough. Exact domain: it holds for durations below 2^63 ns, others panic.
* **C114** ReadLine appends the next line of input — fmt.Scanln is modelled rune by rune. Exact domain of the property by C114_readLine_partial; C114_words_partial reads n lines by induction; C114_readLine_fails shows a lost letter.
* **C115** Print and Println write the formatted text — sequential part as an effect on the text written; the concurrent part is a transition system where each write is one event. C115_println_partial is an invariant of all runs, C115_println_fails gives the bad schedule for all pairs of lines.
* **C116** Stdin.Lock gives exclusive access — on the transition system of C81-C84: C116_lock_fails shows that another goroutine reads although Lock has returned, C116_holder_fails that locking the returned mutex and reading never gets to the read.
* **C117** AsRef refers to its receiver — variables are a list, AsRef adds a new one. C117_asRef_partial: the pointed-to value is that of x at the call; C117_asRef_fails: no later write is shared.
* **C118** Floor, Ceil, Round, Trunc, Frac and Abs of floats are exact — numbers are signs and magnitudes in units of 2^-1074, formats are (precision, exponent range); the functions of package math are defined on magnitudes (contract). Specified on the integers v (value in units) and k (integer result). The F32 methods convert the float64 result back: exact because the results are representable (rep_near).
* **C119** Sqrt is the nearest float to the true square root — sqrtMag computes the correctly rounded root with an integer square root; NearestSqrt compares squares so no real numbers are needed. Double rounding: the float64 root is on the middle between two float32 only if it is exact (tie_exact), which is impossible for 25-bit significands otherwise.
* **C120** Powi, Powf, Exp and logarithms round once and use the given exponent — math's functions are parameters; conversion to F32 is characterised as nearest-or-overflow, float64(n) as exact up to 2^53 and even beyond. (-1).Powi(n) is right iff n is even or |n| <= 2^53 (exact domain); odd exponents beyond give +1.
* **C121** Trim removes exactly the white space around a string — full theorem for arbitrary bytes (`C121_trim`), with uniqueness (`C121_trim_unique`), idempotence, and the result on texts as a list of characters (`C121_trim_text`). `strings.TrimSpace` is modelled by its definition (decoding from both ends).
* **C122** ToLowercase and ToUppercase map character by character — `C122_case_text`, `C122_case_ascii`, `C122_case_bytes` (arbitrary bytes; exactly the valid strings without cased characters come back unchanged). The Unicode tables are a parameter (`CaseTable`).
* **C123** Copies of a BTreeMap or BTreeSet variable are independent — violated: the copy shares the nodes. Exact: Gets through the original are undisturbed iff the map was empty or the insertion stores the value that was there; otherwise the entry shows in the original with a stale Len, and with eleven keys the original loses its largest key. Remove through the copy (up to eleven keys) leaves every Get of the original alone iff the key is absent or the largest; an inner key disappears from the original, and a largest key from its Keys.
* **C124** Copies of a BinaryHeap variable are independent — violated: the copy shares the array. Exact for Push: the copy is undisturbed iff the array is full or the new element is not greater than the parent of its place; Pop always takes the greatest element out of the copy and doubles its last.
* **C125** BinaryHeap appended to itself — violated: with three or more elements and one greatest element, that one ends up at least three times in the heap. Holds when no element but the last two is greater than the parent of its new place, in particular for at most two elements. Without ties, exactly for at most two elements (`C125_self_append_distinct`). With ties it still fails whenever the greatest element is greater than the one in the middle of the array (`C125_self_append_middle_fails`).
* **C126** File functions of gokio, awaited one after another — proved for all adaptive programs and all schedules: what has been awaited is a prefix of the direct results, executions end, and an ended execution has made all calls, has the file system of the direct calls and left no goroutine (or has died of the same panic).
* **C127** Clone of nested values — `Model/Nested.lean` has an explicit heap and a universe of types; `Shows n h t v d` relates a value in memory to the pointer-free value it stands for.  Clone returns exactly when no part is an I128, U128, VecDeque, BTreeMap or non-empty BTreeSet; then both sides are independent of each other under arbitrary changes.  Violations: those parts; VecDeque.Clone shares its elements.
* **C128** Eq of nested values — Proved for every type without Complex64, Complex128 and BTreeMap inside, against the pointer-free equality `same`; elements of those types make Eq panic.
* **C129** CollectToLinkedList of map and set iterators — proved from C65, C75 and C76: the loops are textually that of VecIter.
* **C130** Floating-point texts identify their numbers — Model/FloatText.lean on top of Model/Float.lean: strconv.FormatFloat is the contract `Shortest` (fewest digits that round back) with the layout of 'f', strconv.ParseFloat reads a grammar and rounds a fraction; rounding of fractions is characterised by nearest-even neighbours (uniqueness, exact overflow bound), the grammar by `DecimalText`.
* **C131** The directories remain a tree — Props/FsTree.lean: `reach` follows names from the root, `Tree` is the invariant; rename(2)'s check against moving a directory into itself is shown to be enough (the walk up the parents with as many steps as inodes finds every directory above).
* **C132** A BinaryHeap survives comparisons that panic — Model/Unwind.lean keeps the container when a callback panics (`Eff (Vec α × σ)`); a Hoare logic with an extra postcondition for panics (`Triple`) proves that the heap is a bag throughout (C132_heap_bag). Operations whose comparisons return refine the models of C66 (`Answers`). The order promise is false: Push that panics leaves the new element below smaller ones, Pop and IntoSortedVec that panic lose elements.
* **C133** Vec and VecDeque survive callbacks that panic — `calls` is the specification of a callback run over a list until it panics; every method is shown to do exactly what the answers so far say. True for Vec.Retain, Vec.DedupByKey and FillWith; VecDeque.Retain and Dedup compact in place before the length is set, so a panic leaves some elements twice and others lost; Vec.Insert appends before it checks the index.
* **C134** WrappingDiv is division modulo 2^n — congruence of BitVec.sdiv with Int.tdiv; unsigned division is exact.
* **C135** Vec Append loses no element, also appended to itself — the assignment to other.data comes last and other is self: the vector ends up empty.
* **C136** MIN and MAX constants bound every value of their type — Model/Const.lean has one definition per constant; the spec `Extremes` is in terms of Cmp only; the proof goes through the value order of C23.
* **C137** F32 and F64 arithmetic is correctly rounded — Model/FloatArith.lean: Go's operators are a contract (IEEE 754, one rounding per call) computed with integers: sums of units, products and quotients as fractions rounded by roundRat. Spec `Rounds` (nearest even or too large) does not mention the computation. Monotonicity through a monotone rounding of fractions that is capped above the largest number; Sterbenz and gradual underflow from divisibility by powers of two.
* **C138** An iterator is not disturbed by changes of its container — Model/IterHeap.lean runs the iterators in the heaps of slices, buffers and nodes. For Vec and VecDeque the number of elements and the absence of panics hold for all histories; the values only for histories described by `vecQuiet` and `dequeQuiet`. For LinkedList `Spec.ListView` is an exact description for every history (invariant: the nodes still to visit are a chain of nodes that left the list and then a suffix of the list).
* **C139** A BTreeMap survives comparisons that panic — Model/BTreeUnwind.lean repeats the methods of Model/BTree.lean that call Cmp as effects on the node heap that keep it when Cmp panics; Lemmas/BTreeUnwind.lean shows that runs that return are those of Model/BTree.lean (C139_answered), so the other theorems about BTreeMap apply to them. Get and ContainsKey write nothing (C139_reads); Remove of up to eleven keys writes after its last comparison. Insert is not atomic: entries are moved between comparisons, and a full root is split before the first one, so a recovered panic can leave an entry twice and lose another at the next Insert.
* **C140** BinarySearch and BinaryHeap compare logarithmically often — `counted` puts a counter beside the state of an arbitrary effectful callback; a Hoare logic with a budget (`Budget`) bounds the counter at the end of a run, returned or panicked, of the methods of Model/Vec.lean, Model/VecDeque.lean and Model/Unwind.lean.
* **C141** Vectors taken out of an iterator or a heap belong to the caller — Model/CollectHeap.lean puts CollectToVec and IntoVec into the heap of slices. Proved in full for VecIter (freshness, then `C89_disjoint_vecs_independent`). The iterators of maps and sets return their own vector, IntoVec the heap's own: the histories of `vecQuiet` are harmless, the others are not.
* **C142** Write and Read of a file at the same time act one after another — Model/FsConc.lean, Props/FsConc.lean. Write is taken apart into open(O_TRUNC) and write(2), Read into open, fstat and read(2); a system call is atomic and does not fail for reasons of its own. `C142_alone` ties the pieces to Model/Fs.lean. False: the file is cut to nothing before it is written and its size is asked for before it is read. Proved for existing files, any number of calls and any interleaving: with Writes of equal lengths (in particular a single Write) the file always holds the old contents, nothing, or the data of one Write, in the end the data of one Write; a Read gives one of these or io.EOF or data cut or padded to the old length, and each of these outcomes does occur.
* **C143** Join and Await tell of a task that did not finish — Model/TaskExit.lean, Props/TaskExit.lean. Spawn with a function that has a second way out; `C143_returning` ties it to Model/Thread.lean. Proved: no Join ever reports success and no IsFinished says true. False otherwise: after Goexit every Join blocks for ever, a panic kills the whole program, and because of the deferred close Await returns the zero value (also before a panic kills the program).
* **C144** fs functions succeed exactly when they can — When the file functions return Ok and when an error, for paths without symbolic links and dots in a tree of directories (`Plain`: the directory of the last component is reached by names alone; `Lost`: the way ends at a missing name or at a file).  `C144_rename` shows that the only refusals are the ones of POSIX and of os.Rename: a directory into itself, a directory onto something, something onto a directory. For all paths, relative ones, with dots and through symbolic links (Props/FsPaths.lean, `C144_any…`): `Leads` and `Missing` say in relational form where names lead, `walk_leads` and `walk_missing` that path resolution computes just that; `Slot` is the entry a path names. `C144_anyRename` has a case more: the same directory under two spellings, where Rename returns Ok and does nothing.
* **C145** Products and quotients of complex numbers — Model/Complex.lean: the operators of the gc compiler as a contract (four products and a sum in float64, no fusing; runtime.complex128div with its correction for infinities), on top of the correctly rounded operators of C137. Spec `Rounded`/`Narrowed` speak about fractions of integers. Division by general numbers is exact where Smith's method loses nothing (Props/Complex.lean); elsewhere Props/ComplexError.lean bounds its error by an analysis over the rationals (Mathlib's ordered-field lemmas), for parts without overflow or underflow.
* **C146** Sorting keeps the elements whatever the comparison does — package sort is any finite tree of comparisons (of elements read from the container by index) and exchanges; by induction over the tree the sorted slots are permuted at every exit. The trees meet the contract of package sort for pure orders (insertion sort does), from which the results of C52 and C60 carry over to comparisons with effects. VecDeque sorts `buffer[:len]`, so elements get lost when the deque does not start at slot 0 and is not full: C146_deque_fails; C146_deque_partial has the layouts in which nothing is lost. C146_deque_exact: in every other layout some comparison of keys brings a value of a free slot into the deque, unless the free slots among the sorted ones only hold copies of elements (`v v w w` with the first and the last slot live stays right in any order).
* **C147** A BTreeMap never invents entries and can always be read, after any history — Safety of BTreeMap and BTreeSet in every state that calls can reach (`C147_*`, Props/BTreeAny.lean): the other theorems on BTreeMap start from admissible histories, this one from all of them. The invariant (Lemmas/BTreeAny.lean): key and value slots stay in pairs, every pair was inserted, children of internal nodes are leaves (a second level of splits panics). Histories contain calls that return; C148 has those that panic.
* **C148** A BTreeMap can still be read after a recovered panic of Insert or Remove — BTreeMap write by write (Model/BTreeSteps.lean): Insert and Remove over the nodes, the map variable and the state of Cmp, each assignment of the source one step, so that a panic keeps the writes before it. The readers are those of Model/BTreeUnwind.lean. Invariant (Lemmas/BTreeSteps.lean): every leaf and every root has its key and value slots in pairs that were given, children of roots are leaves; it holds between any two writes that can panic. What is not kept: `C148_insert_fails` and `C148_remove_fails`.
* **C149** What a BTreeMap does depends on the answers of Cmp only — The model write by write (Model/BTreeSteps.lean) refines the one that computes the next heap (Model/BTree.lean), panics included (Props/BTreeSame.lean). Lemmas/BTreeAgree.lean and Lemmas/BTreeAgreeCmp.lean go through the functions one by one; a parent and its two children have to be different nodes, which Lemmas/BTreeApart.lean shows for every state that calls can reach. So what the theorems on histories that return say of Model/BTree.lean holds of the model with Cmp's effects, too.
* **C150** A collection that was only declared is an empty collection — Model/Zero.lean holds the zero values, Props/ZeroValue.lean the theorems. Vec, LinkedList, BinaryHeap and the B-trees need no constructor. A declared VecDeque has no buffer, and doubling its capacity gives no room, so PushFront and PushBack panic until Clear, Reserve or Append has made a buffer; a declared HashMap or HashSet has a nil map, so Insert panics until Clear. For these three the theorems give the exact histories that behave as on an empty collection.
* **C151** Eq of two Results compares their contents — Go's == on interfaces is a contract (ErrTypes): a type per error and a comparison within one type that may not exist. Exact domain in which Eq returns and in which it is true; violated for errors of an uncomparable type (panic even against itself) and for Err(nil).
* **C152** A function passed to Retain, DedupByKey or SortBy may use the container — Model/Reenter.lean: a function of the user is a tree of looks at the container and calls of its methods (`Use`), run on the slice heap of Model/SliceHeap.lean for Vec, where `range self.data` holds on to the old slice, package sort to the slice it was given, and the `less` closure reads the variable. Spec: `Calls` (which values the function was called with and what it answered), `reads` (answers given a view). Not modelled: FillWith with a function that changes the container (Go leaves the order of evaluation open).
* **C153** Spawning workers that share a Mutex, waiting for all of them and reading the value — Props/ForkJoin.lean composes Thread.spawn/join, Gokio.spawn/await and Mutex of Model/Thread.lean into one program in the semantics of Model/Conc.lean, and shows by an inductive invariant, a progress lemma and a decreasing weight that every execution follows the specification (`Interleaving`, `total`, `results`).
* **C154** Tasks that spawn and await tasks compute the sequential value — Props/TaskTree.lean: programs are trees `Code` (ret, spawn, await), translated to goroutines with Gokio.spawn/await of Model/Thread.lean; the specification `Code.value` executes spawned bodies directly. An inductive invariant over all goroutines (each future is held by one task, older than the task that serves it, which has not sent yet) gives safety and progress, a decreasing weight termination.
* **C155** Every Result is Ok or Err — Props/ResultState.lean: `Made` is the closure of the constructors and methods with arbitrary callbacks; never both by induction, neither exactly when both pointers are nil.
* **C156** Chains of iterator adapters compute the list pipeline, stage by stage — Props/Pipeline.lean. `Spec.pipeline` gives a chain its meaning on lists, stage by stage, with effects; by induction over the chain every iterator chain ends as the pipeline does. Rev of VecDeque and LinkedList iterators is left out because it is broken on its own (C61, C65).
* **C157** Transactions over several Mutexes — Props/Transactions.lean. Goroutines made of the Lock and Unlock of Model/Thread.lean with loads and stores in between refine the execution of whole transactions (`Tx.Serial`, whose only semantics is `Body.run` on a function from Mutexes to values). The converse (`C157_any_order`), freedom from deadlock under a ranking, termination, preservation of invariants, the deadlock of two opposite orders, and transfers between accounts as an instance. Props/Deadlock.lean: the exact condition under which some execution deadlocks (`C157_deadlock_iff`: the specification `Standoff` speaks of a serial history and of what each goroutine has taken, not of executions) and the gate Mutex that excludes it (`C157_gate`).
* **C158** Comparisons that answer with any number — Model/RawOrder.lean: the number is tested as in the code. Proper answers: equal to the modelled methods by sign. Searches: never end or agree with the search by sign. Counterexample classes for sort, heap, map.
* **C159** The memory of a VecDeque follows the number of elements it holds — capacity bound for histories without Append, amortised cost for histories without Append and Reserve (potential 4 Len - 2 Capacity); violations: rounds of Append and PopFront grow the capacity without bound and finally panic, Reserve(1) before each push makes a new buffer per element
* **C160** A collection behind a Mutex, used by any number of goroutines — instance of C157 for one Mutex whose value is any object with a step function; OneByOne is the specification; FIFO by induction over it with the lemmas of C56
* **C161** The bytes given to gokio.Write are not copied by the call — Props/TaskData.lean: elements of data are shared variables, the loop of Write loads them one by one, the file's contents are an event. Sampled describes what a reader may get while assignments are made; C161_exact says that exactly the samples can be written. C161_mixture, C161_kept_partial (condition: no assignment to data before Await), C161_finishes, C161_changed_fails, C161_torn_fails.
* **C162** Replacing a file by Write to a temporary file and Rename is atomic — C162 (Model/FsUpdate.lean, Props/FsUpdate.lean): Read and the pair Write, Rename are taken apart into their system calls, which interleave in any way, may fail, and may be cut off for ever (a crash of the program, not of the machine: nothing is said about what a power failure leaves of unsynced data). The invariant is that the file the path leads to is owned by no update and is never written to again; C162_alone ties the calls taken apart to Fs.read, Fs.write and Fs.rename. In contrast to C104 and C142, which fail for a Write to the file itself.
* **C163** The text of nested containers of numbers identifies the value — Props/DisplayNested: a type of nested values and their texts; unique readability by mutual induction over two values with what follows them in the text; the Display models give these texts (from C107-C109)
* **C164** Tasks that share Mutexes do not deadlock when they keep to a ranking — Props/TaskLocks: programs as terms with continuations, the discipline as a predicate on programs, an invariant that gives each goroutine its place in its program and each locked Mutex its holder; a waiting goroutine of greatest rank leads to one that can go on; termination by the multiset order on what is left of each goroutine (Mathlib.Logic.Hydra)
* **C165** What is shown about each task alone holds for the whole program — Props/TaskLogic: a concurrent separation logic for the programs of C164: `Holds` is a predicate on a task's body; the invariant of C164 is extended by the claims of each task and each unlocked Mutex, whose sum stays valid
* **C166** Data shared through Spawn, Join, IsFinished, Await and Mutex is free of data races — Model/ConcEvents labels the steps of Model/Conc with the accesses and synchronization of the Go memory model and defines happens-before and races; Props/Race proves an ownership discipline sound for every program (`C166_discipline`: an invariant says of every past access that it happens before every goroutine that now has the variable) and applies it. Props/RacePrograms.lean applies the discipline to the programs of C153, C157, C160 and C167.
* **C167** Transactions that take Mutexes by TryLock and back off — Props/Backoff.lean. The programs are those of C157 with a mode per Mutex and a path for a failed TryLock. `Serial` is the specification: whole transactions on a function from Mutexes to values, or steps without effect; `giveUp` is allowed only where another goroutine mentions the Mutex. The invariant is that of C157 with one more state (TryLock has failed, what is held is still to be given back). Race freedom of these programs is `C166_backoff`.
* **C168** A priority queue and a table of claims behind a Mutex — Props/SharedAtomic: a collection behind a Mutex whose methods refine a (nondeterministic) specification is an atomic object with that specification (C160 + simulation with a budget of calls); instances BinaryHeap (C66) and HashMap (C69); consequences by induction over the order of calls
* **C169** CreateDir elects one winner, a directory is a lock, and Rename or RemoveFile claims a file once — Props/FsElect: histories of calls by several processes over the file system of Model/Os; each call is one step because it takes effect in one system call. `LockStep` is the protocol as the processes see it (they know only the results), `Spares`/`Avoids` say what the others must not do. The invariant is that the path exists while somebody holds it; what the calls do to names is `Op.run_tree` of C131. Hosts with several machines (network file systems without atomic mkdir) are outside
* **C170** A Mutex has one owner in any program, and is released when its owner drops it — Props/Abandon: `Pairs m` says of any `Proc` that it unlocks `m` only when it has it (a recursive predicate on the tree of instructions, over all values received, read and returned). C170_exclusion is by an invariant with a ghost owner over all 24 kinds of steps; C170_lost: locked and owned by nobody is a trap; C170_dropped_fails: the program of C81 plus one goroutine that does not unlock
* **C171** The collections agree with one another about the same values — Props/Agree.lean. Metamorphic: no specification of the single collection is mentioned, the results of the code are compared with each other (`SameBy`: element by element equal). Uses the refinement theorems C49, C51, C52, C62, C66, C67, C71.
* **C172** The ordered and the unordered maps and sets give the same answers to the same calls — Props/Agree.lean. A simulation between the two specifications (`Agree.Maps`, `Agree.Sets`) put between the refinement theorems of both implementations; `C172_few_keys_partial` is the part that can be checked without looking at the map (no Remove, insertions of at most eleven different keys, any length), `C172_maps_fails` the first difference.
* **C173** A program that only uses paths below a directory changes nothing outside it — Props/FsConfine.lean. `inside` is what is reached from the directory at the start and every inode allocated later; it is closed under names and free of links (`Shut`), which every call below the directory keeps (`run_eff`), because a walk that starts inside and has no `..` stays inside (`walk_inside`). The way to the directory leads over directories outside, so it stays (`reach_same`, `Tree.onePath`).
* **C174** What a program does below a directory depends on that directory only — Props/FsIso.lean. The specification `SameBelow` compares what is reached under names; the proof turns it into a bisimulation of inodes (`Iso`), which every system call keeps (`*_both`), extended by the new inodes (`add_iso`), and back. Rename's check that a directory is not moved into itself climbs to the root, out of the directory; it is decided by the names alone (`above_iff`). (3) combines it with C173. Props/FsListing.lean adds ReadDir (os.ReadDir sorts, so the order of the entries does not matter as no name is there twice).
* **C175** What CreateDir, Write, Copy and Rename made can be unmade — Props/FsUndo.lean. `Alike` says what cannot be told apart. Creating and removing gives back the same inodes with an unreachable one more; renaming there and back gives back the same entries in another order. Both are cases of a relation that path resolution, Read and ReadDir respect (`Like`). That names are distinct in every directory is an invariant of all calls (`runAll_once`). Later histories follow from C174.
* **C176** Programs in directories of their own do not disturb each other — Props/FsApart.lean. Model/FsTasks.lean takes the functions apart into system calls (Write: open and any number of writes; os.Remove: unlink and rmdir; os.Rename: Lstat, Lstat, rename; Read: open, stat, read; os.ReadDir: open and reading the entries, in one step) and runs programs that choose their calls by the results so far, under any schedule and with any failures. C176_apart compares with the program alone (inode numbers differ, so the relation is by names as in C174); C176_atonce shows that a program without failures gets what the atomic functions of Model/Fs.lean return, C176_finishes that it ends. Directories are assumed to have a size other than 0 (true of Linux file systems in general use), as Read of a directory of size 0 returns Ok. The result of ReadDir is kept as what os.ReadDir returned; the rest of ReadDir makes no system call.
* **C177** Programs that share only what nobody writes do not disturb each other — Props/FsShare.lean. C176 with shared directories: a program is in a call below its own directory or in one that changes nothing below a shared one (`Pair`); both file systems are below the shared directories what they were at the start (`Still`). Copy out of a shared directory is not among the calls: it makes a second name of the shared file (C86), so a Write to the copy changes what is shared.
