{"id": "C01", "title": "CheckedAdd is exact", "statement": "For every integer type I8..I64, ISize, U8..U64, USize and every a, b: a.CheckedAdd(b) is Some(a+b) when the mathematical sum is representable in the type, and None otherwise.", "quantifier": "every pair of values of the type, for all ten fixed-width types", "why_tests_cant": "2^16 pairs for 8 bits but 2^128 pairs for 64 bits: sampling cannot exclude a wrong boundary", "anchors": ["ops.go:I8.CheckedAdd", "ops.go:I8._HasOverflow_Add", "ops.go:ISize.CheckedAdd", "ops.go:U8.CheckedAdd", "ops.go:USize.CheckedAdd"]}
{"id": "C02", "title": "CheckedSub is exact on unsigned types", "statement": "For U8..U64 and USize: a.CheckedSub(b) is Some(a-b) when b <= a and None otherwise.", "quantifier": "every pair of values of the type", "why_tests_cant": "2^16 pairs for 8 bits but 2^128 pairs for 64 bits: sampling cannot exclude a wrong boundary", "anchors": ["ops.go:U8.CheckedSub", "ops.go:USize.CheckedSub", "ops.go:U8._HasUnderflow_Sub"]}
{"id": "C03", "title": "CheckedSub is exact on signed types", "statement": "For I8..I64 and ISize: a.CheckedSub(b) is Some(a-b) when the mathematical difference is representable and None otherwise.", "quantifier": "every pair of values of the type", "why_tests_cant": "2^16 pairs for 8 bits but 2^128 pairs for 64 bits: sampling cannot exclude a wrong boundary", "anchors": ["ops.go:I8.CheckedSub", "ops.go:ISize.CheckedSub", "ops.go:I8._HasOverflow_Add", "ops.go:ISize._HasUnderflow_Sub"]}
{"id": "C04", "title": "CheckedMul is exact on U8..U64", "statement": "For U8, U16, U32, U64: a.CheckedMul(b) is Some(a*b) when the mathematical product is representable and None otherwise.", "quantifier": "every pair of values of the type", "why_tests_cant": "2^16 pairs for 8 bits but 2^128 pairs for 64 bits: sampling cannot exclude a wrong boundary", "anchors": ["ops.go:U8.CheckedMul", "ops.go:U64._HasOverflow_Mul"]}
{"id": "C05", "title": "CheckedMul is exact on USize", "statement": "USize.CheckedMul(b) is Some(a*b) when the product fits in the (64-bit) type and None otherwise.", "quantifier": "every pair of values of the type", "why_tests_cant": "2^128 pairs; a bound taken from another width only shows on large operands", "anchors": ["ops.go:USize.CheckedMul", "ops.go:USize._HasOverflow_Mul"]}
{"id": "C06", "title": "CheckedMul is exact on signed types", "statement": "For I8..I64 and ISize: a.CheckedMul(b) is Some(a*b) when the product is representable and None otherwise.", "quantifier": "every pair of values of the type", "why_tests_cant": "2^16 pairs for 8 bits but 2^128 pairs for 64 bits: sampling cannot exclude a wrong boundary", "anchors": ["ops.go:I8.CheckedMul", "ops.go:I8._HasOverflow_Mul", "ops.go:ISize.CheckedMul"]}
{"id": "C07", "title": "CheckedDiv is exact", "statement": "For all ten types: a.CheckedDiv(b) is None when b = 0 or the truncated quotient is not representable (MIN / -1), and Some(truncated quotient) otherwise; it never panics.", "quantifier": "every pair of values of the type", "why_tests_cant": "2^16 pairs for 8 bits but 2^128 pairs for 64 bits: sampling cannot exclude a wrong boundary", "anchors": ["ops.go:I8.CheckedDiv", "ops.go:I8._HasOverflow_Div", "ops.go:U8.CheckedDiv"]}
{"id": "C08", "title": "CheckedRem is exact on unsigned types", "statement": "For U8..U64 and USize: a.CheckedRem(b) is None when b = 0 and Some(a mod b) otherwise.", "quantifier": "every pair of values of the type", "why_tests_cant": "2^16 pairs for 8 bits but 2^128 pairs for 64 bits: sampling cannot exclude a wrong boundary", "anchors": ["ops.go:U8.CheckedRem", "ops.go:USize.CheckedRem"]}
{"id": "C09", "title": "CheckedRem is exact on signed types", "statement": "For I8..I64 and ISize: a.CheckedRem(b) is None when b = 0 or the division overflows, and Some(truncated remainder) otherwise.", "quantifier": "every pair of values of the type", "why_tests_cant": "2^16 pairs for 8 bits but 2^128 pairs for 64 bits: sampling cannot exclude a wrong boundary", "anchors": ["ops.go:I8.CheckedRem", "ops.go:ISize.CheckedRem"]}
{"id": "C10", "title": "WrappingAdd and WrappingSub are arithmetic mod 2^n", "statement": "For all ten types: the result of a.WrappingAdd(b) (a.WrappingSub(b)) is the unique value of the type congruent to a+b (a-b) modulo 2^n.", "quantifier": "every pair of values of the type", "why_tests_cant": "2^16 pairs for 8 bits but 2^128 pairs for 64 bits: sampling cannot exclude a wrong boundary", "anchors": ["ops.go:I8.WrappingAdd", "ops.go:U8.WrappingAdd", "ops.go:I8.WrappingSub", "ops.go:U8.WrappingSub"]}
{"id": "C11", "title": "WrappingMul is multiplication mod 2^n (all but ISize)", "statement": "For I8..I64, U8..U64 and USize: a.WrappingMul(b) is the unique value of the type congruent to a*b modulo 2^n.", "quantifier": "every pair of values of the type", "why_tests_cant": "2^16 pairs for 8 bits but 2^128 pairs for 64 bits: sampling cannot exclude a wrong boundary", "anchors": ["ops.go:I8.WrappingMul", "ops.go:U8.WrappingMul"]}
{"id": "C12", "title": "ISize.WrappingMul is multiplication mod 2^64", "statement": "a.WrappingMul(b) on ISize is the unique 64-bit value congruent to a*b modulo 2^64.", "quantifier": "every pair of values of the type", "why_tests_cant": "2^128 pairs; the post-correction in the code is wrong only on sign patterns the tests do not use", "anchors": ["ops.go:ISize.WrappingMul"]}
{"id": "C13", "title": "SaturatingAdd clamps", "statement": "For all ten types: a.SaturatingAdd(b) is the mathematical sum clamped to [MIN, MAX] of the type.", "quantifier": "every pair of values of the type", "why_tests_cant": "2^16 pairs for 8 bits but 2^128 pairs for 64 bits: sampling cannot exclude a wrong boundary", "anchors": ["ops.go:I8.SaturatingAdd", "ops.go:U8.SaturatingAdd", "ops.go:ISize.SaturatingAdd"]}
{"id": "C14", "title": "SaturatingSub clamps (all but ISize)", "statement": "For I8..I64, U8..U64, USize: a.SaturatingSub(b) is the mathematical difference clamped to [MIN, MAX] of the type.", "quantifier": "every pair of values of the type", "why_tests_cant": "2^16 pairs for 8 bits but 2^128 pairs for 64 bits: sampling cannot exclude a wrong boundary", "anchors": ["ops.go:I8.SaturatingSub", "ops.go:U8.SaturatingSub", "ops.go:I8._HasOverflow_Sub", "ops.go:I8._HasUnderflow_Sub"]}
{"id": "C15", "title": "ISize.SaturatingSub clamps", "statement": "a.SaturatingSub(b) on ISize is the mathematical difference clamped to [MinInt, MaxInt].", "quantifier": "every pair of values of the type", "why_tests_cant": "2^128 pairs; wrong bounds (MinInt32/MaxInt32) only matter beyond 32-bit operands", "anchors": ["ops.go:ISize.SaturatingSub", "ops.go:ISize._HasUnderflow_Sub"]}
{"id": "C16", "title": "SaturatingMul clamps on U8..U64", "statement": "For U8, U16, U32, U64: a.SaturatingMul(b) is min(a*b, MAX).", "quantifier": "every pair of values of the type", "why_tests_cant": "2^16 pairs for 8 bits but 2^128 pairs for 64 bits: sampling cannot exclude a wrong boundary", "anchors": ["ops.go:U8.SaturatingMul", "ops.go:U64.SaturatingMul"]}
{"id": "C17", "title": "SaturatingMul clamps on signed types and USize", "statement": "For I8..I64, ISize and USize: a.SaturatingMul(b) is the mathematical product clamped to [MIN, MAX].", "quantifier": "every pair of values of the type", "why_tests_cant": "2^16 pairs for 8 bits but 2^128 pairs for 64 bits: sampling cannot exclude a wrong boundary", "anchors": ["ops.go:I8.SaturatingMul", "ops.go:ISize.SaturatingMul", "ops.go:USize.SaturatingMul"]}
{"id": "C18", "title": "SaturatingDiv clamps", "statement": "For all ten types and b != 0: a.SaturatingDiv(b) is the truncated quotient clamped to [MIN, MAX] and nothing panics; for b = 0 no panic occurs either and the result is an end of the range.", "quantifier": "every pair of values of the type", "why_tests_cant": "2^16 pairs for 8 bits but 2^128 pairs for 64 bits: sampling cannot exclude a wrong boundary", "anchors": ["ops.go:I8.SaturatingDiv", "ops.go:U8.SaturatingDiv", "ops.go:I8._HasOverflow_Div"]}
{"id": "C19", "title": "AbsDiff is the exact distance", "statement": "For all ten types: a.AbsDiff(b), of the unsigned type of the same width, equals |a - b| exactly, including when a - b overflows the signed type.", "quantifier": "every pair of values of the type", "why_tests_cant": "2^16 pairs for 8 bits but 2^128 pairs for 64 bits: sampling cannot exclude a wrong boundary", "anchors": ["ops.go:I8.AbsDiff", "ops.go:U8.AbsDiff", "ops.go:ISize.AbsDiff"]}
{"id": "C20", "title": "Abs, Neg, IsPositive, IsNegative agree with the integer value", "statement": "For the signed types: x.Abs() = |x| and x.Neg() = -x for every x != MIN (and MIN for MIN); IsPositive iff x > 0; IsNegative iff x < 0; for MIN Abs returns a negative number.", "quantifier": "every value of the type", "why_tests_cant": "2^64 values; only one value (MIN) is exceptional", "anchors": ["ops.go:I8.Abs", "ops.go:I8.Neg", "ops.go:I8.IsPositive", "ops.go:I8.IsNegative"]}
{"id": "C21", "title": "Pow is exponentiation mod 2^n", "statement": "For all ten types and every exponent: a.Pow(e) terminates and equals a^e modulo 2^n (so equals a^e exactly whenever that is representable).", "quantifier": "every base and every exponent of the type", "why_tests_cant": "the square-and-multiply loop must be right for every exponent; tests use Pow(3)", "anchors": ["ops.go:ISize.Pow", "ops.go:U8.Pow"]}
{"id": "C22", "title": "Shl and Shr shift by the right operand", "statement": "For all ten types: a.Shl(b) = a*2^b mod 2^n and a.Shr(b) = floor(a / 2^b) for every b below the width.", "quantifier": "every pair of values of the type", "why_tests_cant": "2^16 pairs for 8 bits but 2^128 pairs for 64 bits: sampling cannot exclude a wrong boundary", "anchors": ["bitwise.go:I8.Shl", "bitwise.go:I8.Shr", "bitwise.go:U8.Shl", "bitwise.go:U8.Shr"]}
{"id": "C23", "title": "Cmp is a total order consistent with Eq", "statement": "For every integer type including I128 and U128, Bool, Byte, Char and String: Cmp is total, antisymmetric and transitive, returns Equal exactly when Eq returns true, and orders integers by their mathematical value (strings bytewise).", "quantifier": "all values, all triples for transitivity", "why_tests_cant": "transitivity and antisymmetry quantify over triples of a huge domain", "anchors": ["cmp.go:I8.Cmp", "cmp.go:I128.Cmp", "cmp.go:U128.Cmp", "cmp.go:Bool.Cmp", "cmp.go:String.Cmp", "cmp.go:I8.Eq"]}
{"id": "C24", "title": "F32/F64 Cmp is a total order", "statement": "Cmp on the float types is a total order consistent with Eq (as the Ord trait demands).", "quantifier": "all triples of floats including NaN and infinities", "why_tests_cant": "tests do not compare NaN; order laws quantify over triples", "anchors": ["cmp.go:F32.Cmp", "cmp.go:F64.Cmp", "cmp.go:F64.Eq"]}
{"id": "C25", "title": "U128 Add and Sub are arithmetic mod 2^128", "statement": "For every a, b: U128 a.Add(b) = (a+b) mod 2^128 and a.Sub(b) = (a-b) mod 2^128.", "quantifier": "every pair of 128-bit values", "why_tests_cant": "2^256 pairs; carries between halves matter only at boundaries", "anchors": ["ops.go:U128.Add", "ops.go:U128.Sub"]}
{"id": "C26", "title": "U128 Mul is multiplication mod 2^128", "statement": "For every a, b: U128 a.Mul(b) = a*b mod 2^128.", "quantifier": "every pair of 128-bit values", "why_tests_cant": "the 128-iteration shift-and-add loop must be right for every bit pattern", "anchors": ["ops.go:U128.Mul", "bitwise.go:U128.Shl", "bitwise.go:U128.Shr"]}
{"id": "C27", "title": "U128 Div and Rem satisfy the division equation", "statement": "For every a and b != 0: q = a.Div(b), r = a.Rem(b) satisfy a = q*b + r and r < b; for b = 0 both panic.", "quantifier": "every pair of 128-bit values", "why_tests_cant": "2^256 pairs; the implementation goes through decimal strings", "anchors": ["ops.go:U128.Div", "ops.go:U128.Rem", "to_string.go:U128.ToString"]}
{"id": "C28", "title": "U128 ToString is the decimal numeral", "statement": "For every value v: U128.ToString() is the canonical decimal representation of v, so distinct values print differently and parsing returns v.", "quantifier": "every 128-bit value", "why_tests_cant": "2^128 values", "anchors": ["to_string.go:U128.ToString"]}
{"id": "C29", "title": "I128 Add is addition mod 2^128", "statement": "For every a, b: I128 a.Add(b) is the two's-complement value congruent to a+b modulo 2^128.", "quantifier": "every pair of 128-bit values", "why_tests_cant": "2^256 pairs", "anchors": ["ops.go:I128.Add"]}
{"id": "C30", "title": "I128 Neg and Sub are two's-complement negation and subtraction", "statement": "For every a, b: a.Neg() = -a mod 2^128 and a.Sub(b) = a-b mod 2^128.", "quantifier": "every pair of 128-bit values", "why_tests_cant": "the carry test is wrong exactly on two of the 2^64 low halves", "anchors": ["ops.go:I128.Neg", "ops.go:I128.Sub"]}
{"id": "C31", "title": "I128 Mul is multiplication mod 2^128", "statement": "For every a, b: I128 a.Mul(b) is the two's-complement value congruent to a*b modulo 2^128.", "quantifier": "every pair of 128-bit values", "why_tests_cant": "sign handling and the 128-step loop must be right for every bit pattern", "anchors": ["ops.go:I128.Mul"]}
{"id": "C32", "title": "I128 Div and Rem truncate toward zero", "statement": "For every a and b != 0 with representable quotient: a.Div(b) is the quotient truncated toward zero, a.Rem(b) the remainder with the sign of a, and a = a.Div(b)*b + a.Rem(b).", "quantifier": "every pair of 128-bit values", "why_tests_cant": "sign cases times carries; 2^256 pairs", "anchors": ["ops.go:I128.Div", "ops.go:I128.Rem"]}
{"id": "C33", "title": "I128 ToString is the signed decimal numeral", "statement": "For every value v: I128.ToString() is the canonical signed decimal numeral of v.", "quantifier": "every 128-bit value", "why_tests_cant": "2^128 values; wrong only for special low halves", "anchors": ["to_string.go:I128.ToString"]}
{"id": "C34", "title": "128-bit shifts shift by the right operand", "statement": "For U128 and I128: Shl(k) multiplies by 2^k mod 2^128 and Shr(k) divides by 2^k rounding down, for every 0 <= k < 128.", "quantifier": "every value and every shift amount", "why_tests_cant": "the tests only shift by 1", "anchors": ["bitwise.go:U128.Shl", "bitwise.go:U128.Shr", "bitwise.go:I128.Shl", "bitwise.go:I128.Shr"]}
{"id": "C35", "title": "Widening conversions to 128 bits preserve the value", "statement": "I128_FromI64(x) has the value x for every x (including MinInt64) and x of any 64-bit unsigned value converts to U128/I128 with the same value.", "quantifier": "every 64-bit value", "why_tests_cant": "boundary values", "anchors": ["primitive.go:I128_FromI64", "ops.go:I128.Neg"]}
{"id": "C36", "title": "I128 IsPositive and IsNegative follow the sign", "statement": "IsPositive iff v > 0 and IsNegative iff v < 0 for every I128 v.", "quantifier": "every 128-bit value", "why_tests_cant": "2^128 values; small positive values have high half 0", "anchors": ["ops.go:I128.IsPositive", "ops.go:I128.IsNegative"]}
{"id": "C37", "title": "DurationNew normalises and preserves the total", "statement": "DurationNew(s, n) panics exactly when s + n/10^9 overflows U64; otherwise the result has nanosecond part below 10^9 and total nanoseconds s*10^9 + n.", "quantifier": "every pair (U64, U32)", "why_tests_cant": "2^96 pairs; carry and overflow at the boundary", "anchors": ["time.go:DurationNew"]}
{"id": "C38", "title": "Duration constructors and accessors round-trip", "statement": "DurationFromSecs/Millis/Micros/Nanos(x) denote exactly x units; AsSecs/AsMillis/AsMicros/AsNanos return the floor of the total in that unit without overflow; Subsec* return the fractional part; hence FromNanos(x).AsNanos() = x, and likewise for millis and micros.", "quantifier": "every U64 argument and every normalised duration", "why_tests_cant": "2^64 arguments, and the U128 products could overflow only for huge durations", "anchors": ["time.go:DurationFromMillis", "time.go:Duration.AsNanos", "time.go:Duration.AsMillis", "time.go:Duration.SubsecNanos"]}
{"id": "C39", "title": "Option combinators obey the Option laws", "statement": "Map, MapOr, MapOrElse, Filter, Or, OrElse, Xor, Unwrap, UnwrapOr, UnwrapOrElse, Expect, Take, Insert, GetOrInsert(With), IsSome(And), IsNone, Eq and Clone behave as the corresponding operations on an abstract optional value, for every callback; Unwrap/Expect panic exactly on None and callbacks run only when documented.", "quantifier": "every option value and every callback", "why_tests_cant": "quantifies over arbitrary callbacks", "anchors": ["option.go:Option.Map", "option.go:Option.Filter", "option.go:Option.Xor", "option.go:Option.GetOrInsertWith", "option.go:Option.Take"]}
{"id": "C40", "title": "Option And/AndThen propagate None; Replace stores the value", "statement": "None.And(x) and None.AndThen(f) are None; o.Replace(v) returns the old o and leaves Some(v).", "quantifier": "every option value, argument and callback", "why_tests_cant": "quantifies over arbitrary callbacks", "anchors": ["option.go:Option.And", "option.go:Option.AndThen", "option.go:Option.Replace"]}
{"id": "C41", "title": "Result combinators obey the Result laws", "statement": "For results built by Ok(v) or Err(e) with non-nil e: exactly one of IsOk/IsErr holds; Map, MapErr, MapOr, And, AndThen, Or, OrElse, Unwrap*, Expect*, Eq and Clone behave as on an abstract sum, and the result of every combinator is again well formed.", "quantifier": "every result value and callback", "why_tests_cant": "quantifies over arbitrary callbacks and error values", "anchors": ["result.go:Result.Map", "result.go:Result.AndThen", "result.go:Result.OrElse", "result.go:Result.UnwrapOr"]}
{"id": "C42", "title": "If/ElseIf/Else selects the first true branch", "statement": "If(c0,v0).ElseIf(c1,v1)...Else(v) evaluates to the value of the first true condition, or v if none is true.", "quantifier": "every chain length, conditions and values", "why_tests_cant": "chains of any length", "anchors": ["syntax.go:If", "syntax.go:ElseIf", "syntax.go:Else"]}
{"id": "C43", "title": "Pair comparison is lexicographic and lawful", "statement": "If the component Cmps are total orders, Pair.Cmp is the lexicographic total order and Pair.Eq is componentwise equality, consistent with Cmp; Clone is componentwise.", "quantifier": "every pair of component orders and all triples of pairs", "why_tests_cant": "quantifies over arbitrary component orders", "anchors": ["pair.go:Pair.Cmp", "pair.go:Pair.Eq"]}
{"id": "C44", "title": "Assertions panic exactly when violated", "statement": "Assert(b) panics iff b is false; AssertEq(a,b) panics iff not a.Eq(b); AssertNe(a,b) panics iff a.Eq(b).", "quantifier": "every value and every Eq implementation", "why_tests_cant": "quantifies over arbitrary Eq implementations", "anchors": ["panic.go:Assert", "panic.go:AssertEq", "panic.go:AssertNe"]}
{"id": "C45", "title": "Vec push/pop/get/set/insert/append/clear refine a list", "statement": "For every sequence of Push, Pop, Append(other), Clear, Insert(i<=len), Set/SetUnchecked/Swap in range, Get, GetUnchecked, Len, IsEmpty on a Vec, the results and contents equal those of a mathematical list; out-of-range unchecked accesses panic and Get returns None.", "quantifier": "every history of operations and every element type", "why_tests_cant": "histories and sizes are unbounded", "anchors": ["vec.go:Vec.Push", "vec.go:Vec.Pop", "vec.go:Vec.Insert", "vec.go:Vec.Append", "vec.go:Vec.Get", "vec.go:Vec.Swap"]}
{"id": "C46", "title": "Vec Reserve only changes capacity", "statement": "After Reserve(n): contents are unchanged and Capacity >= Len + n.", "quantifier": "every vector, capacity and n", "why_tests_cant": "all growth policies and sizes", "anchors": ["vec.go:Vec.Reserve"]}
{"id": "C47", "title": "Vec Set out of range is not a panic", "statement": "Set(i, v) with i >= Len returns without panicking and leaves the vector unchanged (it returns the rejected value, as documented).", "quantifier": "every vector and index", "why_tests_cant": "all indices", "anchors": ["vec.go:Vec.Set"]}
{"id": "C48", "title": "Vec Retain keeps exactly the accepted elements in order", "statement": "Retain(f) leaves exactly the elements accepted by f, in the original order with multiplicity; Fill/FillWith set every element; Reverse reverses.", "quantifier": "every vector and predicate", "why_tests_cant": "arbitrary predicates and lengths", "anchors": ["vec.go:Vec.Retain", "vec.go:Vec.Fill", "vec.go:Vec.FillWith", "vec.go:Vec.Reverse"]}
{"id": "C49", "title": "Vec Dedup removes exactly consecutive repeats", "statement": "Dedup leaves the first element of every maximal run of equal elements, in order.", "quantifier": "every vector, every symmetric and transitive equality (it need not be reflexive)", "why_tests_cant": "run structure is unbounded", "anchors": ["vec.go:Vec.Dedup"]}
{"id": "C50", "title": "Vec DedupByKey removes exactly consecutive elements with equal keys", "statement": "DedupByKey(key) leaves the first element of every maximal run of elements with equal keys.", "quantifier": "every vector and key function", "why_tests_cant": "run structure and key functions are unbounded", "anchors": ["vec.go:Vec.DedupByKey"]}
{"id": "C51", "title": "Vec BinarySearch is correct on sorted vectors", "statement": "On a vector sorted by Cmp, BinarySearch(x) terminates without out-of-range access; it returns Some(i) with v[i] equal to x if x occurs, otherwise None. BinarySearchBy is correct for any comparator that partitions the vector into less, equal, greater.", "quantifier": "every sorted vector, element and lawful comparator", "why_tests_cant": "lengths unbounded; off-by-one errors show only at particular lengths", "anchors": ["vec.go:Vec.BinarySearch", "vec.go:Vec.BinarySearchBy"]}
{"id": "C52", "title": "Vec Sort yields a sorted stable permutation", "statement": "Sort/SortBy leave a permutation of the elements that is sorted and stable; SortUnstable(By) a sorted permutation (given the contract of the Go sort package).", "quantifier": "every vector and lawful comparator", "why_tests_cant": "lengths and comparators unbounded", "anchors": ["vec.go:Vec.Sort", "vec.go:Vec.SortBy", "vec.go:Vec.SortUnstable", "vec.go:Vec.SortUnstableBy"]}
{"id": "C53", "title": "Vec iterators yield each element once in order", "statement": "IntoIter().Next() repeatedly yields the elements in index order and then None forever; Map, Filter, Fold, Collect process exactly the elements not yet consumed, in order; the vector is unchanged.", "quantifier": "every vector, callback and consumption prefix", "why_tests_cant": "unbounded lengths and callbacks", "anchors": ["vec.go:VecIter.Next", "vec.go:VecIter.Map", "vec.go:VecIter.Filter", "vec.go:VecIter.Fold", "vec.go:VecIter.CollectToVec"]}
{"id": "C54", "title": "Vec iterator Rev reverses the remaining elements", "statement": "it.Rev() yields the not yet consumed elements in reverse order, whatever prefix was consumed.", "quantifier": "every vector and consumption prefix", "why_tests_cant": "the defect appears only after partial consumption", "anchors": ["vec.go:VecIter.Rev"]}
{"id": "C55", "title": "Vec Contains, Eq and Clone", "statement": "Contains(x) iff some element equals x; Eq iff same length and pairwise equal; Clone returns an equal vector whose later mutation never affects the original (and vice versa).", "quantifier": "every vector and history after cloning", "why_tests_cant": "histories after cloning are unbounded; aliasing", "anchors": ["vec.go:Vec.Contains", "vec.go:Vec.Eq", "vec.go:Vec.Clone"]}
{"id": "C56", "title": "VecDeque refines a double-ended queue", "statement": "For every history of PushFront, PushBack, PopFront, PopBack, Front, Back, Get, Set, Swap, Append(distinct), Reserve, Retain, Clear, Len, IsEmpty starting from VecDequeNew/WithCapacity/WithLen, all results equal those of a mathematical sequence; no index panics.", "quantifier": "every history, capacity and element type", "why_tests_cant": "the ring buffer wraps and grows at history-dependent points: head/len/capacity combinations are unbounded", "anchors": ["vec_deque.go:VecDeque.PushFront", "vec_deque.go:VecDeque.PushBack", "vec_deque.go:VecDeque.PopFront", "vec_deque.go:VecDeque.PopBack", "vec_deque.go:VecDeque._HandleCapacityIncrease", "vec_deque.go:VecDeque._WrapIndex"]}
{"id": "C57", "title": "VecDeque Reserve guarantees capacity", "statement": "After Reserve(n), contents are unchanged and Capacity() >= Len() + n.", "quantifier": "every deque state and every USize n", "why_tests_cant": "wrap-around of the 64-bit sum", "anchors": ["vec_deque.go:VecDeque.Reserve", "vec_deque.go:VecDeque._HandleCapacityIncrease"]}
{"id": "C58", "title": "VecDeque Dedup removes exactly consecutive repeats", "statement": "Dedup on a deque leaves the first element of each maximal run of equal elements, whatever the physical layout.", "quantifier": "every deque state, every symmetric and transitive equality (it need not be reflexive)", "why_tests_cant": "layout times run structure unbounded", "anchors": ["vec_deque.go:VecDeque.Dedup"]}
{"id": "C59", "title": "VecDeque AsSlice returns the logical contents", "statement": "AsSlice() contains exactly the deque's elements in order.", "quantifier": "every reachable deque", "why_tests_cant": "depends on the head position reached by the history", "anchors": ["vec_deque.go:VecDeque.AsSlice"]}
{"id": "C60", "title": "VecDeque Sort and BinarySearch act on the logical contents", "statement": "Sort/SortBy leave the deque logically sorted with the same elements; BinarySearch on a logically sorted deque finds x iff present, with a logical index.", "quantifier": "every reachable deque and lawful comparator", "why_tests_cant": "depends on the head position reached by the history", "anchors": ["vec_deque.go:VecDeque.Sort", "vec_deque.go:VecDeque.SortBy", "vec_deque.go:VecDeque.BinarySearch", "vec_deque.go:VecDeque.BinarySearchBy"]}
{"id": "C61", "title": "VecDeque iterators yield each element once in order", "statement": "IntoIter().Next() repeatedly yields the logical sequence then None; Map/Filter/Fold/Collect process exactly the not yet consumed elements; Rev reverses them.", "quantifier": "every reachable deque and consumption prefix", "why_tests_cant": "history-dependent layout and arbitrary consumption prefixes", "anchors": ["vec_deque.go:VecDequeIter.Next", "vec_deque.go:VecDequeIter.Rev", "vec_deque.go:VecDequeIter.Map"]}
{"id": "C62", "title": "VecDeque Contains, Fill, Eq, Clone act on the logical contents", "statement": "Contains(x) iff x is a logical element; Fill sets every element; Eq compares the logical sequences; Clone copies them into an independent deque.", "quantifier": "every reachable deque", "why_tests_cant": "layouts differ between equal deques", "anchors": ["vec_deque.go:VecDeque.Contains", "vec_deque.go:VecDeque.Fill", "vec_deque.go:VecDeque.Eq", "vec_deque.go:VecDeque.Clone"]}
{"id": "C63", "title": "LinkedList refines a list at both ends", "statement": "For every history of PushBack, PushFront, PopBack, PopFront, Front, Back, Append(distinct), Clear, Len, IsEmpty the results equal those of a mathematical list; forward and backward traversals agree; no nil dereference.", "quantifier": "every history over any number of lists", "why_tests_cant": "pointer structures reachable by unbounded histories", "anchors": ["linked_list.go:LinkedList.PushBack", "linked_list.go:LinkedList.PopFront", "linked_list.go:LinkedList.Append"]}
{"id": "C64", "title": "LinkedList Append moves everything and empties the other list", "statement": "a.Append(&b) leaves a with a's then b's elements and b empty, and later operations on b never affect a (and vice versa).", "quantifier": "every pair of reachable lists and every later history", "why_tests_cant": "aliasing of nodes between two lists", "anchors": ["linked_list.go:LinkedList.Append"]}
{"id": "C65", "title": "LinkedList iteration, Rev, Clone and Eq", "statement": "The iterator yields the elements in order; Map/Filter/Fold/Collect act on the remaining elements; Rev reverses; Clone is an equal independent list; Eq iff equal sequences.", "quantifier": "every list and consumption prefix", "why_tests_cant": "unbounded lengths; aliasing", "anchors": ["linked_list.go:LinkedListIter.Next", "linked_list.go:LinkedListIter.Rev", "linked_list.go:LinkedList.Clone", "linked_list.go:LinkedList.Eq"]}
{"id": "C66", "title": "BinaryHeap Pop returns a maximum", "statement": "For every history of Push, Pop and Clear on a BinaryHeap with a lawful Cmp: Pop returns None iff empty, else an element not less than any other element; Len counts elements; the multiset of contents changes only by the pushed/popped element.", "quantifier": "every history and every lawful order", "why_tests_cant": "heap shapes reachable by unbounded histories", "anchors": ["binary_heap.go:BinaryHeap.Push", "binary_heap.go:BinaryHeap.Pop", "binary_heap.go:BinaryHeap._SiftUp", "binary_heap.go:BinaryHeap._SiftDownToBottom"]}
{"id": "C67", "title": "BinaryHeap IntoSortedVec is a sorted permutation", "statement": "IntoSortedVec returns the elements of the heap in ascending order; IntoVec returns them in some order, a greatest first.", "quantifier": "every reachable heap and lawful order", "why_tests_cant": "unbounded heaps", "anchors": ["binary_heap.go:BinaryHeap.IntoSortedVec"]}
{"id": "C68", "title": "BinaryHeap Append merges the heaps", "statement": "a.Append(&b) leaves a with exactly a's and b's elements as a valid heap and leaves b empty.", "quantifier": "every pair of reachable heaps and capacities", "why_tests_cant": "depends on spare capacity and element values", "anchors": ["binary_heap.go:BinaryHeap.Append", "vec.go:Vec.Reserve"]}
{"id": "C69", "title": "HashMap refines a finite map", "statement": "For every history of Insert, Remove, Get, ContainsKey, Len, IsEmpty, Clear the results equal those of a mathematical finite map; Insert returns the previous value and Remove the removed value.", "quantifier": "every history and every key type with lawful equality", "why_tests_cant": "unbounded histories", "anchors": ["hash_map.go:HashMap.Insert", "hash_map.go:HashMap.Remove", "hash_map.go:HashMap.Get"]}
{"id": "C70", "title": "HashMap iteration yields each entry exactly once", "statement": "IntoIter/Keys/Values yield every entry exactly once for any internal iteration order; Clone is equal and independent; Eq iff same entries, whatever the iteration orders.", "quantifier": "every map and every iteration order Go may choose", "why_tests_cant": "Go randomises the order: tests see a few orders only", "anchors": ["hash_map.go:HashMap.IntoIter", "hash_map.go:HashMap.Eq", "hash_map.go:HashMap.Clone"]}
{"id": "C71", "title": "HashSet algebra", "statement": "Insert/Remove/Contains/Len/Get behave as a mathematical set; Union, Intersection, SymmetricDifference, IsSubset, IsSuperset, IsDisjoint, Eq compute the set-theoretic results, independent of iteration order.", "quantifier": "every pair of sets and every iteration order", "why_tests_cant": "unbounded sets and random iteration order", "anchors": ["hash_set.go:HashSet.Union", "hash_set.go:HashSet.Intersection", "hash_set.go:HashSet.SymmetricDifference", "hash_set.go:HashSet.IsSubset", "hash_set.go:HashSet.IsDisjoint"]}
{"id": "C72", "title": "BTreeMap refines an ordered finite map under insertion", "statement": "For every history of Insert, Get, ContainsKey, Len from an empty BTreeMap with lawful Cmp, results equal those of a mathematical finite map and nothing panics.", "quantifier": "every history and lawful key order", "why_tests_cant": "node splits happen only at particular sizes and key orders", "anchors": ["btree_map.go:BTreeMap.Insert", "btree_map.go:BTreeMap.Get", "btree_map.go:BTreeNode.splitChild"]}
{"id": "C73", "title": "BTreeMap has no capacity limit", "statement": "A BTreeMap accepts any number of distinct keys.", "quantifier": "every history of insertions of distinct keys", "why_tests_cant": "needs arbitrarily long histories", "anchors": ["btree_map.go:BTreeMap.Insert", "btree_map.go:BTreeNode.splitChild"]}
{"id": "C74", "title": "BTreeMap Remove removes the key and returns its value", "statement": "After Remove(k): the result is the old value of k (None if absent), k is no longer contained, all other entries are unchanged and Len drops by one iff k was present.", "quantifier": "every reachable map and key", "why_tests_cant": "position-dependent: removal of last/first/inner key differ", "anchors": ["btree_map.go:BTreeMap.Remove", "btree_map.go:BTreeNode._RemoveFromLeaf"]}
{"id": "C75", "title": "BTreeMap iteration is in ascending key order", "statement": "IntoIter, Keys and Values enumerate every entry exactly once in ascending key order.", "quantifier": "every reachable map", "why_tests_cant": "tree shapes reachable by unbounded histories", "anchors": ["btree_map.go:BTreeMap.IntoIter", "btree_map.go:BTreeNode._ToVec"]}
{"id": "C76", "title": "BTreeSet algebra", "statement": "Insert/Contains/Len behave as a mathematical set and Union, Intersection, SymmetricDifference, IsSubset, IsSuperset, IsDisjoint, Clone, Eq compute the set-theoretic results, including for empty operands.", "quantifier": "every pair of reachable sets", "why_tests_cant": "empty operands and large sets", "anchors": ["btree_set.go:BTreeSet.Union", "btree_set.go:BTreeSet.IsSubset", "btree_set.go:BTreeSet.IntoIter", "btree_set.go:BTreeSet.Clone"]}
{"id": "C77", "title": "Format substitutes placeholders and unescapes braces", "statement": "For a template made of brace-free text, {} placeholders, {{ and }}: Format returns the concatenation of the text, the Display of the successive parameters, '{' and '}'; it panics exactly when there are fewer parameters than placeholders.", "quantifier": "every well-formed template and parameter list", "why_tests_cant": "templates are unbounded strings; the scanner is a state machine", "anchors": ["io.go:Format"]}
{"id": "C78", "title": "String Push, Pop, Chars, Len are inverse and consistent", "statement": "Pop undoes Push and returns the pushed character; Chars enumerates the code points in order; IntoBytes/StringFromUTF8 round-trip.", "quantifier": "every string and character", "why_tests_cant": "unbounded strings; multi-byte boundaries", "anchors": ["string.go:String.Push", "string.go:String.Pop", "string.go:String.Chars"]}
{"id": "C79", "title": "Integer ToString and Parse round-trip", "statement": "For every integer value, ToString is its decimal numeral and the matching Parse function returns the value; Parse accepts only numerals of values in range.", "quantifier": "every integer value and every input string", "why_tests_cant": "2^64 values and unbounded strings", "anchors": ["to_string.go:USize.ToString", "string.go:String.ParseI64", "string.go:String.ParseU64"]}
{"id": "C80", "title": "StringFromUTF16 decodes every code unit", "statement": "StringFromUTF16 of the UTF-16 encoding of a string returns that string.", "quantifier": "every string", "why_tests_cant": "unbounded inputs", "anchors": ["string.go:StringFromUTF16"]}
{"id": "C81", "title": "Mutex gives mutual exclusion", "statement": "At most one goroutine is between a successful Lock/TryLock and Unlock; TryLock succeeds only when the mutex is free and never blocks; Unlock of a free mutex panics.", "quantifier": "every number of goroutines and every schedule", "why_tests_cant": "all interleavings", "anchors": ["sync.go:Mutex.Lock", "sync.go:Mutex.TryLock", "sync.go:Mutex.Unlock"]}
{"id": "C82", "title": "thread Join returns only after the task finished", "statement": "Join on a handle from Spawn(f) returns only after f has returned, in every schedule; if nobody else consumed the completion signal Join eventually can return.", "quantifier": "every schedule of spawner, task and joiners", "why_tests_cant": "all interleavings", "anchors": ["thread.go:Spawn", "thread.go:JoinHandle.Join"]}
{"id": "C83", "title": "thread Join and IsFinished can be combined freely", "statement": "After the task has finished, IsFinished returns true every time, and Join returns even if IsFinished was called before or Join was already called.", "quantifier": "every schedule and history of calls on the handle", "why_tests_cant": "all interleavings; the signal is consumed", "anchors": ["thread.go:JoinHandle.IsFinished", "thread.go:JoinHandle.Join"]}
{"id": "C84", "title": "gokio Await returns the task's value", "statement": "Await on a handle from gokio.Spawn(f) returns f's result, only after f finished; in every schedule at most one Await obtains the value from the task.", "quantifier": "every schedule and number of awaiters", "why_tests_cant": "all interleavings", "anchors": ["gokio/gokio.go:Spawn", "gokio/gokio.go:gokioFuture.Await"]}
{"id": "C85", "title": "fs Write then Read returns the data", "statement": "After a successful Write(path, data), Read(path) and ReadToString(path) return exactly data until the file is changed, whatever was in the file before, and other files are unaffected.", "quantifier": "every file-system state, path and contents", "why_tests_cant": "unbounded contents and states", "anchors": ["fs.go:Write", "fs.go:Read", "fs.go:ReadToString"]}
{"id": "C86", "title": "fs Copy makes an independent copy", "statement": "After a successful Copy(a, b), b has a's contents, Copy overwrites an existing b, and later writes to a do not change b.", "quantifier": "every file-system state and later history", "why_tests_cant": "aliasing between files needs a later history", "anchors": ["fs.go:Copy"]}
{"id": "C87", "title": "fs ReadDir lists each entry once with its type", "statement": "ReadDir returns exactly one item per directory entry, with the right name and file/dir/symlink type, and a path that leads to the entry.", "quantifier": "every directory, every path to it (with . and .. and over symbolic links)", "why_tests_cant": "unbounded directories and paths", "anchors": ["fs.go:ReadDir", "fs.go:FileType.IsDir"]}
{"id": "C88", "title": "Copies of an Option are independent", "statement": "Insert, GetOrInsert, Take and Replace on one option variable never change the value seen through any other option variable, even a copy made earlier; the pointer returned by Insert and GetOrInsert refers to the option's own content, so a write through it is seen by the option (and, after Insert, by no option made before).", "quantifier": "every heap, every pair of options (sharing storage or not), every value", "why_tests_cant": "aliasing patterns are unbounded; a test only looks at the variables it names", "anchors": ["option.go:Option.Insert", "option.go:Option.GetOrInsert", "option.go:Option.Take", "option.go:Option.Replace"]}
{"id": "C89", "title": "Copies of a Vec variable are independent", "statement": "After w := v, operations on v never change the elements of w and vice versa; two vectors made separately never influence each other.", "quantifier": "every heap, every pair of vectors, every interleaved history of operations on them", "why_tests_cant": "depends on spare capacity and on the interleaving of the operations through both variables", "anchors": ["vec.go:Vec.Push", "vec.go:Vec.Insert", "vec.go:Vec.Pop", "vec.go:Vec.Retain"]}
{"id": "C90", "title": "VecDeque Append terminates for every argument", "statement": "d.Append(o) returns for every pair of deque variables, including d itself as the argument.", "quantifier": "every deque and every argument, including aliased ones", "why_tests_cant": "non-termination cannot be observed by a test, and the loop bound changes while the loop runs", "anchors": ["vec_deque.go:VecDeque.Append"]}
{"id": "C91", "title": "Copies of a VecDeque variable are independent", "statement": "After e := d, operations on e do not change d and vice versa, for every history of operations on both; deques made by constructors or Clone never share storage.", "quantifier": "every deque and every interleaving of operations on two variables", "why_tests_cant": "sharing depends on which operation reallocates in which state", "anchors": ["vec_deque.go:VecDeque", "vec_deque.go:VecDeque.Set", "vec_deque.go:VecDeque.Clone"]}
{"id": "C92", "title": "LinkedList Append loses no element, also appended to itself", "statement": "After a.Append(&a) every element a had is still in a.", "quantifier": "every reachable list", "why_tests_cant": "aliased arguments of every list", "anchors": ["linked_list.go:LinkedList.Append"]}
{"id": "C93", "title": "Copies of a LinkedList variable are independent", "statement": "After b := a, operations on a do not change what iterating over b gives.", "quantifier": "every reachable list, every operation on the original", "why_tests_cant": "sharing of nodes depends on the operation and the length", "anchors": ["linked_list.go:LinkedList.PushBack", "linked_list.go:LinkedList.PopBack", "linked_list.go:LinkedListIter.Next"]}
{"id": "C94", "title": "BinaryHeap Reserve changes only the capacity", "statement": "heap.Reserve(n) leaves the contents and the results of all later operations unchanged and gives Capacity >= Len + n.", "quantifier": "every heap and n", "why_tests_cant": "depends on spare capacity and element values", "anchors": ["binary_heap.go:BinaryHeap.Reserve", "vec.go:Vec.Reserve"]}
{"id": "C95", "title": "HashMap finds what was inserted, for every comparable key and every map value", "statement": "After m.Insert(k, v), m.Get(k) is Some(v), for every k of a comparable type and every HashMap including the zero value.", "quantifier": "every comparable key type (floats and interfaces too), key and map", "why_tests_cant": "tests use integer keys and constructed maps", "anchors": ["hash_map.go:HashMap.Insert", "hash_map.go:HashMap.Get"]}
{"id": "C96", "title": "A copy of a HashMap shows what is done through the original", "statement": "After c := m every history of operations through m is visible through c.", "quantifier": "every map and history of operations", "why_tests_cant": "depends on which operations replace the underlying map", "anchors": ["hash_map.go:HashMap.Clear", "hash_map.go:HashMap.Insert", "hash_map.go:HashMap.Remove"]}
{"id": "C97", "title": "HashMap and HashSet iterator adapters act on the remaining elements", "statement": "On an iterator from which n elements were taken, Map, Filter, Fold, CollectToVec and Rev process exactly the remaining ones.", "quantifier": "every map, order of range, number of elements taken and callback", "why_tests_cant": "tests use fresh iterators", "anchors": ["hash_map.go:HashMapIter.CollectToVec", "hash_map.go:HashMapKeys.Rev", "hash_set.go:HashSetIter.CollectToVec"]}
{"id": "C98", "title": "BTreeMap Eq compares contents", "statement": "a.Eq(b) is true iff both maps have the same keys with equal values, whatever the order of insertion, and does not panic.", "quantifier": "every pair of maps", "why_tests_cant": "unbounded contents and insertion orders", "anchors": ["btree_map.go:BTreeMap.Eq"]}
{"id": "C99", "title": "String Find and Contains locate the first occurrence", "statement": "Find returns the byte position of the first occurrence, None iff there is none; Contains is true iff there is one.", "quantifier": "every string and pattern", "why_tests_cant": "unbounded strings and overlaps", "anchors": ["string.go:String.Find", "string.go:String.Contains"]}
{"id": "C100", "title": "String Split, Replace, Repeat", "statement": "Split gives the pieces between successive leftmost occurrences of the separator, which joined with it give the string; Replace replaces exactly those occurrences; Repeat(n) gives n copies for every n.", "quantifier": "every string, separator, replacement and count", "why_tests_cant": "unbounded strings and overlaps", "anchors": ["string.go:String.Split", "string.go:String.Replace", "string.go:String.Repeat"]}
{"id": "C101", "title": "Char ToString and Display give the character", "statement": "ToString (and Display, and Format of) a Char is the string consisting of that character.", "quantifier": "every character", "why_tests_cant": "1.1 million characters", "anchors": ["to_string.go:Char.ToString", "fmt.go:Char.Display"]}
{"id": "C102", "title": "A spawned goroutine ends when its function has returned", "statement": "The goroutine started by Spawn or gokio.Spawn ends after the function has returned, whether or not anybody joins or awaits it.", "quantifier": "every function and schedule", "why_tests_cant": "non-termination in every schedule", "anchors": ["thread.go:Spawn", "gokio/gokio.go:Spawn"]}
{"id": "C103", "title": "Copies of a Mutex exclude each other", "statement": "Goroutines that use a Mutex and a copy of it (assignment or passing by value), which refer to the same value, are not in their critical sections at the same time.", "quantifier": "every schedule and every update", "why_tests_cant": "needs a particular interleaving", "anchors": ["sync.go:MutexNew", "sync.go:Mutex.Lock"]}
{"id": "C104", "title": "fs Write is all or nothing", "statement": "A Write(path, data) that returns an error, or is interrupted by a crash, leaves the file with its old contents or with exactly data; other files do not change.", "quantifier": "every file-system state, path, contents, and point of failure", "why_tests_cant": "the failure point ranges over every system call and byte", "anchors": ["fs.go:Write"]}
{"id": "C105", "title": "fs RemoveFile removes files, RemoveDir removes empty directories", "statement": "RemoveFile removes exactly the named file and fails for directories; RemoveDir removes exactly the named empty directory and fails for anything else; a failed call changes nothing.", "quantifier": "every file-system state and path", "why_tests_cant": "unbounded states and paths", "anchors": ["fs.go:RemoveFile", "fs.go:RemoveDir"]}
{"id": "C106", "title": "fs Rename moves a file", "statement": "After a successful Rename(from, to), to is what from was, from does not exist any more, and other files are unaffected; a failed Rename changes nothing.", "quantifier": "every file-system state and pair of paths", "why_tests_cant": "unbounded states, hard links between the paths", "anchors": ["fs.go:Rename"]}
{"id": "C107", "title": "Display of Vec, VecDeque and LinkedList lists the elements", "statement": "Display (and Debug) of a Vec, VecDeque or LinkedList gives the name of the container, '[', the Display texts of the elements in order with ', ' in between, and ']'; every element is displayed exactly once, in order; it panics if an element cannot be displayed; if the texts of different elements are different, not empty and free of commas, different vectors have different texts.", "quantifier": "all containers of any length, all element types and Display methods (with effects and panics)", "why_tests_cant": "separators and order depend on the length, the wrap-around position of the deque and the node chain; tests try a few lengths", "anchors": ["vec.go:Vec.Display", "vec_deque.go:VecDeque.Display", "linked_list.go:LinkedList.Display", "fmt.go:castToDisplay"]}
{"id": "C108", "title": "Display of maps and sets lists each entry once", "statement": "Display of a HashMap, HashSet, BTreeMap or BTreeSet gives the name, '{', every entry exactly once ('key: value' for maps) with ', ' in between, and '}'; the B-tree containers list in ascending order of the keys.", "quantifier": "all maps and sets, iteration orders, key and value types and Display methods", "why_tests_cant": "must hold for every iteration order of Go maps and every tree shape, including the empty container", "anchors": ["hash_map.go:HashMap.Display", "hash_set.go:HashSet.Display", "btree_map.go:BTreeMap.Display", "btree_set.go:BTreeSet.Display", "io.go:Format"]}
{"id": "C109", "title": "Option, Result and Pair display, alone and inside other values", "statement": "Option displays as 'None' or 'Some(x)', Result as 'Ok(x)' or the text of the error, Pair as 'Pair[k, v]'; each of them can be displayed inside containers and by Format.", "quantifier": "all values, element types (interface types included), errors", "why_tests_cant": "whether a nested value displays depends on the type it is nested in, for all combinations of types", "anchors": ["option.go:Option.Display", "result.go:Result.Display", "pair.go:Pair.ToString", "pair.go:Pair.Display", "fmt.go:Display", "fmt.go:castToDisplay"]}
{"id": "C110", "title": "Types with a Debug method implement Debug", "statement": "Every library type implements the interface Debug; Debug of a primitive value is the name of its type and its text in parentheses.", "quantifier": "all types with a Debug method, all values", "why_tests_cant": "a statement about every type, and about use through the interface", "anchors": ["fmt.go:Debug", "fmt.go:I32.Debug", "vec.go:Vec.Debug", "pair.go:Pair.Debug"]}
{"id": "C111", "title": "Panic and failing assertions carry the formatted message", "statement": "Panic, and a failing Assert, AssertEq or AssertNe, panic with the message formatted with the arguments that follow it (AssertEq and AssertNe after the texts of the two values); assertions that hold do nothing.", "quantifier": "all messages (templates), arguments, values, Display methods", "why_tests_cant": "for every template and argument list; tests do not look at the message of a panic", "anchors": ["panic.go:Panic", "panic.go:Assert", "panic.go:AssertEq", "panic.go:AssertNe", "panic.go:Unimplemented", "panic.go:Unreachable", "panic.go:Todo"]}
{"id": "C112", "title": "Assignment operators store what the operator returns", "statement": "x.AddAssign(y), SubAssign, MulAssign, DivAssign and RemAssign leave in x exactly the value that x.Add(y), ... returns for the old x, change no other variable and panic exactly when the operator does, with x unchanged; the operators themselves are addition, subtraction and multiplication modulo 2^n and truncating division, and a sequence of AddAssign leaves the sum modulo 2^n.", "quantifier": "all operand types, all values, all pointers including nil and pointers to a variable whose value is also the argument, all sequences of assignments", "why_tests_cant": "The result depends on every pair of operands and on which variables alias; accumulated wrap-around only shows after arbitrarily many assignments.", "anchors": ["ops.go:Add", "ops.go:Sub", "ops.go:Mul", "ops.go:Div", "ops.go:Rem", "ops.go:AddAssign", "ops.go:SubAssign", "ops.go:MulAssign", "ops.go:DivAssign", "ops.go:RemAssign"]}
{"id": "C113", "title": "Sleep lasts at least the given duration", "statement": "Sleep(d) returns, and not before d has passed since the call.", "quantifier": "every Duration value, every call time", "why_tests_cant": "Durations range over 2^64 seconds; long ones cannot be waited for in a test.", "anchors": ["thread.go:Sleep"]}
{"id": "C114", "title": "ReadLine appends the next line of input", "statement": "stdin.ReadLine(&b) appends to b the next line of the input (without the newline) and leaves the input behind that line for the next call.", "quantifier": "every buffer content, every input, any number of calls", "why_tests_cant": "Inputs are unbounded and what a call leaves behind shows only in later calls.", "anchors": ["io.go:Stdin.ReadLine"]}
{"id": "C115", "title": "Print and Println write the formatted text", "statement": "Print writes exactly the text Format returns and Println that text and a newline, nothing if formatting panics; the lines that several goroutines print come out whole.", "quantifier": "all templates and parameters, all schedules of any number of goroutines printing any lists of lines", "why_tests_cant": "Mixed lines need a particular schedule.", "anchors": ["io.go:Print", "io.go:Println"]}
{"id": "C116", "title": "Stdin.Lock gives exclusive access", "statement": "After stdin.Lock() no other goroutine reads from stdin until the guard is released, and the goroutine that holds the guard can read.", "quantifier": "all programs around the call, all schedules", "why_tests_cant": "Exclusion and the absence of deadlock are statements about all schedules.", "anchors": ["io.go:Stdin.Lock", "io.go:Stdin.ReadLine"]}
{"id": "C117", "title": "AsRef refers to its receiver", "statement": "x.AsRef() is a pointer to x: changes of x are seen through it and changes made through it are seen in x.", "quantifier": "all types with AsRef, all values and later writes", "why_tests_cant": "Aliasing only shows under later writes, of any kind.", "anchors": ["convert.go:AsRef", "vec.go:Vec.AsRef", "option.go:Option.AsRef", "hash_map.go:HashMap.AsRef"]}
{"id": "C118", "title": "Floor, Ceil, Round, Trunc, Frac and Abs of floats are exact", "statement": "For every finite F32 or F64 x: Floor is the largest integer not above x, Ceil the smallest not below, Round the nearest with halves away from zero, Trunc the integer part, Frac is x minus its integer part, Abs the absolute value, all without rounding error; NaN stays NaN, infinities and signed zeros are kept (Abs drops the sign, Frac of an infinity is NaN).", "quantifier": "all finite and special values of F32 and F64", "why_tests_cant": "There are 2^32 and 2^64 values; that the conversion through float64 and back loses nothing holds only because each exact result is representable, which is an argument about all of them.", "anchors": ["float.go:F32.Floor", "float.go:F64.Floor", "float.go:F32.Ceil", "float.go:F64.Ceil", "float.go:F32.Round", "float.go:F64.Round", "float.go:F32.Abs", "float.go:F64.Abs", "float.go:F32.Trunc", "float.go:F64.Trunc", "float.go:F32.Frac", "float.go:F64.Frac"]}
{"id": "C119", "title": "Sqrt is the nearest float to the true square root", "statement": "For every positive finite F32 (F64) x, Sqrt returns the F32 (F64) nearest to the true square root of x; the root of a zero is that zero, of a negative number NaN.", "quantifier": "all values of F32 and F64", "why_tests_cant": "F32.Sqrt rounds twice (to float64 and to float32); that double rounding never shows needs a number-theoretic argument over all significands and exponents.", "anchors": ["float.go:F32.Sqrt", "float.go:F64.Sqrt"]}
{"id": "C120", "title": "Powi, Powf, Exp and logarithms round once and use the given exponent", "statement": "Exp, Exp2, Ln, Log2, Log10, Powf, Log and Powi of F64 return what package math returns for exactly these arguments, and those of F32 the F32 nearest to it; Powi(n) raises to the power n for every int n, in particular (-1).Powi(n) is 1 for even and -1 for odd n.", "quantifier": "all floats, all int exponents", "why_tests_cant": "The exponent is converted to float64, which is only exact for a subset of the 2^64 ints.", "anchors": ["float.go:F32.Powi", "float.go:F64.Powi", "float.go:F32.Powf", "float.go:F64.Powf", "float.go:F32.Exp", "float.go:F64.Exp", "float.go:F32.Exp2", "float.go:F64.Exp2", "float.go:F32.Ln", "float.go:F64.Ln", "float.go:F32.Log", "float.go:F64.Log", "float.go:F32.Log2", "float.go:F64.Log2", "float.go:F32.Log10", "float.go:F64.Log10"]}
{"id": "C121", "title": "Trim removes exactly the white space around a string", "statement": "For every String s, s is some white-space characters, then s.Trim(), then some white-space characters, and s.Trim() neither begins nor ends with a white-space character; white space is the Unicode property White_Space. Trim of a Trim changes nothing.", "quantifier": "all strings of bytes, valid UTF-8 or not", "why_tests_cant": "The set of strings is infinite, white-space characters are one to three bytes long, and bytes of invalid sequences must not be taken for white space from either end.", "anchors": ["string.go:String.Trim"]}
{"id": "C122", "title": "ToLowercase and ToUppercase map character by character", "statement": "For every text, ToLowercase (ToUppercase) replaces each character by its lower-case (upper-case) character and keeps their number and order; on ASCII text exactly A-Z (a-z) change, and ToLowercase after ToUppercase is ToLowercase, and vice versa. Bytes that are not valid UTF-8 become U+FFFD.", "quantifier": "all strings of bytes, all Unicode case tables that agree with ASCII", "why_tests_cant": "All strings of any length; characters of one to four bytes whose encoding may change its length.", "anchors": ["string.go:String.ToLowercase", "string.go:String.ToUppercase"]}
{"id": "C123", "title": "Copies of a BTreeMap or BTreeSet variable are independent", "statement": "After b := a, an Insert or a Remove through b does not change what Get, ContainsKey, Len and the iterators of a give.", "quantifier": "all maps and sets reached by a working history, all keys and values inserted through the copy, all keys removed through it", "why_tests_cant": "All contents and all keys; what happens depends on whether the map is empty, the key is present, the root is full (eleven keys), and on where the removed key stands.", "anchors": ["btree_map.go:BTreeMap.Insert", "btree_map.go:BTreeMap.Remove", "btree_map.go:BTreeMap.Get", "btree_map.go:BTreeMap.Len", "btree_map.go:BTreeMap.Keys", "btree_set.go:BTreeSet.Insert", "btree_set.go:BTreeSet.Remove"]}
{"id": "C124", "title": "Copies of a BinaryHeap variable are independent", "statement": "After c := b, Push and Pop through b do not change the contents of c, and elements pushed through the two variables do not displace each other.", "quantifier": "all heaps, capacities, elements and total orders", "why_tests_cant": "Depends on the spare capacity, which grows by an unspecified rule, and on where the new element is sifted to; all contents and orders.", "anchors": ["binary_heap.go:BinaryHeap.Push", "binary_heap.go:BinaryHeap.Pop", "vec.go:Vec.Push", "vec.go:Vec.Pop"]}
{"id": "C125", "title": "BinaryHeap appended to itself", "statement": "b.Append(&b), and b.Append(&c) for a copy c of b, push each element of b once more: every element is then there twice as often.", "quantifier": "all heaps with room in their array, all total orders", "why_tests_cant": "The loop reads the array while Push moves its elements; which elements are read depends on size and order of all of them.", "anchors": ["binary_heap.go:BinaryHeap.Append", "binary_heap.go:BinaryHeap.Push"]}
{"id": "C126", "title": "File functions of gokio, awaited one after another", "statement": "A program that calls the file functions of gokio and awaits each future before it goes on gets the results that the functions of gost of the same names give when called in that order, and the file system ends the same; it never hangs, and once all futures are awaited no goroutine stays behind.", "quantifier": "all programs (each next call may depend on all earlier results), all file systems, all failures of system calls, all schedules", "why_tests_cant": "Every call runs on its own goroutine; all interleavings with the goroutines of earlier calls, and all programs, cannot be run.", "anchors": ["gokio/fs.go:CreateDir", "gokio/fs.go:RemoveDir", "gokio/fs.go:Write", "gokio/fs.go:RemoveFile", "gokio/fs.go:Rename", "gokio/fs.go:Read", "gokio/fs.go:ReadDir", "gokio/fs.go:Copy", "gokio/fs.go:ReadToString", "gokio/gokio.go:Spawn", "gokio/gokio.go:Await"]}
{"id": "C127", "title": "Clone of nested values", "statement": "Clone of a value nested from the types of the package (a HashMap of Vecs of Options, say) returns a value that is equal to the original and shares nothing with it: nothing done to one shows in the other.", "quantifier": "all types built from the primitive types with Option, Result, Pair, Vec, VecDeque, LinkedList, HashMap, HashSet, BTreeMap and BTreeSet to any depth, all values, all ways values can share memory, all map orders", "why_tests_cant": "Types and values nest without bound; sharing shows only after later changes at any place inside.", "anchors": ["clone.go:Clone", "clone.go:castToClone", "option.go:Option.Clone", "result.go:Result.Clone", "pair.go:Pair.Clone", "vec.go:Vec.Clone", "vec_deque.go:VecDeque.Clone", "linked_list.go:LinkedList.Clone", "hash_map.go:HashMap.Clone", "hash_set.go:HashSet.Clone", "btree_set.go:BTreeSet.Clone"]}
{"id": "C128", "title": "Eq of nested values", "statement": "Eq of two values nested from the types of the package says whether they have the same contents; a value and its clone are Eq.", "quantifier": "all nested types, all pairs of values, all ways they can share memory, all map orders", "why_tests_cant": "Types and values nest without bound; maps are visited in any order.", "anchors": ["cmp.go:Eq", "cmp.go:castToEq", "option.go:Option.Eq", "result.go:Result.Eq", "pair.go:Pair.Eq", "vec.go:Vec.Eq", "vec_deque.go:VecDeque.Eq", "linked_list.go:LinkedList.Eq", "hash_map.go:HashMap.Eq", "hash_set.go:HashSet.Eq", "btree_set.go:BTreeSet.Eq", "btree_map.go:BTreeMap.Eq"]}
{"id": "C129", "title": "CollectToLinkedList of map and set iterators", "statement": "CollectToLinkedList of an iterator of a HashMap, HashSet, BTreeMap or BTreeSet, from which n elements have been taken, returns a new LinkedList of the remaining elements in the order of the iterator and leaves all other lists alone.", "quantifier": "all HashMaps and HashSets and all orders of iteration; all BTreeMaps, and all BTreeSets with elements, that hold what was put in (C72, C76); all n; all programs with any number of other lists", "why_tests_cant": "All contents, orders and numbers of elements taken, and all other lists of a program, cannot be tried.", "anchors": ["hash_map.go:HashMapIter.CollectToLinkedList", "hash_map.go:HashMapKeys.CollectToLinkedList", "hash_map.go:HashMapValues.CollectToLinkedList", "hash_set.go:HashSetIter.CollectToLinkedList", "btree_map.go:BTreeMapIter.CollectToLinkedList", "btree_map.go:BTreeMapKeys.CollectToLinkedList", "btree_map.go:BTreeMapValues.CollectToLinkedList", "btree_set.go:BTreeSetIter.CollectToLinkedList", "linked_list.go:LinkedList.PushBack"]}
{"id": "C130", "title": "Floating-point texts identify their numbers", "statement": "ParseF64 of x.ToString() is Ok(x) for every F64 x, NaN, infinities and signed zeros included; different F64, F32 and complex numbers have different texts; integral numbers below 2^53 (F64) and 2^24 (F32) are written as plain integers. ParseF64 of a decimal text gives the F64 nearest to the number written (ties to even), an error exactly when that number is too large for an F64, and an error for texts that are no number (texts with an underscore or a hexadecimal prefix are not covered).", "quantifier": "every F32, F64 and complex number; every text; every choice of shortest digits by the formatter", "why_tests_cant": "There are 2^64 numbers and infinitely many texts; rounding errors and ties show only on rare ones.", "anchors": ["to_string.go:F32.ToString", "to_string.go:F64.ToString", "to_string.go:Complex64.ToString", "to_string.go:Complex128.ToString", "string.go:String.ParseF64"]}
{"id": "C131", "title": "The directories remain a tree", "statement": "Whatever sequence of CreateDir, Write, Copy, RemoveFile, RemoveDir and Rename a program makes, and whichever of the calls fail, the directories remain a tree: every directory has one name, in the directory that is its parent, there are no cycles, and no directory is reached by two paths; and nothing is detached: a file or directory that was below the root is still there afterwards, unless one of the calls removed it or renamed something else to its name.", "quantifier": "every file system whose directories are a tree, and every history of calls with any failures", "why_tests_cant": "unbounded trees and histories; renames of directories into one another", "anchors": ["fs.go:CreateDir", "fs.go:Write", "fs.go:Copy", "fs.go:RemoveFile", "fs.go:RemoveDir", "fs.go:Rename"]}
{"id": "C132", "title": "A BinaryHeap survives comparisons that panic", "statement": "If Cmp panics during a method of a BinaryHeap and the program recovers, no element is lost or added twice, Len, IsEmpty and AsSlice are right, no later method loops for ever or indexes out of range, and, as the documentation promises, later Pops still return greatest elements.", "quantifier": "every Cmp method (with effects, panics at any call, contradictory answers), every history of Push, Pop, Clear, Len, IsEmpty and AsSlice in which every panic is recovered; Append and IntoSortedVec on every heap", "why_tests_cant": "a comparison can panic at any point of any history; all heaps, orders and panic points cannot be tried", "anchors": ["binary_heap.go:BinaryHeap.Push", "binary_heap.go:BinaryHeap.Pop", "binary_heap.go:BinaryHeap.Append", "binary_heap.go:BinaryHeap.IntoSortedVec", "binary_heap.go:_SiftUp", "binary_heap.go:_SiftDownToBottom", "binary_heap.go"]}
{"id": "C133", "title": "Vec and VecDeque survive callbacks that panic", "statement": "If the predicate, key function, Eq method or generator passed to Retain, DedupByKey, Dedup or FillWith panics and the program recovers, the Vec or VecDeque is as it was before the call (FillWith: filled exactly up to the call that panicked), and a Vec.Insert that panics leaves the Vec as it was.", "quantifier": "every vector, every deque in every layout, every callback with any effects that panics at any call", "why_tests_cant": "the callback can panic at any element of any contents and layout", "anchors": ["vec.go:Vec.Retain", "vec.go:Vec.DedupByKey", "vec.go:Vec.FillWith", "vec.go:Vec.Insert", "vec_deque.go:VecDeque.Retain", "vec_deque.go:VecDeque.Dedup", "vec_deque.go:VecDeque.FillWith"]}
{"id": "C134", "title": "WrappingDiv is division modulo 2^n", "statement": "For the ten fixed-width types: a.WrappingDiv(b) is the unique value of the type congruent modulo 2^n to the quotient of a and b truncated toward zero (so MIN.WrappingDiv(-1) is MIN); it panics exactly for b = 0.", "quantifier": "every pair of values of the type", "why_tests_cant": "2^128 pairs for 64 bits; the only quotient that does not fit is one pair", "anchors": ["ops.go:I8.WrappingDiv", "ops.go:U8.WrappingDiv"]}
{"id": "C135", "title": "Vec Append loses no element, also appended to itself", "statement": "After v.Append(&v) every element v had is still in v.", "quantifier": "every vector", "why_tests_cant": "aliased arguments of every vector", "anchors": ["vec.go:Vec.Append"]}
{"id": "C136", "title": "MIN and MAX constants bound every value of their type", "statement": "For every integer type T (U8 ... U128, USize, I8 ... I128, ISize), no value x has T_MIN.Cmp(x) = Greater or x.Cmp(T_MAX) = Greater, no other value has this property, and one more than T_MAX (Add) is T_MIN, one less than T_MIN (Sub) is T_MAX.", "quantifier": "every value of every integer type", "why_tests_cant": "the bound is a statement about all 2^64 or 2^128 values of a type", "anchors": ["const.go:U8_MIN", "const.go:U128_MAX", "const.go:I128_MIN", "const.go:ISize_MAX", "cmp.go:I128.Cmp"]}
{"id": "C137", "title": "F32 and F64 arithmetic is correctly rounded", "statement": "Add, Sub, Mul and Div of F32 and F64 (and Add, Sub of the parts of complex numbers) return the number of the type nearest to the exact result, the even one in a tie, the infinity of its sign exactly from half a last place beyond the largest finite number on; hence results that are representable are exact (integers up to 2^24 or 2^53, differences of numbers within a factor of two of each other), x.Sub(y) is zero exactly if x and y are equal, Add and Mul are commutative, all four are monotone, x.Div(0) is an infinity or NaN and never a panic; NaN arises exactly from NaN, Inf-Inf, 0*Inf, 0/0, Inf/Inf. AddAssign, SubAssign, MulAssign and DivAssign leave that result in the variable.", "quantifier": "every pair (for monotonicity: triple) of numbers of the format, including zeros of both signs, subnormal numbers, infinities and NaN", "why_tests_cant": "2^64 (F32) and 2^128 (F64) pairs of operands; rounding errors show at few of them", "anchors": ["ops.go:F32.Add", "ops.go:F64.Add", "ops.go:F32.Sub", "ops.go:F64.Sub", "ops.go:F32.Mul", "ops.go:F64.Mul", "ops.go:F32.Div", "ops.go:F64.Div", "ops.go:Complex64.Add", "ops.go:Complex128.Sub", "ops.go:F64.AddAssign"]}
{"id": "C138", "title": "An iterator is not disturbed by changes of its container", "statement": "An iterator obtained from a Vec, VecDeque or LinkedList with IntoIter gives the elements the container had at that moment, in order, and then None, whatever is done to the container between the calls of Next; in particular a loop over it ends, no call of Next panics, and the container behaves as if there were no iterator.", "quantifier": "every container, every history of operations on it mixed with calls of Next on an iterator taken before", "why_tests_cant": "whether a change is seen depends on spare capacity, on the order of pops and pushes and on how far the iterator has got; there are infinitely many interleavings.", "anchors": ["vec.go:VecIter.Next", "vec.go:Vec.IntoIter", "vec_deque.go:VecDequeIter.Next", "vec_deque.go:VecDeque.IntoIter", "linked_list.go:LinkedListIter.Next", "linked_list.go:LinkedList.IntoIter"]}
{"id": "C139", "title": "A BTreeMap survives comparisons that panic", "statement": "If the Cmp method of a key panics during Insert, Remove, Get or ContainsKey of a BTreeMap and the caller recovers, the map is as it was before the call: the same Len, the same answers of Get and ContainsKey, the same sequences from IntoIter and Keys, and the same behaviour of every later call. A call whose comparisons all return does what it does with a Cmp that never panics.", "quantifier": "every BTreeMap reached by a history of operations, every key, every Cmp method (with any state of its own) whose answers, when it gives one, are those of a total order, and every comparison at which it may panic", "why_tests_cant": "the outcome depends on the layout of the tree and on which of the comparisons of one call panics; there are as many cases as pairs of a tree and a comparison.", "anchors": ["btree_map.go:BTreeMap.Insert", "btree_map.go:BTreeMap.Remove", "btree_map.go:BTreeMap.Get", "btree_map.go:BTreeMap.ContainsKey", "btree_map.go:BTreeNode._InsertNonFull", "btree_map.go:BTreeNode.splitChild", "btree_map.go:BTreeNode._Search", "btree_map.go:BTreeNode._Remove"]}
{"id": "C140", "title": "BinarySearch and BinaryHeap compare logarithmically often", "statement": "BinarySearchBy on a Vec or VecDeque of n elements calls its callback at most floor(log2 n) + 1 times (never if n = 0). On a BinaryHeap of n elements Push calls Cmp at most floor(log2 (n + 1)) times, Pop at most 2 floor(log2 n) times, Append of m elements at most m floor(log2 (2 (n + m))) times, and IntoSortedVec at most 2 n floor(log2 n) times. This holds whatever the comparison answers and whether or not it panics.", "quantifier": "every Vec, VecDeque and BinaryHeap of every size, every callback or Cmp method with any state of its own", "why_tests_cant": "a bound for all sizes; a test sees the number of calls for the sizes and the answers it tries only.", "anchors": ["vec.go:Vec.BinarySearchBy", "vec_deque.go:VecDeque.BinarySearchBy", "binary_heap.go:BinaryHeap.Push", "binary_heap.go:BinaryHeap.Pop", "binary_heap.go:BinaryHeap.Append", "binary_heap.go:BinaryHeap.IntoSortedVec"]}
{"id": "C141", "title": "Vectors taken out of an iterator or a heap belong to the caller", "statement": "The vector that CollectToVec of an iterator, or IntoVec of a BinaryHeap, returns shares nothing with what it came from: whatever is done to it changes neither what the iterator gives later, nor another collected vector, nor the heap; and using the iterator, the original vector or the heap afterwards does not change it. For a VecIter it holds the elements not yet given.", "quantifier": "every iterator at every position, every heap, every history of operations on the returned vector mixed with uses of the source", "why_tests_cant": "sharing shows only for certain orders of writes and depends on spare capacity; the histories are unbounded.", "anchors": ["vec.go:VecIter.CollectToVec", "hash_map.go:HashMapIter.CollectToVec", "hash_map.go:HashMapKeys.CollectToVec", "hash_map.go:HashMapValues.CollectToVec", "hash_set.go:HashSetIter.CollectToVec", "btree_map.go:BTreeMapIter.CollectToVec", "btree_map.go:BTreeMapKeys.CollectToVec", "btree_map.go:BTreeMapValues.CollectToVec", "btree_set.go:BTreeSetIter.CollectToVec", "binary_heap.go:BinaryHeap.IntoVec", "binary_heap.go:BinaryHeap.AsSlice"]}
{"id": "C142", "title": "Write and Read of a file at the same time act one after another", "statement": "Write(path, data) and Read(path) calls that overlap (on goroutines, or through the futures of gokio) behave as if they ran one after another: once all are done the file holds exactly the data of one of the Writes, each of which reports success, and every Read gives the old contents or the data of one of the Writes, never an empty, cut, padded or mixed one and no error.", "quantifier": "every file-system state, any number of calls to any files, every interleaving of their system calls, every contents and length", "why_tests_cant": "the outcome depends on the moment of each system call; a test sees a few of the schedules", "anchors": ["fs.go:Write", "fs.go:Read", "fs.go:ReadToString", "gokio/fs.go:Write", "gokio/fs.go:Read", "gokio/fs.go:ReadToString"]}
{"id": "C143", "title": "Join and Await tell of a task that did not finish", "statement": "If the function given to Spawn panics or ends its goroutine (runtime.Goexit), Join returns an error (its result type has one) and does not report success, IsFinished does not say true before, Await returns no value the function has not produced, and the rest of the program goes on.", "quantifier": "every moment at which the function ends, any number of goroutines with any calls of Join, IsFinished and Await, every schedule", "why_tests_cant": "which of the goroutines still run, and what they are told, depends on the schedule; a panic kills the test itself", "anchors": ["thread.go:Spawn", "thread.go:JoinHandle.Join", "thread.go:JoinHandle.IsFinished", "gokio/gokio.go:Spawn", "gokio/gokio.go:Await"]}
{"id": "C144", "title": "fs functions succeed exactly when they can", "statement": "If the system does not fail: Read and ReadToString succeed exactly for files; Write exactly if the name is free or a file's; CreateDir exactly if the name is free; RemoveFile and RemoveDir exactly if there is something under the name that is not a directory with entries; ReadDir exactly for directories; Copy exactly if the source is there and not a directory and the target's name is free; Rename exactly if the source is there, and the target's name is free and not inside the source, or neither is a directory. Otherwise, and whenever a directory on the way does not exist, the result is an error and nothing changes.", "quantifier": "every file-system state and path (pairs of paths for Copy and Rename)", "why_tests_cant": "unbounded states; every error path needs its own state", "anchors": ["fs.go:Read", "fs.go:ReadToString", "fs.go:Write", "fs.go:CreateDir", "fs.go:RemoveFile", "fs.go:RemoveDir", "fs.go:ReadDir", "fs.go:Copy", "fs.go:Rename"]}
{"id": "C145", "title": "Products and quotients of complex numbers", "statement": "For finite numbers: each part of a Complex128 product is the rounded difference (sum) of the rounded products of the parts; a Complex64 product is the exact product, each part rounded to float64 and then to float32, and never NaN; products of numbers with integer parts are exact up to 2^53 (2^24); Mul is commutative for all values, 1 is neutral, I turns by a right angle, and a product with the conjugate is real. Division by a real or an imaginary number divides the parts, correctly rounded; division by any other number has a relative error, as a complex number, of at most 2^-50 for parts between 2^-200 and 2^200 (for Complex64: always, before the rounding to float32); division by zero does not panic but gives infinite or NaN parts; an infinite number divided by a finite one is infinite, a finite one divided by an infinite one is zero; a number divided by itself is 1. Results are numbers of the format, and the assignment operators store them.", "quantifier": "all pairs of Complex64 or Complex128 values, special values included", "why_tests_cant": "2^128 or 2^256 pairs; rounding and overflow cases are rare", "anchors": ["ops.go:Complex64.Mul", "ops.go:Complex128.Mul", "ops.go:Complex64.Div", "ops.go:Complex128.Div", "ops.go:Complex64.MulAssign", "ops.go:Complex128.MulAssign", "ops.go:Complex64.DivAssign", "ops.go:Complex128.DivAssign"]}
{"id": "C146", "title": "Sorting keeps the elements whatever the comparison does", "statement": "Vec.Sort, SortBy, SortUnstable, SortUnstableBy and their VecDeque versions never lose or duplicate an element: whether the comparison answers inconsistently, has side effects, or panics at any call (and the program recovers), the container holds the same elements afterwards, a panic is the comparison's own, and a comparison that never panics makes the sort return. If the answers are those of a lawful order and the sort returns, the result is sorted (and the stable versions keep the order of equal elements), also when the comparison has effects. Elements without a Cmp method make Sort and SortUnstable panic as soon as there are two of them.", "quantifier": "every vector, every deque in every layout, every comparison function with any effects, answers and panics at any call, every order of comparisons and exchanges that package sort may choose", "why_tests_cant": "the comparison can panic or contradict itself at any of its calls, on any contents; which calls happen depends on the sorting algorithm", "anchors": ["vec.go:Vec.Sort", "vec.go:Vec.SortBy", "vec.go:Vec.SortUnstable", "vec.go:Vec.SortUnstableBy", "vec_deque.go:VecDeque.Sort", "vec_deque.go:VecDeque.SortBy", "vec_deque.go:VecDeque.SortUnstable", "vec_deque.go:VecDeque.SortUnstableBy"]}
{"id": "C147", "title": "A BTreeMap never invents entries and can always be read, after any history", "statement": "After any sequence of BTreeMap calls on any number of map variables that return (Insert, Remove, Clear, Get, ContainsKey, Len, IsEmpty, assignments of one map variable to another), with any number of keys and any Cmp, Get, ContainsKey, IntoIter, Keys and Values return without panicking, Get and ContainsKey agree, the iterations come to an end, and they give only keys and values that were passed to Insert, a value only together with its own or an equal key. With a lawful Cmp a value returned by Get, or as the replaced value by Insert, was inserted for an equal key; a value returned by Remove was inserted. For BTreeSet the same holds for Insert, Remove, Clear, Intersection, Union, SymmetricDifference and assignments: Contains always returns and is true only for elements equal to inserted ones, IntoIter gives only inserted elements or dereferences nil on a set without root.", "quantifier": "all sequences of calls that return, on any number of variables of maps and sets that share nodes after assignments, all keys, values and comparison functions", "why_tests_cant": "The map loses entries and mixes up its counters in many histories, so what still holds has to be an invariant of every reachable state, including the broken ones.", "anchors": ["btree_map.go:Insert", "btree_map.go:Remove", "btree_map.go:Get", "btree_map.go:ContainsKey", "btree_map.go:IntoIter", "btree_map.go:Keys", "btree_map.go:Values", "btree_map.go:splitChild", "btree_map.go:_InsertNonFull", "btree_map.go:_Remove", "btree_map.go:_Fill", "btree_map.go:_Merge", "btree_map.go:_BorrowFromPrev", "btree_map.go:_BorrowFromNext", "btree_set.go:Insert", "btree_set.go:Remove", "btree_set.go:Contains", "btree_set.go:IntoIter", "btree_set.go:Intersection", "btree_set.go:Union", "btree_set.go:SymmetricDifference"]}
{"id": "C148", "title": "A BTreeMap can still be read after a recovered panic of Insert or Remove", "statement": "A program that recovers the panics of BTreeMap calls, whether Insert or Remove panicked by itself or Cmp did, and goes on with the same map finds in it no entry that was never given: whatever was called before on any number of map variables, Get and ContainsKey leave the entries as they are and panic only when Cmp does, IntoIter, Keys and Values come to an end and give only keys and values that were passed to Insert, a value only with its own key or one that Cmp called equal. With an ordering that Cmp follows whenever it returns, a value that Get returns, or Insert as the replaced one, was given to Insert for an equal key; a value that Remove returns was given. And a call that panics takes no entry of another key away.", "quantifier": "all sequences of Insert, Remove, Clear, Get, ContainsKey, Len, IsEmpty and assignments on any number of map variables, each returning or panicking at any point and recovered, all keys and values, all comparison functions with any state and any panics", "why_tests_cant": "A panic can fall between any two writes to the nodes, in any reachable shape of the tree, and Cmp can panic at any of its calls; tests see a few such points.", "anchors": ["btree_map.go:Insert", "btree_map.go:Remove", "btree_map.go:Get", "btree_map.go:ContainsKey", "btree_map.go:IntoIter", "btree_map.go:Keys", "btree_map.go:Values", "btree_map.go:Clear", "btree_map.go:splitChild", "btree_map.go:_InsertNonFull", "btree_map.go:_Remove", "btree_map.go:_RemoveFromLeaf", "btree_map.go:_RemoveFromNonLeaf", "btree_map.go:_Fill", "btree_map.go:_Merge", "btree_map.go:_BorrowFromPrev", "btree_map.go:_BorrowFromNext", "btree_map.go:_Search"]}
{"id": "C149", "title": "What a BTreeMap does depends on the answers of Cmp only", "statement": "If the answer of Cmp depends on the two keys alone, nothing else that Cmp does (counting, logging, caching, any state of its own) changes what a program with BTreeMaps sees: every call returns the same result, leaves the same maps and panics with the same panic as with a Cmp without effects, until a call panics. If Cmp itself may panic, then a call panics with that panic or does what it does with a Cmp that returns.", "quantifier": "all sequences of Insert, Remove, Get, ContainsKey, Len, IsEmpty, Clear and assignments on any number of map variables, all keys and values, all functions Cmp with any state, whose answers are those of any function of the two keys, transitive or not", "why_tests_cant": "It compares two programs over all histories and all effects of Cmp; a test sees one Cmp and one history.", "anchors": ["btree_map.go:Insert", "btree_map.go:Remove", "btree_map.go:Get", "btree_map.go:ContainsKey", "btree_map.go:_Search", "btree_map.go:splitChild", "btree_map.go:_InsertNonFull", "btree_map.go:_Remove", "btree_map.go:_RemoveFromLeaf", "btree_map.go:_RemoveFromNonLeaf", "btree_map.go:_Fill", "btree_map.go:_Merge", "btree_map.go:_BorrowFromPrev", "btree_map.go:_BorrowFromNext"]}
{"id": "C150", "title": "A collection that was only declared is an empty collection", "statement": "The zero value of Vec, VecDeque, LinkedList, BinaryHeap, HashMap, HashSet, BTreeMap and BTreeSet (var c T, T{}, an element of VecWithLen) can be used without a constructor: every history of calls on it returns what it returns on an empty collection and never panics.", "quantifier": "all histories of calls on the zero value, all elements, keys and values", "why_tests_cant": "The tests call the constructors; which histories work on a zero value depends on which call comes first, and there is no bound on their length.", "anchors": ["vec_deque.go:VecDeque", "vec_deque.go:PushBack", "vec_deque.go:PushFront", "vec_deque.go:Reserve", "vec_deque.go:Append", "vec_deque.go:Clear", "vec_deque.go:_Grow", "hash_map.go:HashMap", "hash_map.go:Insert", "hash_map.go:Clear", "hash_set.go:HashSet", "hash_set.go:Insert", "hash_set.go:Clear", "vec.go:Vec", "linked_list.go:LinkedList", "binary_heap.go:BinaryHeap", "btree_map.go:BTreeMap", "btree_set.go:BTreeSet"]}
{"id": "C151", "title": "Eq of two Results compares their contents", "statement": "For Results r and t that hold a value or an error, r.Eq(t) returns, and it is true exactly if both hold values that are Eq or both hold errors that are equal; in particular r.Eq(r) is true whenever the held value is Eq to itself.", "quantifier": "all pairs of Results, all element Eq functions, all dynamic error types, comparable or not, and all errors of them", "why_tests_cant": "whether Go's == on errors returns depends on the dynamic types of both errors; tests compare errors of one comparable type", "anchors": ["result.go:Result.Eq", "result.go:Err", "result.go:Ok"]}
{"id": "C152", "title": "A function passed to Retain, DedupByKey or SortBy may use the container", "statement": "A predicate, key function or comparison may itself use the container whose method calls it. If it only looks, it sees the elements the container had (when sorting: a permutation of them), and the method does what it does without the looking. If it changes the container, the change is not lost, and the method still calls it for every element that was there and keeps exactly the accepted ones.", "quantifier": "all vectors (shared arrays and spare capacity included), all deques, all functions that look at the container and call its methods in any order, with any state of their own", "why_tests_cant": "unboundedly many functions and interleavings of their calls with the method's own steps; the effect depends on the spare capacity", "anchors": ["vec.go:Vec.Retain", "vec.go:Vec.DedupByKey", "vec.go:Vec.SortBy", "vec.go:Vec.SortUnstableBy", "vec_deque.go:VecDeque.Retain"]}
{"id": "C153", "title": "Spawning workers that share a Mutex, waiting for all of them and reading the value", "statement": "A program that makes a Mutex, starts any number of threads (thread.Spawn) and tasks (gokio.Spawn) that work on the value in critical sections, waits for all of them (Join, Await) in any order and then locks and reads the value never panics, never gets stuck and comes to an end; each Await gives the result of its task; the value read is that left by all critical sections, each executed exactly once and as a whole and those of one worker in their order, so that with commuting updates it does not depend on the schedule.", "quantifier": "all numbers of workers, kinds of workers, critical sections, updates, initial values, orders of waiting and schedules", "why_tests_cant": "unboundedly many workers and schedules; a lost update or a signal sent too early shows only under rare interleavings", "anchors": ["sync.go:Mutex.Lock", "sync.go:Mutex.Unlock", "thread.go:Spawn", "thread.go:JoinHandle.Join", "gokio/gokio.go:Spawn", "gokio/gokio.go:gokioFuture.Await"]}
{"id": "C154", "title": "Tasks that spawn and await tasks compute the sequential value", "statement": "A program of gokio tasks in which every task may spawn further tasks, await the futures it holds, each at most once and in any order, and go on depending on the results, never panics, never gets stuck and comes to an end under every schedule; its result is that of calling every spawned function directly. If every task awaits all its futures, all goroutines end; otherwise only the unawaited ones stay behind.", "quantifier": "all programs of tasks (any depth and number of tasks, also depending on results), all orders of awaiting, all schedules", "why_tests_cant": "unboundedly deep trees of tasks and exponentially many schedules; a deadlock or a zero result shows only under rare interleavings", "anchors": ["gokio/gokio.go:Spawn", "gokio/gokio.go:gokioFuture.Await"]}
{"id": "C155", "title": "Every Result is Ok or Err", "statement": "Exactly one of IsOk and IsErr holds for every Result a program can make with Ok, Err, the methods of Result and variable declarations; so one of Unwrap and UnwrapErr succeeds, Or and OrElse give the alternative whenever there is no value, Display gives a text, and a Result equals itself.", "quantifier": "all results made by any combination of calls, all callbacks and error values, nil included", "why_tests_cant": "unboundedly many ways to make a result; the tests use non-nil errors only", "anchors": ["result.go:Err", "result.go:Result.IsOk", "result.go:Result.IsErr", "result.go:Result.MapErr", "result.go:Result.Or", "result.go:Result.Display"]}
{"id": "C156", "title": "Chains of iterator adapters compute the list pipeline, stage by stage", "statement": "A chain of any length of Map, Filter and Rev calls on an iterator of a Vec, HashMap, HashSet, BTreeMap or BTreeSet, and a chain of Map and Filter calls on an iterator of a VecDeque or LinkedList, ended by Next, Fold or CollectToVec, gives what the chain of list functions gives. The adapters are eager: the function of a stage is called once on each element that the stage before gave, in order, before the function of the next stage is called, and a panic of a function ends the chain with the effects made so far. When the functions have no effects the chain is the composition of the list functions.", "quantifier": "all containers of these kinds, all chains, all functions with effects and panics, and for Vec-like and LinkedList iterators all numbers of elements taken before the chain (none before a leading Rev, see C54)", "why_tests_cant": "chains, contents and effectful functions are unbounded", "anchors": ["vec.go:VecIter.Map", "vec.go:Filter", "vec.go:Rev", "vec.go:Fold", "vec.go:CollectToVec", "vec_deque.go:VecDequeIter.Map", "vec_deque.go:Filter", "linked_list.go:LinkedListIter.Map", "linked_list.go:Filter", "hash_map.go:HashMapKeys.Map"]}
{"id": "C157", "title": "Transactions over several Mutexes", "statement": "When goroutines execute transactions that Lock several Mutexes, read and write the values through the pointers Lock returned, and Unlock them all in any order, the results and the final values are those of executing the transactions one at a time, in the order in which they give their results; what every single transaction preserves (the total of some accounts, say) is preserved by all of them together. If all transactions Lock their Mutexes in the order of one common ranking, there is no deadlock and every execution ends with all transactions done; every serial order is possible. Two goroutines that Lock two Mutexes in opposite orders can block each other for ever. A program of transactions can come to a deadlock exactly if, after some serial execution, some goroutines could each have locked the first few Mutexes of their next transactions (no two the same) and want next one that another of them has locked; so there is none if the Mutexes are locked in the order of a ranking, or if every transaction locks one common Mutex first.", "quantifier": "all numbers of goroutines, Mutexes and transactions, all transactions (each may depend on earlier results of its goroutine), rankings, orders of Unlock and schedules", "why_tests_cant": "deadlocks and lost updates show only under rare interleavings; unboundedly many goroutines, Mutexes and schedules", "anchors": ["sync.go:Mutex.Lock", "sync.go:Mutex.Unlock", "sync.go:MutexNew"]}
{"id": "C158", "title": "Comparisons that answer with any number", "statement": "Ordering is an int. Methods that take a comparison (Sort, SortBy, BinarySearch, BinarySearchBy, BinaryHeap, BTreeMap) read its answer by the sign, so that Ordering(a - b) is as good as OrderingLess, OrderingEqual and OrderingGreater.", "quantifier": "all comparisons with values in the integers, all containers and elements", "why_tests_cant": "Tests use comparisons that return the three constants; another number makes a search loop for ever or leaves a sort undone, which only shows for particular elements.", "anchors": ["cmp.go:Ordering", "vec.go:Vec.BinarySearchBy", "vec.go:Vec.SortBy", "vec_deque.go:VecDeque.SortBy", "vec_deque.go:VecDeque.BinarySearchBy", "binary_heap.go:BinaryHeap.Push", "binary_heap.go:BinaryHeap.Pop", "btree_map.go:BTreeMap.Get", "btree_map.go:BTreeMap.Insert"]}
{"id": "C159", "title": "The memory of a VecDeque follows the number of elements it holds", "statement": "In every history of operations on a VecDeque, Capacity() never exceeds the larger of 7, the initial capacity and twice the largest number of elements held so far, plus what was explicitly reserved; and the slots allocated in total are at most four per element added and seven per Clear.", "quantifier": "every initial deque, every history of the operations of C56", "why_tests_cant": "a bound on memory over unbounded histories; a leak shows only after many rounds", "anchors": ["vec_deque.go:VecDeque._Grow", "vec_deque.go:VecDeque.Reserve", "vec_deque.go:VecDeque.Append", "vec_deque.go:VecDeque.PushBack", "vec_deque.go:VecDeque.PushFront", "vec_deque.go:VecDeque.Clear"]}
{"id": "C160", "title": "A collection behind a Mutex, used by any number of goroutines", "statement": "If goroutines call methods of one collection only between Lock and Unlock of the Mutex that holds it, then under every schedule the results they get are those of executing the calls one at a time, each goroutine's in its own order; every execution comes to an end with all calls done; and whenever nobody holds the Mutex the collection is as after these calls. In particular a VecDeque behind a Mutex is a first-in first-out queue: PopFront returns the values pushed in the order of the pushes, none lost or returned twice, and None only when everything pushed before has been taken.", "quantifier": "every collection and its methods, every number of goroutines, every program of calls (which may depend on the results so far), every schedule", "why_tests_cant": "schedules and numbers of goroutines are unbounded; a lost or doubled element may need one particular interleaving", "anchors": ["sync.go:MutexNew", "sync.go:Mutex.Lock", "sync.go:Mutex.Unlock", "vec_deque.go:VecDeque.PushBack", "vec_deque.go:VecDeque.PopFront"]}
{"id": "C161", "title": "The bytes given to gokio.Write are not copied by the call", "statement": "For `f := gokio.Write(path, data)`, some assignments to variables, `f.Await()` and further assignments, in every execution: nothing crashes or gets stuck, the file is written once, with as many bytes as data has, each of them the one data held at the call or one assigned to that element before Await returned; assignments after Await never show. If no element of data is assigned before Await the file gets exactly what data held at the call. Without that condition this fails: for any assignments there is an execution in which the file gets data as it is after them, and the file may get contents that data never had at any time.", "quantifier": "all contents and lengths of data, all sequences of assignments before and after Await, all schedules of the two goroutines", "why_tests_cant": "The reads of the task are interleaved with the assignments of the caller in every possible way; a test sees one schedule, usually the one in which the task is done first.", "anchors": ["gokio/fs.go:Write", "fs.go:Write", "gokio/gokio.go:Spawn", "gokio/gokio.go:Await"]}
{"id": "C162", "title": "Replacing a file by Write to a temporary file and Rename is atomic", "statement": "Callers that replace a file by Write(tmp, data) followed, if that succeeds, by Rename(tmp, path), each with a temporary file of its own, act atomically. At every moment (so also if the programs are killed there) a Read of path gives exactly the old contents, if no update has returned Ok, or exactly the data of an update that has returned Ok. The contents change only in the step in which an update returns Ok; an update that fails leaves them alone. A Read that overlaps updates gives exactly what the file held at some moment between its call and its return, or the error of a system call that failed. Without a failing system call nobody gets an error.", "quantifier": "every file system, path of a file in it, number of overlapping Reads and updates, data up to 1 GiB, temporary names in any directories, interleaving of the system calls, split of the data into write(2) calls, failures of system calls, and point at which calls are never continued", "why_tests_cant": "A test sees a handful of interleavings and cannot stop a call between two system calls at will; the claim is about all interleavings, faults and crash points.", "anchors": ["fs.go:Write", "fs.go:Rename", "fs.go:Read", "fs.go:ReadToString", "gokio/fs.go:Write", "gokio/fs.go:Rename", "gokio/fs.go:Read", "gokio/fs.go:ReadToString"]}
{"id": "C163", "title": "The text of nested containers of numbers identifies the value", "statement": "Display of containers nested in each other can be read back. Two values built from integers, Bools, None, Some, Ok and the collections Vec, VecDeque, LinkedList, HashMap, HashSet, BTreeMap and BTreeSet, nested to any depth, have the same Display text only if they are the same kinds of containers with the same contents in the same order; two HashMaps that display the same, each in whatever order Go happens to iterate, have the same entries. This holds for every element type whose texts are different from each other, not empty and without commas, colons and brackets. It does not hold for Strings, which are shown without quotes: Vec[\"\"] and the empty Vec have the same text.", "quantifier": "all values of all nested container types of any depth and size, all leaf texts without separators, all iteration orders of Go maps", "why_tests_cant": "a test compares finitely many texts; that no two of the infinitely many nested values share a text needs an induction over both structures, and a test cannot force the iteration orders of Go maps", "anchors": ["vec.go:Display", "vec_deque.go:Display", "linked_list.go:Display", "hash_map.go:Display", "hash_set.go:Display", "btree_map.go:Display", "btree_set.go:Display", "option.go:Display", "result.go:Display", "fmt.go:Format"]}
{"id": "C164", "title": "Tasks that share Mutexes do not deadlock when they keep to a ranking", "statement": "Give every Mutex a rank and every gokio task a level. If each task locks Mutexes in increasing rank and none below its own level, unlocks and uses only what it holds, holds nothing when it returns, and awaits (also while holding Mutexes) only tasks whose level is at least its own and above the ranks of the Mutexes it holds, then under every schedule: nothing panics; the program ends; it never deadlocks, that is, when nothing can go on main has its result, every Mutex is unlocked and every task has ended or waits to hand over a result nobody awaited; if every future is awaited, all goroutines end; and the value of a Mutex is used by one goroutine at a time. Without the discipline this is false: a task that awaits a task locking a Mutex it holds itself hangs under every schedule.", "quantifier": "all programs of nested tasks that keep to the discipline, with any number of tasks and Mutexes and any nesting, values deciding how they go on, and all schedules", "why_tests_cant": "deadlocks show under few of the many schedules; that no schedule of any program of this kind deadlocks needs an invariant and an argument over the whole chain of goroutines waiting for each other, and termination an argument over a tree of tasks that grows while it runs", "anchors": ["gokio/gokio.go:Spawn", "gokio/gokio.go:Await", "sync.go:MutexNew", "sync.go:Mutex.Lock", "sync.go:Mutex.Unlock"]}
{"id": "C165", "title": "What is shown about each task alone holds for the whole program", "statement": "Data behind Mutexes and results of tasks can be reasoned about one task at a time. Give every Mutex an invariant for its value and every task a postcondition for its result; a task may rely on the invariant when Lock returns, must restore it before Unlock, and may rely on the postcondition of a task it awaits. Invariants and postconditions may also speak of claims (an element of any commutative monoid), which are handed over with Lock, Unlock, Spawn and Await and of which all together stay valid. If each task is correct in this sense by itself and the program keeps to the ranking of C164, then under every schedule nothing panics, the program ends, main's result satisfies its postcondition, every Mutex value satisfies its invariant whenever the Mutex is unlocked, and at the end all claims together are valid. For example, tasks that compute a Fibonacci number with a task for each call and count themselves in one Mutex give the Fibonacci number and leave exactly the number of tasks in the Mutex, and any number of tasks that take numbers from a Mutex get different numbers.", "quantifier": "all programs of nested tasks and Mutexes, all invariants, postconditions and monoids of claims, all schedules", "why_tests_cant": "a test runs one program under a few schedules; that local reasoning is sound is a statement about all programs, all invariants and all interleavings", "anchors": ["gokio/gokio.go:Spawn", "gokio/gokio.go:Await", "sync.go:MutexNew", "sync.go:Mutex.Lock", "sync.go:Mutex.Unlock"]}
{"id": "C166", "title": "Data shared through Spawn, Join, IsFinished, Await and Mutex is free of data races", "statement": "In the sense of the Go memory model, these programs have no data race in any execution: main starts goroutines with thread.Spawn, each of which changes only its own part of the data and reads data nobody changes, and main uses a part again only after Join, or IsFinished with result true, for its handle; the same with gokio.Spawn and Await; all programs of nested tasks and Mutexes that keep to the ranking of C164 and use a Mutex's value only between Lock and Unlock; all programs of goroutines that use one Mutex by Lock, TryLock and Unlock; transactions over several Mutexes (C157), also with TryLock and backing off (C167), collections behind a Mutex (C160), and threads and tasks that share a Mutex and are waited for (C153). More generally, every program that keeps to a discipline of ownership is free of races: a variable may be changed by a goroutine that has it, read by a goroutine that has a share of it, and what a goroutine has is handed over by starting goroutines, by sends received and by Unlock and Lock. In every program, who finds a channel closed (as a second Await of the same future does) comes after all the goroutine that closed it did before. Without waiting for the goroutine, a race is possible; through copies of a Mutex, a race is possible (C103); and the data given to gokio.Write is free of races exactly if the caller changes none of it before Await (C161).", "quantifier": "all programs of the named shapes, all schedules and executions, all pairs of conflicting accesses", "why_tests_cant": "the race detector sees only the executions it is shown; that no execution of any program of a class has a race is a statement about all of them", "anchors": ["thread.go:Spawn", "thread.go:JoinHandle.Join", "thread.go:JoinHandle.IsFinished", "sync.go:Mutex.Lock", "sync.go:Mutex.TryLock", "sync.go:Mutex.Unlock", "gokio/gokio.go:Spawn", "gokio/gokio.go:Await", "gokio/fs.go:Write"]}
{"id": "C167", "title": "Transactions that take Mutexes by TryLock and back off", "statement": "Goroutines execute transactions: each takes several Mutexes, some by Lock and some by TryLock, in any order, works on their values and unlocks them; when a TryLock fails, the transaction unlocks what it has taken, in any order, and reports that it was given up, and the goroutine goes on as it likes (for instance tries again, a finite number of times). Whatever the schedule: nothing crashes; the results of the transactions that were executed are those of executing them at one stroke, one after the other, in the order in which they reported; those given up have no effect on any value; only a transaction with a TryLock on a Mutex that another goroutine uses is given up, so that a goroutine with uncontended TryLocks gives up nothing; every Mutex that is not locked has the value of that serial execution; an invariant that every transaction keeps holds whenever nothing is locked; every execution ends. If a Mutex that is taken by Lock ranks above those the same transaction has taken before (TryLocks may come in any order), there is no deadlock: at the end all goroutines are through and all Mutexes are free. Every serial order of executed transactions is possible. It is not promised that anybody succeeds: two goroutines that hold a Mutex each and TryLock that of the other can both give up. Applied to philosophers who Lock the left fork and TryLock the right one: no deadlock for any number of philosophers and of attempts, and every fork was used as often as its two neighbours have eaten.", "quantifier": "all numbers of goroutines and Mutexes, all transactions (lists of Locks and TryLocks, bodies that read and write depending on what they read, orders of Unlocks), all continuations after success and after giving up, all initial values, all schedules, all outcomes that the specification of TryLock allows", "why_tests_cant": "whether TryLock fails depends on the schedule, and a failed attempt takes another path through the program; a lost update, a Mutex that is not given back or a deadlock shows only in rare interleavings of many goroutines", "anchors": ["sync.go:Mutex.TryLock", "sync.go:Mutex.Lock", "sync.go:Mutex.Unlock", "sync.go:MutexNew"]}
{"id": "C168", "title": "A priority queue and a table of claims behind a Mutex", "statement": "If goroutines call methods of one BinaryHeap only between Lock and Unlock of the Mutex that holds it, then under every schedule no call panics and there is one order of all calls, consistent with each goroutine's own, in which every Pop returns a value that is in the heap at that moment and not less than any other there, and None only when everything pushed before has been taken; no value is lost or returned twice; between two Pushes the values popped, by whomever, come in descending order. If goroutines use one HashMap in this way, every Insert, Remove, Get and ContainsKey returns what the last Insert before it (by any goroutine) stored for an equal key, unless it was removed since; so when several goroutines Insert a key that was not in the map and nobody removes it, exactly the first one gets None.", "quantifier": "all numbers of goroutines, all programs of calls (each may depend on the results so far), all schedules, every lawful Cmp (BinaryHeap) and every key type with lawful equality and fewer than 2^64 entries and calls (HashMap)", "why_tests_cant": "the claims are about all interleavings of any number of goroutines", "anchors": ["sync.go:Mutex.Lock", "sync.go:Mutex.Unlock", "binary_heap.go:BinaryHeap.Push", "binary_heap.go:BinaryHeap.Pop", "hash_map.go:HashMap.Insert", "hash_map.go:HashMap.Remove"]}
{"id": "C169", "title": "CreateDir elects one winner, a directory is a lock, and Rename or RemoveFile claims a file once", "statement": "Processes that share a file system coordinate through it. (1) If whoever gets Ok from CreateDir(p) has the lock p and gives it back with RemoveDir(p), and nobody else removes or renames the directory or one above it, then at most one process has the lock at any time, and while one has it every CreateDir(p) returns an error; if nobody makes p otherwise, then p exists exactly while somebody has the lock, and a CreateDir(p) that is not hit by a system failure returns Ok exactly if nobody has it. (2) Of any number of CreateDir(p) calls at most one returns Ok as long as the other calls leave the path alone. (3) If several processes take the same file or directory away, each by Rename to a name of its own that is not yet a name of it or by RemoveFile or RemoveDir, then exactly the first call that can succeed returns Ok and all others return an error; with a new name that is already a hard link to the file (as made by Copy) Rename returns Ok to everybody and does nothing.", "quantifier": "all file systems whose directories are a tree, all absolute paths without symbolic links, any number of processes, all interleavings of their calls, all failures of system calls", "why_tests_cant": "The processes interleave in unboundedly many ways and every call can fail at every point; a test runs a few schedules on one file system", "anchors": ["fs.go:CreateDir", "fs.go:RemoveDir", "fs.go:RemoveFile", "fs.go:Rename", "fs.go:Copy", "fs.go:Write"]}
{"id": "C170", "title": "A Mutex has one owner in any program, and is released when its owner drops it", "statement": "In every program, however it nests Mutexes, channels and goroutines, in which a goroutine calls Unlock only while it has the Mutex: at most one goroutine has the Mutex at any time, it is locked while one has it, and Unlock does not panic. And, as documented for TryLock ('The lock will be unlocked when the guard is dropped'), the Mutex is free again when the goroutine that got it has returned or ended without calling Unlock.", "quantifier": "all programs (all trees of instructions with any number of goroutines, Mutexes, channels and variables), all executions, all goroutines that take the Mutex and do not unlock it", "why_tests_cant": "The set of programs and schedules is infinite; and that nobody ever gets the Mutex again is a statement about all continuations of an execution, which no test can wait for", "anchors": ["sync.go:MutexNew", "sync.go:Mutex.Lock", "sync.go:Mutex.TryLock", "sync.go:Mutex.Unlock"]}
{"id": "C171", "title": "The collections agree with one another about the same values", "statement": "Give the same values to different collections. Sort and Dedup of a Vec leave exactly as many elements as Len of the HashSet counts, each different value once and ascending; the elements of the HashSet, sorted, are the same, whatever order Go iterates in. A BinaryHeap that the values are pushed onto gives them back as sorting a Vec does: IntoSortedVec in the same order, Pop until None in the opposite one. Contains of Vec, VecDeque and HashSet and BinarySearch of the sorted Vec give the same answer for every value.", "quantifier": "all lists of values of any lawful ordered key type (Cmp and == agree), all iteration orders, all values searched for, all layouts of the VecDeque", "why_tests_cant": "unit tests look at one collection with a few literals; that independent implementations agree has to hold for every list of values, with repetitions and in every order, and for every iteration order of Go's maps", "anchors": ["vec.go:Sort", "vec.go:Dedup", "vec.go:BinarySearch", "vec.go:Contains", "hash_set.go:HashSetFromSlice", "hash_set.go:AsSlice", "hash_set.go:Len", "binary_heap.go:Push", "binary_heap.go:Pop", "binary_heap.go:IntoSortedVec", "vec_deque.go:Contains"]}
{"id": "C172", "title": "The ordered and the unordered maps and sets give the same answers to the same calls", "statement": "A program that uses HashMap (or HashSet) can use BTreeMap (or BTreeSet) instead: for every history of Insert, Remove, Get, ContainsKey (Contains), Len, IsEmpty and Clear on a new one, all results are the same, neither panics, and afterwards the BTreeSet iterates over the elements of the HashSet in ascending order.", "quantifier": "all histories, all lawful ordered key types (Cmp and == agree)", "why_tests_cant": "the difference shows from the twelfth key on, or with Remove; tests with a few keys never reach it, and agreement is a claim about all histories", "anchors": ["btree_map.go:Insert", "btree_map.go:Remove", "btree_map.go:Get", "hash_map.go:Insert", "hash_map.go:Remove", "hash_map.go:Get", "btree_set.go:Insert", "btree_set.go:IntoIter", "hash_set.go:Insert", "hash_set.go:AsSlice"]}
{"id": "C173", "title": "A program that only uses paths below a directory changes nothing outside it", "statement": "Let a directory contain no symbolic links, in it or below it, and let a program make any sequence of CreateDir, Write, Copy, RemoveFile, RemoveDir and Rename calls whose paths all lead below it (they start with it and go on, or are relative to it as the working directory, and have no ..), whatever fails. Then every file, directory and link that was not in or below the directory is unchanged: content, names and parent. What is outside is found under the same paths and Read gives the same; everything the program makes is found under the directory only; and the directory itself is still there.", "quantifier": "all file systems whose directories are a tree, all directories without symbolic links below them, all histories of calls below it with any failures and partial writes", "why_tests_cant": "a test can look at a few files outside after a few calls; that nothing outside changes is a claim about all histories and all of the outside, and holds although Rename edits two directories, a parent pointer and replaces files", "anchors": ["fs.go:CreateDir", "fs.go:Write", "fs.go:Copy", "fs.go:RemoveFile", "fs.go:RemoveDir", "fs.go:Rename", "fs.go:Read"]}
{"id": "C174", "title": "What a program does below a directory depends on that directory only", "statement": "A program makes CreateDir, Write, Copy, RemoveFile, RemoveDir and Rename calls with paths below a directory that has no symbolic links in it. (1) If there is the same below two directories (names, kinds, contents, which names are one file), of one file system or of two, then the same calls below the one and the other return the same results, errors included, leave the same below both, Read of a file returns the same, and ReadDir returns the same but for the paths of the items. (2) A directory moved by Rename has the same below it at its new path. (3) If another program works below another directory that has no file in common with the first, then however the calls of the two are mixed, the calls of each return what they return when it runs alone, below its directory there is in the end the same, and ReadDir below it returns the same.", "quantifier": "all file systems whose directories are a tree and have no name twice, all directories without symbolic links, all histories of calls without .. in their paths under any failures and partial writes, all interleavings of whole calls", "why_tests_cant": "a test works in one temporary directory and alone; that the place and the neighbours make no difference is a relation between any two runs, over all histories and interleavings", "anchors": ["fs.go:CreateDir", "fs.go:Write", "fs.go:Copy", "fs.go:RemoveFile", "fs.go:RemoveDir", "fs.go:Rename", "fs.go:ReadDir", "fs.go:Read"]}
{"id": "C175", "title": "What CreateDir, Write, Copy and Rename made can be unmade", "statement": "After CreateDir(p) returned Ok, RemoveDir(p) returns Ok; after a Write that created the file p, also one that failed halfway, RemoveFile(p) returns Ok; after Copy(a, b) returned Ok, RemoveFile(b) returns Ok; after Rename(a, b) returned Ok for a name b that was free, Rename(b, a) returns Ok. In each case the file system cannot be told apart from what it was before: every path leads to the same, every Read, ReadToString and ReadDir returns the same, and later calls return the same and leave the same behind.", "quantifier": "every file system whose directories are a tree with distinct names, all paths (for Rename, absolute paths without symbolic links on the way), all data and write faults, all later histories of calls (on file systems without symbolic links, with absolute paths without ..)", "why_tests_cant": "The claim compares everything that can be observed in two file systems, for every shape of directory tree, every path and every history that follows; a test looks at a few paths of one tree.", "anchors": ["fs.go:CreateDir", "fs.go:RemoveDir", "fs.go:Write", "fs.go:RemoveFile", "fs.go:Copy", "fs.go:Rename", "fs.go:Read", "fs.go:ReadToString", "fs.go:ReadDir"]}
{"id": "C176", "title": "Programs in directories of their own do not disturb each other", "statement": "Any number of programs (or goroutines) call CreateDir, RemoveDir, Write, RemoveFile, Rename, Read, ReadToString, ReadDir and Copy at the same time, each with absolute paths (without ..) below a directory of its own, and each chooses the next call by what its calls before have returned. The directories have nothing in common and contain no symbolic links. However the system calls of the functions are mixed, wherever writes are cut and whichever system calls fail, each program gets the results it gets if it runs alone, it is finished when it would be finished alone, and below its directory there is what there is if it runs alone. If none of its own system calls fails, the results are those of the functions called one after another, each done at once, and after a certain number of turns it has finished, whatever the others do.", "quantifier": "all file systems whose directories are a tree and have no name twice, any number of programs and separate directories, all strategies of the programs, all schedules of system calls, all lengths of single writes, all failures of system calls", "why_tests_cant": "The schedules of system calls, the places where writes are cut and the strategies of the programs are unbounded, and a test cannot choose the schedule.", "anchors": ["fs.go:CreateDir", "fs.go:RemoveDir", "fs.go:Write", "fs.go:RemoveFile", "fs.go:Rename", "fs.go:Read", "fs.go:ReadToString", "fs.go:ReadDir", "fs.go:Copy", "gokio/fs.go:Write"]}
{"id": "C177", "title": "Programs that share only what nobody writes do not disturb each other", "statement": "Any number of programs (or goroutines) call CreateDir, RemoveDir, Write, RemoveFile, Rename, Read, ReadToString, ReadDir and Copy at the same time, each with absolute paths (without ..) below a directory of its own, and besides Read, ReadToString and ReadDir below any number of shared directories that have nothing in common with the directories of the programs. Each program chooses the next call by what its calls before have returned, so it may write what it has read in a shared file. However the system calls of the functions are mixed, wherever writes are cut and whichever system calls fail, each program gets the results it gets if it runs alone, below its directory there is what there is if it runs alone, and below the shared directories there is what there was. If none of its own system calls fails, the results are those of the functions called one after another, each done at once, and after a certain number of turns it has finished.", "quantifier": "all file systems whose directories are a tree and have no name twice, any number of programs, of separate directories and of shared directories without symbolic links, all strategies of the programs, all schedules of system calls, all lengths of single writes, all failures of system calls", "why_tests_cant": "The schedules of system calls, the places where writes are cut and the strategies of the programs are unbounded, and a test cannot choose the schedule.", "anchors": ["fs.go:Read", "fs.go:ReadToString", "fs.go:ReadDir", "fs.go:Write", "fs.go:Rename", "fs.go:Copy", "fs.go:CreateDir", "fs.go:RemoveDir", "fs.go:RemoveFile"]}
