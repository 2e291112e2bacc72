{
 "C01": {
  "note": "all ten types; generic in the width"
 },
 "C03": {
  "note": "code violates the property; exact domain (iff), soundness of Some, and a counterexample in every width"
 },
 "C05": {
  "note": "code violates the property (32-bit bound); exact domain proved"
 },
 "C06": {
  "note": "code violates the property (mixed signs); exact domain and soundness of Some proved"
 },
 "C09": {
  "note": "code violates the property; exact domain proved"
 },
 "C12": {
  "note": "code violates the property; exact domain proved"
 },
 "C15": {
  "note": "code violates the property (32-bit bounds); exact domain proved"
 },
 "C17": {
  "note": "code violates the property; exact domain proved for signed types and USize"
 },
 "C22": {
  "note": "code shifts by the left operand; right operand proved irrelevant"
 },
 "C24": {
  "note": "code violates the property on NaN; lawful exactly on the non-NaN floats; for all pairs, NaN included, Cmp and Eq are the order and equality of the numbers that IEEE 754 assigns to the bit patterns, which are exactly the numbers of the two formats"
 },
 "C30": {
  "note": "code violates the property; exact domain (iff) proved for every operand"
 },
 "C31": {
  "note": "code violates the property (inherits Neg); value returned for every pair of operands; exact domain among non-negative or mixed-low operands"
 },
 "C32": {
  "note": "code violates the property (inherits Neg, sign of remainder, panic on -2^64); exact domain among non-negative or mixed-low operands; the value returned for every pair of operands"
 },
 "C33": {
  "note": "code violates the property for negative values with low half 0 or 2^64-1; exact domain proved"
 },
 "C34": {
  "note": "code violates the property for every amount but 1; exact domain proved"
 },
 "C36": {
  "note": "IsPositive wrong exactly for 0 < v < 2^64; IsNegative right"
 },
 "C40": {
  "note": "code violates the property on None; proved for Some"
 },
 "C42": {
  "note": "code runs every true branch and returns the last; proved for chains with at most one true condition, exact characterisation for value branches"
 },
 "C46": {
  "note": "code violates the property (Reserve appends zero elements); exact domain proved"
 },
 "C47": {
  "note": "code violates the property (panics out of range); exact domain proved"
 },
 "C50": {
  "note": "code violates the property (removes non-adjacent repeats too); what it does and the exact domain proved"
 },
 "C54": {
  "note": "code violates the property after partial consumption; exact domain proved"
 },
 "C55": {
  "note": "independence of the clone proved on an explicit heap of slices, for every interleaving of operations on both"
 },
 "C89": {
  "note": "copies of a vector variable share the array; independence proved for vectors with different arrays and for the operations that do not write in place; failure proved for every vector with spare capacity"
 },
 "C56": {
  "note": "all operations and histories, while 2*Len, capacity and requested room stay below 2^63; behaviour of a push beyond that proved separately"
 },
 "C57": {
  "note": "holds exactly while Capacity + n < 2^63; from 2^64 on Reserve silently does nothing (violation)"
 },
 "C58": {
  "note": "for every layout; equality must be symmetric and transitive, not reflexive (NaN)"
 },
 "C59": {
  "note": "code violates the property when the head is not at the start of the buffer; proved for head 0, violation for every deque whose first element is not also in slot 0"
 },
 "C60": {
  "note": "code sorts and searches the raw buffer; proved for head 0; for every layout: what is sorted and searched is what AsSlice returns, without panics; Sort changes nothing on deques behind their own length, and never sorts a full deque with another head (unless all elements are equal); violation for BinarySearch; elements without Cmp"
 },
 "C61": {
  "note": "Next proved; adapters restart from the beginning (violation); Rev always panics (violation)"
 },
 "C62": {
  "note": "contents, FillWith order, elements without Eq, and independence of the clone under every interleaving"
 },
 "C90": {
  "note": "appending a nonempty deque to itself never ends"
 },
 "C91": {
  "note": "A copied variable shares its buffer (violation: C91_copy_fails for Set, C91_pop_push_fails for PopFront + PushFront). C91_copy_adds_partial: histories of pushes, Append, Reserve, Clear and reads through the copy leave the contents of the original. C91_disjoint_deques_independent: variables with distinct buffers are independent under every interleaving."
 },
 "C63": {
  "note": "all histories over any number of list variables on one heap, at most 2^64 nodes ever allocated"
 },
 "C64": {
  "note": "including every later history on both lists; self-append is C92"
 },
 "C65": {
  "note": "everything proved except Rev, which keeps the order (exact domain and violation proved)"
 },
 "C92": {
  "note": "violated by every nonempty list: it ends up empty"
 },
 "C93": {
  "note": "exact effect of each of the four operations on the copy; violated by PushBack and PopBack"
 },
 "C66": {
  "note": "every total and transitive Cmp (weaker than lawful), all histories; Cmp assumed pure"
 },
 "C67": {
  "note": "heaps of fewer than 2^63 elements (a larger slice cannot be made)"
 },
 "C68": {
  "note": "exact domain proved; violated: other is never emptied, zero values get in when there is no room, and then Pop may not return a maximum"
 },
 "C94": {
  "note": "exact domain; violated whenever the vector must grow: zero values get into the heap and Pop may not return a maximum"
 },
 "C69": {
  "note": "every key type with an equivalence as == (0 and -0 included), keys hashable; every other map of the program is unchanged"
 },
 "C70": {
  "note": "every order of range; Clone and Eq of elements assumed pure, key clones equal to the key"
 },
 "C71": {
  "note": "every order of range; fewer than 2^64 elements"
 },
 "C95": {
  "note": "exact domain; violated by NaN keys (entries that can never be found or removed), unhashable interface keys (panic) and the zero value (Insert panics)"
 },
 "C96": {
  "note": "all histories without Clear; violated by Clear: the copy keeps the entries and is detached for good"
 },
 "C97": {
  "note": "Map, Filter, Fold always; CollectToVec and Rev exactly for fresh iterators, violated for all others; callbacks pure here (with effects: C53)"
 },
 "C72": {
  "note": "every lawful Cmp, every heap; Insert works iff Fits; Insert above the eleventh of 11..20 keys loses the entry"
 },
 "C73": {
  "note": "the full property is false: every sequence of 22 distinct insertions panics; 21 descending ones, and any 11, work"
 },
 "C74": {
  "note": "exact domain for every reached map: C74_remove_partial for at most 11 keys, C74_remove_big_partial for 12 and more; the full property is false, see C74_*_fails"
 },
 "C75": {
  "note": "maps reached by histories whose operations all work; the empty map panics"
 },
 "C76": {
  "note": "false for empty operands (panic), for results of 12 elements (element missing) and for Clone (does not terminate); right on the stated domain"
 },
 "C77": {
  "note": "full for well-formed templates; Display methods may have effects or panic"
 },
 "C78": {
  "note": "full for strings that are valid UTF-8 and runes that are characters; on other strings Pop replaces invalid bytes by U+FFFD, other runes are pushed as U+FFFD"
 },
 "C79": {
  "note": "full for the signed types, U8..U64 ToString and ParseI64; USize.ToString is negative from 2^63 on; ParseU64 rejects 2^63.. and accepts negative numerals"
 },
 "C80": {
  "note": "false from two code units on: every second code unit is skipped; right iff at most one unit"
 },
 "C98": {
  "note": "right for maps of admissible histories (C72, C74); panics when the values have no Eq method"
 },
 "C99": {
  "note": "strings.Index by contract"
 },
 "C100": {
  "note": "Split and Replace full, for empty and non-empty separators on arbitrary bytes; Repeat panics from 2^63 on"
 },
 "C101": {
  "note": "false for every character"
 },
 "C81": {
  "note": "any number of goroutines, any critical sections; mutual exclusion, no lost update, no deadlock, TryLock, fatal Unlock"
 },
 "C82": {
  "note": "any function that takes finitely many internal steps, any number of goroutines with any sequence of Join and IsFinished calls; every execution is finite and ends with the only Join returned"
 },
 "C83": {
  "note": "false: all calls together succeed at most once; the first call after the task waits succeeds"
 },
 "C84": {
  "note": "exactly one Await gets the value, all others the zero value, in every execution"
 },
 "C102": {
  "note": "false when nobody joins or awaits: leaks in every execution"
 },
 "C103": {
  "note": "false for every two updates; C103_race_fails: the updates through two copies are also a data race"
 },
 "C85": {
  "note": "proved up to 1 GiB with any later history that spares the file; beyond 1 GiB Read returns zeros"
 },
 "C86": {
  "note": "contents right after Copy proved; Copy is a hard link: never overwrites, and writes to one name change the other"
 },
 "C87": {
  "note": "right only for empty directories: n blank items precede the n entries, all typed as files. The paths of the items are clean (C87_path_clean) and lead to the entries if the directory's path goes over no symbolic link (C87_path_leads); over a link followed by .. they lead elsewhere (C87_path_link_fails)"
 },
 "C104": {
  "note": "false: the file is truncated before it is written; a prefix of the data is left (also if the program is killed between two system calls)"
 },
 "C105": {
  "note": "each also removes what the other is for"
 },
 "C106": {
  "note": "proved for files on all paths (target missing or another file); for everything including directories: exact description of all places in the tree afterwards (all paths), and of what a and b lead to (absolute paths without symbolic links); nothing happens if both names are hard links to one file"
 },
 "C107": {
  "note": "all three proved, effects and panics of Display methods included; missing method panics"
 },
 "C108": {
  "note": "hash containers proved in full; B-trees for maps and sets that hold what was put in (C72/C76); Display of the empty BTreeSet panics (proved)"
 },
 "C109": {
  "note": "texts proved; fails for pairs inside anything, for Option/Result of interface types, for Err(nil)"
 },
 "C110": {
  "note": "text proved; no type but Pair implements Debug (proved)"
 },
 "C111": {
  "note": "Panic in full; assertions for messages without placeholders; with a placeholder the message is substituted for the argument, and a Go string message panics with a nil dereference (proved)"
 },
 "C112": {
  "note": "The floating-point and complex operators are an arbitrary function in C112_assign; their values are C137 and C145. The 128-bit operators are C25-C32."
 },
 "C113": {
  "note": "Holds below 2^63 nanoseconds (about 292 years); longer durations panic (C113_sleep_fails)."
 },
 "C114": {
  "note": "Holds exactly if the buffer is empty and the line has no white space. Otherwise the buffer is overwritten, only the first word is stored, and a letter is lost. Assumed: valid UTF-8, no read errors."
 },
 "C115": {
  "note": "The text is right and each goroutine's writes come in order, but Println writes text and newline separately, so lines of different goroutines can share a line. Write errors are not modelled."
 },
 "C116": {
  "note": "Fails: Lock returns the mutex without locking it; locking it and then reading deadlocks."
 },
 "C117": {
  "note": "The pointer is to a copy: the value is right at the time of the call, later writes are not shared."
 },
 "C118": {
  "note": "package math and IEEE conversions are contracts"
 },
 "C119": {
  "note": "math.Sqrt is assumed correctly rounded to float64"
 },
 "C120": {
  "note": "partial: Powi converts the int exponent to float64, so odd exponents beyond 2^53 give (-1).Powi(n) = 1 (C120_powi_fails)"
 },
 "C121": {
  "note": "strings.TrimSpace and utf8.DecodeLastRuneInString are modelled from their definitions in the Go standard library (contract)."
 },
 "C122": {
  "note": "The tables of package unicode are a parameter, assumed only to agree with ASCII and to map characters to characters."
 },
 "C123": {
  "note": "Violated by the code: both variables point to the same nodes. C123_copy_insert_partial and C123_copy_remove_partial say exactly when the Gets of the original are undisturbed; the _fails theorems say what it shows otherwise (stale Len; with eleven keys its largest key is lost; removed keys disappear). Insertions that do not fit (C72) and Remove from a map of more than eleven keys through a copy are not covered."
 },
 "C124": {
  "note": "Violated by the code: copies share the array. C124_copy_push_partial is exact for one Push; the _fails theorems cover two Pushes and Pop. C124_disjoint_push: heaps with separate arrays are independent under Push and behave as in C66."
 },
 "C125": {
  "note": "Violated by the code: the loop of Append reads elements that Push has moved. C125_self_append_no_loss: for every heap with room nothing is lost and as many own elements are added, none less than the one at its place; C125_self_append_partial gives a sufficient condition for the right result (met by all heaps of at most two elements), C125_self_append_fails a violation for every heap of three or more elements with a single greatest one; C125_self_append_distinct: a heap in which no two elements compare equal is doubled exactly when it has at most two elements; C125_self_append_middle_fails: a violation for every heap whose greatest element is greater than the one in the middle of its array (ties or not); heaps of three or more with the greatest element also in the middle are not decided exactly. Without room in the array Append adds zero values (C68)."
 },
 "C126": {
  "note": "Futures that are not awaited before the next call are outside the property; a function of fs.go is one atomic step in the model."
 },
 "C127": {
  "note": "Exact domain of Clone, equality and independence under arbitrary later changes proved for all nested types. Violations proved: elements of type I128, U128, VecDeque or BTreeMap panic, a BTreeSet element never returns, VecDeque.Clone copies its elements shallowly."
 },
 "C128": {
  "note": "Proved for all nested types without complex numbers and BTreeMaps inside; Eq panics on containers with elements of those types (violation proved)."
 },
 "C129": {
  "note": "All iterator types; B-trees on the domain of C72/C76."
 },
 "C130": {
  "note": "FormatFloat and ParseFloat are contracts; texts with underscores or hexadecimal prefix go through an arbitrary function. An exponent of more than five digits counts only with its first five, as strconv does."
 },
 "C131": {
  "note": "for histories in which the working directory is not removed (second half)"
 },
 "C20": {
  "note": "Abs of I128 is wrong exactly for negative numbers whose low half is 0 or 2^64-1 (exact domain, iff); the other types in full"
 },
 "C132": {
  "note": "As a bag the heap is right in every history with recovered panics and arbitrary Cmp (C132_heap_bag, C132_append), and operations in which Cmp does not panic behave as in C66 (C132_heap_answered). The documented guarantee about unwinding is violated: after a Push that panicked the greatest element may be below others and the next Pop returns another one (C132_push_order gives the exact state); a Pop that panics, and IntoSortedVec, lose elements."
 },
 "C133": {
  "note": "Holds for Vec.Retain, Vec.DedupByKey and both FillWith. VecDeque.Retain and Dedup leave the accepted elements followed by the old ones from that position (exact state proved), so elements are lost and doubled; Vec.Insert with an index greater than Len panics after the value has been appended."
 },
 "C134": {
  "note": ""
 },
 "C135": {
  "note": "Violated by every nonempty vector: other.data = make([]T, 0) is executed last and empties it."
 },
 "C136": {
  "note": "C136_unsigned/_signed: bounds under Cmp, and uniqueness; C136_values: the numbers; C136_wraps: MAX+1 and MIN-1. The four 128-bit constants are variables in Go and could be reassigned by a program; the model is their initial value."
 },
 "C137": {
  "note": "C137_add/_sub/_mul/_div: correct rounding with zero and division-by-zero cases; C137_special: NaN and infinities; C137_exact, _integers, _sterbenz, _sub_zero, _algebra, _monotone, _monotone_mul, _closed, _assign, _complex. C137_not_associative records that Add is not associative (not part of the claim). Products and quotients of complex numbers are C145."
 },
 "C138": {
  "note": "Vec, VecDeque: the iterator shares the array; the number of elements, termination and absence of panics hold for all histories (C138_vec_count, C138_deque_count), the values under the histories of C138_vec_partial, C138_deque_partial; Set after IntoIter is seen (C138_vec_fails, C138_deque_fails; C138_vec_sees is exact for one operation). LinkedList: exact for all histories by C138_list_view; a loop that pushes at the back never ends (C138_list_fails). Iterators of HashMap, HashSet, BTreeMap and BTreeSet own a freshly built Vec, so they are not affected (C70, C75)."
 },
 "C139": {
  "note": "Runs that return are those of the pure model and reads write nothing, for every map. Insert and Remove that panic are described exactly for maps of up to eleven keys (Remove leaves the map as it was; Insert leaves it as it was unless a comparison with the new key as argument panics, and then one entry may be in two slots). False: C139_insert_fails, C139_full_fails. Missing: maps of more than eleven keys."
 },
 "C140": {
  "note": "Bounds for every run, including those that panic and vectors that are not heaps or not sorted."
 },
 "C141": {
  "note": "Holds for VecIter. CollectToVec of the map and set iterators returns the iterator's own vector and BinaryHeap.IntoVec the heap's own: a Set on it changes what Next or Pop gives afterwards; two Pushes to two collected vectors collide; Pop of the heap changes the vector."
 },
 "C142": {
  "note": "false: Write empties the file first and Read asks for the size first, so overlapping calls mix contents, read nothing, give io.EOF, or cut and pad; exact outcomes for Writes of equal lengths"
 },
 "C143": {
  "note": "false: Join never returns an error; Goexit blocks it for ever, a panic kills the program; Await returns the zero value"
 },
 "C144": {
  "note": "Proved for all paths, symbolic links and dots included.  Violated by Read and ReadToString for a directory of reported size 0: it is read as an empty file (C144_readDirectory_fails).  Rename also succeeds, doing nothing, for two spellings of one directory."
 },
 "C145": {
  "note": "Fails: a Complex128 product of finite numbers may be NaN (overflow of two products that cancel); products with infinite numbers may be NaN in both parts; z/z has real part 1 for parts up to 2^1022 but not always imaginary part 0 ((49+i)/(49+i)); a finite number over Inf+Inf·i may be NaN. Division: norm-wise relative error at most 2^-50 for parts that are 0 or within 2^±200 (Complex64: all finite operands), and no such bound holds for the single parts."
 },
 "C146": {
  "note": "Proved for Vec in full. VecDeque violates it: SortBy of 9, 4, 5 (9 pushed at the front) gives 9, 0, 4 (C146_deque_fails); C146_deque_partial covers the layouts where the sorted slots are exactly the elements, or none of them. C146_deque_exact: those are exactly the layouts where every comparison keeps the elements, provided a sorted slot holds a value that is not an element; mixed layouts whose free slots only hold copies of elements are not decided. The comparison is assumed not to touch the container itself."
 },
 "C147": {
  "note": "Every state reachable by calls that return, no condition on the number of keys or on Cmp."
 },
 "C148": {
  "note": "C148_lookup, C148_get, C148_iter, C148_insert, C148_remove hold after every history with recovered panics. The last sentence is false: an Insert that panics can take another key out of IntoIter (C148_insert_fails), a Remove that panics can take away its key and another one without changing Len (C148_remove_fails)."
 },
 "C149": {
  "note": "C149_step: each call after any calls that returned. C149_run: whole programs up to the first panic, which is the same one."
 },
 "C150": {
  "note": "Violated by VecDeque, HashMap and HashSet (C150_deque_fails, C150_hash_fails); for these the exact set of histories that work is proved. Vec, LinkedList, BinaryHeap, BTreeMap and BTreeSet work without a constructor (C150_others)."
 },
 "C151": {
  "note": "Proved: the exact pairs for which Eq returns, for which it is true, and the exact Results equal to themselves. Violated: two errors of one uncomparable type panic; Err(nil) is not equal to itself."
 },
 "C152": {
  "note": "Vec.Retain and DedupByKey keep exactly the accepted values whatever the function does, and call it with the old elements if it only calls Push, Clear and Retain. Fails: what the function adds is lost; Pop followed by Push overwrites elements still to come; a push inside SortBy on a full vector leaves it unsorted; VecDeque.Retain shows a half-compacted deque, loses elements after PopFront, and never returns if the predicate pushes."
 },
 "C153": {
  "note": "C153_fork_join: safety; C153_no_deadlock, C153_terminates, C153_completes: every schedule ends with the value read; C153_counter: with commuting updates the result is that of executing them in sequence."
 },
 "C154": {
  "note": "C154_task_tree: safety and result; C154_no_deadlock, C154_all_end, C154_terminates: progress and termination for every schedule."
 },
 "C155": {
  "note": "False: Err of a nil error, MapErr to nil and a declared Result are neither (C155_neither_fails). C155_never_both and C155_ok_or_err_partial say exactly which results are right."
 },
 "C156": {
  "note": "Proved for Vec-like, VecDeque and LinkedList iterators; Rev only where it works at all (C54, C61, C65)."
 },
 "C157": {
  "note": "Serializability, its converse, no deadlock under a lock ranking, termination, invariants; opposite orders deadlock. As everywhere, goroutines go on when main has returned. C157_deadlock_iff: exactly when a deadlock is possible; C157_gate: a common first Mutex rules it out."
 },
 "C158": {
  "note": "Holds for comparisons that only return the three constants (C158_proper_partial). Otherwise BinarySearch(By) never returns when the middle element gets another number (exact dichotomy in C158_search_exact_partial), Sort/SortBy change nothing when no answer is exactly -1, a BinaryHeap puts smaller elements on top, and a BTreeMap does not find its second key."
 },
 "C159": {
  "note": "Capacity bound and amortised cost proved without Append (and Reserve for the cost). Append reserves Len(other) more slots even when there is room, so a queue fed by Append and drained grows without bound (C159_append_fails); Reserve(1) before each push costs quadratically many slots (C159_reserve_fails)."
 },
 "C160": {
  "note": "The calls of one collection are one critical section each. C160_history carries every theorem about sequential histories (C45, C56, C66, ...) over. The queue theorem assumes fewer than 2^62 elements and calls, the limit at which VecDeque cannot grow (C56_push_alloc)."
 },
 "C161": {
  "note": "partial: the contents at the call are written only if data is left alone until Await; C161_exact gives exactly what may be written otherwise. Opening the file and its errors are left out (C142). C161_race_iff: the write is free of data races exactly if no variable changed before Await belongs to data."
 },
 "C162": {
  "note": "Proved for a path whose last component is a file (not a symbolic link), temporary names that do not exist at the start and differ, and contents up to 1 GiB (C85: Read of larger files is wrong); nothing else changes the file system meanwhile. Crash of the program, not power failure."
 },
 "C163": {
  "note": "Proved for all nested values over separator-free leaves and for integers, Bools and None. Partial: a BTreeSet must not be empty (its Display panics, C108), and the property fails for Strings, which are shown unquoted (C163_strings_fails)."
 },
 "C164": {
  "note": "Proved for all programs that keep to the discipline and all schedules; C164_await_locked shows that holding a Mutex while awaiting a task that locks it hangs."
 },
 "C165": {
  "note": "Proved for all programs that keep to the ranking; C165_fib and C165_tickets apply it to programs with any number of tasks."
 },
 "C166": {
  "note": "Proved. C166_discipline is the general rule, C166_parts, C166_await, C166_tasks, C166_mutex, C166_transactions, C166_shared and C166_forkJoin its applications, C166_impatient the racy execution without waiting. Channels are unbuffered, as in the library."
 },
 "C167": {
  "note": "C167_serializable, C167_no_deadlock, C167_terminates, C167_invariant, C167_uncontended, C167_any_order hold for all programs of this form; C167_philosophers is an instance for any number of philosophers. C167_both_give_up shows that success is not promised. The number of attempts is finite in every program (Client is inductive): a goroutine that tries again for ever can livelock, about which nothing is claimed."
 },
 "C168": {
  "note": "for every schedule; the heap without bound on its size; HashMap while entries and calls are fewer than 2^64"
 },
 "C169": {
  "note": "Absolute paths without symbolic links. One call is one atomic step, as mkdir, rename, unlink and rmdir are; os.Rename's look at the new name before the system call is taken as part of the step."
 },
 "C170": {
  "note": "First half proved for arbitrary programs (C170_exclusion). The documented release is violated: nothing unlocks the Mutex but Unlock; C170_lost shows that it then stays locked for ever in any program, C170_dropped_fails gives the executions for the clients of C81."
 },
 "C171": {
  "note": "Elements that compare equal may be exchanged (SameBy Eq); with an Eq that is identity the lists are the same."
 },
 "C172": {
  "note": "Partial: holds for the histories a BTreeMap can take (C72, C74, C76); fails from the twelfth key on, `C172_maps_fails`."
 },
 "C173": {
  "note": "Inside counts a file with a second hard link outside: writing to it shows there. Examples show that `..` and a symbolic link below the directory lead out. Permissions are not modelled (they could only make calls fail)."
 },
 "C174": {
  "note": "Paths must be short enough for both places, or the directories equally deep (`Fits`): the kernel limits the number of steps. Read of a directory is excluded in (1): what it returns depends on the size the file system reports. Calls are interleaved whole; the system calls of a Write are not separated here (C176 does that)."
 },
 "C175": {
  "note": "Rename onto an existing file cannot be undone, and RemoveFile after a Write through a symbolic link to a missing name removes the link and not the file; both are shown as examples."
 },
 "C176": {
  "note": "For absolute paths without .. below the directory; directories have a size other than 0."
 },
 "C177": {
  "note": "For absolute paths without .. below the directories; directories have a size other than 0."
 }
}