# Formal model of tttapa/guanaqo in Lean 4

## Layout

`lean/Verif/Base.lean` and `Loops.lean` hold the shared vocabulary (outcomes, loops, memory). Each topic is a directory of `lean/Verif/`:

* `Model.lean`: functions that follow the C++; the comments cite the file and lines of `/repo` and say where the model simplifies;
* `Spec.lean` (or the first part of the file with the theorems): what the English properties mean, without the functions of the model where
  this is possible (entries of a matrix, lines and fields of a text, worlds of optional values, Mathlib matrices, ...);
* `Props*.lean` etc.: the theorems named in `MANIFEST.json`, with examples that meet their hypotheses.

`properties.jsonl` lists the properties, `MANIFEST.json` the theorems for each of them, `seeded/LOG.jsonl` the wrong programs that the theorems
were tried on.

## Conventions

* Undefined behaviour, a failing `assert` and thrown exceptions are distinct outcomes (`Res α = Except Fault α`, with `Fault.ub`,
  `Fault.assertFail`, `Fault.throw`). A theorem that says that a run is `.ok _` therefore also says that nothing of this happens.
* Index types are unbounded integers, except where overflow or narrowing is the point (index casts between sparsity formats, tick counts,
  `from_chars`, accumulators, the counter of the trace logger).
* External code (`std::sort`, `std::from_chars`, BLAS, allocators, clocks, callbacks) is a parameter with its contract as an explicit hypothesis
  or structure; a concrete instance is proved to meet the contract where the contract is more than a type.
* Loops are structural recursions or folds over the index range; histories are lists of operations; schedules are lists of atomic steps or an
  inductive relation.
* Where the code violates a property as a user would state it, the full statement is kept as a `def … : Prop`, it is refuted (`not_…`), and
  a `…_partial` theorem proves as much as does hold. Such properties have the status `partial`.

## Trusted base

* Lean 4.33 and its kernel, and Mathlib's definitions where statements use them (`Finset.sum`, `Matrix`, `ℚ`, fields). No axiom is added, and there is no
  `native_decide`.
* Axioms that the theorems of the manifest depend on:

* **no axioms** (28 theorems): `Trace.Itt.no_records`, `BadType.not_demangledDefined`, `Print.intElem_prints`, `MatView.release_larger_operand`, `Ring.ring_compare`, `Assume.checks_iff`, `MatView.plain_given`, `Ranges.adapter_postIncrement_stuck`, `Ranges.adapter_postIncrement_mutable`, `Ranges.enumerate_postIncrement_error`, `Float.decodes_unique`, `Sparsity.Ownership.not_copiesIndependent`, `Ranges.Assign.not_alwaysAssignable`, `MatView.reassign_toConst`, `StrUtil.split_join_ambiguous`, `Print.print_csv_no_rows`, `Print.not_layoutCorrect`, `AnyPtr.cast_default`, `Timed.not_floatAccumulates`, `Print.precision_default_partial`, `Print.precision_ignored`, `Print.not_precisionHonoured`, `Print.not_floatToStrCorrect`, `Print.not_integersPrintDecimal`, `Print.char_never_decimal`, `Timed.not_cpuTimeInNanoseconds`, `Blas.exprs_are_traces`, `Float.x87_sub`
* **propext** (63 theorems): `Sparsity.narrowing_wraps`, `Sparsity.dense_to_sparse_refused`, `Float.snprintfVw_complete_iff`, `Trace.Itt.not_endsOwnTask`, `Sparsity.not_narrowingSafe`, `Sparsity.narrowing_merges`, `TypeErased.step_only_asserts`, `TypeErased.wrappers_only_check`, `MatView.views_debug`, `Assume.check_defined`, `Assume.check_throws_iff`, `Assume.exec_deterministic`, `Assume.assume_agrees_iff`, `Sparsity.uniqueness_unsorted_misses`, `Weak.Stop.stop_passes_flag_partial`, `Weak.Stop.stop_orders_nothing`, `Weak.Stop.acquire_would_pass`, `Print.Stream.not_formatIgnored`, `Sparsity.Sizes.convert_sparse`, `Sparsity.Sizes.large_overrun`, `Sparsity.convertValuesInto_larger_result`, `Sparsity.Memory.convert_values_into_empty`, `MatView.plain_defaults`, `MatView.plain_has`, `Sparsity.Memory.in_place_wrong`, `TypeErased.Args.call_const`, `TypeErased.Args.vtable_for_const_partial`, `TypeErased.Args.vtable_for_mutable`, `TypeErased.Args.assignable_iff`, `TypeErased.Args.not_anyVTableForConst`, `Ranges.setIntersection_postIncrement_partial`, `Ranges.not_allPostIncrements`, `TagInvoke.invocable_iff`, `Sparsity.invalid_order_refused`, `Sparsity.invalid_order_refused_csc`, `TypeErased.tells_default`, `Sparsity.Ownership.origins_content`, `CopyPtr.Poly.not_keepsType`, `Timed.Narrow.int32_undefined`, `Ranges.Assign.assignable_partial`, `MatView.asColumn_correct`, `MatView.asEigen_static`, `MatView.asView_sameElements_partial`, `MatView.asView_asEigen`, `MatView.not_asViewCorrect`, `MatView.asSpan_correct`, `MaxHistory.zero_memory_ub`, `MaxHistory.not_copiesIndependent`, `Csv.fromCharsInt_ok`, `Csv.not_fieldsWhole`, `Csv.not_commentsSkipped`, `Csv.csv_read_vector_empty`, `Print.int_realText`, `TypeErased.empty_access_throws_partial`, `TypeErased.remembers_total`, `AnyPtr.cast_exact`, `AnyPtr.queries`, `Trace.not_keptWheneverReset`, `Float.float_to_str_iff`, `TypeErased.not_alwaysAligned_16`, `Ranges.adapter_exact`, `Float.formats_ok`, `Dl.load_lib_no_ub`
* **propext, Quot.sound** (155 theorems)
* **propext, Classical.choice, Quot.sound** (576 theorems)

* That the models say what the C++ does. Nothing was compiled or run; the models were written from the text of `/repo`.
* Contracts of external code, which are hypotheses or parts of the models:
  * `std::sort` and `std::ranges::sort` (`Std/Sort.lean`: a sorted permutation, for strict weak orders; not stable);
  * `std::vector`, `std::span`, `std::string`, `std::shared_ptr`, `std::unique_ptr`: as the standard says (lists, values, owners);
  * `std::streambuf` (`sputc`, `xsputn` one byte at a time), `std::istream` (remaining text and state bits, no I/O errors), `std::ostream`;
  * `std::from_chars` for integers is modelled in full; for floating-point numbers it is a parameter (`Csv.Parser`), has rational values
    (`Duration`; rounded by any rounding to a nearest `double` in `Duration/Double`, of which `nearestDouble` is one), or is any correctly rounding conversion (`Float.Rounds`; for `std::to_chars`, `Float.Writes`; both are shown to be met); `strtol` and `strtoul` are modelled in full for the "C" locale;
  * BLAS and LAPACK: `Blas/Contract.lean` (`Lib.Conforms`), over a field, so without rounding; `Blas/Ref.lean` proves that it can be met. For the batches,
    `Blas/Batch.lean` also needs to know which addresses a routine reads and writes (`GemvImpl` etc.), and `Blas/BatchRef.lean` gives such programs;
    for MKL, `MklLib.Conforms`;
  * OpenMP: the iterations are distributed over threads in any way, and threads interleave after every access of shared memory (sequentially consistent);
  * the C++ memory model for one atomic location (`Misc/StopSignal.lean`), and a total order of the atomic increments in `Trace/Model.lean`;
  * Eigen: the address formulas of its direct-access objects.

## The properties

| id | property | status | modelled | proof | where the code falls short / restrictions |
|---|---|---|---|---|---|
| C01 | CSC to dense preserves the matrix | proved | `Sparsity/{Model,ToDense}`: constructor, `convert_values`, index casts | denotation of a pattern as the list of its entries; induction over columns/entries; specification in `Sparsity/Spec` |  |
| C02 | COO to dense preserves the matrix | proved | `Sparsity/{Model,ToDense}`: constructor, `convert_values`, index casts | denotation of a pattern as the list of its entries; induction over columns/entries; specification in `Sparsity/Spec` |  |
| C03 | Dense to COO preserves the matrix | proved | `Sparsity/{Model,FromDense}` | induction over columns and rows, for all three symmetries |  |
| C04 | Dense to CSC preserves the matrix | proved | `Sparsity/{Model,FromDense}` | induction over columns and rows, for all three symmetries |  |
| C05 | CSC to COO preserves the entries | proved | `Sparsity/Model` | induction over entries; casts that wrap and additions that overflow are part of the model |  |
| C06 | COO to COO re-basing preserves the entries | proved | `Sparsity/Model` | induction over entries; casts that wrap and additions that overflow are part of the model | for index types that can hold the indices; narrowing_wraps shows what happens otherwise |
| C07 | COO to CSC preserves the entries | proved | `Sparsity/{Model,CscLemmas}`; the sort is any function that meets `Std/Sort` | the produced list is a sorted permutation; column pointers by counting |  |
| C08 | CSC to CSC preserves the entries | proved | `Sparsity/{Model,CscLemmas}`; the sort is any function that meets `Std/Sort` | the produced list is a sorted permutation; column pointers by counting |  |
| C09 | Invalid sparsity inputs are rejected | proved | the throwing branches of the same functions | case analysis, in both directions |  |
| C10 | Conversions stay within bounds | proved | all array accesses in the model are checked (`Fault.ub`) | the conversion theorems conclude `.ok` |  |
| C11 | Sparsity round trips | proved | composition of the converters | corollaries of C01-C08 |  |
| C12 | Uniqueness checks are exact | proved | `check_uniqueness_*` of sparse-ops.hpp | induction over sorted lists |  |
| C13 | convert_values_into fills the caller's buffer or says where the data is | proved | `convert_values_into`, `convert_values_copy`, on lists, and on memory with an arbitrary callback and allocator | case analysis on sizes; the memory version by the refinement of C131 | For empty results see convert_values_into_empty: whether the assertion holds depends on the address. |
| C14 | Requested order is honoured or refused | partial | order requests of the converters | case analysis over requests and orders; counterexample | A build with assertions aborts on the legitimate request 'unsorted' for a COO matrix sorted by columns and rows; every other request is honoured (exactly: requests_honoured_iff). |
| C15 | Copies of a converter are independent of the original | partial | `Sparsity/Ownership`: converters as objects that own vectors, spans as references to storage | invariant over histories; counterexample for copies | False for copies: the copied spans refer to the original's vectors. Proved for every history of constructions, moves and destructions; with copies, exactly: an object can be read if and only if the vectors it got its content from live, and then has that content. |
| C16 | Subviews address the right elements | proved | `MatView/Model`: views over an address-indexed memory | linear arithmetic; induction over nestings |  |
| C17 | set_constant writes exactly the view | proved | `MatView/Model`: loops over an address-indexed memory | loop invariants |  |
| C18 | Element-wise copy and accumulation | proved | `MatView/Model`: loops over an address-indexed memory | loop invariants |  |
| C19 | Triangular set_constant touches exactly the triangle | partial | `MatView/Model` | loop invariants; counterexamples | False for shapes that are not square in general. Exact for: Lower with rows <= cols, StrictlyLower with rows <= cols + 1, Upper with rows = cols, StrictlyUpper with rows = cols or cols = rows + 1; for every other shape the call accesses memory outside the view (setConstantTri_inside_iff). |
| C20 | Diagonal operations touch exactly the diagonal | partial | `MatView/Model` | loop invariants; counterexamples | Exact for square views. For every view that is not square, set_diagonal and add_to_diagonal access memory outside the view and diagonal() is too long. |
| C21 | Distinct elements have distinct addresses inside the allocation | proved | `MatView/Model`: views over an address-indexed memory | linear arithmetic; induction over nestings |  |
| C22 | generate visits each element once in column-major order | proved | `MatView/Model`: loops over an address-indexed memory | loop invariants |  |
| C23 | Eigen interop preserves elements | partial | `MatView/Eigen`: Eigen objects by their address formula | arithmetic; counterexample for row-major objects | as_view of a row-major Eigen expression addresses the wrong elements; exactly: asView_sameElements_iff. |
| C24 | Forward circular iteration | proved | `Ring/Model`: circular iterators as state machines | induction over steps, modular arithmetic |  |
| C25 | Reverse iteration is the reverse of forward iteration | proved | `Ring/Model`: circular iterators as state machines | induction over steps, modular arithmetic |  |
| C26 | MaxHistory returns the maximum of the most recent values | proved | `MaxHistory/Model`: vector, iterator with the identity of its buffer, cached maximum | invariant over histories; counterexample for copies |  |
| C27 | Copies of MaxHistory are independent | partial | `MaxHistory/Model`: vector, iterator with the identity of its buffer, cached maximum | invariant over histories; counterexample for copies | Copies keep iterators into the original's buffer. Over all histories of constructions, copies, moves, assignments, destructions and adds: max() of every object is right (histories_max), programs that add to originals only are defined (histories_defined), and add on a copy is undefined exactly as add_defined_iff and add_defined_iff_original say. |
| C28 | set_intersection yields exactly the common elements | proved | `SetInter/Model`: iterator state machine | induction over the remaining lengths |  |
| C29 | split cuts at the first separator | proved | `StrUtil/Model`: strings as lists of bytes | induction |  |
| C30 | split_second returns the remainder after the first separator | proved | `StrUtil/Model`: strings as lists of bytes | induction |  |
| C31 | join concatenates with separators only between elements | proved | `StrUtil/Model`: strings as lists of bytes | induction |  |
| C32 | join_quote quotes every element | proved | `StrUtil/Model`: strings as lists of bytes | induction |  |
| C33 | Repeated split inverts join | proved | `StrUtil/Model`: strings as lists of bytes | induction |  |
| C34 | sort_case_insensitive sorts a permutation case-insensitively | proved | `StrUtil/Model`: strings as lists of bytes | induction |  |
| C35 | No byte is lost, duplicated or reordered | proved | `Streambuf/Model`: the put area as state machine over `std::streambuf` operations | invariants over histories of operations | for histories that run without the overrun of C37 |
| C36 | Chunks end on UTF-8 boundaries | proved | `Streambuf/{Model,Utf8}` | a UTF-8 decoder as specification; invariant over histories |  |
| C37 | The internal buffer is never overrun | partial | `Streambuf/Model`: the put area as state machine over `std::streambuf` operations | invariants over histories of operations | False: overflow on a full buffer writes the character one past the end of the buffer before flushing. Exactly, for UTF-8 text: overrun_iff. |
| C38 | Destruction delivers everything written | proved | `Streambuf/Model`: the put area as state machine over `std::streambuf` operations | invariants over histories of operations |  |
| C39 | scoped_ostream_redirect restores the original buffer | partial | `Streambuf/Redirect` | induction over nested uses; counterexample for moved guards | False for moved-from guards: their destructor restores as well. Proved also for guards, moved-from ones included, that are destroyed in the reverse order of declaration when only the youngest is moved. Exactly: redirect_right_iff. |
| C40 | csv_read_row reads exactly one row | proved | `Csv/Model`: the reader over a model of `std::istream` with a 64 character buffer; the number parser is a parameter with a contract (`Parser`), met by the model of `from_chars` for integers | simulation of the chunked buffer by the plain text |  |
| C41 | Fields of any length are read whole | partial | `Csv/Model`: the reader over a model of `std::istream` with a 64 character buffer; the number parser is a parameter with a contract (`Parser`), met by the model of `from_chars` for integers | simulation of the chunked buffer by the plain text | False for fields of 65 characters or more, which are silently split; proved for fields of at most 64 characters. |
| C42 | Comment lines are skipped | partial | `Csv/Model`: the reader over a model of `std::istream` with a 64 character buffer; the number parser is a parameter with a contract (`Parser`), met by the model of `from_chars` for integers | simulation of the chunked buffer by the plain text | False when the line after the comment is empty: the row is rejected although it is accepted without the comment. |
| C43 | CSV print/read round trip | partial | `Print/{Model,RoundTrip}`, `Csv/Model`, `Float/*` | composition of the printer and reader theorems | False for column vectors with several rows, which print_csv writes on one line by default. Proved for all other shapes, for integers and for floating-point numbers of the formats that std::from_chars reads (payloads of NaNs aside); for __float128 see C98. |
| C44 | Malformed rows are rejected | proved | `Csv/Model`: the reader over a model of `std::istream` with a 64 character buffer; the number parser is a parameter with a contract (`Parser`), met by the model of `from_chars` for integers | simulation of the chunked buffer by the plain text |  |
| C45 | print_csv layout | partial | `Print/Model`: printers as functions to texts | induction; reference parsers as specification | False for matrices without rows: the start text is not printed. |
| C46 | MATLAB and Python layouts denote the matrix | partial | `Print/Model`: printers as functions to texts | induction; reference parsers as specification | False for matrices without rows, of which only the closing brackets are printed. MATLAB: real, integer and complex elements. |
| C47 | Duration parsing terminates | proved | `Duration/Model`: the parse loop, `from_chars` for `double`; the conversion to ticks in exact arithmetic or in that of `double` (`Duration/Double`: any rounding to a nearest `double`, after every operation of `std::chrono::round`) | well-founded recursion; a grammar of durations as specification |  |
| C48 | Duration parsing sums its parts | partial | `Duration/Model`: the parse loop, `from_chars` for `double`; the conversion to ticks in exact arithmetic or in that of `double` (`Duration/Double`: any rounding to a nearest `double`, after every operation of `std::chrono::round`) | well-founded recursion; a grammar of durations as specification | The result is the sum of the terms' ticks. In the arithmetic of double each term is the nearest number of ticks for whole numbers, and within half a tick and a relative error of 2^-51 of it otherwise; beyond that accuracy the nearest number is not always met (9007199254740993s). |
| C49 | Every number-unit text is accepted | partial | `Duration/Model`: the parse loop, `from_chars` for `double`; the conversion to ticks in exact arithmetic or in that of `double` (`Duration/Double`: any rounding to a nearest `double`, after every operation of `std::chrono::round`) | well-founded recursion; a grammar of durations as specification | False for zero quantities: 0s is rejected (exactly: zeros followed by a unit, zero_rejected). Every text of nonzero quantities is accepted. |
| C50 | Invalid durations are rejected | partial | `Duration/Model`: the parse loop, `from_chars` for `double`; the conversion to ticks in exact arithmetic or in that of `double` (`Duration/Double`: any rounding to a nearest `double`, after every operation of `std::chrono::round`) | well-founded recursion; a grammar of durations as specification | False for texts of plus signs, blanks and zeros only, which are accepted; every other accepted text is a sequence of numbers with known units. |
| C51 | TypeErased never leaks or double frees | proved | `TypeErased/Model`: wrappers, heap blocks, objects, allocators, exceptions at every point | refinement of histories to a world of optional values; checked memory |  |
| C52 | Every contained object is destroyed exactly once | proved | `TypeErased/Model`: wrappers, heap blocks, objects, allocators, exceptions at every point | refinement of histories to a world of optional values; checked memory |  |
| C53 | Typed access is type safe | proved | `TypeErased/Model`: wrappers, heap blocks, objects, allocators, exceptions at every point | refinement of histories to a world of optional values; checked memory |  |
| C54 | Const references stay const | proved | `TypeErased/Model`: wrappers, heap blocks, objects, allocators, exceptions at every point | refinement of histories to a world of optional values; checked memory |  |
| C55 | Value semantics of copies and moves | proved | `TypeErased/Model`: wrappers, heap blocks, objects, allocators, exceptions at every point | refinement of histories to a world of optional values; checked memory |  |
| C56 | Exception safety | proved | `TypeErased/Model`: wrappers, heap blocks, objects, allocators, exceptions at every point | refinement of histories to a world of optional values; checked memory |  |
| C57 | Small buffer optimisation | proved | `TypeErased/Model`: wrappers, heap blocks, objects, allocators, exceptions at every point | refinement of histories to a world of optional values; checked memory |  |
| C58 | Access to an empty wrapper is rejected | partial | `TypeErased/Model`: wrappers, heap blocks, objects, allocators, exceptions at every point | refinement of histories to a world of optional values; checked memory | False: a moved-from wrapper keeps its vtable, and as<T> of the old type returns a null reference. Wrappers that never held anything throw. Exactly: after every allowed program the access throws unless it asks for the type that was put into the wrapper last (moved-from wrappers keep theirs). |
| C59 | any_ptr casts are exact | proved | `Misc/AnyPtr` | case analysis, invariant over histories |  |
| C60 | Concurrent trace events never share a slot | proved | `Trace/Model`: threads that interleave after every access | inductive invariant over schedules | For schedules in which reset is called only while no event is in progress (see C61) and fewer than 2^64 events start between resets. |
| C61 | Trace log length | partial | `Trace/Model`: threads that interleave after every access | inductive invariant over schedules | False if reset is called while a scope is open: the scope then writes its duration into the record of another event. Proved for resets when no event is in progress. For every schedule, with resets at any time: each field of each record is what the last event that was given this record wrote (records_exact). |
| C62 | Trace output line escaping | proved | `Trace/Line`: `std::quoted` and the line | a reader as specification; induction |  |
| C63 | Stop signal semantics | proved | `Misc/StopSignal`: histories, and concurrent executions with the coherence axioms of the C++ memory model | induction; coherence |  |
| C64 | Timers accumulate durations | partial | `Misc/Timed`: scopes, clock readings, 64-bit accumulators; `Misc/TimedFloat`: floating-point accumulators with rounding to nearest | invariants over histories | Proved for integer durations. False for floating-point ones, where start and end times are rounded separately; for these: exact in nanoseconds as long as the integers fit the significand (float_nanoseconds_partial), and for any period an error bound for every history (float_accumulates_error_partial; double_seconds_partial: less than 2 ns per construction or destruction of a timer on a std::chrono::duration<double>). |
| C65 | from_chars wrapper reports out of range | partial | `Misc/FromChars`: `strtol`/`strtoul` in full, the casts of the wrapper | longest-prefix specification | False for the types that the fallback narrows after the conversion (char, short, unsigned short, unsigned int, ...) and for negative numbers of unsigned types, which wrap. Proved for the other types and signs. |
| C66 | High-level BLAS wrappers pass matching dimensions | partial | `Blas/Model`: the view wrappers and the raw wrappers, over any library that meets `Lib.Conforms` | specification with Mathlib matrices; address arithmetic | Proved for views without rows or columns of length zero in the positions that matter, with exact arithmetic and any library that meets the BLAS/LAPACK contract; false for empty operands, for which some routines do not scale or pass leading dimension zero. Exactly (with a library that rejects illegal leading dimensions): right unless a leading dimension is zero or, for gemv, the product is empty and beta y is not y (the theorems ending in _exactly). |
| C67 | Batched strided BLAS equals a loop of single calls | partial | `Blas/Batch`, `Par/OpenMP`: `omp parallel for` with interleaving threads; the library routines as programs that read and write | independence of iterations implies equality with the loop, for all schedules; counterexamples for the loops with shared pointers | Proved for gemv and potrf for every schedule and number of threads; false for gemm, syrk and trsm with two or more threads (the loops increment shared pointers), for every conforming library; proved for one thread. With MKL, false for gemm with K = 0. |
| C68 | LAPACK errors are reported | partial | `Blas/Info` | case analysis; reduction over all schedules | Proved for the single routines. The batch routine ignores positive codes (matrices that are not positive definite): it never throws. |
| C69 | Flop counts are exact | partial | `Blas/Flops` | sums over loops | False for xlauum_L (right only for n = 1, 2; recorded under the name trtri) and xtrtri_LN (right only for n <= 1); proved for all the others. |
| C70 | copyable_unique_ptr deep-copies | proved | `CopyPtr/Model`: heap of objects with two copyable pointers as members, exceptions in copies | refinement to trees |  |
| C71 | enumerate pairs positions with elements | proved | `Misc/Ranges` | direct, induction over iteration |  |
| C72 | Dynamic-load flags encoding | proved | `Misc/Ranges` | direct, induction over iteration |  |
| C73 | Lookup tables agree with the generator | proved | `Misc/Ranges` | direct, induction over iteration |  |
| C74 | A scalar argument is read once | partial | `MatView/Model` | loop invariants; counterexamples | The scalar is taken by reference; passing an element of the view itself gives a different result (exactly: addScalar_alias). |
| C75 | Sparsity accessors agree with the pattern | proved | `Sparsity/Variant` | case analysis |  |
| C76 | Print precision option honoured | partial | `Print/{Model,Elems}` | direct; counterexamples | False: the option has no effect. |
| C77 | float_to_str works for every precision | partial | `Print/{Model,Elems}` | direct; counterexamples | False when the text does not fit 64 characters. Exactly: all numbers up to 57 digits after the point for float, float16_t and bfloat16_t, 56 for double, 55 for long double and float128_t, and for more digits some number fails (float_to_str_thresholds; float_to_str_precisions for every int, negative ones meaning six digits); float_to_str_iff says which. |
| C78 | Integers print in decimal | partial | `Print/{Model,Elems}` | direct; counterexamples | False for the 8-bit types, which print as characters. |
| C79 | No text makes duration parsing undefined | partial | `Duration/Model`: the parse loop, `from_chars` for `double`; the conversion to ticks in exact arithmetic or in that of `double` (`Duration/Double`: any rounding to a nearest `double`, after every operation of `std::chrono::round`) | well-founded recursion; a grammar of durations as specification | False: inf, nan and values out of range are converted to integer ticks. |
| C80 | A failed duration parse has no effect | partial | `Duration/Model`: the parse loop, `from_chars` for `double`; the conversion to ticks in exact arithmetic or in that of `double` (`Duration/Double`: any rounding to a nearest `double`, after every operation of `std::chrono::round`) | well-founded recursion; a grammar of durations as specification | False: the terms before the failure have been added. |
| C81 | Contained objects are aligned | partial | `TypeErased/Align` | arithmetic on addresses; counterexamples | False: blocks come from an allocator of bytes, and over-aligned types are not aligned in the small buffer either. |
| C82 | Assignment from a nested wrapper | partial | `TypeErased/Nested` | refinement; counterexample | False: the old object, with the source in it, is destroyed first. |
| C83 | CPU times are in nanoseconds | partial | `Misc/Timed`: scopes, clock readings, 64-bit accumulators; `Misc/TimedFloat`: floating-point accumulators with rounding to nearest | invariants over histories | False on Windows, where the unit is 100 ns; proved for the POSIX clocks. |
| C84 | iter_range_adapter visits each state once | proved | `Misc/Ranges` | direct, induction over iteration |  |
| C85 | Records of open events hold no data of other events | partial | `Trace/Model`: threads that interleave after every access | inductive invariant over schedules | False after a reset: trace does not clear the duration of the record it reuses. The five other fields are those of the event; the duration is that of the last event before that used the record (records_exact). |
| C86 | Fallback from_chars equals std::from_chars | partial | `Misc/FromChars`: `strtol`/`strtoul` in full, the casts of the wrapper | longest-prefix specification | False: leading blanks, plus signs and the prefix 0x are accepted, minus signs for unsigned types too, and on errors the end pointer is wrong. Proved for texts without them that start with a number that fits. |
| C87 | Printed floating-point numbers read back exactly | proved | `Float/*`: binary formats with any precision and exponent range, as rational numbers; `std::to_chars` and `std::from_chars` as any correctly rounding conversions | relative distance of binary numbers against the error of decimal ones | For correctly rounding std::to_chars and std::from_chars. |
| C88 | Libraries are closed exactly once | partial | `Dl/Model`: `load_lib`, `load_func` over a loader with a pending error message, shared pointers with use counts | invariant over histories; counterexamples for calls that succeed and leave a message | False if opening a library succeeds but leaves an error message behind (a constructor of the library that looks for a symbol in vain): load_lib throws and the library stays open. Proved for all histories in which successful calls leave no message; exactly, for all histories: each library stays open once for each time it was opened with a message left behind (libraries_exact). |
| C89 | Loading reports the failure that happened | partial | `Dl/Model`: `load_lib`, `load_func` over a loader with a pending error message, shared pointers with use counts | invariant over histories; counterexamples for calls that succeed and leave a message | False if a successful dlopen or dlsym leaves a message behind; proved otherwise, for every pending message before, and for Windows. |
| C90 | as_sparsity describes the Eigen matrix | partial | `Sparsity/EigenSparse`: Eigen objects as offset, index and value arrays, with the search of `coeff` | arithmetic on offsets; counterexamples | Exactly for packed objects (whole compressed matrices); false for blocks of columns and for uncompressed matrices with gaps. |
| C91 | as_eigen denotes the matrix of the pattern | partial | `Sparsity/EigenSparse`: Eigen objects as offset, index and value arrays, with the search of `coeff` | arithmetic on offsets; counterexamples | Proved for sorted patterns without duplicates; false for symmetric patterns (the other triangle is lost) and for patterns with unsorted rows. |
| C92 | The sparse-ops functions sort and compress | proved | `Sparsity/Ops` | induction over the columns; the contracts of `std::sort` and `std::lower_bound` |  |
| C93 | Uniqueness of triplets with values | partial | `Sparsity/Ops` | induction over the columns; the contracts of `std::sort` and `std::lower_bound` | False: values are compared as well, so duplicates with different values are missed. Without duplicates the answer is right. With two ranges (C12) the check is exact. |
| C94 | Counting operations does not overflow | partial | `Blas/Overflow`: the expressions as syntax trees, every intermediate result checked | evaluation lemma; nonlinear arithmetic | Exact conditions are proved for every routine and width. With 64 bits there is no overflow up to 2^20 rows and columns; with 32 bits (an option of the build) the statement is false from 1290 rows on. |
| C95 | Index arithmetic of views does not overflow | partial | `MatView/Checked`, `Checked2`, `Checked3`: the functions of `MatView/Model` with checked index and pointer arithmetic | equality with the unchecked loops under the conditions; the last pointer of a loop otherwise | Proved for element access, parts with elements, filling and generation (square views for triangles). False for diagonal(), which computes an outer stride that can overflow; as_column of a span that is too long gives another view. |
| C96 | View operations form valid pointers only | partial | `MatView/Checked`, `Checked2`, `Checked3`: the functions of `MatView/Model` with checked index and pointer arithmetic | equality with the unchecked loops under the conditions; the last pointer of a loop otherwise | False for set_diagonal on every square matrix in an array of its own, and for assignment to and from the bottom rows of a matrix, where loops advance a pointer once more after the last element. Proved exactly where the array has room for that (the theorems ending in _defined_iff), and for the other operations. |
| C97 | Integers are read the same without std::from_chars | partial | `Csv/Fallback`: `strtol` and the cast in place of `std::from_chars`; the reader over any number reader | simulation between the readers, line by line | Exactly, field by field: same_int_field_iff. False: a number that does not fit the type is cast (70000 becomes 4464 in a short) where std::from_chars refuses it, blanks are skipped and +-5 is refused. Proved for texts without blanks, NULs and '+-' (outside comments) whose numbers fit the type; for all such texts the fallback is the long reader followed by a cast. |
| C98 | Quad-precision CSV round trip | partial | `Float/Quad`: conversion between formats, `quadmath_snprintf("%.*Qe")`, reading through long double | `csv_round_trip` with the quad reader; representability is an invariant of reading | False: the numbers are read as long double, so 2^64+1 comes back as another number. Proved when all elements are representable in long double (and the shape is not a column printed on one line, C43); otherwise the matrix never comes back. |
| C99 | Streaming quad-precision numbers | partial | `Float/QuadStream`: `%.*Qg` | text lengths; value of the printed decimal | Proved for precisions from 1 to 119, and this is exact: with more digits some numbers, from 127 on all, do not fit the buffer, and the assertion fails or, without assertions, the text is cut off after 127 characters; ostream_complete_iff says which numbers; precisions are taken modulo 2^32. |
| C100 | Optional methods go where they should | proved | `TypeErased/Model`: a vtable records which optional methods are the object's own | refinement (C51-C58); invariant over histories for the origin of the choice | The choice is made once: not_providesNow shows that an object that changes after it was wrapped is not asked again. Whether the type has the members is decided by the compiler and a parameter here. |
| C101 | The text of a number does not depend on the platform | partial | `Float/Snprintf`: `snprintf` with the flags, `float` through `double` | text lengths; `float_readsBack` | Proved for all formats and precisions 1 to 52 except positive NaNs, and for reading back; snprintf_same_iff is exact for every precision but 0: the text differs only if it has 64 characters. False for NaNs (+nan instead of nan) and for precision 0 (1.e+00 instead of 1e+00); texts of 64 characters and more are cut off or undefined. |
| C102 | With ITT, a scope is a task | partial | `Trace/Itt`: loggers and scopes with their domain pointers, the calls of the ITT library, and the stack of tasks per thread | invariant over histories; counterexample | Begin and end calls and ids are balanced in every history. The task that ends is the scope's own if the scopes of a thread are destroyed by it in the reverse order of their opening, as those of GUANAQO_TRACE are; false otherwise (exactly: itt_ends_own_iff). Instance numbers beyond 255 become 255, negative ones 0. |
| C103 | A callback that throws loses no text | partial | `Streambuf/Throw`: the functions of `Streambuf/Model` with a callback that may throw at each call, and the `badbit` of the stream | induction over histories; counterexample | Proved for histories in which the callback throws only while flushing; in general the bytes that were accepted are exactly those delivered and buffered. False because the byte that fills the buffer is kept though it is reported as failed, and each further one is written one byte beyond the end; the destructor terminates the program. |
| C104 | What the exception says | partial | `Misc/BadType`: the exception, its strings as buffers of a heap, the demangler and failing allocations as parameters | case analysis; induction over the number of calls; counterexamples | The two names are in the text for every number of calls. False otherwise: the message is overwritten, every call frees the text of the one before, and a failing allocation ends the program. |
| C105 | demangled_typename is defined and leaks nothing | partial | `Misc/BadType`: the exception, its strings as buffers of a heap, the demangler and failing allocations as parameters | case analysis; induction over the number of calls; counterexamples | The name is returned and memory is released on every path. Undefined exactly when the demangler returns null (it has no memory, or refuses the name). |
| C106 | The variadic macros work for every number of arguments | partial | `Misc/Macros`: the macros as functions of token lists, with `##`, `#` and the choice by pasted name | case analysis over 1 to 10; induction over the arguments; counterexamples | Proved for one to ten arguments. With eleven and more, the eleventh argument is taken for the number of arguments, and nothing is joined; there is no diagnostic from the macro itself. |
| C107 | possible_alias_t makes types distinct | proved | `Misc/Macros`: types with injective tags | induction over the list | Types are taken to be equal or not as they are declared; the tag types are distinct by C++'s rules for templates. |
| C108 | numeric_limits of __float128 count digits rightly | proved | `Float/Limits`: the constants; decimal numbers with n digits | relative and absolute distances of decimal and of binary numbers; concrete collisions | quad_limits_correct is the claim; the constants of quadmath.h (113 and 33) are taken as they are. digits_suffice_of and digits_survive hold for all binary formats. |
| C109 | Index conversions keep the positions | partial | `Sparsity/Model` (`CooToCoo`) | casts are the identity exactly on the values of the type | False: indices are cast and wrap. Positions are kept exactly if all indices fit the new type. |
| C110 | Printing timings leaves the stream as it was | partial | `Misc/TimedPrint`: a stream with precision, width, `badbit` and exceptions | computation; invariant over the insertions | False only if the stream was asked to throw and writing fails: then the precision stays at 5 or 6. |
| C111 | start_lifetime_as keeps the bytes | proved | `Misc/Lifetime`: memory as bytes, `memmove` | induction over the bytes | About the bytes; the lifetime of objects is a notion of the language that the model does not have. |
| C112 | The language of durations | proved | `Duration/Munch`, `Duration/Exact`: longest literals, parts, and the relation between a text and its outcome | soundness and completeness of the scanner; induction over the outcome and over the fuel | The language of durations: an exact specification of what is accepted, with which result, and of each kind of failure. |
| C113 | Errors in durations point at the offending text | partial | `Duration/Errors`: the parser with the payload of its exceptions | erasure to the model of C112; induction over the parts | False for numbers too large for double: the text after the number is quoted, which may be empty (1e999). Units and missing numbers are quoted correctly. |
| C114 | Printing a view prints its elements | proved | `Print/Views`: memory, views with strides, the shared conversion buffer, and the printers reading through them | induction over the loops; the text of a conversion does not depend on the old buffer |  |
| C115 | Assertions only check | proved | the models of C01-C15, C40-C44, C51-C58, C90, C92, C95, C96, C99 and C101, which all take a parameter for `NDEBUG` | a relation between the outcomes of two builds that is closed under sequencing, branches and loops; an invariant of the reader |  |
| C116 | GUANAQO_ASSUME means the same in all builds | proved | `Assert/Assume`: the definitions that the preprocessor chooses, and big-step semantics of a small language with loops and handlers | induction over executions | Conditions with side effects do not mean the same (assume_agrees_iff); those in the library have none. |
| C117 | Views and BLAS compose | proved | `Blas/Cholesky`: client programs over the models of C16-C23 and C66 | induction over the blocks; only the theorems of C66 are used | For exact arithmetic (any field), and libraries that conform to the contract of C66. |
| C118 | CSV reading stores into the view and nowhere else | proved | `Csv/Faults`: the reader of C40 again, for any `read_single` (both configurations), with a stream whose buffer accesses may fail, and with the memory that is assigned | simulation: with every failing access the run agrees with the undisturbed one up to there; then failbit stays set | For views whose elements do not overlap, and for any read_single (with std::from_chars, strtol or strtod). |
| C119 | No input error goes unnoticed | proved | `Csv/Faults`: the reader of C40 again, for any `read_single` (both configurations), with a stream whose buffer accesses may fail, and with the memory that is assigned | simulation: with every failing access the run agrees with the undisturbed one up to there; then failbit stays set | For any read_single (with std::from_chars, strtol or strtod). An error is an exception of the stream buffer, which the standard library turns into badbit (streams with exceptions() enabled are not modelled). |
| C120 | Saving and loading a matrix copies it | partial | the models of C114 and C118 | composition of C114, C43 and C118/C119 | False for column vectors of several rows with the default options, which are printed on one line: csv_read then throws. Exactly: csv_copy_iff. |
| C121 | Circular iterators work for every index type and in any direction | proved | `Ring/Machine`: the iterators of C24 over any integer type with promotion, wrap-around and undefined overflow; assertions on or off | induction over the operations; bounds on every intermediate value |  |
| C122 | Durations are parsed the same with the fallback of from_chars | partial | `Duration/Stod`: `strtod` in the "C" locale, `std::stod`, the wrapper, and the parser of C113 with any `from_chars` | the two scanners are compared case by case (`fallback_agrees_iff`); induction over the parts of the text | False: std::stod also skips tabs and line ends, reads hexadecimal numbers and may reject subnormal numbers, and the text quoted for numbers that are too large differs. Exactly where from_chars differs: fallback_agrees_iff. The documented texts with zero or normal numbers are parsed the same. |
| C123 | Floating-point numbers are read the same without std::from_chars | partial | `Float/Strtod`: `read_single` with `strtof`, `strtod` and `strtold` ("C" locale; rounding and `ERANGE` are a parameter), in the readers of C97 | fields that are numbers are characterised as texts for both configurations (`Float/Fields`); the readers are exact for any conversion that stops at separators (`Csv/ByExact`) | False: strtod skips blanks, reads hexadecimal numbers, refuses '+-1' and may report underflow for subnormal numbers, which csv_read then refuses. Exactly: the fields agree iff PortableField (same_field_iff, same_float_file_iff); which fields are which numbers in either configuration: std_field_iff, c_field_iff. Printed matrices without subnormal numbers (and without the smallest normal one) read back. |
| C124 | Tracing is sound under the C++ memory model | proved | `Weak/Model`: executions of the C++ memory model (sequenced-before, reads-from, modification orders, synchronises-with, happens-before, coherence, data races); `Weak/Trace`: the memory accesses of the calls | in every consistent execution the read-modify-writes of the counter are totally ordered and each reads its predecessor, so that their values count the events since the last reset (well-founded induction along the modification order) | Fewer than 2^64 calls. reader_race, reader_stale and reset_race show that the provisos are needed. |
| C125 | A stop request also passes on the data written before it | partial | `Weak/Stop`: the two accesses of the class, any number of signals, threads and plain data | induction over happens-before: no access acquires; a consistent execution with a race as counterexample | False: stop_requested() is a relaxed load, so reading the data is a data race (stop_data_race). Only the request itself is passed on; exactly when such programs are free of races: stop_raceFree_iff. |
| C126 | The stream's format does not change what is printed | partial | `Print/Stream`: `std::ostream` (format, sentry, padding, `num_put`) over any stream buffer, and the printing functions as the sequence of insertions they make | a printed matrix is a list of insertions (`StreamItems`); induction over that list: width only affects the first, a refusal stops all later ones | False: std::setw pads the first string inserted (and is reset), and integers follow std::hex, std::oct, std::showpos and the grouping of the locale. Exactly when the text is undisturbed: float_format_iff, int_format_iff. |
| C127 | A failing output stream has received the beginning of the text | proved | `Print/Stream`: `std::ostream` (format, sentry, padding, `num_put`) over any stream buffer, and the printing functions as the sequence of insertions they make | a printed matrix is a list of insertions (`StreamItems`); induction over that list: width only affects the first, a refusal stops all later ones | For every stream buffer given as a state machine that accepts or refuses each character. |
| C128 | A matrix printed to a callback_streambuf reaches the callback | partial | `Print/Callback`: the printing functions over the stream buffer of C35-C37, then `csv_read` | characters fed are a history of `sputc`; delivery of C35, overrun of C37, round trip of C43 | False if the text is longer than the buffer: the out-of-bounds write of C37 (exactly then: floats_overrun_iff), and for column vectors, which print_csv transposes (C43). |
| C129 | Sizes of conversions do not wrap around | partial | `Sparsity/Sizes`: the conversions that multiply sizes, with `size_t` modulo 2^64 and `length_t` of 64 bits | the machine functions equal the unbounded ones while products stay below 2^63 (loop congruence); lengths are invariants of the loops; counterexample | False: with 2^64 elements or more the products wrap around, e.g. for a sparse matrix of 2^32 x 2^32 work_size() is 0 and the conversion to dense writes outside of its workspace. Below 2^63 elements everything is as in the unbounded model; sparse to sparse is not affected. |
| C130 | as_column is the span as a column | partial | `MatView/AsColumn`: stride types with their defaults, designated initializers with members left out | arithmetic on the address; exact conditions | False for static inner strides other than one: as_column of more than one element is then not the span (exactly: asColumn_iff), and leaves it unless the stride is zero (asColumn_inSpan_iff). |
| C131 | convert_values writes its workspace only | proved | `Sparsity/Memory`: all `convert_values` functions over a flat memory, element by element, with the memory kept on exceptions | a refinement relation to the list model (`MemoryProps`), closed under sequence and loops; frame by structural induction on the programs | The frame holds for overlapping spans too; the values do not (in_place_wrong). |
| C132 | numeric_limits<__float128> describes the type | proved | `Float/LimitsRange`: the literals of quadmath.h and the exponents; rounding is any function that gives the unique nearest number | extrema of the set of values; each literal is closer to its number than half the gap (integer inequalities with large powers) | The values are 36-digit decimal literals of quadmath.h; each lies close enough to its exact value that rounding gives it. |
| C133 | Type-erased calls pass their arguments | proved | `TypeErased/Args`: parameters and arguments with value categories, objects that are alive, moved from or dead, two levels of calls with any order of initialization and any constructors throwing | induction over the order for one level (initialization, destruction, exceptions), then composition of the levels | For methods whose last parameter is not a reference to the vtable (required ones; not_compiles_vtable: such calls do not compile). |
| C134 | Const objects and vtables | partial | `TypeErased/Args`: types of methods, of vtable entries and of the functions made for them | case analysis; exact condition | False if a non-const method returns a value: the function for a const class returns void, so that the assignment to the vtable does not compile. assignable_iff is the exact condition. |
| C135 | Postfix increment | partial | `Misc/Postfix`: the three postfix operators, with whether they are const and whether a call compiles | case analysis; exact condition for iter_range_adapter | Holds for set_intersection. False for enumerate, where it does not compile, and for iter_range_adapter, where it does not compile or does not advance (exactly: adapter_postIncrement_iff). |
| C136 | Calling customization points | proved | `TagInvoke/Model`: the function object, its parameters, forwarding and `noexcept`, on the calls and objects of `TypeErased/Args` | refinement of a direct call; induction over the order of initialization | Overload resolution itself (which overload is found) is that of the language and is not modelled. |
| C137 | Numbers the standard library cannot print | partial | `Float/Fallback`: the conversion to `long double` before printing, over the formats and conversions of C87 | composition of the two conversions; exact by uniqueness of the nearest number; counterexample | False where the standard library cannot print std::float128_t: the value is converted to long double, and 2^64+1 and 2^64 have the same text (x86). Exactly the numbers of long double read back; all others read back as their conversion to long double, and the numbers beyond its range are printed as infinities. |
| C138 | Views of values with a sparsity pattern | proved | `Sparsity/LinalgView`: the constructors of `linalg::MatrixView` | the chains of conversions of C11 | Spans are modelled by the values they refer to; lifetimes are not modelled. |
| C139 | Writing a trace | partial | `Trace/Output`: `operator<<` and `write_column_headings` on the streams of C126 and C127 | insertions as a list of items; a file is decoded from the left | False: integers follow std::hex, std::oct, std::showpos and the grouping of the locale, and the width pads the name. Exactly: trace_format_iff. What is written in any format, and up to any failure: trace_stream. |
| C140 | Tracing never blocks | proved | `Trace/WaitFree`: the schedules of C60 | a call is where its own steps so far say; case analysis on the steps |  |
| C141 | Owning objects in storage of one's own | proved | `Misc/NoopDelete`: the deleter, and histories of `std::unique_ptr`s (standard library) over storage of the program | invariant: the pointers held are distinct and lead to objects that live |  |
| C142 | Quad-precision numbers in any stream | proved | `Float/QuadOut`: `operator<<` on the streams of C126 and C127 | the text is one inserted string; induction over the list of numbers, each read up to the separator | Larger precisions: C99. With a width, quad_out_prints says where the padding goes. |
| C143 | What a wrapper says about its content | proved | `TypeErased/Queries`: the four queries on the model of C51 | the representation invariant of the refinement proof | Wrappers that have become empty go on telling what they held before (example in the file); the claim is about wrappers that hold something. |
| C144 | Assignment between overlapping views | partial | `MatView/Overlap`: `copy_values` with `copy_n` in order or as `memmove`, and `+=` | the loops as sequences of blocks of element moves; induction over the sequence from the end, with the first read of a changed place as the counterexample for the converse | False in general: shifting towards the end (right_cols = left_cols) reads elements that were already overwritten when the parts overlap. assign_overlap_partial and add_overlap_partial give the exact condition on the two views; the shift theorems apply it to rows and columns. |
| C145 | Threads may work on separate parts of a matrix | proved | `MatView/Threads`: the operations as sequences of single memory accesses (equal to the functions of C17, C18 and C22 when run alone: `run_op`), threads interleaved in any order | footprints of the loops; invariant: every thread has a memory of its own that agrees with the common one where it reads and writes; a count of remaining accesses |  |
| C146 | set_intersection is lazy and linear | proved | `SetInter/Lazy`: one iteration of `advance()` on positions of ranges that may have no end, as a relation; `advance` and the loop over the intersection with the calls of `comp` counted | the search cannot pass a common element (negative transitivity), a bound on the positions visited if one range ends, agreement with C28 on prefixes, a potential for the comparisons | The exact condition is needed: where one range has no end and stays before an element of the other for ever, begin() or ++ does not return (example in the file). |
| C147 | Intersections of intersections | proved | `SetInter/Compose`: the iterators of the intersection over iterators of any type (`*` and `++`), which are such iterators again | simulation of the list model of C28; sorted lists are equal if their elements with each key are |  |
| C148 | MaxHistory ignores NaN | partial | `MaxHistory/Nan`: the model of C26 with the comparison operators of floating-point types | the buffer is a ring (indices modulo its length); the maximum is right or NaN, by induction over the calls | False: if the first value is NaN, or if the first slot of the buffer holds NaN when the largest value is dropped, max() is NaN from then on, for ever. max_nan_partial says exactly when (Spoils), and that max() is right until then; NaN that never is the first of a round of memory calls does no harm (nan_ignored). |
| C149 | Several threads may load libraries at once | partial | `Dl/Threads`: the calls of `dlerror`, `dlopen` and `dlsym` of C89 as single steps of threads, with messages kept per thread or shared | invariant of each thread; a counterexample for any two threads that share their messages | False where dlerror keeps one message for the process, which POSIX permits: a failure is then missed (load_lib returns a null pointer) or reported to another thread. threads_load_partial: true exactly if no two threads share their messages (glibc, musl, macOS). |
| C150 | Copies keep objects of derived classes | partial | `CopyPtr/Poly`: variables and a heap of objects with a class; a copy has what `T` has | refinement to values without pointers, with the invariant that every object has one owner; a counterexample | False: make_unique<T>(*o.ptr) slices. sliced_partial: exactly, copies are objects of the class T with what the original has of T, and a program is undefined exactly if an object of a derived class is deleted without a virtual destructor (or a variable is used before or after its lifetime, or null is dereferenced). one_owner and same_class: the rest of the statement is true. |
| C151 | Joining reads every string once | proved | `StrUtil/SinglePass`: `join`, `join_quote` and `std::accumulate` on a source with a position; an iterator that is not at the position is invalid, reads and increments may throw | induction over the rest of the range; the result is that of C31 and C32 | Ranges that do not compile (no size() and no empty() on a single-pass range, iterator and sentinel of different types, iterators that cannot be copied) are left out. |
| C152 | Timers on narrow integer durations | partial | `Misc/TimedNarrow`: the scopes of C64 with the narrowing conversion and the arithmetic of any integer type | invariant modulo 2^bits over the history; a counterexample for types with undefined overflow | False for int and larger signed types: the reading is subtracted first, and overflow of these is undefined (e.g. duration<int32_t, nano>, zero, and a scope of one nanosecond). Exactly: keepsTime_iff. Unsigned types and those smaller than int are always right, modulo 2^bits (modular_types). |
| C153 | Timed calls | proved | `Misc/TimedCall`: a language of functions with time, exceptions and timed calls | compositional: structural induction over programs, against the program without timers | For 64-bit signed accumulators in nanoseconds; timed_call_defined says when nothing overflows. Functions that look at an accumulator while it is in use are not included (they would see it less the start times). |
| C154 | Assigning through enumerate | partial | `Misc/EnumAssign`: the iterators of C71 over addresses; loops with any body on memory, and `break` | the loop relation equals the loop by index, by induction over the rest of the range | False for rvalues of containers: enumerate takes the iterators of the const owning_view, so that the elements of enumerate(std::vector{...}) are const (assignable_partial). The rest of the statement is true: loop_by_index, assign_through (lengths that fit the difference type, see C71). |
| C155 | Positions of common elements | proved | `SetInter/Enumerate`: the iterators of C71 over those of C147, and those of C147 over those of C71 | what a loop visits, composed; the intersection commutes with projections and takes sublists of both ranges | Which elements are common is C28 (for sorted ranges; positions_of_common holds for unsorted ones too, relative to what the intersection then is). |

## What is not modelled

* Templates and overload resolution: concepts, deleted overloads, type traits (`type-traits.hpp`, `tag-invoke.hpp`), constness of views
  (except in `TypeErased` and `any_ptr`).
* Rounding of floating-point operations, except in the conversions of texts and durations (the BLAS contract and `Timed` say where this matters).
* Locales of streams, except their grouping (C126, C139); stream errors except in C103, C110, C119, C120, C127 and C139.
* Windows: only where a property is about it (`Misc/Timed.lean`).
* The documentation, CMake files, Conan recipe and tests.

`Verif/Witness/*` applies theorems of the manifest to concrete data, so that their hypotheses are seen to be met.
