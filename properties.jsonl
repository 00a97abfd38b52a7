{"id": "C01", "title": "CSC to dense preserves the matrix", "statement": "For every well-formed compressed-sparse-column sparsity pattern without duplicate entries and every value array of matching length, SparsityConverter<SparseCSC, Dense>::convert_values fills the (column-major) output with exactly the matrix the CSC data denotes: stored entries at their positions (mirrored when the symmetry is Upper or Lower), zero everywhere else, with the rows, cols and symmetry of the reported dense sparsity equal to those of the source.", "quantifier": "all matrix shapes, all well-formed CSC patterns (every symmetry, every row order inside a column), all values of any type with a zero", "why_tests_cant": "Unbounded families of patterns and sizes; tests cover a handful of 3x3 or 4x4 patterns.", "anchors": ["src/include/guanaqo/linalg/sparsity-conversions.hpp: SparsityConverter<SparseCSC<StorageIndex, Index>, Dense>", "src/include/guanaqo/linalg/sparsity.hpp: SparseCSC, Dense, Symmetry"]}
{"id": "C02", "title": "COO to dense preserves the matrix", "statement": "The same for SparseCOO input, for every first_index (index base): convert_values produces exactly the matrix denoted by the triplets, with the base subtracted from both index arrays.", "quantifier": "all shapes, all well-formed COO patterns (every symmetry, order and index base), all values", "why_tests_cant": "Unbounded family of patterns.", "anchors": ["src/include/guanaqo/linalg/sparsity-conversions.hpp: SparsityConverter<SparseCOO<Index>, Dense>", "src/include/guanaqo/linalg/sparsity.hpp: SparseCOO"]}
{"id": "C03", "title": "Dense to COO preserves the matrix", "statement": "Dense to COO conversion lists every position of the (upper triangle of the, if symmetric Upper) matrix exactly once with the requested first_index, sorted by columns then rows as its order flag says, and converted values pair each listed position with the value at that position, so that the resulting COO denotes the same matrix.", "quantifier": "all shapes, unsymmetric and Upper, all requested first_index values, all value arrays", "why_tests_cant": "Loop-bound mistakes show only for specific sizes; every n must be covered.", "anchors": ["src/include/guanaqo/linalg/sparsity-conversions.hpp: SparsityConverter<Dense, SparseCOO<Index>>"]}
{"id": "C04", "title": "Dense to CSC preserves the matrix", "statement": "Dense to CSC conversion produces a well-formed CSC pattern (monotone column pointers starting at 0 and ending at nnz, sorted row indices) whose entries with the converted values denote the same matrix.", "quantifier": "all shapes, unsymmetric and Upper, all values", "why_tests_cant": "Every size must be covered.", "anchors": ["src/include/guanaqo/linalg/sparsity-conversions.hpp: SparsityConverter<Dense, SparseCSC<StorageIndex, Index>>"]}
{"id": "C05", "title": "CSC to COO preserves the entries", "statement": "CSC to COO conversion yields, position by position, the same entries (row, column, value) as the source, shifted by the requested first_index, with an order flag that is true of the produced index arrays.", "quantifier": "all well-formed CSC patterns, all requested index bases, all values, in builds with and without assertions (assertion builds require absence of duplicates)", "why_tests_cant": "Unbounded patterns.", "anchors": ["src/include/guanaqo/linalg/sparsity-conversions.hpp: SparsityConverter<SparseCSC<StorageIndex, Index>, SparseCOO<Index>>"]}
{"id": "C06", "title": "COO to COO re-basing preserves the entries", "statement": "COO to COO conversion yields the same entries with indices re-based from the source's first_index to the requested first_index, and the order flag of the result is true of it whenever the source flag was.", "quantifier": "all COO patterns, all pairs of index bases, all values", "why_tests_cant": "Unbounded patterns and index bases.", "anchors": ["src/include/guanaqo/linalg/sparsity-conversions.hpp: SparsityConverter<SparseCOO<Index>, SparseCOO<Index>>"]}
{"id": "C07", "title": "COO to CSC preserves the entries", "statement": "COO to CSC conversion yields a well-formed CSC pattern whose multiset of (row, column, value) entries after convert_values is exactly the source's multiset of entries, for any row/column order of the input, and SortedRows in its order flag implies that the row indices in each column are sorted.", "quantifier": "all well-formed COO patterns (any order, any base; duplicates allowed in builds without assertions), all values, every conforming sorting algorithm", "why_tests_cant": "Depends on sort permutations for arbitrary lengths.", "anchors": ["src/include/guanaqo/linalg/sparsity-conversions.hpp: SparsityConverter<SparseCOO<Index>, SparseCSC<StorageIndex, Index>>", "src/include/guanaqo/linalg/sparse-ops.hpp: convert_triplets_to_ccs, sort_triplets"]}
{"id": "C08", "title": "CSC to CSC preserves the entries", "statement": "CSC to CSC conversion (optionally sorting the rows) yields the same column pointers and, column by column, the same multiset of (row, value) entries; when SortedRows is reported the rows of every column are sorted.", "quantifier": "all well-formed CSC patterns, all order requests, all values, every conforming sorting algorithm", "why_tests_cant": "Depends on sort permutations for arbitrary lengths.", "anchors": ["src/include/guanaqo/linalg/sparsity-conversions.hpp: SparsityConverter<SparseCSC<StorageIndex, Index>, SparseCSC<StorageIndex, Index>>", "src/include/guanaqo/linalg/sparse-ops.hpp: sort_rows_csc"]}
{"id": "C09", "title": "Invalid sparsity inputs are rejected", "statement": "Conversions to dense throw for symmetric non-square matrices and (when the values are converted) for entries stored in the triangle that the symmetry excludes; conversions from dense to COO or CSC throw for Lower symmetry and for symmetric non-square matrices; every supported conversion of a valid pattern succeeds without throwing.", "quantifier": "all inputs, valid or invalid", "why_tests_cant": "Both directions (every bad input rejected, every good accepted) are universal.", "anchors": ["src/include/guanaqo/linalg/sparsity-conversions.hpp"]}
{"id": "C10", "title": "Conversions stay within bounds", "statement": "With a work/result span of the documented size and a well-formed source, no conversion reads or writes outside the index, value or result arrays, and every output slot is written.", "quantifier": "all well-formed inputs and sizes", "why_tests_cant": "Out-of-bounds access is silent in tests for most inputs.", "anchors": ["src/include/guanaqo/linalg/sparsity-conversions.hpp: SparsityConverter::convert_values", "src/include/guanaqo/linalg/sparsity.hpp"]}
{"id": "C11", "title": "Sparsity round trips", "statement": "Dense to CSC to dense, Dense to COO to dense, Dense to COO to CSC to dense and CSC to COO to CSC all reproduce the matrix they started from.", "quantifier": "all shapes, symmetric Upper or unsymmetric, all values, all index bases", "why_tests_cant": "Compositions over all inputs.", "anchors": ["src/include/guanaqo/linalg/sparsity-conversions.hpp"]}
{"id": "C12", "title": "Uniqueness checks are exact", "statement": "check_uniqueness_triplets and check_uniqueness_csc return true exactly when no position occurs twice.", "quantifier": "all index arrays (sorted ones for the exact equivalence)", "why_tests_cant": "Needs every duplicate position.", "anchors": ["src/include/guanaqo/linalg/sparse-ops.hpp: check_uniqueness_triplets, check_uniqueness_csc"]}
{"id": "C13", "title": "convert_values_into fills the caller's buffer or says where the data is", "statement": "convert_values_into/convert_values_copy return a span holding exactly the converted values, evaluate the source callback with a span of the right length, and leave the converted values in the caller's result buffer when it has the size of the converted matrix (builds with assertions refuse a larger buffer, and an empty one at an address other than that of the workspace). The callback is called once; what it throws is passed on; memory other than the result and the workspace is left as it was.", "quantifier": "all converters, patterns, values, callbacks, allocators, memories and reused workspaces", "why_tests_cant": "All buffer sizes relative to nnz.", "anchors": ["src/include/guanaqo/linalg/sparsity-conversions.hpp: SparsityConverter convert_values_into, convert_values_copy"]}
{"id": "C14", "title": "Requested order is honoured or refused", "statement": "When the caller requests an order of the output, the produced pattern either has that order or the request is refused by an exception; a legitimate request is never refused.", "quantifier": "all inputs and all requests", "why_tests_cant": "Every combination of request and source order.", "anchors": ["src/include/guanaqo/linalg/sparsity-conversions.hpp"]}
{"id": "C15", "title": "Copies of a converter are independent of the original", "statement": "The sparsity returned by a copy of a converter stays valid and unchanged whatever happens to the original; the same after a move.", "quantifier": "all copy/move/destroy histories", "why_tests_cant": "Dangling references are not visible in tests.", "anchors": ["src/include/guanaqo/linalg/sparsity-conversions.hpp", "src/include/guanaqo/linalg/sparsity.hpp"]}
{"id": "C16", "title": "Subviews address the right elements", "statement": "top_rows, bottom_rows, left_cols, right_cols, middle_rows, middle_cols and block return a view whose element (r, c) is element (r + offset, c + offset) of the parent, has the stated dimensions, never leaves the parent's elements, and nests. Element access with an index out of range is refused by an assertion, and empty() tells whether there are no elements.", "quantifier": "all views (any stride), all in-range offsets and sizes, all nestings", "why_tests_cant": "Arithmetic over all strides/offsets.", "anchors": ["src/include/guanaqo/mat-view.hpp: MatrixView"]}
{"id": "C17", "title": "set_constant writes exactly the view", "statement": "set_constant assigns the value to every element of the view and to no other memory location.", "quantifier": "all views, all memories, all values", "why_tests_cant": "Absence of effect on every other location.", "anchors": ["src/include/guanaqo/mat-view.hpp: MatrixView::set_constant"]}
{"id": "C18", "title": "Element-wise copy and accumulation", "statement": "copy_values / operator= from a view and operator+= (view or scalar) change element (r, c) of the destination to the source element, respectively the destination element plus the source element or scalar, for every (r, c), and change nothing else, when destination elements are distinct locations, source and destination do not overlap and the scalar is not itself an element of the destination.", "quantifier": "all pairs of equally sized views with any strides, all memories", "why_tests_cant": "Aliasing and strides range over unbounded sets.", "anchors": ["src/include/guanaqo/mat-view.hpp: copy_values, operator=, operator+="]}
{"id": "C19", "title": "Triangular set_constant touches exactly the triangle", "statement": "set_constant(value, triangle) writes exactly the elements in the (strictly) lower/upper triangle and nothing else.", "quantifier": "all view shapes including non-square, all triangles", "why_tests_cant": "Only square shapes are tested; writes outside the view are silent.", "anchors": ["src/include/guanaqo/mat-view.hpp: MatrixView::set_constant(value_type, Triangular)"]}
{"id": "C20", "title": "Diagonal operations touch exactly the diagonal", "statement": "set_diagonal(t) writes t to exactly the diagonal elements, add_to_diagonal(t) adds t to exactly those, and diagonal() is a view of exactly those; nothing else is touched.", "quantifier": "all view shapes including non-square", "why_tests_cant": "Only square shapes are tested.", "anchors": ["src/include/guanaqo/mat-view.hpp: MatrixView::set_diagonal, add_to_diagonal, diagonal"]}
{"id": "C21", "title": "Distinct elements have distinct addresses inside the allocation", "statement": "For a view constructed with default or valid strides, distinct (r, c) map to distinct offsets, and with the default strides the offsets of all elements are exactly 0 .. rows*cols-1 in column-major order.", "quantifier": "all shapes and strides", "why_tests_cant": "Injectivity over all index pairs.", "anchors": ["src/include/guanaqo/mat-view.hpp: MatrixView::operator(), PlainMatrixView"]}
{"id": "C22", "title": "generate visits each element once in column-major order", "statement": "generate(f) calls f once per element, in column-major order, and stores the i-th result in the i-th element in that order.", "quantifier": "all shapes, all stateful generators", "why_tests_cant": "Order and count for all shapes and generator states.", "anchors": ["src/include/guanaqo/mat-view.hpp: MatrixView::generate"]}
{"id": "C23", "title": "Eigen interop preserves elements", "statement": "as_view of an Eigen object and as_eigen of a view denote the same elements at the same positions, and the round trip is the identity.", "quantifier": "all Eigen objects with a linear layout, all views", "why_tests_cant": "All layouts (including row-major) and strides.", "anchors": ["src/include/guanaqo/eigen/view.hpp: as_view, as_eigen"]}
{"id": "C24", "title": "Forward circular iteration", "statement": "Iterating a CircularRange from begin to end visits size elements; the k-th has 0-based index k and circular index (start + k) mod the maximum, without ever using an index outside [0, max).", "quantifier": "all sizes, starts and maxima", "why_tests_cant": "All wrap positions.", "anchors": ["src/include/guanaqo/ringbuffer.hpp: CircularIndices, CircularIndexIterator, CircularRange"]}
{"id": "C25", "title": "Reverse iteration is the reverse of forward iteration", "statement": "Reverse circular iteration visits exactly the forward sequence backwards, and ++ and -- are mutually inverse.", "quantifier": "all sizes, starts and maxima", "why_tests_cant": "All wrap positions.", "anchors": ["src/include/guanaqo/ringbuffer.hpp: ReverseCircularRange, ReverseCircularIndexIterator"]}
{"id": "C26", "title": "MaxHistory returns the maximum of the most recent values", "statement": "After any sequence of add calls, with at least one add, max() is the largest of the last min(memory, number added) values.", "quantifier": "all sequences of values of a linear order, all memory lengths >= 1", "why_tests_cant": "All histories, including ties and evictions of the maximum.", "anchors": ["src/include/guanaqo/max-history.hpp: MaxHistory"]}
{"id": "C27", "title": "Copies of MaxHistory are independent", "statement": "A copy of a MaxHistory behaves as an independent object with the same contents; adding to one does not affect the other.", "quantifier": "all histories of copies and adds", "why_tests_cant": "Iterator aliasing shows only in particular interleavings.", "anchors": ["src/include/guanaqo/max-history.hpp: MaxHistory"]}
{"id": "C28", "title": "set_intersection yields exactly the common elements", "statement": "Iterating iter_set_intersection over two ranges sorted by their projections yields exactly the pairs that std::set_intersection would (multiset intersection by key, in order, pairing equal keys), terminates, and dereferences only in-range iterators.", "quantifier": "all pairs of sorted ranges, all projections and total orders on keys", "why_tests_cant": "All interleavings of keys.", "anchors": ["src/include/guanaqo/set-intersection.hpp: set_intersection_iterable, iter_set_intersection"]}
{"id": "C29", "title": "split cuts at the first separator", "statement": "split(s, sep) returns (s before the first occurrence of sep, s after it), or (s, empty) if sep does not occur; the pieces and the separator concatenate to s.", "quantifier": "all strings and separators", "why_tests_cant": "All positions and self-overlapping separators.", "anchors": ["src/include/guanaqo/string-util.hpp: split"]}
{"id": "C30", "title": "split_second returns the remainder after the first separator", "statement": "split_second(s, sep) is the second component of split with the documented result when the separator is absent.", "quantifier": "all strings and separators", "why_tests_cant": "All strings.", "anchors": ["src/include/guanaqo/string-util.hpp: split_second"]}
{"id": "C31", "title": "join concatenates with separators only between elements", "statement": "join(list, sep) is the concatenation of the elements with sep between consecutive ones and nothing at either end; the empty list gives the documented empty string.", "quantifier": "all lists of strings and options", "why_tests_cant": "All lengths.", "anchors": ["src/include/guanaqo/string-util.hpp: join"]}
{"id": "C32", "title": "join_quote quotes every element", "statement": "join_quote(list) is the same with every element wrapped in the quote strings and, for the empty list, the documented empty string.", "quantifier": "all lists of strings and options", "why_tests_cant": "All lengths.", "anchors": ["src/include/guanaqo/string-util.hpp: join_quote"]}
{"id": "C33", "title": "Repeated split inverts join", "statement": "Repeatedly splitting join(list, sep) at sep recovers the list when no element contains sep material that creates an earlier match.", "quantifier": "all lists and separators", "why_tests_cant": "Inverse law over all lists.", "anchors": ["src/include/guanaqo/string-util.hpp: split, join"]}
{"id": "C34", "title": "sort_case_insensitive sorts a permutation case-insensitively", "statement": "sort_case_insensitive rearranges the range into a permutation of the input that is ordered lexicographically after upper-casing every character.", "quantifier": "all ranges of strings, every conforming sort", "why_tests_cant": "All inputs; comparator must be a strict weak order.", "anchors": ["src/include/guanaqo/string-util.hpp: sort_case_insensitive"]}
{"id": "C35", "title": "No byte is lost, duplicated or reordered", "statement": "For every sequence of writes and flushes that does not overrun the buffer (C37), the concatenation of the chunks passed to the callback followed by the bytes still buffered equals the bytes written.", "quantifier": "all write/flush histories, all buffer sizes", "why_tests_cant": "All histories.", "anchors": ["src/include/guanaqo/callback-streambuf.hpp: callback_streambuf"]}
{"id": "C36", "title": "Chunks end on UTF-8 boundaries", "statement": "If the bytes written are a prefix of valid UTF-8, every chunk passed to the callback is itself valid UTF-8 (no code point is split).", "quantifier": "all valid UTF-8 texts, all chunkings", "why_tests_cant": "Code points straddling the buffer edge at all offsets.", "anchors": ["src/include/guanaqo/callback-streambuf.hpp: utf8_remainder, callback_streambuf::sync"]}
{"id": "C37", "title": "The internal buffer is never overrun", "statement": "No write or flush history stores a byte outside the internal buffer.", "quantifier": "all histories and buffer sizes", "why_tests_cant": "One-byte overruns are silent.", "anchors": ["src/include/guanaqo/callback-streambuf.hpp: callback_streambuf::overflow, sync"]}
{"id": "C38", "title": "Destruction delivers everything written", "statement": "When the stream buffer is destroyed after complete UTF-8 text was written, every byte has been passed to the callback.", "quantifier": "all histories ending in destruction", "why_tests_cant": "All remainders in the buffer.", "anchors": ["src/include/guanaqo/callback-streambuf.hpp: ~callback_streambuf"]}
{"id": "C39", "title": "scoped_ostream_redirect restores the original buffer", "statement": "After any properly nested use of redirect guards, every stream has its original buffer, and output during a guard goes to the redirect target.", "quantifier": "all nestings, including moved guards", "why_tests_cant": "All nestings and moves.", "anchors": ["src/include/guanaqo/callback-streambuf.hpp: scoped_ostream_redirect"]}
{"id": "C40", "title": "csv_read_row reads exactly one row", "statement": "For a line of n well-formed numbers separated by sep (each field shorter than the internal buffer), csv_read_row into an n-vector returns those numbers in order and leaves the stream at the start of the next line; csv_read does so for a matrix.", "quantifier": "all rows, all field lengths up to the limit, all chunk alignments", "why_tests_cant": "Chunk boundaries of the 64-byte buffer fall anywhere.", "anchors": ["src/include/guanaqo/implementation/io/csv.tpp: CSVReader::read, read_chunk, next_line; csv_read_row, csv_read"]}
{"id": "C41", "title": "Fields of any length are read whole", "statement": "A number field of any length is either read as one number or rejected with csv_read_error; it is never silently split into several numbers.", "quantifier": "all field lengths", "why_tests_cant": "Lengths beyond the buffer.", "anchors": ["src/include/guanaqo/implementation/io/csv.tpp: CSVReader::read_chunk"]}
{"id": "C42", "title": "Comment lines are skipped", "statement": "Any number of leading lines starting with # of any length are skipped entirely before a row is read.", "quantifier": "all comment texts and lengths", "why_tests_cant": "Comment length relative to the 64-byte buffer.", "anchors": ["src/include/guanaqo/implementation/io/csv.tpp: CSVReader::skip_comments"]}
{"id": "C43", "title": "CSV print/read round trip", "statement": "Reading with csv_read what print_csv wrote for a matrix returns the same matrix.", "quantifier": "all shapes, all values whose text form reads back", "why_tests_cant": "All matrices.", "anchors": ["src/include/guanaqo/implementation/io/csv.tpp: csv_read", "src/include/guanaqo/implementation/print.tpp: print_csv_impl"]}
{"id": "C44", "title": "Malformed rows are rejected", "statement": "csv_read_row throws csv_read_error if the row has too few or too many fields or a field with an invalid character; csv_read_row_std_vector reads rows of any length, including empty ones.", "quantifier": "all malformed rows", "why_tests_cant": "All malformations.", "anchors": ["src/include/guanaqo/implementation/io/csv.tpp"]}
{"id": "C45", "title": "print_csv layout", "statement": "print_csv writes every element once, rows separated by the row end string and columns by the separator, with begin and end strings around.", "quantifier": "all shapes and separators", "why_tests_cant": "All shapes (including zero rows/columns).", "anchors": ["src/include/guanaqo/implementation/print.tpp: print_csv_impl"]}
{"id": "C46", "title": "MATLAB and Python layouts denote the matrix", "statement": "print_matlab and print_python output a literal whose parse is the matrix (rows in order, bracket structure right, vectors flattened only when documented).", "quantifier": "all shapes", "why_tests_cant": "All shapes.", "anchors": ["src/include/guanaqo/implementation/print.tpp: print_matlab_impl, print_python_impl"]}
{"id": "C47", "title": "Duration parsing terminates", "statement": "parse_duration terminates on every input string: it returns, or throws one of its two documented exceptions, or stops because a value does not fit the duration type (see C79).", "quantifier": "all strings", "why_tests_cant": "Loop progress for all strings.", "anchors": ["src/include/guanaqo/duration-parse.hpp: parse_duration, parse_single_duration"]}
{"id": "C48", "title": "Duration parsing sums its parts", "statement": "For text that is a sequence of number-unit pairs the result is the sum of each number in its unit, each rounded to the resolution of the target duration.", "quantifier": "all sequences of number-unit pairs, all resolutions", "why_tests_cant": "All sequences.", "anchors": ["src/include/guanaqo/duration-parse.hpp: parse_duration"]}
{"id": "C49", "title": "Every number-unit text is accepted", "statement": "Every text of number-unit pairs, including zero quantities such as 0s or 0ms and texts with a + sign, is accepted.", "quantifier": "all number-unit texts", "why_tests_cant": "Special values are missed.", "anchors": ["src/include/guanaqo/duration-parse.hpp: parse_duration"]}
{"id": "C50", "title": "Invalid durations are rejected", "statement": "Text with an unknown unit or no number raises invalid_duration_units/invalid_duration_value; it is never silently accepted.", "quantifier": "all strings", "why_tests_cant": "All malformed strings.", "anchors": ["src/include/guanaqo/duration-parse.hpp: parse_duration"]}
{"id": "C51", "title": "TypeErased never leaks or double frees", "statement": "Over every history of construction, copy, move, assignment and destruction (with throwing copies and allocators), every block obtained from an allocator is returned exactly once, with its size, to an equal allocator.", "quantifier": "all operation histories, all allocators, all injected exceptions", "why_tests_cant": "All histories.", "anchors": ["src/include/guanaqo/type-erasure.hpp: TypeErased"]}
{"id": "C52", "title": "Every contained object is destroyed exactly once", "statement": "Over every history, every object constructed inside a wrapper is destroyed exactly once and never used after destruction.", "quantifier": "all operation histories", "why_tests_cant": "All histories.", "anchors": ["src/include/guanaqo/type-erasure.hpp: TypeErased::cleanup, do_copy_assign, construct_inplace"]}
{"id": "C53", "title": "Typed access is type safe", "statement": "as<T>/get type queries give access to the object only as its actual type, and throw bad_type_erased_type otherwise.", "quantifier": "all histories and queried types", "why_tests_cant": "All histories.", "anchors": ["src/include/guanaqo/type-erasure.hpp: TypeErased::as, type"]}
{"id": "C54", "title": "Const references stay const", "statement": "An object stored by const reference is never mutated or exposed as mutable through a wrapper or any copy or move of it; attempts throw bad_type_erased_constness.", "quantifier": "all histories", "why_tests_cant": "All histories of copies/moves.", "anchors": ["src/include/guanaqo/type-erasure.hpp: TypeErased::call, as, get_pointer"]}
{"id": "C55", "title": "Value semantics of copies and moves", "statement": "Copies of owning wrappers are independent equal values, moves transfer the value, wrappers of references share the referent.", "quantifier": "all histories", "why_tests_cant": "Refinement over all histories.", "anchors": ["src/include/guanaqo/type-erasure.hpp: TypeErased copy/move"]}
{"id": "C56", "title": "Exception safety", "statement": "If copying or allocating throws, nothing is leaked, all other wrappers keep their values and the target is empty or unchanged, still usable.", "quantifier": "all histories with exceptions at every point", "why_tests_cant": "All crash points.", "anchors": ["src/include/guanaqo/type-erasure.hpp: do_copy_assign, construct_inplace, Deallocator"]}
{"id": "C57", "title": "Small buffer optimisation", "statement": "Objects whose size fits the small buffer never cause an allocation; larger ones allocate exactly their size; required_te_buffer_size_for is large enough for each listed type.", "quantifier": "all sizes and type lists", "why_tests_cant": "All sizes.", "anchors": ["src/include/guanaqo/type-erasure.hpp: allocate, required_te_buffer_size_for, default_te_buffer_size"]}
{"id": "C58", "title": "Access to an empty wrapper is rejected", "statement": "as<T> on an empty (default constructed, moved from, or failed) wrapper throws rather than returning an invalid reference.", "quantifier": "all histories leading to an empty wrapper", "why_tests_cant": "All histories.", "anchors": ["src/include/guanaqo/type-erasure.hpp: TypeErased::as"]}
{"id": "C59", "title": "any_ptr casts are exact", "statement": "any_ptr and shared_any_ptr cast succeeds exactly when the stored pointer has the requested type and constness, or is null; otherwise bad_any_cast.", "quantifier": "all stored pointers and queried types", "why_tests_cant": "Full decision table over unbounded types.", "anchors": ["src/include/guanaqo/any-ptr.hpp: any_ptr, shared_any_ptr"]}
{"id": "C60", "title": "Concurrent trace events never share a slot", "statement": "Under every interleaving of threads, completed trace events occupy distinct slots of the trace buffer and none is overwritten.", "quantifier": "all schedules, thread counts and event counts", "why_tests_cant": "All interleavings.", "anchors": ["src/include/guanaqo/trace.hpp: TraceLogger", "src/src/trace.cpp"]}
{"id": "C61", "title": "Trace log length", "statement": "get_logs returns exactly the first min(capacity, number of started events) slots and capacity is never exceeded; a scoped event writes its duration to its own slot only.", "quantifier": "all schedules and histories including reset", "why_tests_cant": "All histories.", "anchors": ["src/include/guanaqo/trace.hpp: TraceLogger::get_logs, trace, reset, ScopedLog"]}
{"id": "C62", "title": "Trace output line escaping", "statement": "The quoted names in a trace output line read back to the original name (std::quoted round trip).", "quantifier": "all names", "why_tests_cant": "All strings with quotes and backslashes.", "anchors": ["src/include/guanaqo/trace.hpp: TraceLogger::Log operator<<"]}
{"id": "C63", "title": "Stop signal semantics", "statement": "stop_requested is true exactly if stop was called on that object; copying, moving and assigning a signal never transfers or clears a request.", "quantifier": "all histories", "why_tests_cant": "All histories.", "anchors": ["src/include/guanaqo/atomic-stop-signal.hpp: AtomicStopSignal"]}
{"id": "C64", "title": "Timers accumulate durations", "statement": "After any set of (possibly nested or overlapping) Timed scopes on one accumulator, its value grew by the sum of the scope durations.", "quantifier": "all well-formed histories of scopes", "why_tests_cant": "All overlaps.", "anchors": ["src/include/guanaqo/timed.hpp: Timed", "src/include/guanaqo/timed-cpu.hpp: TimingsCPU"]}
{"id": "C65", "title": "from_chars wrapper reports out of range", "statement": "The fallback from_chars wrapper returns the number denoted by the longest valid prefix or an error; values that do not fit the type are reported as result_out_of_range, not wrapped.", "quantifier": "all texts and all integer types", "why_tests_cant": "All values around the type limits.", "anchors": ["src/include/guanaqo/from_chars-wrapper.hpp: from_chars"]}
{"id": "C66", "title": "High-level BLAS wrappers pass matching dimensions", "statement": "The view-based BLAS wrappers check the dimensions of their operands and pass m, n, k, leading dimensions and pointers so that the raw BLAS routine reads and writes only elements of the views and computes the documented product.", "quantifier": "all conforming views and transposition choices", "why_tests_cant": "All shapes and strides.", "anchors": ["src/blas/include/guanaqo/blas/hl-blas-interface.hpp"]}
{"id": "C67", "title": "Batched strided BLAS equals a loop of single calls", "statement": "The strided batch routines perform, for each batch index i, exactly the single routine on operand blocks i, independently of the number of threads and the schedule.", "quantifier": "all batch sizes, strides, thread counts and schedules", "why_tests_cant": "All schedules.", "anchors": ["src/blas/src/blas-interface.cpp"]}
{"id": "C68", "title": "LAPACK errors are reported", "statement": "A non-zero LAPACK info is reported as lapack_error with that code; batch Cholesky reports if any factorisation failed.", "quantifier": "all info values and batch results", "why_tests_cant": "All batches.", "anchors": ["src/blas/src/blas-interface.cpp: xpotrf, xpotrf_batch_strided, lapack_throw_on_err"]}
{"id": "C69", "title": "Flop counts are exact", "statement": "The flop count recorded for each BLAS wrapper equals the number of multiply-add operations of the textbook algorithm.", "quantifier": "all dimensions", "why_tests_cant": "Closed forms must hold for all sizes.", "anchors": ["src/blas/include/guanaqo/blas/hl-blas-interface.hpp: trace flop counts", "src/blas/src/blas-interface.cpp"]}
{"id": "C70", "title": "copyable_unique_ptr deep-copies", "statement": "Copying or copy-assigning a copyable_unique_ptr allocates an equal, independent object (or null), frees the old one exactly once, and is safe for self-assignment.", "quantifier": "all histories", "why_tests_cant": "All histories.", "anchors": ["src/include/guanaqo/copyable-unique_ptr.hpp"]}
{"id": "C71", "title": "enumerate pairs positions with elements", "statement": "enumerate(range) yields (0, x0), (1, x1), ... for all elements of the range and then ends.", "quantifier": "all ranges", "why_tests_cant": "All lengths.", "anchors": ["src/include/guanaqo/enumerate.hpp"]}
{"id": "C72", "title": "Dynamic-load flags encoding", "statement": "On platforms with dlopen and all its flags (RTLD_DEEPBIND included), DynamicLoadFlags converts to exactly the flag bits that its members select, so that each member can be read off the result and different flags give different integers.", "quantifier": "all flag combinations, all platforms whose flags occupy different bits", "why_tests_cant": "For every platform's constants.", "anchors": ["src/include/guanaqo/dl-flags.hpp: DynamicLoadFlags"]}
{"id": "C73", "title": "Lookup tables agree with the generator", "statement": "make_1d_lut and make_2d_lut give tables whose entry i (i, j) is the generator applied to exactly that index.", "quantifier": "all table sizes and generators", "why_tests_cant": "All sizes.", "anchors": ["src/include/guanaqo/lut.hpp"]}
{"id": "C74", "title": "A scalar argument is read once", "statement": "operator+= with a scalar adds the value the argument had when the call was made to every element, whatever it refers to (also when it is an element of the view itself).", "quantifier": "all views, all memories, all scalar references", "why_tests_cant": "Aliasing between argument and destination.", "anchors": ["src/include/guanaqo/mat-view.hpp: operator+="]}
{"id": "C75", "title": "Sparsity accessors agree with the pattern", "statement": "num_rows, num_cols, get_symmetry, is_dense and get_nnz of a pattern report its dimensions, symmetry, density and number of stored values, and a conversion preserves the dimensions and symmetry and reports the source's number of values.", "quantifier": "all valid patterns, all supported conversions", "why_tests_cant": "All patterns.", "anchors": ["src/include/guanaqo/linalg/sparsity.hpp: Sparsity, num_rows, num_cols, get_symmetry, get_nnz, is_dense"]}
{"id": "C76", "title": "Print precision option honoured", "statement": "PrintOpts::precision determines the number of digits with which matrix elements are printed.", "quantifier": "all precisions and values", "why_tests_cant": "All precisions.", "anchors": ["src/include/guanaqo/implementation/print.tpp: PrintOpts, print_csv_impl, print_elem"]}
{"id": "C77", "title": "float_to_str works for every precision", "statement": "float_to_str(value, precision) gives the text of the value with that many digits, for every precision.", "quantifier": "all values and precisions", "why_tests_cant": "Buffer size against all precisions.", "anchors": ["src/include/guanaqo/print.hpp: float_to_str", "src/src/print.cpp"]}
{"id": "C78", "title": "Integers print in decimal", "statement": "Elements of every supported integer type are printed as their decimal representation.", "quantifier": "all integer types and values", "why_tests_cant": "All types and values.", "anchors": ["src/include/guanaqo/implementation/print.tpp: print_elem"]}
{"id": "C79", "title": "No text makes duration parsing undefined", "statement": "Whatever the text, parse_duration has defined behaviour: values that do not fit the duration type are rejected.", "quantifier": "all strings, all duration types", "why_tests_cant": "All numbers, including infinities.", "anchors": ["src/include/guanaqo/duration-parse.hpp: parse_duration, parse_single_duration"]}
{"id": "C80", "title": "A failed duration parse has no effect", "statement": "When parse_duration throws, the duration passed by reference keeps its value.", "quantifier": "all strings and duration values", "why_tests_cant": "All failure points.", "anchors": ["src/include/guanaqo/duration-parse.hpp: parse_duration, parse_single_duration"]}
{"id": "C81", "title": "Contained objects are aligned", "statement": "Every object stored in a TypeErased wrapper is at an address that is a multiple of its alignment, for every type and every allocator.", "quantifier": "all types, sizes, alignments, allocators and histories", "why_tests_cant": "Depends on the addresses an allocator happens to return.", "anchors": ["src/include/guanaqo/type-erasure.hpp: allocate, small_buffer"]}
{"id": "C82", "title": "Assignment from a nested wrapper", "statement": "Assigning to a wrapper from a wrapper that is a member of the object it contains gives it the value of that member.", "quantifier": "all states in which wrappers are members of contained objects", "why_tests_cant": "All nestings.", "anchors": ["src/include/guanaqo/type-erasure.hpp: operator=, cleanup"]}
{"id": "C83", "title": "CPU times are in nanoseconds", "statement": "The CPU time that timed-cpu measures is the number of nanoseconds of processor time, on every platform.", "quantifier": "all clock readings of all platforms", "why_tests_cant": "All readings.", "anchors": ["src/include/guanaqo/timed-cpu.hpp", "src/src/timed-cpu.cpp: getProcessCpuTime"]}
{"id": "C84", "title": "iter_range_adapter visits each state once", "statement": "A loop over an iter_range_adapter visits exactly the states that for (; it; ++it) goes through, in order.", "quantifier": "all cursors and numbers of steps", "why_tests_cant": "All cursors.", "anchors": ["src/include/guanaqo/iter-adapter.hpp: iter_range_adapter"]}
{"id": "C85", "title": "Records of open events hold no data of other events", "statement": "After trace has returned for an event that got a record, and until its scope is closed, the record holds the name, instance, start, thread and flop count of that event and a zero duration.", "quantifier": "all schedules and histories including reset", "why_tests_cant": "All interleavings and histories.", "anchors": ["src/include/guanaqo/trace.hpp: TraceLogger::trace, reset"]}
{"id": "C86", "title": "Fallback from_chars equals std::from_chars", "statement": "The fallback from_chars for libraries without floating-point or integer std::from_chars gives the same value, end pointer and error code as std::from_chars does.", "quantifier": "all integer types, bases 2-36, texts and old values", "why_tests_cant": "All texts.", "anchors": ["src/include/guanaqo/from_chars-wrapper.hpp: from_chars"]}
{"id": "C87", "title": "Printed floating-point numbers read back exactly", "statement": "The text print_csv, print_python, print_matlab and float_to_str (with the default precision) write for a floating-point number converts back, by csv_read or a correctly rounding from_chars, to exactly the same number, including signed zeros, subnormal numbers and infinities, for every floating-point type that the standard library can print (others: C137).", "quantifier": "all floating-point numbers of all formats", "why_tests_cant": "2^32 to 2^128 values; a few hard cases decide.", "anchors": ["src/src/print.cpp: float_to_str_vw_impl", "src/include/guanaqo/implementation/print.tpp: print_elem", "src/include/guanaqo/print.hpp: float_to_str_vw"]}
{"id": "C88", "title": "Libraries are closed exactly once", "statement": "A library loaded by load_lib stays open as long as one of the shared pointers to it exists, and when all pointers are gone it has been closed exactly as many times as it has been opened, also when loads fail or there is no memory.", "quantifier": "all histories of loads, lookups, copies, moves, assignments and resets of the pointers, and all outcomes of the system calls", "why_tests_cant": "All histories and failures.", "anchors": ["src/src/dl.cpp: load_lib", "src/include/guanaqo/dl.hpp"]}
{"id": "C89", "title": "Loading reports the failure that happened", "statement": "load_lib and load_func throw if and only if the system could not open the library or find the symbol, with the message of this failure and not an older one; otherwise they give the library or the address, a null address included.", "quantifier": "all histories, names, outcomes of the system calls and pending messages", "why_tests_cant": "All outcomes and pending states.", "anchors": ["src/src/dl.cpp: load_lib, load_func"]}
{"id": "C90", "title": "as_sparsity describes the Eigen matrix", "statement": "as_sparsity(M) gives a well-formed CSC pattern with a true order flag, the dimensions and number of nonzeros of M, which together with M's first nonZeros() values denotes exactly the entries of M.", "quantifier": "all column-major Eigen objects with direct access: matrices, maps and blocks of columns, compressed or not", "why_tests_cant": "All storage layouts.", "anchors": ["src/include/guanaqo/linalg/eigen/sparse.hpp: as_sparsity"]}
{"id": "C91", "title": "as_eigen denotes the matrix of the pattern", "statement": "as_eigen(sparsity, values) is a valid Eigen object whose coefficients are those of the matrix that the pattern and the values denote.", "quantifier": "all well-formed CSC patterns (any symmetry and order) without duplicates, all values, all positions", "why_tests_cant": "All patterns.", "anchors": ["src/include/guanaqo/linalg/eigen/sparse.hpp: as_eigen"]}
{"id": "C92", "title": "The sparse-ops functions sort and compress", "statement": "sort_triplets and sort_triplets_col permute the (row, column, value) triplets so that they are in order, sort_rows_csc does so with the (row, value) pairs of each column and touches nothing else, and convert_triplets_to_ccs turns triplets in column order into a well-formed CSC pattern with the same entries, whatever was in the output arrays.", "quantifier": "all arrays of the same lengths, all column pointers within the arrays, all index types that can hold the indices, all conforming sorting algorithms", "why_tests_cant": "All arrays.", "anchors": ["src/include/guanaqo/linalg/sparse-ops.hpp: sort_triplets, sort_triplets_col, sort_rows_csc, convert_triplets_to_ccs"]}
{"id": "C93", "title": "Uniqueness of triplets with values", "statement": "check_uniqueness_triplets(rows, cols, values) on sorted triplets returns true exactly if no two entries have the same row and column.", "quantifier": "all sorted triplets", "why_tests_cant": "All arrays.", "anchors": ["src/include/guanaqo/linalg/sparse-ops.hpp: check_uniqueness_triplets"]}
{"id": "C94", "title": "Counting operations does not overflow", "statement": "With tracing on, computing the operation count of a call of the functions on views, and the offsets of the matrices of a batch, involves no overflow of the index type, for all operands whose own sizes fit the index type.", "quantifier": "all dimensions, strides and batch sizes, index types of any width", "why_tests_cant": "All sizes; the first ones that fail take gigabytes or hours.", "anchors": ["src/blas/include/guanaqo/blas/hl-blas-interface.hpp: GUANAQO_TRACE_HL_BLAS", "src/blas/src/blas-interface.cpp: xgemv_batch_strided, xpotrf_batch_strided"]}
{"id": "C95", "title": "Index arithmetic of views does not overflow", "statement": "If the array that a view lies in is no longer than the index type can count, no operation of the view (element access, parts, diagonal, filling, as_column) computes an offset or stride that overflows the index type.", "quantifier": "all views, strides (also negative), arrays, index types of any width", "why_tests_cant": "All sizes and strides.", "anchors": ["src/include/guanaqo/mat-view.hpp: MatrixView"]}
{"id": "C96", "title": "View operations form valid pointers only", "statement": "Every pointer that an operation of a view forms points to an element of the array that the view lies in or one past its end.", "quantifier": "all views inside an array, all operations", "why_tests_cant": "All sizes and positions; nothing visible happens in a test.", "anchors": ["src/include/guanaqo/mat-view.hpp: MatrixView"]}
{"id": "C97", "title": "Integers are read the same without std::from_chars", "statement": "On platforms without std::from_chars for the type, csv_read and the row readers accept the same texts and return the same integers as on the others.", "quantifier": "all texts, separators, shapes and the types short, int, long and long long", "why_tests_cant": "All texts.", "anchors": ["src/include/guanaqo/implementation/io/csv.tpp: CSVReader::read_single, csv_read"]}
{"id": "C98", "title": "Quad-precision CSV round trip", "statement": "Reading with csv_read<__float128> what print_csv wrote for a matrix of __float128 returns the same matrix.", "quantifier": "all shapes, all quad-precision values", "why_tests_cant": "2^128 values.", "anchors": ["src/include/guanaqo/implementation/io/csv.tpp: read_single for __float128", "src/src/print.cpp: float_to_str_vw"]}
{"id": "C99", "title": "Streaming quad-precision numbers", "statement": "os << x for a __float128 writes the value rounded to os.precision() significant digits.", "quantifier": "all values and all precisions of the stream", "why_tests_cant": "2^128 values and all precisions.", "anchors": ["src/src/quadmath/quadmath-print.cpp: operator<<"]}
{"id": "C100", "title": "Optional methods go where they should", "statement": "A call of a method that the vtable declares as optional goes to the contained object's own method if its type has it and, when the type also has a provides_ member, that member returned true when the object was wrapped; otherwise it goes to the default. Copies, moves and assignments of the wrapper hand this choice on, and the call changes nothing.", "quantifier": "all types, histories of wrappers, methods and results of provides_", "why_tests_cant": "All histories.", "anchors": ["src/include/guanaqo/required-method.hpp: GUANAQO_TE_OPTIONAL_METHOD", "src/include/guanaqo/type-erasure.hpp: TypeErased"]}
{"id": "C101", "title": "The text of a number does not depend on the platform", "statement": "float_to_str and the matrix printers write the same text for a floating-point number, and it reads back the same, whether or not the standard library has std::to_chars for floating-point types.", "quantifier": "all formats, values and precisions", "why_tests_cant": "All values.", "anchors": ["src/src/print.cpp: float_to_str_vw_snprintf, float_to_str_vw_impl"]}
{"id": "C102", "title": "With ITT, a scope is a task", "statement": "In a build with ITT, every scope that trace returns is shown as one task of the calling thread, with the name and instance given, which ends when the scope is destroyed; ids are created and destroyed in balance.", "quantifier": "all histories of loggers, scopes, moves and threads", "why_tests_cant": "All interleavings and orders of destruction.", "anchors": ["src/include/guanaqo/trace.hpp: TraceLogger (GUANAQO_WITH_ITT), ScopedLog"]}
{"id": "C103", "title": "A callback that throws loses no text", "statement": "When the callback of a callback_streambuf throws, the stream reports a failure for the byte or flush concerned, and when it is used again, the bytes that were reported as written, and only those, are delivered in order.", "quantifier": "all sequences of bytes, flushes, clears and failures of the callback", "why_tests_cant": "All histories and failure points.", "anchors": ["src/include/guanaqo/callback-streambuf.hpp: _sync, overflow, ~callback_streambuf"]}
{"id": "C104", "title": "What the exception says", "statement": "what() of a bad_type_erased_type returns a text with the exception's own message, the type requested and the type contained, which remains valid as long as the exception exists.", "quantifier": "all messages, type names, numbers of calls and failures of memory allocation", "why_tests_cant": "All messages and call histories.", "anchors": ["src/include/guanaqo/type-erasure.hpp: bad_type_erased_type"]}
{"id": "C105", "title": "demangled_typename is defined and leaks nothing", "statement": "demangled_typename returns the readable name of every type, and releases the demangler's memory on every path.", "quantifier": "all types, results of the demangler and failures of allocation", "why_tests_cant": "All failure points.", "anchors": ["src/src/demangled-typename.cpp: demangled_typename"]}
{"id": "C106", "title": "The variadic macros work for every number of arguments", "statement": "GUANAQO_NUM_ARGS expands to the number of its arguments, GUANAQO_JOIN_TOKENS to one identifier with underscores between its arguments, and GUANAQO_JOIN_STRINGS to a string with the separator between them.", "quantifier": "all argument lists", "why_tests_cant": "All arguments and their number.", "anchors": ["src/include/guanaqo/preprocessor.h: GUANAQO_NUM_ARGS, GUANAQO_JOIN_TOKENS, GUANAQO_JOIN_STRINGS"]}
{"id": "C107", "title": "possible_alias_t makes types distinct", "statement": "In a list of types in which each is guarded by those before it with possible_alias_t, no two of the results are the same type, whatever the platform makes aliases of each other, and every type is among the results.", "quantifier": "all lists of types and all coincidences between them", "why_tests_cant": "All lists of types.", "anchors": ["src/include/guanaqo/possible-alias.hpp: possible_alias_t"]}
{"id": "C108", "title": "numeric_limits of __float128 count digits rightly", "statement": "numeric_limits<__float128>::digits10 is the largest number of significant decimal digits that survive a conversion to __float128 and back for every number in the normal range, and max_digits10 the smallest number of digits that identifies every __float128.", "quantifier": "all decimal numbers and all quad-precision values", "why_tests_cant": "2^128 values.", "anchors": ["src/include/guanaqo/quadmath/quadmath.hpp: numeric_limits<__float128>"]}
{"id": "C109", "title": "Index conversions keep the positions", "statement": "A conversion of a sparsity pattern to another index type that succeeds gives a pattern with the same positions: indices that the new type cannot hold are refused.", "quantifier": "all patterns, index types and requests", "why_tests_cant": "All index values.", "anchors": ["src/include/guanaqo/linalg/sparsity-conversions.hpp: SparsityConverter<SparseCOO, SparseCOO>"]}
{"id": "C110", "title": "Printing timings leaves the stream as it was", "statement": "os << timings writes the wall time and the CPU time in milliseconds with 6 digits and their ratio in percent with 5 digits, and the precision of the stream is then what it was before, whatever it was and whether or not writing succeeds.", "quantifier": "all timings, streams, formats of numbers and points of failure", "why_tests_cant": "All states of the stream and failure points.", "anchors": ["src/src/timed-cpu.cpp: operator<<"]}
{"id": "C111", "title": "start_lifetime_as keeps the bytes", "statement": "start_lifetime_as and start_lifetime_as_array return the address they are given, leave every byte of memory unchanged, and access no byte outside the array (none at all for constant storage).", "quantifier": "all contents of memory, addresses, sizes and numbers of elements", "why_tests_cant": "All contents.", "anchors": ["src/include/guanaqo/lifetime.hpp: start_lifetime_as, start_lifetime_as_array"]}
{"id": "C112", "title": "The language of durations", "statement": "parse_duration accepts exactly the texts that are a sequence of parts, each made of plus signs, zeros and blanks, the longest number that can be read there, and a known unit that extends up to the next sign, digit, point or blank, and which ends in plus signs, zeros and blanks; the duration grows by the rounded parts. Where no number can be read it throws invalid_duration_value, where the unit is not known invalid_duration_units, and nothing else makes it fail but values that do not fit.", "quantifier": "all strings, all durations and resolutions", "why_tests_cant": "All strings; the language has surprising members such as 1.5.25s.", "anchors": ["src/include/guanaqo/duration-parse.hpp: parse_duration, parse_single_duration"]}
{"id": "C113", "title": "Errors in durations point at the offending text", "statement": "If parse_duration throws, everything before the offending part has been added as if it stood alone; invalid_duration_units::units is the part of the input that stands for a unit and is not one; the text quoted by invalid_duration_value is the rest of the input from the place where no valid number can be read.", "quantifier": "all strings that are rejected", "why_tests_cant": "All rejected strings.", "anchors": ["src/include/guanaqo/duration-parse.hpp: invalid_duration_value, invalid_duration_units"]}
{"id": "C114", "title": "Printing a view prints its elements", "statement": "print_csv, print_matlab and print_python of a matrix view or of a span write exactly the text of the matrix of the elements it refers to, whatever its index type, strides and offset; they read those elements and no others, change no memory, and nothing of earlier conversions in the shared conversion buffer shows in the output.", "quantifier": "all memories, views, element formats and separators", "why_tests_cant": "All strides, sizes and contents; the stale parts of a shared buffer.", "anchors": ["src/include/guanaqo/print.hpp: print_csv, print_matlab, print_python", "src/include/guanaqo/implementation/print.tpp: print_elem, print_csv_impl"]}
{"id": "C115", "title": "Assertions only check", "statement": "Whatever a build with assertions computes or throws, a build without them computes or throws as well: the assertions of the sparsity conversions, of the CSV reader, of the printing of numbers, of matrix views, of circular iterators and of type-erased wrappers have no effect besides stopping the program; those of the CSV reader and those in the loops of matrix views never fail, and programs that use wrappers correctly do the same in both builds.", "quantifier": "all patterns (valid or not), targets, values, workspaces and standard libraries; all streams, separators and number readers; all numbers and precisions; all views, arrays and values; all sequences of operations on iterators; all programs on wrappers", "why_tests_cant": "All inputs, and tests run in one of the builds.", "anchors": ["src/include/guanaqo/linalg/sparsity-conversions.hpp: SparsityConverter", "src/include/guanaqo/linalg/sparsity.hpp: nnz", "src/include/guanaqo/linalg/sparse-ops.hpp: convert_triplets_to_ccs", "src/include/guanaqo/implementation/io/csv.tpp: CSVReader", "src/src/print.cpp: float_to_str_vw_snprintf", "src/src/quadmath/quadmath-print.cpp: operator<<"]}
{"id": "C116", "title": "GUANAQO_ASSUME means the same in all builds", "statement": "A program that uses GUANAQO_ASSUME with conditions free of side effects behaves identically in every build configuration as long as no assumption is violated; a violated assumption is a std::logic_error in the builds that check (without NDEBUG, or with GUANAQO_VERIFY_ASSUMPTIONS) and never undefined there.", "quantifier": "all programs (branches, loops, exceptions and handlers), states and build configurations", "why_tests_cant": "All programs and executions, in all build configurations.", "anchors": ["src/include/guanaqo/assume.hpp: GUANAQO_ASSUME", "src/include/guanaqo/assume.hpp: GUANAQO_ASSERT"]}
{"id": "C117", "title": "Views and BLAS compose", "statement": "Programs that combine submatrices of a view with the BLAS functions compute what linear algebra says: factorising with xpotrf_L and solving twice with xtrsm gives the solution of the symmetric system whose lower triangle was given, and the Cholesky factorisation block by block (top_left, bottom_left and bottom_right with xpotrf_L, xtrsm_RLTN and xsyrk_LN) gives a Cholesky factor of the whole matrix, for every sequence of block sizes; elements outside the lower triangle (and the right-hand side) are untouched, also when lapack_error is thrown.", "quantifier": "all sizes, contents, views, strides and sequences of block sizes, and all BLAS libraries that conform to the contract", "why_tests_cant": "All sizes and contents; mathematics of matrices of arbitrary size.", "anchors": ["src/include/guanaqo/mat-view.hpp: top_left, bottom_left, bottom_right", "src/blas/include/guanaqo/blas/hl-blas-interface.hpp: xpotrf_L, xtrsm_LLNN, xtrsm_LLTN, xtrsm_RLTN, xsyrk_LN"]}
{"id": "C118", "title": "CSV reading stores into the view and nowhere else", "statement": "csv_read into a matrix view assigns the view's elements row by row, whatever its strides, and csv_read_row the elements of the span in order, and they change no other memory. If they return, all elements have been assigned, with the numbers of the text, and they do return if the text has those numbers; if they throw csv_read_error, the elements assigned so far are the first ones.", "quantifier": "all texts, views without overlapping elements, memories, number readers and separators", "why_tests_cant": "All layouts and texts.", "anchors": ["src/include/guanaqo/implementation/io/csv.tpp: csv_read, csv_read_row", "src/include/guanaqo/io/csv.hpp: csv_read"]}
{"id": "C119", "title": "No input error goes unnoticed", "statement": "Whichever access to the stream buffer fails while csv_read, csv_read_row or csv_read_row_std_vector run: they return only if no access they made failed, and then the result is that of an undisturbed stream; otherwise they throw csv_read_error, and the elements assigned are the first of those that an undisturbed stream would have given.", "quantifier": "all texts and all points at which accesses to the stream buffer fail", "why_tests_cant": "All failure points.", "anchors": ["src/include/guanaqo/implementation/io/csv.tpp: CSVReader, csv_read, csv_read_row, csv_read_row_std_vector"]}
{"id": "C120", "title": "Saving and loading a matrix copies it", "statement": "Writing a matrix view with print_csv and reading the text into another view of the same size with csv_read makes the elements of the second view those of the first, and changes no other memory, whatever the strides of the two views; what follows the text stays in the stream. If the stream being read fails on the way, csv_read throws with the first elements copied, or the copy is complete.", "quantifier": "all views, contents, separators and options, and all failure points", "why_tests_cant": "All layouts and values.", "anchors": ["src/include/guanaqo/print.hpp: print_csv", "src/include/guanaqo/implementation/io/csv.tpp: csv_read"]}
{"id": "C121", "title": "Circular iterators work for every index type and in any direction", "statement": "For every built-in index type that can hold the ring size (also when the ring size is the largest value of the type), with assertions on or off: any sequence of ++it, it++, --it, it-- whose positions stay between 0 and the ring size runs without undefined behaviour, ends at the position the operations add up to, and dereferencing each result gives zero-based index p and slot (start + p) mod max, where p is the new position for the prefix and the old one for the postfix operators. Loops over the range and its reverse give the same elements as with unbounded integers. With assertions on, a sequence that leaves [0, max] stops at a failed assertion.", "quantifier": "all integer types, ring sizes, starts and sequences of operations", "why_tests_cant": "All wrap positions, widths and walks.", "anchors": ["src/include/guanaqo/ringbuffer.hpp: CircularIndexIterator::operator++/--, ReverseCircularIndexIterator"]}
{"id": "C122", "title": "Durations are parsed the same with the fallback of from_chars", "statement": "parse_duration gives the same duration and the same exceptions, with the same text quoted, whether from_chars is std::from_chars or the replacement by std::stod that is used with Clang and older compilers; it terminates with both.", "quantifier": "all strings, durations, resolutions, and C libraries that conform to the standard", "why_tests_cant": "All strings; and tests run with one of the two.", "anchors": ["src/include/guanaqo/from_chars-wrapper.hpp: from_chars", "src/include/guanaqo/duration-parse.hpp: parse_duration"]}
{"id": "C123", "title": "Floating-point numbers are read the same without std::from_chars", "statement": "On platforms without std::from_chars, csv_read and the row readers accept the same files of floating-point numbers and return the same numbers as on the others, and what print_csv wrote (with std::to_chars or with snprintf) is read back exactly.", "quantifier": "all files of rows with fields of at most 63 characters, all formats (float, double, long double), separators, and C libraries that round correctly", "why_tests_cant": "All files; and tests run with one of the configurations and one C library.", "anchors": ["src/include/guanaqo/implementation/io/csv.tpp: CSVReader::read_single, strtod_ovl, csv_read", "src/include/guanaqo/implementation/print.tpp: print_elem", "src/src/print.cpp: float_to_str_vw_snprintf"]}
{"id": "C124", "title": "Tracing is sound under the C++ memory model", "statement": "In every execution that the C++ memory model allows, with any number of threads (and not only under interleavings): events that no reset separates never share a record; recording events has no data race; get_logs counts at least the events ordered before it, at most those not ordered after it, and exactly the former when all events are ordered with it; whoever reads records that are ordered with the events finds in them what the events wrote. Provided reset is called only when nothing else is going on and records are read only by callers that the program orders with the events; without these provisos there are executions with data races.", "quantifier": "all programs (threads, calls and their orders), all executions allowed by the memory model", "why_tests_cant": "Weak memory behaviours do not show up in tests on the machines at hand, and the number of executions is unbounded.", "anchors": ["src/include/guanaqo/trace.hpp: TraceLogger (trace, ScopedLog, get_logs, reset)"]}
{"id": "C125", "title": "A stop request also passes on the data written before it", "statement": "A thread that has seen stop_requested() return true may read what the thread that called stop() had written before.", "quantifier": "all programs using stop signals and plain data, all executions allowed by the memory model", "why_tests_cant": "Weak memory behaviours depend on the compiler and on the machine.", "anchors": ["src/include/guanaqo/atomic-stop-signal.hpp: AtomicStopSignal"]}
{"id": "C126", "title": "The stream's format does not change what is printed", "statement": "print_csv, print_matlab and print_python write the same text whatever the width, fill, alignment, base, sign flag and locale set on the stream, and leave the stream's format as it was.", "quantifier": "all matrices, options, element types and stream formats", "why_tests_cant": "All combinations of flags, locales, sizes and options.", "anchors": ["src/include/guanaqo/implementation/print.tpp: print_csv_impl, print_matlab_impl, print_python_impl, print_elem", "src/include/guanaqo/print.hpp"]}
{"id": "C127", "title": "A failing output stream has received the beginning of the text", "statement": "If the stream buffer refuses a character while a matrix is printed, the stream has received exactly the text up to that character, nothing follows, and the stream is no longer good(); if it accepts all of them the stream is good and has the whole text. A stream that had failed before is left alone.", "quantifier": "all matrices, options, element types, stream formats, stream buffers (state machines) and points of failure", "why_tests_cant": "Any character may be the first that is refused.", "anchors": ["src/include/guanaqo/implementation/print.tpp: print_csv_impl, print_matlab_impl, print_python_impl, print_elem"]}
{"id": "C128", "title": "A matrix printed to a callback_streambuf reaches the callback", "statement": "Printing a matrix to a stream with a callback_streambuf that is then destroyed passes exactly the text to the callback, in pieces that are valid UTF-8, and csv_read of what arrived gives the matrix.", "quantifier": "all matrices, options and buffer sizes", "why_tests_cant": "Buffer boundaries may be anywhere in the text.", "anchors": ["src/include/guanaqo/implementation/print.tpp: print_csv_impl", "src/include/guanaqo/callback-streambuf.hpp: callback_streambuf", "src/include/guanaqo/implementation/io/csv.tpp: csv_read"]}
{"id": "C129", "title": "Sizes of conversions do not wrap around", "statement": "work_size() and nnz_from() are the numbers of elements that convert_values needs, and conversions give the matrix, on a machine with 64-bit std::size_t and std::ptrdiff_t, whatever the dimensions of the matrix (also of sparse matrices with few elements and huge dimensions).", "quantifier": "all valid patterns of all formats and dimensions, all targets and requests", "why_tests_cant": "Overflow of products of sizes occurs only for dimensions that no test uses.", "anchors": ["src/include/guanaqo/linalg/sparsity-conversions.hpp: SparsityConverter::work_size, nnz_from, convert_sparsity, convert_values"]}
{"id": "C130", "title": "as_column is the span as a column", "statement": "MatrixView::as_column(v) is a view with one column and v.size() rows, whose element (i, 0) is v[i]; writing to it writes to the span and nowhere else. Members left out of the designated initializer get defaults, with which a view made from {} is empty.", "quantifier": "all stride types, spans and values", "why_tests_cant": "Stride types other than the default one.", "anchors": ["src/include/guanaqo/mat-view.hpp: MatrixView::as_column, PlainMatrixView, default_stride"]}
{"id": "C131", "title": "convert_values writes its workspace only", "statement": "On memory, convert_values changes nothing outside of the workspace, also when it throws, and leaves the input values untouched; it returns the input span (and then changes nothing at all) or the workspace, and the returned span has the values of the same matrix in the new format.", "quantifier": "all patterns, targets, requests, builds and memories; for the values, all valid patterns and all pairs of spans that do not overlap", "why_tests_cant": "Every memory layout, and exceptions part-way.", "anchors": ["src/include/guanaqo/linalg/sparsity-conversions.hpp: SparsityConverter::convert_values"]}
{"id": "C132", "title": "numeric_limits<__float128> describes the type", "statement": "std::numeric_limits<__float128>: max() is the largest finite number, min() the smallest normal one, denorm_min() the smallest positive one, 1 + epsilon() the number after 1, round_error() the largest rounding error in units in the last place, and the exponents are those of the range: max_exponent and min_exponent of the powers of two, max_exponent10 and min_exponent10 of the powers of ten.", "quantifier": "all finite quad-precision numbers, however the compiler breaks ties when it rounds the literals", "why_tests_cant": "Extremal over 2^128 numbers.", "anchors": ["src/include/guanaqo/quadmath/quadmath.hpp: numeric_limits<__float128>"]}
{"id": "C133", "title": "Type-erased calls pass their arguments", "statement": "A call through a TypeErased wrapper gives the method the arguments of the caller, in order: by-value parameters have the values of the arguments (an lvalue is copied once, an rvalue is not copied and moved from), reference parameters refer to the caller's own objects. All parameters are destroyed, each once, also if a constructor throws, in which case the method does not run. If a non-const method is called on an object held by const reference, bad_type_erased_constness is thrown and the arguments are untouched.", "quantifier": "all methods, required and optional, all numbers and kinds of parameters and arguments, all orders of initialization of parameters, all constructors that throw, where no object that is moved into a parameter is used for another one", "why_tests_cant": "Number and kinds of parameters, orders of evaluation, exceptions at each point.", "anchors": ["src/include/guanaqo/type-erasure.hpp: TypeErased::call", "src/include/guanaqo/type-erasure.hpp: detail::Launderer", "src/include/guanaqo/type-erasure.hpp: type_erased_wrapped"]}
{"id": "C134", "title": "Const objects and vtables", "statement": "An object can be held by const reference in a wrapper with any vtable: a vtable can be made for a const class whatever methods it has, and the functions for non-const methods throw bad_type_erased_constness.", "quantifier": "all method signatures", "why_tests_cant": "Whether types match, over all signatures.", "anchors": ["src/include/guanaqo/type-erasure.hpp: detail::Launderer::invoker_ovl", "src/include/guanaqo/required-method.hpp: GUANAQO_TE_REQUIRED_METHOD"]}
{"id": "C135", "title": "Postfix increment", "statement": "it++ on an iterator of enumerate, set_intersection or iter_range_adapter advances it as ++it does, and its value is the iterator as it was.", "quantifier": "all ranges, cursors and states", "why_tests_cant": "All iterators and states.", "anchors": ["src/include/guanaqo/enumerate.hpp: iter_t", "src/include/guanaqo/set-intersection.hpp: iter_t", "src/include/guanaqo/iter-adapter.hpp: iter_t"]}
{"id": "C136", "title": "Calling customization points", "statement": "guanaqo_tag_invoke(tag, args...) does what a direct call of the overload found by argument-dependent lookup does: the tag is copied or moved once into the call and passed on as an rvalue, the other arguments are the very objects of the caller with their value categories; results, exceptions, copies, moves and destructions are the same, and noexcept never ends the program. nothrow_tag_invocable holds exactly if no exception can occur, and tag_invocable exactly if the overload accepts an rvalue of the tag and the arguments.", "quantifier": "all overloads, arguments, value categories, orders of initialization and throwing constructors", "why_tests_cant": "All combinations of parameter types, categories, noexcept declarations and orders of evaluation.", "anchors": ["src/include/guanaqo/tag-invoke.hpp: tag_invoke_fn, tag_invocable, nothrow_tag_invocable"]}
{"id": "C137", "title": "Numbers the standard library cannot print", "statement": "Where std::to_chars does not support std::float128_t, the printed text still reads back as the number.", "quantifier": "all numbers of quadruple precision, all formats of long double that are no wider, all correctly rounding conversions", "why_tests_cant": "All 2^128 values; tests run on one platform.", "anchors": ["src/src/print.cpp: float_to_str_vw_impl", "src/include/guanaqo/implementation/print.tpp: print_elem"]}
{"id": "C138", "title": "Views of values with a sparsity pattern", "statement": "linalg::MatrixView of values and dimensions is the matrix with element (r, c) at position r + c * rows; a default-constructed one is a matrix without rows, columns and values; and every view describes the same matrix after any conversions of its pattern and values.", "quantifier": "all values, dimensions, symmetries, patterns and sequences of conversions", "why_tests_cant": "All shapes and conversions.", "anchors": ["src/include/guanaqo/linalg/matrix-view.hpp: MatrixView", "src/include/guanaqo/linalg/sparsity.hpp: Dense"]}
{"id": "C139", "title": "Writing a trace", "statement": "The column headings and one line per record, written to a stream, determine all the records, whatever characters are in the names; the format of the stream does not change the text; a stream that fails has received the beginning of it.", "quantifier": "all records, lists of records, stream formats and stream buffers", "why_tests_cant": "All names and numbers, all formats, and failures at every character.", "anchors": ["src/include/guanaqo/trace.hpp: TraceLogger::Log operator<<, write_column_headings"]}
{"id": "C140", "title": "Tracing never blocks", "statement": "A call of trace never waits for another thread: wherever the others have stopped, its next step is possible, and it returns after at most nine of its own steps, handing over a scope. Scopes can be closed and moved, records reset and calls begun at any time.", "quantifier": "all capacities, numbers of threads, interleavings and points where threads stop", "why_tests_cant": "A thread may be stopped at every point of a call; tests see a few interleavings.", "anchors": ["src/include/guanaqo/trace.hpp: TraceLogger::trace, ScopedLog::~ScopedLog, reset"]}
{"id": "C141", "title": "Owning objects in storage of one's own", "statement": "With noop_delete, a std::unique_ptr destroys the object it owns exactly once, at the end of ownership, and never releases the storage, which can be used again; no destructor runs where there is no object. Through a pointer to a base class the complete object is destroyed exactly if the destructor is virtual.", "quantifier": "all programs of constructions, moves, conversions, assignments, resets and releases", "why_tests_cant": "Every history of ownership; a double destruction often goes unnoticed.", "anchors": ["src/include/guanaqo/noop-delete.hpp: noop_delete"]}
{"id": "C142", "title": "Quad-precision numbers in any stream", "statement": "os << x for a __float128 pads the number to the width of the stream like any string and resets the width; the flags and the locale of the stream do not change what is written; a stream that fails has received the beginning, and one that had failed before is left alone. Numbers streamed one after another with a separator and at least 36 digits read back as exactly the same numbers.", "quantifier": "all values and lists of values, precisions from 1 to 119 (118 for reading back), stream formats, stream buffers and points of failure", "why_tests_cant": "All values, formats and failure points.", "anchors": ["src/src/quadmath/quadmath-print.cpp: operator<<", "src/include/guanaqo/quadmath/quadmath-print.hpp"]}
{"id": "C143", "title": "What a wrapper says about its content", "statement": "After any program, a type-erased wrapper converts to true exactly if it holds something and get_allocator() is the allocator it was given (or got by assignment or move); if it holds something, owns_referenced_object() is true exactly if the object is its own, and referenced_object_is_const() exactly if it refers to a const object. The queries change nothing.", "quantifier": "all programs of constructions, copies, moves, assignments (with allocators that propagate or not), accesses, exceptions and destructions", "why_tests_cant": "Histories of any length over any number of wrappers; the answers are encoded in special values of a size.", "anchors": ["src/include/guanaqo/type-erasure.hpp: TypeErased::operator bool, get_allocator, owns_referenced_object, referenced_object_is_const"]}
{"id": "C144", "title": "Assignment between overlapping views", "statement": "Assigning (or adding with +=) one view to another of the same size acts as if every element of the source were read before any element of the destination is written, also when the two overlap; in particular shifting the rows or columns of a matrix by assigning one part of it to another moves them.", "quantifier": "all pairs of views with equal sizes, any strides and positions, all memories, copy_n element by element or as memmove", "why_tests_cant": "How the views overlap ranges over all strides and distances; wrong results depend on the direction.", "anchors": ["src/include/guanaqo/mat-view.hpp: copy_values, operator=, operator+="]}
{"id": "C145", "title": "Threads may work on separate parts of a matrix", "statement": "When several threads at once fill, generate, copy into or add to views (set_constant, generate, copy_values, operator= and operator+=) that share no element with each other or with what other threads read, such as different blocks of one matrix, there is no data race, every thread finishes as it would alone, and afterwards every view holds what its thread alone would have stored and no other memory has changed.", "quantifier": "all numbers of threads, views, operations, memories and interleavings of the single memory accesses", "why_tests_cant": "Schedules of single accesses.", "anchors": ["src/include/guanaqo/mat-view.hpp: set_constant, copy_values, operator=, operator+=, generate"]}
{"id": "C146", "title": "set_intersection is lazy and linear", "statement": "iter_set_intersection works on sorted ranges without an end as well: begin() and ++ find the next common element if there is one, without looking at any position behind it, and otherwise end exactly if one of the ranges ends and the other does not stay before one of its elements for ever. The elements found are the first ones that finite ranges that begin in the same way would give. Visiting the intersection of two finite ranges, sorted or not, calls the comparison at most 2(m+n) times.", "quantifier": "all pairs of ranges with or without end, all comparisons that are strict weak orders (the cost: any comparison), all projections and all positions", "why_tests_cant": "Ranges without end have no last element to test; whether a search ends is a statement about infinitely many elements.", "anchors": ["src/include/guanaqo/set-intersection.hpp: set_intersection_iterable::begin, iter_t::operator++, iter_t::advance"]}
{"id": "C147", "title": "Intersections of intersections", "statement": "iter_set_intersection(iter_set_intersection(r1, r2), r3, ...), with the keys of the pairs taken from their first elements, visits in key order, for every key, the elements of the three sorted ranges with that key in order, as many as the shortest of the three. More generally the intersection of two ranges of any kind visits what it would visit for the lists of their elements. Which two of three sorted ranges are intersected first makes no difference, swapping the ranges only swaps the elements of the pairs, and a range intersected with itself is paired with itself.", "quantifier": "all sorted ranges (commutativity and the last: all ranges), all strict weak orders and projections, iterators of any type", "why_tests_cant": "Laws about all ranges with any multiplicities of equivalent keys.", "anchors": ["src/include/guanaqo/set-intersection.hpp: iter_set_intersection, set_intersection_iterable, iter_t"]}
{"id": "C148", "title": "MaxHistory ignores NaN", "statement": "When some of the floating-point values added to a MaxHistory are NaN, max() is the largest number among the last memory values, if there is a number among them.", "quantifier": "all sequences of numbers and NaN, all memory lengths >= 1", "why_tests_cant": "Whether max() is right depends on where in the buffer NaN lies when the largest value is dropped; all histories.", "anchors": ["src/include/guanaqo/max-history.hpp: MaxHistory"]}
{"id": "C149", "title": "Several threads may load libraries at once", "statement": "When several threads call load_lib and load_func at the same time, on any POSIX system, every call returns or throws what it would without the other threads, with the message of its own failure.", "quantifier": "all numbers of threads, programs and interleavings of their calls of the loader, all outcomes of dlopen and dlsym", "why_tests_cant": "Whether a message is lost or given to the wrong thread depends on the schedule.", "anchors": ["src/src/dl.cpp: load_lib, load_func"]}
{"id": "C150", "title": "Copies keep objects of derived classes", "statement": "A copyable_unique_ptr<T> made from a unique_ptr to an object of a class derived from T has copies that are objects of the same class with the same contents; every object belongs to one variable and is deleted exactly once.", "quantifier": "all histories of constructions, copies, moves, assignments and destructions of any number of variables, with objects of T and of any classes derived from it, with and without a virtual destructor", "why_tests_cant": "Tests copy objects of the class T; whether an object of another class survives depends on the history of the variable.", "anchors": ["src/include/guanaqo/copyable-unique_ptr.hpp: copyable_unique_ptr"]}
{"id": "C151", "title": "Joining reads every string once", "statement": "join and join_quote work for ranges that can be passed only once and for ranges that compute their elements: every string is read exactly once, in order, no invalid iterator is used, and the first exception of the range is passed on with nothing read after it.", "quantifier": "all input ranges that compile, whose reads and increments may throw anything at any position", "why_tests_cant": "Tests join vectors; a second read of an element or the use of an old iterator shows with other ranges only.", "anchors": ["src/include/guanaqo/string-util.hpp: join, join_quote"]}
{"id": "C152", "title": "Timers on narrow integer durations", "statement": "A Timed scope on a duration of any integer type, also of one that cannot hold the clock's readings, adds the time between its construction and its destruction, if the type can hold the result.", "quantifier": "all integer types, periods that the clock's is a multiple of, histories of nested and overlapping scopes and clock readings", "why_tests_cant": "Whether an intermediate value overflows depends on the clock, i.e. on when the test runs.", "anchors": ["src/include/guanaqo/timed.hpp: Timed"]}
{"id": "C153", "title": "Timed calls", "statement": "timed(time, f, args...) returns what f returns and throws what f throws, and adds the duration of the call to time either way, also if f calls timed again, with the same or another accumulator.", "quantifier": "all programs of functions that take time, return, throw, catch and call timed, all accumulators and clock readings that fit", "why_tests_cant": "Tests time single calls; recursion on one accumulator and exceptions at every depth are too many to try.", "anchors": ["src/include/guanaqo/timed.hpp: timed, Timed"]}
{"id": "C154", "title": "Assigning through enumerate", "statement": "In for (auto [i, x] : enumerate(range)), x refers to the element of the range: the loop does what a loop by index does with range[i], whatever its body assigns and wherever it breaks; elements that are not const can be assigned to.", "quantifier": "all ranges of elements in memory, bodies, and ways to pass the range", "why_tests_cant": "The body may write to elements that the loop has yet to reach, or has passed.", "anchors": ["src/include/guanaqo/enumerate.hpp: enumerate, enumerate_t"]}
{"id": "C155", "title": "Positions of common elements", "statement": "enumerate(iter_set_intersection(a, b)) numbers the common elements from 0; iter_set_intersection(enumerate(a), enumerate(b)) with projections to the elements gives the common elements with their positions in a and in b, each at most once and in increasing order.", "quantifier": "all ranges whose lengths fit their difference type, all comparisons and projections; for the first part ranges of any kind of iterators", "why_tests_cant": "Each function is tested alone, on vectors; iterators of one as input of the other are not.", "anchors": ["src/include/guanaqo/enumerate.hpp: enumerate; src/include/guanaqo/set-intersection.hpp: iter_set_intersection"]}
