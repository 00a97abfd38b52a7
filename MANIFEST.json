{
 "claims": [
  {
   "property": "C01",
   "status": "proved",
   "theorems": [
    "Guanaqo.Sparsity.csc_to_dense"
   ],
   "note": ""
  },
  {
   "property": "C02",
   "status": "proved",
   "theorems": [
    "Guanaqo.Sparsity.coo_to_dense"
   ],
   "note": ""
  },
  {
   "property": "C03",
   "status": "proved",
   "theorems": [
    "Guanaqo.Sparsity.dense_to_coo"
   ],
   "note": ""
  },
  {
   "property": "C04",
   "status": "proved",
   "theorems": [
    "Guanaqo.Sparsity.dense_to_csc"
   ],
   "note": ""
  },
  {
   "property": "C05",
   "status": "proved",
   "theorems": [
    "Guanaqo.Sparsity.csc_to_coo"
   ],
   "note": ""
  },
  {
   "property": "C06",
   "status": "proved",
   "theorems": [
    "Guanaqo.Sparsity.coo_to_coo",
    "Guanaqo.Sparsity.narrowing_wraps"
   ],
   "note": "for index types that can hold the indices; narrowing_wraps shows what happens otherwise"
  },
  {
   "property": "C07",
   "status": "proved",
   "theorems": [
    "Guanaqo.Sparsity.coo_to_csc"
   ],
   "note": ""
  },
  {
   "property": "C08",
   "status": "proved",
   "theorems": [
    "Guanaqo.Sparsity.csc_to_csc",
    "Guanaqo.Sparsity.csc_to_csc_columns"
   ],
   "note": ""
  },
  {
   "property": "C09",
   "status": "proved",
   "theorems": [
    "Guanaqo.Sparsity.nonsquare_to_dense_refused",
    "Guanaqo.Sparsity.wrong_triangle_refused",
    "Guanaqo.Sparsity.dense_to_sparse_refused",
    "Guanaqo.Sparsity.convert_faithful"
   ],
   "note": ""
  },
  {
   "property": "C10",
   "status": "proved",
   "theorems": [
    "Guanaqo.Sparsity.within_bounds_all_written"
   ],
   "note": ""
  },
  {
   "property": "C100",
   "status": "proved",
   "theorems": [
    "Guanaqo.TypeErased.optional_call",
    "Guanaqo.TypeErased.optional_origin",
    "Guanaqo.TypeErased.optional_static",
    "Guanaqo.TypeErased.optional_provides",
    "Guanaqo.TypeErased.make_eq",
    "Guanaqo.TypeErased.not_providesNow"
   ],
   "note": "The choice is made once: not_providesNow shows that an object that changes after it was wrapped is not asked again. Whether the type has the members is decided by the compiler and a parameter here."
  },
  {
   "property": "C101",
   "status": "partial",
   "theorems": [
    "Guanaqo.Float.snprintf_same_partial",
    "Guanaqo.Float.snprintf_same_iff",
    "Guanaqo.Float.snprintf_nan",
    "Guanaqo.Float.snprintf_no_digits",
    "Guanaqo.Float.snprintf_fits",
    "Guanaqo.Float.snprintfVw_complete_iff",
    "Guanaqo.Float.snprintfVw_long",
    "Guanaqo.Float.snprintf_readsBack",
    "Guanaqo.Float.snprintf_round_trip_partial",
    "Guanaqo.Float.snprintf_float",
    "Guanaqo.Float.snprintf_float_round_trip_partial",
    "Guanaqo.Float.not_sameText"
   ],
   "note": "Proved for all formats and precisions 1 to 52 except positive NaNs, and for reading back; snprintf_same_iff is exact for every precision but 0: the text differs only if it has 64 characters. False for NaNs (+nan instead of nan) and for precision 0 (1.e+00 instead of 1e+00); texts of 64 characters and more are cut off or undefined."
  },
  {
   "property": "C102",
   "status": "partial",
   "theorems": [
    "Guanaqo.Trace.Itt.itt_balanced",
    "Guanaqo.Trace.Itt.itt_all_gone",
    "Guanaqo.Trace.Itt.itt_begin_registered",
    "Guanaqo.Trace.Itt.itt_scope_calls",
    "Guanaqo.Trace.Itt.clamp_spec",
    "Guanaqo.Trace.Itt.no_records",
    "Guanaqo.Trace.Itt.itt_ends_own_partial",
    "Guanaqo.Trace.Itt.itt_nested_complete_partial",
    "Guanaqo.Trace.Itt.not_endsOwnTask",
    "Guanaqo.Trace.Itt.itt_ends_own_iff",
    "Guanaqo.Trace.Itt.itt_defined_iff"
   ],
   "note": "Begin and end calls and ids are balanced in every history. The task that ends is the scope's own if the scopes of a thread are destroyed by it in the reverse order of their opening, as those of GUANAQO_TRACE are; false otherwise (exactly: itt_ends_own_iff). Instance numbers beyond 255 become 255, negative ones 0."
  },
  {
   "property": "C103",
   "status": "partial",
   "theorems": [
    "Guanaqo.Streambuf.throw_accepted",
    "Guanaqo.Streambuf.throw_reported_partial",
    "Guanaqo.Streambuf.not_throwKeepsText",
    "Guanaqo.Streambuf.throw_overruns",
    "Guanaqo.Streambuf.throw_moves",
    "Guanaqo.Streambuf.throw_destroy",
    "Guanaqo.Streambuf.syncT_false",
    "Guanaqo.Streambuf.sputcT_false",
    "Guanaqo.Streambuf.throw_exact",
    "Guanaqo.Streambuf.put_fails_iff",
    "Guanaqo.Streambuf.flush_fails_iff"
   ],
   "note": "Proved for histories in which the callback throws only while flushing; in general the bytes that were accepted are exactly those delivered and buffered. False because the byte that fills the buffer is kept though it is reported as failed, and each further one is written one byte beyond the end; the destructor terminates the program."
  },
  {
   "property": "C104",
   "status": "partial",
   "theorems": [
    "Guanaqo.BadType.what_text",
    "Guanaqo.BadType.what_last_partial",
    "Guanaqo.BadType.what_message_lost",
    "Guanaqo.BadType.not_messageKept",
    "Guanaqo.BadType.what_invalidates",
    "Guanaqo.BadType.not_whatStaysValid",
    "Guanaqo.BadType.what_no_memory",
    "Guanaqo.BadType.what_undefined"
   ],
   "note": "The two names are in the text for every number of calls. False otherwise: the message is overwritten, every call frees the text of the one before, and a failing allocation ends the program."
  },
  {
   "property": "C105",
   "status": "partial",
   "theorems": [
    "Guanaqo.BadType.demangled_correct_partial",
    "Guanaqo.BadType.not_demangledDefined"
   ],
   "note": "The name is returned and memory is released on every path. Undefined exactly when the demangler returns null (it has no memory, or refuses the name)."
  },
  {
   "property": "C106",
   "status": "partial",
   "theorems": [
    "Guanaqo.Macros.num_args_partial",
    "Guanaqo.Macros.num_args_more",
    "Guanaqo.Macros.not_countsAll",
    "Guanaqo.Macros.join_tokens_partial",
    "Guanaqo.Macros.join_tokens_dispatch",
    "Guanaqo.Macros.join_tokens_more",
    "Guanaqo.Macros.not_joinsAll",
    "Guanaqo.Macros.join_strings_partial"
   ],
   "note": "Proved for one to ten arguments. With eleven and more, the eleventh argument is taken for the number of arguments, and nothing is joined; there is no diagnostic from the macro itself."
  },
  {
   "property": "C107",
   "status": "proved",
   "theorems": [
    "Guanaqo.Macros.alias_distinct",
    "Guanaqo.Macros.alias_same",
    "Guanaqo.Macros.guarded_nodup"
   ],
   "note": "Types are taken to be equal or not as they are declared; the tag types are distinct by C++'s rules for templates."
  },
  {
   "property": "C108",
   "status": "proved",
   "theorems": [
    "Guanaqo.Float.quad_limits_correct",
    "Guanaqo.Float.digits_suffice_of",
    "Guanaqo.Float.digits_survive",
    "Guanaqo.Float.digits35_collide",
    "Guanaqo.Float.digits34_lost"
   ],
   "note": "quad_limits_correct is the claim; the constants of quadmath.h (113 and 33) are taken as they are. digits_suffice_of and digits_survive hold for all binary formats."
  },
  {
   "property": "C109",
   "status": "partial",
   "theorems": [
    "Guanaqo.Sparsity.narrowing_iff_partial",
    "Guanaqo.Sparsity.not_narrowingSafe",
    "Guanaqo.Sparsity.narrowing_wraps",
    "Guanaqo.Sparsity.narrowing_merges",
    "Guanaqo.Sparsity.coo_to_coo"
   ],
   "note": "False: indices are cast and wrap. Positions are kept exactly if all indices fit the new type."
  },
  {
   "property": "C11",
   "status": "proved",
   "theorems": [
    "Guanaqo.Sparsity.convert_faithful",
    "Guanaqo.Sparsity.chain_preserves",
    "Guanaqo.Sparsity.chain_continues",
    "Guanaqo.Sparsity.dense_round_trip",
    "Guanaqo.Sparsity.csc_round_trip"
   ],
   "note": ""
  },
  {
   "property": "C110",
   "status": "partial",
   "theorems": [
    "Guanaqo.TimedPrint.timings_written",
    "Guanaqo.TimedPrint.timings_exact",
    "Guanaqo.TimedPrint.timings_bad",
    "Guanaqo.TimedPrint.precision_kept_iff",
    "Guanaqo.TimedPrint.precision_kept_partial",
    "Guanaqo.TimedPrint.thrown_only_if_asked",
    "Guanaqo.TimedPrint.not_precisionKept"
   ],
   "note": "False only if the stream was asked to throw and writing fails: then the precision stays at 5 or 6."
  },
  {
   "property": "C111",
   "status": "proved",
   "theorems": [
    "Guanaqo.Lifetime.start_lifetime_keeps_bytes",
    "Guanaqo.Lifetime.start_lifetime_defined_iff",
    "Guanaqo.Lifetime.start_lifetime_others"
   ],
   "note": "About the bytes; the lifetime of objects is a notion of the language that the model does not have."
  },
  {
   "property": "C112",
   "status": "proved",
   "theorems": [
    "Guanaqo.Duration.parse_exact",
    "Guanaqo.Duration.outcome_total",
    "Guanaqo.Duration.fromCharsDouble_exact",
    "Guanaqo.Duration.fromCharsDouble_none",
    "Guanaqo.Duration.doubleRange_iff"
   ],
   "note": "The language of durations: an exact specification of what is accepted, with which result, and of each kind of failure."
  },
  {
   "property": "C113",
   "status": "partial",
   "theorems": [
    "Guanaqo.Duration.failure_blames",
    "Guanaqo.Duration.quotes_unit",
    "Guanaqo.Duration.quotes_offender_partial",
    "Guanaqo.Duration.not_quotesOffender",
    "Guanaqo.Duration.parseX_erase"
   ],
   "note": "False for numbers too large for double: the text after the number is quoted, which may be empty (1e999). Units and missing numbers are quoted correctly."
  },
  {
   "property": "C114",
   "status": "proved",
   "theorems": [
    "Guanaqo.Print.print_view",
    "Guanaqo.Print.print_span",
    "Guanaqo.Print.print_reads",
    "Guanaqo.Print.print_subview",
    "Guanaqo.Print.print_after_copy",
    "Guanaqo.Print.vwInto_text",
    "Guanaqo.Print.floatElem_prints",
    "Guanaqo.Print.intElem_prints",
    "Guanaqo.Print.complexElem_prints",
    "Guanaqo.Print.complexElemEager_text",
    "Guanaqo.Print.double_elem_prints"
   ],
   "note": ""
  },
  {
   "property": "C115",
   "status": "proved",
   "theorems": [
    "Guanaqo.Assert.conversions_only_check",
    "Guanaqo.Assert.sparse_only_check",
    "Guanaqo.Assert.csv_assertions_hold",
    "Guanaqo.Assert.print_only_check",
    "Guanaqo.TypeErased.step_only_asserts",
    "Guanaqo.TypeErased.wrappers_only_check",
    "Guanaqo.TypeErased.wrappers_same_builds",
    "Guanaqo.MatView.views_debug",
    "Guanaqo.MatView.views_only_check",
    "Guanaqo.MatView.view_loops_assertions_hold",
    "Guanaqo.MatView.release_larger_operand",
    "Guanaqo.Ring.ring_only_check",
    "Guanaqo.Ring.ring_compare"
   ],
   "note": ""
  },
  {
   "property": "C116",
   "status": "proved",
   "theorems": [
    "Guanaqo.Assume.builds_agree",
    "Guanaqo.Assume.violations",
    "Guanaqo.Assume.check_defined",
    "Guanaqo.Assume.checks_iff",
    "Guanaqo.Assume.check_throws_iff",
    "Guanaqo.Assume.exec_deterministic",
    "Guanaqo.Assume.assume_agrees_iff"
   ],
   "note": "Conditions with side effects do not mean the same (assume_agrees_iff); those in the library have none."
  },
  {
   "property": "C117",
   "status": "proved",
   "theorems": [
    "Guanaqo.Blas.cholesky_solves",
    "Guanaqo.Blas.blocked_factorises",
    "Guanaqo.Blas.blocked_solves"
   ],
   "note": "For exact arithmetic (any field), and libraries that conform to the contract of C66."
  },
  {
   "property": "C118",
   "status": "proved",
   "theorems": [
    "Guanaqo.Csv.csv_read_stores",
    "Guanaqo.Csv.csv_read_returns",
    "Guanaqo.Csv.csv_read_returns_std",
    "Guanaqo.Csv.csv_row_stores",
    "Guanaqo.Csv.csv_row_returns"
   ],
   "note": "For views whose elements do not overlap, and for any read_single (with std::from_chars, strtol or strtod)."
  },
  {
   "property": "C119",
   "status": "proved",
   "theorems": [
    "Guanaqo.Csv.csv_read_faults",
    "Guanaqo.Csv.csv_row_stores",
    "Guanaqo.Csv.csv_vector_faults",
    "Guanaqo.Csv.csv_vector_returns"
   ],
   "note": "For any read_single (with std::from_chars, strtol or strtod). An error is an exception of the stream buffer, which the standard library turns into badbit (streams with exceptions() enabled are not modelled)."
  },
  {
   "property": "C12",
   "status": "proved",
   "theorems": [
    "Guanaqo.Sparsity.uniqueness_csc_exact",
    "Guanaqo.Sparsity.uniqueness_triplets_exact",
    "Guanaqo.Sparsity.uniqueness_no_false_alarm",
    "Guanaqo.Sparsity.uniqueness_unsorted_misses",
    "Guanaqo.Sparsity.uniqueness_csc_defined_iff"
   ],
   "note": ""
  },
  {
   "property": "C120",
   "status": "partial",
   "theorems": [
    "Guanaqo.Print.csv_copy_partial",
    "Guanaqo.Print.csv_copy_ints_partial",
    "Guanaqo.Print.csv_copy_ints_strtol_partial",
    "Guanaqo.Print.csv_copy_iff",
    "Guanaqo.Print.not_csvCopies",
    "Guanaqo.Float.csv_copy_floats_partial",
    "Guanaqo.Float.csv_copy_floats_strtod_partial"
   ],
   "note": "False for column vectors of several rows with the default options, which are printed on one line: csv_read then throws. Exactly: csv_copy_iff."
  },
  {
   "property": "C121",
   "status": "proved",
   "theorems": [
    "Guanaqo.Ring.machine_walk",
    "Guanaqo.Ring.machine_walk_iff",
    "Guanaqo.Ring.machine_iteration",
    "Guanaqo.Ring.machine_reverse_walk"
   ],
   "note": ""
  },
  {
   "property": "C122",
   "status": "partial",
   "theorems": [
    "Guanaqo.Duration.fallback_agrees_iff",
    "Guanaqo.Duration.fallback_parse",
    "Guanaqo.Duration.fallback_parse_partial",
    "Guanaqo.Duration.fallback_sum_of_terms",
    "Guanaqo.Duration.fallback_terminates",
    "Guanaqo.Duration.fallback_quotes_offender",
    "Guanaqo.Duration.not_sameWithFallback",
    "Guanaqo.Duration.parseFc_std"
   ],
   "note": "False: std::stod also skips tabs and line ends, reads hexadecimal numbers and may reject subnormal numbers, and the text quoted for numbers that are too large differs. Exactly where from_chars differs: fallback_agrees_iff. The documented texts with zero or normal numbers are parsed the same."
  },
  {
   "property": "C123",
   "status": "partial",
   "theorems": [
    "Guanaqo.Float.same_floats_partial",
    "Guanaqo.Float.same_field_iff",
    "Guanaqo.Float.same_float_file_iff",
    "Guanaqo.Float.std_field_iff",
    "Guanaqo.Float.c_field_iff",
    "Guanaqo.Float.c_row_iff",
    "Guanaqo.Float.c_read_iff",
    "Guanaqo.Float.c_round_trip_partial",
    "Guanaqo.Float.to_chars_prints",
    "Guanaqo.Float.snprintf_prints",
    "Guanaqo.Float.blank_fields",
    "Guanaqo.Float.plus_minus_fields",
    "Guanaqo.Float.hex_fields",
    "Guanaqo.Float.decimal_fields",
    "Guanaqo.Float.subnormal_refused",
    "Guanaqo.Float.portable_of",
    "Guanaqo.Float.not_sameFloats",
    "Guanaqo.Print.csvBy_round_trip_partial",
    "Guanaqo.Csv.csvReadBy_exact",
    "Guanaqo.Csv.csvReadRowBy_exact",
    "Guanaqo.Csv.csvReadRowVectorBy_exact"
   ],
   "note": "False: strtod skips blanks, reads hexadecimal numbers, refuses '+-1' and may report underflow for subnormal numbers, which csv_read then refuses. Exactly: the fields agree iff PortableField (same_field_iff, same_float_file_iff); which fields are which numbers in either configuration: std_field_iff, c_field_iff. Printed matrices without subnormal numbers (and without the smallest normal one) read back."
  },
  {
   "property": "C124",
   "status": "proved",
   "theorems": [
    "Guanaqo.Weak.Trace.events_distinct",
    "Guanaqo.Weak.Trace.recording_raceFree",
    "Guanaqo.Weak.Trace.raceFree_iff",
    "Guanaqo.Weak.Trace.reading_raceFree_iff",
    "Guanaqo.Weak.Trace.get_logs_bounds",
    "Guanaqo.Weak.Trace.get_logs_exact",
    "Guanaqo.Weak.Trace.record_event",
    "Guanaqo.Weak.Trace.record_fields",
    "Guanaqo.Weak.Trace.record_duration",
    "Guanaqo.Weak.Trace.record_open",
    "Guanaqo.Weak.Trace.reader_race",
    "Guanaqo.Weak.Trace.reader_stale",
    "Guanaqo.Weak.Trace.reset_race"
   ],
   "note": "Fewer than 2^64 calls. reader_race, reader_stale and reset_race show that the provisos are needed."
  },
  {
   "property": "C125",
   "status": "partial",
   "theorems": [
    "Guanaqo.Weak.Stop.stop_passes_flag_partial",
    "Guanaqo.Weak.Stop.stop_orders_nothing",
    "Guanaqo.Weak.Stop.stop_raceFree_iff",
    "Guanaqo.Weak.Stop.stop_data_race",
    "Guanaqo.Weak.Stop.acquire_would_pass"
   ],
   "note": "False: stop_requested() is a relaxed load, so reading the data is a data race (stop_data_race). Only the request itself is passed on; exactly when such programs are free of races: stop_raceFree_iff."
  },
  {
   "property": "C126",
   "status": "partial",
   "theorems": [
    "Guanaqo.Print.Stream.format_ignored_partial",
    "Guanaqo.Print.Stream.float_format_iff",
    "Guanaqo.Print.Stream.int_format_iff",
    "Guanaqo.Print.Stream.plain_iff",
    "Guanaqo.Print.Stream.padded_iff",
    "Guanaqo.Print.Stream.group_iff",
    "Guanaqo.Print.Stream.floats_stream",
    "Guanaqo.Print.Stream.complex_stream",
    "Guanaqo.Print.Stream.chars_stream",
    "Guanaqo.Print.Stream.ints_stream",
    "Guanaqo.Print.Stream.not_formatIgnored",
    "Guanaqo.Print.Stream.disturbed_examples"
   ],
   "note": "False: std::setw pads the first string inserted (and is reset), and integers follow std::hex, std::oct, std::showpos and the grouping of the locale. Exactly when the text is undisturbed: float_format_iff, int_format_iff."
  },
  {
   "property": "C127",
   "status": "proved",
   "theorems": [
    "Guanaqo.Print.Stream.csv_prefix",
    "Guanaqo.Print.Stream.floats_stream",
    "Guanaqo.Print.Stream.complex_stream",
    "Guanaqo.Print.Stream.chars_stream",
    "Guanaqo.Print.Stream.ints_stream",
    "Guanaqo.Print.Stream.bad_stream"
   ],
   "note": "For every stream buffer given as a state machine that accepts or refuses each character."
  },
  {
   "property": "C128",
   "status": "partial",
   "theorems": [
    "Guanaqo.Print.Stream.floats_callback",
    "Guanaqo.Print.Stream.floats_overrun_iff",
    "Guanaqo.Print.Stream.puts_fit",
    "Guanaqo.Print.Stream.ints_callback_read_partial"
   ],
   "note": "False if the text is longer than the buffer: the out-of-bounds write of C37 (exactly then: floats_overrun_iff), and for column vectors, which print_csv transposes (C43)."
  },
  {
   "property": "C129",
   "status": "partial",
   "theorems": [
    "Guanaqo.Sparsity.Sizes.sizes_fit_partial",
    "Guanaqo.Sparsity.Sizes.convert_machine_partial",
    "Guanaqo.Sparsity.Sizes.convert_sparse",
    "Guanaqo.Sparsity.Sizes.sparse_to_dense_size",
    "Guanaqo.Sparsity.Sizes.nnzFrom_iff",
    "Guanaqo.Sparsity.Sizes.dense_overflow",
    "Guanaqo.Sparsity.Sizes.large_overrun",
    "Guanaqo.Sparsity.Sizes.not_sizesFit"
   ],
   "note": "False: with 2^64 elements or more the products wrap around, e.g. for a sparse matrix of 2^32 x 2^32 work_size() is 0 and the conversion to dense writes outside of its workspace. Below 2^63 elements everything is as in the unbounded model; sparse to sparse is not affected."
  },
  {
   "property": "C13",
   "status": "proved",
   "theorems": [
    "Guanaqo.Sparsity.convertValuesCopy_correct",
    "Guanaqo.Sparsity.convertValuesInto_correct",
    "Guanaqo.Sparsity.convertValuesInto_larger_result",
    "Guanaqo.Sparsity.Memory.convert_values_into_memory",
    "Guanaqo.Sparsity.Memory.convert_values_copy_memory",
    "Guanaqo.Sparsity.Memory.convert_values_into_empty"
   ],
   "note": "For empty results see convert_values_into_empty: whether the assertion holds depends on the address."
  },
  {
   "property": "C130",
   "status": "partial",
   "theorems": [
    "Guanaqo.MatView.asColumn_partial",
    "Guanaqo.MatView.asColumn_write_partial",
    "Guanaqo.MatView.asColumn_dynamic",
    "Guanaqo.MatView.asColumn_iff",
    "Guanaqo.MatView.asColumn_inSpan_iff",
    "Guanaqo.MatView.plain_given",
    "Guanaqo.MatView.plain_defaults",
    "Guanaqo.MatView.plain_empty",
    "Guanaqo.MatView.plain_has",
    "Guanaqo.MatView.not_asColumnAnyStride"
   ],
   "note": "False for static inner strides other than one: as_column of more than one element is then not the span (exactly: asColumn_iff), and leaves it unless the stride is zero (asColumn_inSpan_iff)."
  },
  {
   "property": "C131",
   "status": "proved",
   "theorems": [
    "Guanaqo.Sparsity.Memory.convert_values_frame",
    "Guanaqo.Sparsity.Memory.convert_values_memory",
    "Guanaqo.Sparsity.Memory.convert_values_throws",
    "Guanaqo.Sparsity.Memory.convert_refines",
    "Guanaqo.Sparsity.Memory.in_place_wrong"
   ],
   "note": "The frame holds for overlapping spans too; the values do not (in_place_wrong)."
  },
  {
   "property": "C132",
   "status": "proved",
   "theorems": [
    "Guanaqo.Float.quad_range_values",
    "Guanaqo.Float.quad_range_exponents",
    "Guanaqo.Float.quad_range_round_error"
   ],
   "note": "The values are 36-digit decimal literals of quadmath.h; each lies close enough to its exact value that rounding gives it."
  },
  {
   "property": "C133",
   "status": "proved",
   "theorems": [
    "Guanaqo.TypeErased.Args.call_delivers",
    "Guanaqo.TypeErased.Args.call_throws",
    "Guanaqo.TypeErased.Args.call_dead",
    "Guanaqo.TypeErased.Args.call_const",
    "Guanaqo.TypeErased.Args.compiles_iff",
    "Guanaqo.TypeErased.Args.inner_compiles_iff",
    "Guanaqo.TypeErased.Args.not_compiles_vtable"
   ],
   "note": "For methods whose last parameter is not a reference to the vtable (required ones; not_compiles_vtable: such calls do not compile)."
  },
  {
   "property": "C134",
   "status": "partial",
   "theorems": [
    "Guanaqo.TypeErased.Args.vtable_for_const_partial",
    "Guanaqo.TypeErased.Args.vtable_for_mutable",
    "Guanaqo.TypeErased.Args.assignable_iff",
    "Guanaqo.TypeErased.Args.not_anyVTableForConst"
   ],
   "note": "False if a non-const method returns a value: the function for a const class returns void, so that the assignment to the vtable does not compile. assignable_iff is the exact condition."
  },
  {
   "property": "C135",
   "status": "partial",
   "theorems": [
    "Guanaqo.Ranges.setIntersection_postIncrement_partial",
    "Guanaqo.Ranges.adapter_postIncrement_iff",
    "Guanaqo.Ranges.adapter_postIncrement_stuck",
    "Guanaqo.Ranges.adapter_postIncrement_mutable",
    "Guanaqo.Ranges.enumerate_postIncrement_error",
    "Guanaqo.Ranges.not_allPostIncrements"
   ],
   "note": "Holds for set_intersection. False for enumerate, where it does not compile, and for iter_range_adapter, where it does not compile or does not advance (exactly: adapter_postIncrement_iff)."
  },
  {
   "property": "C136",
   "status": "proved",
   "theorems": [
    "Guanaqo.TagInvoke.tagInvoke_direct",
    "Guanaqo.TagInvoke.tagInvoke_not_terminated",
    "Guanaqo.TagInvoke.passedOn_eq",
    "Guanaqo.TagInvoke.nothrow_sound",
    "Guanaqo.TagInvoke.nothrow_complete",
    "Guanaqo.TagInvoke.invocable_iff"
   ],
   "note": "Overload resolution itself (which overload is found) is that of the language and is not modelled."
  },
  {
   "property": "C137",
   "status": "partial",
   "theorems": [
    "Guanaqo.Float.float128_readsBack_partial",
    "Guanaqo.Float.not_float128ReadsBack",
    "Guanaqo.Float.fallback_reads",
    "Guanaqo.Float.fallback_readsBack_iff",
    "Guanaqo.Float.fallback_same_text_iff",
    "Guanaqo.Float.fallback_text",
    "Guanaqo.Float.fallback_overflow",
    "Guanaqo.Float.castDown_exact_iff",
    "Guanaqo.Float.rounds_exact"
   ],
   "note": "False where the standard library cannot print std::float128_t: the value is converted to long double, and 2^64+1 and 2^64 have the same text (x86). Exactly the numbers of long double read back; all others read back as their conversion to long double, and the numbers beyond its range are printed as infinities."
  },
  {
   "property": "C138",
   "status": "proved",
   "theorems": [
    "Guanaqo.Sparsity.default_view_empty",
    "Guanaqo.Sparsity.dense_view_elements",
    "Guanaqo.Sparsity.view_chain"
   ],
   "note": "Spans are modelled by the values they refer to; lifetimes are not modelled."
  },
  {
   "property": "C139",
   "status": "partial",
   "theorems": [
    "Guanaqo.Trace.trace_stream",
    "Guanaqo.Trace.trace_bad_stream",
    "Guanaqo.Trace.trace_format_iff",
    "Guanaqo.Trace.file_injective",
    "Guanaqo.Trace.file_default_partial",
    "Guanaqo.Trace.not_anyFormat"
   ],
   "note": "False: integers follow std::hex, std::oct, std::showpos and the grouping of the locale, and the width pads the name. Exactly: trace_format_iff. What is written in any format, and up to any failure: trace_stream."
  },
  {
   "property": "C14",
   "status": "partial",
   "theorems": [
    "Guanaqo.Sparsity.requests_honoured_partial",
    "Guanaqo.Sparsity.not_requestsHonoured",
    "Guanaqo.Sparsity.invalid_order_refused",
    "Guanaqo.Sparsity.invalid_order_refused_csc",
    "Guanaqo.Sparsity.requests_honoured_iff"
   ],
   "note": "A build with assertions aborts on the legitimate request 'unsorted' for a COO matrix sorted by columns and rows; every other request is honoured (exactly: requests_honoured_iff)."
  },
  {
   "property": "C140",
   "status": "proved",
   "theorems": [
    "Guanaqo.Trace.trace_never_waits",
    "Guanaqo.Trace.trace_steps_bounded",
    "Guanaqo.Trace.trace_returns_scope",
    "Guanaqo.Trace.trace_others_possible"
   ],
   "note": ""
  },
  {
   "property": "C141",
   "status": "proved",
   "theorems": [
    "Guanaqo.NoopDelete.noop_never_dangling",
    "Guanaqo.NoopDelete.noop_exactly_once",
    "Guanaqo.NoopDelete.noop_storage_kept",
    "Guanaqo.NoopDelete.noop_destroys_complete_iff",
    "Guanaqo.NoopDelete.noop_defined_iff"
   ],
   "note": ""
  },
  {
   "property": "C142",
   "status": "proved",
   "theorems": [
    "Guanaqo.Float.quad_out_prints",
    "Guanaqo.Float.quad_out_bad",
    "Guanaqo.Float.quad_out_flags",
    "Guanaqo.Float.quads_read_back",
    "Guanaqo.Float.decodes_unique"
   ],
   "note": "Larger precisions: C99. With a width, quad_out_prints says where the padding goes."
  },
  {
   "property": "C143",
   "status": "proved",
   "theorems": [
    "Guanaqo.TypeErased.tells_content",
    "Guanaqo.TypeErased.tells_default"
   ],
   "note": "Wrappers that have become empty go on telling what they held before (example in the file); the claim is about wrappers that hold something."
  },
  {
   "property": "C144",
   "status": "partial",
   "theorems": [
    "Guanaqo.MatView.Overlap.assign_overlap_partial",
    "Guanaqo.MatView.Overlap.add_overlap_partial",
    "Guanaqo.MatView.Overlap.overlap_forward",
    "Guanaqo.MatView.Overlap.shift_cols_left",
    "Guanaqo.MatView.Overlap.shift_cols_right_iff",
    "Guanaqo.MatView.Overlap.shift_rows_up",
    "Guanaqo.MatView.Overlap.shift_rows_down_iff"
   ],
   "note": "False in general: shifting towards the end (right_cols = left_cols) reads elements that were already overwritten when the parts overlap. assign_overlap_partial and add_overlap_partial give the exact condition on the two views; the shift theorems apply it to rows and columns."
  },
  {
   "property": "C145",
   "status": "proved",
   "theorems": [
    "Guanaqo.MatView.Threads.threads_separate",
    "Guanaqo.MatView.Threads.threads_parts",
    "Guanaqo.MatView.Threads.run_op"
   ],
   "note": ""
  },
  {
   "property": "C146",
   "status": "proved",
   "theorems": [
    "Guanaqo.SetInter.Lazy.search_ends_iff",
    "Guanaqo.SetInter.Lazy.search_finds",
    "Guanaqo.SetInter.Lazy.lazy_prefix",
    "Guanaqo.SetInter.Lazy.comparisons_linear"
   ],
   "note": "The exact condition is needed: where one range has no end and stays before an element of the other for ever, begin() or ++ does not return (example in the file)."
  },
  {
   "property": "C147",
   "status": "proved",
   "theorems": [
    "Guanaqo.SetInter.Compose.three_way",
    "Guanaqo.SetInter.Compose.any_ranges",
    "Guanaqo.SetInter.Compose.commutative",
    "Guanaqo.SetInter.Compose.associative",
    "Guanaqo.SetInter.Compose.idempotent"
   ],
   "note": ""
  },
  {
   "property": "C148",
   "status": "partial",
   "theorems": [
    "Guanaqo.MaxHistory.Nan.max_nan_partial",
    "Guanaqo.MaxHistory.Nan.nan_ignored",
    "Guanaqo.MaxHistory.Nan.not_ignoresNan"
   ],
   "note": "False: if the first value is NaN, or if the first slot of the buffer holds NaN when the largest value is dropped, max() is NaN from then on, for ever. max_nan_partial says exactly when (Spoils), and that max() is right until then; NaN that never is the first of a round of memory calls does no harm (nan_ignored)."
  },
  {
   "property": "C149",
   "status": "partial",
   "theorems": [
    "Guanaqo.Dl.Threads.threads_load_partial",
    "Guanaqo.Dl.Threads.threads_load_all",
    "Guanaqo.Dl.Threads.expected_load",
    "Guanaqo.Dl.Threads.expected_func",
    "Guanaqo.Dl.Threads.not_independent"
   ],
   "note": "False where dlerror keeps one message for the process, which POSIX permits: a failure is then missed (load_lib returns a null pointer) or reported to another thread. threads_load_partial: true exactly if no two threads share their messages (glibc, musl, macOS)."
  },
  {
   "property": "C15",
   "status": "partial",
   "theorems": [
    "Guanaqo.Sparsity.Ownership.not_copiesIndependent",
    "Guanaqo.Sparsity.Ownership.moves_preserve_partial",
    "Guanaqo.Sparsity.Ownership.copy_reads_original",
    "Guanaqo.Sparsity.Ownership.read_iff_alive",
    "Guanaqo.Sparsity.Ownership.read_iff_alive_assign",
    "Guanaqo.Sparsity.Ownership.origins_content",
    "Guanaqo.Sparsity.Ownership.histories_defined_iff"
   ],
   "note": "False for copies: the copied spans refer to the original's vectors. Proved for every history of constructions, moves and destructions; with copies, exactly: an object can be read if and only if the vectors it got its content from live, and then has that content."
  },
  {
   "property": "C150",
   "status": "partial",
   "theorems": [
    "Guanaqo.CopyPtr.Poly.sliced_partial",
    "Guanaqo.CopyPtr.Poly.one_owner",
    "Guanaqo.CopyPtr.Poly.same_class",
    "Guanaqo.CopyPtr.Poly.not_keepsType"
   ],
   "note": "False: make_unique<T>(*o.ptr) slices. sliced_partial: exactly, copies are objects of the class T with what the original has of T, and a program is undefined exactly if an object of a derived class is deleted without a virtual destructor (or a variable is used before or after its lifetime, or null is dereferenced). one_owner and same_class: the rest of the statement is true."
  },
  {
   "property": "C151",
   "status": "proved",
   "theorems": [
    "Guanaqo.StrUtil.SinglePass.join_reads_once",
    "Guanaqo.StrUtil.SinglePass.joinQuote_reads_once",
    "Guanaqo.StrUtil.SinglePass.join_throws",
    "Guanaqo.StrUtil.SinglePass.joinQuote_throws",
    "Guanaqo.StrUtil.SinglePass.gives_or_fails"
   ],
   "note": "Ranges that do not compile (no size() and no empty() on a single-pass range, iterator and sentinel of different types, iterators that cannot be copied) are left out."
  },
  {
   "property": "C152",
   "status": "partial",
   "theorems": [
    "Guanaqo.Timed.Narrow.narrow_accumulates_partial",
    "Guanaqo.Timed.Narrow.modular_types",
    "Guanaqo.Timed.Narrow.keepsTime_iff",
    "Guanaqo.Timed.Narrow.int32_undefined"
   ],
   "note": "False for int and larger signed types: the reading is subtracted first, and overflow of these is undefined (e.g. duration<int32_t, nano>, zero, and a scope of one nanosecond). Exactly: keepsTime_iff. Unsigned types and those smaller than int are always right, modulo 2^bits (modular_types)."
  },
  {
   "property": "C153",
   "status": "proved",
   "theorems": [
    "Guanaqo.Timed.Call.timed_call",
    "Guanaqo.Timed.Call.timed_call_defined"
   ],
   "note": "For 64-bit signed accumulators in nanoseconds; timed_call_defined says when nothing overflows. Functions that look at an accumulator while it is in use are not included (they would see it less the start times)."
  },
  {
   "property": "C154",
   "status": "partial",
   "theorems": [
    "Guanaqo.Ranges.Assign.loop_by_index",
    "Guanaqo.Ranges.Assign.assign_through",
    "Guanaqo.Ranges.Assign.assignable_partial",
    "Guanaqo.Ranges.Assign.not_alwaysAssignable"
   ],
   "note": "False for rvalues of containers: enumerate takes the iterators of the const owning_view, so that the elements of enumerate(std::vector{...}) are const (assignable_partial). The rest of the statement is true: loop_by_index, assign_through (lengths that fit the difference type, see C71)."
  },
  {
   "property": "C155",
   "status": "proved",
   "theorems": [
    "Guanaqo.SetInter.Enumerate.enumerate_common",
    "Guanaqo.SetInter.Enumerate.positions_of_common"
   ],
   "note": "Which elements are common is C28 (for sorted ranges; positions_of_common holds for unsorted ones too, relative to what the intersection then is)."
  },
  {
   "property": "C16",
   "status": "proved",
   "theorems": [
    "Guanaqo.MatView.block_correct",
    "Guanaqo.MatView.subviews_are_blocks",
    "Guanaqo.MatView.nested_subviews",
    "Guanaqo.MatView.reassign_toConst",
    "Guanaqo.MatView.at_correct",
    "Guanaqo.MatView.empty_iff"
   ],
   "note": ""
  },
  {
   "property": "C17",
   "status": "proved",
   "theorems": [
    "Guanaqo.MatView.setConstant_exact"
   ],
   "note": ""
  },
  {
   "property": "C18",
   "status": "proved",
   "theorems": [
    "Guanaqo.MatView.copyValues_elementwise",
    "Guanaqo.MatView.assign_elementwise",
    "Guanaqo.MatView.addView_elementwise",
    "Guanaqo.MatView.addScalar_elementwise",
    "Guanaqo.MatView.dimension_mismatch_refused"
   ],
   "note": ""
  },
  {
   "property": "C19",
   "status": "partial",
   "theorems": [
    "Guanaqo.MatView.setConstantTri_exact_partial",
    "Guanaqo.MatView.triShapeOk_of_square",
    "Guanaqo.MatView.setConstantTri_inside_iff",
    "Guanaqo.MatView.not_triangularExact",
    "Guanaqo.MatView.upper_wide_clobbers"
   ],
   "note": "False for shapes that are not square in general. Exact for: Lower with rows <= cols, StrictlyLower with rows <= cols + 1, Upper with rows = cols, StrictlyUpper with rows = cols or cols = rows + 1; for every other shape the call accesses memory outside the view (setConstantTri_inside_iff)."
  },
  {
   "property": "C20",
   "status": "partial",
   "theorems": [
    "Guanaqo.MatView.setDiagonal_exact_partial",
    "Guanaqo.MatView.addToDiagonal_exact_partial",
    "Guanaqo.MatView.diagonal_correct_partial",
    "Guanaqo.MatView.setDiagonal_inside_iff",
    "Guanaqo.MatView.addToDiagonal_inside_iff",
    "Guanaqo.MatView.not_diagonalExact",
    "Guanaqo.MatView.diagonal_too_long"
   ],
   "note": "Exact for square views. For every view that is not square, set_diagonal and add_to_diagonal access memory outside the view and diagonal() is too long."
  },
  {
   "property": "C21",
   "status": "proved",
   "theorems": [
    "Guanaqo.MatView.valid_strides_injective",
    "Guanaqo.MatView.default_stride_injective",
    "Guanaqo.MatView.default_stride_contiguous",
    "Guanaqo.MatView.asColumn_correct"
   ],
   "note": ""
  },
  {
   "property": "C22",
   "status": "proved",
   "theorems": [
    "Guanaqo.MatView.generate_columnMajor"
   ],
   "note": ""
  },
  {
   "property": "C23",
   "status": "partial",
   "theorems": [
    "Guanaqo.MatView.asEigen_sameElements",
    "Guanaqo.MatView.asEigen_static",
    "Guanaqo.MatView.asView_sameElements_partial",
    "Guanaqo.MatView.asView_asEigen",
    "Guanaqo.MatView.not_asViewCorrect",
    "Guanaqo.MatView.asSpan_correct",
    "Guanaqo.MatView.asView_sameElements_iff"
   ],
   "note": "as_view of a row-major Eigen expression addresses the wrong elements; exactly: asView_sameElements_iff."
  },
  {
   "property": "C24",
   "status": "proved",
   "theorems": [
    "Guanaqo.Ring.forward_iteration",
    "Guanaqo.Ring.forward_distinct_slots"
   ],
   "note": ""
  },
  {
   "property": "C25",
   "status": "proved",
   "theorems": [
    "Guanaqo.Ring.reverse_iteration",
    "Guanaqo.Ring.inc_dec_inverse",
    "Guanaqo.Ring.rinc_rdec_inverse"
   ],
   "note": ""
  },
  {
   "property": "C26",
   "status": "proved",
   "theorems": [
    "Guanaqo.MaxHistory.max_of_last",
    "Guanaqo.MaxHistory.zero_memory_ub"
   ],
   "note": ""
  },
  {
   "property": "C27",
   "status": "partial",
   "theorems": [
    "Guanaqo.MaxHistory.not_copiesIndependent",
    "Guanaqo.MaxHistory.histories_max",
    "Guanaqo.MaxHistory.histories_defined",
    "Guanaqo.MaxHistory.add_defined_iff",
    "Guanaqo.MaxHistory.add_defined_iff_original",
    "Guanaqo.MaxHistory.copy_read_partial"
   ],
   "note": "Copies keep iterators into the original's buffer. Over all histories of constructions, copies, moves, assignments, destructions and adds: max() of every object is right (histories_max), programs that add to originals only are defined (histories_defined), and add on a copy is undefined exactly as add_defined_iff and add_defined_iff_original say."
  },
  {
   "property": "C28",
   "status": "proved",
   "theorems": [
    "Guanaqo.SetInter.intersection_exact",
    "Guanaqo.SetInter.intersection_safe"
   ],
   "note": ""
  },
  {
   "property": "C29",
   "status": "proved",
   "theorems": [
    "Guanaqo.StrUtil.split_correct",
    "Guanaqo.StrUtil.cutAtFirst_unique"
   ],
   "note": ""
  },
  {
   "property": "C30",
   "status": "proved",
   "theorems": [
    "Guanaqo.StrUtil.splitSecond_correct"
   ],
   "note": ""
  },
  {
   "property": "C31",
   "status": "proved",
   "theorems": [
    "Guanaqo.StrUtil.join_correct"
   ],
   "note": ""
  },
  {
   "property": "C32",
   "status": "proved",
   "theorems": [
    "Guanaqo.StrUtil.joinQuote_correct"
   ],
   "note": ""
  },
  {
   "property": "C33",
   "status": "proved",
   "theorems": [
    "Guanaqo.StrUtil.split_join",
    "Guanaqo.StrUtil.split_join_ambiguous"
   ],
   "note": ""
  },
  {
   "property": "C34",
   "status": "proved",
   "theorems": [
    "Guanaqo.StrUtil.sortCI_correct"
   ],
   "note": ""
  },
  {
   "property": "C35",
   "status": "proved",
   "theorems": [
    "Guanaqo.Streambuf.bytes_preserved",
    "Guanaqo.Streambuf.flush_keeps_at_most_three"
   ],
   "note": "for histories that run without the overrun of C37"
  },
  {
   "property": "C36",
   "status": "proved",
   "theorems": [
    "Guanaqo.Streambuf.chunks_utf8",
    "Guanaqo.Streambuf.flush_utf8",
    "Guanaqo.Streambuf.remainder_exact"
   ],
   "note": ""
  },
  {
   "property": "C37",
   "status": "partial",
   "theorems": [
    "Guanaqo.Streambuf.not_neverOverrun",
    "Guanaqo.Streambuf.overrun_when_full",
    "Guanaqo.Streambuf.no_overrun_with_spare_partial",
    "Guanaqo.Streambuf.no_overrun_if_flushed_partial",
    "Guanaqo.Streambuf.overrun_iff"
   ],
   "note": "False: overflow on a full buffer writes the character one past the end of the buffer before flushing. Exactly, for UTF-8 text: overrun_iff."
  },
  {
   "property": "C38",
   "status": "proved",
   "theorems": [
    "Guanaqo.Streambuf.destroy_delivers",
    "Guanaqo.Streambuf.destroy_loses_at_most_three"
   ],
   "note": ""
  },
  {
   "property": "C39",
   "status": "partial",
   "theorems": [
    "Guanaqo.Redirect.not_redirectCorrect",
    "Guanaqo.Redirect.redirect_nested_partial",
    "Guanaqo.Redirect.redirect_restores_partial",
    "Guanaqo.Redirect.redirect_moved_in_scope",
    "Guanaqo.Redirect.redirect_lifo_partial",
    "Guanaqo.Redirect.redirect_right_iff",
    "Guanaqo.Redirect.redirect_defined_iff"
   ],
   "note": "False for moved-from guards: their destructor restores as well. Proved also for guards, moved-from ones included, that are destroyed in the reverse order of declaration when only the youngest is moved. Exactly: redirect_right_iff."
  },
  {
   "property": "C40",
   "status": "proved",
   "theorems": [
    "Guanaqo.Csv.csv_read_row_exact",
    "Guanaqo.Csv.csv_read_row_empty",
    "Guanaqo.Csv.csv_read_exact",
    "Guanaqo.Csv.fromCharsInt_ok"
   ],
   "note": ""
  },
  {
   "property": "C41",
   "status": "partial",
   "theorems": [
    "Guanaqo.Csv.fields_whole_partial",
    "Guanaqo.Csv.csv_read_row_chunked",
    "Guanaqo.Csv.long_field_split",
    "Guanaqo.Csv.not_fieldsWhole"
   ],
   "note": "False for fields of 65 characters or more, which are silently split; proved for fields of at most 64 characters."
  },
  {
   "property": "C42",
   "status": "partial",
   "theorems": [
    "Guanaqo.Csv.comments_skipped_partial",
    "Guanaqo.Csv.comments_skipped_iff",
    "Guanaqo.Csv.not_commentsSkipped"
   ],
   "note": "False when the line after the comment is empty: the row is rejected although it is accepted without the comment."
  },
  {
   "property": "C43",
   "status": "partial",
   "theorems": [
    "Guanaqo.Print.csv_round_trip_partial",
    "Guanaqo.Print.csv_round_trip_iff",
    "Guanaqo.Print.csv_column_throws",
    "Guanaqo.Print.csv_round_trip_int_partial",
    "Guanaqo.Print.not_roundTrip",
    "Guanaqo.Float.csv_round_trip_float_partial"
   ],
   "note": "False for column vectors with several rows, which print_csv writes on one line by default. Proved for all other shapes, for integers and for floating-point numbers of the formats that std::from_chars reads (payloads of NaNs aside); for __float128 see C98."
  },
  {
   "property": "C44",
   "status": "proved",
   "theorems": [
    "Guanaqo.Csv.csv_read_row_exact",
    "Guanaqo.Csv.csv_read_vector_exact",
    "Guanaqo.Csv.csv_read_vector_empty",
    "Guanaqo.Csv.csv_read_exact"
   ],
   "note": ""
  },
  {
   "property": "C45",
   "status": "partial",
   "theorems": [
    "Guanaqo.Print.print_csv_layout_partial",
    "Guanaqo.Print.print_csv_layout_iff",
    "Guanaqo.Print.print_csv_no_rows",
    "Guanaqo.Print.not_layoutCorrect"
   ],
   "note": "False for matrices without rows: the start text is not printed."
  },
  {
   "property": "C46",
   "status": "partial",
   "theorems": [
    "Guanaqo.Print.python_denotes_partial",
    "Guanaqo.Print.python_denotes_iff",
    "Guanaqo.Print.matlab_denotes_iff",
    "Guanaqo.Print.python_default_denotes_partial",
    "Guanaqo.Print.not_pythonDenotes",
    "Guanaqo.Print.matlab_denotes_partial",
    "Guanaqo.Print.not_matlabDenotes",
    "Guanaqo.Print.matlab_default_denotes_partial",
    "Guanaqo.Print.matlab_complex_denotes_partial",
    "Guanaqo.Print.matlab_complex_float_partial",
    "Guanaqo.Print.int_realText",
    "Guanaqo.Float.float_realText",
    "Guanaqo.Float.complex_elemText"
   ],
   "note": "False for matrices without rows, of which only the closing brackets are printed. MATLAB: real, integer and complex elements."
  },
  {
   "property": "C47",
   "status": "proved",
   "theorems": [
    "Guanaqo.Duration.parse_terminates"
   ],
   "note": ""
  },
  {
   "property": "C48",
   "status": "partial",
   "theorems": [
    "Guanaqo.Duration.sum_of_terms",
    "Guanaqo.Duration.ticks_exact",
    "Guanaqo.Duration.chronoRound_nearest",
    "Guanaqo.Duration.nearest_unique",
    "Guanaqo.Duration.ticks_double_integer_partial",
    "Guanaqo.Duration.ticks_double_partial",
    "Guanaqo.Duration.doubleConv_exact",
    "Guanaqo.Duration.doubleConv_rounds",
    "Guanaqo.Duration.not_nearestTicks",
    "Guanaqo.Duration.nearestDouble_rounds"
   ],
   "note": "The result is the sum of the terms' ticks. In the arithmetic of double each term is the nearest number of ticks for whole numbers, and within half a tick and a relative error of 2^-51 of it otherwise; beyond that accuracy the nearest number is not always met (9007199254740993s)."
  },
  {
   "property": "C49",
   "status": "partial",
   "theorems": [
    "Guanaqo.Duration.nonzero_accepted_partial",
    "Guanaqo.Duration.not_allAccepted",
    "Guanaqo.Duration.doubleConv_sane",
    "Guanaqo.Duration.exactConv_sane",
    "Guanaqo.Duration.zero_rejected"
   ],
   "note": "False for zero quantities: 0s is rejected (exactly: zeros followed by a unit, zero_rejected). Every text of nonzero quantities is accepted."
  },
  {
   "property": "C50",
   "status": "partial",
   "theorems": [
    "Guanaqo.Duration.invalid_rejected_partial",
    "Guanaqo.Duration.not_invalidRejected",
    "Guanaqo.Duration.parse_exact"
   ],
   "note": "False for texts of plus signs, blanks and zeros only, which are accepted; every other accepted text is a sequence of numbers with known units."
  },
  {
   "property": "C51",
   "status": "proved",
   "theorems": [
    "Guanaqo.TypeErased.no_leak",
    "Guanaqo.TypeErased.all_returned",
    "Guanaqo.TypeErased.no_undefined"
   ],
   "note": ""
  },
  {
   "property": "C52",
   "status": "proved",
   "theorems": [
    "Guanaqo.TypeErased.objects_destroyed_once",
    "Guanaqo.TypeErased.no_undefined",
    "Guanaqo.TypeErased.all_returned"
   ],
   "note": ""
  },
  {
   "property": "C53",
   "status": "proved",
   "theorems": [
    "Guanaqo.TypeErased.typed_access"
   ],
   "note": ""
  },
  {
   "property": "C54",
   "status": "proved",
   "theorems": [
    "Guanaqo.TypeErased.const_never_changed",
    "Guanaqo.TypeErased.const_attempts_throw"
   ],
   "note": ""
  },
  {
   "property": "C55",
   "status": "proved",
   "theorems": [
    "Guanaqo.TypeErased.value_semantics",
    "Guanaqo.TypeErased.step_sim",
    "Guanaqo.TypeErased.no_undefined"
   ],
   "note": ""
  },
  {
   "property": "C56",
   "status": "proved",
   "theorems": [
    "Guanaqo.TypeErased.exception_safety",
    "Guanaqo.TypeErased.no_leak"
   ],
   "note": ""
  },
  {
   "property": "C57",
   "status": "proved",
   "theorems": [
    "Guanaqo.TypeErased.small_never_allocates",
    "Guanaqo.TypeErased.no_leak",
    "Guanaqo.TypeErased.required_suffices",
    "Guanaqo.TypeErased.default_fills"
   ],
   "note": ""
  },
  {
   "property": "C58",
   "status": "partial",
   "theorems": [
    "Guanaqo.TypeErased.empty_access_throws_partial",
    "Guanaqo.TypeErased.not_emptyAccessThrows",
    "Guanaqo.TypeErased.empty_access_iff",
    "Guanaqo.TypeErased.remembers_total"
   ],
   "note": "False: a moved-from wrapper keeps its vtable, and as<T> of the old type returns a null reference. Wrappers that never held anything throw. Exactly: after every allowed program the access throws unless it asks for the type that was put into the wrapper last (moved-from wrappers keep theirs)."
  },
  {
   "property": "C59",
   "status": "proved",
   "theorems": [
    "Guanaqo.AnyPtr.cast_exact",
    "Guanaqo.AnyPtr.cast_default",
    "Guanaqo.AnyPtr.queries",
    "Guanaqo.AnyPtr.shared_cast_exact"
   ],
   "note": ""
  },
  {
   "property": "C60",
   "status": "proved",
   "theorems": [
    "Guanaqo.Trace.events_kept",
    "Guanaqo.Trace.no_race",
    "Guanaqo.Trace.no_undefined"
   ],
   "note": "For schedules in which reset is called only while no event is in progress (see C61) and fewer than 2^64 events start between resets."
  },
  {
   "property": "C61",
   "status": "partial",
   "theorems": [
    "Guanaqo.Trace.get_logs_exact_partial",
    "Guanaqo.Trace.not_keptWheneverReset",
    "Guanaqo.Trace.records_exact",
    "Guanaqo.Trace.record_intact",
    "Guanaqo.Trace.no_undefined_ever"
   ],
   "note": "False if reset is called while a scope is open: the scope then writes its duration into the record of another event. Proved for resets when no event is in progress. For every schedule, with resets at any time: each field of each record is what the last event that was given this record wrote (records_exact)."
  },
  {
   "property": "C62",
   "status": "proved",
   "theorems": [
    "Guanaqo.Trace.quoted_round_trip",
    "Guanaqo.Trace.line_injective",
    "Guanaqo.Trace.line_fields"
   ],
   "note": ""
  },
  {
   "property": "C63",
   "status": "proved",
   "theorems": [
    "Guanaqo.StopSignal.requested_iff_stopped",
    "Guanaqo.StopSignal.signals_alive",
    "Guanaqo.StopSignal.requested_concurrent"
   ],
   "note": ""
  },
  {
   "property": "C64",
   "status": "partial",
   "theorems": [
    "Guanaqo.Timed.accumulates_partial",
    "Guanaqo.Timed.no_overflow_partial",
    "Guanaqo.Timed.cpu_accumulates",
    "Guanaqo.Timed.not_floatAccumulates",
    "Guanaqo.Timed.float_accumulates_exact_partial",
    "Guanaqo.Timed.float_accumulates_small",
    "Guanaqo.Timed.float_nanoseconds_partial",
    "Guanaqo.Timed.float_accumulates_error_partial",
    "Guanaqo.Timed.double_seconds_partial"
   ],
   "note": "Proved for integer durations. False for floating-point ones, where start and end times are rounded separately; for these: exact in nanoseconds as long as the integers fit the significand (float_nanoseconds_partial), and for any period an error bound for every history (float_accumulates_error_partial; double_seconds_partial: less than 2 ns per construction or destruction of a timer on a std::chrono::duration<double>)."
  },
  {
   "property": "C65",
   "status": "partial",
   "theorems": [
    "Guanaqo.FromChars.from_chars_exact",
    "Guanaqo.FromChars.wrapped_iff",
    "Guanaqo.FromChars.never_wrapped_partial",
    "Guanaqo.FromChars.not_neverWrapped",
    "Guanaqo.FromChars.wrapped_examples"
   ],
   "note": "False for the types that the fallback narrows after the conversion (char, short, unsigned short, unsigned int, ...) and for negative numbers of unsigned types, which wrap. Proved for the other types and signs."
  },
  {
   "property": "C66",
   "status": "partial",
   "theorems": [
    "Guanaqo.Blas.xgemm_NN_partial",
    "Guanaqo.Blas.xgemm_TN_partial",
    "Guanaqo.Blas.xgemm_TT_partial",
    "Guanaqo.Blas.xgemm_NT_partial",
    "Guanaqo.Blas.xgemmt_LNN_partial",
    "Guanaqo.Blas.xgemmt_LTN_partial",
    "Guanaqo.Blas.xgemmt_LTT_partial",
    "Guanaqo.Blas.xgemmt_LNT_partial",
    "Guanaqo.Blas.xsyrk_LN_partial",
    "Guanaqo.Blas.xsyrk_LT_partial",
    "Guanaqo.Blas.xgemv_N_partial",
    "Guanaqo.Blas.xgemv_T_partial",
    "Guanaqo.Blas.xtrmv_LNN_partial",
    "Guanaqo.Blas.xtrmv_LTN_partial",
    "Guanaqo.Blas.xtrsv_LNN_partial",
    "Guanaqo.Blas.xtrsv_LTN_partial",
    "Guanaqo.Blas.xtrmm_LLNN_partial",
    "Guanaqo.Blas.xtrmm_LLTN_partial",
    "Guanaqo.Blas.xtrmm_RLNN_partial",
    "Guanaqo.Blas.xtrmm_RLTN_partial",
    "Guanaqo.Blas.xtrsm_LLNN_partial",
    "Guanaqo.Blas.xtrsm_LLTN_partial",
    "Guanaqo.Blas.xtrsm_RLNN_partial",
    "Guanaqo.Blas.xtrsm_RLTN_partial",
    "Guanaqo.Blas.xpotrf_L_partial",
    "Guanaqo.Blas.xlauum_L_partial",
    "Guanaqo.Blas.xtrtri_LN_partial",
    "Guanaqo.Blas.dims_checked",
    "Guanaqo.Blas.square_checked",
    "Guanaqo.Blas.ref_conforms",
    "Guanaqo.Blas.not_gemmFull",
    "Guanaqo.Blas.not_gemvFull",
    "Guanaqo.Blas.not_potrfFull",
    "Guanaqo.Blas.ref_rejects",
    "Guanaqo.Blas.xgemm_NN_exactly",
    "Guanaqo.Blas.xgemm_TN_exactly",
    "Guanaqo.Blas.xgemm_TT_exactly",
    "Guanaqo.Blas.xgemm_NT_exactly",
    "Guanaqo.Blas.xgemmt_LNN_exactly",
    "Guanaqo.Blas.xgemmt_LTN_exactly",
    "Guanaqo.Blas.xgemmt_LTT_exactly",
    "Guanaqo.Blas.xgemmt_LNT_exactly",
    "Guanaqo.Blas.xsyrk_LN_exactly",
    "Guanaqo.Blas.xsyrk_LT_exactly",
    "Guanaqo.Blas.xgemv_N_exactly",
    "Guanaqo.Blas.xgemv_T_exactly",
    "Guanaqo.Blas.xtrmv_LNN_exactly",
    "Guanaqo.Blas.xtrmv_LTN_exactly",
    "Guanaqo.Blas.xtrsv_LNN_exactly",
    "Guanaqo.Blas.xtrsv_LTN_exactly",
    "Guanaqo.Blas.xtrmm_LLNN_exactly",
    "Guanaqo.Blas.xtrmm_LLTN_exactly",
    "Guanaqo.Blas.xtrmm_RLNN_exactly",
    "Guanaqo.Blas.xtrmm_RLTN_exactly",
    "Guanaqo.Blas.xtrsm_LLNN_exactly",
    "Guanaqo.Blas.xtrsm_LLTN_exactly",
    "Guanaqo.Blas.xtrsm_RLNN_exactly",
    "Guanaqo.Blas.xtrsm_RLTN_exactly",
    "Guanaqo.Blas.lapack_rejects_iff"
   ],
   "note": "Proved for views without rows or columns of length zero in the positions that matter, with exact arithmetic and any library that meets the BLAS/LAPACK contract; false for empty operands, for which some routines do not scale or pass leading dimension zero. Exactly (with a library that rejects illegal leading dimensions): right unless a leading dimension is zero or, for gemv, the product is empty and beta y is not y (the theorems ending in _exactly)."
  },
  {
   "property": "C67",
   "status": "partial",
   "theorems": [
    "Guanaqo.Blas.xgemv_batch_is_loop",
    "Guanaqo.Blas.xgemv_batch_blocks",
    "Guanaqo.Blas.xgemv_batch_ends",
    "Guanaqo.Blas.xpotrf_batch_is_loop",
    "Guanaqo.Blas.xgemm_batch_one_thread_partial",
    "Guanaqo.Blas.xsyrk_batch_one_thread_partial",
    "Guanaqo.Blas.xtrsm_batch_one_thread_partial",
    "Guanaqo.Blas.xgemm_batch_race",
    "Guanaqo.Blas.xsyrk_batch_race",
    "Guanaqo.Blas.xtrsm_batch_race",
    "Guanaqo.Blas.not_gemmBatchFull",
    "Guanaqo.Blas.not_syrkBatchFull",
    "Guanaqo.Blas.not_trsmBatchFull",
    "Guanaqo.Blas.xgemv_batch_mkl_is_loop",
    "Guanaqo.Blas.xgemm_batch_mkl_is_loop_partial",
    "Guanaqo.Blas.not_gemmMklFull"
   ],
   "note": "Proved for gemv and potrf for every schedule and number of threads; false for gemm, syrk and trsm with two or more threads (the loops increment shared pointers), for every conforming library; proved for one thread. With MKL, false for gemm with K = 0."
  },
  {
   "property": "C68",
   "status": "partial",
   "theorems": [
    "Guanaqo.Blas.xpotrf_L_reports",
    "Guanaqo.Blas.xlauum_L_reports",
    "Guanaqo.Blas.xtrtri_LN_reports",
    "Guanaqo.Blas.xpotrf_batch_throws_partial",
    "Guanaqo.Blas.xpotrf_batch_never_throws",
    "Guanaqo.Blas.not_batchReports"
   ],
   "note": "Proved for the single routines. The batch routine ignores positive codes (matrices that are not positive definite): it never throws."
  },
  {
   "property": "C69",
   "status": "partial",
   "theorems": [
    "Guanaqo.Blas.gemv_flops",
    "Guanaqo.Blas.gemm_flops",
    "Guanaqo.Blas.gemmt_flops",
    "Guanaqo.Blas.syrk_flops",
    "Guanaqo.Blas.trmv_flops",
    "Guanaqo.Blas.trsv_flops",
    "Guanaqo.Blas.trmm_flops",
    "Guanaqo.Blas.trsm_flops",
    "Guanaqo.Blas.potrf_flops",
    "Guanaqo.Blas.lauum_flops_partial",
    "Guanaqo.Blas.trtri_flops_partial",
    "Guanaqo.Blas.not_flopsFull"
   ],
   "note": "False for xlauum_L (right only for n = 1, 2; recorded under the name trtri) and xtrtri_LN (right only for n <= 1); proved for all the others."
  },
  {
   "property": "C70",
   "status": "proved",
   "theorems": [
    "Guanaqo.CopyPtr.deep_copies",
    "Guanaqo.CopyPtr.no_leak"
   ],
   "note": ""
  },
  {
   "property": "C71",
   "status": "proved",
   "theorems": [
    "Guanaqo.Ranges.enumerate_exact",
    "Guanaqo.Ranges.enumerate_iff",
    "Guanaqo.Ranges.enumerate_prefix"
   ],
   "note": ""
  },
  {
   "property": "C72",
   "status": "proved",
   "theorems": [
    "Guanaqo.Ranges.flags_exact",
    "Guanaqo.Ranges.flags_injective",
    "Guanaqo.Dl.flags_correct"
   ],
   "note": ""
  },
  {
   "property": "C73",
   "status": "proved",
   "theorems": [
    "Guanaqo.Ranges.lut_1d",
    "Guanaqo.Ranges.lut_2d"
   ],
   "note": ""
  },
  {
   "property": "C74",
   "status": "partial",
   "theorems": [
    "Guanaqo.MatView.addScalar_separate_partial",
    "Guanaqo.MatView.not_addScalarAnyArg",
    "Guanaqo.MatView.addScalar_alias"
   ],
   "note": "The scalar is taken by reference; passing an element of the view itself gives a different result (exactly: addScalar_alias)."
  },
  {
   "property": "C75",
   "status": "proved",
   "theorems": [
    "Guanaqo.Sparsity.accessors_consistent"
   ],
   "note": ""
  },
  {
   "property": "C76",
   "status": "partial",
   "theorems": [
    "Guanaqo.Print.precision_default_partial",
    "Guanaqo.Print.precision_ignored",
    "Guanaqo.Print.not_precisionHonoured"
   ],
   "note": "False: the option has no effect."
  },
  {
   "property": "C77",
   "status": "partial",
   "theorems": [
    "Guanaqo.Print.float_to_str_partial",
    "Guanaqo.Print.not_floatToStrCorrect",
    "Guanaqo.Float.float_to_str_formats_partial",
    "Guanaqo.Float.float_to_str_iff",
    "Guanaqo.Float.float_to_str_all_iff",
    "Guanaqo.Float.float_to_str_thresholds",
    "Guanaqo.Float.float_to_str_precisions"
   ],
   "note": "False when the text does not fit 64 characters. Exactly: all numbers up to 57 digits after the point for float, float16_t and bfloat16_t, 56 for double, 55 for long double and float128_t, and for more digits some number fails (float_to_str_thresholds; float_to_str_precisions for every int, negative ones meaning six digits); float_to_str_iff says which."
  },
  {
   "property": "C78",
   "status": "partial",
   "theorems": [
    "Guanaqo.Print.int_elem_partial",
    "Guanaqo.Print.not_integersPrintDecimal",
    "Guanaqo.Print.char_never_decimal"
   ],
   "note": "False for the 8-bit types, which print as characters."
  },
  {
   "property": "C79",
   "status": "partial",
   "theorems": [
    "Guanaqo.Duration.undefined_only_out_of_range_partial",
    "Guanaqo.Duration.not_noUndefined",
    "Guanaqo.Duration.parse_exact"
   ],
   "note": "False: inf, nan and values out of range are converted to integer ticks."
  },
  {
   "property": "C80",
   "status": "partial",
   "theorems": [
    "Guanaqo.Duration.failure_adds_prefix_partial",
    "Guanaqo.Duration.not_failureLeavesUnchanged",
    "Guanaqo.Duration.failure_blames",
    "Guanaqo.Duration.failure_unchanged_iff"
   ],
   "note": "False: the terms before the failure have been added."
  },
  {
   "property": "C81",
   "status": "partial",
   "theorems": [
    "Guanaqo.TypeErased.aligned_partial",
    "Guanaqo.TypeErased.not_alwaysAligned_bytes",
    "Guanaqo.TypeErased.not_alwaysAligned_16",
    "Guanaqo.TypeErased.aligned_iff"
   ],
   "note": "False: blocks come from an allocator of bytes, and over-aligned types are not aligned in the small buffer either."
  },
  {
   "property": "C82",
   "status": "partial",
   "theorems": [
    "Guanaqo.TypeErased.nested_assign_partial",
    "Guanaqo.TypeErased.nested_assign_undefined",
    "Guanaqo.TypeErased.not_nestedAssignWorks"
   ],
   "note": "False: the old object, with the source in it, is destroyed first."
  },
  {
   "property": "C83",
   "status": "partial",
   "theorems": [
    "Guanaqo.Timed.cpuTime_partial",
    "Guanaqo.Timed.not_cpuTimeInNanoseconds",
    "Guanaqo.Timed.cpuTime_windows_iff"
   ],
   "note": "False on Windows, where the unit is 100 ns; proved for the POSIX clocks."
  },
  {
   "property": "C84",
   "status": "proved",
   "theorems": [
    "Guanaqo.Ranges.adapter_exact"
   ],
   "note": ""
  },
  {
   "property": "C85",
   "status": "partial",
   "theorems": [
    "Guanaqo.Trace.no_stale_data_partial",
    "Guanaqo.Trace.not_noStaleData",
    "Guanaqo.Trace.records_exact"
   ],
   "note": "False after a reset: trace does not clear the duration of the record it reuses. The five other fields are those of the event; the duration is that of the last event before that used the record (records_exact)."
  },
  {
   "property": "C86",
   "status": "partial",
   "theorems": [
    "Guanaqo.FromChars.same_as_std_iff",
    "Guanaqo.FromChars.same_as_std_partial",
    "Guanaqo.FromChars.not_sameAsStd"
   ],
   "note": "False: leading blanks, plus signs and the prefix 0x are accepted, minus signs for unsigned types too, and on errors the end pointer is wrong. Proved for texts without them that start with a number that fits."
  },
  {
   "property": "C87",
   "status": "proved",
   "theorems": [
    "Guanaqo.Float.float_readsBack",
    "Guanaqo.Float.formats_ok",
    "Guanaqo.Float.digits_suffice",
    "Guanaqo.Float.texts_differ",
    "Guanaqo.Float.nearest_back",
    "Guanaqo.Float.exists_decimal",
    "Guanaqo.Float.gap",
    "Guanaqo.Float.mag_unique",
    "Guanaqo.Float.fromChars_ok"
   ],
   "note": "For correctly rounding std::to_chars and std::from_chars."
  },
  {
   "property": "C88",
   "status": "partial",
   "theorems": [
    "Guanaqo.Dl.libraries_closed_partial",
    "Guanaqo.Dl.not_libraries_closed",
    "Guanaqo.Dl.libraries_exact",
    "Guanaqo.Dl.libraries_closed_iff"
   ],
   "note": "False if opening a library succeeds but leaves an error message behind (a constructor of the library that looks for a symbol in vain): load_lib throws and the library stays open. Proved for all histories in which successful calls leave no message; exactly, for all histories: each library stays open once for each time it was opened with a message left behind (libraries_exact)."
  },
  {
   "property": "C89",
   "status": "partial",
   "theorems": [
    "Guanaqo.Dl.load_lib_correct_partial",
    "Guanaqo.Dl.load_func_correct_partial",
    "Guanaqo.Dl.load_pending_irrelevant",
    "Guanaqo.Dl.load_checked",
    "Guanaqo.Dl.load_lib_no_ub",
    "Guanaqo.Dl.not_load_func_correct",
    "Guanaqo.Dl.load_lib_win_correct",
    "Guanaqo.Dl.load_lib_correct_iff",
    "Guanaqo.Dl.load_func_correct_iff"
   ],
   "note": "False if a successful dlopen or dlsym leaves a message behind; proved otherwise, for every pending message before, and for Windows."
  },
  {
   "property": "C90",
   "status": "partial",
   "theorems": [
    "Guanaqo.Sparsity.as_sparsity_correct_partial",
    "Guanaqo.Sparsity.as_sparsity_valid_iff",
    "Guanaqo.Sparsity.not_as_sparsity_blocks",
    "Guanaqo.Sparsity.not_as_sparsity_uncompressed",
    "Guanaqo.Sparsity.as_eigen_round_trip"
   ],
   "note": "Exactly for packed objects (whole compressed matrices); false for blocks of columns and for uncompressed matrices with gaps."
  },
  {
   "property": "C91",
   "status": "partial",
   "theorems": [
    "Guanaqo.Sparsity.as_eigen_entries_partial",
    "Guanaqo.Sparsity.as_eigen_denotes_partial",
    "Guanaqo.Sparsity.not_as_eigen_symmetric",
    "Guanaqo.Sparsity.not_as_eigen_unsorted",
    "Guanaqo.Sparsity.as_eigen_denotes_iff",
    "Guanaqo.Sparsity.as_eigen_triangle_iff",
    "Guanaqo.Sparsity.mapCoeff_eq"
   ],
   "note": "Proved for sorted patterns without duplicates; false for symmetric patterns (the other triangle is lost) and for patterns with unsorted rows."
  },
  {
   "property": "C92",
   "status": "proved",
   "theorems": [
    "Guanaqo.Sparsity.sort_triplets_correct",
    "Guanaqo.Sparsity.sort_triplets_col_correct",
    "Guanaqo.Sparsity.sort_rows_csc_correct",
    "Guanaqo.Sparsity.convert_triplets_to_ccs_correct"
   ],
   "note": ""
  },
  {
   "property": "C93",
   "status": "partial",
   "theorems": [
    "Guanaqo.Sparsity.uniqueness_with_values_partial",
    "Guanaqo.Sparsity.uniqueness_with_values_iff",
    "Guanaqo.Sparsity.not_uniquenessWithValues"
   ],
   "note": "False: values are compared as well, so duplicates with different values are missed. Without duplicates the answer is right. With two ranges (C12) the check is exact."
  },
  {
   "property": "C94",
   "status": "partial",
   "theorems": [
    "Guanaqo.Blas.run_ok_iff",
    "Guanaqo.Blas.exprs_are_traces",
    "Guanaqo.Blas.gemv_defined_iff",
    "Guanaqo.Blas.gemm_defined_iff",
    "Guanaqo.Blas.tri_defined_iff",
    "Guanaqo.Blas.triVec_defined_iff",
    "Guanaqo.Blas.trsm_defined_iff",
    "Guanaqo.Blas.potrf_defined_iff",
    "Guanaqo.Blas.lauum_defined_iff",
    "Guanaqo.Blas.trtri_defined_iff",
    "Guanaqo.Blas.counts_defined_64_partial",
    "Guanaqo.Blas.thresholds_32",
    "Guanaqo.Blas.not_countsDefined_32",
    "Guanaqo.Blas.gemm_overflows_32",
    "Guanaqo.Blas.offsets_defined_iff"
   ],
   "note": "Exact conditions are proved for every routine and width. With 64 bits there is no overflow up to 2^20 rows and columns; with 32 bits (an option of the build) the statement is false from 1290 rows on."
  },
  {
   "property": "C95",
   "status": "partial",
   "theorems": [
    "Guanaqo.MatView.at_defined",
    "Guanaqo.MatView.at_ok_iff",
    "Guanaqo.MatView.bottomRows_defined",
    "Guanaqo.MatView.rightCols_defined",
    "Guanaqo.MatView.rightCols_zero_iff",
    "Guanaqo.MatView.block_defined",
    "Guanaqo.MatView.setConstant_defined",
    "Guanaqo.MatView.setConstantTri_defined_partial",
    "Guanaqo.MatView.generate_defined",
    "Guanaqo.MatView.diagonal_defined_iff",
    "Guanaqo.MatView.diagonal_value",
    "Guanaqo.MatView.asColumn_defined_iff",
    "Guanaqo.MatView.not_diagonalDefined"
   ],
   "note": "Proved for element access, parts with elements, filling and generation (square views for triangles). False for diagonal(), which computes an outer stride that can overflow; as_column of a span that is too long gives another view."
  },
  {
   "property": "C96",
   "status": "partial",
   "theorems": [
    "Guanaqo.MatView.at_defined",
    "Guanaqo.MatView.at_ok_iff",
    "Guanaqo.MatView.bottomRows_defined",
    "Guanaqo.MatView.rightCols_defined",
    "Guanaqo.MatView.block_defined",
    "Guanaqo.MatView.setConstant_defined",
    "Guanaqo.MatView.setConstantTri_defined_partial",
    "Guanaqo.MatView.generate_defined",
    "Guanaqo.MatView.setDiagonal_defined_partial",
    "Guanaqo.MatView.copyValues_defined_partial",
    "Guanaqo.MatView.addView_defined_partial",
    "Guanaqo.MatView.addScalar_defined_partial",
    "Guanaqo.MatView.roomy_of_columns",
    "Guanaqo.MatView.setDiagonal_needs",
    "Guanaqo.MatView.setDiagonal_undefined",
    "Guanaqo.MatView.addToDiagonal_defined_partial",
    "Guanaqo.MatView.addToDiagonal_needs",
    "Guanaqo.MatView.addToDiagonal_undefined",
    "Guanaqo.MatView.not_setDiagonalDefined",
    "Guanaqo.MatView.copyValues_needs",
    "Guanaqo.MatView.copy_bottomRows_undefined",
    "Guanaqo.MatView.not_copyDefined",
    "Guanaqo.MatView.setDiagonal_defined_iff",
    "Guanaqo.MatView.addToDiagonal_defined_iff",
    "Guanaqo.MatView.copyValues_defined_iff",
    "Guanaqo.MatView.addView_defined_iff",
    "Guanaqo.MatView.addScalar_defined_iff"
   ],
   "note": "False for set_diagonal on every square matrix in an array of its own, and for assignment to and from the bottom rows of a matrix, where loops advance a pointer once more after the last element. Proved exactly where the array has room for that (the theorems ending in _defined_iff), and for the other operations."
  },
  {
   "property": "C97",
   "status": "partial",
   "theorems": [
    "Guanaqo.Csv.fallback_same_partial",
    "Guanaqo.Csv.fallback_csv_read",
    "Guanaqo.Csv.fallback_csv_read_row",
    "Guanaqo.Csv.fallback_csv_read_vector",
    "Guanaqo.Csv.fallback_wraps",
    "Guanaqo.Csv.not_sameNumbers",
    "Guanaqo.Csv.fallback_blanks",
    "Guanaqo.Csv.csvReadBy_std",
    "Guanaqo.Csv.csvReadRowBy_std",
    "Guanaqo.Csv.csvReadRowVectorBy_std",
    "Guanaqo.Csv.same_int_field_iff",
    "Guanaqo.Csv.c_int_field_iff",
    "Guanaqo.Csv.std_int_field_iff",
    "Guanaqo.Csv.c_int_read_iff",
    "Guanaqo.Csv.same_ints_partial"
   ],
   "note": "Exactly, field by field: same_int_field_iff. False: a number that does not fit the type is cast (70000 becomes 4464 in a short) where std::from_chars refuses it, blanks are skipped and +-5 is refused. Proved for texts without blanks, NULs and '+-' (outside comments) whose numbers fit the type; for all such texts the fallback is the long reader followed by a cast."
  },
  {
   "property": "C98",
   "status": "partial",
   "theorems": [
    "Guanaqo.Float.snprintfVw_complete_iff",
    "Guanaqo.Float.snprintfVw_long",
    "Guanaqo.Float.quad_round_trip_partial",
    "Guanaqo.Float.quad_lost",
    "Guanaqo.Float.quad_csv_read_representable",
    "Guanaqo.Float.quad_readsBack",
    "Guanaqo.Float.not_quadRoundTrip",
    "Guanaqo.Float.x87_sub",
    "Guanaqo.Float.widen_val"
   ],
   "note": "False: the numbers are read as long double, so 2^64+1 comes back as another number. Proved when all elements are representable in long double (and the shape is not a column printed on one line, C43); otherwise the matrix never comes back."
  },
  {
   "property": "C99",
   "status": "partial",
   "theorems": [
    "Guanaqo.Float.ostream_precision_partial",
    "Guanaqo.Float.quad_precision_partial",
    "Guanaqo.Float.quad_precision_iff",
    "Guanaqo.Float.ostream_complete_iff",
    "Guanaqo.Float.ostream_precision_of_complete",
    "Guanaqo.Float.ostream_reads_back",
    "Guanaqo.Float.ostream_complete",
    "Guanaqo.Float.ostream_truncates",
    "Guanaqo.Float.ostream_wraps",
    "Guanaqo.Float.not_quadPrecision"
   ],
   "note": "Proved for precisions from 1 to 119, and this is exact: with more digits some numbers, from 127 on all, do not fit the buffer, and the assertion fails or, without assertions, the text is cut off after 127 characters; ostream_complete_iff says which numbers; precisions are taken modulo 2^32."
  }
 ]
}