{
 "claims": [
  {
   "property": "C01",
   "status": "proved",
   "theorems": [
    "Meevax.NanBox.C01_read_back",
    "Meevax.NanBox.C01_one_type",
    "Meevax.NanBox.C01_pointer_iff",
    "Meevax.NanBox.C01_high_address_fails"
   ],
   "note": "All 64-bit words; addresses below 2^48. Addresses >= 2^48 are not storable (witness)."
  },
  {
   "property": "C02",
   "status": "proved",
   "theorems": [
    "Meevax.NanBox.C02_eq_iff_same",
    "Meevax.NanBox.C02_kinds_disjoint"
   ],
   "note": "eq? is equality of the stored words."
  },
  {
   "property": "C03",
   "status": "proved",
   "theorems": [
    "Meevax.PointerSet.C03_finite_set",
    "Meevax.PointerSet.C03_high_address_fails",
    "Meevax.PointerSet.C03_double_insert_fails"
   ],
   "note": "All legal histories; addresses aligned to 8 and below 2^47, inserting only absent and erasing only present addresses (the code asserts this)."
  },
  {
   "property": "C04",
   "status": "proved",
   "theorems": [
    "Meevax.PointerSet.C04_traversal",
    "Meevax.PointerSet.C04_lower_bound",
    "Meevax.PointerSet.C04_range",
    "Meevax.PointerSet.C04_step_back"
   ],
   "note": "All legal histories, for every value of the word read past the occupancy array."
  },
  {
   "property": "C05",
   "status": "proved",
   "theorems": [
    "Meevax.Allocator.C05_allocate",
    "Meevax.Allocator.C05_no_double_use",
    "Meevax.Allocator.C05_reuse_before_fresh"
   ],
   "note": "All histories of allocations, releases of held cells and arbitrary writes into held cells. Destructors at exit not modelled."
  },
  {
   "property": "C06",
   "status": "proved",
   "theorems": [
    "Meevax.GC.C06_reachable_survive",
    "Meevax.GC.C06_references_kept",
    "Meevax.GC.C06_no_dangling",
    "Meevax.GC.C06_accessible_survive"
   ],
   "note": "All states reachable by any sequence of slot assignments, requests, registrations and collections, on the model of the real address sets."
  },
  {
   "property": "C07",
   "status": "partial",
   "theorems": [
    "Meevax.GC.C07_unreachable_freed",
    "Meevax.GC.C07_inaccessible_freed_partial",
    "Meevax.GC.C07_idempotent_partial",
    "Meevax.GC.C07_vector_cycle_fails",
    "Meevax.GC.C07_second_collection_fails"
   ],
   "note": "Exactly the objects reachable from roots survive; with references held in data members that is exactly what the program can reach. False for out-of-line buffers (vectors): their elements count as roots, so cyclic vectors leak and garbage behind a vector needs one more collection (witnesses)."
  },
  {
   "property": "C08",
   "status": "partial",
   "theorems": [
    "Meevax.GC.C08_after_collection",
    "Meevax.GC.C08_trigger",
    "Meevax.GC.C08_capacity_monotone",
    "Meevax.GC.C08_never_overcounts_partial",
    "Meevax.GC.C08_exact_fails"
   ],
   "note": "Counter exact after a collection, trigger condition, monotone capacity, upper bound at all times; exactness at all times is false (the object whose request triggered a collection is not counted; witness)."
  },
  {
   "property": "C09",
   "status": "proved",
   "theorems": [
    "Meevax.GC.C09_root_exact"
   ],
   "note": "All reachable states and aligned slot addresses."
  },
  {
   "property": "C10",
   "status": "proved",
   "theorems": [
    "Meevax.Lists.C10_classification"
   ],
   "note": "termination and exactness of list?, circular-list?, dotted-list? on every finite heap"
  },
  {
   "property": "C11",
   "status": "proved",
   "theorems": [
    "Meevax.Lists.C11_append2",
    "Meevax.Lists.C11_append",
    "Meevax.Lists.C11_append_none",
    "Meevax.Lists.C11_append_lists",
    "Meevax.Lists.C11_list_copy",
    "Meevax.Lists.C11_reverse",
    "Meevax.Lists.C11_append_reverse",
    "Meevax.Lists.C11_take",
    "Meevax.Lists.C11_drop",
    "Meevax.Lists.C11_list_ref",
    "Meevax.Lists.C11_take_right",
    "Meevax.Lists.C11_drop_right",
    "Meevax.Lists.C11_length",
    "Meevax.Lists.C11_length_plus",
    "Meevax.Lists.C11_make_list",
    "Meevax.Lists.C11_iota",
    "Meevax.Lists.C11_last",
    "Meevax.Lists.C11_circular_list",
    "Meevax.Lists.C11_alist_copy"
   ],
   "note": "fresh part, shared part and frame condition for each procedure; iota over an abstract addition"
  },
  {
   "property": "C12",
   "status": "proved",
   "theorems": [
    "Meevax.Lists.C12_append2",
    "Meevax.Lists.C12_append2_lists",
    "Meevax.Lists.C12_append",
    "Meevax.Lists.C12_reverse",
    "Meevax.Lists.C12_append_reverse",
    "Meevax.Lists.C12_take",
    "Meevax.Lists.C12_drop_right",
    "Meevax.Lists.C12_cons_star"
   ],
   "note": "reverse! and append-reverse! relink only the first pair (overload resolution selects the copying overload for the recursive call)"
  },
  {
   "property": "C13",
   "status": "proved",
   "theorems": [
    "Meevax.Lists.C13_mem_found",
    "Meevax.Lists.C13_mem_none",
    "Meevax.Lists.C13_mem",
    "Meevax.Lists.C13_ass_found",
    "Meevax.Lists.C13_ass_none"
   ],
   "note": "test is a parameter (eq or eqv)"
  },
  {
   "property": "C14",
   "status": "partial",
   "theorems": [
    "Meevax.Equal.C14_decides_partial",
    "Meevax.Equal.C14_cyclic_vector_fails",
    "Meevax.Equal.C14_bytevector_lengths_fails"
   ],
   "note": "termination and exactness for every finite graph (sharing, cycles through pairs, nested vectors); false for cycles through vectors (divergence proved) and homogeneous vectors of different length (undefined behaviour)"
  },
  {
   "property": "C15",
   "status": "partial",
   "theorems": [
    "Meevax.Equal.C15_nested",
    "Meevax.Equal.C15_reflexive",
    "Meevax.Equal.C15_eq_equivalence",
    "Meevax.Equal.C15_equal_equivalence_partial",
    "Meevax.Equal.C15_eqv_equivalence_partial",
    "Meevax.Equal.C15_complex_fails"
   ],
   "note": "nesting and reflexivity on every heap; symmetry and transitivity where C14 decides; false for inexact complex numbers (tolerance is not transitive)"
  },
  {
   "property": "C16",
   "status": "partial",
   "theorems": [
    "Meevax.Text.C16_char_partial",
    "Meevax.Text.C16_sequence_partial",
    "Meevax.Text.C16_string_partial",
    "Meevax.Text.C16_nul_fails",
    "Meevax.Text.C16_malformed_accepted",
    "Meevax.Text.C16_bad_byte"
   ],
   "note": "every scalar value but NUL, against Lean's own UTF-8 encoder; NUL is written as nothing; malformed input is accepted"
  },
  {
   "property": "C17",
   "status": "partial",
   "theorems": [
    "Meevax.Text.C17_peek_partial",
    "Meevax.Text.C17_nul_fails"
   ],
   "note": "any interleaving of peek-char and read-char over any text without NUL, also past its end; peeking at a NUL consumes it"
  },
  {
   "property": "C18",
   "status": "partial",
   "theorems": [
    "Meevax.Text.C18_string_partial",
    "Meevax.Text.C18_isprint_fails"
   ],
   "note": "every string, under the assumption that isprint is false above 255 (the C standard leaves it undefined there)"
  },
  {
   "property": "C19",
   "status": "proved",
   "theorems": [
    "Meevax.Text.C19_char"
   ],
   "note": "every Unicode scalar value, in front of a delimiter or the end of the input"
  },
  {
   "property": "C20",
   "status": "partial",
   "theorems": [
    "Meevax.Text.C20_symbol_partial",
    "Meevax.Text.C20_names",
    "Meevax.Text.C20_number_fails",
    "Meevax.Text.C20_dot_fails"
   ],
   "note": "false for names that read as numbers and for the name \".\""
  },
  {
   "property": "C21",
   "status": "partial",
   "theorems": [
    "Meevax.Text.C21_integer_partial",
    "Meevax.Text.C21_smallest_fails",
    "Meevax.Text.C21_ratio_fails",
    "Meevax.Text.C21_ratio_literal"
   ],
   "note": "every exact integer and radix 2..36 but -2^31 in radix 2 (unterminated buffer); number->string of a ratio is \"TODO\"; ratio literals read back"
  },
  {
   "property": "C22",
   "status": "partial",
   "theorems": [
    "Meevax.Text.C22_round_trip_partial",
    "Meevax.Text.C22_sequence_partial"
   ],
   "note": "every finite tree of (), booleans, exact integers, ratios, characters, strings, symbols, pairs, vectors and u8vectors whose atoms are readable (C18, C20)"
  },
  {
   "property": "C23",
   "status": "partial",
   "theorems": [
    "Meevax.Text.C23_layout_partial",
    "Meevax.Text.C23_space",
    "Meevax.Text.C23_dotted_fails",
    "Meevax.Text.C23_comma_fails"
   ],
   "note": "any layout with white space, line, nested block and datum comments; false before the parenthesis of a dotted list and after a comma (non-termination proved)"
  },
  {
   "property": "C24",
   "status": "proved",
   "theorems": [
    "Meevax.Number.C24_sum",
    "Meevax.Number.C24_product",
    "Meevax.Number.C24_difference",
    "Meevax.Number.C24_comparison"
   ],
   "note": "any mixture of fixnums and big integers; add/sub/mul with any number of arguments"
  },
  {
   "property": "C25",
   "status": "partial",
   "theorems": [
    "Meevax.Number.C25_sum_product_partial",
    "Meevax.Number.C25_difference_partial",
    "Meevax.Number.C25_quotient_partial",
    "Meevax.Number.C25_integers_partial",
    "Meevax.Number.C25_quotient_fails",
    "Meevax.Number.C25_zero_fails"
   ],
   "note": "values are exact everywhere; false: (/ 6 3) of fixnums is a ratio object with denominator 1; division by exact zero kills the process"
  },
  {
   "property": "C26",
   "status": "partial",
   "theorems": [
    "Meevax.Number.C26_remainder_partial",
    "Meevax.Number.C26_quotient_partial",
    "Meevax.Number.C26_quotient_fails",
    "Meevax.Number.C26_huge_fails",
    "Meevax.Number.C26_zero_fails"
   ],
   "note": "remainder and modulo for every non-zero divisor; quotient if the division is even or the operands are short; false for quotients above 2^53, above 2^1024 and zero divisors"
  },
  {
   "property": "C27",
   "status": "partial",
   "theorems": [
    "Meevax.Number.C27_gcd_partial",
    "Meevax.Number.C27_lcm_partial",
    "Meevax.Number.C27_single_partial",
    "Meevax.Number.C27_product_partial",
    "Meevax.Number.C27_single_fails",
    "Meevax.Number.C27_zeros_fails"
   ],
   "note": "two or more arguments; false: (gcd -5) is -5; (lcm 0 0) divides by zero"
  },
  {
   "property": "C28",
   "status": "proved",
   "theorems": [
    "Meevax.Number.C28_not",
    "Meevax.Number.C28_bitwise",
    "Meevax.Number.C28_determines"
   ],
   "note": "every bit, any representation, any number of arguments"
  },
  {
   "property": "C29",
   "status": "partial",
   "theorems": [
    "Meevax.Number.C29_shift_partial",
    "Meevax.Number.C29_shift_fails",
    "Meevax.Number.C29_count_partial",
    "Meevax.Number.C29_count_fails",
    "Meevax.Number.C29_count_witness",
    "Meevax.Number.C29_length_partial",
    "Meevax.Number.C29_length_fails"
   ],
   "note": "false: right shift of a fixnum by 64 or more; integer-length of a big -1; bit-count of 2^31 ones"
  },
  {
   "property": "C30",
   "status": "partial",
   "theorems": [
    "Meevax.Number.C30_connectives",
    "Meevax.Number.C30_eqv",
    "Meevax.Number.C30_if",
    "Meevax.Number.C30_single",
    "Meevax.Number.C30_any_every",
    "Meevax.Number.C30_field_partial",
    "Meevax.Number.C30_field_fails",
    "Meevax.Number.C30_replace",
    "Meevax.Number.C30_rotate_partial",
    "Meevax.Number.C30_rotate_fails",
    "Meevax.Number.C30_reverse_partial",
    "Meevax.Number.C30_first",
    "Meevax.Number.C30_first_exists",
    "Meevax.Number.C30_bits_to_list",
    "Meevax.Number.C30_list_to_bits",
    "Meevax.Number.C30_list_round_trip",
    "Meevax.Number.C30_vector",
    "Meevax.Number.C30_fold",
    "Meevax.Number.C30_unfold",
    "Meevax.Number.C30_generator"
   ],
   "note": "indices below 2^31; false: fields of fixnums that begin at 64 or above; rotation of the empty field"
  },
  {
   "property": "C31",
   "status": "partial",
   "theorems": [
    "Meevax.Number.C31_floor_partial",
    "Meevax.Number.C31_ceiling_partial",
    "Meevax.Number.C31_truncate_partial",
    "Meevax.Number.C31_euclidean_partial",
    "Meevax.Number.C31_round_partial",
    "Meevax.Number.C31_balanced_partial",
    "Meevax.Number.C31_floor_fails",
    "Meevax.Number.C31_round_fails",
    "Meevax.Number.C31_zero_fails"
   ],
   "note": "even divisions or short operands; false: large quotients; round/ takes halves away from zero; zero divisors"
  },
  {
   "property": "C32",
   "status": "proved",
   "theorems": [
    "Meevax.Number.C32_comparison",
    "Meevax.Number.C32_trichotomy",
    "Meevax.Number.C32_extrema"
   ],
   "note": "all exact numbers"
  },
  {
   "property": "C33",
   "status": "partial",
   "theorems": [
    "Meevax.Number.C33_integer_sqrt",
    "Meevax.Number.C33_sqrt",
    "Meevax.Number.C33_exact_partial",
    "Meevax.Number.C33_exact_fails"
   ],
   "note": "the double square root is required to be exact on small squares; false: sqrt of a big integer that is not a square is an exact integer"
  },
  {
   "property": "C34",
   "status": "partial",
   "theorems": [
    "Meevax.Secd.C34_compiled_program_partial",
    "Meevax.Secd.C34_without_callcc_partial",
    "Meevax.Secd.C34_defined_partial",
    "Meevax.Secd.C34_example",
    "Meevax.Secd.C34_example_callcc"
   ],
   "note": "step-by-step simulation of a reference semantics by generated code, for whole programs, any primitives that agree, any number of steps, divergence included; without continuations only programs in error are excluded; with continuations: capture in tail position, an operand continuation used once"
  },
  {
   "property": "C35",
   "status": "proved",
   "theorems": [
    "Meevax.Secd.C35_control_space",
    "Meevax.Secd.C35_space_per_call",
    "Meevax.Secd.C35_call_keeps_continuation",
    "Meevax.Secd.C35_control_stack_partial",
    "Meevax.Secd.C35_infinite_loop",
    "Meevax.Secd.C35_infinite_loop_space"
   ],
   "note": "stack and dump together are bounded by a constant (twice the nesting of the text, plus one) times the depth of the continuation in the reference semantics, which tail calls leave alone; programs with call-with-current-continuation! in tail position only, as in the library"
  },
  {
   "property": "C36",
   "status": "proved",
   "theorems": [
    "Meevax.Secd.C36_reference",
    "Meevax.Secd.C36_assignment",
    "Meevax.Secd.C36_global",
    "Meevax.Secd.C36_place"
   ],
   "note": ""
  },
  {
   "property": "C37",
   "status": "partial",
   "theorems": [
    "Meevax.Secd.C37_code",
    "Meevax.Secd.C37_operands_partial",
    "Meevax.Secd.C37_call",
    "Meevax.Secd.C38_reentry_fails"
   ],
   "note": "order, exactly once, fresh cells; false when the continuation of an operand is used again: the argument cells are shared"
  },
  {
   "property": "C38",
   "status": "partial",
   "theorems": [
    "Meevax.Secd.C38_restores_partial",
    "Meevax.Secd.C38_returns_to_caller_partial",
    "Meevax.Secd.C34_compiled_program_partial",
    "Meevax.Secd.C38_reentry_fails",
    "Meevax.Secd.C38_nontail_fails",
    "Meevax.Secd.C38_operand_call_fails"
   ],
   "note": "registers are restored at every use; false: argument cells already evaluated are variables of the first call; the raw operator outside tail position"
  },
  {
   "property": "C39",
   "status": "proved",
   "theorems": [
    "Meevax.Secd.C39_letrec"
   ],
   "note": "any number of procedures"
  },
  {
   "property": "C40",
   "status": "partial",
   "theorems": [
    "Meevax.Secd.C40_no_underflow",
    "Meevax.Secd.C40_never_stuck_partial",
    "Meevax.Secd.C40_arity_fails",
    "Meevax.Secd.C40_extra_argument_fails",
    "Meevax.Secd.C40_letrec_fails",
    "Meevax.Secd.C40_car_fails"
   ],
   "note": "operands, control list and dump entries are always there, also in programs in error; every step is defined for programs that are not in error; false for a wrong number of arguments, uninitialised letrec variables, car of a non-pair"
  },
  {
   "property": "C41",
   "status": "partial",
   "theorems": [
    "Meevax.Control.C41_nesting_partial",
    "Meevax.Control.C41_jump_partial",
    "Meevax.Control.C41_unequal",
    "Meevax.Control.C41_unequal_fails",
    "Meevax.Control.C41_after_escape_fails",
    "Meevax.Control.C41_normal",
    "Meevax.Control.C41_exit_fails",
    "Meevax.Secd.Exit.C41_exit_code"
   ],
   "note": "befores and afters that do not escape; common extents are untouched when source and target are equally deep; false: a jump between unequal depths leaves and re-enters all extents; an after that escapes runs again; exit runs no after at all, because its library does not import letrec and the last operand of what is then a call is evaluated first"
  },
  {
   "property": "C42",
   "status": "partial",
   "theorems": [
    "Meevax.Control.C42_scope_partial",
    "Meevax.Control.C42_enter",
    "Meevax.Control.C42_restored"
   ],
   "note": "thunks of dynamic-wind that do not escape"
  },
  {
   "property": "C43",
   "status": "partial",
   "theorems": [
    "Meevax.Control.C43_scope_partial",
    "Meevax.Control.C43_install",
    "Meevax.Control.C43_raise",
    "Meevax.Control.C43_uncaught",
    "Meevax.Control.C43_continuable",
    "Meevax.Control.C43_returning_fails"
   ],
   "note": "thunks of dynamic-wind that do not escape; false: when a handler returns from raise the outer handlers are not called"
  },
  {
   "property": "C44",
   "status": "partial",
   "theorems": [
    "Meevax.Promise.C44_same_value",
    "Meevax.Promise.C44_force",
    "Meevax.Promise.C44_once_partial",
    "Meevax.Promise.C44_chain_fails",
    "Meevax.Promise.C44_chain_space"
   ],
   "note": "at most once when forced through its own promise and not re-entered; false: a promise forced through delay-force is evaluated again and stops being a promise"
  },
  {
   "property": "C45",
   "status": "partial",
   "theorems": [
    "Meevax.Symbol.C45_interned",
    "Meevax.Symbol.C45_string_partial",
    "Meevax.Symbol.C45_nul_fails",
    "Meevax.Symbol.C45_never_freed",
    "Meevax.Symbol.C45_defined"
   ],
   "note": "strings without NUL; false: NUL is dropped from names, so strings that differ in NULs only give the same symbol"
  },
  {
   "property": "C46",
   "status": "partial",
   "theorems": [
    "Meevax.Library.C46_exposed_partial",
    "Meevax.Library.C46_imported_partial",
    "Meevax.Library.C46_own_variables",
    "Meevax.Library.C46_filtering",
    "Meevax.Library.C46_number_fails",
    "Meevax.Library.C46_absent_fails",
    "Meevax.Library.C46_location_fails",
    "Meevax.Library.C46_special_fails"
   ],
   "note": "names without special characters under prefix; false: absent identifiers are not an error, prefix/rename copy the value into a new variable, a prefixed name with special characters becomes its written form, a library whose name begins with a number cannot be imported"
  },
  {
   "property": "C47",
   "status": "partial",
   "theorems": [
    "Meevax.Library.C47_conflict",
    "Meevax.Library.C47_stable",
    "Meevax.Library.C47_later",
    "Meevax.Library.C47_again_partial",
    "Meevax.Library.C47_interactive",
    "Meevax.Library.C47_prefix_fails",
    "Meevax.Library.C47_renamed_fails"
   ],
   "note": "conflict detection is exact on variables; false: the same binding imported twice through prefix, rename or a renamed export counts as two bindings"
  },
  {
   "property": "C48",
   "status": "partial",
   "theorems": [
    "Meevax.Library.C48_first_partial",
    "Meevax.Library.C48_spliced",
    "Meevax.Library.C48_name_fails",
    "Meevax.Library.C48_disk_fails"
   ],
   "note": "library names that write distinguishes; false: (library ...) does not see libraries that import would load, and does not distinguish (foo |1|) from (foo 1)"
  },
  {
   "property": "C49",
   "status": "partial",
   "theorems": [
    "Meevax.Library.C49_once",
    "Meevax.Library.C49_all",
    "Meevax.Library.C49_name",
    "Meevax.Library.C49_same_partial",
    "Meevax.Library.C49_renamed_fails",
    "Meevax.Library.C49_broken_fails"
   ],
   "note": "same variables for plain exports; false: a renamed export is a new variable for every importer; a library whose body raised is silently half initialised at the next import"
  },
  {
   "property": "C50",
   "status": "partial",
   "theorems": [
    "Meevax.Seq.C50_make",
    "Meevax.Seq.C50_ref_partial",
    "Meevax.Seq.C50_set_partial",
    "Meevax.Seq.C50_string_range_partial",
    "Meevax.Seq.C50_copy_partial",
    "Meevax.Seq.C50_list_partial",
    "Meevax.Seq.C50_list_back",
    "Meevax.Seq.C50_fill_partial",
    "Meevax.Seq.C50_copy_into_partial",
    "Meevax.Seq.C50_append",
    "Meevax.Seq.C50_bytes_append_partial",
    "Meevax.Seq.C50_vector_string_partial",
    "Meevax.Seq.C50_string_vector_partial",
    "Meevax.Seq.C50_length_partial",
    "Meevax.Seq.C50_utf8_partial",
    "Meevax.Seq.C50_utf8_empty_fails",
    "Meevax.Seq.C50_vector_range_fails",
    "Meevax.Seq.C50_copy_range_fails",
    "Meevax.Seq.C50_room_fails",
    "Meevax.Seq.C50_overlap_fails",
    "Meevax.Seq.C50_forward_fails",
    "Meevax.Seq.C50_string_vector_fails",
    "Meevax.Seq.C50_string_utf8_fails",
    "Meevax.Seq.C50_bytes_append_fails",
    "Meevax.Seq.C50_index_fails",
    "Meevax.Seq.C50_byte_fails"
   ],
   "note": "every valid range below 2^64, copies within one object towards the beginning; false: out-of-range access other than string-ref/string-set! is undefined behaviour, copies towards the end within one object, string->vector and string->utf8 ignore the range, bytevector-append drops the third argument, indices and bytes wrap"
  },
  {
   "property": "C51",
   "status": "partial",
   "theorems": [
    "Meevax.Seq.C51_order_partial",
    "Meevax.Seq.C51_total",
    "Meevax.Seq.C51_ci_less",
    "Meevax.Seq.C51_ci_greater_partial",
    "Meevax.Seq.C51_char_ci",
    "Meevax.Seq.C51_ci_equal_fails",
    "Meevax.Seq.C51_ci_equal_first_fails",
    "Meevax.Seq.C51_ci_greater_fails",
    "Meevax.Seq.C51_ci_monotone_fails"
   ],
   "note": "all case sensitive comparisons, string-ci<?, char-ci; false: string-ci=? only needs some pair of positions not to differ, string-ci>? inverts prefixes, string-ci<=? and string-ci>=?"
  },
  {
   "property": "C52",
   "status": "partial",
   "theorems": [
    "Meevax.Byte.C52_no_loss",
    "Meevax.Byte.C52_read_partial",
    "Meevax.Byte.C52_bytes",
    "Meevax.Byte.C52_peek",
    "Meevax.Byte.C52_write",
    "Meevax.Byte.C52_write_append",
    "Meevax.Byte.C52_round_trip",
    "Meevax.Byte.C52_read_into_partial",
    "Meevax.Byte.C52_short_fails",
    "Meevax.Byte.C52_ready_fails",
    "Meevax.Byte.C52_read_into_fails",
    "Meevax.Byte.C52_byte_fails"
   ],
   "note": "no loss and round trips unconditionally; false: read-bytevector of more bytes than are left gives eof, u8-ready? at the end is #f, read-bytevector! returns no count, write-u8 takes numbers modulo 256"
  },
  {
   "property": "C53",
   "status": "partial",
   "theorems": [
    "Meevax.Expand.C53_compile_partial",
    "Meevax.Expand.C53_meaning_unique",
    "Meevax.Expand.C53_define_partial",
    "Meevax.Expand.C53_define_unspecified",
    "Meevax.Expand.C53_define_procedure_partial",
    "Meevax.Expand.C53_inserted",
    "Meevax.Expand.C53_user",
    "Meevax.Expand.C53_separate",
    "Meevax.Expand.Fails.C53_variable_fails",
    "Meevax.Expand.Fails.C53_definition_fails",
    "Meevax.Expand.Fails.C53_unbound_fails",
    "Meevax.Expand.Fails.C53_local_macro_fails",
    "Meevax.Expand.Fails.C53_sc_fails",
    "Meevax.Expand.Fails.C53_letrec_fails",
    "Meevax.Expand.Fails.C53_keyword_fails",
    "Meevax.Expand.Fails.C53_bound_keyword_fails",
    "Meevax.Expand.Fails.C53_quote_fails",
    "Meevax.Expand.Loop.C53_inserted_definition_fails",
    "Meevax.Expand.Loop.C53_named_definition",
    "Meevax.Expand.C53_same_name"
   ],
   "note": "every program of the core forms and of explicit renaming macros that has a meaning in a hygienic semantics compiles to that meaning; left out of the semantics, because the code is not hygienic there: macro results that are a variable bound twice, shadowing by internal definitions and letrec, identifiers unbound where the macro is defined, variables with the name of a macro, local macros, sc-macro-transformer, definitions of inserted identifiers in bodies (the compiler does not end); each is shown by a counterexample"
  },
  {
   "property": "C54",
   "status": "partial",
   "theorems": [
    "Meevax.Values.C54_partial",
    "Meevax.Values.C54_single",
    "Meevax.Values.C54_injective",
    "Meevax.Values.C54_define",
    "Meevax.Values.C54_define_rest",
    "Meevax.Values.C54_define_few",
    "Meevax.Values.C54_define_many",
    "Meevax.Values.C54_continuation_fails"
   ],
   "note": "every producer that returns its values, with any effects; false: a continuation called with several arguments passes on only the first"
  },
  {
   "property": "C55",
   "status": "partial",
   "theorems": [
    "Meevax.Record.C55_define",
    "Meevax.Record.C55_construct",
    "Meevax.Record.C55_construct_arity",
    "Meevax.Record.C55_modify",
    "Meevax.Record.C55_keep",
    "Meevax.Record.C55_predicate",
    "Meevax.Record.C55_other_type",
    "Meevax.Record.C55_other_data",
    "Meevax.Record.C55_wrong_type",
    "Meevax.Record.C55_vector_fails"
   ],
   "note": "store laws, frame conditions and separation of types; false: records are vectors, so vector? holds and vector-set! can forge a type"
  },
  {
   "property": "C56",
   "status": "partial",
   "theorems": [
    "Meevax.Srfi1.C56_fold",
    "Meevax.Srfi1.C56_foldRight",
    "Meevax.Srfi1.C56_pairFold",
    "Meevax.Srfi1.C56_pairFoldRight",
    "Meevax.Srfi1.C56_reduce",
    "Meevax.Srfi1.C56_reduceRight",
    "Meevax.Srfi1.C56_count",
    "Meevax.Srfi1.C56_map",
    "Meevax.Srfi1.C56_forEach",
    "Meevax.Srfi1.C56_mapInOrder",
    "Meevax.Srfi1.C56_appendMap",
    "Meevax.Srfi1.C56_pairForEach",
    "Meevax.Srfi1.C56_filterMap_one",
    "Meevax.Srfi1.C56_filterMap_several",
    "Meevax.Srfi1.C56_tabulate",
    "Meevax.Srfi1.C56_unfold",
    "Meevax.Srfi1.C56_unfold_forever",
    "Meevax.Srfi1.C56_unfoldRight",
    "Meevax.Srfi1.C56_filter",
    "Meevax.Srfi1.C56_filter_pure",
    "Meevax.Srfi1.C56_remove",
    "Meevax.Srfi1.C56_remove_pure",
    "Meevax.Srfi1.C56_partition",
    "Meevax.Srfi1.C56_partition_pure",
    "Meevax.Srfi1.C56_find",
    "Meevax.Srfi1.C56_findTail_first",
    "Meevax.Srfi1.C56_findTail_none",
    "Meevax.Srfi1.C56_any",
    "Meevax.Srfi1.C56_every",
    "Meevax.Srfi1.C56_listIndex",
    "Meevax.Srfi1.C56_search_pure",
    "Meevax.Srfi1.C56_span_first",
    "Meevax.Srfi1.C56_span_all",
    "Meevax.Srfi1.C56_break_first",
    "Meevax.Srfi1.C56_span",
    "Meevax.Srfi1.C56_takeWhile",
    "Meevax.Srfi1.C56_member",
    "Meevax.Srfi1.C56_assoc",
    "Meevax.Srfi1.C56_delete",
    "Meevax.Srfi1.C56_alistDelete",
    "Meevax.Srfi1.C56_deleteDuplicates",
    "Meevax.Srfi1.C56_listEq",
    "Meevax.Srfi1.C56_lsetLe",
    "Meevax.Srfi1.C56_lsetEq",
    "Meevax.Srfi1.C56_lsetAdjoin",
    "Meevax.Srfi1.C56_lsetAdjoin_once",
    "Meevax.Srfi1.C56_lsetUnion",
    "Meevax.Srfi1.C56_lsetIntersection",
    "Meevax.Srfi1.C56_lsetDifference",
    "Meevax.Srfi1.C56_lsetDiffIntersection",
    "Meevax.Srfi1.C56_lsetXor"
   ],
   "note": "all procedures without ! on proper lists, for procedures with arbitrary effects; not covered: the linear update variants (C90), circular lists (C106) and dotted lists"
  },
  {
   "property": "C57",
   "status": "partial",
   "theorems": [
    "Meevax.Number.C57_carry_partial",
    "Meevax.Number.C57_shift_partial",
    "Meevax.Number.C57_shift_fails"
   ],
   "note": "pow(2, 32) is required to be exact; false: fxarithmetic-shift-right shifts left"
  },
  {
   "property": "C58",
   "status": "partial",
   "theorems": [
    "Meevax.Equal.C58_location_partial",
    "Meevax.Equal.C58_string_fails",
    "Meevax.Equal.C58_vector_fails",
    "Meevax.Equal.C58_box_fails"
   ],
   "note": "holds for pairs and address-compared data; false for strings, vectors and boxes, which eqv? compares by contents"
  },
  {
   "property": "C59",
   "status": "partial",
   "theorems": [
    "Meevax.Text.C59_line_partial",
    "Meevax.Text.C59_read_string_partial",
    "Meevax.Text.C59_last_line_fails",
    "Meevax.Text.C59_non_ascii_fails"
   ],
   "note": "ASCII lines that end in a newline; read-string on texts without NUL; false for a last line without newline and beyond ASCII"
  },
  {
   "property": "C60",
   "status": "partial",
   "theorems": [
    "Meevax.Text.C60_eof_partial",
    "Meevax.Text.C60_token_fails"
   ],
   "note": "after white space or at once; false when a token ends exactly at the end of the input"
  },
  {
   "property": "C61",
   "status": "partial",
   "theorems": [
    "Meevax.Text.C21_integer_partial",
    "Meevax.Text.C21_ratio_literal",
    "Meevax.Text.C61_integer_partial",
    "Meevax.Text.C61_plus_fails",
    "Meevax.Text.C61_integral_ratio_fails",
    "Meevax.Text.C61_zero_denominator_fails",
    "Meevax.Text.C61_space_fails"
   ],
   "note": "integer literals with or without minus sign, leading zeros, either case; ratio literals in lowest terms; false for a plus sign, integral ratios, zero denominators and embedded spaces"
  },
  {
   "property": "C62",
   "status": "partial",
   "theorems": [
    "Meevax.Number.C62_power_partial",
    "Meevax.Number.C62_double_fails",
    "Meevax.Number.C62_mixed_fails",
    "Meevax.Number.C62_negative_fails"
   ],
   "note": "fixnums with powers of at most 53 bits, big integers; false: larger powers of fixnums go through a double; a fixnum to a big exponent is inexact; negative exponents"
  },
  {
   "property": "C63",
   "status": "partial",
   "theorems": [
    "Meevax.Byte.C63_no_loss",
    "Meevax.Byte.C63_read_partial",
    "Meevax.Byte.C63_open",
    "Meevax.Byte.C63_bytes",
    "Meevax.Byte.C63_write",
    "Meevax.Byte.C63_round_trip",
    "Meevax.Byte.C63_peek_fails",
    "Meevax.Byte.C63_end_fails",
    "Meevax.Byte.C63_ready_fails"
   ],
   "note": "no loss and round trips unconditionally; false at the end of the file: peek-u8 gives -1, read-bytevector an empty bytevector, u8-ready? #f"
  },
  {
   "property": "C64",
   "status": "partial",
   "theorems": [
    "Meevax.Expand.C64_program_partial",
    "Meevax.Expand.C64_no_underflow",
    "Meevax.Expand.C64_control_space",
    "Meevax.Expand.C64_names_distinct",
    "Meevax.Expand.Example.C64_example"
   ],
   "note": "end to end: expander, code generator and machine against the named semantics of Spec/Scheme.lean, for the programs C53 covers; without call-with-current-continuation! and programs in error"
  },
  {
   "property": "C65",
   "status": "partial",
   "theorems": [
    "Meevax.Number.CNum.C65_sum_product",
    "Meevax.Number.CNum.C65_difference",
    "Meevax.Number.CNum.C65_quotient_partial",
    "Meevax.Number.CNum.C65_equal",
    "Meevax.Number.CNum.C65_predicates",
    "Meevax.Number.CNum.C65_parts",
    "Meevax.Number.CNum.C65_rectangular",
    "Meevax.Number.CNum.C65_order_partial",
    "Meevax.Text.C65_literal_partial",
    "Meevax.Number.CNum.C65_zero_fails",
    "Meevax.Number.CNum.C65_rational_fails",
    "Meevax.Number.CNum.C65_order_fails",
    "Meevax.Number.CNum.C65_magnitude_fails",
    "Meevax.Number.CNum.C65_angle_fails",
    "Meevax.Text.C65_positive_fails",
    "Meevax.Text.C65_positive_ratio_fails",
    "Meevax.Text.C65_string_fails"
   ],
   "note": "arithmetic, =, zero?, real?, integer? and the parts agree with the field of complex numbers for all exact operands with nonzero divisors; false: division by exact zero, rational? and >= on complex objects with zero imaginary part, magnitude of negative reals, angle (arguments of atan2 swapped), literals with a positive imaginary part, number->string"
  },
  {
   "property": "C66",
   "status": "partial",
   "theorems": [
    "Meevax.Expand.Derived.C66_program_partial",
    "Meevax.Expand.Derived.C66_control_space",
    "Meevax.Expand.Derived.Example.C66_example",
    "Meevax.Expand.Derived.Example.C66_internal_example",
    "Meevax.Expand.Derived.Example.C66_example_space",
    "Meevax.Expand.Derived.Example.C66_named_let_fails"
   ],
   "note": "from the source to the machine (values and control space), against a semantics with a rule for each derived expression type, for the programs C53 covers, internal definitions included; no call-with-current-continuation!; programs in error excluded; false for a named let whose name occurs in its initial values, which are evaluated in the scope of the name"
  },
  {
   "property": "C67",
   "status": "partial",
   "theorems": [
    "Meevax.Shared.C67_write_ends",
    "Meevax.Shared.C67_write_denotes",
    "Meevax.Shared.C67_read_denotes",
    "Meevax.Shared.C67_round_trip_partial",
    "Meevax.Shared.C67_text_unique",
    "Meevax.Shared.C67_string_partial",
    "Meevax.Shared.C67_string_escape_fails",
    "Meevax.Shared.C67_example",
    "Meevax.Shared.C67_example_ends",
    "Meevax.Shared.C67_example_read",
    "Meevax.Shared.C67_empty_vector_fails"
   ],
   "note": "write-shared and read-with-shared-structure on texts as tokens, for every finite heap of pairs, vectors and strings; empty vectors and strings are not tracked (false for them); spelling of literals is not covered except for strings: read-with-shared-structure understands no escapes other than a backslash before the character itself"
  },
  {
   "property": "C68",
   "status": "partial",
   "theorems": [
    "Meevax.Label.C68_write_denotes",
    "Meevax.Label.C68_write_ends_partial",
    "Meevax.Label.C68_read_denotes_partial",
    "Meevax.Label.C68_round_trip_partial",
    "Meevax.Label.C68_example",
    "Meevax.Label.C68_example_text",
    "Meevax.Label.C68_example_ends",
    "Meevax.Label.C68_write_fails",
    "Meevax.Label.C68_write_rho_fails",
    "Meevax.Label.C68_write_car_fails",
    "Meevax.Label.C68_write_vector_fails",
    "Meevax.Label.C68_write_label_twice_fails",
    "Meevax.Label.C68_read_shared_fails",
    "Meevax.Label.C68_read_car_fails",
    "Meevax.Label.C68_read_vector_fails",
    "Meevax.Label.C68_nested_fails",
    "Meevax.Label.C68_read_self_fails",
    "Meevax.Label.C68_read_error_fails"
   ],
   "note": "on texts as tokens; whatever write writes for a pair shows the object; it ends if all cycles are circular lists entered on the cycle; read gives what a text denotes if labels are not nested and used only as the rest of a list; false: write never ends on lists that run into a cycle, cycles through cars or vectors; a vector with two circular lists gets label 1 twice; read rejects labels used after their datum, leaves labels in cars and vectors as foreign objects, never ends on nested circular lists, and keeps labels after #1=#1# or an error"
  },
  {
   "property": "C69",
   "status": "partial",
   "theorems": [
    "Meevax.Rules.C69_syntax_rules_partial",
    "Meevax.Rules.C69_transformer_ends",
    "Meevax.Rules.C69_unique_expansion",
    "Meevax.Rules.C69_hygiene_partial",
    "Meevax.Rules.C69_too_few_ellipses",
    "Meevax.Rules.C69_two_ellipses_rejected",
    "Meevax.Rules.ex_rule",
    "Meevax.Rules.ex_rewrites",
    "Meevax.Rules.C69_two_ellipses_fails",
    "Meevax.Rules.C69_literal_ellipsis_fails",
    "Meevax.Rules.C69_escape_fails",
    "Meevax.Rules.C69_ellipsis_literal_fails",
    "Meevax.Rules.C69_lengths_fails",
    "Meevax.Rules.C69_underscore_fails",
    "Meevax.Rules.C69_inserted_variable_fails"
   ],
   "note": "for rules that meet the conditions of the report, with no escaped ellipsis in a template, no more than one ellipsis after anything but a variable, no literal before an ellipsis, no literal ellipsis, and template vectors that are lists; what compare and rename do with identifiers is a parameter; the texts the transformer makes are given the meaning of the report. False beyond that: two ellipses after a compound template concatenate, a literal before an ellipsis matches everything, (... t) is neither instantiated nor renamed, an ellipsis among the literals stays an ellipsis, different numbers of repetitions are cut to the shortest, an underscore under an ellipsis is a variable"
  },
  {
   "property": "C70",
   "status": "partial",
   "theorems": [
    "Meevax.Number.C70_rationalize_partial",
    "Meevax.Number.C70_within_partial",
    "Meevax.Number.C70_unique",
    "Meevax.Number.C70_zero_fails",
    "Meevax.Number.C70_big_fails"
   ],
   "note": "exact operands; the simplest rational when zero is not strictly between the ends, and within the tolerance always, for ends whose magnitude and denominator are below 2^53; false: around zero the result need not be the simplest ((rationalize 0 1) is 1), and for bigger numbers floor, which goes through a double, gives a result out of the interval"
  },
  {
   "property": "C71",
   "status": "proved",
   "theorems": [
    "Meevax.Quasi.C71_quasiquote",
    "Meevax.Quasi.C71_quote",
    "Meevax.Quasi.C71_unique",
    "Meevax.Quasi.ex_reads"
   ],
   "note": "every template whose keywords are in the positions the report describes; the expressions of the user are arbitrary functions on a state, without captured continuations"
  },
  {
   "property": "C72",
   "status": "partial",
   "theorems": [
    "Meevax.Number.C72_exact",
    "Meevax.Number.C72_exact_exact",
    "Meevax.Number.C72_inexact",
    "Meevax.Number.C72_round_trip",
    "Meevax.Number.C72_inexact_partial",
    "Meevax.Number.C72_monotone",
    "Meevax.Number.C72_closest_fails",
    "Meevax.Number.C72_not_finite_fails"
   ],
   "note": "binary64 and exact numbers, every value; false: inexact of a large integer or ratio truncates instead of taking the closest number ((inexact 1/10) is not 0.1); exact of an infinity or NaN is undefined behaviour"
  },
  {
   "property": "C73",
   "status": "partial",
   "theorems": [
    "Meevax.Number.C73_order_partial",
    "Meevax.Number.C73_equal_partial",
    "Meevax.Number.C73_tolerance",
    "Meevax.Number.C73_sign",
    "Meevax.Number.C73_transitive_fails",
    "Meevax.Number.C73_ratio_fails",
    "Meevax.Number.C73_nan_fails"
   ],
   "note": "numbers other than NaN, no ratio beside an inexact number, and for = no two inexact numbers of magnitude below 2; false: = of two inexact numbers has an absolute tolerance of 2^-52 and is not transitive; a ratio is truncated before it is compared; NaN equals itself, and <= and >= hold of NaN"
  },
  {
   "property": "C74",
   "status": "partial",
   "theorems": [
    "Meevax.Number.C74_contagion",
    "Meevax.Number.C74_closest_partial",
    "Meevax.Number.C74_exact_result",
    "Meevax.Number.C74_operand_fails",
    "Meevax.Number.C74_floor",
    "Meevax.Number.C74_round_partial",
    "Meevax.Number.C74_round_fails",
    "Meevax.Number.C74_abs",
    "Meevax.Number.C74_nan",
    "Meevax.Number.C74_commutative",
    "Meevax.Number.C74_negate",
    "Meevax.Number.C74_infinite",
    "Meevax.Number.C74_predicates_partial",
    "Meevax.Number.C74_predicates_fails",
    "Meevax.Number.C74_max_partial",
    "Meevax.Number.C74_prescribed_unique"
   ],
   "note": "operations with an inexact operand, finite, each exact operand representable; false: other exact operands are truncated first; round takes halves away from zero; integer? holds of infinities and finite? of NaN"
  },
  {
   "property": "C75",
   "status": "partial",
   "theorems": [
    "Meevax.Number.C75_remainder_partial",
    "Meevax.Number.C75_remainder_fails",
    "Meevax.Number.C75_modulo_partial",
    "Meevax.Number.C75_modulo_fails",
    "Meevax.Number.C75_quotient_partial",
    "Meevax.Number.C75_quotient_fails",
    "Meevax.Number.C75_numerator_exact",
    "Meevax.Number.C75_numerator_partial",
    "Meevax.Number.C75_denominator_fails"
   ],
   "note": "remainder for fixnums and finite inexact numbers without bound; modulo for integers with a divisor up to 2^52; quotient for integers with a dividend below 2^53 - 1; false: with an exact operand that is not a fixnum, remainder takes off the nearest multiple ((remainder 100000000000 7.0) is -2.0); (modulo 1.0 9007199254740992.0) is 0.0; (quotient 11258999068426244.0 2251799813685249.0) is 5.0, not 4.0; the denominator of a number below 2^-1023 may be an infinity"
  },
  {
   "property": "C76",
   "status": "partial",
   "theorems": [
    "Meevax.Control.C76_enter",
    "Meevax.Control.C76_return_partial",
    "Meevax.Control.C76_catch_partial",
    "Meevax.Control.C76_reraise_partial",
    "Meevax.Control.C76_reraise_value",
    "Meevax.Control.C76_uncaught",
    "Meevax.Control.C76_enclosing_fails"
   ],
   "note": "every program of C41, with guard translated the way its template is written, for every body, clause code and place of the raise; the thunks of the dynamic-winds around the guard and around the raise return and do not capture continuations, jump, fail or exit; guard is not used inside an after that a jump calls; the clauses are arbitrary code that ends by reraising when none applies; false: the dynamic extents around the guard are left and entered again, even when the body returns normally"
  },
  {
   "property": "C77",
   "status": "partial",
   "theorems": [
    "Meevax.Text.C77_literal_partial",
    "Meevax.Text.C77_overflow_fails",
    "Meevax.Text.C77_d_exponent_fails",
    "Meevax.Text.C77_round_trip_partial",
    "Meevax.Text.C77_to_chars_exists",
    "Meevax.Text.C77_read",
    "Meevax.Text.C77_integer_fails",
    "Meevax.Text.C77_negative_zero_fails",
    "Meevax.Text.C77_subnormal_fails",
    "Meevax.Text.C77_number_to_string_fails",
    "Meevax.Text.C77_number_to_string_partial"
   ],
   "note": "every decimal literal with a point or an exponent part e whose magnitude is zero or in the normal range; every infinity, NaN, and finite number above 2^-1022 that is not an integer below a million, for every to_chars that obeys ISO C++; literals marked f are C105; false: inexact integers below a million are written without a point and read back exact, -0.0 as the exact 0; with glibc, reading back any subnormal number raises an error; literals beyond the range raise an error; the exponent part of 1d5 is ignored; number->string of an infinity is not a number"
  },
  {
   "property": "C78",
   "status": "partial",
   "theorems": [
    "Meevax.Number.C78_adjacent",
    "Meevax.Number.C78_integer_fraction",
    "Meevax.Number.C78_exponent",
    "Meevax.Number.C78_fraction_exponent",
    "Meevax.Number.C78_fraction_round_trip",
    "Meevax.Number.C78_make_flonum_partial",
    "Meevax.Number.C78_make_flonum_fails",
    "Meevax.Number.C78_copysign",
    "Meevax.Number.C78_copysign_infinite",
    "Meevax.Number.C78_sign",
    "Meevax.Number.C78_max",
    "Meevax.Number.C78_min",
    "Meevax.Number.C78_fused",
    "Meevax.Number.C78_absdiff",
    "Meevax.Number.C78_posdiff_partial",
    "Meevax.Number.C78_posdiff_nan_fails",
    "Meevax.Number.C78_greatest",
    "Meevax.Number.C78_epsilon",
    "Meevax.Number.C78_least_fails",
    "Meevax.Number.C78_normalized",
    "Meevax.Number.C78_normalized_special",
    "Meevax.Number.C78_remquo",
    "Meevax.Number.C78_hypot_fails",
    "Meevax.Number.C78_cbrt_fails",
    "Meevax.Number.C78_trichotomy_partial",
    "Meevax.Number.C78_trichotomy_fails",
    "Meevax.Number.C78_integer_partial",
    "Meevax.Number.C78_integer_fails"
   ],
   "note": "all finite flonums, subnormal ones included, without bound; the functions of the C library are taken as ISO C annex F defines them; not modelled: the sign bit of NaN; the transcendental functions are C107; false: make-flonum reduces exponents modulo 2^32, flposdiff of NaN is zero, fl-least is 2^-1022, flhypot overflows although its result is a flonum, flcbrt of a negative flonum is NaN, fl=? holds of NaN and of close flonums that fl<? orders, flinteger? holds of infinities"
  },
  {
   "property": "C79",
   "status": "partial",
   "theorems": [
    "Meevax.Homogeneous.C79_list",
    "Meevax.Homogeneous.C79_list_range",
    "Meevax.Homogeneous.C79_set_ref",
    "Meevax.Homogeneous.C79_make",
    "Meevax.Homogeneous.C79_in_range",
    "Meevax.Homogeneous.C79_inexact",
    "Meevax.Homogeneous.C79_f64_list",
    "Meevax.Homogeneous.C79_f64_exact",
    "Meevax.Homogeneous.C79_f64_set_ref",
    "Meevax.Homogeneous.C79_range_fails",
    "Meevax.Homogeneous.C79_ratio_fails"
   ],
   "note": "the eight integer types and f64, vectors of any length, both representations of exact integers; the procedures that do not look at elements are those of C50; f32vectors and float objects as elements are in C104; indexes outside of a vector are undefined behaviour (C50); false: integers beyond the range are reduced silently, differently for the two representations of the same integer, flonums beyond the range are undefined behaviour, and f64vectors do not take ratios"
  },
  {
   "property": "C80",
   "status": "partial",
   "theorems": [
    "Meevax.Cli.C80_total",
    "Meevax.Cli.C80_run",
    "Meevax.Cli.C80_stop",
    "Meevax.Cli.C80_equals_partial",
    "Meevax.Cli.C80_short_long",
    "Meevax.Cli.C80_directories",
    "Meevax.Cli.C80_exit",
    "Meevax.Cli.C80_exit_wrong",
    "Meevax.Cli.C80_interactive",
    "Meevax.Cli.C80_repl",
    "Meevax.Cli.C80_help_fails",
    "Meevax.Cli.C80_equals_fails",
    "Meevax.Cli.C80_names_fails",
    "Meevax.Cli.C80_missing_fails",
    "Meevax.Cli.C80_empty_fails"
   ],
   "note": "every list of arguments; what reading, evaluating and loading do is arbitrary; the regular expressions are modelled as the sets of texts they match; boot and load_scheme_libraries are not modelled here; false: --help and --version do not exit, --name=text with a line break is a file name, --name= takes the next argument, --x and -- are file names, the message about a missing operand may name the wrong argument, an empty argument vector is undefined behaviour"
  },
  {
   "property": "C81",
   "status": "partial",
   "theorems": [
    "Meevax.Include.C81_locate",
    "Meevax.Include.C81_locate_none",
    "Meevax.Include.C81_include_partial",
    "Meevax.Include.C81_include_error",
    "Meevax.Include.C81_source_partial",
    "Meevax.Include.C81_load",
    "Meevax.Include.C81_source_fails",
    "Meevax.Include.C81_stale_fails",
    "Meevax.Include.C81_body_fails",
    "Meevax.Include.C81_unreadable_fails",
    "Meevax.Include.C81_file_error_fails"
   ],
   "note": "every file system and every operation on paths whose replace_extension does not depend on the extension before; every list of names and directories; the file system does not change meanwhile and data are read at once; false: files opened by a name that is not canonical are not known as source files, pairs keep the source file of a released pair at their address, include in a body includes nothing, files that cannot be read are included as empty, a missing file is no file-error"
  },
  {
   "property": "C82",
   "status": "proved",
   "theorems": [
    "Meevax.LibraryMacros.C82_receive",
    "Meevax.LibraryMacros.C82_let_values",
    "Meevax.LibraryMacros.C82_let_star_values",
    "Meevax.LibraryMacros.C82_case_lambda",
    "Meevax.LibraryMacros.Example.C82_let_values_example",
    "Meevax.LibraryMacros.Example.C82_case_lambda_example"
   ],
   "note": "every list of bindings and clauses, every meaning of bodies and initial expressions in an arbitrary monad of effects that does not depend on names made by the macros, every supply of new identifiers; user expressions are opaque, that renamed identifiers are new is the condition Fresh (syntactic closures compared by identity); the examples give a concrete supply and a concrete meaning with effects"
  },
  {
   "property": "C83",
   "status": "partial",
   "theorems": [
    "Meevax.Unicode.C83_category_partial",
    "Meevax.Unicode.C83_range_fails",
    "Meevax.Unicode.C83_case",
    "Meevax.Unicode.C83_string_case",
    "Meevax.Unicode.C83_sharp_s_fails",
    "Meevax.Unicode.C83_digit_value_partial",
    "Meevax.Unicode.C83_digit_value_fails",
    "Meevax.Unicode.C83_predicates_partial",
    "Meevax.Unicode.C83_whitespace_fails",
    "Meevax.Unicode.C83_alphabetic_fails",
    "Meevax.Unicode.C83_compare",
    "Meevax.Unicode.C83_compare_ci",
    "Meevax.Unicode.C83_fold_fails",
    "Meevax.Unicode.C83_integer",
    "Meevax.Unicode.C83_integer_fails"
   ],
   "note": "for every data file of the format of UnicodeData.txt; false of the code, with a witness each: characters inside a range of the file (ideographs, Hangul) are unassigned, letter numbers are not alphabetic, tab, newline and separators are not whitespace, digit-value of superscripts, folding is downcase (final sigma), string-upcase has no special casing, integer->char accepts any integer; the generated C++ is modelled as the list of case labels the sed scripts make"
  },
  {
   "property": "C84",
   "status": "partial",
   "theorems": [
    "Meevax.Secd.Apply.C84_apply",
    "Meevax.Secd.Apply.C84_apply_arguments",
    "Meevax.Secd.Apply.C84_apply_fails"
   ],
   "note": "the source of apply compiled by the model of the code generator and run by the model of the machine, any procedure, any number of arguments, any heap; the primitives it calls are characterised by what they do on proper lists; false: the operand list ends in the very list that was given, so assigning a parameter of the procedure changes the list of the caller"
  },
  {
   "property": "C85",
   "status": "partial",
   "theorems": [
    "Meevax.Execute.C85_eval",
    "Meevax.Execute.C85_eval_value",
    "Meevax.Execute.C85_load",
    "Meevax.Execute.C85_load_error",
    "Meevax.Execute.C85_call_partial",
    "Meevax.Execute.C85_escape_fails",
    "Meevax.Execute.C85_dynamic_fails",
    "Meevax.Execute.C85_condition_fails",
    "Meevax.Execute.C85_tail_fails",
    "Meevax.Secd.LoadProcedure.C85_load_default_fails",
    "Meevax.Secd.LoadProcedure.C85_load_environment"
   ],
   "note": "nested calls of execute with their catch clauses, any compiler, any expressions; what an expression does by itself decides what the call of eval does; equivalence with a single machine where eval is a procedure call is for programs without continuations and registers, up to the first error; false: leaving by a continuation captured outside runs the rest of the program twice, the registers of the dynamic environment belong to one environment, thrown objects arrive wrapped, and eval is not in tail position; (load file) without an environment always raises an error"
  },
  {
   "property": "C86",
   "status": "partial",
   "theorems": [
    "Meevax.Execute.C86_handler",
    "Meevax.Execute.C86_escape",
    "Meevax.Execute.C86_return",
    "Meevax.Execute.C86_depth",
    "Meevax.Execute.C86_space_fails",
    "Meevax.Execute.C86_machine"
   ],
   "note": "the catch clauses of execute; error objects are a parameter; false: an error that was handled leaves a C++ call behind, so a loop that handles errors nests without bound"
  },
  {
   "property": "C87",
   "status": "partial",
   "theorems": [
    "Meevax.DefineValues.C87_define_values_partial",
    "Meevax.DefineValues.C87_define_values_rest_partial",
    "Meevax.DefineValues.C87_define_values_list",
    "Meevax.DefineValues.C87_define_values_none",
    "Meevax.DefineValues.C87_define_values_single",
    "Meevax.DefineValues.C87_too_few",
    "Meevax.DefineValues.Example.C87_example",
    "Meevax.DefineValues.Example.C87_shared_list_fails",
    "Meevax.DefineValues.Example.C87_again_fails",
    "Meevax.DefineValues.Example.C87_too_many_fails",
    "Meevax.DefineValues.Example.C87_single_fails"
   ],
   "note": "the five rules as written, expanded by the model of syntax-rules; the definitions run on a heap of pairs; any number of variables and values, any expression of the user; missing: continuations captured in the expression, and what the expander does with the definitions in a body (C53); false: the values are taken from the list of the values with set-cdr!, which is the list of the user in (apply values list), so the list, or constant, loses its second element; too many values are accepted, and (define-values (a) e) accepts any number; too few are undefined behaviour"
  },
  {
   "property": "C88",
   "status": "partial",
   "theorems": [
    "Meevax.FilePort.C88_written",
    "Meevax.FilePort.C88_flushed",
    "Meevax.FilePort.C88_read_partial",
    "Meevax.FilePort.C88_round_trip_partial",
    "Meevax.FilePort.C88_closed",
    "Meevax.FilePort.C88_string_port_partial",
    "Meevax.FilePort.Example.C88_two_ports_fails",
    "Meevax.FilePort.Example.C88_changed_fails",
    "Meevax.FilePort.Example.C88_string_close_fails",
    "Meevax.FilePort.Example.C88_unwritable_fails",
    "Meevax.FilePort.Example.C88_missing_fails",
    "Meevax.FilePort.C88_with_output_partial",
    "Meevax.FilePort.C88_inside",
    "Meevax.FilePort.C88_inside_input",
    "Meevax.FilePort.C88_with_input_partial",
    "Meevax.FilePort.C88_call_with_output",
    "Meevax.FilePort.C88_call_with_input_partial",
    "Meevax.FilePort.C88_call_with_port",
    "Meevax.FilePort.Example.C88_escape_fails"
   ],
   "note": "any calls on any number of ports by turns, with an arbitrary platform deciding when buffers are written and how far is read ahead; the procedures of library/r4rs.ss that open and close run on the machine of C41; missing: NUL characters in what is read (C16), jumps out of an after thunk (C41), the end of the process, which does not write buffers of live ports in this model; false: closing a string port does not close it; a file that cannot be opened for writing gives a closed port and no error; a missing input file is not a file-error?; a port left open by an escape keeps its text in the buffer"
  },
  {
   "property": "C89",
   "status": "partial",
   "theorems": [
    "Meevax.Case.C89_case_partial",
    "Meevax.Case.C89_when",
    "Meevax.Case.C89_unless",
    "Meevax.Case.C89_letrec_star_partial",
    "Meevax.Case.Example.C89_example",
    "Meevax.Case.Example.C89_inserted_single",
    "Meevax.Case.Example.C89_inserted_list_fails",
    "Meevax.Case.Example.C89_letrec_star_definition_fails"
   ],
   "note": "the transformers as written and the forms they leave, for arbitrary expressions of the user; missing: data inserted by another macro (false for lists of symbols: the quotation keeps the renaming), bodies of letrec* that begin with definitions (false: they assign the variables of the letrec*), continuations captured in the expressions"
  },
  {
   "property": "C90",
   "status": "proved",
   "theorems": [
    "Meevax.Linear.C90_filter",
    "Meevax.Linear.C90_remove",
    "Meevax.Linear.C90_delete",
    "Meevax.Linear.C90_alist_delete",
    "Meevax.Linear.C90_partition",
    "Meevax.Linear.C90_take_while",
    "Meevax.Linear.C90_span",
    "Meevax.Linear.C90_break",
    "Meevax.Linear.C90_split_at",
    "Meevax.Linear.C90_map",
    "Meevax.Linear.C90_delete_duplicates",
    "Meevax.Linear.C90_lset_union",
    "Meevax.Linear.C90_lset_xor",
    "Meevax.Linear.C90_lset_intersection",
    "Meevax.Linear.C90_lset_difference",
    "Meevax.Linear.C90_lset_diff_intersection",
    "Meevax.Linear.C90_filter_elements",
    "Meevax.Linear.C90_union_members",
    "Meevax.Linear.C90_xor_members",
    "Meevax.Linear.C90_unique_members"
   ],
   "note": "predicates and procedures of the user look at pairs and have effects of their own but neither change nor make pairs; lists are proper (filter!, remove!, delete!, alist-delete!, split-at!: also dotted) and, where several are given to be changed, share no pairs; append-map! is not modelled, append!, reverse!, take! and drop-right! are in C12"
  },
  {
   "property": "C91",
   "status": "partial",
   "theorems": [
    "Meevax.Base.C91_vector_map",
    "Meevax.Base.C91_string_map",
    "Meevax.Base.C91_for_each",
    "Meevax.Base.C91_wrong_argument",
    "Meevax.Base.C91_vector_map_pure",
    "Meevax.Base.C91_string_map_pure",
    "Meevax.Base.C91_list_set",
    "Meevax.Base.C91_list_set_elements",
    "Meevax.Base.C91_list_set_end",
    "Meevax.Base.C91_boolean_eq_partial",
    "Meevax.Base.C91_symbol_eq_partial",
    "Meevax.Base.C91_boolean_eq_fails"
   ],
   "note": "procedures of the user have any effects, on strings and vectors too; false: boolean=? and symbol=? are eqv?, so they look at two arguments only and not at their types ((boolean=? #t #t #f) and (boolean=? 1 1) are #t)"
  },
  {
   "property": "C92",
   "status": "proved",
   "theorems": [
    "Meevax.Check.C92_run",
    "Meevax.Check.C92_initial",
    "Meevax.Check.C92_passed",
    "Meevax.Check.C92_off",
    "Meevax.Check.C92_first_failed"
   ],
   "note": "any sequence of checks, mode changes, resets and reports, expressions that print, act on a world and raise; checks inside the expression of another check are covered by C92_off only; check-ec is commented out in the code"
  },
  {
   "property": "C93",
   "status": "partial",
   "theorems": [
    "Meevax.Number.C93_arithmetic",
    "Meevax.Number.C93_remainder",
    "Meevax.Number.C93_extrema",
    "Meevax.Number.C93_bitwise",
    "Meevax.Number.C93_shift",
    "Meevax.Number.C93_count_length",
    "Meevax.Number.C93_first_set_bit",
    "Meevax.Number.C93_copy_bit_partial",
    "Meevax.Number.C93_copy_bit_fails",
    "Meevax.Number.C93_bit_field_partial",
    "Meevax.Number.C93_bit_field_fails",
    "Meevax.Number.C93_rotate_partial",
    "Meevax.Number.C93_rotate_fails",
    "Meevax.Number.C93_reverse_partial",
    "Meevax.Number.C93_quotient_partial",
    "Meevax.Number.C93_quotient_fails",
    "Meevax.Number.C93_sqrt_partial",
    "Meevax.Number.C93_sqrt_fails",
    "Meevax.Number.C93_range_partial",
    "Meevax.Number.C93_range_fails"
   ],
   "note": "false for fxquotient (never a fixnum), fxsqrt (one value, inexact for non-squares), and for fields and bits that involve the sign position or wide rotations (big integers in the fixnum range); the carry procedures and the one-way shifts are C57, the comparisons C24 and C32, fxbit-set? C30"
  },
  {
   "property": "C94",
   "status": "partial",
   "theorems": [
    "Meevax.Types.C94_disjoint",
    "Meevax.Types.C94_stable",
    "Meevax.Types.C94_pairs",
    "Meevax.Types.C94_accessors",
    "Meevax.Types.C94_accessor_names",
    "Meevax.Types.C94_boxes",
    "Meevax.Types.C94_error_object",
    "Meevax.Types.C94_kernel_errors",
    "Meevax.Types.C94_port_kinds",
    "Meevax.Types.C94_only_ports",
    "Meevax.Types.C94_car_fails",
    "Meevax.Types.C94_set_car_fails",
    "Meevax.Types.C94_unchecked_fails",
    "Meevax.Types.C94_port_open_fails",
    "Meevax.Types.C94_identifier_symbol_fails"
   ],
   "note": "accessors, set-car!, set-cdr!, unbox and the accessors of error objects check nothing; input-port-open? ignores the direction; identifier->symbol of an inserted identifier is undefined behaviour; that records are vectors is C55_vector_fails"
  },
  {
   "property": "C95",
   "status": "partial",
   "theorems": [
    "Meevax.System.C95_boot",
    "Meevax.System.C95_loads",
    "Meevax.System.C95_r7rs",
    "Meevax.System.C95_r5rs_partial",
    "Meevax.System.C95_r5rs_fails",
    "Meevax.System.C95_large_partial",
    "Meevax.System.C95_division_fails",
    "Meevax.System.C95_srfis",
    "Meevax.System.C95_together_partial",
    "Meevax.System.C95_conflict_fails",
    "Meevax.System.C95_interactive_partial",
    "Meevax.System.C95_prefix",
    "Meevax.System.C95_sets",
    "Meevax.System.C95_renamed_partial",
    "Meevax.System.C95_references_partial",
    "Meevax.System.C95_references_fails"
   ],
   "note": "(scheme r5rs) exports an undefined interaction-environment; (scheme division) lacks six names of SRFI 141; fourteen pairs of libraries cannot be imported together into a library although they may be in the interaction environment; four libraries refer to names they do not import. import sets with rename and prefix are in C95_sets and C95_renamed_partial"
  },
  {
   "property": "C96",
   "status": "partial",
   "theorems": [
    "Meevax.Program.C96_load_partial",
    "Meevax.Program.C96_stops",
    "Meevax.Program.C96_unclosed",
    "Meevax.Program.C96_parenthesis_fails",
    "Meevax.Program.C96_token_fails",
    "Meevax.Program.C96_comment_fails",
    "Meevax.Program.C96_repl_partial",
    "Meevax.Program.C96_repl_fails",
    "Meevax.Program.C96_repl_parenthesis_fails",
    "Meevax.Program.C96_repl_unclosed",
    "Meevax.Program.C96_report",
    "Meevax.Program.C96_report_fails",
    "Meevax.Program.C96_repl_report_fails",
    "Meevax.Program.C96_status"
   ],
   "note": "false for a text that ends with a token or a comment without a newline (load raises a read error after evaluating everything; the REPL reports it for ever after a token), and for a parenthesis that closes nothing (terminates the process), and for errors whose message is no string (reporting one exits). Data are those of the grammar of C22/C23"
  },
  {
   "property": "C97",
   "status": "proved",
   "theorems": [
    "Meevax.GC.C97_destroyed_once"
   ],
   "note": "from every state a program can reach; the order in which static objects are destroyed is arbitrary except that the address sets outlive the first allocator destroyed; what a destructor does with the contents of its object is not modelled"
  },
  {
   "property": "C98",
   "status": "partial",
   "theorems": [
    "Meevax.Text.C98_display_partial",
    "Meevax.Text.C98_char_partial",
    "Meevax.Text.C98_string_partial",
    "Meevax.Text.C98_inside_fails",
    "Meevax.Text.C98_display_fails",
    "Meevax.Text.C98_nul_fails",
    "Meevax.Text.C98_simple_partial",
    "Meevax.Text.C98_dotted_fails",
    "Meevax.Text.C98_simple_fails",
    "Meevax.Text.C98_fixnum_fails"
   ],
   "note": "false of the code for strings, characters and special symbols inside of lists and vectors, for NUL, and for dotted lists in write-simple; data without cycles, inexact numbers not covered"
  },
  {
   "property": "C99",
   "status": "proved",
   "theorems": [
    "Meevax.ListWalk.C99_rows",
    "Meevax.ListWalk.C99_elements",
    "Meevax.ListWalk.C99_map",
    "Meevax.ListWalk.C99_forEach",
    "Meevax.ListWalk.C99_fold",
    "Meevax.ListWalk.C99_listIndex",
    "Meevax.ListWalk.C99_listIndex_found",
    "Meevax.ListWalk.C99_any",
    "Meevax.ListWalk.C99_any_found",
    "Meevax.ListWalk.C99_every",
    "Meevax.ListWalk.C99_every_found",
    "Meevax.ListWalk.C99_dotted"
   ],
   "note": "the procedure of the user is any computation that does not change existing pairs; it may raise an error or not return"
  },
  {
   "property": "C100",
   "status": "partial",
   "theorems": [
    "Meevax.Expand.C100_compare_partial",
    "Meevax.Expand.C100_literal",
    "Meevax.Expand.C100_local",
    "Meevax.Expand.C100_stable",
    "Meevax.Expand.C100_other",
    "Meevax.Expand.C100_local_fails",
    "Meevax.Expand.C100_renamed_fails",
    "Meevax.Expand.C100_collision_fails",
    "Meevax.Expand.C100_nested_fails",
    "Meevax.Expand.C100_effect_fails"
   ],
   "note": "missing: two global variables with the same name and the same value are taken for one (C100_collision_fails), a local variable is not the same as itself (C100_local_fails), a literal imported under another name is not recognised (C100_renamed_fails), nor is a symbol without binding that was renamed twice (C100_nested_fails); comparing can change what an identifier refers to (C100_effect_fails)"
  },
  {
   "property": "C101",
   "status": "partial",
   "theorems": [
    "Meevax.Expand.C101_names",
    "Meevax.Expand.C101_keyword",
    "Meevax.Expand.C101_inserted",
    "Meevax.Expand.C101_outermost",
    "Meevax.Expand.C101_forward_fails",
    "Meevax.Expand.Fails.C101_program_fails"
   ],
   "note": "missing: a symbol that a macro inserts and that is defined after the macro cannot be used within a procedure (C101_forward_fails, C101_program_fails); imports between the forms are not modelled"
  },
  {
   "property": "C102",
   "status": "proved",
   "theorems": [
    "Meevax.System.C102_versions",
    "Meevax.System.C102_report",
    "Meevax.System.C102_null",
    "Meevax.System.C102_null_four"
   ],
   "note": "versions are natural numbers; the files that are searched for a missing library are not there; what R5RS asks of the library itself is C95"
  },
  {
   "property": "C103",
   "status": "partial",
   "theorems": [
    "Meevax.Constants.C103_exponential",
    "Meevax.Constants.C103_circle",
    "Meevax.Constants.C103_roots",
    "Meevax.Constants.C103_root_fails",
    "Meevax.Constants.C103_two_over_sqrt_pi",
    "Meevax.Constants.C103_logarithm_literals",
    "Meevax.Constants.C103_logarithms",
    "Meevax.Constants.C103_powers",
    "Meevax.Constants.C103_e_pi",
    "Meevax.Elementary.C103_functions",
    "Meevax.Constants.C103_platform"
   ],
   "note": "false of fl-1/sqrt-2, which is one unit off (C103_root_fails). The logarithms and powers are for C libraries that round them to nearest. Missing: fl-e-euler, fl-gamma-2/3, fl-euler, and the literal fl-gamma-1/3"
  },
  {
   "property": "C104",
   "status": "partial",
   "theorems": [
    "Meevax.Single.C104_flonum",
    "Meevax.Single.C104_fixnum",
    "Meevax.Single.C104_large_partial",
    "Meevax.Single.C104_list",
    "Meevax.Single.C104_list_any",
    "Meevax.Single.C104_set_ref",
    "Meevax.Single.C104_make",
    "Meevax.Single.C104_inexact",
    "Meevax.Single.C104_integer",
    "Meevax.Single.C104_exact",
    "Meevax.Single.C104_ratio_fails",
    "Meevax.Single.C104_order",
    "Meevax.Single.C104_equal_exact",
    "Meevax.Single.C104_equal_single",
    "Meevax.Single.C104_equal_flonum",
    "Meevax.Single.C104_arithmetic",
    "Meevax.Single.C104_arithmetic_flonum",
    "Meevax.Single.C104_remainder_partial",
    "Meevax.Single.C104_remainder_fails",
    "Meevax.Single.C104_modulo_partial",
    "Meevax.Single.C104_modulo_fails",
    "Meevax.Single.C104_floor",
    "Meevax.Single.C104_round_partial",
    "Meevax.Single.C104_round_fails",
    "Meevax.Single.C104_quotient_partial",
    "Meevax.Single.C104_quotient_fails",
    "Meevax.Single.C104_predicates",
    "Meevax.Single.C104_predicates_fails",
    "Meevax.Single.C104_even",
    "Meevax.Single.C104_numerator",
    "Meevax.Single.C104_large_fails",
    "Meevax.Single.C104_fixnum_fails",
    "Meevax.Single.C104_arithmetic_fails",
    "Meevax.Single.C104_equal_fails"
   ],
   "note": "false of large integers of more than 53 bits (rounded twice), of fixnums of more than 24 bits beside a number of single precision (rounded before they are compared or added), of = (tolerance 2^-23) of ratios in f32vectors, and of remainder beside an exact number that is no fixnum (nearest multiple), and of modulo with a divisor beyond 2^23 (the sum in between is rounded), of round between two integers (away from zero, not even), of quotient of a dividend of more than 24 bits (the rounded ratio is truncated), and of integer? of infinities. Reading and printing them is C105. Not modelled: complex numbers of them"
  },
  {
   "property": "C105",
   "status": "partial",
   "theorems": [
    "Meevax.Text.C105_literal_partial",
    "Meevax.Text.C105_overflow_fails",
    "Meevax.Text.C105_write_partial",
    "Meevax.Text.C105_write_short",
    "Meevax.Text.C105_write_fails",
    "Meevax.Text.C105_write_integer_fails",
    "Meevax.Text.C105_write_infinity_fails",
    "Meevax.Text.C105_number_to_string",
    "Meevax.Text.C105_number_to_string_fails",
    "Meevax.Text.C105_to_chars_exists",
    "Meevax.Text.C105_printf_exists"
   ],
   "note": "false beyond the range of single precision (an error instead of an infinity), of write (six digits, read back as a flonum or an exact integer; infinities and NaN are written as symbols), of number->string (the digits of single precision, read back as a flonum). Missing: subnormal literals, the text number->string gives integers below a million and infinities. %g and std::to_chars are parameters, shown to exist"
  },
  {
   "property": "C106",
   "status": "proved",
   "theorems": [
    "Meevax.Srfi1.Circular.C106_circular",
    "Meevax.Srfi1.Circular.C106_shortest",
    "Meevax.Srfi1.Circular.C106_map",
    "Meevax.Srfi1.Circular.C106_fold",
    "Meevax.Srfi1.Circular.C106_map_in_order",
    "Meevax.Srfi1.Circular.C106_filter_map",
    "Meevax.Srfi1.Circular.C106_count",
    "Meevax.Srfi1.Circular.C106_fold_right",
    "Meevax.Srfi1.Circular.C106_pair_for_each",
    "Meevax.Srfi1.Circular.C106_append_map",
    "Meevax.Srfi1.Circular.C106_any",
    "Meevax.Srfi1.Circular.C106_every",
    "Meevax.Srfi1.Circular.C106_list_index",
    "Meevax.Srfi1.Circular.C106_search",
    "Meevax.Srfi1.Circular.C106_prefix",
    "Meevax.Srfi1.Circular.C106_example"
   ],
   "note": "the pairs of the lists are not modified during the call; the predicates of the searching procedures have any effects and a result that depends on their argument"
  },
  {
   "property": "C107",
   "status": "partial",
   "theorems": [
    "Meevax.Elementary.C107_value",
    "Meevax.Elementary.C107_representation",
    "Meevax.Elementary.C107_exact_partial",
    "Meevax.Elementary.C107_atan",
    "Meevax.Elementary.C107_atan_fails",
    "Meevax.Elementary.C107_log",
    "Meevax.Elementary.C107_log_base",
    "Meevax.Elementary.C107_polar",
    "Meevax.Elementary.C107_complex",
    "Meevax.Elementary.C107_real_complex_fails",
    "Meevax.Elementary.C107_log_fails",
    "Meevax.Elementary.C107_complex_fails",
    "Meevax.Elementary.C107_loggamma_partial",
    "Meevax.Elementary.C107_loggamma_fails"
   ],
   "note": "false of logarithms to a base of exact powers ((log 1000 10) is below 3, (log 536870912 2) above 29), of log, asin and acos of real numbers whose image is not real (NaN), and of the sign flloggamma gives where the gamma function underflows (-201.5). Exact numbers that no flonum represents are truncated, not rounded, and negative ones that underflow become a positive zero, so that atan of two arguments has the wrong sign (C107_atan_fails). The C functions are parameters; what is asked of them is shown to be satisfiable. Not modelled: complex bases of logarithms"
  },
  {
   "property": "C108",
   "status": "partial",
   "theorems": [
    "Meevax.Elementary.C108_sum",
    "Meevax.Elementary.C108_equal",
    "Meevax.Elementary.C108_equal_real",
    "Meevax.Elementary.C108_sqrt",
    "Meevax.Elementary.C108_magnitude_partial",
    "Meevax.Elementary.C108_magnitude_fails",
    "Meevax.Elementary.C108_product",
    "Meevax.Elementary.C108_product_exact",
    "Meevax.Elementary.C108_product_fails",
    "Meevax.Elementary.C108_quotient_partial",
    "Meevax.Elementary.C108_quotient_fails"
   ],
   "note": "false of division where the square of the magnitude of the divisor is out of range (z/z is NaN for parts of 2^512 or more and below 2^-538), of magnitudes whose square is out of range (infinite or zero), and of products of a real number and a number with an infinite part (NaN). C108_quotient_partial gives the rounding of each step and no bound on the error of the quotient. Parts are flonums; exact parts are C65"
  }
 ]
}