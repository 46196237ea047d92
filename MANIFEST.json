{
 "claims": [
  {
   "property": "C01",
   "status": "proved",
   "theorems": [
    "Potion.Props.C01_box_unbox",
    "Potion.Props.C01_unbox_box",
    "Potion.Props.C01_class_of_int",
    "Potion.Props.C01_classes",
    "Potion.Props.C01_eq_iff"
   ],
   "note": "all 63-bit integers and all 64-bit words"
  },
  {
   "property": "C02",
   "status": "proved",
   "theorems": [
    "Potion.Props.C02_undefined_iff",
    "Potion.Props.C02_methods_exact_mod",
    "Potion.Props.C02_methods_exact",
    "Potion.Props.C02_bitn",
    "Potion.Props.C02_abs",
    "Potion.Props.C02_cmp"
   ],
   "note": "all operand pairs; undefined pairs characterised exactly"
  },
  {
   "property": "C03",
   "status": "proved",
   "theorems": [
    "Potion.Props.C03_vm_no_wrap",
    "Potion.Props.C03_div_wraps_counterexample"
   ],
   "note": "+,-,* proved never to wrap; / wraps for the single overflowing quotient (counterexample theorem, outside the claim)"
  },
  {
   "property": "C04",
   "status": "partial",
   "theorems": [
    "Potion.Props.C04_jit_compare",
    "Potion.Props.C04_interpreter_compare_refuted",
    "Potion.Props.C04_interpreter_compare_iff",
    "Potion.Props.C04_interpreter_compare_partial"
   ],
   "note": "true of the JIT; false of the interpreter (refuted with -1 < 0), exact characterisation and same-sign partial proved"
  },
  {
   "property": "C05",
   "status": "proved",
   "theorems": [
    "Potion.Props.C05_table_is_map"
   ],
   "note": "any key type, hash function and history"
  },
  {
   "property": "C06",
   "status": "proved",
   "theorems": [
    "Potion.Props.C06_enumeration"
   ],
   "note": "any history"
  },
  {
   "property": "C07",
   "status": "proved",
   "theorems": [
    "Potion.Props.C07_termination"
   ],
   "note": "any history; probe loops need at most n_buckets rounds"
  },
  {
   "property": "C08",
   "status": "proved",
   "theorems": [
    "Potion.Props.C08_rehash"
   ],
   "note": "any table reachable by a history"
  },
  {
   "property": "C09",
   "status": "proved",
   "theorems": [
    "Potion.Props.C09_layout_disjoint",
    "Potion.Props.C09_offsets_fit",
    "Potion.Props.C09_status_independent",
    "Potion.Props.C09_resize_flag_read_refuted"
   ],
   "note": "any pair size and bucket count; 32-bit wrap excluded up to 2^27 buckets; an out-of-bounds read of the temporary flag array in kh_resize is recorded as a finding"
  },
  {
   "property": "C10",
   "status": "partial",
   "theorems": [
    "Potion.Props.C10_deque_partial",
    "Potion.Props.C10_deque_from_empty",
    "Potion.Props.C10_push_zero_capacity_refuted",
    "Potion.Props.C10_pop_empty_refuted",
    "Potion.Props.C10_shift_overread"
   ],
   "note": "any history from a list with capacity >= 1 that never pops/shifts an empty list; push onto a zero-capacity block (list(0), clone of ()) and pop/shift of an empty list refuted (out of bounds / length wraps)"
  },
  {
   "property": "C11",
   "status": "partial",
   "theorems": [
    "Potion.Props.C11_at_partial",
    "Potion.Props.C11_at_below_refuted",
    "Potion.Props.C11_put_inside",
    "Potion.Props.C11_put_at_end"
   ],
   "note": "at proved for every index >= -length and put inside/at end; below -length refuted (wild access)"
  },
  {
   "property": "C12",
   "status": "partial",
   "theorems": [
    "Potion.Props.C12_slice_partial",
    "Potion.Props.C12_slice_from",
    "Potion.Props.C12_slice_overread_refuted",
    "Potion.Props.C12_slice_underread_refuted"
   ],
   "note": "proved when both bounds lie in the list; reads outside for bounds beyond the list refuted"
  },
  {
   "property": "C13",
   "status": "partial",
   "theorems": [
    "Potion.Props.C13_delete_partial",
    "Potion.Props.C13_delete_outside_refuted"
   ],
   "note": "proved for indices inside the list; an index outside removes the last element (refuted)"
  },
  {
   "property": "C14",
   "status": "proved",
   "theorems": [
    "Potion.Props.C14_reverse",
    "Potion.Props.C14_involutive"
   ],
   "note": "every list"
  },
  {
   "property": "C15",
   "status": "partial",
   "theorems": [
    "Potion.Props.C15_bsearch_partial",
    "Potion.Props.C15_bsearch_empty_refuted",
    "Potion.Props.C15_bsearch_small_partial",
    "Potion.Props.C15_bsearch_numeric_refuted"
   ],
   "note": "proved for every non-empty list ordered by identity hash (and numeric order below 1024); empty list reads out of bounds and numeric order above 1023 fails (refuted)"
  },
  {
   "property": "C16",
   "status": "partial",
   "theorems": [
    "Potion.Props.C16_sort_permutation",
    "Potion.Props.C16_sort_empty_refuted",
    "Potion.Props.C16_sort_by_value_partial",
    "Potion.Props.C16_sort_negative_refuted",
    "Potion.Props.C16_sort_default_refuted",
    "Potion.Props.C16_ins_sort_default_partial",
    "Potion.Props.C16_sort_block_descending"
   ],
   "note": "permutation proved for every mode; order proved for sort(true)/sort(false) on non-negative integers and short ins_sort; refuted: empty list, negative numbers, default mode; with a block the order is descending"
  },
  {
   "property": "C17",
   "status": "partial",
   "theorems": [
    "Potion.Props.C17_interning_partial",
    "Potion.Props.C17_format_refuted",
    "Potion.Props.C17_nul_refuted"
   ],
   "note": "any history of NUL-free creations with any constructors; format does not intern and embedded NULs are lost (refuted); collections are C34"
  },
  {
   "property": "C18",
   "status": "proved",
   "theorems": [
    "Potion.Props.C18_length",
    "Potion.Props.C18_length_text"
   ],
   "note": "every byte string, address (alignment) and surrounding memory"
  },
  {
   "property": "C19",
   "status": "partial",
   "theorems": [
    "Potion.Props.C19_slice_partial",
    "Potion.Props.C19_slice_from_partial",
    "Potion.Props.C19_at",
    "Potion.Props.C19_slice_negative_start",
    "Potion.Props.C19_refuted"
   ],
   "note": "at proved for -length <= i < length; slice proved for bounds of equal sign in order and start >= 0 > end in order; slice(-k), end < start and at(length) refuted"
  },
  {
   "property": "C20",
   "status": "partial",
   "theorems": [
    "Potion.Props.C20_escape_u_partial",
    "Potion.Props.C20_escape_U_partial",
    "Potion.Props.C20_refuted",
    "Potion.Props.C20_ord_roundtrip"
   ],
   "note": "all scalar values except C0, C1, 7FF, FFFF (\\\\U) and 10FFFF, which are refuted; ord round trip proved for every accepted escape"
  },
  {
   "property": "C21",
   "status": "proved",
   "theorems": [
    "Potion.Props.C21_literal_modulo",
    "Potion.Props.C21_literal",
    "Potion.Props.C21_number",
    "Potion.Props.C21_string",
    "Potion.Props.C21_roundtrip",
    "Potion.Props.C21_literal_roundtrip",
    "Potion.Props.C21_ten_digits_refuted"
   ],
   "note": "literals of any length (exact below 2^62, modulo 2^63 beyond), number for up to nine digits, string for all integers; ten digits become a double (shown)"
  },
  {
   "property": "C22",
   "status": "proved",
   "theorems": [
    "Potion.Props.C22_append"
   ],
   "note": "any history of appends, self-appends and formatted writes below 2 GiB"
  },
  {
   "property": "C23",
   "status": "partial",
   "theorems": [
    "Potion.Dump.C23_roundtrip_partial",
    "Potion.Dump.C23_size",
    "Potion.Dump.C23_injective_partial",
    "Potion.Dump.C23_rejects",
    "Potion.Dump.C23_refuted",
    "Potion.Dump.C23_refuted_double",
    "Potion.Dump.C23_refuted_size"
   ],
   "note": "every function tree with at most 255 elements per list and at most 8200 bytes, constants that are immediates, strings or doubles whose text reads back as the same double (see C76; the conversions are parameters) and is not followed by bytes that look like more digits; 256 constants (C23_refuted), larger dumps (C23_size, C23_refuted_size) and 1.5 followed by a constant of 18 characters or the integer 1048600 (C23_refuted_double: strtod reads on into the next constant) fail"
  },
  {
   "property": "C24",
   "status": "proved",
   "theorems": [
    "Potion.Props.C24_fields_wrap",
    "Potion.Props.C24_fields",
    "Potion.Props.C24_immediate",
    "Potion.Props.C24_overflow_refuted"
   ],
   "note": "all operands; immediates characterised exactly; silent truncation outside the range recorded"
  },
  {
   "property": "C25",
   "status": "partial",
   "theorems": [
    "Potion.Compile.C25_compiles",
    "Potion.Compile.C25_expressions_partial",
    "Potion.Compile.C25_refuted"
   ],
   "note": "every well-scoped expression over integers, booleans, nil, locals, assignment, ++/--, seven arithmetic operators, comparisons, ==, not, ~, and, or, parenthesised operands; code up to 2048 instructions and 255 registers; order comparison of operands of different sign is refuted (C25_refuted), so the theorem claims same-sign comparisons only"
  },
  {
   "property": "C26",
   "status": "partial",
   "theorems": [
    "Potion.Compile.C26_control_partial",
    "Potion.Compile.C26_refuted",
    "Potion.Compile.C26_refuted_eq",
    "Potion.Compile.C26_refuted_while"
   ],
   "note": "every well-scoped program with if/elsif/else, while, loop, break, continue, return whose non-final branches keep the condition register (guarded); nested if, while or ==nil in a branch before else runs both branches (refuted)"
  },
  {
   "property": "C27",
   "status": "proved",
   "theorems": [
    "Potion.Obj.C27_nearest",
    "Potion.Obj.C27_class",
    "Potion.Obj.C27_chain",
    "Potion.Obj.C27_define",
    "Potion.Obj.C27_custom_lookup"
   ],
   "note": "every history of class creation and method definition; instances and classes as receivers; user-defined lookup methods (which replace the mechanism) excluded and shown to matter (C27_custom_lookup)"
  },
  {
   "property": "C28",
   "status": "partial",
   "theorems": [
    "Potion.Jit.C28_lookup_code",
    "Potion.Obj.C28_types",
    "Potion.Obj.C28_refuted",
    "Potion.Obj.C28_new",
    "Potion.Obj.C28_set_get",
    "Potion.Obj.C28_distinct_partial",
    "Potion.Obj.C28_unknown_partial",
    "Potion.Obj.C28_refuted_uniq"
   ],
   "note": "distinct types, slots for all own and inherited variables, independence of variables whose random 32-bit identities differ (C28_refuted_uniq: names sharing an identity share the slot, and such names exist for every assignment); types made with delegated collide with their metaclass (C28_refuted); the lookup function generated by the JIT is proved on its machine code (C28_lookup_code); the fallback used without JIT is not modelled"
  },
  {
   "property": "C29",
   "status": "partial",
   "theorems": [
    "Potion.Sig.C29_arity_partial",
    "Potion.Sig.C29_minargs",
    "Potion.Sig.C29_at_partial",
    "Potion.Sig.C29_name_partial",
    "Potion.Sig.C29_find_partial",
    "Potion.Sig.C29_refuted",
    "Potion.Sig.C29_refuted_find"
   ],
   "note": "arity, lookup by position and name for every declared signature whose defaults are not the integer 58 (refuted otherwise, C29_refuted); minargs for every signature; lookup by name if no default is a string (C29_refuted_find)"
  },
  {
   "property": "C30",
   "status": "partial",
   "theorems": [
    "Potion.Props.C30_times",
    "Potion.Props.C30_to",
    "Potion.Props.C30_step",
    "Potion.Props.C30_step_nonpositive_refuted"
   ],
   "note": "times, to and positive step proved; non-positive step refuted (does not terminate)"
  },
  {
   "property": "C31",
   "status": "proved",
   "theorems": [
    "Potion.Props.C31_from",
    "Potion.Props.C31_sequence",
    "Potion.Props.C31_reseed"
   ],
   "note": "every interleaving of seeding, drawing and object creation (every allocation consumes one output)"
  },
  {
   "property": "C32",
   "status": "partial",
   "theorems": [
    "Potion.Gc.C32_full_partial",
    "Potion.Gc.C32_unobservable_partial",
    "Potion.Gc.C32_refuted_error",
    "Potion.Gc.C32_refuted_name"
   ],
   "note": "every history of the modelled mutator steps from boot, full collections: everything reachable survives with the same contents and sharing, and no program can tell; error objects (truncated to 16 bytes on copy) and closure/prototype names (never updated) are excluded and refuted"
  },
  {
   "property": "C33",
   "status": "partial",
   "theorems": [
    "Potion.Gc.C33_minor_partial",
    "Potion.Gc.C33_unobservable_partial",
    "Potion.Gc.C33_valid_partial",
    "Potion.Gc.C33_refuted_forwarded",
    "Potion.Gc.C33_refuted_map"
   ],
   "note": "minor collections after any history in which every write to an old object is recorded in the store list; list/table methods called through a forwarded reference record the wrong cell (C33_refuted_forwarded), table map records late (C33_refuted_map)"
  },
  {
   "property": "C34",
   "status": "partial",
   "theorems": [
    "Potion.Gc.C34_full_partial",
    "Potion.Gc.C34_minor_partial",
    "Potion.Gc.C34_refuted"
   ],
   "note": "full collections for every history; minor collections for interned strings reachable without the store list; refuted in general (C34_refuted: minor collections sweep the string table before tracing)"
  },
  {
   "property": "C35",
   "status": "partial",
   "theorems": [
    "Potion.Alloc.C35_blocks_partial",
    "Potion.Alloc.C35_alloc_partial",
    "Potion.Alloc.C35_refuted"
   ],
   "note": "every history of allocations, touches, collections; requests below 256 MB (C35_refuted beyond), at most 1000 live continuations"
  },
  {
   "property": "C36",
   "status": "proved",
   "theorems": [
    "Potion.Gc.C36_references",
    "Potion.Gc.C36_contents",
    "Potion.Gc.C36_total"
   ],
   "note": "every heap and reference: following forwarding pointers"
  },
  {
   "property": "C37",
   "status": "proved",
   "theorems": [
    "Potion.Props.C37_emit",
    "Potion.Props.C37_literal_unterminated"
   ],
   "note": "any sequence of emissions; reading the buffer as a C string at exact capacity runs past its end (finding)"
  },
  {
   "property": "C38",
   "status": "partial",
   "theorems": [
    "Potion.Props.C38_list_cmp_actual",
    "Potion.Props.C38_list_cmp_partial",
    "Potion.Props.C38_list_cmp_refuted",
    "Potion.Props.C38_bool_nil_refuted",
    "Potion.Props.C38_mixed"
   ],
   "note": "refuted (only first elements and lengths count; raw C integers returned); exact behaviour proved for all integer lists"
  },
  {
   "property": "C39",
   "status": "proved",
   "theorems": [
    "Potion.Props.C39_clone",
    "Potion.Props.C39_slice"
   ],
   "note": "any history"
  },
  {
   "property": "C40",
   "status": "proved",
   "theorems": [
    "Potion.Props.C40_list_put_beyond",
    "Potion.Props.C40_cast",
    "Potion.Props.C40_put_past_end"
   ],
   "note": "lists up to 2^62 elements, any hash function"
  },
  {
   "property": "C41",
   "status": "proved",
   "theorems": [
    "Potion.Props.C41_each",
    "Potion.Props.C41_map",
    "Potion.Props.C41_filter",
    "Potion.Props.C41_pure",
    "Potion.Props.C41_reduce",
    "Potion.Props.C41_join"
   ],
   "note": "any list and callbacks with arbitrary state"
  },
  {
   "property": "C42",
   "status": "partial",
   "theorems": [
    "Potion.Vm.C42_arguments_partial",
    "Potion.Vm.C42_refuted"
   ],
   "note": "argument, receiver and captured variable binding proved for every reachable call of a well-formed program (no default values); that other locals start unset is refuted (C42_refuted)"
  },
  {
   "property": "C43",
   "status": "partial",
   "theorems": [
    "Potion.Props.C43_jit_add",
    "Potion.Props.C43_jit_sub",
    "Potion.Props.C43_jit_mult",
    "Potion.Props.C43_jit_unary",
    "Potion.Props.C43_jit_interpreter_agree_refuted"
   ],
   "note": "+,-,* and unary operators agree modulo 2^63; agreement beyond overflow refuted"
  },
  {
   "property": "C44",
   "status": "partial",
   "theorems": [
    "Potion.Props.C44_filter_refuted",
    "Potion.Props.C44_filter_subset",
    "Potion.Props.C44_filter_partial"
   ],
   "note": "refuted (deletes by the original bucket numbers); proved: result is always a subset of the receiver, and exact when the clone has the same layout"
  },
  {
   "property": "C45",
   "status": "partial",
   "theorems": [
    "Potion.Props.C45_storage_bounded_refuted",
    "Potion.Props.C45_storage_partial"
   ],
   "note": "refuted in general: churn with at most one live key grows the table without bound; proved for histories of puts"
  },
  {
   "property": "C46",
   "status": "partial",
   "theorems": [
    "Potion.Props.C46_read",
    "Potion.Props.C46_clone_refuted"
   ],
   "note": "reading proved for every buffer and index; clone refuted (contents not copied)"
  },
  {
   "property": "C47",
   "status": "partial",
   "theorems": [
    "Potion.Props.C47_refuted"
   ],
   "note": "refuted for every state: always the integer 0"
  },
  {
   "property": "C48",
   "status": "partial",
   "theorems": [
    "Potion.Vm.C48_frames_partial",
    "Potion.Vm.C48_refuted"
   ],
   "note": "every reachable call in every well-formed program without default parameter values; with defaults and recursion it is refuted (C48_refuted)"
  },
  {
   "property": "C49",
   "status": "partial",
   "theorems": [
    "Potion.Obj.C49_subclass_partial",
    "Potion.Obj.C49_refuted"
   ],
   "note": "every heap object, class and history; integers, booleans and nil are refuted (C49_refuted)"
  },
  {
   "property": "C50",
   "status": "partial",
   "theorems": [
    "Potion.Gc.C50_cast_partial",
    "Potion.Gc.C50_refuted"
   ],
   "note": "every heap in which the list is not itself reached through a forwarding cell; refuted through a forwarding pointer (C50_refuted)"
  },
  {
   "property": "C51",
   "status": "partial",
   "theorems": [
    "Potion.Peg.C51_parse",
    "Potion.Peg.C51_unambiguous",
    "Potion.Peg.C51_refuted_minus",
    "Potion.Peg.C51_refuted_extern",
    "Potion.Peg.C51_refuted_pipe"
   ],
   "note": "every text generated by the grammar of Spec/Syntax.lean (all operators except `||`, `|` and `:=`, decimal, hexadecimal and floating point numbers, strings in single and double quotes with all escapes, names, paths, queries, messages with literal (also negative) and listed arguments, lists, functions, blocks, comments); operators followed by white space; refuted for `x-1` (C51_refuted_minus), names beginning with extern (C51_refuted_extern), `||` and `|` in a block (C51_refuted_pipe)"
  },
  {
   "property": "C52",
   "status": "proved",
   "theorems": [
    "Potion.Peg.C52_ends"
   ],
   "note": "every byte sequence; every rule of syntax.y except the signature grammar, greg semantics of Model/Peg.lean"
  },
  {
   "property": "C53",
   "status": "partial",
   "theorems": [
    "Potion.Compile.C53_compiled",
    "Potion.Compile.C53_run_partial",
    "Potion.Compile.C53_render"
   ],
   "note": "every layout (elsif and else also on lines of their own) of every well-scoped program of the fragment of C54, with functions and calls, under the restrictions of C54"
  },
  {
   "property": "C54",
   "status": "partial",
   "theorems": [
    "Potion.Compile.C54_functions_partial",
    "Potion.Compile.C54_room",
    "Potion.Compile.C54_refuted",
    "Potion.Compile.C54_refuted_else"
   ],
   "note": "every well-scoped program of the fragment of C26 with functions of plain parameters, nested functions, captured variables (shared, outliving the call) and calls of variables, recursion up to the depth for which one stack segment has room; functions introduce no variables of their own (refuted otherwise: C54_refuted), branches before else are guarded (C54_refuted_else), comparisons of the same sign"
  },
  {
   "property": "C55",
   "status": "partial",
   "theorems": [
    "Potion.Props.C55_add",
    "Potion.Props.C55_add_nul_refuted",
    "Potion.Props.C55_cmp",
    "Potion.Props.C55_cmp_text",
    "Potion.Props.C55_cmp_order"
   ],
   "note": "every sequence of creations and additions and every pair of NUL-free strings; with an embedded NUL `+` loses text (C55_add_nul_refuted); collections between are C34"
  },
  {
   "property": "C56",
   "status": "partial",
   "theorems": [
    "Potion.Props.C56_isolated",
    "Potion.Props.C56_open",
    "Potion.Props.C56_close",
    "Potion.Props.C56_read",
    "Potion.Props.C56_write",
    "Potion.Props.C56_writer",
    "Potion.Props.C56_reader",
    "Potion.Props.C56_roundtrip",
    "Potion.Props.C56_append",
    "Potion.Props.C56_refuted_int",
    "Potion.Props.C56_refuted_bytes",
    "Potion.Props.C56_refuted_read0"
   ],
   "note": "every history of opening, closing, reading and writing strings, every short transfer and error, POSIX files as modelled; integers and Bytes are written wrongly (C56_refuted_int, C56_refuted_bytes), a read of 0 bytes looks like the end (C56_refuted_read0); File fd(n) and negative sizes are not modelled"
  },
  {
   "property": "C57",
   "status": "partial",
   "theorems": [
    "Potion.Props.C57_lines",
    "Potion.Props.C57_refuted_nul",
    "Potion.Props.C57_env"
   ],
   "note": "every NUL-free input (C57_refuted_nul otherwise) and every environment whose entries contain ="
  },
  {
   "property": "C58",
   "status": "partial",
   "theorems": [
    "Potion.Jit.C58_code_is_generated",
    "Potion.Jit.C58_returns_what_the_interpreter_computes",
    "Potion.Jit.C58_runs_as_long_as_the_interpreter",
    "Potion.Jit.C58_false_comparison_in_register_16_crashes",
    "Potion.Jit.C58_division_is_32_bit",
    "Potion.Jit.C58_assignment_unlinks_captured_variable",
    "Potion.Jit.C58_captured_variable_is_stale",
    "Potion.Jit.C58_sample",
    "Potion.Jit.C58_register_16_counterexample",
    "Potion.Jit.C58_register_16_true",
    "Potion.Jit.C58_mixed_sign_counterexample",
    "Potion.Jit.C58_return_operand_counterexample",
    "Potion.Jit.C58_overflow_counterexample",
    "Potion.Jit.C58_division_counterexample",
    "Potion.Jit.C58_unset_variable_counterexample",
    "Potion.Jit.C58_rbx_counterexample",
    "Potion.Jit.C58_long_function_counterexample"
   ],
   "note": "functions whose inner functions capture nothing, made of the instructions MOVE LOADK LOADPN SELF GET/SETLOCAL GET/SETUPVAL ADD SUB MULT DIV REM EQ NEQ LT LTE GT GTE BITN NOT TEST JMP TESTJMP NOTJMP RETURN 0, at most 1024 of them; every size, every control flow, terminating or not. DIV and REM for operands of 31 bits with a non-negative result (what the machine code does otherwise: C58_division_is_32_bit). CALL, PROTO, tables, shifts and doubles are not covered. The full claim is refuted where Simple and Tame exclude a case: see the counterexamples"
  },
  {
   "property": "C59",
   "status": "partial",
   "theorems": [
    "Potion.Compile.C59_run_partial",
    "Potion.Compile.C59_refuted"
   ],
   "note": "programs without functions, calls and shifts, return only as a statement, order comparisons not in registers 16 to 31, at most 1023 instructions; operands as C58 (same sign, no overflow, 31-bit division with non-negative result), assigned variables only; no if/while/== nil in a branch followed by else (C26). The restrictions are needed: C59_refuted, C58 and C26 counterexamples"
  },
  {
   "property": "C60",
   "status": "partial",
   "theorems": [
    "Potion.Cont.C60_here",
    "Potion.Cont.C60_resume_partial",
    "Potion.Cont.C60_again_partial",
    "Potion.Cont.C60_other_stack",
    "Potion.Cont.C60_refuted_moved",
    "Potion.Cont.C60_refuted"
   ],
   "note": "x86-64; the inline assembly is executed instruction by instruction, the code the C compiler makes around it is not modelled (callee-saved registers are those in the body of here, its return is leave; ret). The full claim is refuted across collections: the collector copies five words too few (C60_refuted_moved, C60_refuted)"
  },
  {
   "property": "C61",
   "status": "partial",
   "theorems": [
    "Potion.Scan.C61_scan_partial",
    "Potion.Scan.C61_none",
    "Potion.Scan.C61_full_partial",
    "Potion.Scan.C61_minor_partial",
    "Potion.Scan.C61_refuted"
   ],
   "note": "memory as bytes, every stack contents; for words that are references, words outside the collector memory, and words inside it that do not look like the header of an object. The full claim is refuted for integers: C61_refuted. The size of an object is a given function of its address; room for all copies is assumed; how the objects are laid out in bytes is a parameter (W) of the theorem; the objects reached from the stack are handled on cells (C32, C33)"
  },
  {
   "property": "C62",
   "status": "partial",
   "theorems": [
    "Potion.Load.C62_find_partial",
    "Potion.Load.C62_source_partial",
    "Potion.Load.C62_missing",
    "Potion.Load.C62_native_partial",
    "Potion.Load.C62_refuted_pnb",
    "Potion.Load.C62_refuted_dot",
    "Potion.Load.C62_refuted_slash",
    "Potion.Load.C62_refuted_init",
    "Potion.Load.C62_refuted_room"
   ],
   "note": "names without a dot; with slashes if nothing is to be found under the last component with an extension; directories of shared objects without a dot. The full claim is refuted: bytecode files are never run, names with a dot are overwritten, extensions are lost, Potion_Init_ gets a wrong name, a block is one byte too small (C62_refuted_*). File system fixed during the call, all files readable; what running a text does: C53, C59"
  },
  {
   "property": "C63",
   "status": "partial",
   "theorems": [
    "Potion.Show.C63_text",
    "Potion.Show.C63_readback_partial",
    "Potion.Show.C63_unique_partial",
    "Potion.Show.C63_refuted_string",
    "Potion.Show.C63_refuted_smallest"
   ],
   "note": "text: every value without cycles, strings without NUL, text below 2 GiB, built-in string methods. Reading back and uniqueness: nil, booleans, integers but the smallest, and lists of these, nested. Refuted for strings and the empty table (ambiguous, C63_refuted_string) and the smallest integer (C63_refuted_smallest)"
  },
  {
   "property": "C64",
   "status": "partial",
   "theorems": [
    "Potion.Greg.C64_accepts",
    "Potion.Greg.C64_rejects",
    "Potion.Greg.C64_unambiguous",
    "Potion.Greg.C64_actions",
    "Potion.Greg.C64_potion",
    "Potion.Greg.C64_programs",
    "Potion.Greg.C64_refuted_char",
    "Potion.Greg.C64_refuted_text"
   ],
   "note": "grammars given as trees (potion grammar transcribed mechanically, Model/PotionGrammar); inputs below 16384 bytes; 7-bit one-character literals, well-formed classes; conditions look at the marked text only. Refuted: characters above 127 (C64_refuted_char), text from failed alternatives (C64_refuted_text). That the tree of an accepted potion program is the one of C51 is proved for the parser model of Model/Syntax, whose set of accepted texts is proved the same (C64_potion); the actions of syntax.y themselves are a parameter here"
  },
  {
   "property": "C65",
   "status": "partial",
   "theorems": [
    "Potion.Greg.C65_returns",
    "Potion.Greg.C65_potion",
    "Potion.Greg.C65_refuted_values",
    "Potion.Greg.C65_refuted_buffer"
   ],
   "note": "inputs below 16384 bytes: from there on one byte is written past the buffer (C65_refuted_buffer); rules without actions that assign from rules without variables can overflow the values (C65_refuted_values), potion has none that matters"
  },
  {
   "property": "C66",
   "status": "partial",
   "theorems": [
    "Potion.Greg.C66_consumes",
    "Potion.Greg.C66_no_false_alarm",
    "Potion.Greg.C66_refuted_recursion",
    "Potion.Greg.C66_refuted_repetition",
    "Potion.Greg.C66_class",
    "Potion.Greg.C66_refuted_dash",
    "Potion.Greg.C66_refuted_octal"
   ],
   "note": "classes without \\\\- and without octal above \\\\377 (C66_refuted_dash, C66_refuted_octal); no false alarm; but left recursion behind ?, *, & and ! and empty repetition are not found (C66_refuted_recursion, C66_refuted_repetition)"
  },
  {
   "property": "C67",
   "status": "partial",
   "theorems": [
    "Potion.Greg.C67_trees",
    "Potion.Greg.C67_escape",
    "Potion.Greg.C67_programs",
    "Potion.Greg.C67_compiled",
    "Potion.Greg.C67_run_partial",
    "Potion.Greg.C67_refuted_function",
    "Potion.Greg.C67_refuted_extern"
   ],
   "note": "texts below 16384 bytes; every text: syntax errors, and the tree up to what is not determined (parameters of a function without a parameter list, arguments of extern, strings with refused escapes, whose YY_ERROR ends the process); texts of Spec/Syntax.lean: exactly the tree. Refuted: a function without parameter list takes over a stale value (C67_refuted_function), nested extern (C67_refuted_extern). No line numbers; tuples are values. Running as C53"
  },
  {
   "property": "C68",
   "status": "partial",
   "theorems": [
    "Potion.Greg.C68_signature",
    "Potion.Greg.C68_none",
    "Potion.Greg.C68_rejects",
    "Potion.Greg.C68_queries_partial",
    "Potion.Greg.C68_refuted_type",
    "Potion.Greg.C68_refuted_string",
    "Potion.Greg.C68_unambiguous",
    "Potion.Greg.C68_faithful"
   ],
   "note": "texts below 16384 bytes; names of ASCII letters, digits, _, $, @, defaults nil, true, false and numbers; C68_queries_partial leaves out the default 58 (C29). Refuted: a default that is a string ends the process (C68_refuted_string), a type of more than one letter declares a further parameter (C68_refuted_type)"
  },
  {
   "property": "C69",
   "status": "partial",
   "theorems": [
    "Potion.CompileAll.C69_refuted_breaks",
    "Potion.CompileAll.C69_inside_partial",
    "Potion.CompileAll.C69_inside_any",
    "Potion.CompileAll.C69_run_partial",
    "Potion.CompileAll.C69_operand_refuted",
    "Potion.CompileAll.C69_class_refuted",
    "Potion.CompileAll.C69_query_refuted",
    "Potion.CompileAll.C69_refuted",
    "Potion.CompileAll.C69_33_refuted",
    "Potion.CompileAll.C69_index_refuted"
   ],
   "note": "every kind of node of the compiler; functions whose sizes fit 12-bit operands and 8-bit registers. Refuted for an operator with () on its right, a class with a body and ?x = e (C69_refuted): there one register or position too far, never more (C69_inside_any). The stub of extern is left out, as are the register NAMED stores into and the element GETTUPLE reads, which depend on values. Further: a string literal of 33 bytes crashes the compiler (C69_33_refuted), a[2000] reads another element (C69_index_refuted); the 1025th break of a loop is stored behind an array (C69_refuted_breaks)"
  },
  {
   "property": "C70",
   "status": "partial",
   "theorems": [
    "Potion.CompileAll.C70_agree_partial",
    "Potion.CompileAll.C70_text_partial",
    "Potion.CompileAll.C70_run_partial",
    "Potion.CompileAll.C70_refuted"
   ],
   "note": "programs without an operator with () on its right, where the compiler reserves one register less than the model of C53 and C54 (C70_refuted); C70_run_partial also as C53_run_partial"
  },
  {
   "property": "C71",
   "status": "partial",
   "theorems": [
    "Potion.Call.C71_arguments_partial",
    "Potion.Call.C71_refuses",
    "Potion.Call.C71_undeclared",
    "Potion.Call.C71_refuted_many",
    "Potion.Call.C71_refuted_untyped",
    "Potion.Call.C71_potion_call",
    "Potion.Call.C71_empty"
   ],
   "note": "Proved for functions of at most fourteen parameters when every omitted parameter has a default or a type (for registers below 2048 and inside the stack); refusals, potion_call and functions without signature in full. Refuted otherwise: a function of fifteen or more parameters is never called, the answer is nil (for every such signature); omitting a parameter with neither type nor default reads outside a list of one element."
  },
  {
   "property": "C72",
   "status": "partial",
   "theorems": [
    "Potion.Call.C72_told_partial",
    "Potion.Call.C72_all_partial",
    "Potion.Call.C72_refuted_self",
    "Potion.Call.C72_refuted_negative",
    "Potion.Call.C72_refuted_untold"
   ],
   "note": "Proved when optional arguments are of the declared type and are not taken for foreign pointers, and self is not one of the words below 10. Refuted: nil, false, true and the integers 0 to 4 as self become nil; negative integers for optional parameters are replaced by the default; if fewer arguments are passed and the number is not told, parameters without type are whatever the stack holds (a block of two parameters run by a method that passes one)."
  },
  {
   "property": "C73",
   "status": "partial",
   "theorems": [
    "Potion.Cli.C73_file_partial",
    "Potion.Cli.C73_code_partial",
    "Potion.Cli.C73_show",
    "Potion.Cli.C73_none",
    "Potion.Cli.C73_separate_partial",
    "Potion.Cli.C73_complete",
    "Potion.Cli.C73_refuted_modules",
    "Potion.Cli.C73_refuted_order",
    "Potion.Cli.C73_refuted_dir",
    "Potion.Cli.C73_refuted_debug",
    "Potion.Cli.C73_refuted_dash",
    "Potion.Cli.C73_refuted_crash"
   ],
   "note": "every argument vector is covered (C73_complete). The file, code, show and no-file forms are proved for at most one module option, which comes before -e. Refuted: of two modules only the last is loaded; modules after -e are not; -Ldir and --debug=module as in the usage text are not recognised; with -e and the program in two arguments the program is also scanned as an option (C73_refuted_dash) or is an argument of itself (C73_separate_partial); -e or -L at the end and --debug= access memory outside of the arguments"
  },
  {
   "property": "C74",
   "status": "partial",
   "theorems": [
    "Potion.Cli.C74_run",
    "Potion.Cli.C74_check",
    "Potion.Cli.C74_compile_partial",
    "Potion.Cli.C74_refuted_name",
    "Potion.Cli.C74_refuted_modules",
    "Potion.Cli.C74_refuted_status",
    "Potion.Cli.C74_refuted_code"
   ],
   "note": "C74_run and C74_check in full for options without -e and modules; C74_compile_partial for functions that bytecode can store (C23), names of at most 253 bytes, no modules. What a text compiles to is an arbitrary function. Refuted: longer names overrun a buffer; with -M or -d bytecode is parsed as text; the exit status is 0 after errors; the file written by -c -e is an option"
  },
  {
   "property": "C75",
   "status": "partial",
   "theorems": [
    "Potion.Mixed.C75_arith",
    "Potion.Mixed.C75_exact",
    "Potion.Mixed.C75_arith_large",
    "Potion.Mixed.C75_ints",
    "Potion.Mixed.C75_compare",
    "Potion.Mixed.C75_special",
    "Potion.Mixed.C75_equal_partial",
    "Potion.Mixed.C75_error",
    "Potion.Mixed.C75_rem_partial",
    "Potion.Mixed.C75_integer_int",
    "Potion.Mixed.C75_integer_partial",
    "Potion.Mixed.C75_double",
    "Potion.Mixed.C75_abs",
    "Potion.Mixed.C75_refuted_equal",
    "Potion.Mixed.C75_refuted_order",
    "Potion.Mixed.C75_refuted_rem",
    "Potion.Mixed.C75_refuted_shift",
    "Potion.Mixed.C75_refuted_pow",
    "Potion.Mixed.C75_refuted_cmp",
    "Potion.Mixed.C75_refuted_integer"
   ],
   "note": "Arithmetic, comparison, type errors, double and abs in full for finite doubles, any correctly rounding FPU (its existence is proved) and results below 2^1023. % for whole numbers below 2^53 with a quotient that fits an int; integer from 0 to 2^62; == for two numbers of the same kind. Refuted: 1 == 1.0 is false; integers beyond 2^53 are rounded before they are compared; % with a larger quotient and integer of negative numbers are undefined; shifts give 0.0; ** and <=> of doubles in the interpreter depend on addresses; cmp of a double reads a null pointer, cmp with a double compares with 0"
  },
  {
   "property": "C76",
   "status": "partial",
   "theorems": [
    "Potion.Dbl.C76_text",
    "Potion.Dbl.C76_fits",
    "Potion.Dbl.C76_roundtrip_partial",
    "Potion.Dbl.C76_bytecode_partial",
    "Potion.Dbl.C76_refuted_roundtrip",
    "Potion.Dbl.C76_refuted_zero",
    "Potion.Dbl.C76_refuted_large"
   ],
   "note": "The form and error of the text and the buffer bound (exactly the numbers between -10^21 and 10^22) in full. Reading back for numbers of at least one half in magnitude, or with at most 16 decimals. Refuted: below one half different doubles have the same text (0.1 and its successor), 2^-60 prints as 0.0, 10^22 and -10^21 overrun the buffer of 40 bytes"
  },
  {
   "property": "C77",
   "status": "partial",
   "theorems": [
    "Potion.Send.C77_run",
    "Potion.Send.C77_refuted_operand",
    "Potion.Send.C77_refuted_bits",
    "Potion.Send.C77_refuted_default",
    "Potion.Send.C77_refuted_assign",
    "Potion.Send.C77_refuted_index",
    "Potion.Send.C77_refuted_lick",
    "Potion.Send.C77_refuted_setcall",
    "Potion.Send.C77_statements",
    "Potion.Send.C77_one_end",
    "Potion.Send.C77_refuted_else"
   ],
   "note": "Literals, lists and tables, licks, elements (x[3], x[k], x[\"k\"]), variables, messages, calls, queries, fields, global names, method definitions, x(...) = e, ++ and --, operators, and/or/not, to any depth (C77_run); with if, elsif, else, while, loop, break, continue and return, nested, ending or not (C77_statements; a branch before an else or elsif may only contain jumps, literals, variables and assignments of them: C77_refuted_else; up to 1024 breaks and continues in a loop: C69_refuted_breaks); in code that fits its fields (2048 instructions and constants, 256 registers). Not in it: blocks, classes, named arguments, conditional assignments. Methods, lookup and arithmetic are parameters. Refuted: what is sent to a list in an operand is not sent (C77_refuted_operand), the value of an assignment to a field is the object (C77_refuted_assign), ?x = e does not assign (C77_refuted_default), | & ^ are compiled to nothing (C77_refuted_bits), x[1024] is x[1] (C77_refuted_index), a lick that is only a value has a piece of the syntax tree as its name (C77_refuted_lick), /y(1) = e reads a field of a string named by an unset register (C77_refuted_setcall). A message without arguments passes one argument, nil"
  },
  {
   "property": "C78",
   "status": "partial",
   "theorems": [
    "Potion.Send.C78_run",
    "Potion.Send.C78_text",
    "Potion.Send.C78_element",
    "Potion.Send.C78_key",
    "Potion.Send.C78_lick",
    "Potion.Send.C78_put",
    "Potion.Send.C78_cast",
    "Potion.Send.C78_refuted_mixed"
   ],
   "note": "nil, booleans, numbers that are not negative, strings of other than 33 bytes, lists, tables with distinct names as keys (C78_put for any later key), elements before them, licks; in code that fits its fields. Texts with any layout for all but licks (C78_text), licks from their tree (C78_run); the parser of C51, which C67 shows to be the generated one. Tables are finite maps (C05), nothing is freed or moved (C32-C36). Refuted: (k=1, 2) pushes 2 onto a table as if it were a list (C78_refuted_mixed). Not covered: negative and floating point numbers inside, indexes from 1024 on (C77_refuted_index)"
  },
  {
   "property": "C79",
   "status": "proved",
   "theorems": [
    "Potion.Obj.C79_can",
    "Potion.Obj.C79_can_class",
    "Potion.Obj.C79_inherits",
    "Potion.Obj.C79_send",
    "Potion.Obj.C79_isa",
    "Potion.Obj.C79_isa_class",
    "Potion.Obj.C79_isa_subclass",
    "Potion.Obj.C79_methods",
    "Potion.Obj.C79_foreign",
    "Potion.Obj.C79_refuted_isa",
    "Potion.Obj.C79_custom_lookup"
   ],
   "note": "All histories of classes made and methods defined. isa? is of the very class: a value of a class made from C is not isa?(C) (C79_refuted_isa), although subclass?(C) is true. A class with its own lookup method answers for itself (C79_custom_lookup; LookupKept). Same model as C27, C28, C49."
  },
  {
   "property": "C80",
   "status": "partial",
   "theorems": [
    "Potion.Show.C80_text",
    "Potion.Show.C80_parts",
    "Potion.Show.C80_refuted_nil",
    "Potion.Show.C80_refuted_quote"
   ],
   "note": "Every tree whose text is below 2 GiB and no longer than the low half of the address a buffer is moved to (else a nil may cut the text elsewhere); other values by their texts (C63, C76); strings without NUL. Refuted: nil operands at the end are left out only if the text of the node before them has at most 14 characters, because the length of a buffer that was moved is read from its forwarding pointer (C80_refuted_nil; C80_text is the exact text); quotes in strings are not escaped, so different trees have one text (C80_refuted_quote)"
  },
  {
   "property": "C81",
   "status": "partial",
   "theorems": [
    "Potion.Show.C81_signature_partial",
    "Potion.Show.C81_function_partial",
    "Potion.Show.C81_readback_partial",
    "Potion.Show.C81_unique_partial",
    "Potion.Show.C81_refuted"
   ],
   "note": "Every signature without modifiers whose types are letters and whose defaults are nil, true, false or integers the low half of which is not the code of . : or |, in the layout of the grammar; texts shorter than the buffer of the parser, of functions below 2 GiB. Refuted (C81_refuted): a parameter with a modifier is shown as `x,nil=-`, a default 46 as a dot, `x...` as `x.`"
  },
  {
   "property": "C82",
   "status": "partial",
   "theorems": [
    "Potion.Show.C82_listing_partial",
    "Potion.Show.C82_jump",
    "Potion.Show.C82_columns",
    "Potion.Show.C82_refuted_columns"
   ],
   "note": "Every function whose signature has a text as in C81 (no modifiers), whose instructions name constants and variables that exist and whose listing is below 2 GiB; constants by their texts (C63, C76); the formats of libc (decimal numbers, padding) are written out, log10 without rounding. C82_jump: for jumps inside the code. C82_columns: all numbers have one width unless the number of instructions is a power of ten (C82_refuted_columns: ten instructions)"
  },
  {
   "property": "C83",
   "status": "partial",
   "theorems": [
    "Potion.Obj.C83_shares_partial",
    "Potion.Obj.C83_refuted_nil",
    "Potion.Obj.C83_refuted_copy",
    "Potion.Obj.C83_copy_only"
   ],
   "note": "C83_shares_partial: what a clone shares. The rest of the claim is false, for every function: C83_refuted_nil (all tables of the clone are nil), C83_refuted_copy (none is a copy) and C83_copy_only (a copy needs a method of strings named by the tuple). What methods do is an arbitrary function; the machine code pointer and the cached number of arguments are not modelled."
  },
  {
   "property": "C84",
   "status": "partial",
   "theorems": [
    "Potion.Buffile.C84_lines_partial",
    "Potion.Buffile.C84_bytes",
    "Potion.Buffile.C84_eof",
    "Potion.Buffile.C84_write_bytes",
    "Potion.Buffile.C84_write_ascii",
    "Potion.Buffile.C84_refuted_write",
    "Potion.Buffile.C84_refuted_empty",
    "Potion.Buffile.C84_read_back",
    "Potion.Buffile.C84_write_items",
    "Potion.Buffile.C84_refuted_write_outside",
    "Potion.Buffile.C84_read_items",
    "Potion.Buffile.C84_fputc",
    "Potion.Buffile.C84_fputs",
    "Potion.Buffile.C84_refuted_fputs",
    "Potion.Buffile.C84_refuted_short",
    "Potion.Buffile.C84_refuted_outside",
    "Potion.Buffile.C84_refuted_line",
    "Potion.Buffile.C84_refuted_nul",
    "Potion.Buffile.C84_open",
    "Potion.Buffile.C84_seek"
   ],
   "note": "Proved for every content, position and text: C84_bytes, C84_eof, C84_lines_partial (no NUL bytes), C84_write_bytes, C84_write_ascii, C84_fputs, C84_fputc, C84_write_items, C84_read_items, C84_read_back, C84_open (the six modes), C84_seek. False: C84_refuted_write (every string with a character of more than one byte is cut off), C84_refuted_empty, C84_refuted_short, C84_refuted_outside, C84_refuted_write_outside, C84_refuted_fputs, C84_refuted_line, C84_refuted_nul. Streams are those of ISO C; buffering delays, fdopen, freopen, fmemopen, tmpfile, unlink and locking are not modelled."
  }
 ]
}