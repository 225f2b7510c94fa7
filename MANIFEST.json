{
 "claims": [
  {
   "property": "C01",
   "status": "partial",
   "theorems": [
    "Verif.Intern.C01_intern_partial",
    "Verif.Intern.C01_spelling_stable",
    "Verif.Intern.C01_nul_false",
    "Verif.Intern.C01_signed_false",
    "Verif.Intern.C01_pool_overrun_false",
    "Verif.Intern.C01_within_tables_partial"
   ],
   "note": "Proved for all histories of NUL-free spellings; the full statement is false of the code for spellings with embedded NUL and for 8-bit spellings built by two paths (witnesses proved), and the pool bound check is one byte late."
  },
  {
   "property": "C02",
   "status": "proved",
   "theorems": [
    "Verif.Ast.C02_ast_store",
    "Verif.Ast.C02_ast_disjoint",
    "Verif.Ast.C02_ast_no_silent_overflow",
    "Verif.Ast.C02_ast_in_heap",
    "Verif.Ast.C02_ast_val"
   ],
   "note": "For all legal histories (operator codes < 1024, child indices in range)."
  },
  {
   "property": "C03",
   "status": "partial",
   "theorems": [
    "Verif.IfMask.C03_select_partial",
    "Verif.IfMask.C03_balanced_restores",
    "Verif.IfMask.C03_skipped_condition_false",
    "Verif.IfMask.C03_unterminated_diverges"
   ],
   "note": "All nested sources with depth <= 10 and evaluable conditions. False of the code: conditions in skipped text are evaluated; unterminated disabled group diverges."
  },
  {
   "property": "C04",
   "status": "partial",
   "theorems": [
    "Verif.IfMask.C04_accepts_iff_partial",
    "Verif.IfMask.C04_no_overrun",
    "Verif.IfMask.C04_documented_depth_false",
    "Verif.IfMask.C04_stray_else_accepted"
   ],
   "note": "Exact characterisation of accepted directive sequences; the documented limit (20) is not the real one (10): negation proved."
  },
  {
   "property": "C05",
   "status": "partial",
   "theorems": [
    "Verif.EvalConst.C05_if_decision_partial",
    "Verif.EvalConst.C05_value_partial",
    "Verif.EvalConst.C05_value_no_logical",
    "Verif.EvalConst.C05_short_circuit",
    "Verif.EvalConst.C05_logical_value_false",
    "Verif.EvalConst.C05_int_overflow_false",
    "Verif.EvalConst.C05_division_by_zero_undiagnosed",
    "Verif.EvalConst.C05_outside_if"
   ],
   "note": "#if decision agrees with C whenever C defines the expression in 32-bit int and && / || occur only in condition position; witnesses show where pnut departs from C."
  },
  {
   "property": "C06",
   "status": "partial",
   "theorems": [
    "Verif.Lit.C06_literal32",
    "Verif.Lit.C06_literal64_partial",
    "Verif.Lit.C06_decimal64_small",
    "Verif.Lit.C06_hex_needs_digit",
    "Verif.Lit.C06_decimal64_false",
    "Verif.Lit.C06_decimal64_error",
    "Verif.Lit.C06_suffix_partial"
   ],
   "note": "32-bit configuration proved in full (every base, every length, exactly where the accumulation overflows); 64-bit: octal/hex proved, decimal proved except where a digit step crosses the sign bit of the low word, where the code is off by 2^32 (witness 2147483648)."
  },
  {
   "property": "C07",
   "status": "proved",
   "theorems": [
    "Verif.Num.C07_putint",
    "Verif.Num.C07_puthex",
    "Verif.Num.C07_putoct",
    "Verif.Num.C07_hex_oct_nonneg",
    "Verif.Num.C07_denotes_unique",
    "Verif.Num.C07_accum_string_integer",
    "Verif.Num.C07_negative_hex_false",
    "Verif.Num.C07_putint_sign"
   ],
   "note": "All 32-bit ints (the text pool narrows to int). Negative values in hex/octal print the unsigned pattern; such nodes do not arise from the scanner without int overflow."
  },
  {
   "property": "C08",
   "status": "partial",
   "theorems": [
    "Verif.Str.C08_string_partial",
    "Verif.Str.C08_char_partial",
    "Verif.Str.C08_every_byte_string",
    "Verif.Str.C08_scan_terminates",
    "Verif.Str.C08_long_hex_false",
    "Verif.Str.C08_question_mark_rejected"
   ],
   "note": "All C escapes except hex escapes of more than two digits (scanned wrongly, witness) and \\? (rejected)."
  },
  {
   "property": "C09",
   "status": "proved",
   "theorems": [
    "Verif.ShStr.C09_string_literal",
    "Verif.ShStr.C09_sized",
    "Verif.ShStr.C09_chunking",
    "Verif.ShStr.C09_defstr_once"
   ],
   "note": "Every byte string incl. NUL, both runtime configurations (chunked/simple). Assumes LC_ALL=C byte semantics of the shell and that printf %d \"'c\" yields the byte code (possibly minus 256)."
  },
  {
   "property": "C10",
   "status": "proved",
   "theorems": [
    "Verif.Parse.C10_parses_iso_expressions",
    "Verif.Parse.C10_accepts_only_expressions",
    "Verif.Parse.C10_terminates",
    "Verif.Parse.C10_unambiguous",
    "Verif.Parse.C10_print_parse"
   ],
   "note": "Whole expression parser (pnut.c:3255-3752) against the ISO C expression grammar: completeness, soundness, termination, unambiguity, print/parse round trip. Type names are one token; the #if mode (defined) and compound literals are not modelled. The parser also accepts any conditional expression left of an assignment operator (stated in the soundness theorem)."
  },
  {
   "property": "C11",
   "status": "partial",
   "theorems": [
    "Verif.Arith.C11_arith_text_partial",
    "Verif.Arith.C11_word_partial",
    "Verif.Arith.C11_lvalue_partial",
    "Verif.Arith.C11_read_only",
    "Verif.Arith.C11_assignment",
    "Verif.Arith.C11_false",
    "Verif.Arith.C11_lnot_literal_false",
    "Verif.Arith.C11_eq_assoc_false",
    "Verif.Arith.C11_assign_comma_false",
    "Verif.Arith.C11_mul_postinc_false",
    "Verif.Arith.C11_minus_postinc_false",
    "Verif.Arith.C11_neg_neg_false",
    "Verif.Arith.C11_lvalue_index_false",
    "Verif.Arith.C11_addr_false",
    "Verif.Arith.C11_parens_lvalue_false",
    "Verif.Arith.C11_short_circuit_false",
    "Verif.Arith.C11_stale_address_false"
   ],
   "note": "False in general (11 counterexample theorems show the miscompiled shapes: ~literal, !literal, ==, = with comma, x++ under * - and shifts, - -x, &a[i] under -, lvalue with loose index, parenthesised lvalue, conditional division in an address, address after assignment). Proved for every expression of any depth outside those shapes (predicates ok, ord), in particular for all read-only expressions (C11_read_only)."
  },
  {
   "property": "C12",
   "status": "partial",
   "theorems": [
    "Verif.Frame.C12_call_partial",
    "Verif.Frame.C12_call_set_partial",
    "Verif.Frame.C12_table",
    "Verif.Frame.C12_set_arity_false"
   ],
   "note": "Whole calls, any nesting, both ways of saving variables; simple commands are abstract functions of the variables a function can name; statements as in C13. With SH_SAVE_VARS_WITH_SET a call with too few arguments mixes up the caller's variables (witness)."
  },
  {
   "property": "C13",
   "status": "partial",
   "theorems": [
    "Verif.Stmt.C13_function_partial",
    "Verif.Stmt.C13_termination_partial",
    "Verif.Stmt.C13_lines_unique",
    "Verif.Stmt.C13_do_continue_false",
    "Verif.Stmt.C13_default_first_false",
    "Verif.Stmt.C13_for_break_false",
    "Verif.Stmt.C13_label_false"
   ],
   "note": "Control flow of comp_statement/comp_if/comp_loop/comp_switch/comp_return proved for all statements and all interpretations of conditions and simple statements. Four shapes are miscompiled (witnesses)."
  },
  {
   "property": "C14",
   "status": "partial",
   "theorems": [
    "Verif.Names.C14_variables_partial",
    "Verif.Names.C14_accepted",
    "Verif.Names.C14_members_false",
    "Verif.Names.C14_enum_false",
    "Verif.Names.C14_locale_false",
    "Verif.Names.C14_functions",
    "Verif.Names.C14_strings",
    "Verif.Names.C14_strings_false"
   ],
   "note": "All families of shell variables are pairwise different; the compiler does not reject structure members with a reserved name, enumeration constants beginning with _ or a local LC_ALL (witnesses). Distinctness of strings assumes fewer string uses than the heap index of the first macro/type."
  },
  {
   "property": "C15",
   "status": "proved",
   "theorems": [
    "Verif.ShHeap.C15_disjoint",
    "Verif.ShHeap.C15_frame",
    "Verif.ShHeap.C15_free",
    "Verif.ShHeap.C15_progress",
    "Verif.ShHeap.C15_argv",
    "Verif.ShHeap.C15_unpack",
    "Verif.ShHeap.C15_array",
    "Verif.ShHeap.C15_decl",
    "Verif.ShHeap.C15_char_array",
    "Verif.ShHeap.C15_defarr_false",
    "Verif.ShHeap.C15_negative_false",
    "Verif.ShHeap.C15_zero_false"
   ],
   "note": "Shell integers are unbounded in the model; allocation sizes must be non-negative; without RT_NO_INIT_GLOBALS every array definition aborts (undefined initialize_memory)"
  },
  {
   "property": "C16",
   "status": "partial",
   "theorems": [
    "Verif.ShIO.C16_fgetc",
    "Verif.ShIO.C16_read_byte",
    "Verif.ShIO.C16_read",
    "Verif.ShIO.C16_getchar",
    "Verif.ShIO.C16_getchar_all",
    "Verif.ShIO.C16_getchar_long_partial",
    "Verif.ShIO.C16_line16_false",
    "Verif.ShIO.C16_empty_line_false",
    "Verif.ShIO.C16_after_eof_false",
    "Verif.ShIO.C16_mixed_false"
   ],
   "note": "Proved for fgetc/read in every configuration and for getchar without OPTIMIZE_LONG_LINES; with OPTIMIZE_LONG_LINES the claim is false (witnesses) and proved for inputs without lines of length multiple of 16, up to EOF"
  },
  {
   "property": "C17",
   "status": "proved",
   "theorems": [
    "Verif.ShIO.C17_putchar",
    "Verif.ShIO.C17_putchar_out",
    "Verif.ShIO.C17_put_pstr",
    "Verif.ShIO.C17_negative_false"
   ],
   "note": "putchar for 0..255, strings in memory; string literals compiled to printf are in C18"
  },
  {
   "property": "C18",
   "status": "partial",
   "theorems": [
    "Verif.ShPrintf.C18_printf_partial",
    "Verif.ShPrintf.C18_literal",
    "Verif.ShPrintf.C18_single_partial",
    "Verif.ShPrintf.C18_putchar",
    "Verif.ShPrintf.C18_stale_false",
    "Verif.ShPrintf.C18_single_false",
    "Verif.ShPrintf.C18_puts_false",
    "Verif.ShPrintf.C18_dot_false",
    "Verif.ShPrintf.C18_newline_false",
    "Verif.ShPrintf.C18_call_partial",
    "Verif.ShPrintf.C18_which"
   ],
   "note": "For every format and argument list the compiler accepts and C defines, the generated commands print C's output, except a plain %s after an integer conversion (stale words; refuted by C18_stale_false), %.s, padded strings ending in newline, single-argument printf containing %, puts (no newline); each exception has a refutation theorem."
  },
  {
   "property": "C19",
   "status": "proved",
   "theorems": [
    "Verif.ShIO.C19_calls",
    "Verif.ShIO.C19_frame",
    "Verif.ShIO.C19_buffers",
    "Verif.ShIO.C19_buffer_apart",
    "Verif.ShIO.C19_reuse",
    "Verif.ShIO.C19_close1_false",
    "Verif.ShIO.C19_missing_false"
   ],
   "note": "For every history of calls; opening a missing file or closing fd 1/2 ends the script (witnesses)"
  },
  {
   "property": "C20",
   "status": "partial",
   "theorems": [
    "Verif.Inc.C20_stream",
    "Verif.Inc.C20_directory",
    "Verif.Inc.C20_tokens_partial",
    "Verif.Inc.C20_last_line_false",
    "Verif.Inc.C20_blank_false",
    "Verif.Inc.C20_last_line_directory_false"
   ],
   "note": "C20_stream: for every program that reads characters and includes files (any tree, any depth), pnut's include stack is indistinguishable from the spliced text with file names and line numbers; missing files are fatal. C20_tokens_partial: the lexer with #include \"name\" lines reads the tokens of the spliced text (supported tokens of C21, files of one directory, no other directives). Missing: <name>, other directives at token level; witnesses: include on a last line without newline is ignored (main file) or resolved in the wrong directory (included file), blank after the name is an error."
  },
  {
   "property": "C21",
   "status": "partial",
   "theorems": [
    "Verif.Lex.C21_next_partial",
    "Verif.Lex.C21_tokens_partial",
    "Verif.Lex.C21_line_token_partial",
    "Verif.Lex.C21_terminates",
    "Verif.Lex.C21_consumes",
    "Verif.Lex.C21_newline",
    "Verif.Lex.C21_directive",
    "Verif.Lex.C21_directive_first",
    "Verif.Lex.C21_continuation_false",
    "Verif.Lex.C21_comment_directive_false",
    "Verif.Lex.C21_digraph_false",
    "Verif.Lex.C21_wide_false",
    "Verif.Lex.C21_ppnumber_false",
    "Verif.Lex.C21_quote_false",
    "Verif.Lex.C21_two_dots_false"
   ],
   "note": "get_tok reading from a file without macros. Every text of C tokens of the supported kinds (identifiers, 32-bit integers, one-byte characters, strings, punctuators) separated by white space and comments is split as C splits it, by longest match; it always terminates and consumes a prefix. Missing because false (witnesses): line continuations, a comment before #, digraphs, wide literals, pp-numbers that are not integers are split rather than refused, three quotes accepted, two dots refused. 64-bit literals are in C07."
  },
  {
   "property": "C22",
   "status": "partial",
   "theorems": [
    "Verif.Macro.C22_terminates",
    "Verif.Macro.C22_deterministic",
    "Verif.Macro.C22_call_partial",
    "Verif.Macro.C22_object_partial",
    "Verif.Macro.C22_paste_partial",
    "Verif.Macro.C22_stringify_partial",
    "Verif.Macro.C22_recursion_false",
    "Verif.Macro.C22_paste_false",
    "Verif.Macro.C22_paste_zero_false",
    "Verif.Macro.C22_stringify_false",
    "Verif.Macro.C22_uncalled_false",
    "Verif.Macro.C22_paren_false",
    "Verif.Macro.C22_comma_false",
    "Verif.Macro.C22_empty_false",
    "Verif.Macro.C22_hash_false",
    "Verif.Macro.C22_arg_false",
    "Verif.Macro.C22_selfpaste_false"
   ],
   "note": "Expansion of every source with every set of defined macros terminates with one result (full, including #, ## and unfinished calls). Substitution is proved against a C macro-replacement relation for non-recursive function-like and object-like macros (calls inside bodies, arguments and other calls) and for object-like macros with any recursion (at most 58 macros); ## of two identifiers and # of one identifier. Witnesses show where pnut departs from C: re-expansion inside an own expansion when arguments are involved, expanded right operand of ##, pasting of 0, # of several tokens, double expansion behind an uncalled name, ( from a macro, comma from a macro, empty argument, # in object-like macros, file arguments expanded while the macro is hidden."
  },
  {
   "property": "C23",
   "status": "partial",
   "theorems": [
    "Verif.Text.C23_lines_partial",
    "Verif.Text.C23_inline",
    "Verif.Text.C23_capacity_false",
    "Verif.Text.C23_any_active_false"
   ],
   "note": "all structured emission histories below the array capacity; beyond 33333 lines per declaration the array overflows undetected (witness)"
  },
  {
   "property": "C24",
   "status": "partial",
   "theorems": [
    "Verif.Text.C24_print_partial",
    "Verif.Text.C24_stable",
    "Verif.Text.C24_slice_false",
    "Verif.Text.C24_within_table"
   ],
   "note": "all construction histories; missing: unescaped slices not ending at NUL (false, witness)"
  },
  {
   "property": "C25",
   "status": "partial",
   "theorems": [
    "Verif.Layout.C25_sizeof",
    "Verif.Layout.C25_size_multiple",
    "Verif.Layout.C25_lookup",
    "Verif.Layout.C25_address_partial",
    "Verif.Layout.C25_inside_partial",
    "Verif.Layout.C25_disjoint_partial",
    "Verif.Layout.C25_union",
    "Verif.Layout.C25_aligned_partial",
    "Verif.Layout.C25_aligned_false",
    "Verif.Layout.C25_union_anon_false",
    "Verif.Layout.C25_matrix_false",
    "Verif.Layout.C25_empty_struct_false"
   ],
   "note": "Sizes, lookup, non-overlap, containment proved for all types; offsets are not aligned when padding is needed (C25_aligned_false), members of anonymous structs in unions all get offset 0, arrays of arrays are not addressed correctly: proved as negations, the rest proved outside these cases."
  },
  {
   "property": "C26",
   "status": "partial",
   "theorems": [
    "Verif.Layout.C26_initializer_partial",
    "Verif.Layout.C26_read_back_partial",
    "Verif.Layout.C26_too_many",
    "Verif.Layout.C26_padding_false",
    "Verif.Layout.C26_copy_false",
    "Verif.Layout.C26_surplus_false",
    "Verif.Sys.C44_c_program_init_partial",
    "Verif.Layout.C26_copy_object"
   ],
   "note": "Proved for all types without interior padding and whole-word struct copies; the other cases are false of the code (witnesses)."
  },
  {
   "property": "C27",
   "status": "proved",
   "theorems": [
    "Verif.Code.C27_i32",
    "Verif.Code.C27_i64",
    "Verif.Code.C27_i64_large",
    "Verif.Code.C27_i32_large",
    "Verif.Code.C27_write"
   ],
   "note": "emit_i32_le, emit_i64_le, the large-immediate variants and write_i32_le, for every value and every buffer state; int arithmetic is exact (values are C ints)."
  },
  {
   "property": "C28",
   "status": "partial",
   "theorems": [
    "Verif.Code.C28_use",
    "Verif.Code.C28_goto",
    "Verif.Code.C28_bytes_kept",
    "Verif.Code.C28_undefined_detected",
    "Verif.Code.C28_no_loop",
    "Verif.Code.C28_mov_reg_lbl",
    "Verif.Code.C28_first_byte",
    "Verif.Code.C28_label_at_zero_false"
   ],
   "note": "For every sequence of emissions, uses, definitions and gotos in which no label is defined before the first byte (true of every pnut program: it starts with a jump). A label at address 0 is mishandled: C28_label_at_zero_false."
  },
  {
   "property": "C29",
   "status": "partial",
   "theorems": [
    "Verif.Cg.C29_expression_partial",
    "Verif.Cg.C29_lvalue_partial",
    "Verif.Cg.C29_unsigned32_false",
    "Verif.Cg.C29_and_value_false",
    "Verif.Cg.C29_cast_false",
    "Verif.Cg.C29_assignment_value_false",
    "Verif.Cg.C29_conditional_false",
    "Verif.Cg.C29_promotion_false",
    "Verif.Cg.C29_expression_lib_partial",
    "Verif.Cg.C29_lvalue_lib_partial",
    "Verif.Cg.C29_sizeof_string_false",
    "Verif.Cg.C29_strings_apart",
    "Verif.Cg.C29_strings_memory"
   ],
   "note": "Every expression tree of the modelled syntax inside the checked fragment Sup (where pnut's computed types lead to the same machine operation as C's), any stack depth and memory, including string literals, calls of compiled functions and (the _lib theorems) of library functions. Missing: struct assignment/arguments, function pointers; outside the fragment pnut is wrong in the cases of the _false theorems."
  },
  {
   "property": "C30",
   "status": "partial",
   "theorems": [
    "Verif.Cg.C30_call_partial",
    "Verif.Cg.C30_depth",
    "Verif.Cg.C30_labels",
    "Verif.Cg.C30_every_execution",
    "Verif.Cg.C30_spec_fun",
    "Verif.Cg.C30_do_continue_false",
    "Verif.Cg.C30_return_value_false",
    "Verif.Cg.C30_case_false",
    "Verif.Cg.C30_switch_declaration_false",
    "Verif.Cg.C30_call_lib_partial"
   ],
   "note": "Every terminating C-defined execution of every program in the fragment SupS (all structured statements, nested blocks with locals, recursion, calls of the library in the _lib theorem): the machine code makes the same memory changes and returns the same value. Missing: goto, initializer lists, static locals, non-terminating executions; pnut is wrong in the cases of the _false theorems."
  },
  {
   "property": "C31",
   "status": "partial",
   "theorems": [
    "Verif.X86.C31_encoding_partial",
    "Verif.X86.C31_sequence_partial",
    "Verif.X86.C31_idiv_reg_reg",
    "Verif.X86.C31_irem_reg_reg",
    "Verif.X86.C31_div_reg_reg",
    "Verif.X86.C31_rem_reg_reg",
    "Verif.X86.C31_shift_reg_reg",
    "Verif.X86.C31_push_high_false",
    "Verif.X86.C31_call_reg_high_false",
    "Verif.X86.C31_store32_high_false",
    "Verif.X86.C31_movsxd_i386_false",
    "Verif.X86.C31_shift_cx_false",
    "Verif.X86.C31_large_immediate",
    "Verif.X86.C31_large_immediate_refused",
    "Verif.X86.C31_add_reg_lbl"
   ],
   "note": "All registers of i386/x86-64 and all int immediates/displacements and large literals, except that push/pop/call_reg and the 8/16/32-bit moves need registers below 8 (no REX prefix is emitted; negation witnesses given). The system call sequences are C44's."
  },
  {
   "property": "C32",
   "status": "partial",
   "theorems": [
    "C32_innermost_declaration_partial",
    "C32_block_restores",
    "C32_stale_parameter_false"
   ],
   "note": "full resolution of names, break and continue in every translation unit equals functional lexical scoping; file-scope initialisers naming a parameter of the preceding function are excluded (they are resolved wrongly, C32_stale_parameter_false); sh backend's use of env.c not covered"
  },
  {
   "property": "C33",
   "status": "partial",
   "theorems": [
    "C33_plus_partial",
    "C33_plus_comm_partial",
    "C33_minus_partial",
    "C33_diff_partial",
    "C33_index_partial",
    "C33_diff_false",
    "C33_row_false",
    "C33_div_reg_false"
   ],
   "note": "p+n, n+p, p-n, p[n] for every element size; p-q for powers of two and nonnegative differences. Fails: negative differences with other sizes (unsigned div), pointers to arrays (scaled by WORD_SIZE). ++p is covered with C29."
  },
  {
   "property": "C34",
   "status": "partial",
   "theorems": [
    "Verif.Rt.C34_malloc_sound_partial",
    "Verif.Rt.C34_malloc_room",
    "Verif.Rt.C34_malloc_full",
    "Verif.Rt.C34_free",
    "Verif.Rt.C34_negative_size_false",
    "Verif.Rt.C34_huge_size_false",
    "Verif.Rt.C34_alignment_false",
    "Verif.Rt.C34_zero_size_false"
   ],
   "note": "Every history of calls in which the sizes are not negative and do not overflow gives disjoint blocks within the heap; a call without room never returns (no NULL: the program is left in the crash code); free gives nothing back. Missing: false for negative or overflowing sizes, alignment and distinct empty blocks (witnesses). The crash code (system calls) is a hypothesis here (it never leaves its own items), discharged for compiled programs by Verif.Sys.C44_malloc_room and C44_malloc_full."
  },
  {
   "property": "C35",
   "status": "proved",
   "theorems": [
    "C35_elf_file"
   ],
   "note": "both ELF targets; Mach-O (mach-o.c) is C48"
  },
  {
   "property": "C36",
   "status": "partial",
   "theorems": [
    "C36_numbering_partial",
    "C36_accepts",
    "C36_load",
    "C36_negative_false"
   ],
   "note": "numbering proved for initialisers in the domain of C05; negative constants are loaded wrongly on x86-64 (C36_negative_false)"
  },
  {
   "property": "C37",
   "status": "partial",
   "theorems": [
    "Verif.Hoist.C37_value_partial",
    "Verif.Hoist.C37_test_partial",
    "Verif.Hoist.C37_statement_partial",
    "Verif.Hoist.C37_runs_partial",
    "Verif.Hoist.C37_accepts_partial",
    "Verif.Hoist.C37_refused",
    "Verif.Hoist.C37_nested_conditional_false",
    "Verif.Hoist.C37_branch_call_dropped_false",
    "Verif.Hoist.C37_cast_operand_false",
    "Verif.Hoist.C37_comma_order_false",
    "Verif.Hoist.C37_inner_assignment_false",
    "Verif.Hoist.C37_address_effect_false",
    "Verif.Hoist.C37_comma_statement_false",
    "Verif.Hoist.C37_double_increment_false"
   ],
   "note": "Proved for values, conditions and expression statements: the generated commands perform one of the evaluations of a small-step C semantics with unsequenced operands, run if nothing fails, and calls that C may skip are refused outside conditions. The fragment excludes the cases the _false theorems refute (calls after a comma, in inner assignments, under casts or nested ?: in conditions; effects in addresses of operands evaluated later; comma statements), and sizeof, strings and printf/putchar inlining."
  },
  {
   "property": "C38",
   "status": "partial",
   "theorems": [
    "Verif.Libc.C38_memset",
    "Verif.Libc.C38_memcpy",
    "Verif.Libc.C38_memmove",
    "Verif.Libc.C38_memcmp",
    "Verif.Libc.C38_strlen",
    "Verif.Libc.C38_strcpy",
    "Verif.Libc.C38_strcat",
    "Verif.Libc.C38_strcmp",
    "Verif.Libc.C38_strchr_partial",
    "Verif.Libc.C38_strrchr_partial",
    "Verif.Libc.C38_strchr_false",
    "Verif.Libc.C38_malloc_partial",
    "Verif.Libc.C38_malloc_serves",
    "Verif.Libc.C38_malloc_wrap_false",
    "Verif.Libc.C38_strtol_diverges_false",
    "Verif.Libc.C38_strtol_no_digits",
    "Verif.Libc.C38_ctype_partial",
    "Verif.Libc.C38_toupper_tolower",
    "Verif.Libc.C38_iscntrl_false",
    "Verif.Libc.C38_iscntrl_partial",
    "Verif.Libc.C38_strtol_partial",
    "Verif.Libc.C38_strtol_0x_false",
    "Verif.Libc.C38_isnumber",
    "Verif.Libc.C38_isascii",
    "Verif.Libc.C38_realloc_false"
   ],
   "note": "memset, memcpy, memmove, memcmp, strlen, strcpy, strcat, strcmp, ctype and case mapping for all inputs; false (witnesses): strtol/atoi never return on digits, strchr without conversion to char, malloc wrap-around, iscntrl(127). isnumber is right in the bases 2, 8, 10, 16; realloc always fails. The system calls are C56's."
  },
  {
   "property": "C39",
   "status": "partial",
   "theorems": [
    "Verif.Cli.C39_partial"
   ],
   "note": "non-interference of main with any compiler body reading through the include stack: result depends only on the arguments and the files named or opened. That the body has no other input (no time, environment, uninitialised state) is by construction of the model; __DATE__/__TIME__ are constants (C41_predefined)."
  },
  {
   "property": "C40",
   "status": "partial",
   "theorems": [
    "Verif.Stdio.C40_int_to_str",
    "Verif.Stdio.C40_printf_partial",
    "Verif.Stdio.C40_snprintf_partial",
    "Verif.Stdio.C40_snprintf_zero_false",
    "Verif.Stdio.C40_unsigned_false",
    "Verif.Stdio.C40_width_false",
    "Verif.Stdio.C40_string_width_false",
    "Verif.Stdio.C40_fputs_false"
   ],
   "note": "printf/snprintf proved for all formats of the supported directives with widths < 100 and %u/%o/%x below 2^31; counterexamples for the rest (negative %x, wide fields, %s width, fputs newline, snprintf size 0)."
  },
  {
   "property": "C41",
   "status": "partial",
   "theorems": [
    "Verif.Cli.C41_predefined",
    "Verif.Cli.C41_options_partial",
    "Verif.Cli.C41_define_unique",
    "Verif.Cli.C41_order",
    "Verif.Cli.C41_no_file",
    "Verif.Cli.C41_refused",
    "Verif.Cli.C41_reverse_false",
    "Verif.Cli.C41_octal_false",
    "Verif.Cli.C41_escape_false",
    "Verif.Cli.C41_junk_false",
    "Verif.Cli.C41_overflow_false",
    "Verif.Cli.C41_keyword_false",
    "Verif.Cli.C41_sh_value_false",
    "Verif.Cli.C41_sh_detached_false",
    "Verif.Cli.C41_missing_operand_false",
    "Verif.Cli.C41_slash_false"
   ],
   "note": "all command lines; departures are witnessed: source files are read in reverse order, octal and escapes in -D values, junk behind a string, -U of keywords, pnut-sh -D with a value, missing operands, -I without slash"
  },
  {
   "property": "C42",
   "status": "partial",
   "theorems": [
    "Verif.Decl.C42_unit_partial",
    "Verif.Decl.C42_declaration_partial",
    "Verif.Decl.C42_meaning_unique",
    "Verif.Decl.C42_variadic_false",
    "Verif.Decl.C42_storage_false",
    "Verif.Decl.C42_abstract_false",
    "Verif.Decl.C42_typedef_scope_false",
    "Verif.Decl.C42_refused_false",
    "Verif.Decl.C42_accepted_false",
    "Verif.Decl.C42_reads_all"
   ],
   "note": "Every translation unit of a grammar of declarations is read completely and every name gets the type, qualifiers and initializer of C, of any size and nesting. Missing: storage class when a type name occurs later in the declaration, variadic inner parameters, abstract function declarators, typedef names used inside the declaration that declares them (each shown false by a witness); expressions, enum specifiers and bodies are single tokens; storage class of pnut-sh."
  },
  {
   "property": "C43",
   "status": "partial",
   "theorems": [
    "Verif.PStmt.C43_parses_iso_bodies",
    "Verif.PStmt.C43_accepts_only_statements_partial",
    "Verif.PStmt.C43_terminates",
    "Verif.PStmt.C43_unambiguous",
    "Verif.PStmt.C43_else_belongs_to_nearest_if",
    "Verif.PStmt.C43_braces_close_an_if",
    "Verif.PStmt.C43_comma_in_case_label_false",
    "Verif.PStmt.C43_goto_with_a_semicolon_from_a_macro_false",
    "Verif.PStmt.C43_for_with_declaration_false",
    "Verif.PStmt.C43_statement_starting_with_colon_false"
   ],
   "note": "Completeness for the ISO grammar, termination and unambiguity in full; soundness only for a relaxed grammar, since the code accepts any expression as a case label and lets a ';' from a macro rename a goto's label (witnesses). Declarations inside blocks are opaque tokens."
  },
  {
   "property": "C44",
   "status": "partial",
   "theorems": [
    "Verif.Sys.C44_write",
    "Verif.Sys.C44_read",
    "Verif.Sys.C44_open",
    "Verif.Sys.C44_lseek",
    "Verif.Sys.C44_unlink",
    "Verif.Sys.C44_close",
    "Verif.Sys.C44_putchar",
    "Verif.Sys.C44_getchar_partial",
    "Verif.Sys.C44_fgetc_partial",
    "Verif.Sys.C44_fopen_partial",
    "Verif.Sys.C44_exit",
    "Verif.Sys.C44_startup",
    "Verif.Sys.C44_process",
    "Verif.Sys.C44_unique",
    "Verif.Sys.C44_c_program_partial",
    "Verif.Sys.C44_printf",
    "Verif.Sys.C44_malloc_room",
    "Verif.Sys.C44_malloc_full",
    "Verif.Sys.C44_heap_start",
    "Verif.Sys.C44_fgetc_error_false",
    "Verif.Sys.C44_getchar_error_false",
    "Verif.Sys.C44_fgetc_descriptor_false",
    "Verif.Sys.C44_fopen_mode_false",
    "Verif.Sys.C44_library_partial",
    "Verif.Sys.C44_c_program_io_partial",
    "Verif.Sys.C44_c_program_init_partial"
   ],
   "note": "Start-up, initialisation order, arguments of main, exit status, the system calls and putchar in full for any operating system; whole C programs of C30's fragment with calls of the 13 library functions that return (putchar, getchar, fgetc, read, write, open, close, fclose, lseek, unlink, fopen, malloc, free): the process makes exactly the requests that C prescribes and ends with C's status. Partial: getchar/fgetc only when the read succeeds and for descriptors below 256 (getchar, declared to return char, only for bytes below 128 in whole programs), fopen ignores its mode, printf is a stub that ends the process (witnesses); mmap failure is not handled by the code and excluded by the hypothesis that the system gives the memory; macOS not modelled; whole programs with initial values of global variables (scalars, arrays, structs, unions, char arrays and pointers from string literals; not struct copies); exit only at the machine level."
  },
  {
   "property": "C45",
   "status": "partial",
   "theorems": [
    "Verif.ShTop.C45_complete_partial",
    "Verif.ShTop.C45_everything_partial",
    "Verif.ShTop.C45_readonly_partial",
    "Verif.ShTop.C45_main_partial",
    "Verif.ShTop.C45_array_false",
    "Verif.ShTop.C45_char_false",
    "Verif.ShTop.C45_puts_false",
    "Verif.ShTop.C45_inline_enum_false",
    "Verif.ShTop.C45_inline_struct_false",
    "Verif.ShTop.C45_put_pstr_false",
    "Verif.ShTop.C45_forward_struct_false",
    "Verif.ShTop.C45_typedef_struct_false",
    "Verif.ShTop.C45_members_false",
    "Verif.ShTop.C45_locals_partial"
   ],
   "note": "Proved for every program and every option combination under the stated conditions: names used are declared, functions are defined once and not under a reserved name, no character constant in a global initialiser (unless inlined), arrays only with RT_NO_INIT_GLOBALS; for constants: tags and members are different and never re-declared. Each condition is needed: the _false theorems are programs of C for which the script lacks something (initialize_memory, character constants, _puts, inline enum/struct constants), defines a function twice (put_pstr), or sets a readonly constant twice (forward declaration or typedef of a structure, shared member name). Function bodies are abstracted to the list of things they mention; #include_shell is not modelled."
  },
  {
   "property": "C46",
   "status": "partial",
   "theorems": [
    "Verif.ShGlob.C46_globals_partial",
    "Verif.ShGlob.C46_list_false",
    "Verif.ShGlob.C46_tentative_false",
    "Verif.ShGlob.C46_unset_false"
   ],
   "note": "Proved for every program meeting Ok (names declared once; with RT_NO_INIT_GLOBALS for arrays; characters in initialisers only when written as numbers; if any array has an initialiser list then the first array has one) and every environment with distinct printed names: the script runs up to main and all globals, array elements, constants, string initialisers and argc/argv have their values, arrays are separate. False in general, as the witnesses show: an uninitialised array before the first initialised one drops the latter's values; a tentative redeclaration resets to 0; elements of uninitialised arrays are unset rather than 0. Shell integers are unbounded in the model."
  },
  {
   "property": "C47",
   "status": "partial",
   "theorems": [
    "Verif.RtPrintf.C47_printf_partial",
    "Verif.RtPrintf.C47_unknown_refused",
    "Verif.RtPrintf.C47_dot_refused",
    "Verif.RtPrintf.C47_result_false",
    "Verif.RtPrintf.C47_newline_false",
    "Verif.RtPrintf.C47_unsigned_false",
    "Verif.RtPrintf.C47_long_false",
    "Verif.RtPrintf.C47_dot_false",
    "Verif.RtPrintf.C47_char_width_false"
   ],
   "note": "Proved for every format and argument list for which C prescribes an output, under okFmt: no length modifier, no '.' without number, no negative precision by *, no negative width by * for c and none of 0 for s, non-negative arguments for o u x X, bytes for c, strings not ending in a newline for s. Counterexamples for each of these and for the result (0). Missing: those cases; other conversions."
  },
  {
   "property": "C48",
   "status": "partial",
   "theorems": [
    "Verif.MachO.C48_macho_partial",
    "Verif.MachO.C48_truncated_false",
    "Verif.MachO.C48_exact_false"
   ],
   "note": "File format, load commands, entry point and position of the code proved for every code; the code is wholly mapped (page-wise) exactly when its last page has room for the 360 bytes of headers; otherwise its last bytes are not mapped (proved for every such size): the segment size omits the headers."
  },
  {
   "property": "C49",
   "status": "partial",
   "theorems": [
    "Verif.Img.C49_bytes",
    "Verif.Img.C49_encodable",
    "Verif.Img.C49_executable_partial",
    "Verif.Img.C49_loadable"
   ],
   "note": "For every program of the fragment of C29/C30/C44 (no goto, no struct assignment, no static locals, no exit() calls in the C semantics) whose immediates fit in 32 bits. The code bytes are those at the start of the process: stores into the read-only code segment (string literals) are not modelled as faults."
  },
  {
   "property": "C50",
   "status": "partial",
   "theorems": [
    "Verif.Reach.C50_reach_partial",
    "Verif.Reach.C50_call_partial",
    "Verif.Reach.C50_exit_partial",
    "Verif.Reach.C50_printf_partial",
    "Verif.Reach.C50_executable_exit_partial",
    "Verif.Reach.C50_executable_reach_partial",
    "Verif.Reach.C50_executable_endless_partial"
   ],
   "note": "Proved for every execution (finite or infinite) of every program of the fragment of C30/C44/C49, down to the bytes of the file. Missing: constructs outside that fragment (goto, struct assignment, static locals, ...), initial values that do not complete, macOS. Non-vacuity: Verif.Reach.runs_exit, runs_loop, runs_loop_output."
  },
  {
   "property": "C51",
   "status": "partial",
   "theorems": [
    "Verif.ShProg.C51_call_partial",
    "Verif.ShProg.C51_program_partial",
    "Verif.ShProg.C51_determined_partial",
    "Verif.ShProg.C51_compiled"
   ],
   "note": "Composition of C12, C13 and C37 for whole programs. Partial: statements of C13 (no goto, no continue in do-while, default last), expressions of C37, identifiers resolved, operators and run-time functions are parameters, string literals and initializer lists left out."
  },
  {
   "property": "C52",
   "status": "partial",
   "theorems": [
    "Verif.Front.C52_text_to_tree_partial",
    "Verif.Front.C52_fits",
    "Verif.Front.C52_short_text_partial",
    "Verif.Front.C52_layout_partial",
    "Verif.Front.C52_reserved_partial"
   ],
   "note": "Composition of the symbol table (C01), the scanner (C21) and the statement parser (C43). Missing: declarations and type names in the block, macro names and directives, line continuations; all kinds of integer literals are one token for the parser; string literals without null bytes; the tokens are made before the parser starts (nothing the parser of this fragment does changes a token). C52_fits discharges the capacity hypothesis for texts with fewer than 490000 bytes of names and strings."
  },
  {
   "property": "C53",
   "status": "partial",
   "theorems": [
    "Verif.Dump.C53_dump_partial",
    "Verif.Dump.C53_preprocess_partial",
    "Verif.Dump.C53_number_false",
    "Verif.Dump.C53_missing_lines_false",
    "Verif.Dump.C53_suffix_false",
    "Verif.Dump.C53_signed_char_false",
    "Verif.Dump.C53_printable_partial"
   ],
   "note": "For every text without directives and macros whose tokens are printed right (Fine), the output splits, in C and in pnut, into the tokens of the input, numbers with a minus. The four _false theorems show that the full property fails in the code: numbers, ++, ..., inline, suffix L, bytes from 128 on. Missing: directives, macro expansion, names of macros, large literals."
  },
  {
   "property": "C54",
   "status": "partial",
   "theorems": [
    "Verif.Cont.C54_stream_partial",
    "Verif.Cont.C54_tokens_partial",
    "Verif.Cont.C54_text_to_tree_partial",
    "Verif.Cont.C54_line_number",
    "Verif.Cont.C54_even_false",
    "Verif.Cont.C54_exact",
    "Verif.Cont.C54_iff"
   ],
   "note": "For a build with SUPPORT_LINE_CONTINUATION: the characters delivered are those of phase 2 of C (C54_stream_partial), so tokens and trees are those of the joined text; line numbers right at every moment, no failure (C54_line_number, for all files). Missing: lines that end in an even number of backslashes, where pnut keeps the last backslash and the line end (C54_even_false, for every such file whose other part has no backslash before)."
  },
  {
   "property": "C55",
   "status": "partial",
   "theorems": [
    "Verif.FrontD.C55_text_to_declarations_partial",
    "Verif.FrontD.C55_short_text_partial",
    "Verif.FrontD.C55_continued_partial",
    "Verif.FrontD.C55_layout_partial",
    "Verif.FrontD.C55_reserved_partial"
   ],
   "note": "From bytes to declared names and types, for every text that the lexical grammar of C splits into the tokens of a file of declarations (grammar and types of C42), any layout, whatever else enters the tables; no condition on the tables for texts under about 490000 bytes of names; with line continuations for builds that support them. Missing: enumerations, function bodies (C52 has them), expressions other than a literal, strings; what is missing in C42 and C21 (their _false theorems)."
  },
  {
   "property": "C56",
   "status": "partial",
   "theorems": [
    "Verif.Crt.C56_calls_partial",
    "Verif.Crt.C56_start",
    "Verif.Crt.C56_close_false",
    "Verif.Crt.C56_fwrite_partial",
    "Verif.Crt.C56_fwrite_error_false",
    "Verif.Crt.C56_fread_partial",
    "Verif.Crt.C56_fread_error_false"
   ],
   "note": "For every system and all registers: read, write, open, exit are the calls of their names; main gets argc/argv and gives the status; fwrite appends the bytes; fread counts whole items. False: close performs the call of open, so every opened file stays open (any number of cycles; none can be opened after 1021); fwrite hides errors; fread returns more items than asked for on an error and divides by 0 for size 0. Missing: lseek, unlink (no code), builds by pnut itself (crt1.c is empty there)."
  },
  {
   "property": "C57",
   "status": "partial",
   "theorems": [
    "Verif.ArrLen.C57_native_partial",
    "Verif.ArrLen.C57_too_many",
    "Verif.ArrLen.C57_typedef_false",
    "Verif.ArrLen.C57_braced_string_false",
    "Verif.ArrLen.C57_incomplete_false",
    "Verif.ArrLen.C57_sh_partial",
    "Verif.ArrLen.C57_sh_exact_false"
   ],
   "note": "Native: any sequence of declarations in which no length-less array type is shared by two declarators; the false cases are separate theorems. Shell: every declaration except a string whose null byte does not fit. Elided braces and the inner lengths of arrays of arrays are not modelled."
  },
  {
   "property": "C58",
   "status": "partial",
   "theorems": [
    "Verif.ShInc.C58_script",
    "Verif.ShInc.C58_missing",
    "Verif.ShInc.C58_behind_false",
    "Verif.ShInc.C58_location_false"
   ],
   "note": "Whole main loop for every source of tokens and directives, every parser and code generator (parameters). Partial: one C file (no #include around the directive), directives not skipped by #if; the code of a declaration and of the epilogue are parameters; a file included behind a declaration comes before its code, and fp_filepath is not restored (negations)."
  },
  {
   "property": "C59",
   "status": "partial",
   "theorems": [
    "Verif.ShInc.C59_error",
    "Verif.ShInc.C59_warning_accepted",
    "Verif.ShInc.C59_warning_false"
   ],
   "note": "pnut-sh, model of C58 (one C file, parser and code generator are parameters). #error anywhere refuses the source; warnings never make the compilation fail, but each one puts a line into the script (negation, for every program)."
  },
  {
   "property": "C60",
   "status": "partial",
   "theorems": [
    "Verif.Goto.C60_goto",
    "Verif.Goto.C60_duplicate",
    "Verif.Goto.C60_undefined_detected",
    "Verif.Goto.C60_undefined_false"
   ],
   "note": "For every program as sequences of code-buffer operations (composed with C28): bytes of each goto are the stack adjustment and the jump to the label of its name in its function; duplicates refused; missing labels detected exactly in SAFE_MODE. Partial: without SAFE_MODE a missing label is not detected (negation); that the frame sizes at goto and label are those of the blocks, and the contents of variables of a block that is jumped into, are not part of it; heap overflow not modelled."
  },
  {
   "property": "C61",
   "status": "proved",
   "theorems": [
    "Verif.Storage.C61_static_storage",
    "Verif.Storage.C61_disjoint"
   ],
   "note": "For every program whose compilation succeeds, without conditions on its names. The sizes are those computed from the types (C25, C57), given with the declarations; each declaration is identified by its type node. The accesses themselves are C29/C30/C46."
  },
  {
   "property": "C62",
   "status": "proved",
   "theorems": [
    "Verif.StInit.C62_before_main",
    "Verif.StInit.C62_declaration_skipped",
    "Verif.StInit.C62_entry"
   ],
   "note": "On the symbolic machine of C44 (labels defined once). What the code of each single initial value does is a hypothesis (RunsAll), discharged for globals by C44_c_program_init_partial and for an example here. That no other code names the labels of the chain is not stated: C62_entry says that only an explicit jump to such a label enters an initialisation."
  }
 ]
}