{"id": "C01", "title": "Identifiers and strings are interned faithfully", "statement": "Reading the same spelling twice in one compilation always yields the same symbol handle, two different spellings never yield the same handle, and a handle's spelling never changes later in the run.", "quantifier": "every finite history of interned spellings (identifiers, keywords, string literals), every hash-bucket distribution", "why_tests_cant": "hash collisions and long histories are unbounded; a sample of programs exercises only a few buckets and never all collision patterns", "anchors": ["pnut.c: begin_string, accum_string_char, end_ident, probe_string, intern_str"]}
{"id": "C02", "title": "AST nodes are fresh and stable", "statement": "Building a syntax node never alters any node built before, two live nodes never share cells, and reading back the operator and the children of a node gives what was stored, until they are explicitly overwritten; running out of node memory is a reported fatal error, never a silent overwrite.", "quantifier": "every sequence of node constructions and child updates, every operator code and child count the parser uses", "why_tests_cant": "aliasing shows only for specific allocation histories; heap exhaustion needs huge inputs", "anchors": ["pnut.c: alloc_obj, new_ast0, new_ast1, new_ast2, new_ast3, new_ast4, get_op, get_nb_children, get_child, set_child, clone_ast"]}
{"id": "C03", "title": "Conditional compilation keeps exactly the selected text", "statement": "In a source with properly nested #if/#ifdef/#ifndef/#elif/#else/#endif groups, a token reaches the parser iff every enclosing group selected the branch it is in; of each group at most one branch is selected, namely the first whose condition holds, else the #else branch; after the matching #endif the state is as before the #if.", "quantifier": "every properly nested directive sequence up to the supported depth, every condition outcome", "why_tests_cant": "the nesting structures are unboundedly many and the masking state is saved and restored across them", "anchors": ["pnut.c: push_if_macro_mask, pop_if_macro_mask, if_macro_mask, if_macro_executed, handle_preprocessor_directive"]}
{"id": "C04", "title": "Nesting limit of conditionals is diagnosed", "statement": "A source that nests conditional directives too deeply is rejected with a fatal error rather than corrupting the saved state, and an #endif without #if is rejected; the depth that is accepted is the one the compiler documents.", "quantifier": "every directive sequence, of any length and depth", "why_tests_cant": "needs every unbalanced sequence; tests only have balanced ones", "anchors": ["pnut.c: push_if_macro_mask, pop_if_macro_mask, IFDEF_DEPTH_MAX"]}
{"id": "C05", "title": "#if expressions evaluate like C constant expressions", "statement": "The value pnut computes for a preprocessor or constant expression equals the value C assigns to it (logical operators yield 0 or 1, unknown identifiers are 0, defined() tests macro existence), or a diagnostic is given.", "quantifier": "every constant expression tree over the supported operators, all literal values", "why_tests_cant": "the expression space is infinite and wrong values silently select the wrong branch", "anchors": ["pnut.c: eval_constant, evaluate_if_condition"]}
{"id": "C06", "title": "Integer literals denote their mathematical value", "statement": "A decimal, octal or hexadecimal literal that fits the target integer is compiled to its mathematical value, whatever its length.", "quantifier": "every digit string in each base whose value fits in 32 bits (shell backend) or 64 bits (SUPPORT_64_BIT_LITERALS)", "why_tests_cant": "2^32 or 2^64 values; the implementation accumulates negated digits and emulates 64-bit arithmetic by hand so errors sit at carry boundaries", "anchors": ["pnut.c: accum_digit, get_tok, u64_mul_u32, u64_add_u32, u64_to_obj"]}
{"id": "C07", "title": "Printed integers read back as the same integer", "statement": "Every integer constant written into the output (decimal, hexadecimal or octal) reads back, by the target's number syntax, as exactly the value being compiled, including the most negative integer.", "quantifier": "every 32-bit (and 64-bit) integer", "why_tests_cant": "boundary values such as INT_MIN are easy to miss; exhaustive testing of 2^64 values is impossible", "anchors": ["pnut.c: putint_aux, putint, puthex_unsigned, putoct_unsigned", "sh.c: print_text TEXT_INTEGER"]}
{"id": "C08", "title": "String and character escapes in source denote the right bytes", "statement": "The bytes stored for a string or character literal are those C prescribes for the escape sequences used (\\n, \\t, octal, hexadecimal, \\\\, quotes...), and every byte sequence can be written as a literal.", "quantifier": "every byte string and every escaped spelling of it", "why_tests_cant": "unbounded strings; maximal munch of octal/hex digits depends on the following characters", "anchors": ["pnut.c: get_string_char, accum_string_until"]}
{"id": "C09", "title": "String literals survive the trip through the shell script", "statement": "A string literal of the C program, printed escaped into the script and unpacked at run time into memory, yields cell by cell the original bytes followed by a terminator.", "quantifier": "every byte string the compiler accepts (all 8-bit characters except NUL), of any length, including lengths around the 16/256-character buffering chunks", "why_tests_cant": "every combination of shell metacharacters, backslashes and lengths; shell quoting bugs are input dependent", "anchors": ["sh.c: print_escaped_char, print_escaped_string, escape_text", "sh-runtime.c: unpack_escaped_string, defstr"]}
{"id": "C10", "title": "Operator precedence and associativity are C's", "statement": "The expression parser builds, for every token sequence of an expression, the tree that C's grammar prescribes; in particular printing any expression tree with the parentheses C requires and parsing it yields the same tree.", "quantifier": "every expression tree over all binary, unary, postfix, ternary, assignment and comma operators, of any depth", "why_tests_cant": "infinitely many trees; pairwise operator tests do not cover deep mixes", "anchors": ["pnut.c: parse_primary_expression .. parse_comma_expression, parse_conditional_expression, parse_assignment_expression"]}
{"id": "C11", "title": "Arithmetic expansions mean what the C expression means", "statement": "The text emitted inside $(( )) for a side-effect-free C expression, when parsed with the shell's (C-like) precedences and evaluated, gives the value of the C expression and performs the same assignments.", "quantifier": "every expression tree in the supported language, every variable valuation", "why_tests_cant": "parenthesis elision depends on the pair of nested operators; wrong pairs give wrong values only on some data", "anchors": ["sh.c: comp_rvalue_go, comp_lvalue, comp_lvalue_address, wrap_if_needed, is_associative_operator, non_parenthesable_operand"]}
{"id": "C12", "title": "Caller's variables are unaffected by callee's locals", "statement": "After a call to a compiled function returns, every local variable of every active caller has the value it had at the call (unless changed through a pointer), for any nesting and recursion, and the local-variable stack is back at its previous height.", "quantifier": "every call tree, every assignment of values to locals, any recursion depth", "why_tests_cant": "recursion depth and call shapes unbounded; locals are global shell variables saved by hand", "anchors": ["sh-runtime.c: local_vars (let, endlet)", "sh.c: save_local_vars, restore_local_vars, comp_glo_fun_decl"]}
{"id": "C13", "title": "Structured statements keep their meaning in the shell script", "statement": "The script executes the same sequence of observable actions as the C function body, for sequences, if/else, while, for, do-while, switch, break, continue and return, terminating iff the C program does.", "quantifier": "every statement tree, every outcome of every condition, every number of iterations", "why_tests_cant": "control-flow shapes and condition histories are unbounded", "anchors": ["sh.c: comp_statement, comp_if, comp_loop, comp_switch, comp_break, comp_continue, comp_return, make_switch_pattern"]}
{"id": "C14", "title": "Names never clash in the emitted script", "statement": "Distinct C entities (locals, globals, functions, struct members, enum constants, string constants) and the runtime's own variables and heap cells are given distinct shell names, or the program is rejected.", "quantifier": "every pair of accepted identifiers and every internal counter value", "why_tests_cant": "collision depends on user-chosen spellings; a test has a handful of names", "anchors": ["sh.c: env_var_with_prefix, env_var, global_var, format_special_var, struct_member_var, function_name, assert_var_decl_is_safe, fresh_ident, fresh_string_ident"]}
{"id": "C15", "title": "Run-time allocations never overlap", "statement": "In the generated script, each malloc / string constant / global array gets cells disjoint from all earlier ones and from 0 (NULL); stores in one object never change another.", "quantifier": "every sequence of allocations with every size", "why_tests_cant": "allocation histories are unbounded", "anchors": ["sh-runtime.c: malloc, make_argv, initialize_memory, defstr, defarr, _malloc, _free"]}
{"id": "C16", "title": "Character input delivers exactly the bytes of the input", "statement": "Successive getchar/fgetc calls in the generated script return, one by one, the bytes of the input and then EOF (-1), whatever the line lengths.", "quantifier": "every input byte sequence (without NUL), every number of calls", "why_tests_cant": "line-length dependent buffering; chunk boundaries are data dependent", "anchors": ["sh-runtime.c: getchar, fgetc, read, refill_buffer, unpack_line"]}
{"id": "C17", "title": "Character output emits exactly the byte", "statement": "putchar(c) in the generated script writes the single byte c mod 256 for every valid c, and printing a string writes its characters.", "quantifier": "every value 0..255, every string", "why_tests_cant": "the emission goes through octal digits and printf escapes; off-by-one digits show only for some values", "anchors": ["sh-runtime.c: putchar, put_pstr", "sh.c: comp_putchar_inline"]}
{"id": "C18", "title": "printf specialisation preserves the output", "statement": "When the compiler expands printf with a constant format at compile time, the output equals that of C's printf for the same arguments.", "quantifier": "every supported format string and argument list", "why_tests_cant": "formats are unbounded; mixing %s with other conversions triggers flushing of partial formats", "anchors": ["sh.c: handle_printf_call, printf_call, comp_fun_call_code"]}
{"id": "C19", "title": "File descriptors are allocated uniquely", "statement": "open returns a descriptor not currently in use, buffers of different open files never mix, close frees it for reuse.", "quantifier": "every sequence of opens, reads and closes", "why_tests_cant": "descriptor reuse histories are unbounded", "anchors": ["sh-runtime.c: open, close, fopen, fclose, __state_fd"]}
{"id": "C20", "title": "Includes splice the included text", "statement": "With any nesting of #include, the characters delivered to the lexer are those of the file with each #include replaced by the included file's contents; line numbers and current file are restored after each include; a missing file is reported.", "quantifier": "every tree of included files, any depth", "why_tests_cant": "inclusion trees are unbounded", "anchors": ["pnut.c: include_file, restore_include_context, get_ch, IncludeStack"]}
{"id": "C21", "title": "Tokens are the longest match", "statement": "The lexer splits every character sequence in C tokens by maximal munch, comments and whitespace separate tokens, and never loops or reads past the end of input.", "quantifier": "every character sequence", "why_tests_cant": "unbounded inputs, including unterminated comments and literals", "anchors": ["pnut.c: get_tok, get_ident, get_ch"]}
{"id": "C22", "title": "Macro expansion substitutes arguments and terminates", "statement": "Invoking a macro replaces it by its body with each parameter replaced by the corresponding argument tokens (stringised/pasted where requested); a macro is not re-expanded inside its own expansion, so expansion of any source terminates.", "quantifier": "every set of macro definitions (including mutually recursive ones) and every invocation", "why_tests_cant": "recursive macro graphs are unbounded and non-termination cannot be observed by a finite test", "anchors": ["pnut.c: play_macro, macro_is_already_expanding, attempt_macro_expansion, get_macro_args_toks, begin_macro_expansion, return_to_parent_macro, stringify, paste_tokens"]}
{"id": "C23", "title": "Emitted declarations come out once, in order", "statement": "Every line of code appended to the output script that is not cancelled is printed exactly once, in order and with its nesting indentation; cancelled lines are not printed and replayed regions are printed at the replay point.", "quantifier": "every sequence of append / undo / replay / fixup operations", "why_tests_cant": "histories are unbounded and undo/replay interact", "anchors": ["sh.c: append_glo_decl, append_glo_decl_fixup, fixup_glo_decl, undo_glo_decls, replay_glo_decls, replay_glo_decls_inline, print_glo_decls, any_active_glo_decls"]}
{"id": "C24", "title": "Text trees print the concatenation of their leaves", "statement": "The text assembled by the code generator for a fragment prints as the concatenation of its parts in order, independently of sharing and of later allocations in the text pool.", "quantifier": "every tree/DAG of text fragments", "why_tests_cant": "unbounded trees; pool indices are encoded next to integers and characters in one number space", "anchors": ["sh.c: string_concat, string_concat3, string_concat4, string_concat5, wrap_char, wrap_int, wrap_str_lit, wrap_str_pool, concatenate_strings_with, print_text, escape_text"]}
{"id": "C25", "title": "Struct and union layout is sound", "statement": "Members of a struct never overlap, each lies inside the object at an offset that is a multiple of its alignment, sizes are multiples of the alignment so arrays of structs stay aligned; all union members start at 0 and fit.", "quantifier": "every type built from base types, pointers, arrays, nested/anonymous structs and unions", "why_tests_cant": "the type space is infinite and padding bugs depend on member order", "anchors": ["exe.c: type_width, type_largest_member, struct_union_size, struct_member_offset_go, struct_member_offset, word_size_align, align_to"]}
{"id": "C26", "title": "Aggregate initialisers fill the members they name", "statement": "Initialising a struct or array with a brace list stores each initialiser at the address at which the member or element is later read, and zeroes the rest.", "quantifier": "every aggregate type and every initialiser list", "why_tests_cant": "depends on layout of every type", "anchors": ["exe.c: codegen_initializer, codegen_initializer_string, initializer_size"]}
{"id": "C27", "title": "Immediates and addresses are emitted little-endian", "statement": "A 32-bit or 64-bit immediate, displacement or header field is emitted as exactly 4 or 8 bytes that decode to the value in two's complement.", "quantifier": "every 32-bit and 64-bit value, including negative ones", "why_tests_cant": "2^64 values; sign extension and shift semantics", "anchors": ["exe.c: emit_i8, emit_2_i8, emit_4_i8, emit_i32_le, emit_i64_le", "exe.c: write_i8, write_2_i8, write_4_i8, write_i32_le"]}
{"id": "C28", "title": "Every jump lands on its label", "statement": "Whatever the order in which labels are used and defined, once a label is defined every use of it in the final code holds the displacement to its definition, no other code byte is altered, and use of an undefined label is detected.", "quantifier": "every interleaving of label allocations, uses, definitions and code emission", "why_tests_cant": "patch chains threaded through code are history dependent", "anchors": ["exe.c: alloc_label, alloc_goto_label, use_label, def_label, jump_to_goto_label, def_goto_label, assert_all_labels_defined"]}
{"id": "C29", "title": "Compiled expressions leave exactly their value", "statement": "The machine code for an expression pushes exactly one word holding the C value of the expression, leaves the rest of the stack unchanged, and performs the assignments of the expression.", "quantifier": "every expression tree over integers with locals, every stack depth, every memory state", "why_tests_cant": "unbounded trees and stack depths; the compile-time stack depth must match the run-time one on every path", "anchors": ["exe.c: codegen_rvalue, codegen_lvalue, codegen_binop, grow_fs, cgc_fs"]}
{"id": "C30", "title": "Compiled statements keep their meaning in machine code", "statement": "The machine code for structured statements (if, loops, switch, break, continue, goto, return, nested blocks with locals) performs the same actions as the C code and the stack depth at each program point is the same on all paths.", "quantifier": "every statement tree and execution", "why_tests_cant": "paths unbounded; stack depth after break/continue/goto from nested blocks", "anchors": ["exe.c: codegen_statement, codegen_body, codegen_glo_fun_decl, cgc_add_enclosing_loop, cgc_add_enclosing_switch, break/continue/goto cases"]}
{"id": "C31", "title": "x86 instructions are encoded as intended", "statement": "The bytes emitted for each abstract instruction decode, following the x86 manual, to that instruction with these operands, for all register combinations and displacements.", "quantifier": "every register pair, every displacement and immediate", "why_tests_cant": "encodings have exceptions (SP/R12 need SIB, BP/R13 need displacement, REX for high registers)", "anchors": ["x86.c: rex_prefix, mod_rm, op_reg_reg, op_reg_slash_digit, mov_reg_imm, add_reg_imm, mov_memory, mov_memory_extend, push_reg, pop_reg, jump, jump_cond, call, ret"]}
{"id": "C32", "title": "Innermost declaration wins", "statement": "A name refers to the innermost enclosing declaration; leaving a block restores the outer meaning; break and continue target the innermost enclosing loop (or switch, for break).", "quantifier": "every nesting of scopes and declarations", "why_tests_cant": "nesting unbounded", "anchors": ["env.c: cgc_lookup_var, cgc_lookup_binding_ident, cgc_lookup_last_binding, cgc_lookup_enclosing_loop, cgc_lookup_enclosing_loop_or_switch, cgc_add_local, cgc_locals save/restore"]}
{"id": "C33", "title": "Pointer arithmetic scales by the element size", "statement": "p+n, n+p, p-n, p-q, ++p, p[i] address the element C prescribes for elements of any size.", "quantifier": "every element size and every index including negative", "why_tests_cant": "sizes unbounded; power of two and non power of two paths differ", "anchors": ["exe.c: mul_for_pointer_arith, div_for_pointer_arith, is_power_of_2, power_of_2_log, codegen_binop"]}
{"id": "C34", "title": "malloc of the compiled program is sound", "statement": "The malloc of pnut-exe programs returns NULL or a block disjoint from all others and within the heap.", "quantifier": "every request sequence", "why_tests_cant": "unbounded histories, boundary at heap end", "anchors": ["exe.c: rt_malloc, RT_HEAP_SIZE"]}
{"id": "C35", "title": "The ELF file is consistent", "statement": "The header written states the real file size, entry point inside the loaded segment, and code bytes appear unchanged after the header.", "quantifier": "every code and globals size", "why_tests_cant": "depends on every program size", "anchors": ["elf.c: generate_exe, write_elf_e_header, write_elf_p_header"]}
{"id": "C36", "title": "Enum constants are numbered as in C", "statement": "Each enumerator without initialiser is one more than its predecessor (0 first), with an initialiser takes its value.", "quantifier": "every enumerator list", "why_tests_cant": "lists unbounded, negative stored representation", "anchors": ["pnut.c: parse_enum", "exe.c: codegen_enum, cgc_add_enum"]}
{"id": "C37", "title": "Hoisting calls out of expressions preserves evaluation", "statement": "When calls are moved before the arithmetic expansion they occur in, each call is executed exactly once iff C executes it (respecting short-circuit and ternary), with the same argument values, and its result is used where it stood.", "quantifier": "every expression tree with calls, every outcome of conditions", "why_tests_cant": "combinations of short-circuit operators, nested calls and temporaries are unbounded", "anchors": ["sh.c: handle_side_effects, handle_side_effects_go, handle_fun_call_side_effect, comp_rvalue, with_prefixed_side_effects"]}
{"id": "C38", "title": "The libc string functions behave as specified", "statement": "strlen, strcpy, strcat, strcmp, strchr, memcpy, memset, memcmp, atoi etc. of the portable libc meet the C standard's contract.", "quantifier": "every string / buffer content and length", "why_tests_cant": "unbounded buffers; comparison sign and overlap cases", "anchors": ["portable_libc/src/string.c", "portable_libc/src/stdlib.c", "portable_libc/src/ctype.c"]}
{"id": "C39", "title": "Compilation is deterministic with respect to environment", "statement": "The generated output depends only on the source files and command line options.", "quantifier": "every pair of runs on the same input", "why_tests_cant": "hidden state dependence cannot be excluded by finite runs", "anchors": ["pnut.c: main", "sh.c: codegen_end"]}
{"id": "C40", "title": "Formatted output of the libc is C's", "statement": "printf, fprintf, snprintf of the portable libc write, for a format made of the supported conversions and matching arguments, the characters C prescribes, return their number, never leave the number buffer or the destination, and fputs writes exactly its string.", "quantifier": "every format built of the supported directives, every argument value and width", "why_tests_cant": "formats and strings are unbounded; extreme values and widths interact with the fixed buffer", "anchors": ["portable_libc/src/stdio.c: _int_to_str, vfprintf, vsnprintf, fputs"]}
{"id": "C41", "title": "Command line options mean what they say", "statement": "The options -D, -U, -I, -o and the source files of a command line determine the macros, the include search path, the output file and the source text as documented, wherever they stand and whether or not the operand is attached: the last -D or -U of a name decides, predefined macros and keywords are there unless removed, every source file is read completely, and an unknown option, a malformed definition, a missing file or a missing source is refused.", "quantifier": "every command line, every file system and every source", "why_tests_cant": "command lines are unbounded sequences whose options interact through the symbol table and the include stack", "anchors": ["pnut.c: main, handle_macro_D, init_ident_table, init_pnut_macros, include_file"]}
{"id": "C42", "title": "Declarations declare what C says", "statement": "For every translation unit of the supported C declaration grammar - specifiers, qualifiers, storage classes, pointer, array, function and parenthesised declarators, parameter lists, structure and union members, typedefs, initializers, function definitions - the compiler reads all of it and gives every declared name exactly the type, qualifiers, storage class and initializer that C gives it; typedef names mean the declared types in what follows, and no later declaration changes an earlier one.", "quantifier": "every translation unit of the grammar, with declarators and structures nested to any depth", "why_tests_cant": "declarators nest without bound inside out and the parser updates shared type nodes in place, so each suffix interacts with everything read before", "anchors": ["pnut.c: parse_declaration, parse_declaration_specifiers, parse_type_specifier, parse_struct_or_union, parse_param_list, parse_declarator, parse_initializer, add_typedef"]}
{"id": "C43", "title": "Statements are parsed as C's statements", "statement": "For every function body derivable from C's statement grammar, the compiler reads exactly that body and builds the statement tree the grammar gives it: every else belongs to the nearest if it can belong to, labels, cases, loops, jumps and blocks nest as written; whatever it accepts is such a body, and on every token sequence it ends with a tree or a diagnostic.", "quantifier": "every token sequence, with statements nested to any depth and any expression", "why_tests_cant": "statements nest without bound and the dangling else makes the tree depend on what follows, so no finite set of bodies settles it", "anchors": ["pnut.c: parse_statement, parse_compound_statement, parse_comma_expression_opt, parse_parenthesized_expression"]}
{"id": "C44", "title": "Compiled programs start, talk to the system and end as C says", "statement": "On Linux (i386 and x86-64) a compiled program starts with zeroed global variables and an empty heap, runs the initialisations in order, calls main with the argc and argv the system provided and exits with main's result; exit, read, write, open, close, lseek and unlink ask the system for exactly what their arguments say and return its answer; putchar, getchar, fgetc and fopen do what C says; calls leave the stack, the global variables and all other memory alone; running out of heap prints a message and ends the program.", "quantifier": "every operating system (any state and any sequence of answers), every initial stack, every argument, every program and every point at which a call is made", "why_tests_cant": "the answers of the system are not under the control of a test, and the code sequences depend on every register and the whole memory", "anchors": ["x86.c: syscall_3, os_allocate_memory, os_exit, os_read, os_write, os_open, os_close, os_seek, os_unlink, setup_proc_args", "exe.c: codegen_begin, codegen_end, rt_putchar, rt_crash, rt_fgetc, rt_fopen, rt_malloc"]}
{"id": "C45", "title": "A script contains everything it uses", "statement": "For every program whose names are declared, the script the shell backend writes has, before each line the shell executes, every function that line calls and every variable it reads, directly or through the functions it calls: the runtime functions needed, in an order in which they work, each once; every function, global variable, enumeration constant, member offset and structure size of the program; the character constants. No constant is set twice, and the last line, and no other, calls main, with the arguments if it takes any and for its exit status unless it is void.", "quantifier": "every program (any number and order of declarations, any function bodies, any combination of library calls) and every combination of the compile-time options", "why_tests_cant": "which runtime functions are printed, and when, depends on flags accumulated over the whole program; the combinations are unbounded and a missing function only shows when it is called", "anchors": ["sh.c: comp_glo_decl, comp_glo_var_decl, comp_glo_fun_decl, comp_fun_call_code, comp_defstr, comp_struct, comp_enum_cases, initialize_function_variables, epilogue", "sh-runtime.c: DEFINE_RUNTIME_FUN, DEPENDS_ON, produce_runtime"]}
{"id": "C46", "title": "When main starts every global has its value", "statement": "For every program whose names are declared once, the script the shell backend writes runs without error up to the call of main, and at that point every global scalar has the value of its initialiser (0 without one), every array element the value its initialiser list or string gives it (0 beyond it), every enumeration constant, member offset and structure size its value; string initialisers denote NUL-terminated copies of their bytes; different arrays and string constants share no memory, and memory allocated later does not overlap them; and main receives the number of arguments and the arguments.", "quantifier": "every program (any number and order of declarations, any initialiser expressions and lists, any bytes in strings), every list of arguments and every combination of the compile-time options", "why_tests_cant": "initialisation is spread over lines printed at different times with runtime functions chosen by what came before, so each declaration interacts with all earlier ones; expressions, lists and programs are unbounded", "anchors": ["sh.c: comp_glo_var_decl, comp_assignment, comp_rvalue, comp_initializer_list, comp_defstr, fresh_string_ident, comp_enum_cases, comp_struct, epilogue", "sh-runtime.c: runtime_defarr, runtime_initialize, runtime_defstr, runtime_unpack_escaped_string, runtime_make_argv, runtime_malloc"]}
{"id": "C47", "title": "The runtime printf prints what C's does", "statement": "When the format of a printf call is not a literal, the shell runtime's printf prints exactly what C99's printf prescribes for the format and the arguments (conversions d i o u x X c s %, with flags, width, precision and *), returns the number of bytes, leaves memory alone, and ends the program with a message on a conversion it does not support.", "quantifier": "every format string, every argument list, every memory", "why_tests_cant": "formats and arguments are unbounded, and the text handed to the shell's own printf is assembled from pieces that are read again by another parser", "anchors": ["sh-runtime.c: _printf, read_int, pad, printf_invalid_format_error, printf_reset, _put_pstr, call_int_to_char"]}
{"id": "C48", "title": "The Mach-O file is a valid executable with the whole code", "statement": "For macOS the compiler writes a well-formed x86-64 Mach-O executable: header and load commands of the stated sizes, an inaccessible first 4 GB, a text segment that is not writable, a thread starting at the first byte of the code; when loaded, memory holds the whole code, unchanged, from the entry point on.", "quantifier": "every code of at most MAX_CODE_SIZE bytes", "why_tests_cant": "sizes in the headers depend on the length of the code; whether the last bytes are mapped depends on that length modulo the page size", "anchors": ["mach-o.c: generate_exe, write_mach_o_header_64, write_pagezero, write_text_section, write_unix_thread"]}
{"id": "C49", "title": "The executable file, executed byte by byte, does what C says", "statement": "The ELF file the compiler writes for a program can be loaded, and when the processor decodes and executes the bytes of the loaded file one instruction after the other, starting at the entry point in the header, with displacements and return addresses as plain numbers, the process asks the operating system for exactly the input and output that the C program prescribes and ends with the exit status that C prescribes; no other end is possible. Every instruction of the program has an encoding if the numbers in it fit in 32 bits.", "quantifier": "every program of the modelled fragment, every input, every memory contents at start-up, every behaviour of the operating system, both i386 and x86-64", "why_tests_cant": "running a program checks one input; the composition of encoder, label resolution, file format and code generator must be right for every program", "anchors": ["exe.c: emit_i8, use_label, def_label, codegen_string, codegen_end, codegen_glo_decl", "x86.c: jump, call, ret, jump_cond, mov_reg_imm", "elf.c: generate_exe"]}
{"id": "C50", "title": "Programs that do not return do what C says up to wherever they get", "statement": "Also when main never returns, the executable does what the C program does: whenever the C program comes to a statement, an expression or a call - inside any number of functions that have not returned and loops that have not ended - the process comes to a state with the same memory, having asked the system for exactly what the C program has asked for so far; a call of exit(v), wherever it is, ends the process with status v modulo 256 and nothing more is asked of the system; a program that goes on for ever never ends and never gets stuck.", "quantifier": "every program of the supported fragment, every point of every finite or infinite execution, i386 and x86-64", "why_tests_cant": "infinite executions and points inside unfinished calls have no final result to compare; the nesting of calls and loops at such a point is unbounded", "anchors": ["exe.c: codegen_statement, codegen_rvalue, codegen_lvalue, codegen_call, codegen_params, codegen_body, codegen_glo_fun_decl, codegen_end (exit, printf)", "x86.c: jump, call, jump_cond, os_exit"]}
{"id": "C51", "title": "The shell script of a whole program does only what its C source allows", "statement": "Take a C program whose functions pnut-sh accepts, with any functions, recursion and nesting of calls in expressions. When the command for a call of one of its functions (in particular the final call of main) comes back, C allows that call, in the state of the global variables, memory and outside world in which it was made, to return the value that is found in the destination variable and to leave exactly the global variables, memory and outside world that the script leaves; operands and arguments are evaluated in some order that C allows, statements in the order of C. Local variables and temporaries of all active functions are preserved by the call.", "quantifier": "every program of the fragment, every function, arguments, state, depth of calls and number of iterations", "why_tests_cant": "the recursion depth, the interleaving of hoisted calls with saved variables and the control flow are unbounded and interact; tests run a few programs", "anchors": ["sh.c: comp_glo_fun_decl, comp_statement, comp_body, comp_switch, comp_if, comp_loop, comp_return, comp_assignment, comp_fun_call_code, handle_side_effects_go, comp_rvalue, let_params, save_local_vars, restore_local_vars", "sh-runtime.c: let, endlet"]}
{"id": "C52", "title": "The text of a function body is read as the tree that C gives it", "statement": "If the text of a block splits, by the lexical rules of C, into tokens which the statement and expression grammar of C derives as a block, then pnut reads the text as exactly the tree of this derivation and goes on behind the block: keywords are recognised and only they, an identifier is the same one everywhere it occurs and different from every other, whatever its hash, whatever white space and comments stand between the tokens and whatever else is allocated meanwhile.", "quantifier": "every text of a block (without declarations, type names, macros and directives), every target, every interleaving of other allocations with the reading of tokens", "why_tests_cant": "texts and the sets of names in them (and the collisions of their hashes) are unbounded; tests read a few programs", "anchors": ["pnut.c: init_ident_table, init_ident, init_pnut_macros, get_ident, end_ident, get_tok, parse_statement, parse_compound_statement"]}
{"id": "C53", "title": "The preprocess-only mode prints a program that C reads as the same tokens", "statement": "In the mode in which pnut only preprocesses its input (DEBUG_CPP, documented as 'like gcc -E'), the text it writes is split by the lexical rules of C, and by pnut itself, into exactly the tokens of the input, in order: names, keywords, operators, numbers, and characters and strings with the same bytes, wherever lines end and blocks begin; comments are gone. (False for numbers other than 0, which get a minus, for ++, ... and inline, for the suffix L, and for bytes from 128 on in strings where char is signed.)", "quantifier": "every text (without directives and macros), every sequence of tokens, bytes of strings, nesting of blocks and position of line ends", "why_tests_cant": "texts, strings and nesting are unbounded and each token is written in the context of what precedes it; tests print a few files", "anchors": ["debug.c: print_tok, print_string_char, print_tok_string, print_tok_indent", "pnut.c: main (DEBUG_CPP), putint, get_tok"]}
{"id": "C54", "title": "A backslash at the end of a line joins it with the next line", "statement": "In a build with SUPPORT_LINE_CONTINUATION, a source file with backslashes at the ends of lines, anywhere (inside names, operators, strings, comments, several in a row, at the end of the file), is read exactly as the file in which each of these backslashes is deleted together with the line end: same tokens, same trees; and the line numbers that error messages show still count the lines of the file.", "quantifier": "every file, every number and position of backslashes and line ends, every moment of the reading", "why_tests_cant": "the reader has one character of lookahead and a saved character, so what it delivers depends on the whole history; the test has one file", "anchors": ["pnut.c: get_ch, get_ch_, line_continutation_prev_char, line_number"]}
{"id": "C55", "title": "The text of declarations is given its C meaning, from bytes to types", "statement": "The bytes of a file of declarations (typedefs, structures and unions, variables with initializers, prototypes), with any layout, comments and names, make the native compilers declare exactly the names of the file, each with exactly the type, storage class and initializer that C gives it; names with different spellings stay different, and a keyword is never taken for a name nor a name for a keyword.", "quantifier": "every text of the grammar, of any length and nesting, every choice of names, whatever else is stored in the tables meanwhile, every target", "why_tests_cant": "scanner, symbol table and parser work on unbounded texts and share a table with hash collisions; tests see a few headers", "anchors": ["pnut.c: get_tok, get_ident, init_ident_table, init_pnut_macros, parse_declaration, parse_declarator, parse_declaration_specifiers, main"]}
{"id": "C56", "title": "The portable C library performs the system calls of its functions", "statement": "On i386 Linux, read, write, open, close and exit of the portable C library perform exactly the system call of their name with their arguments and return its result; main gets the arguments of the process and its result becomes the exit status; fwrite appends exactly the bytes of the object and returns the number of items written, fread returns the number of whole items read; a program may open and close files any number of times.", "quantifier": "every behaviour of the system, all register contents, arguments, sizes and counts, every number of open/close cycles", "why_tests_cant": "the calls depend on what the kernel does and on what the registers hold; leaks show only after long histories; tests run a few calls", "anchors": ["portable_libc/src/crt1.c: exit, _start, read, write, open, close", "portable_libc/src/stdio.c: fputc, fwrite, fread"]}
{"id": "C57", "title": "An array declared without a size gets the size of its initializer", "statement": "An array declared without a length has as many elements as its initializer (for a string, its bytes and the null byte): that many are given room, and sizeof says so afterwards, whatever else is declared; a declared length is kept and an initializer that is longer is refused. (False for two declarators of one declaration made with a typedef name of such a type, for strings in braces, for incomplete arrays; the shell compiler refuses a string whose null byte does not fit.)", "quantifier": "every sequence of declarations, every length, every list and string", "why_tests_cant": "the length is stored in a type that other declarations may share, so it depends on the whole history of declarations", "anchors": ["exe.c: initializer_size, infer_array_length, codegen_glo_var_decl, codegen_initializer", "sh.c: comp_glo_var_decl, initializer_list_len"]}
{"id": "C58", "title": "#include_shell puts a shell file into the script, unchanged", "statement": "With pnut-sh, every #include_shell directive copies the named file, found in the directory of the C file, byte by byte and followed by a line end, into the script: once for each directive, in order, behind the prologue, never inside the code of a declaration, and the run-time functions for strings are then in the script; a missing file makes the compiler fail. (The file included behind a declaration stands before the code of that declaration, and afterwards the shell file's name is shown as the current file's by error messages and __FILE__.)", "quantifier": "every source, number and position of directives, contents of files, every behaviour of the rest of the compiler", "why_tests_cant": "the output is interleaved with a parser that reads one token ahead; the positions and files are unbounded; there is one example", "anchors": ["sh.c: handle_shell_include, codegen_begin, codegen_glo_decl, codegen_end, epilogue", "pnut.c: handle_preprocessor_directive, fopen_source_file, get_tok, main"]}
{"id": "C59", "title": "#error stops the compilation and #warning does not change the program", "statement": "A source with an #error directive that is not skipped is refused; a #warning directive is reported and the program is compiled as without it. (The second is false for pnut-sh: the message is written into the script, where the shell takes it for a command.)", "quantifier": "every source, number, position and text of the directives, every program", "why_tests_cant": "messages and program share one output, interleaved by a parser that reads ahead; no test has these directives", "anchors": ["pnut.c: handle_preprocessor_directive, get_tok, main", "sh.c: codegen_begin, codegen_glo_decl, codegen_end"]}
{"id": "C60", "title": "A goto goes to the label of its name in its function", "statement": "In the code of the native compilers, a goto adjusts the stack to the block of the label and continues at the statement with the label of that name in the same function, whether it stands before or behind the goto, in an inner or an outer block; labels of other functions, with the same names too, do not interfere; a name that labels two statements of a function is refused, and so is a goto without a label (the latter only in SAFE_MODE: otherwise it is compiled to a jump to nowhere).", "quantifier": "every program: any number of functions, labels and gotos, in every order and nesting, whatever else is compiled and allocated in between", "why_tests_cant": "forward gotos are chained through the code buffer and patched later, and labels are found by name in a list shared with other bindings; the one test has a few gotos", "anchors": ["exe.c: codegen_goto, codegen_statement (labels), codegen_glo_fun_decl, alloc_goto_label, jump_to_goto_label, def_goto_label, assert_all_labels_defined", "env.c: cgc_add_goto_label, cgc_lookup_goto_label"]}
{"id": "C61", "title": "Variables with static storage never share memory", "statement": "In the executables of the native compilers, all uses of a variable of the file scope, or of a variable declared static in a block of a function, access one and the same place in memory, different variables (also of the same name in other blocks or functions) have no byte in common, none overlaps the two words the run-time library keeps for its heap, and the memory the program asks for when it starts holds them all.", "quantifier": "every program: any number of declarations, repeated declarations, functions, static variables in blocks of any nesting, any sizes", "why_tests_cant": "an overlap shows only for particular combinations of declarations, sizes and scopes, which a finite set of tests cannot exhaust", "anchors": ["env.c: cgc_add_global, cgc_lookup_var", "exe.c: codegen_begin, codegen_glo_var_decl, codegen_static_local_var_decl, codegen_body, codegen_glo_fun_decl, resolve_identifier, codegen_end"]}
{"id": "C62", "title": "Initial values of static variables are stored before main, and not again when the declaration is reached", "statement": "In the executables of the native compilers, the initialisations of the variables of the file scope and of the static variables declared in functions are all executed before main is called, in the order of the text; when the control comes to the declaration of such a static variable, however often and in whatever state, it passes to what follows with nothing changed, and the code of the function never falls into the initialisation.", "quantifier": "every program: any functions, any number of initialised globals and static variables in any order, every state in which a declaration is reached", "why_tests_cant": "the initialisations lie in the middle of the code of functions, chained by labels; a test sees a few of the orders and states", "anchors": ["exe.c: codegen_static_local_var_decl, codegen_glo_var_decl, codegen_begin, codegen_end"]}
