# Formal model of pnut in Lean 4 — design

Code base: `udem-dlteam/pnut` (C compiler to POSIX shell, `pnut-sh`, and to x86 ELF, `pnut-exe`), read as text in `/repo`.
The properties are listed in `properties.jsonl` (C01, C02, ...). `MANIFEST.json` maps each to its theorems.

## Layout

`lean/Verif/<Area>/Model.lean` – executable model of the C functions (each definition cites file and lines),
`lean/Verif/<Area>/Spec.lean` – the small, independent specification (C standard / POSIX shell / x86 manual side),
`lean/Verif/<Area>/Proofs.lean` – helper lemmas,
`lean/Verif/<Area>/Props.lean` – only the property theorems, each with non-vacuity examples and, when the code
violates the property, a theorem `..._false` with a concrete witness together with a `..._partial` theorem.

## Trusted base

* Lean 4.33.0's kernel; axioms `propext`, `Classical.choice`, `Quot.sound` only (no own axioms, no compiled-code proof).
* The fidelity of the models to the C text: read by hand, cited by file and line, simplifications stated in comments.
* The specification side: small definitions of C integer arithmetic, C grammar/precedence, POSIX shell quoting,
  arithmetic expansion and control flow, x86 instruction decoding. These are our reading of the standards.
* Not modelled anywhere: the OS, the real shells (dash, bash, ksh...), performance, the C compiler used to build pnut.

## Plan per property

| id | what is modelled | how it is proved |
|----|------------------|------------------|
| C01 | identifier table: bucket array, chains in heap, string pool, `end_ident` comparison loop up to NUL | invariant over histories; refinement to an injective map; NUL counterexample |
| C02 | bump allocator `alloc_obj`, `new_astN`, getters/setters, `clone_ast` over an integer heap | frame lemmas, induction over operation histories |
| C03, C04 | `#if` mask stack machine over directive events | simulation with a recursive denotation of nested groups; bound on stack; counterexample for the documented depth |
| C05 | `eval_constant` over expression trees with 32-bit ints, UB and fatal outcomes | structural induction vs C semantics; counterexample for `&&`, `||` |
| C06 | `accum_digit` negative accumulation; `u64_*` helper arithmetic | induction on digits; counterexample at the carry |
| C07 | `putint`, `puthex_unsigned`, `putoct_unsigned` | digit induction, inverse by a number reader |
| C08 | `get_string_char`, `accum_string_until` on character lists | decode∘encode for a canonical and for all escaped spellings |
| C09 | `print_escaped_*`, the shell's double-quote removal, the `unpack_escaped_string` loop | composition is the identity on NUL-free byte strings |
| C10 | recursive-descent expression parser on tokens | parse(unparse t) = t with minimal C parentheses |
| C11 | expression printer `comp_rvalue_go` and friends; shell arithmetic parser + evaluator | print/parse round trip, value preservation; counterexamples for the elision bugs |
| C12 | `let`/`endlet`, `save_local_vars`/`restore_local_vars`, call protocol | induction over call trees |
| C13 | statement compiler to shell commands; big-step/fuel semantics of both | simulation; counterexamples for `for(;;){break;}` and do-while `continue` |
| C14 | name formatting functions as strings | injectivity and disjointness of name classes; collision witnesses |
| C15 | `_malloc`, `_free`, `defstr`, `defarr`, `make_argv` on cell memory | invariant over histories |
| C16 | `getchar`/`fgetc`/`read_byte`/`refill_buffer` on a byte stream | refinement to a cursor; counterexample for 16-multiple line lengths |
| C17 | `putchar` octal emission, `printf` octal escape semantics | arithmetic, all 256 values by proof |
| C18 | `handle_printf_call` state machine, shell `printf` semantics | simulation with C's printf; counterexample `%d %s %d` |
| C19 | fd table | invariant over histories |
| C20 | include stack, `get_ch`, `#include` in the lexer (`Inc`) | refinement of the include stack, for every reading program, to a semantics on the spliced text; inductive reading relation at token level; witnesses for departures |
| C21 | `get_tok` operator/blank/comment part | maximal munch theorem |
| C22 | macro stack and token replay (`Macro`) | lexicographic measure on the frames of the macro stack; simulation against an inductive C macro-replacement relation; witnesses for departures |
| C23 | `glo_decls` array with undo/replay/fixup | refinement to list of live lines |
| C24 | text pool | denotation as strings |
| C25, C26 | type trees, layout functions, initialiser offsets | structural induction; counterexample for unaligned initialisers |
| C27, C28 | code buffer, LE emission, label patch chains | decode inverse; invariant over histories |
| C29, C30 (library functions: any specification `Ctx.lib` that the code implements, `Library`; C44 gives one) | `codegen_rvalue/lvalue/statement/call/glo_fun_decl` emitting items (instructions, labels, jumps); the machine of C31; big-step C semantics with fuel | simulation by structural induction; determinism of the machine; counterexamples for the C rules pnut-exe does not follow |
| C31 | instruction encoders, decoder following the manual | decode∘encode for all operands |
| C32 | environment lookups | refinement to scopes |
| C33 | pointer scaling | arithmetic; counterexample for negative differences with odd sizes |
| C34 | `rt_malloc`, `malloc`, `free` as machine code of C29's machine | one call executed symbolically, invariant over histories of calls; counterexamples for negative/overflowing sizes and alignment |
| C35 | ELF writer | header decode |
| C36 | enum numbering | induction |
| C37 | `handle_side_effects`, `comp_rvalue`, conditions and expression statements, and the shell commands they give (`Hoist`) | simulation: the commands and expansions that run are one of the interleavings allowed by a small-step C semantics of unsequenced operands; totality; acceptance and rejection; witnesses for departures |
| C38 | libc functions on byte memory | loop invariants; counterexample `strtol` non-termination |
| C39 | `main` with any compiler body that reads through the include stack (`Cli`) | non-interference: file systems that agree on the files named on the command line or opened in the run give the same result; that the body has no other input is by construction of the model |
| C40 | libc printf family: `_int_to_str` on its buffer, `vfprintf` on formats and argument lists | output spec with `Nat.toDigits`, induction over directives; counterexamples for %x of negative, wide fields, `fputs` |
| C41 | the option loop of `main`, `handle_macro_D`, the initial symbol table (`Cli`) | induction over command lines written by a grammar of options; the body sees the table, search path, output and text of the specification; refusals; witnesses for departures |
| C42 | the parser of declarations with its in-place update of type nodes and its global flags (`Decl`) | mutual structural induction over a grammar of declarations that gives types; heap framing with a context (type with a hole) for `update_inner_type`; witnesses for departures |
| C43 | the parser of statements on top of that of expressions (`PStmt`) | a grammar of statements indexed by "ends in an `if` without `else`"; completeness by structural induction over its derivations, soundness by induction over the fuel, termination by the number of tokens; witnesses for departures |
| C44 | the code of `codegen_end`, the run-time functions and the system-call sequences (`Sys`) on the machine of C31, with a process semantics in which a system-call instruction is answered by an arbitrary operating system | symbolic execution over the items of code for every state and every system; composition into whole runs (start, initialisations, `main`, exit status), with C30 for programs of its fragment and C34 for `malloc`; for programs that call the library, the record of requests is a ghost of the C memory and of the machine (`Mem.io`, `MS.io`; no instruction reads it), the world is its replay (`world`), and every run-time function is shown to implement the specification `library`; initial values by structural induction on the initialiser, each piece a Hoare triple over the simulation relation of C29, chained in the order of the declarations; determinism; positive theorems for each departure from C |
| C45 | the top level of the shell backend (`ShTop`): declarations to lines, flags of the runtime functions, the texts of the runtime as lists of defined names and references, the epilogue; a script is a list of lines with what each defines, sets, calls and reads | invariant over the compilation: the runtime printed so far is closed, what bodies refer to is there or promised by a flag that `produce_runtime` honours; induction over declarators, declarations and the dependency order; counterexample programs for each condition |
| C46 | running the lines of `ShTop`'s scripts (`ShGlob`): variables, readonly variables, functions defined so far, and the heap of `ShHeap`; each line either calls runtime functions that are defined or fails | the compiler's lines are well formed (invariant `St` over the compilation: identifiers of strings are functional, each global set once, the text of `defarr` knows `initialize` when needed); a well-formed script runs and each line's effect is preserved by all later lines (`Good`); then each declaration has its line. Counterexample programs for the conditions |
| C47 | the loop of the runtime's `_printf` over memory cells (`RtPrintf`), with `read_int`, `pad`, the error function and the `printf` utility of the shell (its own parser of the assembled specification, 64-bit values, C99 layouts) | induction over the format: flags, width, precision and conversion are consumed by rounds of the loop (`Runs`); the assembled text is read back by the utility with the same meaning (`WidthText`, `PrecText`); refusals printed for every unknown conversion; counterexamples for the restrictions |
| C48 | the bytes written by mach-o.c (`MachO`), read back by a parser of the header and the load commands; a segment mapped by whole pages or exactly | field lemmas of `Elf`, arithmetic of page rounding; for every code size that leaves less than 360 bytes in its last page the last byte is not mapped (proved) |
| C49 | the whole way from the items of code to the file (`Img`: code buffer of `Code`, encoder of `X86`, headers of `Elf`) and a processor that fetches bytes, decodes them with `X86.Spec.decode` and executes them (`Img.Spec`) | the image of the code in memory determines the decoded instruction at each item; forward simulation of the item-level process of C44 by the byte-level one; the byte-level step relation is deterministic, so the end is the only one; structural induction over the code generator shows that registers and condition codes are always encodable |
| C50 | no new model; `Reach.Spec` describes C executions that need not complete: `Leads a b` says that carrying out `a` (expression, object, arguments, statement, block, loop test, call) comes to carrying out its part `b` after everything before it has completed as `Cg.Spec` says; `Reaches` is its closure | an invariant (`Match`: the machine stands at the code of the part, with related memory) is kept by every `Leads`, using the simulation of C29/C30/C44 for the completed parts; steps of `Leads` that execute no instruction make the text smaller, so an infinite chain gives infinitely many machine steps; determinism of the byte-level processor (C49) excludes any end |
| C51 | `ShProg.Model`: statements with their expressions are turned into numbered commands (`num`: C37's commands for each expression, condition, `switch` operand and `return`), the control flow is C13's `comp_glo_fun_decl`, the variables saved by `let`/`endlet` are C12's; `scall` runs a call of a generated function on shell variables (locals, temporaries, globals, cells `_n`, stack `__n`). `ShProg.Spec`: big-step relation for C statements over C37's evaluation steps, each call with its own variables (`May`, indexed by the depth of calls). Proof: the shell's arithmetic and C's are related machines; each call of the shell is an entry of a tape that the C evaluation replays, so C37's theorems apply; simulation of statements by induction; calls by induction on the depth with C12's lemmas on `let`/`endlet` |
| C52 | `Front.Model`: the table made by `init_ident_table`/`init_pnut_macros` as a history of the operations of `Intern` (C01), each token of `Lex` (C21) entered in it, its kind read back from the entry, the result given to the parser of `PStmt` (C43). Spec: keywords by spelling, punctuators, `Toks num` (identifiers numbered by any `num`). Proof: invariant `KK` (kinds of the entries) over all histories, then C21 and C43 composed; capacity by `C52_fits`. Declarations, type names and macros are not expressible without the typedef feedback, which is not modelled. |
| C53 | `Dump.Model`: `print_tok` with its indentation state, the loop of `main` over the calls of `get_tok` (newlines as tokens). Spec: the lexical grammar of C21 (`Splits`), `seen` (which tokens stand for a printed one), `Fine` (the tokens printed right). Proof: every printed piece is the longest preprocessing token at its place, whatever follows; splicing of lines leaves the output alone; gaps by induction on their length. Partial: directives, macro names, large literals; and the wrong lines of `print_tok`, shown by `C53_…_false`. |
| C54 | `Cont.Model`: `get_ch`/`get_ch_` in a build with `-DSUPPORT_LINE_CONTINUATION` (the option of tests/_all/line_continuation.c; without it: `C21_continuation_false`), state: the saved character, the file, line and column. Spec: phase 2 of C (`Lex.Spec.splice`), `EvenEnd`, `lineAfter`. Proof: the stream of characters by induction on the calls, then the theorems of C21 and C52 for the spliced text; line numbers by an invariant over the calls. Partial: lines that end in an even number of backslashes (`C54_even_false`). |
| C55 | `FrontD.Model`: the composition of the scanner (`Lex`), the symbol table (`Intern`, `Cli`: keywords and predefined names) and the parser of declarations (`Decl`) for the native compilers. Spec: the words of C as tokens of the grammar of declarations (`FrontD.Spec.tok`), the lexical grammar of C21 and the grammar and types of C42 (`SUnit`, `OutIs`). Proof: the kinds in the table are those of the words (finite check), induction on the tokens with the invariant of the symbol table, then C21, C42 (and C54 for continued lines). Partial: expressions are literals; no enumerations, bodies, strings. |
| C56 | `Crt.Model`: the `asm` statements of crt1.c as the registers given to the kernel (an arbitrary function), `_start` with the stack of a new process, `fputc`/`fwrite`/`fread` of stdio.c over them. Spec: an arbitrary system (`Os`), Linux' table of call numbers, a table of descriptors, a file. Proof: for every system and all registers; histories of any number of open/close by induction; bytes of `fwrite` by induction. Partial: `close` and errors are wrong (`C56_…_false`). |
| C57 | `initializer_size`, `infer_array_length` and their use on a heap of type nodes; sh.c's rule for `defarr`/`defstr` | induction over the sequence of declarations, specification of C99 6.7.8; counterexamples for shared nodes, braced strings, incomplete arrays |
| C58 | `handle_shell_include` in the main loop, with parser and code generator as parameters | induction over tokens and declarations; the script is given as a relation; missing files refused; two negations (place, file name) |
| C59 | `#warning` and `#error` in the model of C58 | as C58; negation for the output of `#warning` |
| C60 | names, bindings and allocation of labels on top of the code buffer of C28; functions as sequences of events | invariant of the bindings (fresh, injective), composition with C28; negation without `SAFE_MODE` |
| C61 | the binding lists and scopes of C32 with the allocation of the globals, from `codegen_begin` to the size asked for in `codegen_end`; no hypothesis on the names | invariant: every binding of a global in either list refers to an object at the sum of the sizes before it |
| C62 | the code of a program as parts (code, initial values of globals, declarations of static variables) on the machine of C44 | the chain of initialisations of C44; exact successor of every step at a declaration; case analysis of what steps lead to an initialisation |

## What is modelled and what is not

Area directories under `lean/Verif` and the code they model (line numbers are in the comments of the definitions):

| directory | code | claims |
|-----------|------|--------|
| Intern, Ast, IfMask, EvalConst, Num, Lit, Parse | pnut.c: `begin_string`…`end_ident`, `alloc_obj`/`new_ast*`/`clone_ast`, `#if` masks, `eval_constant`, integer literals and `u64_*`, character/string literals, expression parser | C01–C08, C10 |
| Lex | pnut.c: `get_tok` reading from a file (white space, comments, operators, dispatch), `get_ident` | C21 |
| Hoist | sh.c: `handle_fun_call_side_effect`, `handle_side_effects_go`, `comp_rvalue`, `with_prefixed_side_effects`, `fun_call_params`, `comp_lvalue` for results, `comp_fun_call`, `comp_assignment`, expression statements of `comp_statement` (without strings, `sizeof`, `putchar`/`printf` inlining and conversions) | C37 |
| Cli | pnut.c: `main` up to the first token, `handle_macro_D`, `init_ident_table`, `init_builtin_*_macro`, `init_pnut_macros` (without failure of `open` for `-o`) | C39, C41 |
| Decl | pnut.c: `parse_type_specifier`, `parse_declaration_specifiers`, `parse_struct_or_union`, `parse_param_list`, `parse_declarator`, `parse_initializer(_list)`, `parse_declarators`, `add_typedef`, `parse_fun_def`, `parse_declaration` at file scope, the loop of `main` (expressions, `enum` specifiers and function bodies are single tokens; the native compilers, not `pnut-sh`) | C42 |
| PStmt | pnut.c: `parse_statement`, `parse_compound_statement`, `parse_comma_expression_opt`, `parse_constant_expression`, `parse_parenthesized_expression` (a declaration is a single token; a label named like a type is read as a declaration by the code and is not modelled) | C43 |
| Sys | x86.c: `syscall_3`, `os_*`, `setup_proc_args` (i386 and x86-64 Linux; the macOS numbers are not modelled); exe.c: `rt_putchar`, `rt_debug`, `rt_crash`, `rt_fgetc`, `rt_fopen`, the chain of initialisations and the code of initial values (`codegen_glo_var_decl`, `codegen_initializer`, `codegen_initializer_string` for globals; not struct copies), `codegen_begin` (the jump), `codegen_end`; the kernel's side (numbers, registers, what a call does) is specification | C44 |
| ShTop | sh.c: `comp_glo_decl` and what it calls for declarations (`comp_glo_var_decl`, `comp_initializer_list`, `comp_defstr`, `comp_assignment` and `comp_rvalue` of constant expressions at the top level, `comp_enum_cases`, `comp_struct`, `handle_typedef`), `comp_glo_fun_decl` with the body reduced to what it mentions, `comp_fun_call_code` (which calls are inlined, which flags are set), `fresh_string_ident`, `character_ident`, `initialize_function_variables`, `epilogue`; sh-runtime.c: the dependency and definition structure of all runtime functions, `produce_runtime`; not `#include_shell`, not `INCLUDE_ALL_RUNTIME` | C45 |
| ShGlob | execution of the lines of a script up to the call of `main`: assignments, `readonly`, `: $((a = b = 0))`, the three texts of `defarr`, `defstr` on the printed double-quoted text (C09), `make_argv`, `_malloc` (all from `ShHeap`); failure when a called function is missing, a readonly variable is assigned or an unset one is read under `set -u`; integers unbounded (assumption: constant expressions stay within the shell's range); printed names as an injective numbering (C14); not function bodies, not `main` itself | C46 |
| RtPrintf | sh-runtime.c: `_put_pstr`, `read_int`, `pad`, `printf_invalid_format_error`, `printf_reset`, `_printf`, `call_int_to_char`; environment: the `printf` utility (POSIX XCU printf / XBD 5; layouts of C99 7.19.6.1 in `Layout.lean`, shared by the specification of C and the utility), command substitution | C47 |
| Macro | pnut.c: `handle_define`, `read_macro_tokens`, macro argument parsing, `attempt_macro_expansion`, `stringify`, `paste_tokens`, the replay part of `get_tok` (without `__FILE__`/`__LINE__` and definitions during an expansion) | C22 |
| Inc | pnut.c: `include_file`, `fopen_source_file`, `file_parent_directory`, `get_ch` (without line continuation), `handle_include` for `"name"` in the lexer, `<name>` at character level | C20 |
| Enum | enum numbering in `parse_enum` | C36 |
| Str, ShStr, Text | sh.c: escaping of strings, `text_pool` (`string_concat`…`print_text`), `glo_decls` (Text/Lines) | C09, C23, C24 |
| Arith | sh.c: `comp_rvalue_go`, `with_prefixed_side_effects`, `wrap_*`, against a parser and evaluator of shell arithmetic | C11 |
| Frame | sh.c: `save_local_vars`, `restore_local_vars`, `let_params`; sh-runtime.c: `let`/`endlet` | C12 |
| Stmt | sh.c: `comp_statement` and friends against a semantics of shell commands | C13 |
| Names | sh.c: `format_special_var`, `env_var*`, `function_name`, `fresh_ident`… | C14 |
| ShHeap, ShIO, ShPrintf | sh-runtime.c: `_malloc`, `_free`, `defstr`, `defarr`, `make_argv`, `unpack_*`; buffers, `_open`…`_fgetc`, `_putchar`; sh.c: `handle_printf_call` | C15–C19 |
| Layout | exe.c: `type_width`, `struct_*`, `word_size_align`; Layout/Init: `codegen_initializer*` offsets | C25, C26 |
| Code | exe.c: code buffer, `emit_*`, labels, `use_label`/`def_label`/goto labels | C27, C28 |
| X86 | x86.c: all instruction emitters for i386 and x86-64; a decoder and an execution semantics after the Intel manual | C31 |
| Gen | exe.c: memory access helpers, pointer scaling, type predicates | C33 and lemmas for C29 |
| Cg | exe.c: `codegen_binop`, `codegen_param(s)`, `codegen_call`, `codegen_lvalue`, `codegen_rvalue`, `codegen_string` (the bytes of a string literal are an item of the code that is not executed; `C.strAt` is its address), `codegen_body`, `codegen_statement`, `codegen_glo_fun_decl`, `grow_fs`, `value_type` | C29, C30 |
| Rt | exe.c: `rt_malloc`, malloc and free functions of `codegen_end` | C34 |
| Env | env.c: lookups and `cgc_add_*` | C32 |
| Elf | elf.c | C35 |
| MachO | mach-o.c (all) | C48 |
| Img | exe.c/x86.c/elf.c: composition of the emitters, labels and `generate_exe`. Limits: the bytes of code are those in memory at the start (the segment is not writable, C35; the fault that a store into it, e.g. into a string literal, causes is not modelled); generic labels only (`goto` is not in the fragment); Linux only | C49 |
| Reach | nothing of its own: theorems about `Cg`, `Sys` and `Img`. Limits: those of C30, C44 and C49 (fragment, Linux, stack not overflowing); the initial values of global variables complete before `main` is called | C50 |
| ShProg | sh.c:2038-2283 with the models of C12, C13 and C37. Limits: those of C13 (`St.ok`) and C37 (`frag`); identifiers are resolved; run-time functions are a parameter (`Lang.builtin`), also the operators; an access to an address that is no object has no meaning | C51 |
| Front | pnut.c: `init_ident`, `init_ident_table`, `init_pnut_macros`, `get_ident` with the models of C01, C21 and C43. Limits: those of these models; no type names, macros, directives | C52 |
| Dump | debug.c: `print_tok`, `print_string_char`, `print_tok_string`, `print_tok_indent`; pnut.c: the DEBUG_CPP loop of `main`. Limits: no names of macros (printed in brackets), no macro arguments, no AST node names | C53 |
| Cont | pnut.c: `get_ch`, `get_ch_` (SUPPORT_LINE_CONTINUATION, INCLUDE_LINE_NUMBER_ON_ERROR). Limits: one file, no included files | C54 |
| FrontD | the way from `get_tok` to `parse_declaration`: pnut.c `get_ident`, the kinds of words, the loop of `main`. Limits: the scanner runs before the parser; typedef names in the table of `Decl` | C55 |
| Crt | portable_libc/src/crt1.c (i386 Linux): all of it; stdio.c: `fputc`, `fwrite`, `fread` on descriptors | C56 |
| ArrLen | exe.c 1798-2004 (lengths only); sh.c 1085-1095, 2299-2346 | C57 |
| ShInc | sh.c 5-26, 2582-2606; pnut.c 930-942, 1489-1495, 1509-1522, 4105-4114 | C58, C59 |
| Goto | exe.c 422-429, 1219-1232, 2323-2333, 2375, 2415; env.c 88-91, 221-228 | C60 |
| Storage | exe.c 1667-1735, 2537-2550 (on top of Env: env.c 186-199, exe.c 1964-1992, 2021-2085, 2367-2455); not modelled: how the sizes come from the types (C25, C57), forward declarations of functions, the initialisers' code (C46) | C61 |
| StInit | exe.c 1985-1990, 2021-2039 (on top of Sys); the code of each initial value is a parameter, with a hypothesis on what it does (for globals see C44) | C62 |
| Libc, Stdio | portable_libc: string.c, stdlib.c, ctype.c; stdio.c | C38, C40 |

Every claim with status `partial` has its missing part in the note of MANIFEST.json; a theorem whose name ends in `_false` is a machine-checked
witness of an input on which the code does not do what the property says.

Not modelled: `codegen_goto`,
struct-valued expressions in generated code (the fragments `Sup*` of Cg exclude them), the macOS system calls, the awk and
bash variants of the shell runtime (only the configuration documented in the comments of each model is), and the shell interpreters themselves
beyond the small semantics in the Spec files.
