# Formal model of henryZe/toycc in Lean 4

This file is the plan and the statement of what is trusted. It is updated as the model grows.
`properties.jsonl` has the English properties (C01 ...), `MANIFEST.json` says which theorem settles which.

## Conventions

* One Lean directory per area under `lean/Verif/`. In each area
  `Model.lean` is the model (each definition cites the C file and lines), `Spec.lean` (where needed) is an independent
  specification, `Lemmas*.lean` are helper lemmas and `Props.lean` has the property theorems, each with an `example`
  showing that its hypotheses are met by a concrete non-trivial case.
* Undefined behaviour, aborts (`assert`, `unreachable()`), diagnostics (`error*()`) are distinct outcomes of the model.
* C `int`/`size_t` counters are modelled by `Nat`/`Int` where the text says so (no overflow of compiler-internal counters);
  values the compiled program computes with are `BitVec 64`.
* When the code violates the full property, the negation is proved on a concrete witness (theorem name `..._violated`)
  and the part that does hold is proved as `..._partial`.

## Plan per property

| id | modelled as | proof |
|----|----|----|
| C01-C04 | hashmap.c as a bucket list with probing, tombstones, rehash; outcomes `abort` | probe-path invariant, induction over histories |
| C05 | string.c array + capacity | invariant over pushes |
| C06,C07 | unicode.c encode/decode on byte lists | bit-vector case split; C07 fails (overlong): negation + partial |
| C08 | is_ident tables as lists, read_ident loop | induction on text |
| C09-C11 | functional passes and the in-place buffer versions | simulation of in-place by functional pass |
| C12-C16,C14 | tokenize() on byte lists with positions | induction on the text, well-founded recursion |
| C17,C18 | convert_pp_int with strtoul, read_escaped_char | digit-string induction, arithmetic |
| C19,C20 | string literal readers | induction |
| C21 | conditional directives on token lines vs a structured AST | structural induction on nested sections |
| C22 | preprocess2 with fuel, strict mode for the excluded situations | multiset-like order on the macros not hidden; nested runs by the same order, top level by the number of nodes of the source |
| C23-C25 | macro expansion with hide sets, argument reader | induction over token lists |
| C26,C27 | join_tokens/quote_string/join_adjacent | round-trip induction; C27 fails for u8: negation + partial |
| C28,C29 | detect_include_guard; search cache | negations + partial |
| C30,C31 | type.c on a type datatype | case analysis / structural induction |
| C32 | declspec counter loop | invariant over keyword lists |
| C33-C35 | struct_decl/union_decl on member lists | induction over members |
| C36,C37 | RV64 instruction sequences on BitVec 64 | bit-level lemmas |
| C38-C41 | gen_expr/gen_stmt emitting instructions for a small-step RV64 machine | structural induction (compiler correctness) |
| C42 | eval2 vs C semantics | structural induction; fails for 32-bit wrap: negation + partial |
| C43 | recursive-descent parser on tokens | grammar of C11 6.5 as a derivation relation; every derivation is parsed as its tree (induction on derivations), what is accepted is derived by the grammar with four liberties (induction on fuel); canonical printing as a special case |
| C44-C47 | scope, scan_globals, mark_live, goto resolution | refinement / induction / reachability |
| C48-C50 | assign_lvar_offsets, push_args, register assignment | induction over parameter lists; C49, C50 fail: negation + partial |
| C51,C52 | initialiser trees, byte images | induction over type/initialiser trees; C51 fails (malloc, break): negation + partial |
| C53,C54 | to_assign/new_add trees over the C semantics | evaluation lemma |
| C55 | ld stack machine with uninterpreted soft-float operations | negation + partial |
| C56-C59 | driver functions on argv lists | induction / negations |
| C60 | print_tokens + tokenizer | negation + partial |
| C61-C63 | small functions | arithmetic |
| C64 | alloca instruction loop on the RV64 machine | loop invariant |
| C65 | verror_at/display_width/decode_utf8 mutual recursion | first-invalid-byte argument |
| C66 | emit_text for all functions of a file: prologue, body, epilogue; calls between functions | C semantics of a program with objects created and ended per call; World of C38/C40 by induction over call depth; label uniqueness from C47 |
| C67 | pointers, declarator, abstract_declarator, type_suffix, func_params, array_dimension as functions on tokens | trees of the C11 grammar with their text and denoted type; completeness by mutual induction over trees, soundness by induction over fuel |
| C68 | initializer2 and its callees as functions on tokens, with struct Initializer as tree | the cursor of C11 6.7.9 as a path, moved by `next` and `resolve`; simulation by strong induction over the size of the list, inside it over the type; for flexible array members a loop that runs until the member has its length, in step with that of a structure with this length |
| C69 | stmt and compound_stmt as functions from tokens to statements, with the scopes as a state | an inductive grammar of statements; completeness by induction over derivations, soundness over the recursion bound |
| C70 | is_const_expr beside the folding of C42 | syntactic specification of lengths that look at objects; induction over expressions, value from C42 |
| C71 | get_struct_member and struct_ref on member lists with anonymous structures and unions | relation between names and members at summed offsets; induction over derivations; values by evalC of C38 |
| C72 | function bodies as written (Src): the statements of C40 with the expressions of C53 and C54, initialised variables, conversion of returned values | own semantics of bodies in terms of evalX; relation between a body and what the parser makes of it; simulation by induction on fuel and the relation; composed with C40; from tokens with the grammar of C69 and C43 and declarations of integers, pointers, arrays and typedef names (Src/Text), whose reading is proved complete |
| C73 | programs as written (Src/Prog*): functions of C72 calling each other, with the frames of C48; hidden variables are in the compiled frame only | own semantics of calls in which the place of local objects is universally quantified; simulation of calls by induction on their depth, with frame lemmas for both programs; composed with C66 |
| C74 | whole files from tokens (Src/Unit*): the loop of parser(), prototypes, function definitions, parameters, typedefs and variables of file scope, the variables a function makes in order, and the order of emission | a grammar of files with scopes; reading by induction on it; numbers of variables to offsets by counting named and hidden variables (C48); composed with C72 and C73 |
| C75 | from characters (Src/Chars*, Src/Predef): the 322 predefined macros, the keyword table (through the hash map of C01-C04), convert_pp_tokens, the files of -include, and cc1 from file contents to instructions | spellings and layout of tokens as a specification of texts; scanning by induction over the layout with the locality of the tokeniser (C60); preprocessing is the identity without macros and directives; composed with C09-C11, C17, C74 |
| C76 | controlling expressions (Src/If*): the oracle of C21 replaced by convert_pp_tokens, the parser of C43 and eval (C42), after read_const_expr, preprocess2 and the replacement of names by 0 | specification: defined, replacement of macros (C81), value in intmax_t arithmetic; the evaluator by induction over trees with types int and long, the expansion by C81; composed with C43 and C21 |
| C77 | generic_selection (Generic/*): the parser of assignment expressions (C43), is_compatible (C31), the conversion of arrays and functions to pointers; type names by an abstract reader as in C43 | specification: the grammar of 6.5.1.1 and the association selected for a type; induction over the list of associations |
| C78 | enum_specifier (Src/Text: enumLoop, specT), also as part of the declarations of C72-C75 | grammar and values of 6.7.2.2 as a relation between scopes; reading by induction on the list |
| C79 | cc1 from the bytes of files with object-like and function-like macros, #undef, #include, #pragma once and conditional sections (Pp and Src/Chars) | a relation that says what each group of lines outputs (Src/PreSpec), its layout in characters; induction over that relation |
| C80 | gen_expr, gen_addr, load, store, cast, cmp_zero for float and double operands (Fp/*), on top of Cg for integer subtrees; the operations of the floating-point unit are parameters (any `Fpu`), an IEEE instance from Lean's core library serves for concrete cases | value of an expression in C with conversions, operators in the precision of the type; simulation by induction over expressions as in C38, reusing its theorem for integer subtrees |
| C81 | expand_macro, subst, read_macro_args, preprocess2 (Pp) against C11 6.10.3 for object-like, function-like and variadic macros | a relation on lists of tokens (Src/MacSpec) that does not mention hidesets; induction over its derivations with an invariant that relates hidesets of tokens to the macros being replaced, also for arguments that are substituted (and expanded in place) more than once |
| C82 | print_dependencies, replace_extn, in_std_include_path, the array input_files (Driver/Deps) | specification of how make joins lines and reads rules (Driver/DepsSpec, with the names of C56); lemmas on joining and splitting, induction over the files |
| C83 | array_dimension, compute_vla_size, sizeof, new_add, new_sub on arrays of variable length; the code of their declaration (Vla) | types whose lengths are evaluated when a declaration is reached (Vla/Spec); induction over the type, with the simulation of C53/C54 for the lengths, C64 for the allocation, C38 for the machine |
| C84 | eval_double, eval2 on nodes with floating operands, the scalar part of write_gvar_data (FoldD), over the trees of C80 | value of the expression at run time (Fp/Spec); induction over expressions with C42 for integer subtrees; that IEEE arithmetic meets the one assumption made is proved from the definition of rounding (FoldD/Sane) |
| C85 | the atomic case of to_assign, ND_CAS, ND_EXCH and the loop around them (Atomic), on harts that share eight bytes and are interleaved instruction by instruction, with reservations and spurious failures of sc | the log of writes is a gapless history in which each finished thread has one write that applies its operator; invariant per thread (which shared access it is on its way to), preserved by every step of every thread |
| C86 | ND_CAS, ND_EXCH, and the loads and stores behind atomic_load and atomic_store, mixed with the assignments of C85, on the machine of C85 | one history of writes for all threads, each operation with the writes and result it should have; invariant per thread and operation |
| C87 | the part of gen_addr for global names with its three addressing sequences, as lines of text with labels and relocations; linker (fields of auipc, addi, ld, range check), loader (displacement, GOT, TLS descriptors) and the instructions | address for all layouts, displacements and places in a file; equal to the instruction `la` of the machine the other properties use |
| C88 | subst, paste, stringize (already in Pp/Model) against a specification of # and ## on spellings, with placemarkers and the GNU `, ## __VA_ARGS__` | induction over the parts of the replacement list, for any function that replaces arguments; instance for arguments without macro names |
| C89 | the handlers of predefined_macro.c, lineState, read_line_marker (already in Pp/Model) against a relation on source tokens with positions, presumed name and line offset | induction over that relation; every state has a table of meanings (`knows_meaning`); positions of tokens from C13 |
| C90 | emit_data, the head of emit_text, codegen and global_variable, line by line (Asm/Model), against an assembler with sections, labels, global and common symbols and a loader (Asm/Spec) | the lines of one object add exactly this object to the file (`chunk_adds`); induction over the objects in the order they are printed; contents through C51 (`emit_img`) |
| C91 | add_type, get_common_type, new_add, new_sub, unary and the callee of funcall as a function from expressions to types, diagnostics or a crash (Ety/Model), against a function that follows C11 6.5 (Ety/Spec) | structural induction over expressions; arithmetic through C30 |
| C92 | struct_members, attribute_list, struct_union_decl with braces over the declarators of C67 (Sdecl/Model), against trees of struct-declarations with their text and members (Sdecl/Spec) | induction over declarations and over declarators; converse by induction over fuel; composed with C33 and C35 |
| C93 | funcall over the function types of C67, with assign as an oracle (Call/Model), against the number of arguments and their conversions by index (Call/Spec) | induction over the arguments; converse by induction over fuel |
| C94 | prologue and epilogue as instructions on sp, fp, ra, fs, ft and the stack; an activation is a tree of straight code (any function on states), calls of compiled functions and of others (Abi/Model), assumptions on code and on other functions in Abi/Spec | induction over the tree of activations |
| C95 | gen_expr and gen_stmt to flat code with labels, as far as they use the operand stack and labels; operators and jump-free expressions are parameters (Stex/Model), an evaluator with break, continue and return as results (Stex/Spec) | labels distinct; simulation by induction over the steps of the evaluator |
| C96 | `__VA_OPT__` in subst and has_varargs (already in Pp/Model) against a specification on spellings that extends that of C88 (Pp/OptSpec) | induction over the parts of the replacement list, for any function that replaces arguments; instance for arguments without macro names |
| C97 | read_file over a stream that read(2) hands out in pieces of any size, with errors (Source/Read); the byte order mark and NUL bytes in tokenize_file (Source/Model) | induction over the number of bytes left |
| C98 | cc1 as the list of its effects on files, with results of opening and writing that the system chooses; what the compiler proper gives is a parameter (Driver/Out) | the effects on one file are none, or opening it and writing its text in pieces; cut at any point |
| C99 | the numbers of source files: every operation that makes or changes a `struct File` (reading, predefined macros, pasting and stringizing, #line), `.file` and `.loc` (Loc) | invariant over all histories of operations |

## Where what is modelled

Directory under `lean/Verif/` (property theorems in the files named `*Props.lean`, plus `Types/Arith`, `Types/Compat`,
`Types/Declspec`, `Fold/Const`, `Ip/Member`, `Pp/Incl`, `Pp/Hide`, `Lex/PrintSrc`):

| source | modelled | model | not modelled |
|----|----|----|----|
| hashmap.c, string.c, utils.c | hashmap.c and strarray_push; equal, error reports, align_to, llog2 | HashMap, Util, Report | hashmap self-test; `format` |
| unicode.c | all | Unicode | |
| tokenize.c | all passes from read_file's bytes to the token list; convert_pp_int; is_keyword and convert_pp_tokens (Src/Chars) | Source, Lex, Src | the value of floating constants (convert_pp_number); reading from stdin |
| preprocess.c, predefined_macro.c | all functions that work on tokens; the table of predefined macros | Pp, Src (Predef, Chars) | the texts of __DATE__ and __TIME__ are given; the constant expression of #if is an oracle in Pp, instantiated in Src/IfModel (C76) with the parser and evaluator of Parse and Fold |
| type.c | is_compatible, get_common_type, usual_arith_conv, add_type | Types, Low, Ety | VLA types, function types beyond compatibility |
| declarator.c | declspec (specifier lists), struct_members, attribute_list, struct_union_decl, struct_decl, union_decl, bit-field layout, tags; declarators; enumerations; sizes and declarations of variable-length arrays | Types, Layout, Sdecl, Decl, Src, Vla | typeof |
| parser.c, common.c, scope.c | expressions from tokens (Parse), trees built for operators, assignment, ++/--, pointer arithmetic (Low), constant folding and array lengths (Fold), member access (Ip/Member), _Generic (Generic), function bodies, programs and files from source to machine (Src), scopes (Scope), statements from tokens (Stx), goto and switch resolution (Stm), mark_live and scan_globals (Globals) | | declarations from tokens (beyond Decl and Src), builtins, asm, statement expressions, operands of floating types |
| initializer.c | image of static objects, assignments for local objects, reading of lists in braces | Init, Ip | structures with a flexible array member initialised without braces |
| codegen.c | gen_expr, gen_addr, load, store, cast for integer, pointer and struct operands; for float and double operands (Fp); calls; gen_stmt; frame layout; push_args and the prologue; alloca; long double register stack; emit_data, the heads of functions, codegen; whole files of functions | Rv (machine), Cg, Fp, Stm, Frame, Fn, Ld, Init, Asm, Whole | float and double in statements, arguments and results of calls; memory orders weaker than interleaving (Atomic), VLA (beyond Vla), asm, thread-local and PIC addresses |
| main.c | parse_args, quote_makefile, main's loop over inputs, temporary files, linker command line, print_tokens, print_dependencies | Driver, Lex/Print | what cc1 does inside the child process, the file search for crt1.o, fork/exec/wait themselves |

Simplifications are stated in the comment of each definition. The main ones:

* Lists instead of linked nodes. Where the code relinks nodes that are used again (the argument lists of macros), the
  model computes the relinked list; ghost flags `own` and `tail` of a token record which nodes belong to the list that
  was given to preprocess2 and which have been through it before. They do not influence the result outside strict mode.
* `Pp.Env.strict` makes the model of the preprocessor stop in the situations C22 does not cover. `Pp.pp_sim` proves that
  a strict run that does not stop there is a run of the code.
* Recursion that need not end is given fuel; `Pp.pp_mono` proves that more fuel does not change a result. Fuel in
  `Stm` counts steps in the same way.
* Memory is a function from 64-bit addresses to bytes; loads and stores never fault. The C semantics has its own
  notion of valid addresses; the theorems assume that the compiler's own stack area is not among them.
* Floating-point instructions (Fp/Machine) apply functions about which nothing is assumed; the C semantics applies the same ones.
  A conversion to an integer that does not fit leaves an unspecified value. A floating-point program does not contain the
  code of functions it calls.
* Library functions (soft-float, mkstemp, the assembler, make's reading of a rule) are uninterpreted or specified in
  the `*Spec.lean` files.

## Where the code does not have the property

Each of these is a theorem about the model with a concrete witness, listed under its property in MANIFEST.json (mostly
named `_violated` or `_wrong`). C37's is the exact characterisation `cast_correct_iff_partial`.

* C03 re-inserting after deletion resurrects an old value. C07 overlong and surrogate sequences accepted. C16 reads past a
  buffer without final newline. C17 0x0x1 accepted, overflow saturates, decimal constants from 2^63.
* C21 `#` alone followed by a line that begins with a directive's name; tokens after #endif and #else. C22 `#include name`
  with `name` not a macro never ends. C26 stringizing after expansion of the same argument. C27 u8 next to u literals.
  C28, C29 include guard detection, #include_next and the cache.
* C30 enum operands; C32 repeated `signed` or `unsigned`; C34 bit-fields in packed structs; C35 tags mentioned with the wrong keyword.
* C36 value of a bit-field assignment, _Bool fields; C37 eight conversions; C38 comparison of unsigned int, `<=` on
  unsigned long, `~` on narrow and unsigned operands, bit-fields not promoted, `?:` with omitted middle operand; C41 case constants; C42 folding of unsigned int and _Bool, division by zero executed; C43 unary plus, the left side of assignments; C44 five scope rules;
  C45 tentative definitions lost; C46 functions forgotten.
* C49 aggregates and long doubles in calls; C50 stack alignment; C51 static bit-fields, _Bool, unions, long double;
  C53 `b++` on _Bool; C54 `&array`; C55 nested long double operands; C63 immediates out of range; C64 alloca with struct arguments.
* C56 names with a backslash before `#` or at the end; C57 .s files not linked, linking with -c; C59 option parsing; C60 tokens of a macro expansion that run together;
  C65 messages about other files; C67 abstract function parameters, variable-length array parameters, negative lengths; C69 `asm` statements; C70 `%` in array lengths, lengths beyond int, comma operators; C71 members after an unnamed bit-field; C68 commas after nested
  designations, anonymous unions, trailing commas, union expressions, literals in braces, overridden lists, negative indices, an index in a flexible array member, a second literal for it; C76 arithmetic of #if in int and unsigned int; C77 variable-length arrays and qualifiers in _Generic; C78 the enumerator INT_MAX, values beyond int; C79 a macro that vanishes at the end of a line hides the directive after it; C80 && with an integer and a floating operand, floating values converted to _Bool and unsigned int, enumerations converted to floating types; C82 prerequisites are not quoted, -MP with -include makes the source file phony and leaves out the header; C83 sizes of variable-length arrays computed in int, differences of pointers to them; C84 comparisons and logical operators on floating constants, float constants not rounded to float, unsigned long beyond 2^63, conversion of long integers to float; C85 objects of other types than int (unsigned beyond 2^31, long, char and short), members, atomic_fetch_add, hidden variables far from fp; C86 exchanges on objects of one or two bytes, compare-and-exchange on long; C87 thread-local objects
without -fPIC (addressed relative to the pc instead of tp); C88 chains of ## that begin with two empty arguments, `x ## # p`,
## in object-like macros, operands of ## that have been replaced before, white space before pasted tokens; C89 the line after `#line n` is n + 1, `#line` inside a conditional
section is refused, `#line 010` is read as octal, __COUNTER__ in an argument that is used twice; C90 `extern int x = 5;` defines nothing, `int a[];` at file scope gives a text with a negative size; C91 `+c`, `~c`, `c << 1` are chars, narrow unsigned
bit-fields are not promoted to int, `(0, a)` and `&a` for arrays, `c ? s : s` for small structures, `c ? 0 : a`, null pointer constants and `void *` in conditionals, `&*v`; `1 - p`, `p + 1.5`, `s + 1`; C92 a flexible array member in the middle
(the next member lies before the structure), `struct { int; }`, `struct { int , a; }`, two members of one name, a width larger than its type, a weaker `_Alignas`; C93 `int f(); f(1)` is
rejected, arguments for parameters that are structures are not checked; C94 fs0-fs11 are saved in ft0-ft11, which every
compiled function overwrites and every other function may change: `4.0L + f()` where f computes `2.0L + g()`; C95 break and continue out of an operand
leave the operands before it on the stack, which grows in a loop, or makes an operator take the wrong operand; C96 parameters, # and ## inside `__VA_OPT__(…)` are not replaced,
`x ## __VA_OPT__(a)` pastes the name, arguments that become nothing count as arguments; C97 a read error is taken for the end of the file (a directory is an empty file),
what follows a NUL byte is ignored; C98 a failed write (a full disk) leaves a cut output and status 0. C98 supposes that
the dependency file is not the output; `-MD -E -o x.d` makes them the same (main.c:537-538);
C99 #line changes the line in `.loc` but not the file, pasted text is on line 1, predefined macros are in the first file, a file name with a quote or a backslash is not escaped in `.file`.

Found while reading, not proved: `/ ## /` makes paste dereference a null pointer; the contents of `__VA_OPT__` are inserted
without substitution of parameters; `__builtin_atomic_exchange` with an operand that is no pointer crashes the compiler
(type.c:490 uses cas_addr, which is null there); `sc.w.aq` (codegen.c:1379) has no release bit, so that writes before an atomic
assignment may become visible after it, which the model of C85 does not show; the prerequisites printed by print_dependencies are not quoted; a child process
parses `-S -o -x` differently from its parent; any function called `alloca` is taken for the builtin; parameters are
stored below sp before the frame is reserved; the lengths in a typedef are evaluated at each declaration that uses it, not at the typedef, and the array sizes stored
for earlier variables of that type are forgotten; arrays of variable length live until the function returns;
a statement expression whose last statement is not an expression has a null type, which crashes the compiler when it is used as an operand.

## Why C22 leaves out re-used arguments

preprocess2 is called on the list of an argument and relinks it. If the parameter occurs again, the second call runs on
the relinked list, in which the nodes after the first one passed through are results of the first call. Such a node can
lose part of its history: the hide set of a call is an intersection with that of its closing parenthesis, and after
relinking name and parenthesis may stem from different expansions. If the part that went through the first call has
nothing left to expand and no call reaches into it, the usual order works; this is checked by the strict mode.

## Testing the theorems

`seeded/LOG.jsonl` lists deliberate errors put into a copy of the model and the theorems that then fail to compile. Where `tightened` is not empty, the edit was
first accepted; the theorems named there were added or strengthened, and `theorems_failed` is what fails since then (empty if the second
run has a line of its own). First runs that were accepted were not always given their own line. Lines whose claim begins with "none" are edits that break no claim.

## Trusted base

Lean 4.33.0 kernel; axioms `propext`, `Classical.choice`, `Quot.sound` only (checked with `#print axioms` for each
theorem of MANIFEST.json; no `native_decide`, no `sorry`, no own axioms). Mathlib is not imported. The correspondence
between the Lean definitions and the C text is by reading (each definition cites its lines). The C host compiler, libc
(`strtoul`, `memcmp`, ...), assembler, linker and RISC-V hardware are modelled where cited and otherwise trusted.
Finite tables (all bytes, all pairs of types) are checked with `decide +kernel`, that is, by evaluation in the kernel.
