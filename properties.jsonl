{"id": "C01", "title": "Hash map: lookup after insertion, and no interference between keys", "statement": "After hashmap_put(m,k,v), hashmap_get(m,k) returns v; and a put or a delete of key k never changes what hashmap_get returns for any other key k2. This holds after every earlier sequence of puts and deletes on the map (collisions, tombstones and resizes included).", "quantifier": "every history of put/delete operations on an initially empty map, every pair of byte-string keys, every value", "why_tests_cant": "collisions, wrap-around probing, tombstones and rehash points depend on the whole history; no finite set of histories covers them", "anchors": ["hashmap.c:hashmap_get2", "hashmap.c:hashmap_put2", "hashmap.c:hashmap_delete2", "hashmap.c:rehash", "hashmap.c:get_or_insert_entry"]}
{"id": "C02", "title": "Hash map: without deletions it is exactly a finite map", "statement": "For a map that is only created, put to and read (scopes, keyword table, cast/typename tables, include caches), every get returns the value of the most recent put of that key and NULL when there was none, and no operation aborts (no failed assertion, no 'unreachable').", "quantifier": "every delete-free history, every key", "why_tests_cant": "needs an invariant over all insertion orders and resizes", "anchors": ["hashmap.c:hashmap_get2", "hashmap.c:hashmap_put2", "hashmap.c:rehash", "parser/scope.c:push_scope", "tokenize.c:is_keyword"]}
{"id": "C03", "title": "Hash map: a deleted key is absent", "statement": "After hashmap_delete(m,k) (used by #undef) hashmap_get(m,k) returns NULL until k is put again, and a put never aborts the compiler.", "quantifier": "every history of put/delete operations, every key", "why_tests_cant": "whether a key has a second, shadowed entry depends on the order in which colliding keys were inserted, deleted and overwritten", "anchors": ["hashmap.c:hashmap_delete2", "hashmap.c:get_or_insert_entry", "hashmap.c:rehash", "preprocessor/preprocess.c:undef_macro"]}
{"id": "C04", "title": "Hash map: probing always ends", "statement": "get, put and delete always terminate without reaching the 'unreachable' abort: the probe sequence of any key meets an empty slot or the key itself, since the table always keeps an empty slot.", "quantifier": "every history of put/delete operations, every key", "why_tests_cant": "an all-tombstone or full table would only appear after a long special history", "anchors": ["hashmap.c:get_entry", "hashmap.c:get_or_insert_entry", "hashmap.c:rehash"]}
{"id": "C05", "title": "String array: contents are exactly the pushed strings in order", "statement": "After any sequence of strarray_push calls, len is the number of pushes, data[0..len) are the pushed strings in push order, and every write is inside the allocated capacity.", "quantifier": "every sequence of pushes", "why_tests_cant": "growth happens at unboundedly many sizes", "anchors": ["string.c:strarray_push"]}
{"id": "C06", "title": "UTF-8 encoder and decoder are inverse", "statement": "For every code point c below 0x200000 (all of Unicode included), decode_utf8 applied to encode_utf8(c) followed by anything returns c and consumes exactly the bytes encode_utf8 produced; encode_utf8 writes between 1 and 4 bytes.", "quantifier": "every code point, every following byte string", "why_tests_cant": "2^21 code points times arbitrary continuations", "anchors": ["unicode.c:encode_utf8", "unicode.c:decode_utf8"]}
{"id": "C07", "title": "UTF-8 decoder accepts only well-formed sequences", "statement": "decode_utf8 either reports 'invalid UTF-8 sequence' or consumes 1-4 bytes that are the encoding of the returned code point.", "quantifier": "every byte string", "why_tests_cant": "unbounded set of inputs", "anchors": ["unicode.c:decode_utf8"]}
{"id": "C08", "title": "Identifier scanning is maximal and classifies by the C11 Annex D ranges", "statement": "read_ident returns the length of the longest prefix of the text that is an identifier (a start character followed by continue characters), 0 if there is none; the range search accepts a code point iff it lies in one of the listed ranges; each start character is also a continue character.", "quantifier": "every valid UTF-8 text", "why_tests_cant": "unbounded identifiers over all code points", "anchors": ["unicode.c:is_ident1", "unicode.c:is_ident2", "unicode.c:in_range", "tokenize.c:read_ident"]}
{"id": "C09", "title": "Newline canonicalisation", "statement": "canonicalize_newline turns each CR LF pair and each lone CR into one LF and keeps every other byte; the result has no CR, and a CR-free text is unchanged. The in-place rewrite never overtakes its read position.", "quantifier": "every NUL-terminated source text", "why_tests_cant": "all texts", "anchors": ["tokenize.c:canonicalize_newline"]}
{"id": "C10", "title": "Line splicing keeps physical line numbers", "statement": "remove_backslash_newline deletes each backslash-newline pair, leaves every other character in order, and keeps the number of newlines: each logical line that begins at an unspliced newline begins on the same line number afterwards. The in-place rewrite never overtakes its read position.", "quantifier": "every NUL-terminated source text", "why_tests_cant": "any number of splices in any positions", "anchors": ["tokenize.c:remove_backslash_newline"]}
{"id": "C11", "title": "Universal character names are replaced in place, safely and exactly", "statement": "convert_universal_chars replaces each \\uXXXX / \\UXXXXXXXX (not preceded by an escaping backslash, not denoting 0) with its UTF-8 encoding and copies everything else; the write position never passes the read position, and nothing is read beyond the terminating NUL.", "quantifier": "every source text produced by read_file and the previous phases", "why_tests_cant": "all texts; aliasing of read and write positions", "anchors": ["tokenize.c:convert_universal_chars", "tokenize.c:read_universal_char", "unicode.c:encode_utf8"]}
{"id": "C12", "title": "Tokenisation loses nothing", "statement": "The tokens produced for a text are disjoint, in order, each non-empty, each spelled exactly as the text at its position, and the gaps between them consist only of white space and comments; the list ends with one end-of-file token.", "quantifier": "every text the tokenizer accepts", "why_tests_cant": "unbounded texts", "anchors": ["tokenize.c:tokenize", "tokenize.c:new_token"]}
{"id": "C13", "title": "Token line numbers", "statement": "The line number stored in every token is one plus the number of newlines before its first character.", "quantifier": "every text, every token list in text order", "why_tests_cant": "unbounded texts", "anchors": ["tokenize.c:add_line_number"]}
{"id": "C14", "title": "Punctuators are matched by longest match", "statement": "read_punct returns the length of the longest punctuator of the language which is a prefix of the text, and 0 if none is (and the first character is not ASCII punctuation).", "quantifier": "every text", "why_tests_cant": "order of the internal table must be right for every text", "anchors": ["tokenize.c:read_punct"]}
{"id": "C15", "title": "Beginning-of-line and leading-space flags", "statement": "A token is flagged beginning-of-line iff it is the first of the buffer or a newline outside comments lies between the previous token and it; it is flagged has-space iff, since the last such newline, white space or a comment lies between the previous token and it.", "quantifier": "every text", "why_tests_cant": "directive recognition depends on it for all inputs", "anchors": ["tokenize.c:tokenize", "tokenize.c:new_token"]}
{"id": "C16", "title": "The tokenizer never reads past its buffer", "statement": "For every NUL-terminated buffer tokenize either returns a token list or reports an error, having read nothing after the terminating NUL.", "quantifier": "every NUL-terminated buffer, including those made from -D options and ## pasting", "why_tests_cant": "all buffers", "anchors": ["tokenize.c:tokenize", "tokenize.c:string_literal_end", "preprocessor/preprocess.c:paste", "main.c:define"]}
{"id": "C17", "title": "Integer constants have the C11 value and type", "statement": "convert_pp_int gives an integer constant the mathematical value of its digits and the first type of the C11 6.4.4.1 list (for its base and suffix) which can represent it; texts that are not integer constants are rejected.", "quantifier": "every integer constant below 2^64: every base, digit string and suffix spelling", "why_tests_cant": "2^64 values times suffixes times bases", "anchors": ["tokenize.c:convert_pp_int"]}
{"id": "C18", "title": "Escape sequences", "statement": "read_escaped_char returns the C value of simple, octal (1-3 digits) and hexadecimal escapes and stops just after the longest such sequence.", "quantifier": "every text after a backslash", "why_tests_cant": "unbounded hexadecimal escapes", "anchors": ["tokenize.c:read_escaped_char", "tokenize.c:from_hex"]}
{"id": "C19", "title": "String literals: contents and buffer safety", "statement": "Scanning a string literal stops at the first unescaped quote; the decoded contents are the concatenation of the decoded characters; the number of elements written including the terminator never exceeds the allocation.", "quantifier": "every string literal, narrow, UTF-16 and UTF-32", "why_tests_cant": "unbounded literals", "anchors": ["tokenize.c:string_literal_end", "tokenize.c:read_string_literal", "tokenize.c:read_utf16_string_literal", "tokenize.c:read_utf32_string_literal"]}
{"id": "C20", "title": "UTF-16 string literals encode each code point", "statement": "The code units stored for a code point up to U+10FFFF decode (by the standard UTF-16 decoding) to that code point, so the whole literal decodes to its sequence of code points.", "quantifier": "every sequence of code points up to U+10FFFF without surrogates", "why_tests_cant": "all strings over 0x110000 code points", "anchors": ["tokenize.c:read_utf16_string_literal"]}
{"id": "C21", "title": "Conditional inclusion selects exactly the right group", "statement": "For every nesting of #if/#ifdef/#ifndef/#elif/#else/#endif the output consists of exactly the groups C selects: in each section the first group whose condition holds, else the #else group, recursively; skipped groups are not evaluated; unbalanced directives are errors.", "quantifier": "every well-nested arrangement of conditional sections of any depth, every outcome of conditions", "why_tests_cant": "unbounded nesting", "anchors": ["preprocessor/preprocess.c:preprocess2", "preprocessor/preprocess.c:skip_cond_incl", "preprocessor/preprocess.c:skip_cond_incl2", "preprocessor/preprocess.c:push_cond_incl"]}
{"id": "C22", "title": "Macro expansion terminates", "statement": "Preprocessing of any finite token sequence with any finite set of object-like and function-like macros (recursive and mutually recursive ones included) terminates.", "quantifier": "every macro table, every token sequence", "why_tests_cant": "termination over all macro tables cannot be tested", "anchors": ["preprocessor/preprocess.c:preprocess2", "preprocessor/preprocess.c:expand_macro", "preprocessor/preprocess.c:subst"]}
{"id": "C23", "title": "A macro is not re-expanded inside its own expansion", "statement": "A token that carries a macro's name in its hide set is output unchanged; all tokens of the expansion of m carry m; for macros whose replacement mentions no other macro, the output is the replacement itself.", "quantifier": "every macro table, every token", "why_tests_cant": "all macro tables", "anchors": ["preprocessor/preprocess.c:hideset_contains", "preprocessor/preprocess.c:add_hideset", "preprocessor/preprocess.c:expand_macro"]}
{"id": "C24", "title": "Hide sets behave as sets", "statement": "union and intersection of hide sets have exactly the members of the mathematical union and intersection.", "quantifier": "every pair of hide sets, every name", "why_tests_cant": "all sets", "anchors": ["preprocessor/preprocess.c:hideset_union", "preprocessor/preprocess.c:hideset_intersection", "preprocessor/preprocess.c:hideset_contains"]}
{"id": "C25", "title": "Macro arguments are split at top-level commas", "statement": "read_macro_args splits the text between the parentheses at exactly the commas outside nested parentheses; each argument is the token sequence between them; the closing parenthesis found is the matching one; __VA_ARGS__ takes all the rest, commas included.", "quantifier": "every argument list with balanced parentheses, every number of parameters", "why_tests_cant": "unbounded nesting and lengths", "anchors": ["preprocessor/preprocess.c:read_macro_args", "preprocessor/preprocess.c:read_macro_arg_one"]}
{"id": "C26", "title": "Stringizing is inverse to string-literal reading", "statement": "The string token made by the # operator, read as a string literal, has exactly the characters of the argument's spelling (tokens separated by one space where the source had space).", "quantifier": "every argument token sequence", "why_tests_cant": "all spellings incl. quotes and backslashes", "anchors": ["preprocessor/preprocess.c:join_tokens", "preprocessor/preprocess.c:quote_string", "tokenize.c:read_string_literal"]}
{"id": "C27", "title": "Adjacent string literals are concatenated", "statement": "A run of adjacent string literals becomes one literal whose elements are those of the pieces in order with a single terminator, and whose element type is that of the prefixed pieces; mixing different prefixes is rejected; no byte is written outside the new buffer.", "quantifier": "every run of adjacent literals", "why_tests_cant": "all runs and prefixes", "anchors": ["preprocessor/preprocess.c:join_adjacent_string_literals", "preprocessor/preprocess.c:getStringKind"]}
{"id": "C28", "title": "Include-guard optimisation is invisible", "statement": "Skipping a file because of a detected include guard never changes the token output compared with reading the file again.", "quantifier": "every file, every macro state", "why_tests_cant": "all file texts", "anchors": ["preprocessor/preprocess.c:detect_include_guard", "preprocessor/preprocess.c:include_file"]}
{"id": "C29", "title": "Include search order", "statement": "A quoted include finds the file in the includer's directory first, then in the search directories in command-line order; the result of a search does not depend on earlier searches of the same name (cache), and #include_next continues after the directory in which the current search succeeded.", "quantifier": "every search path list, every sequence of includes", "why_tests_cant": "histories of lookups", "anchors": ["preprocessor/preprocess.c:search_include_paths", "preprocessor/preprocess.c:search_include_next", "main.c:add_default_include_paths"]}
{"id": "C30", "title": "Usual arithmetic conversions", "statement": "The common type of two arithmetic operands is the one C11 6.3.1.8 prescribes (LP64), whichever the order of the operands.", "quantifier": "every pair of arithmetic types", "why_tests_cant": "must agree with the standard on each pair and be symmetric", "anchors": ["type.c:get_common_type", "type.c:usual_arith_conv"]}
{"id": "C31", "title": "Type compatibility is an equivalence", "statement": "is_compatible is reflexive and symmetric on types the parser can build, and compatible types have equal structure (used by _Generic and __builtin_types_compatible_p).", "quantifier": "every pair of types of any depth", "why_tests_cant": "types nest without bound", "anchors": ["type.c:is_compatible"]}
{"id": "C32", "title": "Declaration specifiers may come in any order", "statement": "The type denoted by a list of type-specifier keywords depends only on the multiset of the keywords, equals the C11 6.7.2 table entry, and lists not in the table are rejected.", "quantifier": "every list of type-specifier keywords of any length", "why_tests_cant": "all permutations and lengths", "anchors": ["parser/declarator.c:declspec"]}
{"id": "C33", "title": "Struct layout", "statement": "In a (non-packed) struct every member is aligned to its alignment, members do not overlap and appear in order, each offset is the smallest possible, and the size is the smallest multiple of the struct's alignment holding all members; packed structs have no padding.", "quantifier": "every list of members with any sizes and power-of-two (or any positive) alignments", "why_tests_cant": "all member lists", "anchors": ["parser/declarator.c:struct_decl", "codegen.c:align_to"]}
{"id": "C34", "title": "Bit-field layout", "statement": "Every bit-field lies inside one storage unit of its declared type, which is aligned and inside the struct; no two members share a bit; zero-width fields close the unit.", "quantifier": "every mixture of bit-fields and ordinary members", "why_tests_cant": "all member lists", "anchors": ["parser/declarator.c:struct_decl", "parser/declarator.c:align_down"]}
{"id": "C35", "title": "Union layout and re-declaration", "statement": "A union is as large and as aligned as its largest and most aligned member with all offsets zero; mentioning a complete struct/union type again never changes its layout.", "quantifier": "every member list", "why_tests_cant": "all member lists", "anchors": ["parser/declarator.c:union_decl", "parser/declarator.c:struct_decl", "parser/declarator.c:struct_union_decl"]}
{"id": "C36", "title": "Bit-field assignment and read-back", "statement": "After code generated for s.f = v, reading s.f gives v reduced to the width of the field (sign- or zero-extended according to its type); every bit outside the field is unchanged; the value of the assignment expression is that reduced value.", "quantifier": "every width, bit offset, storage-unit contents and assigned value", "why_tests_cant": "2^64 contents times values times fields", "anchors": ["codegen.c:gen_expr", "codegen.c:load", "codegen.c:store"]}
{"id": "C37", "title": "Conversions between integer types", "statement": "The instructions emitted for a cast between integer types turn the register representation of a value into the register representation of the converted value (C11 6.3.1.3, two's complement).", "quantifier": "every pair of integer types, every value", "why_tests_cant": "2^64 values times type pairs", "anchors": ["codegen.c:cast", "codegen.c:cast_matrix", "codegen.c:getTypeId"]}
{"id": "C38", "title": "Compiled integer expressions compute the C value", "statement": "Running the code generated for an integer expression leaves the register representation of its C value in a0, memory below the stack pointer aside leaves memory as C prescribes, and restores the stack pointer.", "quantifier": "every expression tree over integer constants, local variables, casts, arithmetic, comparison, logical, conditional, comma and assignment operators; every initial memory", "why_tests_cant": "all expression trees and values", "anchors": ["codegen.c:gen_expr", "codegen.c:push", "codegen.c:pop", "codegen.c:load", "codegen.c:store", "type.c:add_type"]}
{"id": "C39", "title": "Stack discipline of generated code", "statement": "Code generated for any expression or statement leaves the compile-time depth counter as it was (so the compiler's own assertions hold) and the run-time stack pointer as it was.", "quantifier": "every expression/statement tree", "why_tests_cant": "all trees", "anchors": ["codegen.c:gen_expr", "codegen.c:gen_stmt", "codegen.c:push_args"]}
{"id": "C40", "title": "Compiled statements follow C control flow", "statement": "Running the code generated for if, for, while, do, block, expression statements, break and continue performs the effects of the C semantics in order, and terminates exactly when the C program does.", "quantifier": "every statement tree, every execution (terminating or not)", "why_tests_cant": "all programs and executions", "anchors": ["codegen.c:gen_stmt", "codegen.c:gen_expr"]}
{"id": "C41", "title": "switch dispatch", "statement": "switch jumps to the case whose value or range contains the controlling value (converted as C prescribes), to default when there is none, and past the statement if there is no default.", "quantifier": "every list of disjoint cases and ranges, every controlling value", "why_tests_cant": "2^64 values times case lists", "anchors": ["codegen.c:gen_stmt", "parser/parser.c:stmt"]}
{"id": "C42", "title": "Constant expressions are folded to their C value", "statement": "The compile-time evaluator gives every integer constant expression the value C prescribes for its type, so that a constant used in an array bound, case label, enumerator or static initialiser is the value the same expression has at run time; undefined operations are diagnosed.", "quantifier": "every constant expression tree", "why_tests_cant": "all trees", "anchors": ["parser/common.c:eval2", "parser/common.c:eval"]}
{"id": "C43", "title": "Operator precedence and associativity", "statement": "Tokens that C's grammar of expressions derives are parsed as the tree of the derivation, with any redundant parentheses, and the parser stops right after them; so the grammar is unambiguous. Tokens that are accepted are derived by the grammar.", "quantifier": "every derivation of C's grammar of expressions and everything that follows it; every token sequence", "why_tests_cant": "all trees", "anchors": ["parser/parser.c:assign", "parser/parser.c:conditional", "parser/parser.c:logor", "parser/parser.c:add", "parser/parser.c:mul", "parser/parser.c:unary"]}
{"id": "C44", "title": "Scoping", "statement": "An identifier refers to the innermost enclosing declaration that precedes the use; leaving a block restores every binding of the enclosing scope; variable and tag name spaces are independent.", "quantifier": "every sequence of enter/leave/declare/lookup operations", "why_tests_cant": "all histories", "anchors": ["parser/scope.c:enter_scope", "parser/scope.c:leave_scope", "parser/scope.c:find_var", "parser/scope.c:find_tag", "parser/scope.c:push_scope"]}
{"id": "C45", "title": "Tentative definitions", "statement": "After the end of a translation unit each object defined tentatively one or more times, with or without a real definition, has exactly one definition emitted; non-tentative objects are all kept.", "quantifier": "every list of global declarations", "why_tests_cant": "all lists", "anchors": ["parser/scope.c:scan_globals"]}
{"id": "C46", "title": "Only and all reachable static functions are emitted", "statement": "A function is emitted iff it is non-static(-inline) root or reachable from a root through references.", "quantifier": "every reference graph", "why_tests_cant": "all graphs, including cycles", "anchors": ["parser/parser.c:mark_live", "parser/parser.c:parser", "codegen.c:emit_text"]}
{"id": "C47", "title": "Labels are unique and gotos reach their label", "statement": "All generated labels and anonymous symbols are pairwise distinct and cannot clash with C identifiers; every goto jumps to the label of that name in the same function, undefined labels are diagnosed.", "quantifier": "every program", "why_tests_cant": "unbounded number of labels", "anchors": ["parser/common.c:new_unique_name", "codegen.c:count", "parser/parser.c:resolve_goto_labels"]}
{"id": "C48", "title": "Frame layout", "statement": "Local variables and register parameters get pairwise disjoint slots inside the frame allocated by the prologue, at multiples of their alignment from the frame pointer; stack parameters get disjoint slots in the caller's area.", "quantifier": "every list of locals and parameters", "why_tests_cant": "all lists of sizes and alignments", "anchors": ["codegen.c:assign_lvar_offsets"]}
{"id": "C49", "title": "Caller and callee agree on argument locations", "statement": "Each argument of a (non-variadic) call is put by the caller in the register or stack slot from which the callee, compiled by the same compiler, reads the corresponding parameter.", "quantifier": "every list of argument types", "why_tests_cant": "all signatures", "anchors": ["codegen.c:push_args", "codegen.c:push_args2", "codegen.c:gen_expr", "codegen.c:assign_lvar_offsets", "codegen.c:emit_text"]}
{"id": "C50", "title": "The stack pointer is 16-byte aligned at calls", "statement": "Whenever generated code calls a function the stack pointer is a multiple of 16, as the RISC-V ABI demands, provided it was at function entry.", "quantifier": "every function and every call in it", "why_tests_cant": "all frames and expression depths", "anchors": ["codegen.c:push_args", "codegen.c:emit_text", "codegen.c:assign_lvar_offsets"]}
{"id": "C51", "title": "Static initialisers produce the C object image", "statement": "The bytes (and relocations) emitted for an initialised global are, for every scalar sub-object with an initialiser, the little-endian encoding of the converted value at the offset of the sub-object, and zero elsewhere; exactly sizeof bytes are emitted.", "quantifier": "every initialiser tree for every layout", "why_tests_cant": "all types and initialisers", "anchors": ["parser/initializer.c:write_gvar_data", "parser/initializer.c:gvar_initializer", "codegen.c:emit_data"]}
{"id": "C52", "title": "Local initialisers", "statement": "After the code generated for T x = {...} each sub-object with an initialiser has its value and every other byte of x is zero.", "quantifier": "every initialiser tree", "why_tests_cant": "all types and initialisers", "anchors": ["parser/initializer.c:lvar_initializer", "parser/initializer.c:create_lvar_init"]}
{"id": "C53", "title": "Compound assignment and ++/-- evaluate the operand once", "statement": "A op= B, ++A, --A, A++, A-- evaluate the operand lvalue exactly once, store the converted result, and have the C value.", "quantifier": "every operand and every operator", "why_tests_cant": "all operands with side effects", "anchors": ["parser/parser.c:to_assign", "parser/parser.c:new_inc_dec"]}
{"id": "C54", "title": "Pointer arithmetic scales by the element size", "statement": "p+n, n+p, p-n move by n elements; p-q for pointers n elements apart is n.", "quantifier": "every pointer value, element size and index", "why_tests_cant": "2^64 values", "anchors": ["parser/parser.c:new_add", "parser/parser.c:new_sub"]}
{"id": "C55", "title": "Long double evaluation stack", "statement": "Nested long double arithmetic passes each operand to the soft-float routine in the argument registers of the ABI, in the right order.", "quantifier": "every long double expression tree", "why_tests_cant": "all trees", "anchors": ["codegen.c:push_ld", "codegen.c:pop_ld", "codegen.c:gen_expr"]}
{"id": "C56", "title": "Makefile quoting", "statement": "quote_makefile writes within its buffer, and GNU make's unquoting of the result gives back the original string.", "quantifier": "every target name", "why_tests_cant": "all strings", "anchors": ["main.c:quote_makefile"]}
{"id": "C57", "title": "Driver: which tools run on which files", "statement": "For each input the driver runs exactly the phases that the file type and -E/-S/-c/-o options ask for, then links all objects once when not told otherwise; a failing phase stops the run with failure.", "quantifier": "every list of inputs and options, every outcome of sub-processes", "why_tests_cant": "all command lines and failure points", "anchors": ["main.c:main", "main.c:run_subprocess", "main.c:get_file_type", "main.c:replace_extn"]}
{"id": "C58", "title": "Driver: temporary files are removed", "statement": "However the driver process terminates through exit (success, error, failing sub-process), all temporary files it created are removed.", "quantifier": "every command line, every exit point", "why_tests_cant": "all crash points", "anchors": ["main.c:create_tmpfile", "main.c:cleanup"]}
{"id": "C59", "title": "Driver: options are order-independent lists", "statement": "Every documented option is parsed with its argument in both the joined and the separated spelling, -I directories are searched in command-line order before the system directories, and an option missing its argument is diagnosed.", "quantifier": "every argv", "why_tests_cant": "all command lines", "anchors": ["main.c:parse_args", "main.c:take_arg", "main.c:add_default_include_paths"]}
{"id": "C60", "title": "-E output re-tokenises to the same tokens", "statement": "The text printed by -E, tokenised again, gives the same sequence of token spellings.", "quantifier": "every token list the preprocessor can produce", "why_tests_cant": "all adjacent token pairs", "anchors": ["main.c:print_tokens", "tokenize.c:tokenize"]}
{"id": "C61", "title": "Alignment helpers", "statement": "align_to returns the least multiple of the alignment not below n, align_down the greatest not above n; llog2 returns k exactly for 2^k and reports an error for other numbers above one.", "quantifier": "every non-negative n, every positive alignment", "why_tests_cant": "all integers", "anchors": ["codegen.c:align_to", "parser/declarator.c:align_down", "utils.c:llog2"]}
{"id": "C62", "title": "Token comparison", "statement": "equal(tok,s) holds iff the token's spelling is exactly s; skip accepts exactly that token.", "quantifier": "every token, every string", "why_tests_cant": "all strings", "anchors": ["utils.c:equal", "utils.c:skip"]}
{"id": "C63", "title": "Emitted immediates are encodable", "statement": "Every load, store or addi emitted with a constant offset has an offset in the 12-bit range accepted by the assembler.", "quantifier": "every frame size and member offset", "why_tests_cant": "all sizes", "anchors": ["codegen.c:beyond_instruction_offset", "codegen.c:gen_addr", "codegen.c:store_args"]}
{"id": "C64", "title": "alloca", "statement": "alloca(n) returns a block of at least n bytes, disjoint from the frame, earlier blocks and live temporaries, whose contents survive; temporaries keep their values.", "quantifier": "every sequence of alloca calls and temporaries", "why_tests_cant": "all run-time sizes", "anchors": ["codegen.c:builtin_alloca"]}
{"id": "C65", "title": "Error reports terminate", "statement": "Reporting an error at any position of any buffer terminates, even if the line contains invalid UTF-8, and shows the line that contains the position.", "quantifier": "every buffer and position", "why_tests_cant": "mutual recursion between the decoder and the reporter", "anchors": ["utils.c:verror_at", "unicode.c:display_width", "unicode.c:decode_utf8"]}
{"id": "C66", "title": "Whole programs of functions", "statement": "In a program of several functions that call each other and themselves, calling any function does what C says: when the C call is defined and returns, the emitted text of the whole file, entered at the label of the function with the arguments where the calling convention puts them, gets back to the return address with the returned value in a0, the memory of all live objects as in C, sp and fp as before, and nothing else in memory changed but the free part of the stack.", "quantifier": "every set of function definitions, every recursion depth, all arguments and memories", "why_tests_cant": "induction over the depth of calls; every call interacts with frames, saved registers and temporaries of all callers", "anchors": ["codegen.c:emit_text", "codegen.c:gen_stmt", "codegen.c:gen_expr", "codegen.c:assign_lvar_offsets", "codegen.c:store_args", "parser/parser.c:function"]}
{"id": "C67", "title": "Declarators", "statement": "A declarator of any nesting (pointers with qualifiers, parentheses, arrays, functions with parameter lists) is read to its end and declares the name with the type that C11 6.7.6 gives it, with parameters of array and function type adjusted; whatever is accepted is a declarator of the grammar with that meaning.", "quantifier": "every declarator and abstract declarator, every base type, every token list", "why_tests_cant": "declarators nest without bound, and the inside of a parenthesis is read twice, before and after what follows it", "anchors": ["parser/declarator.c:declarator", "parser/declarator.c:abstract_declarator", "parser/declarator.c:pointers", "parser/declarator.c:type_suffix", "parser/declarator.c:func_params", "parser/declarator.c:array_dimension"]}
{"id": "C68", "title": "Which subobject an initialiser sets", "statement": "For every object of array, structure, union or scalar type, nested to any depth, and every initialiser for it - lists with all, some or none of the inner braces, designations of elements and members through any number of levels, string literals, expressions of structure type, a comma at the end -, each subobject gets the expression that C11 6.7.9 assigns to it by the rules for the current subobject, subobjects that are not mentioned stay without one, an array of unknown length is as long as the largest index initialised asks for, so is a flexible array member that ends the structure, whose object is larger by that much, and the initialiser is read to its end.", "quantifier": "all types (any nesting), all initialisers of the grammar (any length and nesting), all expressions in them", "why_tests_cant": "There are unboundedly many types and, for each, unboundedly many ways to leave out braces and to move the current subobject by designations; tests sample a few shapes.", "anchors": ["parser/initializer.c: initializer, initializer2, array_initializer1, array_initializer2, struct_initializer1, struct_initializer2, union_initializer, designation, array_designator, struct_designator, string_initializer, count_array_init_elements"]}
{"id": "C69", "title": "Statements are read by the C grammar", "statement": "The tokens of every statement of C11 6.8 (with GNU case ranges and computed goto), nested to any depth, are read to their end as that statement: an else belongs to the nearest if that has none, the statement after a label, a case or a loop header is the whole next statement, a name followed by a colon is a label even if it is a typedef name, a block item is a declaration exactly when it begins with a type name of the scope at that point, and the scopes opened by blocks and for statements are closed again. What is accepted is a statement of the grammar, and no text has two readings.", "quantifier": "All statements of any size and nesting, all texts of their expressions and declarations, all scopes, and all tokens that follow.", "why_tests_cant": "Statements nest without bound, and the reading of an else, a label or a type name depends on everything around it; tests sample a few shapes.", "anchors": ["parser/parser.c: stmt, compound_stmt, expr_stmt, asm_stmt, get_ident"]}
{"id": "C70", "title": "An array has the length its brackets say", "statement": "An array declared with an integer constant expression of value n as its length is an array of n elements, known at compile time; one whose length looks at a variable, an object or the result of a call is a variable-length array whose length is computed when the declaration is reached; an array of variable-length arrays is one too. No array length makes the compiler report that something is not a constant.", "quantifier": "All expressions built from integer constants, variables, members, casts, calls and the C operators, of any size.", "why_tests_cant": "Whether a length is a constant is decided by a second recursive walk over the expression, separate from the evaluation; the two must agree on every expression, not only on those a test happens to use.", "anchors": ["parser/declarator.c: is_const_expr, array_dimension", "type.c: array_of, vla_of", "parser/common.c: eval"]}
{"id": "C71", "title": "A member access reaches the member of that name", "statement": "For a structure or union with distinct member names, including those of anonymous structures and unions nested in it to any depth, s.x and p->x denote the member called x: the object at its offset from the start of the whole, with its type and, for a bit-field, its bits, for reading, for taking the address and for assignment. A name that no member has, and a member of something that is not a structure or union, are diagnosed.", "quantifier": "All structure and union types of any size and nesting, all names, all expressions before the dot.", "why_tests_cant": "Anonymous members make the search recursive, and the offsets of all enclosing levels have to be added up; the number of shapes is unbounded.", "anchors": ["parser/parser.c: get_struct_member, struct_ref, postfix", "parser/declarator.c: struct_members"]}
{"id": "C72", "title": "A function body does what C prescribes for its source", "statement": "The machine code of a function body, run with the objects of the program in memory, does what the C standard prescribes for the body as it is written: with its compound assignments, increments, pointer arithmetic, implicit conversions, initialised variables, loops, switches, gotos and the conversion of the returned value. It ends with the values C prescribes in all objects and the returned value in the result register if the body ends, and it runs forever if the body does.", "quantifier": "All typed function bodies of any size and nesting with integer and pointer expressions, all initial memories, all numbers of iterations.", "why_tests_cant": "Loops and gotos make the number of executions unbounded, and the rewriting into hidden variables must be right at every place of every body.", "anchors": ["parser/parser.c: stmt, compound_stmt, to_assign, new_inc_dec, new_add, new_sub", "parser/declarator.c: declaration", "parser/initializer.c: lvar_initializer", "codegen.c: gen_stmt, gen_expr"]}
{"id": "C73", "title": "A program of several functions does what C prescribes for its source", "statement": "Calling a function of a compiled file with arguments yields the value and leaves the objects that the C standard prescribes for the functions as they are written, also when they call each other or themselves, whenever C prescribes a result that does not depend on where local variables are or on what they contain before they are set. The call returns to its caller with the stack pointer and the frame pointer as before, and changes nothing but the objects of the program and the free part of the stack; how much of the stack it needs is the depth of the calls times the need of one call.", "quantifier": "All files of functions with typed bodies, integer and pointer parameters and results; all arguments and initial memories; any depth of calls.", "why_tests_cant": "Recursion makes the number of frames unbounded; the hidden variables the compiler adds must be apart from all objects in every frame, and nothing the program does may depend on them.", "anchors": ["parser/parser.c: function, create_param_lvars, to_assign, funcall", "codegen.c: assign_lvar_offsets, emit_text, push_args, gen_expr"]}
{"id": "C74", "title": "A file is compiled from its tokens to what C prescribes", "statement": "A sequence of tokens that is the text of a C file (typedefs, variables, prototypes and function definitions) is accepted; the functions defined are those written. Every use of a local variable refers to the declaration C prescribes and has its type; in the frame of the function different variables are at different places, of the size of their types, and the parameters are where the arguments are stored. The emitted text contains every function, and calling one does on the machine what C prescribes for the file.", "quantifier": "All files of the covered grammar, of any length, nesting and number of functions and variables; all arguments and memories.", "why_tests_cant": "The number of declarations, scopes and hidden variables is unbounded, and a confusion of two variables shows only in functions where both are live.", "anchors": ["parser/parser.c: parser, function, create_param_lvars, is_function, global_variable", "parser/declarator.c: func_params, parse_typedef, declaration", "parser/scope.c: new_lvar, find_var, find_func", "codegen.c: assign_lvar_offsets, emit_text"]}
{"id": "C75", "title": "Source files are compiled from their characters to what C prescribes", "statement": "Whatever white space, comments and line splices are between the tokens, the parser is given exactly the tokens written in the files of the options -include, in their order, followed by those of the source file: words that are keywords as keywords, other words as identifiers, constants with their values. No word is taken for a predefined macro except unix, linux and words that begin with an underscore. Calling a function of the compiled file does on the machine what C prescribes for that text.", "quantifier": "All texts of the covered tokens, of any length and layout; all numbers of included files; all arguments and memories.", "why_tests_cant": "The set of texts is infinite, and a keyword, macro name or layout that is mistreated shows only in the texts that have it.", "anchors": ["main.c: cc1, append_tokens, must_tokenize_file", "tokenize.c: tokenize_file, tokenize, is_keyword, convert_pp_tokens, convert_pp_number", "preprocessor/preprocess.c: preprocessor", "preprocessor/predefined_macro.c: init_macros, define_macro, add_builtin"]}
{"id": "C76", "title": "#if and #elif are decided by the value C prescribes for their expression", "statement": "The group after an #if or #elif line is taken exactly if the expression on the line has a value other than 0, where defined X and defined(X) are 1 if X is the name of a macro and 0 otherwise, macros are expanded, names and keywords that are left are 0, operators have the precedence they have in C, and all arithmetic is that of intmax_t.", "quantifier": "All expressions, of any length and depth; all sets of macros, also macros that mention each other or themselves; all nestings of sections around the line.", "why_tests_cant": "Expressions and sets of macros are unbounded; a wrong type, precedence or expansion shows only for particular values and shapes.", "anchors": ["preprocessor/preprocess.c: eval_const_expr, read_const_expr, new_num_token, expand_macro", "tokenize.c: convert_pp_tokens", "parser/parser.c: const_expr, conditional", "parser/common.c: eval2"]}
{"id": "C77", "title": "_Generic selects the association with the type of its controlling expression", "statement": "_Generic(e, T1: e1, ..., Tn: en) is the ei whose Ti is the type of e, arrays and functions being converted to pointers; if there is none it is the expression after default, wherever default stands in the list; if there is no default either, an error is reported.", "quantifier": "All controlling expressions and types, all lists of associations of any length and order.", "why_tests_cant": "Lists of associations and types are unbounded; the place of default and derived types matter only for particular lists.", "anchors": ["parser/parser.c: generic_selection", "type.c: is_compatible"]}
{"id": "C78", "title": "Enumerators have the values C gives them", "statement": "In an enumeration an enumerator with an expression has the value of the expression, in which the enumerators before it can be used; without one it is 0 if it is the first, and else one more than the enumerator before it. The names are constants of type int from then on to the end of their block, and the tag names the type; a tag that has not been defined is reported. A value that does not fit in an int is reported.", "quantifier": "All lists of enumerators of any length, with and without a comma at the end, with and without a tag; all expressions; all scopes around.", "why_tests_cant": "Lists are unbounded, and values depend on all enumerators before.", "anchors": ["parser/declarator.c: enum_specifier", "parser/common.c: consume_end", "parser/scope.c: push_scope, push_tag_scope, find_tag"]}
{"id": "C79", "title": "Source files with directives mean what C says", "statement": "If the source file and the files it includes contain #define and #undef of object-like and function-like macros, #include, #pragma once and conditional sections, then the parser is given the tokens C prescribes: lines of text with macros expanded as they are defined at that place, included files in the place of the directive (once if they say so or are guarded), and of each section the first group whose condition holds, or the #else group; the rest is not looked at. The program these tokens spell is what the machine executes.", "quantifier": "All files of any length, any nesting of sections and of included files, any layout in characters, any sets of macros, also macros that mention each other or themselves; all arguments and memories.", "why_tests_cant": "The set of texts is infinite; the effect of a directive depends on everything before it, in all files read so far.", "anchors": ["main.c: cc1, append_tokens", "preprocessor/preprocess.c: preprocess2, read_macro_definition, include_file, detect_include_guard, read_include_filename, search_include_paths, skip_cond_incl, expand_macro, eval_const_expr", "tokenize.c: tokenize_file, tokenize, convert_pp_tokens"]}
{"id": "C80", "title": "Expressions with floating operands have the value C prescribes", "statement": "The code of an expression over float, double and integer objects leaves the value C prescribes in fa0 (floating type) or a0 (integer type): arithmetic and comparisons in the precision of the operands' type, conversions between floating and integer types by truncation and rounding of the floating-point unit, negation, assignment, ?:, !, && and || with the comparison against zero of the operand's type. Objects C does not change keep their values, and sp and fp are restored.", "quantifier": "All expressions of any size and nesting, all values of the objects including NaNs, infinities and both zeros, all memories, and any floating-point arithmetic of the machine.", "why_tests_cant": "The set of expressions is infinite and there are 2^64 values of each double; the value in fa0 survives nested evaluation only by the stack discipline.", "anchors": ["codegen.c: gen_expr, gen_addr, load, store, cast, cmp_zero, __push, __pop", "type.c: add_type"]}
{"id": "C81", "title": "Macros are replaced by what C prescribes", "statement": "A list of tokens with names of object-like and function-like macros becomes the list C prescribes: a name of an object-like macro is replaced by its replacement list; a name of a function-like macro followed by a parenthesis is replaced, with its arguments, by the replacement list in which the parameters are replaced by the arguments, which are completely replaced first; arguments end at commas outside of inner parentheses and may span lines; the remaining arguments of a variadic macro, with their commas, replace __VA_ARGS__ (or the name before the ellipsis); the result is scanned again, without replacing the macro that is being replaced; other tokens stay as they are. The result does not depend on the layout.", "quantifier": "All lists of tokens, all sets of macros (any numbers of parameters, replacement lists of any length that mention each other or themselves), any nesting of calls, any number of uses of a parameter.", "why_tests_cant": "Calls nest without bound, and hidden names and expanded arguments affect only what comes after them.", "anchors": ["preprocessor/preprocess.c: expand_macro, subst, read_macro_args, read_macro_arg_one, preprocess2, add_hideset, hideset_intersection"]}
{"id": "C82", "title": "make reads the dependencies toycc writes as a rule on the input files", "statement": "The text written for -M, -MD or -MMD is read by make as one rule: its target is the object file of the source file, or what -MT gives, and its prerequisites are exactly the files that were read, in that order, without those beneath the standard include directories if -MMD is given. With -MP there is in addition a rule without prerequisites for each of the files except the source file. It is written to the file of -MF, else with -MD to the file named like the output with extension .d, else to the output.", "quantifier": "All lists of files of any length and names, all standard directories and combinations of options.", "why_tests_cant": "Names and lists are unbounded; a name that needs quoting shows only when such a file is included.", "anchors": ["main.c: print_dependencies, replace_extn, in_std_include_path, open_file", "tokenize.c: tokenize_file, new_file, get_input_files"]}
{"id": "C83", "title": "Arrays of variable length have the length given when their declaration was reached", "statement": "When the declaration of an array of variable length, or of a pointer to one, is reached, each of its lengths is evaluated exactly once, and memory for an array of exactly that size is allocated, apart from all other objects. From then on, whatever happens to the variables in the lengths, sizeof gives that size, and subscripts and pointer arithmetic step by the sizes of the elements. The difference of two pointers to such arrays is the number of elements between them.", "quantifier": "All types of any depth built from arrays of variable length and pointers, all length expressions, all memories, all positions in a program.", "why_tests_cant": "The sizes depend on values at run time and on everything that happens between the declaration and the use.", "anchors": ["parser/declarator.c: array_dimension, compute_vla_size, new_alloca, new_vla_ptr, declaration", "parser/parser.c: primary, new_add, new_sub", "codegen.c: gen_addr, gen_expr, builtin_alloca"]}
{"id": "C84", "title": "Floating constants in static initialisers have the value the expression has at run time", "statement": "A constant expression with operands of floating type, as the initialiser of a static object, is evaluated by the compiler to the value the compiled expression would have: the operators work in the precision of their types, constants and casts are rounded to their types, conversions between integers and floating types keep the value or round once, comparisons and logical operators look at the floating values. The object holds that value converted to its type. Objects of floating type in such expressions are diagnosed.", "quantifier": "All constant expressions of any depth, all constants, all types of the object, any floating-point arithmetic that does not convert non-zero integers to zero (IEEE is one).", "why_tests_cant": "Expressions and constants are unbounded, and errors show only for particular values (rounding, large integers).", "anchors": ["parser/common.c: eval_double, eval2, eval", "parser/initializer.c: write_gvar_data"]}
{"id": "C85", "title": "Atomic compound assignment is indivisible", "statement": "However many threads execute `A op= B` for the same atomic object A, and however they are interleaved, each assignment that ends has replaced the value of the object once, by the result of applying its operator to the value the object had at that moment, and gives the value it wrote as its result. No update is lost or applied twice, and nothing next to the object changes. atomic_fetch_add and its like give the value before.", "quantifier": "All numbers of threads, all schedules of their instructions, all spurious failures of store-conditional, all operators and values, all code for A and B that does its work on its own.", "why_tests_cant": "Interleavings are unbounded in number and a wrong one may need a particular instruction of one thread between two of another.", "anchors": ["parser/parser.c: to_assign", "codegen.c: gen_expr (ND_CAS, ND_EXCH)", "include/stdatomic.h: atomic_fetch_add"]}
{"id": "C86", "title": "Atomic operations on one object take effect one after the other", "statement": "However many threads execute atomic_exchange, atomic_compare_exchange, atomic_load, atomic_store and compound assignments on the same atomic object, and however they are interleaved, the values of the object form one history in which each operation has at most one step: an exchange replaces the value and gives the one before, a compare-and-exchange replaces the expected value and gives 1 or finds another value, stores that as the expected one and gives 0, a load gives a value the object had, a store replaces the value. Of several threads that exchange 0 for 1, exactly one gets 0. Nothing next to the object changes. An operation that runs without interruption ends.", "quantifier": "All numbers of threads, all mixes of operations, all schedules of their instructions, all spurious failures of store-conditional, all values.", "why_tests_cant": "Interleavings are unbounded in number and a wrong one may need a particular instruction of one thread between two of another.", "anchors": ["codegen.c: gen_expr (ND_CAS, ND_EXCH, ND_ASSIGN, ND_DEREF)", "parser/parser.c: primary, to_assign", "include/stdatomic.h"]}
{"id": "C87", "title": "The address of a global name is its address at run time", "statement": "Code that takes the address of (or reads, writes or calls) a function, an object with static storage duration or a thread-local object computes the address the function or object has in the running process, wherever the linker has put the parts of the module, wherever the loader has loaded it, in whatever module the name is defined and wherever in a file the code is; for a thread-local object, that of the current thread. If the linker cannot encode the distance, it reports that.", "quantifier": "All files and places in them, all layouts, all load displacements, all threads.", "why_tests_cant": "The addresses are chosen by the linker and the loader; a wrong rounding, a label that is used twice or a wrong base register shows only for some of them, or only with several threads.", "anchors": ["codegen.c: gen_addr, relative_addressing, GOT_relative_addressing, TLS_relative_addressing, count"]}
{"id": "C88", "title": "The operators # and ## give what C says", "statement": "In a call of a function-like macro, every part of the replacement list becomes what C says: a parameter that stands alone is replaced by its completely macro-replaced argument, `# p` by one string literal that spells the argument, and in a chain of ## the last token of the left and the first token of the right operand become the single token they spell together, where parameters are replaced by their arguments as written and empty arguments leave the other operand alone; `, ## p` with p the variable arguments is dropped together with its comma if there are none. Each token of the result is the token its spelling stands for (so that a pasted identifier can be a keyword or the name of a macro).", "quantifier": "All replacement lists, all arguments (with any number of tokens, also none), all numbers of uses of a parameter.", "why_tests_cant": "Replacement lists and arguments are unbounded; errors in the treatment of empty operands, of arguments that are used again after # or ## or of operands with several tokens show only for particular combinations.", "anchors": ["preprocessor/preprocess.c: subst, paste, stringize, join_tokens, quote_string, find_arg, has_varargs"]}
{"id": "C89", "title": "__LINE__, __FILE__, __COUNTER__ and line markers", "statement": "Each use of __LINE__ becomes the presumed number of the physical line on which it stands (for a use inside a replacement list: the line of the outermost macro name in the source), each use of __FILE__ the presumed file name as a string literal, each use of __COUNTER__ the next number that has not been given out, __BASE_FILE__ the name of the main file. A line marker (#line n, # n, with or without a file name) changes the presumed numbers of the lines after it and the presumed name, in its own file only.", "quantifier": "All sequences of text lines and line markers, all nestings of object-like macros, all files, names and numbers.", "why_tests_cant": "The property relates every token to its position and to the history of markers and uses before it; files, nestings and histories are unbounded.", "anchors": ["preprocessor/predefined_macro.c: file_macro, line_macro, counter_macro, base_file_macro, add_builtin", "preprocessor/preprocess.c: read_line_marker, new_num_token, new_str_token, expand_macro, preprocess2"]}
{"id": "C90", "title": "Objects and functions in the object file and in memory", "statement": "The assembly text of a translation unit is accepted by the assembler. It defines exactly the symbols of the objects and functions defined in the unit (static inline functions: those that are used), global ones exactly for those with external linkage. Every object is in the section for its kind (initialised, zero, thread-local), at an address with the alignment that was asked for, apart from all other objects; its bytes in memory are the initial value with addresses filled in, or zero. Tentative definitions become common symbols of the right size and alignment under -fcommon, and only then.", "quantifier": "All lists of objects and functions, all declarations of file scope, all initial values and relocations, all places where linker and loader put the sections.", "why_tests_cant": "Offsets and padding depend on all objects before; the lists, sizes and alignments are unbounded, and so are the addresses chosen by the linker.", "anchors": ["codegen.c: codegen, emit_data, emit_text", "parser/parser.c: global_variable", "parser/scope.c: new_gvar", "utils.c: llog2"]}
{"id": "C91", "title": "Types of expressions", "statement": "Every expression that satisfies the constraints of C has the type C11 6.5 gives it, as seen by sizeof, by _Generic and by the conversions of its operands: arithmetic, pointer arithmetic, comparisons, logical operators, shifts, assignments, conditional and comma expressions, members, addresses, indirections, calls and casts, over arithmetic types, pointers, arrays, functions, structures and void. Expressions that violate the constraints are diagnosed.", "quantifier": "All expressions of any depth, all types.", "why_tests_cant": "Types are derived from subexpressions; expressions and types nest without bound.", "anchors": ["type.c: add_type, get_common_type, usual_arith_conv", "parser/parser.c: new_add, new_sub, unary, funcall, conditional, primary"]}
{"id": "C92", "title": "Structure and union definitions from source text", "statement": "A definition of a structure or union, with any number of member declarations, declarators of any shape, bit-fields, anonymous structures and unions, alignment specifiers, attributes before and after, and a flexible array member at the end, gives a type with exactly the declared members in their order, each with its declared name, type, alignment and width; the members are then placed as C33 and C35 say. Everything that is accepted is such a definition.", "quantifier": "All token sequences that are structure or union definitions, of any length and nesting of declarators.", "why_tests_cant": "Definitions have any number of members and declarators of any depth.", "anchors": ["parser/declarator.c: struct_members, attribute_list, struct_union_decl, struct_decl, union_decl, declarator"]}
{"id": "C93", "title": "Arguments of calls", "statement": "A call whose number of arguments agrees with the declaration of the function is accepted, each argument is converted to the type of its parameter, a float argument for the ellipsis to double, and the call has the type the function returns. A call with too many or too few arguments, or of something that is no function, is diagnosed. A function declared without a parameter list can be called with any arguments. Arguments that cannot be converted are diagnosed.", "quantifier": "All function types, all numbers of parameters and arguments, all token sequences.", "why_tests_cant": "Argument lists have any length.", "anchors": ["parser/parser.c: funcall", "parser/declarator.c: func_params, new_cast"]}
{"id": "C94", "title": "Registers a function must preserve", "statement": "When a compiled function returns, the stack pointer, the frame pointer s0 and the floating-point registers fs0-fs11 have the values they had when it was called, it returns to its caller, and the frames of its callers are unchanged, whatever functions, compiled by this compiler or another, it calls.", "quantifier": "All trees of activations of any depth and width, all code between prologue and epilogue, all functions compiled elsewhere that keep the calling convention, all states.", "why_tests_cant": "Calls nest to any depth.", "anchors": ["codegen.c: emit_text, __push, __pop"]}
{"id": "C95", "title": "Statement expressions", "statement": "A statement expression executes its statements in order and has the value of the last one. break, continue and return may leave it; they have the effect they have outside of an expression, wherever the statement expression stands, and the stack is afterwards what it was. In the condition of a loop break and continue are for the loop around it.", "quantifier": "All nestings of statement expressions, operators, conditions, loops and switch statements, all jumps out of them, any number of rounds.", "why_tests_cant": "Expressions, statements and loops nest to any depth.", "anchors": ["codegen.c: gen_expr, gen_stmt", "parser/parser.c: primary, stmt"]}
{"id": "C96", "title": "__VA_OPT__", "statement": "In the replacement list of a variadic macro __VA_OPT__(x) is replaced by nothing if the variable arguments have no tokens after macro replacement, and otherwise by what x would be replaced by in its place; parentheses in x nest.", "quantifier": "All replacement lists with any number of __VA_OPT__ among other tokens, # and ##, all arguments.", "why_tests_cant": "Replacement lists and arguments have any length and parentheses any depth.", "anchors": ["preprocessor/preprocess.c: subst, has_varargs, read_macro_arg_one"]}
{"id": "C97", "title": "A source file is read completely", "statement": "The text that is compiled is all of the file, without a byte order mark at its beginning and with a newline at its end, however the operating system divides it into pieces; if reading fails there is a diagnostic.", "quantifier": "All files of any size, all sequences of results of read(2) (pieces of any size, errors at any point).", "why_tests_cant": "The sizes of pieces depend on the kind of file and the system; errors at every possible point.", "anchors": ["tokenize.c: read_file, ignore_bom_marker, tokenize_file"]}
{"id": "C98", "title": "Output files are complete or untouched", "statement": "If the compiler ends with status 0, the assembly file (with -E the preprocessed text, with -M or -MD the dependency file) holds exactly the text that was produced; if it reports an error, the output is what it was before; wherever it is killed, the output is what it was before or a beginning of the new text; no other file is changed.", "quantifier": "All combinations of -M, -MD and -E, all results of compiling, of opening files and of write(2), all crash points.", "why_tests_cant": "A crash or a write error can happen between any two system calls.", "anchors": ["main.c: cc1, open_file, print_tokens, print_dependencies"]}
{"id": "C99", "title": "Positions in the assembly text name the right file", "statement": "Every file number used in a .loc line of the assembly text is declared by exactly one .file line, with the name of the source file the code comes from; the lines .file list the files that were read, in order; every file name is read back by the assembler as it was given.", "quantifier": "All histories of reading files (also repeatedly), predefined macros, pasting, stringizing and #line; all file names.", "why_tests_cant": "The order of #include, macros and #line is unbounded.", "anchors": ["tokenize.c: tokenize_file, new_file", "preprocessor/preprocess.c: new_num_token, new_str_token, paste, read_line_marker", "preprocessor/predefined_macro.c: define_macro", "codegen.c: codegen, gen_expr, gen_stmt"]}
