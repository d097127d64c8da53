{"id": "C01", "title": "Tagged-word round trip", "statement": "Storing a boolean, 32-bit integer, single-precision float, character, instruction, heap address, null or double in an object and reading it back through the matching accessor yields the stored value (a NaN double reads back as a NaN), and exactly one of the type predicates holds of the object.", "quantifier": "every 64-bit payload of every immediate type, every 48-bit heap address, every double bit pattern", "why_tests_cant": "2^64 words and 9 kinds; tests sample a few literals per kind and miss bit patterns (negative NaNs, infinities, addresses with the top payload bits set) where two encodings could collide", "anchors": ["include/meevax/memory/nan_boxing_pointer.hpp: nan_boxing_pointer, type, is, as"]}
{"id": "C02", "title": "eq? on unboxed values is value identity", "statement": "Two objects are eq? exactly when they hold the same kind with the same value (doubles: same bit pattern, all NaNs identified); in particular two values of different kinds are never eq?.", "quantifier": "every pair of storable values", "why_tests_cant": "pairs of 64-bit values cannot be enumerated", "anchors": ["include/meevax/memory/nan_boxing_pointer.hpp: operator==", "include/meevax/kernel/object.hpp: eq"]}
{"id": "C03", "title": "The collector's address set behaves as a finite set", "statement": "After any sequence of insertions and erasures, an address is reported present iff its last operation was an insertion, and the reported size is the number of present addresses.", "quantifier": "every finite sequence of insert/erase on 8-byte-aligned user-space addresses (0 <= address < 2^47)", "why_tests_cant": "unbounded histories over 2^44 possible elements in a three-level lazily allocated bitmap", "anchors": ["include/meevax/memory/pointer_set.hpp: insert, erase, contains, size"]}
{"id": "C04", "title": "Ordered traversal of the address set", "statement": "Iterating from begin to end visits every present address exactly once in increasing order; lower_bound(k) yields the least present address >= k (end if none); stepping backwards from a position yields the greatest smaller present address.", "quantifier": "every history, every probe address, every position", "why_tests_cant": "the skip logic depends on which 64-bit words, leaves and middle nodes are empty; combinations are unbounded", "anchors": ["include/meevax/memory/pointer_set.hpp: begin, end, lower_bound, operator++, operator--, seek"]}
{"id": "C05", "title": "A heap cell is never handed out twice while in use", "statement": "The object allocator never returns a cell that is currently allocated, every returned cell lies in a block owned by the allocator, and freed cells are reused most recently freed first before fresh ones.", "quantifier": "every interleaving of allocations and frees of currently allocated cells", "why_tests_cant": "histories are unbounded and cross block boundaries", "anchors": ["include/meevax/memory/allocator.hpp: allocator, allocate, deallocate, block, free_list"]}
{"id": "C06", "title": "Garbage collection never frees a reachable object", "statement": "After a collection every object reachable from a root reference (a reference slot stored outside the heap) is still allocated with its contents, and the references inside survive unchanged.", "quantifier": "every heap graph (including cyclic and shared), every root set, every point at which collection happens", "why_tests_cant": "heap graphs and collection points are unbounded; a premature free needs one specific topology and timing", "anchors": ["src/kernel/collector.cpp: mark, sweep/clear, collect", "include/meevax/kernel/collector.hpp: request, make"]}
{"id": "C07", "title": "Garbage collection frees every unreachable object", "statement": "After a collection no object unreachable from the roots is left, including objects that form reference cycles, and a second collection immediately afterwards frees nothing.", "quantifier": "every heap graph and root set", "why_tests_cant": "leaks show up only for particular cyclic topologies", "anchors": ["src/kernel/collector.cpp: mark, clear, collect"]}
{"id": "C08", "title": "Heap accounting", "statement": "At every moment the collector's size counter equals the total size of live heap data plus what has been requested for data not yet registered; immediately after a collection it is exactly the size of the survivors, and a collection is triggered precisely when a request makes the size exceed the capacity, which never decreases.", "quantifier": "every sequence of allocations and collections", "why_tests_cant": "drift of a counter is only visible over long histories", "anchors": ["src/kernel/collector.cpp: collect", "include/meevax/kernel/collector.hpp: request, make, clear"]}
{"id": "C09", "title": "Root detection is exact", "statement": "A registered reference slot is treated as a root iff the slot's address lies in no live heap object's extent.", "quantifier": "every placement of non-overlapping heap extents and every slot address", "why_tests_cant": "boundary positions (first byte, last byte, one past the end, between neighbours) over arbitrary layouts", "anchors": ["src/kernel/collector.cpp: is_root"]}
{"id": "C10", "title": "List classification is total and exclusive", "statement": "For every object, list? (proper), circular-list? and dotted-list? all terminate and exactly one holds: proper iff following cdr reaches (), circular iff it never leaves pairs, dotted iff it reaches a non-pair other than ().", "quantifier": "every finite heap of pairs, including every tail/cycle length combination", "why_tests_cant": "tail length and cycle length are independent and unbounded; an off-by-one in the tortoise-hare walk hangs or misclassifies", "anchors": ["src/kernel/list.cpp: is_proper_list, is_circular_list, is_dotted_list"]}
{"id": "C11", "title": "Non-destructive list procedures", "statement": "append, reverse, append-reverse, list-copy, take, drop, take-right, drop-right, list-tail, list-ref, length, make-list, iota return the list the standard/SRFI 1 describes, allocate fresh pairs only for the copied part, share the rest, and change no existing pair.", "quantifier": "every finite list of every length, every tail, every index", "why_tests_cant": "lengths and aliasing patterns are unbounded", "anchors": ["src/kernel/list.cpp: append, reverse, append_reverse, list_copy, take, drop, take_right, drop_right, length, make_list"]}
{"id": "C12", "title": "Destructive list procedures", "statement": "append!, reverse!, append-reverse!, take!, drop-right! produce the same sequence as their pure counterparts by relinking only pairs of their own argument lists, leaving every other pair untouched.", "quantifier": "every heap in which the argument is an acyclic list", "why_tests_cant": "aliasing with other data is unbounded", "anchors": ["src/kernel/list.cpp: append(object &), reverse(object &), append_reverse(object &), take(object &), drop_right(object &)"]}
{"id": "C13", "title": "memq/assq/memv/assv return the first match", "statement": "memq/memv return the first sublist whose car matches, assq/assv the first entry whose key matches, and #f exactly when none matches.", "quantifier": "every list, every key", "why_tests_cant": "unbounded lists", "anchors": ["src/kernel/list.cpp: memq, memv, assq, assv"]}
{"id": "C14", "title": "equal? terminates on every object graph and decides structural equality", "statement": "equal? always terminates, including on cyclic data, and answers #t iff no finite sequence of car/cdr/vector-ref selections leads to distinguishable leaves (the two graphs unfold to the same possibly infinite tree).", "quantifier": "every finite object graph with arbitrary sharing and cycles", "why_tests_cant": "cyclic graphs unfold infinitely; the union-find shortcut is only visible on particular sharing", "anchors": ["src/kernel/comparator.cpp: equal, find, compare"]}
{"id": "C15", "title": "eq?, eqv? and equal? are nested equivalences", "statement": "Each of eq?, eqv?, equal? is reflexive, symmetric and transitive on heap data, and eq? implies eqv? implies equal?.", "quantifier": "every pair and triple of objects", "why_tests_cant": "triples over unbounded graphs", "anchors": ["src/kernel/comparator.cpp", "include/meevax/kernel/object.hpp: eq, eqv", "include/meevax/kernel/collector.hpp: binder::compare/eqv"]}
{"id": "C16", "title": "UTF-8 encoding round trip", "statement": "Writing any Unicode scalar value to a textual port and reading the bytes back yields the same character and leaves the input positioned right after it; a sequence of characters reads back as the same sequence.", "quantifier": "every code point 0..0x10FFFF and every finite sequence of them", "why_tests_cant": "about 1.1 million code points and unbounded sequences, with the interesting cases at length boundaries", "anchors": ["include/meevax/kernel/character.hpp / src/kernel/character.cpp: utf8, write", "src/kernel/textual_input_port.cpp: take_character, peek"]}
{"id": "C17", "title": "peek-char does not consume", "statement": "peek-char returns what the next read-char returns, repeated peeks agree, and peeking never changes what is later read.", "quantifier": "every input stream and position", "why_tests_cant": "streams are unbounded", "anchors": ["src/kernel/textual_input_port.cpp: peek_character, take_character"]}
{"id": "C18", "title": "write/read round trip for strings", "statement": "Reading what write prints for a string gives back the same string.", "quantifier": "every finite string of characters the writer supports", "why_tests_cant": "escapes interact with neighbouring characters; strings are unbounded", "anchors": ["src/kernel/string.cpp: operator<<", "src/kernel/textual_input_port.cpp: read string literal"]}
{"id": "C19", "title": "write/read round trip for characters", "statement": "Reading what write prints for a character gives back the same character, for every character with a printable or named representation.", "quantifier": "every code point", "why_tests_cant": "1.1 million code points", "anchors": ["src/kernel/character.cpp: write", "src/kernel/textual_input_port.cpp: read #\\"]}
{"id": "C20", "title": "write/read round trip for symbols", "statement": "Reading what write prints for a symbol yields the identical symbol.", "quantifier": "every symbol name", "why_tests_cant": "unbounded names; only odd spellings fail", "anchors": ["src/kernel/symbol.cpp: write", "src/kernel/textual_input_port.cpp"]}
{"id": "C21", "title": "write/read round trip for exact integers and ratios in every radix", "statement": "string->number of number->string with the same radix (2..36 as supported) returns the same exact number.", "quantifier": "every exact integer and ratio, every supported radix", "why_tests_cant": "infinitely many integers", "anchors": ["src/kernel/number.cpp: number_to_string", "src/kernel/number.cpp / textual_input_port.cpp: make_number"]}
{"id": "C22", "title": "write/read round trip for compound data", "statement": "Reading what write prints for a tree of pairs, (), booleans, exact integers, characters, strings, symbols and vectors yields an equal? tree and consumes exactly the printed text.", "quantifier": "every finite acyclic datum", "why_tests_cant": "datum nesting is unbounded", "anchors": ["src/kernel/pair.cpp: operator<<", "src/kernel/textual_input_port.cpp: read", "src/kernel/vector.cpp"]}
{"id": "C23", "title": "Whitespace and comments are transparent", "statement": "Inserting any amount of whitespace, line comments, properly nested block comments or datum comments between tokens does not change the datum read.", "quantifier": "every comment nesting depth and content", "why_tests_cant": "nesting depth and content unbounded", "anchors": ["src/kernel/textual_input_port.cpp: read, take_nested_block_comment"]}
{"id": "C24", "title": "Exact arithmetic is exact regardless of representation", "statement": "For exact integers, +, -, * and comparison give the mathematical result whether operands are stored as 32-bit immediates or big integers, and the result's stored form always denotes that value.", "quantifier": "every pair of integers in every representation", "why_tests_cant": "overflow boundaries times representation pairs times magnitudes", "anchors": ["src/kernel/number.cpp", "include/meevax/kernel/number.hpp: canonicalize, widen, apply_to"]}
{"id": "C25", "title": "Exact rational arithmetic", "statement": "+, -, *, / on exact integers and ratios give the mathematical rational in canonical form (lowest terms, positive denominator, an integer when the denominator is 1); division by exact zero is an error.", "quantifier": "every pair of exact rationals", "why_tests_cant": "infinitely many operands", "anchors": ["src/kernel/number.cpp: operator/", "src/kernel/ratio.cpp"]}
{"id": "C26", "title": "Integer division laws", "statement": "For exact integers n and d != 0: n = d*quotient + remainder with |remainder| < |d|, remainder has the sign of n, modulo the sign of d, in every representation.", "quantifier": "every pair of exact integers", "why_tests_cant": "unbounded magnitudes; the implementation goes through a ratio and a double", "anchors": ["src/kernel/number.cpp: operator%", "src/kernel/number/nearest_integer.cpp", "src/kernel/boot.cpp: quotient, remainder, modulo", "library/r4rs.ss"]}
{"id": "C27", "title": "gcd and lcm", "statement": "gcd of any argument list is the non-negative greatest common divisor, lcm the non-negative least common multiple; gcd(a,b)*lcm(a,b) = |a*b|.", "quantifier": "every finite argument list of exact integers", "why_tests_cant": "unbounded", "anchors": ["src/kernel/number.cpp: gcd, lcm", "src/kernel/boot.cpp: gcd, lcm"]}
{"id": "C28", "title": "Bitwise operations agree with infinite two's complement", "statement": "bitwise-not/and/ior/xor on exact integers act bitwise on the infinite two's-complement expansion, whatever the stored representation.", "quantifier": "every pair of integers and every bit position", "why_tests_cant": "infinitely many bits", "anchors": ["src/kernel/number/bitwise.cpp"]}
{"id": "C29", "title": "Shifts, bit counts and integer length", "statement": "arithmetic-shift n k = floor(n * 2^k); bit-count counts ones of n >= 0 and zeros of n < 0; integer-length is the least k with -2^k <= n < 2^k.", "quantifier": "every integer and shift amount", "why_tests_cant": "the small/large switch-over depends on both value and shift", "anchors": ["src/kernel/number/bitwise.cpp: bit_shift, bit_count, bit_width"]}
{"id": "C30", "title": "SRFI 151 derived operations", "statement": "bit-set?, copy-bit, bit-swap, bit-field, bit-field-replace, bit-field-rotate, bit-field-reverse, bitwise-if, first-set-bit, bits->list/list->bits, bits->vector/vector->bits, bitwise-eqv/nand/nor/... satisfy their per-bit specification.", "quantifier": "every integer, index and field", "why_tests_cant": "unbounded integers and indices", "anchors": ["library/srfi-151.ss"]}
{"id": "C31", "title": "SRFI 141 division operator families", "statement": "For each of floor/, ceiling/, truncate/, round/, euclidean/, balanced/: n = d*q + r and r lies in the family's defining range.", "quantifier": "every exact n, d != 0", "why_tests_cant": "unbounded magnitudes", "anchors": ["library/srfi-141.ss"]}
{"id": "C32", "title": "Numeric comparison is a total order on exact numbers", "statement": "On exact numbers <, =, > are trichotomous and transitive, <= and >= are their unions, and n-ary comparison holds iff every adjacent pair does; max/min return the extremum.", "quantifier": "every argument list", "why_tests_cant": "unbounded", "anchors": ["src/kernel/number.cpp: less_than, equals", "src/kernel/boot.cpp: =, <, <=, max, min"]}
{"id": "C33", "title": "exact-integer-sqrt and exact sqrt", "statement": "exact-integer-sqrt n returns s, r with s^2 + r = n < (s+1)^2; sqrt of an exact perfect square is its exact root, and an exact result of sqrt is a root of its argument.", "quantifier": "every non-negative exact integer", "why_tests_cant": "unbounded", "anchors": ["src/kernel/number/power.cpp: sqrt, exact_integer_square_root"]}
{"id": "C34", "title": "Compiled code computes what the source means", "statement": "Running the code generated for an expanded expression produces the value (or error) that a direct evaluator of the expression produces, with the same side effects on variables and the heap, in the same order.", "quantifier": "every expression (quote, variable, lambda, if, set!, call, begin, letrec, call/cc), every environment, every continuation", "why_tests_cant": "programs are unbounded trees; compiler bugs show up in particular nestings", "anchors": ["src/kernel/generator.cpp", "src/kernel/dynamic_environment.cpp: run"]}
{"id": "C35", "title": "Proper tail calls", "statement": "A call in tail position runs without growing the control stack: a loop of any number of tail calls uses bounded continuation space.", "quantifier": "every program and iteration count", "why_tests_cant": "unbounded iterations", "anchors": ["src/kernel/generator.cpp: call, body, conditional", "src/kernel/dynamic_environment.cpp: tail_call, tail_select, tail_letrec"]}
{"id": "C36", "title": "Lexical addressing", "statement": "A variable reference resolves to the innermost enclosing binding of that identifier (fixed or rest parameter), at run time to the very cell that binding's argument was stored in; otherwise to the global binding.", "quantifier": "every nesting of formals, including rest parameters and shadowing", "why_tests_cant": "unbounded nesting", "anchors": ["src/kernel/syntactic_environment.cpp: identify", "src/kernel/dynamic_environment.cpp: load_relative, load_variadic, store_*", "src/kernel/identity.cpp"]}
{"id": "C37", "title": "Argument evaluation", "statement": "Operands are evaluated exactly once, right to left, before the operator; the values are bound in order; frames built for different calls never share mutable structure unless the caller passed a list explicitly.", "quantifier": "every call expression", "why_tests_cant": "unbounded arity and nesting", "anchors": ["src/kernel/generator.cpp: operand, call", "src/kernel/dynamic_environment.cpp: cons"]}
{"id": "C38", "title": "First-class continuations", "statement": "Invoking a captured continuation, any number of times, returns the value to the capture point with the stack, environment and dynamic state of that point.", "quantifier": "every program, number of re-entries", "why_tests_cant": "re-entry histories are unbounded", "anchors": ["src/kernel/generator.cpp: call_with_current_continuation", "src/kernel/dynamic_environment.cpp: load_continuation, call (continuation)"]}
{"id": "C39", "title": "letrec and internal recursion", "statement": "letrec bindings are visible in every initialiser's procedures and in the body; mutually recursive procedures of any number see each other.", "quantifier": "every letrec form", "why_tests_cant": "unbounded number of bindings", "anchors": ["src/kernel/generator.cpp: letrec", "src/kernel/dynamic_environment.cpp: dummy, letrec, tail_letrec"]}
{"id": "C40", "title": "Generated code never gets stuck", "statement": "Starting from generated code, every machine step is defined: the stack always holds the operands an instruction takes and the control list never runs out before stop, until normal end or a reported error.", "quantifier": "every expression and every step count", "why_tests_cant": "unbounded executions", "anchors": ["src/kernel/generator.cpp", "src/kernel/dynamic_environment.cpp: run"]}
{"id": "C41", "title": "dynamic-wind", "statement": "For any nesting of dynamic-wind and continuation jumps, on every exit from a thunk its after runs and on every entry its before runs, extents common to source and target are not touched, in innermost-first exit and outermost-first entry order. exit runs the outstanding afters before the program ends.", "quantifier": "every pair of dynamic-extent stacks", "why_tests_cant": "depths unbounded and unequal", "anchors": ["library/meevax.ss: (meevax continuation) windup!, dynamic-wind, call-with-current-continuation, exit"]}
{"id": "C42", "title": "parameterize", "statement": "Within parameterize a parameter yields the converted new value and afterwards the old one; nested and shadowing bindings behave like a stack; the converter is applied once per binding.", "quantifier": "every nesting and parameter set", "why_tests_cant": "unbounded nesting", "anchors": ["library/srfi-39.ss"]}
{"id": "C43", "title": "Exception handlers", "statement": "raise calls the innermost handler with that handler removed; raise-continuable returns the handler's value; the handler stack is restored after every normal or non-local exit.", "quantifier": "every handler nesting", "why_tests_cant": "unbounded nesting", "anchors": ["library/srfi-34.ss", "src/kernel/dynamic_environment.cpp: exception handling"]}
{"id": "C44", "title": "Promises", "statement": "A delayed expression is evaluated at most once however often and recursively it is forced; force returns the same value every time; delay-force chains of any length run in bounded space.", "quantifier": "every graph of promises and force order", "why_tests_cant": "re-entrant forcing and chain lengths are unbounded", "anchors": ["library/srfi-45.ss"]}
{"id": "C45", "title": "Symbols are interned", "statement": "string->symbol and the reader return the identical object for equal spellings and distinct objects for distinct spellings, over the life of the program.", "quantifier": "every history of symbol creation", "why_tests_cant": "unbounded histories", "anchors": ["src/kernel/symbol.cpp: make_symbol"]}
{"id": "C46", "title": "Import sets", "statement": "only, except, prefix and rename import sets, nested in any order, expose exactly the bindings R7RS prescribes, each under the prescribed name; naming an identifier absent from the set is an error.", "quantifier": "every library interface and every nesting of modifiers", "why_tests_cant": "nestings unbounded", "anchors": ["src/kernel/environment.cpp: resolve/import"]}
{"id": "C47", "title": "Import conflicts are detected", "statement": "Importing the same name with two different bindings into a non-interactive environment is an error; importing the same binding twice is not.", "quantifier": "every set of imports in any order", "why_tests_cant": "unbounded", "anchors": ["src/kernel/environment.cpp: import_"]}
{"id": "C48", "title": "cond-expand selects the first satisfied clause", "statement": "cond-expand splices the body of the first clause whose requirement holds under and/or/not/library/else semantics; unsatisfied expansion is an error.", "quantifier": "every requirement tree", "why_tests_cant": "trees unbounded", "anchors": ["src/kernel/conditional_expand.cpp"]}
{"id": "C49", "title": "A library body is evaluated at most once", "statement": "However many times and from however many import sets a library is imported, its declarations are evaluated exactly once, and every importer sees the same bindings.", "quantifier": "every import history", "why_tests_cant": "unbounded histories", "anchors": ["src/kernel/library.cpp: import_set, evaluate"]}
{"id": "C50", "title": "Vector and string range operations", "statement": "vector-copy, vector-fill!, vector-copy!, string-copy, string-copy!, string-append, vector->list and friends return/affect exactly the designated range; vector-copy! works as if through a temporary when ranges overlap; out-of-range access is an error.", "quantifier": "every vector, every range, every overlap", "why_tests_cant": "all lengths and overlap offsets", "anchors": ["src/kernel/boot.cpp: vector-copy!, vector-fill!, vector->list, string-copy, string-ref, vector-ref"]}
{"id": "C51", "title": "String comparison", "statement": "string=? / string<? etc. implement lexicographic order by code point; string-ci=? etc. agree with comparing case-folded strings.", "quantifier": "every pair of strings", "why_tests_cant": "unbounded strings", "anchors": ["src/kernel/boot.cpp: string=?, string-ci=?", "include/meevax/kernel/string.hpp"]}
{"id": "C52", "title": "Bytevector ports are FIFO", "statement": "Bytes written to an output bytevector port come back unchanged in order from get-output and from an input port opened on them; read-u8/peek-u8/read-bytevector partition the contents without loss.", "quantifier": "every byte sequence and read partition", "why_tests_cant": "unbounded", "anchors": ["include/meevax/kernel/input_homogeneous_vector_port.hpp", "include/meevax/kernel/output_homogeneous_vector_port.hpp"]}
{"id": "C53", "title": "Macro hygiene", "statement": "An identifier inserted by a macro refers to the binding visible where the macro was defined even if the use site rebinds the name; a binding inserted by a macro never captures an identifier supplied by the user.", "quantifier": "every macro use context", "why_tests_cant": "contexts unbounded", "anchors": ["src/kernel/syntactic_closure.cpp", "src/kernel/syntactic_environment.cpp", "src/kernel/expander.cpp"]}
{"id": "C54", "title": "Multiple values", "statement": "call-with-values passes exactly the values the producer returned, any number including zero and one, in order.", "quantifier": "every value list", "why_tests_cant": "unbounded", "anchors": ["library/r5rs.ss: values, call-with-values"]}
{"id": "C55", "title": "Records are distinct and field-independent", "statement": "Constructor/accessor/modifier obey the store laws (get-set, set-get, independence of fields), predicates separate record types from one another and from other data.", "quantifier": "every record type and field", "why_tests_cant": "unbounded", "anchors": ["library/srfi-9.ss"]}
{"id": "C56", "title": "SRFI 1 higher-order list procedures", "statement": "fold, fold-right, reduce, unfold, map, filter, partition, remove, find, any, every, take-while, drop-while, span, break, delete, delete-duplicates, lset operations agree with their specification on lists of any length and call the user's procedure in the specified order.", "quantifier": "every list, every procedure", "why_tests_cant": "unbounded", "anchors": ["library/srfi-1.ss"]}
{"id": "C57", "title": "Fixnum carry arithmetic", "statement": "fx+/carry, fx-/carry, fx*/carry return r, q with s = r + q*2^32 and -2^31 <= r < 2^31; fxarithmetic-shift-left/right are multiplications/divisions by powers of two.", "quantifier": "every triple of 32-bit integers", "why_tests_cant": "2^96 triples", "anchors": ["library/srfi-143.ss"]}
{"id": "C58", "title": "eqv? separates distinct mutable objects", "statement": "Two mutable objects (pairs, strings, vectors, bytevectors, boxes) created by separate calls are never eqv?: eqv? answers #t on them only for the same location.", "quantifier": "every two heap objects with arbitrary contents", "why_tests_cant": "contents are unbounded; a test sees only sampled contents", "anchors": ["include/meevax/kernel/comparator.hpp: eqv", "include/meevax/kernel/collector.hpp: binder::eqv", "src/kernel/pair.cpp: pair::eqv"]}
{"id": "C59", "title": "read-line and read-string return the text", "statement": "read-line returns the characters up to the next newline, or up to the end of the input for a last line without newline, and leaves the input right after the newline; read-string returns the next k characters or what is left of them.", "quantifier": "every text and every k", "why_tests_cant": "texts are unbounded; sampled lines are usually short ASCII lines that end in a newline", "anchors": ["src/kernel/textual_input_port.cpp: get_line, get(size)", "include/meevax/kernel/textual_input_port.hpp: take_character_until"]}
{"id": "C60", "title": "read at the end of the input", "statement": "Once the data of a port are used up, read returns the end-of-file object, whatever the last datum was.", "quantifier": "every text", "why_tests_cant": "depends on what ends the text", "anchors": ["src/kernel/textual_input_port.cpp: read, get_ready, peek_character"]}
{"id": "C61", "title": "Number syntax", "statement": "string->number and the reader give every exact literal of R7RS its value: an optional sign, digits of the radix, optionally a slash and a denominator; a text that is no numeral gives #f (a symbol for the reader) and never stops the program.", "quantifier": "every literal and radix", "why_tests_cant": "unbounded literals", "anchors": ["src/kernel/number.cpp: make_number, make_integer, make_real", "src/kernel/ratio.cpp: ratio(std::string const&, int)"]}
{"id": "C62", "title": "expt of exact integers is exact", "statement": "expt of an exact integer and a non-negative exact integer is the exact power; of a negative exponent, its exact reciprocal.", "quantifier": "every exact integer base and exponent", "why_tests_cant": "unbounded; wrong only beyond the precision of a double", "anchors": ["src/kernel/number/power.cpp: pow"]}
{"id": "C63", "title": "Binary file ports", "statement": "Bytes written through open-binary-output-file come back unchanged and in order through open-binary-input-file; read-u8, peek-u8 and read-bytevector partition the file without loss and report its end with an eof object.", "quantifier": "every byte sequence and every sequence of reads", "why_tests_cant": "unbounded sequences, interplay of the stream's eof and fail flags", "anchors": ["src/kernel/binary_input_file_port.cpp", "src/kernel/binary_output_file_port.cpp"]}
{"id": "C64", "title": "Programs that use macros compute what their hygienic expansion means", "statement": "A program whose forms use explicit renaming macros is compiled, and running the code gives, form by form, the values that the program means when every identifier refers to the binding hygiene gives it, raises the same object, or runs forever; tail calls in expansions are tail calls, and the code never uses operands that are not there.", "quantifier": "every program and every set of global macros within the limits of C53, every initial state", "why_tests_cant": "unbounded programs and executions; the expander, the code generator and the machine only compose if their notions of environment agree", "anchors": ["src/kernel/expander.cpp", "src/kernel/generator.cpp", "src/kernel/syntactic_environment.cpp", "src/kernel/dynamic_environment.cpp"]}
{"id": "C65", "title": "Exact complex arithmetic is exact", "statement": "+, -, * and / of exact complex numbers give the exact complex result, as a real number object when its imaginary part is zero; = and zero? decide equality of values; real? and integer? recognise complex objects with zero imaginary part; the parts of make-rectangular are its arguments; <, magnitude and angle mean what they mean in mathematics; a written exact complex number reads back as itself.", "quantifier": "every list of exact complex numbers", "why_tests_cant": "unbounded integers and ratios in both parts; combinations of five number representations", "anchors": ["src/kernel/number.cpp: operator +, -, *, /, equals, less_than, magnitude, angle", "src/kernel/complex.cpp"]}
{"id": "C66", "title": "cond, and, or, let, named let, let* and do mean what the report says", "statement": "A program written with cond (clauses with a body, with only a test, with => and with else), and, or, let, named let, let* and do is compiled, and running the code gives, form by form, the values that R7RS 4.2 gives these expressions, raises the same object, or runs forever, whatever names the program uses for its variables, in control space proportional to the depth of the continuation the report gives the program (tail calls in these expressions are tail calls).", "quantifier": "every program of these expression types and the primitive ones, with definitions at the outermost level, within the limits of C53; every initial state", "why_tests_cant": "unbounded programs and executions; the expression types are macros whose expansions nest, capture and renaming problems depend on the names in the program", "anchors": ["library/r4rs.ss: cond, and, or, let, let*, do", "src/kernel/expander.cpp", "src/kernel/generator.cpp", "src/kernel/syntactic_environment.cpp", "src/kernel/dynamic_environment.cpp"]}
{"id": "C67", "title": "write-shared ends on cyclic objects and is read back with the same sharing", "statement": "write-shared ends on every object, cyclic or not; its text declares each label once before its use, shows every pair, vector and string exactly once, and labels only what occurs more than once; reading the text with read-with-shared-structure (SRFI 38) gives an object whose graph is the same: the same parts, shared in the same places, with the same cycles.", "quantifier": "every finite heap of pairs, vectors and strings, however they refer to each other; every text with labels in order", "why_tests_cant": "sharing and cycles form arbitrary graphs; a counting error shows only in particular combinations of sharing, and non-termination only on particular cycles", "anchors": ["library/srfi-38.ss: write-with-shared-structure, read-with-shared-structure", "library/r7rs.ss: write-shared"]}
{"id": "C68", "title": "write and read with datum labels", "statement": "What write writes for an object with cycles is a text with datum labels that shows the object, each label declared once before its use; write ends on every object; read gives, for every text with labels in order, the object that the text denotes, with nothing left over from the labels in the object or in the port, so that what is written is read back as an object that unfolds to the same tree.", "quantifier": "every finite heap of pairs, vectors and strings; every text with datum labels; every state of the port", "why_tests_cant": "cycles form arbitrary graphs, and texts nest labels in any way; non-termination cannot be observed", "anchors": ["src/kernel/pair.cpp: operator <<, datum_labels", "src/kernel/vector.cpp: operator <<", "src/kernel/list.cpp: is_circular_list", "src/kernel/textual_input_port.cpp: read, circulate"]}
{"id": "C69", "title": "syntax-rules does pattern matching and template instantiation as specified", "statement": "A macro defined with syntax-rules expands each use of it to the instance of the template of the first rule whose pattern matches the use, with every identifier the template inserts renamed; if no pattern matches, the use is an error; the transformer ends on every use; a rule in whose template a variable has too few ellipses is an error when the macro is defined.", "quantifier": "every set of rules (patterns with nested ellipses, tails after ellipses, literals, vectors) and every use", "why_tests_cant": "syntax-rules is a compiler whose input and output language is the user's: patterns nest ellipses and tails in any way, and the generated matcher runs on arbitrary forms", "anchors": ["library/srfi-149.ss: syntax-rules-transformer"]}
{"id": "C70", "title": "rationalize returns the simplest rational", "statement": "(rationalize x e) of exact numbers returns the simplest rational number (least numerator and denominator in lowest terms) that differs from x by no more than e.", "quantifier": "every pair of exact numbers x, e", "why_tests_cant": "the answer is an extremum over infinitely many rationals, found by a continued fraction of unbounded depth", "anchors": ["library/r4rs.ss L268-L292: rationalize"]}
{"id": "C71", "title": "Quasiquotation", "statement": "A quasiquotation evaluates each unquoted expression of its own level exactly once (from right to left) and nothing else; its value is the template with these values in place, the elements of spliced lists among their neighbours, and inner quasiquotations as written, at every nesting level, in lists, improper lists and vectors; without unquotes it is a quotation.", "quantifier": "every template with the keywords (under their own names) in the positions of the report, at every nesting depth; every behaviour of the unquoted expressions", "why_tests_cant": "templates nest quasiquote, unquote and unquote-splicing in any way and to any depth", "anchors": ["library/r4rs.ss L144-L185: quasiquote"]}
{"id": "C72", "title": "exact and inexact", "statement": "exact of a finite inexact number is the exact number of the same value; inexact of an exact number is the closest inexact number, in particular the same value when it is representable; the way from inexact to exact and back loses nothing; inexact preserves the order.", "quantifier": "every binary64 number and every exact integer and ratio of any size", "why_tests_cant": "2^64 inexact numbers and unboundedly many exact ones, with rounding and overflow at the borders", "anchors": ["src/kernel/number.cpp L534-L577: exact, inexact", "include/meevax/kernel/ratio.hpp L50-L54: conversion to double", "include/meevax/kernel/large_integer.hpp: conversion to double"]}
{"id": "C73", "title": "Comparison of exact and inexact numbers", "statement": "=, <, >, <= and >= with any number of arguments compare the mathematical values of exact and inexact numbers, including infinities, without rounding; = is an equivalence; comparisons with NaN are false.", "quantifier": "all lists of exact and inexact real numbers", "why_tests_cant": "a comparison that rounds errs only on numbers that are close to each other, of which tests contain few", "anchors": ["include/meevax/kernel/number.hpp L315-L332: inexact_equals", "src/kernel/number.cpp L122-L300: comparison operators", "src/kernel/boot.cpp L190-L205: =, <, >, <=, >="]}
{"id": "C74", "title": "Inexact arithmetic and rounding", "statement": "An operation with an inexact operand gives an inexact result, the closest one to the mathematical result of the operands; a representable result is given exactly; floor, ceiling, truncate and round (to even) give inexact integers; integer?, rational?, finite?, infinite? and nan? classify inexact numbers; max and min give the extreme argument, inexact if any argument is.", "quantifier": "all pairs (for max and min: lists) of exact and inexact real numbers", "why_tests_cant": "every pair of operands rounds in its own way", "anchors": ["src/kernel/number.cpp L101-L340: operators", "src/kernel/number/nearest_integer.cpp L21-L51", "src/kernel/number.cpp L605-L782: predicates and abs", "src/kernel/boot.cpp L206-L207: max, min"]}
{"id": "C75", "title": "Integer division of inexact numbers", "statement": "quotient, remainder and modulo of integers of which one is inexact are the inexact integers the exact operations give; numerator and denominator of a number are those of its lowest terms, inexact for an inexact number.", "quantifier": "all pairs of inexact integers and fixnums; all inexact numbers", "why_tests_cant": "an error needs operands near the limits of the significand, or an operand in an unusual representation", "anchors": ["src/kernel/number.cpp L784-L797: quotient, remainder, modulo", "src/kernel/number.cpp L240-L300: operator %", "src/kernel/number.cpp L865-L899: numerator, denominator"]}
{"id": "C76", "title": "guard", "statement": "The value of a guard whose body returns is the value of the body. When an object is raised in the body (by raise, raise-continuable or a failing primitive) and no inner handler takes it, the clauses are evaluated with the object, on the continuation of the guard, with the handlers, parameter values and dynamic extents of the guard. When no clause applies, raise-continuable is called with the object in the dynamic environment of the original raise, with the handlers outside of the guard, and if that handler returns, its value is the value of the original raise-continuable. Extents that enclose the guard are neither left nor entered.", "quantifier": "all programs, all bodies and clauses, all places of the raise", "why_tests_cant": "bodies, handlers and jumps combine without bound", "anchors": ["library/srfi-34.ss L104-L123: guard", "library/srfi-34.ss L36-L69: raise, raise-continuable, with-exception-handler", "library/meevax.ss L43-L100: dynamic-wind, call-with-current-continuation"]}
{"id": "C77", "title": "text of inexact numbers", "statement": "A decimal literal with a point or an exponent part is read as the inexact number nearest to its value, with its sign. What write prints for an inexact number is read back as the same inexact number: for finite numbers of either sign, zeros, infinities and NaN. number->string followed by string->number gives the same number.", "quantifier": "all decimal literals, all inexact numbers", "why_tests_cant": "there are 2^64 doubles and unboundedly many literals; that the shortest digits identify the number depends on every one of them", "anchors": ["src/kernel/number.cpp L405-L471: make_real", "src/kernel/number.cpp L901-L946: number_to_string", "include/meevax/memory/nan_boxing_pointer.hpp L257-L287: write"]}
{"id": "C78", "title": "flonum procedures of SRFI 144", "statement": "fladjacent gives the next flonum in a direction. flinteger-fraction, flnormalized-fraction-exponent, flexponent and flinteger-exponent take a flonum apart exactly, and make-flonum puts it together again, rounding once. flcopysign, flsgn and flsign-bit handle signs, also of zeros and infinities. flmax and flmin give the greatest and the least of any number of operands, ignoring NaN. fl+*, flabsdiff and flposdiff round once. flremquo gives the exact remainder by the nearest multiple, and the last bits of the quotient. Just one of fl<?, fl=?, fl>? and flunordered? holds of any two flonums. flinteger?, flnormalized? and fldenormalized? classify flonums, fl-greatest, fl-least and fl-epsilon are what their names say, flhypot and flcbrt give a flonum near to the root.", "quantifier": "all flonums, all lists of operands, all exact integer exponents", "why_tests_cant": "there are 2^64 flonums, and the edges (subnormal numbers, powers of two, overflow) are where implementations differ", "anchors": ["library/srfi-144.ss", "src/kernel/boot.cpp L67-L80, L448-L466", "src/kernel/number/floating_point_manipulation.cpp"]}
{"id": "C79", "title": "homogeneous vectors of SRFI 4", "statement": "A list of integers in the range of the element type makes a homogeneous vector that converts back to the same integers in the same order, in whole or for a range. TAGvector-set! stores one element, TAGvector-ref reads its value back, and no other element and no other vector changes. make-TAGvector gives the length and the fill asked for. Inexact integers are stored by value. f64vectors keep every flonum unchanged, and exact integers below 2^53 by value. Numbers the type cannot hold are refused.", "quantifier": "all eight integer types and f64, all lists, indexes, ranges and stores; all exact integers in either representation and all flonums", "why_tests_cant": "2^64 values per element in two representations, vectors of any length and any contents", "anchors": ["include/meevax/kernel/homogeneous_vector.hpp L38-L125", "src/kernel/boot.cpp L403-L418", "include/meevax/kernel/large_integer.hpp L69-L84"]}
{"id": "C80", "title": "the command line", "statement": "The arguments of the program are read from left to right as options, operands and files, and each is performed once, in order: a letter is the same as its long name, letters can be put together, --name=text is --name text, operands are never taken for options or files, everything else is a file loaded into a fresh environment. An unknown option or a missing operand is an error after the commands before it. -A appends and -I prepends a library directory. The exit status is zero when all goes well, the status of emergency-exit, or one after an error is reported. With -i, a REPL starts after the files; it goes on after errors. --help and --version exit.", "quantifier": "all argument vectors, all behaviours of reading, evaluating and loading, all initial states", "why_tests_cant": "argument vectors are unbounded and options interact with the arguments after them", "anchors": ["src/kernel/configuration.cpp L24-L306", "src/main.cpp L23-L90"]}
{"id": "C81", "title": "finding and including files", "statement": "A file name in include, include-ci and library declarations that is not a file as it stands is searched for in the directory of the file the form was read from, then in the current directory, then in the library directories in order, in each of them as it stands before the extensions ss, sld and scm; if there is none, it is an error. include evaluates all data of all named files in order, anywhere a form may stand. load evaluates all data of the file in order. Opening, including or loading a file that is missing or cannot be opened is an error for which file-error? is true.", "quantifier": "all file systems, names, library directories and histories of reading", "why_tests_cant": "search results depend on every combination of files, directories and where the form was read; addresses of pairs are reused unpredictably", "anchors": ["src/kernel/textual_context.cpp L31-L100", "include/meevax/kernel/include.hpp L30-L56", "include/meevax/kernel/input_file_port.hpp L34-L39", "src/kernel/environment.cpp L48-L63, L188-L200", "src/kernel/expander.cpp L166-L180"]}
{"id": "C82", "title": "receive, let-values, let*-values and case-lambda", "statement": "Whatever the number of bindings and clauses: receive and let-values evaluate the init expressions once each from left to right outside all bindings, bind the formals of each to its values (the rest to a list), and then evaluate the body once with all of them; let*-values evaluates each init expression with the bindings before it; a wrong number of values is an error. A case-lambda procedure evaluates the body of the first clause that takes the number of its arguments, with them bound, and signals an error if there is none. The temporaries introduced by the macros capture no variable of the user.", "quantifier": "all lists of bindings and clauses, all bodies and expressions, all effects, all supplies of new identifiers", "why_tests_cant": "the macros recur over the formals with generated temporaries; number, shape and nesting of the clauses is unbounded and so are the effects and captures to be excluded", "anchors": ["library/srfi-8.ss", "library/srfi-11.ss", "library/srfi-16.ss"]}
{"id": "C83", "title": "Characters: categories, case, digits and comparison", "statement": "For the data file of the Unicode character database the build is given: char-upcase and char-downcase are its simple case mappings and the identity elsewhere, string-upcase and string-downcase apply them to every character and keep the length; digit-value is the decimal digit value, or #f; char-alphabetic?, char-numeric?, char-whitespace?, char-upper-case? and char-lower-case? follow from the properties of the character; char=? ... char>=? with any number of arguments hold just if each pair in order is so related, and the char-ci variants of the folded characters; char->integer and integer->char are inverse to each other on the code points.", "quantifier": "all data files of the given format, all code points, all argument lists and strings", "why_tests_cant": "there are more than a million code points and the tables are generated by the build from a file of 35000 lines, in which ranges are given by their ends", "anchors": ["CMakeLists.txt", "include/meevax/kernel/character.hpp", "library/r7rs.ss", "src/kernel/boot.cpp", "configure/UnicodeData.txt"]}
{"id": "C84", "title": "apply", "statement": "(apply f a ... l) calls f in tail position with the arguments a ... followed by the elements of the list l in order, for every number of arguments and every length of l; nothing the procedure does to its parameters affects l.", "quantifier": "all procedures, all numbers of arguments, all lists, all heaps and machine states", "why_tests_cant": "number of arguments, length of the list and the state of the heap are unbounded, and sharing between the operand list and the list given shows only through later assignments", "anchors": ["library/meevax.ss", "src/kernel/generator.cpp", "src/kernel/dynamic_environment.cpp"]}
{"id": "C85", "title": "eval and load", "statement": "(eval expression environment) does what the expression does by itself: its value is the value of the call, an error in it is raised at the call, and the caller is otherwise undisturbed; (load file) evaluates the data of the file one after the other, and an error ends it. It makes no difference to a program whether an expression is written in place, as the body of a procedure, or given to eval.", "quantifier": "all expressions, all environments, all programs that call eval at any depth, all numbers of steps", "why_tests_cant": "expressions, nesting depths and continuations captured across the call are unbounded", "anchors": ["src/kernel/dynamic_environment.cpp", "src/kernel/environment.cpp", "src/kernel/boot.cpp", "library/r4rs.ss: load"]}
{"id": "C86", "title": "Errors raised by procedures of the system", "statement": "An error found by a procedure written in C++, or a call of something that is no procedure, is a call of the installed exception handler with an error object; if the handler leaves by a continuation the program goes on there as if nothing had happened, and errors that were handled take no space.", "quantifier": "all programs, all machine states, all handlers, all numbers of errors", "why_tests_cant": "the number of errors handled, the states in which they happen and the continuations are unbounded", "anchors": ["src/kernel/dynamic_environment.cpp", "include/meevax/kernel/dynamic_environment.hpp", "src/kernel/error.cpp"]}
{"id": "C87", "title": "define-values", "statement": "(define-values formals expression) evaluates the expression once and binds each variable of the formals to the corresponding value, a variable after the dot to a list of the remaining values; no other variable and no object of the program is changed; the wrong number of values is an error.", "quantifier": "all formals, all expressions, all numbers of values, all stores", "why_tests_cant": "numbers of variables and values are unbounded, and the list that is taken apart can be shared with any data of the program", "anchors": ["library/r7rs.ss", "library/r5rs.ss", "library/srfi-149.ss"]}
{"id": "C88", "title": "File and string ports", "statement": "After open-output-file, the file contains exactly the text written to the port once the port is closed or flushed, and a first part of it before, whatever is done with other ports in between; open-input-file then gives those characters one after the other and eof objects after them; a closed file port stays closed, ignores writes and gives no characters; with-output-to-file, with-input-from-file, call-with-output-file, call-with-input-file and call-with-port pass on the result of the procedure, close the port when it returns, and restore the current ports; get-output-string returns all text written to a string port.", "quantifier": "all texts, all interleavings of calls on all ports, all buffering behaviours of the platform, all programs and control flow", "why_tests_cant": "when the stream buffers are written depends on sizes and the platform; interleavings of ports and non-local exits from the procedures are unbounded", "anchors": ["src/kernel/output_file_port.cpp", "src/kernel/input_file_port.cpp", "src/kernel/textual_output_port.cpp", "src/kernel/boot.cpp", "library/r4rs.ss", "library/r7rs.ss"]}
{"id": "C89", "title": "case, when, unless and letrec*", "statement": "case evaluates its key once and then only the first clause one of whose data is eqv? to the key, or the else clause: its expressions in order, or the procedure after => applied to the key; when and unless evaluate the test once and the expressions in order if the test is true or false; letrec* makes new variables, evaluates the initial values from left to right in their scope, each assigned before the next, and then the body.  No name that the user has bound interferes.", "quantifier": "all keys, clauses, data, expressions with arbitrary effects, stores and bindings of names", "why_tests_cant": "numbers of clauses and data are unbounded; the expressions can do anything, and any name can be bound", "anchors": ["library/r4rs.ss", "library/r7rs.ss", "src/kernel/expander.cpp", "src/kernel/generator.cpp", "src/kernel/list.cpp"]}
{"id": "C90", "title": "Linear update procedures of SRFI 1", "statement": "filter!, remove!, delete!, alist-delete!, partition!, take-while!, span!, break!, split-at!, delete-duplicates!, lset-union!, lset-intersection!, lset-difference!, lset-xor! and lset-diff+intersection! call the predicate or comparison with the same elements, in the same order and equally often as the list is long (or up to the element that decides), and return lists made of the pairs of their arguments with the elements that are asked for, in order; map! stores the results of the calls into the first list; no pair outside of the arguments changes.", "quantifier": "all lists of any length, any number of lists that share no pairs, all predicates and comparisons with any effects that neither change nor make pairs", "why_tests_cant": "the procedures change the lists they walk, so that an error shows only for some pattern of answers, of which there are unboundedly many", "anchors": ["library/srfi-1.ss"]}
{"id": "C91", "title": "string-map, vector-map, string-for-each, vector-for-each, list-set!, boolean=?, symbol=?", "statement": "string-map, vector-map, string-for-each and vector-for-each call the procedure once for each index of the shortest argument, in increasing order, with the elements the arguments had when the call began; the maps return a new string or vector of the results and change nothing themselves; an argument of another type raises before any call, a result of string-map that is not a character raises after the last. list-set! assigns exactly the k-th element. boolean=? and symbol=? hold if all of the arguments are booleans (symbols) and the same.", "quantifier": "all strings, vectors and lists of any length, any number of arguments, all procedures with any effects including assignments to the arguments", "why_tests_cant": "the procedures of the user and the number and lengths of the arguments are unbounded", "anchors": ["library/r7rs.ss", "library/meevax.ss", "library/r4rs.ss", "src/kernel/boot.cpp"]}
{"id": "C92", "title": "SRFI 78: lightweight testing", "statement": "check evaluates nothing while checks are off; otherwise it evaluates the expected result, the expression and the comparison once each, in this order, and counts the check as correct or failed when all of them return. check-passed? holds exactly if the given number of checks has been completed since the last check-reset! and none failed; check-report prints both counts and the first failed example with its results, unless the mode suppresses it; each mode prints the texts it should, in the order of evaluation; an unknown mode raises and changes nothing.", "quantifier": "all sequences of operations, all expressions, expected results and comparisons with any effects on output and world, including raises", "why_tests_cant": "the number of checks, their outcomes and the changes of mode between them are unbounded; the library is itself what tests rely on", "anchors": ["library/srfi-78.ss"]}
{"id": "C93", "title": "SRFI 143: fixnum operations stay fixnums", "statement": "For fixnums, fx+, fx-, fxneg, fx*, fxquotient, fxremainder, fxabs, fxsquare, fxmax, fxmin, fxnot, fxand, fxior, fxxor, fxif, fxarithmetic-shift, fxbit-count, fxlength, fxfirst-set-bit, fxcopy-bit, fxbit-field, fxbit-field-rotate and fxbit-field-reverse return the mathematical result, and fixnum? holds of it if and only if it lies between fx-least and fx-greatest; fxsqrt returns the integer root and the remainder.", "quantifier": "all 32-bit operands, all shifts below the width, all fields of the word", "why_tests_cant": "2^64 pairs of operands; whether an integer is a fixnum depends on how it was computed, not on its value, and it prints the same", "anchors": ["library/srfi-143.ss", "library/srfi-151.ss", "src/kernel/number.cpp", "src/kernel/number/bitwise.cpp"]}
{"id": "C94", "title": "Types are disjoint and accessors belong to their types", "statement": "No object satisfies two of the type predicates of the report, of the homogeneous vectors, of boxes, error objects, transformers and syntactic closures, and what a predicate says of an object never changes; car, cdr and their 28 compositions follow the letters of their names from pair to pair, set-car!, set-cdr! and set-box! change one field only; error objects give back their message and irritants; each port is for input or output and for text or bytes as the procedure that opened it says. Applied to objects of other types these procedures raise errors.", "quantifier": "all heaps, all objects, all accessor names, all irritant lists", "why_tests_cant": "predicates mix questions about the exact class with questions about base classes, and almost every class has pair as a base: a test picks a few objects of a few classes", "anchors": ["src/kernel/boot.cpp", "include/meevax/kernel/object.hpp: is, is_also, as", "include/meevax/kernel/pair.hpp", "include/meevax/kernel/error.hpp", "library/r7rs.ss: error-object-message, input-port-open?"]}
{"id": "C95", "title": "The standard libraries", "statement": "Every library of the system can be imported; those of R7RS small, of R7RS large and of the SRFIs export every name of their reports, each defined, except the auxiliary keywords; every name their code refers to is defined where the code is; libraries can be imported together in any number and order, through only and except, and through prefix and rename if the new names are distinct, into a library, into an environment or at the top level, and then each name means the same as in every library that exports it, and no other name changes. No primitive is missing at the start and none is registered twice.", "quantifier": "all libraries, all names, all lists of import sets, all environments", "why_tests_cant": "a test imports a few libraries in one order; whether imports conflict depends on which of 76 libraries made the variable behind each of some two thousand names, and on whether a renamed export makes a new variable at each import", "anchors": ["src/kernel/boot.cpp", "src/kernel/environment.cpp: import_set, import", "src/kernel/library.cpp: import_set", "library/*.ss: define-library"]}
{"id": "C96", "title": "Programs as texts", "statement": "Loading a file evaluates its data one after the other, each before the next is evaluated, and stops at the first that throws; the REPL evaluates its input one datum after the other, prints each value or reports the message and the irritants of the error and goes on, and ends at the end of the input; a text that ends within a list is an error that can be caught, after the data before it have been evaluated; the exit status of the process is zero exactly if nothing was thrown or zero was asked for.", "quantifier": "all sequences of data, all ways to lay them out with white space and comments, all evaluators, all states, all numbers of rounds", "why_tests_cant": "a test runs a few files; whether reading stops depends on the state of the stream after the last token, and what a malformed file does depends on which exception escapes", "anchors": ["src/kernel/environment.cpp: load", "src/kernel/textual_input_port.cpp: iterator, read, at_end_of_file", "src/main.cpp: main"]}
{"id": "C97", "title": "The end of the process destroys every object once", "statement": "When the process ends normally, every object of the heap that still exists is destroyed exactly once, whatever references and cycles there are and however many types of objects have been used; no object that was freed before is destroyed again, and none is left.", "quantifier": "all states a program can reach, any number of allocators", "why_tests_cant": "the loop erases elements from the very set it walks over, and runs once for the first of many static destructors; a test sees that a process exits, not that nothing was destroyed twice or left out", "anchors": ["src/kernel/collector.cpp: clear, clear_once, object::~object", "include/meevax/kernel/collector.hpp: stateful_allocator", "include/meevax/memory/pointer_set.hpp: const_iterator, erase"]}
{"id": "C98", "title": "display and write-simple", "statement": "display puts the text on the port in which strings and characters, at any depth, stand for themselves and symbols are not escaped; write-simple puts the same text on the port as write for every datum without cycles.", "quantifier": "all data without cycles", "why_tests_cant": "data nest to any depth and display treats the outermost object differently from the ones inside; write-simple has its own loop over lists, whose step reads a field of an object that is not a pair", "anchors": ["library/r7rs.ss: display, write-simple", "library/r4rs.ss: display", "src/kernel/textual_output_port.cpp: write_simple, put", "include/meevax/kernel/object.hpp: as"]}
{"id": "C99", "title": "walking along several lists, some of them circular", "statement": "map, for-each, fold, any, every and list-index with one or more lists, of which at least one ends and the others may be circular, call the procedure once for each position up to the end of the shortest list, in order, with the elements at that position, and stop as soon as the result is decided; any, every and list-index end on circular lists if some position decides the result; fold, any, every and list-index raise an error for a dotted list before they call the procedure.", "quantifier": "all memories, all numbers and lengths of lists, all circular structures, all procedures that do not change existing pairs", "why_tests_cant": "the number of lists, their lengths and the shapes of their cycles are unbounded, and the procedure can do anything else, including errors and non-termination", "anchors": ["library/meevax.ss: map", "library/r4rs.ss: for-each", "library/srfi-1.ss: fold, any, every, list-index, %cars+cdrs", "src/kernel/boot.cpp: null-list?"]}
{"id": "C100", "title": "macros recognise their literals", "statement": "compare (identifier=?) tells whether two identifiers have the same binding, or are the same name without a binding: a literal such as else matches a symbol of the program exactly when the symbol is that name, is not bound locally where the macro is used, and has the same value in both places or none in both; objects that are no identifiers never match; comparing does not change the result of later comparisons.", "quantifier": "all environments, all nestings of local variables and keywords, all global tables, all symbols and renamed symbols", "why_tests_cant": "whether a literal is recognised depends on every binding around the use and around the definition of the macro, of which there are unboundedly many", "anchors": ["library/meevax.ss: identifier=?, er-macro-transformer", "src/kernel/syntactic_closure.cpp: operator ==", "src/kernel/syntactic_environment.cpp: identify", "include/meevax/kernel/identity.hpp", "include/meevax/kernel/collector.hpp: binder::eqv"]}
{"id": "C101", "title": "macros and the order of definitions at the outermost level", "statement": "While a program is read form by form, a name keeps its variable. A symbol that a macro of the outermost level inserts refers to the variable this symbol has at the outermost level: if it had one when the macro was defined, everywhere and whatever has been defined since; otherwise, at the outermost level, to the variable it has when the macro is used. A macro can insert its own name.", "quantifier": "all programs (sequences of definitions, references and macro definitions) before and after the macro, all nestings of local variables, all names", "why_tests_cant": "what an inserted symbol refers to depends on the order of all forms of the program and on the place of the use", "anchors": ["src/kernel/generator.cpp: define_syntax", "src/kernel/syntactic_environment.cpp: identify, define, expand, generate", "src/kernel/syntactic_closure.cpp: expand, identify"]}
{"id": "C102", "title": "the environments of the reports", "statement": "(scheme-report-environment n) and (null-environment n) give an environment for n = 4 and n = 5 and raise an error for every other n. The first has exactly the names that (scheme r4rs) or (scheme r5rs) exports, as the variables of that library. (null-environment 5) has exactly the syntactic keywords of R5RS, and (null-environment 4) those of them that R4RS has; all of them are defined.", "quantifier": "all natural numbers as versions, all names", "why_tests_cant": "there are infinitely many versions, and infinitely many names that the environments must not have", "anchors": ["library/r5rs.ss: scheme-report-environment, null-environment", "include/meevax/kernel/environment.hpp: environment", "src/kernel/environment.cpp: import_set"]}
{"id": "C103", "title": "the mathematical constants of (srfi 144)", "statement": "Each of the constants fl-e, fl-1/e, fl-e-2, fl-log2-e, fl-log10-e, fl-log-2, fl-1/log-2, fl-log-3, fl-log-pi, fl-log-10, fl-1/log-10, fl-pi, fl-1/pi, fl-2pi, fl-pi/2, fl-pi/4, fl-pi-squared, fl-degree, fl-2/pi, fl-2/sqrt-pi, fl-sqrt-2, fl-sqrt-3, fl-sqrt-5, fl-sqrt-10, fl-1/sqrt-2, fl-cbrt-2, fl-cbrt-3, fl-4thrt-2, fl-phi, fl-log-phi and fl-1/log-phi is a flonum such that no other flonum is closer to the real number it stands for.", "quantifier": "all platforms whose constants and square roots are as ISO C++ and IEEE 754 ask for (for logarithms and powers: whose functions round to nearest), all other flonums", "why_tests_cant": "the constants stand for irrational numbers, which a test can only compare with another rounded number; and = has a tolerance", "anchors": ["library/srfi-144.ss: fl-e ... fl-1/log-phi", "src/kernel/boot.cpp: e, pi, phi", "src/kernel/number/power.cpp: sqrt, pow"]}
{"id": "C104", "title": "numbers of single precision and f32vectors", "statement": "For every number an f32vector holds the nearest number of single precision, the even one of two, an infinity beyond the range; reading gives a number of single precision, and storing what was read changes nothing. A list of numbers makes an f32vector of the same length and order, f32vector-set! changes one element only, make-f32vector gives the length and fill asked for. inexact and f64vectors keep the value of a number of single precision, exact gives it. < and > order numbers of single precision, flonums and exact integers by value, and = tells numbers of different value apart. The sum, difference, product and quotient of numbers of single precision and fixnums are the exact results rounded once to single precision, and with a flonum they are flonum arithmetic. remainder and modulo of a number of single precision and another number are exact and have the sign of the dividend and of the divisor. floor, ceiling, truncate, round, abs and quotient of numbers of single precision are the numbers of single precision R7RS asks for, numerator and denominator the flonums; zero?, positive?, negative?, integer?, rational?, even? and odd? tell what is true of the value.", "quantifier": "all flonums, numbers of single precision and exact integers; all lists, indexes and stores", "why_tests_cant": "2^32 numbers of single precision against 2^64 flonums and all exact integers, vectors of any length", "anchors": ["include/meevax/kernel/homogeneous_vector.hpp L28-L125", "src/kernel/number.cpp L99-L109, L166-L176, L197-L219, L301-L358, L499-L572, L601-L797, L865-L899", "src/kernel/number/nearest_integer.cpp L21-L51", "include/meevax/kernel/number.hpp L315-L338", "include/meevax/kernel/large_integer.hpp L69-L84"]}
{"id": "C105", "title": "the text of numbers of single precision", "statement": "A decimal literal with the exponent marker f whose magnitude is zero or in the normal range is read as the number of single precision that IEEE 754 prescribes for its value, with its sign. write prints a finite number of single precision rounded to six decimal digits, which reads back as the flonum nearest to that, and as the same value when six digits suffice; so it is not so in general, nor for integers below a million, infinities and NaN. number->string gives digits that identify the number among those of single precision, and reads back as the flonum nearest to these, which is in general another number.", "quantifier": "all decimal literals with the marker f, all numbers of single precision, every C library that conforms to the standard", "why_tests_cant": "infinitely many literals, 2^32 numbers", "anchors": ["src/kernel/number.cpp L422-L459", "include/meevax/memory/nan_boxing_pointer.hpp L240-L255", "src/kernel/number.cpp L901-L922"]}
{"id": "C106", "title": "procedures of SRFI 1 on circular lists", "statement": "map, for-each, fold, fold-right, count, map-in-order, filter-map, append-map, pair-for-each, any, every and list-index with several lists, at least one of which has an end and the others of which may be circular, end; they call their procedure on the first elements of all lists, then on the second ones, and so on to the end of the shortest list, and return what they would return for lists cut to that length. find-tail, find, any, list-index, every, take-while and span end on a circular list that has an element which decides their result, and do not call the predicate on any element after it.", "quantifier": "all lists, circular or proper, and any number of them; all procedures, with any effects that leave the pairs of the lists alone", "why_tests_cant": "that a loop over an endless list ends at the right place for all lists, periods and predicates needs induction", "anchors": ["library/srfi-1.ss L199-L229, L271-L277, L316-L333, L359-L393, L487-L563, L587-L595, L856-L886", "library/meevax.ss L127-L142", "library/r4rs.ss L294-L302"]}
{"id": "C107", "title": "elementary functions", "statement": "exp, log, sin, cos, tan, asin, acos, atan, the hyperbolic functions, expm1, log1p, erf, gamma and atan of two arguments give a flonum that depends only on the values of their arguments and not on their representations as fixnums, large integers, ratios, flonums or numbers of single precision: it is the C function of the value whenever a flonum can have it, and of the value truncated otherwise, where a number that underflows loses its sign. A logarithm to a base is the quotient of two logarithms rounded once, and so not exact for exact powers. Of a complex number they are the complex C function of the values of the parts, and a real number if and only if the imaginary part is a zero. The parts of the number make-polar gives are the magnitude times the cosine and the sine, each rounded once. log, asin and acos of real numbers whose image is not real give NaN and no complex number. flloggamma gives the sign of the gamma function wherever the C library gives a number other than zero.", "quantifier": "all numbers of all representations, every C library", "why_tests_cant": "infinitely many numbers, and C libraries differ", "anchors": ["include/meevax/kernel/number.hpp L599-L641", "src/kernel/boot.cpp L224-L237", "src/kernel/number/exponential.cpp L21-L25", "src/kernel/number/trigonometric.cpp L21-L29", "library/srfi-144.ss L265-L344"]}
{"id": "C108", "title": "arithmetic of inexact complex numbers", "statement": "The parts of the sum and the difference of two complex numbers with finite flonums as parts, or of one and a real flonum, are the sums and differences of the parts, each rounded once. In a product the four products of the parts are rounded, and their difference and sum again, so that it is exact for integers of 25 bits. A result is a real number if and only if its imaginary part is a zero. A quotient is the quotient by the square of the magnitude of the divisor, each step rounded once where the steps are in range; it is NaN for a divisor whose square overflows or underflows, even if the quotient is one. A real number times a number with an infinite imaginary part has NaN as its real part. = of two such numbers compares both parts with the tolerance 2^-52, but a number with an imaginary part other than zero is never = to a real flonum. sqrt of a flonum is the square root of the C library, of the absolute value and times the imaginary unit for negative ones. magnitude is the square root of the sum of the squares, each step rounded once, and infinite or zero if the squares are out of range.", "quantifier": "all flonums as parts", "why_tests_cant": "2^256 pairs of operands", "anchors": ["src/kernel/number.cpp L56-L61", "src/kernel/number.cpp L190-L299", "src/kernel/number.cpp L301-L338", "src/kernel/number/power.cpp L75-L120", "src/kernel/number.cpp L843-L858"]}
