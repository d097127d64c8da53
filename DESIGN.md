# Formal model of meevax: design

This directory holds a Lean 4 model of the meevax Scheme interpreter (`/repo`,
pinned commit) and machine-checked proofs of the properties listed in
`properties.jsonl`.  Status of each property is in `MANIFEST.json`; attempts to
break the theorems by editing the model are in `seeded/LOG.jsonl`.

## Layout

* `lean/Verif/Model/*.lean` — the model: total computable functions, each with a
  comment citing the file and lines of `/repo` it models and what is simplified.
* `lean/Verif/Spec/*.lean` — small independent specifications (sets, lists,
  integers, trees, reference evaluators) that mention nothing of the model's
  helper functions.
* `lean/Verif/Lemmas/*.lean` — helper lemmas and invariants.
* `lean/Verif/Props/*.lean` — the property theorems, one file per group, each with
  `example`s showing that a concrete, non-trivial case meets the hypotheses.

## Trusted base

* Lean 4.33.0's kernel.
* Axioms: at most `propext`, `Classical.choice`, `Quot.sound` (checked by
  `#print axioms`).  No axioms of our own, no `sorry`, no `native_decide`, no
  `bv_decide`.
* The reading of the C++/Scheme source.  Nothing is extracted or run: the tie
  between code and model is the citation on every definition.
* External behaviour assumed as parameters or mirrored by simple definitions:
  GMP (`mpz_*`, `mpq_*` as integers/rationals, `mpq_get_d` as truncation to 53
  bits), `std::countr_zero`/`popcount`/…, `std::vector`, `std::unordered_map`,
  iostreams as byte sequences.

## Conventions

* Undefined behaviour of the C++ code is a distinct outcome (`ub`) or an
  arbitrary value quantified in the theorem; it is never assumed away silently.
* When a property as stated in `properties.jsonl` is false of the code, the
  theorem `…_fails`/`not_…` proves the negation on a concrete witness and a
  `…_partial` theorem proves the part that does hold.

## Plan per property

| id | what is modelled | how it is proved |
|----|------------------|------------------|
| C01 C02 | `nan_boxing_pointer`: the 64-bit word, signature/payload masks, constructors, `is`, `as`, `==` on `BitVec 64` | bit-vector case analysis on signatures, all 2^64 words |
| C03 C04 | `pointer_set<T,E,Es...>`: leaf bitmap, node with occupancy words, `i_min/i_max`, iterators with `seek`; out-of-bounds word read returns an arbitrary word | refinement to a finite set; the node level is proved over an abstract sub-set implementation and instantiated twice |
| C05 | `segregated_storage_allocator`: free list and bump blocks | invariant over operation histories |
| C06–C09 | collector: registered slots, heap data extents, `is_root`, `collect`, `request`, `make` | mark loop invariant, reachability as an inductive relation, accounting by induction |
| C10–C13 | `list.cpp` on an explicit heap of pairs | Floyd invariant; induction on list representation predicates with frame conditions |
| C14 C15 | `comparator.cpp` union-find `equal` on heap graphs | termination measure (number of classes), bisimulation |
| C16–C23 | `character`, `string`, `symbol`, `pair`, `vector` writers; `textual_input_port` reader on byte lists | round-trip by induction, prefix-freeness of tokens |
| C24–C33 C57 | number tower restricted to exact kinds; division through `mpq_get_d`; bitwise; Scheme-level SRFI 141/143/151 | integers with `omega`/`ring`, `Int` bit lemmas |
| C34–C40 | `generator.cpp`, `syntactic_environment::identify`, `dynamic_environment::run` | reference abstract machine over named expressions (`Spec/Scheme.lean`); step-by-step simulation with a world of labelled cells (`Lemmas/Secd*.lean`) |
| C41–C44 | `library/meevax.ss` dynamic-wind, srfi-39, srfi-34, srfi-45 as state machines over the Scheme-level semantics | induction on extent stacks, heap of promise boxes |
| C45–C49 | symbol table, import sets, cond-expand, libraries | association-list algebra, induction over histories |
| C50–C52 | vectors/strings/bytevector ports as lists with UB outcomes | list lemmas |
| C53 | expander, syntactic closures, `identify`, code generation on closures | an independent hygienic semantics with lexical addresses (`Spec/Hygiene.lean`); simulation by induction on its derivations (`Lemmas/Hygiene*.lean`) |
| C64 | the same, and the machine | terms are read back as expressions with a name of its own for every variable (`Spec/Readback.lean`); the code of a term is the code of its expression; then C34, C35 and C40 |
| C65 | exact `complex` objects over the exact numbers | values in Mathlib's field of complex numbers; folds over argument lists; the reader's regular expressions on written parts |
| C66 | the transformers of library/r4rs.ss on top of C53 and C64 | a semantics with a rule for each derived expression type (`Spec/Surface.lean`) and the syntax of R7RS 4.2 and of bodies with internal definitions (`Spec/SurfaceSyntax.lean`); a translation into the core language that keeps behaviour (simulation, `Lemmas/Derived*.lean`); what is read expands to the translation (induction on the reading, `Lemmas/Surface*.lean`); control space: related continuations are equally deep, and a step is at most 12 steps of the translation (`Lemmas/DerivedSpace.lean`) |
| C67 | `write-with-shared-structure` and `read-with-shared-structure` of library/srfi-38.ss on tokens | texts with datum labels and the graphs they denote (`Spec/DatumLabel.lean`); counting of occurrences in `scan`; a chain of ancestors for termination; readers' heaps with unknown parts, filled in afterwards
| C68 | `operator <<` of pairs and vectors, `is_circular_list`, `read` and `circulate` of textual_input_port.cpp, on tokens | the texts of C67; objects whose cycles are circular lists (`Spec/DatumRing.lean`), correctness of `is_circular_list` from C10; patching of the cdrs by `circulate`; unfolding (`Similar`) for the round trip |
| C69 | `syntax-rules-transformer` of srfi-149.ss: the functions that make the text of the transformer, and the texts with their evaluation | independent matching and instantiation relations (`Spec/SyntaxRules.lean`); simulation of the continuation-passing generator: the text for a pattern runs the rest with the variables bound to nested lists, or is `#f`; the text for a template builds its instance |
| C70 | `rationalize` of r4rs.ss on exact numbers, with the arithmetic of `Model/Number` | the simplest rational of an interval (`Spec/Rationalize`); induction on the denominators of the ends |
| C71 | the transformer `quasiquote` of r4rs.ss, the texts it makes and their evaluation over arbitrary user expressions | meaning of templates by nesting level (`Spec/Quasiquote`); induction on the template |
| C72 | `exact`, `inexact` and the conversions to `double`, with binary64 data as sign and magnitude (`Model/Inexact`) | representable magnitudes, truncation and nearest value (`Spec/Inexact`); arithmetic of grids of powers of two |
| C73 | the comparison operators over exact numbers and `double`s | the extended number line; every pair of representations |
| C74 | `+ - * /`, `floor` … `round`, `abs`, predicates, `max`, `min` with `double` operands | IEEE 754 rounding stated as nearest value, ties to even; the model's rounding function is proved to meet it |
| C75 | `%` over `double`s (`fmod`, `remainder`), `quotient`, `modulo`, `numerator`, `denominator` | the division equation; rounding a quotient does not reach the next integer |
| C76 | the template of `guard` (srfi-34.ss) as a translation of programs to the machine of C41–C43 | the continuation, handlers, bindings and extents read off the stack; runs of `windup!` through calm states |
| C77 | `make_real`'s literals with `strtod`, `write` and `number->string` of a `double` (`Model/InexactText`); `std::to_chars` is any function that obeys ISO C++ | decimal numbers as sign, digits and exponent (`Spec/InexactText`); uniqueness of the nearest number; shortest digits |
| C78 | library/srfi-144.ss and the `binary64-` procedures (`Model/Flonum`) | neighbours on the number line and 53-bit significands (`Spec/Flonum`); the grid of representable magnitudes; `Rounds` of C74 |
| C79 | homogeneous_vector.hpp and its procedures in boot.cpp (`Model/Homogeneous`, on top of `Model/Sequence`) | `Fits`, `Stands` (`Spec/Homogeneous`) and the notions of C50; case analysis on representation and width, induction on lists |
| C80 | configuration.cpp and main.cpp (`Model/CommandLine`), over an arbitrary host | a grammar of command lines and the meaning of commands (`Spec/CommandLine`); induction on derivations, totality by strong induction |
| C81 | textual_context.cpp, include.hpp, `load` and the constructors of file ports (`Model/Include`), over an arbitrary file system | the list of names searched and the first file in it, histories of opening, reading and releasing (`Spec/Include`); induction on names, directories and histories |
| C82 | the syntax rules of SRFI 8, 11 and 16 as data, expanded by the model of syntax-rules (`Model/LibraryMacros`), the core forms they expand to over an arbitrary monad | what the forms do, without expansion (`Spec/LibraryMacros`); induction on formals, bindings and clauses, uniqueness of matching and expansion |
| C83 | the tables the build makes from the Unicode data file by grep and sed, the functions of characters over them, the procedures of characters and string case (`Model/Character`) | the data file as a list of characters and ranges, its properties (`Spec/Character`); fields of lines, unique entries, induction on argument lists |
| C84 | the source of `apply`, compiled and run by the models of the code generator and the machine (`Model/Apply`) | an operand list of the given arguments at a tail call of the procedure (`Spec/Apply`); symbolic execution, chains of pairs under extension of the heap |
| C85, C86 | `execute` with its catch clauses, called again by `eval`, `load` and exception handlers (`Model/Execute`) | running by itself; a single machine where `eval` is a call (`Spec/Execute`); frames below a run, simulation, counting of errors |
| C87 | the rules of `define-values`, expanded by the model of `syntax-rules`, and an evaluator for what they leave, on a heap of pairs (`Model/DefineValues`) | what the variables hold afterwards and which pairs have changed (`Spec/DefineValues`); induction on the variables with the list that is left as invariant |
| C88 | files, file ports and string ports under sequences of calls, with a platform that decides when buffers are written (`Model/FilePort`); the procedures of library/r4rs.ss that open and close, as a program of `Model/Control` | contents of a file against the text written, characters read against the contents (`Spec/FilePort`); invariant: one port owns the file, and its buffer is the rest of the text; for the procedures, runs of C41/C42 |
| C89 | the transformers of `case`, `when`, `unless`, `letrec*`, and an evaluator for what they leave, around opaque expressions of the user (`Model/Case`) | the rules of R7RS 4.2 on clauses, and on locations for `letrec*` (`Spec/Case`); induction on the clauses, the data, the bindings |
| C90 | the procedures of srfi-1.ss whose names end in `!`, over the heap of pairs (`Model/LinearUpdate`) | the calls of the predicate and the pairs that make up the results (`Spec/LinearUpdate`); induction along the list, with the pairs that have been relinked as invariant |
| C91 | `string-map`, `vector-map`, `string-for-each`, `vector-for-each`, `list-set!`, `boolean=?`, `symbol=?` of r7rs.ss (`Model/Base`) | `List.mapM` over the columns of the contents at the call, in any monad over a store (`Spec/Base`), by C56 and C50; the pairs of C11; words of C15 |
| C92 | srfi-78.ss, all but the commented `check-ec` (`Model/Check`) | the completed checks as a list with their outcomes, texts as tokens (`Spec/Check`); refinement over arbitrary sequences of operations |
| C93 | srfi-143.ss, the aliases (`Model/Fixnum`, over `Model/Number` and `Model/Bits`) | canonical representation of intermediate results; ranges by bits (`Lemmas/Fixnum`) |
| C94 | type predicates, class hierarchy, accessors of pairs, boxes, error objects, ports (`Model/Types`) | every predicate is a question about the class; inheritance as reflexive-transitive closure; cells with a pair part |
| C95 | all 76 libraries of the system as data: builtin definitions, import sets, exports, defined and referred names (`Model/System`, `Model/SystemData`) | an interface table checked in the kernel against the declarations, library by library in order of dependency; agreement of interfaces lifted to arbitrary lists of import sets |
| C96 | `environment::load`, the port iterator, the REPL and the exit status over the model of the reader (`Model/Program`), evaluation being a parameter | induction on a grammar of program texts over the layout grammar of C23; induction on rounds |
| C97 | `clear`, `clear_once` and the destructors of the allocators over the model of the collector (`Model/Shutdown`) | an iterator of the address set stays usable when the element it stands at is erased (new field of the refinement of the set, leaf and node); induction on the number of elements |
| C98 | `display` and `write_simple` (`Model/Display`): the bytes they put on a port; a relation of data and shown texts as specification | strong induction on data; lengths of the texts for the converse: every datum with an escaped object inside, and every one with a dotted list, comes out differently |
| C99 | `map`, `for-each`, `fold`, `any`, `every`, `list-index` on lists in memory (`Model/ListWalk`), with any procedure of the user; rows of elements as specification | induction on the rows; the memory after a call extends the one before; existence of the rows from the length of the shortest list |
| C100 | `identifier=?`, `compare`, the `identify` that binds, `eqv?` of identities (`Model/Compare`, on the environments of `Model/Expander`); the meaning of a symbol as an inductive specification | the search of `identify` decides the meaning; what `compare` sees of a meaning is kept by every binding it makes |
| C101 | `define`, references and `define-syntax` at the outermost level (`Model/Toplevel`), with the expander and the generator of C53 for inserted symbols | induction on the forms of the program: names are only added; the search of `identify` in the environment of the macro |
| C102 | `scheme-report-environment` and `null-environment` on the libraries of C95 (`Model/SystemReport`) | the written name of a version is injective (digits); the interfaces of C95; the import of a set whose names are different |
| C103 | the definitions of the constants of (srfi 144) (`Model/Constants`), on the arithmetic of C74; the platform is a parameter | bounds of e, π, φ, logarithms and roots in the reals (Mathlib's bounds, series); a magnitude nearer than half a unit is the only closest one |
| C104 | `float` objects, f32vectors, operators and comparisons with `float` operands (`Model/Single`), on C74 and C79 | the grid of binary32 as that of binary64; rounding once against the specification of IEEE 754; concrete witnesses for the double roundings |
| C105 | literals marked `f` and `write` of a `float` (`Model/SingleText`), on C77 and C104 | grammar of C77 with the marker replaced, rounding of C104; `%g` as a relation of ISO C, shown satisfiable |
| C106 | the loops of srfi-1.ss, `map` and `for-each` over pairs, with a number of rounds (`Model/Circular`) | induction on the length of the shortest list or the position of the deciding element; circular lists have an element at every position |
| C107 | elementary functions, `log`, `atan`, `flloggamma` (`Model/Elementary`) with the C functions as parameters | conversion of C72 shown exact on representable values; quotients of C74; bounds of C103 for the logarithms, recurrence of the gamma function |
| C108 | operators on complex numbers with parts of any representation, `sqrt` of flonums, `magnitude` (`Model/InexactComplex`) | rounding of C74 for each step; failures by bounds on the squares |
| C54–C56 | values, records, SRFI 1 | equational proofs |

## What is modelled, and what is not

* **NaN boxing, pointer set, allocator, collector** (`Model/NanBox`, `PointerSet`, `Allocator`,
  `Collector`): all operations.  Not modelled: threads, the order of destructors, `clear`.
* **Lists** (`Model/Lists`): the list library of `list.cpp` on an explicit heap.
* **Equality** (`Model/Equal`): `eq`, `eqv`, `equal` with union-find; numbers compare by a parameter.
* **Text** (`Model/Utf8`, `Reader`, `Writer`, `NumberSyntax`): code points, byte streams with the
  iostate flags, the reader, `write`, integer and ratio literals.  Elsewhere: floating literals (`InexactText`), complex
  literals (`Complex`), datum labels (`DatumLabels`), `write` with labels (`SharedStructure`), homogeneous vectors
  (`Homogeneous`).
* **Machine and code generator** (`Model/Machine`, `Generator`, `Builtins`): the 23 instructions,
  code generation for the core forms, eleven builtin procedures.  Not modelled there: macros and
  syntactic closures (see the expander), the `apply` instruction path through `call-with-values`,
  exceptions re-entering the machine.
* **Expander** (`Model/Expander`): `syntactic_environment::expand` and `compile`, the expander's
  renaming of symbols (alpha), syntactic closures and their `identify`, the transformers
  `er-macro-transformer`, `sc-macro-transformer`, `rsc-macro-transformer`, `let-syntax`,
  `letrec-syntax`, internal definitions, and the code generator on forms with closures.  A macro is an
  arbitrary function from its use to a template of inserted identifiers and parts of the use; the
  pattern language of `syntax-rules` is not modelled here, and the procedure `compare` only in `Model/Compare`.
* **Text of single precision** (`Model/SingleText`): literals with the marker `f`, `write` of a `float`.  `strtof` is correctly
  rounded; `%g` is a parameter constrained by `Printf`.  `std::to_chars`
  for `float` by `ToChars32`.  Not modelled: the sign printed for a NaN, `number->string` in radices other than 10.
* **Single precision** (`Model/Single`): `float` objects in homogeneous vectors, `+`, `-`, `*`, `/`, the comparisons, `exact` and
  `inexact`.  The conversion of a `double` beyond the range of `float` is that of IEEE 754.  Not modelled: `%`, complex
  numbers of `float`s; for their text see `Model/SingleText`.
* **Constants** (`Model/Constants`): the definitions of library/srfi-144.ss; `e`, `pi`, `phi`, `std::sqrt`, `std::log` and `std::pow`
  are parameters with the hypotheses of `Spec/Constants`.  Constants that are whatever a function of the C library gives
  are not modelled.
* **Reports** (`Model/SystemReport`): `environment` with the import sets of the two procedures; versions are natural numbers.
* **Outermost level** (`Model/Toplevel`): what `define`, `define-syntax` and references do to the names of an environment; no
  imports in between, and the transformer spec of `define-syntax` is evaluated already.
* **`compare`** (`Model/Compare`): `identifier=?`, `compare`, the `identify` that binds an unbound name, and `eqv?` of what it
  finds; on the environments of the expander, with global variables as cells of a name and a value.  That `compare` is called
  in the course of an expansion is not modelled.
* **Shared structure** (`Model/SharedStructure`): SRFI 38, `scan`, `write-obj`, `read-object`, `fill-in-parts`, on
  a heap of pairs, vectors and strings; texts are lists of tokens, literals are opaque.
* **Datum labels** (`Model/DatumLabels`): `operator <<` of pairs and vectors with the table of labels of the stream,
  `is_circular_list` through the model of list.cpp (C10), `read` and `circulate`.  Texts are tokens; skipping to the
  closing parenthesis after the rest of a dotted list is by tokens; literals, comments and abbreviations are not
  covered here (C18-C22).
* **`syntax-rules`** (`Model/SyntaxRules`): the generator of library/srfi-149.ss (`expand-pattern`, `all-vars`,
  `free-vars`, `expand-template`, …), the texts it makes as a small language `Exp`, and an evaluator for them.
  Identifiers are numbers; `compare` and `rename` are parameters.  That the machine gives those texts this meaning is
  not proved (the keywords and procedures in them are covered by C66 and others separately).
* **`rationalize`** (`Model/Rationalize`): `simplest-rational-internal`, `simplest-rational`, `rationalize`, cut off after a
  number of nested calls; the theorems give the number that suffices. Not modelled: inexact operands.
* **`quasiquote`** (`Model/Quasiquote`): `expand`, and the evaluation of the texts it makes. The meaning of identifiers
  (`compare`, the symbol of an identifier) and the effect of the user's expressions are parameters.
* **Inexact numbers** (`Model/Inexact`): a `double` is a sign and a rational magnitude, an infinity or NaN (one NaN). The
  operations `+ - * /` round to nearest, ties to even; `fmod`, `remainder`, `trunc` … are exact, as IEEE 754 and the C
  standard say; `mpz_cmp_d`, `mpq_set_d` and the truncating conversions from GMP numbers follow the GMP manual.  Trusted:
  that the C++ implementation follows IEEE 754 in the default rounding mode.  Elsewhere: `float` operands (`Model/Single`), and
  elementary functions (`Model/Elementary`), where the functions of the C library are parameters. `Model/InexactComplex`: `complex` operands.
* **Text of inexact numbers** (`Model/InexactText`): `strtod` on what the pattern of `make_real` lets through, correctly rounded
  as in glibc; when it reports underflow is a parameter, as ISO C leaves it open.  `std::to_chars` is a parameter too, with the
  requirements of ISO C++ as a hypothesis (`ToChars`), which `C77_to_chars_exists` shows to be satisfiable.  Not modelled:
  `float` literals (marker `f`), and `number->string` of a `double` in radix 2, 8 and 16.
* **Flonums** (`Model/Flonum`): the procedures of SRFI 144 that are not transcendental.  The functions of `<cmath>` (`nextafter`,
  `modf`, `frexp`, `ldexp`, `logb`, `fma`, `remquo`, ...) are definitions that follow ISO C annex F, and belong to the trusted
  base; `sqrt` and `pow` are parameters.  Not modelled: the sign bit of NaN (either answer is possible), ratios as the second
  operand of `make-flonum`.
* **Homogeneous vectors** (`Model/Homogeneous`): conversions between numbers and elements for the eight integer types and
  `double`, and the procedures that use them. f32vectors and `float` objects are in `Model/Single`. Not modelled: byte order.
* **Command line** (`Model/CommandLine`): the options, `configure`, the REPL loop and the exit status of `main`. Reading,
  evaluating and loading are parameters; `boot` and `load_scheme_libraries` are not part of it.
* **Files** (`Model/Include`): `locate` with its three kinds of places and the extensions, the table of source
  files of pairs, `include` at the top level and in bodies, `load`, the constructors of the file ports and what
  `file-error?` says about what they throw. The file system, `std::filesystem::path` and the reader are parameters.
* **Macros of the library** (`Model/LibraryMacros`): the rules of `receive`, `let-values`, `let*-values` and
  `case-lambda` as data for the model of `syntax-rules`, and a relation giving meaning to the core forms they expand
  to (`call-with-values`, `lambda`, `let`, `if`, `apply`, application of a few primitives) over an arbitrary monad.
  Simplified: expressions and bodies of the user are opaque; identifiers are numbers, and that renaming makes new
  ones with the meaning of the old is the condition `Fresh`, met by a concrete supply in `Props/LibraryMacrosExample`.
* **Characters** (`Model/Character`): the three sed scripts and the grep of CMakeLists.txt on a data file, the `switch`
  statements they make, `character::property` and the functions on it, the procedures of `(meevax character)` and
  `(scheme char)`, `string-upcase`, `string-downcase` and `string-foldcase`.  Simplified: a `switch` is the list of its
  labels (the compiler rejects duplicates; there are none by `entries_distinct`).  That the file in /repo has the
  format `Data` was checked by a script, not by Lean; `Props/CharacterExample` has fourteen of its lines.
* **apply** (`Model/Apply`): the source in library/meevax.ss as a form; its code is what `generate` makes of it.  The
  primitives `null?`, `car`, `cdr`, `cons`, `reverse` and `append` are known by their results on proper lists (`Library`).
* **eval, load and errors** (`Model/Execute`): calls of `execute` on the C++ stack as a list of frames, the catch clauses, and
  the loops of `evaluate` and `load`.  Compilation, the reader and error objects are parameters; forms that `evaluate` treats
  itself (`import`, `define-library`, `include`) are not run step by step.
* **define-values** (`Model/DefineValues`): the rules of library/r7rs.ss as forms.  Expressions of the user are functions of
  the store; a definition assigns.  `call-with-values` hands on the list of the values itself (C84).
* **File ports** (`Model/FilePort`): a file is a list of bytes, a name refers to a file; `std::ofstream` and `std::ifstream`
  are an offset and a buffer, and an arbitrary `Platform` says how much of the buffer is written after each `put`, how far
  is read ahead, and which names can be opened for writing.  Input and output errors after opening, directories and
  permissions of input files, appending, and the standard ports are not modelled.
* **`case`, `when`, `unless`, `letrec*`** (`Model/Case`): the transformers on forms; expressions of the user are functions of
  the environment (locations of variables) and the store.  In a body only `(define x e)` is a definition.
* **Linear update procedures** (`Model/LinearUpdate`): on the heap of pairs of C09–C13.  Procedures of the user are functions
  of their arguments, the heap and a state of their own; they return no heap, that is, make and change no pairs.
  `append-map!` is not modelled.
* **Procedures of (scheme base)** (`Model/Base`): `string-map` and its relatives run the procedure of the user in
  `StateT store n` for an arbitrary monad `n`; intermediate lists are Lean lists.
* **Testing** (`Model/Check`): SRFI 78; expressions of the user are computations over text, world and (for `check` itself)
  the variables of the library, that may raise; printed objects are tokens.
* **Derived expression types** (`Model/DerivedForms`): the transformers of `cond`, `and`, `or`, `let`,
  `let*` and `do` in r4rs.ss as templates; `compare` is equality with the symbols `else` and `=>`, and
  the transformers themselves are not run on the machine.  Renamed symbols get their numbers from left
  to right, the code evaluates operands from right to left.  Not modelled: `case`, `quasiquote`,
  `letrec*`, `case-lambda`, `let-values`, `guard`.
* **Exact numbers** (`Model/Number`, `Division`, `Bits`): fixnums, `mpz`, `mpq` and every combination
  of them in `+ - * /`, comparison, division, gcd/lcm, bitwise operations, shifts, roots and powers;
  SRFI 141, SRFI 151 (without the vector variants), the carry operators and shifts of SRFI 143.
  Signed 64-bit overflow, shifts by 64 or more and GMP's fatal errors are `undefined`.  GMP itself is
  modelled by the mathematical operation its manual promises; the conversion from `mpq` to double by
  truncation to 53 bits; the C library's `sqrt` and `pow` are parameters.  Inexact operands: see
  `Model/Inexact`.
* **Exact complex numbers** (`Model/Complex`): `complex` objects with exact parts in `+ - * /`, the
  comparisons, the predicates, the parts, `magnitude`, the arguments `angle` gives to `atan2`; their
  literals and written form.  Not modelled: logarithms to a complex base (elementary functions and `make-polar` are in `Model/Elementary`).
* **Dynamic state** (`Model/Control`): `dynamic-wind`, `call/cc`, `parameterize`,
  `with-exception-handler`, `raise`, `raise-continuable`, `exit` (its compiled source in `Model/Exit`), primitive exceptions; the user's
  program is an arbitrary transition system that performs these actions.  `guard`
  (`Model/Guard`) is a translation of programs that follows its template, one piece of code for each
  `lambda`.  Not modelled: `guard-aux` (the clauses are arbitrary code), `with-exception-handler` re-entered
  by hand.
* **Promises** (`Model/Promise`): srfi-45.ss on an explicit heap of promises and boxes; again for an
  arbitrary program.  Not modelled: continuations captured while a promise is forced.
* **Symbols** (`Model/Symbol`): the symbol table on top of the collector's memory.
* **Libraries** (`Model/Library`): import sets, `define-library`, `import`, `export`, `begin`, `include`,
  `cond-expand`, the registry keyed by the written name; evaluation of expressions is an arbitrary
  function that mentions, defines and assigns variables.  Not modelled: `eval`, `load` and
  `environment` called from expressions, macros that expand to `import`, reading of files.
* **The libraries of the system** (`Model/System`, data in `Model/SystemData`): the names that boot registers and defines, and
  for every library in `library/*.ss` its import sets, exports, the names its body defines and the names its body refers to,
  in order.  The data was extracted from the sources by a script and is part of the trusted base; bodies are reduced to
  names, so what a definition computes is not in this model (it is in the models of the other properties).
* **Programs as texts** (`Model/Program`): the loop of `load`, the rounds of the REPL and the exit status of `main`, over the
  reader of `Model/Reader`.  What evaluation does is an arbitrary function on an arbitrary state (`Host`).
* **Vectors, strings, bytevectors** (`Model/Sequence`): the procedures of boot.cpp on a store of
  sequences, with the conversion of indices; case folding is a parameter.  Not modelled: the heap
  identity of the elements (`vector-map` and friends: C91).
* **Binary ports** (`Model/BytePort`): bytevector ports and binary file ports with the iostate flags.
  Not modelled: failing devices, buffering.
* **Multiple values** (`Model/Values`): `values`, `call-with-values`, `define-values`; producers and
  consumers are computations of any monad; what a continuation procedure does with several arguments.
* **Records** (`Model/Record`): `(srfi 9)` function by function over a store of vectors.
* **SRFI 1** (`Model/Srfi1`): the procedures of srfi-1.ss without `!`, with `map`, `for-each`, `member`
  and `assoc`.  Procedures supplied by the user are functions into an arbitrary monad, which fixes the
  arguments, the order and the number of their calls.  Lists are proper; `eq?` on lists is an oracle that
  is only assumed sound.  The linear update procedures (`filter!`, ...) are in C90.

## Findings: properties that fail on the code

Each is a theorem `…_fails` with a concrete witness; the manifest notes list them per property.
The most notable:

* `equal?` does not terminate on cycles through vectors (C14) and compares u8vectors of different
  lengths wrongly (C14).
* `read` loops on a comma before white space, and swallows tokens at the end of input (C23, C60).
* `write` does not quote what `read` needs quoted in several symbols and strings (C18-C20).
* A re-entered continuation of an operand shares the argument cells evaluated before with the frame
  of the first call, so an assignment to a parameter is visible after re-entry (C37, C38).
* `call-with-current-continuation!` outside tail position returns into nothing; its operand is
  compiled with the tail flag and then replaces the call (C38).
* No arity check: missing arguments are read through a null pointer (C40).
* `quotient` and everything built on it goes through a double: wrong above 2^53 (C26, C31);
  division by exact zero kills the process (C25, C26, C31).
* `(/ 6 3)` is not an exact integer object (C25); `round/` takes halves away from zero (C31);
  `fxarithmetic-shift-right` shifts left (C57); `sqrt` of a big non-square is an exact integer (C33);
  `expt` of fixnums goes through a double (C62).
* A jump between extents of unequal depth runs every after of the source and every before of the
  target, also of the extents they share; an after that escapes is run again (C41).
* `exit` runs no `after` (`C41_exit_fails`).  `(meevax continuation)` uses `letrec` but does not import it; its body is
  then a call, and `(emergency-exit . xs)`, the last operand, is evaluated first (`C41_exit_code`, on the compiled source).
* A handler that returns from `raise` ends the program without the outer handlers being called (C43).
* A promise that is forced through `delay-force` is evaluated again when it is forced itself, and
  `promise?` no longer recognises it: `promise-update!` writes the car instead of the cdr (C44).
* NUL characters are dropped from symbol names, so different strings give the same symbol (C45).
* `prefix`, `rename` and renamed exports copy the value into a new variable: assignments by the library
  are not seen by the importer (C46), importing the same set twice in a library is an error (C47), and
  importers do not share the variable (C49).  Identifiers that the library does not export are accepted
  in `only`, `except` and `rename`, and a library name cannot begin with a number (C46).
* `(library ...)` in `cond-expand` only knows libraries that are loaded already (C48).
* A library whose body raised an exception is half initialised, and importing it again succeeds (C49).
* Out-of-range indices are only checked by `string-ref` and `string-set!`; `vector-copy!` and
  `bytevector-copy!` overwrite elements before they are copied when they move towards the end of one
  object; `string->vector` and `string->utf8` ignore the range, `bytevector-append` its third argument
  (C50).
* `string-ci=?`, `string-ci>?`, `string-ci<=?` and `string-ci>=?` are not the comparison of the folded
  strings (C51).
* `read-bytevector` gives an eof object although bytes are left (C52); at the end of a binary file
  `peek-u8` gives -1 and `read-bytevector` an empty bytevector (C63).
* C54: the procedure that stands for a continuation passes on only its first argument, so values delivered
  by calling a continuation are lost except the first (`C54_continuation_fails`).
* C55: records are vectors whose first element is a marker; `vector?` holds of them, and `vector-set!`
  changes the type of a record (`C55_vector_fails`).
* C53: the compiler is not hygienic for a macro whose result is a variable that is bound twice
  (`(lambda (x) (lambda (x) (and x)))` refers to the outer `x`), for internal definitions and `letrec`
  that shadow, for inserted identifiers that are not bound yet where the macro is defined, for local
  macros under variables bound twice, for variables named like a macro, and for `sc-macro-transformer`;
  a quoted list in a template keeps renamed objects in place of its symbols (`C53_..._fails`).  The compiler
  never ends on a body with a macro that defines a variable it inserts, such as `(define-values () ...)`
  (`C53_inserted_definition_fails`).
* C65: `magnitude` of a negative real number is negative, `angle` swaps the arguments of `atan2`,
  `(make-rectangular 1 0)` is an integer but not `rational?`, and `>=` holds between it and every real
  number; `1+2i` has an inexact imaginary part, and `1+2/3i` is a symbol (`C65_..._fails`).
* C67: `write-shared` gives no label to an empty vector or string that occurs more than once, so its identity is
  lost (`C67_empty_vector_fails`).  `read-with-shared-structure` takes the character after a backslash as it is: a
  newline, written as `\xA;`, comes back as `xA;` (`C67_string_escape_fails`).
* C68: `write` never ends on a list that runs into a cycle its first pair is not on (`C68_write_fails`), nor on a cycle
  through a car or a vector (`C68_write_car_fails`, `C68_write_vector_fails`).  The table of labels lives as long as the
  outermost pair, so a vector with two circular lists declares label 1 twice (`C68_write_label_twice_fails`).  `read`
  forgets a label when its datum has been read: texts with shared parts, such as those of `write-shared`, are errors
  (`C68_read_shared_fails`).  It replaces labels only in cdrs: elsewhere an object that is not of the language remains
  (`C68_read_car_fails`, `C68_read_vector_fails`).  It never ends on a circular list inside of another one
  (`C68_nested_fails`).  `#1=#1#` or an error inside of a labelled datum leaves the label with the port, and later texts
  with it are errors (`C68_read_self_fails`, `C68_read_error_fails`).
* C69: two ellipses after a compound template splice its parts (`C69_two_ellipses_fails`); a literal before an ellipsis
  matches anything (`C69_literal_ellipsis_fails`); `(... t)` inserts `t` as it stands, not instantiated and not renamed
  (`C69_escape_fails`); an ellipsis in the list of literals stays an ellipsis (`C69_ellipsis_literal_fails`); different
  numbers of repetitions are silently cut to the shortest (`C69_lengths_fails`); `_` under an ellipsis is a variable, so
  a template with `_` makes the definition an error (`C69_underscore_fails`).  A
  macro definition that another macro inserts is undefined behaviour if a variable under a compound ellipsis is inserted
  (`C69_inserted_variable_fails`, through `identifier->symbol`, C94).
* C70: `simplest-rational` tests the sign of the wrong end (r4rs.ss L284: `(negative? x)` where IEEE 1178 has
  `(negative? y)`), so around zero the result is not the simplest: `(rationalize 0 1)` is 1 (`C70_zero_fails`). `floor` of a
  ratio goes through a double, so that for big numbers the result is out of the interval (`C70_big_fails`).
* C72: `inexact` of a ratio or a large integer truncates, so `(inexact 1/10)` is not `0.1` (`C72_closest_fails`); `exact` of
  an infinity or NaN hands it to `mpq_set_d`, which aborts (`C72_not_finite_fails`).
* C73: `=` of two inexact numbers allows an absolute difference of 2^-52: it is not transitive, and numbers smaller than
  that are all equal while `<` tells them apart (`C73_transitive_fails`).  A ratio is truncated before it is compared with an
  inexact number (`C73_ratio_fails`).  NaN is equal to itself, and `<=` and `>=` hold of NaN (`C73_nan_fails`).
* C74: `(+ 9007199254740993 1.0)` is not the closest number, since the exact operand is truncated first
  (`C74_operand_fails`); `(round 2.5)` is 3.0 (`C74_round_fails`); `(integer? +inf.0)` and `(finite? +nan.0)` hold
  (`C74_predicates_fails`).
* C75: with a large integer or a ratio beside an inexact number, `%` is `std::remainder` instead of `std::fmod`:
  `(remainder 100000000000 7.0)` is -2.0 (`C75_remainder_fails`); `(denominator 5e-324)` is `+inf.0`
  (`C75_denominator_fails`).  `(modulo 1.0 9007199254740992.0)` is 0.0, not 1.0 (`C75_modulo_fails`), and
  `(quotient 11258999068426244.0 2251799813685249.0)` is 5.0, not 4.0 (`C75_quotient_fails`): intermediate results are rounded.
* C76: `guard` leaves and re-enters the dynamic extents around it, also when its body returns normally
  (`C76_enclosing_fails`; the cause is C41's).
* C77: inexact integers below a million are written without a point, so `(write 1.0)` prints `1`, which reads back as an exact
  number (`C77_integer_fails`), and `-0.0` becomes the exact `0` (`C77_negative_zero_fails`).  With glibc, reading back any
  subnormal number raises `std::out_of_range` (`C77_subnormal_fails`), and so do literals beyond the range
  (`C77_overflow_fails`).  The exponent part of `1d5` is ignored (`C77_d_exponent_fails`).  `(number->string +inf.0)` is `inf`,
  which `string->number` rejects (`C77_number_to_string_fails`).
* C78: `(make-flonum 1.0 4294967296)` is `1.0`, because exponents are reduced modulo 2^32 (`C78_make_flonum_fails`); `flposdiff`
  of NaN is `0.0` (`C78_posdiff_nan_fails`); `fl-least` is `DBL_MIN`, not the least positive flonum (`C78_least_fails`);
  `(flhypot 2^600 0.0)` overflows to an infinity (`C78_hypot_fails`); `(flcbrt -8.0)` is NaN (`C78_cbrt_fails`);
  `fl=?` holds of NaN and itself, and together with `fl<?` of 0.0 and 2^-52 (`C78_trichotomy_fails`); `flinteger?` holds of
  infinities (`C78_integer_fails`).
* C79: `(u8vector 256)` holds 0; minus one becomes 255 as a fixnum and 1 as a bignum; a flonum beyond the range is undefined
  behaviour (`C79_range_fails`). `(f64vector 1/2)` is an error (`C79_ratio_fails`).
* C80: `--help` and `--version` do not exit (`C80_help_fails`); `--evaluate=` with a line break in the text is the name of a
  file, `--write=` takes the next argument (`C80_equals_fails`); `--x` and `--` are file names (`C80_names_fails`); `-ee x`
  complains about `x` (`C80_missing_fails`).
* C81: the constructor of an input file port enters its operand, not its canonical name, into the table of source files,
  so what is read from a file opened by another name has no source file and names in it are not searched for in its
  directory (`C81_source_fails`); entries are never removed, so a new pair can have the source file of a released one
  (`C81_stale_fails`); `(include "f")` in a body takes the string for the list of names and includes nothing
  (`C81_body_fails`); a file that cannot be read is included as empty (`C81_unreadable_fails`); `file-error?` is false
  for missing files, and `open-input-file` of an unreadable one and `open-output-file` do not fail
  (`C81_file_error_fails`).
* C83: characters that the data file gives as a range are unassigned except for the two ends, so `char-alphabetic?` is
  false of nearly all ideographs and Hangul syllables (`C83_range_fails`); it is false of letter numbers
  (`C83_alphabetic_fails`); `char-whitespace?` is false of tab, newline and the line separators
  (`C83_whitespace_fails`); `digit-value` of a superscript is a digit (`C83_digit_value_fails`); `char-foldcase` is
  `char-downcase` (`C83_fold_fails`), `string-upcase` has no special casing (`C83_sharp_s_fails`); `integer->char`
  checks nothing (`C83_integer_fails`).
* C84: `apply` ends the operand list with the list it was given, without a copy, and operand lists are the frames of the
  machine, so `(set! a ...)` in the procedure changes the list of the caller (`C84_apply_fails`).
* C89: in a macro template, `(case key ((a b) …) …)` never chooses the clause for the symbols `a` and `b`: quoting the list
  leaves the renamed identifiers in it (`C89_inserted_list_fails`), while `(case key ((a) …) …)` works
  (`C89_inserted_single`).  Definitions at the beginning of the body of a `letrec*` assign the variables of the `letrec*`
  of the same name instead of making new ones (`C89_letrec_star_definition_fails`).
* C91: `boolean=?` and `symbol=?` are `eqv?`: they ignore arguments after the second, so `(boolean=? #t #t #f)` is `#t`,
  and do not look at types (`(boolean=? 1 1)` is `#t`).
* C93: `fxquotient` never returns a fixnum (`(fixnum? (fxquotient 7 2))` is `#f`), `fxsqrt` returns one value, inexact for
  non-squares, and `fxbit-field` of the whole word, `fxcopy-bit` of the sign and wide `fxbit-field-rotate`s return integers of the
  fixnum range that are not fixnums.
* C94: `car`, `cdr`, `set-car!`, `set-cdr!`, `unbox`, `error-object-message` and `error-object-irritants` check nothing: every
  heap object has a pair part, so `(car "abc")` is `()`, `(set-car! z 5)` changes the number `z` = `1+2i`, and `(car '())` is a
  null pointer access.  `identifier->symbol` takes the cddr of a syntactic closure, whose pair part is empty: undefined
  behaviour (`C94_identifier_symbol_fails`).  `input-port-open?` of an output port is `#t`.
* C95: `(scheme r5rs)` exports `interaction-environment`, which nothing defines; `(scheme division)` lacks `floor/`,
  `floor-quotient`, `floor-remainder` and the `truncate` ones; `letrec` in `(meevax continuation)`, `%interaction-environment`
  in `(scheme r4rs)`, and `error` in `(srfi 9)` and `(srfi 149)` are not imported by the libraries that use them, so their
  error messages are replaced by that of an undefined variable.  A library that imports `(scheme base)` and `(srfi 0)`,
  `(scheme box)` and `(srfi 111)`, or `(scheme lazy)` twice is rejected, as renamed exports make a new variable every time.
* C96: a file that ends with a token or a line comment without a newline makes `load` raise a read error after all of it has
  been evaluated; the REPL on such input (token) reports that error for ever.  A closing parenthesis that closes nothing
  throws a type that nobody catches, so the process is terminated and no handler is called.  An uncaught error whose
  message is no string, `(error 'f "no")`, ends the REPL, because making the text of its report fails.
* C98: `display` treats only the outermost object: `(display '("a" #\b |c d|))` prints `("a" #\b #"c d")`
  (`C98_display_fails`; wrong for every datum with such an object inside, `C98_inside_fails`).  The loop of `write-simple` is
  not left after the last element of a dotted list, and takes the cdr of that element: `(write-simple '(a . b))` prints
  `(a . b))`, and `(write-simple '(a . 1))` uses a fixnum as an address (`C98_simple_fails`, `C98_fixnum_fails`).
* C105: `write` prints a number of single precision with six digits and no marker: 16777216 is printed as `1.67772e+07` and read
  back as the flonum 16777200 (`C105_write_fails`); infinities and NaN are printed as `inf` and `nan`, which are no numbers
  (`C105_write_infinity_fails`).  `number->string` prints one tenth as `0.1`, which reads back as another number
  (`C105_number_to_string_fails`).  `1f39` is an error (`C105_overflow_fails`).
* C107: `(log 1000 10)` is 2.9999999999999996 and `(fllog2 536870912.0)` is 29.000000000000004 even if the C library rounds
  every logarithm to nearest (`C107_log_fails`).  `(log -1)`, `(asin 2)` and `(acos 2)` are NaN (`C107_complex_fails`),
  but `(log (make-rectangular -1 0))` is not (`C107_real_complex_fails`).
  `(flloggamma -201.5)` gives the sign -1.0, but the gamma function is positive there (`C107_loggamma_fails`).
  `(atan (/ -1 (expt 2 1100)) -1)` is pi and not -pi, as the ratio becomes a positive zero (`C107_atan_fails`).
* C108: `(/ z z)`, and `z` divided by its real part, is `+nan.0+nan.0i` for `z` with both parts 2^512 or more, or positive and below 2^-538, as the square of
  the magnitude is not representable (`C108_quotient_fails`), and `(magnitude z)` is `+inf.0` or zero (`C108_magnitude_fails`).  `(* 2.0 (make-rectangular 1.0 +inf.0))` has the real part NaN, as
  a real factor counts as one with the imaginary part zero (`C108_product_fails`).  `=` is not transitive on complex numbers (`C108_equal`): imaginary
  parts of 1e-300 and 2e-300 count as equal, but not 1e-300 and that of a real number (`C108_equal_real`).
* C104: a fixnum beside a number of single precision is rounded to single precision before it is compared or added:
  `16777216f0` is `=` to `16777217` and to `16777216`, and `(+ 16777217 1f0)` is 16777216 (`C104_fixnum_fails`,
  `C104_arithmetic_fails`).  Large integers go into an f32vector through a truncation to a flonum: 2^60 + 2^36 + 1 becomes
  2^60, not 2^60 + 2^37 (`C104_large_fails`).  `(remainder 4398046511104 5f0)` is -1 (`C104_remainder_fails`),
  `(modulo 1f0 16777216f0)` is 0 (`C104_modulo_fails`), `(round 2.5f0)` is 3 (`C104_round_fails`),
  `(quotient 20971524f0 4194305f0)` is 5, not 4 (`C104_quotient_fails`), `integer?` holds of infinities (`C104_predicates_fails`).
* C103: `fl-1/sqrt-2` is `(/ 1 (sqrt 2))`, 0.7071067811865475, and not the closest flonum, 0.7071067811865476
  (`C103_root_fails`).  The other constants that the file computes with `/`, `*` and `sqrt` are right.
* C101: the environment of a macro holds the names that are bound when the macro is defined, so that a helper procedure (or a
  second macro) that is defined after the macro cannot be found where the macro is used within a procedure: the interpreter
  is aborted by an assertion, or without assertions refers to a new variable (`C101_forward_fails`, `C101_program_fails`).  At
  the outermost level such a use works.
* C100: `identifier=?` binds the names it compares.  A local variable is not the same as itself, so that a literal bound
  around both the macro and its use never matches (`C100_local_fails`).  Global variables are compared by name and value: a
  literal imported with a prefix is not recognised (`C100_renamed_fails`), and different variables with one name and value are
  taken for one (`C100_collision_fails`).  A symbol without a binding that was renamed by two macros does not match
  (`C100_nested_fails`).  After a comparison, an inserted symbol that was unbound refers to a new global variable and no longer
  to the local variable of the use (`C100_effect_fails`).
* C88: closing a string port does not close it (`C88_string_close_fails`).  `open-output-file` of a file that cannot be
  opened gives a closed port, on which everything is lost without an error (`C88_unwritable_fails`).  `file-error?` is false
  of the exception of `open-input-file` for a missing file (`C88_missing_fails`).  Leaving `with-output-to-file` by a
  continuation or an exception leaves the port open and its text in the buffer (`C88_escape_fails`).
* C87: `define-values` with three or more variables takes the values out of the list of the values with `set-cdr!`.  With
  `(apply values xs)` that list is `xs`: afterwards `(1 2 3)` is `(1 3)` (`C87_shared_list_fails`); if it is a constant, the
  same definition evaluated again has too few values (`C87_again_fails`).  Too many values are no error
  (`C87_too_many_fails`, `C87_single_fails`), too few are undefined behaviour (`C87_too_few`).
* C85: `eval` starts another machine on the C++ stack.  If the expression calls a continuation captured outside, the rest of
  the program is run by that machine and then again after the `eval` (`C85_escape_fails`).  Parameters and handlers are kept
  in registers of an environment, so `eval` in another environment does not see them (`C85_dynamic_fails`); what is thrown
  arrives as an error object "uncaught exception" (`C85_condition_fails`); and a loop through `eval` nests without bound
  (`C85_tail_fails`).  `(load file)` without an environment raises an error: `(scheme r4rs)` does not import the variable
  `%interaction-environment` its `load` uses (`C85_load_default_fails`).
* C86: every error that is handled leaves a C++ call behind until the whole expression is over (`C86_space_fails`).
* C66: the initial values of a named `let` are evaluated in the scope of its name: `(let car ((x (car '(5)))) x)`
  is `(5)` (`C66_named_let_fails`).  `(and x)` and `(or x)` have the fault of C53 when `x` is bound twice.
