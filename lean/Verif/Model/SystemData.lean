import Verif.Model.System

/-
The libraries of the system, as data: what boot defines (src/kernel/boot.cpp), and the declarations of the
libraries in library/*.ss, all of them loaded at the start (configure/system.cpp L111-L150).

Of a body only the names it defines and the names it refers to are kept. Names that a macro inserts as
binders, that are only compared with (`else`, `=>`), or that are feature identifiers are not references.
-/

namespace Meevax.System

/-- The names `resolve` knows (src/kernel/boot.cpp L63-L427), except the homogeneous vectors. -/
def registry : List Name :=
  names! "binary32? binary64? binary64-integral-part binary64-fractional-part binary64-log-binary
   binary64-integer-log-binary binary64-normalized-fraction binary64-exponent binary64-sign-bit
   binary64-normalized? binary64-denormalized? binary64-max binary64-min binary64-fused-multiply-add
   binary64-remquo boolean? not box? box box-ref box-set! char? char=? char<? char<=? char>? char>=?
   char-ci=? char-ci<? char-ci<=? char-ci>? char-ci>=? char-alphabetic? char-numeric?
   char-whitespace? char-upper-case? char-lower-case? digit-value char->integer integer->char
   char-upcase char-downcase emergency-exit command-line eq? eqv? equal? environment eval expand
   interaction-environment load throw error-object error-object? read-error? file-error?
   kernel-exception-handler-set! file-exists? delete-file library-directories integer32? null? list?
   list make-list iota circular-list? circular-list dotted-list? null-list? last last-pair length
   length+ append append! append-reverse append-reverse! reverse reverse! concatenate concatenate!
   list-copy list-ref list-tail first second third fourth fifth sixth seventh eighth ninth tenth
   take take! take-right drop drop-right drop-right! memq memv assq assv alist-cons alist-copy
   number? complex? real? rational? integer? exact? inexact? exact-integer? finite? infinite? nan? =
   < <= > >= zero? positive? negative? odd? even? max min + * - / abs quotient remainder modulo gcd
   lcm numerator denominator floor ceiling truncate round exp log sin cos tan asin acos atan sinh
   cosh tanh asinh acosh atanh sqrt exact-integer-square-root expt make-rectangular make-polar
   real-part imag-part magnitude angle exact inexact expm1 log1p erf erfc tgamma lgamma ldexp
   nextafter copysign cyl_bessel_j cyl_neumann bitwise-not bitwise-and bitwise-ior bitwise-xor
   bit-shift bit-count bit-width number->string string->number pair? not-pair? cons xcons cons* car
   cdr caar cadr cdar cddr caaar cdaar caadr cdadr cadar cddar caddr cdddr caaaar cdaaar caaadr
   cdaadr caadar cdadar caaddr cdaddr cadaar cddaar cadadr cddadr caddar cdddar cadddr cddddr
   set-car! set-cdr! input-port? output-port? binary-port? textual-port? port? open?
   standard-input-port standard-output-port standard-error-port open-input-file open-output-file
   open-binary-input-file open-binary-output-file close open-input-string open-output-string
   get-output-string open-input-u8vector open-output-u8vector get-output-u8vector eof-object?
   eof-object flush closure? continuation? procedure? procedure get-char get-char-ready? get-line
   peek-char read get-string get-u8 get-u8-ready? peek-u8 get-u8vector string? make-string string
   string-length string-ref string-set! string=? string<? string>? string<=? string>=? string-ci=?
   string-ci<? string-ci>? string-ci<=? string-ci>=? string-append string->list list->string
   string-copy string-copy! string-fill! symbol? symbol->string string->symbol identifier->symbol
   identifier? transformer? syntactic-closure? make-syntactic-closure features
   get-environment-variable get-environment-variables current-jiffy jiffies-per-second vector?
   vector make-vector vector-length vector-ref vector-set! vector->list list->vector vector->string
   string->vector vector-copy vector-copy! vector-append vector-fill! u8vector->string
   string->u8vector put-char put-string put-u8 put-u8vector write write-simple"

/-- The tags of the homogeneous vectors (src/kernel/boot.cpp L416-L418, L912-L914). -/
def tags : List Name := names! "s8 s16 s32 s64 u8 u16 u32 u64 f32 f64"

/-- The macros `REGISTER_VECTOR` and `DEFINE_VECTOR` (src/kernel/boot.cpp L403-L414, L899-L910), which
list the same eleven names. -/
def vectorNames (tag : Name) : List Name :=
  (names! "vector? vector vector-length vector-ref vector-set! vector-copy vector-copy! vector-append vector->list").map
    (concat tag) ++
  [concat (name! "make-") (concat tag (name! "vector")), concat (name! "list->") (concat tag (name! "vector"))]

/-- All the names `resolve` knows (src/kernel/boot.cpp L63-L427). -/
def resolvable : List Name := registry ++ tags.flatMap vectorNames

/-- (src/kernel/boot.cpp L443-L446) -/
def meevaxBinary32 : Builtins :=
  { key := name! "(meevax binary32)"
    definitions := ((names! "binary32?").map fun n => (n, some n)) }

/-- (src/kernel/boot.cpp L448-L467) -/
def meevaxBinary64 : Builtins :=
  { key := name! "(meevax binary64)"
    definitions := ((names! "binary64?").map fun n => (n, some n)) ++
      ((names! "binary64-least binary64-greatest binary64-epsilon").map fun n => (n, none)) ++
      ((names! "binary64-integral-part binary64-fractional-part binary64-log-binary
       binary64-integer-log-binary binary64-normalized-fraction binary64-exponent binary64-sign-bit
       binary64-normalized? binary64-denormalized? binary64-max binary64-min
       binary64-fused-multiply-add binary64-remquo").map fun n => (n, some n)) }

/-- (src/kernel/boot.cpp L469-L473) -/
def meevaxBoolean : Builtins :=
  { key := name! "(meevax boolean)"
    definitions := ((names! "boolean? not").map fun n => (n, some n)) }

/-- (src/kernel/boot.cpp L475-L481) -/
def meevaxBox : Builtins :=
  { key := name! "(meevax box)"
    definitions := ((names! "box box-ref box-set! box?").map fun n => (n, some n)) }

/-- (src/kernel/boot.cpp L483-L506) -/
def meevaxCharacter : Builtins :=
  { key := name! "(meevax character)"
    definitions := ((names! "char? char=? char<? char>? char<=? char>=? char-ci=? char-ci<? char-ci>? char-ci<=?
       char-ci>=? char-alphabetic? char-numeric? char-whitespace? char-upper-case? char-lower-case?
       digit-value char->integer integer->char char-upcase char-downcase").map fun n => (n, some n)) }

/-- (src/kernel/boot.cpp L514-L519) -/
def meevaxComparator : Builtins :=
  { key := name! "(meevax comparator)"
    definitions := ((names! "eq? eqv? equal?").map fun n => (n, some n)) }

/-- (src/kernel/boot.cpp L508-L512) -/
def meevaxContext : Builtins :=
  { key := name! "(meevax context)"
    definitions := ((names! "emergency-exit command-line").map fun n => (n, some n)) }

/-- (src/kernel/boot.cpp L521-L529; src/kernel/syntactic_environment.cpp L333-L360) -/
def meevaxCore : Builtins :=
  { key := name! "(meevax core)"
    definitions := ((names! "begin call-with-current-continuation! conditional-expand current define define-syntax if
       include include-case-insensitive install lambda let-syntax letrec letrec-syntax quote
       quote-syntax set!").map fun n => (n, none)) }

/-- (src/kernel/boot.cpp L531-L538) -/
def meevaxEnvironment : Builtins :=
  { key := name! "(meevax environment)"
    definitions := ((names! "environment eval expand interaction-environment load").map fun n => (n, some n)) }

/-- (src/kernel/boot.cpp L540-L548) -/
def meevaxError : Builtins :=
  { key := name! "(meevax error)"
    definitions := ((names! "throw error-object error-object? read-error? file-error? kernel-exception-handler-set!").map fun n => (n, some n)) }

/-- (src/kernel/boot.cpp L550-L555) -/
def meevaxFile : Builtins :=
  { key := name! "(meevax file)"
    definitions := ((names! "file-exists? delete-file library-directories").map fun n => (n, some n)) }

/-- (src/kernel/boot.cpp L557-L582) -/
def meevaxInstruction : Builtins :=
  { key := name! "(meevax instruction)"
    definitions := ((names! "secd-call secd-cons secd-current secd-drop secd-dummy secd-install secd-join secd-letrec
       secd-load-absolute secd-load-closure secd-load-constant secd-load-continuation
       secd-load-relative secd-load-variadic secd-return secd-select secd-stop secd-store-absolute
       secd-store-relative secd-store-variadic secd-tail-call secd-tail-letrec secd-tail-select").map fun n => (n, none)) }

/-- (src/kernel/boot.cpp L584-L590) -/
def meevaxInteger32 : Builtins :=
  { key := name! "(meevax integer32)"
    definitions := ((names! "integer32?").map fun n => (n, some n)) ++
      ((names! "integer32-width integer32-min integer32-max").map fun n => (n, none)) }

/-- (src/kernel/boot.cpp L592-L640) -/
def meevaxList : Builtins :=
  { key := name! "(meevax list)"
    definitions := ((names! "null? list? list make-list iota circular-list? circular-list dotted-list? null-list? last
       last-pair length length+ append append! append-reverse append-reverse! reverse reverse!
       concatenate concatenate! list-copy list-ref list-tail first second third fourth fifth sixth
       seventh eighth ninth tenth take take! take-right drop drop-right drop-right! memq memv assq
       assv alist-cons alist-copy").map fun n => (n, some n)) }

/-- (src/kernel/boot.cpp L642-L732) -/
def meevaxNumber : Builtins :=
  { key := name! "(meevax number)"
    definitions := ((names! "number? complex? real? rational? integer? exact? inexact? exact-integer? finite? infinite?
       nan? = < <= > >= zero? positive? negative? odd? even? max min + * - / abs quotient remainder
       modulo gcd lcm numerator denominator floor ceiling truncate round exp log sin cos tan asin
       acos atan sinh cosh tanh asinh acosh atanh sqrt exact-integer-square-root expt
       make-rectangular make-polar real-part imag-part magnitude angle exact inexact expm1 log1p erf
       erfc tgamma lgamma ldexp nextafter copysign cyl_bessel_j cyl_neumann").map fun n => (n, some n)) ++
      ((names! "e pi euler phi").map fun n => (n, none)) ++
      ((names! "bitwise-not bitwise-and bitwise-ior bitwise-xor bit-shift bit-count bit-width number->string
       string->number").map fun n => (n, some n)) }

/-- (src/kernel/boot.cpp L734-L773) -/
def meevaxPair : Builtins :=
  { key := name! "(meevax pair)"
    definitions := ((names! "pair? not-pair? cons xcons cons* car cdr caar cadr cdar cddr caaar cdaar caadr cdadr cadar
       cddar caddr cdddr caaaar cdaaar caaadr cdaadr caadar cdadar caaddr cdaddr cadaar cddaar
       cadadr cddadr caddar cdddar cadddr cddddr set-car! set-cdr!").map fun n => (n, some n)) }

/-- (src/kernel/boot.cpp L775-L800) -/
def meevaxPort : Builtins :=
  { key := name! "(meevax port)"
    definitions := ((names! "input-port? output-port? binary-port? textual-port? port? open? standard-input-port
       standard-output-port standard-error-port open-input-file open-output-file
       open-binary-input-file open-binary-output-file close open-input-string open-output-string
       get-output-string open-input-u8vector open-output-u8vector get-output-u8vector eof-object?
       eof-object flush").map fun n => (n, some n)) }

/-- (src/kernel/boot.cpp L802-L808) -/
def meevaxProcedure : Builtins :=
  { key := name! "(meevax procedure)"
    definitions := ((names! "closure? continuation? procedure? procedure").map fun n => (n, some n)) }

/-- (src/kernel/boot.cpp L810-L822) -/
def meevaxRead : Builtins :=
  { key := name! "(meevax read)"
    definitions := ((names! "get-char get-char-ready? get-line peek-char read get-string get-u8 get-u8-ready? peek-u8
       get-u8vector").map fun n => (n, some n)) }

/-- (src/kernel/boot.cpp L824-L848) -/
def meevaxString : Builtins :=
  { key := name! "(meevax string)"
    definitions := ((names! "string? make-string string string-length string-ref string-set! string=? string<? string>?
       string<=? string>=? string-ci=? string-ci<? string-ci>? string-ci<=? string-ci>=?
       string-append string->list list->string string-copy string-copy! string-fill!").map fun n => (n, some n)) }

/-- (src/kernel/boot.cpp L850-L856) -/
def meevaxSymbol : Builtins :=
  { key := name! "(meevax symbol)"
    definitions := ((names! "symbol? symbol->string string->symbol identifier->symbol").map fun n => (n, some n)) }

/-- (src/kernel/boot.cpp L858-L864) -/
def meevaxSyntacticClosure : Builtins :=
  { key := name! "(meevax syntactic-closure)"
    definitions := ((names! "identifier? transformer? syntactic-closure? make-syntactic-closure").map fun n => (n, some n)) }

/-- (src/kernel/boot.cpp L866-L871) -/
def meevaxSystem : Builtins :=
  { key := name! "(meevax system)"
    definitions := ((names! "features get-environment-variable get-environment-variables").map fun n => (n, some n)) }

/-- (src/kernel/boot.cpp L873-L877) -/
def meevaxTime : Builtins :=
  { key := name! "(meevax time)"
    definitions := ((names! "current-jiffy jiffies-per-second").map fun n => (n, some n)) }

/-- (src/kernel/boot.cpp L897-L917) -/
def meevaxVectorHomogeneous : Builtins :=
  { key := name! "(meevax vector homogeneous)"
    definitions := ((tags.flatMap vectorNames ++ names! "u8vector->string string->u8vector").map fun n => (n, some n)) }

/-- (src/kernel/boot.cpp L879-L895) -/
def meevaxVector : Builtins :=
  { key := name! "(meevax vector)"
    definitions := ((names! "vector? vector make-vector vector-length vector-ref vector-set! vector->list list->vector
       vector->string string->vector vector-copy vector-copy! vector-append vector-fill!").map fun n => (n, some n)) }

/-- (src/kernel/boot.cpp L919-L927) -/
def meevaxWrite : Builtins :=
  { key := name! "(meevax write)"
    definitions := ((names! "put-char put-string put-u8 put-u8vector write write-simple").map fun n => (n, some n)) }

/-- What `boot` makes (src/kernel/boot.cpp L443-L928). -/
def builtins : List Builtins :=
  [meevaxBinary32, meevaxBinary64, meevaxBoolean, meevaxBox, meevaxCharacter, meevaxComparator, meevaxContext, meevaxCore, meevaxEnvironment, meevaxError, meevaxFile, meevaxInstruction, meevaxInteger32, meevaxList, meevaxNumber, meevaxPair, meevaxPort, meevaxProcedure, meevaxRead, meevaxString, meevaxSymbol, meevaxSyntacticClosure, meevaxSystem, meevaxTime, meevaxVectorHomogeneous, meevaxVector, meevaxWrite]

/-- (library/meevax.ss L1-L41) -/
def meevaxMacroTransformer : Library :=
  { key := name! "(meevax macro-transformer)"
    declarations :=
      [.imports
        [.only (.library (name! "(meevax comparator)")) (names! "eq? eqv?"),
         .only (.library (name! "(meevax core)")) (names! "begin define if lambda quote set!"),
         .only (.library (name! "(meevax list)")) (names! "assq null?"),
         .only (.library (name! "(meevax pair)")) (names! "cons car cdr caar cdar"),
         .only (.library (name! "(meevax syntactic-closure)")) (names! "identifier? syntactic-closure? make-syntactic-closure")],
       .exports (((names! "make-syntactic-closure identifier? identifier=? sc-macro-transformer rsc-macro-transformer
       er-macro-transformer").map .plain)),
       .body (names! "sc-macro-transformer rsc-macro-transformer identifier=? er-macro-transformer")
      (names! "assq begin cdar cdr cons define eqv? if lambda make-syntactic-closure quote set!
       syntactic-closure?")] }

/-- (library/meevax.ss L43-L100) -/
def meevaxContinuation : Library :=
  { key := name! "(meevax continuation)"
    declarations :=
      [.imports
        [.only (.library (name! "(meevax context)")) (names! "emergency-exit"),
         .only (.library (name! "(meevax comparator)")) (names! "eq?"),
         .only (.library (name! "(meevax core)")) (names! "begin call-with-current-continuation! current define if install lambda"),
         .only (.library (name! "(meevax pair)")) (names! "caar car cdar cdr cons pair?"),
         .only (.library (name! "(meevax list)")) (names! "null?")],
       .exports (((names! "call-with-current-continuation dynamic-wind exit").map .plain)),
       .body (names! "current-dynamic-extents install-dynamic-extents! dynamic-wind call-with-current-continuation
       exit")
      (names! "begin caar call-with-current-continuation! car cdar cdr cons current define emergency-exit
       eq? if install lambda letrec null? pair?")] }

/-- (library/meevax.ss L102-L117) -/
def meevaxApply : Library :=
  { key := name! "(meevax apply)"
    declarations :=
      [.imports
        [.only (.library (name! "(meevax core)")) (names! "define if lambda"),
         .only (.library (name! "(meevax list)")) (names! "append null? reverse"),
         .only (.library (name! "(meevax pair)")) (names! "car cdr cons")],
       .exports (((names! "apply").map .plain)),
       .body (names! "apply")
      (names! "append car cdr cons define if lambda null? reverse")] }

/-- (library/meevax.ss L119-L142) -/
def meevaxMap : Library :=
  { key := name! "(meevax map)"
    declarations :=
      [.imports
        [.only (.library (name! "(meevax apply)")) (names! "apply"),
         .only (.library (name! "(meevax core)")) (names! "define if quote"),
         .only (.library (name! "(meevax list)")) (names! "memq null? reverse"),
         .only (.library (name! "(meevax pair)")) (names! "car cdr cons")],
       .exports (((names! "map").map .plain)),
       .body (names! "map")
      (names! "apply car cdr cons define if memq null? quote reverse")] }

/-- (library/r4rs.ss L37-L386) -/
def schemeR4rs : Library :=
  { key := name! "(scheme r4rs)"
    declarations :=
      [.imports
        [.only (.library (name! "(meevax apply)")) (names! "apply"),
         .only (.library (name! "(meevax boolean)")) (names! "boolean? not"),
         .only (.library (name! "(meevax character)")) (names! "char? char=? char<? char>? char<=? char>=? char-ci=? char-ci<? char-ci>? char-ci<=?
           char-ci>=? char-alphabetic? char-numeric? char-whitespace? char-upper-case?
           char-lower-case? char->integer integer->char char-upcase char-downcase"),
         .only (.library (name! "(meevax comparator)")) (names! "eq? eqv? equal?"),
         .only (.library (name! "(meevax continuation)")) (names! "call-with-current-continuation"),
         .only (.library (name! "(meevax core)")) (names! "begin define define-syntax if lambda letrec quote set!"),
         .only (.library (name! "(meevax list)")) (names! "null? list? list length append reverse list-tail list-ref memq memv assq assv"),
         .only (.library (name! "(meevax macro-transformer)")) (names! "er-macro-transformer identifier?"),
         .only (.library (name! "(meevax map)")) (names! "map"),
         .only (.library (name! "(meevax number)")) (names! "number? complex? real? rational? integer? exact? inexact? = < > <= >= zero? positive?
           negative? odd? even? max min + * - / abs quotient remainder modulo gcd lcm numerator
           denominator floor ceiling truncate round expt exp log sqrt sin cos tan asin acos atan
           make-rectangular make-polar real-part imag-part magnitude angle exact inexact
           number->string string->number"),
         .only (.library (name! "(meevax pair)")) (names! "pair? cons car cdr set-car! set-cdr! caar cadr cdar cddr caaar caadr cadar caddr cdaar
           cdadr cddar cdddr caaaar caaadr caadar caaddr cadaar cadadr caddar cadddr cdaaar cdaadr
           cdadar cdaddr cddaar cddadr cdddar cddddr"),
         .only (.library (name! "(meevax port)")) (names! "input-port? output-port? standard-input-port standard-output-port open-input-file
           open-output-file close eof-object?"),
         .only (.library (name! "(meevax procedure)")) (names! "procedure?"),
         .only (.library (name! "(meevax string)")) (names! "string? make-string string string-length string-ref string-set! string=? string<?
           string>? string<=? string>=? string-ci=? string-ci<? string-ci>? string-ci<=?
           string-ci>=? string-append string->list list->string string-copy string-fill!"),
         .only (.library (name! "(meevax symbol)")) (names! "symbol? symbol->string string->symbol"),
         .only (.library (name! "(meevax vector)")) (names! "vector? make-vector vector vector-length vector-ref vector-set! vector->list list->vector
           vector-fill!"),
         .prefix (.library (name! "(meevax read)")) (name! "%"),
         .prefix (.library (name! "(meevax write)")) (name! "%"),
         .prefix (.only (.library (name! "(meevax environment)")) (names! "load")) (name! "%"),
         .only (.library (name! "(srfi 39)")) (names! "make-parameter parameterize"),
         .only (.library (name! "(srfi 45)")) (names! "delay force")],
       .exports (((names! "quote lambda if set! cond case and or let let* letrec begin do delay quasiquote define not
       boolean? eqv? eq? equal? pair? cons car cdr set-car! set-cdr! caar cadr cdar cddr caaar caadr
       cadar caddr cdaar cdadr cddar cdddr caaaar caaadr caadar caaddr cadaar cadadr caddar cadddr
       cdaaar cdaadr cdadar cdaddr cddaar cddadr cdddar cddddr null? list? list length append
       reverse list-tail list-ref memq memv member assq assv assoc symbol? symbol->string
       string->symbol number? complex? real? rational? integer? exact? inexact? = < > <= >= zero?
       positive? negative? odd? even? max min + * - / abs quotient remainder modulo gcd lcm
       numerator denominator floor ceiling truncate round rationalize exp log sin cos tan asin acos
       atan sqrt expt make-rectangular make-polar real-part imag-part magnitude angle").map .plain) ++
      [.rename (name! "inexact") (name! "exact->inexact")] ++
      [.rename (name! "exact") (name! "inexact->exact")] ++
      ((names! "number->string string->number char? char=? char<? char>? char<=? char>=? char-ci=? char-ci<?
       char-ci>? char-ci<=? char-ci>=? char-alphabetic? char-numeric? char-whitespace?
       char-upper-case? char-lower-case? char->integer integer->char char-upcase char-downcase
       string? make-string string string-length string-ref string-set! string=? string<? string>?
       string<=? string>=? string-ci=? string-ci<? string-ci>? string-ci<=? string-ci>=?").map .plain) ++
      [.rename (name! "string-copy") (name! "substring")] ++
      ((names! "string-append string->list list->string string-copy string-fill! vector? make-vector vector
       vector-length vector-ref vector-set! vector->list list->vector vector-fill! procedure? apply
       map for-each force call-with-current-continuation call-with-input-file call-with-output-file
       input-port? output-port? current-input-port current-output-port with-input-from-file
       with-output-to-file open-input-file open-output-file close-input-port close-output-port read
       read-char peek-char eof-object? char-ready? write display newline write-char load").map .plain)),
       .body (names! "cond and or quasiquote let let* do case member assoc rationalize for-each
       call-with-input-file call-with-output-file current-input-port current-output-port
       with-input-from-file with-output-to-file close-input-port close-output-port read read-char
       peek-char char-ready? write write-char display newline load")
      (names! "%get-char %get-char-ready? %interaction-environment %load %peek-char %put-char %put-string
       %read %write + - / < <= = append apply begin caaar caaddr caadr caar cadar caddr cadr car
       cdaar cdaddr cdadr cdar cdddr cddr cdr char? close cons define define-syntax equal? eqv?
       er-macro-transformer exact? floor identifier? if lambda letrec list list->vector
       make-parameter map memv negative? not null? open-input-file open-output-file pair?
       parameterize positive? quote standard-input-port standard-output-port string? vector->list
       vector?")] }

/-- (library/r5rs.ss L1-L108) -/
def schemeR5rs : Library :=
  { key := name! "(scheme r5rs)"
    declarations :=
      [.imports
        [.only (.library (name! "(meevax continuation)")) (names! "dynamic-wind"),
         .only (.library (name! "(meevax core)")) (names! "define-syntax let-syntax letrec-syntax"),
         .only (.library (name! "(meevax environment)")) (names! "environment eval"),
         .library (name! "(scheme r4rs)"),
         .library (name! "(srfi 149)")],
       .exports (((names! "quote lambda if set! cond case and or let let* letrec begin do delay quasiquote let-syntax
       letrec-syntax syntax-rules define define-syntax eqv? eq? equal? number? complex? real?
       rational? integer? exact? inexact? = < > <= >= zero? positive? negative? odd? even? max min +
       * - / abs quotient remainder modulo gcd lcm numerator denominator floor ceiling truncate
       round rationalize exp log sin cos tan asin acos atan sqrt expt make-rectangular make-polar
       real-part imag-part magnitude angle exact->inexact inexact->exact number->string
       string->number not boolean? pair? cons car cdr set-car! set-cdr! caar cadr cdar cddr caaar
       caadr cadar caddr cdaar cdadr cddar cdddr caaaar caaadr caadar caaddr cadaar cadadr caddar
       cadddr cdaaar cdaadr cdadar cdaddr cddaar cddadr cdddar cddddr null? list? list length append
       reverse list-tail list-ref memq memv member assq assv assoc symbol? symbol->string
       string->symbol char? char=? char<? char>? char<=? char>=? char-ci=? char-ci<? char-ci>?
       char-ci<=? char-ci>=? char-alphabetic? char-numeric? char-whitespace? char-upper-case?
       char-lower-case? char->integer integer->char char-upcase char-downcase string? make-string
       string string-length string-ref string-set! string=? string<? string>? string<=? string>=?
       string-ci=? string-ci<? string-ci>? string-ci<=? string-ci>=? substring string-append
       string->list list->string string-copy string-fill! vector? make-vector vector vector-length
       vector-ref vector-set! vector->list list->vector vector-fill! procedure? apply map for-each
       force call-with-current-continuation values call-with-values dynamic-wind eval
       scheme-report-environment null-environment interaction-environment call-with-input-file
       call-with-output-file input-port? output-port? current-input-port current-output-port
       with-input-from-file with-output-to-file open-input-file open-output-file close-input-port
       close-output-port read read-char peek-char eof-object? char-ready? write display newline
       write-char load").map .plain)),
       .body (names! "<values> values call-with-values scheme-report-environment null-environment")
      (names! "and apply car cdr cons define environment eq? if let list null? number->string pair?
       quasiquote quote string->symbol string-append")] }

/-- (library/r7rs.ss L1-L348) -/
def schemeBase : Library :=
  { key := name! "(scheme base)"
    declarations :=
      [.imports
        [.only (.library (name! "(meevax core)")) (names! "include include-case-insensitive"),
         .only (.library (name! "(meevax error)")) (names! "error-object? read-error? file-error?"),
         .only (.library (name! "(meevax list)")) (names! "make-list list-copy"),
         .only (.library (name! "(meevax macro-transformer)")) (names! "er-macro-transformer"),
         .only (.library (name! "(meevax number)")) (names! "exact-integer? exact-integer-square-root"),
         .only (.library (name! "(meevax port)")) (names! "binary-port? eof-object flush get-output-u8vector open-input-u8vector
           open-output-u8vector open? port? standard-error-port standard-input-port
           standard-output-port textual-port?"),
         .only (.library (name! "(meevax string)")) (names! "string-copy!"),
         .only (.library (name! "(meevax system)")) (names! "features"),
         .only (.library (name! "(meevax vector homogeneous)")) (names! "u8vector? make-u8vector u8vector u8vector-length u8vector-ref u8vector-set! u8vector-copy
           u8vector-copy! u8vector-append u8vector->string string->u8vector"),
         .only (.library (name! "(meevax vector)")) (names! "vector-append vector-copy vector-copy! vector->string string->vector"),
         .prefix (.library (name! "(meevax read)")) (name! "%"),
         .prefix (.library (name! "(meevax write)")) (name! "%"),
         .library (name! "(scheme r5rs)"),
         .library (name! "(srfi 0)"),
         .library (name! "(srfi 6)"),
         .library (name! "(srfi 9)"),
         .library (name! "(srfi 11)"),
         .library (name! "(srfi 23)"),
         .library (name! "(srfi 34)"),
         .library (name! "(srfi 39)"),
         .library (name! "(srfi 141)")],
       .exports (((names! "quote lambda if set! include include-ci cond else => case and or when unless cond-expand let
       let* letrec letrec* let-values let*-values begin do make-parameter parameterize guard
       quasiquote unquote unquote-splicing let-syntax letrec-syntax syntax-rules _ ... syntax-error
       define define-values define-syntax define-record-type eqv? eq? equal? number? complex? real?
       rational? integer? exact? inexact? exact-integer? = < > <= >= zero? positive? negative? odd?
       even? max min + * - / abs floor/ floor-quotient floor-remainder truncate/ truncate-quotient
       truncate-remainder quotient remainder modulo gcd lcm numerator denominator floor ceiling
       truncate round rationalize square exact-integer-sqrt expt inexact exact number->string
       string->number not boolean? boolean=? pair? cons car cdr set-car! set-cdr! caar cadr cdar
       cddr null? list? make-list list length append reverse list-tail list-ref list-set! memq memv
       member assq assv assoc list-copy symbol? symbol=? symbol->string string->symbol char? char=?
       char<? char>? char<=? char>=? char->integer integer->char string? make-string string
       string-length string-ref string-set! string=? string>? string<? string<=? string>=? substring
       string-append string->list list->string string-copy string-copy! string-fill! vector?
       make-vector vector vector-length vector-ref vector-set! vector->list list->vector
       vector->string string->vector vector-copy vector-copy! vector-append vector-fill! bytevector?
       make-bytevector bytevector bytevector-length bytevector-u8-ref bytevector-u8-set!
       bytevector-copy bytevector-copy! bytevector-append utf8->string string->utf8 procedure? apply
       map string-map vector-map for-each string-for-each vector-for-each
       call-with-current-continuation call/cc values call-with-values dynamic-wind
       with-exception-handler raise raise-continuable error error-object? error-object-message
       error-object-irritants read-error? file-error? call-with-port input-port? output-port?
       textual-port? binary-port? port? input-port-open? output-port-open? current-input-port
       current-output-port current-error-port close-port close-input-port close-output-port
       open-input-string open-output-string get-output-string open-input-bytevector
       open-output-bytevector get-output-bytevector read-char peek-char read-line eof-object?
       eof-object char-ready? read-string read-u8 peek-u8 u8-ready? read-bytevector read-bytevector!
       newline write-char write-string write-u8 write-bytevector flush-output-port features").map .plain)),
       .body (names! "include-ci when unless letrec* syntax-error define-values square exact-integer-sqrt inexact
       exact boolean=? list-set! symbol=? bytevector? make-bytevector bytevector bytevector-length
       bytevector-u8-ref bytevector-u8-set! bytevector-copy bytevector-copy! bytevector-append
       utf8->string string->utf8 string-map vector-map string-for-each vector-for-each call/cc
       error-object-message error-object-irritants call-with-port input-port-open? output-port-open?
       current-error-port close-port open-input-bytevector open-output-bytevector
       get-output-bytevector read-char peek-char read-line char-ready? read-string read-u8 peek-u8
       u8-ready? read-bytevector read-bytevector! write-char write-string write-u8 write-bytevector
       newline flush-output-port")
      (names! "%get-char %get-char-ready? %get-line %get-string %get-u8 %get-u8-ready? %get-u8vector
       %peek-char %peek-u8 %put-char %put-string %put-u8 %put-u8vector * - < and apply begin caddr
       cadr call-with-current-continuation call-with-values car cddr cdr close-input-port
       close-output-port cond cons current-input-port current-output-port define define-syntax
       eof-object eof-object? eqv? er-macro-transformer error exact->inexact
       exact-integer-square-root flush for-each get-output-u8vector if include-case-insensitive
       inexact->exact input-port? lambda length let let* let-values list list->string list->vector
       list-tail make-parameter make-u8vector map not null? open-input-u8vector open-output-u8vector
       open? output-port? pair? quasiquote set! set-car! set-cdr! standard-error-port string->list
       string->u8vector string-copy syntax-rules u8vector u8vector->string u8vector-append
       u8vector-copy u8vector-copy! u8vector-length u8vector-ref u8vector-set! u8vector? values
       vector->list")] }

/-- (library/r7rs.ss L350-L360) -/
def schemeBitwise : Library :=
  { key := name! "(scheme bitwise)"
    declarations :=
      [.imports
        [.library (name! "(srfi 151)")],
       .exports (((names! "bitwise-not bitwise-and bitwise-ior bitwise-xor bitwise-eqv bitwise-nand bitwise-nor
       bitwise-andc1 bitwise-andc2 bitwise-orc1 bitwise-orc2 arithmetic-shift bit-count
       integer-length bitwise-if bit-set? copy-bit bit-swap any-bit-set? every-bit-set?
       first-set-bit bit-field bit-field-any? bit-field-every? bit-field-clear bit-field-set
       bit-field-replace bit-field-replace-same bit-field-rotate bit-field-reverse bits->list
       list->bits bits->vector vector->bits bits bitwise-fold bitwise-for-each bitwise-unfold
       make-bitwise-generator").map .plain))] }

/-- (library/r7rs.ss L362-L364) -/
def schemeBox : Library :=
  { key := name! "(scheme box)"
    declarations :=
      [.imports
        [.library (name! "(srfi 111)")],
       .exports (((names! "box box? unbox set-box!").map .plain))] }

/-- (library/r7rs.ss L366-L368) -/
def schemeCaseLambda : Library :=
  { key := name! "(scheme case-lambda)"
    declarations :=
      [.imports
        [.library (name! "(srfi 16)")],
       .exports (((names! "case-lambda").map .plain))] }

/-- (library/r7rs.ss L370-L390) -/
def schemeChar : Library :=
  { key := name! "(scheme char)"
    declarations :=
      [.imports
        [.only (.library (name! "(meevax character)")) (names! "digit-value"),
         .only (.library (name! "(scheme r5rs)")) (names! "char-ci=? char-ci<? char-ci>? char-ci<=? char-ci>=? char-alphabetic? char-numeric?
           char-whitespace? char-upper-case? char-lower-case? char-upcase char-downcase string-ci=?
           string-ci<? string-ci>? string-ci<=? string-ci>=?"),
         .only (.library (name! "(scheme base)")) (names! "define string-map")],
       .exports (((names! "char-ci=? char-ci<? char-ci>? char-ci<=? char-ci>=? char-alphabetic? char-numeric?
       char-whitespace? char-upper-case? char-lower-case? digit-value char-upcase char-downcase
       char-foldcase string-ci=? string-ci<? string-ci>? string-ci<=? string-ci>=? string-upcase
       string-downcase string-foldcase").map .plain)),
       .body (names! "char-foldcase string-upcase string-downcase string-foldcase")
      (names! "char-downcase char-upcase define string-map")] }

/-- (library/r7rs.ss L392-L394) -/
def schemeComplex : Library :=
  { key := name! "(scheme complex)"
    declarations :=
      [.imports
        [.only (.library (name! "(scheme r5rs)")) (names! "make-rectangular make-polar real-part imag-part magnitude angle")],
       .exports (((names! "make-rectangular make-polar real-part imag-part magnitude angle").map .plain))] }

/-- (library/r7rs.ss L396-L405) -/
def schemeCxr : Library :=
  { key := name! "(scheme cxr)"
    declarations :=
      [.imports
        [.library (name! "(meevax pair)")],
       .exports (((names! "caaar caaaar cdaaar caadr caaadr cdaadr cadar caadar cdadar caddr caaddr cdaddr cdaar cadaar
       cddaar cdadr cadadr cddadr cddar caddar cdddar cdddr cadddr cddddr").map .plain))] }

/-- (library/r7rs.ss L407-L420) -/
def schemeDivision : Library :=
  { key := name! "(scheme division)"
    declarations :=
      [.imports
        [.library (name! "(srfi 141)")],
       .exports (((names! "ceiling/ ceiling-quotient ceiling-remainder round/ round-quotient round-remainder euclidean/
       euclidean-quotient euclidean-remainder balanced/ balanced-quotient balanced-remainder").map .plain))] }

/-- (library/r7rs.ss L422-L424) -/
def schemeEval : Library :=
  { key := name! "(scheme eval)"
    declarations :=
      [.imports
        [.only (.library (name! "(meevax environment)")) (names! "environment eval")],
       .exports (((names! "environment eval").map .plain))] }

/-- (library/r7rs.ss L426-L433) -/
def schemeFile : Library :=
  { key := name! "(scheme file)"
    declarations :=
      [.imports
        [.only (.library (name! "(meevax file)")) (names! "delete-file file-exists?"),
         .only (.library (name! "(meevax port)")) (names! "open-binary-input-file open-binary-output-file"),
         .only (.library (name! "(scheme base)")) (names! "close-input-port close-output-port current-input-port current-output-port define
           parameterize"),
         .only (.library (name! "(scheme r5rs)")) (names! "call-with-input-file call-with-output-file open-input-file open-output-file
           with-input-from-file with-output-to-file")],
       .exports (((names! "call-with-input-file call-with-output-file delete-file file-exists? open-binary-input-file
       open-binary-output-file open-input-file open-output-file with-input-from-file
       with-output-to-file").map .plain))] }

/-- (library/r7rs.ss L435-L443) -/
def schemeFixnum : Library :=
  { key := name! "(scheme fixnum)"
    declarations :=
      [.imports
        [.library (name! "(srfi 143)")],
       .exports (((names! "fx-width fx-greatest fx-least fixnum? fx=? fx<? fx>? fx<=? fx>=? fxzero? fxpositive?
       fxnegative? fxodd? fxeven? fxmax fxmin fx+ fx- fxneg fx* fxquotient fxremainder fxabs
       fxsquare fxsqrt fx+/carry fx-/carry fx*/carry fxnot fxand fxior fxxor fxarithmetic-shift
       fxarithmetic-shift-left fxarithmetic-shift-right fxbit-count fxlength fxif fxbit-set?
       fxcopy-bit fxfirst-set-bit fxbit-field fxbit-field-rotate fxbit-field-reverse").map .plain))] }

/-- (library/r7rs.ss L445-L465) -/
def schemeFlonum : Library :=
  { key := name! "(scheme flonum)"
    declarations :=
      [.imports
        [.library (name! "(srfi 144)")],
       .exports (((names! "fl-e fl-1/e fl-e-2 fl-e-pi/4 fl-log2-e fl-log10-e fl-log-2 fl-1/log-2 fl-log-3 fl-log-pi
       fl-log-10 fl-1/log-10 fl-pi fl-1/pi fl-2pi fl-pi/2 fl-pi/4 fl-pi-squared fl-degree fl-2/pi
       fl-2/sqrt-pi fl-sqrt-2 fl-sqrt-3 fl-sqrt-5 fl-sqrt-10 fl-1/sqrt-2 fl-cbrt-2 fl-cbrt-3
       fl-4thrt-2 fl-phi fl-log-phi fl-1/log-phi fl-euler fl-e-euler fl-sin-1 fl-cos-1 fl-gamma-1/2
       fl-gamma-1/3 fl-gamma-2/3 fl-greatest fl-least fl-epsilon fl-fast-fl+*
       fl-integer-exponent-zero fl-integer-exponent-nan flonum fladjacent flcopysign make-flonum
       flinteger-fraction flexponent flinteger-exponent flnormalized-fraction-exponent flsign-bit
       flonum? fl=? fl<? fl>? fl<=? fl>=? flunordered? flinteger? flzero? flpositive? flnegative?
       flodd? fleven? flfinite? flinfinite? flnan? flnormalized? fldenormalized? flmax flmin fl+ fl*
       fl+* fl- fl/ flabs flabsdiff flposdiff flsgn flnumerator fldenominator flfloor flceiling
       flround fltruncate flexp flexp2 flexp-1 flsquare flsqrt flcbrt flhypot flexpt fllog fllog1+
       fllog2 fllog10 make-fllog-base flsin flcos fltan flasin flacos flatan flsinh flcosh fltanh
       flasinh flacosh flatanh flquotient flremainder flremquo flgamma flloggamma flfirst-bessel
       flsecond-bessel flerf flerfc").map .plain))] }

/-- (library/r7rs.ss L467-L470) -/
def schemeInexact : Library :=
  { key := name! "(scheme inexact)"
    declarations :=
      [.imports
        [.only (.library (name! "(meevax number)")) (names! "finite? infinite? nan?"),
         .only (.library (name! "(scheme r5rs)")) (names! "exp log sin cos tan asin acos atan sqrt")],
       .exports (((names! "finite? infinite? nan? exp log sin cos tan asin acos atan sqrt").map .plain))] }

/-- (library/r7rs.ss L472-L474) -/
def schemeLazy : Library :=
  { key := name! "(scheme lazy)"
    declarations :=
      [.imports
        [.library (name! "(srfi 45)")],
       .exports (((names! "delay").map .plain) ++
      [.rename (name! "lazy") (name! "delay-force")] ++
      ((names! "force promise?").map .plain) ++
      [.rename (name! "eager") (name! "make-promise")])] }

/-- (library/r7rs.ss L476-L497) -/
def schemeList : Library :=
  { key := name! "(scheme list)"
    declarations :=
      [.imports
        [.library (name! "(srfi 1)")],
       .exports (((names! "cons list xcons cons* make-list list-tabulate list-copy circular-list iota pair? null?
       proper-list? circular-list? dotted-list? not-pair? null-list? list= car cdr caar cadr cdar
       cddr caaar caadr cadar caddr cdaar cdadr cddar cdddr caaaar caaadr caadar caaddr cadaar
       cadadr caddar cadddr cdaaar cdaadr cdadar cdaddr cddaar cddadr cdddar cddddr list-ref first
       second third fourth fifth sixth seventh eighth ninth tenth car+cdr take take! take-right drop
       drop-right drop-right! split-at split-at! last last-pair length length+ append append!
       concatenate concatenate! reverse reverse! append-reverse append-reverse! zip unzip1 unzip2
       unzip3 unzip4 unzip5 count map map! filter-map map-in-order fold fold-right unfold
       unfold-right pair-fold pair-fold-right reduce reduce-right append-map append-map! for-each
       pair-for-each filter filter! partition partition! remove remove! memq memv member find
       find-tail any every list-index take-while take-while! drop-while span span! break break!
       delete delete! delete-duplicates delete-duplicates! assq assv assoc alist-cons alist-copy
       alist-delete alist-delete! lset<= lset= lset-adjoin lset-union lset-union! lset-intersection
       lset-intersection! lset-difference lset-difference! lset-xor lset-xor! lset-diff+intersection
       lset-diff+intersection! set-car! set-cdr!").map .plain))] }

/-- (library/r7rs.ss L499-L501) -/
def schemeLoad : Library :=
  { key := name! "(scheme load)"
    declarations :=
      [.imports
        [.only (.library (name! "(scheme r5rs)")) (names! "load")],
       .exports (((names! "load").map .plain))] }

/-- (library/r7rs.ss L503-L511) -/
def schemeProcessContext : Library :=
  { key := name! "(scheme process-context)"
    declarations :=
      [.imports
        [.only (.library (name! "(meevax context)")) (names! "command-line emergency-exit"),
         .only (.library (name! "(meevax continuation)")) (names! "exit"),
         .library (name! "(srfi 98)")],
       .exports (((names! "command-line exit emergency-exit get-environment-variable get-environment-variables").map .plain))] }

/-- (library/r7rs.ss L513-L520) -/
def schemeRead : Library :=
  { key := name! "(scheme read)"
    declarations :=
      [.imports
        [.prefix (.library (name! "(meevax read)")) (name! "%"),
         .only (.library (name! "(scheme base)")) (names! "define if pair? car current-input-port")],
       .exports (((names! "read").map .plain)),
       .body (names! "read")
      (names! "%read car current-input-port define if pair?")] }

/-- (library/r7rs.ss L522-L524) -/
def schemeRepl : Library :=
  { key := name! "(scheme repl)"
    declarations :=
      [.imports
        [.only (.library (name! "(meevax environment)")) (names! "interaction-environment")],
       .exports (((names! "interaction-environment").map .plain))] }

/-- (library/r7rs.ss L526-L532) -/
def schemeTime : Library :=
  { key := name! "(scheme time)"
    declarations :=
      [.imports
        [.only (.library (name! "(meevax time)")) (names! "current-jiffy jiffies-per-second"),
         .only (.library (name! "(scheme base)")) (names! "/ define inexact")],
       .exports (((names! "current-second current-jiffy jiffies-per-second").map .plain)),
       .body (names! "current-second")
      (names! "/ current-jiffy define inexact jiffies-per-second")] }

/-- (library/r7rs.ss L534-L561) -/
def schemeWrite : Library :=
  { key := name! "(scheme write)"
    declarations :=
      [.imports
        [.prefix (.library (name! "(meevax write)")) (name! "%"),
         .library (name! "(scheme base)"),
         .only (.library (name! "(srfi 38)")) (names! "write-with-shared-structure")],
       .exports (((names! "write write-shared write-simple display").map .plain)),
       .body (names! "write write-shared write-simple display")
      (names! "%write %write-simple apply car char? cond current-output-port define if pair? string?
       write-char write-string write-with-shared-structure")] }

/-- (library/srfi-0.ss L1-L3) -/
def srfi0 : Library :=
  { key := name! "(srfi 0)"
    declarations :=
      [.imports
        [.only (.library (name! "(meevax core)")) (names! "conditional-expand")],
       .exports ([.rename (name! "conditional-expand") (name! "cond-expand")])] }

/-- (library/srfi-1.ss L9-L902) -/
def srfi1 : Library :=
  { key := name! "(srfi 1)"
    declarations :=
      [.imports
        [.only (.library (name! "(meevax boolean)")) (names! "not"),
         .only (.library (name! "(meevax core)")) (names! "begin call-with-current-continuation! define if lambda letrec quote set!"),
         .only (.library (name! "(meevax list)")) (names! "alist-cons alist-copy append append! append-reverse append-reverse! assq assv
           circular-list circular-list? concatenate concatenate! dotted-list? drop drop-right
           drop-right! eighth fifth first fourth iota last last-pair length length+ list list?
           list-copy list-ref make-list memq memv ninth null? null-list? reverse reverse! second
           seventh sixth take take! take-right tenth third"),
         .only (.library (name! "(meevax pair)")) (names! "car cdr caar cadr cdar cddr caaar caadr cadar caddr cdaar cdadr cddar cdddr caaaar caaadr
           caadar caaddr cadaar cadadr caddar cadddr cdaaar cdaadr cdadar cdaddr cddaar cddadr
           cdddar cddddr cons cons* not-pair? pair? set-car! set-cdr! xcons"),
         .only (.library (name! "(scheme r5rs)")) (names! "cond and or let let* eqv? eq? equal? = < zero? + - member assoc apply map for-each values"),
         .only (.library (name! "(srfi 8)")) (names! "receive"),
         .only (.library (name! "(srfi 23)")) (names! "error")],
       .exports (((names! "cons list xcons cons* make-list list-tabulate list-copy circular-list iota pair? null?
       proper-list? circular-list? dotted-list? not-pair? null-list? list= car cdr caar cadr cdar
       cddr caaar caadr cadar caddr cdaar cdadr cddar cdddr caaaar caaadr caadar caaddr cadaar
       cadadr caddar cadddr cdaaar cdaadr cdadar cdaddr cddaar cddadr cdddar cddddr list-ref first
       second third fourth fifth sixth seventh eighth ninth tenth car+cdr take take! take-right drop
       drop-right drop-right! split-at split-at! last last-pair length length+ append append!
       concatenate concatenate! reverse reverse! append-reverse append-reverse! zip unzip1 unzip2
       unzip3 unzip4 unzip5 count map map! filter-map map-in-order fold fold-right unfold
       unfold-right pair-fold pair-fold-right reduce reduce-right append-map append-map! for-each
       pair-for-each filter filter! partition partition! remove remove! memq memv member find
       find-tail any every list-index take-while take-while! drop-while span span! break break!
       delete delete! delete-duplicates delete-duplicates! assq assv assoc alist-cons alist-copy
       alist-delete alist-delete! lset<= lset= lset-adjoin lset-union lset-union! lset-intersection
       lset-intersection! lset-difference lset-difference! lset-xor lset-xor! lset-diff+intersection
       lset-diff+intersection! set-car! set-cdr!").map .plain)),
       .body (names! "list-tabulate proper-list? list= car+cdr split-at split-at! zip unzip1 unzip2 unzip3 unzip4
       unzip5 count fold unfold pair-fold reduce fold-right unfold-right pair-fold-right
       reduce-right append-map append-map! %append-map map! pair-for-each filter-map map-in-order
       filter filter! partition partition! remove remove! find find-tail any every list-index
       take-while take-while! drop-while span span! break break! delete delete! delete-duplicates
       delete-duplicates! alist-delete alist-delete! lset<= lset= lset-adjoin lset-union lset-union!
       lset-intersection lset-intersection! lset-difference lset-difference! lset-xor lset-xor!
       lset-diff+intersection lset-diff+intersection!")
      (names! "%cars+ %cars+cdrs %cars+cdrs+ %cars+cdrs/no-test %cdrs %lset2<= + - < and append append!
       apply begin cadddr caddr cadr car cddddr cdr cond cons define drop eq? equal? if lambda let
       let* letrec list list? map member memq not null-list? null? or pair? quote receive set-car!
       set-cdr! values zero?"),
       .body (names! "%cdrs %cars+ %cars+cdrs %cars+cdrs+ %cars+cdrs/no-test %lset2<=")
      (names! "caar call-with-current-continuation! car car+cdr cdr cons define every if lambda let list
       member null-list? pair? quote receive values")] }

/-- (library/srfi-11.ss L1-L31) -/
def srfi11 : Library :=
  { key := name! "(srfi 11)"
    declarations :=
      [.imports
        [.library (name! "(scheme r5rs)")],
       .exports (((names! "let-values let*-values").map .plain)),
       .body (names! "let-values let*-values")
      (names! "begin call-with-values define-syntax lambda let syntax-rules")] }

/-- (library/srfi-111.ss L1-L3) -/
def srfi111 : Library :=
  { key := name! "(srfi 111)"
    declarations :=
      [.imports
        [.library (name! "(meevax box)")],
       .exports (((names! "box box?").map .plain) ++
      [.rename (name! "box-ref") (name! "unbox")] ++
      [.rename (name! "box-set!") (name! "set-box!")])] }

/-- (library/srfi-141.ss L1-L94) -/
def srfi141 : Library :=
  { key := name! "(srfi 141)"
    declarations :=
      [.imports
        [.library (name! "(scheme r5rs)")],
       .exports (((names! "floor/ floor-quotient floor-remainder ceiling/ ceiling-quotient ceiling-remainder truncate/
       truncate-quotient truncate-remainder round/ round-quotient round-remainder euclidean/
       euclidean-quotient euclidean-remainder balanced/ balanced-quotient balanced-remainder").map .plain)),
       .body (names! "floor-quotient floor-remainder floor/ ceiling-quotient ceiling-remainder ceiling/
       truncate-quotient truncate-remainder truncate/ round-quotient round-remainder round/
       euclidean-quotient euclidean-remainder euclidean/ balanced-remainder balanced-quotient
       balanced/")
      (names! "* + - / < <= abs and ceiling cond define exact? floor if inexact->exact let modulo quotient
       remainder round values")] }

/-- (library/srfi-143.ss L1-L154) -/
def srfi143 : Library :=
  { key := name! "(srfi 143)"
    declarations :=
      [.imports
        [.only (.library (name! "(meevax integer32)")) (names! "integer32? integer32-width integer32-min integer32-max"),
         .library (name! "(scheme base)"),
         .library (name! "(scheme inexact)"),
         .library (name! "(srfi 141)"),
         .library (name! "(srfi 151)")],
       .exports (((names! "fx-width fx-greatest fx-least fixnum? fx=? fx<? fx>? fx<=? fx>=? fxzero? fxpositive?
       fxnegative? fxodd? fxeven? fxmax fxmin fx+ fx- fxneg fx* fxquotient fxremainder fxabs
       fxsquare fxsqrt fx+/carry fx-/carry fx*/carry fxnot fxand fxior fxxor fxarithmetic-shift
       fxarithmetic-shift-left fxarithmetic-shift-right fxbit-count fxlength fxif fxbit-set?
       fxcopy-bit fxfirst-set-bit fxbit-field fxbit-field-rotate fxbit-field-reverse").map .plain)),
       .body (names! "fx-width fx-greatest fx-least fixnum? fx=? fx<? fx>? fx<=? fx>=? fxzero? fxpositive?
       fxnegative? fxodd? fxeven? fxmax fxmin fx+ fx- fxneg fx* fxquotient fxremainder fxabs
       fxsquare fxsqrt fx+/carry fx-/carry fx*/carry fxnot fxand fxior fxxor fxarithmetic-shift
       fxarithmetic-shift-left fxarithmetic-shift-right fxbit-count fxlength fxif fxbit-set?
       fxcopy-bit fxfirst-set-bit fxbit-field fxbit-field-rotate fxbit-field-reverse")
      (names! "* + - < <= = > >= abs arithmetic-shift balanced/ bit-count bit-field bit-field-reverse
       bit-field-rotate bit-set? bitwise-and bitwise-if bitwise-ior bitwise-not bitwise-xor copy-bit
       define even? expt first-set-bit integer-length integer32-max integer32-min integer32-width
       integer32? let*-values max min negative? odd? positive? quotient remainder sqrt square values
       zero?")] }

/-- (library/srfi-144.ss L1-L344) -/
def srfi144 : Library :=
  { key := name! "(srfi 144)"
    declarations :=
      [.imports
        [.only (.library (name! "(meevax binary64)")) (names! "binary64-denormalized? binary64-epsilon binary64-exponent binary64-fractional-part
           binary64-fused-multiply-add binary64-greatest binary64-integer-log-binary
           binary64-integral-part binary64-least binary64-log-binary binary64-max binary64-min
           binary64-normalized-fraction binary64-normalized? binary64-remquo binary64-sign-bit
           binary64?"),
         .only (.library (name! "(meevax number)")) (names! "sinh asinh cosh acosh tanh atanh erf erfc tgamma lgamma expm1 log1p ldexp nextafter
           copysign cyl_bessel_j cyl_neumann e pi euler phi"),
         .only (.library (name! "(scheme base)")) (names! "* + - / < <= = > >= abs and car cdr ceiling cond-expand define denominator even? expt
           floor if inexact integer? lambda let negative? numerator odd? or positive? quotient
           remainder round square truncate values zero?"),
         .only (.library (name! "(scheme inexact)")) (names! "acos asin atan cos exp finite? infinite? log nan? sin sqrt tan")],
       .exports (((names! "fl-e fl-1/e fl-e-2 fl-e-pi/4 fl-log2-e fl-log10-e fl-log-2 fl-1/log-2 fl-log-3 fl-log-pi
       fl-log-10 fl-1/log-10 fl-pi fl-1/pi fl-2pi fl-pi/2 fl-pi/4 fl-pi-squared fl-degree fl-2/pi
       fl-2/sqrt-pi fl-sqrt-2 fl-sqrt-3 fl-sqrt-5 fl-sqrt-10 fl-1/sqrt-2 fl-cbrt-2 fl-cbrt-3
       fl-4thrt-2 fl-phi fl-log-phi fl-1/log-phi fl-euler fl-e-euler fl-sin-1 fl-cos-1 fl-gamma-1/2
       fl-gamma-1/3 fl-gamma-2/3 fl-greatest fl-least fl-epsilon fl-fast-fl+*
       fl-integer-exponent-zero fl-integer-exponent-nan flonum fladjacent flcopysign make-flonum
       flinteger-fraction flexponent flinteger-exponent flnormalized-fraction-exponent flsign-bit
       flonum? fl=? fl<? fl>? fl<=? fl>=? flunordered? flinteger? flzero? flpositive? flnegative?
       flodd? fleven? flfinite? flinfinite? flnan? flnormalized? fldenormalized? flmax flmin fl+ fl*
       fl+* fl- fl/ flabs flabsdiff flposdiff flsgn flnumerator fldenominator flfloor flceiling
       flround fltruncate flexp flexp2 flexp-1 flsquare flsqrt flcbrt flhypot flexpt fllog fllog1+
       fllog2 fllog10 make-fllog-base flsin flcos fltan flasin flacos flatan flsinh flcosh fltanh
       flasinh flacosh flatanh flquotient flremainder flremquo flgamma flloggamma flfirst-bessel
       flsecond-bessel flerf flerfc").map .plain)),
       .body (names! "fl-e fl-1/e fl-e-2 fl-e-pi/4 fl-log2-e fl-log10-e fl-log-2 fl-1/log-2 fl-log-3 fl-log-pi
       fl-log-10 fl-1/log-10 fl-pi fl-1/pi fl-2pi fl-pi/2 fl-pi/4 fl-pi-squared fl-degree fl-2/pi
       fl-2/sqrt-pi fl-sqrt-2 fl-sqrt-3 fl-sqrt-5 fl-sqrt-10 fl-1/sqrt-2 fl-cbrt-2 fl-cbrt-3
       fl-4thrt-2 fl-phi fl-log-phi fl-1/log-phi fl-euler fl-e-euler fl-sin-1 fl-cos-1 fl-gamma-1/2
       fl-gamma-1/3 fl-gamma-2/3 fl-greatest fl-least fl-epsilon fl-fast-fl+*
       fl-integer-exponent-zero fl-integer-exponent-nan flonum fladjacent flcopysign make-flonum
       flinteger-fraction flexponent flinteger-exponent flnormalized-fraction-exponent flsign-bit
       flonum? fl=? fl<? fl>? fl<=? fl>=? flunordered? flinteger? flzero? flpositive? flnegative?
       flodd? fleven? flfinite? flinfinite? flnan? flnormalized? fldenormalized? flmax flmin fl+ fl*
       fl+* fl- fl/ flabs flabsdiff flposdiff flsgn flnumerator fldenominator flfloor flceiling
       flround fltruncate flexp flexp2 flexp-1 flsquare flsqrt flcbrt flhypot flexpt fllog fllog1+
       fllog2 fllog10 make-fllog-base flsin flcos fltan flasin flacos flatan flsinh flcosh fltanh
       flasinh flacosh flatanh flquotient flremainder flremquo flgamma flloggamma flfirst-bessel
       flsecond-bessel flerf flerfc")
      (names! "* + - / < <= = > >= abs acos acosh and asin asinh atan atanh binary64-denormalized?
       binary64-epsilon binary64-exponent binary64-fractional-part binary64-fused-multiply-add
       binary64-greatest binary64-integer-log-binary binary64-integral-part binary64-least
       binary64-log-binary binary64-max binary64-min binary64-normalized-fraction
       binary64-normalized? binary64-remquo binary64-sign-bit binary64? car cdr ceiling cond-expand
       copysign cos cosh cyl_bessel_j cyl_neumann define denominator e erf erfc euler even? exp
       expm1 expt finite? floor if inexact infinite? integer? lambda ldexp let lgamma log log1p nan?
       negative? nextafter numerator odd? or phi pi positive? quotient remainder round sin sinh sqrt
       square tan tanh tgamma truncate values zero?")] }

/-- (library/srfi-149.ss L26-L300) -/
def srfi149 : Library :=
  { key := name! "(srfi 149)"
    declarations :=
      [.imports
        [.only (.library (name! "(meevax core)")) (names! "define-syntax quote-syntax"),
         .only (.library (name! "(meevax macro-transformer)")) (names! "er-macro-transformer identifier?"),
         .only (.library (name! "(meevax symbol)")) (names! "identifier->symbol"),
         .library (name! "(scheme r4rs)")],
       .exports (((names! "syntax-rules").map .plain)),
       .body (names! "%number->string length* cons-source syntax-quote strip-syntactic-closures any find")
      (names! "+ and car cddr cdr cons define eq? if let not number->string or pair? quote-syntax"),
       .body (names! "syntax-rules-transformer syntax-rules")
      (names! "%number->string + - <= = >= and any append apply assq begin cadr car cddr cdr cond cons
       cons-source define define-syntax do eq? equal? er-macro-transformer error find
       identifier->symbol identifier? if lambda length* let let* list list->vector list? map memq
       not null? or pair? quasiquote quote reverse set! string->symbol string-append
       strip-syntactic-closures symbol->string syntax-quote vector->list vector?")] }

/-- (library/srfi-151.ss L1-L267) -/
def srfi151 : Library :=
  { key := name! "(srfi 151)"
    declarations :=
      [.imports
        [.only (.library (name! "(meevax number)")) (names! "bitwise-not bitwise-and bitwise-ior bitwise-xor bit-shift bit-count bit-width"),
         .library (name! "(scheme base)"),
         .library (name! "(scheme case-lambda)")],
       .exports (((names! "bitwise-not bitwise-and bitwise-ior bitwise-xor bitwise-eqv bitwise-nand bitwise-nor
       bitwise-andc1 bitwise-andc2 bitwise-orc1 bitwise-orc2 arithmetic-shift bit-count
       integer-length bitwise-if bit-set? copy-bit bit-swap any-bit-set? every-bit-set?
       first-set-bit bit-field bit-field-any? bit-field-every? bit-field-clear bit-field-set
       bit-field-replace bit-field-replace-same bit-field-rotate bit-field-reverse bits->list
       list->bits bits->vector vector->bits bits bitwise-fold bitwise-for-each bitwise-unfold
       make-bitwise-generator").map .plain)),
       .body (names! "arithmetic-shift integer-length")
      (names! "bit-shift bit-width define"),
       .body (names! "bitwise-nand bitwise-nor bitwise-andc1 bitwise-andc2 bitwise-orc1 bitwise-orc2 bitwise-eqv
       mask bit-set? any-bit-set? every-bit-set? bit-field bit-field-any? bit-field-every?
       bit-field-clear bit-field-set bit-field-replace bit-field-replace-same first-set-bit")
      (names! "- = arithmetic-shift bit-count bitwise-and bitwise-if bitwise-ior bitwise-not bitwise-xor car
       cdr define eqv? if let not pair? zero?"),
       .body (names! "bit-field-rotate bit-reverse bit-field-reverse copy-bit bits->list list->bits bits bitwise-if")
      (names! "+ - <= arithmetic-shift bitwise-and bitwise-ior bitwise-not car cdr cons define do if let
       modulo negative? null? odd? quote reverse set!"),
       .body (names! "bits->vector vector->bits bit-swap bitwise-fold bitwise-for-each bitwise-unfold
       make-bitwise-generator")
      (names! "+ < = arithmetic-shift bit-set? bits->list case-lambda copy-bit define if integer-length
       lambda let list->bits list->vector set! vector->list when")] }

/-- (library/srfi-16.ss L1-L22) -/
def srfi16 : Library :=
  { key := name! "(srfi 16)"
    declarations :=
      [.imports
        [.only (.library (name! "(scheme r5rs)")) (names! "define-syntax syntax-rules lambda let length letrec-syntax error if = quote >= apply"),
         .only (.library (name! "(srfi 23)")) (names! "error")],
       .exports (((names! "case-lambda").map .plain)),
       .body (names! "case-lambda")
      (names! "= >= apply define-syntax error if lambda length let letrec-syntax quote syntax-rules")] }

/-- (library/srfi-23.ss L1-L7) -/
def srfi23 : Library :=
  { key := name! "(srfi 23)"
    declarations :=
      [.imports
        [.only (.library (name! "(meevax error)")) (names! "error-object"),
         .only (.library (name! "(scheme r5rs)")) (names! "define apply"),
         .only (.library (name! "(srfi 34)")) (names! "raise")],
       .exports (((names! "error").map .plain)),
       .body (names! "error")
      (names! "apply define error-object raise")] }

/-- (library/srfi-31.ss L23-L31) -/
def srfi31 : Library :=
  { key := name! "(srfi 31)"
    declarations :=
      [.imports
        [.library (name! "(scheme base)")],
       .exports (((names! "rec").map .plain)),
       .body (names! "rec")
      (names! "define-syntax lambda letrec syntax-rules")] }

/-- (library/srfi-34.ss L23-L123) -/
def srfi34 : Library :=
  { key := name! "(srfi 34)"
    declarations :=
      [.imports
        [.only (.library (name! "(meevax error)")) (names! "throw kernel-exception-handler-set!"),
         .only (.library (name! "(meevax core)")) (names! "current install"),
         .library (name! "(scheme r5rs)")],
       .exports (((names! "with-exception-handler raise raise-continuable guard").map .plain)),
       .body (names! "current-exception-handlers install-exception-handlers! with-exception-handlers
       with-exception-handler raise raise-continuable guard-aux guard")
      (names! "apply begin call-with-current-continuation call-with-values car cdr cons current define
       define-syntax dynamic-wind if install kernel-exception-handler-set! lambda let or pair?
       procedure? syntax-rules throw values")] }

/-- (library/srfi-38.ss L23-L352) -/
def srfi38 : Library :=
  { key := name! "(srfi 38)"
    declarations :=
      [.imports
        [.library (name! "(scheme r5rs)"),
         .library (name! "(srfi 23)")],
       .exports (((names! "write-with-shared-structure").map .plain) ++
      [.rename (name! "write-with-shared-structure") (name! "write/ss")] ++
      ((names! "read-with-shared-structure").map .plain) ++
      [.rename (name! "read-with-shared-structure") (name! "read/ss")]),
       .body (names! "write-with-shared-structure read-with-shared-structure")
      (names! "+ = and assq assv begin caadr car case cdar cdr char-alphabetic? char-downcase char-numeric?
       char-upcase char-whitespace? char=? char? cond cons current-input-port current-output-port
       define display do eof-object? eq? eqv? error if lambda let let* letrec list list->string
       list->vector make-string not null? number? or pair? peek-char procedure? quote read-char
       reverse set! set-car! set-cdr! string string->number string->symbol string-append string-ci=?
       string-length string-ref string-set! string? symbol->string symbol? vector-length vector-ref
       vector-set! vector? write zero?")] }

/-- (library/srfi-39.ss L23-L84) -/
def srfi39 : Library :=
  { key := name! "(srfi 39)"
    declarations :=
      [.imports
        [.only (.library (name! "(meevax core)")) (names! "current install"),
         .only (.library (name! "(meevax continuation)")) (names! "dynamic-wind"),
         .only (.library (name! "(meevax core)")) (names! "define define-syntax if lambda letrec quote"),
         .only (.library (name! "(meevax list)")) (names! "null? list append assq"),
         .only (.library (name! "(meevax macro-transformer)")) (names! "er-macro-transformer"),
         .only (.library (name! "(meevax map)")) (names! "map"),
         .only (.library (name! "(meevax pair)")) (names! "cons car cdr cadr cddr set-car! set-cdr!")],
       .exports (((names! "make-parameter parameterize").map .plain)),
       .body (names! "current-dynamic-bindings install-dynamic-bindings! make-parameter dynamic-bind parameterize")
      (names! "append assq cadr car cddr cdr cons current define define-syntax dynamic-wind
       er-macro-transformer if install lambda letrec list map null? quote set-car! set-cdr!")] }

/-- (library/srfi-4.ss L1-L31) -/
def srfi4 : Library :=
  { key := name! "(srfi 4)"
    declarations :=
      [.imports
        [.library (name! "(meevax vector homogeneous)")],
       .exports (((names! "f32vector? make-f32vector f32vector f32vector-length f32vector-ref f32vector-set!
       f32vector->list list->f32vector f64vector? make-f64vector f64vector f64vector-length
       f64vector-ref f64vector-set! f64vector->list list->f64vector s8vector? make-s8vector s8vector
       s8vector-length s8vector-ref s8vector-set! s8vector->list list->s8vector s16vector?
       make-s16vector s16vector s16vector-length s16vector-ref s16vector-set! s16vector->list
       list->s16vector s32vector? make-s32vector s32vector s32vector-length s32vector-ref
       s32vector-set! s32vector->list list->s32vector s64vector? make-s64vector s64vector
       s64vector-length s64vector-ref s64vector-set! s64vector->list list->s64vector u8vector?
       make-u8vector u8vector u8vector-length u8vector-ref u8vector-set! u8vector->list
       list->u8vector u16vector? make-u16vector u16vector u16vector-length u16vector-ref
       u16vector-set! u16vector->list list->u16vector u32vector? make-u32vector u32vector
       u32vector-length u32vector-ref u32vector-set! u32vector->list list->u32vector u64vector?
       make-u64vector u64vector u64vector-length u64vector-ref u64vector-set! u64vector->list
       list->u64vector").map .plain))] }

/-- (library/srfi-45.ss L1-L51) -/
def srfi45 : Library :=
  { key := name! "(srfi 45)"
    declarations :=
      [.imports
        [.only (.library (name! "(meevax boolean)")) (names! "not"),
         .only (.library (name! "(meevax comparator)")) (names! "eq?"),
         .only (.library (name! "(meevax core)")) (names! "define define-syntax if lambda quote"),
         .only (.library (name! "(meevax list)")) (names! "list"),
         .only (.library (name! "(meevax macro-transformer)")) (names! "er-macro-transformer"),
         .only (.library (name! "(meevax pair)")) (names! "pair? cons car cdr cadr cddr set-car! set-cdr!")],
       .exports (((names! "delay eager force lazy promise?").map .plain)),
       .body (names! "<promise> promise promise? promise-done? promise-value promise-update! force lazy delay eager")
      (names! "cadr car cddr cdr cons define define-syntax eq? er-macro-transformer if lambda list not pair?
       quote set-car! set-cdr!")] }

/-- (library/srfi-6.ss L1-L3) -/
def srfi6 : Library :=
  { key := name! "(srfi 6)"
    declarations :=
      [.imports
        [.library (name! "(meevax port)")],
       .exports (((names! "get-output-string open-input-string open-output-string").map .plain))] }

/-- (library/srfi-78.ss L23-L222) -/
def srfi78 : Library :=
  { key := name! "(srfi 78)"
    declarations :=
      [.imports
        [.library (name! "(scheme base)"),
         .library (name! "(scheme cxr)"),
         .library (name! "(scheme write)")],
       .exports (((names! "check check-passed? check-report check-reset! check-set-mode!").map .plain)),
       .body (names! "check:write check:mode check-set-mode! check:correct check:failed check-reset!
       check:add-correct! check:add-failed! check:report-expression check:report-actual-result
       check:report-correct check:report-failed check-report check-passed? check:proc check")
      (names! "+ <= = >= and begin caddr cadr car case cons define define-syntax display equal? error if
       lambda length let let* list newline not null? or quote reverse set! syntax-rules write zero?")] }

/-- (library/srfi-8.ss L23-L30) -/
def srfi8 : Library :=
  { key := name! "(srfi 8)"
    declarations :=
      [.imports
        [.library (name! "(scheme base)")],
       .exports (((names! "receive").map .plain)),
       .body (names! "receive")
      (names! "call-with-values define-syntax lambda syntax-rules")] }

/-- (library/srfi-9.ss L23-L142) -/
def srfi9 : Library :=
  { key := name! "(srfi 9)"
    declarations :=
      [.imports
        [.library (name! "(scheme r5rs)")],
       .exports (((names! "define-record-type").map .plain)),
       .body (names! "record-marker record? make-record record-ref record-set! :record-type record-type
       make-record-type record-type-name record-type-field-tags field-index record-constructor
       record-predicate record-accessor record-modifier define-record-field define-record-type")
      (names! "+ < = and begin car cdr cond define define-syntax eq? error for-each if lambda length let
       list make-vector map null? quote syntax-rules vector-length vector-ref vector-set! vector?")] }

/-- (library/srfi-98.ss L1-L4) -/
def srfi98 : Library :=
  { key := name! "(srfi 98)"
    declarations :=
      [.imports
        [.library (name! "(meevax system)")],
       .exports (((names! "get-environment-variable get-environment-variables").map .plain))] }

/-- The libraries of library/*.ss (configure/system.cpp L111-L150). -/
def sources : List Library :=
  [meevaxMacroTransformer, meevaxContinuation, meevaxApply, meevaxMap, schemeR4rs, schemeR5rs,
   schemeBase, schemeBitwise, schemeBox, schemeCaseLambda, schemeChar, schemeComplex, schemeCxr,
   schemeDivision, schemeEval, schemeFile, schemeFixnum, schemeFlonum, schemeInexact, schemeLazy,
   schemeList, schemeLoad, schemeProcessContext, schemeRead, schemeRepl, schemeTime, schemeWrite,
   srfi0, srfi1, srfi11, srfi111, srfi141, srfi143, srfi144, srfi149, srfi151, srfi16, srfi23,
   srfi31, srfi34, srfi38, srfi39, srfi4, srfi45, srfi6, srfi78, srfi8, srfi9, srfi98]

/-- All libraries (src/kernel/boot.cpp L443-L928; configure/system.cpp L111-L150). -/
def table : List Library := builtins.map Builtins.library ++ sources

/-- The names of the libraries, each after those it imports: the order in which they can be evaluated
(configure/system.cpp L111-L150). -/
def order : List Name :=
  builtins.map Builtins.key ++
  [name! "(meevax macro-transformer)",
   name! "(meevax continuation)",
   name! "(meevax apply)",
   name! "(meevax map)",
   name! "(scheme cxr)",
   name! "(scheme eval)",
   name! "(scheme repl)",
   name! "(srfi 0)",
   name! "(srfi 111)",
   name! "(srfi 39)",
   name! "(srfi 4)",
   name! "(srfi 45)",
   name! "(srfi 6)",
   name! "(srfi 98)",
   name! "(scheme r4rs)",
   name! "(scheme box)",
   name! "(scheme lazy)",
   name! "(scheme process-context)",
   name! "(srfi 149)",
   name! "(scheme r5rs)",
   name! "(scheme complex)",
   name! "(scheme inexact)",
   name! "(scheme load)",
   name! "(srfi 11)",
   name! "(srfi 141)",
   name! "(srfi 34)",
   name! "(srfi 9)",
   name! "(scheme division)",
   name! "(srfi 23)",
   name! "(srfi 38)",
   name! "(scheme base)",
   name! "(scheme char)",
   name! "(scheme file)",
   name! "(scheme read)",
   name! "(scheme time)",
   name! "(scheme write)",
   name! "(srfi 144)",
   name! "(srfi 16)",
   name! "(srfi 31)",
   name! "(srfi 78)",
   name! "(srfi 8)",
   name! "(scheme case-lambda)",
   name! "(scheme flonum)",
   name! "(srfi 1)",
   name! "(srfi 151)",
   name! "(scheme bitwise)",
   name! "(scheme list)",
   name! "(srfi 143)",
   name! "(scheme fixnum)"]

end Meevax.System
