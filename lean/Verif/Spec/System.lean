import Verif.Model.System

/-
The names that the reports assign to the standard libraries: R7RS appendix A, and the indexes of the SRFIs.
-/

namespace Meevax.System

/-- A library and its names. -/
structure Standard where
  key : Name
  names : List Name

/-- Auxiliary keywords of R7RS (scheme base) (4.2.1, 4.2.8, 4.3.2): they have no meaning of their own. -/
def auxiliary : List Name := names! "else => _ ... unquote unquote-splicing"

/-- R7RS, appendix A. -/
def r7rs : List Standard :=
  [⟨name! "(scheme base)", names! "* + - ... / < <= = => > >= _ abs and append apply assoc assq assv begin
     binary-port? boolean=? boolean? bytevector bytevector-append bytevector-copy bytevector-copy!
     bytevector-length bytevector-u8-ref bytevector-u8-set! bytevector? caar cadr
     call-with-current-continuation call-with-port call-with-values call/cc car case cdar cddr cdr ceiling
     char->integer char-ready? char<=? char<? char=? char>=? char>? char? close-input-port
     close-output-port close-port complex? cond cond-expand cons current-error-port current-input-port
     current-output-port define define-record-type define-syntax define-values denominator do dynamic-wind
     else eof-object eof-object? eq? equal? eqv? error error-object-irritants error-object-message
     error-object? even? exact exact-integer-sqrt exact-integer? exact? expt features file-error? floor
     floor-quotient floor-remainder floor/ flush-output-port for-each gcd get-output-bytevector
     get-output-string guard if include include-ci inexact inexact? input-port-open? input-port?
     integer->char integer? lambda lcm length let let* let*-values let-syntax let-values letrec letrec*
     letrec-syntax list list->string list->vector list-copy list-ref list-set! list-tail list?
     make-bytevector make-list make-parameter make-string make-vector map max member memq memv min modulo
     negative? newline not null? number->string number? numerator odd? open-input-bytevector
     open-input-string open-output-bytevector open-output-string or output-port-open? output-port? pair?
     parameterize peek-char peek-u8 port? positive? procedure? quasiquote quote quotient raise raise-continuable
     rational? rationalize read-bytevector read-bytevector! read-char read-error? read-line read-string
     read-u8 real? remainder reverse round set! set-car! set-cdr! square string string->list string->number
     string->symbol string->utf8 string->vector string-append string-copy string-copy! string-fill!
     string-for-each string-length string-map string-ref string-set! string<=? string<? string=? string>=?
     string>? string? substring symbol->string symbol=? symbol? syntax-error syntax-rules textual-port?
     truncate truncate-quotient truncate-remainder truncate/ u8-ready? unless unquote unquote-splicing
     utf8->string values vector vector->list vector->string vector-append vector-copy vector-copy!
     vector-fill! vector-for-each vector-length vector-map vector-ref vector-set! vector? when
     with-exception-handler write-bytevector write-char write-string write-u8 zero?"⟩,
   ⟨name! "(scheme case-lambda)", names! "case-lambda"⟩,
   ⟨name! "(scheme char)", names! "char-alphabetic? char-ci<=? char-ci<? char-ci=? char-ci>=? char-ci>?
     char-downcase char-foldcase char-lower-case? char-numeric? char-upcase char-upper-case?
     char-whitespace? digit-value string-ci<=? string-ci<? string-ci=? string-ci>=? string-ci>?
     string-downcase string-foldcase string-upcase"⟩,
   ⟨name! "(scheme complex)", names! "angle imag-part magnitude make-polar make-rectangular real-part"⟩,
   ⟨name! "(scheme cxr)", names! "caaaar caaadr caaar caadar caaddr caadr cadaar cadadr cadar caddar cadddr
     caddr cdaaar cdaadr cdaar cdadar cdaddr cdadr cddaar cddadr cddar cdddar cddddr cdddr"⟩,
   ⟨name! "(scheme eval)", names! "environment eval"⟩,
   ⟨name! "(scheme file)", names! "call-with-input-file call-with-output-file delete-file file-exists?
     open-binary-input-file open-binary-output-file open-input-file open-output-file with-input-from-file
     with-output-to-file"⟩,
   ⟨name! "(scheme inexact)", names! "acos asin atan cos exp finite? infinite? log nan? sin sqrt tan"⟩,
   ⟨name! "(scheme lazy)", names! "delay delay-force force make-promise promise?"⟩,
   ⟨name! "(scheme load)", names! "load"⟩,
   ⟨name! "(scheme process-context)", names! "command-line emergency-exit exit get-environment-variable
     get-environment-variables"⟩,
   ⟨name! "(scheme read)", names! "read"⟩,
   ⟨name! "(scheme repl)", names! "interaction-environment"⟩,
   ⟨name! "(scheme time)", names! "current-jiffy current-second jiffies-per-second"⟩,
   ⟨name! "(scheme write)", names! "display write write-shared write-simple"⟩]

/-- R7RS, appendix A: the names of R5RS. -/
def r5rs : List Standard :=
  [⟨name! "(scheme r5rs)", names! "* + - / < <= = > >= abs acos and angle append apply asin assoc assq assv
     atan begin boolean? caaaar caaadr caaar caadar caaddr caadr caar cadaar cadadr cadar caddar cadddr
     caddr cadr call-with-current-continuation call-with-input-file call-with-output-file call-with-values
     car case cdaaar cdaadr cdaar cdadar cdaddr cdadr cdar cddaar cddadr cddar cdddar cddddr cdddr cddr cdr
     ceiling char->integer char-alphabetic? char-ci<=? char-ci<? char-ci=? char-ci>=? char-ci>?
     char-downcase char-lower-case? char-numeric? char-ready? char-upcase char-upper-case? char-whitespace?
     char<=? char<? char=? char>=? char>? char? close-input-port close-output-port complex? cond cons cos
     current-input-port current-output-port define define-syntax delay denominator display do dynamic-wind
     eof-object? eq? equal? eqv? eval even? exact->inexact exact? exp expt floor for-each force gcd if
     imag-part inexact->exact inexact? input-port? integer->char integer? interaction-environment lambda lcm
     length let let* let-syntax letrec letrec-syntax list list->string list->vector list-ref list-tail list?
     load log magnitude make-polar make-rectangular make-string make-vector map max member memq memv min
     modulo negative? newline not null-environment null? number->string number? numerator odd?
     open-input-file open-output-file or output-port? pair? peek-char positive? procedure? quasiquote quote
     quotient rational? rationalize read read-char real-part real? remainder reverse round
     scheme-report-environment set! set-car! set-cdr! sin sqrt string string->list string->number
     string->symbol string-append string-ci<=? string-ci<? string-ci=? string-ci>=? string-ci>? string-copy
     string-fill! string-length string-ref string-set! string<=? string<? string=? string>=? string>?
     string? substring symbol->string symbol? tan truncate values vector vector->list vector-fill!
     vector-length vector-ref vector-set! vector? with-input-from-file with-output-to-file write write-char
     zero?"⟩]

/-- SRFI 1, 111, 141, 143 and 151: the libraries of R7RS large that meevax has, except flonums. -/
def large : List Standard :=
  [⟨name! "(scheme list)", names! "cons list xcons cons* make-list list-tabulate list-copy circular-list iota
     pair? null? proper-list? circular-list? dotted-list? not-pair? null-list? list= car cdr caar cadr cdar
     cddr caaar caadr cadar caddr cdaar cdadr cddar cdddr caaaar caaadr caadar caaddr cadaar cadadr caddar
     cadddr cdaaar cdaadr cdadar cdaddr cddaar cddadr cdddar cddddr list-ref first second third fourth fifth
     sixth seventh eighth ninth tenth car+cdr take drop take-right drop-right take! drop-right! split-at
     split-at! last last-pair length length+ append concatenate reverse append! concatenate! reverse!
     append-reverse append-reverse! zip unzip1 unzip2 unzip3 unzip4 unzip5 count map for-each fold unfold
     pair-fold reduce fold-right unfold-right pair-fold-right reduce-right append-map append-map! map!
     map-in-order pair-for-each filter-map filter partition remove filter! partition! remove! member memq
     memv find find-tail any every list-index take-while drop-while take-while! span break span! break!
     delete delete-duplicates delete! delete-duplicates! assoc assq assv alist-cons alist-copy alist-delete
     alist-delete! lset<= lset= lset-adjoin lset-union lset-union! lset-intersection lset-intersection!
     lset-difference lset-difference! lset-xor lset-xor! lset-diff+intersection lset-diff+intersection!
     set-car! set-cdr!"⟩,
   ⟨name! "(scheme box)", names! "box box? unbox set-box!"⟩,
   ⟨name! "(scheme division)", names! "floor/ floor-quotient floor-remainder ceiling/ ceiling-quotient
     ceiling-remainder truncate/ truncate-quotient truncate-remainder round/ round-quotient round-remainder
     euclidean/ euclidean-quotient euclidean-remainder balanced/ balanced-quotient balanced-remainder"⟩,
   ⟨name! "(scheme fixnum)", names! "fx-width fx-greatest fx-least fixnum? fx=? fx<? fx>? fx<=? fx>=? fxzero?
     fxpositive? fxnegative? fxodd? fxeven? fxmax fxmin fx+ fx- fx* fxneg fxquotient fxremainder fxabs
     fxsquare fxsqrt fx+/carry fx-/carry fx*/carry fxnot fxand fxior fxxor fxarithmetic-shift
     fxarithmetic-shift-left fxarithmetic-shift-right fxbit-count fxlength fxif fxbit-set? fxcopy-bit
     fxfirst-set-bit fxbit-field fxbit-field-rotate fxbit-field-reverse"⟩,
   ⟨name! "(scheme bitwise)", names! "bitwise-not bitwise-and bitwise-ior bitwise-xor bitwise-eqv bitwise-nand
     bitwise-nor bitwise-andc1 bitwise-andc2 bitwise-orc1 bitwise-orc2 arithmetic-shift bit-count
     integer-length bitwise-if bit-set? copy-bit bit-swap any-bit-set? every-bit-set? first-set-bit
     bit-field bit-field-any? bit-field-every? bit-field-clear bit-field-set bit-field-replace
     bit-field-replace-same bit-field-rotate bit-field-reverse bits->list list->bits bits->vector
     vector->bits bits bitwise-fold bitwise-for-each bitwise-unfold make-bitwise-generator"⟩]

/-- The SRFIs that meevax has under their own names, except 4, 78, 144 and 149. -/
def srfis : List Standard :=
  [⟨name! "(srfi 0)", names! "cond-expand"⟩,
   ⟨name! "(srfi 6)", names! "open-input-string open-output-string get-output-string"⟩,
   ⟨name! "(srfi 8)", names! "receive"⟩,
   ⟨name! "(srfi 9)", names! "define-record-type"⟩,
   ⟨name! "(srfi 11)", names! "let-values let*-values"⟩,
   ⟨name! "(srfi 16)", names! "case-lambda"⟩,
   ⟨name! "(srfi 23)", names! "error"⟩,
   ⟨name! "(srfi 31)", names! "rec"⟩,
   ⟨name! "(srfi 34)", names! "with-exception-handler guard raise"⟩,
   ⟨name! "(srfi 38)", names! "write-with-shared-structure write/ss read-with-shared-structure read/ss"⟩,
   ⟨name! "(srfi 39)", names! "make-parameter parameterize"⟩,
   ⟨name! "(srfi 45)", names! "delay lazy force eager"⟩,
   ⟨name! "(srfi 98)", names! "get-environment-variable get-environment-variables"⟩,
   ⟨name! "(srfi 111)", names! "box box? unbox set-box!"⟩]

/-- The standard libraries that can be imported together. -/
def compatible : List Name :=
  (r7rs ++ large).map Standard.key ++
  [name! "(scheme flonum)", name! "(srfi 1)", name! "(srfi 4)", name! "(srfi 6)", name! "(srfi 8)", name! "(srfi 9)",
   name! "(srfi 11)", name! "(srfi 16)", name! "(srfi 23)", name! "(srfi 31)", name! "(srfi 34)", name! "(srfi 38)",
   name! "(srfi 39)", name! "(srfi 45)", name! "(srfi 78)", name! "(srfi 98)", name! "(srfi 141)", name! "(srfi 143)",
   name! "(srfi 144)", name! "(srfi 149)", name! "(srfi 151)"]

/-- Those of them that conflict with themselves. -/
def once : List Name := [name! "(scheme lazy)", name! "(srfi 38)"]

/-- The names of a library and its values, as an import set shows them. -/
def Offers (xs : List Exposed) (n : Name) : Prop := ∃ x ∈ xs, x.name = n

/-- The name is there and its variable has been defined. -/
def Defines (xs : List Exposed) (n : Name) : Prop := ∃ x ∈ xs, x.name = n ∧ x.origin.isSome

/-- The names that the bodies of a library refer to, other than those they define. -/
def Library.references (l : Library) : List Name :=
  l.declarations.flatMap fun d =>
    match d with
    | .body _ refers => refers
    | _ => []

/-- Only `only` and `except` are used. -/
def ImportSet.Filtering : ImportSet → Prop
  | .library _ => True
  | .only set _ => set.Filtering
  | .except set _ => set.Filtering
  | .prefix _ _ => False
  | .rename _ _ => False

/-- The library an import set is made from. -/
def ImportSet.base : ImportSet → Name
  | .library key => key
  | .only set _ => set.base
  | .except set _ => set.base
  | .prefix set _ => set.base
  | .rename set _ => set.base

/-- The name under which an import set shows a name of its library, if it does (R7RS 5.2). -/
def ImportSet.shown : ImportSet → Name → Option Name
  | .library _, n => some n
  | .only set ids, n => (set.shown n).filter (· ∈ ids)
  | .except set ids, n => (set.shown n).filter (· ∉ ids)
  | .prefix set p, n => (set.shown n).map (concat p)
  | .rename set rs, n => (set.shown n).map fun m => ((rs.find? (·.1 = m)).map Prod.snd).getD m

/-- The name is shown by way of `prefix` or `rename`. -/
def ImportSet.Renames : ImportSet → Name → Prop
  | .library _, _ => False
  | .only set _, n => set.Renames n
  | .except set _, n => set.Renames n
  | .prefix _ _, _ => True
  | .rename set rs, n => set.Renames n ∨ ∃ m, set.shown n = some m ∧ ∃ r ∈ rs, r.1 = m

/-- The import set is that of the library, however deep its evaluation may go. -/
def Loads (table : List Library) (key : Name) (xs : List Exposed) : Prop :=
  ∃ d, ∀ depth, d ≤ depth → interface table depth key = some xs

end Meevax.System
