/-
Type predicates of `src/kernel/boot.cpp`, the classes they ask for, and the accessors of pairs, boxes
and error objects, which do not ask.
-/

namespace Meevax.Types

/-- Element types of homogeneous vectors (homogeneous_vector.hpp L109-L123, boot.cpp L403-L424). -/
inductive Tag where
  | f32 | f64 | s8 | s16 | s32 | s64 | u8 | u16 | u32 | u64
  deriving DecidableEq, Repr

/-- The C++ types an object can have, and the classes these inherit from. The first seven are held in
the word itself (object.hpp L50), the others are classes of `include/meevax/kernel`. Simplified:
classes outside of the project (`std::exception`, `mpz_t`, …) are left out. -/
inductive Class where
  -- held in the word (object.hpp L50, nan_boxing_pointer.hpp L66-L83)
  | null | bool | smallInteger | float | double | character | instruction
  -- data
  | pair | box | closure | continuation | procedure | complex | largeInteger | ratio
  | string | vector | homogeneousVector (tag : Tag) | eof | ghost
  | identifier | symbol | syntacticClosure
  | error | fileError | readError
  -- the compiler and the environment
  | absolute | macroUse | relative | variadic | transformer | syntax
  | syntacticEnvironment | dynamicEnvironment | environment | library | datumLabel
  -- ports
  | port | inputPort | outputPort | textualPort | binaryPort
  | textualInputPort | textualOutputPort | binaryInputPort | binaryOutputPort
  | standardInputPort | standardOutputPort | standardErrorPort
  | inputStringPort | outputStringPort | inputU8vectorPort | outputU8vectorPort
  | inputFilePort | outputFilePort | binaryInputFilePort | binaryOutputFilePort
  deriving DecidableEq, Repr

/-- The classes a class names in its declaration, one clause per header of `include/meevax/kernel`:
box.hpp L24, closure.hpp L24, continuation.hpp L24, complex.hpp L26, symbol.hpp L26,
syntactic_closure.hpp L25, error.hpp L24, L53 and L62, identity.hpp L24, L31, L36 and L46,
transformer.hpp L24, syntactic_environment.hpp L26, environment.hpp L27-L28, input_port.hpp L24,
output_port.hpp L24, textual_port.hpp L24, binary_port.hpp L24, textual_input_port.hpp L26,
textual_output_port.hpp L26, binary_input_port.hpp L26, binary_output_port.hpp L26,
standard_input_port.hpp L24, standard_output_port.hpp L24, standard_error_port.hpp L24,
input_string_port.hpp L25, output_string_port.hpp L25, input_homogeneous_vector_port.hpp L29,
output_homogeneous_vector_port.hpp L26, input_file_port.hpp L26, output_file_port.hpp L26,
binary_input_file_port.hpp L27, binary_output_file_port.hpp L27. -/
def bases : Class → List Class
  | .box | .closure | .continuation | .complex => [.pair]
  | .symbol | .syntacticClosure => [.identifier]
  | .error => [.pair]
  | .fileError | .readError => [.error]
  | .absolute => [.pair]
  | .macroUse => [.absolute]
  | .relative | .variadic | .transformer | .syntacticEnvironment => [.pair]
  | .environment => [.dynamicEnvironment, .syntacticEnvironment]
  | .inputPort | .outputPort | .textualPort | .binaryPort => [.port]
  | .textualInputPort => [.textualPort, .inputPort]
  | .textualOutputPort => [.textualPort, .outputPort]
  | .binaryInputPort => [.binaryPort, .inputPort]
  | .binaryOutputPort => [.binaryPort, .outputPort]
  | .standardInputPort | .inputStringPort | .inputFilePort => [.textualInputPort]
  | .standardOutputPort | .standardErrorPort | .outputStringPort | .outputFilePort =>
    [.textualOutputPort]
  | .inputU8vectorPort | .binaryInputFilePort => [.binaryInputPort]
  | .outputU8vectorPort | .binaryOutputFilePort => [.binaryOutputPort]
  | _ => []

/-- The bases of a class, those of these, and so on for `n` levels (object.hpp L150-L154). -/
def basesWithin : Nat → Class → List Class
  | 0, c => [c]
  | n + 1, c => c :: (bases c).flatMap (basesWithin n)

/-- A successful `dynamic_cast<U *>` (object.hpp L150-L154) of an object of class `c` other than to
`pair`: `U` is the class or one it inherits from. Four levels are as deep as the headers go. -/
def castsTo (c target : Class) : Bool := (basesWithin 4 c).contains target

/-- A word (object.hpp L50): a value, or a reference to a cell. -/
inductive Word where
  | null
  | bool (b : Bool)
  | fix (n : Int)
  | single (bits : Nat)
  | double (bits : Nat)
  | char (code : Nat)
  | instruction (code : Nat)
  | ref (address : Nat)
  deriving DecidableEq, Repr

/-- What `make<T>` allocates (collector.hpp L76-L98): an object of class `T` together with a `pair`,
which is part of every cell. Of other data only the flag of ports is modelled: `isOpen` is what `is_open()`
of the port gives (port.hpp, src/kernel/output_string_port.cpp L25-L28 and the like). -/
structure Cell where
  class_ : Class
  first : Word := .null
  second : Word := .null
  isOpen : Bool := true
  deriving DecidableEq, Repr

/-- Memory; addresses below `next` are in use (collector.hpp L175-L196). -/
structure Heap where
  cell : Nat → Cell
  next : Nat

/-- What a call gives: a value, an error that can be caught, or undefined behaviour (object.hpp
L114-L136: the cast to `pair` is not checked, the other ones are). -/
inductive Outcome (α : Type) where
  | value (x : α)
  | error
  | undefined
  deriving DecidableEq, Repr

/-- `object::type` (collector.cpp L98-L101, collector.hpp L119-L122, nan_boxing_pointer.hpp L216-L233). -/
def type (h : Heap) : Word → Class
  | .null => .null
  | .bool _ => .bool
  | .fix _ => .smallInteger
  | .single _ => .float
  | .double _ => .double
  | .char _ => .character
  | .instruction _ => .instruction
  | .ref a => (h.cell a).class_

/-- `x.is<T>()` (object.hpp L144-L148). -/
def is (h : Heap) (c : Class) (x : Word) : Bool := decide (type h x = c)

/-- `x.is_also<T>()` (object.hpp L150-L154): `get()` is null unless the word is a reference. -/
def isAlso (h : Heap) (c : Class) : Word → Bool
  | .ref a => castsTo (h.cell a).class_ c
  | _ => false

/-- `make<T>(xs...)` (collector.hpp L175-L196). -/
def make (h : Heap) (c : Cell) : Word × Heap :=
  (.ref h.next, ⟨fun a => if a = h.next then c else h.cell a, h.next + 1⟩)

/-- `boolean?` (boot.cpp L82). -/
def isBoolean (h : Heap) (x : Word) : Bool := is h .bool x

/-- `char?` (boot.cpp L90). -/
def isChar (h : Heap) (x : Word) : Bool := is h .character x

/-- `null?` (boot.cpp L138). -/
def isNull (h : Heap) (x : Word) : Bool := is h .null x

/-- `pair?` (boot.cpp L270). -/
def isPair (h : Heap) (x : Word) : Bool := is h .pair x

/-- `not-pair?` (boot.cpp L271). -/
def isNotPair (h : Heap) (x : Word) : Bool := !is h .pair x

/-- `procedure?` (boot.cpp L334). -/
def isProcedure (h : Heap) (x : Word) : Bool :=
  is h .closure x || is h .continuation x || is h .procedure x

/-- `symbol?` (boot.cpp L371). -/
def isSymbol (h : Heap) (x : Word) : Bool := is h .symbol x

/-- `string?` (boot.cpp L348). -/
def isString (h : Heap) (x : Word) : Bool := is h .string x

/-- `vector?` (boot.cpp L388). -/
def isVector (h : Heap) (x : Word) : Bool := is h .vector x

/-- `u8vector?`, `f32vector?`, … (boot.cpp L404); `bytevector?` is the first (r7rs.ss L180). -/
def isHomogeneous (h : Heap) (t : Tag) (x : Word) : Bool := is h (.homogeneousVector t) x

/-- `eof-object?` (boot.cpp L328). -/
def isEof (h : Heap) (x : Word) : Bool := is h .eof x

/-- `number?` and `complex?` (boot.cpp L185-L186, number.cpp L574-L582): one of the six types of
`complex_number` (number.hpp L587). -/
def isNumber (h : Heap) (x : Word) : Bool :=
  is h .smallInteger x || is h .largeInteger x || is h .ratio x || is h .float x || is h .double x ||
    is h .complex x

/-- `port?` (boot.cpp L312). -/
def isPort (h : Heap) (x : Word) : Bool := isAlso h .port x

/-- `input-port?` (boot.cpp L308). -/
def isInputPort (h : Heap) (x : Word) : Bool := isAlso h .inputPort x

/-- `output-port?` (boot.cpp L309). -/
def isOutputPort (h : Heap) (x : Word) : Bool := isAlso h .outputPort x

/-- `binary-port?` (boot.cpp L310). -/
def isBinaryPort (h : Heap) (x : Word) : Bool := isAlso h .binaryPort x

/-- `textual-port?` (boot.cpp L311). -/
def isTextualPort (h : Heap) (x : Word) : Bool := isAlso h .textualPort x

/-- `box?` (boot.cpp L85). -/
def isBox (h : Heap) (x : Word) : Bool := is h .box x

/-- `error-object?` (boot.cpp L127). -/
def isErrorObject (h : Heap) (x : Word) : Bool := isAlso h .error x

/-- `read-error?` (boot.cpp L128). -/
def isReadError (h : Heap) (x : Word) : Bool := is h .readError x

/-- `file-error?` (boot.cpp L129). -/
def isFileError (h : Heap) (x : Word) : Bool := is h .fileError x

/-- `identifier?` (boot.cpp L376). -/
def isIdentifier (h : Heap) (x : Word) : Bool := isAlso h .identifier x

/-- `transformer?` (boot.cpp L377). -/
def isTransformer (h : Heap) (x : Word) : Bool := isAlso h .transformer x

/-- `syntactic-closure?` (boot.cpp L378). -/
def isSyntacticClosure (h : Heap) (x : Word) : Bool := isAlso h .syntacticClosure x

/-- `cons` (boot.cpp L272, pair.hpp L53-L75). -/
def cons (h : Heap) (x y : Word) : Word × Heap := make h { class_ := .pair, first := x, second := y }

/-- `box` (boot.cpp L86). -/
def box (h : Heap) (x : Word) : Word × Heap := make h { class_ := .box, first := x }

/-- The operand list of a call, as the machine builds it: one pair per operand
(dynamic_environment.cpp L354-L362). -/
def operandList : Heap → List Word → Word × Heap
  | h, [] => (.null, h)
  | h, x :: xs =>
    let (rest, h') := operandList h xs
    cons h' x rest

/-- `(apply error-object (list message irritant ...))` in `error` (srfi-23.ss L6-L7, boot.cpp L126):
message and irritants are the first operand and the list of the others. -/
def errorObject (h : Heap) (message : Word) (irritants : List Word) : Word × Heap :=
  let (rest, h') := operandList h irritants
  make h' { class_ := .error, first := message, second := rest }

/-- The kernel's own errors: `read_error` and `file_error` objects (error.cpp L89-L107) with the given
message and irritants. -/
def kernelError (h : Heap) (c : Class) (message irritants : Word) : Word × Heap :=
  make h { class_ := c, first := message, second := irritants }

/-- `car(x)` (pair.hpp L83, object.hpp L114-L120): the first field of any cell; on other words the payload
is used as an address, which is undefined. -/
def car (h : Heap) : Word → Outcome Word
  | .ref a => .value (h.cell a).first
  | _ => .undefined

/-- `cdr(x)` (pair.hpp L84, object.hpp L114-L120). -/
def cdr (h : Heap) : Word → Outcome Word
  | .ref a => .value (h.cell a).second
  | _ => .undefined

/-- The composition of two accessors, such as `car(cdr(x))` (pair.hpp L86-L116). -/
def compose (f g : Heap → Word → Outcome Word) (h : Heap) (x : Word) : Outcome Word :=
  match g h x with
  | .value y => f h y
  | .error => .error
  | .undefined => .undefined

/-- pair.hpp L86. -/
def caar := compose car car
/-- pair.hpp L87. -/
def cadr := compose car cdr
/-- pair.hpp L88. -/
def cdar := compose cdr car
/-- pair.hpp L89. -/
def cddr := compose cdr cdr
/-- pair.hpp L91. -/
def caaar := compose car caar
/-- pair.hpp L92. -/
def caadr := compose car cadr
/-- pair.hpp L93. -/
def cadar := compose car cdar
/-- pair.hpp L94. -/
def caddr := compose car cddr
/-- pair.hpp L95. -/
def cdaar := compose cdr caar
/-- pair.hpp L96. -/
def cdadr := compose cdr cadr
/-- pair.hpp L97. -/
def cddar := compose cdr cdar
/-- pair.hpp L98. -/
def cdddr := compose cdr cddr
/-- pair.hpp L100. -/
def caaaar := compose car caaar
/-- pair.hpp L101. -/
def caaadr := compose car caadr
/-- pair.hpp L102. -/
def caadar := compose car cadar
/-- pair.hpp L103. -/
def caaddr := compose car caddr
/-- pair.hpp L104. -/
def cadaar := compose car cdaar
/-- pair.hpp L105. -/
def cadadr := compose car cdadr
/-- pair.hpp L106. -/
def caddar := compose car cddar
/-- pair.hpp L107. -/
def cadddr := compose car cdddr
/-- pair.hpp L108. -/
def cdaaar := compose cdr caaar
/-- pair.hpp L109. -/
def cdaadr := compose cdr caadr
/-- pair.hpp L110. -/
def cdadar := compose cdr cadar
/-- pair.hpp L111. -/
def cdaddr := compose cdr caddr
/-- pair.hpp L112. -/
def cddaar := compose cdr cdaar
/-- pair.hpp L113. -/
def cddadr := compose cdr cdadr
/-- pair.hpp L114. -/
def cdddar := compose cdr cddar
/-- pair.hpp L115. -/
def cddddr := compose cdr cdddr

/-- `identifier->symbol` (boot.cpp L374): a syntactic closure is taken for a pair. -/
def identifierToSymbol (h : Heap) (x : Word) : Outcome Word :=
  if is h .syntacticClosure x then cddr h x else .value x

/-- `make-syntactic-closure` (boot.cpp L379, syntactic_closure.hpp L44-L52): its data are members, so the
pair part of the cell stays empty. -/
def makeSyntacticClosure (h : Heap) : Word × Heap := make h { class_ := .syntacticClosure }

/-- A letter of the name of an accessor (boot.cpp L275-L304). -/
inductive Letter where
  | a | d
  deriving DecidableEq, Repr

/-- The table of accessors (boot.cpp L275-L304). Simplified: a name is the letters between `c` and `r`. -/
def accessors : List (List Letter × (Heap → Word → Outcome Word)) :=
  [ ([.a], car),
    ([.d], cdr),
    ([.a, .a], caar),
    ([.a, .d], cadr),
    ([.d, .a], cdar),
    ([.d, .d], cddr),
    ([.a, .a, .a], caaar),
    ([.d, .a, .a], cdaar),
    ([.a, .a, .d], caadr),
    ([.d, .a, .d], cdadr),
    ([.a, .d, .a], cadar),
    ([.d, .d, .a], cddar),
    ([.a, .d, .d], caddr),
    ([.d, .d, .d], cdddr),
    ([.a, .a, .a, .a], caaaar),
    ([.d, .a, .a, .a], cdaaar),
    ([.a, .a, .a, .d], caaadr),
    ([.d, .a, .a, .d], cdaadr),
    ([.a, .a, .d, .a], caadar),
    ([.d, .a, .d, .a], cdadar),
    ([.a, .a, .d, .d], caaddr),
    ([.d, .a, .d, .d], cdaddr),
    ([.a, .d, .a, .a], cadaar),
    ([.d, .d, .a, .a], cddaar),
    ([.a, .d, .a, .d], cadadr),
    ([.d, .d, .a, .d], cddadr),
    ([.a, .d, .d, .a], caddar),
    ([.d, .d, .d, .a], cdddar),
    ([.a, .d, .d, .d], cadddr),
    ([.d, .d, .d, .d], cddddr) ]

/-- Replaces the first field of a cell (boot.cpp L305). -/
def setFirst (h : Heap) (a : Nat) (y : Word) : Heap :=
  { h with cell := fun b => if b = a then { h.cell a with first := y } else h.cell b }

/-- Replaces the second field of a cell (boot.cpp L306). -/
def setSecond (h : Heap) (a : Nat) (y : Word) : Heap :=
  { h with cell := fun b => if b = a then { h.cell a with second := y } else h.cell b }

/-- `set-car!` (boot.cpp L305): the cast to `pair` is not checked. -/
def setCar (h : Heap) (x y : Word) : Outcome Heap :=
  match x with
  | .ref a => .value (setFirst h a y)
  | _ => .undefined

/-- `set-cdr!` (boot.cpp L306). -/
def setCdr (h : Heap) (x y : Word) : Outcome Heap :=
  match x with
  | .ref a => .value (setSecond h a y)
  | _ => .undefined

/-- `unbox` (srfi-111.ss L3, boot.cpp L87): `caar` of the operand list, that is `car` of the operand. -/
def unbox (h : Heap) (x : Word) : Outcome Word := car h x

/-- `set-box!` (srfi-111.ss L3, boot.cpp L88): the cast to `box` is checked (object.hpp L121-L131). -/
def setBox (h : Heap) (x y : Word) : Outcome Heap :=
  match x with
  | .ref a => if castsTo (h.cell a).class_ .box then .value (setFirst h a y) else .error
  | _ => .error

/-- `error-object-message` (r7rs.ss L224) is `car`. -/
def errorObjectMessage (h : Heap) (x : Word) : Outcome Word := car h x

/-- `error-object-irritants` (r7rs.ss L226) is `cdr`. -/
def errorObjectIrritants (h : Heap) (x : Word) : Outcome Word := cdr h x

/-- `open?` (boot.cpp L313): the cast to `port` is checked. -/
def isOpen (h : Heap) (x : Word) : Outcome Bool :=
  match x with
  | .ref a => if castsTo (h.cell a).class_ .port then .value (h.cell a).isOpen else .error
  | _ => .error

/-- `input-port-open?` (r7rs.ss L233). -/
def inputPortOpen (h : Heap) (x : Word) : Outcome Bool := isOpen h x

/-- `output-port-open?` (r7rs.ss L235). -/
def outputPortOpen (h : Heap) (x : Word) : Outcome Bool := isOpen h x

/-- The procedures that make ports (boot.cpp L314-L326). -/
inductive Opener where
  | standardInputPort | standardOutputPort | standardErrorPort
  | openInputFile | openOutputFile | openBinaryInputFile | openBinaryOutputFile
  | openInputString | openOutputString | openInputU8vector | openOutputU8vector
  deriving DecidableEq, Repr

/-- The class a procedure makes a port of (boot.cpp L314-L316, L317-L320, L322-L323, L325-L326). -/
def Opener.made : Opener → Class
  | .standardInputPort => .standardInputPort
  | .standardOutputPort => .standardOutputPort
  | .standardErrorPort => .standardErrorPort
  | .openInputFile => .inputFilePort
  | .openOutputFile => .outputFilePort
  | .openBinaryInputFile => .binaryInputFilePort
  | .openBinaryOutputFile => .binaryOutputFilePort
  | .openInputString => .inputStringPort
  | .openOutputString => .outputStringPort
  | .openInputU8vector => .inputU8vectorPort
  | .openOutputU8vector => .outputU8vectorPort

/-- A new port (boot.cpp L314-L326); `isOpen` is whether the file could be opened, and true of ports without
a file. -/
def openPort (h : Heap) (o : Opener) (isOpen : Bool) : Word × Heap :=
  make h { class_ := o.made, isOpen := isOpen }

end Meevax.Types
