/-!
# Model of `include/meevax/memory/nan_boxing_pointer.hpp`

The tagged 64-bit word used for every Scheme object, instantiated as in
`include/meevax/kernel/object.hpp:50`
(`nan_boxing_pointer<pair, bool, small_integer, float, character, instruction>`).
`double` and `float` values are represented by their IEEE-754 bit patterns.
-/

namespace Meevax.NanBox

/-- `std::uintptr_t data;` — nan_boxing_pointer.hpp:55. -/
abbrev Word := BitVec 64

/-- nan_boxing_pointer.hpp:58 -/
def maskExponent : Word := 0x7FF0000000000000#64
/-- nan_boxing_pointer.hpp:59 -/
def maskFraction : Word := 0x000FFFFFFFFFFFFF#64
/-- nan_boxing_pointer.hpp:60 -/
def maskQuiet : Word := 0x0008000000000000#64
/-- nan_boxing_pointer.hpp:62 -/
def maskSignature : Word := 0x7FFF000000000000#64
/-- nan_boxing_pointer.hpp:63 -/
def maskPayload : Word := 0x0000FFFFFFFFFFFF#64

/-- The C++ types an `object` word can hold: the template arguments of
object.hpp:50, plus `double`, `pair *` and `std::nullptr_t`. -/
inductive Kind where
  | double | boolean | smallInteger | float | character | instruction | pointer | null
deriving DecidableEq, Repr

/-- `signature_of<Tn>()` — nan_boxing_pointer.hpp:65-80. -/
def signatureOf : Kind → Word
  | .double       => 0#64
  | .boolean      => 0x7FF9000000000000#64
  | .smallInteger => 0x7FFA000000000000#64
  | .float        => 0x7FFB000000000000#64
  | .character    => 0x7FFC000000000000#64
  | .instruction  => 0x7FFD000000000000#64
  | .pointer      => 0x7FFE000000000000#64
  | .null         => 0x7FFF000000000000#64

/-- A value handed to a constructor or `reset` overload.  Payload sizes follow
`payload_t` (nan_boxing_pointer.hpp:50-51): `bool` 1 byte, `std::int32_t`, `float`,
`character` (one `int`), `instruction` (enum with underlying `int`) 4 bytes, `pair *`
8 bytes.  -/
inductive Val where
  /-- a `double`, by bit pattern -/
  | double (bits : BitVec 64)
  | boolean (b : Bool)
  | smallInteger (n : BitVec 32)
  /-- a `float`, by bit pattern -/
  | float (bits : BitVec 32)
  /-- `character::codepoint`, an `int` -/
  | character (cp : BitVec 32)
  /-- `instruction` enumerator value -/
  | instruction (op : BitVec 32)
  | pointer (address : BitVec 64)
  | null
deriving DecidableEq, Repr

/-- The kind of a value (nan_boxing_pointer.hpp:57-120). -/
def Val.kind : Val → Kind
  | .double _       => .double
  | .boolean _      => .boolean
  | .smallInteger _ => .smallInteger
  | .float _        => .float
  | .character _    => .character
  | .instruction _  => .instruction
  | .pointer _      => .pointer
  | .null           => .null

/-- `std::isnan` on a bit pattern: exponent all ones, fraction non-zero (IEEE-754) (nan_boxing_pointer.hpp:144). -/
def isNaN (bits : BitVec 64) : Bool :=
  (bits &&& maskExponent == maskExponent) && (bits &&& maskFraction != 0#64)

/-- `canonicalize(double)` — nan_boxing_pointer.hpp:142-145. -/
def canonicalize (bits : BitVec 64) : BitVec 64 :=
  if isNaN bits then maskExponent ||| maskQuiet else bits

/-- Constructors nan_boxing_pointer.hpp:84-101 and the `reset` overloads
nan_boxing_pointer.hpp:184-204 (identical right-hand sides).  The pointer constructor
additionally asserts that the pointer is non-null (l. 96, 197). -/
def box : Val → Word
  | .double bits     => canonicalize bits
  | .boolean b       => signatureOf .boolean ||| (BitVec.ofBool b).setWidth 64
  | .smallInteger n  => signatureOf .smallInteger ||| n.setWidth 64
  | .float bits      => signatureOf .float ||| bits.setWidth 64
  | .character cp    => signatureOf .character ||| cp.setWidth 64
  | .instruction op  => signatureOf .instruction ||| op.setWidth 64
  | .pointer address => signatureOf .pointer ||| address
  | .null            => signatureOf .null

/-- `payload()` — nan_boxing_pointer.hpp:206-209. -/
def payload (w : Word) : Word := w &&& maskPayload

/-- `signature()` — nan_boxing_pointer.hpp:211-214. -/
def signature (w : Word) : Word := w &&& maskSignature

/-- `type()` — nan_boxing_pointer.hpp:216-233 (and the same switch in `is`, l. 159-177). -/
def type (w : Word) : Kind :=
  if signature w = signatureOf .boolean then .boolean
  else if signature w = signatureOf .smallInteger then .smallInteger
  else if signature w = signatureOf .float then .float
  else if signature w = signatureOf .character then .character
  else if signature w = signatureOf .instruction then .instruction
  else if signature w = signatureOf .pointer then .pointer
  else if signature w = signatureOf .null then .null
  else .double

/-- `is<U>()` — nan_boxing_pointer.hpp:159-177. -/
def is (k : Kind) (w : Word) : Bool := type w == k

/-- `operator bool` — nan_boxing_pointer.hpp:124-127. -/
def toBool (w : Word) : Bool := signature w == signatureOf .pointer

/-- `as<double>()` — nan_boxing_pointer.hpp:132-135. -/
def asDouble (w : Word) : BitVec 64 := w

/-- `as<U>()` for a 4-byte `U` — nan_boxing_pointer.hpp:136-139. -/
def as32 (w : Word) : BitVec 32 := (payload w).setWidth 32

/-- `as<bool>()` — nan_boxing_pointer.hpp:136-139: `bit_cast<bool>` of the low byte.
A byte other than 0 or 1 has no meaning as a C++ `bool`: that is the outcome `none`. -/
def asBool (w : Word) : Option Bool :=
  let byte := (payload w).setWidth 8
  if byte = 0#8 then some false else if byte = 1#8 then some true else none

/-- `unsafe_get()` — nan_boxing_pointer.hpp:235-238. -/
def unsafeGet (w : Word) : BitVec 64 := payload w

/-- `get()` — nan_boxing_pointer.hpp:147-157; `none` is `nullptr`. -/
def get (w : Word) : Option (BitVec 64) :=
  if signature w = signatureOf .pointer then some (unsafeGet w) else none

/-- Reading a word back with the accessor chosen by `type()`.  `none` when the boolean
accessor meets an invalid byte (nan_boxing_pointer.hpp:130-230). -/
def unbox (w : Word) : Option Val :=
  match type w with
  | .double       => some (.double (asDouble w))
  | .boolean      => (asBool w).map .boolean
  | .smallInteger => some (.smallInteger (as32 w))
  | .float        => some (.float (as32 w))
  | .character    => some (.character (as32 w))
  | .instruction  => some (.instruction (as32 w))
  | .pointer      => some (.pointer (unsafeGet w))
  | .null         => some .null

/-- `operator ==` — nan_boxing_pointer.hpp:290: comparison of `data`.  This is `eq?`
(`src/kernel/…`: `eq` compares the words of two objects). -/
def eq (x y : Word) : Bool := x == y

end Meevax.NanBox
