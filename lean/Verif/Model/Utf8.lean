/-
Model of characters on textual ports: `character::utf8` (src/kernel/character.cpp L25-L58),
`string::string`, `string::utf8` (src/kernel/string.cpp L25-L46) and the character-level part of
`textual_input_port` (src/kernel/textual_input_port.cpp, include/meevax/kernel/textual_input_port.hpp)
over an `std::istringstream`.
-/

namespace Meevax.Text

/-- A byte of a string or port (include/meevax/kernel/textual_input_port.hpp L26). -/
abbrev Byte := UInt8

/-- `std::string(chars.data())`: the bytes up to the first NUL (character.cpp L57 returns a
`char const*`, from which `std::string` is constructed). -/
def untilNul : List Byte → List Byte
  | [] => []
  | b :: bs => if b = 0 then [] else b :: untilNul bs

/-- `character::utf8` (character.cpp L25-L58), for code points that are not negative. -/
def utf8 (c : Nat) : List Byte :=
  untilNul <|
    if c ≤ 0x7F then
      [.ofNat (c &&& 0x7F)]
    else if c ≤ 0x7FF then
      [.ofNat (0xC0 ||| (c >>> 6 &&& 0x1F)),
       .ofNat (0x80 ||| (c &&& 0x3F))]
    else if c ≤ 0xFFFF then
      [.ofNat (0xE0 ||| (c >>> 12 &&& 0x0F)),
       .ofNat (0x80 ||| (c >>> 6 &&& 0x3F)),
       .ofNat (0x80 ||| (c &&& 0x3F))]
    else if c ≤ 0x10FFFF then
      [.ofNat (0xF0 ||| (c >>> 18 &&& 0x07)),
       .ofNat (0x80 ||| (c >>> 12 &&& 0x3F)),
       .ofNat (0x80 ||| (c >>> 6 &&& 0x3F)),
       .ofNat (0x80 ||| (c &&& 0x3F))]
    else [0xBD, 0xBF, 0xEF]

/-- `character::utf8` of the end-of-file value -1, which takes the first branch
(character.cpp L29-L32). -/
def utf8Eof : List Byte := [0x7F]

/-- `string::utf8` (string.cpp L36-L46); also `textual_output_port::put` of a string
(textual_output_port.cpp L32-L35). -/
def utf8String (cs : List Nat) : List Byte := cs.flatMap utf8

/-- An input port over an `std::istringstream` (input_string_port.hpp): the bytes not yet read, the
stream flags `eofbit` and `failbit`/`badbit` (one flag: both make the stream fail). The
`fold_case` member (textual_input_port.hpp L63) is not modelled. -/
structure Port where
  rest : List Byte
  eof : Bool := false
  fail : Bool := false
  deriving Repr, DecidableEq

/-- `std::istream::good` (src/kernel/textual_input_port.cpp L628-L660). -/
def Port.good (p : Port) : Bool := !p.eof && !p.fail

/-- `std::istream::peek`: at the end of the bytes sets `eofbit`; a stream that is not good only
fails (src/kernel/textual_input_port.cpp L630). -/
def Port.peekByte (p : Port) : Option Byte × Port :=
  if p.good then
    match p.rest with
    | b :: _ => (some b, p)
    | [] => (none, { p with eof := true })
  else (none, { p with fail := true })

/-- `std::istream::get`: at the end of the bytes sets `eofbit` and `failbit`; a stream that is not
good only fails (src/kernel/textual_input_port.cpp L632-L650). -/
def Port.getByte (p : Port) : Option Byte × Port :=
  if p.good then
    match p.rest with
    | b :: bs => (some b, { p with rest := bs })
    | [] => (none, { p with eof := true, fail := true })
  else (none, { p with fail := true })

/-- `source.get() & mask`, with the end-of-file value -1 having all bits set
(src/kernel/textual_input_port.cpp L636-L650). -/
def masked (b : Option Byte) (mask : Nat) : Nat :=
  match b with
  | some b => b.toNat &&& mask
  | none => mask

/-- What `take_character` gives: a character, the end-of-file value, or a thrown `read_error`
(src/kernel/textual_input_port.cpp L628-L660). -/
inductive Take where
  | char (c : Nat)
  | eof
  | bad
  deriving Repr, DecidableEq

/-- `textual_input_port::take_character` (textual_input_port.cpp L620-L656).
Simplified: the operands of `|` are evaluated from left to right (C++ leaves the order
unspecified). -/
def Port.take (p : Port) : Take × Port :=
  let (c, p0) := p.peekByte
  match c with
  | none => (.eof, p0.getByte.2)
  | some c =>
    if c.toNat ≤ 0x7F then
      let (b, p1) := p0.getByte
      (.char (masked b 0xFF), p1)
    else if 0xC2 ≤ c.toNat ∧ c.toNat ≤ 0xDF then
      let (b0, p1) := p0.getByte
      let (b1, p2) := p1.getByte
      (.char (masked b0 0x1F <<< 6 ||| masked b1 0x3F), p2)
    else if 0xE0 ≤ c.toNat ∧ c.toNat ≤ 0xEF then
      let (b0, p1) := p0.getByte
      let (b1, p2) := p1.getByte
      let (b2, p3) := p2.getByte
      (.char (masked b0 0x0F <<< 12 ||| masked b1 0x3F <<< 6 ||| masked b2 0x3F), p3)
    else if 0xF0 ≤ c.toNat ∧ c.toNat ≤ 0xF4 then
      let (b0, p1) := p0.getByte
      let (b1, p2) := p1.getByte
      let (b2, p3) := p2.getByte
      let (b3, p4) := p3.getByte
      (.char (masked b0 0x07 <<< 18 ||| masked b1 0x3F <<< 12 ||| masked b2 0x3F <<< 6 |||
        masked b3 0x3F), p4)
    else (.bad, p0)

/-- `std::istream::putback` of the bytes `bs` one after the other, on a stream whose previously read
bytes are `before` (last one first). `putback` first clears `eofbit`; on a failed stream it does
nothing more. Putting back the byte that was read steps back; any other byte sets `badbit`, because
the buffer of an input string stream is not writable (src/kernel/textual_input_port.cpp L193). -/
def putback (before : List Byte) : List Byte → Port → Port
  | [], p => p
  | b :: bs, p =>
    let p := { p with eof := false }
    if p.fail then putback before bs { p with fail := true }
    else
      match before with
      | a :: before =>
        if a = b then putback before bs { p with rest := a :: p.rest }
        else putback before bs { p with fail := true }
      | [] => putback [] bs { p with fail := true }

/-- `textual_input_port::peek_character` (textual_input_port.cpp L185-L197). The bytes consumed by
`take_character` are those in front of what it leaves. -/
def Port.peek (p : Port) : Take × Port :=
  let (c, p1) := p.take
  let before := (p.rest.take (p.rest.length - p1.rest.length)).reverse
  match c with
  | .char c => (.char c, putback before (utf8 c).reverse p1)
  | .eof => (.eof, putback before utf8Eof.reverse p1)
  | .bad => (.bad, p1)

/-- `string::string(std::string const&)` (string.cpp L25-L34), the loop; `none` is a thrown
`read_error`. -/
def decode (p : Port) : Option (List Nat) :=
  match p.take with
  | (.char c, p) => do
    let cs ← decode p
    some (c :: cs)
  | (.eof, _) => some []
  | (.bad, _) => none
partial_fixpoint

/-- `string(bytes)` (string.cpp L25-L34); also `get-output-string` (boot.cpp L324). -/
def stringOf (bytes : List Byte) : Option (List Nat) := decode { rest := bytes }

/-- `textual_input_port::get_ready` (textual_input_port.cpp L168-L171). -/
def Port.ready (p : Port) : Bool := !p.fail

/-- A character on a textual port, or the end-of-file object, or a thrown `read_error`:
`textual_input_port::get` (textual_input_port.cpp L125-L135) and `peek` (L173-L183), the builtins
`get-char` and `peek-char` (boot.cpp L337, L340). -/
def Port.readChar (p : Port) : Take × Port := p.take

/-- See `Port.readChar` (src/kernel/boot.cpp L340). -/
def Port.peekChar (p : Port) : Take × Port := p.peek

/-- The loop of `textual_input_port::get(size)` (textual_input_port.cpp L147-L150); `none` is a
thrown `read_error`, or an end-of-file value stored as a character. -/
def Port.getLoop (p : Port) : Nat → Option (List Nat × Port)
  | 0 => some ([], p)
  | k + 1 =>
    match p.peek with
    | (.char _, p) =>
      match p.take with
      | (.char c, p) => (p.getLoop k).map fun (cs, p) => (c :: cs, p)
      | _ => none
    | (.eof, p) => some ([], p)
    | (.bad, _) => none

/-- `textual_input_port::get(size)` (textual_input_port.cpp L137-L154), the builtin `get-string`
(boot.cpp L342). The inner option is `none` for the end-of-file object. -/
def Port.readString (p : Port) (k : Nat) : Option (Option (List Nat) × Port) :=
  match p.peek with
  | (.char _, p) => (p.getLoop k).map fun (cs, p) => (some cs, p)
  | (.eof, p) => some (none, p)
  | (.bad, _) => none

/-- `take_character_until` (textual_input_port.hpp L87-L98) with the accumulated bytes. `s += c`
appends the low byte of the code point; for the end-of-file value -1 that is 0xFF. `none` is a thrown
`read_error`. -/
def Port.takeUntil (stop : Nat → Bool) (p : Port) : Option (List Byte × Port) :=
  if p.ready then
    match p.take with
    | (.char c, p) =>
      if stop c then some ([], p)
      else do
        let (s, p) ← Port.takeUntil stop p
        some (.ofNat c :: s, p)
    | (.eof, p) => do
      let (s, p) ← Port.takeUntil stop p
      some (0xFF :: s, p)
    | (.bad, _) => none
  else some ([], p)
partial_fixpoint

/-- `take_character_while` (textual_input_port.hpp L100-L111). `none` is a thrown `read_error`. -/
def Port.takeWhile (keep : Nat → Bool) (p : Port) : Option (List Byte × Port) :=
  if p.ready then
    match p.peek with
    | (.char c, p) =>
      if keep c then
        match p.take with
        | (.char c, p) => do
          let (s, p) ← Port.takeWhile keep p
          some (.ofNat c :: s, p)
        | (.eof, p) => do
          let (s, p) ← Port.takeWhile keep p
          some (0xFF :: s, p)
        | (.bad, _) => none
      else some ([], p)
    | (.eof, p) => some ([], p)
    | (.bad, _) => none
  else some ([], p)
partial_fixpoint

/-- `textual_input_port::get_line` (textual_input_port.cpp L156-L166), the builtin `get-line`
(boot.cpp L339). The inner option is `none` for the end-of-file object. -/
def Port.readLine (p : Port) : Option (Option (List Nat) × Port) := do
  let (s, p) ← p.takeUntil fun c => c = 10
  if p.eof then some (none, p)
  else
    let cs ← stringOf s
    some (some cs, p)

end Meevax.Text
