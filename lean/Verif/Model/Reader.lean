import Verif.Model.NumberSyntax

/-
Model of the reader `textual_input_port::read` (src/kernel/textual_input_port.cpp L199-L618) on a
string port.

Not modelled, and answered by `Outcome.beyond`: datum labels (`#n=`, `#n#`), `#,`, `#e`, `#i`, a
radix prefix followed by another prefix, `#!fold-case`, homogeneous vectors other than u8, vector
literals written as dotted lists, signs in hexadecimal escapes, and literals on which GMP raises its
division-by-zero signal.
-/

namespace Meevax.Text

/-- Data as the reader builds them. Symbols are names, because equal names are the same symbol
(`make_symbol`, symbol.cpp L52-L67). -/
inductive Datum where
  | null
  | bool (b : Bool)
  | num (n : Num)
  | char (c : Nat)
  | string (cs : List Nat)
  | symbol (name : List Byte)
  | cons (car cdr : Datum)
  | vector (xs : List Datum)
  | u8vector (xs : List Byte)
  | eof
  deriving Repr

/-- How a call of `read` ends: a datum, the exceptions `std::integral_constant<char, ')'>` and
`std::integral_constant<char, '.'>`, another exception, or outside the model
(src/kernel/textual_input_port.cpp L199-L618). -/
inductive Outcome where
  | datum (d : Datum)
  | close
  | dot
  | error
  | beyond
  deriving Repr

/-- `is_special_character` (textual_input_port.hpp L126-L155), for characters. -/
def isSpecial (c : Nat) : Bool :=
  c ∈ [0x09, 0x0A, 0x0B, 0x0C, 0x0D, 0x20, 0x22, 0x23, 0x27, 0x28, 0x29, 0x2C, 0x3B, 0x5B, 0x5D,
    0x60, 0x7B, 0x7C, 0x7D]

/-- The white space of `read` (textual_input_port.cpp L272-L278) and of `std::isspace`. -/
def isWhite (c : Nat) : Bool := c ∈ [0x09, 0x0A, 0x0B, 0x0C, 0x0D, 0x20]

/-- `std::isdigit` (textual_input_port.cpp L201-L204). Simplified: false above 255, where C leaves it
undefined. -/
def isDigitChar (c : Nat) : Bool := 48 ≤ c && c ≤ 57

/-- `lexical_cast<int>(std::hex, s)` (lexical_cast.hpp L27-L57): leading white space, an optional `0x`,
then hexadecimal digits; the rest is ignored. -/
inductive HexCast where
  | ok (n : Nat)
  | error
  | beyond
  deriving Repr, DecidableEq

/-- See `HexCast` (src/kernel/textual_input_port.cpp L228, L478). -/
def hexCast (bs : List Byte) : HexCast :=
  let bs := bs.dropWhile isSpaceByte
  let ds := match bs with
    | a :: b :: ds => if a = 48 ∧ (b = 120 ∨ b = 88) then ds else bs
    | _ => bs
  match ds with
  | [] => .error
  | d :: _ =>
    if d = 43 ∨ d = 45 then .beyond
    else
      match digitIn 16 d with
      | none => .error
      | some _ => if (digits 16 0 ds).1 < 2 ^ 31 then .ok (digits 16 0 ds).1 else .error

/-- The result of a part of `read` that may throw (src/kernel/textual_input_port.cpp L199-L618). -/
inductive Part (α : Type) where
  | ok (a : α)
  | error
  | beyond
  deriving Repr

/-- The characters named by an escape (textual_input_port.cpp L221-L227, L235-L237). -/
def escaped (c : Nat) : Nat :=
  if c = 97 then 7        -- a
  else if c = 98 then 8   -- b
  else if c = 102 then 12 -- f
  else if c = 110 then 10 -- n
  else if c = 114 then 13 -- r
  else if c = 116 then 9  -- t
  else if c = 118 then 11 -- v
  else c

/-- `take_quoted` (textual_input_port.cpp L206-L248), with the characters still to come. -/
def takeQuoted (mark : Nat) (p : Port) : Option (Part (List Nat) × Port) :=
  match p.take with
  | (.bad, p) => some (.error, p)
  | (.eof, p) => some (.error, p)
  | (.char c, p) =>
    if c = mark then some (.ok [], p)
    else if c = 92 then
      match p.take with
      | (.bad, p) => some (.error, p)
      | (.eof, p) => some (.error, p)
      | (.char c, p) =>
        if c = 120 then
          match p.takeUntil fun c => c = 59 with
          | none => some (.error, p)
          | some (s, p) =>
            match hexCast s with
            | .ok n => do
              let (r, p) ← takeQuoted mark p
              match r with
              | .ok cs => some (.ok (n :: cs), p)
              | r => some (r, p)
            | .error => some (.error, p)
            | .beyond => some (.beyond, p)
        else if c = 10 ∨ c = 13 then
          match p.takeWhile isWhite with
          | none => some (.error, p)
          | some (_, p) => takeQuoted mark p
        else do
          let (r, p) ← takeQuoted mark p
          match r with
          | .ok cs => some (.ok (escaped c :: cs), p)
          | r => some (r, p)
    else do
      let (r, p) ← takeQuoted mark p
      match r with
      | .ok cs => some (.ok (c :: cs), p)
      | r => some (r, p)
partial_fixpoint

/-- The loop of `take_token` (textual_input_port.cpp L256-L260). The end-of-file value, which the
second `take_character` yields if the peeked character was a NUL at the end, is outside the model. -/
def takeTokenLoop (p : Port) : Option (Part (List Nat) × Port) :=
  match p.peek with
  | (.bad, p) => some (.error, p)
  | (.eof, p) => some (.ok [], p)
  | (.char c, p) =>
    if isSpecial c then some (.ok [], p)
    else
      match p.take with
      | (.bad, p) => some (.error, p)
      | (.eof, p) => some (.beyond, p)
      | (.char c, p) => do
        let (r, p) ← takeTokenLoop p
        match r with
        | .ok cs => some (.ok (c :: cs), p)
        | r => some (r, p)
partial_fixpoint

/-- `take_token(c)` (textual_input_port.cpp L250-L263), as UTF-8. -/
def takeToken (c : Nat) (p : Port) : Option (Part (List Byte) × Port) := do
  let (r, p) ← takeTokenLoop p
  match r with
  | .ok cs => some (.ok (utf8String (c :: cs)), p)
  | .error => some (.error, p)
  | .beyond => some (.beyond, p)

/-- The body of a block comment (textual_input_port.cpp L508-L542); `false` is a thrown
`read_error`. -/
def skipBlock (nest : Nat) (p : Port) : Option (Bool × Port) :=
  if nest = 0 then some (true, p)
  else
    match p.take with
    | (.bad, p) => some (false, p)
    | (.eof, p) => some (false, p)
    | (.char c, p) =>
      if c = 35 then
        match p.peek with
        | (.bad, p) => some (false, p)
        | (.char 124, p) => skipBlock (nest + 1) p.take.2
        | (_, p) => skipBlock nest p
      else if c = 124 then
        match p.peek with
        | (.bad, p) => some (false, p)
        | (.char 35, p) => skipBlock (nest - 1) p.take.2
        | (_, p) => skipBlock nest p
      else skipBlock nest p
partial_fixpoint

/-- The elements of a proper list (`as_proper_list`, proper_list.hpp). -/
def Datum.elements : Datum → Option (List Datum)
  | .null => some []
  | .cons a d => (a :: ·) <$> d.elements
  | _ => none

/-- `homogeneous_vector<std::uint8_t>(list)` (homogeneous_vector.hpp L30-L70): exact integers are cast
to a byte. -/
def Datum.bytes : List Datum → Part (List Byte)
  | [] => .ok []
  | .num (.int n) :: xs =>
    match Datum.bytes xs with
    | .ok bs => .ok (UInt8.ofNat (n % 256).toNat :: bs)
    | r => r
  | .num _ :: _ => .beyond
  | _ :: _ => .error

/-- The named characters (textual_input_port.cpp L482-L492). -/
def charNames : List (List Byte × Nat) :=
  [(ascii "alarm", 0x07), (ascii "backspace", 0x08), (ascii "delete", 0x7F), (ascii "escape", 0x1B),
    (ascii "newline", 0x0A), (ascii "null", 0x00), (ascii "return", 0x0D), (ascii "space", 0x20),
    (ascii "tab", 0x09)]

/-- `make_number(token, radix)` inside the reader, when an exception is not caught
(src/kernel/textual_input_port.cpp L199-L618). -/
def numberOutcome (r : Parsed) : Outcome :=
  match r with
  | .number n => .datum (.num n)
  | .invalid => .error
  | .crash => .beyond

/-- Two-element list with a symbol, e.g. `(quote x)` (textual_input_port.cpp L551, L578, L581,
L589). -/
def tagged (name : String) : Outcome → Outcome
  | .datum d => .datum (.cons (.symbol (ascii name)) (.cons d .null))
  | o => o

/-- `#\` (textual_input_port.cpp L471-L505). -/
def readChar (p : Port) : Option (Outcome × Port) :=
  match p.take with
  | (.bad, p) => some (.error, p)
  | (.eof, p) => some (.beyond, p)
  | (.char c3, p) =>
    let named (p : Port) : Option (Outcome × Port) := do
      if c3 = 120 then
        let (r, p) ← takeToken 48 p
        match r with
        | .ok s =>
          match hexCast s with
          | .ok n => some (.datum (.char n), p)
          | .error => some (.error, p)
          | .beyond => some (.beyond, p)
        | .error => some (.error, p)
        | .beyond => some (.beyond, p)
      else
        let (r, p) ← takeToken c3 p
        match r with
        | .ok s =>
          match charNames.find? (·.1 = s) with
          | some (_, n) => some (.datum (.char n), p)
          | none => some (.error, p)
        | .error => some (.error, p)
        | .beyond => some (.beyond, p)
    match p.peek with
    | (.bad, p) => some (.error, p)
    | (.eof, p) => some (.datum (.char c3), p)
    | (.char c, p) => if isSpecial c then some (.datum (.char c3), p) else named p

/-- A number with a radix prefix (textual_input_port.cpp L364-L382, L404-L412, L458-L466). -/
def readRadix (radix : Nat) (p : Port) : Option (Outcome × Port) :=
  match p.take with
  | (.bad, p) => some (.error, p)
  | (.eof, p) => some (.error, p)
  | (.char c3, p) =>
    if c3 = 35 then some (.beyond, p)
    else do
      let (r, p) ← takeToken c3 p
      match r with
      | .ok s => some (numberOutcome (makeNumber s radix), p)
      | .error => some (.error, p)
      | .beyond => some (.beyond, p)

mutual

/-- `read(c0)` (textual_input_port.cpp L199-L618); `c0 = 0` is the default argument. The `while` loop
(L265) runs again, with the same `c0`, after white space and line comments. `none` is
non-termination. -/
def read (c0 : Nat) (p : Port) : Option (Outcome × Port) :=
  if p.ready then
    let (t, p) := if c0 ≠ 0 then (Take.char c0, p) else p.take
    match t with
    | .bad => some (.error, p)
    | .eof => some (.datum .eof, p)
    | .char c1 =>
      if isWhite c1 then read c0 p
      else if c1 = 34 then do                   -- "
        let (r, p) ← takeQuoted c1 p
        match r with
        | .ok cs => some (.datum (.string cs), p)
        | .error => some (.error, p)
        | .beyond => some (.beyond, p)
      else if c1 = 35 then readHash p           -- #
      else if c1 = 39 then do                   -- '
        let (o, p) ← read 0 p
        some (tagged "quote" o, p)
      else if c1 = 40 then do                   -- (
        let (o, p) ← read 0 p
        match o with
        | .datum x => do
          let (o, p) ← read c1 p
          match o with
          | .datum y => some (.datum (.cons x y), p)
          | .close => some (.datum .null, p)
          | .dot => readTail p
          | o => some (o, p)
        | .close => some (.datum .null, p)
        | .dot => readTail p
        | o => some (o, p)
      else if c1 = 41 then some (.close, p)     -- )
      else if c1 = 44 then                      -- ,
        match p.take with
        | (.bad, p) => some (.error, p)
        | (.eof, p) => some (.error, p)
        | (.char c, p) =>
          if c = 64 then do
            let (o, p) ← read 0 p
            some (tagged "unquote-splicing" o, p)
          else do
            let (o, p) ← read c p
            some (tagged "unquote" o, p)
      else if c1 = 59 then                      -- ;
        match p.takeUntil fun c => c = 10 with
        | none => some (.error, p)
        | some (_, p) => read c0 p
      else if c1 = 96 then do                   -- `
        let (o, p) ← read 0 p
        some (tagged "quasiquote" o, p)
      else if c1 = 124 then do                  -- |
        let (r, p) ← takeQuoted c1 p
        match r with
        | .ok cs => some (.datum (.symbol (utf8String cs)), p)
        | .error => some (.error, p)
        | .beyond => some (.beyond, p)
      else if c1 = 91 ∨ c1 = 93 ∨ c1 = 123 ∨ c1 = 125 then some (.error, p)
      else do
        let (r, p) ← takeToken c1 p
        match r with
        | .ok s =>
          if s = [46] then some (.dot, p)
          else
            match makeNumber s 10 with
            | .number n => some (.datum (.num n), p)
            | .invalid => some (.datum (.symbol s), p)
            | .crash => some (.beyond, p)
        | .error => some (.error, p)
        | .beyond => some (.beyond, p)
  else some (.error, p)
partial_fixpoint

/-- The rest of a dotted list (textual_input_port.cpp L564-L569). -/
def readTail (p : Port) : Option (Outcome × Port) := do
  let (o, p) ← read 0 p
  match o with
  | .datum x =>
    match p.takeUntil fun c => c = 41 with
    | none => some (.error, p)
    | some (_, p) => some (.datum x, p)
  | o => some (o, p)
partial_fixpoint

/-- After a `#` (textual_input_port.cpp L283-L548). -/
def readHash (p : Port) : Option (Outcome × Port) :=
  match p.take with
  | (.bad, p) => some (.error, p)
  | (.eof, p) => some (.error, p)
  | (.char c2, p) =>
    if c2 = 33 then do                          -- !
      let (r, p) ← takeToken c2 p
      match r with
      | .ok s =>
        if s = ascii "!fold-case" ∨ s = ascii "!no-fold-case" then some (.beyond, p)
        else
          match p.takeUntil fun c => c = 10 with
          | none => some (.error, p)
          | some (_, p) => read 0 p
      | .error => some (.error, p)
      | .beyond => some (.beyond, p)
    else if c2 = 44 then some (.beyond, p)      -- ,
    else if c2 = 59 then do                     -- ;
      let (o, p) ← read 0 p
      match o with
      | .datum _ => read 0 p
      | o => some (o, p)
    else if c2 = 34 then do                     -- "
      let (r, p) ← takeQuoted c2 p
      match r with
      | .ok cs => some (.datum (.symbol (utf8String cs)), p)
      | .error => some (.error, p)
      | .beyond => some (.beyond, p)
    else if isDigitChar c2 then some (.beyond, p)
    else if c2 = 98 then readRadix 2 p          -- b
    else if c2 = 100 then readRadix 10 p        -- d
    else if c2 = 101 then some (.beyond, p)     -- e
    else if c2 = 102 then                       -- f
      match p.takeWhile isDigitChar with
      | none => some (.error, p)
      | some (s, p) =>
        let n := (digits 10 0 s).1
        if n = 32 ∨ n = 64 ∨ 2 ^ 31 ≤ n then some (.beyond, p)
        else do
          let (r, p) ← takeToken c2 p
          match r with
          | .ok _ => some (.datum (.bool false), p)
          | .error => some (.error, p)
          | .beyond => some (.beyond, p)
    else if c2 = 105 then some (.beyond, p)     -- i
    else if c2 = 111 then readRadix 8 p         -- o
    else if c2 = 115 then some (.beyond, p)     -- s
    else if c2 = 116 then do                    -- t
      let (r, p) ← takeToken c2 p
      match r with
      | .ok _ => some (.datum (.bool true), p)
      | .error => some (.error, p)
      | .beyond => some (.beyond, p)
    else if c2 = 117 then                       -- u
      match p.takeWhile isDigitChar with
      | none => some (.error, p)
      | some (s, p) =>
        if (digits 10 0 s).1 = 8 then do
          let (o, p) ← read 0 p
          match o with
          | .datum d =>
            match d.elements with
            | some xs =>
              match Datum.bytes xs with
              | .ok bs => some (.datum (.u8vector bs), p)
              | .error => some (.error, p)
              | .beyond => some (.beyond, p)
            | none => some (.beyond, p)
          | o => some (o, p)
        else some (.beyond, p)
    else if c2 = 120 then readRadix 16 p        -- x
    else if c2 = 40 then do                     -- (
      let (o, p) ← read c2 p
      match o with
      | .datum d =>
        match d.elements with
        | some xs => some (.datum (.vector xs), p)
        | none => some (.beyond, p)
      | o => some (o, p)
    else if c2 = 92 then readChar p             -- \
    else if c2 = 124 then do                    -- |
      let (b, p) ← skipBlock 1 p
      if b then read 0 p else some (.error, p)
    else some (.error, p)
partial_fixpoint

end

end Meevax.Text
