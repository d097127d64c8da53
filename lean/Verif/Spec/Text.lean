import Verif.Model.Writer

/-! What is required of a datum so that its written form can be read back. -/

namespace Meevax.Text

/-- The UTF-8 encoding of a text, as Lean defines it. -/
abbrev encode (cs : List Char) : List Byte := cs.flatMap String.utf8EncodeChar

/-- Exact numbers in lowest terms. -/
def ReadableReal : Num → Prop
  | .int _ => True
  | .ratio n d => 2 ≤ d ∧ Nat.Coprime n.natAbs d
  | _ => False

/-- The negative exact real numbers. -/
def NegativeReal : Num → Prop
  | .int n => n < 0
  | .ratio n _ => n < 0
  | _ => False

/-- Exact real numbers, and exact complex numbers whose imaginary part is negative (the others are not
read back: `C65_positive_fails`). -/
def ReadableNum : Num → Prop
  | .rectangular x y => ReadableReal x ∧ ReadableReal y ∧ NegativeReal y
  | x => ReadableReal x

/-- A symbol whose name is UTF-8 text without NUL and, if it has none of the characters that force the
quoted notation, is neither a number nor a dot. -/
def ReadableSymbol (high : Nat → Bool) (name : List Byte) : Prop :=
  ∃ cs : List Char, name = encode cs ∧ (∀ c ∈ cs, c ≠ '\x00') ∧
    ((∃ c ∈ cs, isSpecial c.toNat = true) ∧ (∀ c ∈ cs, 255 < c.toNat → high c.toNat = false) ∨
      (∀ c ∈ cs, isSpecial c.toNat = false) ∧ makeNumber name 10 = .invalid ∧ name ≠ ascii ".")

/-- The data with a written form that can be read back. `high` is what `std::isprint` answers above
255. -/
def Readable (high : Nat → Bool) : Datum → Prop
  | .null => True
  | .bool _ => True
  | .num n => ReadableNum n
  | .char c => c.isValidChar
  | .string cs => ∀ c ∈ cs, c < 2 ^ 31 ∧ (255 < c → high c = false)
  | .symbol name => ReadableSymbol high name
  | .cons a d => Readable high a ∧ Readable high d
  | .vector xs => ∀ x ∈ xs, Readable high x
  | .u8vector _ => True
  | .eof => False

/-- What may follow a datum without becoming part of it: the end of the input or a delimiter. -/
def Delimited (rest : List Byte) : Prop :=
  rest = [] ∨ ∃ b bs, rest = b :: bs ∧ isSpecial b.toNat = true

/-- The port after a datum: exactly `rest` is still to be read. At the end of the input the stream may
already have noticed the end. -/
def Ends (rest : List Byte) (p : Port) : Prop :=
  p.rest = rest ∧ (rest ≠ [] → p = { rest := rest })

end Meevax.Text
