import Mathlib.Data.Nat.Digits.Defs
import Verif.Model.Character

/-!
What the file UnicodeData.txt says (Unicode Standard Annex #44), and what R7RS 6.6 and 6.7 say about
characters.
-/

namespace Meevax.Unicode.Spec

/-- A digit of a number in base 16, upper case. -/
def hexDigit (d : Nat) : Char := ['0', '1', '2', '3', '4', '5', '6', '7', '8', '9', 'A', 'B', 'C', 'D', 'E', 'F'].getD d '0'

/-- A code point in UnicodeData.txt: at least four digits. -/
def hex (n : Nat) : List Char :=
  let ds := (Nat.digits 16 n).reverse.map hexDigit
  List.replicate (4 - ds.length) '0' ++ ds

/-- One line of the file.  `decimal`, `digit`: fields 6 and 7; `upper`, `lower`: the simple case mappings,
fields 12 and 13; the other fields are texts. -/
structure Entry where
  code : Nat
  name : List Char
  category : Category
  combining : List Char
  bidi : List Char
  decomposition : List Char
  decimal : Option Nat
  digit : Option Nat
  numeric : List Char
  mirrored : List Char
  oldName : List Char
  comment : List Char
  upper : Option Nat
  lower : Option Nat
  title : List Char

/-- Field 6 or 7: a digit, or nothing. -/
def digitField : Option Nat → List Char
  | some d => [hexDigit d]
  | none => []

/-- Field 12 or 13. -/
def codeField : Option Nat → List Char
  | some c => hex c
  | none => []

/-- The fields of a line. -/
def Entry.fields (e : Entry) : List (List Char) :=
  [hex e.code, e.name, e.category.text, e.combining, e.bidi, e.decomposition, digitField e.decimal, digitField e.digit,
    e.numeric, e.mirrored, e.oldName, e.comment, codeField e.upper, codeField e.lower, e.title]

/-- The line. -/
def Entry.line (e : Entry) : List Char := List.intercalate [';'] e.fields

/-- Texts do not contain the separator, and digits are digits. -/
structure Entry.Ok (e : Entry) : Prop where
  texts : ∀ f ∈ [e.name, e.combining, e.bidi, e.decomposition, e.numeric, e.mirrored, e.oldName, e.comment, e.title],
    ';' ∉ f
  digit : ∀ d, e.digit = some d → d < 10
  /-- Characters with a decimal digit value are the decimal digits (UAX #44, Numeric_Type). -/
  decimal : ∀ d, e.decimal = some d → e.digit = some d
  isDecimal : e.decimal.isSome = true ↔ e.category = .Nd
  /-- Other digits are superscripts and the like (Numeric_Type = Digit). -/
  isDigit : e.digit.isSome = true → e.category = .Nd ∨ e.category = .No

/-- What the file is made of: single characters, and ranges, given by their first and last character, in
which all have the properties of the first one. -/
inductive Item where
  | single (e : Entry)
  | range (first last : Entry)

/-- The lines of an item. -/
def Item.entries : Item → List Entry
  | .single e => [e]
  | .range a b => [a, b]

/-- The code points of an item. -/
def Item.covers : Item → Nat → Prop
  | .single e, c => c = e.code
  | .range a b, c => a.code ≤ c ∧ c ≤ b.code

/-- The entry with the properties. -/
def Item.entry : Item → Entry
  | .single e => e
  | .range a _ => a

/-- Code points that are inside a range, and have no line. -/
def Item.inside : Item → Nat → Prop
  | .single _, _ => False
  | .range a b, c => a.code < c ∧ c < b.code

/-- The last code point. -/
def Item.last : Item → Nat
  | .single e => e.code
  | .range _ b => b.code

/-- Both ends of a range are alike, and have neither digit values nor case mappings. -/
def Item.Ok : Item → Prop
  | .single e => e.Ok
  | .range a b => a.Ok ∧ b.Ok ∧ a.code < b.code ∧ b.category = a.category ∧ a.digit = none ∧ b.digit = none ∧
      a.upper = none ∧ b.upper = none ∧ a.lower = none ∧ b.lower = none

/-- The file. -/
structure Data (items : List Item) : Prop where
  ok : ∀ i ∈ items, i.Ok
  ascending : items.Pairwise fun i j => i.last < j.entry.code

/-- The text of the file. -/
def text (items : List Item) : List (List Char) := (items.flatMap Item.entries).map Entry.line

/-- The general category of a code point; `Cn` if it is not assigned. -/
def HasCategory (items : List Item) (c : Nat) (v : Category) : Prop :=
  (∃ i ∈ items, i.covers c ∧ v = i.entry.category) ∨ (¬(∃ i ∈ items, i.covers c) ∧ v = .Cn)

/-- The simple uppercase mapping: the character itself if there is none. -/
def HasUpper (items : List Item) (c d : Nat) : Prop :=
  (∃ i ∈ items, i.covers c ∧ i.entry.upper = some d) ∨ ((∀ i ∈ items, i.covers c → i.entry.upper = none) ∧ d = c)

/-- The simple lowercase mapping. -/
def HasLower (items : List Item) (c d : Nat) : Prop :=
  (∃ i ∈ items, i.covers c ∧ i.entry.lower = some d) ∨ ((∀ i ∈ items, i.covers c → i.entry.lower = none) ∧ d = c)

/-- The value of a decimal digit (R7RS: `digit-value`). -/
def HasDigitValue (items : List Item) (c : Nat) (d : Option Nat) : Prop :=
  (∃ i ∈ items, i.covers c ∧ i.entry.decimal = d) ∨ (¬(∃ i ∈ items, i.covers c) ∧ d = none)

/-- The property `White_Space` (PropList.txt): separators, and some control characters. -/
def WhiteSpace (c : Nat) (v : Category) : Prop :=
  v = .Zs ∨ v = .Zl ∨ v = .Zp ∨ (9 ≤ c ∧ c ≤ 13) ∨ c = 0x85

/-- The property `Alphabetic` (DerivedCoreProperties.txt): letters, letter numbers, and others. -/
def Alphabetic (other : Nat → Prop) (c : Nat) (v : Category) : Prop :=
  v = .Lu ∨ v = .Ll ∨ v = .Lt ∨ v = .Lm ∨ v = .Lo ∨ v = .Nl ∨ other c

/-- `Uppercase` and `Lowercase`. -/
def Uppercase (other : Nat → Prop) (c : Nat) (v : Category) : Prop := v = .Lu ∨ other c
def Lowercase (other : Nat → Prop) (c : Nat) (v : Category) : Prop := v = .Ll ∨ other c

/-- The code points of characters (R7RS: Unicode scalar values). -/
def Scalar (n : Int) : Prop := 0 ≤ n ∧ n < 0x110000 ∧ ¬(0xD800 ≤ n ∧ n < 0xE000)

end Meevax.Unicode.Spec
