import Verif.Model.Number
import Verif.Model.Sequence

/-!
Model of characters: the tables that CMakeLists.txt L42-L64 generates from configure/UnicodeData.txt, the
functions of `character` that contain them (include/meevax/kernel/character.hpp), and the procedures of
boot.cpp L90-L110 and of `(scheme char)` (library/r7rs.ss L370-L390).

The data file is any list of lines.  A generated table is the list of its case labels with what they return,
both still texts.

Simplifications: that two labels are equal, or that a text is no number or no enumerator, is a compile-time
error; the model takes the first label, and ignores what is no number.  Arguments are characters.
-/

namespace Meevax.Unicode

open Meevax.Number Meevax.Seq

/-- A line of the data file (CMakeLists.txt L42-L64). -/
abbrev Line := List Char

/-! ### The generated tables -/

/-- `[^;]*` (CMakeLists.txt L42-L64). -/
def upTo (l : Line) : Line := l.takeWhile (· != ';')

/-- What follows `[^;]*;` (CMakeLists.txt L42-L64). -/
def after (l : Line) : Option Line :=
  match l.dropWhile (· != ';') with
  | [] => none
  | _ :: r => some r

/-- What follows `([^;]*;){k}` (CMakeLists.txt L42-L64). -/
def skip : Nat → Line → Option Line
  | 0, l => some l
  | k + 1, l => (after l).bind (skip k)

/-- `sed -E "s/^([^;]*);([^;]*;){k}([^;]*).*$/case 0x\1: return \3;/g"` on a line (CMakeLists.txt L43-L59):
the label and what is returned.  A line that does not match is left as it is (no case). -/
def sed (k : Nat) (l : Line) : Option (Line × Line) :=
  (after l).bind fun r => (skip k r).map fun r => (upTo l, upTo r)

/-- property.hpp (CMakeLists.txt L42-L44). -/
def propertyTable (file : List Line) : List (Line × Line) := file.filterMap (sed 1)

/-- `grep -e "case 0x.\+: return .\+;"` (CMakeLists.txt L42-L64). -/
def grep (t : List (Line × Line)) : List (Line × Line) := t.filter fun e => !e.1.isEmpty && !e.2.isEmpty

/-- digit_value.hpp (CMakeLists.txt L46-L49). -/
def digitTable (file : List Line) : List (Line × Line) := grep (file.filterMap (sed 6))

/-- upcase.hpp (CMakeLists.txt L51-L54). -/
def upcaseTable (file : List Line) : List (Line × Line) := grep (file.filterMap (sed 11))

/-- downcase.hpp (CMakeLists.txt L56-L59). -/
def downcaseTable (file : List Line) : List (Line × Line) := grep (file.filterMap (sed 12))

/-! ### What the compiler makes of them -/

/-- A digit of a literal in the given base (the literals of the generated tables, CMakeLists.txt L42-L64). -/
def digit (base : Nat) (c : Char) : Option Nat :=
  let d :=
    if '0' ≤ c ∧ c ≤ '9' then c.toNat - 48
    else if 'A' ≤ c ∧ c ≤ 'F' then c.toNat - 55
    else if 'a' ≤ c ∧ c ≤ 'f' then c.toNat - 87
    else 16
  if d < base then some d else none

/-- The digits of a literal (the literals of the generated tables, CMakeLists.txt L42-L64). -/
def literal (base : Nat) : Line → Nat → Option Nat
  | [], n => some n
  | c :: cs, n => (digit base c).bind fun d => literal base cs (n * base + d)

/-- `switch (codepoint) { case 0x…: return …; … }`: what is returned, if there is a label
(include/meevax/kernel/character.hpp L79-L120). -/
def switch (t : List (Line × Line)) (c : Int) : Option Line :=
  (t.find? fun e => (literal 16 e.1 0).map Int.ofNat == some c).map (·.2)

/-- `property_code::value_type` (character.hpp L41-L72). -/
inductive Category where
  | Cc | Cf | Cn | Co | Cs | Ll | Lm | Lo | Lt | Lu | Mc | Me | Mn | Nd | Nl | No | Pc | Pd | Pe | Pf | Pi | Po | Ps
  | Sc | Sk | Sm | So | Zl | Zp | Zs
  deriving DecidableEq, Repr

/-- All enumerators (character.hpp L41-L72). -/
def Category.all : List Category :=
  [.Cc, .Cf, .Cn, .Co, .Cs, .Ll, .Lm, .Lo, .Lt, .Lu, .Mc, .Me, .Mn, .Nd, .Nl, .No, .Pc, .Pd, .Pe, .Pf, .Pi, .Po, .Ps,
    .Sc, .Sk, .Sm, .So, .Zl, .Zp, .Zs]

/-- The name of an enumerator (include/meevax/kernel/character.hpp L30-L77). -/
def Category.text : Category → Line
  | .Cc => ['C', 'c'] | .Cf => ['C', 'f'] | .Cn => ['C', 'n'] | .Co => ['C', 'o'] | .Cs => ['C', 's']
  | .Ll => ['L', 'l'] | .Lm => ['L', 'm'] | .Lo => ['L', 'o'] | .Lt => ['L', 't'] | .Lu => ['L', 'u']
  | .Mc => ['M', 'c'] | .Me => ['M', 'e'] | .Mn => ['M', 'n']
  | .Nd => ['N', 'd'] | .Nl => ['N', 'l'] | .No => ['N', 'o']
  | .Pc => ['P', 'c'] | .Pd => ['P', 'd'] | .Pe => ['P', 'e'] | .Pf => ['P', 'f'] | .Pi => ['P', 'i'] | .Po => ['P', 'o']
  | .Ps => ['P', 's']
  | .Sc => ['S', 'c'] | .Sk => ['S', 'k'] | .Sm => ['S', 'm'] | .So => ['S', 'o']
  | .Zl => ['Z', 'l'] | .Zp => ['Z', 'p'] | .Zs => ['Z', 's']

/-- The enumerator with a name (include/meevax/kernel/character.hpp L79-L88). -/
def enumerator (n : Line) : Option Category := Category.all.find? (·.text == n)

/-- `property_code::to_value_type` (character.hpp L79-L88). -/
def property (file : List Line) (c : Int) : Category :=
  match (switch (propertyTable file) c).bind enumerator with
  | some v => v
  | none => .Cn

/-- `digit_value` (character.hpp L141-L150). -/
def digitValue (file : List Line) (c : Int) : Option Nat :=
  (switch (digitTable file) c).bind fun v => literal 10 v 0

/-- `downcase` (character.hpp L152-L161). -/
def downcase (file : List Line) (c : Int) : Int :=
  match (switch (downcaseTable file) c).bind fun v => literal 16 v 0 with
  | some d => d
  | none => c

/-- `upcase` (character.hpp L183-L192). -/
def upcase (file : List Line) (c : Int) : Int :=
  match (switch (upcaseTable file) c).bind fun v => literal 16 v 0 with
  | some d => d
  | none => c

/-- `is_letter` (character.hpp L95-L98). -/
def Category.isLetter (v : Category) : Bool := [Category.Ll, .Lm, .Lo, .Lt, .Lu].contains v

/-- `is_lower_case` (character.hpp L100-L103). -/
def Category.isLowerCase (v : Category) : Bool := v == .Ll

/-- `is_numeric` (character.hpp L105-L108). -/
def Category.isNumeric (v : Category) : Bool := v == .Nd

/-- `is_upper_case` (character.hpp L110-L113). -/
def Category.isUpperCase (v : Category) : Bool := v == .Lu

/-- `is_whitespace` (character.hpp L115-L118). -/
def Category.isWhitespace (v : Category) : Bool := v == .Zs

/-! ### Procedures -/

/-- `char-alphabetic?` (boot.cpp L101). -/
def charAlphabetic (file : List Line) (c : Int) : Bool := (property file c).isLetter
/-- `char-numeric?` (boot.cpp L102). -/
def charNumeric (file : List Line) (c : Int) : Bool := (property file c).isNumeric
/-- `char-whitespace?` (boot.cpp L103). -/
def charWhitespace (file : List Line) (c : Int) : Bool := (property file c).isWhitespace
/-- `char-upper-case?` (boot.cpp L104). -/
def charUpperCase (file : List Line) (c : Int) : Bool := (property file c).isUpperCase
/-- `char-lower-case?` (boot.cpp L105). -/
def charLowerCase (file : List Line) (c : Int) : Bool := (property file c).isLowerCase

/-- `char=?` (boot.cpp L91). -/
def charEq (xs : List Int) : Bool := noAdjacent (fun a b => !(a == b)) xs
/-- `char<?` (boot.cpp L92). -/
def charLt (xs : List Int) : Bool := noAdjacent (fun a b => !decide (a < b)) xs
/-- `char<=?` (boot.cpp L93). -/
def charLe (xs : List Int) : Bool := noAdjacent (fun a b => !decide (a ≤ b)) xs
/-- `char>?` (boot.cpp L94). -/
def charGt (xs : List Int) : Bool := noAdjacent (fun a b => !decide (a > b)) xs
/-- `char>=?` (boot.cpp L95). -/
def charGe (xs : List Int) : Bool := noAdjacent (fun a b => !decide (a ≥ b)) xs

/-- `char-ci=?` (boot.cpp L96). -/
def charCiEq (file : List Line) (xs : List Int) : Bool :=
  noAdjacent (fun a b => !(downcase file a == downcase file b)) xs
/-- `char-ci<?` (boot.cpp L97). -/
def charCiLt (file : List Line) (xs : List Int) : Bool :=
  noAdjacent (fun a b => !decide (downcase file a < downcase file b)) xs
/-- `char-ci<=?` (boot.cpp L98). -/
def charCiLe (file : List Line) (xs : List Int) : Bool :=
  noAdjacent (fun a b => !decide (downcase file a ≤ downcase file b)) xs
/-- `char-ci>?` (boot.cpp L99). -/
def charCiGt (file : List Line) (xs : List Int) : Bool :=
  noAdjacent (fun a b => !decide (downcase file a > downcase file b)) xs
/-- `char-ci>=?` (boot.cpp L100). -/
def charCiGe (file : List Line) (xs : List Int) : Bool :=
  noAdjacent (fun a b => !decide (downcase file a ≥ downcase file b)) xs

/-- `char->integer` (boot.cpp L107). -/
def charToInteger (c : Int) : Num := .small c

/-- `integer->char` (boot.cpp L108): `exact_integer_cast<int>`. -/
def integerToChar (x : Num) : Outcome Int := castSmall x

/-- `char-foldcase` (r7rs.ss L381). -/
def charFoldcase (file : List Line) (c : Int) : Int := downcase file c

/-- `string-map` of one string (r7rs.ss L202-L205): `list->string`, `map`, `string->list`. -/
def stringMap (f : Int → Int) (s : List Int) : List Int := s.map f

/-- `string-upcase` (r7rs.ss L383-L384). -/
def stringUpcase (file : List Line) (s : List Int) : List Int := stringMap (upcase file) s
/-- `string-downcase` (r7rs.ss L386-L387). -/
def stringDowncase (file : List Line) (s : List Int) : List Int := stringMap (downcase file) s
/-- `string-foldcase` (r7rs.ss L389-L390). -/
def stringFoldcase (file : List Line) (s : List Int) : List Int := stringMap (charFoldcase file) s

end Meevax.Unicode
