import Verif.Model.Types

/-
What the report says of types (R7RS 3.2), of the accessors of pairs (6.4), of boxes (SRFI 111), of error
objects (6.11) and of the kinds of ports (6.13.1).
-/

namespace Meevax.Types

/-- The predicates of R7RS 3.2 without those of records, and those of the other types of objects: no
object is to satisfy two of them. -/
def disjointPredicates : List (Heap → Word → Bool) :=
  [ isBoolean, (isHomogeneous · .u8 ·), isChar, isEof, isNull, isNumber, isPair, isPort, isProcedure,
    isString, isSymbol, isVector,
    (isHomogeneous · .u16 ·), (isHomogeneous · .u32 ·), (isHomogeneous · .u64 ·), (isHomogeneous · .s8 ·),
    (isHomogeneous · .s16 ·), (isHomogeneous · .s32 ·), (isHomogeneous · .s64 ·), (isHomogeneous · .f32 ·),
    (isHomogeneous · .f64 ·), isBox, isErrorObject, isTransformer, isSyntacticClosure ]

/-- The predicates that further divide the types. -/
def finerPredicates : List (Heap → Word → Bool) :=
  [ isInputPort, isOutputPort, isBinaryPort, isTextualPort, isReadError, isFileError, isIdentifier,
    isNotPair ]

/-- An object of the heap `h`: a value, or a reference to a cell in use. -/
def InUse (h : Heap) (x : Word) : Prop := ∀ a, x = .ref a → a < h.next

/-- `h'` is `h` with one more object `x`, everything else as it was. -/
def Extends (h h' : Heap) (x : Word) : Prop :=
  x = .ref h.next ∧ h'.next = h.next + 1 ∧ ∀ a, a < h.next → h'.cell a = h.cell a

/-- The reading of the letters of a name, from right to left: the last letter is the first step. Each
step is from a pair. -/
inductive Follows (h : Heap) : List Letter → Word → Word → Prop
  | here (x : Word) : Follows h [] x x
  | a {w : List Letter} {x : Word} {p : Nat} : Follows h w x (.ref p) → isPair h (.ref p) = true →
      Follows h (.a :: w) x (h.cell p).first
  | d {w : List Letter} {x : Word} {p : Nat} : Follows h w x (.ref p) → isPair h (.ref p) = true →
      Follows h (.d :: w) x (h.cell p).second

/-- `x` is a proper list of pairs with these elements. -/
inductive ListOf (h : Heap) : Word → List Word → Prop
  | nil : ListOf h .null []
  | cons {p : Nat} {xs : List Word} : isPair h (.ref p) = true → ListOf h (h.cell p).second xs →
      ListOf h (.ref p) ((h.cell p).first :: xs)

/-- `h'` is `h` but for the first field of the cell of `x`. -/
def OnlyFirst (h h' : Heap) (x y : Word) : Prop :=
  car h' x = .value y ∧ (∀ z, cdr h' z = cdr h z) ∧ ∀ z, z ≠ x → car h' z = car h z

/-- `h'` is `h` but for the second field of the cell of `x`. -/
def OnlySecond (h h' : Heap) (x y : Word) : Prop :=
  cdr h' x = .value y ∧ (∀ z, car h' z = car h z) ∧ ∀ z, z ≠ x → cdr h' z = cdr h z

/-- Which procedures make ports for input. -/
def Opener.forInput : Opener → Bool
  | .standardInputPort | .openInputFile | .openBinaryInputFile | .openInputString
  | .openInputU8vector => true
  | _ => false

/-- Which procedures make ports for characters. -/
def Opener.forText : Opener → Bool
  | .openBinaryInputFile | .openBinaryOutputFile | .openInputU8vector | .openOutputU8vector => false
  | _ => true

end Meevax.Types
