import Mathlib.Data.List.Forall2
import Verif.Spec.Text

/-! What `display` is to put on a port (R7RS 6.13.3), and the data for which it does. -/

namespace Meevax.Text

/-- The list of the data `xs` with the end `e`. -/
def listOf (xs : List Datum) (e : Datum) : Datum := xs.foldr .cons e

/-- Texts with a space between two of them. -/
def spaced : List (List Byte) → List Byte
  | [] => []
  | s :: ss => s ++ ss.flatMap (32 :: ·)

/-- `s` is the text of `d`: strings and characters, wherever they are, stand for themselves, and symbols are not
escaped. The text of numbers is that of `writeNum` (C21, C65). -/
inductive Shown : Datum → List Byte → Prop where
  | null : Shown .null (ascii "()")
  | true : Shown (.bool true) (ascii "#t")
  | false : Shown (.bool false) (ascii "#f")
  | num {n : Num} {s : List Byte} (h : writeNum n = some s) : Shown (.num n) s
  | char (c : Char) : Shown (.char c.toNat) (String.utf8EncodeChar c)
  | string (cs : List Char) : Shown (.string (cs.map Char.toNat)) (encode cs)
  | symbol (name : List Byte) : Shown (.symbol name) name
  | list {x : Datum} {xs : List Datum} {ss : List (List Byte)} (h : List.Forall₂ Shown (x :: xs) ss) :
      Shown (listOf (x :: xs) .null) (ascii "(" ++ spaced ss ++ ascii ")")
  | dotted {x : Datum} {xs : List Datum} {ss : List (List Byte)} {e : Datum} {s : List Byte}
      (h : List.Forall₂ Shown (x :: xs) ss) (hn : e ≠ .null) (hc : ∀ a d, e ≠ .cons a d) (he : Shown e s) :
      Shown (listOf (x :: xs) e) (ascii "(" ++ spaced ss ++ ascii " . " ++ s ++ ascii ")")
  | vector {xs : List Datum} {ss : List (List Byte)} (h : List.Forall₂ Shown xs ss) :
      Shown (.vector xs) (ascii "#(" ++ spaced ss ++ ascii ")")
  | bytes (bs : List Byte) :
      Shown (.u8vector bs) (ascii "#u8(" ++ spaced (bs.map fun b => natDigits 10 b.toNat) ++ ascii ")")

/-- The parts of a datum: itself, and the parts of its elements. -/
inductive Inside : Datum → Datum → Prop where
  | self (d : Datum) : Inside d d
  | car {p a d : Datum} (h : Inside p a) : Inside p (.cons a d)
  | cdr {p a d : Datum} (h : Inside p d) : Inside p (.cons a d)
  | element {p x : Datum} {xs : List Datum} (hx : x ∈ xs) (h : Inside p x) : Inside p (.vector xs)

/-- An object that is written otherwise than it is to be shown: a character, a string, or a symbol that is
empty or has a special character. -/
def Escaped : Datum → Prop
  | .char _ => True
  | .string _ => True
  | .symbol name => name = [] ∨ ∃ b ∈ name, isSpecial b.toNat = true ∨ b = 0xFF
  | _ => False

/-- `d` is a dotted list, or a list with such an element; what is inside of vectors does not count. -/
inductive HasDot : Datum → Prop where
  | here {x : Datum} {xs : List Datum} {e : Datum} (hn : e ≠ .null) (hc : ∀ a d, e ≠ .cons a d) :
      HasDot (listOf (x :: xs) e)
  | element {x : Datum} {xs : List Datum} {e : Datum} (hx : x ∈ xs) (h : HasDot x) : HasDot (listOf xs e)

end Meevax.Text
