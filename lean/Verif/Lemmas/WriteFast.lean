import Verif.Model.Writer

/-
`write` by structural recursion, so that it can be evaluated.
-/

namespace Meevax.Text

/-- As a datum of its own, and after a dot. -/
def both (s : Option (List Byte)) : Option (List Byte) × Option (List Byte) :=
  (s, s.map fun s => ascii " . " ++ s ++ [41])

mutual

/-- As a datum of its own, and as the rest of a list. -/
def writeFast (high : Nat → Bool) : Datum → Option (List Byte) × Option (List Byte)
  | .cons a d =>
    match (writeFast high a).1, (writeFast high d).2 with
    | some s, some t => (some ([40] ++ s ++ t), some ([32] ++ s ++ t))
    | _, _ => (none, none)
  | .vector xs => both ((elementsFast high xs).map fun s => ascii "#(" ++ s ++ [41])
  | .null => (some (ascii "()"), some [41])
  | .bool b => both (some (if b then ascii "#t" else ascii "#f"))
  | .num n => both (writeNum n)
  | .char c => both (some (writeChar c))
  | .string cs => both (some (writeString high cs))
  | .symbol name => both (writeSymbol high name)
  | .u8vector bs => both (some (ascii "#u8(" ++ writeBytes bs ++ [41]))
  | .eof => both none
termination_by structural d => d

/-- The elements of a vector. -/
def elementsFast (high : Nat → Bool) : List Datum → Option (List Byte)
  | [] => some []
  | x :: xs =>
    match (writeFast high x).1, elementsFast high xs with
    | some s, some t => some (if xs.isEmpty then s else s ++ [32] ++ t)
    | _, _ => none
termination_by structural xs => xs

end

mutual

theorem writeFast_eq (high : Nat → Bool) : ∀ d, writeFast high d = (write high d, writeTail high d)
  | .cons a d => by
    rw [writeFast, writeFast_eq high a, writeFast_eq high d]
    simp only [write, writeTail]
    cases write high a <;> cases writeTail high d <;> rfl
  | .vector xs => by
    rw [writeFast, elementsFast_eq high xs]
    simp only [write, writeTail, both]
    cases writeElements high xs <;> rfl
  | .null => by simp only [writeFast, write, writeTail]
  | .bool b => by simp only [writeFast, write, writeTail, both]; rfl
  | .num n => by simp only [writeFast, write, writeTail, both]; cases writeNum n <;> rfl
  | .char c => by simp only [writeFast, write, writeTail, both]; rfl
  | .string cs => by simp only [writeFast, write, writeTail, both]; rfl
  | .symbol name => by simp only [writeFast, write, writeTail, both]; cases writeSymbol high name <;> rfl
  | .u8vector bs => by simp only [writeFast, write, writeTail, both]; rfl
  | .eof => by simp only [writeFast, write, writeTail, both]; rfl

theorem elementsFast_eq (high : Nat → Bool) : ∀ xs, elementsFast high xs = writeElements high xs
  | [] => by simp only [elementsFast, writeElements]
  | [x] => by
    rw [elementsFast, writeFast_eq high x, elementsFast_eq high []]
    simp only [writeElements]
    cases write high x <;> rfl
  | x :: y :: ys => by
    rw [elementsFast, writeFast_eq high x, elementsFast_eq high (y :: ys)]
    rw [writeElements.eq_def high (x :: y :: ys)]
    simp only
    cases write high x <;> cases writeElements high (y :: ys) <;> rfl

end

end Meevax.Text
