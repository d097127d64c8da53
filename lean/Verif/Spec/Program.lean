import Verif.Spec.Layout
import Verif.Model.Program

/-! What the text of a program is, and what running it means (R7RS 5.1, 6.14 `load`, and the REPL). -/

namespace Meevax.Program

open Meevax.Text

variable {σ V ε : Type}

/-- Data with white space and comments before and between them, in front of the rest of a text. -/
inductive Forms (high : Nat → Bool) (rest : List Byte) : List Datum → List Byte → Prop
  | done : Forms high rest [] rest
  | form {n s₁ d s₂ ds s₃} : Layout high (.blank n) .null s₁ → Layout high .datum d s₂ →
    (n = true → StartsDelimited s₂) → Forms high rest ds s₃ → StartsDelimited s₃ →
    Forms high rest (d :: ds) (s₁ ++ (s₂ ++ s₃))

/-- The text of a program: after the last datum there are white space and comments only; a list may also
be the very end. -/
inductive Program (high : Nat → Bool) : List Datum → List Byte → Prop
  | space {ds s rest} : Forms high rest ds s → Layout high (.blank false) .null rest → Program high ds s
  | list {ds s n s₀ m s₁ a s₂ d s₃} : Layout high (.blank n) .null s₀ → Layout high (.blank m) .null s₁ →
    Layout high .datum a s₂ → Layout high .tail d s₃ → StartsDelimited s₃ → (m = true → StartsDelimited s₂) →
    Forms high (s₀ ++ 40 :: (s₁ ++ (s₂ ++ s₃))) ds s → Program high (ds ++ [.cons a d]) s

/-- A text that ends within a list: what comes after the parenthesis that is not closed. -/
inductive Unclosed (high : Nat → Bool) : List Byte → Prop
  | end_ {s} : Layout high (.blank false) .null s → Unclosed high s
  | element {n s₁ d s₂ s₃} : Layout high (.blank n) .null s₁ → Layout high .datum d s₂ →
    (n = true → StartsDelimited s₂) → Unclosed high s₃ → Delimited s₃ → Unclosed high (s₁ ++ (s₂ ++ s₃))
  | list {n s₁ s₂} : Layout high (.blank n) .null s₁ → Unclosed high s₂ → Unclosed high (s₁ ++ 40 :: s₂)

/-- The data are evaluated one after the other, up to the first that throws. -/
def inOrder (evaluate : Datum → σ → Option (Except (Thrown ε) V × σ)) :
    List Datum → σ → Option (Except (Thrown ε) Unit × σ)
  | [], s => some (.ok (), s)
  | d :: ds, s => (evaluate d s).bind fun r =>
    match r.1 with
    | .ok _ => inOrder evaluate ds r.2
    | .error t => some (.error t, r.2)

/-- The data are evaluated one after the other; values are printed and errors are reported. Only other
exceptions end it. -/
def dialogue (evaluate : Datum → σ → Option (Except (Thrown ε) V × σ)) (text : ε → List Byte) :
    List Datum → σ → List (Event V) → Option (Except (Thrown ε) Unit × σ × List (Event V))
  | [], s, log => some (.ok (), s, log)
  | d :: ds, s, log => (evaluate d s).bind fun r =>
    match r.1 with
    | .ok v => dialogue evaluate text ds r.2 (log ++ [.printed v])
    | .error (.error e) => dialogue evaluate text ds r.2 (log ++ [.reported (text e)])
    | .error t => some (.error t, r.2, log)

/-- The errors that can come up in a REPL. -/
def Raised (H : Host σ V ε) (e : ε) : Prop :=
  e = H.readError ∨ ∃ d s s', H.evaluate d s = some (.error (.error e), s')

/-- What can be seen of a REPL that has ended. -/
def Progress.seen : Progress σ V ε → Option (Except (Thrown ε) Unit × σ × List (Event V))
  | .running _ => none
  | .ended r s => some (r, s.state, s.log)

end Meevax.Program
