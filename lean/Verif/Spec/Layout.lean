import Verif.Spec.Text

/-! The external representations of data with white space and comments between the tokens (R7RS
2.2, 7.1.1, 7.1.2), as a grammar. -/

namespace Meevax.Text

/-- The text inside a block comment, with comments nested in it. A `#` that starts no comment and a `|`
that ends none are ordinary text. -/
inductive Nested : List Char → Prop
  | nil : Nested []
  | other {c cs} : c ≠ '#' → c ≠ '|' → Nested cs → Nested (c :: cs)
  | hash {c cs} : c ≠ '|' → c ≠ '\x00' → Nested (c :: cs) → Nested ('#' :: c :: cs)
  | bar {c cs} : c ≠ '#' → c ≠ '\x00' → Nested (c :: cs) → Nested ('|' :: c :: cs)
  | lastBar : Nested ['|']
  | comment {body cs} : Nested body → Nested cs →
    Nested ('#' :: '|' :: (body ++ '|' :: '#' :: cs))

/-- What a text is a layout of: space between tokens (`blank true` must be followed by a delimiter), a
datum, or the rest of a list after its first element, up to the closing parenthesis. -/
inductive Mode where
  | blank (open' : Bool)
  | datum
  | tail

/-- The text starts with a delimiter. -/
def StartsDelimited (s : List Byte) : Prop := ∃ b bs, s = b :: bs ∧ isSpecial b.toNat = true

/-- Texts of a datum with any white space and comments between the tokens. -/
inductive Layout (high : Nat → Bool) : Mode → Datum → List Byte → Prop
  /-- No space. -/
  | nil : Layout high (.blank false) .null []
  /-- White space. -/
  | white {b n s} : isWhite b.toNat = true → Layout high (.blank n) .null s →
    Layout high (.blank n) .null (b :: s)
  /-- A line comment. -/
  | line {text : List Char} {n s} : '\n' ∉ text → Layout high (.blank n) .null s →
    Layout high (.blank n) .null (59 :: (encode text ++ 10 :: s))
  /-- A block comment. -/
  | block {text : List Char} {n s} : Nested text → Layout high (.blank n) .null s →
    Layout high (.blank n) .null (35 :: 124 :: (encode text ++ 124 :: 35 :: s))
  /-- A datum comment followed by more space. -/
  | comment {n n' s₁ d s₂ s₃} : Layout high (.blank n) .null s₁ → Layout high .datum d s₂ →
    Layout high (.blank n') .null s₃ → s₃ ≠ [] → (n = true → StartsDelimited s₂) →
    Layout high (.blank n') .null (35 :: 59 :: (s₁ ++ (s₂ ++ s₃)))
  /-- A datum comment in front of a delimiter. -/
  | lastComment {n s₁ d s₂} : Layout high (.blank n) .null s₁ → Layout high .datum d s₂ →
    (n = true → StartsDelimited s₂) → Layout high (.blank true) .null (35 :: 59 :: (s₁ ++ s₂))
  /-- A datum as it is written. -/
  | written {d s} : Readable high d → write high d = some s → Layout high .datum d s
  /-- The empty list. -/
  | null {n s} : Layout high (.blank n) .null s → Layout high .datum .null (40 :: (s ++ [41]))
  /-- A list. -/
  | list {n s₁ a s₂ d s₃} : Layout high (.blank n) .null s₁ → Layout high .datum a s₂ →
    Layout high .tail d s₃ → StartsDelimited s₃ → (n = true → StartsDelimited s₂) →
    Layout high .datum (.cons a d) (40 :: (s₁ ++ (s₂ ++ s₃)))
  /-- The empty vector. -/
  | vectorNil {n s} : Layout high (.blank n) .null s →
    Layout high .datum (.vector []) (35 :: 40 :: (s ++ [41]))
  /-- A vector. -/
  | vector {n s₁ a s₂ xs s₃} : Layout high (.blank n) .null s₁ → Layout high .datum a s₂ →
    Layout high .tail (xs.foldr .cons .null) s₃ → StartsDelimited s₃ →
    (n = true → StartsDelimited s₂) →
    Layout high .datum (.vector (a :: xs)) (35 :: 40 :: (s₁ ++ (s₂ ++ s₃)))
  /-- `'datum`. -/
  | quote {n s₁ d s₂} : Layout high (.blank n) .null s₁ → Layout high .datum d s₂ →
    (n = true → StartsDelimited s₂) →
    Layout high .datum (.cons (.symbol (ascii "quote")) (.cons d .null)) (39 :: (s₁ ++ s₂))
  /-- `` `datum ``. -/
  | quasiquote {n s₁ d s₂} : Layout high (.blank n) .null s₁ → Layout high .datum d s₂ →
    (n = true → StartsDelimited s₂) →
    Layout high .datum (.cons (.symbol (ascii "quasiquote")) (.cons d .null)) (96 :: (s₁ ++ s₂))
  /-- The end of a list. -/
  | tailNull {n s} : Layout high (.blank n) .null s → Layout high .tail .null (s ++ [41])
  /-- One more element of a list. -/
  | tailCons {n s₁ a s₂ d s₃} : Layout high (.blank n) .null s₁ → Layout high .datum a s₂ →
    Layout high .tail d s₃ → StartsDelimited s₃ → (n = true → StartsDelimited s₂) →
    Layout high .tail (.cons a d) (s₁ ++ (s₂ ++ s₃))
  /-- The end of a dotted list. Only white space between the last datum and the parenthesis. -/
  | tailDot {s₁ n s₂ d s₃ w} : Layout high (.blank false) .null s₁ →
    Layout high (.blank n) .null s₂ → Layout high .datum d s₃ → StartsDelimited (s₂ ++ s₃) →
    (n = true → StartsDelimited s₃) → (∀ b ∈ w, isWhite b.toNat = true) →
    Layout high .tail d (s₁ ++ 46 :: (s₂ ++ (s₃ ++ (w ++ [41]))))

end Meevax.Text
