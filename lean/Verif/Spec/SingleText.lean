import Verif.Spec.Single
import Verif.Spec.InexactText

/-
What ISO C says of `printf`'s `%g` conversion with the default precision of six digits (7.23.6.1), for
numbers of single precision.
-/

namespace Meevax.Text
open Meevax.Number (Flo)

/-- `v` is the magnitude `m` rounded to six decimal digits: a multiple of the last of six digits, and
no multiple is nearer. Which of two equally near ones is not said; nothing depends on that here. -/
def Six (m v : ℚ) : Prop :=
  (m = 0 → v = 0) ∧
  (0 < m → ∃ (y : ℤ) (i : ℕ), (10 : ℚ) ^ y ≤ m ∧ m < 10 ^ (y + 1) ∧ v = i * 10 ^ (y - 5) ∧
    2 * |v - m| ≤ 10 ^ (y - 5))

/-- The `%g` conversion: the style of `General`, the value rounded to six digits, trailing zeros
removed. -/
def Printf (pf : Flo → List UInt8) : Prop :=
  ∀ s m, Single.Rep m → ∃ ds x t, ds ≠ [] ∧ Six m (scientific ds x) ∧ (m = 0 → x = 0) ∧
    (∀ ds' x', ds' ≠ [] → scientific ds' x' = scientific ds x → ds.length ≤ ds'.length) ∧
    General (if s then .minus else .none) ds x t ∧ pf (.finite s m) = t.text

/-- The digits and the power of ten identify the magnitude `m` among those of binary32. -/
def Recovers32 (ds : List (Fin 10)) (x : ℤ) (m : ℚ) : Prop :=
  Single.Rounds (Flo.finite false m) (scientific ds x)

/-- What ISO C++ says of `std::to_chars` for finite numbers of `float` in the general format and without a precision
([charconv.to.chars]): the style of `%g`, and as few digits as identify the value. It also says which
of several equally long texts is chosen; nothing depends on that here. -/
def ToChars32 (tc : Flo → List UInt8) : Prop :=
  ∀ s m, Single.Rep m → ∃ ds x t, ds ≠ [] ∧ (m = 0 → x = 0) ∧ Recovers32 ds x m ∧
    (∀ ds' x', ds' ≠ [] → (m = 0 → x' = 0) → Recovers32 ds' x' m → ds.length ≤ ds'.length) ∧
    General (if s then .minus else .none) ds x t ∧ tc (.finite s m) = t.text

/-- The C library reports underflow of single precision only where there is underflow. -/
def Underflow32 (erange : ℚ → Bool) : Prop := ∀ x, erange x = true → 0 < x ∧ x < 2 ^ (-126 : ℤ)

end Meevax.Text
