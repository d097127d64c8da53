import Verif.Model.Flonum
import Verif.Model.Sequence

/-
Model of homogeneous vectors (SRFI 4): include/meevax/kernel/homogeneous_vector.hpp and boot.cpp
L403-L418, for the integer types and for `double`.

The elements of a vector of the integer types are integers (`std::int8_t`, ..., `std::uint64_t`), those
of an f64vector are `double`s. f32vectors, and elements given as `float` objects, are in `Model/Single`.
The procedures that do not look at elements (length, copy, copy!, append) are in `Model/Sequence`.
-/

namespace Meevax.Homogeneous
open Meevax.Number Meevax.Seq

/-- `static_cast` of an integer to the integer type with `bits` bits: reduced modulo `2 ^ bits`
(C++20) (include/meevax/kernel/homogeneous_vector.hpp L64). -/
def wrap (signed : Bool) (bits : Nat) (z : Int) : Int :=
  if signed then (z + 2 ^ (bits - 1)) % 2 ^ bits - 2 ^ (bits - 1) else z % 2 ^ bits

/-- `static_cast` of a `double` to the integer type: truncated; undefined if it does not fit
(include/meevax/kernel/homogeneous_vector.hpp L64). -/
def castDouble (signed : Bool) (bits : Nat) : Flo → Outcome Int
  | .finite s m =>
    let z := stdTrunc (Number.signed s m)
    if wrap signed bits z = z then .value z else .undefined
  | .inf _ => .undefined
  | .nan => .undefined

/-- `homogeneous_vector<T>::input_cast` (homogeneous_vector.hpp L57-L70) for an integer type. The
conversion of a `large_integer` (large_integer.hpp L69-L84) is `mpz_get_si` for the signed types and
`mpz_get_ui`, the low 64 bits of the magnitude, for the unsigned types. -/
def inputInt (signed : Bool) (bits : Nat) : Real → Outcome Int
  | .exact (.small i) => .value (wrap signed bits i)
  | .exact (.large z) => .value (wrap signed bits (if signed then mpzGetSi z else z.natAbs % 2 ^ 64))
  | .flo d => castDouble signed bits d
  | .exact (.ratio _) => .raised

/-- `output_cast` (homogeneous_vector.hpp L72-L75) for an integer type: always a `large_integer`. -/
def outputInt (z : Int) : Real := .exact (.large z)

/-- `input_cast` for `double` (include/meevax/kernel/homogeneous_vector.hpp L57-L70). -/
def inputF64 : Real → Outcome Flo
  | .exact (.small i) => .value (castFixnum i)
  | .exact (.large z) => .value (castLarge z)
  | .flo d => .value d
  | .exact (.ratio _) => .raised

/-- `output_cast` for `double` (include/meevax/kernel/homogeneous_vector.hpp L72-L75). -/
def outputF64 (d : Flo) : Real := .flo d

/-- What the template parameter gives: the casts, and `static_cast<T>(0)`
(include/meevax/kernel/homogeneous_vector.hpp L28-L76). -/
structure Elem (T : Type) where
  input : Real → Outcome T
  output : T → Real
  zero : T

/-- `s8`, `s16`, `s32`, `s64`, `u8`, `u16`, `u32`, `u64` (homogeneous_vector.hpp L107-L118). -/
def int (signed : Bool) (bits : Nat) : Elem Int := ⟨inputInt signed bits, outputInt, 0⟩

/-- `f64` (homogeneous_vector.hpp L121). -/
def f64 : Elem Flo := ⟨inputF64, outputF64, .finite false 0⟩

variable {T : Type}

/-- The constructor from a list (homogeneous_vector.hpp L38-L49). -/
def inputAll (E : Elem T) : List Real → Outcome (List T)
  | [] => .value []
  | x :: xs => do
    let y ← E.input x
    let ys ← inputAll E xs
    .value (y :: ys)

/-- `TAGvector` (boot.cpp L406) and `list->TAGvector` (boot.cpp L414). -/
def ofList (E : Elem T) (σ : Store T) (xs : List Real) : Outcome (Nat × Store T) := do
  let ys ← inputAll E xs
  .value (allocate σ ys)

/-- `make-TAGvector` (boot.cpp L405). C++ leaves open which operand is looked at first. -/
def make (E : Elem T) (σ : Store T) (k : Num) (fill : Option Real) : Outcome (Nat × Store T) := do
  let x ← match fill with
    | none => .value E.zero
    | some x => E.input x
  let k ← sizeCast k
  .value (allocate σ (List.replicate k x))

/-- `TAGvector-ref` (boot.cpp L408). -/
def ref (E : Elem T) (σ : Store T) (a : Nat) (k : Num) : Outcome Real := do
  let x ← vectorRef σ a k
  .value (E.output x)

/-- `TAGvector-set!` (boot.cpp L409). -/
def set (E : Elem T) (σ : Store T) (a : Nat) (k : Num) (x : Real) : Outcome (Store T) := do
  let y ← E.input x
  vectorSet σ a k y

/-- `TAGvector->list` (boot.cpp L413). -/
def toList (E : Elem T) (σ : Store T) (a : Nat) (range : List Num) : Outcome (List Real) := do
  let ys ← u8vectorToList σ a range
  .value (ys.map E.output)

end Meevax.Homogeneous
