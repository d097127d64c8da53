import Verif.Model.Number
import Verif.Model.Utf8

/-
Model of vectors, strings and u8vectors (src/kernel/boot.cpp L348-L369, L386-L421; vector.hpp, string.hpp,
homogeneous_vector.hpp).

Vectors hold an `std::vector<object>`, strings an `std::vector<character>`, u8vectors an
`std::valarray<std::uint8_t>`. Objects of one kind live in a store of their own, since objects of different
kinds do not share elements. Iterators are positions; an iterator outside of `[begin, end]`, an element that
is not there and a range whose end comes before its beginning are undefined behaviour.

Simplified: the arguments have the right types, except where an operation looks at the elements; indices are
exact numbers (`exact_integer_cast` throws for inexact ones).
-/

namespace Meevax.Seq
open Meevax.Number

variable {α : Type}

/-- `exact_integer_cast<std::size_t>` (include/meevax/kernel/number.hpp L340-L359): the conversion of an
`int`; `mpz_get_ui`, the lowest 64 bits of the absolute value; the conversion of a double, which is undefined
outside of the range. -/
def sizeCast : Num → Outcome Nat
  | .small i => .value (i % 2 ^ 64).toNat
  | .large z => .value (z.natAbs % 2 ^ 64)
  | .ratio q =>
    match mpqGetD q with
    | some d => if -1 < d ∧ d < 2 ^ 64 then .value (stdTrunc d).toNat else .undefined
    | none => .undefined

/-- The objects of one kind: their elements, by address
(include/meevax/kernel/vector.hpp; include/meevax/kernel/string.hpp; include/meevax/kernel/homogeneous_vector.hpp L33). -/
abbrev Store (α : Type) := List (List α)

/-- `x.as<string>().characters` and the like: the elements. There is no object elsewhere: `as` throws
(object.hpp L129). -/
def elements (σ : Store α) (a : Nat) : Outcome (List α) :=
  match σ[a]? with
  | some xs => .value xs
  | none => .raised

/-- The switch over the optional arguments `start` and `end` that all of the functions have: `case 1`,
`case 2`, `case 3`, `default` (e.g. boot.cpp L367). `n`: `end()`. -/
def bounds (n : Nat) : List Num → Outcome (Nat × Nat)
  | [] => .value (0, n)
  | [start] => do .value (← sizeCast start, n)
  | [start, stop] => do .value (← sizeCast start, ← sizeCast stop)
  | _ => .raised

/-- The elements between two iterators (src/kernel/boot.cpp L365-L369, L394-L401). -/
def between (xs : List α) (first last : Nat) : Outcome (List α) :=
  if first ≤ last ∧ last ≤ xs.length then .value ((xs.drop first).take (last - first)) else .undefined

/-- `make<T>(elements)` (src/kernel/boot.cpp L349, L390). -/
def allocate (σ : Store α) (xs : List α) : Nat × Store α := (σ.length, σ ++ [xs])

/-- `make-vector` (boot.cpp L390), `make-string` (boot.cpp L349), `make-u8vector` (boot.cpp L405). -/
def make (σ : Store α) (k : Num) (x : α) : Outcome (Nat × Store α) := do
  let k ← sizeCast k
  .value (allocate σ (List.replicate k x))

/-- `vector` (boot.cpp L389), `list->vector` (boot.cpp L395), `string` (boot.cpp L350), `list->string` (boot.cpp
L366): `as_proper_list` gives the elements of a list. -/
def ofList (σ : Store α) (xs : List α) : Nat × Store α := allocate σ xs

/-- `vector-length` (boot.cpp L391), `string-length` (boot.cpp L351): cast to `int`. -/
def length (σ : Store α) (a : Nat) : Outcome Num := do
  let xs ← elements σ a
  .value (.small (narrow xs.length))

/-- `vector-ref` (boot.cpp L392), `u8vector-ref` (boot.cpp L408): `operator[]`. -/
def vectorRef (σ : Store α) (a : Nat) (k : Num) : Outcome α := do
  let xs ← elements σ a
  let k ← sizeCast k
  match xs[k]? with
  | some x => .value x
  | none => .undefined

/-- `string-ref` (boot.cpp L352): `at`, which throws `std::out_of_range`. -/
def stringRef (σ : Store α) (a : Nat) (k : Num) : Outcome α := do
  let xs ← elements σ a
  let k ← sizeCast k
  match xs[k]? with
  | some x => .value x
  | none => .raised

/-- `vector-set!` (boot.cpp L393), `u8vector-set!` (boot.cpp L409). -/
def vectorSet (σ : Store α) (a : Nat) (k : Num) (x : α) : Outcome (Store α) := do
  let xs ← elements σ a
  let k ← sizeCast k
  if k < xs.length then .value (σ.set a (xs.set k x)) else .undefined

/-- `string-set!` (boot.cpp L353). -/
def stringSet (σ : Store α) (a : Nat) (k : Num) (x : α) : Outcome (Store α) := do
  let xs ← elements σ a
  let k ← sizeCast k
  if k < xs.length then .value (σ.set a (xs.set k x)) else .raised

/-- `vector-copy` (boot.cpp L398), `string-copy` (boot.cpp L367), `u8vector-copy` (boot.cpp L410; there
`begin <= end` is asserted). -/
def copy (σ : Store α) (a : Nat) (range : List Num) : Outcome (Nat × Store α) := do
  let xs ← elements σ a
  let (first, last) ← bounds xs.length range
  let ys ← between xs first last
  .value (allocate σ ys)

/-- `std::accumulate(first, last, unit, xcons)` (src/kernel/boot.cpp L365, L394). -/
def consAll (xs : List α) : List α := xs.foldl (fun list x => x :: list) []

/-- `vector->list` (boot.cpp L394), `string->list` (boot.cpp L365), with reverse iterators: `rend` is `n`
steps from `rbegin`, and `std::prev(rend, k)` is `n - k` steps from it. -/
def toList (σ : Store α) (a : Nat) (range : List Num) : Outcome (List α) := do
  let xs ← elements σ a
  let (start, stop) ← bounds xs.length range
  if start ≤ xs.length ∧ stop ≤ xs.length then
    let ys ← between xs.reverse (xs.length - stop) (xs.length - start)
    .value (consAll ys)
  else .undefined

/-- `u8vector->list` (boot.cpp L413): forward iterators, and `reverse`. -/
def u8vectorToList (σ : Store α) (a : Nat) (range : List Num) : Outcome (List α) := do
  let xs ← elements σ a
  let (first, last) ← bounds xs.length range
  let ys ← between xs first last
  .value (consAll ys).reverse

/-- `std::fill` (for `count` elements) (src/kernel/boot.cpp L369, L401). -/
def fillLoop (x : α) (xs : List α) (i : Nat) : Nat → List α
  | 0 => xs
  | count + 1 => fillLoop x (xs.set i x) (i + 1) count

/-- `vector-fill!` (boot.cpp L401), `string-fill!` (boot.cpp L369). Simplified: with more arguments than it
takes, `vector-fill!` does nothing and returns. -/
def fill (σ : Store α) (a : Nat) (x : α) (range : List Num) : Outcome (Store α) := do
  let xs ← elements σ a
  let (first, last) ← bounds xs.length range
  if first ≤ last ∧ last ≤ xs.length then .value (σ.set a (fillLoop x xs first (last - first)))
  else .undefined

/-- Copies elements one by one, in ascending order (src/kernel/boot.cpp L368, L399). -/
def copyLoop (σ : Store α) (target at' source i : Nat) : Nat → Option (Store α)
  | 0 => some σ
  | count + 1 =>
    match σ[source]?, σ[target]? with
    | some xs, some ys =>
      match xs[i]? with
      | some x => if at' < ys.length then copyLoop (σ.set target (ys.set at' x)) target (at' + 1) source (i + 1) count else none
      | none => none
    | _, _ => none

/-- `std::copy(first, last, d_first)`: undefined if `d_first` is in `[first, last)` ([alg.copy]), if an
iterator is out of range, or if elements are written behind the end. (`reserve`, which is called before,
makes room for elements but does not make elements.) (src/kernel/boot.cpp L368, L399) -/
def stdCopy (σ : Store α) (target at' source first last : Nat) : Outcome (Store α) :=
  match σ[source]?, σ[target]? with
  | some xs, some ys =>
    if first ≤ last ∧ last ≤ xs.length ∧ at' ≤ ys.length then
      if target = source ∧ first ≤ at' ∧ at' < last then .undefined
      else
        match copyLoop σ target at' source first (last - first) with
        | some σ => .value σ
        | none => .undefined
    else .undefined
  | _, _ => .raised

/-- `vector-copy!` (boot.cpp L399), `string-copy!` (boot.cpp L368). -/
def copyInto (σ : Store α) (target : Nat) (at' : Num) (source : Nat) (range : List Num) : Outcome (Store α) := do
  let xs ← elements σ source
  let at' ← sizeCast at'
  let (first, last) ← bounds xs.length range
  stdCopy σ target at' source first last

/-- `u8vector-copy!` (boot.cpp L411): the assignment of a slice of an `std::valarray` to another, in
ascending order (libstdc++, `__valarray_copy`). -/
def u8vectorCopyInto (σ : Store α) (target : Nat) (at' : Num) (source : Nat) (range : List Num) :
    Outcome (Store α) := do
  let xs ← elements σ source
  let at' ← sizeCast at'
  let (first, last) ← bounds xs.length range
  if first ≤ last then
    match copyLoop σ target at' source first (last - first) with
    | some σ => .value σ
    | none => .undefined
  else .undefined

/-- The loop of `vector-append` and `string-append` (src/kernel/boot.cpp L364, L400). -/
def insertAll (σ : Store α) : List Nat → List α → Outcome (List α)
  | [], xs => .value xs
  | a :: as, xs => do
    let ys ← elements σ a
    insertAll σ as (xs ++ ys)

/-- `vector-append` (boot.cpp L400), `string-append` (boot.cpp L364). -/
def append (σ : Store α) (as : List Nat) : Outcome (Nat × Store α) := do
  let xs ← insertAll σ as []
  .value (allocate σ xs)

/-- `u8vector-append` (boot.cpp L412): looks at two arguments; `cadr` of a list of one is undefined. -/
def u8vectorAppend (σ : Store α) : List Nat → Outcome (Nat × Store α)
  | a :: b :: _ => do
    let xs ← elements σ a
    let ys ← elements σ b
    .value (allocate σ (xs ++ ys))
  | _ => .undefined

/-- `u8vector::input_cast` (homogeneous_vector.hpp L57-L70). -/
def byteCast : Num → Outcome Nat
  | .small i => .value (i % 2 ^ 8).toNat
  | .large z => .value (z.natAbs % 2 ^ 8)
  | .ratio _ => .raised

/-- An object in a vector, as far as `vector->string` looks at it (src/kernel/boot.cpp L396). -/
inductive Element where
  | char (c : Nat)
  | other (id : Nat)
  deriving DecidableEq

/-- The loop of `vector->string`; `as<character>` throws for other objects (src/kernel/boot.cpp L396). -/
def characters : List Element → Outcome (List Nat)
  | [] => .value []
  | .char c :: xs => do .value (c :: (← characters xs))
  | .other _ :: _ => .raised

/-- `vector->string` (boot.cpp L396). -/
def vectorToString (vectors : Store Element) (strings : Store Nat) (a : Nat) (range : List Num) :
    Outcome (Nat × Store Nat) := do
  let xs ← elements vectors a
  let (first, last) ← bounds xs.length range
  let ys ← between xs first last
  .value (allocate strings (← characters ys))

/-- `string->vector` (boot.cpp L397): looks at one argument. -/
def stringToVector (vectors : Store Element) (strings : Store Nat) (a : Nat) (_ : List Num) :
    Outcome (Nat × Store Element) := do
  let xs ← elements strings a
  .value (allocate vectors (xs.map .char))

/-- `string->u8vector` (boot.cpp L421): looks at one argument. -/
def stringToUtf8 (bytes : Store Text.Byte) (strings : Store Nat) (a : Nat) (_ : List Num) :
    Outcome (Nat × Store Text.Byte) := do
  let xs ← elements strings a
  .value (allocate bytes (xs.flatMap Text.utf8))

/-- `u8vector->string` (boot.cpp L420): `get` of an input string port. `none`: the end-of-file object. -/
def utf8ToString (bytes : Store Text.Byte) (strings : Store Nat) (a : Nat) (range : List Num) :
    Outcome (Option Nat × Store Nat) := do
  let xs ← elements bytes a
  let (first, last) ← bounds xs.length range
  let ys ← between xs first last
  match Text.Port.readString { rest := ys } (2 ^ 64 - 1) with
  | some (some cs, _) => .value (some strings.length, strings ++ [cs])
  | some (none, _) => .value (none, strings)
  | none => .raised

/-! ### Comparison -/

/-- `std::ranges::adjacent_find(xs, p) == std::ranges::end(xs)` (boot.cpp L354-L363): no two neighbours
satisfy `p`. -/
def noAdjacent {β : Type} (p : β → β → Bool) : List β → Bool
  | [] => true
  | [_] => true
  | x :: y :: rest => !p x y && noAdjacent p (y :: rest)

/-- `std::lexicographical_compare` with a predicate (src/kernel/boot.cpp L353-L363). -/
def lexicographicalCompare (p : Nat → Nat → Bool) : List Nat → List Nat → Bool
  | [], [] => false
  | [], _ :: _ => true
  | _ :: _, [] => false
  | a :: as, b :: bs => if p a b then true else if p b a then false else lexicographicalCompare p as bs

/-- `operator ==` of `std::vector<character>` (string.cpp L48): sizes, then elements. -/
def vectorEq (as bs : List Nat) : Bool := as.length == bs.length && (as.zip bs).all fun p => p.1 == p.2

/-- `operator <=>` of `std::vector<character>` (string.cpp L50-L53): -1, 0 or 1. -/
def vectorCmp : List Nat → List Nat → Int
  | [], [] => 0
  | [], _ :: _ => -1
  | _ :: _, [] => 1
  | a :: as, b :: bs => if a < b then -1 else if b < a then 1 else vectorCmp as bs

/-- `string=?` (boot.cpp L354). -/
def stringEq (xs : List (List Nat)) : Bool := noAdjacent (fun a b => !vectorEq a b) xs
/-- `string<?` (boot.cpp L355). -/
def stringLt (xs : List (List Nat)) : Bool := noAdjacent (fun a b => !decide (vectorCmp a b < 0)) xs
/-- `string>?` (boot.cpp L356). -/
def stringGt (xs : List (List Nat)) : Bool := noAdjacent (fun a b => !decide (0 < vectorCmp a b)) xs
/-- `string<=?` (boot.cpp L357). -/
def stringLe (xs : List (List Nat)) : Bool := noAdjacent (fun a b => !decide (vectorCmp a b ≤ 0)) xs
/-- `string>=?` (boot.cpp L358). -/
def stringGe (xs : List (List Nat)) : Bool := noAdjacent (fun a b => !decide (0 ≤ vectorCmp a b)) xs

/-- `string-ci=?` and its relatives (boot.cpp L359-L363) with the comparison of two characters.
`downcase`: `character::downcase` (character.hpp L152-L161), a table. -/
def stringCi (downcase : Nat → Nat) (compare : Nat → Nat → Bool) (xs : List (List Nat)) : Bool :=
  noAdjacent (fun a b => !lexicographicalCompare (fun c d => compare (downcase c) (downcase d)) a b) xs

/-- `string-ci=?` (boot.cpp L359). -/
def stringCiEq (downcase : Nat → Nat) := stringCi downcase fun c d => c == d
/-- `string-ci<?` (boot.cpp L360). -/
def stringCiLt (downcase : Nat → Nat) := stringCi downcase fun c d => decide (c < d)
/-- `string-ci>?` (boot.cpp L361). -/
def stringCiGt (downcase : Nat → Nat) := stringCi downcase fun c d => decide (c > d)
/-- `string-ci<=?` (boot.cpp L362). -/
def stringCiLe (downcase : Nat → Nat) := stringCi downcase fun c d => decide (c ≤ d)
/-- `string-ci>=?` (boot.cpp L363). -/
def stringCiGe (downcase : Nat → Nat) := stringCi downcase fun c d => decide (c ≥ d)

/-- `char-ci=?` and its relatives (boot.cpp L96-L100). -/
def charCi (downcase : Nat → Nat) (compare : Nat → Nat → Bool) (xs : List Nat) : Bool :=
  noAdjacent (fun c d => !compare (downcase c) (downcase d)) xs

/-- `string-foldcase` (library/r7rs.ss L389-L390) and `char-foldcase` (L381). -/
def stringFoldcase (downcase : Nat → Nat) (xs : List Nat) : List Nat := xs.map downcase

end Meevax.Seq
