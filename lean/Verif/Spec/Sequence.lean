import Verif.Model.Number

/-
What R7RS says about vectors, strings and bytevectors (6.7, 6.8, 6.9), element by element.
-/

namespace Meevax.Seq
open Meevax.Number

variable {α : Type}

/-- The number `k`, in either of the representations of exact integers, below 2^64. -/
def IsIndex (k : Nat) (x : Num) : Prop := k < 2 ^ 64 ∧ (x = .small k ∨ x = .large k)

/-- The optional arguments `start` and `end` designate the elements from `i` to `j` (exclusive) of `n`
elements. -/
inductive Designates (n : Nat) : List Num → Nat → Nat → Prop
  | all : Designates n [] 0 n
  | from {x i} : IsIndex i x → i ≤ n → Designates n [x] i n
  | range {x y i j} : IsIndex i x → IsIndex j y → i ≤ j → j ≤ n → Designates n [x, y] i j

/-- `ys` are the elements of `xs` from `i` to `j`. -/
def IsRange (xs : List α) (i j : Nat) (ys : List α) : Prop :=
  ys.length = j - i ∧ ∀ k, k < j - i → ys[k]? = xs[i + k]?

/-- `ys` is `xs` with the elements from position `i` replaced by those of `new`. -/
def Replaced (xs : List α) (i : Nat) (new : List α) (ys : List α) : Prop :=
  ys.length = xs.length ∧ ∀ k, ys[k]? = if i ≤ k ∧ k < i + new.length then new[k - i]? else xs[k]?

/-- Nothing but the object `a` has changed. -/
def OnlyAt (a : Nat) (σ τ : List (List α)) : Prop := τ.length = σ.length ∧ ∀ b : Nat, b ≠ a → τ[b]? = σ[b]?

/-- `a` is a new object with the elements `xs`; nothing has changed. -/
def New (σ : List (List α)) (xs : List α) (a : Nat) (τ : List (List α)) : Prop :=
  σ[a]? = none ∧ τ[a]? = some xs ∧ ∀ (b : Nat) (ys : List α), σ[b]? = some ys → τ[b]? = some ys

/-- Lexicographic order by code point. -/
inductive Before : List Nat → List Nat → Prop
  | shorter (common b bs) : Before common (common ++ b :: bs)
  | smaller (common as bs) {a b} : a < b → Before (common ++ a :: as) (common ++ b :: bs)

end Meevax.Seq
