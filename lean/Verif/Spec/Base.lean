import Verif.Spec.Srfi1

/-!
What R7RS requires of `string-map`, `vector-map`, `boolean=?` and `symbol=?`.
-/

namespace Meevax.Base.Spec

variable {α β : Type}

/-- The contents of the objects at some addresses; there are none when one of them is no such object. -/
def contents (store : List (List α)) : List Nat → Option (List (List α))
  | [] => some []
  | a :: as =>
    match store[a]?, contents store as with
    | some xs, some xss => some (xs :: xss)
    | _, _ => none

/-- `ys` is what `g` gives for the elements at each position, up to the end of the shortest sequence. -/
structure Mapped (g : List α → β) (xss : List (List α)) (ys : List β) : Prop where
  length : ∀ i : Nat, (∃ y, ys[i]? = some y) ↔ ∀ xs ∈ xss, ∃ x, xs[i]? = some x
  element : ∀ (i : Nat) (y : β), ys[i]? = some y → ∃ args : List α, args.length = xss.length ∧
    (∀ (j : Nat) (xs : List α) (x : α), xss[j]? = some xs → args[j]? = some x → xs[i]? = some x) ∧ y = g args

/-- What `boolean=?` and `symbol=?` have to answer: all arguments have the type, and all are the same. -/
def AllSame (hasType : α → Prop) (xs : List α) : Prop :=
  (∀ x ∈ xs, hasType x) ∧ ∀ x ∈ xs, ∀ y ∈ xs, x = y

end Meevax.Base.Spec
