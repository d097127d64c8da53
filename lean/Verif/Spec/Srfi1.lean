/-!
# What the procedures of SRFI 1 are required to do

SRFI 1 describes the procedures by what they compute from the elements of their list arguments: with
several lists the `i`-th call gets the `i`-th elements, and the shortest list determines how many calls
there are.
-/

namespace Meevax.Srfi1.Spec

variable {V : Type}

/-- The length of the shortest list. -/
def shortest : List (List V) → Nat
  | [] => 0
  | [xs] => xs.length
  | xs :: xss => min xs.length (shortest xss)

/-- The arguments of the successive calls: the `i`-th elements of all lists, for `i` below the length of
the shortest one. -/
def columns (xss : List (List V)) : List (List V) :=
  (List.range (shortest xss)).map fun i => xss.filterMap fun xs => xs[i]?

/-- The arguments of the successive calls of the procedures that work on pairs: the lists without their
first `i` elements. -/
def suffixes (xss : List (List V)) : List (List (List V)) :=
  (List.range (shortest xss)).map fun i => xss.map fun xs => xs.drop i

/-- The seed after `n` steps. -/
def after {α : Type} (g : α → α) : Nat → α → α
  | 0, seed => seed
  | n + 1, seed => after g n (g seed)

/-- What `x=?` has to be: an equivalence. -/
structure Equivalence (eqv : V → V → Bool) : Prop where
  refl : ∀ x, eqv x x = true
  symm : ∀ x y, eqv x y = true → eqv y x = true
  trans : ∀ x y z, eqv x y = true → eqv y z = true → eqv x z = true

/-- `x` is an element of the set that the list represents. -/
def Mem (eqv : V → V → Bool) (x : V) (xs : List V) : Prop := ∃ y ∈ xs, eqv x y = true

/-- Two lists have equal elements at the same places. -/
def SameElements (eqv : V → V → Bool) (xs ys : List V) : Prop :=
  xs.length = ys.length ∧ ∀ (i : Nat) (x y : V), xs[i]? = some x → ys[i]? = some y → eqv x y = true

/-- One set is contained in the other. -/
def Subset (eqv : V → V → Bool) (xs ys : List V) : Prop := ∀ x, Mem eqv x xs → Mem eqv x ys

/-- A relation holds between every list and the next one. -/
def Chain (R : List V → List V → Prop) (xss : List (List V)) : Prop :=
  ∀ (i : Nat) (xs ys : List V), xss[i]? = some xs → xss[i + 1]? = some ys → R xs ys

/-- The number of lists that represent a set with the element `x`. -/
noncomputable def occurrences (eqv : V → V → Bool) (x : V) (xss : List (List V)) : Nat :=
  haveI : DecidablePred (Mem eqv x) := fun _ => Classical.propDecidable _
  xss.countP fun xs => decide (Mem eqv x xs)

end Meevax.Srfi1.Spec
