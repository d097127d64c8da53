import Verif.Model.Srfi1

/-!
# Elements of lists that may be circular

`s` says which addresses are pairs, and gives their `car` and `cdr`.
-/

namespace Meevax.Srfi1.Circular.Spec

variable {A V : Type}

/-- The address after `i` times `cdr`. -/
def tail (s : A → Option (V × A)) : Nat → A → Option A
  | 0, a => some a
  | i + 1, a => match s a with
    | none => none
    | some (_, d) => tail s i d

/-- The element at position `i`, if there is one. -/
def element (s : A → Option (V × A)) (i : Nat) (a : A) : Option V :=
  match tail s i a with
  | none => none
  | some d => (s d).map Prod.fst

/-- A list without end: after some times `cdr` one is where one was before. -/
def IsCircular (s : A → Option (V × A)) (a : A) : Prop :=
  ∃ j k d, 0 < k ∧ tail s j a = some d ∧ tail s k d = some d

/-- A list with an end. -/
def IsProper (s : A → Option (V × A)) (a : A) : Prop := ∃ i, element s i a = none

/-- The shortest of the lists has `n` elements. -/
def Shortest (s : A → Option (V × A)) (as : List A) (n : Nat) : Prop :=
  (∀ i < n, ∀ a ∈ as, element s i a ≠ none) ∧ ∃ a ∈ as, element s n a = none

/-- The arguments of the first `n` calls. -/
def columns (s : A → Option (V × A)) (as : List A) (n : Nat) : List (List V) :=
  (List.range n).map fun i => as.filterMap (element s i)

/-- The arguments of the first `n` calls of the procedures that work on pairs. -/
def tailsAt (s : A → Option (V × A)) (as : List A) (n : Nat) : List (List A) :=
  (List.range n).map fun i => as.filterMap (tail s i)

/-- The first `n` elements. -/
def front (s : A → Option (V × A)) (n : Nat) (a : A) : List V := (List.range n).filterMap fun i => element s i a

/-- There are elements up to position `n`, and the one at `n`, which is `v`, is the first that `p` holds of. -/
def First (s : A → Option (V × A)) (p : V → Bool) (a : A) (n : Nat) (v : V) : Prop :=
  element s n a = some v ∧ p v = true ∧ ∀ i < n, ∃ w, element s i a = some w ∧ p w = false

/-- A predicate that does something and returns a value that depends on its argument only. -/
def Answers {m : Type → Type} [Monad m] {B : Type} (satisfy : V → m B) (note : V → m Unit) (q : V → B) : Prop :=
  ∀ v, satisfy v = (do note v; pure (q v))

/-- The position of the first result other than `#f`. -/
def firstIndex {m : Type → Type} [Monad m] {α B : Type} [Objects B] (satisfy : α → m B) :
    List α → Nat → m (Option Nat)
  | [], _ => pure none
  | x :: xs, i => do
    let b ← satisfy x
    if isFalse b then firstIndex satisfy xs (i + 1) else pure (some i)

end Meevax.Srfi1.Circular.Spec
