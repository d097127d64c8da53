import Verif.Model.DefineValues
import Verif.Spec.Lexical

/-!
What `define-values` is to do (R7RS 5.3.3): evaluate the expression once, and bind the variables to its values.
-/

namespace Meevax.DefineValues.Spec

open Meevax.Secd Meevax.DefineValues
open Meevax.LibraryMacros (idsOf)

/-- The expression returned these values: one value that is not marked as several, or an object made by `values`,
whose mark is followed by the list of the values; `ls` are the locations of the pairs of that list. -/
inductive Returned (tag : Nat) (h : Cells) : Value → List Value → List Nat → Prop
  | one {v} : (∀ l, v = .pair l → (h.cell l).1 ≠ .pair tag) → Returned tag h v [v] []
  | several {l vs ls} : (h.cell l).1 = .pair tag → IsList h (h.cell l).2 vs ls → Returned tag h (.pair l) vs ls

/-- The values of the variables: `xs` have the values `vs`, and no other variable of the user has changed. -/
def Bound (made : Nat → Prop) (xs : List Nat) (vs : List Value) (before after : Nat → Value) : Prop :=
  xs.map after = vs ∧ ∀ y, ¬made y → y ∉ xs → after y = before y

/-- No pair of the store has changed, except perhaps the cdr of those in `ls`. -/
def Kept (ls : List Nat) (before after : Cells) : Prop :=
  before.next ≤ after.next ∧ ∀ l, l < before.next →
    (after.cell l).1 = (before.cell l).1 ∧ (l ∉ ls → (after.cell l).2 = (before.cell l).2)

/-- An expression that is a variable has the value of the variable, and a boolean is itself. -/
structure Lawful (H : Host) : Prop where
  reference : ∀ x σ, H (.id x) σ = some (σ.vars x, σ)
  boolean : ∀ b σ, H (.bool b) σ = some (.datum (.bool b), σ)

/-- The user wrote the form: nothing in it was made by renaming. -/
def User (Γ : Ctx) (f : Meevax.DefineValues.Form) : Prop := ∀ x ∈ idsOf f, ¬Γ.made x

/-- There are always new identifiers. -/
def Supply (Γ : Ctx) : Prop := ∀ form, ∃ U : Meevax.Rules.Use, Fresh Γ U form

end Meevax.DefineValues.Spec
