import Verif.Model.Promise

/-
What R7RS (4.2.5) and SRFI 45 say about promises, for the machine of Model/Promise.
-/

namespace Meevax.Promise

variable {C W S : Type}

/-- Runs that only leave states with the property `q`. -/
inductive RunThrough (pr : Program C W S) (q : Config C W S → Prop) : Config C W S → Config C W S → Prop
  | refl (s) : RunThrough pr q s s
  | step {s t u} : RunThrough pr q s t → q t → step pr t = some u → RunThrough pr q s u

/-- Runs. -/
abbrev Run (pr : Program C W S) : Config C W S → Config C W S → Prop := RunThrough pr fun _ => True

/-- `n` steps. -/
def steps (pr : Program C W S) : Nat → Config C W S → Option (Config C W S)
  | 0, s => some s
  | n + 1, s => (step pr s).bind (steps pr n)

/-- How often the expression of promise `o` was started. -/
def evaluations (s : Config C W S) (o : Nat) : Nat := (s.log.filter fun e => e.2 == o).length

/-- The expression of promise `o` was only started by forcing `o` itself. -/
def OnlyForcedDirectly (s : Config C W S) (o : Nat) : Prop := ∀ e ∈ s.log, e.2 = o → e.1 = o

/-- Promise `o` is not forced while it is being forced. -/
def NotReentered (o : Nat) (s : Config C W S) : Prop :=
  s.mode = .force o → isDone s o = false → ∀ f ∈ s.stack, f ≠ .forced o

end Meevax.Promise
