import Verif.Model.LibraryMacros

/-!
What `receive` (SRFI 8), `let-values` and `let*-values` (R7RS 4.2.2, SRFI 11) and `case-lambda` (R7RS 4.2.9,
SRFI 16) mean, in terms of what the bodies and expressions of the user mean.
-/

namespace Meevax.LibraryMacros.Spec

open Meevax.Rules

variable {m : Type → Type} [Monad m] {V : Type}

/-- Formals: `(x ...)`, `(x ... . y)` or `y`. -/
inductive Formals : Form → Prop
  | nil : Formals .nil
  | rest {x} : Formals (.id x)
  | cons {x d} : Formals d → Formals (.cons (.id x) d)

/-- The variables for single values. -/
def required : Form → List Nat
  | .cons (.id x) d => x :: required d
  | _ => []

/-- The variable for the other values. -/
def others : Form → Option Nat
  | .cons _ d => others d
  | .id x => some x
  | _ => none

/-- The formals take so many values. -/
def takes (formals : Form) (n : Nat) : Prop :=
  if (others formals).isSome then (required formals).length ≤ n else n = (required formals).length

instance (formals : Form) (n : Nat) : Decidable (takes formals n) := by unfold takes; infer_instance

/-- The values the variables are bound to; the variable for the other values is bound to a new list. -/
def assigned (H : Host m V) (formals : Form) (vs : List V) : m (List (Nat × V)) :=
  match others formals with
  | none => pure ((required formals).zip vs)
  | some y => do
    let l ← H.list (vs.drop (required formals).length)
    pure ((required formals).zip vs ++ [(y, l)])

/-- The formals matched to the values, and then what follows; or an error if there are too few or too many. -/
def receiving (H : Host m V) (formals : Form) (vs : List V) (k : List (Nat × V) → m V) : m V :=
  if takes formals vs.length then do
    let bs ← assigned H formals vs
    k bs
  else H.wrong (required formals).length (others formals).isSome vs

/-- The environment with new bindings. -/
def extend (H : Host m V) (ρ : Env V) (bs : List (Nat × V)) : m (Env V) :=
  bs.foldlM (fun ρ b => do
    let c ← H.enter b.1 b.2
    pure (fun y => if y = b.1 then c else ρ y)) ρ

/-- A body with new bindings. -/
def inScope (H : Host m V) (ρ : Env V) (bs : List (Nat × V)) (body : Env V → m V) : m V := do
  let ρ' ← extend H ρ bs
  body ρ'

/-- `(receive formals expression body ...)`. -/
def receive (H : Host m V) (formals e : Form) (body : List Form) (ρ : Env V) : m V := do
  let r ← H.body [e] ρ
  receiving H formals (H.vals r) fun bs => inScope H ρ bs (H.body body)

/-- `(let-values ((formals init) ...) body ...)`: each `init` is evaluated once, in the environment outside, one
after the other from the left; then the variables are bound, all at once, and the body is evaluated.
`bs` are the bindings of the formals before. -/
def letValues (H : Host m V) (ρ : Env V) (body : Env V → m V) : List (Form × Form) → List (Nat × V) → m V
  | [], bs => inScope H ρ bs body
  | (formals, init) :: rest, bs => do
    let r ← H.body [init] ρ
    receiving H formals (H.vals r) fun new => letValues H ρ body rest (bs ++ new)

/-- `(let*-values ((formals init) ...) body ...)`: each `init` is evaluated with the bindings before it. -/
def letStarValues (H : Host m V) (body : Env V → m V) : List (Form × Form) → Env V → m V
  | [], ρ => body ρ
  | (formals, init) :: rest, ρ => do
    let r ← H.body [init] ρ
    receiving H formals (H.vals r) fun new => inScope H ρ new (letStarValues H body rest)

/-- A call of `(case-lambda (formals body ...) ...)`: the first clause that takes so many arguments.  (The
arguments are also put into a list of their own first.) -/
def caseLambda (H : Host m V) (clauses : List (Form × List Form)) (ρ : Env V) (vs : List V) : m V := do
  let _ ← H.list vs
  match clauses.find? (fun c => takes c.1 vs.length) with
  | some c => receiving H c.1 vs fun bs => inScope H ρ bs (H.body c.2)
  | none => do
    let s ← H.body [strNoMatch] ρ
    H.prim .error [s]

/-- What a body means depends on the bindings of the identifiers of the user only; an inserted variable is
never assigned. -/
structure Lawful (H : Host m V) (made : Nat → Prop) : Prop where
  lexical : ∀ fs ρ ρ', (∀ x, ¬made x → ρ x = ρ' x) → H.body fs ρ = H.body fs ρ'
  enter : ∀ x v, made x → H.enter x v = pure v

/-- Arithmetic and lists: `num n` is the exact integer `n`, `bool b` a boolean. -/
structure Arithmetic (H : Host m V) (num : Nat → V) (bool : Bool → V) : Prop where
  length_list : ∀ {α} vs (k : V → V → m α), (do
    let l ← H.list vs
    let n ← H.prim .length [l]
    k l n) = (do
    let l ← H.list vs
    k l (num vs.length))
  items_list : ∀ {α} vs (k : V → List V → m α), (do
    let l ← H.list vs
    let ws ← H.items l
    k l ws) = (do
    let l ← H.list vs
    k l vs)
  length_const : ∀ fs, H.prim .length [H.const (.ofList fs)] = pure (num fs.length)
  numEq : ∀ a b, H.prim .numEq [num a, num b] = pure (bool (decide (a = b)))
  numGe : ∀ a b, H.prim .numGe [num a, num b] = pure (bool (decide (b ≤ a)))
  truth : ∀ b, H.truth (bool b) = b

/-- The symbols of the libraries are not made by renaming. -/
def Symbols (Γ : Ctx) : Prop := ∀ x, Γ.made x → 50 ≤ x

/-- There are always new identifiers. -/
def Supply (Γ : Ctx) : Prop := ∀ form, ∃ U : Use, Fresh Γ U form

end Meevax.LibraryMacros.Spec
