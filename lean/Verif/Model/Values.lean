/-!
# Multiple values

Model of `values`, `call-with-values` (/repo/library/r5rs.ss L84-L99) and of the procedures that
`call-with-current-continuation!` makes (/repo/library/srfi-1.ss L859-L864 calls one with two arguments),
as far as the number of values is concerned.

* An object is a tree: the tag `<values>` (a pair that only this library holds), a pair, the empty list or
  anything else.  Identity and mutation of pairs are not modelled.
* The producer and the consumer are computations of an arbitrary monad, so whatever else they do is
  covered.
-/

namespace Meevax.Values

/-- Objects, as far as `values` looks at them (library/r5rs.ss L84-L99). -/
inductive Obj
  /-- the object `<values>`, /repo/library/r5rs.ss L84 -/
  | tag
  | nil
  | pair (a d : Obj)
  /-- any object that is not a pair -/
  | other (n : Nat)
deriving DecidableEq, Repr

/-- The list of the arguments of a procedure with a rest parameter (library/r5rs.ss L86-L90). -/
def list : List Obj → Obj
  | [] => .nil
  | x :: xs => .pair x (list xs)

/-- The arguments that `(apply f x)` passes: the elements of the list `x`.  The procedure call
`(f . x)` (/repo/library/meevax.ss L111) makes the list itself the argument list. -/
def elements : Obj → List Obj
  | .pair a d => a :: elements d
  | _ => []

/-- `values`, /repo/library/r5rs.ss L86-L90. -/
def values : List Obj → Obj
  | [x] => x
  | xs => .pair .tag (list xs)

/-- `values?`, /repo/library/r5rs.ss L93-L95. -/
def isValues : Obj → Bool
  | .pair .tag _ => true
  | _ => false

/-- `(cdr vs)`, of a pair (library/r5rs.ss L98). -/
def cdr : Obj → Obj
  | .pair _ d => d
  | x => x

section
variable {m : Type → Type} [Monad m] {β : Type}

/-- `call-with-values`, /repo/library/r5rs.ss L92-L99. -/
def callWithValues (produce : m Obj) (consume : List Obj → m β) : m β := do
  let vs ← produce
  if isValues vs then consume (elements (cdr vs)) else consume [vs]

end

/-- Computations with a continuation: what a program does with the rest of the computation made
explicit.  The result of the whole program is `R` (auxiliary to library/r5rs.ss L92-L99). -/
def Cont (R α : Type) : Type := (α → R) → R

/-- Sequencing (auxiliary to library/r5rs.ss L92-L99). -/
instance {R : Type} : Monad (Cont R) where
  pure x := fun k => k x
  bind c f := fun k => c fun x => f x k

/-- `call-with-current-continuation!`: its argument is called with the continuation as a procedure.  When
that procedure is called, the continuation receives the first argument,
/repo/src/kernel/dynamic_environment.cpp L229-L244 (`caadr(s)`); the others are dropped.  The procedure
made by `call-with-current-continuation`, /repo/library/meevax.ss L87-L89, takes one argument and ignores
others (property C40), so it is the same in this respect.  `undefined` is the result of the program when
there is no argument at all. -/
def callCC {R : Type} (undefined : R) (f : (List Obj → Cont R Obj) → Cont R Obj) : Cont R Obj := fun k =>
  f (fun arguments _ =>
      match arguments with
      | x :: _ => k x
      | [] => undefined) k

/-- The variables `id-1 ...` of `define-values`, /repo/library/r7rs.ss L138-L141 and L147-L151: each takes
the second element of the list in `id-0` and removes it.  The list is given, and the variables are bound
in order; `none` is the error of `cadr`. -/
def takeSeconds : Nat → List Obj → Option (List Obj × List Obj)
  | 0, l => some ([], l)
  | n + 1, a :: b :: l =>
    match takeSeconds n (a :: l) with
    | none => none
    | some (xs, l) => some (b :: xs, l)
  | _ + 1, _ => none

/-- `(define-values (id-0 id-1 ... id-n) expression)`, /repo/library/r7rs.ss L135-L145, with `n` variables
`id-1 ...`: the values of `id-0`, the `id-1 ...` and `id-n`. -/
def defineValues (n : Nat) (l : List Obj) : Option (List Obj) :=
  match takeSeconds n l with
  | none => none
  | some (xs, l) =>
    match l with
    | a :: b :: _ => some (a :: xs ++ [b])
    | _ => none

/-- `(define-values (id-0 id-1 ... . id-n) expression)`, /repo/library/r7rs.ss L146-L156: the values of
`id-0` and the `id-1 ...`, and the list in `id-n`. -/
def defineValuesRest (n : Nat) (l : List Obj) : Option (List Obj × List Obj) :=
  match takeSeconds n l with
  | none => none
  | some (xs, l) =>
    match l with
    | a :: rest => some (a :: xs, rest)
    | _ => none

end Meevax.Values
