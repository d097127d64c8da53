import Verif.Model.Srfi1
import Verif.Model.Sequence
import Verif.Model.LinearUpdate
import Verif.Model.Equal

/-!
Model of procedures that library/r7rs.ss defines for (scheme base): `string-map`, `vector-map`,
`string-for-each`, `vector-for-each` (L202-L220), `list-set!` (L175-L176), `boolean=?` (L173) and
`symbol=?` (L178).

The procedures of the user may do anything: they run in the monad `StateT (Store α) n`, where the store
holds the strings or vectors, which they may read, assign and add to, and `n` is any monad (further state,
output, errors, escapes).

Simplified: the lists that `string->list` and `map` make are not visible to the procedure of the user, so
they are Lean lists.
-/

namespace Meevax.Base
open Meevax.Number Meevax.Seq

/-- A monad with the ways a call of a builtin procedure fails: an exception is thrown, which is raised in
the program (C86), or the behaviour is undefined. What would come after does not happen
(src/kernel/dynamic_environment.cpp L460-L493). -/
class Failing (n : Type → Type) [Monad n] where
  raised : ∀ {γ : Type}, n γ
  undefined : ∀ {γ : Type}, n γ
  raised_bind : ∀ {γ δ : Type} (k : γ → n δ), raised >>= k = raised
  undefined_bind : ∀ {γ δ : Type} (k : γ → n δ), undefined >>= k = undefined

variable {n : Type → Type} [Monad n] [Failing n] {α : Type}

/-- The result of a builtin procedure as the result of the call (src/kernel/dynamic_environment.cpp
L460-L493). -/
def outcome {S γ : Type} : Outcome γ → StateT S n γ
  | .value x => pure x
  | .raised => fun _ => Failing.raised
  | .undefined => fun _ => Failing.undefined

/-- `(string->list x)`, `(vector->list x)` (src/kernel/boot.cpp L365, L394), called from library/r7rs.ss
L202-L220. -/
def listOf (a : Nat) : StateT (Store α) n (List α) := do
  outcome (toList (← get) a [])

/-- `(list->vector xs)` (src/kernel/boot.cpp L395). -/
def listToVector (xs : List α) : StateT (Store α) n Nat := do
  let (a, σ) := ofList (← get) xs
  set σ
  pure a

/-- `(list->string xs)` (src/kernel/boot.cpp L366, string.hpp): `as<character>` throws for other
objects. -/
def listToString (xs : List Element) : StateT (Store Nat) n Nat := do
  let cs ← outcome (characters xs)
  listToVector cs

/-- `(map string->list (cons x xs))`, `(map vector->list (cons x xs))` (library/r7rs.ss L205, L210, L215,
L220). -/
def listsOf (x : Nat) (xs : List Nat) : StateT (Store α) n (List (List α)) :=
  Srfi1.map (fun arguments => listOf (arguments.headD 0)) (x :: xs) []

/-- `(apply map f lists)` (library/r7rs.ss L205, L210; src/kernel/boot.cpp): the lists are the arguments.
`map` without lists does not occur. -/
def applyMap {S β : Type} (f : List α → StateT S n β) : List (List α) → StateT S n (List β)
  | x :: xs => Srfi1.map f x xs
  | [] => outcome .undefined

/-- `(apply for-each f lists)` (library/r7rs.ss L215, L220), as above. -/
def applyForEach {S β : Type} (f : List α → StateT S n β) : List (List α) → StateT S n Unit
  | x :: xs => Srfi1.forEach f x xs
  | [] => outcome .undefined

/-- `string-map` (library/r7rs.ss L202-L205). -/
def stringMap (f : List Nat → StateT (Store Nat) n Element) (x : Nat) (xs : List Nat) :
    StateT (Store Nat) n Nat :=
  if xs = [] then do
    let list ← listOf x
    let ys ← Srfi1.map f list []
    listToString ys
  else do
    let lists ← listsOf x xs
    let ys ← applyMap f lists
    listToString ys

/-- `vector-map` (library/r7rs.ss L207-L210). -/
def vectorMap (f : List α → StateT (Store α) n α) (x : Nat) (xs : List Nat) : StateT (Store α) n Nat :=
  if xs = [] then do
    let list ← listOf x
    let ys ← Srfi1.map f list []
    listToVector ys
  else do
    let lists ← listsOf x xs
    let ys ← applyMap f lists
    listToVector ys

/-- `string-for-each` (library/r7rs.ss L212-L215), `vector-for-each` (L217-L220): they differ in
`string->list` and `vector->list`. -/
def sequenceForEach {β : Type} (f : List α → StateT (Store α) n β) (x : Nat) (xs : List Nat) :
    StateT (Store α) n Unit :=
  if xs = [] then do
    let list ← listOf x
    Srfi1.forEach f list []
  else do
    let lists ← listsOf x xs
    applyForEach f lists

/-- `list-set!` (library/r7rs.ss L175-L176), on the heap of pairs of Model/Lists.lean. -/
def listSet (h : Lists.Heap) (xs : Lists.Obj) (k : Nat) (x : Lists.Obj) : Option Lists.Heap := do
  let t ← Lists.drop h xs k
  Linear.setCarOf h t x

/-- The builtin procedure `eqv?` on its list of arguments (src/kernel/boot.cpp L116); `car` of `()` is
undefined (object.hpp L114-L117). `boolean=?` (library/r7rs.ss L173) and `symbol=?` (L178) are this procedure. -/
def eqvBuiltin (numEq : Equal.Val → Equal.Val → Bool) (h : Equal.Heap) : List Equal.Val → Option Bool
  | x :: y :: _ => Equal.eqv numEq h x y
  | _ => none

end Meevax.Base
