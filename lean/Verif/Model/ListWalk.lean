import Verif.Model.Lists

/-!
# Procedures that walk along several lists at once

Model of `map` (library/meevax.ss L127-L142), `for-each` (library/r4rs.ss L294-L302), and of `fold`, `any`, `every` and
`list-index` of library/srfi-1.ss, on lists in memory, which can be circular or dotted (Model/Srfi1 has them, and more
procedures, on proper lists).

* A procedure supplied by the user can do anything to the memory and to a state, raise an error, or not return.
* Lists that the procedures themselves build (of operands, of results) are Lean lists.
* Operands are evaluated from right to left (src/kernel/generator.cpp L56-L72).
-/

namespace Meevax.ListWalk
open Meevax.Lists

/-- A computation on the memory and the rest of the state, which can raise an error
(src/kernel/dynamic_environment.cpp L76-L120); `none`: it does not end, or the behaviour is undefined. -/
abbrev M (ε σ : Type) := ExceptT ε (StateT (Heap × σ) Option)

variable {ε σ : Type}

/-- Undefined behaviour (include/meevax/kernel/object.hpp L114-L120). -/
def undefined {α : Type} : M ε σ α := fun _ => none

/-- A value that depends on the memory (src/kernel/list.cpp L47-L100). -/
def look {α : Type} (f : Heap → Option α) : M ε σ α := fun w => (f w.1).map fun x => (.ok x, w)

/-- `(car x)` (src/kernel/boot.cpp L275). -/
def carM (x : Obj) : M ε σ Obj := look fun h => Lists.car h x

/-- `(cdr x)` (src/kernel/boot.cpp L276). -/
def cdrM (x : Obj) : M ε σ Obj := look fun h => Lists.cdr h x

/-- `null-list?` (src/kernel/boot.cpp L146); `e` is the error for a dotted list. -/
def nullList (e : ε) (x : Obj) : M ε σ Bool := do
  if ← look fun h => isProperList h x then pure (isNull x)
  else if ← look fun h => isCircularList h x then pure (isNull x)
  else throw e

/-- The test made by `if` (src/kernel/dynamic_environment.cpp L166-L190): only `#f` is false. -/
def isFalse (x : Obj) : Bool := x == Obj.f

/-- `%cars+cdrs` (library/srfi-1.ss L856-L870); `none` stands for the escape through `abort`. -/
def carsCdrs (e : ε) : List Obj → M ε σ (Option (List Obj × List Obj))
  | [] => pure (some ([], []))
  | x :: xs => do
    if ← nullList e x then pure none
    else
      let a ← carM x
      let d ← cdrM x
      match ← carsCdrs e xs with
      | none => pure none
      | some (cars, cdrs) => pure (some (a :: cars, d :: cdrs))

/-- `(map f xs '())` inside of `map` (library/meevax.ss L128-L133) with `car` or `cdr`, or the loop of `map` with
one list. The result is accumulated in reverse. -/
def mapLoop (f : Obj → M ε σ Obj) (x : Obj) (a : List Obj) : M ε σ (List Obj) := do
  if isNull x then pure a.reverse
  else
    let v ← f (← carM x)
    mapLoop f (← cdrM x) (v :: a)
partial_fixpoint

/-- `map*` (library/meevax.ss L134-L139). The list of the lists is one of Lean; `(map car xs '())` and
`(map cdr xs '())` go through it from the left. -/
def mapLoops (f : List Obj → M ε σ Obj) (xs : List Obj) (a : List Obj) : M ε σ (List Obj) := do
  if xs.any isNull then pure a.reverse
  else
    let cars ← xs.mapM carM
    let v ← f cars
    let cdrs ← xs.mapM cdrM
    mapLoops f cdrs (v :: a)
partial_fixpoint

/-- `map` (library/meevax.ss L127-L142). -/
def map (f : List Obj → M ε σ Obj) (x : Obj) (xs : List Obj) : M ε σ (List Obj) :=
  if xs.isEmpty then mapLoop (fun v => f [v]) x [] else mapLoops f (x :: xs) []

/-- The loop of `for-each` with one list (library/r4rs.ss L296-L300). -/
def forEachLoop (f : Obj → M ε σ Obj) (x : Obj) : M ε σ Unit := do
  if isPair x then
    let _ ← f (← carM x)
    forEachLoop f (← cdrM x)
  else pure ()
partial_fixpoint

/-- `for-each` (library/r4rs.ss L294-L302). -/
def forEach (f : List Obj → M ε σ Obj) (x : Obj) (xs : List Obj) : M ε σ Unit :=
  if xs.isEmpty then forEachLoop (fun v => f [v]) x
  else do
    let _ ← map f x xs
    pure ()

/-- The loop of `fold` with one list (library/srfi-1.ss L230-L235). -/
def foldLoop (e : ε) (f : List Obj → M ε σ Obj) (x ans : Obj) : M ε σ Obj := do
  if ← nullList e x then pure ans
  else
    let ans ← f [← carM x, ans]
    foldLoop e f (← cdrM x) ans
partial_fixpoint

/-- The loop of `fold` with several lists (library/srfi-1.ss L224-L229, with `%cars+cdrs+`, L872-L886). -/
def foldLoops (e : ε) (f : List Obj → M ε σ Obj) (xs : List Obj) (ans : Obj) : M ε σ Obj := do
  match ← carsCdrs e xs with
  | none => pure ans
  | some (cars, cdrs) =>
    let ans ← f (cars ++ [ans])
    foldLoops e f cdrs ans
partial_fixpoint

/-- `fold` (library/srfi-1.ss L222-L235). -/
def fold (e : ε) (f : List Obj → M ε σ Obj) (z x : Obj) (xs : List Obj) : M ε σ Obj :=
  if xs.isEmpty then foldLoop e f x z else foldLoops e f (x :: xs) z

/-- The loop of `any` with one list (library/srfi-1.ss L511-L517). -/
def anyLoop (e : ε) (f : Obj → M ε σ Obj) (head tail : Obj) : M ε σ Obj := do
  if ← nullList e tail then f head
  else
    let v ← f head
    if isFalse v then
      let d ← cdrM tail
      let a ← carM tail
      anyLoop e f a d
    else pure v
partial_fixpoint

/-- The loop of `any` with several lists (library/srfi-1.ss L502-L509). -/
def anyLoops (e : ε) (f : List Obj → M ε σ Obj) (cars cdrs : List Obj) : M ε σ Obj := do
  match ← carsCdrs e cdrs with
  | none => f cars
  | some (cars', cdrs') =>
    let v ← f cars
    if isFalse v then anyLoops e f cars' cdrs' else pure v
partial_fixpoint

/-- `any` (library/srfi-1.ss L498-L517). -/
def any (e : ε) (f : List Obj → M ε σ Obj) (x : Obj) (xs : List Obj) : M ε σ Obj :=
  if xs.isEmpty then do
    if ← nullList e x then pure .f
    else
      let d ← cdrM x
      let a ← carM x
      anyLoop e (fun v => f [v]) a d
  else do
    match ← carsCdrs e (x :: xs) with
    | none => pure .f
    | some (cars, cdrs) => anyLoops e f cars cdrs

/-- The loop of `every` with one list (library/srfi-1.ss L531-L537). -/
def everyLoop (e : ε) (f : Obj → M ε σ Obj) (head tail : Obj) : M ε σ Obj := do
  if ← nullList e tail then f head
  else
    let v ← f head
    if isFalse v then pure v
    else
      let d ← cdrM tail
      let a ← carM tail
      everyLoop e f a d
partial_fixpoint

/-- The loop of `every` with several lists (library/srfi-1.ss L523-L529). -/
def everyLoops (e : ε) (f : List Obj → M ε σ Obj) (cars cdrs : List Obj) : M ε σ Obj := do
  match ← carsCdrs e cdrs with
  | none => f cars
  | some (cars', cdrs') =>
    let v ← f cars
    if isFalse v then pure v else everyLoops e f cars' cdrs'
partial_fixpoint

/-- `every` (library/srfi-1.ss L519-L537); `yes` is `#t`. -/
def every (e : ε) (yes : Obj) (f : List Obj → M ε σ Obj) (x : Obj) (xs : List Obj) : M ε σ Obj :=
  if xs.isEmpty then do
    if ← nullList e x then pure yes
    else
      let d ← cdrM x
      let a ← carM x
      everyLoop e (fun v => f [v]) a d
  else do
    match ← carsCdrs e (x :: xs) with
    | none => pure yes
    | some (cars, cdrs) => everyLoops e f cars cdrs

/-- The loop of `list-index` with one list (library/srfi-1.ss L548-L554); `none` is `#f`. -/
def indexLoop (e : ε) (f : Obj → M ε σ Obj) (x : Obj) (n : Nat) : M ε σ (Option Nat) := do
  if ← nullList e x then pure none
  else
    let v ← f (← carM x)
    if isFalse v then indexLoop e f (← cdrM x) (n + 1) else pure (some n)
partial_fixpoint

/-- The loop of `list-index` with several lists (library/srfi-1.ss L541-L547). -/
def indexLoops (e : ε) (f : List Obj → M ε σ Obj) (xs : List Obj) (n : Nat) : M ε σ (Option Nat) := do
  match ← carsCdrs e xs with
  | none => pure none
  | some (cars, cdrs) =>
    let v ← f cars
    if isFalse v then indexLoops e f cdrs (n + 1) else pure (some n)
partial_fixpoint

/-- `list-index` (library/srfi-1.ss L539-L554). -/
def listIndex (e : ε) (f : List Obj → M ε σ Obj) (x : Obj) (xs : List Obj) : M ε σ (Option Nat) :=
  if xs.isEmpty then indexLoop e (fun v => f [v]) x 0 else indexLoops e f (x :: xs) 0

end Meevax.ListWalk
