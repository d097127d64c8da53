import Verif.Model.ListWalk
import Verif.Spec.Lists

/-! What procedures that walk along several lists are to do. -/

namespace Meevax.ListWalk
open Meevax.Lists

/-- `xs` are pairs, `row` are their cars and `ys` their cdrs. -/
def Step (h : Heap) (xs row ys : List Obj) : Prop :=
  ∃ as : List Nat, xs = as.map .pair ∧ (∀ a ∈ as, a < h.next) ∧ row = as.map h.car ∧ ys = as.map h.cdr

/-- Walking along the lists `xs` side by side, one meets `rows`, each with one element of every list, and arrives
at `zs`. -/
inductive Rows (h : Heap) : List Obj → List (List Obj) → List Obj → Prop where
  | nil (xs : List Obj) : Rows h xs [] xs
  | cons {xs row ys zs : List Obj} {rows : List (List Obj)} (s : Step h xs row ys) (r : Rows h ys rows zs) :
      Rows h xs (row :: rows) zs

/-- A list that is not dotted: "clist" in SRFI 1. -/
def Clist (h : Heap) (x : Obj) : Prop := Proper h x ∨ Circular h x

/-- There are no references to pairs that do not exist. -/
structure Sound (h : Heap) (xs : List Obj) : Prop where
  objects : ∀ a, .pair a ∈ xs → a < h.next
  cdr : ∀ a b, a < h.next → h.cdr a = .pair b → b < h.next

variable {ε σ : Type}

/-- The procedure of the user changes no pair that existed before, and makes no reference to a pair that does not
exist. It may allocate, change the rest of the state, raise an error, or not return. -/
def Harmless (f : List Obj → M ε σ Obj) : Prop :=
  ∀ args w r w', f args w = some (r, w') → Extends w.1 w'.1 ∧
    ((∀ a b, a < w.1.next → w.1.cdr a = .pair b → b < w.1.next) →
      ∀ a b, a < w'.1.next → w'.1.cdr a = .pair b → b < w'.1.next)

/-- The procedure is called with each row, from the first to the last; the results. -/
def mapRows (f : List Obj → M ε σ Obj) : List (List Obj) → M ε σ (List Obj)
  | [] => pure []
  | row :: rows => do
    let v ← f row
    let vs ← mapRows f rows
    pure (v :: vs)

/-- The procedure is called with each row and the result of the call before. -/
def foldRows (f : List Obj → M ε σ Obj) : List (List Obj) → Obj → M ε σ Obj
  | [], z => pure z
  | row :: rows, z => do
    let v ← f (row ++ [z])
    foldRows f rows v

/-- The first result that is not `#f`; the procedure is not called any more after it. -/
def anyRows (f : List Obj → M ε σ Obj) : List (List Obj) → M ε σ Obj
  | [] => pure .f
  | row :: rows => do
    let v ← f row
    if v = .f then anyRows f rows else pure v

/-- `#f` if that is one of the results, and the procedure is not called any more after it; else the last result, or
`yes` if there is none. -/
def everyRows (f : List Obj → M ε σ Obj) : List (List Obj) → Obj → M ε σ Obj
  | [], last => pure last
  | row :: rows, _ => do
    let v ← f row
    if v = .f then pure .f else everyRows f rows v

/-- The number of the first row whose result is not `#f`. -/
def indexRows (f : List Obj → M ε σ Obj) : List (List Obj) → Nat → M ε σ (Option Nat)
  | [], _ => pure none
  | row :: rows, n => do
    let v ← f row
    if v = .f then indexRows f rows (n + 1) else pure (some n)

end Meevax.ListWalk
