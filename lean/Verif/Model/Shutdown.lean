import Verif.Model.Collector
/-!
# Model of the end of the process: `clear` and `clear_once` in `src/kernel/collector.cpp`

When `main` has returned, static objects are destroyed, among them the allocators of all types of heap objects;
the destructor of each calls `clear_once` (collector.hpp:59-73).
Simplified: the order in which static objects are destroyed is arbitrary, but the two address sets outlive the
first allocator that is destroyed.
-/
namespace Meevax.GC
open Meevax.PointerSet

variable {g : Word}

/-- The collector at the end of the process: `cleared` (collector.cpp:40), and the heap objects that have been
destroyed so far, in order. -/
structure Exit (g : Word) where
  state : State g
  cleared : Bool := false
  destroyed : List Nat := []

/-- Destruction of slots once `cleared` is set: `object::~object` touches nothing (collector.cpp:61-67). -/
def forget (σ : State g) (slots : List Nat) : State g :=
  { σ with ptr := fun x => if x ∈ slots then none else σ.ptr x }

/-- The loop of `clear` from an iterator on (collector.cpp:115-120): `delete datum`, then `data.erase(datum)`, then
`++` on the iterator whose element is gone. `none` when the bound is exceeded. -/
def clearFrom : Nat → Exit g → (canonical g).I → Option (Exit g)
  | 0, _, _ => none
  | f + 1, x, it =>
    if (canonical g).same it (canonical g).stop then some x
    else
      let d := (canonical g).deref it
      let σ := forget x.state (x.state.fields d)
      match (canonical g).erase σ.data d with
      | none => none
      | some data =>
        match (canonical g).inc data it with
        | none => none
        | some it' =>
          clearFrom f { x with state := { σ with data := data }, destroyed := x.destroyed ++ [d] } it'

/-- `clear` (collector.cpp:113-121). -/
def clear (x : Exit g) : Option (Exit g) :=
  match (canonical g).first x.state.data with
  | none => none
  | some it => clearFrom ((canonical g).size x.state.data + 1) x it

/-- `clear_once` (collector.cpp:123-129), which the destructor of every allocator calls (collector.hpp:59-73). -/
def clearOnce (x : Exit g) : Option (Exit g) :=
  if x.cleared then some x else clear { x with cleared := true }

/-- The destruction of so many allocators (collector.hpp:59-73). -/
def destroyAllocators : Nat → Exit g → Option (Exit g)
  | 0, x => some x
  | n + 1, x =>
    match clearOnce x with
    | none => none
    | some x => destroyAllocators n x

end Meevax.GC
