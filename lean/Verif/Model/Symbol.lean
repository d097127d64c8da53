import Verif.Model.Collector
import Verif.Model.Utf8

/-
Model of the symbol table (src/kernel/symbol.cpp L47-L70) on top of the memory of Model/Collector.

The table is an `std::unordered_map<std::string, object>`. Its nodes do not move, so that every entry is
a slot with an address of its own. Simplified: the order of the entries and the hash are left out.
-/

namespace Meevax.Symbol
open Meevax.GC Meevax.PointerSet Meevax.Text

variable {g : Word}

/-- A name: the bytes of an `std::string` (src/kernel/symbol.cpp L47-L51). -/
abbrev Name := List Byte

/-- `symbols()` (symbol.cpp L47-L51): the name and the slot of every entry. -/
abbrev Table := List (Name × Nat)

/-- `symbols().find(name)` (symbol.cpp L55). -/
def find (table : Table) (name : Name) : Option Nat := table.lookup name

/-- `make<symbol>(name)` and `symbols().emplace(name, …)` (symbol.cpp L59): first memory is requested
(collector.cpp L238-L244), which may start a collection; then the symbol is constructed at `d` and
registered; then the new node's slot is given the reference. -/
def intern (σ : State g) (table : Table) (name : Name) (size d base extent : Nat) (fields : List Nat)
    (slot : Nat) : Option (State g × Table) :=
  match request σ size with
  | none => none
  | some σ =>
    match insertDatum σ d base extent fields with
    | none => none
    | some σ =>
      match assign σ slot (some d) with
      | none => none
      | some σ => some (σ, (name, slot) :: table)

end Meevax.Symbol
