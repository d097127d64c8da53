import Verif.Model.Symbol
import Verif.Spec.Collector

/-
Programs that make symbols.
-/

namespace Meevax.Symbol
open Meevax.GC Meevax.GC.Spec Meevax.PointerSet Meevax.PointerSet.Spec Meevax.Text

variable {g : Word}

/-- The state of a program that uses symbols. -/
structure World (g : Word) where
  memory : State g
  /-- sizes requested for objects that are not registered yet -/
  out : List Nat
  table : Table

/-- The memory of the table's entries is not handed out again: a slot of the table is no part of the
object at `base`. -/
def Apart (table : Table) (base extent : Nat) (fields : List Nat) : Prop :=
  ∀ e ∈ table, ¬ (base ≤ e.2 ∧ e.2 < base + extent) ∧ e.2 ∉ fields

/-- The conditions under which an object is registered (`Step.register`). -/
structure Fits (σ : State g) (d base extent : Nat) (fields : List Nat) : Prop where
  datum : Address d
  start : Address base
  stop : Address (base + extent)
  low : base ≤ d
  high : d < base + extent
  apart : ∀ e, Live σ e → base + extent ≤ σ.base e ∨ σ.base e + σ.extent e ≤ base
  nodup : fields.Nodup
  fresh : ∀ e, Live σ e → ∀ s ∈ fields, s ∉ σ.fields e
  inside : ∀ s, base ≤ s → s < base + extent → σ.ptr s ≠ none → s ∈ fields

/-- What the program does: the steps of Spec/Collector, as far as they do not touch the table, and calls
of `make_symbol`, which return an object. -/
inductive Event (g : Word) : World g → Option (Name × Nat) → World g → Prop
  | assign {w : World g} {σ' s v} : Address s → (∀ d, v = some d → Live w.memory d) →
      (∀ d, Live w.memory d → Within w.memory s d → s ∈ w.memory.fields d) →
      (∀ e ∈ w.table, s ≠ e.2) →
      assign w.memory s v = some σ' → Event g w none { w with memory := σ' }
  | request {w : World g} {σ' n} : request w.memory n = some σ' →
      Event g w none { w with memory := σ', out := n :: w.out }
  | register {w : World g} {σ' n d base extent fields} :
      n ∈ w.out → n ≤ extent → Fits w.memory d base extent fields → Apart w.table base extent fields →
      insertDatum w.memory d base extent fields = some σ' →
      Event g w none { w with memory := σ', out := w.out.erase n }
  | collect {w : World g} {σ'} : collect w.memory = some σ' → Event g w none { w with memory := σ' }
  | reserve {w : World g} (n) : Event g w none { w with memory := reserve w.memory n }
  /-- `make_symbol` of a name that is in the table (symbol.cpp L55-L58) -/
  | found {w : World g} {name slot d} : find w.table name = some slot → w.memory.ptr slot = some d →
      Event g w (some (name, d)) w
  /-- `make_symbol` of a new name (symbol.cpp L59-L62); the slot of the new node lies outside of every
  object and is not in use -/
  | made {w : World g} {name σ1 σ' table' size d base extent fields slot} :
      find w.table name = none →
      GC.request w.memory size = some σ1 → size ≤ extent →
      Fits σ1 d base extent fields → Apart w.table base extent fields →
      Address slot → (∀ e ∈ w.table, slot ≠ e.2) →
      (∀ e, Live σ1 e → ¬ Within σ1 slot e ∧ slot ∉ σ1.fields e) →
      ¬ (base ≤ slot ∧ slot < base + extent) → slot ∉ fields →
      intern w.memory w.table name size d base extent fields slot = some (σ', table') →
      Event g w (some (name, d)) { w with memory := σ', table := table' }

/-- Runs, with the calls of `make_symbol` and their results, newest first. -/
inductive History (g : Word) : World g → List (Name × Nat) → Prop
  | start : History g ⟨init g, [], []⟩ []
  | step {w calls e w'} : History g w calls → Event g w e w' → History g w' (e.toList ++ calls)

end Meevax.Symbol
