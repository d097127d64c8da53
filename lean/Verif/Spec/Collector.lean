import Verif.Model.Collector
import Verif.Spec.PointerSet
/-!
# What C06–C09 say

Everything is stated on the observable memory: which data are live (`Live`), which slots hold
which reference (`ptr`), and where data lie (`Within`).
-/
namespace Meevax.GC.Spec
open Meevax.PointerSet Meevax.PointerSet.Spec

variable {g : Word}

/-- `count`/`contains` on the collector's data set: the heap object is allocated. -/
def Live (σ : State g) (d : Nat) : Prop := Address d ∧ (canonical g).contains σ.data d = some true

/-- The address `x` lies inside the heap object `d`. -/
def Within (σ : State g) (x d : Nat) : Prop := σ.base d ≤ x ∧ x < σ.base d + σ.extent d

/-- A reference held outside every heap object: a C++ local or static variable, or an element
of an out-of-line buffer. -/
def Root (σ : State g) (s : Nat) : Prop := (∃ d, σ.ptr s = some d) ∧ ∀ d, Live σ d → ¬ Within σ s d

/-- Heap objects reachable from the roots. -/
inductive Reachable (σ : State g) : Nat → Prop
  | root {s d} : Root σ s → σ.ptr s = some d → Reachable σ d
  | step {d s e} : Reachable σ d → Within σ s d → σ.ptr s = some e → Reachable σ e

/-- Total size of a list of heap objects. -/
def total (σ : State g) (l : List Nat) : Nat := (l.map σ.extent).sum

/-- The program's actions, as far as the collector sees them.  `out` lists the sizes that
have been requested for objects which are not registered yet.

* `assign s v`: a slot is created, assigned or destroyed; a reference stored must refer to a
  live object, and a slot inside a live object is one of that object's fields.
* `request n`, `register`: the two halves of `make<T>(…)` (collector.hpp:174-196): `n = sizeof(T)`
  is requested; then the object is constructed (its constructor may perform further steps) in
  memory disjoint from every live object and registered with `extent = sizeof(binder) ≥ n`.
* `collect`, `reserve` as called by the program. -/
inductive Step : State g → List Nat → State g → List Nat → Prop
  | assign {σ σ' s v out} : Address s → (∀ d, v = some d → Live σ d) →
      (∀ d, Live σ d → Within σ s d → s ∈ σ.fields d) →
      assign σ s v = some σ' → Step σ out σ' out
  | request {σ σ' n out} : request σ n = some σ' → Step σ out σ' (n :: out)
  | register {σ σ' n out d base extent fields} :
      n ∈ out → n ≤ extent → Address d → Address base → Address (base + extent) →
      base ≤ d → d < base + extent →
      (∀ e, Live σ e → base + extent ≤ σ.base e ∨ σ.base e + σ.extent e ≤ base) →
      fields.Nodup → (∀ e, Live σ e → ∀ s ∈ fields, s ∉ σ.fields e) →
      (∀ s, base ≤ s → s < base + extent → σ.ptr s ≠ none → s ∈ fields) →
      insertDatum σ d base extent fields = some σ' → Step σ out σ' (out.erase n)
  | collect {σ σ' out} : collect σ = some σ' → Step σ out σ' out
  | reserve {σ out} (n) : Step σ out (reserve σ n) out

/-- States a program can reach. -/
inductive Runs (g : Word) : State g → List Nat → Prop
  | start : Runs g (init g) []
  | step {σ out σ' out'} : Runs g σ out → Step σ out σ' out' → Runs g σ' out'

end Meevax.GC.Spec
