import Verif.Model.Allocator
/-!
# What C05 says

A program using the allocator is a history of events: it obtains a cell, gives back a cell
it holds, or writes anything into a cell it holds.  `held` are the cells in use after the
history, `freed` the cells given back and not handed out again, most recently freed first.
-/
namespace Meevax.Allocator.Spec

inductive Event
  /-- `allocate` returned this cell -/
  | got (c : Chunk)
  | gave (c : Chunk)
  | wrote (c : Chunk) (v : Option Chunk)

/-- Cells in use after a history (newest event first). -/
def held : List Event → List Chunk
  | [] => []
  | .got c :: h => c :: held h
  | .gave c :: h => (held h).erase c
  | .wrote _ _ :: h => held h

/-- Cells given back and not reused, most recently freed first (newest event first). -/
def freed : List Event → List Chunk
  | [] => []
  | .got c :: h => (freed h).erase c
  | .gave c :: h => c :: freed h
  | .wrote _ _ :: h => freed h

/-- `Runs N h s`: a program that only gives back and writes to cells it holds can produce
the history `h` (newest first), leaving the allocator in state `s`. -/
inductive Runs (N : Nat) : List Event → State → Prop
  | start : Runs N [] (init N)
  | got {h s c s'} : Runs N h s → allocate N s = some (c, s') → Runs N (.got c :: h) s'
  | gave {h s c} : Runs N h s → c ∈ held h → Runs N (.gave c :: h) (deallocate s c)
  | wrote {h s c v} : Runs N h s → c ∈ held h → Runs N (.wrote c v :: h) (write s c v)

end Meevax.Allocator.Spec
