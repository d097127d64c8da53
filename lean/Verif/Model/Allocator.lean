/-!
# Model of `include/meevax/memory/allocator.hpp`

The allocator of pairs.  Memory is divided in blocks of `N` chunks.  A chunk is a union
(allocator.hpp:46-54): while it is free its bytes hold the link `tail` of the free list,
while it is in use they belong to the user, who may write anything there.

Simplified: a chunk is named by (block number, index); the bytes of a chunk are the one
value a `chunk*` read of it would yield (`link`); `new block` never fails; the destructors
(end of program) are not modelled.
-/
namespace Meevax.Allocator

/-- A chunk: block number (in order of creation) and index in `block::data` (allocator.hpp:46-58). -/
structure Chunk where
  block : Nat
  index : Nat
deriving DecidableEq, Repr

/-- The static members — allocator.hpp:79-81 — and the memory of the chunks. -/
structure State where
  /-- the bytes of each chunk, read as `chunk * tail` -/
  link : Chunk → Option Chunk
  /-- `free_list` -/
  freeList : Option Chunk
  /-- number of blocks created; `free_space` is block `blocks - 1` -/
  blocks : Nat
  /-- `free_space->size` -/
  size : Nat

/-- allocator.hpp:79-81: `free_list = nullptr`, `free_space = new block()`;
chunks are zero-initialised (`data[N] = {}`, l. 58). -/
def init (N : Nat) : State := { link := fun _ => none, freeList := none, blocks := 1, size := N }

/-- `allocate` — allocator.hpp:112-129, `pop` — allocator.hpp:73-76.
`none`: undefined behaviour (an index below 0). -/
def allocate (N : Nat) (s : State) : Option (Chunk × State) :=
  match s.freeList with
  | some c => some (c, { s with freeList := s.link c })
  | none =>
    let s := if s.size = 0 then { s with blocks := s.blocks + 1, size := N } else s
    if s.size = 0 then none
    else some ({ block := s.blocks - 1, index := s.size - 1 }, { s with size := s.size - 1 })

/-- `deallocate` — allocator.hpp:131-136 -/
def deallocate (s : State) (c : Chunk) : State :=
  { s with link := fun x => if x = c then s.freeList else s.link x, freeList := some c }

/-- The user of chunk `c` writes into it; read as a link the bytes are then `v` (allocator.hpp:46-54). -/
def write (s : State) (c : Chunk) (v : Option Chunk) : State :=
  { s with link := fun x => if x = c then v else s.link x }

end Meevax.Allocator
