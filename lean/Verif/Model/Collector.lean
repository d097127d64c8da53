import Verif.Model.PointerSet
/-!
# Model of the garbage collector: `src/kernel/collector.cpp`, `include/meevax/kernel/collector.hpp`

The two address sets are the model of `pointer_set` itself (`canonical g`).

* A *datum* is a heap object, named by the address of its `pair` sub-object.  `base`/`extent`
  are the fields `pair::base` and `pair::size` set by the `binder` constructor
  (collector.hpp:78-91).
* A *slot* is a C++ `object` variable, named by its address.  `ptr s = some d`: the slot holds
  a pointer to datum `d`; `none`: it holds no pointer (an immediate value, or is not alive).
* `fields d`: the slots destroyed by the destructor of `d` — its `object` data members and the
  elements of containers it owns (e.g. the buffer of a `vector`).

Simplified: contents of heap objects other than references are not represented; the storage
of a destroyed slot reads as `none`; deleting a datum returns its memory (see the allocator
model for that part); `std::vector` growth of the mark stack never fails.
`none` as a result is undefined behaviour (or a loop that does not end).
-/
namespace Meevax.GC
open Meevax.PointerSet

/-- The address sets (collector.cpp:29-30). -/
abbrev Set (g : Word) : Type := (canonical g).S

/-- The static state of collector.cpp:32-38 together with the memory it looks at. -/
structure State (g : Word) where
  /-- `data` — collector.cpp:36 -/
  data : Set g
  /-- `objects` — collector.cpp:38 -/
  objects : Set g
  /-- `size` — collector.cpp:32 -/
  size : Nat
  /-- `capacity` — collector.cpp:34 -/
  capacity : Nat
  base : Nat → Nat
  extent : Nat → Nat
  fields : Nat → List Nat
  ptr : Nat → Option Nat

variable {g : Word}

/-- Start of the program: collector.cpp:32-38. -/
def init (g : Word) : State g where
  data := (canonical g).new
  objects := (canonical g).new
  size := 0
  capacity := 16 * 1024 * 1024
  base := fun _ => 0
  extent := fun _ => 0
  fields := fun _ => []
  ptr := fun _ => none

/-- `for (; it != last; ++it)`: the elements visited.  `none` when the bound is exceeded
(collector.cpp:145, 184-186, 190). -/
def walk (s : Set g) (last : (canonical g).I) : Nat → (canonical g).I → Option (List Nat)
  | 0, _ => none
  | f + 1, it =>
    if (canonical g).same it last then some []
    else
      match (canonical g).inc s it with
      | none => none
      | some it' =>
        match walk s last f it' with
        | none => none
        | some l => some ((canonical g).deref it :: l)

/-- `for (auto x : s)` (collector.cpp:145, 190) -/
def elements (s : Set g) : Option (List Nat) :=
  match (canonical g).first s with
  | none => none
  | some it => walk s (canonical g).stop ((canonical g).size s + 1) it

/-- `std::for_each(s.lower_bound(a), s.lower_bound(b), …)` (collector.cpp:184-186) -/
def elementsBetween (s : Set g) (a b : Nat) : Option (List Nat) :=
  match (canonical g).lowerBound s a with
  | none => none
  | some it =>
    match (canonical g).lowerBound s b with
    | none => none
    | some last => walk s last ((canonical g).size s + 1) it

/-- The lambda `contains` of `is_root` — collector.cpp:230-233:
`uintptr(x) - uintptr(datum->base) < datum->size` in unsigned 64-bit arithmetic. -/
def containsAddress (σ : State g) (x d : Nat) : Bool := sub64 x (σ.base d) < σ.extent d

/-- `is_root` — collector.cpp:210-236 -/
def isRoot (σ : State g) (x : Nat) : Option Bool :=
  match (canonical g).lowerBound σ.data x with
  | none => none
  | some it =>
    if (canonical g).valid it && containsAddress σ x ((canonical g).deref it) then some false
    else
      match (canonical g).dec σ.data it with
      | none => none
      | some it' =>
        some (!((canonical g).valid it' && containsAddress σ x ((canonical g).deref it')))

/-- `is_root` applied to each element of a list, keeping the roots — collector.cpp:141-151. -/
def filterRoots (σ : State g) : List Nat → Option (List Nat)
  | [] => some []
  | x :: l =>
    match isRoot σ x with
    | none => none
    | some b =>
      match filterRoots σ l with
      | none => none
      | some r => some (if b then x :: r else r)

/-- The variables of the marking phase: `data`, `new_data`, `stack`, `size` (collector.cpp:153-159). -/
structure Mark (g : Word) where
  data : Set g
  newData : Set g
  stack : List Nat
  size : Nat

/-- The lambda `mark` — collector.cpp:161-172. -/
def markSlot (σ : State g) (m : Mark g) (slot : Nat) : Option (Mark g) :=
  match σ.ptr slot with
  | none => none
  | some d =>
    match (canonical g).contains m.newData d with
    | none => none
    | some true => some m
    | some false =>
      match (canonical g).insert m.newData d with
      | none => none
      | some n =>
        match (canonical g).erase m.data d with
        | none => none
        | some e => some { m with newData := n, data := e, stack := d :: m.stack }

/-- Marks from several slots (collector.cpp:184-186). -/
def markSlots (σ : State g) : Mark g → List Nat → Option (Mark g)
  | m, [] => some m
  | m, s :: l =>
    match markSlot σ m s with
    | none => none
    | some m' => markSlots σ m' l

/-- `while (not stack.empty())` — collector.cpp:176-187. -/
def drain (σ : State g) : Nat → Mark g → Option (Mark g)
  | 0, _ => none
  | f + 1, m =>
    match m.stack with
    | [] => some m
    | d :: rest =>
      match elementsBetween σ.objects (σ.base d) (σ.base d + σ.extent d) with
      | none => none
      | some l =>
        match markSlots σ { m with size := m.size + σ.extent d, stack := rest } l with
        | none => none
        | some m' => drain σ f m'

/-- `for (auto root : roots)` — collector.cpp:157-188. -/
def markRoots (σ : State g) : Mark g → List Nat → Option (Mark g)
  | m, [] => some m
  | m, r :: l =>
    match markSlot σ m r with
    | none => none
    | some m' =>
      match drain σ ((canonical g).size σ.data + 1) m' with
      | none => none
      | some m'' => markRoots σ m'' l

/-- Destruction of slots: `object::~object` erases a slot holding a pointer —
collector.cpp:61-67 (`cleared` is false while the program runs). -/
def destroySlots : State g → List Nat → Option (State g)
  | σ, [] => some σ
  | σ, s :: l =>
    match σ.ptr s with
    | none => destroySlots σ l
    | some _ =>
      match (canonical g).erase σ.objects s with
      | none => none
      | some o => destroySlots { σ with objects := o, ptr := fun x => if x = s then none else σ.ptr x } l

/-- `for (auto datum : data) delete datum;` — collector.cpp:190-193. -/
def sweep : State g → List Nat → Option (State g)
  | σ, [] => some σ
  | σ, d :: l =>
    match destroySlots σ (σ.fields d) with
    | none => none
    | some σ' => sweep σ' l

/-- `collect` — collector.cpp:131-198 -/
def collect (σ : State g) : Option (State g) :=
  match elements σ.objects with
  | none => none
  | some os =>
    match filterRoots σ os with
    | none => none
    | some roots =>
      match markRoots σ { data := σ.data, newData := (canonical g).new, stack := [], size := 0 } roots with
      | none => none
      | some m =>
        match elements m.data with
        | none => none
        | some dead =>
          match sweep σ dead with
          | none => none
          | some σ' =>
            some { σ' with data := m.newData, size := m.size,
                           capacity := max σ.capacity (m.size + m.size / 2) }

/-- `request` — collector.cpp:238-244 -/
def request (σ : State g) (n : Nat) : Option (State g) :=
  let σ := { σ with size := σ.size + n }
  if σ.capacity < σ.size then collect σ else some σ

/-- `reserve` — collector.cpp:246-249 -/
def reserve (σ : State g) (n : Nat) : State g := { σ with capacity := n }

/-- `insert` of a constructed datum — collector.cpp:205-208, with the fields the constructor
has set (collector.hpp:78-91). -/
def insertDatum (σ : State g) (d base extent : Nat) (fields : List Nat) : Option (State g) :=
  match (canonical g).insert σ.data d with
  | none => none
  | some s => some { σ with
      data := s
      base := fun x => if x = d then base else σ.base x
      extent := fun x => if x = d then extent else σ.extent x
      fields := fun x => if x = d then fields else σ.fields x }

/-- Construction, assignment and destruction of a slot: the slot `s` is given the value `v`
(`none`: a value that is not a pointer, or end of life).  Covers `object::object` —
collector.cpp:42-59, `object::~object` — l. 61-67, `operator =` — l. 69-79 with
`object::reset` — object.hpp:77-112. -/
def assign (σ : State g) (s : Nat) (v : Option Nat) : Option (State g) :=
  let ptr := fun x => if x = s then v else σ.ptr x
  if (σ.ptr s).isSome then
    if v.isSome then some { σ with ptr := ptr }
    else
      match (canonical g).erase σ.objects s with
      | none => none
      | some o => some { σ with objects := o, ptr := ptr }
  else
    if v.isSome then
      match (canonical g).insert σ.objects s with
      | none => none
      | some o => some { σ with objects := o, ptr := ptr }
    else some { σ with ptr := ptr }

end Meevax.GC
