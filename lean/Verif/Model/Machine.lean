/-!
The SECD machine: src/kernel/dynamic_environment.cpp.

What is modelled: the 23 instructions and the fetch loop of `execute`, with environments,
argument lists and lists built by the program as pairs of one mutable heap, as in the code.

Simplifications.
* The stack `s` is a list and the dump `d` a chain of entries; both are immutable here, while
  `%cons` (L354-L362) updates the top cell of `s` in place.
* Code is immutable data.  Closures and continuations are immutable values without identity.
* A quoted datum is an opaque constant.  Memory is unbounded and there is no collection.
* Assertions are off, as in a release build.  Reading a field of something that is not a pair is
  undefined behaviour, hence `stuck`.
* Primitive procedures are a parameter.  They see the argument list and the pair heap only; they do
  not call back into the machine.
* `execute` hands an exception to the handler or rethrows it (L460-L493); here it ends the run.
-/

namespace Meevax.Secd

/-- Symbols, by number (src/kernel/symbol.cpp L53-L70). -/
abbrev Name := Nat

/-- Source forms, and constants: S-expressions over symbols and opaque atoms (include/meevax/kernel/object.hpp L50: what `%load-constant`
(src/kernel/dynamic_environment.cpp L125-L132) may hold). -/
inductive Form where
  | nil
  | bool (b : Bool)
  | sym (x : Name)
  | atom (n : Nat)
  | undefined
  | unspecified
  | cons (a d : Form)
  deriving DecidableEq, Repr

/-- The instructions (include/meevax/kernel/instruction.hpp L24-L49) with their operands, which in
the code follow the instruction in the list. -/
inductive Instr where
  | loadAbsolute (g : Nat)
  | loadRelative (i j : Nat)
  | loadVariadic (i j : Nat)
  | loadConstant (k : Form)
  | loadClosure (c : List Instr)
  | loadContinuation (c : List Instr)
  | current (i : Nat)
  | select (c₁ c₂ : List Instr)
  | tailSelect (c₁ c₂ : List Instr)
  | join
  | call
  | tailCall
  | dummy
  | letrec
  | tailLetrec
  | ret
  | cons
  | drop
  | storeAbsolute (g : Nat)
  | storeRelative (i j : Nat)
  | storeVariadic (i j : Nat)
  | install (i : Nat)
  | stop
  deriving Repr

/-- Code: a list of instructions (src/kernel/dynamic_environment.cpp L47-L57). -/
abbrev Code := List Instr

mutual

/-- Objects.  `closure` is `(c . e)` (L134-L143), `cont` is `(s e c . d)` (L145-L154). -/
inductive Value where
  | datum (d : Form)
  | pair (l : Nat)
  | prim (p : Nat)
  | closure (c : List Instr) (e : Value)
  | cont (s : List Value) (e : Value) (c : List Instr) (d : Dump)

/-- The dump `d`: `%select` pushes `(c . d)` (L173), `%call` pushes `(s e c . d)` (L211). -/
inductive Dump where
  | nil
  | code (c : List Instr) (d : Dump)
  | frame (s : List Value) (e : Value) (c : List Instr) (d : Dump)

end

/-- The empty list (include/meevax/kernel/object.hpp L54). -/
abbrev Value.nil : Value := .datum .nil

/-- The pairs: every location has a car and a cdr; those from `next` on are not allocated
(include/meevax/kernel/pair.hpp L24). -/
structure Cells where
  cell : Nat → Value × Value
  next : Nat

/-- `cons` (include/meevax/kernel/pair.hpp): allocate a pair, at the location `h.next`. -/
def Cells.cons (h : Cells) (a d : Value) : Cells :=
  { cell := fun l => if l = h.next then (a, d) else h.cell l, next := h.next + 1 }

/-- `car(x) = v` (include/meevax/kernel/pair.hpp L24). -/
def Cells.setCar (h : Cells) (l : Nat) (v : Value) : Cells :=
  { h with cell := fun l' => if l' = l then (v, (h.cell l).2) else h.cell l' }

/-- `cdr(x) = v` (include/meevax/kernel/pair.hpp L24). -/
def Cells.setCdr (h : Cells) (l : Nat) (v : Value) : Cells :=
  { h with cell := fun l' => if l' = l then ((h.cell l).1, v) else h.cell l' }

/-- `car` (include/meevax/kernel/pair.hpp); of anything but a pair it is undefined behaviour. -/
def Cells.car (h : Cells) : Value → Option Value
  | .pair l => some (h.cell l).1
  | _ => none

/-- `cdr` (include/meevax/kernel/pair.hpp L24). -/
def Cells.cdr (h : Cells) : Value → Option Value
  | .pair l => some (h.cell l).2
  | _ => none

/-- `tail(x, k)` (include/meevax/kernel/list.hpp L68-L71). -/
def Cells.tail (h : Cells) : Value → Nat → Option Value
  | x, 0 => some x
  | x, k + 1 => do h.tail (← h.cdr x) k

/-- `head(x, k)` (list.hpp L73-L76). -/
def Cells.head (h : Cells) (x : Value) (k : Nat) : Option Value := do
  h.car (← h.tail x k)

/-- `head(x, k) = v` (include/meevax/kernel/list.hpp L68-L76). -/
def Cells.setHead (h : Cells) (x : Value) (k : Nat) (v : Value) : Option Cells := do
  match ← h.tail x k with
  | .pair l => some (h.setCar l v)
  | _ => none

/-- `tail(head(e, i), j) = v` (L411-L433): `tail` returns a reference, to the car of the `i`-th cell
of `e` when `j` is zero, and otherwise to the cdr of the `j`-th cell of the frame. -/
def Cells.setTail (h : Cells) (e : Value) (i j : Nat) (v : Value) : Option Cells := do
  match j with
  | 0 => h.setHead e i v
  | j + 1 =>
    match ← h.tail (← h.head e i) j with
    | .pair l => some (h.setCdr l v)
    | _ => none

/-- The store: pairs, the cdrs of the absolute identities, and the array `a`
(include/meevax/kernel/dynamic_environment.hpp). -/
structure Heap where
  cells : Cells
  globals : Nat → Value
  regs : Nat → Value

/-- `f i := v` (auxiliary to src/kernel/dynamic_environment.cpp L47-L459). -/
def update {α : Type} (f : Nat → α) (i : Nat) (v : α) : Nat → α :=
  fun j => if j = i then v else f j

/-- What a primitive procedure does: return, throw, or run into undefined behaviour
(include/meevax/kernel/procedure.hpp L25; src/kernel/dynamic_environment.cpp L217-L229). -/
inductive PrimResult where
  | ok (v : Value) (h : Cells)
  | throw (v : Value) (h : Cells)
  | undefined

/-- The primitive procedures (`procedure::call`, include/meevax/kernel/procedure.hpp L30), by
number, as functions of the argument list and the pairs. -/
abbrev Prims := Nat → Value → Cells → PrimResult

/-- The registers and the store (src/kernel/dynamic_environment.cpp L47). -/
structure State where
  s : List Value
  e : Value
  c : Code
  d : Dump
  h : Heap

/-- What one step does (src/kernel/dynamic_environment.cpp L47-L494). -/
inductive Result where
  | next (st : State)
  | halt (v : Value) (h : Heap)
  | raise (v : Value) (h : Heap)
  | stuck

/-- A step that may be undefined (auxiliary to src/kernel/dynamic_environment.cpp L47-L459). -/
def Result.ofOption : Option State → Result
  | some st => .next st
  | none => .stuck

/-- `car(s) != f` (L174, L186). -/
def Value.truthy : Value → Bool
  | .datum (.bool false) => false
  | _ => true

/-- `%call` (L200-L248).  With fewer than two operands on the stack it is `stuck`. -/
def call (P : Prims) (s : List Value) (e : Value) (c : Code) (d : Dump) (h : Heap) : Result :=
  match s with
  | f :: xs :: s =>
    match f with
    | .closure c' e' =>
      .next ⟨[], .pair h.cells.next, c', .frame s e c d, { h with cells := h.cells.cons xs e' }⟩
    | .prim p =>
      match P p xs h.cells with
      | .ok v cells => .next ⟨v :: s, e, c, d, { h with cells }⟩
      | .throw v cells => .raise v { h with cells }
      | .undefined => .stuck
    | .cont s' e' c' d' =>
      match h.cells.car xs with
      | some v => .next ⟨v :: s', e', c', d', h⟩
      | none => .stuck
    | f => .raise f h
  | _ => .stuck

/-- `%tail-call` (L250-L301). -/
def tailCall (P : Prims) (s : List Value) (d : Dump) (h : Heap) : Result :=
  match s with
  | f :: xs :: _ =>
    match f with
    | .closure c' e' =>
      .next ⟨[], .pair h.cells.next, c', d, { h with cells := h.cells.cons xs e' }⟩
    | .prim p =>
      match P p xs h.cells with
      | .ok v cells =>
        match d with
        | .frame s e c d => .next ⟨v :: s, e, c, d, { h with cells }⟩
        | _ => .stuck
      | .throw v cells => .raise v { h with cells }
      | .undefined => .stuck
    | .cont s' e' c' d' =>
      match h.cells.car xs with
      | some v => .next ⟨v :: s', e', c', d', h⟩
      | none => .stuck
    | f => .raise f h
  | _ => .stuck

/-- `%letrec` and `%tail-letrec` (L312-L338): patch the environment of the closure on the stack with
the values below it, and enter the closure. -/
def enterLetrec (s : List Value) (h : Heap) : Option (List Value × Value × Code × Heap) :=
  match s with
  | .closure c' (.pair l) :: xs :: s =>
    some (s, .pair l, c', { h with cells := h.cells.setCar l xs })
  | _ => none

/-- One turn of the fetch loop of `execute` (L55-L459). -/
def step (P : Prims) : State → Result
  | ⟨s, e, .loadAbsolute g :: c, d, h⟩ => .next ⟨h.globals g :: s, e, c, d, h⟩
  | ⟨s, e, .loadRelative i j :: c, d, h⟩ => .ofOption do
    let v ← h.cells.head (← h.cells.head e i) j
    some ⟨v :: s, e, c, d, h⟩
  | ⟨s, e, .loadVariadic i j :: c, d, h⟩ => .ofOption do
    let v ← h.cells.tail (← h.cells.head e i) j
    some ⟨v :: s, e, c, d, h⟩
  | ⟨s, e, .loadConstant k :: c, d, h⟩ => .next ⟨.datum k :: s, e, c, d, h⟩
  | ⟨s, e, .loadClosure c' :: c, d, h⟩ => .next ⟨.closure c' e :: s, e, c, d, h⟩
  | ⟨s, e, .loadContinuation c' :: c, d, h⟩ =>
    .next ⟨.pair h.cells.next :: s, e, c, d,
      { h with cells := h.cells.cons (.cont s e c' d) .nil }⟩
  | ⟨s, e, .current i :: c, d, h⟩ => .next ⟨h.regs i :: s, e, c, d, h⟩
  | ⟨v :: s, e, .select c₁ c₂ :: c, d, h⟩ =>
    .next ⟨s, e, if v.truthy then c₁ else c₂, .code c d, h⟩
  | ⟨v :: s, e, .tailSelect c₁ c₂ :: _, d, h⟩ => .next ⟨s, e, if v.truthy then c₁ else c₂, d, h⟩
  | ⟨s, e, .join :: _, .code c d, h⟩ => .next ⟨s, e, c, d, h⟩
  | ⟨s, e, .call :: c, d, h⟩ => call P s e c d h
  | ⟨s, _, .tailCall :: _, d, h⟩ => tailCall P s d h
  | ⟨s, e, .dummy :: c, d, h⟩ =>
    .next ⟨s, .pair h.cells.next, c, d, { h with cells := h.cells.cons .nil e }⟩
  | ⟨s, e, .letrec :: c, d, h⟩ => .ofOption do
    let (s', e', c', h') ← enterLetrec s h
    some ⟨[], e', c', .frame s' (← h'.cells.cdr e) c d, h'⟩
  | ⟨s, _, .tailLetrec :: _, d, h⟩ => .ofOption do
    let (_, e', c', h') ← enterLetrec s h
    some ⟨[], e', c', d, h'⟩
  | ⟨v :: _, _, .ret :: _, .frame s e c d, h⟩ => .next ⟨v :: s, e, c, d, h⟩
  | ⟨x :: y :: s, e, .cons :: c, d, h⟩ =>
    .next ⟨.pair h.cells.next :: s, e, c, d, { h with cells := h.cells.cons x y }⟩
  | ⟨_ :: s, e, .drop :: c, d, h⟩ => .next ⟨s, e, c, d, h⟩
  | ⟨v :: s, e, .storeAbsolute g :: c, d, h⟩ =>
    .next ⟨v :: s, e, c, d, { h with globals := update h.globals g v }⟩
  | ⟨v :: s, e, .storeRelative i j :: c, d, h⟩ => .ofOption do
    let cells ← h.cells.setHead (← h.cells.head e i) j v
    some ⟨v :: s, e, c, d, { h with cells }⟩
  | ⟨v :: s, e, .storeVariadic i j :: c, d, h⟩ => .ofOption do
    let cells ← h.cells.setTail e i j v
    some ⟨v :: s, e, c, d, { h with cells }⟩
  | ⟨v :: s, e, .install i :: c, d, h⟩ =>
    .next ⟨v :: s, e, c, d, { h with regs := update h.regs i v }⟩
  | ⟨v :: _, _, .stop :: _, _, h⟩ => .halt v h
  | _ => .stuck

/-- How a run that is cut off after a number of steps stands (src/kernel/dynamic_environment.cpp L52-L459). -/
inductive Outcome where
  | running (st : State)
  | halt (v : Value) (h : Heap)
  | raise (v : Value) (h : Heap)
  | stuck

/-- `execute(s, e, c, d)` (L47-L494), for `n` steps. -/
def run (P : Prims) : Nat → State → Outcome
  | 0, st => .running st
  | n + 1, st =>
    match step P st with
    | .next st => run P n st
    | .halt v h => .halt v h
    | .raise v h => .raise v h
    | .stuck => .stuck

/-- `execute(c)` (L39-L45). -/
def start (c : Code) (h : Heap) : State := ⟨[], .nil, c, .nil, h⟩

end Meevax.Secd
