import Verif.Model.Machine

/-!
Model of `execute` as a whole (src/kernel/dynamic_environment.cpp L29-L494): the fetch loop of
Model/Machine.lean with its catch clauses (L460-L493), and primitive procedures that evaluate expressions
themselves, such as `eval` and `load` (src/kernel/boot.cpp L120, L123; src/kernel/environment.cpp L29-L65,
L186-L200).  Such a procedure calls `execute` again, on the C++ stack; so does a catch clause that calls the
exception handler.

Simplifications.
* Compilation is a parameter: a function of the environment, the expression and the store.  The forms
  `define-library`, `import`, `include` and `include-ci` (environment.cpp L31-L62) can be given as results of
  compilation that are not code.  Macro transformers, which run while an expression is compiled, may have any
  effect on the store, but are not run step by step.
* What an error object looks like is a parameter.
* A C++ exception that is an `error` and one that is another `std::exception` are treated alike (L473-L493
  differ only in how the error object is made).
* The C++ stack is unbounded.
* A `%tail-call` of a primitive procedure reads the dump after the procedure has returned (L264-L276), as in
  the code.
-/

namespace Meevax.Execute

open Meevax.Secd

/-- The store: pairs, absolute identities, the array `a` of each environment
(include/meevax/kernel/dynamic_environment.hpp L27-L35: `a` is a member of the environment), and
`exception_handler` (L49), which is one for all of them and initially null. -/
structure Store where
  cells : Cells
  globals : Nat → Value
  regs : Nat → Nat → Value
  handler : Value

/-- The store as the machine of environment `i` sees it (include/meevax/kernel/dynamic_environment.hpp L25-L56). -/
def Store.heap (S : Store) (i : Nat) : Heap := ⟨S.cells, S.globals, S.regs i⟩

/-- The store after a step of the machine of environment `i`
(include/meevax/kernel/dynamic_environment.hpp L25-L56). -/
def Store.put (S : Store) (i : Nat) (h : Heap) : Store :=
  { S with cells := h.cells, globals := h.globals, regs := update S.regs i h.regs }

/-- The parameters `s`, `e`, `c`, `d` of `execute` (L47). -/
structure Regs where
  s : List Value
  e : Value
  c : Code
  d : Dump

/-- What a primitive procedure does (src/kernel/boot.cpp L112-L125). -/
inductive Effect where
  /-- returns -/
  | value (v : Value) (S : Store)
  /-- throws an `error` -/
  | error (x : Value) (S : Store)
  /-- throws an object: the procedure `throw` (boot.cpp L125) -/
  | object (x : Value) (S : Store)
  /-- throws an `int`: `emergency-exit` (boot.cpp L112) -/
  | exit (n : Int) (S : Store)
  /-- calls `execute(c)` in environment `i`, and goes on with the result -/
  | run (i : Nat) (c : Code) (S : Store) (k : Value → Store → Effect)
  | undefined

/-- Do one thing and then another; exceptions skip the second
(C++ statements in sequence, src/kernel/environment.cpp L186-L200). -/
def Effect.bind : Effect → (Value → Store → Effect) → Effect
  | .value v S, f => f v S
  | .error x S, _ => .error x S
  | .object x S, _ => .object x S
  | .exit n S, _ => .exit n S
  | .run i c S k, f => .run i c S fun v S => (k v S).bind f
  | .undefined, _ => .undefined

/-- The primitive procedures and the error objects (src/kernel/boot.cpp L30-L430; src/kernel/error.cpp L25-L43). -/
structure Kernel where
  prims : Nat → Value → Store → Effect
  /-- `is_also<error>` -/
  isError : Value → Cells → Bool
  /-- `error::make` (src/kernel/error.cpp L29-L32): a new object. -/
  copy : Value → Cells → Value × Cells
  /-- `error(make<string>("uncaught exception"), thrown)` (L469) -/
  uncaught : Value → Cells → Value × Cells
  /-- `error(make<string>("not applicable"), callee)` (L247, L300) -/
  notApplicable : Value → Cells → Value × Cells

/-- A call of `execute` further down on the C++ stack: it waits for the result of a primitive procedure that
it called with `%call` or `%tail-call`, or, in a catch clause, for the result of the exception handler
(src/kernel/dynamic_environment.cpp L217-L229, L264-L276, L477, L489). -/
inductive Frame where
  | waiting (i : Nat) (tail : Bool) (m : Regs) (k : Value → Store → Effect)
  | catching

/-- The innermost call of `execute` and the others (src/kernel/dynamic_environment.cpp L47-L494). -/
structure Config where
  i : Nat
  m : Regs
  frames : List Frame
  S : Store

/-- What one step does (src/kernel/dynamic_environment.cpp L47-L494). -/
inductive Result where
  | next (C : Config)
  | done (v : Value) (S : Store)
  /-- an exception leaves the outermost `execute` -/
  | uncaught (x : Value) (S : Store)
  | exit (n : Int) (S : Store)
  | stuck

/-- The result of a primitive procedure is pushed: `%call` (L226), `%tail-call` (L272-L275). -/
def resume (tail : Bool) (m : Regs) (v : Value) : Option Regs :=
  if tail then
    match m.d with
    | .frame s e c d => some ⟨v :: s, e, c, d⟩
    | _ => none
  else some ⟨v :: m.s, m.e, m.c, m.d⟩

/-- `apply(f, list(x))` (L30-L37, L477, L489). -/
def applyHandler (K : Kernel) (i : Nat) (x : Value) (fs : List Frame) (S : Store) : Result :=
  let (x, cells) := K.copy x S.cells
  let xs := Value.pair cells.next
  .next ⟨i, ⟨[S.handler, xs], .nil, [.call, .stop], .nil⟩, .catching :: fs, { S with cells := cells.cons x .nil }⟩

/-- `if (exception_handler)` (L475, L487). -/
def isNull : Value → Bool
  | .datum .nil => true
  | _ => false

/-- An `error` leaves a call of `execute`.  The next one is inside its `try` block, or inside a catch
clause, which it leaves as well (src/kernel/dynamic_environment.cpp L460-L493). -/
def unwind (K : Kernel) (x : Value) : List Frame → Store → Result
  | [], S => .uncaught x S
  | .catching :: fs, S => unwind K x fs S
  | .waiting i _ _ _ :: fs, S => if isNull S.handler then unwind K x fs S else applyHandler K i x fs S

/-- `catch (error & thrown)` (L473-L483) in a machine of environment `i`. -/
def catchError (K : Kernel) (i : Nat) (x : Value) (fs : List Frame) (S : Store) : Result :=
  if isNull S.handler then unwind K x fs S else applyHandler K i x fs S

/-- `catch (object const& thrown)` (L460-L472). -/
def catchObject (K : Kernel) (x : Value) (fs : List Frame) (S : Store) : Result :=
  if K.isError x S.cells then unwind K x fs S
  else
    let (x, cells) := K.uncaught x S.cells
    unwind K x fs { S with cells }

/-- A primitive procedure called by the machine `m` of environment `i`
(src/kernel/dynamic_environment.cpp L217-L229, L264-L276). -/
def perform (K : Kernel) (i : Nat) (tail : Bool) (m : Regs) (fs : List Frame) : Effect → Result
  | .value v S =>
    match resume tail m v with
    | some m => .next ⟨i, m, fs, S⟩
    | none => .stuck
  | .error x S => catchError K i x fs S
  | .object x S => catchObject K x fs S
  | .exit n S => .exit n S
  | .run j c S k => .next ⟨j, ⟨[], .nil, c, .nil⟩, .waiting i tail m k :: fs, S⟩
  | .undefined => .stuck

/-- `execute` returns `v` (L458, L477, L489). -/
def leave (K : Kernel) (v : Value) (S : Store) : List Frame → Result
  | [] => .done v S
  | .catching :: fs => leave K v S fs
  | .waiting i tail m k :: fs => perform K i tail m fs (k v S)

/-- The primitive procedure that is called next, with its operands, and the registers without them
(L217-L229, L264-L276). -/
def callee (m : Regs) : Option (Nat × Value × Bool × Regs) :=
  match m.c, m.s with
  | .call :: c, .prim p :: xs :: s => some (p, xs, false, ⟨s, m.e, c, m.d⟩)
  | .tailCall :: _, .prim p :: xs :: _ => some (p, xs, true, ⟨[], m.e, [], m.d⟩)
  | _, _ => none

/-- The primitive procedures are dealt with before `Secd.step` is used
(auxiliary to src/kernel/dynamic_environment.cpp L217-L229). -/
def noPrims : Prims := fun _ _ _ => .undefined

/-- One turn of the fetch loop (src/kernel/dynamic_environment.cpp L54-L459). -/
def step (K : Kernel) (C : Config) : Result :=
  match callee C.m with
  | some (p, xs, tail, m) => perform K C.i tail m C.frames (K.prims p xs C.S)
  | none =>
    match Secd.step noPrims ⟨C.m.s, C.m.e, C.m.c, C.m.d, C.S.heap C.i⟩ with
    | .next st => .next ⟨C.i, ⟨st.s, st.e, st.c, st.d⟩, C.frames, C.S.put C.i st.h⟩
    | .halt v h => leave K v (C.S.put C.i h) C.frames
    | .raise f h =>
      let (x, cells) := K.notApplicable f h.cells
      catchError K C.i x C.frames { C.S.put C.i h with cells }
    | .stuck => .stuck

/-- How a run that is cut off after a number of steps stands (src/kernel/dynamic_environment.cpp L47-L494). -/
inductive Outcome where
  | running (C : Config)
  | done (v : Value) (S : Store)
  | uncaught (x : Value) (S : Store)
  | exit (n : Int) (S : Store)
  | stuck

/-- `n` steps (src/kernel/dynamic_environment.cpp L54-L459). -/
def run (K : Kernel) : Nat → Config → Outcome
  | 0, C => .running C
  | n + 1, C =>
    match step K C with
    | .next C => run K n C
    | .done v S => .done v S
    | .uncaught x S => .uncaught x S
    | .exit n S => .exit n S
    | .stuck => .stuck

/-- `execute(c)` (L39-L45) in environment `i`, from C++. -/
def start (i : Nat) (c : Code) (S : Store) : Config := ⟨i, ⟨[], .nil, c, .nil⟩, [], S⟩

/-- What `compile` does (src/kernel/syntactic_environment.hpp L37-L40): it makes code, or throws an error;
`done` is for the forms that `evaluate` treats itself (environment.cpp L31-L62). -/
inductive Compiled where
  | code (c : Code) (S : Store)
  | error (x : Value) (S : Store)
  | done (v : Value) (S : Store)

/-- `compile` in each environment (src/kernel/syntactic_environment.cpp L31-L34). -/
abbrev Compiler := Nat → Value → Store → Compiled

/-- `environment::evaluate` (environment.cpp L29-L65). -/
def evaluate (compile : Compiler) (i : Nat) (x : Value) (S : Store) : Effect :=
  match compile i x S with
  | .code c S => .run i c S .value
  | .error x S => .error x S
  | .done v S => .value v S

/-- `eval` (boot.cpp L120): `cadr(xs).as<environment>().evaluate(car(xs))`. -/
def evalPrim (compile : Compiler) (asEnvironment : Value → Option Nat) (xs : Value) (S : Store) : Effect :=
  match S.cells.head xs 0, (S.cells.head xs 1).bind asEnvironment with
  | some x, some i => evaluate compile i x S
  | _, _ => .undefined

/-- The loop of `environment::load` (environment.cpp L186-L200) over the data of the file. -/
def load (compile : Compiler) (i : Nat) : List Value → Store → Effect
  | [], S => .value (.datum .unspecified) S
  | x :: xs, S => (evaluate compile i x S).bind fun _ S => load compile i xs S

end Meevax.Execute
