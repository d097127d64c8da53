/-
Model of dynamic extents: `dynamic-wind`, `call-with-current-continuation`, `exit`
(library/meevax.ss L43-L100), parameters (library/srfi-39.ss), exception handlers
(library/srfi-34.ss), on the auxiliary registers `a[0]`, `a[1]`, `a[2]` of the machine
(include/meevax/kernel/dynamic_environment.hpp L30-L38).

The user's program is any transition system: pieces of code `C` that look at a value, at the user's
state and at the parameters, change the user's state, and perform one `Action`. The machine executes
the library procedures the actions stand for, one step per call or return; its stack holds the
continuations of the calls inside the library procedures.

Simplified: all parameters exist from the start, their converters are functions that return; a
handler is a procedure (`procedure?` holds of it); primitives' exceptions are the action `fault`.
-/

namespace Meevax.Control

/-- What a thunk given to `dynamic-wind` does: the user's code, or one of the thunks
`(install-dynamic-bindings! bindings)` (srfi-39.ss L65, L67) and
`(install-exception-handlers! handlers)` (srfi-34.ss L39, L41). -/
inductive Thunk (C P : Type) where
  | code (c : C)
  | setBindings (bindings : List (P × Nat))
  | setHandlers (handlers : List C)

/-- An element `(before . after)` of the dynamic extents, with the identity of the pair that links
it to the outer extents (meevax.ss L60-L61). -/
structure Extent (C P : Type) where
  id : Nat
  before : Thunk C P
  after : Thunk C P

/-- A list of dynamic extents, the innermost first: the content of `a[0]` (library/meevax.ss L52-L60). -/
abbrev Extents (C P : Type) := List (Extent C P)

/-- `eq?` of two such lists: the same pair, or both empty (library/meevax.ss L71). -/
def sameCell {C P : Type} : Extents C P → Extents C P → Bool
  | [], [] => true
  | x :: _, y :: _ => x.id == y.id
  | _, _ => false

/-- What the user's code does next (library/meevax.ss L50; library/srfi-39.ss; library/srfi-34.ss L28). -/
inductive Action (C W P : Type) where
  /-- returns a value -/
  | ret (w : W)
  /-- a tail call -/
  | goto (c : C) (w : W)
  /-- a call, and where its value goes -/
  | call (c : C) (w : W) (next : C)
  /-- `(dynamic-wind before thunk after)` -/
  | wind (before thunk after next : C)
  /-- `(parameterize ((p w) …) thunk)` -/
  | parameterize (bindings : List (P × W)) (thunk next : C)
  /-- `(p w)` -/
  | assign (p : P) (w : W) (next : C)
  /-- `(with-exception-handler handler thunk)` -/
  | handle (handler thunk next : C)
  /-- `(raise w)` -/
  | raise (w : W)
  /-- `(raise-continuable w)` -/
  | raiseContinuable (w : W) (next : C)
  /-- `(call-with-current-continuation body)` -/
  | callcc (body next : C)
  /-- calls the `k`-th continuation that was captured -/
  | jump (k : Nat) (w : W)
  /-- an exception thrown by a primitive -/
  | fault (w : W)
  /-- `(exit)` -/
  | exit

/-- The user's program (the user of library/meevax.ss L50 and library/srfi-34.ss L28). -/
structure Program (C W S P : Type) where
  /-- The code, the value it is given, the user's state, the values of the parameters. -/
  step : C → W → S → (P → W) → S × Action C W P
  /-- The converters. -/
  convert : P → W → W
  /-- The value that stands for a continuation. -/
  ofCont : Nat → W
  /-- The unspecified value. -/
  unspecified : W

/-- The body of a `dynamic-wind`: the user's thunk, or
`(lambda () (inner x) (throw x))` of `raise` (srfi-34.ss L51-L55), or `(lambda () (inner x))` of
`raise-continuable` (srfi-34.ss L63-L66). -/
inductive Body (C W : Type) where
  | thunk (c : C)
  | handler (c : C) (w : W) (continuable : Bool)

/-- What is on the stack (library/meevax.ss L58-L100; library/srfi-34.ss L36-L67). -/
inductive Frame (C W P : Type) where
  /-- the user's code, after a call -/
  | next (c : C)
  /-- `(before)` is running (meevax.ss L59) -/
  | entered (before : Thunk C P) (body : Body C W) (after : Thunk C P)
  /-- `(thunk)` is running (meevax.ss L66); the extent it runs in -/
  | body (e : Extent C P)
  /-- `(after)` is running (meevax.ss L64); the result to return -/
  | result (w : W)
  /-- `((cdar from))` is running, `to` is not empty (meevax.ss L79) -/
  | unwound (source target : Extents C P)
  /-- `((cdar from))` is running, `to` is empty (meevax.ss L77) -/
  | unwoundLast (source target : Extents C P)
  /-- the inner `windup!` is running, before `((caar to))` (meevax.ss L74, L80) -/
  | rewinding (target : Extents C P)
  /-- `((caar to))` is running (meevax.ss L75, L82) -/
  | rewound (target : Extents C P)
  /-- the inner `windup!` is running, only `(install-dynamic-extents! to)` is left
  (meevax.ss L78, L83) -/
  | finish (target : Extents C P)
  /-- `windup!` is running, before `(continue x)` (meevax.ss L88-L89) -/
  | resume (k : Nat) (w : W)
  /-- the handler of `raise` is running, before `(throw x)` (srfi-34.ss L55) -/
  | rethrow (w : W)
  /-- the bottom of the stack of the nested call of `execute` that runs the exception handler of the
  kernel (dynamic_environment.cpp L30-L35, L473-L495); the extents it was called in -/
  | stop (extents : Extents C P)

/-- A stack (library/meevax.ss L58-L100). -/
abbrev Stack (C W P : Type) := List (Frame C W P)

/-- What the machine does next (library/meevax.ss L58-L100; library/srfi-34.ss L36-L67). -/
inductive Mode (C W P : Type) where
  /-- run the user's code -/
  | run (c : C) (w : W)
  /-- return a value to the stack -/
  | ret (w : W)
  /-- `(windup! from to)` -/
  | windup (source target : Extents C P)
  /-- the program has returned -/
  | returned (w : W)
  /-- `(throw x)` has left the machine -/
  | thrown (w : W)
  /-- `(emergency-exit)` has left the machine -/
  | exited
  /-- something that is not a continuation was called as one -/
  | stuck

/-- An extent is entered when its `before` has returned and left when its `after` is called
(library/meevax.ss L59, L64). -/
inductive Event where
  | enter (id : Nat)
  | leave (id : Nat)
  deriving DecidableEq

/-- Where a parameter's value is: the cell `make-parameter` made (srfi-39.ss L58), or one that
`parameterize` made (srfi-39.ss L70). -/
inductive Cell (P : Type) where
  | global (p : P)
  | bound (i : Nat)
  deriving DecidableEq

/-- The state of the machine. The log is not part of the program: it records what happens
(include/meevax/kernel/dynamic_environment.hpp L27-L34). -/
structure Config (C W S P : Type) where
  mode : Mode C W P
  stack : Stack C W P
  /-- `a[0]` -/
  extents : Extents C P
  /-- `a[1]` -/
  bindings : List (P × Nat)
  /-- `a[2]` -/
  handlers : List C
  /-- the values of the parameters -/
  cells : Cell P → W
  /-- the number of pairs made so far -/
  fresh : Nat
  /-- the continuations captured so far: the stack and the dynamic extents -/
  conts : List (Stack C W P × Extents C P)
  user : S
  /-- the newest event first -/
  log : List Event

section
variable {C W S P : Type} [DecidableEq P]

/-- The cell of a parameter: `assq` in the bindings, or the default (srfi-39.ss L51-L55). -/
def cellOf (bindings : List (P × Nat)) (p : P) : Cell P :=
  match bindings.find? (fun b => b.1 == p) with
  | some b => .bound b.2
  | none => .global p

/-- Calling a thunk (library/meevax.ss L59, L64, L75-L82). -/
def callThunk (pr : Program C W S P) (t : Thunk C P) (stack : Stack C W P) (s : Config C W S P) :
    Config C W S P :=
  match t with
  | .code c => { s with mode := .run c pr.unspecified, stack := stack }
  | .setBindings b => { s with mode := .ret pr.unspecified, stack := stack, bindings := b }
  | .setHandlers h => { s with mode := .ret pr.unspecified, stack := stack, handlers := h }

/-- Calling the body of a `dynamic-wind` (library/meevax.ss L66; library/srfi-34.ss L36-L67). -/
def callBody (pr : Program C W S P) (b : Body C W) (stack : Stack C W P) (s : Config C W S P) :
    Config C W S P :=
  match b with
  | .thunk c => { s with mode := .run c pr.unspecified, stack := stack }
  | .handler c w true => { s with mode := .run c w, stack := stack }
  | .handler c w false => { s with mode := .run c w, stack := .rethrow w :: stack }

/-- The cells `dynamic-bind` makes: `(map (lambda (parameter value) (cons parameter (parameter value
'convert))) parameters values)` (srfi-39.ss L69-L72), with the converter applied by L50. -/
def bindCells (pr : Program C W S P) : List (P × W) → Config C W S P → List (P × Nat) × Config C W S P
  | [], s => ([], s)
  | (p, w) :: rest, s =>
    let i := s.fresh
    let s' := { s with
      fresh := i + 1
      cells := fun c => if c = .bound i then pr.convert p w else s.cells c }
    let (bs, s'') := bindCells pr rest s'
    ((p, i) :: bs, s'')

/-- `with-exception-handlers` (srfi-34.ss L36-L41): `dynamic-wind` with thunks that install the new and
the old handlers. -/
def withHandlers (pr : Program C W S P) (new : List C) (body : Body C W) (stack : Stack C W P)
    (s : Config C W S P) : Config C W S P :=
  callThunk pr (.setHandlers new) (.entered (.setHandlers new) body (.setHandlers s.handlers) :: stack) s

/-- `raise` (srfi-34.ss L46-L56) and `raise-continuable` (srfi-34.ss L58-L67). -/
def raise (pr : Program C W S P) (w : W) (continuable : Bool) (stack : Stack C W P)
    (s : Config C W S P) : Config C W S P :=
  match s.handlers with
  | inner :: outer => withHandlers pr outer (.handler inner w continuable) stack s
  | [] => { s with mode := .thrown w }

/-- Performs an action of the user's code (library/meevax.ss L50; library/srfi-34.ss L28). -/
def perform (pr : Program C W S P) (s : Config C W S P) : Action C W P → Config C W S P
  | .ret w => { s with mode := .ret w }
  | .goto c w => { s with mode := .run c w }
  | .call c w next => { s with mode := .run c w, stack := .next next :: s.stack }
  | .wind before thunk after next =>
    -- meevax.ss L58-L59
    callThunk pr (.code before)
      (.entered (.code before) (.thunk thunk) (.code after) :: .next next :: s.stack) s
  | .parameterize bindings thunk next =>
    -- srfi-39.ss L63-L84
    let (inner, s') := bindCells pr bindings s
    let outer := s.bindings
    callThunk pr (.setBindings (inner ++ outer))
      (.entered (.setBindings (inner ++ outer)) (.thunk thunk) (.setBindings outer) ::
        .next next :: s.stack) s'
  | .assign p w next =>
    -- srfi-39.ss L48-L49
    { s with
      mode := .run next pr.unspecified
      cells := fun c => if c = cellOf s.bindings p then pr.convert p w else s.cells c }
  | .handle handler thunk next =>
    -- srfi-34.ss L43-L44
    withHandlers pr (handler :: s.handlers) (.thunk thunk) (.next next :: s.stack) s
  | .raise w => raise pr w false s.stack s
  | .raiseContinuable w next => raise pr w true (.next next :: s.stack) s
  | .callcc body next =>
    -- meevax.ss L84-L90
    { s with
      mode := .run body (pr.ofCont s.conts.length)
      stack := .next next :: s.stack
      conts := s.conts ++ [(.next next :: s.stack, s.extents)] }
  | .jump k w =>
    -- meevax.ss L87-L89
    match s.conts[k]? with
    | some (_, extents) =>
      { s with mode := .windup s.extents extents, stack := .resume k w :: s.stack }
    | none => { s with mode := .stuck }
  | .fault w =>
    -- dynamic_environment.cpp L473-L497: `apply(exception_handler, …)`, which is `raise`
    -- (srfi-34.ss L69), on a stack of its own
    raise pr w false [.stop s.extents] s
  | .exit =>
    -- meevax.ss L92-L100. The library does not import `letrec` (L46), so that the body is a call, whose
    -- last operand `(emergency-exit . xs)` is evaluated first (`C41_exit_code`)
    { s with mode := .exited }

/-- Returns a value to the stack (library/meevax.ss L58-L100; library/srfi-34.ss L36-L67). -/
def returnTo (pr : Program C W S P) (w : W) (s : Config C W S P) : Config C W S P :=
  match s.stack with
  | [] => { s with mode := .returned w }
  | .next c :: rest => { s with mode := .run c w, stack := rest }
  | .entered before body after :: rest =>
    -- meevax.ss L60-L61, L66
    let e : Extent C P := ⟨s.fresh, before, after⟩
    callBody pr body (.body e :: rest)
      { s with
        extents := e :: s.extents
        fresh := s.fresh + 1
        log := .enter s.fresh :: s.log }
  | .body e :: rest =>
    -- meevax.ss L63-L64
    callThunk pr e.after (.result w :: rest)
      { s with
        extents := s.extents.tail
        log := .leave e.id :: s.log }
  | .result w' :: rest => { s with mode := .ret w', stack := rest }
  | .unwound source target :: rest =>
    -- meevax.ss L80-L81
    { s with mode := .windup source.tail target.tail, stack := .rewinding target :: rest }
  | .unwoundLast source target :: rest =>
    -- meevax.ss L78
    { s with mode := .windup source.tail target, stack := .finish target :: rest }
  | .rewinding target :: rest =>
    -- meevax.ss L75, L82
    match target with
    | e :: _ => callThunk pr e.before (.rewound target :: rest) s
    | [] => { s with mode := .stuck }
  | .rewound target :: rest =>
    -- meevax.ss L83
    match target with
    | e :: _ =>
      { s with
        mode := .ret pr.unspecified
        stack := rest
        extents := target
        log := .enter e.id :: s.log }
    | [] => { s with mode := .stuck }
  | .finish target :: rest =>
    -- meevax.ss L83
    { s with mode := .ret pr.unspecified, stack := rest, extents := target }
  | .resume k w' :: _ =>
    -- meevax.ss L89
    match s.conts[k]? with
    | some (stack, _) => { s with mode := .ret w', stack := stack }
    | none => { s with mode := .stuck }
  | .rethrow w' :: _ => { s with mode := .thrown w' }
  | .stop _ :: _ => { s with mode := .returned w }

/-- `(windup! from to)` (meevax.ss L69-L83). -/
def windup (pr : Program C W S P) (source target : Extents C P) (s : Config C W S P) : Config C W S P :=
  -- L70
  let s := { s with extents := source }
  -- L71
  if sameCell source target then
    -- L72, L83
    { s with mode := .ret pr.unspecified, extents := target }
  else
    match source, target with
    | [], _ :: outer =>
      -- L73-L75
      { s with mode := .windup source outer, stack := .rewinding target :: s.stack }
    | e :: _, [] =>
      -- L76-L78
      callThunk pr e.after (.unwoundLast source target :: s.stack)
        { s with log := .leave e.id :: s.log }
    | e :: _, _ :: _ =>
      -- L79-L82
      callThunk pr e.after (.unwound source target :: s.stack)
        { s with log := .leave e.id :: s.log }
    | [], [] => { s with mode := .stuck }

/-- One step; `none` when the program has ended (library/meevax.ss L58-L100; library/srfi-34.ss L36-L67). -/
def step (pr : Program C W S P) (s : Config C W S P) : Option (Config C W S P) :=
  match s.mode with
  | .run c w =>
    let (user, action) := pr.step c w s.user fun p => s.cells (cellOf s.bindings p)
    some (perform pr { s with user := user } action)
  | .ret w => some (returnTo pr w s)
  | .windup source target => some (windup pr source target s)
  | .returned _ => none
  | .thrown _ => none
  | .exited => none
  | .stuck => none

/-- The start of a program (include/meevax/kernel/dynamic_environment.hpp L34). -/
def start (c : C) (w : W) (user : S) (cells : Cell P → W) : Config C W S P :=
  { mode := .run c w, stack := [], extents := [], bindings := [], handlers := [], cells := cells,
    fresh := 0, conts := [], user := user, log := [] }

end

end Meevax.Control
