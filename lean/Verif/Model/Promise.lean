/-
Model of promises (library/srfi-45.ss): `lazy` (`delay-force`), `delay`, `eager` (`make-promise`),
`force`, `promise?` (exported by library/r7rs.ss L474).

As in Model/Control the user's program is any transition system. A promise is a pair `(tag . box)`, a box
is a pair `(done? . value)` (srfi-45.ss L13-L14); both are objects that can be assigned to.

Simplified: no continuations are captured; only the procedures of the library touch promises (they are
pairs, so `set-car!` and the like could).
-/

namespace Meevax.Promise

/-- The expression of a promise: of `lazy` (L39-L42), of `delay` (L44-L47), or the `(delay x)` in `eager`
(L49-L51). -/
inductive Kind (C W : Type) where
  | lazy (c : C)
  | delay (c : C)
  | constant (w : W)

/-- A thunk `(lambda () …)`; the promise it was made for is remembered for the log (library/srfi-45.ss L42, L47). -/
structure Thunk (C W : Type) where
  origin : Nat
  kind : Kind C W

/-- `(done? . value)` (library/srfi-45.ss L13-L14). -/
inductive Box (C W : Type) where
  | pending (t : Thunk C W)
  | done (w : W)

/-- The car of a promise: the object `<promise>` (L11), or a box. -/
inductive Car where
  | tag
  | box (i : Nat)
  deriving DecidableEq

/-- A promise `(car . box)` (library/srfi-45.ss L13-L14). -/
structure Obj where
  car : Car
  cdr : Nat

/-- What the user's code does next (the procedures of library/srfi-45.ss L9, called from the user's code). -/
inductive Action (C W : Type) where
  | ret (w : W)
  | goto (c : C) (w : W)
  | call (c : C) (w : W) (next : C)
  /-- `(lazy expression)` -/
  | lazy (c : C) (next : C)
  /-- `(delay expression)` -/
  | delay (c : C) (next : C)
  /-- `(eager w)` -/
  | eager (w : W) (next : C)
  /-- `(promise? w)` -/
  | isPromise (w : W) (next : C)
  /-- `(force w)`, and where its value goes -/
  | force (w : W) (next : C)
  /-- `(force w)` in tail position -/
  | forceTail (w : W)

/-- The user's program (library/srfi-45.ss L9). -/
structure Program (C W S : Type) where
  step : C → W → S → S × Action C W
  ofPromise : Nat → W
  toPromise : W → Option Nat
  toPromise_ofPromise : ∀ i, toPromise (ofPromise i) = some i
  ofBool : Bool → W
  unspecified : W

/-- What is on the stack (library/srfi-45.ss L30-L37). -/
inductive Frame (C : Type) where
  /-- the user's code, after a call -/
  | next (c : C)
  /-- the expression of `(promise #t expression)` is running (L47) -/
  | wrap
  /-- `((promise-value promise))` is running (L37) -/
  | forced (p : Nat)

/-- What the machine does next (library/srfi-45.ss L30-L51). -/
inductive Mode (C W : Type) where
  | run (c : C) (w : W)
  | ret (w : W)
  /-- `(force promise)` -/
  | force (p : Nat)
  | returned (w : W)
  /-- an error of `cadr` or `cddr` -/
  | stuck

/-- The state. The log, newest first, is not part of the program: it records which promise's expression
was started by forcing which promise (auxiliary to library/srfi-45.ss L30-L37). -/
structure Config (C W S : Type) where
  mode : Mode C W
  stack : List (Frame C)
  /-- the promises made so far -/
  objects : List Obj
  /-- the boxes made so far -/
  boxes : List (Box C W)
  user : S
  log : List (Nat × Nat)

variable {C W S : Type}

/-- `(promise done? value)` (L13-L14). -/
def make (pr : Program C W S) (b : Box C W) (s : Config C W S) : W × Config C W S :=
  (pr.ofPromise s.objects.length,
    { s with objects := s.objects ++ [⟨.tag, s.boxes.length⟩], boxes := s.boxes ++ [b] })

/-- The promise made next (library/srfi-45.ss L13-L14). -/
def nextOrigin (s : Config C W S) : Nat := s.objects.length

/-- `promise?` (L16-L19). Simplified: of the pairs only promises are looked at. -/
def isPromise (pr : Program C W S) (s : Config C W S) (w : W) : Bool :=
  match pr.toPromise w with
  | some p =>
    match s.objects[p]? with
    | some o => o.car == .tag
    | none => false
  | none => false

/-- The box of a promise: its cdr (library/srfi-45.ss L21-L23). -/
def boxOf (s : Config C W S) (p : Nat) : Option (Box C W) :=
  match s.objects[p]? with
  | some o => s.boxes[o.cdr]?
  | none => none

/-- `promise-done?` (L21). -/
def isDone (s : Config C W S) (p : Nat) : Bool :=
  match boxOf s p with
  | some (.done _) => true
  | _ => false

/-- `(promise-update! new old)` (L25-L28). -/
def update (new old : Nat) (s : Config C W S) : Config C W S :=
  match s.objects[new]?, s.objects[old]? with
  | some n, some o =>
    match s.boxes[n.cdr]? with
    | some b =>
      { s with
        -- L26-L27
        boxes := s.boxes.set o.cdr b
        -- L28
        objects := s.objects.set new { n with car := .box o.cdr } }
    | none => s
  | _, _ => s

/-- Calls the thunk of a promise (library/srfi-45.ss L37). -/
def callThunk (pr : Program C W S) (p : Nat) (t : Thunk C W) (s : Config C W S) : Config C W S :=
  let s := { s with log := (p, t.origin) :: s.log }
  match t.kind with
  | .lazy c => { s with mode := .run c pr.unspecified, stack := .forced p :: s.stack }
  | .delay c => { s with mode := .run c pr.unspecified, stack := .wrap :: .forced p :: s.stack }
  | .constant w => { s with mode := .ret w, stack := .wrap :: .forced p :: s.stack }

/-- `force` (L30-L37). -/
def force (pr : Program C W S) (p : Nat) (s : Config C W S) : Config C W S :=
  match boxOf s p with
  | some (.done w) => { s with mode := .ret w }
  | some (.pending t) => callThunk pr p t s
  | none => { s with mode := .stuck }

/-- `(force w)` for any value (library/srfi-45.ss L30-L32). -/
def startForce (pr : Program C W S) (w : W) (s : Config C W S) : Config C W S :=
  match pr.toPromise w with
  | some p => { s with mode := .force p }
  | none => { s with mode := .stuck }

/-- Performs an action of the user's code (library/srfi-45.ss L9). -/
def perform (pr : Program C W S) (s : Config C W S) : Action C W → Config C W S
  | .ret w => { s with mode := .ret w }
  | .goto c w => { s with mode := .run c w }
  | .call c w next => { s with mode := .run c w, stack := .next next :: s.stack }
  | .lazy c next =>
    let (w, s) := make pr (.pending ⟨nextOrigin s, .lazy c⟩) s
    { s with mode := .run next w }
  | .delay c next =>
    let (w, s) := make pr (.pending ⟨nextOrigin s, .delay c⟩) s
    { s with mode := .run next w }
  | .eager w next =>
    if isPromise pr s w then { s with mode := .run next w }
    else
      let (w', s) := make pr (.pending ⟨nextOrigin s, .constant w⟩) s
      { s with mode := .run next w' }
  | .isPromise w next => { s with mode := .run next (pr.ofBool (isPromise pr s w)) }
  | .force w next => startForce pr w { s with stack := .next next :: s.stack }
  | .forceTail w => startForce pr w s

/-- Returns a value to the stack (library/srfi-45.ss L33-L36, L47). -/
def returnTo (pr : Program C W S) (w : W) (s : Config C W S) : Config C W S :=
  match s.stack with
  | [] => { s with mode := .returned w }
  | .next c :: rest => { s with mode := .run c w, stack := rest }
  | .wrap :: rest =>
    -- L47
    let (w', s) := make pr (.done w) s
    { s with mode := .ret w', stack := rest }
  | .forced p :: rest =>
    -- L33-L36
    match pr.toPromise w with
    | some q =>
      if isDone s p then { s with mode := .force p, stack := rest }
      else
        match boxOf s q with
        | some _ => update q p { s with mode := .force p, stack := rest }
        | none => { s with mode := .stuck }
    | none =>
      if isDone s p then { s with mode := .force p, stack := rest } else { s with mode := .stuck }

/-- One step; `none` when the program has ended (library/srfi-45.ss L30-L51). -/
def step (pr : Program C W S) (s : Config C W S) : Option (Config C W S) :=
  match s.mode with
  | .run c w =>
    let (user, action) := pr.step c w s.user
    some (perform pr { s with user := user } action)
  | .ret w => some (returnTo pr w s)
  | .force p => some (force pr p s)
  | .returned _ => none
  | .stuck => none

/-- The start of a program (auxiliary to library/srfi-45.ss L9). -/
def start (c : C) (w : W) (user : S) : Config C W S :=
  { mode := .run c w, stack := [], objects := [], boxes := [], user := user, log := [] }

end Meevax.Promise
