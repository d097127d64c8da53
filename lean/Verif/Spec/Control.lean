import Verif.Model.Control

/-
What R7RS (6.10, 4.2.6, 6.11) says about dynamic extents, parameters and exception handlers, for the
machine of Model/Control: which extents the running code is inside of, read off its continuation; what
a log of entries and exits must look like; what a jump must do.
-/

namespace Meevax.Control

section
variable {C W S P : Type}

/-- A log (the newest event first) in which extents are entered and left like brackets: only the
innermost is left, none is entered twice; `open` are the identities of the extents that are still
entered, the innermost first. -/
inductive Balanced : List Event → List Nat → Prop
  | nil : Balanced [] []
  | enter {log i ids} : Balanced log ids → i ∉ ids → Balanced (.enter i :: log) (i :: ids)
  | leave {log i ids} : Balanced log (i :: ids) → Balanced (.leave i :: log) ids

/-- The extents whose bodies the code on top of this stack is part of. -/
def lexical : Stack C W P → Extents C P
  | [] => []
  | .next _ :: s => lexical s
  | .entered _ _ _ :: s => lexical s
  | .body e :: s => e :: lexical s
  | .result _ :: s => lexical s
  -- an `after` runs outside of its own extent
  | .unwound source _ :: _ => source.tail
  | .unwoundLast source _ :: _ => source.tail
  -- so does a `before`
  | .rewound target :: _ => target.tail
  | .rethrow _ :: s => lexical s
  -- the kernel calls its exception handler in the extents of the failing call
  | .stop xs :: _ => xs
  -- no code runs on top of these
  | .rewinding _ :: _ => []
  | .finish _ :: _ => []
  | .resume _ _ :: _ => []

/-- The bindings in force in a list of extents: those of the innermost `parameterize`. -/
def bindingsOf : Extents C P → List (P × Nat)
  | [] => []
  | e :: rest =>
    match e.before with
    | .setBindings b => b
    | _ => bindingsOf rest

/-- The handlers in force in a list of extents: those of the innermost `with-exception-handler` (or
call of a handler). -/
def handlersOf : Extents C P → List C
  | [] => []
  | e :: rest =>
    match e.before with
    | .setHandlers h => h
    | _ => handlersOf rest

/-- Is this the frame of an `after` called because of a jump? -/
def Frame.isAfter : Frame C W P → Bool
  | .unwound _ _ => true
  | .unwoundLast _ _ => true
  | _ => false

/-- Is the code on top of this stack part of an `after` called because of a jump? -/
def insideAfter (s : Stack C W P) : Bool := s.any Frame.isAfter

/-- Does this action look at the current dynamic extents? -/
def Action.escapes : Action C W P → Bool
  | .callcc _ _ => true
  | .jump _ _ => true
  | .fault _ => true
  | _ => false

variable [DecidableEq P]

/-- What the user's code is about to do. -/
def nextAction (pr : Program C W S P) (s : Config C W S P) : Option (Action C W P) :=
  match s.mode with
  | .run c w => some (pr.step c w s.user fun p => s.cells (cellOf s.bindings p)).2
  | _ => none

/-- An `after` that a jump calls neither captures a continuation, nor jumps, nor fails. -/
def Calm (pr : Program C W S P) (s : Config C W S P) : Prop :=
  ∀ a, nextAction pr s = some a → a.escapes = true → insideAfter s.stack = false

/-- Runs that only leave states with the property `q`. -/
inductive RunThrough (pr : Program C W S P) (q : Config C W S P → Prop) :
    Config C W S P → Config C W S P → Prop
  | refl (s) : RunThrough pr q s s
  | step {s t u} : RunThrough pr q s t → q t → step pr t = some u → RunThrough pr q s u

/-- Runs through calm states. -/
abbrev CalmRun (pr : Program C W S P) : Config C W S P → Config C W S P → Prop :=
  RunThrough pr (Calm pr)

/-- The value of a parameter. -/
def value (s : Config C W S P) (p : P) : W := s.cells (cellOf s.bindings p)

/-- Is the user's code about to assign to a parameter whose value is in this cell? -/
def Assigns (pr : Program C W S P) (s : Config C W S P) (c : Cell P) : Prop :=
  ∃ p w next, nextAction pr s = some (.assign p w next) ∧ cellOf s.bindings p = c

/-- `n` steps. -/
def steps (pr : Program C W S P) : Nat → Config C W S P → Option (Config C W S P)
  | 0, s => some s
  | n + 1, s => (step pr s).bind (steps pr n)

/-- A thunk that returns: to the stack it was called on, with the dynamic extents it was called in,
leaving no entry or exit in the log. It may change everything else. -/
def Returns (pr : Program C W S P) (t : Thunk C P) : Prop :=
  ∀ (s : Config C W S P) (stack : Stack C W P), ∃ n s' w,
    steps pr n (callThunk pr t stack s) = some s' ∧ s'.mode = .ret w ∧ s'.stack = stack ∧
      s'.extents = s.extents ∧ s'.log = s.log ∧
      ∀ (k : Nat) (x : Stack C W P × Extents C P), s.conts[k]? = some x → s'.conts[k]? = some x

omit [DecidableEq P] in
/-- The extents two lists share: the longest common suffix (the identities of pairs decide). -/
def commonLength (a b : List Nat) : Nat :=
  ((a.reverse.zip b.reverse).takeWhile fun x => x.1 == x.2).length

omit [DecidableEq P] in
/-- R7RS: what a jump from `source` to `target` does, the oldest event first: it leaves the extents it
gets out of, the innermost first, and enters those it gets into, the outermost first. -/
def jumpEvents (source target : List Nat) : List Event :=
  (source.take (source.length - commonLength source target)).map .leave ++
    ((target.take (target.length - commonLength source target)).reverse).map .enter

end

end Meevax.Control
