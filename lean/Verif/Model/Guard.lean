import Verif.Model.Control

/-
Model of `guard` (library/srfi-34.ss L104-L123) on the machine of Model/Control: the program with
`guard` is translated to one without it, the way the syntax-rules template is written. Each `lambda` of
the template is one piece of code, with the variables it refers to (`guard-k`, `handler-k`,
`condition`) as arguments.

Simplified: the user's values stand for what is passed to a continuation, one value or several (the
template passes them on with `call-with-values` and `apply`); the clauses (`guard-aux`, L71-L102) are
the user's code, which ends with `reraise` when no clause applies.
-/

namespace Meevax.Control

/-- What the user's code does next: an action of Model/Control, or one of the two things that `guard`
adds (library/srfi-34.ss L104-L123). -/
inductive GuardAction (C W P : Type) where
  | plain (a : Action C W P)
  /-- `(guard (var clause …) e1 e2 …)`: the code of `(let ((var condition)) (guard-aux … clause …))` for
  a condition and for a continuation `handler-k` (L114-L117), the code of `e1 e2 …`, and what is done
  with the value. -/
  | guard (clauses : W → Nat → C) (body next : C)
  /-- `(handler-k (lambda () (raise-continuable condition)))` (L115-L116), which `guard-aux` has where
  no clause applies. -/
  | reraise (handlerK : Nat) (condition : W)

/-- The user's program (the user of library/srfi-34.ss L104-L123). -/
structure GuardProgram (C W S P : Type) where
  step : C → W → S → (P → W) → S × GuardAction C W P
  convert : P → W → W
  ofCont : Nat → W
  unspecified : W

/-- The values: the user's, continuations, and the three thunks that the template makes
(library/srfi-34.ss L104-L123). -/
inductive GuardValue (C W : Type) where
  | user (w : W)
  | cont (k : Nat)
  /-- `(lambda () (let ((var condition)) (guard-aux … clause …)))` (L113-L117) -/
  | clauses (f : W → Nat → C) (condition : GuardValue C W) (handlerK : Nat)
  /-- `(lambda () (raise-continuable condition))` (L115-L116) -/
  | reraise (condition : W)
  /-- `(lambda () (apply values args))` (L122-L123) -/
  | values (args : GuardValue C W)

/-- The code (library/srfi-34.ss L104-L123). -/
inductive GuardCode (C W : Type) where
  | user (c : C)
  /-- `((call-with-current-continuation (lambda (guard-k) …)))` (L107) -/
  | enter (f : W → Nat → C) (body : C)
  /-- `(lambda (guard-k) (with-exception-handler …))` (L108-L109), given `guard-k` -/
  | install (f : W → Nat → C) (body : C)
  /-- `(lambda (condition) ((call-with-current-continuation …)))` (L110-L111), given `condition` -/
  | handler (f : W → Nat → C) (guardK : Nat)
  /-- `(lambda (handler-k) (guard-k …))` (L112-L113), given `handler-k` -/
  | escape (f : W → Nat → C) (guardK : Nat) (condition : GuardValue C W)
  /-- `(lambda () (call-with-values …))` (L118-L120) -/
  | body (body : C) (guardK : Nat)
  /-- `(lambda args (guard-k …))` (L121-L123), given `args` -/
  | leave (guardK : Nat)
  /-- the call of the thunk that `call-with-current-continuation` returns (L107, L111) -/
  | invoke
  /-- a tail position: the value is returned -/
  | tail

variable {C W S P : Type}

/-- What the user's code sees of a value (library/srfi-34.ss L110-L112). -/
def GuardProgram.view (pr : GuardProgram C W S P) : GuardValue C W → W
  | .user w => w
  | .cont k => pr.ofCont k
  | _ => pr.unspecified

/-- The actions of the user's code, on the values of the translated program
(auxiliary to library/srfi-34.ss L104-L123). -/
def Action.translate : Action C W P → Action (GuardCode C W) (GuardValue C W) P
  | .ret w => .ret (.user w)
  | .goto c w => .goto (.user c) (.user w)
  | .call c w next => .call (.user c) (.user w) (.user next)
  | .wind before thunk after next => .wind (.user before) (.user thunk) (.user after) (.user next)
  | .parameterize bindings thunk next =>
    .parameterize (bindings.map fun b => (b.1, .user b.2)) (.user thunk) (.user next)
  | .assign p w next => .assign p (.user w) (.user next)
  | .handle handler thunk next => .handle (.user handler) (.user thunk) (.user next)
  | .raise w => .raise (.user w)
  | .raiseContinuable w next => .raiseContinuable (.user w) (.user next)
  | .callcc body next => .callcc (.user body) (.user next)
  | .jump k w => .jump k (.user w)
  | .fault w => .fault (.user w)
  | .exit => .exit

/-- The actions of the user's code, translated (L106-L123). -/
def GuardAction.translate (pr : GuardProgram C W S P) :
    GuardAction C W P → Action (GuardCode C W) (GuardValue C W) P
  | .plain a => a.translate
  -- L107
  | .guard f body next => .call (.enter f body) (.user pr.unspecified) (.user next)
  -- L115
  | .reraise k condition => .jump k (.reraise condition)

/-- What each piece of the template does (srfi-34.ss L106-L123). -/
def GuardProgram.perform (pr : GuardProgram C W S P) :
    GuardCode C W → GuardValue C W → S → (P → W) → S × Action (GuardCode C W) (GuardValue C W) P
  | .user c, v, u, look =>
    let (u', a) := pr.step c (pr.view v) u look
    (u', a.translate pr)
  -- L107
  | .enter f body, _, u, _ => (u, .callcc (.install f body) .invoke)
  -- L109
  | .install f body, .cont k, u, _ => (u, .handle (.handler f k) (.body body k) .tail)
  | .install _ _, _, u, _ => (u, .ret (.user pr.unspecified))
  -- L111
  | .handler f k, v, u, _ => (u, .callcc (.escape f k v) .invoke)
  -- L113
  | .escape f k v, .cont h, u, _ => (u, .jump k (.clauses f v h))
  | .escape _ _ _, _, u, _ => (u, .ret (.user pr.unspecified))
  -- L119-L120
  | .body body k, _, u, _ => (u, .call (.user body) (.user pr.unspecified) (.leave k))
  -- L122
  | .leave k, v, u, _ => (u, .jump k (.values v))
  -- L114
  | .invoke, .clauses f v h, u, _ => (u, .goto (.user (f (pr.view v) h)) (.user pr.unspecified))
  -- L116
  | .invoke, .reraise w, u, _ => (u, .raiseContinuable (.user w) .tail)
  -- L123
  | .invoke, .values v, u, _ => (u, .ret v)
  | .invoke, _, u, _ => (u, .ret (.user pr.unspecified))
  | .tail, v, u, _ => (u, .ret v)

/-- The program without `guard` (library/srfi-34.ss L104-L123). -/
def GuardProgram.translate (pr : GuardProgram C W S P) :
    Program (GuardCode C W) (GuardValue C W) S P where
  step c v u look := pr.perform c v u fun p => pr.view (look p)
  convert p v := .user (pr.convert p (pr.view v))
  ofCont := .cont
  unspecified := .user pr.unspecified

end Meevax.Control
