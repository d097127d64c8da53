import Verif.Model.Execute

/-!
What `eval`, and errors found by the system, should do.
-/

namespace Meevax.Execute

open Meevax.Secd

/-! ### One machine for everything: `eval` is a call -/

/-- What a primitive procedure that does not go on after an evaluation does. -/
inductive Simple where
  | value (v : Value) (S : Store)
  | error (x : Value) (S : Store)
  | object (x : Value) (S : Store)
  | exit (n : Int) (S : Store)
  /-- the result is the value of the expression with the code `c`, in environment `j` -/
  | eval (j : Nat) (c : Code) (S : Store)
  | undefined

def Simple.effect : Simple → Effect
  | .value v S => .value v S
  | .error x S => .error x S
  | .object x S => .object x S
  | .exit n S => .exit n S
  | .eval j c S => .run j c S .value
  | .undefined => .undefined

/-- The code of an expression, as the body of a procedure: it returns where it would stop. -/
def asBody : Code → Code
  | [] => []
  | [.stop] => [.ret]
  | i :: c => i :: asBody c

inductive Flat where
  | next (m : Regs) (S : Store)
  | done (v : Value) (S : Store)
  | raise (x : Value) (S : Store)
  | exit (n : Int) (S : Store)
  | stuck
  /-- no claim is made: continuations, the auxiliary registers, and `stop` in the body of a procedure -/
  | outside

/-- The instructions about which no claim is made. -/
def special : Regs → Bool
  | ⟨_, _, .loadContinuation _ :: _, _⟩ => true
  | ⟨_, _, .current _ :: _, _⟩ => true
  | ⟨_, _, .install _ :: _, _⟩ => true
  | ⟨.cont _ _ _ _ :: _, _, .call :: _, _⟩ => true
  | ⟨.cont _ _ _ _ :: _, _, .tailCall :: _, _⟩ => true
  | ⟨_, _, .stop :: _, .code _ _⟩ => true
  | ⟨_, _, .stop :: _, .frame _ _ _ _⟩ => true
  | _ => false

/-- One step of a single machine.  `eval` enters the code of the expression as `%call` enters the body of a
closure, and as `%tail-call` does if it is called that way. -/
def flatStep (Q : Nat → Value → Store → Simple) (K : Kernel) (m : Regs) (S : Store) : Flat :=
  match callee m with
  | some (p, xs, tail, m) =>
    match Q p xs S with
    | .value v S =>
      match resume tail m v with
      | some m => .next m S
      | none => .stuck
    | .error x S => .raise x S
    | .object x S =>
      if K.isError x S.cells then .raise x S
      else .raise (K.uncaught x S.cells).1 { S with cells := (K.uncaught x S.cells).2 }
    | .exit n S => .exit n S
    | .eval _ c S => .next ⟨[], .nil, asBody c, if tail then m.d else .frame m.s m.e m.c m.d⟩ S
    | .undefined => .stuck
  | none =>
    if special m then .outside
    else
      match Secd.step noPrims ⟨m.s, m.e, m.c, m.d, ⟨S.cells, S.globals, fun _ => .nil⟩⟩ with
      | .next st => .next ⟨st.s, st.e, st.c, st.d⟩ { S with cells := st.h.cells, globals := st.h.globals }
      | .halt v _ => .done v S
      | .raise f _ => .raise (K.notApplicable f S.cells).1 { S with cells := (K.notApplicable f S.cells).2 }
      | .stuck => .stuck

/-- `n` steps. -/
def flatRun (Q : Nat → Value → Store → Simple) (K : Kernel) : Nat → Regs → Store → Flat
  | 0, m, S => .next m S
  | n + 1, m, S =>
    match flatStep Q K m S with
    | .next m S => flatRun Q K n m S
    | r => r

/-- Instructions after which the code goes on with the next one. -/
def Inner : Instr → Bool
  | .tailSelect _ _ => false
  | .join => false
  | .tailCall => false
  | .tailLetrec => false
  | .ret => false
  | .stop => false
  | _ => true

/-- Code at the outermost level: nothing leaves it before the final `stop`. -/
def Top (c : Code) : Prop := ∃ p, (∀ i ∈ p, Inner i = true) ∧ c = p ++ [.stop]

/-! ### Errors without nesting -/

/-- The calls of `execute` that wait for a primitive procedure. -/
def evals (fs : List Frame) : List Frame :=
  fs.filter fun f => match f with
    | .waiting _ _ _ _ => true
    | .catching => false

def Config.evals (C : Config) : Config := { C with frames := Execute.evals C.frames }

def Outcome.evals : Outcome → Outcome
  | .running C => .running C.evals
  | o => o

/-- An error at this point would be handed to the exception handler. -/
def faults (K : Kernel) (C : Config) : Bool :=
  match callee C.m with
  | some (p, xs, _, _) =>
    match K.prims p xs C.S with
    | .error _ S => !isNull S.handler
    | _ => false
  | none =>
    match Secd.step noPrims ⟨C.m.s, C.m.e, C.m.c, C.m.d, C.S.heap C.i⟩ with
    | .raise _ _ => !isNull C.S.handler
    | _ => false

/-- The number of errors handed to the exception handler in the first `n` steps. -/
def errors (K : Kernel) : Nat → Config → Nat
  | 0, _ => 0
  | n + 1, C =>
    (if faults K C then 1 else 0) +
    match step K C with
    | .next C => errors K n C
    | _ => 0

/-- No primitive procedure evaluates expressions. -/
def NoEval (K : Kernel) : Prop := ∀ p xs S j c S' k, K.prims p xs S ≠ .run j c S' k

/-! ### `load` -/

/-- Evaluating data one after the other in environment `i`, each by itself, as in a new process with the same
store: the last store, or the error that ends it. -/
inductive Loads (K : Kernel) (compile : Compiler) (i : Nat) : List Value → Store → Store → Prop where
  | nil (S : Store) : Loads K compile i [] S S
  | code {x : Value} {xs : List Value} {S S₁ S₂ S' : Store} {c : Code} {v : Value} {n : Nat}
      (hc : compile i x S = .code c S₁) (h : run K n (start i c S₁) = .done v S₂)
      (ht : Loads K compile i xs S₂ S') : Loads K compile i (x :: xs) S S'
  | done {x : Value} {xs : List Value} {S S₁ S' : Store} {v : Value}
      (hc : compile i x S = .done v S₁) (ht : Loads K compile i xs S₁ S') : Loads K compile i (x :: xs) S S'

end Meevax.Execute
