import Verif.Lemmas.ExecuteFlat

/-!
C85: `eval` and `load`.
-/

namespace Meevax.Execute

open Meevax.Secd

/-- The machine `C` calls a primitive procedure that evaluates the code `c` in environment `j`, and does `k`
with the result. -/
def Evaluates (K : Kernel) (C : Config) (tail : Bool) (m : Regs) (j : Nat) (c : Code) (S : Store)
    (k : Value → Store → Effect) : Prop :=
  ∃ p xs, callee C.m = some (p, xs, tail, m) ∧ K.prims p xs C.S = .run j c S k

theorem Evaluates.step {K : Kernel} {C : Config} {tail : Bool} {m : Regs} {j : Nat} {c : Code} {S : Store}
    {k : Value → Store → Effect} (h : Evaluates K C tail m j c S k) :
    Execute.step K C = .next ⟨j, ⟨[], .nil, c, .nil⟩, [] ++ .waiting C.i tail m k :: C.frames, S⟩ := by
  obtain ⟨p, xs, h₁, h₂⟩ := h
  simp only [Execute.step, h₁, h₂, perform, List.nil_append]

/-- C85: what the expression does by itself, whatever it is (it may use continuations, raise errors, call
`eval` in turn), decides what happens at the call.  If it has a value, then after some steps the procedure
goes on with the value and the store, and the caller has the stack, environment, control and dump it had.
If an error leaves it, then the error is raised at the call.  If it exits, gets stuck or runs forever, so
does the call. -/
theorem C85_eval {K : Kernel} {C : Config} {tail : Bool} {m : Regs} {j : Nat} {c : Code} {S : Store}
    {k : Value → Store → Effect} (h : Evaluates K C tail m j c S k) (n : Nat) :
    (∀ v S', run K n (start j c S) = .done v S' →
      ∃ r, r ≤ n ∧ ∀ l, run K (r + 1 + l) C = (perform K C.i tail m C.frames (k v S')).go K l) ∧
    (∀ x S', run K n (start j c S) = .uncaught x S' →
      ∃ r, r ≤ n ∧ ∀ l, run K (r + 1 + l) C = (catchError K C.i x C.frames S').go K l) ∧
    (∀ z S', run K n (start j c S) = .exit z S' → run K (n + 1) C = .exit z S') ∧
    (run K n (start j c S) = .stuck → run K (n + 1) C = .stuck) ∧
    (∀ C', run K n (start j c S) = .running C' →
      run K (n + 1) C = .running { C' with frames := C'.frames ++ .waiting C.i tail m k :: C.frames }) := by
  have hs := h.step
  have hr : ∀ l, run K (l + 1) C =
      run K l { start j c S with frames := (start j c S).frames ++ .waiting C.i tail m k :: C.frames } :=
    fun l => by rw [run_succ, hs]; rfl
  obtain ⟨h₁, h₂, h₃, h₄, h₅⟩ := run_append K (.waiting C.i tail m k :: C.frames) n (C := start j c S)
  refine ⟨?_, ?_, ?_, ?_, ?_⟩
  · intro v S' hd
    obtain ⟨r, hr', hl⟩ := h₂ v S' hd
    refine ⟨r + 1, hr', fun l => ?_⟩
    have : r + 1 + 1 + l = (r + 1 + l) + 1 := by omega
    rw [this, hr, hl]
    rfl
  · intro x S' hd
    obtain ⟨r, hr', hl⟩ := h₃ x S' hd
    refine ⟨r + 1, hr', fun l => ?_⟩
    have : r + 1 + 1 + l = (r + 1 + l) + 1 := by omega
    rw [this, hr, hl]
    rfl
  · intro z S' hd; rw [hr]; exact h₄ z S' hd
  · intro hd; rw [hr]; exact h₅ hd
  · intro C' hd; rw [hr]; exact h₁ C' hd

/-- C85: after `(eval expression environment)` the caller goes on with the value. -/
theorem C85_eval_value {K : Kernel} {compile : Compiler} {asEnvironment : Value → Option Nat} {p : Nat}
    (hp : K.prims p = evalPrim compile asEnvironment) {i j : Nat} {s : List Value} {e : Value} {code : Code} {d : Dump}
    {fs : List Frame} {S S₁ S₂ : Store} {xs x env v : Value} {c : Code} {n : Nat}
    (hx : S.cells.head xs 0 = some x) (he : S.cells.head xs 1 = some env) (hj : asEnvironment env = some j)
    (hc : compile j x S = .code c S₁) (hv : run K n (start j c S₁) = .done v S₂) :
    ∃ r, r ≤ n ∧ run K (r + 1) ⟨i, ⟨.prim p :: xs :: s, e, .call :: code, d⟩, fs, S⟩ =
      .running ⟨i, ⟨v :: s, e, code, d⟩, fs, S₂⟩ := by
  have h : Evaluates K ⟨i, ⟨.prim p :: xs :: s, e, .call :: code, d⟩, fs, S⟩ false ⟨s, e, code, d⟩ j c S₁ .value :=
    ⟨p, xs, rfl, by rw [hp]; simp only [evalPrim, hx, he, Option.bind_some, hj, evaluate, hc]⟩
  obtain ⟨r, hr, hl⟩ := (C85_eval h n).1 v S₂ hv
  exact ⟨r, hr, by have := hl 0; rw [Nat.add_zero] at this; rw [this]; rfl⟩

theorem Effect.bind_run (j : Nat) (c : Code) (S : Store) (k f : Value → Store → Effect) :
    (Effect.run j c S k).bind f = .run j c S fun v S => (k v S).bind f := rfl

/-- C85: `load` evaluates what is in the file from the first to the last, each as by itself, and returns. -/
theorem C85_load {K : Kernel} {compile : Compiler} {j : Nat} {xs : List Value} {S S' : Store}
    (h : Loads K compile j xs S S') {i : Nat} {tail : Bool} {m m' : Regs} {fs : List Frame}
    (hm : resume tail m (.datum .unspecified) = some m') : ∃ n, ∀ l,
      (perform K i tail m fs (load compile j xs S)).go K (n + l) = run K l ⟨i, m', fs, S'⟩ := by
  induction h with
  | nil S => exact ⟨0, fun l => by simp only [load, perform, hm, Result.go, Nat.zero_add]⟩
  | @code x xs S S₁ S₂ S' c v n hc h ht ih =>
    obtain ⟨n', hn'⟩ := ih
    have hl : load compile j (x :: xs) S = .run j c S₁ fun _ S => load compile j xs S := by
      simp only [load, evaluate, hc, Effect.bind]
    obtain ⟨r, _, hr⟩ := (run_append K (.waiting i tail m (fun _ S => load compile j xs S) :: fs) n
      (C := start j c S₁)).2.1 v S₂ h
    refine ⟨r + 1 + n', fun l => ?_⟩
    rw [hl]
    have hr' := hr (n' + l)
    rw [← Nat.add_assoc] at hr'
    exact hr'.trans (hn' l)
  | @done x xs S S₁ S' v hc ht ih =>
    obtain ⟨n', hn'⟩ := ih
    have hl : load compile j (x :: xs) S = load compile j xs S₁ := by
      simp only [load, evaluate, hc, Effect.bind]
    exact ⟨n', fun l => by rw [hl]; exact hn' l⟩

/-- C85: without continuations and registers of the dynamic environment, and up to the first error, a program
that calls `eval`, also in expressions that `eval` evaluates, does what it would do on a single machine where
`eval` is a call of a procedure whose body is the expression. -/
theorem C85_call_partial {Q : Nat → Value → Store → Simple} {K : Kernel}
    (hK : ∀ p xs S, K.prims p xs S = (Q p xs S).effect)
    (hQ : ∀ p xs S j c S', Q p xs S = .eval j c S' →
      ∃ G form, (∀ g, Globals.syn G g ≠ some .callCC) ∧ compile G form = some c)
    {G : Globals} (hG : ∀ g, G.syn g ≠ some .callCC) {form : Form} {c : Code} (hc : compile G form = some c)
    (n i : Nat) (S : Store) :
    (∀ v S', flatRun Q K n ⟨[], .nil, c, .nil⟩ S = .done v S' → run K n (start i c S) = .done v S') ∧
    (∀ x S', flatRun Q K n ⟨[], .nil, c, .nil⟩ S = .raise x S' → isNull S'.handler = true →
      run K n (start i c S) = .uncaught x S') ∧
    (∀ z S', flatRun Q K n ⟨[], .nil, c, .nil⟩ S = .exit z S' → run K n (start i c S) = .exit z S') ∧
    (flatRun Q K n ⟨[], .nil, c, .nil⟩ S = .stuck → run K n (start i c S) = .stuck) ∧
    (∀ m S', flatRun Q K n ⟨[], .nil, c, .nil⟩ S = .next m S' →
      ∃ C', run K n (start i c S) = .running C' ∧ C'.S = S' ∧ C'.m.s = m.s ∧ C'.m.e = m.e) := by
  have hs : Same (start i c S) ⟨[], .nil, c, .nil⟩ S := ⟨rfl, rfl, rfl, .bottom (compile_top hG hc)⟩
  have h := sim_run (fun p xs S j c S' he => by
    obtain ⟨G, form, hG, hc⟩ := hQ p xs S j c S' he
    exact compile_top hG hc) hK n hs
  refine ⟨?_, ?_, ?_, ?_, ?_⟩
  · intro v S' hf; rw [hf] at h; exact h
  · intro x S' hf hn; rw [hf] at h; exact h hn
  · intro z S' hf; rw [hf] at h; exact h
  · intro hf; rw [hf] at h; exact h
  · intro m S' hf; rw [hf] at h
    obtain ⟨C', h₁, h₂⟩ := h
    exact ⟨C', h₁, h₂.S, h₂.s, h₂.e⟩

/-- C85: an error ends `load`: what comes after it in the file is not evaluated, and the error is raised at the
call of `load`. -/
theorem C85_load_error {K : Kernel} {compile : Compiler} {j : Nat} {xs : List Value} {S S₁ : Store}
    (h : Loads K compile j xs S S₁) {x y : Value} {S₂ : Store}
    (hx : compile j x S₁ = .error y S₂ ∨
      ∃ c S' n, compile j x S₁ = .code c S' ∧ run K n (start j c S') = .uncaught y S₂)
    (zs : List Value) {i : Nat} {tail : Bool} {m : Regs} {fs : List Frame} : ∃ n, ∀ l,
      (perform K i tail m fs (load compile j (xs ++ x :: zs) S)).go K (n + l) = (catchError K i y fs S₂).go K l := by
  induction h with
  | nil S =>
    rcases hx with hx | ⟨c, S', n, hc, hr⟩
    · exact ⟨0, fun l => by simp only [List.nil_append, load, evaluate, hx, Effect.bind, perform, Nat.zero_add]⟩
    · have hl : load compile j (x :: zs) S = .run j c S' fun _ S => load compile j zs S := by
        simp only [load, evaluate, hc, Effect.bind]
      obtain ⟨r, _, hr⟩ := (run_append K (.waiting i tail m (fun _ S => load compile j zs S) :: fs) n
        (C := start j c S')).2.2.1 y S₂ hr
      refine ⟨r + 1, fun l => ?_⟩
      rw [List.nil_append, hl]
      exact hr l
  | @code x' xs S S₁' S₂' S' c v n hc h ht ih =>
    obtain ⟨n', hn'⟩ := ih hx
    have hl : load compile j (x' :: (xs ++ x :: zs)) S = .run j c S₁' fun _ S => load compile j (xs ++ x :: zs) S := by
      simp only [load, evaluate, hc, Effect.bind]
    obtain ⟨r, _, hr⟩ := (run_append K (.waiting i tail m (fun _ S => load compile j (xs ++ x :: zs) S) :: fs) n
      (C := start j c S₁')).2.1 v S₂' h
    refine ⟨r + 1 + n', fun l => ?_⟩
    rw [List.cons_append, hl]
    have hr' := hr (n' + l)
    rw [← Nat.add_assoc] at hr'
    exact hr'.trans (hn' l)
  | @done x' xs S S₁' S' v hc ht ih =>
    obtain ⟨n', hn'⟩ := ih hx
    have hl : load compile j (x' :: (xs ++ x :: zs)) S = load compile j (xs ++ x :: zs) S₁' := by
      simp only [load, evaluate, hc, Effect.bind]
    exact ⟨n', fun l => by rw [List.cons_append, hl]; exact hn' l⟩

/-! ### Concrete programs -/

/-- Symbols for the programs below: 0 `eval`, 1 `g`, 2 `n`, 3 `catch`, 4 `cons`, 5 `throw`, and from 20 on the
syntax. -/
def names : Globals where
  free x := x
  syn g := match g with
    | 20 => some .begin
    | 21 => some .lambda
    | 22 => some .set
    | 23 => some .quote
    | 24 => some .callCC
    | 25 => some .current
    | 26 => some .install
    | _ => none

def list : List Form → Form
  | [] => .nil
  | x :: xs => .cons x (list xs)

def quoted (x : Form) : Form := list [.sym 23, x]

/-- A compiler for finitely many expressions. -/
def table (t : List (Form × Code)) : Compiler := fun _ x S =>
  match x with
  | .datum f =>
    match t.find? fun p => p.1 = f with
    | some p => .code p.2 S
    | none => .error (.datum (.atom 901)) S
  | _ => .error (.datum (.atom 901)) S

def numbered : Value → Option Nat
  | .datum (.atom j) => some j
  | _ => none

/-- `eval`, `cons`, `throw`; an error object is a pair of the atom 900 and its payload. -/
def sample (t : List (Form × Code)) : Kernel where
  prims p xs S := match p with
    | 0 => evalPrim (table t) numbered xs S
    | 4 => match S.cells.head xs 0, S.cells.head xs 1 with
      | some a, some d => .value (.pair S.cells.next) { S with cells := S.cells.cons a d }
      | _, _ => .undefined
    | 5 => match S.cells.head xs 0 with
      | some x => .object x S
      | none => .undefined
    | _ => .undefined
  isError v h := match v with
    | .pair l => match (h.cell l).1 with
      | .datum (.atom 900) => true
      | _ => false
    | _ => false
  copy x h := (x, h)
  uncaught x h := (.pair h.next, h.cons (.datum (.atom 900)) x)
  notApplicable x h := (.pair h.next, h.cons (.datum (.atom 900)) x)

/-- A value as a datum. -/
def reify : Nat → Cells → Value → Form
  | _, _, .datum f => f
  | n + 1, h, .pair l => .cons (reify n h (h.cell l).1) (reify n h (h.cell l).2)
  | _, _, _ => .undefined

/-- The value of a program that has ended, and the variable `g`. -/
def result (g : Nat) : Outcome → Option (Form × Form)
  | .done v S => some (reify 9 S.cells v, reify 9 S.cells (S.globals g))
  | _ => none

def emptyStore (globals : Nat → Value) : Store :=
  ⟨⟨fun _ => (.nil, .nil), 0⟩, globals, fun _ _ => .nil, .nil⟩

/-- The hypotheses of `C85_eval_value` are met: `(eval '(g) env)` where `g` is a procedure that returns. -/
example : let K := sample [(list [.sym 1], [.loadConstant .nil, .loadAbsolute 1, .call, .stop])]
    let S : Store := emptyStore fun _ => .closure [.loadConstant (.sym 100), .ret] .nil
    K.prims 0 = evalPrim (table [(list [.sym 1], [.loadConstant .nil, .loadAbsolute 1, .call, .stop])]) numbered ∧
    (match run K 6 (start 0 [.loadConstant .nil, .loadAbsolute 1, .call, .stop] S) with
      | .done v S => reify 9 S.cells v = .sym 100
      | _ => False) := ⟨rfl, rfl⟩

/-- The hypotheses of `C85_load` and `C85_load_error` are met: two data are evaluated, and at the third an
object is thrown. -/
example : let t := [(Form.sym 1, [Instr.loadConstant (.sym 100), .storeAbsolute 2, .stop]),
      (.sym 2, [.loadAbsolute 2, .storeAbsolute 3, .stop]),
      (.sym 3, [.loadConstant .nil, .loadConstant (.sym 101), .cons, .loadAbsolute 5, .call, .stop])]
    let S : Store := emptyStore fun g => if g = 5 then .prim 5 else .nil
    ∃ S', Loads (sample t) (table t) 0 [.datum (.sym 1), .datum (.sym 2)] S S' ∧ S'.globals 3 = .datum (.sym 100) ∧
      ∃ c S₁ y S₂, table t 0 (.datum (.sym 3)) S' = .code c S₁ ∧ run (sample t) 5 (start 0 c S₁) = .uncaught y S₂ :=
  ⟨_, .code (n := 3) rfl rfl (.code (n := 3) rfl rfl (.nil _)), rfl, _, _, _, _, rfl, rfl⟩

/-- The hypotheses of `C85_call_partial` are met: `(eval)` is the value of `'a`. -/
example : let Q : Nat → Value → Store → Simple := fun _ _ S => .eval 0 [.loadConstant (.sym 100), .stop] S
    let K : Kernel := { sample [] with prims := fun p xs S => (Q p xs S).effect }
    compile names (list [.sym 0]) = some [.loadConstant .nil, .loadAbsolute 0, .call, .stop] ∧
    compile { names with syn := fun g => if g = 23 then some .quote else none } (quoted (.sym 100)) =
      some [.loadConstant (.sym 100), .stop] ∧
    (match flatRun Q K 6 ⟨[], .nil, [.loadConstant .nil, .loadAbsolute 0, .call, .stop], .nil⟩ (emptyStore fun _ => .prim 0) with
      | .done v _ => v = .datum (.sym 100)
      | _ => False) := by
  refine ⟨?_, ?_, rfl⟩
  · simp [compile, list, names, generate, genOperand, keyword, identify, scanScopes, loadInstr]
  · simp [compile, list, quoted, names, generate, genOperand, keyword, identify, scanScopes, loadInstr]

/-- `(g 'a)` -/
def escapeExpression : Form := list [.sym 1, quoted (.sym 100)]

/-- `(begin (catch (lambda (k) (set! g k) (eval '(g 'a) env))) (set! n (cons 'x n)))` -/
def escapeProgram : Form :=
  list [.sym 20,
    list [.sym 3, list [.sym 21, list [.sym 7], list [.sym 22, .sym 1, .sym 7],
      list [.sym 0, quoted escapeExpression, quoted (.atom 0)]]],
    list [.sym 22, .sym 2, list [.sym 4, quoted (.sym 101), .sym 2]]]

/-- `(lambda (f) (call-with-current-continuation! f))` -/
def catchDefinition : Form := list [.sym 21, list [.sym 7], list [.sym 24, .sym 7]]

def escapeCode : Code :=
  [.loadConstant .nil, .loadConstant (.sym 100), .cons, .loadAbsolute 1, .call, .stop]

def catchCode : Code := [.loadContinuation [.ret], .loadRelative 0 0, .tailCall]

def escapeProgramCode : Code :=
  [.loadConstant .nil,
   .loadClosure [.loadRelative 0 0, .storeAbsolute 1, .drop, .loadConstant .nil, .loadConstant (.atom 0), .cons,
     .loadConstant escapeExpression, .cons, .loadAbsolute 0, .tailCall],
   .cons, .loadAbsolute 3, .call, .drop,
   .loadConstant .nil, .loadAbsolute 2, .cons, .loadConstant (.sym 101), .cons, .loadAbsolute 4, .call,
   .storeAbsolute 2, .stop]

def escapeGlobals : Nat → Value
  | 0 => .prim 0
  | 3 => .closure catchCode .nil
  | 4 => .prim 4
  | _ => .nil

/-- Not so: an expression that leaves by a continuation of the program outside of the `eval` goes on there once.
The rest of the program is evaluated twice: in the machine that `eval` started, and, since that machine ends
at the end of the program, once more after the `eval`.  Here `n` should be `(x)` in the end. -/
theorem C85_escape_fails :
    compile names escapeProgram = some escapeProgramCode ∧ compile names escapeExpression = some escapeCode ∧
    compile names catchDefinition = some [.loadClosure catchCode, .stop] ∧
    result 2 (run (sample [(escapeExpression, escapeCode)]) 60 (start 0 escapeProgramCode (emptyStore escapeGlobals))) =
      some (list [.sym 101, .sym 101], list [.sym 101, .sym 101]) := by
  refine ⟨?_, ?_, ?_, ?_⟩
  · simp [compile, escapeProgram, escapeProgramCode, escapeExpression, list, quoted, names, generate, genOperand, genBody,
      keyword, identify, scanScopes, scanFormals, loadInstr, storeInstr, genSequence]
  · simp [compile, escapeCode, escapeExpression, list, quoted, names, generate, genOperand,
      keyword, identify, scanScopes, loadInstr]
  · simp [compile, catchDefinition, catchCode, list, names, generate, genBody, genOperand,
      keyword, identify, scanScopes, scanFormals, loadInstr]
  · rfl

/-- `(current 1)` -/
def dynamicExpression : Form := list [.sym 25, .atom 1]

/-- `(begin (install 1 'a) (eval '(current 1) env))` -/
def dynamicProgram (j : Nat) : Form :=
  list [.sym 20, list [.sym 26, .atom 1, quoted (.sym 100)], list [.sym 0, quoted dynamicExpression, quoted (.atom j)]]

def dynamicProgramCode (j : Nat) : Code :=
  [.loadConstant (.sym 100), .install 1, .drop, .loadConstant .nil, .loadConstant (.atom j), .cons,
   .loadConstant dynamicExpression, .cons, .loadAbsolute 0, .call, .stop]

/-- Not so: the expression sees the parameters and exception handlers of the caller.  The registers where the
library keeps them belong to the environment: with the environment of the program as the second argument of
`eval` it sees them, with another one it does not. -/
theorem C85_dynamic_fails :
    (∀ j, compile names (dynamicProgram j) = some (dynamicProgramCode j)) ∧
    compile names dynamicExpression = some [.current 1, .stop] ∧
    (let K := sample [(dynamicExpression, [.current 1, .stop])]
     (result 2 (run K 60 (start 0 (dynamicProgramCode 0) (emptyStore escapeGlobals)))).map (·.1) = some (.sym 100) ∧
     (result 2 (run K 60 (start 0 (dynamicProgramCode 1) (emptyStore escapeGlobals)))).map (·.1) = some .nil) := by
  refine ⟨fun j => ?_, ?_, rfl, rfl⟩
  · simp [compile, dynamicProgram, dynamicProgramCode, dynamicExpression, list, quoted, names, generate, genOperand,
      keyword, identify, scanScopes, loadInstr, genSequence]
  · simp [compile, dynamicExpression, list, names, generate, keyword, identify, scanScopes]

/-- `(throw 'a)` -/
def throwExpression : Form := list [.sym 5, quoted (.sym 100)]

/-- `(eval '(throw 'a) env)` -/
def throwProgram : Form := list [.sym 0, quoted throwExpression, quoted (.atom 0)]

def throwCode : Code := [.loadConstant .nil, .loadConstant (.sym 100), .cons, .loadAbsolute 5, .call, .stop]

def throwProgramCode : Code :=
  [.loadConstant .nil, .loadConstant (.atom 0), .cons, .loadConstant throwExpression, .cons, .loadAbsolute 0, .call, .stop]

def throwGlobals : Nat → Value
  | 0 => .prim 0
  | 5 => .prim 5
  | _ => .nil

/-- Not so: an object thrown in the expression is handed to the exception handler of the caller.  The handler,
here `(lambda (x) x)`, gets an error object instead that says that an exception was not caught. -/
theorem C85_condition_fails :
    compile names throwProgram = some throwProgramCode ∧ compile names throwExpression = some throwCode ∧
    (result 2 (run (sample [(throwExpression, throwCode)]) 60 (start 0 throwProgramCode
      { emptyStore throwGlobals with handler := .closure [.loadRelative 0 0, .ret] .nil }))).map (·.1) =
      some (.cons (.atom 900) (.sym 100)) := by
  refine ⟨?_, ?_, rfl⟩
  · simp [compile, throwProgram, throwProgramCode, throwExpression, list, quoted, names, generate, genOperand,
      keyword, identify, scanScopes, loadInstr]
  · simp [compile, throwCode, throwExpression, list, quoted, names, generate, genOperand,
      keyword, identify, scanScopes, loadInstr]

/-- `(g)` -/
def loopExpression : Form := list [.sym 1]

/-- `(lambda () (eval '(g) env))` -/
def loopDefinition : Form := list [.sym 21, .nil, list [.sym 0, quoted loopExpression, quoted (.atom 0)]]

def loopCode : Code := [.loadConstant .nil, .loadAbsolute 1, .call, .stop]

def loopBody : Code :=
  [.loadConstant .nil, .loadConstant (.atom 0), .cons, .loadConstant loopExpression, .cons, .loadAbsolute 0, .tailCall]

def loopGlobals : Nat → Value
  | 0 => .prim 0
  | 1 => .closure loopBody .nil
  | _ => .nil

/-- Not so: `eval` evaluates its argument as in tail position.  The loop `(define (g) (eval '(g) env))` nests one
machine in another each time, without bound. -/
theorem C85_tail_fails :
    compile names loopExpression = some loopCode ∧ compile names loopDefinition = some [.loadClosure loopBody, .stop] ∧
    ∀ k, ∃ n C, run (sample [(loopExpression, loopCode)]) n (start 0 loopCode (emptyStore loopGlobals)) = .running C ∧
      C.frames.length = k := by
  refine ⟨?_, ?_, ?_⟩
  · simp [compile, loopExpression, loopCode, list, names, generate, genOperand, keyword, identify, scanScopes, loadInstr]
  · simp [compile, loopDefinition, loopBody, loopExpression, list, quoted, names, generate, genBody, genOperand, keyword,
      identify, scanScopes, scanFormals, loadInstr]
  · have round : ∀ (S : Store) (fs : List Frame), S.globals = loopGlobals →
        ∃ S' f, S'.globals = loopGlobals ∧ run (sample [(loopExpression, loopCode)]) 10 ⟨0, ⟨[], .nil, loopCode, .nil⟩, fs, S⟩ =
          .running ⟨0, ⟨[], .nil, loopCode, .nil⟩, f :: fs, S'⟩ := by
      intro S fs hS
      obtain ⟨⟨cell, next⟩, globals, regs, handler⟩ := S
      cases hS
      exact ⟨⟨_, loopGlobals, _, handler⟩, .waiting 0 true _ .value, rfl, by
        simp [run, step, callee, loopCode, loopGlobals, loopBody, Secd.step, Store.heap, Store.put, sample, evalPrim, evaluate,
          Cells.head, Cells.tail, Cells.car, Cells.cdr, Cells.cons, perform, table, numbered, Secd.call, Result.ofOption, Secd.tailCall]
        exact ⟨rfl, rfl, rfl, rfl⟩⟩
    intro k
    have : ∃ n S fs, S.globals = loopGlobals ∧ fs.length = k ∧
        run (sample [(loopExpression, loopCode)]) n (start 0 loopCode (emptyStore loopGlobals)) =
          .running ⟨0, ⟨[], .nil, loopCode, .nil⟩, fs, S⟩ := by
      induction k with
      | zero => exact ⟨0, _, [], rfl, rfl, rfl⟩
      | succ k ih =>
        obtain ⟨n, S, fs, hS, hf, hr⟩ := ih
        obtain ⟨S', f, hS', hr'⟩ := round S fs hS
        exact ⟨n + 10, S', f :: fs, hS', by simp [hf], by rw [run_add _ _ _ hr, hr']⟩
    obtain ⟨n, S, fs, _, hf, hr⟩ := this
    exact ⟨n, _, hr, hf⟩

end Meevax.Execute
