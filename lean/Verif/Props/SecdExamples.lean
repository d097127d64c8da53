import Verif.Props.Secd

/-! Programs that meet the hypotheses of C34-C40, and programs that show where they fail. -/

namespace Meevax.Secd

open Scheme

/-- Names 0-9 are keywords, the others variables. -/
def G₀ : Globals where
  free := fun x => x
  syn := fun g =>
    match g with
    | 0 => some .quote
    | 1 => some .lambda
    | 2 => some .cond
    | 3 => some .set
    | 4 => some .define
    | 5 => some .letrec
    | 6 => some .begin
    | 7 => some .callCC
    | 8 => some .current
    | 9 => some .install
    | _ => none

/-- The globals 10-20 are the procedures of Model/Builtins.lean. -/
def globals₀ (i : Nat) : Base := if 10 ≤ i ∧ i ≤ 20 then .prim (i - 10) else .datum .undefined

def regs₀ (_ : Nat) : Base := .datum .undefined

/-- A list as a form. -/
def ls : List Form → Form
  | [] => .nil
  | x :: xs => .cons x (ls xs)

abbrev sy (x : Name) : Form := .sym x

/-- `(define app (lambda (x y) (if (null? x) y (cons (car x) (app (cdr x) y)))))` and
`(app '(1 2) '(3))`. -/
def appForms : List Form :=
  [ls [sy 4, sy 30, ls [sy 1, ls [sy 31, sy 32],
     ls [sy 2, ls [sy 17, sy 31], sy 32,
       ls [sy 10, ls [sy 11, sy 31], ls [sy 30, ls [sy 12, sy 31], sy 32]]]]],
   ls [sy 30, ls [sy 0, ls [.atom 1, .atom 2]], ls [sy 0, ls [.atom 3]]]]

def appExprs : List Expr :=
  [.set 30 (.lam [31, 32] none
     (.ite (.app (.var 17) [.var 31]) (.var 32)
       (.app (.var 10) [.app (.var 11) [.var 31],
         .app (.var 30) [.app (.var 12) [.var 31], .var 32]]))),
   .app (.var 30) [.const (ls [.atom 1, .atom 2]), .const (ls [.atom 3])]]

theorem keyword₀ {sc : Scopes} {x : Name} {s : Syntax} (h₁ : x ∉ names sc) (h₂ : G₀.syn x = some s) :
    IsKeyword G₀ sc x s := ⟨h₁, h₂⟩

theorem notKeyword₀ {sc : Scopes} {x : Name} (h : 10 ≤ x) : NotKeyword G₀ sc (.sym x) := by
  intro y hy
  cases hy
  refine .inr ?_
  simp only [G₀]
  split <;> first | rfl | exact absurd h (by decide)

theorem notKeywordPair {sc : Scopes} {a d : Form} : NotKeyword G₀ sc (.cons a d) := by
  intro y hy; cases hy

/-- Parse a concrete form. -/
macro "parse" : tactic => `(tactic|
  repeat' first
    | exact Parse.noArgs
    | exact Parse.noBinds
    | exact Parse.var _ _
    | exact ParseFormals.nil
    | exact ParseFormals.rest _
    | apply ParseFormals.cons
    | exact keyword₀ (by simp [names]) rfl
    | exact notKeyword₀ (by decide)
    | exact notKeywordPair
    | apply Parse.quote (q := 0)
    | apply Parse.lambda (q := 1)
    | apply Parse.cond (q := 2)
    | apply Parse.cond₁ (q := 2)
    | apply Parse.set (q := 3)
    | apply Parse.define (q := 4)
    | apply Parse.letrec (q := 5)
    | apply Parse.begin (q := 6)
    | apply Parse.callcc (q := 7)
    | apply Parse.arg
    | apply Parse.bind
    | apply Parse.last
    | apply Parse.more
    | exact Parse.self (by intro _ h; cases h) (by intro _ _ h; cases h)
    | apply Parse.app)

/-- Show that a concrete expression has no `call-with-current-continuation!`. -/
macro "plain" : tactic => `(tactic|
  repeat' first
    | apply Plain.const
    | apply Plain.var
    | apply Plain.lam
    | apply Plain.app
    | apply Plain.ite
    | apply Plain.set
    | apply Plain.letrec
    | apply Plain.seq
    | (intro _ h; cases h)
    | (rename_i h; cases h))

theorem app_parse : List.Forall₂ (fun f e => Parse G₀ [] f (.expr e)) appForms appExprs := by
  refine .cons ?_ (.cons ?_ .nil)
  · parse
  · parse

theorem app_plain : ∀ e ∈ appExprs, Plain e := by
  intro e he
  simp only [appExprs, List.mem_cons, List.not_mem_nil, or_false] at he
  rcases he with rfl | rfl
  · plain
  · plain

theorem app_behaves : ∃ o₁ o₂, Scheme.Behaves G₀.free Scheme.core (Scheme.initial globals₀ regs₀) appExprs
    [o₁, o₂] .finished ∧
    o₂ 9 = .pair (.datum (.atom 1)) (.pair (.datum (.atom 2)) (.datum (ls [.atom 3]))) :=
  ⟨_, _, .cons 5 rfl (.cons 200 rfl (.nil _)), rfl⟩

/-- C34 applies: the compiled program prints `(1 2 3)`. -/
theorem C34_example : ∃ codes outs,
    List.Forall₂ (fun f c => compile G₀ f = some c) appForms codes ∧
    Behaves core (Secd.initial globals₀ regs₀) codes outs .finished ∧
    outs[1]?.map (· 9) =
      some (.pair (.datum (.atom 1)) (.pair (.datum (.atom 2)) (.datum (ls [.atom 3])))) := by
  obtain ⟨o₁, o₂, hb, ho⟩ := app_behaves
  have hne : ¬ InError G₀.free Scheme.core (Scheme.initial globals₀ regs₀) appExprs :=
    fun h => behaves_not_faulty hb h.faulty
  obtain ⟨codes, h₁, h₂⟩ := C34_without_callcc_partial app_parse app_plain globals₀ regs₀ hne
  exact ⟨codes, _, h₁, (h₂ _ _).2 hb, by simpa using ho⟩

/-! ### Where C38 and C40 fail -/

/-- `((lambda (x) x))`. -/
def arityForm : Form := ls [ls [sy 1, ls [sy 31], sy 31]]

/-- **C40 fails** for calls with too few arguments: reading the missing argument is undefined
behaviour. -/
theorem C40_arity_fails : ∃ c, compile G₀ arityForm = some c ∧
    run core 5 (start c (Secd.initial globals₀ regs₀)) = .stuck := by
  refine ⟨[.loadConstant .nil, .loadClosure [.loadRelative 0 0, .ret], .call, .stop], ?_, rfl⟩
  have : Parse G₀ [] arityForm (.expr (.app (.lam [31] none (.var 31)) [])) := by
    unfold arityForm; parse
  exact (parse_generate this .nil _ _ (by simp)
    (.app _ (.lam _ _ _ (.var _ _)) (by simp)))

/-- `((lambda (x) x) 1 2)`. -/
def extraForm : Form := ls [ls [sy 1, ls [sy 31], sy 31], .atom 1, .atom 2]

/-- Calls with too many arguments are not noticed. -/
theorem C40_extra_argument_fails : ∃ c h, compile G₀ extraForm = some c ∧
    run core 20 (start c (Secd.initial globals₀ regs₀)) = .halt (.datum (.atom 1)) h := by
  refine ⟨[.loadConstant .nil, .loadConstant (.atom 2), .cons, .loadConstant (.atom 1), .cons,
    .loadClosure [.loadRelative 0 0, .ret], .call, .stop], _, ?_, rfl⟩
  have : Parse G₀ [] extraForm
      (.expr (.app (.lam [31] none (.var 31)) [.const (.atom 1), .const (.atom 2)])) := by
    unfold extraForm; parse
  exact (parse_generate this .nil _ _ (by simp)
    (.app _ (.lam _ _ _ (.var _ _)) (by simp; exact ⟨.const _ _, .const _ _⟩)))

/-- `(letrec ((x y) (y 1)) x)`. -/
def letrecForm : Form := ls [sy 5, ls [ls [sy 31, sy 32], ls [sy 32, .atom 1]], sy 31]

/-- **C40 fails** for the use of a `letrec` variable before its initialisation. -/
theorem C40_letrec_fails : ∃ c, compile G₀ letrecForm = some c ∧
    run core 9 (start c (Secd.initial globals₀ regs₀)) = .stuck := by
  refine ⟨[.dummy, .loadConstant .nil, .loadConstant (.atom 1), .cons, .loadRelative 0 1, .cons,
    .loadClosure [.loadRelative 0 0, .ret], .letrec, .stop], ?_, rfl⟩
  have : Parse G₀ [] letrecForm
      (.expr (.letrec [31, 32] [.var 32, .const (.atom 1)] (.var 31))) := by
    unfold letrecForm; parse
  exact (parse_generate this .nil _ _ (by simp)
    (.letrec _ _ rfl (by simp; exact ⟨.var _ _, .const _ _⟩) (.var _ _)))

/-- `(car 1)`. -/
def carForm : Form := ls [sy 11, .atom 1]

/-- **C40 fails** for `car` of what is no pair. -/
theorem C40_car_fails : ∃ c, compile G₀ carForm = some c ∧
    run core 9 (start c (Secd.initial globals₀ regs₀)) = .stuck := by
  refine ⟨[.loadConstant .nil, .loadConstant (.atom 1), .cons, .loadAbsolute 11, .call, .stop],
    ?_, rfl⟩
  have : Parse G₀ [] carForm (.expr (.app (.var 11) [.const (.atom 1)])) := by
    unfold carForm; parse
  exact (parse_generate this .nil _ _ (by simp) (.app _ (.var _ _) (by simp; exact .const _ _)))

/-- `(call-with-current-continuation! (lambda (k) 1))`. -/
def nontailForm : Form := ls [sy 7, ls [sy 1, ls [sy 31], .atom 1]]

def nontailExpr : Expr := .callcc (.lam [31] none (.const (.atom 1)))

theorem generate_callcc (f : Form) (bv : List Form) (k : Code) (tail : Bool)
    (hk : keyword G₀ (.sym 7) bv = some .callCC) : generate G₀ (ls [sy 7, f]) bv k tail =
      (generate G₀ f bv [.tailCall] tail).map (.loadContinuation k :: ·) := by
  rw [show ls [sy 7, f] = .cons (.sym 7) (.cons f .nil) from rfl]
  rw [generate.eq_def]; dsimp only; rw [hk]
  cases generate G₀ f bv [.tailCall] tail <;> rfl

/-- **C38 fails** for `call-with-current-continuation!` that is not in tail position: the receiver is
entered without a frame, and its return is undefined behaviour. -/
theorem C38_nontail_fails : Parse G₀ [] nontailForm (.expr nontailExpr) ∧
    (∃ σ, Scheme.run G₀.free Scheme.core 9 (toplevel nontailExpr (Scheme.initial globals₀ regs₀)) =
      .done (.datum (.atom 1)) σ) ∧
    ∃ c, compile G₀ nontailForm = some c ∧
      run core 9 (start c (Secd.initial globals₀ regs₀)) = .stuck := by
  refine ⟨by unfold nontailForm nontailExpr; parse, ⟨_, rfl⟩,
    [.loadContinuation [.stop], .loadClosure [.loadConstant (.atom 1), .ret], .tailCall], ?_, rfl⟩
  have : Parse G₀ [] (ls [sy 1, ls [sy 31], .atom 1]) (.expr (.lam [31] none (.const (.atom 1)))) := by
    parse
  unfold compile nontailForm
  rw [generate_callcc _ _ _ _ rfl,
    parse_generate this .nil _ _ (by simp) (.lam _ _ _ (.const _ _))]
  rfl

/-- `(define g (lambda () (lambda (k) 5)))` and `((lambda () (call-with-current-continuation! (g))))`. -/
def operandForms : List Form :=
  [ls [sy 4, sy 30, ls [sy 1, .nil, ls [sy 1, ls [sy 31], .atom 5]]],
   ls [ls [sy 1, .nil, ls [sy 7, ls [sy 30]]]]]

def operandExprs : List Expr :=
  [.set 30 (.lam [] none (.lam [31] none (.const (.atom 5)))),
   .app (.lam [] none (.callcc (.app (.var 30) []))) []]

def operandCodes : List Code :=
  [[.loadClosure [.loadClosure [.loadConstant (.atom 5), .ret], .ret], .storeAbsolute 30, .stop],
   [.loadConstant .nil, .loadClosure [.loadContinuation [.ret], .loadConstant .nil,
      .loadAbsolute 30, .tailCall], .call, .stop]]

/-- **C38 fails** for a receiver that is itself the value of a call: that call is compiled as a tail
call, and the receiver is returned instead of being called. -/
theorem C38_operand_call_fails :
    List.Forall₂ (fun f e => Parse G₀ [] f (.expr e)) operandForms operandExprs ∧
    List.Forall₂ (fun f c => compile G₀ f = some c) operandForms operandCodes ∧
    (∃ v σ, Scheme.evaluate G₀.free Scheme.core 20 operandExprs (Scheme.initial globals₀ regs₀) =
      some ([v, .datum (.atom 5)], σ)) ∧
    ∃ v c e h, evaluate core 20 operandCodes (Secd.initial globals₀ regs₀) =
      some ([v, .closure c e], h) := by
  have h₁ : Parse G₀ [] operandForms[0] (.expr operandExprs[0]) := by
    simp only [operandForms, operandExprs, List.getElem_cons_zero]; parse
  have h₂ : Parse G₀ [] operandForms[1] (.expr operandExprs[1]) := by
    simp only [operandForms, operandExprs, List.getElem_cons_succ, List.getElem_cons_zero]; parse
  refine ⟨.cons h₁ (.cons h₂ .nil), .cons ?_ (.cons ?_ .nil), ⟨_, _, rfl⟩, _, _, _, _, rfl⟩
  · exact parse_generate h₁ .nil _ _ (by simp)
      (.set _ _ (.lam _ _ _ (.lam _ _ _ (.const _ _))))
  · have h₃ : Parse G₀ [([], none)] (ls [sy 30]) (.expr (.app (.var 30) [])) := by parse
    have h₄ : generate G₀ (ls [sy 30]) [.nil] [.tailCall] true =
        some [.loadConstant .nil, .loadAbsolute 30, .tailCall] := by
      rw [show ls [sy 30] = .cons (.sym 30) .nil from rfl]
      rw [generate.eq_def]; dsimp only
      rw [show keyword G₀ (.sym 30) [.nil] = none from rfl]
      dsimp only
      rw [generate, Option.bind_eq_bind, Option.bind_some, genOperand.eq_def]; dsimp only
      rw [generate.eq_def]; rfl
    have h₅ : genBody G₀ (ls [ls [sy 7, ls [sy 30]]]) [.nil] [.ret] =
        some [.loadContinuation [.ret], .loadConstant .nil, .loadAbsolute 30, .tailCall] := by
      rw [show ls [ls [sy 7, ls [sy 30]]] = .cons (ls [sy 7, ls [sy 30]]) .nil from rfl, genBody,
        generate_callcc _ _ _ _ rfl, h₄]
      rfl
    have h₆ : ∀ k, generate G₀ (ls [sy 1, .nil, ls [sy 7, ls [sy 30]]]) [] k false =
        some (.loadClosure [.loadContinuation [.ret], .loadConstant .nil, .loadAbsolute 30,
          .tailCall] :: k) := by
      intro k
      rw [show ls [sy 1, .nil, ls [sy 7, ls [sy 30]]] =
        .cons (.sym 1) (.cons .nil (ls [ls [sy 7, ls [sy 30]]])) from rfl]
      rw [generate.eq_def]; dsimp only
      rw [show keyword G₀ (.sym 1) [] = some .lambda from rfl]
      dsimp only
      rw [h₅]; rfl
    unfold compile
    rw [show ls [ls [sy 1, .nil, ls [sy 7, ls [sy 30]]]] =
      .cons (ls [sy 1, .nil, ls [sy 7, ls [sy 30]]]) .nil from rfl]
    rw [generate.eq_def]; dsimp only
    rw [show keyword G₀ (ls [sy 1, .nil, ls [sy 7, ls [sy 30]]]) [] = none from rfl]
    dsimp only
    rw [h₆, Option.bind_eq_bind, Option.bind_some, genOperand.eq_def]; dsimp only
    rw [generate.eq_def]; rfl

/-- `(define f (lambda (x y) (set! y (cons x y)) y))`,
`(define c (lambda () (call-with-current-continuation! (lambda (k) (set! kk k) 1))))`,
`(f (c) '())` and `(kk 2)`. -/
def againForms : List Form :=
  [ls [sy 4, sy 30, ls [sy 1, ls [sy 31, sy 32],
     ls [sy 3, sy 32, ls [sy 10, sy 31, sy 32]], sy 32]],
   ls [sy 4, sy 33, ls [sy 1, .nil, ls [sy 7, ls [sy 1, ls [sy 31], ls [sy 3, sy 34, sy 31],
     .atom 1]]]],
   ls [sy 30, ls [sy 33], ls [sy 0, .nil]],
   ls [sy 34, .atom 2]]

def againExprs : List Expr :=
  [.set 30 (.lam [31, 32] none (.seq (.set 32 (.app (.var 10) [.var 31, .var 32])) (.var 32))),
   .set 33 (.lam [] none (.callcc (.lam [31] none (.seq (.set 34 (.var 31)) (.const (.atom 1)))))),
   .app (.var 30) [.app (.var 33) [], .const .nil],
   .app (.var 34) [.const (.atom 2)]]

def againCodes : List Code :=
  [[.loadClosure [.loadConstant .nil, .loadRelative 0 1, .cons, .loadRelative 0 0, .cons,
      .loadAbsolute 10, .call, .storeRelative 0 1, .drop, .loadRelative 0 1, .ret],
    .storeAbsolute 30, .stop],
   [.loadClosure [.loadContinuation [.ret],
      .loadClosure [.loadRelative 0 0, .storeAbsolute 34, .drop, .loadConstant (.atom 1), .ret],
      .tailCall], .storeAbsolute 33, .stop],
   [.loadConstant .nil, .loadConstant .nil, .cons, .loadConstant .nil, .loadAbsolute 33, .call,
    .cons, .loadAbsolute 30, .call, .stop],
   [.loadConstant .nil, .loadConstant (.atom 2), .cons, .loadAbsolute 34, .call, .stop]]

theorem again_parse : List.Forall₂ (fun f e => Parse G₀ [] f (.expr e)) againForms againExprs := by
  refine .cons ?_ (.cons ?_ (.cons ?_ (.cons ?_ .nil)))
  · parse
  · parse
  · parse
  · parse

/-- Show that a concrete expression has `call-with-current-continuation!` only where it may. -/
macro "placed" : tactic => `(tactic|
  repeat' first
    | apply Placed.const
    | apply Placed.var
    | apply Placed.lam
    | apply Placed.app
    | apply Placed.ite
    | apply Placed.set
    | apply Placed.seq
    | apply Placed.callccLam
    | (intro _ h; cases h)
    | (rename_i h; cases h))

theorem again_placed : ∀ e ∈ againExprs, Placed false e := by
  intro e he
  simp only [againExprs, List.mem_cons, List.not_mem_nil, or_false] at he
  rcases he with rfl | rfl | rfl | rfl
  · placed
  · placed
  · placed
  · placed

/-- **C38 and C37 fail** when the continuation of an operand is used again: the cells of the operands
that were evaluated before are the variables of the procedure that was called the first time.
`(kk 2)` should yield `(2)`, and yields `(2 1)`. -/
theorem C38_reentry_fails :
    List.Forall₂ (fun f e => Parse G₀ [] f (.expr e)) againForms againExprs ∧
    List.Forall₂ (fun f c => compile G₀ f = some c) againForms againCodes ∧
    (∃ v₁ v₂ v₃ v σ, Scheme.evaluate G₀.free Scheme.core 50 againExprs (Scheme.initial globals₀ regs₀) =
      some ([v₁, v₂, v₃, v], σ) ∧
      Scheme.view σ.pairs 9 v = .pair (.datum (.atom 2)) (.datum .nil)) ∧
    ∃ v₁ v₂ v₃ v h, evaluate core 50 againCodes (Secd.initial globals₀ regs₀) =
      some ([v₁, v₂, v₃, v], h) ∧
      Secd.view h.cells 9 v =
        .pair (.datum (.atom 2)) (.pair (.datum (.atom 1)) (.datum .nil)) := by
  exact ⟨again_parse, compile_forms again_parse again_placed, ⟨_, _, _, _, _, rfl, rfl⟩,
    _, _, _, _, _, rfl, rfl⟩

/-- C34 applies to the first three forms, and the machine prints `(1)`. -/
theorem C34_example_callcc : ∃ o₁ o₂ o₃, Behaves core (Secd.initial globals₀ regs₀)
    (againCodes.take 3) [o₁, o₂, o₃] .finished ∧
      o₃ 9 = .pair (.datum (.atom 1)) (.datum .nil) := by
  have hb : ∃ o₁ o₂ o₃, Scheme.Behaves G₀.free Scheme.core (Scheme.initial globals₀ regs₀)
      (againExprs.take 3) [o₁, o₂, o₃] .finished ∧
      o₃ 9 = .pair (.datum (.atom 1)) (.datum .nil) :=
    ⟨_, _, _, .cons 9 rfl (.cons 9 rfl (.cons 50 rfl (.nil _))), rfl⟩
  obtain ⟨o₁, o₂, o₃, hb, ho⟩ := hb
  obtain ⟨codes, h₁, h₂⟩ := C34_compiled_program_partial (Q := core) core_ok (es := againExprs.take 3)
    (forms := againForms.take 3)
    (by exact List.forall₂_take 3 again_parse)
    (fun e he => again_placed e (List.mem_of_mem_take he)) globals₀ regs₀ (behaves_not_faulty hb)
  have : codes = againCodes.take 3 := forall₂_unique compile_unique h₁
    (List.forall₂_take 3 (compile_forms again_parse again_placed))
  subst this
  exact ⟨o₁, o₂, o₃, (h₂ _ _).2 hb, ho⟩

end Meevax.Secd
