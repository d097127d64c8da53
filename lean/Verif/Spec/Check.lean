import Verif.Model.Check

/-!
SRFI 78 as its document describes it: the checks that have been completed since the last reset, oldest first,
each with its outcome, and the mode. Only the types of the interface (`Token`, `Op`, `User`) are those of the
model.
-/

namespace Meevax.Check.Spec

variable {V W : Type}

/-- The modes. -/
inductive Mode where
  | off | summary | reportFailed | report
  deriving DecidableEq

/-- The names of the modes. -/
def Mode.named : String → Option Mode
  | "off" => some .off
  | "summary" => some .summary
  | "report-failed" => some .reportFailed
  | "report" => some .report
  | _ => none

/-- A check that has been completed. -/
structure Done (V : Type) where
  expression : V
  actual : V
  expected : V
  passed : Bool

/-- What the library remembers, and the text and world of the program. -/
structure Sheet (V W : Type) where
  mode : Mode
  done : List (Done V)
  env : Env V W

/-- Print. -/
def print (tokens : List (Token V)) (env : Env V W) : Env V W := (env.1 ++ tokens, env.2)

/-- Print in some modes only. -/
def printIf (c : Prop) [Decidable c] (tokens : List (Token V)) (env : Env V W) : Env V W :=
  if c then print tokens env else env

/-- ` => ` after the expression. -/
def arrow (x : V) : List (Token V) := [.newline, .written x, .text " => "]
/-- The result. -/
def result (x : V) : List (Token V) := [.written x, .text " ; "]
/-- The verdict for a failed check. -/
def failedText (expected : V) : List (Token V) :=
  [.text "*** failed ***", .newline, .text " ; expected result: ", .written expected, .newline]

/-- A check. When checks are off nothing is evaluated. Otherwise the expected result, then the expression
are evaluated once, and compared once; a check counts when all of this returns. -/
def check (x : V) (expr : User V W V) (equal : V → V → User V W Bool) (expected : User V W V)
    (t : Sheet V W) : Sheet V W :=
  if t.mode = .off then t
  else
    match expected t.env with
    | (none, env) => { t with env := env }
    | (some e, env) =>
      match expr (printIf (t.mode = .report) (arrow x) env) with
      | (none, env) => { t with env := env }
      | (some a, env) =>
        match equal a e (printIf (t.mode = .report) (result a) env) with
        | (none, env) => { t with env := env }
        | (some true, env) =>
          { t with done := t.done ++ [⟨x, a, e, true⟩],
                   env := printIf (t.mode = .report) [.text "correct", .newline] env }
        | (some false, env) =>
          { t with done := t.done ++ [⟨x, a, e, false⟩],
                   env := printIf (t.mode = .report) (failedText e)
                     (printIf (t.mode = .reportFailed) (arrow x ++ result a ++ failedText e) env) }

/-- The summary: how many checks passed and failed, and, except in mode summary, the first of the failed
ones. -/
def summary (t : Sheet V W) : List (Token V) :=
  [.newline, .text "; *** checks *** : ", .count (t.done.countP fun d => d.passed), .text " correct, ",
    .count (t.done.countP fun d => !d.passed), .text " failed."] ++
  match t.done.find? fun d => !d.passed with
  | some d =>
    if t.mode = .summary then [.newline]
    else [.text " First failed example:", .newline] ++ arrow d.expression ++ result d.actual ++ failedText d.expected
  | none => [.newline]

/-- The report: the summary, unless checks are off. -/
def report (t : Sheet V W) : Sheet V W :=
  if t.mode = .off then t else { t with env := print (summary t) t.env }

/-- One operation; an unknown mode changes nothing. -/
def step : Op V W → Sheet V W → Sheet V W
  | .check x e q r, t => check x e q r t
  | .setMode m, t =>
    match Mode.named m with
    | some mode => { t with mode := mode }
    | none => t
  | .reset, t => { t with done := [] }
  | .report, t => report t
  | .other a, t => { t with env := (a t.env).2 }

/-- A program. -/
def run (ops : List (Op V W)) (t : Sheet V W) : Sheet V W := ops.foldl (fun t op => step op t) t

end Meevax.Check.Spec
