import Verif.Spec.Check

/-!
# C92: SRFI 78, lightweight testing
-/

namespace Meevax.Check
open Spec

variable {V W : Type}

/-- The number of a mode. -/
def number : Mode → Nat
  | .off => 0
  | .summary => 1
  | .reportFailed => 10
  | .report => 100

/-- The variables of the library hold what it has to remember. -/
structure Agrees (s : State V W) (t : Sheet V W) : Prop where
  mode : s.mode = number t.mode
  correct : s.correct = t.done.countP fun d => d.passed
  failed : s.failed = ((t.done.filter fun d => !d.passed).map fun d => ⟨d.expression, d.actual, d.expected⟩).reverse
  output : s.output = t.env.1
  world : s.world = t.env.2

theorem Agrees.env {s : State V W} {t : Sheet V W} (h : Agrees s t) : (s.output, s.world) = t.env := by
  rw [h.output, h.world]

theorem agrees_check {s : State V W} {t : Sheet V W} (h : Agrees s t) (x : V) (expr : User V W V)
    (equal : V → V → User V W Bool) (expected : User V W V) :
    Agrees ((Op.check x expr equal expected).perform s).2 (Spec.check x expr equal expected t) := by
  obtain ⟨mode, correct, failed, output, world⟩ := s
  obtain ⟨m, done, ⟨out, w⟩⟩ := t
  obtain ⟨h1, h2, h3, h4, h5⟩ := h
  simp only at h1 h2 h3 h4 h5
  subst h1 h4 h5
  have grow : ∀ (m : Mode) (d : Done V) (o : List (Token V)) (w : W),
      Agrees ⟨number m, if d.passed then correct + 1 else correct,
        if d.passed then failed else ⟨d.expression, d.actual, d.expected⟩ :: failed, o, w⟩
        ⟨m, done ++ [d], (o, w)⟩ := by
    intro m d o w
    cases hd : d.passed
    · refine ⟨rfl, ?_, ?_, rfl, rfl⟩
      · simp [h2, hd, List.countP_append]
      · simp [h3, hd, List.filter_append]
    · refine ⟨rfl, ?_, ?_, rfl, rfl⟩
      · simp [h2, hd, List.countP_append]
      · simp [h3, hd, List.filter_append]
  have keep : ∀ (m : Mode) (o : List (Token V)) (w : W),
      Agrees ⟨number m, correct, failed, o, w⟩ ⟨m, done, (o, w)⟩ := fun m o w => ⟨rfl, h2, h3, rfl, rfl⟩
  cases m with
  | off =>
    simp only [Op.perform, check, number, Spec.check, bind, Comp.bind, now, pure, Comp.ret]
    exact ⟨rfl, h2, h3, rfl, rfl⟩
  | summary =>
    rcases he : expected (output, world) with ⟨_ | e, o1, w1⟩
    · simp [Op.perform, check, number, Spec.check, bind, Comp.bind, now, embed, he]
      exact keep .summary o1 w1
    rcases ha : expr (o1, w1) with ⟨_ | a, o2, w2⟩
    · simp [Op.perform, check, proc, number, Spec.check, bind, Comp.bind, now, embed, he, ha, printIf]
      exact keep .summary o2 w2
    rcases hq : equal a e (o2, w2) with ⟨_ | _ | _, o3, w3⟩
    · simp [Op.perform, check, proc, number, Spec.check, bind, Comp.bind, now, embed, he, ha, hq, printIf]
      exact keep .summary o3 w3
    · simp [Op.perform, check, proc, number, Spec.check, bind, Comp.bind, now, embed, he, ha, hq, printIf,
        addFailed, change]
      exact grow .summary ⟨x, a, e, false⟩ o3 w3
    · simp [Op.perform, check, proc, number, Spec.check, bind, Comp.bind, now, embed, he, ha, hq, printIf,
        addCorrect, change]
      exact grow .summary ⟨x, a, e, true⟩ o3 w3
  | reportFailed =>
    rcases he : expected (output, world) with ⟨_ | e, o1, w1⟩
    · simp [Op.perform, check, number, Spec.check, bind, Comp.bind, now, embed, he]
      exact keep .reportFailed o1 w1
    rcases ha : expr (o1, w1) with ⟨_ | a, o2, w2⟩
    · simp [Op.perform, check, proc, number, Spec.check, bind, Comp.bind, now, embed, he, ha, printIf]
      exact keep .reportFailed o2 w2
    rcases hq : equal a e (o2, w2) with ⟨_ | _ | _, o3, w3⟩
    · simp [Op.perform, check, proc, number, Spec.check, bind, Comp.bind, now, embed, he, ha, hq, printIf]
      exact keep .reportFailed o3 w3
    · simp [Op.perform, check, proc, number, Spec.check, bind, Comp.bind, now, embed, he, ha, hq, printIf,
        addFailed, change, reportExpression, reportActual, reportFailed, newline, checkWrite, display, print, arrow,
        result, failedText]
      exact grow .reportFailed ⟨x, a, e, false⟩ _ w3
    · simp [Op.perform, check, proc, number, Spec.check, bind, Comp.bind, now, embed, he, ha, hq, printIf,
        addCorrect, change]
      exact grow .reportFailed ⟨x, a, e, true⟩ o3 w3
  | report =>
    rcases he : expected (output, world) with ⟨_ | e, o1, w1⟩
    · simp [Op.perform, check, number, Spec.check, bind, Comp.bind, now, embed, he]
      exact keep .report o1 w1
    rcases ha : expr (o1 ++ arrow x, w1) with ⟨_ | a, o2, w2⟩
    · simp only [arrow] at ha
      simp [Op.perform, check, proc, number, Spec.check, bind, Comp.bind, now, embed, he, ha, printIf, print, arrow,
        change, reportExpression, newline, checkWrite, display]
      exact keep .report o2 w2
    simp only [arrow] at ha
    rcases hq : equal a e (o2 ++ result a, w2) with ⟨_ | _ | _, o3, w3⟩
    · simp only [result] at hq
      simp [Op.perform, check, proc, number, Spec.check, bind, Comp.bind, now, embed, he, ha, hq, printIf, print, arrow,
        change, reportExpression, newline, checkWrite, display, reportActual, result]
      exact keep .report o3 w3
    · simp only [result] at hq
      simp [Op.perform, check, proc, number, Spec.check, bind, Comp.bind, now, embed, he, ha, hq, printIf, print, arrow,
        change, reportExpression, newline, checkWrite, display, reportActual, result, reportFailed, failedText, addFailed]
      exact grow .report ⟨x, a, e, false⟩ _ w3
    · simp only [result] at hq
      simp [Op.perform, check, proc, number, Spec.check, bind, Comp.bind, now, embed, he, ha, hq, printIf, print, arrow,
        change, reportExpression, newline, checkWrite, display, reportActual, result, reportCorrect, addCorrect]
      exact grow .report ⟨x, a, e, true⟩ _ w3

theorem agrees_report {s : State V W} {t : Sheet V W} (h : Agrees s t) :
    Agrees ((Op.report (V := V) (W := W)).perform s).2 (Spec.report t) := by
  obtain ⟨mode, correct, failed, output, world⟩ := s
  obtain ⟨m, done, ⟨out, w⟩⟩ := t
  obtain ⟨h1, h2, h3, h4, h5⟩ := h
  simp only at h1 h2 h3 h4 h5
  subst h1 h4 h5
  have hl : failed.length = done.countP fun d => !d.passed := by
    simp [h3, List.countP_eq_length_filter]
  have hf : (done.find? fun d => !d.passed) = (done.filter fun d => !d.passed).head? := by
    rw [List.head?_filter]
  have hr : failed.reverse = (done.filter fun d => !d.passed).map fun d => ⟨d.expression, d.actual, d.expected⟩ := by
    rw [h3, List.reverse_reverse]
  cases hd : done.filter fun d => !d.passed with
  | nil =>
    rw [hd] at hr hf
    cases m <;>
    simp [Op.perform, report, Spec.report, number, bind, Comp.bind, now, pure, Comp.ret, hr, hf, newline, display,
      displayCount, change, print, summary] <;>
    exact ⟨rfl, h2, h3, by simp [h2, hl, ← h3], rfl⟩
  | cons d ds =>
    rw [hd] at hr hf
    cases m <;>
    simp [Op.perform, report, Spec.report, number, bind, Comp.bind, now, pure, Comp.ret, hr, hf, newline, display,
      displayCount, change, print, summary, reportExpression, reportActual, reportFailed, checkWrite, arrow, result,
      failedText] <;>
    exact ⟨rfl, h2, h3, by simp [h2, hl, ← h3], rfl⟩

theorem agrees_step {s : State V W} {t : Sheet V W} (h : Agrees s t) (op : Op V W) :
    Agrees (op.perform s).2 (Spec.step op t) := by
  cases op with
  | check x e q r => exact agrees_check h x e q r
  | report => exact agrees_report h
  | reset => exact ⟨h.mode, rfl, rfl, h.output, h.world⟩
  | other a =>
    simp only [Op.perform, embed, h.env, Spec.step]
    exact ⟨h.mode, h.correct, h.failed, rfl, rfl⟩
  | setMode m =>
    simp only [Op.perform, setMode, bind, Comp.bind, Spec.step]
    by_cases h1 : m = "off"
    · subst h1; exact ⟨rfl, h.correct, h.failed, h.output, h.world⟩
    by_cases h2 : m = "summary"
    · subst h2; exact ⟨rfl, h.correct, h.failed, h.output, h.world⟩
    by_cases h3 : m = "report-failed"
    · subst h3; exact ⟨rfl, h.correct, h.failed, h.output, h.world⟩
    by_cases h4 : m = "report"
    · subst h4; exact ⟨rfl, h.correct, h.failed, h.output, h.world⟩
    have : Mode.named m = none := by
      unfold Mode.named
      split <;> simp_all
    simp [h1, h2, h3, h4, this, raise]
    exact h

/-- **C92.** Whatever a program does with the library, the library has counted the checks completed since the
last reset and remembers the failed ones with their results, and the program has printed and done to the world
what SRFI 78 says: nothing is evaluated while checks are off; otherwise the expected result, the expression and
the comparison are evaluated once, in this order; a check that raises does not count. -/
theorem C92_run (ops : List (Op V W)) {s : State V W} {t : Sheet V W} (h : Agrees s t) :
    Agrees (run ops s) (Spec.run ops t) := by
  induction ops generalizing s t with
  | nil => exact h
  | cons op ops ih => exact ih (agrees_step h op)

/-- **C92**, from the beginning: the mode is `report` and nothing has been checked. -/
theorem C92_initial (output : List (Token V)) (world : W) :
    Agrees (initial output world) ⟨.report, [], (output, world)⟩ := ⟨rfl, rfl, rfl, rfl, rfl⟩

/-- **C92, `check-passed?`** is true exactly if the given number of checks has been completed since the last
reset and all of them passed; it changes nothing. -/
theorem C92_passed (ops : List (Op V W)) (output : List (Token V)) (world : W) (k : Nat) :
    let t := Spec.run ops ⟨.report, [], (output, world)⟩
    ∃ b, passed k (run ops (initial output world)) = (some b, run ops (initial output world)) ∧
      (b = true ↔ t.done.length = k ∧ ∀ d ∈ t.done, d.passed = true) := by
  intro t
  have h := C92_run ops (C92_initial output world)
  refine ⟨_, rfl, ?_⟩
  rw [h.correct, h.failed]
  simp only [List.length_reverse, List.length_map, Bool.and_eq_true, beq_iff_eq]
  show ((t.done.filter fun d => !d.passed).length = 0 ∧ t.done.countP (fun d => d.passed) = k) ↔ _
  constructor
  · intro ⟨h1, h2⟩
    have all : ∀ d ∈ t.done, d.passed = true := by
      intro d hd
      have := List.filter_eq_nil_iff.mp (List.length_eq_zero_iff.mp h1) d hd
      simpa using this
    exact ⟨by rw [← h2]; exact (List.countP_eq_length.mpr all).symm, all⟩
  · intro ⟨h1, all⟩
    refine ⟨?_, by rw [← h1]; exact List.countP_eq_length.mpr all⟩
    rw [List.length_eq_zero_iff, List.filter_eq_nil_iff]
    intro d hd
    simp [all d hd]

/-- **C92, off.** A check while checks are off evaluates nothing and changes nothing, for arbitrary expressions
(that may use the library themselves). -/
theorem C92_off {s : State V W} (h : s.mode = 0) (x : V) (expr expected : Comp V W V)
    (equal : V → V → Comp V W Bool) : check x expr equal expected s = (some (), s) := by
  simp [check, bind, Comp.bind, now, h, pure, Comp.ret]

/-- **C92, the first failed example.** The text `check-report` prints names the first of the checks since the
last reset that failed. -/
theorem C92_first_failed (ops : List (Op V W)) (output : List (Token V)) (world : W) :
    let t := Spec.run ops ⟨.report, [], (output, world)⟩
    ∀ before d after, t.done = before ++ d :: after → (∀ b ∈ before, b.passed = true) → d.passed = false →
      t.mode = .report ∨ t.mode = .reportFailed →
      (run (ops ++ [.report]) (initial output world)).output = t.env.1 ++
        [.newline, .text "; *** checks *** : ", .count (t.done.countP fun d => d.passed), .text " correct, ",
          .count (t.done.countP fun d => !d.passed), .text " failed.", .text " First failed example:", .newline,
          .newline, .written d.expression, .text " => ", .written d.actual, .text " ; ",
          .text "*** failed ***", .newline, .text " ; expected result: ", .written d.expected, .newline] := by
  intro t before d after hd hb hf hm
  have h := C92_run (ops ++ [.report]) (C92_initial output world)
  rw [h.output]
  have hr : Spec.run (ops ++ [.report]) ⟨.report, [], (output, world)⟩ = Spec.report t := by
    simp [Spec.run, t, Spec.step]
  have hfind : (t.done.find? fun d => !d.passed) = some d := by
    rw [hd, List.find?_append, List.find?_eq_none.mpr (by intro b hbm; simp [hb b hbm])]
    simp [hf]
  rw [hr]
  rcases hm with hm | hm <;> simp [Spec.report, hm, print, summary, hfind, arrow, result, failedText]

namespace Example

/-- A check of a constant. -/
def constant (x actual expected : Nat) : Op Nat Nat :=
  .check x (fun env => (some actual, (env.1, env.2 + 1))) (fun a b env => (some (a == b), env))
    (fun env => (some expected, env))

/-- Two checks pass, one fails, one raises, one is off. -/
def program : List (Op Nat Nat) :=
  [constant 0 5 5, constant 1 7 8, .check 2 (fun env => (none, env)) (fun _ _ env => (some true, env))
    (fun env => (some 1, env)), .setMode "summary", constant 3 6 6, .setMode "off", constant 4 1 2,
    .setMode "nonsense", .setMode "report"]

/-- Three checks are completed, and the world shows that the last one was not evaluated. -/
example : (run program (initial [] 0)).correct = 2 ∧ (run program (initial [] 0)).failed.length = 1 ∧
    (run program (initial [] 0)).world = 3 := by decide

/-- The hypotheses of `C92_first_failed` are met. -/
example : ∃ before d after, (Spec.run program ⟨.report, [], ([], 0)⟩).done = before ++ d :: after ∧
    (∀ b ∈ before, b.passed = true) ∧ d.passed = false ∧ d.expression = 1 :=
  ⟨[⟨0, 5, 5, true⟩], ⟨1, 7, 8, false⟩, [⟨3, 6, 6, true⟩], rfl, by simp, rfl, rfl⟩

end Example

end Meevax.Check
