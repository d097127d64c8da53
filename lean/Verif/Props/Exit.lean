import Verif.Model.Exit

/-
C41: what the code of `exit` does first.
-/

namespace Meevax.Secd.Exit

open Meevax.Secd
open Meevax.Secd.Apply (form)

/-- The code of the procedure `exit`, as far as it is reached. -/
def front (rest : Code) : Code :=
  .loadConstant .nil :: .loadVariadic 0 0 :: .loadAbsolute nEmergencyExit :: .call :: rest

/-- What follows: the arguments of `for-each`, its call, and that of the variable `letrec`. -/
def rest : Code :=
  [.cons, .loadConstant .nil, .loadConstant .nil, .loadAbsolute nExtents, .call, .cons,
    .loadClosure [.loadConstant .nil, .loadConstant .nil, .loadRelative 0 0, .cons, .loadAbsolute nCdr, .call, .tailCall],
    .cons, .loadAbsolute nForEach, .call, .cons, .loadConstant .nil, .loadConstant .nil,
    .loadClosure [.loadConstant .nil, .loadRelative 0 1, .cons, .loadAbsolute nPair, .call, .tailSelect
      [.loadConstant .nil, .loadConstant .nil, .loadRelative 0 1, .cons, .loadAbsolute nCar, .call, .cons,
        .loadRelative 0 0, .call, .drop, .loadConstant .nil, .loadConstant .nil, .loadRelative 0 1, .cons,
        .loadAbsolute nCdr, .call, .cons, .loadRelative 0 0, .cons, .loadAbsolute nForEach, .tailCall]
      [.loadConstant .unspecified, .ret]],
    .cons, .loadAbsolute nForEach, .call, .call, .cons, .loadAbsolute nLetrec, .tailCall]

/-- The source compiles. -/
theorem compiles : generate (globals []) source [] [] false = some [.loadClosure (front rest)] := by
  simp [source, form, generate, genOperand, genBody, genSequence, keyword, identify, scanScopes, scanFormals,
    globals, loadInstr, front, rest, nXs, nF, nX, nForEach, nBeforeAfter, nExtents, nLetrec, nBegin, nCallCC, nCurrent, nDefine,
    nIf, nInstall, nLambda, nEmergencyExit, nPair, nCar, nCdr]

/-- C41, `exit`: its source compiles to a procedure whose first call, whatever the heap, the dynamic extents and
all other variables are, is that of `emergency-exit`, with the list of all arguments of `exit`. The loop that
calls the `after`s comes later: `letrec` is not imported and therefore a variable, and the operands of a call are
evaluated from the last to the first. -/
theorem C41_exit_code : generate (globals []) source [] [] false = some [.loadClosure (front rest)] ∧
    ∀ (P : Prims) (l p : Nat) (d : Dump) (h : Heap), h.globals nEmergencyExit = .prim p →
      run P 3 ⟨[], .pair l, front rest, d, h⟩ =
        .running ⟨[.prim p, (h.cells.cell l).1, .nil], .pair l, .call :: rest, d, h⟩ ∧
      ∀ v cells, P p (h.cells.cell l).1 h.cells = .throw v cells →
        run P 4 ⟨[], .pair l, front rest, d, h⟩ = .raise v { h with cells } := by
  refine ⟨compiles, ?_⟩
  intro P l p d h hp
  refine ⟨?_, ?_⟩
  · simp [run, step, front, Cells.head, Cells.tail, Cells.car, Result.ofOption, hp]
  · intro v cells ht
    simp [run, step, front, Cells.head, Cells.tail, Cells.car, Result.ofOption, call, hp, ht]

/-- The hypotheses are met: `emergency-exit` throws its first argument. -/
example : ∃ (P : Prims) (h : Heap), h.globals nEmergencyExit = .prim 0 ∧
    P 0 (h.cells.cell 0).1 h.cells = .throw (.datum (.atom 3)) h.cells :=
  ⟨fun _ xs cells => match cells.car xs with
    | some v => .throw v cells
    | none => .undefined,
    ⟨⟨fun l => if l = 0 then (.pair 1, .nil) else (.datum (.atom 3), .nil), 2⟩, fun _ => .prim 0, fun _ => .nil⟩,
    rfl, rfl⟩

end Meevax.Secd.Exit
