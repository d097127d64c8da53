import Verif.Model.LoadProcedure

/-
C85: the procedure `load`.
-/

namespace Meevax.Secd.LoadProcedure

open Meevax.Secd
open Meevax.Secd.Apply (form)

/-- The code of the procedure. -/
def code : Code :=
  [.loadConstant .nil, .loadRelative 0 0, .cons, .loadConstant .nil, .loadVariadic 0 1, .cons, .loadAbsolute nPair, .call,
    .select [.loadConstant .nil, .loadVariadic 0 1, .cons, .loadAbsolute nCar, .call, .join]
      [.loadConstant .nil, .loadAbsolute nInteractionEnvironment, .call, .join],
    .cons, .loadAbsolute nLoad, .tailCall]

/-- The source compiles. -/
theorem compiles : generate globals source [] [] false = some [.loadClosure code] := by
  simp [source, form, generate, genOperand, genBody, keyword, identify, scanScopes, scanFormals,
    globals, loadInstr, code, nFilename, nXs, nLambda, nIf, nPair, nCar, nLoad, nInteractionEnvironment]

theorem cell_cons {h : Cells} {l : Nat} {a d : Value} (hl : l < h.next) : (h.cons a d).cell l = h.cell l := by
  simp [Cells.cons, Nat.ne_of_lt hl]

theorem cell_new (h : Cells) (a d : Value) : (h.cons a d).cell h.next = (a, d) := by simp [Cells.cons]

theorem next_cons (h : Cells) (a d : Value) : (h.cons a d).next = h.next + 1 := rfl

/-- **C85 fails for the usual call of `load`**: `(load filename)` raises an error, whatever the file is, and the
procedure that loads files is not called. The library that defines `load` gets the environment of the program from
a variable that nobody defines. The hypotheses say that there is one argument, that the variable has the value it
got when the library was compiled, and what `pair?` does. -/
theorem C85_load_default_fails {P : Prims} {l m p : Nat} {filename e : Value} {d : Dump} {h : Heap}
    (hl : l < h.cells.next) (hm : m < h.cells.next)
    (he : h.cells.cell l = (.pair m, e)) (hx : h.cells.cell m = (filename, .nil))
    (hu : h.globals nInteractionEnvironment = .datum .undefined) (hp : h.globals nPair = .prim p)
    (hpair : ∀ (cells : Cells) (a : Nat), (cells.cell a).1 = .nil → P p (.pair a) cells = .ok (.datum (.bool false)) cells) :
    generate globals source [] [] false = some [.loadClosure code] ∧
    ∃ n cells, run P n ⟨[], .pair l, code, d, h⟩ = .raise (.datum .undefined) { h with cells } := by
  have a1 : (h.cells.cons filename .nil).cell l = (.pair m, e) := by rw [cell_cons hl, he]
  have a2 : (h.cells.cons filename .nil).cell m = (filename, .nil) := by rw [cell_cons hm, hx]
  have h3 := hpair ((h.cells.cons filename .nil).cons .nil .nil) (h.cells.next + 1) (by simp [Cells.cons])
  refine ⟨compiles, 12, (h.cells.cons filename .nil).cons .nil .nil, ?_⟩
  simp [run, step, code, Cells.head, Cells.tail, Cells.car, Cells.cdr, Result.ofOption, call, he, hx, a1, a2, hp, hu, h3,
    Value.truthy, next_cons]

/-- **C85, `load` with an environment**: the procedure that loads files is called, in tail position, with that
environment and the name of the file. -/
theorem C85_load_environment {P : Prims} {l m k p q : Nat} {filename env e : Value} {d : Dump} {h : Heap}
    (hl : l < h.cells.next) (hm : m < h.cells.next) (hk : k < h.cells.next)
    (he : h.cells.cell l = (.pair m, e)) (hx : h.cells.cell m = (filename, .pair k)) (hy : h.cells.cell k = (env, .nil))
    (hp : h.globals nPair = .prim p) (hq : h.globals nCar = .prim q)
    (hpair : ∀ (cells : Cells) (a b : Nat), (cells.cell a).1 = .pair b → P p (.pair a) cells = .ok (.datum (.bool true)) cells)
    (hcar : ∀ (cells : Cells) (a b : Nat), (cells.cell a).1 = .pair b → P q (.pair a) cells = .ok (cells.cell b).1 cells) :
    ∃ n xs s cells a, run P n ⟨[], .pair l, code, d, h⟩ =
        .running ⟨h.globals nLoad :: .pair xs :: s, .pair l, [.tailCall], d, { h with cells }⟩ ∧
      cells.cell xs = (env, .pair a) ∧ cells.cell a = (filename, .nil) := by
  obtain ⟨c1, h1⟩ : ∃ c, c = h.cells.cons filename .nil := ⟨_, rfl⟩
  obtain ⟨c2, h2⟩ : ∃ c, c = c1.cons (.pair k) .nil := ⟨_, rfl⟩
  obtain ⟨c3, h3⟩ : ∃ c, c = c2.cons (.pair k) .nil := ⟨_, rfl⟩
  have n1 : c1.next = h.cells.next + 1 := by rw [h1]; rfl
  have n2 : c2.next = h.cells.next + 2 := by rw [h2, next_cons, n1]
  have n3 : c3.next = h.cells.next + 3 := by rw [h3, next_cons, n2]
  have a1 : c1.cell l = (.pair m, e) := by rw [h1, cell_cons hl, he]
  have a2 : c1.cell m = (filename, .pair k) := by rw [h1, cell_cons hm, hx]
  have b1 : c2.cell l = (.pair m, e) := by rw [h2, cell_cons (by omega), a1]
  have b2 : c2.cell m = (filename, .pair k) := by rw [h2, cell_cons (by omega), a2]
  have d1 : c3.cell k = (env, .nil) := by
    rw [h3, cell_cons (by omega), h2, cell_cons (by omega), h1, cell_cons hk, hy]
  have d2 : c3.cell h.cells.next = (filename, .nil) := by
    rw [h3, cell_cons (by omega), h2, cell_cons (by omega), h1, cell_new]
  have p1 := hpair c2 c1.next k (by rw [h2, cell_new])
  have p2 := hcar c3 c2.next k (by rw [h3, cell_new])
  rw [d1] at p2
  refine ⟨17, c3.next, [], c3.cons env (.pair h.cells.next), h.cells.next, ?_, cell_new .., ?_⟩
  · simp [run, step, code, Cells.head, Cells.tail, Cells.car, Cells.cdr, Result.ofOption, call, he, hx, ← h1, ← h2, ← h3, a1, a2,
      b1, b2, hp, hq, p1, p2, Value.truthy]
  · rw [cell_cons (by omega), d2]

/-- A heap in which `load` was called with one or two arguments, and primitives: the hypotheses are met. -/
example : ∃ (P : Prims) (h h' : Heap),
    (h.cells.cell 0 = (.pair 1, .nil) ∧ h.cells.cell 1 = (.datum (.atom 5), .nil) ∧
      h.globals nInteractionEnvironment = .datum .undefined ∧ h.globals nPair = .prim 0 ∧
      ∀ (cells : Cells) (a : Nat), (cells.cell a).1 = .nil → P 0 (.pair a) cells = .ok (.datum (.bool false)) cells) ∧
    (h'.cells.cell 0 = (.pair 1, .nil) ∧ h'.cells.cell 1 = (.datum (.atom 5), .pair 2) ∧
      h'.cells.cell 2 = (.datum (.atom 6), .nil) ∧ h'.globals nPair = .prim 0 ∧ h'.globals nCar = .prim 1 ∧
      (∀ (cells : Cells) (a b : Nat), (cells.cell a).1 = .pair b → P 0 (.pair a) cells = .ok (.datum (.bool true)) cells) ∧
      ∀ (cells : Cells) (a b : Nat), (cells.cell a).1 = .pair b → P 1 (.pair a) cells = .ok (cells.cell b).1 cells) := by
  let P : Prims := fun p xs cells => match xs with
    | .pair a => match (cells.cell a).1 with
      | .pair b => .ok (if p = 0 then .datum (.bool true) else (cells.cell b).1) cells
      | _ => .ok (.datum (.bool false)) cells
    | _ => .undefined
  let G : Nat → Value := fun g => if g = nPair then .prim 0 else if g = nCar then .prim 1 else .datum .undefined
  refine ⟨P, ⟨⟨fun l => if l = 0 then (.pair 1, .nil) else (.datum (.atom 5), .nil), 2⟩, G, fun _ => .nil⟩,
    ⟨⟨fun l => if l = 0 then (.pair 1, .nil) else if l = 1 then (.datum (.atom 5), .pair 2) else (.datum (.atom 6), .nil), 3⟩,
      G, fun _ => .nil⟩, ⟨rfl, rfl, rfl, rfl, ?_⟩, rfl, rfl, rfl, rfl, rfl, ?_, ?_⟩
  · intro cells a ha
    simp [P, ha]
  · intro cells a b ha
    simp [P, ha]
  · intro cells a b ha
    simp [P, ha]

end Meevax.Secd.LoadProcedure
