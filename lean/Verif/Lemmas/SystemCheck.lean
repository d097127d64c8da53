import Verif.Spec.System
import Verif.Model.SystemData
import Mathlib.Tactic.Eval

/-
The interfaces of the libraries of the system, computed, and checked by evaluating every library once.
-/

namespace Meevax.System

deriving instance Lean.ToExpr for Variable
deriving instance Lean.ToExpr for Exposed

/-- Evaluates libraries one after the other, keeping the import sets. -/
def build (table : List Library) : List Name → List (Name × List Exposed) → List (Name × List Exposed)
  | [], acc => acc
  | key :: keys, acc =>
    match Library.find key table with
    | some l => build table keys ((key, (l.importSet fun k => find k acc).getD []) :: acc)
    | none => build table keys acc

/-- The import sets of all libraries, computed when this file is compiled; `checked` shows that they are
right. -/
def interfaces : List (Name × List Exposed) := eval% (build table order [])

/-- Equality of optional variables. -/
def sameVariable : Option Variable → Option Variable → Bool
  | some a, some b => a.same b
  | none, none => true
  | _, _ => false

/-- Equality of import sets. -/
def same : List Exposed → List Exposed → Bool
  | [], [] => true
  | x :: xs, y :: ys =>
    Nat.beq x.name y.name && (sameVariable x.cell y.cell && (sameVariable x.origin y.origin && same xs ys))
  | _, _ => false

/-- The libraries a declaration imports from. -/
def Declaration.bases : Declaration → List Name
  | .imports sets => sets.map ImportSet.base
  | _ => []

/-- The references to names that nothing defines. -/
def dangling : List (Name × Name) :=
  [(name! "(meevax continuation)", name! "letrec"),
   (name! "(scheme r4rs)", name! "%interaction-environment"),
   (name! "(srfi 9)", name! "error"),
   (name! "(srfi 149)", name! "error")]

/-- Is the reference one of those? -/
def isDangling (key n : Name) : Bool := dangling.any fun e => Nat.beq e.2 n && Nat.beq e.1 key

/-- Has the name been defined? -/
def isDefined (env : Environment) (n : Name) : Bool := ((find n env).bind Binding.origin).isSome

/-- The evaluation of a library gives its entry of the table of interfaces, and the names it refers to are
defined unless they are listed. -/
def agrees (l : Library) : Bool :=
  match evaluate (fun k => find k interfaces) l.key l.declarations [] [], find l.key interfaces with
  | some r, some xs =>
    same (r.2.map (exposed l.key r.1)) xs &&
    l.references.all fun n => Bool.xor (isDefined r.1 n) (isDangling l.key n)
  | _, _ => false

/-- Every library of the list agrees with the table of interfaces, and imports only from those before
it. -/
def check (seen : List Name) : List Name → Bool
  | [] => true
  | key :: keys =>
    (match Library.find key table with
      | some l => l.declarations.all (fun d => d.bases.all fun b => among b seen) && agrees l
      | none => false) && check (key :: seen) keys

/-! The check is made in parts, so that each of them takes little memory. -/

/-- A part of the check: `n` libraries, after `i` others. -/
def checkPart (i n : Nat) : Bool := check (order.take i).reverse ((order.drop i).take n)

theorem check_append {seen xs ys : List Name} :
    check seen (xs ++ ys) = (check seen xs && check (xs.reverse ++ seen) ys) := by
  induction xs generalizing seen with
  | nil => simp [check]
  | cons x xs ih =>
    simp only [List.cons_append, check, ih, List.reverse_cons, List.append_assoc, List.nil_append, Bool.and_assoc]

theorem check_part {i n : Nat} (j : Nat) (hj : i + n = j) (h : check [] (order.take i) = true)
    (hp : checkPart i n = true) : check [] (order.take j) = true := by
  rw [← hj, List.take_add, check_append, h, List.append_nil]
  exact hp

theorem check_all {xs : List Name} {n : Nat} (h : xs.length = n) (hp : check [] (xs.take n) = true) :
    check [] xs = true := by
  rwa [List.take_of_length_le (Nat.le_of_eq h)] at hp

set_option maxRecDepth 100000
set_option Elab.async false

theorem part0 : checkPart 0 27 = true := by decide +kernel
theorem part27 : checkPart 27 1 = true := by decide +kernel
theorem part28 : checkPart 28 1 = true := by decide +kernel
theorem part29 : checkPart 29 1 = true := by decide +kernel
theorem part30 : checkPart 30 1 = true := by decide +kernel
theorem part31 : checkPart 31 1 = true := by decide +kernel
theorem part32 : checkPart 32 1 = true := by decide +kernel
theorem part33 : checkPart 33 1 = true := by decide +kernel
theorem part34 : checkPart 34 1 = true := by decide +kernel
theorem part35 : checkPart 35 1 = true := by decide +kernel
theorem part36 : checkPart 36 1 = true := by decide +kernel
theorem part37 : checkPart 37 1 = true := by decide +kernel
theorem part38 : checkPart 38 1 = true := by decide +kernel
theorem part39 : checkPart 39 1 = true := by decide +kernel
theorem part40 : checkPart 40 1 = true := by decide +kernel
theorem part41 : checkPart 41 1 = true := by decide +kernel
theorem part42 : checkPart 42 1 = true := by decide +kernel
theorem part43 : checkPart 43 1 = true := by decide +kernel
theorem part44 : checkPart 44 1 = true := by decide +kernel
theorem part45 : checkPart 45 1 = true := by decide +kernel
theorem part46 : checkPart 46 1 = true := by decide +kernel
theorem part47 : checkPart 47 1 = true := by decide +kernel
theorem part48 : checkPart 48 1 = true := by decide +kernel
theorem part49 : checkPart 49 1 = true := by decide +kernel
theorem part50 : checkPart 50 1 = true := by decide +kernel
theorem part51 : checkPart 51 1 = true := by decide +kernel
theorem part52 : checkPart 52 1 = true := by decide +kernel
theorem part53 : checkPart 53 1 = true := by decide +kernel
theorem part54 : checkPart 54 1 = true := by decide +kernel
theorem part55 : checkPart 55 1 = true := by decide +kernel
theorem part56 : checkPart 56 1 = true := by decide +kernel
theorem part57 : checkPart 57 1 = true := by decide +kernel
theorem part58 : checkPart 58 1 = true := by decide +kernel
theorem part59 : checkPart 59 1 = true := by decide +kernel
theorem part60 : checkPart 60 1 = true := by decide +kernel
theorem part61 : checkPart 61 1 = true := by decide +kernel
theorem part62 : checkPart 62 1 = true := by decide +kernel
theorem part63 : checkPart 63 1 = true := by decide +kernel
theorem part64 : checkPart 64 1 = true := by decide +kernel
theorem part65 : checkPart 65 1 = true := by decide +kernel
theorem part66 : checkPart 66 1 = true := by decide +kernel
theorem part67 : checkPart 67 1 = true := by decide +kernel
theorem part68 : checkPart 68 1 = true := by decide +kernel
theorem part69 : checkPart 69 1 = true := by decide +kernel
theorem part70 : checkPart 70 1 = true := by decide +kernel
theorem part71 : checkPart 71 1 = true := by decide +kernel
theorem part72 : checkPart 72 1 = true := by decide +kernel
theorem part73 : checkPart 73 1 = true := by decide +kernel
theorem part74 : checkPart 74 1 = true := by decide +kernel
theorem part75 : checkPart 75 1 = true := by decide +kernel

theorem order_length : order.length = 76 := by decide +kernel

theorem checked : check [] order = true := by
  have h0 : check [] (order.take 0) = true := rfl
  have h27 := check_part 27 rfl h0 part0
  have h28 := check_part 28 rfl h27 part27
  have h29 := check_part 29 rfl h28 part28
  have h30 := check_part 30 rfl h29 part29
  have h31 := check_part 31 rfl h30 part30
  have h32 := check_part 32 rfl h31 part31
  have h33 := check_part 33 rfl h32 part32
  have h34 := check_part 34 rfl h33 part33
  have h35 := check_part 35 rfl h34 part34
  have h36 := check_part 36 rfl h35 part35
  have h37 := check_part 37 rfl h36 part36
  have h38 := check_part 38 rfl h37 part37
  have h39 := check_part 39 rfl h38 part38
  have h40 := check_part 40 rfl h39 part39
  have h41 := check_part 41 rfl h40 part40
  have h42 := check_part 42 rfl h41 part41
  have h43 := check_part 43 rfl h42 part42
  have h44 := check_part 44 rfl h43 part43
  have h45 := check_part 45 rfl h44 part44
  have h46 := check_part 46 rfl h45 part45
  have h47 := check_part 47 rfl h46 part46
  have h48 := check_part 48 rfl h47 part47
  have h49 := check_part 49 rfl h48 part48
  have h50 := check_part 50 rfl h49 part49
  have h51 := check_part 51 rfl h50 part50
  have h52 := check_part 52 rfl h51 part51
  have h53 := check_part 53 rfl h52 part52
  have h54 := check_part 54 rfl h53 part53
  have h55 := check_part 55 rfl h54 part54
  have h56 := check_part 56 rfl h55 part55
  have h57 := check_part 57 rfl h56 part56
  have h58 := check_part 58 rfl h57 part57
  have h59 := check_part 59 rfl h58 part58
  have h60 := check_part 60 rfl h59 part59
  have h61 := check_part 61 rfl h60 part60
  have h62 := check_part 62 rfl h61 part61
  have h63 := check_part 63 rfl h62 part62
  have h64 := check_part 64 rfl h63 part63
  have h65 := check_part 65 rfl h64 part64
  have h66 := check_part 66 rfl h65 part65
  have h67 := check_part 67 rfl h66 part66
  have h68 := check_part 68 rfl h67 part67
  have h69 := check_part 69 rfl h68 part68
  have h70 := check_part 70 rfl h69 part69
  have h71 := check_part 71 rfl h70 part70
  have h72 := check_part 72 rfl h71 part71
  have h73 := check_part 73 rfl h72 part72
  have h74 := check_part 74 rfl h73 part73
  have h75 := check_part 75 rfl h74 part74
  have h76 := check_part 76 rfl h75 part75
  exact check_all order_length h76
/-- All libraries are in the order. -/
theorem complete : (table.all fun l => among l.key order) = true := by decide +kernel

end Meevax.System
