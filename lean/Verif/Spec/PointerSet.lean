import Verif.Model.PointerSet
/-!
# What C03/C04 say

A history is a list of insertions and erasures, oldest first.  An address is present after
a history iff the last operation of the history that concerns it is an insertion.
The code asserts (and its callers ensure) that only absent addresses are inserted and only
present ones erased; `Legal` says so, together with the addresses being 8-byte aligned and
below 2^47 (user space of x86-64).
-/
namespace Meevax.PointerSet.Spec
open Meevax.PointerSet

inductive Op
  | insert (a : Nat)
  | erase (a : Nat)
deriving DecidableEq, Repr

def Op.addr : Op → Nat
  | .insert a => a
  | .erase a => a

/-- The addresses the set is used with. -/
def Address (a : Nat) : Prop := a % 8 = 0 ∧ a < 2 ^ 47

instance (a : Nat) : Decidable (Address a) := by unfold Address; infer_instance

/-- The last operation concerning `a` is an insertion. -/
def present (ops : List Op) (a : Nat) : Bool :=
  match (ops.filter (fun o => o.addr == a)).getLast? with
  | some (.insert _) => true
  | _ => false

def Op.LegalAfter (past : List Op) : Op → Prop
  | .insert a => Address a ∧ present past a = false
  | .erase a => Address a ∧ present past a = true

instance (past : List Op) (o : Op) : Decidable (o.LegalAfter past) := by
  cases o <;> unfold Op.LegalAfter <;> infer_instance

/-- Every operation of the history is legal after the ones before it. -/
def LegalFrom : List Op → List Op → Prop
  | _, [] => True
  | past, o :: ops => o.LegalAfter past ∧ LegalFrom (past ++ [o]) ops

def Legal (ops : List Op) : Prop := LegalFrom [] ops

instance decLegalFrom : (past ops : List Op) → Decidable (LegalFrom past ops)
  | _, [] => isTrue trivial
  | past, o :: ops => by
    unfold LegalFrom
    have := decLegalFrom (past ++ [o]) ops
    infer_instance

instance (ops : List Op) : Decidable (Legal ops) := decLegalFrom [] ops

/-- Run a history on an implementation; `none` is undefined behaviour. -/
def run (M : Impl) : M.S → List Op → Option M.S
  | s, [] => some s
  | s, .insert a :: ops => (M.insert s a).bind fun s => run M s ops
  | s, .erase a :: ops => (M.erase s a).bind fun s => run M s ops

/-- `for (; it != last; ++it) visit(*it);` visits `l`. -/
inductive Visits (M : Impl) (s : M.S) : M.I → M.I → List Nat → Prop
  | done {it last} : M.same it last = true → Visits M s it last []
  | step {it it' last l} : M.same it last = false → M.inc s it = some it' →
      Visits M s it' last l → Visits M s it last (M.deref it :: l)

end Meevax.PointerSet.Spec
