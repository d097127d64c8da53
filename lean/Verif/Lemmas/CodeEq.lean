import Verif.Model.Machine

/-! Equality of code is decidable; used to evaluate concrete compilations in the kernel. -/

namespace Meevax.Secd

mutual

def sameInstr : Instr → Instr → Bool
  | .loadAbsolute g, .loadAbsolute h => g == h
  | .loadRelative i j, .loadRelative i' j' => i == i' && j == j'
  | .loadVariadic i j, .loadVariadic i' j' => i == i' && j == j'
  | .loadConstant k, .loadConstant k' => decide (k = k')
  | .loadClosure c, .loadClosure c' => sameCode c c'
  | .loadContinuation c, .loadContinuation c' => sameCode c c'
  | .current i, .current i' => i == i'
  | .select c d, .select c' d' => sameCode c c' && sameCode d d'
  | .tailSelect c d, .tailSelect c' d' => sameCode c c' && sameCode d d'
  | .join, .join => true
  | .call, .call => true
  | .tailCall, .tailCall => true
  | .dummy, .dummy => true
  | .letrec, .letrec => true
  | .tailLetrec, .tailLetrec => true
  | .ret, .ret => true
  | .cons, .cons => true
  | .drop, .drop => true
  | .storeAbsolute g, .storeAbsolute h => g == h
  | .storeRelative i j, .storeRelative i' j' => i == i' && j == j'
  | .storeVariadic i j, .storeVariadic i' j' => i == i' && j == j'
  | .install i, .install i' => i == i'
  | .stop, .stop => true
  | _, _ => false

def sameCode : List Instr → List Instr → Bool
  | [], [] => true
  | a :: c, b :: d => sameInstr a b && sameCode c d
  | _, _ => false

end

mutual

theorem sameInstr_iff : ∀ a b : Instr, sameInstr a b = true ↔ a = b
  | .loadClosure c, b => by cases b <;> simp [sameInstr, sameCode_iff c]
  | .loadContinuation c, b => by cases b <;> simp [sameInstr, sameCode_iff c]
  | .select c d, b => by cases b <;> simp [sameInstr, sameCode_iff c, sameCode_iff d]
  | .tailSelect c d, b => by cases b <;> simp [sameInstr, sameCode_iff c, sameCode_iff d]
  | .loadAbsolute g, b => by cases b <;> simp [sameInstr]
  | .loadRelative i j, b => by cases b <;> simp [sameInstr]
  | .loadVariadic i j, b => by cases b <;> simp [sameInstr]
  | .loadConstant k, b => by cases b <;> simp [sameInstr]
  | .current i, b => by cases b <;> simp [sameInstr]
  | .join, b => by cases b <;> simp [sameInstr]
  | .call, b => by cases b <;> simp [sameInstr]
  | .tailCall, b => by cases b <;> simp [sameInstr]
  | .dummy, b => by cases b <;> simp [sameInstr]
  | .letrec, b => by cases b <;> simp [sameInstr]
  | .tailLetrec, b => by cases b <;> simp [sameInstr]
  | .ret, b => by cases b <;> simp [sameInstr]
  | .cons, b => by cases b <;> simp [sameInstr]
  | .drop, b => by cases b <;> simp [sameInstr]
  | .storeAbsolute g, b => by cases b <;> simp [sameInstr]
  | .storeRelative i j, b => by cases b <;> simp [sameInstr]
  | .storeVariadic i j, b => by cases b <;> simp [sameInstr]
  | .install i, b => by cases b <;> simp [sameInstr]
  | .stop, b => by cases b <;> simp [sameInstr]

theorem sameCode_iff : ∀ a b : List Instr, sameCode a b = true ↔ a = b
  | [], b => by cases b <;> simp [sameCode]
  | x :: c, b => by cases b <;> simp [sameCode, sameInstr_iff x, sameCode_iff c]

end

instance : DecidableEq Instr := fun a b => decidable_of_iff _ (sameInstr_iff a b)

end Meevax.Secd
