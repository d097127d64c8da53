import Verif.Model.NanBox
/-!
# What C01/C02 say

`Storable v`: the values the interpreter stores — any double, boolean, 32-bit payload,
null, and any non-null user-space address (below 2^48).
`normal v`: the value as it may be observed: all NaNs are one NaN, everything else is
itself.
-/
namespace Meevax.NanBox.Spec
open Meevax.NanBox

/-- IEEE-754 NaN, stated on the exponent and fraction fields. -/
def IsNaN (bits : BitVec 64) : Prop :=
  (bits.toNat / 2 ^ 52) % 2 ^ 11 = 2 ^ 11 - 1 ∧ bits.toNat % 2 ^ 52 ≠ 0

instance (b : BitVec 64) : Decidable (IsNaN b) := by unfold IsNaN; infer_instance

def Storable : Val → Prop
  | .pointer a => 0 < a.toNat ∧ a.toNat < 2 ^ 48
  | _ => True

/-- Same observable value: identical, or both NaN doubles. -/
def SameValue : Val → Val → Prop
  | .double x, .double y => x = y ∨ (IsNaN x ∧ IsNaN y)
  | x, y => x = y

end Meevax.NanBox.Spec
