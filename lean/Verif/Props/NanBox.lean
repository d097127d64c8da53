import Verif.Lemmas.NanBox
/-!
# C01, C02 — tagged words
-/
namespace Meevax.NanBox
open Spec

/-- **C01.** Reading a stored value back with the accessor of its kind gives the same
observable value, for every storable value. -/
theorem C01_read_back (v : Val) (hv : Storable v) :
    ∃ v', unbox (box v) = some v' ∧ SameValue v' v := by
  refine ⟨_, unbox_box v hv, ?_⟩
  cases v <;> simp only [SameValue]
  rename_i b
  unfold canonicalize
  split
  · rename_i h
    exact Or.inr ⟨by decide, (isNaN_iff b).1 h⟩
  · exact Or.inl rfl

/-- **C01.** Exactly one type predicate holds of a stored value, the one of its kind. -/
theorem C01_one_type (v : Val) (hv : Storable v) (k : Kind) :
    is k (box v) = true ↔ k = v.kind := by
  unfold is
  rw [type_box v hv, beq_iff_eq]
  exact ⟨fun h => h.symm, fun h => h.symm⟩

/-- **C01.** The word counts as a heap reference (and so is traced by the collector)
exactly when a pointer was stored, and then yields that address. -/
theorem C01_pointer_iff (v : Val) (hv : Storable v) :
    (toBool (box v) = true ↔ ∃ a, v = .pointer a) ∧
    (∀ a, get (box v) = some a ↔ v = .pointer a) := by
  have ht : signature (box v) = signatureOf .pointer ↔ v.kind = .pointer := by
    constructor
    · intro h
      rw [← type_box v hv]
      exact type_of_signature _ _ (by decide) h
    · intro h; rw [signature_box v hv (by rw [h]; decide), h]
  constructor
  · simp only [toBool, beq_iff_eq, ht]
    cases v <;> simp [Val.kind]
  · intro a
    unfold get
    cases v with
    | pointer b =>
      rw [if_pos (ht.2 rfl), unsafeGet_tag b hv.2]
      simp
    | _ => rw [if_neg (by rw [ht]; simp [Val.kind])]; simp

/-- **C02.** `eq?` on stored words is value identity: same kind and same value, all NaNs
being identified. -/
theorem C02_eq_iff_same (v w : Val) (hv : Storable v) (hw : Storable w) :
    eq (box v) (box w) = true ↔ SameValue v w := by
  unfold eq
  rw [beq_iff_eq]
  constructor
  · intro h
    have hu := unbox_box v hv
    rw [h, unbox_box w hw] at hu
    simp only [Option.some.injEq] at hu
    cases v with
    | double x =>
      cases w with
      | double y =>
        simp only [Val.double.injEq, SameValue] at *
        unfold canonicalize at hu
        split at hu <;> split at hu
        · rename_i a b; exact Or.inr ⟨(isNaN_iff x).1 b, (isNaN_iff y).1 a⟩
        · rename_i a b; rw [← hu] at b; exact absurd (by decide) b
        · rename_i a b; rw [hu] at a; exact absurd (by decide) a
        · exact Or.inl hu.symm
      | _ => simp at hu
    | _ =>
      clear h
      cases w <;> first
        | exact hu.symm
        | cases hu
  · intro h
    cases v with
    | double x =>
      cases w with
      | double y =>
        rcases h with h | ⟨h1, h2⟩
        · rw [h]
        · simp [box, canonicalize, (isNaN_iff x).2 h1, (isNaN_iff y).2 h2]
      | _ => simp [SameValue] at h
    | _ => cases w <;> simp_all [SameValue]

/-- **C02.** Values of different kinds are never `eq?`. -/
theorem C02_kinds_disjoint (v w : Val) (hv : Storable v) (hw : Storable w)
    (h : v.kind ≠ w.kind) : eq (box v) (box w) = false := by
  have := C02_eq_iff_same v w hv hw
  cases he : eq (box v) (box w) with
  | false => rfl
  | true =>
    rw [he] at this
    have hs := this.1 rfl
    exfalso; apply h
    cases v <;> cases w <;> simp_all [SameValue, Val.kind]

/-- Addresses at or above 2^48 are outside `Storable` for a reason: such a pointer
corrupts the tag (here it reads back as null). -/
theorem C01_high_address_fails :
    unbox (box (.pointer 0x0001000000001000#64)) = some .null := by decide

-- non-vacuity: concrete storable values meeting the hypotheses
example : Storable (.pointer 0x00007F0012345678#64) :=
  ⟨by decide, by decide⟩
example : Storable (.double 0xFFF8000000000001#64) ∧ IsNaN 0xFFF8000000000001#64 := by
  exact ⟨trivial, by decide⟩
example : unbox (box (.smallInteger 0xFFFFFFFF#32)) = some (.smallInteger 0xFFFFFFFF#32) := by decide
example : unbox (box (.double 0xFFFA000000000005#64)) = some (.double 0x7FF8000000000000#64) := by decide

end Meevax.NanBox
