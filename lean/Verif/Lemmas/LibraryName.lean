import Verif.Spec.Library

/-
The registry of libraries: the library a name stands for does not change.
-/

namespace Meevax.Library
open Meevax.Text

variable {V S : Type}

/-- Every name still stands for the same library. -/
def Names (s t : Config V S) : Prop :=
  ∀ key lib, s.registry.lookup key = some lib → t.registry.lookup key = some lib

theorem Names.of_eq {s t : Config V S} (h : t.registry = s.registry) : Names s t := by
  intro key lib; rw [h]; exact id

theorem Names.trans {s t u : Config V S} (h : Names s t) (h' : Names t u) : Names s u :=
  fun key lib e => h' key lib (h key lib e)

theorem registry_identify (pr : Program V S) (env : Nat) (n : Name) (s : Config V S) :
    (identify pr env n s).2.registry = s.registry := by
  unfold identify; split <;> rfl

theorem registry_assign (c : Nat) (v : V) (s : Config V S) : (assign c v s).registry = s.registry := by
  unfold assign; split <;> rfl

theorem registry_change (pr : Program V S) (env : Nat) (s : Config V S) (c : Change V) :
    (change pr env s c).registry = s.registry := by
  cases c with
  | mention n => exact registry_identify ..
  | define n v => exact (registry_assign ..).trans (registry_identify ..)
  | assign c v => exact registry_assign ..

theorem registry_changes (pr : Program V S) (env : Nat) (cs : List (Change V)) (s : Config V S) :
    (cs.foldl (change pr env) s).registry = s.registry := by
  induction cs generalizing s with
  | nil => rfl
  | cons c cs ih => exact (ih _).trans (registry_change ..)

theorem registry_run (pr : Program V S) (env : Nat) (d : Datum) (s : Config V S) :
    (run pr env d s).registry = s.registry :=
  registry_changes pr env _ _

theorem registry_export1 {pr : Program V S} {env : Nat} {spec : Datum} {s t : Config V S} {c : Nat}
    (h : export1 pr env spec s = some (c, t)) : t.registry = s.registry := by
  unfold export1 at h
  split at h
  · simp only at h
    split at h
    · simp only [make, Option.some.injEq, Prod.mk.injEq] at h
      rw [← h.2]; exact registry_identify ..
    · cases h
  · rename_i n
    simp only [Option.some.injEq] at h
    have := registry_identify pr env n s
    rw [h] at this; exact this
  · cases h

theorem registry_exportAll {pr : Program V S} {env : Nat} {specs : List Datum} {s t : Config V S} {cs : List Nat}
    (h : exportAll pr env specs s = some (cs, t)) : t.registry = s.registry := by
  induction specs generalizing s cs t with
  | nil => cases h; rfl
  | cons spec specs ih =>
    unfold exportAll at h
    split at h
    · rename_i h1
      split at h
      · rename_i h2
        cases h
        exact (ih h2).trans (registry_export1 h1)
      · cases h
    · cases h

theorem registry_prefixAll {pr : Program V S} {p : Datum} {cs cs' : List Nat} {s t : Config V S}
    (h : prefixAll pr p cs s = some (cs', t)) : t.registry = s.registry := by
  induction cs generalizing s cs' t with
  | nil => cases h; rfl
  | cons c cs ih =>
    unfold prefixAll at h
    split at h
    · cases h
    · split at h
      · simp only [make] at h
        split at h
        · rename_i h2
          cases h
          exact (ih h2).trans rfl
        · cases h
      · cases h

theorem registry_renameAll {rs : List Datum} {cs cs' : List Nat} {s t : Config V S}
    (h : renameAll rs cs s = some (cs', t)) : t.registry = s.registry := by
  induction cs generalizing s cs' t with
  | nil => cases h; rfl
  | cons c cs ih =>
    unfold renameAll at h
    split at h
    · cases h
    · split at h
      · cases h
      · rename_i new _
        cases new with
        | none =>
          simp only at h
          split at h
          · rename_i h2; cases h; exact ih h2
          · cases h
        | some new =>
          simp only [make] at h
          split at h
          · rename_i h2; cases h; exact (ih h2).trans rfl
          · cases h

theorem registry_importAll (env : Nat) (cs : List Nat) (s : Config V S) :
    (importAll env cs s).2.registry = s.registry := by
  induction cs generalizing s with
  | nil => rfl
  | cons c cs ih =>
    unfold importAll
    split
    · exact ih s
    · split
      · exact ih _
      · split
        · exact ih _
        · split
          · exact ih _
          · rfl

theorem names_define (key : List Byte) (ds : List Datum) (s : Config V S) : Names s (defineLibrary key ds s) := by
  unfold defineLibrary
  simp only
  split
  · exact .of_eq rfl
  · rename_i h
    intro k lib e
    simp only [List.lookup_cons]
    split
    · rename_i hk
      have : k = key := by simpa using hk
      subst this
      rw [h] at e; cases e
    · exact e

theorem names_evaluate (pr : Program V S) (env : Nat) (d : Datum) (s : Config V S) :
    Names s (evaluate pr env d s) := by
  unfold evaluate
  split
  · split
    · split
      · split
        · exact names_define _ _ s
        · exact .of_eq rfl
      · exact .of_eq rfl
    · split
      · exact .of_eq rfl
      · split
        · split <;> exact .of_eq rfl
        · exact .of_eq (registry_run ..)
  · exact .of_eq (registry_run ..)

theorem names_declare (pr : Program V S) (lib : Nat) (d : Datum) (s : Config V S) :
    Names s (declare pr lib d s) := by
  unfold declare
  split
  · exact .of_eq rfl
  · split
    · split
      · exact .of_eq rfl
      · split
        · exact .of_eq rfl
        · split
          · split <;> exact .of_eq rfl
          · split
            · split <;> exact .of_eq rfl
            · exact names_evaluate pr _ _ s
    · exact names_evaluate pr _ _ s

theorem registry_startLibrary (lib : Nat) (s : Config V S) : (startLibrary lib s).registry = s.registry := by
  unfold startLibrary; split <;> rfl

theorem registry_importSet (pr : Program V S) (form : Datum) (s : Config V S) :
    (importSet pr form s).registry = s.registry := by
  unfold importSet
  split
  · split
    · split <;> rfl
    · split
      · split <;> rfl
      · split
        · split <;> rfl
        · split
          · split <;> rfl
          · split
            · rfl
            · split
              · exact registry_startLibrary ..
              · split <;> rfl
  · rfl
  · rfl

theorem registry_returnTo (pr : Program V S) (cs : List Nat) (s : Config V S) :
    (returnTo pr cs s).registry = s.registry := by
  unfold returnTo
  split
  · rfl
  · rfl
  · split
    · rename_i h; have := registry_prefixAll h; exact this
    · rfl
  · split
    · rename_i h; have := registry_renameAll h; exact this
    · rfl
  · exact registry_importAll ..
  · rfl

theorem names_next {pr : Program V S} {s t : Config V S} (h : next pr s = some t) : Names s t := by
  unfold next at h
  split at h
  · split at h
    · cases h
    · cases h; exact .of_eq rfl
  · cases h; exact .of_eq rfl
  · cases h; refine Names.trans ?_ (names_evaluate pr _ _ _); exact .of_eq rfl
  · cases h; exact .of_eq rfl
  · cases h; refine Names.trans ?_ (names_declare pr _ _ _); exact .of_eq rfl
  · cases h; exact .of_eq rfl
  · cases h; exact .of_eq rfl
  · split at h
    · cases h; exact .of_eq rfl
    · split at h
      · rename_i h2
        cases h
        have := registry_exportAll h2; exact .of_eq this
      · cases h; exact .of_eq rfl
  · split at h
    · cases h; exact .of_eq rfl
    · split at h
      · cases h; exact .of_eq (Eq.trans (registry_startLibrary ..) rfl)
      · cases h; exact .of_eq rfl
  · cases h; exact .of_eq rfl

theorem names_step {pr : Program V S} {s t : Config V S} (h : step pr s = some t) : Names s t := by
  unfold step at h
  split at h
  · cases h; exact .of_eq (registry_importSet ..)
  · cases h; exact .of_eq (registry_returnTo ..)
  · exact names_next h
  · cases h; exact .of_eq rfl
  · cases h

theorem names_runs {pr : Program V S} {q : Config V S → Prop} {s t : Config V S} (h : RunThrough pr q s t) :
    Names s t := by
  induction h with
  | refl => exact .of_eq rfl
  | step _ _ h ih => exact ih.trans (names_step h)

end Meevax.Library
