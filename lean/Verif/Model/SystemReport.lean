import Verif.Model.System

/-
Model of `scheme-report-environment` and `null-environment` (library/r5rs.ss L101-L108), with `environment`
(src/kernel/boot.cpp L119, include/meevax/kernel/environment.hpp L31-L38), on the libraries of Model/System.

Simplified: the version is a natural number; other numbers are not covered.
-/

namespace Meevax.System

/-- `(number->string version)` (src/kernel/boot.cpp L267). -/
def decimal (n : Nat) : Nat :=
  if n < 10 then 48 + n else decimal (n / 10) * 256 + (48 + n % 10)

/-- The written name of the library of a version (library/r5rs.ss L102, L105; src/kernel/environment.cpp
L144). -/
def reportKey (version : Nat) : Name :=
  concat (concat (name! "(scheme r") (decimal version)) (name! "rs)")

/-- The names in `null-environment` (library/r5rs.ss L106-L108). -/
def nullNames : List Name :=
  names! "quote lambda if set! cond case and or let let* letrec begin do delay quasiquote let-syntax
    letrec-syntax syntax-rules define define-syntax"

/-- `environment` (include/meevax/kernel/environment.hpp L31-L38): a new environment with these imports. -/
def environment (get : Name → Option (List Exposed)) (key : Name) (sets : List ImportSet) :
    Option Environment := importSets get key sets []

/-- `scheme-report-environment` (library/r5rs.ss L101-L102). -/
def schemeReportEnvironment (get : Name → Option (List Exposed)) (key : Name) (version : Nat) :
    Option Environment := environment get key [.library (reportKey version)]

/-- `null-environment` (library/r5rs.ss L104-L108). -/
def nullEnvironment (get : Name → Option (List Exposed)) (key : Name) (version : Nat) :
    Option Environment := environment get key [.only (.library (reportKey version)) nullNames]

end Meevax.System
