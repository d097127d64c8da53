import Verif.Model.Apply

/-!
Model of `exit` (library/meevax.ss L92-L100): its source, compiled by the model of the code generator in the
environment of its library.
-/

namespace Meevax.Secd.Exit

open Meevax.Secd
open Meevax.Secd.Apply (form)

/-- The names in the source (library/meevax.ss L42-L100). -/
abbrev nXs : Name := 0
/-- `f` (library/meevax.ss L93). -/
abbrev nF : Name := 1
/-- `x` (library/meevax.ss L93). -/
abbrev nX : Name := 2
/-- `for-each` (library/meevax.ss L93). -/
abbrev nForEach : Name := 3
/-- `before/after` (library/meevax.ss L97). -/
abbrev nBeforeAfter : Name := 4
/-- `current-dynamic-extents` (library/meevax.ss L52). -/
abbrev nExtents : Name := 5
/-- `letrec` (library/meevax.ss L93). -/
abbrev nLetrec : Name := 6
/-- `begin` (library/meevax.ss L46). -/
abbrev nBegin : Name := 10
/-- `call-with-current-continuation!` (library/meevax.ss L46). -/
abbrev nCallCC : Name := 11
/-- `current` (library/meevax.ss L46). -/
abbrev nCurrent : Name := 12
/-- `define` (library/meevax.ss L46). -/
abbrev nDefine : Name := 13
/-- `if` (library/meevax.ss L46). -/
abbrev nIf : Name := 14
/-- `install` (library/meevax.ss L46). -/
abbrev nInstall : Name := 15
/-- `lambda` (library/meevax.ss L46). -/
abbrev nLambda : Name := 16
/-- `emergency-exit` (library/meevax.ss L44). -/
abbrev nEmergencyExit : Name := 20
/-- `pair?` (library/meevax.ss L47). -/
abbrev nPair : Name := 21
/-- `car` (library/meevax.ss L47). -/
abbrev nCar : Name := 22
/-- `cdr` (library/meevax.ss L47). -/
abbrev nCdr : Name := 23

/-- The syntax that `(meevax continuation)` imports from `(meevax core)` (meevax.ss L46): the identity of a name
is its number. A name that is not imported is a variable (syntactic_environment.cpp L199). `imported` is added
to it, to compare. -/
def globals (imported : List (Name × Syntax)) : Globals where
  free x := x
  syn g :=
    if g = nBegin then some .begin
    else if g = nCallCC then some .callCC
    else if g = nCurrent then some .current
    else if g = nDefine then some .define
    else if g = nIf then some .cond
    else if g = nInstall then some .install
    else if g = nLambda then some .lambda
    else imported.lookup g

/-- `exit` (meevax.ss L92-L100), with `define` reduced to the `lambda` expression it binds. -/
def source : Form :=
  form [.sym nLambda, .sym nXs,
    form [.sym nLetrec,
      form [form [.sym nForEach, form [.sym nLambda, form [.sym nF, .sym nX],
        form [.sym nIf, form [.sym nPair, .sym nX],
          form [.sym nBegin, form [.sym nF, form [.sym nCar, .sym nX]],
            form [.sym nForEach, .sym nF, form [.sym nCdr, .sym nX]]]]]]],
      form [.sym nForEach,
        form [.sym nLambda, form [.sym nBeforeAfter], form [form [.sym nCdr, .sym nBeforeAfter]]],
        form [.sym nExtents]],
      .cons (.sym nEmergencyExit) (.sym nXs)]]

end Meevax.Secd.Exit
