import Verif.Model.Apply

/-!
Model of the procedure `load` of `(scheme r4rs)`, which `(scheme r5rs)` and `(scheme load)` export
(library/r4rs.ss L382-L386): its source, compiled by the model of the code generator in the environment of its
library.
-/

namespace Meevax.Secd.LoadProcedure

open Meevax.Secd
open Meevax.Secd.Apply (form)

/-- The names in the source (library/r4rs.ss L382-L386). -/
abbrev nFilename : Name := 0
/-- `xs` (library/r4rs.ss L382). -/
abbrev nXs : Name := 1
/-- `lambda` (library/r4rs.ss L43). -/
abbrev nLambda : Name := 10
/-- `if` (library/r4rs.ss L43). -/
abbrev nIf : Name := 11
/-- `pair?` (library/r4rs.ss L48). -/
abbrev nPair : Name := 20
/-- `car` (library/r4rs.ss L48). -/
abbrev nCar : Name := 21
/-- `%load` (library/r4rs.ss L56). -/
abbrev nLoad : Name := 22
/-- `%interaction-environment` (library/r4rs.ss L385). The library imports nothing of that name: only `load` of
`(meevax environment)` is imported with this prefix (L56). -/
abbrev nInteractionEnvironment : Name := 23

/-- What `(scheme r4rs)` imports (library/r4rs.ss L37-L58): the identity of a name is its number. -/
def globals : Globals where
  free x := x
  syn g := if g = nIf then some .cond else if g = nLambda then some .lambda else none

/-- `load` (library/r4rs.ss L382-L386), with `define` reduced to the `lambda` expression it binds. -/
def source : Form :=
  form [.sym nLambda, .cons (.sym nFilename) (.sym nXs),
    form [.sym nLoad,
      form [.sym nIf, form [.sym nPair, .sym nXs],
        form [.sym nCar, .sym nXs],
        form [.sym nInteractionEnvironment]],
      .sym nFilename]]

end Meevax.Secd.LoadProcedure
