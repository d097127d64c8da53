import Verif.Model.Include

/-
Where a file is searched for.
-/

namespace Meevax.Include

variable {P D : Type}

/-- The paths for a directory: the name itself, and, if it has no extension, with each of the extensions. -/
def forms (fs : FileSystem P D) (given directory : P) : List P :=
  fs.join directory given ::
    (if fs.hasExtension given then [] else ["ss", "sld", "scm"].map (fs.replaceExtension (fs.join directory given)))

/-- The paths in the order of the search: the directory of the source file, the current directory, the library
directories. -/
def searched (fs : FileSystem P D) (directories : List P) (source given : P) : List P :=
  (source :: fs.cwd :: directories).flatMap (forms fs given)

/-- `p` is the first file of the list. -/
def FirstFile (fs : FileSystem P D) (p : P) (ps : List P) : Prop :=
  ∃ before after, ps = before ++ p :: after ∧ fs.isFile p = true ∧ ∀ q ∈ before, fs.isFile q = false

/-- An extension replaces another one. -/
def Replaces (fs : FileSystem P D) : Prop :=
  ∀ p e e', fs.replaceExtension (fs.replaceExtension p e) e' = fs.replaceExtension p e'

/-- The data of a file that is found for a name. -/
def Has (fs : FileSystem P D) (directories : List P) (c : Context P) (ci : Bool) (name : Nat × Option P) (xs : List D) :
    Prop :=
  ∃ given p, name.2 = some given ∧ locate fs directories (c.of name.1) given = .ok p ∧
    (fs.canonical p).isSome ∧ fs.readable p = true ∧ fs.content ci p = .ok xs

end Meevax.Include
