import Verif.Model.Library
import Verif.Spec.Text

/-
What R7RS says about import sets (5.2), libraries (5.6) and feature requirements (4.2.1).
-/

namespace Meevax.Library
open Meevax.Text

variable {V S : Type}

/-- Runs that only leave states with the property `q`. -/
inductive RunThrough (pr : Program V S) (q : Config V S → Prop) : Config V S → Config V S → Prop
  | refl (s) : RunThrough pr q s s
  | step {s t u} : RunThrough pr q s t → q t → step pr t = some u → RunThrough pr q s u

/-- Runs. -/
abbrev Run (pr : Program V S) : Config V S → Config V S → Prop := RunThrough pr fun _ => True

/-- `n` steps. -/
def steps (pr : Program V S) : Nat → Config V S → Option (Config V S)
  | 0, s => some s
  | n + 1, s => (step pr s).bind (steps pr n)

/-- Steps until the program ends, at most `n`. -/
def finish (pr : Program V S) : Nat → Config V S → Config V S
  | 0, s => s
  | n + 1, s =>
    match step pr s with
    | some t => finish pr n t
    | none => s

/-- A list. -/
def listOf : List Datum → Datum
  | [] => .null
  | d :: ds => .cons d (listOf ds)

/-- Import sets (R7RS 5.2). -/
inductive ImportSet where
  | library (name : Datum)
  | only (set : ImportSet) (ids : List Name)
  | except (set : ImportSet) (ids : List Name)
  | prefix (set : ImportSet) (p : Name)
  | rename (set : ImportSet) (rs : List (Name × Name))

/-- An import set as it is written in a program. -/
def ImportSet.toDatum : ImportSet → Datum
  | .library name => name
  | .only set ids => listOf (.symbol (ascii "only") :: set.toDatum :: ids.map .symbol)
  | .except set ids => listOf (.symbol (ascii "except") :: set.toDatum :: ids.map .symbol)
  | .prefix set p => listOf [.symbol (ascii "prefix"), set.toDatum, .symbol p]
  | .rename set rs =>
    listOf (.symbol (ascii "rename") :: set.toDatum :: rs.map fun r => listOf [.symbol r.1, .symbol r.2])

/-- The library an import set is made from. -/
def ImportSet.base : ImportSet → Datum
  | .library name => name
  | .only set _ => set.base
  | .except set _ => set.base
  | .prefix set _ => set.base
  | .rename set _ => set.base

/-- What an import set exposes, given what the library exports: `only` keeps the listed names, `except`
removes them, `prefix` puts the prefix before every name, `rename` replaces the listed names. -/
def Exposes {α : Type} (exported : Name → α → Prop) : ImportSet → Name → α → Prop
  | .library _, n, a => exported n a
  | .only set ids, n, a => Exposes exported set n a ∧ n ∈ ids
  | .except set ids, n, a => Exposes exported set n a ∧ n ∉ ids
  | .prefix set p, n, a => ∃ m, Exposes exported set m a ∧ n = p ++ m
  | .rename set rs, n, a =>
    ∃ m, Exposes exported set m a ∧ ((m, n) ∈ rs ∨ (n = m ∧ ∀ k, (m, k) ∉ rs))

/-- Names that `write` writes as they are: not empty and without special characters. -/
def Plain (high : Nat → Bool) (n : Name) : Prop := writeSymbol high n = some n

/-- The import set is one that R7RS allows and that this code treats as R7RS says: no name is renamed
twice, and `prefix` is applied to plain names. -/
def Proper {α : Type} (high : Nat → Bool) (exported : Name → α → Prop) : ImportSet → Prop
  | .library _ => True
  | .only set _ => Proper high exported set
  | .except set _ => Proper high exported set
  | .prefix set p => Proper high exported set ∧ Plain high p ∧ ∀ n a, Exposes exported set n a → Plain high n
  | .rename set rs => Proper high exported set ∧ ∀ m k k', (m, k) ∈ rs → (m, k') ∈ rs → k = k'

/-- The library's name is not mistaken for a modifier, and its written form is `key`. -/
def LibraryName (high : Nat → Bool) (d : Datum) (key : List Byte) : Prop :=
  (∃ n rest, d = .cons (.symbol n) rest ∧ n ≠ ascii "only" ∧ n ≠ ascii "except" ∧ n ≠ ascii "prefix" ∧
    n ≠ ascii "rename") ∧ write high d = some key

/-- Export specs (R7RS 5.6.1): `identifier` or `(rename identifier₁ identifier₂)`. -/
inductive ExportSpec where
  | plain (n : Name)
  | rename (inner outer : Name)

/-- An export spec as it is written in a program. -/
def ExportSpec.toDatum : ExportSpec → Datum
  | .plain n => .symbol n
  | .rename a b => listOf [.symbol (ascii "rename"), .symbol a, .symbol b]

/-- The value of a global variable of an environment, undefined if there is none of that name. -/
def valueIn (pr : Program V S) (s : Config V S) (env : Nat) (n : Name) : V :=
  match lookup s env n with
  | some c => ((s.cells[c]?).map Cell.value).getD pr.undefinedValue
  | none => pr.undefinedValue

/-- What a library exports: names and values. -/
def Exports (pr : Program V S) (s : Config V S) (env : Nat) (specs : List ExportSpec) (n : Name) (v : V) :
    Prop :=
  (.plain n ∈ specs ∧ v = valueIn pr s env n) ∨
  ∃ inner, .rename inner n ∈ specs ∧ v = valueIn pr s env inner

/-- The binding `n` to a variable with value `v` is among the variables. -/
def Binds (s : Config V S) (cs : List Nat) (n : Name) (v : V) : Prop :=
  ∃ c ∈ cs, s.cells[c]? = some ⟨n, v⟩

/-- The name means a variable with that value in the environment. -/
def Means (s : Config V S) (env : Nat) (n : Name) (v : V) : Prop :=
  ∃ c cell, lookup s env n = some c ∧ s.cells[c]? = some cell ∧ cell.value = v

/-- Only `only` and `except` are used. -/
def ImportSet.Filtering : ImportSet → Prop
  | .library _ => True
  | .only set _ => set.Filtering
  | .except set _ => set.Filtering
  | .prefix _ _ => False
  | .rename _ _ => False

/-- Two different variables have the same name, one of them bound already or both imported. -/
def Conflict (s : Config V S) (env : Nat) (xs : List Nat) : Prop :=
  ∃ x ∈ xs, ∃ y, x ≠ y ∧ ∃ n, nameOf s x = some n ∧
    (lookup s env n = some y ∨ (y ∈ xs ∧ nameOf s y = some n))

/-- The last variable of that name. -/
def lastNamed (s : Config V S) (n : Name) (xs : List Nat) : Option Nat :=
  (xs.filter fun x => nameOf s x == some n).getLast?

mutual

/-- Feature requirements (R7RS 4.2.1). -/
inductive Requirement where
  | feature (n : Name)
  | library (name : Datum)
  | and (rs : Requirements)
  | or (rs : Requirements)
  | not (r : Requirement)

/-- Several of them. -/
inductive Requirements where
  | nil
  | cons (r : Requirement) (rs : Requirements)

end

mutual

/-- A requirement as it is written in a program. -/
def Requirement.toDatum : Requirement → Datum
  | .feature n => .symbol n
  | .library name => listOf [.symbol (ascii "library"), name]
  | .and rs => .cons (.symbol (ascii "and")) rs.toDatum
  | .or rs => .cons (.symbol (ascii "or")) rs.toDatum
  | .not r => listOf [.symbol (ascii "not"), r.toDatum]

/-- The list of them. -/
def Requirements.toDatum : Requirements → Datum
  | .nil => .null
  | .cons r rs => .cons r.toDatum rs.toDatum

end

mutual

/-- When a requirement holds, given the features and the libraries that are there. -/
def Requirement.Holds (features : List Name) (available : List Datum) : Requirement → Prop
  | .feature n => n = ascii "else" ∨ n ∈ features
  | .library name => name ∈ available
  | .and rs => rs.AllHold features available
  | .or rs => rs.AnyHolds features available
  | .not r => ¬ r.Holds features available

/-- All of them hold. -/
def Requirements.AllHold (features : List Name) (available : List Datum) : Requirements → Prop
  | .nil => True
  | .cons r rs => r.Holds features available ∧ rs.AllHold features available

/-- One of them holds. -/
def Requirements.AnyHolds (features : List Name) (available : List Datum) : Requirements → Prop
  | .nil => False
  | .cons r rs => r.Holds features available ∨ rs.AnyHolds features available

end

mutual

/-- Every library name in a requirement can be written and read back. -/
def Requirement.ReadableNames (high : Nat → Bool) : Requirement → Prop
  | .feature _ => True
  | .library name => Readable high name
  | .and rs => rs.ReadableNames high
  | .or rs => rs.ReadableNames high
  | .not r => r.ReadableNames high

/-- For several of them. -/
def Requirements.ReadableNames (high : Nat → Bool) : Requirements → Prop
  | .nil => True
  | .cons r rs => r.ReadableNames high ∧ rs.ReadableNames high

end

/-- The clauses of a `cond-expand`. -/
def clausesOf (cs : List (Requirement × Datum)) : Datum :=
  listOf (cs.map fun c => .cons c.1.toDatum c.2)

/-- The registry has exactly these libraries. -/
def Registered (high : Nat → Bool) (registry : Registry) (available : List Datum) : Prop :=
  registry.map (fun e => some e.1) = available.map (write high)

/-- The declarations of a library that were evaluated, oldest first. -/
def evaluated (s : Config V S) (lib : Nat) : List Datum :=
  ((s.log.filter fun e => e.1 == lib).map Prod.snd).reverse

/-- The library's declarations are being evaluated. -/
def Underway (s : Config V S) (lib : Nat) : Prop := ∃ ds, .declare lib true ds ∈ s.stack

/-- No exception was raised. -/
def NotFailed (s : Config V S) : Prop := s.mode ≠ .failed

end Meevax.Library
