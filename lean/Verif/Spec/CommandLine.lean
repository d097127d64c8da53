import Verif.Model.CommandLine

/-
What a command line means: a grammar that reads a list of arguments as a list of commands, and what each
command does.
-/

namespace Meevax.Cli

variable {D E P W : Type}

/-- The commands; `t` is the text of the operand. -/
inductive Cmd where
  | append (t : Arg) | feature (t : Arg) | prepend (t : Arg) | color (t : Arg) | evaluate (t : Arg)
  | load (t : Arg) | write (t : Arg)
  | help | interactive | directories | version
  | file (name : Arg)

/-- What a command does. -/
def Cmd.perform (H : Host D E P W) : Cmd → M D E P W Unit
  | .append t => do
    let p ← H.path (← H.read t)
    modify fun σ => { σ with directories := σ.directories ++ [p] }
  | .feature t => do
    let x ← H.read t
    modify fun σ => { σ with features := x :: σ.features }
  | .prepend t => do
    let p ← H.path (← H.read t)
    modify fun σ => { σ with directories := p :: σ.directories }
  | .color t => do
    let x ← H.read t
    match H.boolean x with
    | some b => modify fun σ => { σ with color := some b }
    | none => throw (.color x)
  | .evaluate t => do H.evaluate (← H.read t)
  | .load t => do H.load (← H.read t)
  | .write t => do H.write (← H.read t)
  | .help => H.help
  | .interactive => modify fun σ => { σ with interactive := true }
  | .directories => do H.printDirectories (← get).directories
  | .version => H.version
  | .file name => H.loadFresh name

/-- Commands, one after the other, until one throws. -/
def run (H : Host D E P W) : List Cmd → M D E P W Unit
  | [] => pure ()
  | k :: ks => do
    k.perform H
    run H ks

/-- The names of the options with an operand. -/
inductive WithOperand : String → (Arg → Cmd) → Prop
  | A : WithOperand "A" .append
  | append : WithOperand "append-library-directory" .append
  | D : WithOperand "D" .feature
  | feature : WithOperand "add-feature-identifier" .feature
  | I : WithOperand "I" .prepend
  | prepend : WithOperand "prepend-library-directory" .prepend
  | color : WithOperand "color" .color
  | e : WithOperand "e" .evaluate
  | evaluate : WithOperand "evaluate" .evaluate
  | l : WithOperand "l" .load
  | load : WithOperand "load" .load
  | w : WithOperand "w" .write
  | write : WithOperand "write" .write

/-- The names of the options without operand. -/
inductive Plain : String → Cmd → Prop
  | h : Plain "h" .help
  | help : Plain "help" .help
  | i : Plain "i" .interactive
  | interactive : Plain "interactive" .interactive
  | directories : Plain "library-directories" .directories
  | v : Plain "v" .version
  | version : Plain "version" .version

/-- A name that is neither. -/
def Unknown (name : Arg) : Prop :=
  (∀ n k, WithOperand n k → name ≠ n.toList) ∧ (∀ n k, Plain n k → name ≠ n.toList)

/-- A letter of a name. -/
def Word (c : Char) : Prop := c.isAlphanum = true ∨ c = '_'

/-- Long names: at least two characters, the first one not a hyphen. -/
def LongName (n : Arg) : Prop :=
  ∃ c d rest, n = c :: d :: rest ∧ Word c ∧ ∀ x ∈ d :: rest, Word x ∨ x = '-'

/-- A text of one line. -/
def OneLine (t : Arg) : Prop := '\n' ∉ t ∧ '\r' ∉ t

/-- `--name`. -/
def long (n : Arg) : Arg := '-' :: '-' :: n

/-- `--name=text`. -/
def longEq (n t : Arg) : Arg := '-' :: '-' :: n ++ '=' :: t

/-- Arguments that look like options. -/
inductive OptionLike : Arg → Prop
  | long {n : Arg} : LongName n → OptionLike (long n)
  | longEq {n t : Arg} : LongName n → OneLine t → OptionLike (longEq n t)
  | short {cs : List Char} : cs ≠ [] → (∀ c ∈ cs, Word c) → OptionLike ('-' :: cs)

/-- The letters of `-abc` and the arguments after it as commands: the options that need operands take
them from the arguments, in order. The last list is what is left. -/
inductive Letters : List Char → List Arg → List Cmd → List Arg → Prop
  | nil {args : List Arg} : Letters [] args [] args
  | plain {c : Char} {cs : List Char} {n : String} {k : Cmd} {args rest : List Arg} {ks : List Cmd} :
      [c] = n.toList → Plain n k → Letters cs args ks rest → Letters (c :: cs) args (k :: ks) rest
  | operand {c : Char} {cs : List Char} {n : String} {k : Arg → Cmd} {t : Arg} {args rest : List Arg}
      {ks : List Cmd} :
      [c] = n.toList → WithOperand n k → Letters cs args ks rest →
        Letters (c :: cs) (t :: args) (k t :: ks) rest

/-- Arguments as commands. -/
inductive Parses : List Arg → List Cmd → Prop
  | nil : Parses [] []
  /-- An argument that does not look like an option is a file. -/
  | file {a : Arg} {args : List Arg} {ks : List Cmd} :
      ¬OptionLike a → Parses args ks → Parses (a :: args) (.file a :: ks)
  /-- `-abc`. -/
  | short {cs : List Char} {args rest : List Arg} {ks ks' : List Cmd} :
      cs ≠ [] → Letters cs args ks rest → Parses rest ks' → Parses (('-' :: cs) :: args) (ks ++ ks')
  /-- `--name`. -/
  | plain {n : String} {k : Cmd} {args : List Arg} {ks : List Cmd} :
      LongName n.toList → Plain n k → Parses args ks → Parses (long n.toList :: args) (k :: ks)
  /-- `--name text`. -/
  | operand {n : String} {k : Arg → Cmd} {t : Arg} {args : List Arg} {ks : List Cmd} :
      LongName n.toList → WithOperand n k → Parses args ks →
        Parses (long n.toList :: t :: args) (k t :: ks)
  /-- `--name=text`. -/
  | operandEq {n : String} {k : Arg → Cmd} {t : Arg} {args : List Arg} {ks : List Cmd} :
      LongName n.toList → WithOperand n k → t ≠ [] → OneLine t → Parses args ks →
        Parses (longEq n.toList t :: args) (k t :: ks)
  /-- `--name=text` where the option has no operand: the text is ignored. -/
  | plainEq {n : String} {k : Cmd} {t : Arg} {args : List Arg} {ks : List Cmd} :
      LongName n.toList → Plain n k → OneLine t → Parses args ks →
        Parses (longEq n.toList t :: args) (k :: ks)
  /-- `--name=` where the option has an operand: the next argument is the operand. -/
  | operandEmpty {n : String} {k : Arg → Cmd} {t : Arg} {args : List Arg} {ks : List Cmd} :
      LongName n.toList → WithOperand n k → Parses args ks →
        Parses (longEq n.toList [] :: t :: args) (k t :: ks)

/-- The letters of `-abc` up to an error; `current` is the argument read last. -/
inductive LettersStop : Arg → List Char → List Arg → List Cmd → Thrown D E → Prop
  | unknown {current : Arg} {c : Char} {cs : List Char} {args : List Arg} :
      Unknown [c] → LettersStop current (c :: cs) args [] (.unknown [c])
  | missing {current : Arg} {c : Char} {cs : List Char} {n : String} {k : Arg → Cmd} :
      [c] = n.toList → WithOperand n k → LettersStop current (c :: cs) [] [] (.missing current)
  | plain {current : Arg} {c : Char} {cs : List Char} {n : String} {k : Cmd} {args : List Arg} {ks : List Cmd}
      {e : Thrown D E} :
      [c] = n.toList → Plain n k → LettersStop current cs args ks e →
        LettersStop current (c :: cs) args (k :: ks) e
  | operand {current : Arg} {c : Char} {cs : List Char} {n : String} {k : Arg → Cmd} {t : Arg}
      {args : List Arg} {ks : List Cmd} {e : Thrown D E} :
      [c] = n.toList → WithOperand n k → LettersStop t cs args ks e →
        LettersStop current (c :: cs) (t :: args) (k t :: ks) e

/-- The name or the first letters of the first argument are wrong, or its operand is missing; the
commands are those of the letters before. -/
inductive Wrong : List Arg → List Cmd → Thrown D E → Prop
  | short {cs : List Char} {args : List Arg} {ks : List Cmd} {e : Thrown D E} :
      cs ≠ [] → (∀ c ∈ cs, Word c) → LettersStop ('-' :: cs) cs args ks e → Wrong (('-' :: cs) :: args) ks e
  | unknown {n : Arg} {args : List Arg} :
      LongName n → Unknown n → Wrong (long n :: args) [] (.unknown n)
  | unknownEq {n t : Arg} {args : List Arg} :
      LongName n → OneLine t → Unknown n → Wrong (longEq n t :: args) [] (.unknown n)
  | missing {n : String} {k : Arg → Cmd} :
      LongName n.toList → WithOperand n k → Wrong [long n.toList] [] (.missing (long n.toList))
  | missingEq {n : String} {k : Arg → Cmd} :
      LongName n.toList → WithOperand n k → Wrong [longEq n.toList []] [] (.missing (longEq n.toList []))

end Meevax.Cli
