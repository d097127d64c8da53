import Verif.Model.Generator

/-!
The macro expander: src/kernel/expander.cpp, src/kernel/syntactic_closure.cpp, src/kernel/transformer.cpp,
and `expand`, `identify`, `sweep`, `generate` of src/kernel/syntactic_environment.cpp on forms that
contain syntactic closures; the code generator of src/kernel/generator.cpp for them; and
`er-macro-transformer` of library/meevax.ss.

Simplifications.
* A syntactic closure carries its object identity (`Stamp`); two closures are `eq` when they are the
  same object, which here means that all parts are equal, the stamp included.  The three kinds of
  stamps tell who made the closure; the numbers of one kind are handed out one after the other.
* The list of bound variables is a list of frames; each cell carries a number, so that `eq` of two
  such lists (syntactic_closure.cpp L110) is equality of the first number.
* Environments and transformers are numbered objects of the state; their global part (`second`) is a
  function from names to bindings, taken over when the environment is made.
* A transformer is an arbitrary function of the form, the two environments and the number of
  closures made so far.  It is not run by the machine, so it cannot change the environment, and the
  `compare` procedure of `er-macro-transformer` is not given to it.
* Evaluating the transformer spec of `let-syntax` is a parameter.
* `include`, `conditional-expand` and internal `define-syntax` are left out: `none`.
* Reading a field that is not there is `none`.  So is running out of fuel; a statement about a
  result therefore covers only the runs that end.
-/

namespace Meevax.Expand

open Secd (Name Code Instr)

/-- Who made a syntactic closure, and its number: α-conversion (syntactic_closure.cpp L89-L94),
`rename` of an explicit renaming macro (library/meevax.ss L31-L38), any other call of
`make-syntactic-closure`, or `default_rename` (syntactic_environment.cpp L362-L365). -/
inductive Stamp where
  | alpha (n : Nat)
  | rename (n : Nat)
  | other (n : Nat)
  | core (n : Nat)
  deriving DecidableEq, Repr

/-- Forms: the S-expressions of the generator, and syntactic closures
(include/meevax/kernel/syntactic_closure.hpp L44-L46) with environment, free names and form.
`macro k t` is a formal that stands for a syntactic keyword (identity.hpp L31-L34): the keyword and
its transformer. -/
inductive Form where
  | nil
  | bool (b : Bool)
  | sym (x : Name)
  | atom (n : Nat)
  | undefined
  | unspecified
  | cons (a d : Form)
  | closure (i : Stamp) (env : Nat) (free : List Name) (form : Form)
  | macro (k : Form) (t : Nat)
  deriving DecidableEq, Repr

/-- `is_also<identifier>()`: a symbol or a syntactic closure (syntactic_closure.hpp L25). -/
def Form.isIdentifier : Form → Bool
  | .sym _ => true
  | .closure .. => true
  | _ => false

/-- A list of forms as a form: `list(...)` (include/meevax/kernel/list.hpp). -/
def Form.ofList : List Form → Form
  | [] => .nil
  | a :: d => .cons a (Form.ofList d)

/-- The core syntax (syntactic_environment.cpp L338-L355). -/
inductive Syntax where
  | begin
  | callCC
  | cond
  | current
  | define
  | defineSyntax
  | install
  | lambda
  | letSyntax
  | letrec
  | letrecSyntax
  | quote
  | quoteSyntax
  | set
  | other
  deriving DecidableEq, Repr

/-- The values that make a binding a syntactic keyword (src/kernel/syntactic_environment.cpp L70-L90). -/
inductive Keyword where
  | syn (k : Syntax)
  | transformer (t : Nat)
  deriving DecidableEq, Repr

/-- The identities (include/meevax/kernel/identity.hpp L24-L60). -/
inductive Identity where
  | relative (i j : Nat)
  | variadic (i j : Nat)
  | absolute (g : Nat)
  | macro (t : Nat)
  deriving DecidableEq, Repr

/-- The bound variables: one frame of formals for each enclosing binding construct, innermost
first (`bound_variables` of src/kernel/expander.cpp). -/
abbrev Scopes := List (Nat × Form)

/-- The frames without the numbers of the cells (auxiliary to src/kernel/expander.cpp). -/
def frames (bv : Scopes) : List Form := bv.map Prod.snd

/-- A syntactic environment (include/meevax/kernel/syntactic_environment.hpp L26). -/
structure Env where
  first : Scopes
  second : Name → Option Nat

/-- `syntactic_closure::alpha` (syntactic_closure.hpp L27-L42): the environment and the free names
of the enclosure, and the dictionary.  `outer` is the rest of the list of levels. -/
structure Level where
  env : Nat
  free : List Name
  dict : List (Name × Form)

/-- The objects the expander makes and changes
(objects made at src/kernel/expander.cpp L93, L230, L250 and src/kernel/syntactic_closure.cpp). -/
structure St where
  /-- numbers of frames, and of closures made by the expander -/
  next : Nat
  /-- number of closures made by transformers -/
  made : Nat
  envs : Nat → Env
  nextEnv : Nat
  /-- transformers (include/meevax/kernel/transformer.hpp): procedure and environment -/
  macros : Nat → Nat × Nat
  nextMacro : Nat
  alpha : List Level

/-- What the expander is run with: the values of global bindings as far as they are keywords, the
global binding made for a name that has none yet (syntactic_environment.cpp L199), the transformer
procedures, and the evaluation of a transformer spec to such a procedure. -/
structure World where
  value : Nat → Option Keyword
  fresh : Name → Nat
  run : Nat → Form → Nat → Nat → Nat → Form × Nat
  eval : Form → Nat

/-- `core_syntactic_environment()` (syntactic_environment.cpp L333-L360) is environment 0. -/
def coreEnv : Nat := 0

/-- The inner loop of `identify` (syntactic_environment.cpp L137-L156). -/
def scanFormals (v : Form) (i : Nat) : Form → Nat → Option Identity
  | .cons a d, j =>
    match a with
    | .macro k t => if k = v then some (.macro t) else scanFormals v i d (j + 1)
    | a => if a = v then some (.relative i j) else scanFormals v i d (j + 1)
  | w, j => if w.isIdentifier && w = v then some (.variadic i j) else none

/-- The outer loop of `identify` (syntactic_environment.cpp L135-L159). -/
def scan (v : Form) : List Form → Nat → Option Identity
  | [], _ => none
  | fs :: bv, i =>
    match scanFormals v i fs 0 with
    | some x => some x
    | none => scan v bv (i + 1)

/-- The loop that puts empty frames before `xs` (syntactic_closure.cpp L128-L131). -/
def pad (n : Nat) (xs : List Form) : List Form := List.replicate n .nil ++ xs

/-- `syntactic_environment::identify` (syntactic_environment.cpp L130-L170), with
`syntactic_closure::identify` (syntactic_closure.cpp L122-L144) inlined.  `H` holds the
environments, `s` is the global part of the environment asked.  `none` is `#f`. -/
def identify (H : Nat → Env) (s : Name → Option Nat) (v : Form) (bv : List Form) :
    Option Identity :=
  match scan v bv 0 with
  | some x => some x
  | none =>
    match v with
    | .sym x => (s x).map .absolute
    | .closure _ e _ form =>
      if form.isIdentifier then
        match identify H (H e).second form
          (pad (bv.length - (H e).first.length) (frames (H e).first)) with
        | some x => some x
        | none => identify H (H e).second form bv
      else none
    | _ => none

/-- `syntactic_closure::identify` (syntactic_closure.cpp L122-L144). -/
def identifyClosure (H : Nat → Env) (e : Nat) (form : Form) (bv : List Form) : Option Identity :=
  match identify H (H e).second form
    (pad (bv.length - (H e).first.length) (frames (H e).first)) with
  | some x => some x
  | none => identify H (H e).second form bv

/-- `cdr(identity)` as far as it is a keyword (syntactic_environment.cpp L73-L81). -/
def keywordOf (W : World) : Option Identity → Option Keyword
  | some (.absolute g) => W.value g
  | some (.macro t) => some (.transformer t)
  | _ => none

/-- `alpha::convert` for a symbol (syntactic_closure.cpp L34-L57): the converted form, the next
number, and the levels with their dictionaries. -/
def convertSym (x : Name) (next : Nat) : List Level → Form × Nat × List Level
  | [] => (.sym x, next, [])
  | l :: outer =>
    if l.free.contains x then
      let (f, next, outer) := convertSym x next outer
      (f, next, l :: outer)
    else
      match l.dict.lookup x with
      | some a => (a, next, l :: outer)
      | none =>
        if outer.isEmpty then (.sym x, next, l :: outer)
        else
          let a := Form.closure (.alpha next) l.env [] (.sym x)
          (a, next + 1, { l with dict := (x, a) :: l.dict } :: outer)

/-- `alpha::convert` (syntactic_closure.cpp L34-L57). -/
def convert (v : Form) (st : St) : Form × St :=
  match v with
  | .sym x =>
    let (f, next, levels) := convertSym x st.next st.alpha
    (f, { st with next := next, alpha := levels })
  | v => (v, st)

/-- `memq(x, formals)` (list.cpp L340-L357). -/
def memqFormals (v : Form) : Form → Bool
  | .cons a d => v = a || memqFormals v d
  | _ => false

/-- Is the symbol among the formals of some frame, as far as `memq` can see?
(syntactic_closure.cpp L65-L68) -/
def visible (x : Name) (bv : List Form) : Bool := bv.any (memqFormals (.sym x))

/-- The conversion of one formal (syntactic_closure.cpp L61-L76): it is renamed if it shadows. -/
def convertFormal (v : Form) (bv : List Form) (st : St) : Form × St :=
  match v with
  | .sym x =>
    if visible x bv then
      match st.alpha with
      | l :: outer =>
        let a := Form.closure (.alpha st.next) l.env [] (.sym x)
        (a, { st with next := st.next + 1, alpha := { l with dict := (x, a) :: l.dict } :: outer })
      | [] => (v, st)
    else (v, st)
  | v => (v, st)

/-- `alpha::convert_formals` (syntactic_closure.cpp L59-L87). -/
def convertFormals : Form → List Form → St → Form × St
  | .cons a d, bv, st =>
    let (a, st) := convertFormal a bv st
    let (d, st) := convertFormals d bv st
    (.cons a d, st)
  | v, bv, st => convertFormal v bv st

/-- `make<syntactic_environment>(...)` (src/kernel/expander.cpp L93). -/
def newEnv (bv : Scopes) (s : Name → Option Nat) (st : St) : Nat × St :=
  (st.nextEnv,
    { st with
      envs := fun e => if e = st.nextEnv then ⟨bv, s⟩ else st.envs e
      nextEnv := st.nextEnv + 1 })

/-- `default_rename` (syntactic_environment.cpp L362-L365). -/
def defaultRename (x : Name) (st : St) : Form × St :=
  (.closure (.core st.next) coreEnv [] (.sym x), { st with next := st.next + 1 })

/-- `transformer::transform` (transformer.cpp L24-L45). -/
def transform (W : World) (t : Nat) (form : Form) (useEnv : Nat) (st : St) : Form × St :=
  let (p, macEnv) := st.macros t
  let (out, made) := W.run p form useEnv macEnv st.made
  (out, { st with made := made })

/-- The keyword a form starts with (syntactic_environment.cpp L69-L81). -/
def headKeyword (W : World) (s : Name → Option Nat) (a : Form) (bv : Scopes) (st : St) :
    Option Keyword × St :=
  let (c, st) := convert a st
  match c with
  | .closure _ e _ form => (keywordOf W (identifyClosure st.envs e form (frames bv)), st)
  | _ => (keywordOf W (identify st.envs s a (frames bv)), st)

/-- `eq` of two lists of bound variables (syntactic_closure.cpp L110). -/
def sameScopes : Scopes → Scopes → Bool
  | [], [] => true
  | (i, _) :: _, (j, _) :: _ => i = j
  | _, _ => false

/-- `map(car, x)` (expander.cpp L192). -/
def mapCar : Form → Option Form
  | .nil => some .nil
  | .cons (.cons a _) d => do some (.cons a (← mapCar d))
  | _ => none

/-- `append` (list.cpp L253-L263). -/
def append : Form → Form → Form
  | .cons a d, y => .cons a (append d y)
  | _, y => y

/-- `make_list(n, unit)` (list.cpp L23-L33). -/
def makeList : Nat → Form
  | 0 => .nil
  | n + 1 => .cons .nil (makeList n)

/-- Names of the core syntax looked up by the expander itself (src/kernel/expander.cpp L73-L90). -/
def lambdaName : Name := 0
/-- `set!`, looked up by the expander itself (src/kernel/expander.cpp L73-L160). -/
def setName : Name := 1

/-- Put the dictionary of the innermost level back: the end of the scope of `scoped_alpha`
(expander.cpp L74-L83). -/
def restore (saved : List Level) (st : St) : St :=
  match saved, st.alpha with
  | l :: _, l' :: outer => { st with alpha := { l' with dict := l.dict } :: outer }
  | _, _ => st

/-- The macros of `let-syntax` and `letrec-syntax` (expander.cpp L232-L239): one formal for each
syntax spec. -/
def macroFormals (W : World) (e : Nat) : Form → St → Option (Form × St)
  | .nil, st => some (.nil, st)
  | .cons (.cons k (.cons spec _)) d, st => do
    let t := st.nextMacro
    let st := { st with
      macros := fun i => if i = t then (W.eval spec, e) else st.macros i
      nextMacro := t + 1 }
    let (d, st) ← macroFormals W e d st
    some (.cons (.macro k t) d, st)
  | _, _ => none

/-- The assignments that `body` puts before the sequence (expander.cpp L108-L114); the binding specs
come in reverse. -/
def assignments : List Form → Form → St → Form × St
  | [], seq, st => (seq, st)
  | spec :: specs, seq, st =>
    let (set, st) := defaultRename setName st
    assignments specs (.cons (.cons set spec) seq) st

mutual

/-- `syntactic_environment::expand` (syntactic_environment.cpp L52-L89); `s` is the global part of
the environment. -/
def expand (W : World) :
    Nat → (Name → Option Nat) → Form → Scopes → St → Option (Form × St)
  | 0, _, _, _, _ => none
  | n + 1, s, form, bv, st =>
    match form with
    | .cons a _ =>
      match (if a.isIdentifier then headKeyword W s a bv st else (none, st)) with
      | (some (.transformer t), st) =>
        let (e, st) := newEnv bv s st
        let (out, st) := transform W t form e st
        expand W n s out bv st
      | (some (.syn k), st) => expandSyntax W n k s form bv st
      | (none, st) => call W n s form bv st
    | .closure .. =>
      match identify st.envs s form (frames bv) with
      | none => expandClosure W n form bv st
      | some _ => some (convert form st)
    | .sym _ => some (convert form st)
    | d => some (d, st)

/-- `syntactic_closure::expand` (syntactic_closure.cpp L108-L120). -/
def expandClosure (W : World) : Nat → Form → Scopes → St → Option (Form × St)
  | 0, _, _, _ => none
  | n + 1, c, bv, st =>
    match c with
    | .closure _ e free form =>
      if sameScopes (st.envs e).first bv then expand W n (st.envs e).second form bv st
      else do
        let (out, st) ← expand W n (st.envs e).second form bv
          { st with alpha := ⟨e, free, []⟩ :: st.alpha }
        some (out, { st with alpha := st.alpha.tail })
    | _ => none

/-- `expander::call` (expander.cpp L43-L52). -/
def call (W : World) : Nat → (Name → Option Nat) → Form → Scopes → St → Option (Form × St)
  | 0, _, _, _, _ => none
  | n + 1, s, form, bv, st =>
    match form with
    | .cons a d => do
      let (a, st) ← expand W n s a bv st
      let (d, st) ← operand W n s d bv st
      some (.cons a d, st)
    | _ => none

/-- `expander::operand` (expander.cpp L54-L70) and `expander::sequence` (L210-L226), which have the
same text. -/
def operand (W : World) : Nat → (Name → Option Nat) → Form → Scopes → St → Option (Form × St)
  | 0, _, _, _, _ => none
  | n + 1, s, form, bv, st =>
    match form with
    | .cons a d => do
      let (a, st) ← expand W n s a bv st
      let (d, st) ← operand W n s d bv st
      some (.cons a d, st)
    | d => expand W n s d bv st

/-- The expander of a core syntax: `quote` and `quote-syntax` (expander.cpp L33-L41), `lambda`
L72-L84, `if` L148-L155, `set!` L157-L164, `letrec` L190-L208, `begin` L210-L226, `let-syntax`
L228-L246, `letrec-syntax` L248-L268, `define` L270-L291, `define-syntax` L293-L300,
`call-with-current-continuation!` L302-L309, `current` L311-L318, `install` L320-L327. -/
def expandSyntax (W : World) :
    Nat → Syntax → (Name → Option Nat) → Form → Scopes → St → Option (Form × St)
  | 0, _, _, _, _, _ => none
  | n + 1, k, s, form, bv, st =>
    match k, form with
    | .quote, form => some (form, st)
    | .quoteSyntax, form => some (form, st)
    | .lambda, .cons kw (.cons formals forms) => do
      let saved := st.alpha
      let (formals, st) := convertFormals formals (frames bv) st
      let (forms, st) ← body W n s forms ((st.next, formals) :: bv) { st with next := st.next + 1 }
      let (kw, st) := convert kw (restore saved st)
      some (.cons kw (.cons formals forms), st)
    | .begin, form => operand W n s form bv st
    | .letrec, .cons kw (.cons bindings forms) => do
      let (formals, st) := convertFormals (← mapCar bindings) (frames bv) st
      let bv := (st.next, formals) :: bv
      let (bindings, st) ← inits W n s bindings bv { st with next := st.next + 1 }
      let (forms, st) ← body W n s forms bv st
      some (.cons kw (.cons bindings forms), st)
    | .letSyntax, .cons _ (.cons specs forms) => do
      let (e, st) := newEnv bv s st
      let (formals, st) ← macroFormals W e specs st
      let (lambda, st) := defaultRename lambdaName st
      expand W n s (.cons (.cons lambda (.cons formals forms)) .nil) bv st
    | .letrecSyntax, .cons _ (.cons specs forms) => do
      let (e, st) := newEnv bv s st
      let (formals, st) ← macroFormals W e specs st
      let st := { st with
        envs := fun e' => if e' = e then ⟨(st.next, formals) :: bv, s⟩ else st.envs e'
        next := st.next + 1 }
      let (lambda, st) := defaultRename lambdaName st
      expand W n s (.cons (.cons lambda (.cons formals forms)) .nil) bv st
    | .define, .cons kw (.cons (.cons v formals) forms) => do
      let (kw, st) := convert kw st
      let (lambda, st) := defaultRename lambdaName st
      let (value, st) ← expand W n s (.cons lambda (.cons formals forms)) bv st
      some (.ofList [kw, v, value], st)
    | .define, .cons kw (.cons v .nil) =>
      let (kw, st) := convert kw st
      some (.ofList [kw, v], st)
    | .define, .cons kw (.cons v (.cons value _)) => do
      let (kw, st) := convert kw st
      let (value, st) ← expand W n s value bv st
      some (.ofList [kw, v, value], st)
    | .defineSyntax, .cons kw (.cons v (.cons spec _)) => do
      let (kw, st) := convert kw st
      let (spec, st) ← expand W n s spec bv st
      some (.ofList [kw, v, spec], st)
    | .cond, .cons kw rest => do
      let (kw, st) := convert kw st
      let (rest, st) ← operand W n s rest bv st
      some (.cons kw rest, st)
    | .set, .cons kw rest => do
      let (kw, st) := convert kw st
      let (rest, st) ← operand W n s rest bv st
      some (.cons kw rest, st)
    | .callCC, .cons kw rest => do
      let (kw, st) := convert kw st
      let (rest, st) ← operand W n s rest bv st
      some (.cons kw rest, st)
    | .current, .cons kw rest => do
      let (kw, st) := convert kw st
      let (rest, st) ← operand W n s rest bv st
      some (.cons kw rest, st)
    | .install, .cons kw rest => do
      let (kw, st) := convert kw st
      let (rest, st) ← operand W n s rest bv st
      some (.cons kw rest, st)
    | _, _ => none

/-- The bindings of `letrec` (expander.cpp L196-L203): the names stay as they are. -/
def inits (W : World) : Nat → (Name → Option Nat) → Form → Scopes → St → Option (Form × St)
  | 0, _, _, _, _ => none
  | n + 1, s, form, bv, st =>
    match form with
    | .nil => some (.nil, st)
    | .cons (.cons v (.cons init _)) d => do
      let (init, st) ← expand W n s init bv st
      let (d, st) ← inits W n s d bv st
      some (.cons (.ofList [v, init]) d, st)
    | _ => none

/-- `expander::body` (expander.cpp L86-L146). -/
def body (W : World) : Nat → (Name → Option Nat) → Form → Scopes → St → Option (Form × St)
  | 0, _, _, _, _ => none
  | n + 1, s, form, bv, st => do
    let (e, st) := newEnv bv s st
    let (specs, formals, seq, st) ← sweep W n s form form bv e [] [] st
    match specs with
    | _ :: _ =>
      let (seq, st) := assignments specs seq st
      let (lambda, st) := defaultRename lambdaName st
      expand W n s
        (.cons (.cons (.cons lambda (.cons (.ofList formals) seq)) (makeList formals.length)) .nil)
        bv st
    | [] =>
      match seq with
      | .cons a d => do
        let (a, st) ← expand W n s a bv st
        let (d, st) ← body W n s d bv st
        some (.cons a d, st)
      | d => expand W n s d bv st

/-- `syntactic_environment::sweep` (syntactic_environment.cpp L203-L331): looks for internal
definitions.  `e` is the current environment, whose innermost frame is `formals` once a definition
was found.  The result: the binding specs in reverse, the formals, and the sequence. -/
def sweep (W : World) :
    Nat → (Name → Option Nat) → Form → Form → Scopes → Nat → List Form → List Form → St →
      Option (List Form × List Form × Form × St)
  | 0, _, _, _, _, _, _, _, _ => none
  | n + 1, s, form, seq, bv, e, formals, specs, st =>
    match seq with
    | .cons (.closure i ce free f) rest =>
      match identify st.envs s (.closure i ce free f) (frames (st.envs e).first) with
      | none => do
        let (out, st) ← expandClosure W n (.closure i ce free f) (st.envs e).first st
        sweep W n s form (.cons out rest) bv e formals specs st
      | some _ => some (specs, formals, seq, st)
    | .cons (.cons a d) rest =>
      match (if a.isIdentifier then keywordOf W (identify st.envs s a (frames bv)) else none) with
      | some (.transformer t) =>
        let (out, st) := transform W t (.cons a d) e st
        sweep W n s form (.cons out rest) bv e formals specs st
      | some (.syn .begin) => sweep W n s form (append d rest) bv e formals specs st
      | some (.syn .define) =>
        match d with
        | .cons (.cons v fs) forms =>
          if formals.contains v then
            let (lambda, st) := defaultRename lambdaName st
            sweep W n s form rest bv e formals
              (.ofList [v, .cons lambda (.cons fs forms)] :: specs) st
          else
            let (e, st) := newEnv ((st.next, .ofList (formals ++ [v])) :: bv) s
              { st with next := st.next + 1 }
            sweep W n s form form bv e (formals ++ [v]) [] st
        | .cons v _ =>
          if formals.contains v then
            sweep W n s form rest bv e formals (d :: specs) st
          else
            let (e, st) := newEnv ((st.next, .ofList (formals ++ [v])) :: bv) s
              { st with next := st.next + 1 }
            sweep W n s form form bv e (formals ++ [v]) [] st
        | _ => none
      | some (.syn .defineSyntax) => none
      | _ => some (specs, formals, seq, st)
    | _ => some (specs, formals, seq, st)

end

/-- `syntactic_environment::expand` of a whole form (syntactic_environment.cpp L44-L50). -/
def expandForm (W : World) (n : Nat) (s : Name → Option Nat) (form : Form) (bv : Scopes) (st : St) :
    Option (Form × St) :=
  let (e, st) := newEnv bv s st
  expand W n s form bv { st with alpha := [⟨e, [], []⟩] }

/-! ## The code generator on forms with syntactic closures -/

/-- A quoted datum without syntactic closures, as a constant of the machine (src/kernel/generator.cpp L32-L37). -/
def toDatum : Form → Option Secd.Form
  | .nil => some .nil
  | .bool b => some (.bool b)
  | .sym x => some (.sym x)
  | .atom n => some (.atom n)
  | .undefined => some .undefined
  | .unspecified => some .unspecified
  | .cons a d => do some (.cons (← toDatum a) (← toDatum d))
  | .closure .. => none
  | .macro .. => none

/-- The constant of a quotation (generator.cpp L34): a syntactic closure is replaced with its
form. -/
def quoted : Form → Form
  | .closure _ _ _ form => form
  | d => d

/-- The other `identify` (syntactic_environment.cpp L172-L201): a symbol without binding gets a new
global one. -/
def reference (W : World) (H : Nat → Env) (s : Name → Option Nat) (v : Form) (bv : List Form) :
    Option Identity :=
  match identify H s v bv with
  | some x => some x
  | none =>
    match v with
    | .sym x => some (.absolute (W.fresh x))
    | _ => none

/-- The instruction that loads a variable (syntactic_environment.cpp L96-L113). -/
def loadInstr : Identity → Option Instr
  | .relative i j => some (.loadRelative i j)
  | .variadic i j => some (.loadVariadic i j)
  | .absolute g => some (.loadAbsolute g)
  | .macro _ => none

/-- The instruction that stores a variable (generator.cpp L143-L170). -/
def storeInstr : Identity → Option Instr
  | .relative i j => some (.storeRelative i j)
  | .variadic i j => some (.storeVariadic i j)
  | .absolute g => some (.storeAbsolute g)
  | .macro _ => none

/-- The syntax a form starts with (syntactic_environment.cpp L119-L125). -/
def syntaxOf (W : World) (H : Nat → Env) (s : Name → Option Nat) (a : Form) (bv : List Form) :
    Option Syntax :=
  if a.isIdentifier then
    match identify H s a bv with
    | some (.absolute g) =>
      match W.value g with
      | some (.syn k) => some k
      | _ => none
    | _ => none
  else none

mutual

/-- `generate` (syntactic_environment.cpp L91-L128) with the generators of generator.cpp; see
`Meevax.Secd.generate`. -/
def generate (W : World) (H : Nat → Env) (s : Name → Option Nat) :
    Form → List Form → Code → Bool → Option Code
  | .sym x, bv, k, _ => do some ((← loadInstr (← reference W H s (.sym x) bv)) :: k)
  | .closure i e free f, bv, k, _ => do
    some ((← loadInstr (← reference W H s (.closure i e free f) bv)) :: k)
  | .cons a form, bv, k, tail =>
    match syntaxOf W H s a bv with
    | some .quote =>
      match form with
      | .cons d _ => do some (.loadConstant (← toDatum (quoted d)) :: k)
      | _ => none
    | some .lambda =>
      match form with
      | .cons formals form => do
        some (.loadClosure (← genBody W H s form (formals :: bv) [.ret]) :: k)
      | _ => none
    | some .cond =>
      match form with
      | .cons test (.cons consequent alternate) => do
        let k' : Code := if tail then k else [.join]
        let c₁ ← generate W H s consequent bv k' tail
        let c₂ ←
          match alternate with
          | .nil => some [.loadConstant .unspecified, if tail then .ret else .join]
          | .cons alternate _ => generate W H s alternate bv k' tail
          | _ => none
        generate W H s test bv (if tail then [.tailSelect c₁ c₂] else .select c₁ c₂ :: k) false
      | _ => none
    | some .set =>
      match form with
      | .cons v (.cons form _) => do
        if v.isIdentifier then
          let i ← storeInstr (← reference W H s v bv)
          generate W H s form bv (i :: k) false
        else none
      | _ => none
    | some .letrec =>
      match form with
      | .cons bindings form => do
        let formals ← mapCar bindings
        let body ← genBody W H s form (formals :: bv) [.ret]
        let c ← genInits W H s bindings (formals :: bv)
          (.loadClosure body :: if tail then [.tailLetrec] else .letrec :: k)
        some (.dummy :: c)
      | _ => none
    | some .begin => genSequence W H s form bv k tail
    | some .define =>
      match bv with
      | [] =>
        match form with
        | .cons v .nil => do
          if v.isIdentifier then
            some (.loadConstant .unspecified :: (← storeInstr (← reference W H s v bv)) :: k)
          else none
        | .cons v (.cons form _) => do
          if v.isIdentifier then
            let i ← storeInstr (← reference W H s v bv)
            generate W H s form bv (i :: k) false
          else none
        | _ => none
      | _ => none
    | some .callCC =>
      match form with
      | .cons f .nil => do
        some (.loadContinuation k :: (← generate W H s f bv [.tailCall] tail))
      | _ => none
    | some .current =>
      match form with
      | .cons (.atom n) _ => some (.current n :: k)
      | _ => none
    | some .install =>
      match form with
      | .cons (.atom n) (.cons form _) => generate W H s form bv (.install n :: k) false
      | _ => none
    | some _ => none
    | none => do
      let c ← generate W H s a bv (if tail then [.tailCall] else .call :: k) false
      genOperand W H s form bv c
  | d, _, k, _ => do some (.loadConstant (← toDatum d) :: k)

/-- `generator::operand` (generator.cpp L56-L72), for proper lists of operands. -/
def genOperand (W : World) (H : Nat → Env) (s : Name → Option Nat) :
    Form → List Form → Code → Option Code
  | .cons a form, bv, k => do
    genOperand W H s form bv (← generate W H s a bv (.cons :: k) false)
  | .nil, _, k => some (.loadConstant .nil :: k)
  | _, _, _ => none

/-- The same for the initial values of a `letrec`, `map(cadr, ...)` (generator.cpp L179-L181). -/
def genInits (W : World) (H : Nat → Env) (s : Name → Option Nat) :
    Form → List Form → Code → Option Code
  | .cons (.cons _ (.cons a _)) form, bv, k => do
    genInits W H s form bv (← generate W H s a bv (.cons :: k) false)
  | .nil, _, k => some (.loadConstant .nil :: k)
  | _, _, _ => none

/-- `generator::body` (generator.cpp L84-L104). -/
def genBody (W : World) (H : Nat → Env) (s : Name → Option Nat) :
    Form → List Form → Code → Option Code
  | .cons a form, bv, k =>
    match form with
    | .nil => generate W H s a bv k true
    | form => do generate W H s a bv (.drop :: (← genBody W H s form bv k)) false
  | _, _, _ => none

/-- `generator::sequence` (generator.cpp L189-L220). -/
def genSequence (W : World) (H : Nat → Env) (s : Name → Option Nat) :
    Form → List Form → Code → Bool → Option Code
  | .cons a form, bv, k, tail =>
    match form with
    | .nil => generate W H s a bv k tail
    | form => do
      let c ← generate W H s a bv [] false
      some (c ++ .drop :: (← genSequence W H s form bv k tail))
  | _, _, _, _ => none

end

/-- `compile` (syntactic_environment.cpp L31-L34) at the outermost level: expand, then generate, with
the continuation `(stop)`. -/
def compile (W : World) (n : Nat) (s : Name → Option Nat) (form : Form) (st : St) : Option Code := do
  let (form, st) ← expandForm W n s form [] st
  generate W st.envs s form [] [.stop] false

/-! ## Explicit renaming macros -/

/-- What a transformer procedure builds: pieces of the form it was given or constants (`use`),
and identifiers it renames (`insert`) (library/meevax.ss L28-L41). -/
inductive Template where
  | use (f : Form)
  | insert (v : Form)
  | pair (a d : Template)
  deriving Repr

/-- `rename` (library/meevax.ss L31-L38): the closure made for this identifier before, or a new
one. -/
def rename (macEnv : Nat) (v : Form) (renames : List (Form × Form)) (made : Nat) :
    Form × List (Form × Form) × Nat :=
  match renames.lookup v with
  | some a => (a, renames, made)
  | none =>
    let a := Form.closure (.rename made) macEnv [] v
    (a, (v, a) :: renames, made + 1)

/-- The form a template stands for (library/meevax.ss L28-L41). -/
def instantiate (macEnv : Nat) : Template → List (Form × Form) → Nat →
    Form × List (Form × Form) × Nat
  | .use f, renames, made => (f, renames, made)
  | .insert v, renames, made => rename macEnv v renames made
  | .pair a d, renames, made =>
    let (a, renames, made) := instantiate macEnv a renames made
    let (d, renames, made) := instantiate macEnv d renames made
    (.cons a d, renames, made)

/-- `er-macro-transformer` (library/meevax.ss L28-L41): the result is closed in the environment of
use. -/
def erTransformer (f : Form → Template) (form : Form) (useEnv macEnv made : Nat) : Form × Nat :=
  let (out, _, made) := instantiate macEnv (f form) [] made
  (.closure (.other made) useEnv [] out, made + 1)

/-- `sc-macro-transformer` (library/meevax.ss L15-L18): the result is closed in the environment of
definition. -/
def scTransformer (f : Form → Nat → Form) (form : Form) (useEnv macEnv made : Nat) : Form × Nat :=
  (.closure (.other made) macEnv [] (f form useEnv), made + 1)

/-- `rsc-macro-transformer` (library/meevax.ss L20-L23). -/
def rscTransformer (f : Form → Nat → Form) (form : Form) (useEnv macEnv made : Nat) : Form × Nat :=
  (.closure (.other made) useEnv [] (f form macEnv), made + 1)

end Meevax.Expand
