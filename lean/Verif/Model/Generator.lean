import Verif.Model.Machine

/-!
The code generator: src/kernel/generator.cpp and `generate`, `identify` of
src/kernel/syntactic_environment.cpp, on forms that are already expanded.

Simplifications.
* Identifiers are symbols: there are no syntactic closures and no macros among the formals.
* The free variables of the environment (`second`) are a function from names to identities; a name
  that is not bound yet is given its identity beforehand, where the code adds it on the fly
  (syntactic_environment.cpp L172-L201).
* `define-syntax`, and the expander-only forms, are left out: `none`.
* Reading a field that is not there, and the error for a misplaced definition, are `none`.
-/

namespace Meevax.Secd

/-- The core syntax (syntactic_environment.cpp L338-L355) that is left after expansion. -/
inductive Syntax where
  | begin
  | callCC
  | current
  | define
  | cond
  | install
  | lambda
  | letrec
  | quote
  | quoteSyntax
  | set
  | other
  deriving DecidableEq, Repr

/-- The global part of a syntactic environment: the identity of each name, and the identities whose
value is syntax (src/kernel/syntactic_environment.cpp L130-L201). -/
structure Globals where
  free : Name → Nat
  syn : Nat → Option Syntax

/-- The identities (include/meevax/kernel/identity.hpp L24-L60). -/
inductive Identity where
  | relative (i j : Nat)
  | variadic (i j : Nat)
  | absolute (g : Nat)
  deriving DecidableEq, Repr

/-- The inner loop of `identify` (syntactic_environment.cpp L137-L154): look for `x` in the
formals of frame `i`, from position `j` on.  The cdr of an object that is no pair is null. -/
def scanFormals (x : Name) (i : Nat) : Form → Nat → Option Identity
  | .cons a d, j => if a = .sym x then some (.relative i j) else scanFormals x i d (j + 1)
  | .sym y, j => if y = x then some (.variadic i j) else none
  | _, _ => none

/-- The outer loop of `identify` (syntactic_environment.cpp L135-L157). -/
def scanScopes (x : Name) : List Form → Nat → Option Identity
  | [], _ => none
  | fs :: bv, i =>
    match scanFormals x i fs 0 with
    | some id => some id
    | none => scanScopes x bv (i + 1)

/-- `identify` (syntactic_environment.cpp L130-L201). -/
def identify (G : Globals) (x : Name) (bv : List Form) : Identity :=
  (scanScopes x bv 0).getD (.absolute (G.free x))

/-- The syntax a form starts with, if any (syntactic_environment.cpp L119-L125). -/
def keyword (G : Globals) (a : Form) (bv : List Form) : Option Syntax :=
  match a with
  | .sym x =>
    match identify G x bv with
    | .absolute g => G.syn g
    | _ => none
  | _ => none

/-- The instruction that loads a variable (syntactic_environment.cpp L96-L113). -/
def loadInstr : Identity → Instr
  | .relative i j => .loadRelative i j
  | .variadic i j => .loadVariadic i j
  | .absolute g => .loadAbsolute g

/-- The instruction that stores a variable (generator.cpp L143-L170). -/
def storeInstr : Identity → Instr
  | .relative i j => .storeRelative i j
  | .variadic i j => .storeVariadic i j
  | .absolute g => .storeAbsolute g

/-- `map(car, x)` (generator.cpp L176). -/
def mapCar : Form → Option Form
  | .nil => some .nil
  | .cons (.cons a _) d => do some (.cons a (← mapCar d))
  | _ => none

/-- `map(cadr, x)` (generator.cpp L180). -/
def mapCadr : Form → Option Form
  | .nil => some .nil
  | .cons (.cons _ (.cons b _)) d => do some (.cons b (← mapCadr d))
  | _ => none

theorem mapCadr_size : ∀ {x y : Form}, mapCadr x = some y → sizeOf y ≤ sizeOf x
  | .nil, y, h => by simp [mapCadr] at h; subst h; simp
  | .cons (.cons a (.cons b c)) d, y, h => by
    simp [mapCadr, Option.bind_eq_some_iff] at h
    obtain ⟨z, hz, rfl⟩ := h
    have := mapCadr_size hz
    simp; omega
  | .bool _, _, h => by simp [mapCadr] at h
  | .sym _, _, h => by simp [mapCadr] at h
  | .atom _, _, h => by simp [mapCadr] at h
  | .undefined, _, h => by simp [mapCadr] at h
  | .unspecified, _, h => by simp [mapCadr] at h
  | .cons .nil _, _, h => by simp [mapCadr] at h
  | .cons (.bool _) _, _, h => by simp [mapCadr] at h
  | .cons (.sym _) _, _, h => by simp [mapCadr] at h
  | .cons (.atom _) _, _, h => by simp [mapCadr] at h
  | .cons .undefined _, _, h => by simp [mapCadr] at h
  | .cons .unspecified _, _, h => by simp [mapCadr] at h
  | .cons (.cons _ .nil) _, _, h => by simp [mapCadr] at h
  | .cons (.cons _ (.bool _)) _, _, h => by simp [mapCadr] at h
  | .cons (.cons _ (.sym _)) _, _, h => by simp [mapCadr] at h
  | .cons (.cons _ (.atom _)) _, _, h => by simp [mapCadr] at h
  | .cons (.cons _ .undefined) _, _, h => by simp [mapCadr] at h
  | .cons (.cons _ .unspecified) _, _, h => by simp [mapCadr] at h

mutual

/-- `generate` (syntactic_environment.cpp L91-L128), with the dispatch to the generators of
src/kernel/generator.cpp inlined: `begin` L189-L220, `call-with-current-continuation!` L256-L267,
`current` L269-L273, `define` L222-L239, `if` L106-L141, `install` L275-L281, `lambda` L74-L82,
`letrec` L172-L187, `quote` L32-L37, `quote-syntax` L39-L43, `set!` L143-L170, and the call
L45-L54. -/
def generate (G : Globals) (form : Form) (bv : List Form) (k : Code) (tail : Bool) : Option Code :=
  match form with
  | .sym x => some (loadInstr (identify G x bv) :: k)
  | .cons a form =>
    match keyword G a bv with
    | some .quote =>
      match form with
      | .cons d _ => some (.loadConstant d :: k)
      | _ => none
    | some .quoteSyntax =>
      match form with
      | .cons d _ => some (.loadConstant d :: k)
      | _ => none
    | some .lambda =>
      match form with
      | .cons formals form => do
        some (.loadClosure (← genBody G form (formals :: bv) [.ret]) :: k)
      | _ => none
    | some .cond =>
      match form with
      | .cons test (.cons consequent alternate) => do
        let k' : Code := if tail then k else [.join]
        let c₁ ← generate G consequent bv k' tail
        let c₂ ←
          match alternate with
          | .nil => some [.loadConstant .unspecified, if tail then .ret else .join]
          | .cons alternate _ => generate G alternate bv k' tail
          | _ => none
        generate G test bv (if tail then [.tailSelect c₁ c₂] else .select c₁ c₂ :: k) false
      | _ => none
    | some .set =>
      match form with
      | .cons (.sym x) (.cons form _) =>
        generate G form bv (storeInstr (identify G x bv) :: k) false
      | _ => none
    | some .letrec =>
      match form with
      | .cons bindings form =>
        match mapCar bindings, _h : mapCadr bindings with
        | some formals, some inits => do
          let body ← genBody G form (formals :: bv) [.ret]
          let c ← genOperand G inits (formals :: bv)
            (.loadClosure body :: if tail then [.tailLetrec] else .letrec :: k)
          some (.dummy :: c)
        | _, _ => none
      | _ => none
    | some .begin => genSequence G form bv k tail
    | some .define =>
      match bv with
      | [] =>
        match form with
        | .cons (.sym x) .nil =>
          some (.loadConstant .unspecified :: storeInstr (identify G x bv) :: k)
        | .cons (.sym x) (.cons form _) =>
          generate G form bv (storeInstr (identify G x bv) :: k) false
        | _ => none
      | _ => none
    | some .callCC =>
      match form with
      | .cons f .nil => do some (.loadContinuation k :: (← generate G f bv [.tailCall] tail))
      | _ => none
    | some .current =>
      match form with
      | .cons (.atom n) _ => some (.current n :: k)
      | _ => none
    | some .install =>
      match form with
      | .cons (.atom n) (.cons form _) => generate G form bv (.install n :: k) false
      | _ => none
    | some .other => none
    | none => do
      let c ← generate G a bv (if tail then [.tailCall] else .call :: k) false
      genOperand G form bv c
  | d => some (.loadConstant d :: k)
  termination_by (sizeOf form, 0)
  decreasing_by
    all_goals try have := mapCadr_size ‹mapCadr _ = some _›
    all_goals simp_wf
    all_goals try simp [Prod.lex_def]
    all_goals try omega

/-- `generator::operand` (generator.cpp L56-L72): the operands are evaluated from the last to the
first, and collected in a list. -/
def genOperand (G : Globals) (form : Form) (bv : List Form) (k : Code) : Option Code :=
  match form with
  | .cons a form => do genOperand G form bv (← generate G a bv (.cons :: k) false)
  | d => generate G d bv k false
  termination_by (sizeOf form, 1)
  decreasing_by
    all_goals simp_wf
    all_goals try simp [Prod.lex_def]
    all_goals try omega

/-- `generator::body` (generator.cpp L84-L104). -/
def genBody (G : Globals) (form : Form) (bv : List Form) (k : Code) : Option Code :=
  match form with
  | .cons a .nil => generate G a bv k true
  | .cons a form => do generate G a bv (.drop :: (← genBody G form bv k)) false
  | _ => none
  termination_by (sizeOf form, 1)
  decreasing_by
    all_goals simp_wf
    all_goals try simp [Prod.lex_def]
    all_goals try omega

/-- `generator::sequence` (generator.cpp L189-L220). -/
def genSequence (G : Globals) (form : Form) (bv : List Form) (k : Code) (tail : Bool) :
    Option Code :=
  match form with
  | .cons a .nil => generate G a bv k tail
  | .cons a form => do
    let c ← generate G a bv [] false
    some (c ++ .drop :: (← genSequence G form bv k tail))
  | _ => none
  termination_by (sizeOf form, 1)
  decreasing_by
    all_goals simp_wf
    all_goals try simp [Prod.lex_def]
    all_goals try omega

end

/-- `compile` (syntactic_environment.cpp L31-L34) after expansion, for a form at the outermost
level: no bound variables, and the continuation `(stop)` (syntactic_environment.hpp L37-L40). -/
def compile (G : Globals) (form : Form) : Option Code := generate G form [] [.stop] false

end Meevax.Secd
