/-!
# Records (SRFI 9)

Model of `(srfi 9)`, /repo/library/srfi-9.ss L28-L142, over a store of vectors.

* A value is the address of a vector, the unique object `record-marker`, a list of field names, or
  anything else that is not a vector.
* `make-vector` without a fill argument leaves the elements unspecified; the model fills them with a
  value `unspecified`.
* Indices are natural numbers (no exact integer of that size overflows, property C20).  `vector-ref` and
  `vector-set!` do not check their range (property C50); the model stops with an error instead, and the
  theorems about records only concern records with all their elements.
* `define-record-type` is the sequence of definitions that its expansion consists of
  (/repo/library/srfi-9.ss L129-L142): one call of `make-record-type`, one of `record-constructor`, and
  `record-predicate`, `record-accessor` and `record-modifier` for each field.
-/

namespace Meevax.Record

/-- Objects, as far as records look at them (library/srfi-9.ss L28-L142). -/
inductive Val
  /-- a vector, by its address -/
  | vec (address : Nat)
  /-- the object `record-marker`, /repo/library/srfi-9.ss L28 -/
  | marker
  /-- a list of symbols -/
  | tags (ts : List Nat)
  /-- what `make-vector` leaves in the elements -/
  | unspecified
  /-- any other object that is not a vector -/
  | other (n : Nat)
deriving DecidableEq, Repr

/-- The vectors that exist, by address (include/meevax/kernel/vector.hpp). -/
abbrev Store := List (List Val)

/-- The outcome of a call: a value and the new store, or an error object that is raised
(auxiliary to library/srfi-9.ss L28-L142). -/
inductive Result (α : Type)
  | value (x : α) (store : Store)
  | error
deriving DecidableEq, Repr

/-- Sequencing; an error ends the computation (auxiliary to library/srfi-9.ss L28-L142). -/
def Result.bind {α β : Type} (r : Result α) (f : α → Store → Result β) : Result β :=
  match r with
  | .value x σ => f x σ
  | .error => .error

/-- `make-vector` with one argument, /repo/src/kernel/boot.cpp L390. -/
def makeVector (n : Nat) (σ : Store) : Result Val :=
  .value (.vec σ.length) (σ ++ [List.replicate n .unspecified])

/-- `vector-ref`, /repo/src/kernel/boot.cpp L392; stops for anything but a vector and an index in
range. -/
def vectorRef (v : Val) (i : Nat) (σ : Store) : Result Val :=
  match v with
  | .vec a =>
    match σ[a]? with
    | some xs =>
      match xs[i]? with
      | some x => .value x σ
      | none => .error
    | none => .error
  | _ => .error

/-- `vector-set!`, /repo/src/kernel/boot.cpp L393; the value returned is of no interest. -/
def vectorSet (v : Val) (i : Nat) (x : Val) (σ : Store) : Result Unit :=
  match v with
  | .vec a =>
    match σ[a]? with
    | some xs => if i < xs.length then .value () (σ.set a (xs.set i x)) else .error
    | none => .error
  | _ => .error

/-- `record?`, /repo/library/srfi-9.ss L30-L34. -/
def isRecord (v : Val) (σ : Store) : Bool :=
  match v with
  | .vec a =>
    match σ[a]? with
    | some xs =>
      match xs with
      | x :: _ => x = .marker
      | [] => false
    | none => false
  | _ => false

/-- `make-record`, /repo/library/srfi-9.ss L36-L39. -/
def makeRecord (size : Nat) (σ : Store) : Result Val :=
  (makeVector (size + 1) σ).bind fun new σ => (vectorSet new 0 .marker σ).bind fun _ σ => .value new σ

/-- `record-ref`, /repo/library/srfi-9.ss L41-L42. -/
def recordRef (r : Val) (i : Nat) (σ : Store) : Result Val := vectorRef r (i + 1) σ

/-- `record-set!`, /repo/library/srfi-9.ss L44-L45. -/
def recordSet (r : Val) (i : Nat) (x : Val) (σ : Store) : Result Unit := vectorSet r (i + 1) x σ

/-- `make-record-type`, /repo/library/srfi-9.ss L58-L63.  `rtd` is `:record-type`. -/
def makeRecordType (rtd : Val) (name : Val) (ts : List Nat) (σ : Store) : Result Val :=
  (makeRecord 3 σ).bind fun new σ =>
  (recordSet new 0 rtd σ).bind fun _ σ =>
  (recordSet new 1 name σ).bind fun _ σ =>
  (recordSet new 2 (.tags ts) σ).bind fun _ σ => .value new σ

/-- `record-type-field-tags`, /repo/library/srfi-9.ss L68-L69; anything but a list is an error where it is
used. -/
def fieldTags (type : Val) (σ : Store) : Result (List Nat) :=
  (recordRef type 2 σ).bind fun v σ =>
    match v with
    | .tags ts => .value ts σ
    | _ => .error

/-- The loop of `field-index`, /repo/library/srfi-9.ss L72-L77. -/
def indexLoop (tag : Nat) : Nat → List Nat → Option Nat
  | _, [] => none
  | i, t :: ts => if tag = t then some i else indexLoop tag (i + 1) ts

/-- `field-index`, /repo/library/srfi-9.ss L71-L77. -/
def fieldIndex (type : Val) (tag : Nat) (σ : Store) : Result Nat :=
  (fieldTags type σ).bind fun ts σ =>
    match indexLoop tag 1 ts with
    | some i => .value i σ
    | none => .error

/-- The indices of several fields, /repo/library/srfi-9.ss L82-L84. -/
def fieldIndices (type : Val) : List Nat → Store → Result (List Nat)
  | [], σ => .value [] σ
  | tag :: tags, σ =>
    (fieldIndex type tag σ).bind fun i σ =>
    (fieldIndices type tags σ).bind fun is σ => .value (i :: is) σ

/-- The `for-each` that stores the arguments, /repo/library/srfi-9.ss L90-L93. -/
def storeFields (new : Val) : List Val → List Nat → Store → Result Unit
  | arg :: args, i :: is, σ => (recordSet new i arg σ).bind fun _ σ => storeFields new args is σ
  | _, _, σ => .value () σ

/-- The procedure made by `record-constructor`, /repo/library/srfi-9.ss L79-L95, called with `args`.  The
model looks the fields up at each call; the code does it once, when the type is defined. -/
def construct (type : Val) (tags : List Nat) (args : List Val) (σ : Store) : Result Val :=
  (fieldTags type σ).bind fun ts σ =>
  (fieldIndices type tags σ).bind fun is σ =>
    if args.length = tags.length then
      (makeRecord (ts.length + 1) σ).bind fun new σ =>
      (recordSet new 0 type σ).bind fun _ σ =>
      (storeFields new args is σ).bind fun _ σ => .value new σ
    else .error

/-- The test made by the predicate, the accessors and the modifiers, /repo/library/srfi-9.ss L99-L101:
`record-type` is only taken of a record, and `record-ref` of a record with a single element is an
error. -/
def hasType (type thing : Val) (σ : Store) : Result Bool :=
  if isRecord thing σ then
    (recordRef thing 0 σ).bind fun t σ => .value (t = type) σ
  else .value false σ

/-- The procedure made by `record-predicate`, /repo/library/srfi-9.ss L97-L101. -/
def predicate (type thing : Val) (σ : Store) : Result Bool := hasType type thing σ

/-- The procedure made by `record-accessor`, /repo/library/srfi-9.ss L103-L110. -/
def access (type : Val) (tag : Nat) (thing : Val) (σ : Store) : Result Val :=
  (fieldIndex type tag σ).bind fun i σ =>
  (hasType type thing σ).bind fun b σ => if b then recordRef thing i σ else .error

/-- The procedure made by `record-modifier`, /repo/library/srfi-9.ss L112-L119. -/
def modify (type : Val) (tag : Nat) (thing x : Val) (σ : Store) : Result Unit :=
  (fieldIndex type tag σ).bind fun i σ =>
  (hasType type thing σ).bind fun b σ => if b then recordSet thing i x σ else .error

/-- `vector?` (src/kernel/boot.cpp L388). -/
def isVector (v : Val) : Bool :=
  match v with
  | .vec _ => true
  | _ => false

/-- The store after `(srfi 9)` has been loaded: the record `:record-type`, which is its own type,
/repo/library/srfi-9.ss L47-L53, and whatever vectors there were before. -/
def load (σ : Store) : Result Val :=
  (makeRecord 3 σ).bind fun rtd σ =>
  (recordSet rtd 0 rtd σ).bind fun _ σ =>
  (recordSet rtd 1 (.other 0) σ).bind fun _ σ =>
  (recordSet rtd 2 (.tags [0, 1]) σ).bind fun _ σ => .value rtd σ

end Meevax.Record
