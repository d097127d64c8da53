import Verif.Spec.DatumLabel

/-!
Model of SRFI 38, which is `write-shared` of `(scheme write)`: library/srfi-38.ss and library/r7rs.ss L546-549.

The text is a list of tokens; how literals are spelled is not modelled here (C18-C22).  Procedures of the
library that call themselves have a bound on the depth of calls; `none` is an error or a run that is deeper.
-/

namespace Meevax.Shared

/-- What the association list holds for an object: `#f`, `#t` or a number.
library/srfi-38.ss L54-63 -/
inductive Mark where
  | no
  | yes
  | num (k : Nat)
  deriving DecidableEq, Repr

/-- The association list; the key `none` is the symbol `dummy` (L124). -/
abbrev Alist := List (Option Nat × Mark)

/-- `(assq obj alist)`, the mark (library/srfi-38.ss L70). -/
def assq (n : Nat) : Alist → Option Mark
  | [] => none
  | (k, m) :: al => if k = some n then some m else assq n al

/-- `interesting?`: pairs, and vectors and strings that are not empty.
library/srfi-38.ss L49-52 -/
def interesting (H : Heap Obj) : Obj → Option Nat
  | .ref n => if (H n).isEmpty then none else some n
  | _ => none

/-- The loop over the elements of a vector; `w` is `scan`.
library/srfi-38.ss L118-121 -/
def scans (w : Obj → Alist → Option Alist) : List Obj → Alist → Option Alist
  | [], al => some al
  | e :: es, al => (w e al).bind fun al => scans w es al

/-- `scan`: which parts occur more than once.
library/srfi-38.ss L110-122 -/
def scan (H : Heap Obj) : Nat → Obj → Alist → Option Alist
  | 0, _, _ => none
  | f + 1, obj, al =>
    match interesting H obj with
    | none => some al
    | some n =>
      match assq n al with
      | some .no => some ((some n, .yes) :: al)
      | some _ => some al
      | none =>
        let al := (some n, .no) :: al
        match H n with
        | .pair a d => (scan H f d al).bind fun al => scan H f a al
        | .vector es => scans (scan H f) es al
        | .string _ => some al

/-- `(write obj outport)` for what has no tracked parts.
library/srfi-38.ss L90, L104 -/
def literal (H : Heap Obj) : Obj → List Tok
  | .nil => [.lp, .rp]
  | .atom a => [.atom a]
  | .ref n =>
    match H n with
    | .string s => [.string s]
    | _ => [.vec, .rp]

/-- `(+ 1 (cdar alist))`: the number after the most recently assigned one.
library/srfi-38.ss L99 -/
def nextLabel : Alist → Nat
  | (_, .num k) :: _ => k + 1
  | _ => 0

/-- `write-vec`, with the first element before it; `es` is the part of the vector from the index on, `w` is
`write-obj`.
library/srfi-38.ss L83-88 -/
def writeVec (w : Obj → Alist → Option (List Tok × Alist)) : List Obj → Alist → Option (List Tok × Alist)
  | [], al => some ([], al)
  | [e], al => w e al
  | e :: es, al =>
    (w e al).bind fun (ts, al) => (writeVec w es al).map fun (us, al) => (ts ++ .space :: us, al)

mutual

/-- `write-obj`.
library/srfi-38.ss L65, L91-104 -/
def writeObj (H : Heap Obj) : Nat → Obj → Alist → Option (List Tok × Alist)
  | 0, _, _ => none
  | f + 1, obj, al =>
    match interesting H obj with
    | none => some (literal H obj, al)
    | some n =>
      match assq n al with
      | none => none
      | some .no => writeInteresting H f n al
      | some (.num k) => some ([.ref k], al)
      | some .yes =>
        let k := nextLabel al
        (writeInteresting H f n ((some n, .num k) :: al)).map fun (ts, al) => (.label k :: ts, al)

/-- `write-interesting`.
library/srfi-38.ss L66-90 -/
def writeInteresting (H : Heap Obj) : Nat → Nat → Alist → Option (List Tok × Alist)
  | 0, _, _ => none
  | f + 1, n, al =>
    match H n with
    | .pair a d =>
      (writeObj H f a al).bind fun (ts, al) =>
        (writeCdr H f d al).map fun (us, al) => (.lp :: (ts ++ us), al)
    | .vector es => (writeVec (writeObj H f) es al).map fun (ts, al) => (.vec :: (ts ++ [.rp]), al)
    | .string s => some ([.string s], al)

/-- `write-cdr`.
library/srfi-38.ss L69-80 -/
def writeCdr (H : Heap Obj) : Nat → Obj → Alist → Option (List Tok × Alist)
  | 0, _, _ => none
  | f + 1, obj, al =>
    let rest (ts : List Tok × Alist) : List Tok × Alist := (.dot :: (ts.1 ++ [.rp]), ts.2)
    match obj with
    | .nil => some ([.rp], al)
    | .atom _ => (writeObj H f obj al).map rest
    | .ref n =>
      match H n with
      | .pair a d =>
        match assq n al with
        | none => none
        | some .no =>
          (writeObj H f a al).bind fun (ts, al) =>
            (writeCdr H f d al).map fun (us, al) => (.space :: (ts ++ us), al)
        | some _ => (writeObj H f obj al).map rest
      | _ => (writeObj H f obj al).map rest

end

/-- `write-with-shared-structure`, `write-shared`.
library/srfi-38.ss L124; library/r7rs.ss L546-549 -/
def writeShared (H : Heap Obj) (f : Nat) (obj : Obj) : Option (List Tok) :=
  (scan H f obj []).bind fun al =>
    (writeObj H f obj ((none, .num 0) :: al)).map fun r => r.1

/-- Objects while reading: a part that is not known yet is a procedure that returns it.
library/srfi-38.ss L268-269, L300 -/
inductive Raw where
  | obj (o : Obj)
  | thunk (k : Nat)
  deriving DecidableEq, Repr

/-- The heap while reading, and `parts-alist`: the labels declared, and what the variable `obj` of the
`letrec` for each holds.
library/srfi-38.ss L263-266 -/
structure St where
  heap : Heap Raw
  next : Nat
  parts : List (Nat × Option Raw)

/-- A new object (auxiliary to library/srfi-38.ss L277-L330). -/
def St.alloc (s : St) (x : Node Raw) : Raw × St :=
  (.obj (.ref s.next), { s with heap := fun n => if n = s.next then x else s.heap n, next := s.next + 1 })

/-- The elements of a list that was read, and its tail, as pairs (library/srfi-38.ss L313-L330). -/
def St.list (s : St) : List Raw → Raw → Raw × St
  | [], t => (t, s)
  | x :: xs, t =>
    let (t, s) := s.list xs t
    s.alloc (.pair x t)

/-- The variable `obj` gets its value.
library/srfi-38.ss L307-310 -/
def setPart (k : Nat) (v : Raw) : List (Nat × Option Raw) → List (Nat × Option Raw)
  | [] => []
  | (j, o) :: ps => if j = k then (j, some v) :: ps else (j, o) :: setPart k v ps

/-- The number has an entry (library/srfi-38.ss L300, L303). -/
def declared (k : Nat) (ps : List (Nat × Option Raw)) : Bool := ps.any fun p => p.1 = k

/-- `eat-intertoken-space`.
library/srfi-38.ss L148-155 -/
def eat : List Tok → List Tok
  | .space :: ts => eat ts
  | ts => ts

mutual

/-- `finish-reading-object`, for the tokens from the first one on.
library/srfi-38.ss L270-311 -/
def readObject : Nat → List Tok → St → Option (Raw × List Tok × St)
  | 0, _, _ => none
  | f + 1, ts, s =>
    match eat ts with
    | .atom a :: ts => some (.obj (.atom a), ts, s)
    | .string x :: ts => let (v, s) := s.alloc (.string x); some (v, ts, s)
    | .lp :: ts =>
      (readTail f ts s).map fun (xs, t, ts, s) => let (v, s) := s.list xs t; (v, ts, s)
    | .vec :: ts =>
      (readTail f ts s).bind fun (xs, t, ts, s) =>
        match t with
        | .obj .nil => let (v, s) := s.alloc (.vector xs); some (v, ts, s)
        | _ => none
    | .label k :: ts => readDecls f s.parts (.label k :: ts) s
    | .ref k :: ts => readDecls f s.parts (.ref k :: ts) s
    | _ => none

/-- `read-decls`: a chain of declarations.  `starting` is `starting-alist`.
library/srfi-38.ss L292-311 -/
def readDecls : Nat → List (Nat × Option Raw) → List Tok → St → Option (Raw × List Tok × St)
  | 0, _, _, _ => none
  | f + 1, starting, ts, s =>
    match eat ts with
    | .ref k :: ts => if declared k starting then some (.thunk k, ts, s) else none
    | .label k :: ts =>
      if declared k s.parts then none
      else
        (readDecls f starting ts { s with parts := (k, none) :: s.parts }).map fun (v, ts, s) =>
          (v, ts, { s with parts := setPart k v s.parts })
    | ts => readObject f ts s

/-- `read-list-tail`: the elements and the tail.  The pairs it makes are made by the callers here; those that
`list->vector` drops are not modelled.
library/srfi-38.ss L313-325 -/
def readTail : Nat → List Tok → St → Option (List Raw × Raw × List Tok × St)
  | 0, _, _ => none
  | f + 1, ts, s =>
    match eat ts with
    | .rp :: ts => some ([], .obj .nil, ts, s)
    | .dot :: ts =>
      (readObject f ts s).bind fun (v, ts, s) =>
        match eat ts with
        | .rp :: ts => some ([], v, ts, s)
        | _ => none
    | ts =>
      (readObject f ts s).bind fun (v, ts, s) =>
        (readTail f ts s).map fun (xs, t, ts, s) => (v :: xs, t, ts, s)

end

/-- `read-string`, after the opening quotation mark: the characters of the string, and the rest of the text.
library/srfi-38.ss L157-166 -/
def readString : List Nat → Option (List Nat × List Nat)
  | [] => none
  | c :: cs =>
    if c = 34 then some ([], cs)
    else if c = 92 then
      match cs with
      | [] => none
      | d :: cs => (readString cs).map fun (x, cs) => (d :: x, cs)
    else (readString cs).map fun (x, cs) => (c :: x, cs)

/-- `unthunk`.
library/srfi-38.ss L331-333 -/
def unthunk (parts : List (Nat × Option Raw)) : Nat → Nat → Option Raw
  | 0, _ => none
  | f + 1, k =>
    match parts.lookup k with
    | some (some (.thunk j)) => unthunk parts f j
    | some (some v) => some v
    | _ => none

/-- The object `n` changed (`set-car!`, `set-cdr!` and `vector-set!`, library/srfi-38.ss L339-L352). -/
def setNode (h : Heap Raw) (n : Nat) (x : Node Raw) : Heap Raw := fun m => if m = n then x else h m

/-- The loop over the elements of a vector, with `k` elements to go; `w` is `fill-in-parts`, `u` is
`unthunk`.
library/srfi-38.ss L344-351 -/
def fillVec (w : Raw → Heap Raw → Option (Heap Raw)) (u : Nat → Option Raw) (n i : Nat) :
    Nat → Heap Raw → Option (Heap Raw)
  | 0, h => some h
  | k + 1, h =>
    match h n with
    | .vector es =>
      match es[i]? with
      | some (.thunk t) => (u t).bind fun x => fillVec w u n (i + 1) k (setNode h n (.vector (es.set i x)))
      | some e => (w e h).bind fun h => fillVec w u n (i + 1) k h
      | none => none
    | _ => none

/-- `fill-in-parts`.
library/srfi-38.ss L336-343 -/
def fill (parts : List (Nat × Option Raw)) : Nat → Raw → Heap Raw → Option (Heap Raw)
  | 0, _, _ => none
  | f + 1, v, h =>
    match v with
    | .obj (.ref n) =>
      match h n with
      | .pair a d =>
        (match a with
         | .thunk k => (unthunk parts f k).map fun x => setNode h n (.pair x d)
         | a => fill parts f a h).bind fun h =>
          match h n with
          | .pair a (.thunk k) => (unthunk parts f k).map fun x => setNode h n (.pair a x)
          | .pair _ d => fill parts f d h
          | _ => none
      | .vector es => fillVec (fill parts f) (unthunk parts f) n 0 es.length h
      | .string _ => some h
    | _ => some h

/-- A heap in which all parts are known (auxiliary to library/srfi-38.ss L335-L354). -/
def Raw.known : Raw → Obj
  | .obj o => o
  | .thunk _ => .nil

/-- The parts of an object changed (auxiliary to library/srfi-38.ss L335-L354). -/
def Node.map {α β : Type} (g : α → β) : Node α → Node β
  | .pair a d => .pair (g a) (g d)
  | .vector es => .vector (es.map g)
  | .string s => .string s

/-- `read-with-shared-structure`: the heap and the object, and what remains of the text.
library/srfi-38.ss L125-352 -/
def readShared (f : Nat) (ts : List Tok) : Option (Heap Raw × Raw × List Tok) :=
  (readObject f ts ⟨fun _ => .string [], 0, []⟩).bind fun (v, ts, s) =>
    (fill s.parts f v s.heap).map fun h => (h, v, ts)

end Meevax.Shared
