import Verif.Model.SharedStructure
import Verif.Model.Lists

/-!
Model of datum labels in `write` (src/kernel/pair.cpp) and `read` (src/kernel/textual_input_port.cpp).

Texts are lists of tokens, as for SRFI 38; literals are opaque.  Depth of calls is bounded by an argument;
`none` is a run that is deeper.
-/

namespace Meevax.Label

open Meevax.Shared

/-- An object as list.cpp sees it. -/
def listObj (H : Heap Obj) : Obj → Lists.Obj
  | .nil => .null
  | .atom a => .atom (2 * a)
  | .ref n =>
    match H n with
    | .pair _ _ => .pair n
    | _ => .atom (2 * n + 1)

/-- The pairs as list.cpp sees them. -/
def listHeap (H : Heap Obj) (B : Nat) : Lists.Heap where
  car n := match H n with
    | .pair a _ => listObj H a
    | _ => .null
  cdr n := match H n with
    | .pair _ d => listObj H d
    | _ => .null
  next := B

/-- `is_circular_list(x)`.
src/kernel/list.cpp L74-L99 -/
noncomputable def circular (H : Heap Obj) (B : Nat) (x : Obj) : Option Bool := Lists.isCircularList (listHeap H B) (listObj H x)

/-- `datum_labels::table`: pairs and their numbers.  `none`: no pair is being written, and there is no table.
src/kernel/pair.cpp L38-L71 -/
abbrev Table := Option (List (Nat × Nat))

mutual

/-- `operator <<` of an object.  `circ` is `is_circular_list`.
src/kernel/pair.cpp L73-L117; src/kernel/vector.cpp L30-L43 -/
def write (circ : Obj → Option Bool) (H : Heap Obj) : Nat → Obj → Table → Option (List Tok × Table)
  | 0, _, _ => none
  | f + 1, obj, t =>
    match obj with
    | .nil => some ([.lp, .rp], t)
    | .atom a => some ([.atom a], t)
    | .ref n =>
      match H n with
      | .string s => some ([.string s], t)
      | .vector es => (writeVector circ H f es t).map fun (ts, t) => (.vec :: (ts ++ [.rp]), t)
      | .pair a d =>
        (circ d).bind fun c =>
          -- the table exists while the outermost pair is written
          let leave (r : List Tok × List (Nat × Nat)) : List Tok × Table := (r.1, t.map fun _ => r.2)
          let table := t.getD []
          if c then
            match table.lookup n with
            | some k => some (leave ([.ref k], table))
            | none =>
              let k := table.length + 1
              (writeRing circ H f n n ((n, k) :: table)).map fun r =>
                leave (.label k :: .lp :: (r.1 ++ [.dot, .ref k, .rp]), r.2)
          else
            (write circ H f a (some table)).bind fun (ts, t) =>
              (writeList circ H f d (t.getD [])).map fun r => leave (.lp :: (ts ++ r.1), r.2)

/-- The elements of a vector, with spaces between them (src/kernel/vector.cpp L29-L41). -/
def writeVector (circ : Obj → Option Bool) (H : Heap Obj) : Nat → List Obj → Table → Option (List Tok × Table)
  | 0, _, _ => none
  | _ + 1, [], t => some ([], t)
  | f + 1, [e], t => write circ H f e t
  | f + 1, e :: es, t =>
    (write circ H f e t).bind fun (ts, t) =>
      (writeVector circ H f es t).map fun (us, t) => (ts ++ .space :: us, t)

/-- The loop over a circular list: from the pair `n` on, until `root` is reached again.
src/kernel/pair.cpp L83-L86; include/meevax/kernel/iterator.hpp L97-L118 -/
def writeRing (circ : Obj → Option Bool) (H : Heap Obj) :
    Nat → Nat → Nat → List (Nat × Nat) → Option (List Tok × List (Nat × Nat))
  | 0, _, _, _ => none
  | f + 1, root, n, table =>
    match H n with
    | .pair a d =>
      (write circ H f a (some table)).bind fun (ts, t) =>
        if d = .ref root then some (ts, t.getD [])
        else
          match d with
          | .ref m => (writeRing circ H f root m (t.getD [])).map fun (us, t) => (ts ++ .space :: us, t)
          | _ => none
    | _ => none

/-- The loop over the rest of a list that is not circular.
src/kernel/pair.cpp L99-L113 -/
def writeList (circ : Obj → Option Bool) (H : Heap Obj) :
    Nat → Obj → List (Nat × Nat) → Option (List Tok × List (Nat × Nat))
  | 0, _, _ => none
  | f + 1, obj, table =>
    let last := (write circ H f obj (some table)).map fun (ts, t) => (.dot :: (ts ++ [.rp]), t.getD [])
    match obj with
    | .nil => some ([.rp], table)
    | .atom _ => last
    | .ref n =>
      match H n with
      | .pair a d =>
        (write circ H f a (some table)).bind fun (ts, t) =>
          (writeList circ H f d (t.getD [])).map fun (us, t) => (.space :: (ts ++ us), t)
      | _ => last

end

/-- `write` (src/kernel/pair.cpp L71-L111). -/
noncomputable def writeDatum (H : Heap Obj) (B f : Nat) (obj : Obj) : Option (List Tok) :=
  (write (circular H B) H f obj none).map Prod.fst

/-- Objects in the reader: also `datum_label`, with the digits of the label
(src/kernel/textual_input_port.cpp L79-L86). -/
abbrev Lab := Raw

/-- The reader: the heap, and the labels in `datum_labels` of the port
(include/meevax/kernel/textual_input_port.hpp L61). -/
structure Port where
  heap : Heap Raw
  next : Nat
  labels : List Nat

/-- A new object (auxiliary to src/kernel/textual_input_port.cpp L199-L618). -/
def Port.alloc (s : Port) (x : Node Raw) : Raw × Port :=
  (.obj (.ref s.next), { s with heap := fun n => if n = s.next then x else s.heap n, next := s.next + 1 })

/-- A list with a given end (auxiliary to src/kernel/textual_input_port.cpp L199-L618). -/
def Port.list (s : Port) : List Raw → Raw → Raw × Port
  | [], t => (t, s)
  | x :: xs, t =>
    let (t, s) := s.list xs t
    s.alloc (.pair x t)

/-- `circulate(xs, x, n)`.
src/kernel/textual_input_port.cpp L89-L103 -/
def circulate (x : Raw) (k : Nat) : Nat → Raw → Heap Raw → Option (Heap Raw)
  | 0, _, _ => none
  | f + 1, xs, h =>
    match xs with
    | .obj (.ref n) =>
      match h n with
      | .pair a _ =>
        (circulate x k f a h).bind fun h =>
          match h n with
          | .pair a d => if d = .thunk k then some (setNode h n (.pair a x)) else circulate x k f d h
          | _ => none
      | _ => some h
    | _ => some h

/-- How `read` ends: with an object, or with an exception: `)`, `.` or an error
(src/kernel/textual_input_port.cpp L199-L618). -/
inductive Res where
  | ok (v : Raw)
  | close
  | dot
  | error
  deriving DecidableEq, Repr

/-- `take_character_until` for a closing parenthesis (src/kernel/textual_input_port.cpp L199-L618). -/
def skip : List Tok → List Tok
  | [] => []
  | .rp :: ts => ts
  | _ :: ts => skip ts

mutual

/-- `textual_input_port::read`.
src/kernel/textual_input_port.cpp L260-L352, L455-L456, L554-L575 -/
def read : Nat → List Tok → Port → Option (Res × List Tok × Port)
  | 0, _, _ => none
  | f + 1, ts, s =>
    match ts with
    | [] => some (.error, [], s)
    | .space :: ts => read f ts s
    | .atom a :: ts => some (.ok (.obj (.atom a)), ts, s)
    | .string x :: ts => let (v, s) := s.alloc (.string x); some (.ok v, ts, s)
    | .rp :: ts => some (.close, ts, s)
    | .dot :: ts => some (.dot, ts, s)
    | .lp :: ts =>
      (readList f ts s).map fun
        | (.ok t, xs, ts, s) => let (v, s) := s.list xs t; (.ok v, ts, s)
        | (r, _, ts, s) => (r, ts, s)
    | .vec :: ts =>
      (readList f ts s).bind fun
        | (.ok (.obj .nil), xs, ts, s) => let (v, s) := s.alloc (.vector xs); some (.ok v, ts, s)
        | (.ok _, _, _, _) => none
        | (r, _, ts, s) => some (r, ts, s)
    | .ref k :: ts => some (if k ∈ s.labels then .ok (.thunk k) else .error, ts, s)
    | .label k :: ts =>
      if k ∈ s.labels then some (.error, ts, s)
      else
        (read f ts { s with labels := k :: s.labels }).bind fun
          | (.ok v, ts, s) =>
            if v = .thunk k then some (.ok (.obj .nil), ts, s)
            else
              (circulate v k f v s.heap).map fun h =>
                (.ok v, ts, { s with heap := h, labels := s.labels.erase k })
          | r => some r

/-- `read('(')`, the rest of a list: the elements and, as the result, the tail.  The pairs are made by the
callers.
src/kernel/textual_input_port.cpp L554-L572 -/
def readList : Nat → List Tok → Port → Option (Res × List Raw × List Tok × Port)
  | 0, _, _ => none
  | f + 1, ts, s =>
    (read f ts s).bind fun
      | (.ok x, ts, s) => (readList f ts s).map fun (r, xs, ts, s) => (r, x :: xs, ts, s)
      | (.close, ts, s) => some (.ok (.obj .nil), [], ts, s)
      | (.dot, ts, s) =>
        (read f ts s).map fun
          | (.ok x, ts, s) => (.ok x, [], skip ts, s)
          | (r, ts, s) => (r, [], ts, s)
      | (.error, ts, s) => some (.error, [], ts, s)

end

/-- The port before the first call of `read` (include/meevax/kernel/textual_input_port.hpp L61). -/
def Port.empty : Port := ⟨fun _ => .string [], 0, []⟩

end Meevax.Label
