import Verif.Model.FilePort

/-
What a user of file ports relies on: the contents of a file after calls of procedures, in terms of what was
written to the port; the characters that a port gives, in terms of the contents of the file.
-/

namespace Meevax.FilePort
open Meevax.Text (Byte)

/-- The contents of a file. -/
def contents (w : World) (path : String) : Option (List Byte) := (w.disk.names path).map w.disk.data

/-- The text written to a port by a sequence of calls, up to the one that closes it. -/
def wrote (p : Nat) : List Op → List Nat
  | [] => []
  | .put q text :: ops => if q = p then text ++ wrote p ops else wrote p ops
  | .close q :: ops => if q = p then [] else wrote p ops
  | _ :: ops => wrote p ops

/-- The files that have a name or are open exist. -/
structure Sound (w : World) : Prop where
  names : ∀ q i, w.disk.names q = some i → i < w.disk.count
  outputs : ∀ (n i offset : Nat) (buffer : List Byte), w.ports[n]? = some (.output i offset buffer) → i < w.disk.count

/-- The file has no other name, and no open port writes to it. -/
structure Unshared (w : World) (path : String) : Prop where
  name : ∀ q i, w.disk.names q = some i → w.disk.names path = some i → q = path
  writers : ∀ (n i offset : Nat) (buffer : List Byte), w.ports[n]? = some (.output i offset buffer) →
    w.disk.names path ≠ some i

/-- No call opens the file for writing or deletes it. -/
def Leaves (path : String) (ops : List Op) : Prop :=
  ∀ op ∈ ops, op ≠ .openOutput path ∧ op ≠ .deleteFile path

/-- What the calls of `read-char` and `peek-char` on a port return. -/
def answers (pl : Platform) (r : Nat) : World → List Op → List Result
  | _, [] => []
  | w, op :: ops =>
    if op = .readChar r ∨ op = .peekChar r then
      (exec pl w op).1 :: answers pl r (exec pl w op).2 ops
    else answers pl r (exec pl w op).2 ops

/-- What they should return for a text: its characters, one after the other, then eof objects. -/
def expected (r : Nat) : List Op → List Char → List Result
  | [], _ => []
  | op :: ops, cs =>
    if op = .readChar r then
      match cs with
      | [] => .eof :: expected r ops []
      | c :: cs => .char c.toNat :: expected r ops cs
    else if op = .peekChar r then
      match cs with
      | [] => .eof :: expected r ops []
      | c :: cs => .char c.toNat :: expected r ops (c :: cs)
    else expected r ops cs

end Meevax.FilePort
