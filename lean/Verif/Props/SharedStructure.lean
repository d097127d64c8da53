import Verif.Lemmas.SharedTotal
import Verif.Lemmas.SharedRound
import Verif.Model.Writer

/-!
C67: `write-shared` (SRFI 38's `write-with-shared-structure`) ends on every object, cyclic ones included, its
text denotes the object with every part shown once, and `read-with-shared-structure` reads it back.
-/

namespace Meevax.Shared

/-- `write-shared` ends, whatever the object: shared parts, and cycles through pairs and vectors.  The heap
has finitely many nodes; the depth of calls is at most three times their number. -/
theorem C67_write_ends {H : Heap Obj} {B : Nat} (hB : ∀ n m, n < B → .ref m ∈ (H n).parts → m < B) {o : Obj}
    (ho : ∀ n, o = .ref n → n < B) {f : Nat} (hf : 3 * B + 1 ≤ f) : ∃ ts, writeShared H f o = some ts := by
  refine writeShared_ends hB ?_ hf
  cases o with
  | nil | atom => trivial
  | ref n => exact ho n rfl

/-- What `write-shared` writes is a text for the object.  Labels are declared once and before they are used,
every part is shown in full exactly once, and only parts that occur more than once have a label. -/
theorem C67_write_denotes {H : Heap Obj} {f : Nat} {o : Obj} {ts : List Tok} (h : writeShared H f o = some ts) :
    ∃ D L ks ns, Text ts D ∧ Scoped [] D ks ∧ Den H L D o ns ∧ ns.Nodup ∧ (∀ n, n ∈ ns ↔ Reach H o n) ∧
      ∀ k ∈ ks, ∃ n, L k = some (.ref n) ∧ Twice H o n :=
  writeShared_shows h

/-- `read-with-shared-structure` reads every text whose labels are in order, and makes the object it denotes;
no procedure that stands for a part is left in it. -/
theorem C67_read_denotes {ts : List Tok} {D : Datum} {ks : List Nat} (ht : Text ts D) (hs : Scoped [] D ks)
    (rest : List Tok) :
    ∃ h v M ns, (∀ f, M ≤ f → readShared f (ts ++ rest) = some (h, .obj v, rest)) ∧
      Denotes (fun n => (h n).map Raw.known) D v ns ∧ Settled h ns :=
  readShared_reads ht hs rest

/-- Writing an object and reading the text gives an object with the same graph: the same parts, shared in the
same places, and the same cycles.  Empty vectors and strings are not tracked. -/
theorem C67_round_trip_partial {H : Heap Obj} {f : Nat} {o : Obj} {ts : List Tok} (h : writeShared H f o = some ts)
    (rest : List Tok) :
    ∃ G v M, (∀ g, M ≤ g → readShared g (ts ++ rest) = some (G, .obj v, rest)) ∧
      Isomorphic H o (fun n => (G n).map Raw.known) v := by
  obtain ⟨D, L, ks, ns, h₁, h₂, h₃, h₄, -, -⟩ := writeShared_shows h
  obtain ⟨G, v, M, ms, h₅, h₆, -⟩ := readShared_reads h₁ h₂ rest
  exact ⟨G, v, M, h₅, Denotes.isomorphic ⟨L, ks, h₂, h₃, h₄⟩ h₆⟩

/-- Objects that the same text denotes have the same graph. -/
theorem C67_text_unique {G G' : Heap Obj} {D : Datum} {v v' : Obj} {ns ns' : List Nat} (h : Denotes G D v ns)
    (h' : Denotes G' D v' ns') : Isomorphic G v G' v' := h.isomorphic h'

/-! ### Strings inside the text -/

open Meevax.Text in
theorem putChar_printable (high : Nat → Bool) {c : Nat} (h₁ : 0x20 ≤ c) (h₂ : c ≤ 0x7E) :
    putChar high c = [92, .ofNat c] ∨ (putChar high c = [.ofNat c] ∧ c ≠ 34 ∧ c ≠ 92) := by
  have hp : isPrint high c = true := by
    have : c ≤ 255 := by omega
    simp only [isPrint, this, if_true]
    simp [h₁, h₂]
  unfold putChar
  rw [if_pos hp]
  have h7 : c ≠ 7 := by omega
  have h8 : c ≠ 8 := by omega
  have h9 : c ≠ 9 := by omega
  have h10 : c ≠ 10 := by omega
  have h13 : c ≠ 13 := by omega
  rw [if_neg h7, if_neg h8, if_neg h9, if_neg h10, if_neg h13]
  by_cases h34 : c = 34
  · subst h34; left; decide
  · by_cases h92 : c = 92
    · subst h92; left; decide
    · by_cases h124 : c = 124
      · subst h124; left; decide
      · right
        rw [if_neg h34, if_neg h92, if_neg h124]
        exact ⟨rfl, h34, h92⟩

open Meevax.Text in
/-- A string of printable characters of ASCII is read back from what `write` prints for it. -/
theorem C67_string_partial (high : Nat → Bool) {cs : List Nat} (h : ∀ c ∈ cs, 0x20 ≤ c ∧ c ≤ 0x7E) (rest : List Nat) :
    readString ((writeString high cs).tail.map (·.toNat) ++ rest) = some (cs, rest) := by
  simp only [writeString, List.cons_append, List.nil_append, List.tail_cons, List.map_append, List.append_assoc,
    List.map_cons, List.map_nil]
  induction cs with
  | nil => simp; rw [readString.eq_def]; simp
  | cons c cs ih =>
    have hc := h c (by simp)
    have ih := ih fun c hc => h c (by simp [hc])
    have ht : (UInt8.ofNat c).toNat = c := by
      rw [UInt8.toNat_ofNat']
      exact Nat.mod_eq_of_lt (by omega)
    simp only [List.flatMap_cons, List.map_append, List.append_assoc]
    rcases putChar_printable high hc.1 hc.2 with e | ⟨e, h34, h92⟩
    · rw [e]
      simp only [List.map_cons, List.map_nil, List.cons_append, List.nil_append, ht]
      rw [readString.eq_def]
      simp only [show (92 : UInt8).toNat = 92 from rfl, show ¬ (92 : Nat) = 34 by decide, if_false, if_true, ih, Option.map_some]
    · rw [e]
      simp only [List.map_cons, List.map_nil, List.cons_append, List.nil_append, ht]
      rw [readString.eq_def]
      simp only [h34, h92, if_false, ih, Option.map_some]

open Meevax.Text in
/-- A newline does not survive: `write` prints `"\xA;"`, which is read as the three characters `xA;`. -/
theorem C67_string_escape_fails (high : Nat → Bool) :
    readString ((writeString high [10]).tail.map (·.toNat)) = some ([120, 65, 59], []) := by
  have : isPrint high 10 = false := by simp [isPrint]
  simp only [writeString, List.flatMap_cons, List.flatMap_nil, putChar, this]
  decide +kernel

/-! ### Cases -/

/-- `#1=(#2=#(5 "h") #2# . #1#)`: a vector that occurs twice, and a cycle. -/
def sample : Heap Obj
  | 0 => .pair (.ref 1) (.ref 2)
  | 1 => .vector [.atom 5, .ref 3]
  | 2 => .pair (.ref 1) (.ref 0)
  | 3 => .string [104]
  | _ => .string []

theorem C67_example : writeShared sample 13 (.ref 0) =
    some [.label 1, .lp, .label 2, .vec, .atom 5, .space, .string [104], .rp, .space, .ref 2, .dot, .ref 1, .rp] := by
  decide +kernel

theorem C67_example_ends : ∃ ts, writeShared sample 13 (.ref 0) = some ts :=
  C67_write_ends (B := 4) (fun n m hn hm => by
    match n, hn with
    | 0, _ => simp [sample, Node.parts] at hm; omega
    | 1, _ => simp [sample, Node.parts] at hm; omega
    | 2, _ => simp [sample, Node.parts] at hm; omega
    | 3, _ => simp [sample, Node.parts] at hm) (fun n h => by cases h; decide) (by decide)

/-- The object read back: a cycle, with the vector shared. -/
theorem C67_example_read :
    (readShared 20 [.label 1, .lp, .label 2, .vec, .atom 5, .space, .string [104], .rp, .space, .ref 2, .dot, .ref 1,
      .rp]).map (fun r => (r.2.1, r.1 0, r.1 1, r.1 2, r.1 3)) =
    some (.obj (.ref 3), .string [104], .vector [.obj (.atom 5), .obj (.ref 0)], .pair (.obj (.ref 1)) (.obj (.ref 3)),
      .pair (.obj (.ref 1)) (.obj (.ref 2))) := by decide +kernel

/-- An empty vector that occurs twice gets no label, although R7RS asks for one, and is read as two vectors. -/
theorem C67_empty_vector_fails :
    let H : Heap Obj := fun n => if n = 0 then .pair (.ref 1) (.ref 1) else .vector []
    Twice H (.ref 0) 1 ∧
    writeShared H 7 (.ref 0) = some [.lp, .vec, .rp, .dot, .vec, .rp, .rp] ∧
    (readShared 9 [.lp, .vec, .rp, .dot, .vec, .rp, .rp]).map (fun r => (r.2.1, r.1 2)) =
      some (.obj (.ref 2), .pair (.obj (.ref 0)) (.obj (.ref 1))) := by
  refine ⟨.inr (.inl ⟨0, .here rfl, by decide⟩), by decide +kernel, by decide +kernel⟩

end Meevax.Shared
