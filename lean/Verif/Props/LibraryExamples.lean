import Verif.Props.Library
import Verif.Props.Reader
import Verif.Lemmas.WriteFast

/-
Concrete programs for C46-C49: that the hypotheses of the theorems are met, and where the properties fail.
-/

namespace Meevax.Library
open Meevax.Text

theorem write_special (high : Nat → Bool) : writeSymbol high (ascii "x y") = some (ascii "#\"x y\"") := by
  have h := decode_chars ['x', ' ', 'y']
  have e : List.flatMap String.utf8EncodeChar ['x', ' ', 'y'] = ascii "x y" := by decide
  rw [e] at h
  unfold writeSymbol
  rw [if_neg (by decide), if_pos (by decide +kernel), stringOf, h]
  rfl

/-- `write`, by a function that evaluates (the decoding of UTF-8 does not, so one symbol with a special
character is written by hand). -/
def fastCast : Cast where
  high _ := false
  cast d :=
    match d with
    | .symbol n => if n = ascii "x y" then some (ascii "#\"x y\"") else writeSymbol (fun _ => false) n
    | d => (writeFast (fun _ => false) d).1
  cast_eq d := by
    split
    · rename_i n
      rw [write]
      split
      · rename_i h; rw [h, write_special]
      · rfl
    · rw [writeFast_eq]

/-- A small language: `(define n v)`, `(set! n v)`, `n`, `(c v)` for a procedure that assigns the number `v`
to the variable `c`; everything else raises an exception. The file of the library `(disk)` defines it. -/
def toy : Program Nat Unit where
  eval d names _ u :=
    match d with
    | .cons (.symbol f) (.cons (.symbol n) (.cons (.num (.int v)) _)) =>
      if f = ascii "define" then (u, [.define n v.toNat], false)
      else
        match names n with
        | some c => (u, [.assign c v.toNat], false)
        | none => (u, [], true)
    | .cons (.num (.int c)) (.cons (.num (.int v)) _) => (u, [.assign c.toNat v.toNat], false)
    | .symbol n => (u, [.mention n], false)
    | _ => (u, [], true)
  undefinedValue := 0
  files _ := none
  locate d :=
    match d with
    | .cons (.symbol n) .null =>
      if n = ascii "disk" then
        some [listOf [.symbol (ascii "define-library"), d]]
      else none
    | _ => none
  lexicalCast := fastCast

def sym (s : String) : Datum := .symbol (ascii s)

def num (n : Int) : Datum := .num (.int n)

/-- `(define-library (counter) (export n (rename n m)) (begin (define n 1)))` -/
def counter : Datum :=
  listOf [sym "define-library", listOf [sym "counter"],
    listOf [sym "export", sym "n", listOf [sym "rename", sym "n", sym "m"]],
    listOf [sym "begin", listOf [sym "define", sym "n", num 1]]]

def theCounter : ImportSet := .library (listOf [sym "counter"])

/-- The end of a program. -/
def result (program : List Datum) : Config Nat Unit := finish toy 100 (start [] program ())

theorem reachable_result (program : List Datum) : Reachable toy (result program) :=
  ⟨[], program, (), finish_run _ _⟩

/-- The value a name has in the interaction environment. -/
def valueAtTop (s : Config Nat Unit) (n : String) : Option Nat :=
  (lookup s 0 (ascii n)).bind fun c => (s.cells[c]?).map Cell.value

/-- The program ended after all its forms, and nothing undefined happened. -/
def ended (s : Config Nat Unit) : Bool :=
  match s.mode with
  | .next => s.stack.isEmpty && s.top.isEmpty
  | _ => false

/-- The program raised an exception in its first `k` steps. -/
def raised (program : List Datum) (k : Nat) : Bool :=
  (List.range k).any fun i =>
    match (steps toy i (start [] program ())).map Config.mode with
    | some .failed => true
    | _ => false

theorem raised_run {program : List Datum} {k : Nat} (h : raised program k = true) :
    ∃ s, Run toy (start [] program ()) s ∧ s.mode = .failed := by
  obtain ⟨i, _, h⟩ := List.any_eq_true.1 h
  split at h
  · rename_i e
    obtain ⟨s, h1, h2⟩ := Option.map_eq_some_iff.1 e
    exact ⟨s, run_steps h1, h2⟩
  · cases h

/-- No exception in the next `k` steps. -/
def calm (pr : Program Nat Unit) : Nat → Config Nat Unit → Bool
  | 0, _ => true
  | k + 1, s =>
    match step pr s with
    | some t => (match s.mode with | .failed => false | _ => true) && calm pr k t
    | none => true

theorem calm_sound {pr : Program Nat Unit} {k : Nat} {s : Config Nat Unit} (h : calm pr k s = true) :
    RunThrough pr NotFailed s (finish pr k s) := by
  induction k generalizing s with
  | zero => exact .refl _
  | succ k ih =>
    unfold calm at h
    unfold finish
    split at h
    · rename_i t ht
      rw [ht]
      simp only [Bool.and_eq_true] at h
      refine ((RunThrough.refl s).step ?_ ht).trans (ih h.2)
      intro hm
      rw [hm] at h
      exact absurd h.1 (by simp)
    · rename_i ht
      rw [ht]
      exact .refl _

theorem calm_run {program : List Datum} {k : Nat} (h1 : calm toy k (start [] program ()) = true)
    (h2 : ended (finish toy k (start [] program ())) = true)
    (h3 : (step toy (finish toy k (start [] program ()))).isNone = true) :
    ∃ s, RunThrough toy NotFailed (start [] program ()) s ∧ ended s = true ∧ step toy s = none :=
  ⟨_, calm_sound h1, h2, by simpa using h3⟩

/-- The value of a name. -/
def valueIn? (s : Config Nat Unit) (env : Nat) (n : Name) : Option Nat :=
  (lookup s env n).bind fun c => (s.cells[c]?).map Cell.value

theorem means_of {s : Config Nat Unit} {env : Nat} {n : Name} {v : Nat} (h : valueIn? s env n = some v) :
    Means s env n v := by
  obtain ⟨c, h1, h2⟩ := Option.bind_eq_some_iff.1 h
  obtain ⟨cell, h3, h4⟩ := Option.map_eq_some_iff.1 h2
  exact ⟨c, cell, h1, h3, h4⟩

/-! ### C46 -/

/-- `(import (rename (prefix (only (counter) n) c:) (c:n x)))` -/
def nested : ImportSet :=
  .rename (.prefix (.only theCounter [ascii "n"]) (ascii "c:")) [(ascii "c:n", ascii "x")]

/-- Nested modifiers: `x` is 1, and nothing else is bound. -/
example : (let s := result [counter, listOf [sym "import", nested.toDatum]]
    ended s && valueAtTop s "x" == some 1 && valueAtTop s "n" == none && valueAtTop s "c:n" == none &&
    valueAtTop s "m" == none) = true := by decide +kernel

/-- The hypotheses of `C46_exposed_partial` are met on the way. -/
example : ∃ s key lib, Reachable toy s ∧ s.mode = .importSet nested.toDatum ∧
    LibraryName toy.lexicalCast.high nested.base key ∧ s.registry.lookup key = some lib := by
  have h : ((steps toy 6 (start [] [counter, listOf [sym "import", nested.toDatum]] ())).map fun s =>
      (s.mode, s.registry.lookup (ascii "(counter)"))) = some (.importSet nested.toDatum, some 0) := rfl
  obtain ⟨s, h1, h2⟩ := Option.map_eq_some_iff.1 h
  simp only [Prod.mk.injEq] at h2
  refine ⟨s, ascii "(counter)", 0, ⟨[], _, (), run_steps h1⟩, h2.1, ⟨⟨ascii "counter", .null, rfl, ?_⟩, ?_⟩, h2.2⟩
  · decide
  · have : toy.lexicalCast.cast nested.base = some (ascii "(counter)") := by decide +kernel
    rw [Cast.cast_eq] at this
    exact this

/-- When the library has been evaluated, its export specs are well formed and the set is proper. -/
example : ∃ s l specs, Reachable toy s ∧ s.mode = .next ∧ s.libs[0]? = some l ∧
    l.exports = specs.map ExportSpec.toDatum ∧ (∃ k, s.stack = .exports 0 :: k) ∧
    Proper toy.lexicalCast.high (Exports toy s l.env specs) nested := by
  have h : ((steps toy 15 (start [] [counter, listOf [sym "import", nested.toDatum]] ())).map fun s =>
      (s.mode, (s.libs[0]?).map Library.exports, s.stack.head?)) =
      some (.next, some ([ExportSpec.plain (ascii "n"), .rename (ascii "n") (ascii "m")].map ExportSpec.toDatum),
        some (.exports 0)) := rfl
  obtain ⟨s, h1, h2⟩ := Option.map_eq_some_iff.1 h
  simp only [Prod.mk.injEq] at h2
  obtain ⟨h2, h3, h4⟩ := h2
  obtain ⟨l, hl, hx⟩ := Option.map_eq_some_iff.1 h3
  obtain ⟨k, hk⟩ : ∃ k, s.stack = .exports 0 :: k := by
    cases hs : s.stack with
    | nil => rw [hs] at h4; cases h4
    | cons f k => rw [hs] at h4; cases h4; exact ⟨k, rfl⟩
  refine ⟨s, l, _, ⟨[], _, (), run_steps h1⟩, h2, hl, hx, ⟨k, hk⟩, ?_⟩
  have plain : ∀ n : Name, n ≠ [] → n.any (fun b => isSpecial b.toNat || b = 0xFF) = false →
      Plain toy.lexicalCast.high n := by
    intro n h1 h2
    unfold Plain writeSymbol
    rw [if_neg h1, h2]; rfl
  refine ⟨⟨trivial, plain _ (by decide) (by decide +kernel), ?_⟩, ?_⟩
  · rintro n v ⟨_, hn⟩
    obtain rfl := List.mem_singleton.1 hn
    exact plain _ (by decide) (by decide +kernel)
  · intro m k k' h h'
    rw [List.mem_singleton] at h h'
    rw [← h'] at h; exact (Prod.mk.inj h).2

/-- C46 fails: naming an identifier that the library does not export is not an error. -/
theorem C46_absent_fails : ∃ s, RunThrough toy NotFailed
      (start [] [counter, listOf [sym "import", (ImportSet.only theCounter [ascii "nosuch"]).toDatum]] ()) s ∧
    ended s = true ∧ step toy s = none := by
  refine calm_run (k := 100) ?_ ?_ ?_ <;> decide +kernel

/-- C46 fails: after `prefix` (and `rename`) the importer has a variable of its own: when the library
assigns 5 to `n`, the importer still sees 1. -/
theorem C46_location_fails : ∃ s : Config Nat Unit,
    Run toy (start [] [counter, listOf [sym "import", (ImportSet.prefix theCounter (ascii "c:")).toDatum],
      listOf [num 0, num 5]] ()) s ∧
    Means s 1 (ascii "n") 5 ∧ Means s 0 (ascii "c:n") 1 := by
  refine ⟨result [counter, listOf [sym "import", (ImportSet.prefix theCounter (ascii "c:")).toDatum],
      listOf [num 0, num 5]], finish_run _ _, means_of (by decide +kernel), means_of (by decide +kernel)⟩

/-- With `only` it sees 5. -/
example : valueAtTop (result [counter, listOf [sym "import", (ImportSet.only theCounter [ascii "n"]).toDatum],
      listOf [num 0, num 5]]) "n" = some 5 := by decide +kernel

/-- C46 fails: a name with a special character is prefixed in its written form. -/
theorem C46_special_fails : ∃ s : Config Nat Unit,
    Run toy (start [] [
      listOf [sym "define-library", listOf [sym "a"], listOf [sym "export", sym "x y"],
        listOf [sym "begin", listOf [sym "define", sym "x y", num 1]]],
      listOf [sym "import", (ImportSet.prefix (.library (listOf [sym "a"])) (ascii "p-")).toDatum]] ()) s ∧
    ended s = true ∧ lookup s 0 (ascii "p-x y") = none ∧ Means s 0 (ascii "p-#\"x y\"") 1 :=
  ⟨result _, finish_run _ _, by decide +kernel, by decide +kernel, means_of (by decide +kernel)⟩

/-! ### C47 -/

/-- `(define-library (user) (import set …))` -/
def user (sets : List ImportSet) : Datum :=
  listOf [sym "define-library", listOf [sym "user"], listOf (sym "import" :: sets.map ImportSet.toDatum)]

/-- `(define-library (other) (export n) (begin (define n 2)))` -/
def other : Datum :=
  listOf [sym "define-library", listOf [sym "other"], listOf [sym "export", sym "n"],
    listOf [sym "begin", listOf [sym "define", sym "n", num 2]]]

def importUser : Datum := listOf [sym "import", listOf [sym "user"]]

/-- Two different variables `n` in a library: an error. -/
example : raised [counter, other, user [.only theCounter [ascii "n"], .library (listOf [sym "other"])], importUser]
    100 = true := by decide +kernel

/-- The same variable twice: no error. -/
example : ∃ s, RunThrough toy NotFailed (start [] [counter, other,
      user [.only theCounter [ascii "n"], .except theCounter [ascii "m"]], importUser] ()) s ∧
    ended s = true ∧ step toy s = none := by
  refine calm_run (k := 100) ?_ ?_ ?_ <;> decide +kernel

/-- C47 fails: importing the same set twice is an error if `prefix` is used… -/
theorem C47_prefix_fails : ∃ s, Run toy (start [] [counter,
      user [.prefix (.only theCounter [ascii "n"]) (ascii "c:"), .prefix (.only theCounter [ascii "n"]) (ascii "c:")],
      importUser] ()) s ∧ s.mode = .failed :=
  raised_run (k := 100) (by decide +kernel)

/-- … or if the library renames an export. -/
theorem C47_renamed_fails : ∃ s, Run toy (start [] [counter, user [theCounter, theCounter], importUser] ()) s ∧
    s.mode = .failed :=
  raised_run (k := 100) (by decide +kernel)

/-! ### C48 -/

/-- A requirement tree, with a library. -/
example : conditionalExpand fastCast [ascii "a"] [(ascii "(counter)", 0)] (clausesOf [
      (.and (.cons (.feature (ascii "a")) (.cons (.not (.library (listOf [sym "counter"]))) .nil)), sym "first"),
      (.or (.cons (.feature (ascii "b")) (.cons (.library (listOf [sym "counter"])) .nil)), sym "second"),
      (.feature (ascii "else"), sym "third")]) = .value (sym "second") := rfl

example : Registered fastCast.high [(ascii "(counter)", 0)] [listOf [sym "counter"]] := by
  have : fastCast.cast (listOf [sym "counter"]) = some (ascii "(counter)") := by decide +kernel
  rw [Cast.cast_eq] at this
  simp [Registered, this]

example : Readable fastCast.high (listOf [sym "counter"]) := by
  simp only [listOf, Readable, sym, and_true]
  exact C20_names (cs := ['c', 'o', 'u', 'n', 't', 'e', 'r']) (by decide) (by decide) (by decide) (by decide)
    (by decide) (by decide)

/-- C48 fails: a library that `import` finds on the disk is not available to `cond-expand`. -/
theorem C48_disk_fails :
    test toy.lexicalCast [] (start (V := Nat) [] [] ()).registry
      (Requirement.library (listOf [sym "disk"])).toDatum = .value false ∧
    ∃ s, RunThrough toy NotFailed (start [] [listOf [sym "import", listOf [sym "disk"]]] ()) s ∧
      ended s = true ∧ step toy s = none := by
  refine ⟨rfl, calm_run (k := 100) ?_ ?_ ?_⟩ <;> decide +kernel

/-! ### C49 -/

/-- A library that was defined and not evaluated. -/
example : ∃ s l, Reachable toy s ∧ s.libs[0]? = some l ∧ l.declarations ≠ [] := by
  have h : ((steps toy 3 (start [] [counter] ())).map fun s => (s.libs[0]?).map fun l => l.declarations.length) =
      some (some 2) := rfl
  obtain ⟨s, h1, h2⟩ := Option.map_eq_some_iff.1 h
  obtain ⟨l, h3, h4⟩ := Option.map_eq_some_iff.1 h2
  refine ⟨s, l, ⟨[], _, (), run_steps h1⟩, h3, ?_⟩
  intro h
  rw [h] at h4; cases h4

/-- Imported three times, evaluated once. -/
example : (evaluated (result [counter, listOf [sym "import", theCounter.toDatum],
    listOf [sym "import", theCounter.toDatum, theCounter.toDatum]]) 0).length = 2 := by decide +kernel

/-- C49 fails: importers of a renamed export see different variables. Here `m` was imported before the
library assigned 7 to it, `m2` after. -/
theorem C49_renamed_fails : ∃ s : Config Nat Unit,
    Run toy (start [] [counter, listOf [sym "import", theCounter.toDatum], listOf [num 0, num 7],
      listOf [sym "import", (ImportSet.rename theCounter [(ascii "m", ascii "m2")]).toDatum]] ()) s ∧
    Means s 0 (ascii "m") 1 ∧ Means s 0 (ascii "m2") 7 :=
  ⟨result _, finish_run _ _, means_of (by decide +kernel), means_of (by decide +kernel)⟩

/-- `(define-library (broken) (export a b) (begin (define a 1)) (fail) (begin (define b 2)))` -/
def broken : Datum :=
  listOf [sym "define-library", listOf [sym "broken"], listOf [sym "export", sym "a", sym "b"],
    listOf [sym "begin", listOf [sym "define", sym "a", num 1]], listOf [sym "fail"],
    listOf [sym "begin", listOf [sym "define", sym "b", num 2]]]

/-- C49 fails: after an exception in its body a library can be imported half initialised, without an
error: from `s` on nothing fails, and `b` is undefined. -/
theorem C49_broken_fails : ∃ s t : Config Nat Unit,
    Run toy (start [] [broken, listOf [sym "import", listOf [sym "broken"]],
      listOf [sym "import", listOf [sym "broken"]]] ()) s ∧ s.mode = .next ∧ s.top.length = 1 ∧
    RunThrough toy NotFailed s t ∧ ended t = true ∧ step toy t = none ∧
    Means t 0 (ascii "a") 1 ∧ Means t 0 (ascii "b") toy.undefinedValue := by
  have h : ((steps toy 13 (start [] [broken, listOf [sym "import", listOf [sym "broken"]],
      listOf [sym "import", listOf [sym "broken"]]] ())).any fun s =>
        (match s.mode with | .next => true | _ => false) && s.top.length == 1 && calm toy 100 s &&
        ended (finish toy 100 s) && (step toy (finish toy 100 s)).isNone &&
        valueIn? (finish toy 100 s) 0 (ascii "a") == some 1 &&
        valueIn? (finish toy 100 s) 0 (ascii "b") == some 0) = true := by decide +kernel
  obtain ⟨s, h1, h2⟩ := (Option.any_eq_true ..).1 h
  simp only [Bool.and_eq_true] at h2
  obtain ⟨⟨⟨⟨⟨⟨a, b⟩, c⟩, d⟩, e⟩, f⟩, g⟩ := h2
  refine ⟨s, finish toy 100 s, run_steps h1, ?_, by simpa using b, calm_sound c, d, by simpa using e,
    means_of (by simpa using f), means_of (v := 0) (by simpa using g)⟩
  revert a
  cases s.mode <;> simp

end Meevax.Library
