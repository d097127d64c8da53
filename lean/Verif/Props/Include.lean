import Verif.Model.Include
import Verif.Spec.Include

/-
C81: finding and including files.
-/

namespace Meevax.Include

variable {P D : Type}

theorem tryExtensions_eq (fs : FileSystem P D) (h : Replaces fs) (p : P) (es : List String) :
    tryExtensions fs p es = (es.map (fs.replaceExtension p)).find? fs.isFile := by
  induction es generalizing p with
  | nil => rfl
  | cons e es ih =>
    simp only [tryExtensions, List.map_cons, List.find?_cons]
    have : (es.map (fs.replaceExtension (fs.replaceExtension p e))) = es.map (fs.replaceExtension p) :=
      List.map_congr_left fun x _ => h p e x
    rw [ih, this]
    cases fs.isFile (fs.replaceExtension p e) <;> rfl

theorem tryDirectory_eq (fs : FileSystem P D) (h : Replaces fs) (given d : P) :
    tryDirectory fs given d = (forms fs given d).find? fs.isFile := by
  simp only [tryDirectory, forms, List.find?_cons]
  cases fs.isFile (fs.join d given)
  · cases fs.hasExtension given
    · simp only [Bool.false_eq_true, if_false, tryExtensions_eq fs h, extensions]
    · rfl
  · rfl

theorem tryDirectories_eq (fs : FileSystem P D) (h : Replaces fs) (given : P) (ds : List P) :
    tryDirectories fs given ds = (ds.flatMap (forms fs given)).find? fs.isFile := by
  induction ds with
  | nil => rfl
  | cons d ds ih =>
    simp only [tryDirectories, List.flatMap_cons, List.find?_append, tryDirectory_eq fs h, ih]
    cases (forms fs given d).find? fs.isFile <;> rfl

theorem locate_eq (fs : FileSystem P D) (h : Replaces fs) (ds : List P) (source : Option P) (given : P)
    (hg : fs.isFile given = false) :
    locate fs ds source given = match (searched fs ds (sourceDirectory fs source) given).find? fs.isFile with
      | some p => .ok p
      | none => .error .notLocated := by
  simp only [locate, hg, Bool.false_eq_true, if_false, tryDirectory_eq fs h, tryDirectories_eq fs h, searched,
    List.flatMap_cons, List.find?_append]
  cases (forms fs given (sourceDirectory fs source)).find? fs.isFile <;>
    cases (forms fs given fs.cwd).find? fs.isFile <;>
    cases (ds.flatMap (forms fs given)).find? fs.isFile <;> rfl

/-- **C81 (search).** A name that is a file (seen from the current directory) is that file.  Otherwise it is the first file
among: the name in the directory of the source file, in the current directory and in the library
directories; in each of them the name itself before the name with an extension. -/
theorem C81_locate (fs : FileSystem P D) (h : Replaces fs) (ds : List P) (source given : P) :
    (∀ q, fs.isFile given = true → fs.canonical given = some q → locate fs ds (some source) given = .ok q) ∧
    (∀ q, fs.isFile given = false → FirstFile fs q (searched fs ds (fs.parent source) given) →
      locate fs ds (some source) given = .ok q) := by
  constructor
  · intro q h1 h2
    simp [locate, h1, h2]
  · rintro q h1 ⟨before, after, e, hq, hb⟩
    rw [locate_eq fs h ds _ given h1]
    have : (searched fs ds (sourceDirectory fs (some source)) given).find? fs.isFile = some q := by
      rw [show sourceDirectory fs (some source) = fs.parent source from rfl, e]
      exact List.find?_eq_some_iff_append.2 ⟨hq, before, after, rfl, fun a ha => by simp [hb a ha]⟩
    rw [this]

/-- **C81 (search).** If none of these is a file, it is an error, and only then. -/
theorem C81_locate_none (fs : FileSystem P D) (h : Replaces fs) (ds : List P) (source given : P)
    (hc : ∀ p, fs.isFile p = true → (fs.canonical p).isSome) :
    (∃ e, locate fs ds (some source) given = .error e) ↔
      fs.isFile given = false ∧ ∀ q ∈ searched fs ds (fs.parent source) given, fs.isFile q = false := by
  cases hg : fs.isFile given
  · rw [locate_eq fs h ds _ given hg, show sourceDirectory fs (some source) = fs.parent source from rfl]
    cases hf : (searched fs ds (fs.parent source) given).find? fs.isFile with
    | none =>
      rw [List.find?_eq_none] at hf
      simp only [true_and]
      exact ⟨fun _ q hq => by simpa using hf q hq, fun _ => ⟨_, rfl⟩⟩
    | some p =>
      have h1 := List.find?_some hf
      have h2 := List.mem_of_find?_eq_some hf
      constructor
      · rintro ⟨e, he⟩
        cases he
      · rintro ⟨_, h3⟩
        rw [h3 p h2] at h1
        cases h1
  · obtain ⟨q, hq⟩ := Option.isSome_iff_exists.1 (hc given hg)
    constructor
    · rintro ⟨e, he⟩
      simp [locate, hg, hq] at he
    · rintro ⟨h1, _⟩
      simp at h1

theorem includeNames_has {fs : FileSystem P D} {ds : List P} {c : Context P} {ci : Bool} {names : List (Nat × Option P)}
    {yss : List (List D)} (h : List.Forall₂ (Has fs ds c ci) names yss) (xs : List D) (more : List (Nat × Option P)) :
    includeNames fs ds c ci (names ++ more) xs = includeNames fs ds c ci more (yss.flatten.reverse ++ xs) := by
  induction h generalizing xs with
  | nil => rfl
  | cons h _ ih =>
    rename_i name ys names yss _
    obtain ⟨a, given⟩ := name
    obtain ⟨given', p, h1, h2, h3, h4, h5⟩ := h
    obtain ⟨q, hq⟩ := Option.isSome_iff_exists.1 h3
    simp only at h1
    subst h1
    simp only [List.cons_append, includeNames, h2, openInput, hq, h4, if_true, h5, ih]
    simp

/-- **C81 (`include`).** At the top level, the data of the files are evaluated in the order of the names, all data of each
file in order. -/
theorem C81_include_partial {fs : FileSystem P D} {ds : List P} {c : Context P} {ci : Bool} {names : List (Nat × Option P)}
    {yss : List (List D)} (h : List.Forall₂ (Has fs ds c ci) names yss) :
    includeTop fs ds c ci names = .ok yss.flatten := by
  have := includeNames_has h [] []
  simp only [List.append_nil] at this
  rw [includeTop, this]
  simp [includeNames]

/-- **C81 (`include`).** A file that is not found is an error, even if others are found; nothing is evaluated. -/
theorem C81_include_error {fs : FileSystem P D} {ds : List P} {c : Context P} {ci : Bool} {names more : List (Nat × Option P)}
    {yss : List (List D)} (h : List.Forall₂ (Has fs ds c ci) names yss) {a : Nat} {given : P} {e : Thrown}
    (he : locate fs ds (c.of a) given = .error e) :
    includeTop fs ds c ci (names ++ (a, some given) :: more) = .error e := by
  rw [includeTop, includeNames_has h]
  simp only [includeNames, he]

/-! ### Source files -/

/-- What happens to pairs: a file is opened and pairs are made of what is read from it, other pairs are made, pairs are
released. -/
inductive Event (P : Type) where
  | opens (given : P)
  | reads (a : Nat) (name : P)
  | conses (a : Nat)
  | releases (a : Nat)

/-- The context after an event; a file is opened only if it exists. -/
def Event.step [DecidableEq P] (fs : FileSystem P D) (c : Context P) : Event P → Context P
  | .opens given =>
    match openInput fs c given with
    | .ok (_, _, c') => c'
    | .error _ => c
  | .reads a name => c.cons a name
  | .conses a => c.plainCons a
  | .releases a => c.plainCons a

/-- The context after events. -/
def after [DecidableEq P] (fs : FileSystem P D) (es : List (Event P)) : Context P :=
  es.foldl (Event.step fs) ⟨[], fun _ => none⟩

theorem step_paths [DecidableEq P] (fs : FileSystem P D) (c : Context P) (e : Event P) {p : P} (h : p ∈ c.paths) :
    p ∈ (e.step fs c).paths := by
  cases e with
  | opens g =>
    simp only [Event.step, openInput]
    cases fs.canonical g <;> simp [h]
  | reads a n => simpa [Event.step, Context.cons] using h
  | conses a => exact h
  | releases a => exact h

theorem step_of [DecidableEq P] (fs : FileSystem P D) (c : Context P) (e : Event P) {a : Nat}
    (h : ∀ n, e ≠ .reads a n) : (e.step fs c).of a = c.of a := by
  cases e with
  | opens g =>
    simp only [Event.step, openInput]
    cases fs.canonical g <;> rfl
  | reads b n =>
    have : a ≠ b := by rintro rfl; exact h n rfl
    simp [Event.step, Context.cons, Context.of, this]
  | conses b => rfl
  | releases b => rfl

/-- **C81 (source files).** For a file that was opened by its canonical name before, and a pair made of what was read from
it: as long as nothing else is read at the same address, its source file is that file. -/
theorem C81_source_partial [DecidableEq P] (fs : FileSystem P D) (before between later : List (Event P)) {p : P} {a : Nat}
    (hp : fs.canonical p = some p) (hl : ∀ e ∈ later, ∀ n, e ≠ .reads a n) :
    (after fs (before ++ [.opens p] ++ between ++ [.reads a p] ++ later)).of a = some p := by
  simp only [after, List.foldl_append, List.foldl_cons, List.foldl_nil]
  set c := List.foldl (Event.step fs) ⟨[], fun _ => none⟩ before
  have h1 : p ∈ ((Event.opens p).step fs c).paths := by simp [Event.step, openInput, hp]
  have h2 : ∀ (es : List (Event P)) (c : Context P), p ∈ c.paths → p ∈ (List.foldl (Event.step fs) c es).paths := by
    intro es
    induction es with
    | nil => exact fun c h => h
    | cons e es ih => exact fun c h => ih _ (step_paths fs c e h)
  have h3 := h2 between _ h1
  have h4 : ((Event.reads a p).step fs (List.foldl (Event.step fs) ((Event.opens p).step fs c) between)).of a = some p := by
    generalize List.foldl (Event.step fs) ((Event.opens p).step fs c) between = c2 at h3 ⊢
    show (Context.cons c2 a p).of a = some p
    simp [Context.cons, Context.of, h3]
  have h5 : ∀ (es : List (Event P)) (c : Context P), (∀ e ∈ es, ∀ n, e ≠ .reads a n) →
      (List.foldl (Event.step fs) c es).of a = c.of a := by
    intro es
    induction es with
    | nil => exact fun c _ => rfl
    | cons e es ih =>
      intro c h
      rw [List.foldl_cons, ih _ fun e' he' => h e' (List.mem_cons_of_mem _ he'), step_of fs c e (h e (by simp))]
  rw [h5 later _ hl, h4]

/-- **C81 fails for other names**: pairs of a file that was opened by another name (for example relative to the current
directory) have no source file, so names in it are not searched for in its directory. -/
theorem C81_source_fails [DecidableEq P] (fs : FileSystem P D) {given p : P} (hg : fs.canonical given = some p)
    (hne : given ≠ p) (a : Nat) (ds : List P) (name : P) :
    (after fs [.opens given, .reads a p]).of a = none ∧
    locate fs ds ((after fs [.opens given, .reads a p]).of a) name = locate fs ds none name := by
  have : (after fs [.opens given, .reads a p]).of a = none := by
    simp [after, Event.step, openInput, hg, Context.cons, Context.of, Ne.symm hne]
  exact ⟨this, by rw [this]⟩

/-- **C81 fails after garbage collection**: a pair made by the program at the address of a pair that was read and released
has the source file of that one. -/
theorem C81_stale_fails [DecidableEq P] (fs : FileSystem P D) {p : P} (hp : fs.canonical p = some p) (a : Nat) :
    (after fs [.opens p, .reads a p, .releases a, .conses a]).of a = some p := by
  simp [after, Event.step, openInput, hp, Context.cons, Context.of, Context.plainCons]

/-! ### What else fails -/

/-- **C81 fails in bodies**: `(include "name" ...)` that is not at the top level of a program or library includes nothing,
whether there are such files or not. -/
theorem C81_body_fails (fs : FileSystem P D) (ds : List P) (c : Context P) (ci : Bool) (p : P) (rest : List (Operand P)) :
    includeBody fs ds c ci (.string p :: rest) = .ok [] := rfl

/-- **C81 fails for files that cannot be read**: they are included as if they were empty. -/
theorem C81_unreadable_fails (fs : FileSystem P D) (ds : List P) (c : Context P) (ci : Bool) {a : Nat} {given p q : P}
    (h1 : locate fs ds (c.of a) given = .ok p) (h2 : fs.canonical p = some q) (h3 : fs.readable p = false) :
    includeTop fs ds c ci [(a, some given)] = .ok [] := by
  simp [includeTop, includeNames, h1, openInput, h2, h3]

/-- **C81 fails for missing files**: opening or loading one is an error, but not one for which `file-error?` is true; a
file that is there but cannot be opened is a port that is not open, and no error.  So is an output file. -/
theorem C81_file_error_fails (fs : FileSystem P D) (c : Context P) (given : P) :
    (∀ e, openInput fs c given = .error e → (raised e).fileError = false) ∧
    (fs.canonical given = none → openInput fs c given = .error .system ∧ load fs c given = .error .system ∧
      (raised .system).fileError = false) ∧
    (∀ name, fs.canonical given = some name → fs.readable given = false →
      ∃ c', openInput fs c given = .ok (name, false, c')) ∧
    (fs.writable given = false → openOutput fs given = .ok false) := by
  refine ⟨fun e he => ?_, fun h => ?_, fun name h1 h2 => ?_, fun h => ?_⟩
  · simp only [openInput] at he
    cases hc : fs.canonical given with
    | none => rw [hc] at he; cases he; rfl
    | some q => rw [hc] at he; cases he
  · exact ⟨by simp [openInput, h], by simp [load, openInput, h], rfl⟩
  · exact ⟨{ c with paths := given :: c.paths }, by simp only [openInput, h1, h2]⟩
  · simp [openOutput, h]

/-- **C81 (`load`).** All data of the file, in order; a file that is not well formed is a `read-error?`; a file that is
there but cannot be opened is a `file-error?`. -/
theorem C81_load (fs : FileSystem P D) (c : Context P) {given name : P} (h : fs.canonical given = some name) :
    (∀ xs, fs.readable given = true → fs.content false given = .ok xs → load fs c given = .ok xs) ∧
    (fs.readable given = true → fs.content false given = .error .read →
      ∃ e, load fs c given = .error e ∧ (raised e).readError = true) ∧
    (fs.readable given = false → ∃ e, load fs c given = .error e ∧ (raised e).fileError = true) := by
  refine ⟨?_, ?_, ?_⟩
  · intro xs h1 h2
    simp [load, openInput, h, h1, h2]
  · intro h1 h2
    exact ⟨.read, by simp [load, openInput, h, h1, h2], rfl⟩
  · intro h1
    exact ⟨.file, by simp [load, openInput, h, h1], rfl⟩

/-! ### Examples

Paths are lists of names with their extensions, the last one first. -/

/-- A name without extension. -/
def dir (s : String) : String × String := (s, "")

/-- Two files, `/a/m.ss` and `/lib/n.sld`; `/a` is the current directory, relative paths begin with `.`. -/
def demo : FileSystem (List (String × String)) Nat where
  isFile p := p == [("m", "ss"), dir "a", dir "/"] || p == [("n", "sld"), dir "lib", dir "/"] || p == [("m", "ss"), dir "."]
  canonical p :=
    if p = [("m", "ss"), dir "a", dir "/"] then some [("m", "ss"), dir "a", dir "/"]
    else if p = [("m", "ss"), dir "."] then some [("m", "ss"), dir "a", dir "/"]
    else if p = [("n", "sld"), dir "lib", dir "/"] then some [("n", "sld"), dir "lib", dir "/"] else none
  readable p := p.length < 5
  writable _ := false
  content _ p := if p.head? = some ("m", "ss") then .ok [1, 2] else .ok [3]
  join d p := p.filter (· ≠ dir ".") ++ d
  parent p := p.tail
  hasExtension p := p.head?.any (·.2 ≠ "")
  replaceExtension p e := match p with
    | x :: xs => (x.1, e) :: xs
    | [] => []
  cwd := [dir "a", dir "/"]
  empty := []

/-- What the search assumes of `replace_extension` holds. -/
theorem demo_replaces : Replaces demo := by
  intro p e e'
  cases p <;> rfl

/-- `n`, named in `/x/y`, is `/lib/n.sld`. -/
example : locate demo [[dir "lib", dir "/"]] (some [dir "y", dir "x", dir "/"]) [dir "n", dir "."] =
    .ok [("n", "sld"), dir "lib", dir "/"] :=
  (C81_locate demo demo_replaces _ _ _).2 _ (by decide +kernel)
    ⟨[[dir "n", dir "x", dir "/"], [("n", "ss"), dir "x", dir "/"], [("n", "sld"), dir "x", dir "/"],
      [("n", "scm"), dir "x", dir "/"], [dir "n", dir "a", dir "/"], [("n", "ss"), dir "a", dir "/"],
      [("n", "sld"), dir "a", dir "/"], [("n", "scm"), dir "a", dir "/"], [dir "n", dir "lib", dir "/"],
      [("n", "ss"), dir "lib", dir "/"]], [[("n", "scm"), dir "lib", dir "/"]], by decide +kernel, by decide +kernel,
      by decide +kernel⟩
example : ∃ e, locate demo [[dir "lib", dir "/"]] (some [dir "y", dir "x", dir "/"]) [dir "x", dir "."] = .error e :=
  ⟨.notLocated, by decide +kernel⟩
example : (after demo [.opens [("m", "ss"), dir "."], .reads 7 [("m", "ss"), dir "a", dir "/"]]).of 7 = none :=
  (C81_source_fails demo (given := [("m", "ss"), dir "."]) (p := [("m", "ss"), dir "a", dir "/"]) rfl (by decide) 7 [] []).1
example : demo.canonical [("m", "ss"), dir "a", dir "/"] = some [("m", "ss"), dir "a", dir "/"] := rfl

/-- `(include "m.ss" "n")` gives 1, 2, 3. -/
example : includeTop demo [[dir "lib", dir "/"]] ⟨[], fun _ => none⟩ false
    [(0, some [("m", "ss"), dir "."]), (1, some [dir "n", dir "."])] = .ok [1, 2, 3] :=
  C81_include_partial (yss := [[1, 2], [3]])
    (.cons ⟨_, [("m", "ss"), dir "a", dir "/"], rfl, by decide +kernel, rfl, rfl, rfl⟩
      (.cons ⟨_, [("n", "sld"), dir "lib", dir "/"], rfl, by decide +kernel, rfl, rfl, rfl⟩ .nil))

end Meevax.Include
