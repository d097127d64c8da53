import Verif.Lemmas.LibraryOnce
import Verif.Lemmas.LibraryName
import Verif.Lemmas.CondExpand

/-
C46-C49: import sets, import conflicts, cond-expand, libraries.
-/

namespace Meevax.Library
open Meevax.Text

variable {V S : Type} {pr : Program V S}

theorem finish_run (n : Nat) (s : Config V S) : Run pr s (finish pr n s) := by
  induction n generalizing s with
  | zero => exact .refl _
  | succ n ih =>
    unfold finish
    split
    · rename_i t h
      exact (run_one h).trans (ih t)
    · exact .refl _

/-- States a program can reach. -/
def Reachable (pr : Program V S) (s : Config V S) : Prop :=
  ∃ features program user, Run pr (start features program user) s

theorem Reachable.sound {s : Config V S} (h : Reachable pr s) : Sound s := by
  obtain ⟨f, p, u, hr⟩ := h
  exact sound_runs (sound_start f p u) hr

theorem Reachable.run {s t : Config V S} (h : Reachable pr s) (hr : Run pr s t) : Reachable pr t := by
  obtain ⟨f, p, u, h⟩ := h
  exact ⟨f, p, u, h.trans hr⟩

/-! ### C46 -/

theorem step_library {s : Config V S} {d : Datum} {key : List Byte} {lib : Nat} (hm : s.mode = .importSet d)
    (hn : LibraryName pr.lexicalCast.high d key) (hr : s.registry.lookup key = some lib) :
    step pr s = some (startLibrary lib s) := by
  obtain ⟨⟨n, rest, rfl, h1, h2, h3, h4⟩, hk⟩ := hn
  simp only [step, hm, importSet, if_neg h1, if_neg h2, if_neg h3, if_neg h4, Cast.cast_eq, hk, hr]

/-- C46 (in part): whatever `only`, `except`, `prefix` and `rename` are applied to a library, and however
they are nested: the library is evaluated, and when that is done (`t`) exactly the names R7RS prescribes
are exposed, with the values they have in the library. Missing: names with special characters under
`prefix`; that the variables are the library's own. -/
theorem C46_exposed_partial {s : Config V S} (hs : Reachable pr s) {set : ImportSet} {key : List Byte} {lib : Nat}
    (hm : s.mode = .importSet set.toDatum) (hn : LibraryName pr.lexicalCast.high set.base key)
    (hr : s.registry.lookup key = some lib) :
    ∃ K s', Run pr s s' ∧ s' = startLibrary lib { s with mode := .importSet set.base, stack := K ++ s.stack } ∧
      ∀ t l specs, Run pr s' t → t.mode = .next → t.stack = .exports lib :: (K ++ s.stack) →
        t.libs[lib]? = some l → l.exports = specs.map ExportSpec.toDatum →
        Proper pr.lexicalCast.high (Exports pr t l.env specs) set →
        ∃ u cs, Run pr t u ∧ u.mode = .ret cs ∧ u.stack = s.stack ∧
          ∀ n v, Binds u cs n v ↔ Exposes (Exports pr t l.env specs) set n v := by
  have hd := descend pr set s hm
  refine ⟨modifiers set, _, hd.step trivial (step_library rfl hn hr), rfl, ?_⟩
  intro t l specs ht hmode hstack hl hspecs hp
  have hv : Valid t := (sound_runs hs.sound ((hd.step trivial (step_library rfl hn hr)).trans ht)).valid
  obtain ⟨cs, t1, h1, h2, h3, h4⟩ := exportAll_spec (pr := pr) (env := l.env) hv specs
  have hstep : step pr t = some { t1 with mode := .ret cs, stack := modifiers set ++ s.stack } := by
    simp only [step, hmode, next, hstack, hl, hspecs, h1]
  obtain ⟨cs', extra, g1, g2, g3⟩ := ascend pr (Exports pr t l.env specs) set hp
    { t1 with mode := .ret cs, stack := modifiers set ++ s.stack } cs s.stack rfl rfl h3 h4
  exact ⟨_, cs', (run_one hstep).trans g1, rfl, rfl, g3⟩

/-- Then they are imported: if there is no conflict, every name that is exposed means one of the exposed
values in the importing environment, and every other name means what it meant. -/
theorem C46_imported_partial {s : Config V S} (hs : Reachable pr s) {env : Nat} {cs : List Nat} {k : List Frame}
    (hm : s.mode = .ret cs) (hk : s.stack = .into env :: k) :
    ∃ t, step pr s = some t ∧ t.stack = k ∧ (t.mode = .failed ∨ (t.mode = .next ∧
      (∀ n v, Binds s cs n v → ∃ w, Binds s cs n w ∧ Means t env n w) ∧
      ∀ n, (∀ v, ¬ Binds s cs n v) → lookup t env n = lookup s env n)) := by
  have hso := hs.sound
  have hx := hso.ret cs hm
  have hl : env < s.envs.length := (hso.frames_of hk).1
  obtain ⟨f1, _⟩ := importAll_frame (env := env) (xs := cs) (s := s)
  refine ⟨{ (importAll env cs s).2 with
    mode := if (importAll env cs s).1 then .next else .failed, stack := k }, ?_, rfl, ?_⟩
  · simp only [step, hm, returnTo, hk]
  · have means : ∀ n c, nameOf s c = some n → c ∈ cs → lookup (importAll env cs s).2 env n = some c →
        ∃ w, Binds s cs n w ∧ Means (importAll env cs s).2 env n w := by
      intro n c hc hcs hlk
      obtain ⟨cell, e1, e2⟩ := nameOf_eq.1 hc
      exact ⟨cell.value, ⟨c, hcs, by rw [e1, ← e2]⟩, c, cell, hlk, by rw [f1]; exact e1, rfl⟩
    by_cases h0 : env = 0
    · subst h0
      obtain ⟨h1, h2⟩ := importAll_interactive hl hx
      refine Or.inr ⟨by simp only [h1, if_true], ?_, ?_⟩
      · rintro n v ⟨c, hc, he⟩
        have hne : (cs.filter fun x => nameOf s x == some n) ≠ [] := by
          intro h
          have : c ∈ cs.filter fun x => nameOf s x == some n :=
            List.mem_filter.2 ⟨hc, by simp [nameOf, he]⟩
          rw [h] at this; cases this
        have hlast : lastNamed s n cs = some ((cs.filter fun x => nameOf s x == some n).getLast hne) :=
          List.getLast?_eq_some_getLast hne
        have hmem := List.mem_filter.1 (List.getLast_mem hne)
        refine means n _ (by simpa using hmem.2) hmem.1 ?_
        rw [h2, hlast]; rfl
      · intro n hn
        have : lastNamed s n cs = none := by
          unfold lastNamed
          rw [List.getLast?_eq_none_iff, List.filter_eq_nil_iff]
          intro c hc hcn
          obtain ⟨cell, e1, e2⟩ := nameOf_eq.1 (by simpa using hcn : nameOf s c = some n)
          exact hn cell.value ⟨c, hc, by rw [e1, ← e2]⟩
        show lookup (importAll 0 cs s).2 0 n = _
        rw [h2, this]; rfl
    · cases hok : (importAll env cs s).1 with
      | false => exact Or.inl (by simp)
      | true =>
        obtain ⟨h1, h2⟩ := importAll_bound h0 hso.valid hl hok
        refine Or.inr ⟨by simp, ?_, ?_⟩
        · rintro n v ⟨c, hc, he⟩
          have hcn : nameOf s c = some n := by simp [nameOf, he]
          exact means n c hcn hc (h1 c hc n hcn)
        · intro n hn
          refine h2 n ?_
          intro c hc hcn
          obtain ⟨cell, e1, e2⟩ := nameOf_eq.1 hcn
          exact hn cell.value ⟨c, hc, by rw [e1, ← e2]⟩

/-- Plain exports are the library's own variables. -/
theorem C46_own_variables {s : Config V S} (hs : Reachable pr s) {lib : Nat} {l : Library} {k : List Frame}
    {names : List Name} (hm : s.mode = .next) (hk : s.stack = .exports lib :: k) (hl : s.libs[lib]? = some l)
    (hx : l.exports = names.map .symbol) :
    ∃ t cs, step pr s = some t ∧ t.mode = .ret cs ∧ t.stack = k ∧
      cs.map (nameOf t) = names.map some ∧ ∀ c ∈ cs, ∃ n, lookup t l.env n = some c := by
  have hso := hs.sound
  have hle := hso.libs lib l hl
  have key : ∀ (names : List Name) (s : Config V S), Valid s → l.env < s.envs.length →
      ∃ cs t, exportAll pr l.env (names.map .symbol) s = some (cs, t) ∧ Grows s t ∧
        cs.map (nameOf t) = names.map some ∧ ∀ c ∈ cs, ∃ n, lookup t l.env n = some c := by
    intro names
    induction names with
    | nil => intro s hv _; exact ⟨[], s, rfl, .refl hv, rfl, by simp⟩
    | cons n names ih =>
      intro s hv he
      have hg := grows_identify hv pr l.env n
      have hlk : lookup (identify pr l.env n s).2 l.env n = some (identify pr l.env n s).1 := by
        unfold identify
        split
        · rename_i c hc; exact hc
        · have := lookup_push_self (s := (make n pr.undefinedValue s).2) he
            (nameOf_make n pr.undefinedValue) n
          rw [if_pos rfl] at this
          exact this
      obtain ⟨cs, t, h1, h2, h3, h4⟩ := ih (identify pr l.env n s).2 hg.valid
        (Nat.lt_of_lt_of_le he hg.envs)
      refine ⟨(identify pr l.env n s).1 :: cs, t, ?_, hg.trans h2, ?_, ?_⟩
      · simp only [List.map_cons, exportAll, export1, h1]
      · simp only [List.map_cons, h3]
        obtain ⟨v, hv'⟩ := lookup_get hlk
        rw [h2.keeps _ n (by simp [nameOf, hv'])]
      · intro c hc
        rcases List.mem_cons.1 hc with rfl | hc
        · exact ⟨n, h2.found l.env n _ (by omega) hlk⟩
        · exact h4 c hc
  obtain ⟨cs, t, h1, h2, h3, h4⟩ := key names s hso.valid hle.2
  exact ⟨{ t with mode := .ret cs, stack := k }, cs, by simp only [step, hm, next, hk, hl, hx, h1], rfl, rfl, h3, h4⟩

/-- `only` and `except` pass the variables on. -/
theorem C46_filtering {s : Config V S} {set : ImportSet} (hf : set.Filtering) {cs : List Nat} {k : List Frame}
    (hm : s.mode = .ret cs) (hk : s.stack = modifiers set ++ k) :
    ∃ cs', Run pr s { s with mode := .ret cs', stack := k } ∧ ∀ c ∈ cs', c ∈ cs := by
  induction set generalizing k with
  | library name =>
    simp only [modifiers, List.nil_append] at hk
    exact ⟨cs, by rw [← hm, ← hk]; exact .refl _, fun c h => h⟩
  | only set ids ih =>
    obtain ⟨cs', h1, h2⟩ := ih hf (k := .only (ids.map .symbol) :: k) (by simpa [modifiers] using hk)
    exact ⟨_, h1.step trivial rfl, fun c hc => h2 c (List.mem_filter.1 hc).1⟩
  | except set ids ih =>
    obtain ⟨cs', h1, h2⟩ := ih hf (k := .except (ids.map .symbol) :: k) (by simpa [modifiers] using hk)
    exact ⟨_, h1.step trivial rfl, fun c hc => h2 c (List.mem_filter.1 hc).1⟩
  | «prefix» set p => cases hf
  | rename set rs => cases hf

/-- C46 fails: a library whose name begins with a number cannot be imported. -/
theorem C46_number_fails {s : Config V S} {n : Num} {rest : Datum} (hm : s.mode = .importSet (.cons (.num n) rest)) :
    ∃ t, step pr s = some t ∧ t.mode = .failed :=
  ⟨{ s with mode := .failed }, by simp only [step, hm, importSet], rfl⟩

/-! ### C47 -/

/-- C47: in a program or library an import set is an error if and only if two different variables have
the same name: both in the set, or one of them bound before. -/
theorem C47_conflict {s : Config V S} (hs : Reachable pr s) {env : Nat} (he : env ≠ 0) {cs : List Nat}
    {k : List Frame} (hm : s.mode = .ret cs) (hk : s.stack = .into env :: k) :
    ∃ t, step pr s = some t ∧ (t.mode = .failed ↔ Conflict s env cs) ∧
      (t.mode = .next → ∀ x ∈ cs, ∀ n, nameOf s x = some n → lookup t env n = some x) := by
  have hso := hs.sound
  have hl : env < s.envs.length := (hso.frames_of hk).1
  have hc := importAll_conflict he hl (hso.ret cs hm)
  refine ⟨{ (importAll env cs s).2 with
    mode := if (importAll env cs s).1 then .next else .failed, stack := k }, ?_, ?_, ?_⟩
  · simp only [step, hm, returnTo, hk]
  · rw [← hc]
    cases (importAll env cs s).1 <;> simp
  · intro hmode x hx n hn
    have hok : (importAll env cs s).1 = true := by
      cases h : (importAll env cs s).1 with
      | true => rfl
      | false => simp [h] at hmode
    exact (importAll_bound he hso.valid hl hok).1 x hx n hn

/-- What a name means in a program or library does not change, whatever is evaluated and imported
afterwards. -/
theorem C47_stable {s t : Config V S} (hs : Reachable pr s) (hr : Run pr s t) {env : Nat} (he : env ≠ 0)
    {n : Name} {c : Nat} (h : lookup s env n = some c) : lookup t env n = some c :=
  (grows_runs hs.sound.valid hr).found env n c he h

/-- So, once `n` means `c`, importing another variable of that name is an error at any later time. -/
theorem C47_later {s t : Config V S} (hs : Reachable pr s) (hr : Run pr s t) {env : Nat} (he : env ≠ 0)
    {n : Name} {c d : Nat} (h : lookup s env n = some c) {cs : List Nat} {k : List Frame}
    (hm : t.mode = .ret cs) (hk : t.stack = .into env :: k) (hd : d ∈ cs) (hn : nameOf t d = some n)
    (hcd : d ≠ c) : ∃ u, step pr t = some u ∧ u.mode = .failed := by
  obtain ⟨u, h1, h2, _⟩ := C47_conflict (hs.run hr) he hm hk
  exact ⟨u, h1, h2.2 ⟨d, hd, c, hcd, n, hn, Or.inl (C47_stable hs hr he h)⟩⟩

/-- C47 (in part): importing the same variables again, however much later, is not an error and changes
nothing. (The same import set gives the same variables if it is made with `only` and `except` from plain
exports: `C46_filtering`, `C49_same_partial`.) -/
theorem C47_again_partial {s s' t : Config V S} (hs : Reachable pr s) {env : Nat} (he : env ≠ 0)
    {cs : List Nat} {k : List Frame} (hm : s.mode = .ret cs) (hk : s.stack = .into env :: k)
    (hstep : step pr s = some s') (hok : s'.mode = .next) (hr : Run pr s' t)
    {cs' : List Nat} {k' : List Frame} (hm' : t.mode = .ret cs') (hk' : t.stack = .into env :: k')
    (hsub : ∀ c ∈ cs', c ∈ cs) :
    ∃ u, step pr t = some u ∧ u.mode = .next ∧ ∀ n, lookup u env n = lookup t env n := by
  obtain ⟨s1, e1, _, e3⟩ := C47_conflict hs he hm hk
  rw [hstep] at e1; cases e1
  have hs' : Reachable pr s' := hs.run (run_one hstep)
  have ht := hs'.run hr
  have hg := grows_runs hs.sound.valid ((run_one hstep).trans hr)
  -- all of them are bound in `t`
  have hbound : ∀ x ∈ cs', ∀ n, nameOf t x = some n → lookup t env n = some x := by
    intro x hx n hn
    obtain ⟨m, hm1⟩ := exist_iff.1 (hs.sound.ret cs hm x (hsub x hx))
    have hm2 := hg.keeps x m hm1
    rw [hn] at hm2; cases hm2
    exact C47_stable hs' hr he (e3 hok x (hsub x hx) n hm1)
  have hno : ¬ Conflict t env cs' := by
    rintro ⟨x, hx, y, hxy, n, hn, h | ⟨hy, hyn⟩⟩
    · rw [hbound x hx n hn] at h; cases h; exact hxy rfl
    · have a := hbound x hx n hn
      rw [hbound y hy n hyn] at a; cases a; exact hxy rfl
  have hl : env < t.envs.length := (ht.sound.frames_of hk').1
  have hc := importAll_conflict he hl (ht.sound.ret cs' hm')
  have hok' : (importAll env cs' t).1 = true := by
    cases h : (importAll env cs' t).1 with
    | true => rfl
    | false => exact absurd (hc.1 h) hno
  obtain ⟨b1, b2⟩ := importAll_bound he ht.sound.valid hl hok'
  refine ⟨{ (importAll env cs' t).2 with
    mode := if (importAll env cs' t).1 then .next else .failed, stack := k' }, ?_, by simp only [hok', if_true], ?_⟩
  · simp only [step, hm', returnTo, hk']
  · intro n
    by_cases h : ∃ x ∈ cs', nameOf t x = some n
    · obtain ⟨x, hx, hn⟩ := h
      rw [hbound x hx n hn]
      exact b1 x hx n hn
    · exact b2 n fun x hx hn => h ⟨x, hx, hn⟩

/-- In the interaction environment an import is never an error; the last variable of a name counts. -/
theorem C47_interactive {s : Config V S} (hs : Reachable pr s) {cs : List Nat} {k : List Frame}
    (hm : s.mode = .ret cs) (hk : s.stack = .into 0 :: k) :
    ∃ t, step pr s = some t ∧ t.mode = .next ∧
      ∀ n, lookup t 0 n = (lastNamed s n cs).or (lookup s 0 n) := by
  have hso := hs.sound
  obtain ⟨h1, h2⟩ := importAll_interactive (hso.frames_of hk).1 (hso.ret cs hm)
  refine ⟨{ (importAll 0 cs s).2 with
    mode := if (importAll 0 cs s).1 then .next else .failed, stack := k }, ?_, by simp only [h1, if_true], h2⟩
  simp only [step, hm, returnTo, hk]

/-! ### C48 -/

/-- C48 (in part): `cond-expand` takes the first clause whose requirement holds, for all clauses; if there
is none, it is an error. Missing: library names that `write` does not distinguish; libraries that are not
loaded yet. -/
theorem C48_first_partial {lc : Cast} {features : List Name} {registry : Registry}
    {available : List Datum} (hr : Registered lc.high registry available) (ha : ∀ d ∈ available, Readable lc.high d)
    (cs : List (Requirement × Datum)) (hn : ∀ c ∈ cs, c.1.ReadableNames lc.high) :
    (∃ before c after, cs = before ++ c :: after ∧ (∀ b ∈ before, ¬ b.1.Holds features available) ∧
      c.1.Holds features available ∧ conditionalExpand lc features registry (clausesOf cs) = .value c.2) ∨
    ((∀ c ∈ cs, ¬ c.1.Holds features available) ∧
      conditionalExpand lc features registry (clausesOf cs) = .error) := by
  induction cs with
  | nil => exact Or.inr ⟨by simp, rfl⟩
  | cons c cs ih =>
    have e : clausesOf (c :: cs) = .cons (.cons c.1.toDatum c.2) (clausesOf cs) := rfl
    rcases test_spec hr ha c.1 (hn c List.mem_cons_self) (features := features) with ⟨h, ht⟩ | ⟨h, ht⟩
    · exact Or.inl ⟨[], c, cs, rfl, by simp, h, by rw [e, conditionalExpand, ht]⟩
    · have e' : conditionalExpand lc features registry (clausesOf (c :: cs)) =
          conditionalExpand lc features registry (clausesOf cs) := by
        rw [e, conditionalExpand, ht]
      rw [e']
      rcases ih fun d hd => hn d (List.mem_cons_of_mem _ hd) with ⟨before, d, after, h1, h2, h3, h4⟩ | ⟨h1, h2⟩
      · refine Or.inl ⟨c :: before, d, after, by rw [h1]; rfl, ?_, h3, h4⟩
        intro b hb
        rcases List.mem_cons.1 hb with rfl | hb
        · exact h
        · exact h2 b hb
      · refine Or.inr ⟨?_, h2⟩
        intro b hb
        rcases List.mem_cons.1 hb with rfl | hb
        · exact h
        · exact h1 b hb

/-- In a library the body of that clause is what is evaluated next. -/
theorem C48_spliced {s : Config V S} {lib : Nat} {l : Library} (hl : s.libs[lib]? = some l) {clauses body : Datum}
    (h : conditionalExpand pr.lexicalCast s.features s.registry clauses = .value body) :
    declare pr lib (.cons (.symbol (ascii "cond-expand")) clauses) s =
      { s with mode := .next, stack := .declare lib false (items body) :: s.stack } := by
  have h1 : (ascii "cond-expand" : Name) ≠ ascii "export" := by decide
  have h2 : (ascii "cond-expand" : Name) ≠ ascii "begin" := by decide
  have h3 : (ascii "cond-expand" : Name) ≠ ascii "include-library-declarations" := by decide
  simp only [declare, hl, if_neg h1, if_neg h2, if_neg h3, if_true, h]

/-- C48 fails: `(foo |1|)` counts as a library when only `(foo 1)` is. -/
theorem C48_name_fails (lc : Cast) : ∃ (registry : Registry) (available : List Datum) (r : Requirement),
    Registered lc.high registry available ∧ ¬ r.Holds [] available ∧
    test lc [] registry r.toDatum = .value true := by
  have hd : natDigits 10 1 = [49] := by rw [natDigits]; simp; rfl
  have hs : writeSymbol lc.high (ascii "foo") = some (ascii "foo") := by
    have h : (ascii "foo").any (fun b => isSpecial b.toNat || b = 0xFF) = false := by decide +kernel
    unfold writeSymbol
    rw [if_neg (by decide), h]; rfl
  have hs' : writeSymbol lc.high (ascii "1") = some (ascii "1") := by
    have h : (ascii "1").any (fun b => isSpecial b.toNat || b = 0xFF) = false := by decide +kernel
    unfold writeSymbol
    rw [if_neg (by decide), h]; rfl
  have hw : write lc.high (listOf [.symbol (ascii "foo"), .num (.int 1)]) = some (ascii "(foo 1)") := by
    simp only [listOf, write, writeTail, writeNum, intDigits, hs]
    simp [hd]
    decide
  have hw' : write lc.high (listOf [.symbol (ascii "foo"), .symbol (ascii "1")]) = some (ascii "(foo 1)") := by
    simp only [listOf, write, writeTail, hs, hs']
    decide
  refine ⟨[(ascii "(foo 1)", 0)], [listOf [.symbol (ascii "foo"), .num (.int 1)]],
    .library (listOf [.symbol (ascii "foo"), .symbol (ascii "1")]), ?_, ?_, ?_⟩
  · simp [Registered, hw]
  · simp [Requirement.Holds, listOf]
  · have e : test lc [] [(ascii "(foo 1)", 0)]
        (.cons (.symbol (ascii "library")) (.cons (listOf [.symbol (ascii "foo"), .symbol (ascii "1")]) .null)) =
        .value (List.lookup (ascii "(foo 1)") [(ascii "(foo 1)", 0)]).isSome := by
      simp only [test, if_true, Cast.cast_eq, hw']
    simp only [Requirement.toDatum, listOf] at e ⊢
    rw [e]
    rfl

/-! ### C49 -/

theorem account_of_fresh {s : Config V S} (hs : Reachable pr s) {lib : Nat} {l : Library}
    (hl : s.libs[lib]? = some l) (hd : l.declarations ≠ []) : Account l.declarations [] (view s lib) := by
  obtain ⟨f, p, u, hr⟩ := hs
  have hf := fresh_runs (valid_start f p u) lib hr (fresh_start f p u lib)
  have hu : (view s lib).untouched = some l.declarations := by
    unfold view untouched; rw [hl]; rfl
  obtain ⟨h1, h2⟩ := hf (by rw [hu]; simpa using hd)
  exact ⟨l.declarations, hu, by rw [h1, h2]; simp, Or.inr ⟨h1, h2⟩⟩

/-- C49: from any time at which a library is defined and not evaluated yet, whatever the program does, the
declarations that are evaluated are the first ones, in order, each at most once. -/
theorem C49_once {s t : Config V S} (hs : Reachable pr s) {lib : Nat} {l : Library}
    (hl : s.libs[lib]? = some l) (hd : l.declarations ≠ []) (hr : Run pr s t) :
    evaluated t lib <+: l.declarations := by
  obtain ⟨lost, d, h1, h2, h3⟩ := account_runs hs.sound.valid lib hr (account_of_fresh hs hl hd)
  exact ⟨pending t lib ++ d ++ lost, by rw [← h2]; simp [view]⟩

/-- If no exception is raised, then after the import all of them have been evaluated. -/
theorem C49_all {s t : Config V S} (hs : Reachable pr s) {lib : Nat} {l l' : Library}
    (hl : s.libs[lib]? = some l) (hd : l.declarations ≠ []) (hr : RunThrough pr NotFailed s t)
    (hl' : t.libs[lib]? = some l') (hdone : ¬ Underway t lib) :
    (l'.declarations = l.declarations ∧ evaluated t lib = []) ∨
    (l'.declarations = [] ∧ evaluated t lib = l.declarations) := by
  obtain ⟨d, h1, h2, h3⟩ := account_ok hs.sound.valid lib hr (account_of_fresh hs hl hd)
  have hp : pending t lib = [] := by
    unfold pending
    rw [List.flatMap_eq_nil_iff]
    intro f hf
    unfold pendingOf
    split
    · rename_i lib' ds
      split
      · rename_i h; subst h
        exact absurd ⟨ds, hf⟩ hdone
      · rfl
    · rfl
  have hu : (view t lib).untouched = some l'.declarations := by
    unfold view untouched; rw [hl']; rfl
  rw [hu] at h1; cases h1
  simp only [view, hp, List.append_nil] at h2 h3
  rcases h3 with h3 | ⟨h3, _⟩
  · exact Or.inr ⟨h3, by rw [h3] at h2; simpa using h2⟩
  · exact Or.inl ⟨by rw [h3] at h2; simpa using h2, h3⟩

/-- A name stands for the same library for ever, even if another library of that name is defined. -/
theorem C49_name {s t : Config V S} (hr : Run pr s t) {key : List Byte} {lib : Nat}
    (h : s.registry.lookup key = some lib) : t.registry.lookup key = some lib :=
  names_runs hr key lib h

/-- C49 (in part): every importer of a library with plain exports gets the same variables. Missing:
exports that are renamed. -/
theorem C49_same_partial {s s1 t t1 : Config V S} (hs : Reachable pr s) {lib : Nat} {l l' : Library}
    {names : List Name} (hm : s.mode = .next) {k k' : List Frame} (hk : s.stack = .exports lib :: k)
    (hl : s.libs[lib]? = some l) (hx : l.exports = names.map .symbol) (h1 : step pr s = some s1)
    (hr : Run pr s1 t) (hm' : t.mode = .next) (hk' : t.stack = .exports lib :: k')
    (hl' : t.libs[lib]? = some l') (hx' : l'.exports = l.exports) (h2 : step pr t = some t1) :
    ∃ cs, s1.mode = .ret cs ∧ t1.mode = .ret cs := by
  have hs1 := hs.run (run_one h1)
  have ht := hs1.run hr
  have hso := hs.sound
  have hle := hso.libs lib l hl
  have henv : l'.env = l.env := by
    obtain ⟨m, e1, e2⟩ := (grows_runs hso.valid ((run_one h1).trans hr)).libs lib l hl
    rw [hl'] at e1; cases e1; exact e2
  -- the names are bound after the first export
  have key : ∀ (names : List Name) (s : Config V S), Valid s → l.env < s.envs.length →
      ∃ cs t, exportAll pr l.env (names.map .symbol) s = some (cs, t) ∧ Grows s t ∧
        cs.length = names.length ∧ ∀ i (h : i < names.length) (h' : i < cs.length),
          lookup t l.env names[i] = some cs[i] := by
    intro names
    induction names with
    | nil => intro s hv _; exact ⟨[], s, rfl, .refl hv, rfl, by intro i h; simp at h⟩
    | cons n names ih =>
      intro s hv he
      have hg := grows_identify hv pr l.env n
      have hlk : lookup (identify pr l.env n s).2 l.env n = some (identify pr l.env n s).1 := by
        unfold identify
        split
        · rename_i c hc; exact hc
        · have := lookup_push_self (s := (make n pr.undefinedValue s).2) he
            (nameOf_make n pr.undefinedValue) n
          rw [if_pos rfl] at this
          exact this
      obtain ⟨cs, t, h1, h2, h3, h4⟩ := ih (identify pr l.env n s).2 hg.valid
        (Nat.lt_of_lt_of_le he hg.envs)
      refine ⟨(identify pr l.env n s).1 :: cs, t, ?_, hg.trans h2, by simp [h3], ?_⟩
      · simp only [List.map_cons, exportAll, export1, h1]
      · intro i hi hi'
        cases i with
        | zero => exact h2.found l.env n _ (by omega) hlk
        | succ i => exact h4 i (by simpa using hi) (by simpa using hi')
  have again : ∀ (names : List Name) (cs : List Nat) (t : Config V S), cs.length = names.length →
      (∀ i (h : i < names.length) (h' : i < cs.length), lookup t l.env names[i] = some cs[i]) →
      exportAll pr l.env (names.map .symbol) t = some (cs, t) := by
    intro names
    induction names with
    | nil =>
      intro cs t h _
      obtain rfl : cs = [] := List.length_eq_zero_iff.1 h
      rfl
    | cons n names ih =>
      intro cs t h hlk
      cases cs with
      | nil => simp at h
      | cons c cs =>
        have h0 : lookup t l.env n = some c := hlk 0 (by simp) (by simp)
        have h1 : identify pr l.env n t = (c, t) := by unfold identify; rw [h0]
        have h2 := ih cs t (by simpa using h) fun i hi hi' => hlk (i + 1) (by simpa using hi) (by simpa using hi')
        simp only [List.map_cons, exportAll, export1, h1, h2]
  obtain ⟨cs, s', e1, e2, e3, e4⟩ := key names s hso.valid hle.2
  have hs1' : s1 = { s' with mode := .ret cs, stack := k } := by
    simp only [step, hm, next, hk, hl, hx, e1] at h1
    exact (Option.some.inj h1).symm
  have hgt : Grows s1 t := grows_runs hs1.sound.valid hr
  have e4' : ∀ i (h : i < names.length) (h' : i < cs.length), lookup t l.env names[i] = some cs[i] := by
    intro i h h'
    refine hgt.found l.env _ _ (by omega) ?_
    rw [hs1']
    exact e4 i h h'
  have e5 := again names cs t e3 e4'
  refine ⟨cs, by rw [hs1'], ?_⟩
  simp only [step, hm', next, hk', hl', hx', henv, hx, e5] at h2
  rw [← Option.some.inj h2]

end Meevax.Library
