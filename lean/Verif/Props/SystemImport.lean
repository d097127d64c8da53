import Verif.Props.System

/-
C95, continued: what cannot be imported together, the interaction environment, and the names that the
libraries refer to.
-/

namespace Meevax.System

theorem importAll_append {key : Name} {xs ys : List Exposed} {env : Environment} :
    importAll key env (xs ++ ys) = (importAll key env xs).bind fun e => importAll key e ys := by
  induction xs generalizing env with
  | nil => rfl
  | cons x xs ih =>
    simp only [List.cons_append, importAll]
    split
    · exact ih
    · split
      · cases Variable.same _ _ with
        | true => exact ih
        | false => rfl
      · rfl

theorem importAll_keeps {key n : Name} {xs : List Exposed} {env env' : Environment}
    (h : importAll key env xs = some env') {b : Binding} (hb : find n env = some b) :
    find n env' = some b := by
  induction xs generalizing env with
  | nil => cases h; exact hb
  | cons x xs ih =>
    simp only [importAll] at h
    split at h
    · rename_i hf
      refine ih h ?_
      simp only [find]
      cases hx : Nat.beq x.name n with
      | true => rw [Nat.eq_of_beq_eq_true hx, hb] at hf; cases hf
      | false => exact hb
    · split at h
      · cases hv : Variable.same _ _ with
        | true => rw [hv] at h; exact ih h hb
        | false => rw [hv] at h; cases h
      · cases h

/-- What an import bound is a member of the import set, if the environment did not have the name. -/
theorem importAll_binds {key n : Name} {xs : List Exposed} {env env' : Environment}
    (h : importAll key env xs = some env') (hn : find n env = none) (hx : ∃ x ∈ xs, x.name = n) :
    ∃ x ∈ xs, x.name = n ∧ find n env' = some (bindingOf key x) := by
  induction xs generalizing env with
  | nil => obtain ⟨x, hx, _⟩ := hx; cases hx
  | cons x xs ih =>
    simp only [importAll] at h
    cases hb : Nat.beq x.name n with
    | true =>
      have hxn := Nat.eq_of_beq_eq_true hb
      rw [hxn, hn] at h
      refine ⟨x, by simp, hxn, importAll_keeps h ?_⟩
      simp [find, bindingOf, hxn]
    | false =>
      obtain ⟨y, hy, hyn⟩ := hx
      have hy' : ∃ y ∈ xs, y.name = n := by
        rcases List.mem_cons.1 hy with rfl | hy
        · rw [hyn, Nat.beq_refl] at hb; cases hb
        · exact ⟨y, hy, hyn⟩
      have : ∃ x ∈ xs, x.name = n ∧ find n env' = some (bindingOf key x) := by
        split at h
        · refine ih h ?_ hy'
          simp only [find, hb]
          exact hn
        · split at h
          · cases hv : Variable.same _ _ with
            | true => rw [hv] at h; exact ih h hn hy'
            | false => rw [hv] at h; cases h
          · cases h
      obtain ⟨z, hz, h⟩ := this
      exact ⟨z, by simp [hz], h⟩

/-- A name that is bound can only be imported with the same variable. -/
theorem importAll_clash {key : Name} {xs : List Exposed} {env env' : Environment}
    (h : importAll key env xs = some env') {x : Exposed} (hx : x ∈ xs) {b : Binding}
    (hb : find x.name env = some b) : x.cell = some b.cell := by
  induction xs generalizing env with
  | nil => cases hx
  | cons y ys ih =>
    rcases List.mem_cons.1 hx with rfl | hx
    · simp only [importAll, hb] at h
      split at h
      · rename_i v hv
        cases hs : Variable.same v b.cell with
        | true => rw [hv, same_variable.1 hs]
        | false => rw [hs] at h; cases h
      · cases h
    · have h' := h
      simp only [importAll] at h'
      split at h'
      · rename_i hf
        refine ih h' hx ?_
        simp only [find]
        cases hn : Nat.beq y.name x.name with
        | true => rw [Nat.eq_of_beq_eq_true hn, hb] at hf; cases hf
        | false => exact hb
      · split at h'
        · cases hs : Variable.same _ _ with
          | true => rw [hs] at h'; exact ih h' hx hb
          | false => rw [hs] at h'; cases h'
        · cases h'

/-- Can the second not be imported after the first, whatever the library? -/
def clashing (x y : Exposed) : Bool :=
  match x.cell, y.cell with
  | _, none => true
  | some v, some w => !v.same w
  | none, some w => (Library.find w.library table).isSome

theorem clashing_spec {key : Name} {x y : Exposed} (hk : Library.find key table = none)
    (h : clashing x y = true) : y.cell ≠ some (bindingOf key x).cell := by
  intro hy
  rw [clashing.eq_def, hy] at h
  cases hx : x.cell with
  | none =>
    rw [hx] at h
    simp only [bindingOf, hx, Option.getD_none] at h
    rw [hk] at h
    cases h
  | some v =>
    rw [hx] at h
    simp only [bindingOf, hx, Option.getD_some] at h
    rw [same_variable.2 rfl] at h
    cases h

/-- Is the import of the second library after the first refused? -/
def refused (a b : Name) : Bool :=
  match find a interfaces, find b interfaces with
  | some xs, some ys => ys.any fun y =>
      (firstNamed y.name xs).isSome && xs.all fun x => !Nat.beq x.name y.name || clashing x y
  | _, _ => false

/-- The pairs of standard libraries that cannot be imported together into a library, although they give
the names they share the same meaning or, in the first five, a meaning that the reports do not tell
apart. -/
def conflicts : List (Name × Name) :=
  [(name! "(scheme r5rs)", name! "(scheme read)"),
   (name! "(scheme r5rs)", name! "(scheme write)"),
   (name! "(scheme r5rs)", name! "(scheme repl)"),
   (name! "(scheme r4rs)", name! "(scheme read)"),
   (name! "(scheme r4rs)", name! "(scheme write)"),
   (name! "(scheme r4rs)", name! "(scheme r5rs)"),
   (name! "(scheme r4rs)", name! "(scheme base)"),
   (name! "(scheme base)", name! "(srfi 0)"),
   (name! "(scheme box)", name! "(srfi 111)"),
   (name! "(scheme r4rs)", name! "(scheme r4rs)"),
   (name! "(scheme lazy)", name! "(scheme lazy)"),
   (name! "(srfi 0)", name! "(srfi 0)"),
   (name! "(srfi 38)", name! "(srfi 38)"),
   (name! "(srfi 111)", name! "(srfi 111)")]

/-- False of other libraries: it is an error for a library or an environment of a program to import both
of one of these pairs, for instance (scheme box) and (srfi 111), or (scheme lazy) twice. -/
theorem C95_conflict_fails {key : Name} (hk : Library.find key table = none) :
    ∀ c ∈ conflicts, ∃ xs ys, Loads table c.1 xs ∧ Loads table c.2 ys ∧
      ∃ d, ∀ depth, d ≤ depth →
        importSets (interface table depth) key [.library c.1, .library c.2] [] = none := by
  have h : (conflicts.all fun c => (Library.find c.1 table).isSome && ((Library.find c.2 table).isSome &&
      refused c.1 c.2)) = true := by decide +kernel
  intro c hc
  have h1 := List.all_eq_true.1 h c hc
  simp only [Bool.and_eq_true] at h1
  obtain ⟨k1, k2, h2⟩ := h1
  unfold refused at h2
  split at h2
  · rename_i xs ys hx hy
    obtain ⟨d1, l1⟩ := loads_find k1 hx
    obtain ⟨d2, l2⟩ := loads_find k2 hy
    refine ⟨xs, ys, ⟨d1, l1⟩, ⟨d2, l2⟩, d1 + d2, ?_⟩
    intro depth hd
    simp only [importSets, importSet, l1 depth (by omega), l2 depth (by omega)]
    cases h3 : importAll key [] xs with
    | none => rfl
    | some e =>
      cases h4 : importAll key e ys with
      | none => simp only [h4]
      | some e' =>
        exfalso
        simp only [List.any_eq_true, Bool.and_eq_true] at h2
        obtain ⟨y, hym, hs, ha⟩ := h2
        obtain ⟨z, hz⟩ := Option.isSome_iff_exists.1 hs
        obtain ⟨x, hxm, hxn, hxb⟩ := importAll_binds h3 (n := y.name) rfl ⟨z, firstNamed_some hz⟩
        have hc := List.all_eq_true.1 ha x hxm
        rw [hxn, Nat.beq_refl] at hc
        exact clashing_spec hk (by simpa using hc) (importAll_clash h4 hym hxb)
  · cases h2

/-! ### The interaction environment -/

theorem importInteractive_find {xs : List Exposed} {env : Environment} {n : Name} :
    (∃ x ∈ xs, x.name = n ∧ ∃ b, find n (importInteractive env xs) = some b ∧ b.origin = x.origin) ∨
    ((∀ x ∈ xs, x.name ≠ n) ∧ find n (importInteractive env xs) = find n env) := by
  induction xs generalizing env with
  | nil => exact Or.inr ⟨by simp, rfl⟩
  | cons x xs ih =>
    simp only [importInteractive]
    rcases ih (env := (x.name, ⟨x.cell.getD ⟨0, x.name⟩, x.origin⟩) :: env) with ⟨y, hy, h⟩ | ⟨h1, h2⟩
    · exact Or.inl ⟨y, by simp [hy], h⟩
    · rw [h2]
      simp only [find]
      cases hb : Nat.beq x.name n with
      | true => exact Or.inl ⟨x, by simp, Nat.eq_of_beq_eq_true hb, _, rfl, rfl⟩
      | false =>
        refine Or.inr ⟨?_, rfl⟩
        intro y hy
        rcases List.mem_cons.1 hy with rfl | hy
        · intro hn; rw [hn, Nat.beq_refl] at hb; cases hb
        · exact h1 y hy

theorem importInteractive_append {xs ys : List Exposed} {env : Environment} :
    importInteractive env (xs ++ ys) = importInteractive (importInteractive env xs) ys := by
  induction xs generalizing env with
  | nil => rfl
  | cons x xs ih => exact ih

theorem importSetsInteractive_eq {get : Name → Option (List Exposed)} {sets : List ImportSet}
    {xss : List (List Exposed)} {env : Environment} (h : sets.map (importSet get) = xss.map some) :
    importSetsInteractive get sets env = some (importInteractive env xss.flatten) := by
  induction sets generalizing xss env with
  | nil => cases xss with
    | nil => rfl
    | cons _ _ => cases h
  | cons s sets ih =>
    cases xss with
    | nil => cases h
    | cons xs xss =>
      simp only [List.map_cons, List.cons.injEq] at h
      simp only [importSetsInteractive, h.1, List.flatten_cons, importInteractive_append]
      exact ih h.2

theorem compatible_origin {a b : Name} (ha : a ∈ compatible) (hb : b ∈ compatible) {xs ys : List Exposed}
    (hx : find a interfaces = some xs) (hy : find b interfaces = some ys) {x y : Exposed} (hxm : x ∈ xs)
    (hym : y ∈ ys) (hn : x.name = y.name) : x.origin = y.origin := by
  obtain ⟨xs', h1, hd, h2⟩ := compatible_interface ha
  rw [hx] at h1
  cases h1
  by_cases hab : a = b
  · subst hab
    rw [hx] at hy
    cases hy
    have h3 := distinct_first hd hxm
    rw [hn, distinct_first hd hym] at h3
    cases h3
    rfl
  · exact (compatible_agree ha hb (fun h => absurd h hab) hx hy hxm hym hn).2.2

theorem forall₂_mem {α β : Type} {R : α → β → Prop} {as : List α} {bs : List β} (h : List.Forall₂ R as bs)
    {b : β} (hb : b ∈ bs) : ∃ a ∈ as, R a b := by
  induction h with
  | nil => cases hb
  | @cons a b' as bs h1 _ ih =>
    rcases List.mem_cons.1 hb with rfl | hb
    · exact ⟨a, by simp, h1⟩
    · obtain ⟨a, ha, h⟩ := ih hb
      exact ⟨a, by simp [ha], h⟩

/-- In the interaction environment (the REPL, and programs), the same import sets can be imported in any
order and number, over any environment: afterwards each name they expose means what it means in every
library that exposes it, and other names mean what they meant. -/
theorem C95_interactive_partial {sets : List ImportSet} {depth : Nat} (hd : order.length < depth)
    (hs : ∀ s ∈ sets, s.Filtering ∧ s.base ∈ compatible) (env : Environment) :
    ∃ env', importSetsInteractive (interface table depth) sets env = some env' ∧
      (∀ s ∈ sets, ∃ xs, importSet (interface table depth) s = some xs ∧
        ∀ x ∈ xs, ∃ b, find x.name env' = some b ∧ b.origin = x.origin) ∧
      ∀ n, (∀ s ∈ sets, ∀ xs, importSet (interface table depth) s = some xs → ¬ Offers xs n) →
        find n env' = find n env := by
  obtain ⟨xss, h1, h2⟩ := import_sets_exist hd hs
  refine ⟨_, importSetsInteractive_eq h1, ?_, ?_⟩
  · intro s hsm
    have hmem : importSet (interface table depth) s ∈ xss.map some := by
      rw [← h1]; exact List.mem_map_of_mem hsm
    obtain ⟨xs, hxs, he⟩ := List.mem_map.1 hmem
    refine ⟨xs, he.symm, ?_⟩
    intro x hx
    have hxf : x ∈ xss.flatten := List.mem_flatten.2 ⟨xs, hxs, hx⟩
    rcases importInteractive_find (xs := xss.flatten) (env := env) (n := x.name) with
      ⟨y, hy, hyn, b, hb, ho⟩ | ⟨g, _⟩
    · refine ⟨b, hb, ?_⟩
      rw [ho]
      obtain ⟨ys, hys, hym⟩ := List.mem_flatten.1 hy
      obtain ⟨s1, m1, zs, z1, z2⟩ := forall₂_mem h2 hys
      obtain ⟨s2, m2, ws, w1, w2⟩ := forall₂_mem h2 hxs
      exact compatible_origin (hs s1 m1).2 (hs s2 m2).2 z1 w1 (z2.subset hym) (w2.subset hx) hyn
    · exact absurd rfl (g x hxf)
  · intro n hn
    rcases importInteractive_find (xs := xss.flatten) (env := env) (n := n) with
      ⟨y, hy, hyn, _⟩ | ⟨_, g⟩
    · exfalso
      obtain ⟨ys, hys, hym⟩ := List.mem_flatten.1 hy
      have : some ys ∈ sets.map (importSet (interface table depth)) := by
        rw [h1]; exact List.mem_map_of_mem hys
      obtain ⟨s, hsm, he⟩ := List.mem_map.1 this
      exact hn s hsm ys he ⟨y, hym, hyn⟩
    · exact g


/-! ### References -/

/-- Every name that the body of a library of the system refers to is defined, but for the four of
`dangling`. -/
theorem C95_references_partial {key : Name} {l : Library} (h : Library.find key table = some l) :
    ∃ d, ∀ depth, d ≤ depth → ∃ env specs,
      evaluate (interface table depth) l.key l.declarations [] [] = some (env, specs) ∧
      ∀ n ∈ l.references, (key, n) ∉ dangling → ∃ b, find n env = some b ∧ b.origin.isSome := by
  refine ⟨order.length, ?_⟩
  intro depth hd
  obtain ⟨_, env, specs, xs, h1, _, _, h2⟩ := loads h hd
  refine ⟨env, specs, h1, ?_⟩
  intro n hn hdg
  have h3 := h2 n hn
  have h4 : isDangling l.key n = false := by
    rw [Bool.eq_false_iff]
    intro hx
    simp only [isDangling, List.any_eq_true, Bool.and_eq_true] at hx
    obtain ⟨e, he, e1, e2⟩ := hx
    apply hdg
    rw [← (find_library h).1, ← Nat.eq_of_beq_eq_true e1, ← Nat.eq_of_beq_eq_true e2]
    exact he
  rw [h4] at h3
  simp only [isDefined, Bool.not_false] at h3
  cases hf : find n env with
  | none => rw [hf] at h3; cases h3
  | some b => rw [hf] at h3; exact ⟨b, rfl, h3⟩

/-- False of these: `exit` refers to a `letrec` that its library does not import (C41_exit_fails), `load`
to `%interaction-environment` (C85_load_default_fails), and `define-record-type` and `syntax-rules` to
`error`. -/
theorem C95_references_fails : ∀ e ∈ dangling, ∃ l, Library.find e.1 table = some l ∧ e.2 ∈ l.references ∧
    ∃ d, ∀ depth, d ≤ depth → ∃ env specs,
      evaluate (interface table depth) l.key l.declarations [] [] = some (env, specs) ∧
      ∀ b, find e.2 env = some b → b.origin = none := by
  have h : (dangling.all fun e =>
      match Library.find e.1 table with
      | some l => among e.2 l.references
      | none => false) = true := by decide +kernel
  intro e he
  have h1 := List.all_eq_true.1 h e he
  split at h1
  · rename_i l hl
    have hr := among_iff.1 h1
    refine ⟨l, hl, hr, order.length, ?_⟩
    intro depth hd
    obtain ⟨_, env, specs, xs, h1, _, _, h2⟩ := loads hl hd
    refine ⟨env, specs, h1, ?_⟩
    intro b hb
    have h3 := h2 e.2 hr
    have h4 : isDangling l.key e.2 = true := by
      simp only [isDangling, List.any_eq_true, Bool.and_eq_true]
      exact ⟨e, he, Nat.beq_refl _, by rw [(find_library hl).1]; exact Nat.beq_refl _⟩
    rw [h4] at h3
    simp only [isDefined, hb, Option.bind_some, Bool.not_true] at h3
    cases ho : b.origin with
    | none => rfl
    | some o => rw [ho] at h3; cases h3
  · cases h1

/-! ### The hypotheses are met -/

/-- An import of everything, and again of some of it. -/
def everything : List ImportSet :=
  compatible.map .library ++
  [.only (.library (name! "(scheme base)")) (names! "car cdr"),
   .except (.only (.library (name! "(srfi 1)")) (names! "fold map")) (names! "map")]

/-- The hypotheses of `C95_together_partial` and `C95_interactive_partial` are met by all the compatible
libraries at once, with two of them once more. -/
example : (∀ s ∈ everything, s.Filtering ∧ s.base ∈ compatible) ∧
    everything.Pairwise (fun s t => s.base = t.base → s.base ∉ once) := by
  refine ⟨?_, by decide +kernel⟩
  intro s hs
  rcases List.mem_append.1 hs with hs | hs
  · obtain ⟨k, hk, rfl⟩ := List.mem_map.1 hs
    exact ⟨trivial, hk⟩
  · simp only [List.mem_cons, List.not_mem_nil, or_false] at hs
    rcases hs with rfl | rfl
    · exact ⟨trivial, by decide +kernel⟩
    · exact ⟨trivial, by decide +kernel⟩

/-- A library of a program is not one of the system. -/
example : Library.find (name! "(example)") table = none := by decide +kernel

end Meevax.System
