import Verif.Lemmas.Base
import Verif.Lemmas.Lists

/-!
# C91: `string-map`, `vector-map`, `string-for-each`, `vector-for-each`, `list-set!`, `boolean=?`, `symbol=?`

The procedures of the user may have any effect: they run in `StateT (Store α) n` for any lawful monad `n`
in which calls can fail. On the right-hand sides stands `List.mapM` of Lean's library over the arguments
of the calls.
-/

namespace Meevax.Base
open Meevax.Number Meevax.Seq Meevax.Srfi1.Spec Spec

section
variable {n : Type → Type} [Monad n] [LawfulMonad n] [Failing n] {α : Type}

/-- **C91, `vector-map`.** The procedure is called once for each position up to the end of the shortest
vector, from left to right, on the elements the vectors have at the time of the call of `vector-map`. The
result is a new vector with the values of the calls; apart from what the procedure does nothing changes. -/
theorem C91_vector_map (f : List α → StateT (Store α) n α) {x : Nat} {xs : List Nat} {σ : Store α}
    {xss : List (List α)} (h : contents σ (x :: xs) = some xss) :
    vectorMap f x xs σ = (do
      let (ys, σ') ← (columns xss).mapM f σ
      pure (σ'.length, σ' ++ [ys])) := by
  obtain ⟨y, ys, rfl, h1, h2⟩ := contents_cons h
  unfold vectorMap
  split
  · rename_i hx
    subst hx
    simp only [contents, Option.some.injEq] at h2
    subst h2
    show (listOf x σ >>= fun p => _) = _
    rw [listOf_all h1, pure_bind]
    show (Srfi1.map f y [] σ >>= fun p => listToVector p.1 p.2) = _
    rw [Srfi1.C56_map]
    exact congrArg _ (funext fun p => listToVector_run p.1 p.2)
  · show (listsOf x xs σ >>= fun p => _) = _
    rw [listsOf_eq, contents_mapM h, pure_bind]
    show (Srfi1.map f y ys σ >>= fun p => listToVector p.1 p.2) = _
    rw [Srfi1.C56_map]
    exact congrArg _ (funext fun p => listToVector_run p.1 p.2)

/-- **C91, `string-map`.** As `vector-map`, on strings; the values of the calls have to be characters, and
if one is not the call raises, after all calls have been made. -/
theorem C91_string_map (f : List Nat → StateT (Store Nat) n Element) {x : Nat} {xs : List Nat} {σ : Store Nat}
    {xss : List (List Nat)} (h : contents σ (x :: xs) = some xss) :
    stringMap f x xs σ = (do
      let (ys, σ') ← (columns xss).mapM f σ
      match characters ys with
      | .value cs => pure (σ'.length, σ' ++ [cs])
      | _ => Failing.raised) ∧
    (∀ cs, characters (cs.map .char) = .value cs) ∧
    ∀ ys, (∃ k, .other k ∈ ys) → characters ys = .raised := by
  refine ⟨?_, characters_chars, fun ys => characters_other⟩
  have key : ∀ (ys : List Element) (σ' : Store Nat), (listToString ys : StateT (Store Nat) n Nat) σ' =
      match characters ys with
      | .value cs => pure (σ'.length, σ' ++ [cs])
      | _ => Failing.raised := by
    intro ys σ'
    have hn : characters ys ≠ .undefined := by
      induction ys with
      | nil => simp [characters]
      | cons y ys ih =>
        cases y with
        | other _ => simp [characters]
        | char c =>
          simp only [characters, bind, Outcome.bind]
          cases hc : characters ys with
          | value _ => simp
          | raised => simp
          | undefined => exact absurd hc ih
    show ((outcome (characters ys) : StateT (Store Nat) n (List Nat)) σ' >>= fun p => _) = _
    cases hc : characters ys with
    | value cs =>
      simp only [outcome]
      show (pure (cs, σ') >>= fun p => _) = _
      rw [pure_bind]
      exact listToVector_run cs σ'
    | raised => simp only [outcome]; rw [Failing.raised_bind]
    | undefined => exact absurd hc hn
  obtain ⟨y, ys, rfl, h1, h2⟩ := contents_cons h
  unfold stringMap
  split
  · rename_i hx
    subst hx
    simp only [contents, Option.some.injEq] at h2
    subst h2
    show (listOf x σ >>= fun p => _) = _
    rw [listOf_all h1, pure_bind]
    show (Srfi1.map f y [] σ >>= fun p => listToString p.1 p.2) = _
    rw [Srfi1.C56_map]
    exact congrArg _ (funext fun p => key p.1 p.2)
  · show (listsOf x xs σ >>= fun p => _) = _
    rw [listsOf_eq, contents_mapM h, pure_bind]
    show (Srfi1.map f y ys σ >>= fun p => listToString p.1 p.2) = _
    rw [Srfi1.C56_map]
    exact congrArg _ (funext fun p => key p.1 p.2)

/-- **C91, `string-for-each` and `vector-for-each`.** The same calls in the same order. -/
theorem C91_for_each {β : Type} (f : List α → StateT (Store α) n β) {x : Nat} {xs : List Nat} {σ : Store α}
    {xss : List (List α)} (h : contents σ (x :: xs) = some xss) :
    sequenceForEach f x xs σ = (do
      let (_, σ') ← (columns xss).mapM f σ
      pure ((), σ')) := by
  obtain ⟨y, ys, rfl, h1, h2⟩ := contents_cons h
  unfold sequenceForEach
  split
  · rename_i hx
    subst hx
    simp only [contents, Option.some.injEq] at h2
    subst h2
    show (listOf x σ >>= fun p => _) = _
    rw [listOf_all h1, pure_bind]
    show Srfi1.forEach f y [] σ = _
    rw [Srfi1.C56_forEach]
    rfl
  · show (listsOf x xs σ >>= fun p => _) = _
    rw [listsOf_eq, contents_mapM h, pure_bind]
    show Srfi1.forEach f y ys σ = _
    rw [Srfi1.C56_forEach]
    rfl

/-- **C91, wrong arguments.** If one of the arguments is not a string (not a vector), the call raises before
the procedure has been called. -/
theorem C91_wrong_argument (f : List α → StateT (Store α) n α)
    (g : List Nat → StateT (Store Nat) n Element) {x : Nat} {xs : List Nat} :
    (∀ σ, contents σ (x :: xs) = none → vectorMap f x xs σ = Failing.raised) ∧
    (∀ σ, contents σ (x :: xs) = none → stringMap g x xs σ = Failing.raised) ∧
    ∀ σ, contents σ (x :: xs) = none → sequenceForEach f x xs σ = Failing.raised := by
  refine ⟨?_, ?_, ?_⟩
  · intro σ h
    unfold vectorMap
    split
    · rename_i hx
      subst hx
      show (listOf x σ >>= fun p => _) = _
      rw [listOf_none (contents_none h), Failing.raised_bind]
    · show (listsOf x xs σ >>= fun p => _) = _
      rw [listsOf_eq, contents_mapM_none h, Failing.raised_bind]
  · intro σ h
    unfold stringMap
    split
    · rename_i hx
      subst hx
      show (listOf x σ >>= fun p => _) = _
      rw [listOf_none (contents_none h), Failing.raised_bind]
    · show (listsOf x xs σ >>= fun p => _) = _
      rw [listsOf_eq, contents_mapM_none h, Failing.raised_bind]
  · intro σ h
    unfold sequenceForEach
    split
    · rename_i hx
      subst hx
      show (listOf x σ >>= fun p => _) = _
      rw [listOf_none (contents_none h), Failing.raised_bind]
    · show (listsOf x xs σ >>= fun p => _) = _
      rw [listsOf_eq, contents_mapM_none h, Failing.raised_bind]

/-- **C91, procedures without effects.** The new vector has at every position that all of the vectors have
the value of the procedure for the elements at that position, and there are no other positions. All the
other vectors, and the addresses they have, are as before. -/
theorem C91_vector_map_pure (g : List α → α) {x : Nat} {xs : List Nat} {σ : Store α} {xss : List (List α)}
    (h : contents σ (x :: xs) = some xss) :
    ∃ ys, vectorMap (n := n) (fun args => pure (g args)) x xs σ = pure (σ.length, σ ++ [ys]) ∧
      Mapped g xss ys := by
  refine ⟨(columns xss).map g, ?_, ?_⟩
  · rw [C91_vector_map _ h]
    have : ((columns xss).mapM fun args => (pure (g args) : StateT (Store α) n α)) =
        pure ((columns xss).map g) := by
      induction columns xss with
      | nil => rfl
      | cons c cs ih => rw [List.mapM_cons, ih]; simp
    rw [this]
    show (pure (_, σ) >>= fun p => _) = _
    rw [pure_bind]
  · obtain ⟨y, ys, rfl, _, _⟩ := contents_cons h
    exact mapped_columns g (by simp)

/-- **C91, procedures without effects**, for `string-map`. -/
theorem C91_string_map_pure (g : List Nat → Nat) {x : Nat} {xs : List Nat} {σ : Store Nat} {xss : List (List Nat)}
    (h : contents σ (x :: xs) = some xss) :
    ∃ ys, stringMap (n := n) (fun args => pure (.char (g args))) x xs σ = pure (σ.length, σ ++ [ys]) ∧
      Mapped g xss ys := by
  refine ⟨(columns xss).map g, ?_, ?_⟩
  · rw [(C91_string_map _ h).1]
    have : ((columns xss).mapM fun args => (pure (.char (g args)) : StateT (Store Nat) n Element)) =
        pure (((columns xss).map g).map .char) := by
      induction columns xss with
      | nil => rfl
      | cons c cs ih => rw [List.mapM_cons, ih]; simp
    rw [this]
    show (pure (_, σ) >>= fun p => _) = _
    rw [pure_bind]
    simp only [characters_chars]
  · obtain ⟨y, ys, rfl, _, _⟩ := contents_cons h
    exact mapped_columns g (by simp)

end

/-- **C91, `list-set!`.** For an index of an element the car of the pair that holds the element is assigned,
and nothing else changes. The list may be proper, dotted or circular: `pairs` are the pairs from the
beginning to the one that is assigned. -/
theorem C91_list_set {h : Lists.Heap} {xs : Lists.Obj} {pairs : List Nat} {a : Nat}
    (s : Lists.Seg h xs pairs (.pair a)) (x : Lists.Obj) :
    ∃ h', listSet h xs pairs.length x = some h' ∧ h'.next = h.next ∧ h'.cdr = h.cdr ∧
      h'.car a = x ∧ ∀ b, b ≠ a → h'.car b = h.car b := by
  refine ⟨Lists.setCar h a x, ?_, rfl, rfl, by simp [Lists.setCar], fun b hb => by simp [Lists.setCar, hb]⟩
  simp [listSet, Lists.drop_spec s, Linear.setCarOf, Lists.address]

/-- **C91, `list-set!`**, on the elements of a proper list. -/
theorem C91_list_set_elements {h : Lists.Heap} {xs : Lists.Obj} {ys : List Lists.Obj}
    (hl : Lists.ListIs h xs ys) {k : Nat} (hk : k < ys.length) (x : Lists.Obj) :
    ∃ h', listSet h xs k x = some h' ∧ Lists.ListIs h' xs (ys.set k x) := by
  obtain ⟨as, s, rfl⟩ := hl
  have hk' : k < as.length := by simpa using hk
  have nd := s.nodup rfl
  obtain ⟨y, s1, s2⟩ := Lists.Seg.split (as := as.take k) (bs := as.drop k) (by simpa using s)
  rw [List.drop_eq_getElem_cons hk'] at s2
  cases s2
  obtain ⟨h', e, hn, hd, ha, hb⟩ := C91_list_set s1 x
  rw [List.length_take, Nat.min_eq_left (Nat.le_of_lt hk')] at e
  refine ⟨h', e, as, ?_, ?_⟩
  · have : ∀ {x t : Lists.Obj} {as : List Nat}, Lists.Seg h x as t → Lists.Seg h' x as t := by
      intro x t as s
      induction s with
      | nil x => exact .nil x
      | cons ha s ih => exact .cons (hn ▸ ha) (by rw [hd]; exact ih)
    exact this s
  · apply List.ext_getElem
    · simp
    · intro i h1 h2
      have h1 : i < as.length := by simpa using h1
      rw [List.getElem_set]
      split
      · rename_i hi
        subst hi
        simpa using ha
      · rename_i hi
        have : as[i] ≠ as[k] := fun he => hi ((List.getElem_inj nd).mp he).symm
        simpa using hb _ this

/-- **C91, `list-set!`** past the last pair of a list: undefined (in the report, an error). -/
theorem C91_list_set_end {h : Lists.Heap} {xs t : Lists.Obj} {pairs : List Nat} (s : Lists.Seg h xs pairs t)
    (ht : Lists.isPair t = false) (x : Lists.Obj) : listSet h xs pairs.length x = none := by
  cases t with
  | pair a => simp [Lists.isPair] at ht
  | null => simp [listSet, Lists.drop_spec s, Linear.setCarOf, Lists.address]
  | atom a => simp [listSet, Lists.drop_spec s, Linear.setCarOf, Lists.address]

/-- Booleans: two immediate words (include/meevax/kernel/boolean.hpp). -/
def IsBoolean (t f : Nat) (x : Equal.Val) : Prop := x = .imm t ∨ x = .imm f

/-- Symbols: references to heap data without an `operator ==` (C45: one for each name). -/
def IsSymbol (h : Equal.Heap) (x : Equal.Val) : Prop := ∃ a, x = .ref a ∧ h a = .opaque

/-- **C91, `boolean=?`** of two booleans: are they the same? -/
theorem C91_boolean_eq_partial (numEq : Equal.Val → Equal.Val → Bool) (h : Equal.Heap) {t f : Nat}
    {x y : Equal.Val} (hx : IsBoolean t f x) (hy : IsBoolean t f y) :
    ∃ b, eqvBuiltin numEq h [x, y] = some b ∧ (b = true ↔ AllSame (IsBoolean t f) [x, y]) := by
  have key : eqvBuiltin numEq h [x, y] = some (decide (x = y)) := by
    rw [eqvBuiltin, Equal.eqv]
    by_cases e : x = y
    · simp [Equal.eq, e]
    · rcases hx with rfl | rfl <;> rcases hy with rfl | rfl <;>
        simp_all [Equal.eq, Equal.exactIntegerEquals, Equal.exactInteger]
  refine ⟨_, key, ?_⟩
  simp only [decide_eq_true_eq, AllSame]
  constructor
  · rintro rfl
    exact ⟨by simpa using hx, by simp⟩
  · intro ⟨_, hs⟩
    exact hs x (by simp) y (by simp)

/-- **C91, `symbol=?`** of two symbols: are they the same? -/
theorem C91_symbol_eq_partial (numEq : Equal.Val → Equal.Val → Bool) (h : Equal.Heap) {x y : Equal.Val}
    (hx : IsSymbol h x) (hy : IsSymbol h y) :
    ∃ b, eqvBuiltin numEq h [x, y] = some b ∧ (b = true ↔ AllSame (IsSymbol h) [x, y]) := by
  obtain ⟨a, rfl, ha⟩ := hx
  obtain ⟨b, rfl, hb⟩ := hy
  have key : eqvBuiltin numEq h [.ref a, .ref b] = some (decide (a = b)) := by
    rw [eqvBuiltin, Equal.eqv]
    by_cases e : a = b
    · simp [Equal.eq, e]
    · simp only [Equal.eq, Equal.Val.ref.injEq, e, decide_false, Bool.false_eq_true, if_false]
      rw [Equal.cellEqv]
      simp [ha, hb, Equal.exactIntegerEquals, Equal.exactInteger]
  refine ⟨_, key, ?_⟩
  simp only [decide_eq_true_eq, AllSame]
  constructor
  · rintro rfl
    exact ⟨by simpa using ⟨a, rfl, ha⟩, by simp⟩
  · intro ⟨_, hs⟩
    have := hs (.ref a) (by simp) (.ref b) (by simp)
    simpa using this

/-- **C91, `boolean=?` and `symbol=?` look at two arguments only**, and do not look at their types:
`(boolean=? #t #t #f)` is `#t` although the arguments are not all the same, and so is `(boolean=? 1 1)`;
`(symbol=? 'a 'a 'b)` is `#t` for all symbols `a` and `b`. -/
theorem C91_boolean_eq_fails (numEq : Equal.Val → Equal.Val → Bool) (h : Equal.Heap) :
    (∀ {t f : Nat}, t ≠ f → eqvBuiltin numEq h [.imm t, .imm t, .imm f] = some true ∧
      ¬AllSame (IsBoolean t f) [.imm t, .imm t, .imm f]) ∧
    (∀ {t f : Nat}, eqvBuiltin numEq h [.fix 1, .fix 1] = some true ∧ ¬AllSame (IsBoolean t f) [.fix 1, .fix 1]) ∧
    ∀ {a b : Nat}, a ≠ b → h a = .opaque → h b = .opaque →
      eqvBuiltin numEq h [.ref a, .ref a, .ref b] = some true ∧
      ¬AllSame (IsSymbol h) [.ref a, .ref a, .ref b] := by
  have same : ∀ x rest, eqvBuiltin numEq h (x :: x :: rest) = some true := by
    intro x rest
    rw [eqvBuiltin, Equal.eqv]
    simp [Equal.eq]
  refine ⟨fun {t f} hne => ⟨same _ _, ?_⟩, fun {t f} => ⟨same _ _, ?_⟩, fun {a b} hne ha hb => ⟨same _ _, ?_⟩⟩
  · intro ⟨_, hs⟩
    have := hs (.imm t) (by simp) (.imm f) (by simp)
    exact hne (by simpa using this)
  · intro ⟨ht, _⟩
    have := ht (.fix 1) (by simp)
    simp [IsBoolean] at this
  · intro ⟨_, hs⟩
    have := hs (.ref a) (by simp) (.ref b) (by simp)
    exact hne (by simpa using this)

/-! ### Examples -/

namespace Example

/-- Programs that may fail. -/
instance : Failing Option where
  raised := none
  undefined := none
  raised_bind := fun _ => rfl
  undefined_bind := fun _ => rfl

/-- Two vectors of different lengths. -/
def store : Store Nat := [[1, 2, 3], [10, 20]]

/-- The hypothesis of `C91_vector_map`: both are there. -/
example : contents store [0, 1] = some [[1, 2, 3], [10, 20]] := rfl

/-- A procedure with an effect: it assigns the first vector, which `vector-map` does not notice. -/
def add (args : List Nat) : StateT (Store Nat) Option Nat := do
  set ((← get).set 0 [7, 7, 7])
  pure args.sum

/-- `(vector-map f #(1 2 3) #(10 20))` is a new vector `#(11 22)`. -/
example : vectorMap add 0 [1] store = some (2, [[7, 7, 7], [10, 20], [11, 22]]) := by
  rw [C91_vector_map add (xss := [[1, 2, 3], [10, 20]]) rfl]; rfl

/-- An argument that is no vector. -/
example : vectorMap add 0 [5] store = none := (C91_wrong_argument add (fun _ => none)).1 store rfl

/-- A proper list of three elements. -/
def heap : Lists.Heap := ⟨fun a => .atom (a + 10), fun a => if a = 2 then .null else .pair (a + 1), 3⟩

/-- The hypothesis of `C91_list_set_elements`. -/
example : Lists.ListIs heap (.pair 0) [.atom 10, .atom 11, .atom 12] :=
  ⟨[0, 1, 2], .cons (by decide) (.cons (by decide) (.cons (by decide) (.nil _))), rfl⟩

end Example

end Meevax.Base
