import Verif.Lemmas.SystemCheck

/-
Lemmas about putting libraries together.
-/

namespace Meevax.System

theorem among_iff {n : Name} {ms : List Name} : among n ms = true ↔ n ∈ ms := by
  induction ms with
  | nil => simp [among]
  | cons m ms ih =>
    simp only [among, Bool.or_eq_true, ih, List.mem_cons]
    exact or_congr ⟨fun h => (Nat.eq_of_beq_eq_true h).symm, fun h => h ▸ Nat.beq_refl m⟩ Iff.rfl

theorem same_variable {x y : Variable} : x.same y = true ↔ x = y := by
  cases x; cases y
  simp [Variable.same, and_comm]

theorem sameVariable_iff {x y : Option Variable} : sameVariable x y = true ↔ x = y := by
  cases x <;> cases y <;> simp [sameVariable, same_variable]

theorem same_eq {xs ys : List Exposed} (h : same xs ys = true) : xs = ys := by
  induction xs generalizing ys with
  | nil => cases ys <;> simp_all [same]
  | cons x xs ih =>
    cases ys with
    | nil => simp [same] at h
    | cons y ys =>
      simp only [same, Bool.and_eq_true, sameVariable_iff] at h
      obtain ⟨h1, h2, h3, h4⟩ := h
      rw [ih h4]
      have : x = y := by
        cases x; cases y
        simp only [Exposed.mk.injEq]
        exact ⟨Nat.eq_of_beq_eq_true h1, h2, h3⟩
      rw [this]

theorem importSet_congr {get get' : Name → Option (List Exposed)} {s : ImportSet}
    (h : get s.base = get' s.base) : importSet get s = importSet get' s := by
  induction s with
  | library key => exact h
  | only set ids ih => simp only [importSet]; rw [ih h]
  | except set ids ih => simp only [importSet]; rw [ih h]
  | «prefix» set p ih => simp only [importSet]; rw [ih h]
  | rename set rs ih => simp only [importSet]; rw [ih h]

theorem importSets_congr {get get' : Name → Option (List Exposed)} {key : Name} {sets : List ImportSet}
    (h : ∀ s ∈ sets, get s.base = get' s.base) (env : Environment) :
    importSets get key sets env = importSets get' key sets env := by
  induction sets generalizing env with
  | nil => rfl
  | cons s sets ih =>
    simp only [importSets]
    rw [importSet_congr (h s (by simp))]
    split
    · split
      · exact ih (fun s hs => h s (by simp [hs])) _
      · rfl
    · rfl

theorem evaluate_congr {get get' : Name → Option (List Exposed)} {key : Name} {ds : List Declaration}
    (h : ∀ d ∈ ds, ∀ b ∈ d.bases, get b = get' b) (env : Environment) (specs : List ExportSpec) :
    evaluate get key ds env specs = evaluate get' key ds env specs := by
  induction ds generalizing env specs with
  | nil => rfl
  | cons d ds ih =>
    have hd := fun d hd => h d (List.mem_cons_of_mem _ hd)
    cases d with
    | imports sets =>
      simp only [evaluate]
      rw [importSets_congr (get' := get') (fun s hs => h (.imports sets) (by simp) s.base
        (by simp only [Declaration.bases, List.mem_map]; exact ⟨s, hs, rfl⟩)) env]
      split
      · exact ih hd _ _
      · rfl
    | exports more => exact ih hd _ _
    | body ds rs => exact ih hd _ _

theorem find_library {key : Name} {ls : List Library} {l : Library} (h : Library.find key ls = some l) :
    l.key = key ∧ l ∈ ls := by
  induction ls with
  | nil => simp [Library.find] at h
  | cons m ls ih =>
    simp only [Library.find] at h
    cases hb : Nat.beq m.key key with
    | true =>
      rw [hb] at h
      simp only [cond_true, Option.some.injEq] at h
      subst h
      exact ⟨Nat.eq_of_beq_eq_true hb, by simp⟩
    | false =>
      rw [hb] at h
      have := ih h
      exact ⟨this.1, by simp [this.2]⟩

/-- What the check says about a library. -/
structure Agreement (l : Library) (get : Name → Option (List Exposed)) : Prop where
  some : ∃ env specs xs, evaluate get l.key l.declarations [] [] = some (env, specs) ∧
    find l.key interfaces = some xs ∧ specs.map (exposed l.key env) = xs ∧
    ∀ n ∈ l.references, isDefined env n = !isDangling l.key n

theorem agrees_spec {l : Library} (h : agrees l = true) : Agreement l fun k => find k interfaces := by
  unfold agrees at h
  split at h
  · rename_i r xs h1 h2
    simp only [Bool.and_eq_true, List.all_eq_true] at h
    refine ⟨r.1, r.2, xs, h1, h2, same_eq h.1, ?_⟩
    intro n hn
    have := h.2 n hn
    cases h3 : isDefined r.1 n <;> cases h4 : isDangling l.key n <;> simp_all
  · cases h

theorem interface_succ (table : List Library) (d : Nat) {key : Name} {l : Library}
    (h : Library.find key table = some l) :
    interface table (d + 1) key = l.importSet (interface table d) := by
  simp only [interface, h]

theorem check_spec {keys seen : List Name} (h : check seen keys = true)
    (hs : ∀ j ∈ seen, ∀ d, seen.length ≤ d → interface table d j = find j interfaces) :
    ∀ key ∈ keys, ∀ l, Library.find key table = some l → ∀ d, seen.length + keys.length ≤ d →
      interface table (d + 1) key = find key interfaces ∧ Agreement l (interface table d) := by
  induction keys generalizing seen with
  | nil => intro key hk; cases hk
  | cons k keys ih =>
    simp only [check, Bool.and_eq_true] at h
    obtain ⟨h1, h2⟩ := h
    split at h1
    · rename_i l hl
      simp only [Bool.and_eq_true, List.all_eq_true, among_iff] at h1
      have hk : l.key = k := (find_library hl).1
      have here : ∀ d, seen.length ≤ d →
          interface table (d + 1) k = find k interfaces ∧ Agreement l (interface table d) := by
        intro d hd
        obtain ⟨env, specs, xs, a1, a2, a3, a4⟩ := agrees_spec h1.2
        have e : evaluate (interface table d) l.key l.declarations [] [] = some (env, specs) := by
          rw [← a1]
          exact evaluate_congr (fun dc hdc b hb => hs b (h1.1 dc hdc b hb) d hd) _ _
        refine ⟨?_, env, specs, xs, e, a2, a3, a4⟩
        rw [interface_succ table d hl]
        simp only [Library.importSet, e, Option.map_some, a3]
        rw [← hk, a2]
      intro key hkey l' hl' d hd
      rcases List.mem_cons.1 hkey with rfl | hmem
      · rw [hl] at hl'
        cases hl'
        exact here d (by omega)
      · refine ih h2 ?_ key hmem l' hl' d (by simp only [List.length_cons] at hd ⊢; omega)
        intro j hj d hd
        simp only [List.length_cons] at hd
        obtain ⟨d', rfl⟩ : ∃ d', d = d' + 1 := ⟨d - 1, by omega⟩
        rcases List.mem_cons.1 hj with rfl | hj
        · exact (here d' (by omega)).1
        · exact hs j hj _ (by omega)
    · cases h1

/-- Every library of the system can be evaluated. -/
theorem loads {key : Name} {l : Library} (h : Library.find key table = some l) {d : Nat}
    (hd : order.length ≤ d) :
    interface table (d + 1) key = find key interfaces ∧ Agreement l (interface table d) := by
  have hm := find_library h
  have hk : key ∈ order := by
    have := List.all_eq_true.1 complete l hm.2
    rw [among_iff, hm.1] at this
    exact this
  exact check_spec checked (by intro j hj; cases hj) key hk l h d (by simpa using hd)

/-! ### Importing several import sets -/

/-- Two members of import sets do not conflict, and mean the same if they have the same name. -/
def Agree (x y : Exposed) : Prop :=
  x.name = y.name → x.cell.isSome ∧ x.cell = y.cell ∧ x.origin = y.origin

/-- The binding that a member of an import set makes. -/
def bindingOf (key : Name) (x : Exposed) : Binding := ⟨x.cell.getD ⟨key, x.name⟩, x.origin⟩

/-- The first member of that name. -/
def firstNamed (n : Name) : List Exposed → Option Exposed
  | [] => none
  | x :: xs => bif Nat.beq x.name n then some x else firstNamed n xs

theorem firstNamed_some {n : Name} {xs : List Exposed} {x : Exposed} (h : firstNamed n xs = some x) :
    x ∈ xs ∧ x.name = n := by
  induction xs with
  | nil => simp [firstNamed] at h
  | cons y ys ih =>
    simp only [firstNamed] at h
    cases hb : Nat.beq y.name n with
    | true =>
      rw [hb] at h
      simp only [cond_true, Option.some.injEq] at h
      subst h
      exact ⟨by simp, Nat.eq_of_beq_eq_true hb⟩
    | false =>
      rw [hb] at h
      exact ⟨by simp [(ih h).1], (ih h).2⟩

theorem firstNamed_of_mem {xs : List Exposed} {x : Exposed} (h : x ∈ xs) :
    ∃ y, firstNamed x.name xs = some y := by
  induction xs with
  | nil => cases h
  | cons z zs ih =>
    simp only [firstNamed]
    cases hb : Nat.beq z.name x.name with
    | true => exact ⟨z, rfl⟩
    | false =>
      rcases List.mem_cons.1 h with rfl | h
      · rw [Nat.beq_refl] at hb; cases hb
      · exact ih h

theorem firstNamed_append {n : Name} {xs ys : List Exposed} :
    firstNamed n (xs ++ ys) = (firstNamed n xs).or (firstNamed n ys) := by
  induction xs with
  | nil => simp [firstNamed]
  | cons x xs ih =>
    simp only [List.cons_append, firstNamed]
    cases Nat.beq x.name n <;> simp [ih]

/-- An import of members that agree with each other and with what was imported before. -/
theorem importAll_agree {key : Name} {done xs : List Exposed} {env : Environment}
    (he : ∀ n, find n env = (firstNamed n done).map (bindingOf key))
    (hp : (done ++ xs).Pairwise Agree) :
    ∃ env', importAll key env xs = some env' ∧
      ∀ n, find n env' = (firstNamed n (done ++ xs)).map (bindingOf key) := by
  induction xs generalizing done env with
  | nil => exact ⟨env, rfl, by simpa using he⟩
  | cons x xs ih =>
    have hp' : ((done ++ [x]) ++ xs).Pairwise Agree := by simpa using hp
    simp only [importAll]
    cases hf : firstNamed x.name done with
    | none =>
      have : find x.name env = none := by rw [he, hf]; rfl
      rw [this]
      obtain ⟨env', h1, h2⟩ := ih (done := done ++ [x])
        (env := (x.name, ⟨x.cell.getD ⟨key, x.name⟩, x.origin⟩) :: env) (by
          intro n
          rw [firstNamed_append]
          simp only [find, firstNamed]
          cases hb : Nat.beq x.name n with
          | true =>
            have := Nat.eq_of_beq_eq_true hb
            subst this
            rw [hf]
            rfl
          | false => simp [he]) hp'
      exact ⟨env', h1, by simpa using h2⟩
    | some y =>
      have hy := firstNamed_some hf
      have : find x.name env = some (bindingOf key y) := by rw [he, hf]; rfl
      rw [this]
      have ha : Agree y x := (List.pairwise_append.1 hp).2.2 y hy.1 x (by simp)
      obtain ⟨a1, a2, a3⟩ := ha hy.2
      obtain ⟨v, hv⟩ := Option.isSome_iff_exists.1 a1
      have hxv : x.cell = some v := by rw [← a2, hv]
      simp only [hxv, bindingOf, hv, Option.getD_some]
      rw [same_variable.2 rfl]
      simp only [cond_true]
      obtain ⟨env', h1, h2⟩ := ih (done := done ++ [x]) (env := env) (by
          intro n
          rw [he, firstNamed_append]
          simp only [firstNamed]
          cases hb : Nat.beq x.name n with
          | true =>
            have := Nat.eq_of_beq_eq_true hb
            subst this
            rw [hf]
            rfl
          | false => simp) hp'
      exact ⟨env', h1, by simpa using h2⟩

theorem importSets_agree {get : Name → Option (List Exposed)} {key : Name} {sets : List ImportSet}
    {xss : List (List Exposed)} {done : List Exposed} {env : Environment}
    (hx : sets.map (importSet get) = xss.map some)
    (he : ∀ n, find n env = (firstNamed n done).map (bindingOf key))
    (hp : (done ++ xss.flatten).Pairwise Agree) :
    ∃ env', importSets get key sets env = some env' ∧
      ∀ n, find n env' = (firstNamed n (done ++ xss.flatten)).map (bindingOf key) := by
  induction sets generalizing xss done env with
  | nil =>
    cases xss with
    | nil => exact ⟨env, rfl, by simpa using he⟩
    | cons _ _ => simp at hx
  | cons s sets ih =>
    cases xss with
    | nil => simp at hx
    | cons xs xss =>
      simp only [List.map_cons, List.cons.injEq] at hx
      simp only [List.flatten_cons, ← List.append_assoc] at hp
      obtain ⟨env1, h1, h2⟩ := importAll_agree (xs := xs) he (List.pairwise_append.1 hp).1
      simp only [importSets, hx.1, h1]
      obtain ⟨env', h3, h4⟩ := ih hx.2 h2 hp
      exact ⟨env', h3, by simpa [List.append_assoc] using h4⟩

/-- A filtered import set is part of the import set of its library. -/
theorem filtering_sublist {get : Name → Option (List Exposed)} {s : ImportSet} (hs : s.Filtering)
    {xs : List Exposed} (h : get s.base = some xs) :
    ∃ ys, importSet get s = some ys ∧ ys.Sublist xs := by
  induction s with
  | library key => exact ⟨xs, h, List.Sublist.refl _⟩
  | only set ids ih =>
    obtain ⟨ys, h1, h2⟩ := ih hs h
    exact ⟨ys.filter fun x => among x.name ids, by simp only [importSet, h1, Option.map_some],
      List.Sublist.trans List.filter_sublist h2⟩
  | except set ids ih =>
    obtain ⟨ys, h1, h2⟩ := ih hs h
    exact ⟨ys.filter fun x => !among x.name ids, by simp only [importSet, h1, Option.map_some],
      List.Sublist.trans List.filter_sublist h2⟩
  | «prefix» set p ih => cases hs
  | rename set rs ih => cases hs

end Meevax.System
