import Mathlib.Tactic.ByContra
import Verif.Spec.Library

/-
Lemmas about Model/Library.
-/

namespace Meevax.Library
open Meevax.Text

variable {V S : Type}

theorem RunThrough.trans {pr : Program V S} {q : Config V S → Prop} {s t u : Config V S}
    (h1 : RunThrough pr q s t) (h2 : RunThrough pr q t u) : RunThrough pr q s u := by
  induction h2 with
  | refl => exact h1
  | step _ hq he ih => exact ih.step hq he

theorem RunThrough.mono {pr : Program V S} {q q' : Config V S → Prop} (hqq : ∀ s, q s → q' s)
    {s t : Config V S} (h : RunThrough pr q s t) : RunThrough pr q' s t := by
  induction h with
  | refl => exact .refl _
  | step _ hq he ih => exact ih.step (hqq _ hq) he

theorem run_one {pr : Program V S} {s t : Config V S} (h : step pr s = some t) : Run pr s t :=
  (RunThrough.refl s).step trivial h

theorem run_steps {pr : Program V S} {n : Nat} {s t : Config V S} (h : steps pr n s = some t) : Run pr s t := by
  induction n generalizing s with
  | zero => simp only [steps, Option.some.injEq] at h; subst h; exact .refl _
  | succ n ih =>
    simp only [steps, Option.bind_eq_some_iff] at h
    obtain ⟨u, h1, h2⟩ := h
    exact (run_one h1).trans (ih h2)

/-! ### Lists -/

theorem items_listOf (ds : List Datum) : items (listOf ds) = ds := by
  induction ds with
  | nil => rfl
  | cons d ds ih => simp [listOf, items, ih]

/-! ### Lookup -/

theorem find_some {cells : List (Cell V)} {n : Name} {cs : List Nat} {c : Nat} (h : find cells n cs = some c) :
    c ∈ cs ∧ ∃ cell, cells[c]? = some cell ∧ cell.name = n := by
  induction cs with
  | nil => simp [find] at h
  | cons d cs ih =>
    unfold find at h
    split at h
    · rename_i cell hd
      split at h
      · rename_i hn
        obtain rfl : d = c := by simpa using h
        exact ⟨List.mem_cons_self, cell, hd, hn⟩
      · exact ⟨List.mem_cons_of_mem _ (ih h).1, (ih h).2⟩
    · exact ⟨List.mem_cons_of_mem _ (ih h).1, (ih h).2⟩

theorem find_none {cells : List (Cell V)} {n : Name} {cs : List Nat} (h : find cells n cs = none) {c : Nat}
    (hc : c ∈ cs) {cell : Cell V} (he : cells[c]? = some cell) : cell.name ≠ n := by
  induction cs with
  | nil => cases hc
  | cons d cs ih =>
    unfold find at h
    split at h
    · rename_i cell' hd
      split at h
      · cases h
      · rename_i hn
        rcases List.mem_cons.1 hc with rfl | hc
        · rw [he] at hd; cases hd; exact hn
        · exact ih h hc
    · rename_i hd
      rcases List.mem_cons.1 hc with rfl | hc
      · rw [he] at hd; cases hd
      · exact ih h hc

theorem nameOf_eq {s : Config V S} {c : Nat} {n : Name} :
    nameOf s c = some n ↔ ∃ cell, s.cells[c]? = some cell ∧ cell.name = n := by
  unfold nameOf; simp

/-- All variables in the environments exist. -/
def Valid (s : Config V S) : Prop := ∀ env, ∀ c ∈ variables s env, ∃ n, nameOf s c = some n

/-- Names of variables stay. -/
def Keeps (s t : Config V S) : Prop := ∀ c n, nameOf s c = some n → nameOf t c = some n

theorem find_keeps {s t : Config V S} (h : Keeps s t) {cs : List Nat} (hv : ∀ c ∈ cs, ∃ n, nameOf s c = some n)
    (n : Name) : find t.cells n cs = find s.cells n cs := by
  induction cs with
  | nil => rfl
  | cons c cs ih =>
    have ih := ih fun d hd => hv d (List.mem_cons_of_mem _ hd)
    obtain ⟨m, hm⟩ := hv c List.mem_cons_self
    obtain ⟨cell, h1, h2⟩ := nameOf_eq.1 hm
    obtain ⟨cell', h1', h2'⟩ := nameOf_eq.1 (h c m hm)
    unfold find
    rw [h1, h1']
    simp only [h2, h2', ih]

/-- What all steps preserve. -/
structure Grows (s t : Config V S) : Prop where
  valid : Valid t
  keeps : Keeps s t
  found : ∀ env n c, env ≠ 0 → lookup s env n = some c → lookup t env n = some c
  libs : ∀ (i : Nat) (l : Library), s.libs[i]? = some l → ∃ l' : Library, t.libs[i]? = some l' ∧ l'.env = l.env
  envs : s.envs.length ≤ t.envs.length

theorem Grows.trans {s t u : Config V S} (h1 : Grows s t) (h2 : Grows t u) : Grows s u where
  valid := h2.valid
  keeps c n h := h2.keeps c n (h1.keeps c n h)
  found env n c he h := h2.found env n c he (h1.found env n c he h)
  libs i l h := by
    obtain ⟨l', h', e'⟩ := h1.libs i l h
    obtain ⟨l'', h'', e''⟩ := h2.libs i l' h'
    exact ⟨l'', h'', e''.trans e'⟩
  envs := Nat.le_trans h1.envs h2.envs

/-- The step changed nothing about variables. -/
theorem Grows.same {s t : Config V S} (hv : Valid s) (h1 : t.cells = s.cells) (h2 : t.envs = s.envs)
    (h3 : t.libs = s.libs) : Grows s t where
  valid := by
    intro env c hc
    unfold variables at hc
    rw [h2] at hc
    obtain ⟨n, hn⟩ := hv env c hc
    exact ⟨n, by unfold nameOf at *; rw [h1]; exact hn⟩
  keeps c n h := by unfold nameOf at *; rw [h1]; exact h
  found env n c _ h := by unfold lookup variables at *; rw [h1, h2]; exact h
  libs i l h := ⟨l, by rw [h3]; exact h, rfl⟩
  envs := by rw [h2]; exact Nat.le_refl _

theorem Valid.same {s t : Config V S} (hv : Valid s) (h1 : t.cells = s.cells) (h2 : t.envs = s.envs) :
    Valid t :=
  (Grows.same (t := { t with libs := s.libs }) hv h1 h2 rfl).valid

theorem Grows.refl {s : Config V S} (hv : Valid s) : Grows s s := .same hv rfl rfl rfl

/-- Only the variables themselves changed. -/
theorem Grows.cells {s t : Config V S} (hv : Valid s) (hk : Keeps s t) (h2 : t.envs = s.envs)
    (h3 : t.libs = s.libs) : Grows s t where
  valid := by
    intro env c hc
    unfold variables at hc
    rw [h2] at hc
    obtain ⟨n, hn⟩ := hv env c hc
    exact ⟨n, hk c n hn⟩
  keeps := hk
  found env n c _ h := by
    unfold lookup at *
    have : variables t env = variables s env := by unfold variables; rw [h2]
    rw [this, find_keeps hk (hv env)]
    exact h
  libs i l h := ⟨l, by rw [h3]; exact h, rfl⟩
  envs := by rw [h2]; exact Nat.le_refl _

theorem keeps_append {s t : Config V S} {extra : List (Cell V)} (h : t.cells = s.cells ++ extra) :
    Keeps s t := by
  intro c n hn
  obtain ⟨cell, h1, h2⟩ := nameOf_eq.1 hn
  refine nameOf_eq.2 ⟨cell, ?_, h2⟩
  have : c < s.cells.length := by
    by_contra hc
    rw [List.getElem?_eq_none (by omega)] at h1
    cases h1
  rw [h, List.getElem?_append_left this]
  exact h1

theorem Grows.extra {s t : Config V S} (hv : Valid s) {extra : List (Cell V)} (h : t.cells = s.cells ++ extra)
    (h2 : t.envs = s.envs) (h3 : t.libs = s.libs) : Grows s t :=
  .cells hv (keeps_append h) h2 h3

theorem grows_make {s : Config V S} (hv : Valid s) (n : Name) (v : V) : Grows s (make n v s).2 :=
  .extra hv (extra := [⟨n, v⟩]) rfl rfl rfl

theorem variables_push_self {s : Config V S} {env c : Nat} (h : env < s.envs.length) :
    variables (push env c s) env = c :: variables s env := by
  unfold push
  show (Option.getD ((s.envs.set env (c :: variables s env))[env]?) []) = _
  rw [List.getElem?_set_self h]
  rfl

theorem variables_push_ne {s : Config V S} {env env' c : Nat} (h : env ≠ env') :
    variables (push env c s) env' = variables s env' := by
  unfold push
  show (Option.getD ((s.envs.set env (c :: variables s env))[env']?) []) = _
  rw [List.getElem?_set_ne h]
  rfl

theorem push_invalid {s : Config V S} {env c : Nat} (h : s.envs.length ≤ env) : push env c s = s := by
  unfold push
  rw [List.set_eq_of_length_le h]

theorem nameOf_push {s : Config V S} {env c d : Nat} : nameOf (push env c s) d = nameOf s d := rfl

/-- A variable is added to an environment, under a new name or in the interaction environment. -/
theorem grows_push {s : Config V S} (hv : Valid s) {env c : Nat} {n : Name} (hn : nameOf s c = some n)
    (h : env = 0 ∨ lookup s env n = none) : Grows s (push env c s) where
  valid := by
    intro env' d hd
    simp only [nameOf_push]
    by_cases he : env = env'
    · subst he
      by_cases hl : env < s.envs.length
      · rw [variables_push_self hl] at hd
        rcases List.mem_cons.1 hd with rfl | hd
        · exact ⟨n, hn⟩
        · exact hv env d hd
      · rw [push_invalid (by omega)] at hd
        exact hv env d hd
    · rw [variables_push_ne he] at hd
      exact hv env' d hd
  keeps c n h := h
  found env' m d he' hd := by
    by_cases he : env = env'
    · subst he
      rcases h with h | h
      · exact absurd h he'
      · by_cases hl : env < s.envs.length
        · unfold lookup at hd ⊢
          rw [variables_push_self hl]
          obtain ⟨cell, h1, h2⟩ := nameOf_eq.1 hn
          show find s.cells m (c :: variables s env) = some d
          unfold find
          rw [h1]
          simp only
          have : cell.name ≠ m := by
            rintro rfl
            unfold lookup at h
            rw [h2] at hd
            rw [h] at hd
            cases hd
          rw [if_neg this]
          exact hd
        · rw [push_invalid (by omega)]; exact hd
    · unfold lookup at hd ⊢
      rw [variables_push_ne he]
      exact hd
  libs i l h := ⟨l, h, rfl⟩
  envs := by simp [push]

theorem nameOf_make {s : Config V S} (n : Name) (v : V) : nameOf (make n v s).2 (make n v s).1 = some n := by
  simp [make, nameOf]

theorem lookup_make {s : Config V S} (hv : Valid s) (n : Name) (v : V) (env : Nat) (m : Name) :
    lookup (make n v s).2 env m = lookup s env m := by
  unfold lookup
  exact find_keeps (grows_make hv n v).keeps (hv env) m

theorem grows_identify {s : Config V S} (hv : Valid s) (pr : Program V S) (env : Nat) (n : Name) :
    Grows s (identify pr env n s).2 := by
  unfold identify
  split
  · exact .refl hv
  · rename_i h
    have h1 := grows_make hv n pr.undefinedValue
    refine h1.trans ?_
    exact grows_push h1.valid (nameOf_make n _) (Or.inr (by rw [lookup_make hv]; exact h))

theorem grows_assign {s : Config V S} (hv : Valid s) (c : Nat) (v : V) : Grows s (assign c v s) := by
  unfold assign
  split
  · rename_i cell hc
    refine .cells hv ?_ rfl rfl
    intro d n hn
    obtain ⟨cell', h1, h2⟩ := nameOf_eq.1 hn
    refine nameOf_eq.2 ?_
    by_cases hd : c = d
    · subst hd
      rw [hc] at h1; cases h1
      have : c < s.cells.length := by
        by_contra hl
        rw [List.getElem?_eq_none (by omega)] at hc
        cases hc
      exact ⟨{ cell with value := v }, List.getElem?_set_self this, h2⟩
    · exact ⟨cell', by show (s.cells.set _ _)[_]? = _; rw [List.getElem?_set_ne hd]; exact h1, h2⟩
  · exact .refl hv

theorem grows_change {s : Config V S} (hv : Valid s) (pr : Program V S) (env : Nat) (ch : Change V) :
    Grows s (change pr env s ch) := by
  cases ch with
  | mention n => exact grows_identify hv pr env n
  | define n v => exact (grows_identify hv pr env n).trans (grows_assign (grows_identify hv pr env n).valid _ _)
  | assign c v => exact grows_assign hv c v

theorem grows_changes {s : Config V S} (hv : Valid s) (pr : Program V S) (env : Nat) (chs : List (Change V)) :
    Grows s (chs.foldl (change pr env) s) := by
  induction chs generalizing s with
  | nil => exact .refl hv
  | cons ch chs ih =>
    have h := grows_change hv pr env ch
    exact h.trans (ih h.valid)

theorem grows_run {s : Config V S} (hv : Valid s) (pr : Program V S) (env : Nat) (d : Datum) :
    Grows s (run pr env d s) := by
  have h0 : Grows s { s with user := (pr.eval d (lookup s env) s.cells s.user).1 } := .same hv rfl rfl rfl
  have h1 := grows_changes h0.valid pr env (pr.eval d (lookup s env) s.cells s.user).2.1
  exact (h0.trans h1).trans (.same h1.valid rfl rfl rfl)

theorem getElem?_lt {α : Type} {l : List α} {i : Nat} {a : α} (h : l[i]? = some a) : i < l.length := by
  by_contra hl
  rw [List.getElem?_eq_none (by omega)] at h
  cases h

theorem variables_new {s t : Config V S} (h : t.envs = s.envs ++ [[]]) (env : Nat) :
    variables t env = variables s env := by
  unfold variables
  rw [h]
  by_cases hl : env < s.envs.length
  · rw [List.getElem?_append_left hl]
  · rw [List.getElem?_append_right (by omega), List.getElem?_eq_none (l := s.envs) (by omega)]
    by_cases h0 : env - s.envs.length = 0
    · rw [h0]; rfl
    · rw [List.getElem?_eq_none (by simp; omega)]

/-- A new environment. -/
theorem grows_new {s t : Config V S} (hv : Valid s) (h1 : t.cells = s.cells) (h : t.envs = s.envs ++ [[]])
    (h3 : ∀ (i : Nat) (l : Library), s.libs[i]? = some l → ∃ l' : Library, t.libs[i]? = some l' ∧ l'.env = l.env) : Grows s t where
  valid := by
    intro env c hc
    rw [variables_new h] at hc
    obtain ⟨n, hn⟩ := hv env c hc
    exact ⟨n, by unfold nameOf at *; rw [h1]; exact hn⟩
  keeps c n hn := by unfold nameOf at *; rw [h1]; exact hn
  found env n c _ hf := by
    unfold lookup at *
    rw [variables_new h, h1]; exact hf
  libs := h3
  envs := by rw [h]; simp

theorem grows_define {s : Config V S} (hv : Valid s) (key : List Byte) (ds : List Datum) :
    Grows s (defineLibrary key ds s) := by
  have h3 : ∀ (i : Nat) (l : Library), s.libs[i]? = some l →
      ∃ l' : Library, (s.libs ++ [(⟨s.envs.length, ds, []⟩ : Library)])[i]? = some l' ∧ l'.env = l.env := by
    intro i l h
    exact ⟨l, by rw [List.getElem?_append_left (getElem?_lt h)]; exact h, rfl⟩
  unfold defineLibrary
  simp only
  split
  · exact grows_new hv rfl rfl h3
  · exact grows_new hv rfl rfl h3

theorem grows_evaluate {s : Config V S} (hv : Valid s) (pr : Program V S) (env : Nat) (d : Datum) :
    Grows s (evaluate pr env d s) := by
  unfold evaluate
  split
  · split
    · split
      · split
        · have h := grows_define hv (s := s)
          rename_i key _
          rename_i ds _ _
          exact (h key (items ds)).trans (.same (h key (items ds)).valid rfl rfl rfl)
        · exact .same hv rfl rfl rfl
      · exact .same hv rfl rfl rfl
    · split
      · exact .same hv rfl rfl rfl
      · split
        · split <;> exact .same hv rfl rfl rfl
        · exact grows_run hv pr env _
  · exact grows_run hv pr env _

theorem grows_libs {s t : Config V S} (hv : Valid s) (h1 : t.cells = s.cells) (h2 : t.envs = s.envs)
    {i : Nat} {l l' : Library} (hl : s.libs[i]? = some l) (h3 : t.libs = s.libs.set i l')
    (he : l'.env = l.env) : Grows s t := by
  have h := Grows.same (t := { t with libs := s.libs }) hv h1 h2 rfl
  refine { valid := h.valid, keeps := h.keeps, found := h.found, envs := h.envs, libs := ?_ }
  intro j m hj
  rw [h3]
  by_cases hij : i = j
  · subst hij
    rw [hl] at hj; cases hj
    exact ⟨l', List.getElem?_set_self (getElem?_lt hl), he⟩
  · exact ⟨m, by rw [List.getElem?_set_ne hij]; exact hj, rfl⟩

theorem grows_declare {s : Config V S} (hv : Valid s) (pr : Program V S) (lib : Nat) (d : Datum) :
    Grows s (declare pr lib d s) := by
  unfold declare
  split
  · exact .same hv rfl rfl rfl
  · rename_i l hl
    split
    · split
      · exact grows_libs hv rfl rfl hl rfl rfl
      · split
        · exact .same hv rfl rfl rfl
        · split
          · split <;> exact .same hv rfl rfl rfl
          · split
            · split <;> exact .same hv rfl rfl rfl
            · exact grows_evaluate hv pr _ _
    · exact grows_evaluate hv pr _ _

theorem grows_startLibrary {s : Config V S} (hv : Valid s) (lib : Nat) : Grows s (startLibrary lib s) := by
  unfold startLibrary
  split
  · rename_i l hl
    exact grows_libs hv rfl rfl hl rfl rfl
  · exact .same hv rfl rfl rfl

theorem grows_export1 {pr : Program V S} {env : Nat} {spec : Datum} {s : Config V S} (hv : Valid s)
    {r : Nat × Config V S} (h : export1 pr env spec s = some r) : Grows s r.2 := by
  unfold export1 at h
  split at h
  · simp only at h
    split at h
    · cases h
      exact (grows_identify hv pr env _).trans (grows_make (grows_identify hv pr env _).valid _ _)
    · cases h
  · cases h
    exact grows_identify hv pr env _
  · cases h

theorem grows_exportAll {pr : Program V S} {env : Nat} {specs : List Datum} {s : Config V S} (hv : Valid s)
    {r : List Nat × Config V S} (h : exportAll pr env specs s = some r) : Grows s r.2 := by
  induction specs generalizing s r with
  | nil => cases h; exact .refl hv
  | cons spec specs ih =>
    unfold exportAll at h
    split at h
    · rename_i c s1 h1
      split at h
      · rename_i cs s2 h2
        cases h
        have g1 := grows_export1 hv h1
        exact g1.trans (ih (s := s1) (r := (cs, s2)) g1.valid h2)
      · cases h
    · cases h

theorem grows_importSet {s : Config V S} (hv : Valid s) (pr : Program V S) (form : Datum) :
    Grows s (importSet pr form s) := by
  unfold importSet
  split
  · split
    · split <;> exact .same hv rfl rfl rfl
    · split
      · split <;> exact .same hv rfl rfl rfl
      · split
        · split <;> exact .same hv rfl rfl rfl
        · split
          · split <;> exact .same hv rfl rfl rfl
          · split
            · exact .same hv rfl rfl rfl
            · split
              · exact grows_startLibrary hv _
              · split
                · exact .same hv rfl rfl rfl
                · exact grows_new hv rfl rfl fun i l h => ⟨l, h, rfl⟩
  · exact .same hv rfl rfl rfl
  · exact .same hv rfl rfl rfl

theorem prefixAll_extra {pr : Program V S} {p : Datum} {cs : List Nat} {s : Config V S}
    {r : List Nat × Config V S} (h : prefixAll pr p cs s = some r) :
    ∃ extra, r.2 = { s with cells := s.cells ++ extra } := by
  induction cs generalizing s r with
  | nil => cases h; exact ⟨[], by simp⟩
  | cons c cs ih =>
    unfold prefixAll at h
    split at h
    · cases h
    · split at h
      · simp only at h
        split at h
        · rename_i h2
          obtain ⟨extra, he⟩ := ih h2
          cases h
          simp only at he
          rw [he]
          simp only [make, List.append_assoc]
          exact ⟨_, rfl⟩
        · cases h
      · cases h

theorem renameAll_extra {rs : List Datum} {cs : List Nat} {s : Config V S}
    {r : List Nat × Config V S} (h : renameAll rs cs s = some r) :
    ∃ extra, r.2 = { s with cells := s.cells ++ extra } := by
  induction cs generalizing s r with
  | nil => cases h; exact ⟨[], by simp⟩
  | cons c cs ih =>
    unfold renameAll at h
    split at h
    · cases h
    · split at h
      · cases h
      · rename_i new _
        cases new with
        | none =>
          simp only at h
          split at h
          · rename_i h2
            obtain ⟨extra, he⟩ := ih h2
            cases h
            exact ⟨extra, he⟩
          · cases h
        | some new =>
          simp only at h
          split at h
          · rename_i h2
            obtain ⟨extra, he⟩ := ih h2
            cases h
            simp only at he
            rw [he]
            simp only [make, List.append_assoc]
            exact ⟨_, rfl⟩
          · cases h

theorem grows_importAll {env : Nat} {cs : List Nat} {s : Config V S} (hv : Valid s) :
    Grows s (importAll env cs s).2 := by
  induction cs generalizing s with
  | nil => exact .refl hv
  | cons x xs ih =>
    unfold importAll
    split
    · exact ih hv
    · rename_i n hn
      split
      · rename_i hl
        have h := grows_push hv hn (Or.inr hl)
        exact h.trans (ih h.valid)
      · split
        · rename_i h0
          have h := grows_push hv hn (Or.inl h0)
          exact h.trans (ih h.valid)
        · split
          · exact ih hv
          · exact .refl hv

theorem grows_returnTo {s : Config V S} (hv : Valid s) (pr : Program V S) (cs : List Nat) :
    Grows s (returnTo pr cs s) := by
  unfold returnTo
  split
  · exact .same hv rfl rfl rfl
  · exact .same hv rfl rfl rfl
  · split
    · rename_i h
      obtain ⟨extra, he⟩ := prefixAll_extra h
      simp only at he
      subst he
      exact .extra hv rfl rfl rfl
    · exact .same hv rfl rfl rfl
  · split
    · rename_i h
      obtain ⟨extra, he⟩ := renameAll_extra h
      simp only at he
      subst he
      exact .extra hv rfl rfl rfl
    · exact .same hv rfl rfl rfl
  · have h := grows_importAll hv (env := by assumption) (cs := cs)
    exact h.trans (.same h.valid rfl rfl rfl)
  · exact .same hv rfl rfl rfl

theorem grows_next {pr : Program V S} {s t : Config V S} (hv : Valid s) (h : next pr s = some t) :
    Grows s t := by
  unfold next at h
  split at h
  · split at h
    · cases h
    · cases h; exact .same hv rfl rfl rfl
  · cases h; exact .same hv rfl rfl rfl
  · cases h
    refine Grows.trans ?_ (grows_evaluate ?_ pr _ _)
    · exact .same hv rfl rfl rfl
    · exact Valid.same hv rfl rfl
  · cases h; exact .same hv rfl rfl rfl
  · cases h
    refine Grows.trans ?_ (grows_declare ?_ pr _ _)
    · exact .same hv rfl rfl rfl
    · exact Valid.same hv rfl rfl
  · cases h; exact .same hv rfl rfl rfl
  · cases h; exact .same hv rfl rfl rfl
  · split at h
    · cases h; exact .same hv rfl rfl rfl
    · split at h
      · rename_i h2
        cases h
        have h := grows_exportAll hv h2
        exact h.trans (.same h.valid rfl rfl rfl)
      · cases h; exact .same hv rfl rfl rfl
  · split at h
    · cases h; exact .same hv rfl rfl rfl
    · split at h
      · cases h
        refine Grows.trans ?_ (grows_startLibrary ?_ _)
        · exact .same hv rfl rfl rfl
        · exact Valid.same hv rfl rfl
      · cases h; exact .same hv rfl rfl rfl
  · cases h; exact .same hv rfl rfl rfl

theorem grows_step {pr : Program V S} {s t : Config V S} (hv : Valid s) (h : step pr s = some t) :
    Grows s t := by
  unfold step at h
  split at h
  · cases h; exact grows_importSet hv pr _
  · cases h; exact grows_returnTo hv pr _
  · exact grows_next hv h
  · cases h; exact .same hv rfl rfl rfl
  · cases h

theorem grows_runs {pr : Program V S} {q : Config V S → Prop} {s t : Config V S} (hv : Valid s)
    (h : RunThrough pr q s t) : Grows s t := by
  induction h with
  | refl => exact .refl hv
  | step _ _ he ih => exact ih.trans (grows_step ih.valid he)

theorem valid_start (features : List Name) (program : List Datum) (user : S) :
    Valid (start features program user : Config V S) := by
  intro env c hc
  unfold variables start at hc
  cases env <;> simp at hc

end Meevax.Library
