import Verif.Lemmas.Library

/-
Lemmas about import sets.
-/

namespace Meevax.Library
open Meevax.Text

variable {V S : Type}

/-- What the modifiers leave to be done when the library has been imported. -/
def modifiers : ImportSet → List Frame
  | .library _ => []
  | .only set ids => modifiers set ++ [.only (ids.map .symbol)]
  | .except set ids => modifiers set ++ [.except (ids.map .symbol)]
  | .prefix set p => modifiers set ++ [.prefix (.symbol p)]
  | .rename set rs => modifiers set ++ [.rename (rs.map fun r => listOf [.symbol r.1, .symbol r.2])]

theorem ne_ascii : (ascii "except" : Name) ≠ ascii "only" ∧ (ascii "prefix" : Name) ≠ ascii "only" ∧
    (ascii "prefix" : Name) ≠ ascii "except" ∧ (ascii "rename" : Name) ≠ ascii "only" ∧
    (ascii "rename" : Name) ≠ ascii "except" ∧ (ascii "rename" : Name) ≠ ascii "prefix" := by decide

/-- `import_set` looks at the modifiers from the outside. -/
theorem descend (pr : Program V S) (set : ImportSet) (s : Config V S) (hm : s.mode = .importSet set.toDatum) :
    Run pr s { s with mode := .importSet set.base, stack := modifiers set ++ s.stack } := by
  obtain ⟨e1, e2, e3, e4, e5, e6⟩ := ne_ascii
  induction set generalizing s with
  | library name =>
    simp only [ImportSet.toDatum] at hm
    simp only [ImportSet.base, modifiers, List.nil_append, ← hm]
    exact .refl _
  | only set ids ih =>
    refine (run_one (t := { s with mode := .importSet set.toDatum, stack := .only (ids.map .symbol) :: s.stack })
      ?_).trans ?_
    · simp only [step, hm, ImportSet.toDatum, listOf, importSet, if_true, items_listOf]
    · have := ih { s with mode := .importSet set.toDatum, stack := .only (ids.map .symbol) :: s.stack } rfl
      simpa [modifiers, ImportSet.base] using this
  | except set ids ih =>
    refine (run_one (t := { s with mode := .importSet set.toDatum, stack := .except (ids.map .symbol) :: s.stack })
      ?_).trans ?_
    · simp only [step, hm, ImportSet.toDatum, listOf, importSet, if_true, items_listOf, if_neg e1]
    · have := ih { s with mode := .importSet set.toDatum, stack := .except (ids.map .symbol) :: s.stack } rfl
      simpa [modifiers, ImportSet.base] using this
  | «prefix» set p ih =>
    refine (run_one (t := { s with mode := .importSet set.toDatum, stack := .prefix (.symbol p) :: s.stack })
      ?_).trans ?_
    · simp only [step, hm, ImportSet.toDatum, listOf, importSet, if_true, if_neg e2, if_neg e3]
    · have := ih { s with mode := .importSet set.toDatum, stack := .prefix (.symbol p) :: s.stack } rfl
      simpa [modifiers, ImportSet.base] using this
  | rename set rs ih =>
    refine (run_one (t := { s with
        mode := .importSet set.toDatum
        stack := .rename (rs.map fun r => listOf [.symbol r.1, .symbol r.2]) :: s.stack }) ?_).trans ?_
    · simp only [step, hm, ImportSet.toDatum, listOf, importSet, if_true, if_neg e4, if_neg e5, if_neg e6]
      rw [items_listOf]
    · have := ih { s with
        mode := .importSet set.toDatum
        stack := .rename (rs.map fun r => listOf [.symbol r.1, .symbol r.2]) :: s.stack } rfl
      simpa [modifiers, ImportSet.base] using this

/-- The variables exist. -/
def Exist (s : Config V S) (cs : List Nat) : Prop := ∀ c ∈ cs, c < s.cells.length

theorem binds_append {s t : Config V S} {extra : List (Cell V)} (h : t.cells = s.cells ++ extra) {cs : List Nat}
    (hv : Exist s cs) (n : Name) (v : V) : Binds t cs n v ↔ Binds s cs n v := by
  unfold Binds
  constructor
  · rintro ⟨c, hc, he⟩
    rw [h, List.getElem?_append_left (hv c hc)] at he
    exact ⟨c, hc, he⟩
  · rintro ⟨c, hc, he⟩
    refine ⟨c, hc, ?_⟩
    rw [h, List.getElem?_append_left (hv c hc)]
    exact he

theorem binds_cons {s : Config V S} {c : Nat} {cs : List Nat} {n : Name} {v : V} :
    Binds s (c :: cs) n v ↔ s.cells[c]? = some ⟨n, v⟩ ∨ Binds s cs n v := by
  simp [Binds]

theorem isAmong_eq {s : Config V S} {ids : List Name} {c : Nat} {cell : Cell V} (h : s.cells[c]? = some cell) :
    isAmong s (ids.map .symbol) c = true ↔ cell.name ∈ ids := by
  simp [isAmong, nameOf, h, List.any_map]

theorem prefixAll_spec {pr : Program V S} {p : Name} (hp : Plain pr.lexicalCast.high p) {cs : List Nat} {s : Config V S}
    (hv : Exist s cs) (hpl : ∀ n v, Binds s cs n v → Plain pr.lexicalCast.high n) :
    ∃ cs' extra, prefixAll pr (.symbol p) cs s = some (cs', { s with cells := s.cells ++ extra }) ∧
      (∀ c ∈ cs', c < s.cells.length + extra.length) ∧
      ∀ n v, Binds { s with cells := s.cells ++ extra } cs' n v ↔ ∃ m, Binds s cs m v ∧ n = p ++ m := by
  induction cs generalizing s with
  | nil => exact ⟨[], [], by simp [prefixAll], by simp, by simp [Binds]⟩
  | cons c cs ih =>
    obtain ⟨cell, hcell⟩ : ∃ cell, s.cells[c]? = some cell :=
      ⟨_, List.getElem?_eq_getElem (hv c List.mem_cons_self)⟩
    have hplain : pr.lexicalCast.cast (.symbol cell.name) = some cell.name := by
      have : Plain pr.lexicalCast.high cell.name := hpl cell.name cell.value (binds_cons.2 (Or.inl (by rw [hcell])))
      simpa [Cast.cast_eq, write, Plain] using this
    have hp' : pr.lexicalCast.cast (.symbol p) = some p := by simpa [Cast.cast_eq, write, Plain] using hp
    have hv' : Exist s cs := fun d hd => hv d (List.mem_cons_of_mem _ hd)
    let s1 : Config V S := { s with cells := s.cells ++ [⟨p ++ cell.name, cell.value⟩] }
    have hv1 : Exist s1 cs := fun d hd => by
      have := hv' d hd
      simp [s1]; omega
    have hb1 : ∀ n v, Binds s1 cs n v ↔ Binds s cs n v := binds_append (s := s) (t := s1) rfl hv'
    obtain ⟨cs', extra, h1, h2, h3⟩ := ih (s := s1) hv1 fun n v h =>
      hpl n v (binds_cons.2 (Or.inr ((hb1 n v).1 h)))
    refine ⟨s.cells.length :: cs', ⟨p ++ cell.name, cell.value⟩ :: extra, ?_, ?_, ?_⟩
    · unfold prefixAll
      simp only [hcell, hplain, hp', make]
      rw [show ({ s with cells := s.cells ++ [⟨p ++ cell.name, cell.value⟩] } : Config V S) = s1 from rfl, h1]
      simp [s1]
    · intro d hd
      rcases List.mem_cons.1 hd with rfl | hd
      · simp
      · have := h2 d hd
        simp [s1] at this
        simp; omega
    · intro n v
      have e : ({ s1 with cells := s1.cells ++ extra } : Config V S) =
          { s with cells := s.cells ++ ⟨p ++ cell.name, cell.value⟩ :: extra } := by simp [s1]
      rw [e] at h3
      rw [binds_cons, h3]
      simp only [List.getElem?_append_right (Nat.le_refl _), Nat.sub_self, List.getElem?_cons_zero,
        Option.some.injEq, Cell.mk.injEq]
      constructor
      · rintro (⟨rfl, rfl⟩ | ⟨m, h, rfl⟩)
        · exact ⟨cell.name, binds_cons.2 (Or.inl hcell), rfl⟩
        · exact ⟨m, binds_cons.2 (Or.inr ((hb1 m v).1 h)), rfl⟩
      · rintro ⟨m, h, rfl⟩
        rcases binds_cons.1 h with h | h
        · rw [hcell] at h; cases h
          exact Or.inl ⟨rfl, rfl⟩
        · exact Or.inr ⟨m, (hb1 m v).2 h, rfl⟩

theorem renamed_some {rs : List (Name × Name)} {m : Name} :
    (∃ k, (m, k) ∈ rs ∧ renamed m (rs.map fun r => listOf [.symbol r.1, .symbol r.2]) = some (some k)) ∨
    ((∀ k, (m, k) ∉ rs) ∧ renamed m (rs.map fun r => listOf [.symbol r.1, .symbol r.2]) = some none) := by
  induction rs with
  | nil => exact Or.inr ⟨by simp, rfl⟩
  | cons r rs ih =>
    obtain ⟨a, b⟩ := r
    by_cases h : a = m
    · subst h
      exact Or.inl ⟨b, List.mem_cons_self, by simp [renamed, listOf]⟩
    · have e : renamed m (((a, b) :: rs).map fun r => listOf [.symbol r.1, .symbol r.2]) =
          renamed m (rs.map fun r => listOf [.symbol r.1, .symbol r.2]) := by
        simp [renamed, listOf, h]
      rw [e]
      rcases ih with ⟨k, h1, h2⟩ | ⟨h1, h2⟩
      · exact Or.inl ⟨k, List.mem_cons_of_mem _ h1, h2⟩
      · refine Or.inr ⟨?_, h2⟩
        intro k hk
        rcases List.mem_cons.1 hk with hk | hk
        · cases hk; exact h rfl
        · exact h1 k hk

theorem renameAll_spec {rs : List (Name × Name)}
    (hrs : ∀ m k k', (m, k) ∈ rs → (m, k') ∈ rs → k = k') {cs : List Nat} {s : Config V S} (hv : Exist s cs) :
    ∃ cs' extra, renameAll (rs.map fun r => listOf [.symbol r.1, .symbol r.2]) cs s =
        some (cs', { s with cells := s.cells ++ extra }) ∧
      (∀ c ∈ cs', c < s.cells.length + extra.length) ∧
      ∀ n v, Binds { s with cells := s.cells ++ extra } cs' n v ↔
        ∃ m, Binds s cs m v ∧ ((m, n) ∈ rs ∨ (n = m ∧ ∀ k, (m, k) ∉ rs)) := by
  induction cs generalizing s with
  | nil => exact ⟨[], [], by simp [renameAll], by simp, by simp [Binds]⟩
  | cons c cs ih =>
    obtain ⟨cell, hcell⟩ : ∃ cell, s.cells[c]? = some cell :=
      ⟨_, List.getElem?_eq_getElem (hv c List.mem_cons_self)⟩
    have hv' : Exist s cs := fun d hd => hv d (List.mem_cons_of_mem _ hd)
    rcases renamed_some (rs := rs) (m := cell.name) with ⟨k, hk, hr⟩ | ⟨hk, hr⟩
    · let s1 : Config V S := { s with cells := s.cells ++ [⟨k, cell.value⟩] }
      have hv1 : Exist s1 cs := fun d hd => by
        have := hv' d hd
        simp [s1]; omega
      have hb1 : ∀ n v, Binds s1 cs n v ↔ Binds s cs n v := binds_append (s := s) (t := s1) rfl hv'
      obtain ⟨cs', extra, h1, h2, h3⟩ := ih (s := s1) hv1
      refine ⟨s.cells.length :: cs', ⟨k, cell.value⟩ :: extra, ?_, ?_, ?_⟩
      · unfold renameAll
        simp only [hcell, hr, make]
        rw [show ({ s with cells := s.cells ++ [⟨k, cell.value⟩] } : Config V S) = s1 from rfl, h1]
        simp [s1]
      · intro d hd
        rcases List.mem_cons.1 hd with rfl | hd
        · simp
        · have := h2 d hd
          simp [s1] at this
          simp; omega
      · intro n v
        have e : ({ s1 with cells := s1.cells ++ extra } : Config V S) =
            { s with cells := s.cells ++ ⟨k, cell.value⟩ :: extra } := by simp [s1]
        rw [e] at h3
        rw [binds_cons, h3]
        simp only [List.getElem?_append_right (Nat.le_refl _), Nat.sub_self, List.getElem?_cons_zero,
          Option.some.injEq, Cell.mk.injEq]
        constructor
        · rintro (⟨rfl, rfl⟩ | ⟨m, h, hm⟩)
          · exact ⟨cell.name, binds_cons.2 (Or.inl hcell), Or.inl hk⟩
          · exact ⟨m, binds_cons.2 (Or.inr ((hb1 m v).1 h)), hm⟩
        · rintro ⟨m, h, hm⟩
          rcases binds_cons.1 h with h | h
          · rw [hcell] at h; cases h
            rcases hm with hm | ⟨_, hm⟩
            · exact Or.inl ⟨hrs _ _ _ hk hm, rfl⟩
            · exact absurd hk (hm k)
          · exact Or.inr ⟨m, (hb1 m v).2 h, hm⟩
    · obtain ⟨cs', extra, h1, h2, h3⟩ := ih hv'
      have hc := hv c List.mem_cons_self
      refine ⟨c :: cs', extra, ?_, ?_, ?_⟩
      · unfold renameAll
        simp only [hcell, hr, h1]
      · intro d hd
        rcases List.mem_cons.1 hd with rfl | hd
        · omega
        · exact h2 d hd
      · intro n v
        rw [binds_cons, h3]
        simp only [List.getElem?_append_left hc, hcell, Option.some.injEq]
        constructor
        · rintro (rfl | ⟨m, h, hm⟩)
          · exact ⟨n, binds_cons.2 (Or.inl hcell), Or.inr ⟨rfl, hk⟩⟩
          · exact ⟨m, binds_cons.2 (Or.inr h), hm⟩
        · rintro ⟨m, h, hm⟩
          rcases binds_cons.1 h with h | h
          · rw [hcell] at h; cases h
            rcases hm with hm | ⟨rfl, _⟩
            · exact absurd hm (hk n)
            · exact Or.inl rfl
          · exact Or.inr ⟨m, h, hm⟩

/-- The modifiers, applied to what the library gives, expose what they should. -/
theorem ascend (pr : Program V S) (exported : Name → V → Prop) (set : ImportSet)
    (hp : Proper pr.lexicalCast.high exported set) (t : Config V S) (cs : List Nat) (k : List Frame)
    (hm : t.mode = .ret cs) (hk : t.stack = modifiers set ++ k) (hv : Exist t cs)
    (hb : ∀ n v, Binds t cs n v ↔ exported n v) :
    ∃ cs' extra, Run pr t { t with mode := .ret cs', stack := k, cells := t.cells ++ extra } ∧
      (∀ c ∈ cs', c < t.cells.length + extra.length) ∧
      ∀ n v, Binds { t with cells := t.cells ++ extra } cs' n v ↔ Exposes exported set n v := by
  induction set generalizing k with
  | library name =>
    refine ⟨cs, [], ?_, by simpa [Exist] using hv, ?_⟩
    · simp only [modifiers, List.nil_append] at hk
      simp only [List.append_nil, ← hm, ← hk]
      exact .refl _
    · intro n v
      simp only [List.append_nil]
      exact hb n v
  | only set ids ih =>
    obtain ⟨cs1, extra, h1, h2, h3⟩ := ih hp (.only (ids.map .symbol) :: k) (by simpa [modifiers] using hk)
    refine ⟨_, extra, h1.step trivial rfl, ?_, ?_⟩
    · intro c hc
      exact h2 c (List.mem_filter.1 hc).1
    · intro n v
      simp only [Exposes, ← h3]
      simp only [Binds, List.mem_filter]
      constructor
      · rintro ⟨c, ⟨h, ha⟩, he⟩
        exact ⟨⟨c, h, he⟩, (isAmong_eq he).1 ha⟩
      · rintro ⟨⟨c, h, he⟩, ha⟩
        exact ⟨c, ⟨h, (isAmong_eq (s := { t with cells := t.cells ++ extra }) he).2 ha⟩, he⟩
  | except set ids ih =>
    obtain ⟨cs1, extra, h1, h2, h3⟩ := ih hp (.except (ids.map .symbol) :: k) (by simpa [modifiers] using hk)
    refine ⟨_, extra, h1.step trivial rfl, ?_, ?_⟩
    · intro c hc
      exact h2 c (List.mem_filter.1 hc).1
    · intro n v
      simp only [Exposes, ← h3]
      simp only [Binds, List.mem_filter]
      constructor
      · rintro ⟨c, ⟨h, ha⟩, he⟩
        refine ⟨⟨c, h, he⟩, fun hi => ?_⟩
        have := (isAmong_eq (s := { t with cells := t.cells ++ extra }) (ids := ids) he).2 hi
        have e : isAmong { t with
          mode := .ret cs1, stack := .except (ids.map .symbol) :: k, cells := t.cells ++ extra }
          (ids.map .symbol) c = isAmong { t with cells := t.cells ++ extra } (ids.map .symbol) c := rfl
        rw [e, this] at ha
        cases ha
      · rintro ⟨⟨c, h, he⟩, ha⟩
        refine ⟨c, ⟨h, ?_⟩, he⟩
        have := mt (isAmong_eq (s := { t with
          mode := .ret cs1, stack := .except (ids.map .symbol) :: k, cells := t.cells ++ extra })
          (ids := ids) he).1 ha
        simpa using this
  | «prefix» set p ih =>
    obtain ⟨hp, hpp, hpl⟩ := hp
    obtain ⟨cs1, extra, h1, h2, h3⟩ := ih hp (.prefix (.symbol p) :: k) (by simpa [modifiers] using hk)
    obtain ⟨cs2, extra2, g1, g2, g3⟩ := prefixAll_spec (pr := pr) hpp (cs := cs1)
      (s := { t with mode := .ret cs1, stack := .prefix (.symbol p) :: k, cells := t.cells ++ extra })
      (fun c hc => by simpa using h2 c hc) (fun n v h => hpl n v ((h3 n v).1 h))
    refine ⟨cs2, extra ++ extra2, ?_, ?_, ?_⟩
    · refine h1.step trivial ?_
      simp only [step, returnTo, g1, List.append_assoc]
    · intro c hc
      have := g2 c hc
      simpa [Nat.add_assoc] using this
    · intro n v
      simp only [Exposes, ← h3]
      have := g3 n v
      simpa [Binds] using this
  | rename set rs ih =>
    obtain ⟨hp, hrs⟩ := hp
    obtain ⟨cs1, extra, h1, h2, h3⟩ := ih hp
      (.rename (rs.map fun r => listOf [.symbol r.1, .symbol r.2]) :: k) (by simpa [modifiers] using hk)
    obtain ⟨cs2, extra2, g1, g2, g3⟩ := renameAll_spec hrs (cs := cs1)
      (s := { t with
        mode := .ret cs1, stack := .rename (rs.map fun r => listOf [.symbol r.1, .symbol r.2]) :: k
        cells := t.cells ++ extra })
      (fun c hc => by simpa using h2 c hc)
    refine ⟨cs2, extra ++ extra2, ?_, ?_, ?_⟩
    · refine h1.step trivial ?_
      simp only [step, returnTo, g1, List.append_assoc]
    · intro c hc
      have := g2 c hc
      simpa [Nat.add_assoc] using this
    · intro n v
      simp only [Exposes, ← h3]
      have := g3 n v
      simpa [Binds] using this

/-! ### Exports -/

/-- Nothing but new variables; the values in `env` are the same. -/
structure Steady (pr : Program V S) (env : Nat) (s t : Config V S) : Prop where
  valid : Valid t
  cells : ∃ extra, t.cells = s.cells ++ extra
  values : ∀ n, valueIn pr t env n = valueIn pr s env n
  mode : t.mode = s.mode
  stack : t.stack = s.stack

theorem Steady.trans {pr : Program V S} {env : Nat} {s t u : Config V S} (h1 : Steady pr env s t)
    (h2 : Steady pr env t u) : Steady pr env s u where
  valid := h2.valid
  cells := by
    obtain ⟨a, ha⟩ := h1.cells
    obtain ⟨b, hb⟩ := h2.cells
    exact ⟨a ++ b, by rw [hb, ha, List.append_assoc]⟩
  values n := (h2.values n).trans (h1.values n)
  mode := h2.mode.trans h1.mode
  stack := h2.stack.trans h1.stack

theorem Steady.lt {pr : Program V S} {env : Nat} {s t : Config V S} (h : Steady pr env s t) :
    s.cells.length ≤ t.cells.length := by
  obtain ⟨a, ha⟩ := h.cells
  rw [ha]; simp

theorem Steady.get {pr : Program V S} {env : Nat} {s t : Config V S} (h : Steady pr env s t) {c : Nat}
    {cell : Cell V} (hc : s.cells[c]? = some cell) : t.cells[c]? = some cell := by
  obtain ⟨a, ha⟩ := h.cells
  rw [ha, List.getElem?_append_left (getElem?_lt hc)]
  exact hc

theorem Steady.refl {pr : Program V S} {env : Nat} {s : Config V S} (hv : Valid s) : Steady pr env s s :=
  ⟨hv, ⟨[], by simp⟩, fun _ => rfl, rfl, rfl⟩

theorem lookup_get {s : Config V S} {env : Nat} {n : Name} {c : Nat} (h : lookup s env n = some c) :
    ∃ v, s.cells[c]? = some ⟨n, v⟩ := by
  obtain ⟨_, cell, h1, h2⟩ := find_some h
  exact ⟨cell.value, by rw [h1, ← h2]⟩

theorem steady_make {pr : Program V S} {env : Nat} {s : Config V S} (hv : Valid s) (n : Name) (v : V) :
    Steady pr env s (make n v s).2 where
  valid := (grows_make hv n v).valid
  cells := ⟨_, rfl⟩
  values m := by
    unfold valueIn
    rw [lookup_make hv]
    split
    · rename_i c hc
      obtain ⟨w, hw⟩ := lookup_get hc
      have : (make n v s).2.cells[c]? = some ⟨m, w⟩ := by
        show (s.cells ++ _)[c]? = _
        rw [List.getElem?_append_left (getElem?_lt hw)]
        exact hw
      rw [this, hw]
    · rfl
  mode := rfl
  stack := rfl

theorem identify_spec {pr : Program V S} {env : Nat} {s : Config V S} (hv : Valid s) (n : Name) :
    Steady pr env s (identify pr env n s).2 ∧
    (identify pr env n s).2.cells[(identify pr env n s).1]? = some ⟨n, valueIn pr s env n⟩ := by
  unfold identify
  split
  · rename_i c hc
    obtain ⟨v, hv'⟩ := lookup_get hc
    refine ⟨.refl hv, ?_⟩
    simp [valueIn, hc, hv']
  · rename_i hn
    have h1 := steady_make (pr := pr) (env := env) hv n pr.undefinedValue
    have hval : valueIn pr s env n = pr.undefinedValue := by simp [valueIn, hn]
    have hg : (push env (make n pr.undefinedValue s).1 (make n pr.undefinedValue s).2).cells[
        (make n pr.undefinedValue s).1]? = some ⟨n, pr.undefinedValue⟩ := by
      show (s.cells ++ _)[s.cells.length]? = _
      simp
    refine ⟨h1.trans ?_, by rw [hval]; exact hg⟩
    refine ⟨(grows_push h1.valid (nameOf_make n _) (Or.inr (by rw [lookup_make hv]; exact hn))).valid,
      ⟨[], by simp [push]⟩, ?_, rfl, rfl⟩
    intro m
    by_cases hl : env < s.envs.length
    · unfold valueIn lookup
      rw [variables_push_self (s := (make n pr.undefinedValue s).2) hl]
      rw [show (push env (make n pr.undefinedValue s).1 (make n pr.undefinedValue s).2).cells =
        (make n pr.undefinedValue s).2.cells from rfl] at hg ⊢
      conv => lhs; unfold find
      rw [hg]
      simp only
      by_cases hm : n = m
      · subst hm
        have := lookup_make hv n pr.undefinedValue env n
        rw [hn] at this
        unfold lookup at this
        rw [this]
        simp [hg]
      · rw [if_neg hm]
    · have e := push_invalid (s := (make n pr.undefinedValue s).2) (c := (make n pr.undefinedValue s).1)
        (show s.envs.length ≤ env by omega)
      exact congrArg (fun t => valueIn pr t env m) e

theorem export1_spec {pr : Program V S} {env : Nat} {s : Config V S} (hv : Valid s) (spec : ExportSpec) :
    ∃ c t, export1 pr env spec.toDatum s = some (c, t) ∧ Steady pr env s t ∧
      t.cells[c]? = some (match spec with
        | .plain n => ⟨n, valueIn pr s env n⟩
        | .rename inner outer => ⟨outer, valueIn pr s env inner⟩) := by
  cases spec with
  | plain n =>
    obtain ⟨h1, h2⟩ := identify_spec (pr := pr) (env := env) hv n
    exact ⟨_, _, rfl, h1, h2⟩
  | rename inner outer =>
    obtain ⟨h1, h2⟩ := identify_spec (pr := pr) (env := env) hv inner
    refine ⟨_, _, by simp only [export1, ExportSpec.toDatum, listOf, h2]; rfl,
      h1.trans (steady_make h1.valid _ _), ?_⟩
    simp [make]

theorem exportAll_spec {pr : Program V S} {env : Nat} {s : Config V S} (hv : Valid s) (specs : List ExportSpec) :
    ∃ cs t, exportAll pr env (specs.map ExportSpec.toDatum) s = some (cs, t) ∧ Steady pr env s t ∧
      Exist t cs ∧ ∀ n v, Binds t cs n v ↔ Exports pr s env specs n v := by
  induction specs generalizing s with
  | nil => exact ⟨[], s, rfl, .refl hv, by simp [Exist], by simp [Binds, Exports]⟩
  | cons spec specs ih =>
    obtain ⟨c, t, h1, h2, h3⟩ := export1_spec (pr := pr) (env := env) hv spec
    obtain ⟨cs, u, g1, g2, g3, g4⟩ := ih h2.valid
    have hc := g2.get h3
    refine ⟨c :: cs, u, ?_, h2.trans g2, ?_, ?_⟩
    · simp only [List.map_cons, exportAll, h1, g1]
    · intro d hd
      rcases List.mem_cons.1 hd with rfl | hd
      · exact getElem?_lt hc
      · exact g3 d hd
    · intro n v
      rw [binds_cons, g4, hc]
      have e : Exports pr t env specs n v ↔ Exports pr s env specs n v := by
        simp only [Exports, h2.values]
      rw [e]
      cases spec with
      | plain m =>
        simp only [Option.some.injEq, Cell.mk.injEq, Exports, List.mem_cons, ExportSpec.plain.injEq]
        constructor
        · rintro (⟨rfl, rfl⟩ | ⟨h, h'⟩ | ⟨i, h, h'⟩)
          · exact Or.inl ⟨Or.inl rfl, rfl⟩
          · exact Or.inl ⟨Or.inr h, h'⟩
          · exact Or.inr ⟨i, Or.inr h, h'⟩
        · rintro (⟨rfl | h, rfl⟩ | ⟨i, h | h, h'⟩)
          · exact Or.inl ⟨rfl, rfl⟩
          · exact Or.inr (Or.inl ⟨h, rfl⟩)
          · cases h
          · exact Or.inr (Or.inr ⟨i, h, h'⟩)
      | rename a b =>
        simp only [Option.some.injEq, Cell.mk.injEq, Exports, List.mem_cons, ExportSpec.rename.injEq]
        constructor
        · rintro (⟨rfl, rfl⟩ | ⟨h, h'⟩ | ⟨i, h, h'⟩)
          · exact Or.inr ⟨a, Or.inl ⟨rfl, rfl⟩, rfl⟩
          · exact Or.inl ⟨Or.inr h, h'⟩
          · exact Or.inr ⟨i, Or.inr h, h'⟩
        · rintro (⟨h | h, rfl⟩ | ⟨i, ⟨rfl, rfl⟩ | h, rfl⟩)
          · cases h
          · exact Or.inr (Or.inl ⟨h, rfl⟩)
          · exact Or.inl ⟨rfl, rfl⟩
          · exact Or.inr (Or.inr ⟨i, h, rfl⟩)

end Meevax.Library
