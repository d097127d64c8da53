import Verif.Props.SystemImport
import Mathlib.Data.Nat.Digits.Lemmas

/-
C95: import sets with `prefix` and `rename`.
-/

namespace Meevax.System

/-- `prefix` puts the bytes of the prefix before those of the name (as digits of a number, the last byte comes
first). -/
theorem C95_prefix (a b : Name) : Nat.digits 256 (concat a b) = Nat.digits 256 b ++ Nat.digits 256 a := by
  rw [concat]
  cases hb : Nat.beq b 0 with
  | true =>
    have := Nat.eq_of_beq_eq_true hb
    subst this
    simp
  | false =>
    have hb' : b ≠ 0 := fun h => by subst h; cases hb
    have hl : (Nat.digits 256 b).length = Nat.log2 b / 8 + 1 := by
      rw [Nat.length_digits 256 b (by decide) hb', Nat.log2_eq_log_two, ← Nat.log_pow_left]
    rw [Nat.digits_append_digits (by decide), hl]
    simp only [cond_false]
    congr 1
    ring

theorem find_find? {rs : List (Name × Name)} {m : Name} : find m rs = (rs.find? (·.1 = m)).map Prod.snd := by
  induction rs with
  | nil => rfl
  | cons r rs ih =>
    simp only [find, List.find?_cons]
    by_cases h : r.1 = m
    · simp [h]
    · have : Nat.beq r.1 m = false := Bool.eq_false_iff.2 fun h' => h (Nat.eq_of_beq_eq_true h')
      simp [h, this, ih]

/-- The variable of a member: none if the name was changed. -/
noncomputable def variableUnless (p : Prop) (c : Option Variable) : Option Variable :=
  open Classical in if p then none else c

theorem variableUnless_pos {p : Prop} (h : p) (c : Option Variable) : variableUnless p c = none := if_pos h

theorem variableUnless_neg {p : Prop} (h : ¬ p) (c : Option Variable) : variableUnless p c = c := if_neg h

/-- What an import set makes of a member of the import set of its library. -/
noncomputable def ImportSet.member (s : ImportSet) (x : Exposed) : Option Exposed :=
  (s.shown x.name).map fun m => ⟨m, variableUnless (s.Renames x.name) x.cell, x.origin⟩

theorem importSet_eq {get : Name → Option (List Exposed)} {s : ImportSet} :
    importSet get s = (get s.base).map fun xs => xs.filterMap s.member := by
  classical
  induction s with
  | library key =>
    simp only [importSet, ImportSet.base]
    cases get key with
    | none => rfl
    | some xs =>
      have : (ImportSet.library key).member = some := by
        funext x
        simp [ImportSet.member, ImportSet.shown, ImportSet.Renames, variableUnless]
      simp [this]
  | only set ids ih =>
    simp only [importSet, ih, ImportSet.base]
    cases get set.base with
    | none => rfl
    | some xs =>
      simp only [Option.map_some, Option.some.injEq, List.filter_filterMap]
      congr 1
      funext x
      simp only [ImportSet.member, ImportSet.shown, ImportSet.Renames]
      cases hs : set.shown x.name with
      | none => rfl
      | some m => by_cases hm : m ∈ ids <;> simp [Option.filter, hm, among_iff]
  | except set ids ih =>
    simp only [importSet, ih, ImportSet.base]
    cases get set.base with
    | none => rfl
    | some xs =>
      simp only [Option.map_some, Option.some.injEq, List.filter_filterMap]
      congr 1
      funext x
      simp only [ImportSet.member, ImportSet.shown, ImportSet.Renames]
      cases hs : set.shown x.name with
      | none => rfl
      | some m =>
        by_cases hm : m ∈ ids
        · simp [Option.filter, hm, among_iff.2 hm]
        · have : among m ids = false := Bool.eq_false_iff.2 fun h => hm (among_iff.1 h)
          simp [Option.filter, hm, this]
  | «prefix» set p ih =>
    simp only [importSet, ih, ImportSet.base]
    cases get set.base with
    | none => rfl
    | some xs =>
      simp only [Option.map_some, Option.some.injEq, List.map_filterMap]
      congr 1
      funext x
      simp only [ImportSet.member, ImportSet.shown, ImportSet.Renames]
      cases hs : set.shown x.name <;> simp [variableUnless]
  | rename set rs ih =>
    simp only [importSet, ih, ImportSet.base]
    cases get set.base with
    | none => rfl
    | some xs =>
      simp only [Option.map_some, Option.some.injEq, List.map_filterMap]
      congr 1
      funext x
      simp only [ImportSet.member, ImportSet.shown, ImportSet.Renames]
      cases hs : set.shown x.name with
      | none => simp
      | some m =>
        simp only [Option.map_some, Option.some.injEq, find_find?]
        cases hf : rs.find? (·.1 = m) with
        | none =>
          have : ¬ ∃ r ∈ rs, r.1 = m := by
            rintro ⟨r, hr, h⟩
            have := List.find?_eq_none.1 hf r hr
            simp [h] at this
          simp only [Option.map_none, Option.getD_none]
          congr 1
          have h2 : (∃ m', m = m' ∧ ∃ r ∈ rs, r.1 = m') ↔ False := ⟨fun ⟨m', h, h'⟩ => this (h ▸ h'), False.elim⟩
          simp only [h2, or_false]
        | some r =>
          have h1 := List.mem_of_find?_eq_some hf
          have h2 : r.1 = m := by simpa using List.find?_some hf
          simp only [Option.map_some, Option.getD_some]
          congr 1
          rw [variableUnless_pos (Or.inr ⟨m, rfl, r, h1, h2⟩)]

theorem shown_same {s : ImportSet} {n m : Name} (h : s.shown n = some m) (hr : ¬ s.Renames n) : m = n := by
  induction s generalizing m with
  | library => cases h; rfl
  | only set ids ih =>
    simp only [ImportSet.shown, Option.filter_eq_some_iff] at h
    exact ih h.1 hr
  | except set ids ih =>
    simp only [ImportSet.shown, Option.filter_eq_some_iff] at h
    exact ih h.1 hr
  | «prefix» set p ih => exact absurd trivial hr
  | rename set rs ih =>
    simp only [ImportSet.shown] at h
    simp only [ImportSet.Renames, not_or] at hr
    cases hs : set.shown n with
    | none => rw [hs] at h; cases h
    | some k =>
      rw [hs] at h
      have hf : rs.find? (·.1 = k) = none := List.find?_eq_none.2 fun r hr' hk =>
        hr.2 ⟨k, hs, r, hr', by simpa using hk⟩
      simp [hf] at h
      rw [← h]
      exact ih hs hr.1

/-- **C95: what an import set shows**, with any combination of `only`, `except`, `prefix` and `rename`: a name is there
exactly if it is that of a name of the library, and it has the value of that name. The variable is the same one if the
name was not changed, otherwise it is a copy. -/
theorem C95_sets {get : Name → Option (List Exposed)} {s : ImportSet} {xs : List Exposed} (h : get s.base = some xs) :
    ∃ ys, importSet get s = some ys ∧ ∀ y, y ∈ ys ↔ ∃ x ∈ xs, s.shown x.name = some y.name ∧ y.origin = x.origin ∧
      (s.Renames x.name → y.cell = none) ∧ (¬ s.Renames x.name → y.cell = x.cell ∧ y.name = x.name) := by
  classical
  refine ⟨_, by rw [importSet_eq, h]; rfl, fun y => ?_⟩
  rw [List.mem_filterMap]
  refine exists_congr fun x => and_congr_right fun _ => ?_
  simp only [ImportSet.member]
  cases hs : s.shown x.name with
  | none => simp
  | some m =>
    obtain ⟨yn, yc, yo⟩ := y
    simp only [Option.map_some, Option.some.injEq, Exposed.mk.injEq]
    by_cases hr : s.Renames x.name
    · rw [variableUnless_pos hr]
      simp only [hr]
      constructor
      · rintro ⟨rfl, rfl, rfl⟩
        simp
      · rintro ⟨rfl, rfl, hc, _⟩
        exact ⟨rfl, (hc trivial).symm, rfl⟩
    · have := shown_same hs hr
      rw [variableUnless_neg hr]
      simp only [hr]
      constructor
      · rintro ⟨rfl, rfl, rfl⟩
        simp [this]
      · rintro ⟨rfl, rfl, _, hc⟩
        exact ⟨rfl, (hc (by simp)).1.symm, rfl⟩

/-! ### Importing several of them -/

/-- A name that an import set has changed is shown once. -/
def Apart (sets : List ImportSet) : Prop :=
  ∀ (i j : Nat) (hi : i < sets.length) (hj : j < sets.length) (n m k : Name), sets[i].shown n = some k → sets[j].shown m = some k →
    sets[i].Renames n → i = j ∧ n = m

theorem sets_exist {sets : List ImportSet} {depth : Nat} (hd : order.length < depth)
    (hs : ∀ s ∈ sets, s.base ∈ compatible) :
    ∃ xss, sets.map (importSet (interface table depth)) = xss.map some ∧
      List.Forall₂ (fun s ys => ∃ xs, find s.base interfaces = some xs ∧ ys = xs.filterMap s.member) sets xss := by
  induction sets with
  | nil => exact ⟨[], rfl, .nil⟩
  | cons s sets ih =>
    obtain ⟨xss, h1, h2⟩ := ih fun s h => hs s (by simp [h])
    have hb := hs s (by simp)
    obtain ⟨xs, hx, _⟩ := compatible_interface hb
    refine ⟨xs.filterMap s.member :: xss, ?_, .cons ⟨xs, hx, rfl⟩ h2⟩
    rw [List.map_cons, List.map_cons, h1, importSet_eq, interface_compatible hb hd, hx]
    rfl

theorem member_spec {s : ImportSet} {x y : Exposed} (h : s.member x = some y) :
    s.shown x.name = some y.name ∧ y.origin = x.origin ∧ (¬ s.Renames x.name → y.cell = x.cell ∧ y.name = x.name) := by
  classical
  simp only [ImportSet.member] at h
  cases hs : s.shown x.name with
  | none => rw [hs] at h; cases h
  | some m =>
    rw [hs] at h
    cases h
    refine ⟨rfl, rfl, fun hr => ?_⟩
    exact ⟨variableUnless_neg hr _, shown_same hs hr⟩

theorem distinct_names {xs : List Exposed} (h : distinct xs = true) : xs.Pairwise fun x y => x.name ≠ y.name := by
  induction xs with
  | nil => exact .nil
  | cons x xs ih =>
    simp only [distinct, Bool.and_eq_true, List.all_eq_true] at h
    refine .cons (fun y hy hn => ?_) (ih h.2)
    have := h.1 y hy
    rw [hn, Nat.beq_refl] at this
    cases this

theorem apart_tail {s : ImportSet} {sets : List ImportSet} (h : Apart (s :: sets)) : Apart sets := by
  intro i j hi hj n m k h1 h2 h3
  obtain ⟨h4, h5⟩ := h (i + 1) (j + 1) (by simp; omega) (by simp; omega) n m k h1 h2 h3
  exact ⟨by omega, h5⟩

theorem members_agree {sets : List ImportSet} {xss : List (List Exposed)} (hs : ∀ s ∈ sets, s.base ∈ compatible)
    (hp : sets.Pairwise fun s t => s.base = t.base → s.base ∉ once) (ha : Apart sets)
    (h : List.Forall₂ (fun s ys => ∃ xs, find s.base interfaces = some xs ∧ ys = xs.filterMap s.member) sets xss) :
    xss.flatten.Pairwise Agree := by
  induction h with
  | nil => exact .nil
  | @cons s ys sets xss h1 h2 ih =>
    obtain ⟨xs, hx, rfl⟩ := h1
    obtain ⟨p1, p2⟩ := List.pairwise_cons.1 hp
    rw [List.flatten_cons, List.pairwise_append]
    obtain ⟨xs', hx', hd, _⟩ := compatible_interface (hs s (by simp))
    rw [hx] at hx'
    cases hx'
    refine ⟨?_, ih (fun t ht => hs t (by simp [ht])) p2 (apart_tail ha), ?_⟩
    · rw [List.pairwise_filterMap]
      refine (distinct_names hd).imp ?_
      intro x x' hne y hy y' hy' hn
      have m1 := member_spec hy
      have m2 := member_spec hy'
      rw [← hn] at m2
      by_cases hr : s.Renames x.name
      · exact absurd (ha 0 0 (by simp) (by simp) _ _ _ m1.1 m2.1 hr).2 hne
      · by_cases hr' : s.Renames x'.name
        · exact absurd (ha 0 0 (by simp) (by simp) _ _ _ m2.1 m1.1 hr').2.symm hne
        · exact absurd ((m1.2.2 hr).2.symm.trans (m2.2.2 hr').2) hne
    · intro y hym y' hym' hn
      obtain ⟨x, hxm, hy⟩ := List.mem_filterMap.1 hym
      obtain ⟨zs, hz, hyz⟩ := List.mem_flatten.1 hym'
      obtain ⟨t, ht, ws, hw, rfl⟩ := forall₂_mem h2 hz
      obtain ⟨x', hxm', hy'⟩ := List.mem_filterMap.1 hyz
      obtain ⟨j, hj, rfl⟩ := List.mem_iff_getElem.1 ht
      have m1 := member_spec hy
      have m2 := member_spec hy'
      have hj' : j + 1 < (s :: sets).length := by simp; omega
      rw [← hn] at m2
      by_cases hr : s.Renames x.name
      · exact absurd (ha 0 (j + 1) (by simp) hj' _ _ _ m1.1 m2.1 hr).1 (by omega)
      · by_cases hr' : sets[j].Renames x'.name
        · exact absurd (ha (j + 1) 0 hj' (by simp) _ _ _ m2.1 m1.1 hr').1 (by omega)
        · obtain ⟨c1, n1⟩ := m1.2.2 hr
          obtain ⟨c2, n2⟩ := m2.2.2 hr'
          have := compatible_agree (hs s (by simp)) (hs _ (by simp)) (p1 _ ht) hx hw hxm hxm' (n1.symm.trans n2)
          rw [c1, c2, m1.2.1, m2.2.1]
          exact this

/-- **C95 with `prefix` and `rename`**: any import sets from the compatible standard libraries can be imported together,
if each name that `prefix` or `rename` has changed is shown by one of them only, and for one name only. Each name they
show is then bound, to the value that the library has under the original name. Missing: (scheme r5rs), (scheme r4rs),
(srfi 0) and (srfi 111). -/
theorem C95_renamed_partial {sets : List ImportSet} {depth : Nat} (hd : order.length < depth) (key : Name)
    (hs : ∀ s ∈ sets, s.base ∈ compatible) (hp : sets.Pairwise fun s t => s.base = t.base → s.base ∉ once)
    (ha : Apart sets) :
    ∃ env, importSets (interface table depth) key sets [] = some env ∧
      (∀ s ∈ sets, ∃ xs, Loads table s.base xs ∧ ∀ x ∈ xs, ∀ m, s.shown x.name = some m →
        ∃ b, find m env = some b ∧ b.origin = x.origin ∧ (¬ s.Renames x.name → ∀ v, x.cell = some v → b.cell = v)) ∧
      ∀ m b, find m env = some b → ∃ s ∈ sets, ∃ xs, Loads table s.base xs ∧ ∃ x ∈ xs, s.shown x.name = some m := by
  obtain ⟨xss, h1, h2⟩ := sets_exist hd hs
  have hag := members_agree hs hp ha h2
  obtain ⟨env, h3, h4⟩ := importSets_agree (key := key) (done := []) (env := []) h1
    (by intro n; rfl) (by simpa using hag)
  simp only [List.nil_append] at h4
  have hload : ∀ s ∈ sets, ∀ xs, find s.base interfaces = some xs → Loads table s.base xs := fun s hsm xs hx =>
    loads_find (List.all_eq_true.1 compatible_listed _ (hs s hsm)) hx
  refine ⟨env, h3, ?_, ?_⟩
  · intro s hsm
    obtain ⟨xs, hx, _⟩ := compatible_interface (hs s hsm)
    refine ⟨xs, hload s hsm xs hx, ?_⟩
    intro x hxm m hm
    have hmem : importSet (interface table depth) s ∈ xss.map some := by
      rw [← h1]; exact List.mem_map_of_mem hsm
    obtain ⟨ys, hys, he⟩ := List.mem_map.1 hmem
    rw [importSet_eq, interface_compatible (hs s hsm) hd, hx, Option.map_some, Option.some.injEq] at he
    subst he
    obtain ⟨y, hy, hyn⟩ : ∃ y, s.member x = some y ∧ y.name = m := by
      exact ⟨⟨m, variableUnless (s.Renames x.name) x.cell, x.origin⟩, by rw [ImportSet.member, hm]; rfl, rfl⟩
    subst hyn
    have hyf : y ∈ xss.flatten := List.mem_flatten.2 ⟨_, hys, List.mem_filterMap.2 ⟨x, hxm, hy⟩⟩
    obtain ⟨z, hz⟩ := firstNamed_of_mem hyf
    have hzn := firstNamed_some hz
    have ms := member_spec hy
    refine ⟨bindingOf key z, by rw [h4, hz]; rfl, ?_⟩
    rcases first_agree hag hyf hz with rfl | hag'
    · refine ⟨ms.2.1, ?_⟩
      intro hr v hv
      simp [bindingOf, (ms.2.2 hr).1, hv]
    · obtain ⟨_, a2, a3⟩ := hag' hzn.2
      refine ⟨a3.trans ms.2.1, ?_⟩
      intro hr v hv
      simp [bindingOf, a2, (ms.2.2 hr).1, hv]
  · intro n b hb
    rw [h4] at hb
    cases hf : firstNamed n xss.flatten with
    | none => rw [hf] at hb; cases hb
    | some y =>
      have hy := firstNamed_some hf
      obtain ⟨ys, hys, hym⟩ := List.mem_flatten.1 hy.1
      obtain ⟨s, hsm, xs, hx, rfl⟩ := forall₂_mem h2 hys
      obtain ⟨x, hxm, hxy⟩ := List.mem_filterMap.1 hym
      refine ⟨s, hsm, xs, hload s hsm xs hx, x, hxm, ?_⟩
      rw [(member_spec hxy).1, hy.2]

/-- A non-trivial case: `(rename (only (scheme base) car cdr) (car first))` and
`(prefix (only (scheme write) display) w:)`. -/
theorem sample_apart :
    Apart [.rename (.only (.library (name! "(scheme base)")) (names! "car cdr")) [(name! "car", name! "first")],
      .prefix (.only (.library (name! "(scheme write)")) (names! "display")) (name! "w:")] := by
  have h0 : ∀ n k, (ImportSet.rename (.only (.library (name! "(scheme base)")) (names! "car cdr"))
      [(name! "car", name! "first")]).shown n = some k →
      (n = name! "car" ∧ k = name! "first") ∨ (n = name! "cdr" ∧ k = name! "cdr") := by
    intro n k h
    simp only [ImportSet.shown, Option.map_eq_some_iff, Option.filter_eq_some_iff, Option.some.injEq] at h
    obtain ⟨m, ⟨rfl, hm⟩, rfl⟩ := h
    rcases (by simpa using hm : n = _ ∨ n = _) with rfl | rfl
    · exact .inl ⟨rfl, rfl⟩
    · exact .inr ⟨rfl, rfl⟩
  have h1 : ∀ n k, (ImportSet.prefix (.only (.library (name! "(scheme write)")) (names! "display"))
      (name! "w:")).shown n = some k → n = name! "display" ∧ k = name! "w:display" := by
    intro n k h
    simp only [ImportSet.shown, Option.map_eq_some_iff, Option.filter_eq_some_iff, Option.some.injEq] at h
    obtain ⟨m, ⟨rfl, hm⟩, rfl⟩ := h
    have : n = name! "display" := by simpa using hm
    subst this
    exact ⟨rfl, by decide +kernel⟩
  intro i j hi hj n m k hn hm hr
  match i, j with
  | 0, 0 =>
    refine ⟨rfl, ?_⟩
    rcases h0 n k hn with ⟨rfl, rfl⟩ | ⟨rfl, rfl⟩ <;> rcases h0 m _ hm with ⟨rfl, h⟩ | ⟨rfl, h⟩
    · rfl
    · exact absurd h (by decide)
    · exact absurd h (by decide)
    · rfl
  | 0, 1 =>
    rcases h0 n k hn with ⟨rfl, rfl⟩ | ⟨rfl, rfl⟩ <;> exact absurd (h1 m _ hm).2 (by decide)
  | 1, 0 =>
    obtain ⟨rfl, rfl⟩ := h1 n k hn
    rcases h0 m _ hm with ⟨rfl, h⟩ | ⟨rfl, h⟩ <;> exact absurd h (by decide)
  | 1, 1 => exact ⟨rfl, (h1 n k hn).1.trans (h1 m k hm).1.symm⟩

/-- The import of these two sets succeeds and binds the name `first` to what (scheme base) calls `car`. -/
example : ∃ env, importSets (interface table (order.length + 1)) 0
    [.rename (.only (.library (name! "(scheme base)")) (names! "car cdr")) [(name! "car", name! "first")],
      .prefix (.only (.library (name! "(scheme write)")) (names! "display")) (name! "w:")] [] = some env := by
  obtain ⟨env, h, _⟩ := C95_renamed_partial (Nat.lt_succ_self order.length) 0
    (by
      intro s hs
      have hc : (among (name! "(scheme base)") compatible && among (name! "(scheme write)") compatible) = true := by
        decide +kernel
      rw [Bool.and_eq_true] at hc
      rcases List.mem_cons.1 hs with rfl | hs
      · exact among_iff.1 hc.1
      · rcases List.mem_cons.1 hs with rfl | hs
        · exact among_iff.1 hc.2
        · cases hs)
    (by
      refine .cons (fun t ht h => ?_) (.cons (fun t ht => by cases ht) .nil)
      rcases List.mem_cons.1 ht with rfl | ht
      · exact absurd h (by decide)
      · cases ht) sample_apart
  exact ⟨env, h⟩

end Meevax.System
