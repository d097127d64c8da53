import Verif.Lemmas.SystemAgree
import Mathlib.Data.List.Forall2

/-
C95: the standard libraries.
-/

namespace Meevax.System

/-! ### Boot -/

/-- `boot` finds a procedure for every name it defines, and it is the procedure of that name; no name is
registered twice. -/
theorem C95_boot :
    (∀ b ∈ builtins, b.made resolvable = true) ∧ resolvable.Nodup ∧
    ∀ b ∈ builtins, ∀ d ∈ b.definitions, ∀ p, d.2 = some p → p = d.1 := by
  refine ⟨?_, ?_, ?_⟩
  · have h : (builtins.all fun b => b.made resolvable) = true := by decide +kernel
    exact List.all_eq_true.1 h
  · decide +kernel
  · have h : (builtins.all fun b => b.definitions.all fun d =>
        match d.2 with
        | some p => Nat.beq p d.1
        | none => true) = true := by decide +kernel
    intro b hb d hd p hp
    have := List.all_eq_true.1 (List.all_eq_true.1 h b hb) d hd
    rw [hp] at this
    exact Nat.eq_of_beq_eq_true this

/-! ### Every library can be imported -/

/-- Every library of the system can be imported on its own into an empty environment: all libraries it
needs are there, none of them needs itself, and no import conflicts. -/
theorem C95_loads {key : Name} {l : Library} (h : Library.find key table = some l) :
    ∃ xs, Loads table key xs := by
  obtain ⟨h1, env, specs, xs, _, h2, _, _⟩ := loads h (d := order.length) (Nat.le_refl _)
  rw [(find_library h).1] at h2
  refine ⟨xs, order.length + 1, ?_⟩
  intro depth hd
  obtain ⟨d, rfl⟩ : ∃ d, depth = d + 1 := ⟨depth - 1, by omega⟩
  rw [(loads h (by omega)).1, h2]

/-- The interface of a library that is in the table of interfaces. -/
theorem loads_find {key : Name} (hk : (Library.find key table).isSome = true) {xs : List Exposed} :
    find key interfaces = some xs → Loads table key xs := by
  intro hx
  obtain ⟨l, hl⟩ := Option.isSome_iff_exists.1 hk
  refine ⟨order.length + 1, ?_⟩
  intro depth hd
  obtain ⟨d, rfl⟩ : ∃ d, depth = d + 1 := ⟨depth - 1, by omega⟩
  rw [(loads hl (by omega)).1, hx]

theorem loads_unique {key : Name} {xs ys : List Exposed} (hx : Loads table key xs)
    (hy : Loads table key ys) : xs = ys := by
  obtain ⟨d, hd⟩ := hx
  obtain ⟨e, he⟩ := hy
  have h1 := hd (d + e) (by omega)
  rw [he (d + e) (by omega)] at h1
  exact (Option.some.inj h1).symm

/-! ### The names of the reports -/

/-- Are the names there and defined, except those of the list? -/
def covers (except : List Name) (st : Standard) : Bool :=
  (Library.find st.key table).isSome &&
  (match find st.key interfaces with
    | some xs => st.names.all fun n =>
      match firstNamed n xs with
      | some x => x.origin.isSome || among n except
      | none => false
    | none => false)

theorem covers_spec {except : List Name} {st : Standard} (h : covers except st = true) :
    ∃ xs, Loads table st.key xs ∧ ∀ n ∈ st.names, Offers xs n ∧ (Defines xs n ∨ n ∈ except) := by
  simp only [covers, Bool.and_eq_true] at h
  obtain ⟨h1, h2⟩ := h
  split at h2
  · rename_i xs hx
    refine ⟨xs, loads_find h1 hx, ?_⟩
    intro n hn
    have h3 := List.all_eq_true.1 h2 n hn
    split at h3
    · rename_i x hf
      have hm := firstNamed_some hf
      rw [Bool.or_eq_true, among_iff] at h3
      exact ⟨⟨x, hm.1, hm.2⟩, h3.imp (fun h => ⟨x, hm.1, hm.2, h⟩) id⟩
    · cases h3
  · cases h2

/-- Every library of R7RS (small) but (scheme r5rs) is there, with every name of appendix A; all of them
are defined, except the auxiliary keywords, which are names without a value. -/
theorem C95_r7rs : ∀ st ∈ r7rs, ∃ xs, Loads table st.key xs ∧
    ∀ n ∈ st.names, Offers xs n ∧ (Defines xs n ∨ n ∈ auxiliary) := by
  have h : (r7rs.all (covers auxiliary)) = true := by decide +kernel
  exact fun st hst => covers_spec (List.all_eq_true.1 h st hst)

/-- (scheme r5rs): the same, but for `interaction-environment`. -/
theorem C95_r5rs_partial : ∀ st ∈ r5rs, ∃ xs, Loads table st.key xs ∧
    ∀ n ∈ st.names, Offers xs n ∧ (Defines xs n ∨ n = name! "interaction-environment") := by
  have h : (r5rs.all (covers [name! "interaction-environment"])) = true := by decide +kernel
  intro st hst
  obtain ⟨xs, h1, h2⟩ := covers_spec (List.all_eq_true.1 h st hst)
  exact ⟨xs, h1, fun n hn => ⟨(h2 n hn).1, (h2 n hn).2.imp_right fun h => by simpa using h⟩⟩

/-- False of `interaction-environment` of (scheme r5rs): it is exported, and nothing defines it. -/
theorem C95_r5rs_fails : ∃ xs, Loads table (name! "(scheme r5rs)") xs ∧
    Offers xs (name! "interaction-environment") ∧ ¬ Defines xs (name! "interaction-environment") := by
  have h : (match find (name! "(scheme r5rs)") interfaces with
      | some xs => (xs.any fun x => Nat.beq x.name (name! "interaction-environment")) &&
        xs.all fun x => !Nat.beq x.name (name! "interaction-environment") || x.origin.isNone
      | none => false) = true := by decide +kernel
  split at h
  · rename_i xs hx
    refine ⟨xs, loads_find (by decide +kernel) hx, ?_⟩
    simp only [Bool.and_eq_true, List.any_eq_true, List.all_eq_true, Bool.or_eq_true] at h
    obtain ⟨⟨x, hx1, hx2⟩, h2⟩ := h
    refine ⟨⟨x, hx1, Nat.eq_of_beq_eq_true hx2⟩, ?_⟩
    rintro ⟨y, hy, hn, ho⟩
    have := h2 y hy
    rw [hn, Nat.beq_refl] at this
    simp only [Bool.not_true, Bool.false_eq_true, false_or] at this
    rw [Option.isNone_iff_eq_none] at this
    rw [this] at ho
    cases ho
  · cases h

/-- The names of SRFI 141 that R7RS has in (scheme base). -/
def baseDivision : List Name :=
  names! "floor/ floor-quotient floor-remainder truncate/ truncate-quotient truncate-remainder"

/-- The libraries of R7RS large have all their names, all defined, but for six names of
(scheme division). -/
theorem C95_large_partial : ∀ st ∈ large, ∃ xs, Loads table st.key xs ∧
    ∀ n ∈ st.names, Defines xs n ∨ (st.key = name! "(scheme division)" ∧ n ∈ baseDivision) := by
  have h : (large.all fun st => covers []
      ⟨st.key, st.names.filter fun n => !(Nat.beq st.key (name! "(scheme division)") && among n baseDivision)⟩) =
      true := by decide +kernel
  intro st hst
  obtain ⟨xs, h1, h2⟩ := covers_spec (List.all_eq_true.1 h st hst)
  refine ⟨xs, h1, ?_⟩
  intro n hn
  by_cases hd : Nat.beq st.key (name! "(scheme division)") = true ∧ among n baseDivision = true
  · exact Or.inr ⟨Nat.eq_of_beq_eq_true hd.1, among_iff.1 hd.2⟩
  · refine Or.inl ?_
    have := (h2 n (by
      simp only [List.mem_filter, Bool.not_eq_true', Bool.and_eq_false_iff]
      refine ⟨hn, ?_⟩
      by_cases h1 : Nat.beq st.key (name! "(scheme division)") = true
      · exact Or.inr (Bool.eq_false_iff.2 fun h => hd ⟨h1, h⟩)
      · exact Or.inl (Bool.eq_false_iff.2 h1))).2
    simpa using this

/-- False of (scheme division): it does not export them. -/
theorem C95_division_fails : ∃ xs, Loads table (name! "(scheme division)") xs ∧
    ∀ n ∈ baseDivision, ¬ Offers xs n := by
  have h : (match find (name! "(scheme division)") interfaces with
      | some xs => xs.all fun x => !among x.name baseDivision
      | none => false) = true := by decide +kernel
  split at h
  · rename_i xs hx
    refine ⟨xs, loads_find (by decide +kernel) hx, ?_⟩
    rintro n hn ⟨x, hx1, rfl⟩
    have := List.all_eq_true.1 h x hx1
    rw [among_iff.2 hn] at this
    cases this
  · cases h

/-- The SRFIs have all their names, all defined. -/
theorem C95_srfis : ∀ st ∈ srfis, ∃ xs, Loads table st.key xs ∧ ∀ n ∈ st.names, Defines xs n := by
  have h : (srfis.all (covers [])) = true := by decide +kernel
  intro st hst
  obtain ⟨xs, h1, h2⟩ := covers_spec (List.all_eq_true.1 h st hst)
  exact ⟨xs, h1, fun n hn => by simpa using (h2 n hn).2⟩

/-! ### Importing several libraries -/

theorem compatible_listed : (compatible.all fun k => (Library.find k table).isSome) = true := by
  decide +kernel

/-- The import sets of the libraries, once they are deep enough. -/
theorem interface_compatible {a : Name} (ha : a ∈ compatible) {depth : Nat} (hd : order.length < depth) :
    interface table depth a = find a interfaces := by
  obtain ⟨l, hl⟩ := Option.isSome_iff_exists.1 (List.all_eq_true.1 compatible_listed a ha)
  obtain ⟨d, rfl⟩ : ∃ d, depth = d + 1 := ⟨depth - 1, by omega⟩
  exact (loads hl (by omega)).1

theorem import_sets_exist {sets : List ImportSet} {depth : Nat} (hd : order.length < depth)
    (hs : ∀ s ∈ sets, s.Filtering ∧ s.base ∈ compatible) :
    ∃ xss, sets.map (importSet (interface table depth)) = xss.map some ∧
      List.Forall₂ (fun s ys => ∃ xs, find s.base interfaces = some xs ∧ ys.Sublist xs) sets xss := by
  induction sets with
  | nil => exact ⟨[], rfl, .nil⟩
  | cons s sets ih =>
    obtain ⟨xss, h1, h2⟩ := ih fun s h => hs s (by simp [h])
    obtain ⟨hf, hb⟩ := hs s (by simp)
    obtain ⟨xs, hx, _⟩ := compatible_interface hb
    obtain ⟨ys, g1, g2⟩ := filtering_sublist (get := interface table depth) hf
      (by rw [interface_compatible hb hd]; exact hx)
    exact ⟨ys :: xss, by simp [g1, h1], .cons ⟨xs, hx, g2⟩ h2⟩

theorem flatten_agree {sets : List ImportSet} {xss : List (List Exposed)}
    (hs : ∀ s ∈ sets, s.Filtering ∧ s.base ∈ compatible)
    (hp : sets.Pairwise fun s t => s.base = t.base → s.base ∉ once)
    (h : List.Forall₂ (fun s ys => ∃ xs, find s.base interfaces = some xs ∧ ys.Sublist xs) sets xss) :
    xss.flatten.Pairwise Agree := by
  induction h with
  | nil => exact .nil
  | @cons s ys sets xss h1 h2 ih =>
    obtain ⟨xs, hx, hsub⟩ := h1
    obtain ⟨p1, p2⟩ := List.pairwise_cons.1 hp
    rw [List.flatten_cons, List.pairwise_append]
    obtain ⟨xs', hx', hd, _⟩ := compatible_interface (hs s (by simp)).2
    rw [hx] at hx'
    cases hx'
    refine ⟨(distinct_pairwise hd).sublist hsub, ih (fun t ht => hs t (by simp [ht])) p2, ?_⟩
    intro x hxm y hym
    obtain ⟨zs, hz, hyz⟩ := List.mem_flatten.1 hym
    obtain ⟨t, ht, ws, hw, hsw⟩ : ∃ t ∈ sets, ∃ ws, find t.base interfaces = some ws ∧ zs.Sublist ws := by
      clear ih p2 p1 hym hs hp
      induction h2 with
      | nil => cases hz
      | cons g1 g2 ih2 =>
        rcases List.mem_cons.1 hz with rfl | hz
        · obtain ⟨ws, g3, g4⟩ := g1
          exact ⟨_, by simp, ws, g3, g4⟩
        · obtain ⟨t, g5, g6⟩ := ih2 hz
          exact ⟨t, by simp [g5], g6⟩
    exact compatible_agree (hs s (by simp)).2 (hs t (by simp [ht])).2 (p1 t ht) hx hw
      (hsub.subset hxm) (hsw.subset hyz)

theorem first_agree {xs : List Exposed} (h : xs.Pairwise Agree) {x y : Exposed} (hx : x ∈ xs)
    (hy : firstNamed x.name xs = some y) : y = x ∨ Agree y x := by
  induction xs with
  | nil => cases hx
  | cons z zs ih =>
    obtain ⟨h1, h2⟩ := List.pairwise_cons.1 h
    simp only [firstNamed] at hy
    cases hb : Nat.beq z.name x.name with
    | true =>
      rw [hb] at hy
      simp only [cond_true, Option.some.injEq] at hy
      subst hy
      rcases List.mem_cons.1 hx with rfl | hx
      · exact Or.inl rfl
      · exact Or.inr (h1 x hx)
    | false =>
      rw [hb] at hy
      rcases List.mem_cons.1 hx with rfl | hx
      · rw [Nat.beq_refl] at hb; cases hb
      · exact ih h2 hx hy

/-- Any import sets, in any number and order, made with `only` and `except` from the compatible standard
libraries can be imported together into a library or into an environment made by `environment` — those of
(scheme lazy) and (srfi 38) once. Each name they expose is bound, and means what it means in every library
that exposes it; no other name is bound. Missing: `prefix` and `rename` (C95_renamed_partial); (scheme r5rs), (scheme r4rs),
(srfi 0) and (srfi 111). -/
theorem C95_together_partial {sets : List ImportSet} {depth : Nat} (hd : order.length < depth) (key : Name)
    (hs : ∀ s ∈ sets, s.Filtering ∧ s.base ∈ compatible)
    (hp : sets.Pairwise fun s t => s.base = t.base → s.base ∉ once) :
    ∃ env, importSets (interface table depth) key sets [] = some env ∧
      (∀ s ∈ sets, ∃ xs, importSet (interface table depth) s = some xs ∧
        ∀ x ∈ xs, ∃ b, find x.name env = some b ∧ b.origin = x.origin ∧ ∀ v, x.cell = some v → b.cell = v) ∧
      ∀ n b, find n env = some b →
        ∃ s ∈ sets, ∃ xs, importSet (interface table depth) s = some xs ∧ Offers xs n := by
  obtain ⟨xss, h1, h2⟩ := import_sets_exist hd hs
  have hag := flatten_agree hs hp h2
  obtain ⟨env, h3, h4⟩ := importSets_agree (key := key) (done := []) (env := []) h1
    (by intro n; rfl) (by simpa using hag)
  simp only [List.nil_append] at h4
  refine ⟨env, h3, ?_, ?_⟩
  · intro s hsm
    have hmem : importSet (interface table depth) s ∈ xss.map some := by
      rw [← h1]; exact List.mem_map_of_mem hsm
    obtain ⟨xs, hxs, he⟩ := List.mem_map.1 hmem
    refine ⟨xs, he.symm, ?_⟩
    intro x hx
    have hxf : x ∈ xss.flatten := List.mem_flatten.2 ⟨xs, hxs, hx⟩
    obtain ⟨y, hy⟩ := firstNamed_of_mem hxf
    have hyn := firstNamed_some hy
    refine ⟨bindingOf key y, by rw [h4, hy]; rfl, ?_⟩
    rcases first_agree hag hxf hy with rfl | hag'
    · refine ⟨rfl, ?_⟩
      intro v hv
      simp [bindingOf, hv]
    · obtain ⟨a1, a2, a3⟩ := hag' hyn.2
      refine ⟨a3, ?_⟩
      intro v hv
      simp [bindingOf, a2, hv]
  · intro n b hb
    rw [h4] at hb
    cases hf : firstNamed n xss.flatten with
    | none => rw [hf] at hb; cases hb
    | some x =>
      have hx := firstNamed_some hf
      obtain ⟨xs, hxs, hxm⟩ := List.mem_flatten.1 hx.1
      have hmem : some xs ∈ sets.map (importSet (interface table depth)) := by
        rw [h1]; exact List.mem_map_of_mem hxs
      obtain ⟨s, hsm, he⟩ := List.mem_map.1 hmem
      exact ⟨s, hsm, xs, he, x, hxm, hx.2⟩

end Meevax.System
