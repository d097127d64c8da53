import Verif.Model.SystemReport
import Verif.Props.System

/-
C102: the environments of the reports.
-/

namespace Meevax.System

/-- The syntactic keywords of R5RS (section 7.1.1 without `else`, `=>`, `unquote`, `unquote-splicing`;
`syntax-rules` and the forms of sections 5.3 and 4.3). -/
def r5rsKeywords : List Name :=
  names! "quote lambda if set! begin cond and or case let let* letrec do delay quasiquote define
    define-syntax let-syntax letrec-syntax syntax-rules"

/-- The syntactic keywords that R5RS has and R4RS (without its appendix) has not. -/
def r5rsOnly : List Name := names! "define-syntax let-syntax letrec-syntax syntax-rules"

set_option maxRecDepth 100000

/-! ## The name of the library -/

theorem decimal_pos (n : Nat) : 48 ≤ decimal n := by
  unfold decimal; split <;> omega

theorem decimal_four {n : Nat} {d : Nat} (hd : d < 10) (h : decimal n = 48 + d) : n = d := by
  unfold decimal at h
  split at h
  · omega
  · have := decimal_pos (n / 10); omega

theorem concat_pos {a b : Nat} (hb : b ≠ 0) :
    @Eq Nat (concat a b) (a * 256 ^ (Nat.log2 b / 8 + 1) + b) := by
  unfold concat
  cases h : Nat.beq b 0 with
  | true => exact absurd (Nat.eq_of_beq_eq_true h) hb
  | false => rfl

theorem concat_digit {p b d : Nat} (hp : 1 ≤ p) (hb : 1 ≤ b) (hd : d < 256)
    (h : @Eq Nat (concat p b) (p * 256 + d)) : b = d := by
  rw [concat_pos (by omega)] at h
  rcases hl : Nat.log2 b / 8 with _ | l
  · rw [hl] at h; omega
  · rw [hl] at h
    have h₁ : 256 ^ 2 ≤ 256 ^ (l + 1 + 1) := Nat.pow_le_pow_right (by decide) (by omega)
    have h₂ : p * 256 ^ 2 ≤ p * 256 ^ (l + 1 + 1) := Nat.mul_le_mul_left p h₁
    have h₃ : p * 256 ^ 2 = p * 256 * 256 := by rw [Nat.pow_two, Nat.mul_assoc]
    omega

theorem reportKey_eq (n : Nat) :
    @Eq Nat (reportKey n) (concat (name! "(scheme r") (decimal n) * 16777216 + name! "rs)") := by
  unfold reportKey
  rw [concat_pos (by decide)]
  congr 1

theorem add_mod_of_eq {a c r m : Nat} (h : a = c * m + r) (hr : r < m) : a % m = r := by
  subst h
  rw [Nat.mul_add_mod_self_right, Nat.mod_eq_of_lt hr]

theorem reportKey_mod (n : Nat) : @Eq Nat ((reportKey n : Nat) % 16777216) (name! "rs)") :=
  add_mod_of_eq (reportKey_eq n) (by decide)

theorem reportKey_digit {n d : Nat} (hd : d < 10)
    (h : @Eq Nat (reportKey n) ((name! "(scheme r" * 256 + (48 + d)) * 16777216 + name! "rs)")) : n = d := by
  rw [reportKey_eq] at h
  have h' := Nat.eq_of_mul_eq_mul_right (by decide) (Nat.add_right_cancel h)
  exact decimal_four hd
    (concat_digit (by decide) (by have := decimal_pos n; omega) (by omega) h')

theorem reportKey_four {n : Nat} (h : reportKey n = name! "(scheme r4rs)") : n = 4 :=
  reportKey_digit (by decide) (h.trans (by decide +kernel))

theorem reportKey_five {n : Nat} (h : reportKey n = name! "(scheme r5rs)") : n = 5 :=
  reportKey_digit (by decide) (h.trans (by decide +kernel))

/-- The libraries whose names end like those of reports. -/
theorem report_libraries : (order.all fun k =>
    bif Nat.beq ((k : Nat) % 16777216) (name! "rs)") then
      Nat.beq k (name! "(scheme r4rs)") || Nat.beq k (name! "(scheme r5rs)")
    else true) = true := by decide +kernel

theorem report_library {k r m a b : Nat}
    (h : (bif Nat.beq (k % m) r then Nat.beq k a || Nat.beq k b else true) = true) (hm : k % m = r) :
    k = a ∨ k = b := by
  rw [hm, Nat.beq_refl, cond_true, Bool.or_eq_true] at h
  exact h.imp Nat.eq_of_beq_eq_true Nat.eq_of_beq_eq_true

theorem report_ends {k : Name} (hk : k ∈ order) (hm : @Eq Nat ((k : Nat) % 16777216) (name! "rs)")) :
    k = name! "(scheme r4rs)" ∨ k = name! "(scheme r5rs)" :=
  report_library (List.all_eq_true.1 report_libraries k hk) hm

theorem reportKey_find {n : Nat} {l : Library} (h : Library.find (reportKey n) table = some l) :
    n = 4 ∨ n = 5 := by
  obtain ⟨hk, hm⟩ := find_library h
  have ho := among_iff.1 (List.all_eq_true.1 complete l hm)
  rw [hk] at ho
  exact (report_ends ho (reportKey_mod n)).imp reportKey_four reportKey_five

theorem decimal_digit {n : Nat} (h : n < 10) : decimal n = 48 + n := by
  unfold decimal; rw [if_pos h]

theorem reportKey_4 : reportKey 4 = name! "(scheme r4rs)" := by
  rw [reportKey, decimal_digit (by decide)]; decide +kernel

theorem reportKey_5 : reportKey 5 = name! "(scheme r5rs)" := by
  rw [reportKey, decimal_digit (by decide)]; decide +kernel

/-! ## The import -/

/-- The names of the library are different. -/
def distinctIn (k : Name) : Bool :=
  match find k interfaces with
  | some xs => distinct xs
  | none => false

theorem distinctIn_spec {k : Name} (h : distinctIn k = true) (hf : (Library.find k table).isSome = true) :
    ∃ xs, find k interfaces = some xs ∧ Loads table k xs ∧
      (∀ depth, order.length < depth → interface table depth k = some xs) ∧ xs.Pairwise Agree := by
  unfold distinctIn at h
  split at h
  · rename_i xs hx
    refine ⟨xs, hx, loads_find hf hx, fun depth hd => ?_, distinct_pairwise h⟩
    obtain ⟨l, hl⟩ := Option.isSome_iff_exists.1 hf
    obtain ⟨d, rfl⟩ : ∃ d, depth = d + 1 := ⟨depth - 1, by omega⟩
    rw [(loads hl (by omega)).1, hx]
  · cases h

theorem distinct_r4rs : distinctIn (name! "(scheme r4rs)") = true := by decide +kernel
theorem distinct_r5rs : distinctIn (name! "(scheme r5rs)") = true := by decide +kernel
theorem listed_r4rs : (Library.find (name! "(scheme r4rs)") table).isSome = true := by decide +kernel
theorem listed_r5rs : (Library.find (name! "(scheme r5rs)") table).isSome = true := by decide +kernel

theorem distinctIn_of {k k' : Name} (h : k' = k) (hd : distinctIn k = true)
    (hf : (Library.find k table).isSome = true) :
    ∃ xs, find k' interfaces = some xs ∧ Loads table k' xs ∧
      (∀ depth, order.length < depth → interface table depth k' = some xs) ∧ xs.Pairwise Agree := by
  subst h
  exact distinctIn_spec hd hf

theorem report_interface {n : Nat} (hn : n = 4 ∨ n = 5) :
    ∃ xs, find (reportKey n) interfaces = some xs ∧ Loads table (reportKey n) xs ∧
    (∀ depth, order.length < depth → interface table depth (reportKey n) = some xs) ∧
    xs.Pairwise Agree := by
  rcases hn with hn | hn
  · exact distinctIn_of ((congrArg reportKey hn).trans reportKey_4) distinct_r4rs listed_r4rs
  · exact distinctIn_of ((congrArg reportKey hn).trans reportKey_5) distinct_r5rs listed_r5rs

theorem interface_missing {t : List Library} {k : Name} (h : Library.find k t = none) (depth : Nat) :
    interface t depth k = none := by
  cases depth with
  | zero => rfl
  | succ d => unfold interface; rw [h]

theorem interface_none {n : Nat} (hn : ¬ (n = 4 ∨ n = 5)) (depth : Nat) :
    interface table depth (reportKey n) = none :=
  interface_missing (Option.eq_none_iff_forall_not_mem.2 fun _ h => hn (reportKey_find h)) depth

theorem environment_one {get : Name → Option (List Exposed)} {key : Name} {s : ImportSet}
    {xs : List Exposed} (hx : importSet get s = some xs) (hp : xs.Pairwise Agree) :
    ∃ env, environment get key [s] = some env ∧
      ∀ n, find n env = (firstNamed n xs).map (bindingOf key) := by
  obtain ⟨env, h₁, h₂⟩ := importSets_agree (get := get) (key := key) (sets := [s]) (xss := [xs])
    (done := []) (env := []) (by simp [hx]) (fun n => rfl) (by simpa using hp)
  exact ⟨env, h₁, by simpa using h₂⟩

/-! ## C102 -/

/-- **C102**: `scheme-report-environment` and `null-environment` give an environment for the versions 4 and
5, and raise an error for every other version. -/
theorem C102_versions {depth : Nat} (hd : order.length < depth) (key : Name) (n : Nat) :
    ((schemeReportEnvironment (interface table depth) key n).isSome ↔ n = 4 ∨ n = 5) ∧
    ((nullEnvironment (interface table depth) key n).isSome ↔ n = 4 ∨ n = 5) := by
  by_cases hn : n = 4 ∨ n = 5
  · obtain ⟨xs, -, -, hx, hp⟩ := report_interface hn
    obtain ⟨env, h₁, -⟩ := environment_one (get := interface table depth) (key := key)
      (s := .library (reportKey n)) (hx depth hd) hp
    obtain ⟨env', h₂, -⟩ := environment_one (get := interface table depth) (key := key)
      (s := .only (.library (reportKey n)) nullNames)
      (xs := xs.filter fun x => among x.name nullNames)
      (by simp only [importSet, hx depth hd, Option.map_some]) (hp.filter _)
    simp [schemeReportEnvironment, nullEnvironment, h₁, h₂, hn]
  · simp [schemeReportEnvironment, nullEnvironment, environment, importSets, importSet,
      interface_none hn, hn]

/-- **C102**: the environment has exactly the names that the library of the version exports, and they are
the variables of that library. -/
theorem C102_report {depth : Nat} (hd : order.length < depth) (key : Name) {n : Nat} {env : Environment}
    (h : schemeReportEnvironment (interface table depth) key n = some env) :
    ∃ xs, Loads table (reportKey n) xs ∧ (∀ m, (find m env).isSome ↔ Offers xs m) ∧
      ∀ x ∈ xs, ∃ b, find x.name env = some b ∧ b.origin = x.origin ∧ ∀ v, x.cell = some v → b.cell = v := by
  have hn : n = 4 ∨ n = 5 := (C102_versions hd key n).1.1 (by rw [h]; rfl)
  obtain ⟨xs, -, hl, hx, hp⟩ := report_interface hn
  obtain ⟨env', h₁, h₂⟩ := environment_one (get := interface table depth) (key := key)
    (s := .library (reportKey n)) (hx depth hd) hp
  rw [schemeReportEnvironment] at h
  rw [h] at h₁
  cases h₁
  refine ⟨xs, hl, fun m => ?_, fun x hxm => ?_⟩
  · rw [h₂]
    constructor
    · intro hs
      cases hf : firstNamed m xs with
      | none => rw [hf] at hs; cases hs
      | some y => exact ⟨y, firstNamed_some hf⟩
    · rintro ⟨y, hy, rfl⟩
      obtain ⟨z, hz⟩ := firstNamed_of_mem hy
      rw [hz]; rfl
  · obtain ⟨z, hz⟩ := firstNamed_of_mem hxm
    rcases first_agree hp hxm hz with rfl | ha
    · exact ⟨bindingOf key z, by rw [h₂, hz]; rfl, rfl, fun v hv => by simp [bindingOf, hv]⟩
    · obtain ⟨a1, a2, a3⟩ := ha (firstNamed_some hz).2
      exact ⟨bindingOf key z, by rw [h₂, hz]; rfl, a3, fun v hv => by simp [bindingOf, a2, hv]⟩

/-- The library defines the keywords, but for those of the list, which it does not have. -/
def keywordsIn (k : Name) (missing : List Name) : Bool :=
  match find k interfaces with
  | some xs => nullNames.all fun n =>
      bif among n missing then xs.all fun x => !Nat.beq x.name n
      else xs.any fun x => Nat.beq x.name n && x.origin.isSome
  | none => false

theorem keywords_r4rs : keywordsIn (name! "(scheme r4rs)") r5rsOnly = true := by decide +kernel
theorem keywords_r5rs : keywordsIn (name! "(scheme r5rs)") [] = true := by decide +kernel

theorem keywordsIn_spec {k k' : Name} {missing : List Name} {xs : List Exposed} (hk : k' = k)
    (h : keywordsIn k missing = true) (hx : find k' interfaces = some xs) {n : Name} (hn : n ∈ nullNames) :
    (n ∈ missing ∧ ¬ Offers xs n) ∨ (n ∉ missing ∧ Defines xs n) := by
  subst hk
  unfold keywordsIn at h
  rw [hx] at h
  have h := List.all_eq_true.1 h n hn
  cases ha : among n missing with
  | true =>
    rw [ha, cond_true] at h
    refine .inl ⟨among_iff.1 ha, ?_⟩
    rintro ⟨x, hx, rfl⟩
    have := List.all_eq_true.1 h x hx
    rw [Nat.beq_refl] at this
    cases this
  | false =>
    rw [ha, cond_false] at h
    obtain ⟨x, hx, h⟩ := List.any_eq_true.1 h
    rw [Bool.and_eq_true] at h
    exact .inr ⟨fun hm => Bool.eq_false_iff.1 ha (among_iff.2 hm), x, hx, Nat.eq_of_beq_eq_true h.1, h.2⟩

theorem null_find {get : Name → Option (List Exposed)} {key n : Nat} {xs : List Exposed}
    (hx : get (reportKey n) = some xs) (hp : xs.Pairwise Agree) :
    ∃ env, nullEnvironment get key n = some env ∧
      (∀ m, (find m env).isSome ↔ m ∈ nullNames ∧ Offers xs m) ∧
      ∀ m b, find m env = some b → ∃ x ∈ xs, x.name = m ∧ b = bindingOf key x := by
  obtain ⟨env, h₁, h₂⟩ := environment_one (get := get) (key := key)
    (s := .only (.library (reportKey n)) nullNames) (xs := xs.filter fun x => among x.name nullNames)
    (by simp only [importSet, hx, Option.map_some]) (hp.filter _)
  refine ⟨env, h₁, fun m => ?_, fun m b hb => ?_⟩
  · rw [h₂]
    constructor
    · intro hs
      cases hf : firstNamed m (xs.filter fun x => among x.name nullNames) with
      | none => rw [hf] at hs; cases hs
      | some y =>
        obtain ⟨h₃, rfl⟩ := firstNamed_some hf
        obtain ⟨h₃, h₄⟩ := List.mem_filter.1 h₃
        exact ⟨among_iff.1 h₄, y, h₃, rfl⟩
    · rintro ⟨hm, y, hy, rfl⟩
      obtain ⟨z, hz⟩ := firstNamed_of_mem (xs := xs.filter fun x => among x.name nullNames)
        (List.mem_filter.2 ⟨hy, among_iff.2 hm⟩)
      rw [hz]; rfl
  · rw [h₂] at hb
    obtain ⟨x, hf, rfl⟩ := Option.map_eq_some_iff.1 hb
    obtain ⟨h₃, rfl⟩ := firstNamed_some hf
    exact ⟨x, (List.mem_filter.1 h₃).1, rfl, rfl⟩

theorem keywords_same : (r5rsKeywords.all fun n => among n nullNames) = true ∧
    (nullNames.all fun n => among n r5rsKeywords) = true := by decide +kernel

theorem mem_nullNames {n : Name} : n ∈ nullNames ↔ n ∈ r5rsKeywords :=
  ⟨fun h => among_iff.1 (List.all_eq_true.1 keywords_same.2 n h),
    fun h => among_iff.1 (List.all_eq_true.1 keywords_same.1 n h)⟩

theorem null_version {depth : Nat} (hd : order.length < depth) (key : Name) {n : Nat} {k : Name}
    {missing : List Name} (hn : n = 4 ∨ n = 5) (hk : reportKey n = k) (h : keywordsIn k missing = true) :
    ∃ env, nullEnvironment (interface table depth) key n = some env ∧
      (∀ m, (find m env).isSome ↔ m ∈ r5rsKeywords ∧ m ∉ missing) ∧
      ∀ m b, find m env = some b → b.origin.isSome := by
  obtain ⟨xs, hf, -, hx, hp⟩ := report_interface hn
  obtain ⟨env, h₁, h₂, h₃⟩ := null_find (key := key) (hx depth hd) hp
  have hsome : ∀ m, (find m env).isSome ↔ m ∈ r5rsKeywords ∧ m ∉ missing := by
    intro m
    rw [h₂, mem_nullNames]
    refine and_congr_right fun hm => ?_
    rcases keywordsIn_spec hk h hf (mem_nullNames.2 hm) with ⟨h₄, h₅⟩ | ⟨h₄, x, hx, hn, -⟩
    · exact ⟨fun h => absurd h h₅, fun h => absurd h₄ h⟩
    · exact ⟨fun _ => h₄, fun _ => ⟨x, hx, hn⟩⟩
  refine ⟨env, h₁, hsome, fun m b hb => ?_⟩
  have hm := (hsome m).1 (by rw [hb]; rfl)
  obtain ⟨x, hxm, rfl, rfl⟩ := h₃ m b hb
  rcases keywordsIn_spec hk h hf (mem_nullNames.2 hm.1) with ⟨h₄, -⟩ | ⟨-, y, hy, hyn, ho⟩
  · exact absurd h₄ hm.2
  · show x.origin.isSome = true
    obtain ⟨z, hz⟩ := firstNamed_of_mem hxm
    have e₁ : z.origin = x.origin := by
      rcases first_agree hp hxm hz with rfl | ha
      · rfl
      · exact (ha (firstNamed_some hz).2).2.2
    have e₂ : z.origin = y.origin := by
      rcases first_agree hp hy (hyn ▸ hz) with rfl | ha
      · rfl
      · exact (ha ((firstNamed_some hz).2.trans hyn.symm)).2.2
    rw [← e₁, e₂]
    exact ho

/-- **C102**: `(null-environment 5)` has exactly the syntactic keywords of R5RS, and all of them are
defined. -/
theorem C102_null {depth : Nat} (hd : order.length < depth) (key : Name) :
    ∃ env, nullEnvironment (interface table depth) key 5 = some env ∧
      (∀ m, (find m env).isSome ↔ m ∈ r5rsKeywords) ∧
      ∀ m b, find m env = some b → b.origin.isSome := by
  obtain ⟨env, h₁, h₂, h₃⟩ := null_version hd key (.inr rfl) reportKey_5 keywords_r5rs
  exact ⟨env, h₁, fun m => by rw [h₂]; simp, h₃⟩

/-- **C102**: `(null-environment 4)` has exactly those that R4RS has without its appendix. -/
theorem C102_null_four {depth : Nat} (hd : order.length < depth) (key : Name) :
    ∃ env, nullEnvironment (interface table depth) key 4 = some env ∧
      (∀ m, (find m env).isSome ↔ m ∈ r5rsKeywords ∧ m ∉ r5rsOnly) ∧
      ∀ m b, find m env = some b → b.origin.isSome :=
  null_version hd key (.inl rfl) reportKey_4 keywords_r4rs

/-- The depth can be met, and there are both kinds of versions. -/
example : order.length < 100 ∧ (∃ n, n = 4 ∨ n = 5) ∧ ∃ n, ¬ (n = 4 ∨ n = 5) :=
  ⟨by rw [order_length]; decide, ⟨5, .inr rfl⟩, 6, by decide⟩

end Meevax.System
