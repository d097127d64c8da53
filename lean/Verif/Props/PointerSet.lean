import Verif.Lemmas.PointerSetNode
import Verif.Spec.PointerSet
/-!
# C03, C04 — the collector's address set
-/
namespace Meevax.PointerSet
open Spec

/-! ## Generic facts about correct implementations -/

theorem visits_of_up {M : Impl} {key : Nat → Prop} (C : Correct M key) {s : M.S} (hs : C.Inv s)
    (e : M.I) (hi : Nat) (he : Up M C.mem C.At s hi e) :
    ∀ (n : Nat) (lo : Nat) (it : M.I), hi - lo ≤ n → lo ≤ hi → Up M C.mem C.At s lo it →
      ∃ xs, Visits M s it e xs ∧ xs.Pairwise (· < ·) ∧ ∀ u, u ∈ xs ↔ C.mem s u ∧ lo ≤ u ∧ u < hi := by
  intro n
  induction n with
  | zero =>
    intro lo it hn hle hup
    have : lo = hi := by omega
    subst this
    refine ⟨[], .done ?_, List.Pairwise.nil, ?_⟩
    · rcases hup with ⟨v, h1, h2, h3⟩ | ⟨rfl, h⟩
      · rcases he with ⟨w, g1, g2, g3⟩ | ⟨rfl, g⟩
        · have := h3 w (C.at_spec hs g1).2.2 g2
          have := g3 v (C.at_spec hs h1).2.2 h2
          exact (C.same_spec hs h1 g1).2 (by omega)
        · have := g v (C.at_spec hs h1).2.2
          omega
      · rcases he with ⟨w, g1, g2, g3⟩ | ⟨rfl, g⟩
        · have := h w (C.at_spec hs g1).2.2
          omega
        · rw [C.same_left C.stop_invalid, C.stop_invalid]; rfl
    · intro u; simp only [List.not_mem_nil, false_iff]; omega
  | succ n ih =>
    intro lo it hn hle hup
    rcases hup with ⟨v, h1, h2, h3⟩ | ⟨rfl, h⟩
    · have hv := (C.at_spec hs h1)
      by_cases hvh : v < hi
      · obtain ⟨it', e1, e2⟩ := C.inc_spec hs h1
        obtain ⟨xs, x1, x2, x3⟩ := ih (v + 1) it' (by omega) (by omega) e2
        refine ⟨v :: xs, ?_, List.pairwise_cons.2 ⟨?_, x2⟩, ?_⟩
        · rw [← hv.2.1]
          refine .step ?_ e1 x1
          rcases he with ⟨w, g1, g2, g3⟩ | ⟨rfl, g⟩
          · rw [Bool.eq_false_iff]
            intro hc
            have := (C.same_spec hs h1 g1).1 hc
            omega
          · rw [C.same_right C.stop_invalid, hv.1]; rfl
        · intro u hu
          have := ((x3 u).1 hu).2
          omega
        · intro u
          rw [List.mem_cons, x3 u]
          constructor
          · rintro (rfl | ⟨a, b, c⟩)
            · exact ⟨hv.2.2, h2, hvh⟩
            · exact ⟨a, by omega, c⟩
          · rintro ⟨a, b, c⟩
            have := h3 u a b
            by_cases hq : u = v
            · exact Or.inl hq
            · exact Or.inr ⟨a, by omega, c⟩
      · refine ⟨[], .done ?_, List.Pairwise.nil, ?_⟩
        · rcases he with ⟨w, g1, g2, g3⟩ | ⟨rfl, g⟩
          · have := h3 w (C.at_spec hs g1).2.2 (by omega)
            have := g3 v hv.2.2 (by omega)
            exact (C.same_spec hs h1 g1).2 (by omega)
          · have := g v hv.2.2
            omega
        · intro u
          simp only [List.not_mem_nil, false_iff]
          rintro ⟨a, b, c⟩
          have := h3 u a b
          omega
    · refine ⟨[], .done ?_, List.Pairwise.nil, ?_⟩
      · rcases he with ⟨w, g1, g2, g3⟩ | ⟨rfl, g⟩
        · have := h w (C.at_spec hs g1).2.2
          omega
        · rw [C.same_left C.stop_invalid, C.stop_invalid]; rfl
      · intro u
        simp only [List.not_mem_nil, false_iff]
        rintro ⟨a, b, c⟩
        have := h u a
        omega

/-- The canonical set of the collector is correct, whatever word lies past its arrays. -/
def canonicalCorrect (g : Word) : Correct (canonical g) Address :=
  have ok1 : Node.Ok { E := 15, Es := 32, c := 3 } := ⟨by decide, by decide⟩
  have ok2 : Node.Ok { E := 16, Es := 16, c := 0 } := ⟨by decide, by decide⟩
  let leaf : Correct (Leaf.impl 16 g) (· < 2 ^ 16) := Leaf.correct 16 g (by decide) (by decide)
  let mid : Correct _ (· < 2 ^ 32) := cast (by
      congr 1
      funext v
      simp [Node.Key, Nat.mod_one])
    (Node.correct (P := { E := 16, Es := 16, c := 0 }) g ok2 leaf)
  Node.correct (P := { E := 15, Es := 32, c := 3 }) g ok1 mid

theorem present_snoc (ops : List Op) (o : Op) (a : Nat) :
    present (ops ++ [o]) a = if o.addr = a then (match o with | .insert _ => true | .erase _ => false)
      else present ops a := by
  unfold present
  rw [List.filter_append]
  by_cases h : o.addr = a
  · rw [if_pos h]
    have : List.filter (fun o => o.addr == a) [o] = [o] := by simp [h]
    rw [this]
    cases o <;> simp
  · rw [if_neg h]
    have : List.filter (fun o => o.addr == a) [o] = [] := by simp [h]
    rw [this, List.append_nil]

theorem run_spec (g : Word) (ops : List Op) : ∀ (past : List Op) (s : (canonical g).S),
    (canonicalCorrect g).Inv s → (∀ a, (canonicalCorrect g).mem s a ↔ present past a = true) →
    LegalFrom past ops →
    ∃ s', run (canonical g) s ops = some s' ∧ (canonicalCorrect g).Inv s' ∧
      ∀ a, (canonicalCorrect g).mem s' a ↔ present (past ++ ops) a = true := by
  induction ops with
  | nil => intro past s h1 h2 _; exact ⟨s, rfl, h1, by simpa using h2⟩
  | cons o ops ih =>
    intro past s h1 h2 h3
    obtain ⟨hl, hrest⟩ := h3
    have step : ∀ s', (∀ a, (canonicalCorrect g).mem s' a ↔ present (past ++ [o]) a = true) →
        (canonicalCorrect g).Inv s' → ∃ s'', run (canonical g) s' ops = some s'' ∧
          (canonicalCorrect g).Inv s'' ∧
          ∀ a, (canonicalCorrect g).mem s'' a ↔ present (past ++ o :: ops) a = true := by
      intro s' a b
      have := ih (past ++ [o]) s' b a hrest
      simpa using this
    cases o with
    | insert x =>
      obtain ⟨s', e, i, m⟩ := (canonicalCorrect g).insert_spec h1 hl.1 (by
        rw [h2, hl.2]; simp)
      obtain ⟨s'', a, b, c⟩ := step s' (by
        intro a
        rw [m a, present_snoc, h2 a]
        by_cases hx : x = a
        · simp [Op.addr, hx]
        · simp [Op.addr, hx, Ne.symm hx]) i
      exact ⟨s'', by simp only [run, e, Option.bind_some]; exact a, b, c⟩
    | erase x =>
      obtain ⟨s', e, i, m⟩ := (canonicalCorrect g).erase_spec (v := x) h1 (by
        rw [h2]; exact hl.2)
      obtain ⟨s'', a, b, c⟩ := step s' (by
        intro a
        rw [m a, present_snoc, h2 a]
        by_cases hx : x = a
        · simp [Op.addr, hx]
        · simp [Op.addr, hx, Ne.symm hx]) i
      exact ⟨s'', by simp only [run, e, Option.bind_some]; exact a, b, c⟩

theorem reach (g : Word) (ops : List Op) (h : Legal ops) :
    ∃ s, run (canonical g) (canonical g).new ops = some s ∧ (canonicalCorrect g).Inv s ∧
      ∀ a, (canonicalCorrect g).mem s a ↔ present ops a = true := by
  have := run_spec g ops [] (canonical g).new (canonicalCorrect g).new_inv
    (fun a => by simp [present, (canonicalCorrect g).new_mem a]) h
  simpa using this

/-- Stepping back from a position found by `lower_bound`. -/
theorem step_back_of_up (g : Word) {s : (canonical g).S} (h2 : (canonicalCorrect g).Inv s) {k : Nat}
    {it : (canonical g).I} (hup : Up (canonical g) (canonicalCorrect g).mem (canonicalCorrect g).At s k it) :
    ∃ prev, (canonical g).dec s it = some prev ∧
      Down (canonical g) (canonicalCorrect g).mem (canonicalCorrect g).At s (· < k) prev := by
  rcases hup with ⟨v, a1, a2, a3⟩ | ⟨rfl, a⟩
  · obtain ⟨prev, e', hd⟩ := (canonicalCorrect g).dec_spec h2 a1
    refine ⟨prev, e', ?_⟩
    have key : ∀ u, (canonicalCorrect g).mem s u → (u < v ↔ u < k) := by
      intro u hu
      constructor
      · intro hlt
        apply Classical.byContradiction
        intro hn
        have := a3 u hu (by omega)
        omega
      · intro hlt; omega
    rcases hd with ⟨w, b1, b2, b3⟩ | ⟨b1, b2⟩
    · exact Or.inl ⟨w, b1, (key w ((canonicalCorrect g).at_spec h2 b1).2.2).1 b2,
        fun u hu hlt => b3 u hu ((key u hu).2 hlt)⟩
    · exact Or.inr ⟨b1, fun u hu hlt => b2 u hu ((key u hu).2 hlt)⟩
  · obtain ⟨prev, e', hd⟩ := Node.dec_stop (P := { E := 15, Es := 32, c := 3 }) g
      ⟨by decide, by decide⟩
      (fun t => Node.dec_default (P := { E := 16, Es := 16, c := 0 }) g t) h2
    refine ⟨prev, e', ?_⟩
    rcases hd with ⟨w, b1, b2, b3⟩ | ⟨b1, b2⟩
    · exact Or.inl ⟨w, b1, a w ((canonicalCorrect g).at_spec h2 b1).2.2, fun u hu _ => b3 u hu trivial⟩
    · exact Or.inr ⟨b1, fun u hu _ => b2 u hu trivial⟩

/-! ## The properties -/

/-- **C03.** After any legal history of insertions and erasures (of any length) the set is
in a defined state, membership queries answer whether the last operation on the address was
an insertion, and the reported size is the number of present addresses. -/
theorem C03_finite_set (g : Word) (ops : List Op) (h : Legal ops) :
    ∃ s, run (canonical g) (canonical g).new ops = some s ∧
      (∀ a, Address a → (canonical g).contains s a = some (present ops a)) ∧
      ∃ l : List Nat, l.Nodup ∧ (∀ a, a ∈ l ↔ present ops a = true) ∧ (canonical g).size s = l.length := by
  obtain ⟨s, h1, h2, h3⟩ := reach g ops h
  refine ⟨s, h1, ?_, ?_⟩
  · intro a ha
    obtain ⟨b, e, hb⟩ := (canonicalCorrect g).contains_spec h2 ha
    rw [e, Option.some.injEq, Bool.eq_iff_iff, hb, h3]
  · obtain ⟨l, a, b, c⟩ := (canonicalCorrect g).size_spec h2
    exact ⟨l, a, fun v => (b v).trans (h3 v), c⟩

/-- **C04.** Iterating from `begin()` to `end()` visits every present address exactly once
in increasing order. -/
theorem C04_traversal (g : Word) (ops : List Op) (h : Legal ops) (s : (canonical g).S)
    (hs : run (canonical g) (canonical g).new ops = some s) :
    ∃ it l, (canonical g).first s = some it ∧ Visits (canonical g) s it (canonical g).stop l ∧
      l.Pairwise (· < ·) ∧ ∀ a, a ∈ l ↔ present ops a = true := by
  obtain ⟨s', h1, h2, h3⟩ := reach g ops h
  rw [hs] at h1
  cases h1
  obtain ⟨it, e, hup⟩ := (canonicalCorrect g).first_spec h2
  have hstop : Up (canonical g) (canonicalCorrect g).mem (canonicalCorrect g).At s (2 ^ 47) (canonical g).stop :=
    Or.inr ⟨rfl, fun u hu => ((canonicalCorrect g).mem_key h2 hu).2⟩
  obtain ⟨l, a, b, c⟩ := visits_of_up (canonicalCorrect g) h2 _ _ hstop (2 ^ 47) 0 it (by omega) (by omega) hup
  refine ⟨it, l, e, a, b, ?_⟩
  intro u
  rw [c u, ← h3 u]
  constructor
  · rintro ⟨x, _⟩; exact x
  · intro x; exact ⟨x, by omega, ((canonicalCorrect g).mem_key h2 x).2⟩

/-- **C04.** `lower_bound(k)` yields the least present address `≥ k`, or an iterator equal
to `end()` when there is none. -/
theorem C04_lower_bound (g : Word) (ops : List Op) (h : Legal ops) (s : (canonical g).S)
    (hs : run (canonical g) (canonical g).new ops = some s) (k : Nat) (hk : Address k) :
    ∃ it, (canonical g).lowerBound s k = some it ∧
      (if (canonical g).valid it then
        present ops ((canonical g).deref it) = true ∧ k ≤ (canonical g).deref it ∧
          ∀ a, present ops a = true → k ≤ a → (canonical g).deref it ≤ a
      else (canonical g).same it (canonical g).stop = true ∧ ∀ a, present ops a = true → a < k) := by
  obtain ⟨s', h1, h2, h3⟩ := reach g ops h
  rw [hs] at h1
  cases h1
  obtain ⟨it, e, hup⟩ := (canonicalCorrect g).lower_spec h2 hk
  refine ⟨it, e, ?_⟩
  rcases hup with ⟨v, a1, a2, a3⟩ | ⟨rfl, a⟩
  · obtain ⟨b1, b2, b3⟩ := (canonicalCorrect g).at_spec h2 a1
    rw [if_pos b1, b2]
    exact ⟨(h3 v).1 b3, a2, fun u hu => a3 u ((h3 u).2 hu)⟩
  · rw [if_neg (by rw [(canonicalCorrect g).stop_invalid]; simp)]
    refine ⟨?_, fun u hu => a u ((h3 u).2 hu)⟩
    rw [(canonicalCorrect g).same_left (canonicalCorrect g).stop_invalid,
      (canonicalCorrect g).stop_invalid]
    rfl

/-- **C04.** The collector's loop over `[lower_bound(a), lower_bound(b))` visits exactly
the present addresses in `[a, b)`, each once, in increasing order. -/
theorem C04_range (g : Word) (ops : List Op) (h : Legal ops) (s : (canonical g).S)
    (hs : run (canonical g) (canonical g).new ops = some s) (a b : Nat) (ha : Address a)
    (hb : Address b) (hab : a ≤ b) :
    ∃ it last l, (canonical g).lowerBound s a = some it ∧ (canonical g).lowerBound s b = some last ∧
      Visits (canonical g) s it last l ∧ l.Pairwise (· < ·) ∧
      ∀ x, x ∈ l ↔ present ops x = true ∧ a ≤ x ∧ x < b := by
  obtain ⟨s', h1, h2, h3⟩ := reach g ops h
  rw [hs] at h1
  cases h1
  obtain ⟨it, e, hup⟩ := (canonicalCorrect g).lower_spec h2 ha
  obtain ⟨last, e', hup'⟩ := (canonicalCorrect g).lower_spec h2 hb
  obtain ⟨l, x, y, z⟩ := visits_of_up (canonicalCorrect g) h2 _ _ hup' (b - a) a it (Nat.le_refl _) hab hup
  exact ⟨it, last, l, e, e', x, y, fun u => by rw [z u, h3 u]⟩

/-- **C04.** Stepping backwards from `lower_bound(k)` — including from the end — yields the
greatest present address below `k`, or an invalid iterator when there is none. -/
theorem C04_step_back (g : Word) (ops : List Op) (h : Legal ops) (s : (canonical g).S)
    (hs : run (canonical g) (canonical g).new ops = some s) (k : Nat) (hk : Address k) :
    ∃ it prev, (canonical g).lowerBound s k = some it ∧ (canonical g).dec s it = some prev ∧
      (if (canonical g).valid prev then
        present ops ((canonical g).deref prev) = true ∧ (canonical g).deref prev < k ∧
          ∀ a, present ops a = true → a < k → a ≤ (canonical g).deref prev
      else ∀ a, present ops a = true → ¬ a < k) := by
  obtain ⟨s', h1, h2, h3⟩ := reach g ops h
  rw [hs] at h1
  cases h1
  obtain ⟨it, e, hup⟩ := (canonicalCorrect g).lower_spec h2 hk
  obtain ⟨prev, e', hd⟩ := step_back_of_up g h2 hup
  refine ⟨it, prev, e, e', ?_⟩
  rcases hd with ⟨v, a1, a2, a3⟩ | ⟨b1, b2⟩
  · obtain ⟨b1, b2, b3⟩ := (canonicalCorrect g).at_spec h2 a1
    rw [if_pos b1, b2]
    exact ⟨(h3 v).1 b3, a2, fun u hu => a3 u ((h3 u).2 hu)⟩
  · rw [if_neg (by rw [b1]; simp)]
    exact fun u hu => b2 u ((h3 u).2 hu)

/-- **C03, outside the stated range.** An address at or above 2^47 is not representable:
its insertion indexes past the child array (undefined behaviour). -/
theorem C03_high_address_fails (g : Word) : (canonical g).insert (canonical g).new (2 ^ 47) = none := by
  simp [canonical, Node.impl, Node.insert, Node.split, Node.N]

/-- **C03, outside the legal histories.** Inserting a present address again makes the size
wrong: the set {8} reports size 2. -/
theorem C03_double_insert_fails (g : Word) :
    (run (canonical g) (canonical g).new [.insert 8, .insert 8]).map (canonical g).size = some 2 := by
  simp [canonical, Node.impl, Node.insert, Node.split, Node.N, run, Leaf.impl, upd]

/-! A concrete history meeting the hypotheses: three addresses in different parts of the
address space, one erased again. -/
def exampleHistory : List Op :=
  [.insert 0x10, .insert 0x7f00_0000_1230, .insert 0x5555_0000_0008, .erase 0x10, .insert 0x18]

example : Legal exampleHistory := by decide
example : present exampleHistory 0x18 = true ∧ present exampleHistory 0x10 = false := by decide
example : Address 0x5555_0000_0000 ∧ Address 0x7fff_ffff_fff8 := by decide

end Meevax.PointerSet
