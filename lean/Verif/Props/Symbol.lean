import Verif.Lemmas.Symbol
import Verif.Props.Utf8

/-
C45: symbols.
-/

namespace Meevax.Symbol
open Meevax.GC Meevax.GC.Spec Meevax.PointerSet Meevax.PointerSet.Spec Meevax.Text

variable {g : Word}

theorem slot_unique {table : Table} (h : (table.map Prod.fst).Nodup) {name : Name} {s1 s2 : Nat}
    (h1 : (name, s1) ∈ table) (h2 : (name, s2) ∈ table) : s1 = s2 := by
  induction table with
  | nil => cases h1
  | cons e t ih =>
    simp only [List.map_cons, List.nodup_cons] at h
    have hno : ∀ s, (name, s) ∈ t → e.1 ≠ name := fun s hs he =>
      h.1 (he ▸ List.mem_map_of_mem (f := Prod.fst) hs)
    rcases List.mem_cons.1 h1 with h1 | h1 <;> rcases List.mem_cons.1 h2 with h2 | h2
    · rw [← h2] at h1
      cases h1
      rfl
    · exact absurd (by rw [← h1]) (hno _ h2)
    · exact absurd (by rw [← h2]) (hno _ h1)
    · exact ih h.2 h1 h2

/-- C45: in any run, with any allocations, assignments and collections in between, two calls of
`make_symbol` return the same object if and only if they were given the same name. -/
theorem C45_interned {w : World g} {calls : List (Name × Nat)} (h : History g w calls)
    (c1 c2 : Name × Nat) (h1 : c1 ∈ calls) (h2 : c2 ∈ calls) : c1.2 = c2.2 ↔ c1.1 = c2.1 := by
  have hi := inv_history h
  obtain ⟨s1, m1, p1⟩ := hi.calls c1 h1
  obtain ⟨s2, m2, p2⟩ := hi.calls c2 h2
  constructor
  · intro he
    have := hi.distinct _ m1 _ m2 (by simp only; rw [p1, p2, he])
    injection this
  · intro he
    rw [he] at m1
    rw [slot_unique hi.names m1 m2, p2] at p1
    exact (Option.some.inj p1).symm

/-- C45 for `string->symbol` (boot.cpp L373), which encodes its argument: on strings without NUL, the
same symbol if and only if the same string. -/
theorem C45_string_partial {w : World g} {calls : List (Name × Nat)} (h : History g w calls)
    (cs1 cs2 : List Char) (d1 d2 : Nat) (hn1 : ∀ c ∈ cs1, c ≠ '\x00') (hn2 : ∀ c ∈ cs2, c ≠ '\x00')
    (h1 : (utf8String (cs1.map Char.toNat), d1) ∈ calls)
    (h2 : (utf8String (cs2.map Char.toNat), d2) ∈ calls) : d1 = d2 ↔ cs1 = cs2 := by
  rw [C45_interned h _ _ h1 h2]
  constructor
  · intro he
    have e1 := C16_string_partial hn1
    simp only at he
    rw [he, C16_string_partial hn2, Option.some.injEq] at e1
    exact (List.map_injective_iff.2 (fun a b h => Char.toNat_inj.1 h) e1).symm
  · intro he; rw [he]

/-- C45 fails for strings with NUL: it is dropped from the name, so that `"a\x0;b"` and `"ab"` give the
same symbol. -/
theorem C45_nul_fails {w : World g} {calls : List (Name × Nat)} (h : History g w calls) (d1 d2 : Nat)
    (h1 : (utf8String [0x61, 0, 0x62], d1) ∈ calls) (h2 : (utf8String [0x61, 0x62], d2) ∈ calls) :
    d1 = d2 :=
  (C45_interned h _ _ h1 h2).2 (show utf8String _ = utf8String _ by decide)

/-- C45: a symbol is never freed. -/
theorem C45_never_freed {w : World g} {calls : List (Name × Nat)} (h : History g w calls)
    (c : Name × Nat) (hc : c ∈ calls) : Live w.memory c.2 := by
  have hi := inv_history h
  obtain ⟨s, _, p⟩ := hi.calls c hc
  exact hi.wf.target s c.2 p

/-- `make_symbol` is defined in every state: for a name in the table it returns the object the first
call returned, and for any other name it makes a new one wherever the allocator finds room. -/
theorem C45_defined {w : World g} {calls : List (Name × Nat)} (h : History g w calls) (name : Name) :
    (name ∈ w.table.map Prod.fst ∧ ∃ d, Event g w (some (name, d)) w) ∨
    (∃ σ1, request w.memory 0x20 = some σ1 ∧ ∀ d base extent slot, 0x20 ≤ extent →
      Fits σ1 d base extent [] → Apart w.table base extent [] → Address slot →
      (∀ e ∈ w.table, slot ≠ e.2) → (∀ e, Live σ1 e → ¬ Within σ1 slot e ∧ slot ∉ σ1.fields e) →
      ¬ (base ≤ slot ∧ slot < base + extent) → ∃ w', Event g w (some (name, d)) w' ∧ w'.out = w.out ∧
        w'.table = (name, slot) :: w.table) := by
  have hi := inv_history h
  cases hf : find w.table name with
  | some slot =>
    obtain ⟨d, hd⟩ := hi.held _ (find_mem hf)
    exact .inl ⟨List.mem_map_of_mem (f := Prod.fst) (find_mem hf), d, .found hf hd⟩
  | none =>
    right
    obtain ⟨σ1, h1⟩ : ∃ σ1, request w.memory 0x20 = some σ1 := by
      unfold request
      simp only
      split
      · obtain ⟨σ', e, _⟩ := collect_spec (wf_size hi.wf (w.memory.size + 0x20) w.memory.capacity)
        exact ⟨σ', e⟩
      · exact ⟨_, rfl⟩
    refine ⟨σ1, h1, fun d base extent slot he hfit hap hs hne hout hb => ?_⟩
    have hw1 := wf_request hi.wf h1
    obtain ⟨σ2, h2, _⟩ := wf_register hw1 hfit.datum hfit.start hfit.stop hfit.low hfit.high hfit.apart
      hfit.nodup hfit.fresh hfit.inside
    obtain ⟨hw2, _, hl2, _, ho2⟩ := register_spec hw1 hfit h2
    have hout2 := ho2 slot hout hb (by simp)
    obtain ⟨σ3, h3, _⟩ := wf_assign hw2 hs (v := some d) (fun x hx => by cases hx; exact (hl2 d).2 (.inl rfl))
      (fun x hx hx' => absurd hx' (hout2 x hx).1)
    have hin : intern w.memory w.table name 0x20 d base extent [] slot = some (σ3, (name, slot) :: w.table) := by
      unfold intern
      rw [h1]
      simp only
      rw [h2]
      simp only
      rw [h3]
    exact ⟨_, .made hf h1 he hfit hap hs hne hout hb (by simp) hin, rfl, rfl⟩

theorem nothing_live (σ : State g) (h : σ.data = (init g).data) (e : Nat) : ¬ Live σ e := by
  intro hl
  have := (wf_init (g := g)).live e
  exact this.1 (by unfold Live at hl ⊢; rw [← h]; exact hl)

theorem request_init : request (init g) 0x20 = some { init g with size := 0x20 } := by
  unfold request init
  simp only
  rw [if_neg (by decide)]

/-- A run in which a symbol is made and found again after a collection. -/
example : ∃ (w : World g) (d : Nat),
    History g w [([0x66, 0x6F, 0x6F], d), ([0x66, 0x6F, 0x6F], 0x1000)] ∧ d = 0x1000 := by
  rcases C45_defined (History.start (g := g)) ([0x66, 0x6F, 0x6F]) with ⟨h, _⟩ | ⟨σ1, h1, h⟩
  · cases h
  · rw [request_init] at h1
    cases h1
    obtain ⟨w1, h1, _, ht⟩ := h 0x1000 0x1000 0x40 0x2000 (by decide)
      ⟨by decide, by decide, by decide, by decide, by decide,
        fun e he => absurd he (nothing_live _ rfl e), by simp,
        fun e he => absurd he (nothing_live _ rfl e), fun s _ _ hp => absurd rfl hp⟩
      (by intro e he; cases he) (by decide) (by intro e he; cases he)
      (fun e he => absurd he (nothing_live _ rfl e)) (by decide)
    have hh1 := History.step History.start h1
    obtain ⟨σ2, h2, _⟩ := collect_spec (inv_history hh1).wf
    have hh2 := History.step hh1 (.collect h2)
    have hf : find ({ w1 with memory := σ2 } : World g).table ([0x66, 0x6F, 0x6F]) = some 0x2000 := by
      simp only
      rw [ht]
      simp [find]
    obtain ⟨d, hd⟩ := (inv_history hh2).held _ (find_mem hf)
    have hh3 := History.step hh2 (.found hf hd)
    exact ⟨_, d, hh3, (C45_interned hh3 ([0x66, 0x6F, 0x6F], d) ([0x66, 0x6F, 0x6F], 0x1000) (by simp) (by simp)).2 rfl⟩

end Meevax.Symbol
