import Verif.Spec.Allocator
/-!
# C05 — a heap cell is never handed out twice while in use
-/
namespace Meevax.Allocator
open Spec

/-- `l` is the chain of links starting at `head`. -/
def Chain (link : Chunk → Option Chunk) : Option Chunk → List Chunk → Prop
  | none, [] => True
  | some c, d :: l => c = d ∧ Chain link (link c) l
  | _, _ => False

theorem Chain.congr {f g : Chunk → Option Chunk} : ∀ {l : List Chunk} {h : Option Chunk},
    (∀ c ∈ l, f c = g c) → Chain f h l → Chain g h l
  | [], none, _, _ => trivial
  | [], some _, _, h => h.elim
  | _ :: _, none, _, h => h.elim
  | d :: l, some c, hfg, h => by
    obtain ⟨rfl, h⟩ := h
    refine ⟨rfl, ?_⟩
    rw [← hfg c (by simp)]
    exact Chain.congr (fun x hx => hfg x (by simp [hx])) h

/-- The never-used chunks of the current block are those below `size`. -/
structure Inv (N : Nat) (h : List Event) (s : State) : Prop where
  chain : Chain s.link s.freeList (freed h)
  nodup : (held h ++ freed h).Nodup
  used : ∀ c ∈ held h ++ freed h, c.block < s.blocks ∧ c.index < N ∧
    (c.block + 1 = s.blocks → s.size ≤ c.index)
  size_le : s.size ≤ N
  blocks_pos : 0 < s.blocks

theorem inv_of_runs {N : Nat} (hN : 0 < N) {h : List Event} {s : State} (hr : Runs N h s) : Inv N h s := by
  induction hr with
  | start => exact ⟨trivial, by simp [held, freed], by simp [held, freed], Nat.le_refl _, Nat.one_pos⟩
  | @got h s c s' _ ha ih =>
    unfold allocate at ha
    have ⟨ch, nd, us, sl, bp⟩ := ih
    cases hf : s.freeList with
    | some x =>
      rw [hf] at ha ch
      simp only [Option.some.injEq, Prod.mk.injEq] at ha
      obtain ⟨rfl, rfl⟩ := ha
      cases hfr : freed h with
      | nil => rw [hfr] at ch; exact ch.elim
      | cons d l =>
        rw [hfr] at ch nd us
        obtain ⟨rfl, ch⟩ := ch
        have e : freed (.got x :: h) = l := by simp [freed, hfr]
        have eh : held (.got x :: h) = x :: held h := rfl
        have hp : (held h ++ x :: l).Perm (x :: held h ++ l) := List.perm_middle
        refine ⟨?_, ?_, ?_, sl, bp⟩
        · rw [e]; exact ch
        · rw [e, eh]; exact hp.nodup_iff.1 nd
        · rw [e, eh]
          intro c hc
          exact us c (hp.mem_iff.2 hc)
    | none =>
      rw [hf] at ha ch
      have hfr : freed h = [] := by
        cases hfr : freed h with
        | nil => rfl
        | cons d l => rw [hfr] at ch; exact ch.elim
      have fresh : ∀ (s1 : State), s1.link = s.link → s1.freeList = none →
          (∀ c ∈ held h ++ freed h, c.block < s1.blocks ∧ c.index < N ∧ (c.block + 1 = s1.blocks → s1.size ≤ c.index)) →
          s1.size ≤ N → 0 < s1.blocks →
          (if s1.size = 0 then none else some (({ block := s1.blocks - 1, index := s1.size - 1 } : Chunk),
            ({ s1 with size := s1.size - 1 } : State))) = some (c, s') → Inv N (.got c :: h) s' := by
        intro s1 _ hfl hus hsl hbp he
        by_cases hz : s1.size = 0
        · simp [hz] at he
        · rw [if_neg hz] at he
          simp only [Option.some.injEq, Prod.mk.injEq] at he
          obtain ⟨rfl, rfl⟩ := he
          have hnew : (⟨s1.blocks - 1, s1.size - 1⟩ : Chunk) ∉ held h ++ freed h := by
            intro hm
            have := (hus _ hm).2.2 (by simp only; omega)
            simp only at this
            omega
          have e : freed (.got ⟨s1.blocks - 1, s1.size - 1⟩ :: h) = freed h := by
            simp [freed, hfr]
          refine ⟨?_, ?_, ?_, ?_, hbp⟩
          · rw [e, hfr]; simp only [hfl]; trivial
          · rw [e]
            simp only [held, List.cons_append]
            exact List.nodup_cons.2 ⟨hnew, nd⟩
          · rw [e]
            intro c hc
            simp only [held, List.cons_append, List.mem_cons] at hc
            rcases hc with rfl | hc
            · simp only; omega
            · obtain ⟨a, b, d⟩ := hus c hc
              simp only
              exact ⟨a, b, fun hh => by have := d hh; omega⟩
          · simp only; omega
      by_cases hz : s.size = 0
      · simp only [hz, if_true] at ha
        refine fresh { s with blocks := s.blocks + 1, size := N } rfl hf ?_ (Nat.le_refl _) (by simp only; omega) (by rw [hf]; exact ha)
        intro c hc
        obtain ⟨a, b, _⟩ := us c hc
        simp only
        exact ⟨by omega, b, fun hh => by omega⟩
      · simp only [hz, if_false] at ha
        exact fresh s rfl hf us sl bp (by rw [if_neg hz]; exact ha)
  | @gave h s c _ hc ih =>
    have ⟨ch, nd, us, sl, bp⟩ := ih
    have hp : (held h ++ freed h).Perm ((held h).erase c ++ c :: freed h) :=
      ((List.perm_cons_erase hc).append_right _).trans (List.perm_middle.symm)
    refine ⟨?_, ?_, ?_, sl, bp⟩
    · simp only [deallocate, freed, Chain, if_true, true_and]
      refine Chain.congr ?_ ch
      intro x hx
      have : x ≠ c := by
        rintro rfl
        exact (List.nodup_append.1 nd).2.2 _ hc _ hx rfl
      simp [this]
    · exact hp.nodup_iff.1 nd
    · intro x hx
      exact us x (hp.mem_iff.2 hx)
  | @wrote h s c v _ hc ih =>
    have ⟨ch, nd, us, sl, bp⟩ := ih
    refine ⟨?_, nd, us, sl, bp⟩
    refine Chain.congr ?_ ch
    intro x hx
    have : x ≠ c := by
      rintro rfl
      exact (List.nodup_append.1 nd).2.2 _ hc _ hx rfl
    simp [write, this]

/-- **C05.** Whatever a program did before (any number of allocations, releases of held
cells and writes into held cells), `allocate` succeeds, returns a cell that is not in use,
that lies in a block of the allocator, and that is the most recently freed cell if some
freed cell has not been reused yet. -/
theorem C05_allocate {N : Nat} (hN : 0 < N) {h : List Event} {s : State} (hr : Runs N h s) :
    ∃ c s', allocate N s = some (c, s') ∧ c ∉ held h ∧ c.block < s'.blocks ∧ c.index < N ∧
      (∀ d l, freed h = d :: l → c = d) := by
  have hi := inv_of_runs hN hr
  obtain ⟨c, s', ha⟩ : ∃ c s', allocate N s = some (c, s') := by
    unfold allocate
    cases s.freeList with
    | some c => exact ⟨_, _, rfl⟩
    | none =>
      by_cases hz : s.size = 0
      · simp only [hz, if_true]
        rw [if_neg (by omega)]
        exact ⟨_, _, rfl⟩
      · simp only [hz, if_false]
        exact ⟨_, _, rfl⟩
  have hi' := inv_of_runs hN (.got hr ha)
  refine ⟨c, s', ha, ?_, (hi'.used c (by simp [held])).1, (hi'.used c (by simp [held])).2.1, ?_⟩
  · have := hi'.nodup
    simp only [held, List.cons_append, List.nodup_cons, List.mem_append, not_or] at this
    exact this.1.1
  · intro d l hd
    have ch := hi.chain
    rw [hd] at ch
    cases hf : s.freeList with
    | none => rw [hf] at ch; exact ch.elim
    | some x =>
      rw [hf] at ch
      unfold allocate at ha
      rw [hf] at ha
      simp only [Option.some.injEq, Prod.mk.injEq] at ha
      rw [← ha.1]
      exact ch.1

/-- **C05.** No cell is ever in use twice, and no cell in use is waiting for reuse. -/
theorem C05_no_double_use {N : Nat} (hN : 0 < N) {h : List Event} {s : State} (hr : Runs N h s) :
    (held h).Nodup ∧ ∀ c ∈ held h, c ∉ freed h := by
  have := List.nodup_append.1 (inv_of_runs hN hr).nodup
  exact ⟨this.1, fun c hc hf => this.2.2 c hc c hf rfl⟩

/-- **C05.** Memory is never wasted: a new block is obtained only when every cell of every
block is in use. -/
theorem C05_reuse_before_fresh {N : Nat} (hN : 0 < N) {h : List Event} {s : State} (hr : Runs N h s)
    {c : Chunk} {s' : State} (ha : allocate N s = some (c, s')) (hgrow : s'.blocks ≠ s.blocks) :
    freed h = [] ∧ s.size = 0 := by
  have ch := (inv_of_runs hN hr).chain
  unfold allocate at ha
  cases hf : s.freeList with
  | some x =>
    rw [hf] at ha
    simp only [Option.some.injEq, Prod.mk.injEq] at ha
    rw [← ha.2] at hgrow
    exact absurd rfl hgrow
  | none =>
    rw [hf] at ha ch
    refine ⟨?_, ?_⟩
    · cases hfr : freed h with
      | nil => rfl
      | cons d l => rw [hfr] at ch; exact ch.elim
    · apply Classical.byContradiction
      intro hz
      simp only [hz, if_false, Option.some.injEq, Prod.mk.injEq] at ha
      rw [← ha.2] at hgrow
      exact absurd rfl hgrow

/-- A concrete history: two cells obtained, the first overwritten and given back, then
obtained again. -/
example : ∃ s, Runs 2 [.got ⟨0, 1⟩, .gave ⟨0, 1⟩, .wrote ⟨0, 1⟩ (some ⟨7, 7⟩), .got ⟨0, 0⟩, .got ⟨0, 1⟩] s :=
  ⟨_, .got (.gave (.wrote (.got (.got .start rfl) rfl) (by decide)) (by decide)) rfl⟩

end Meevax.Allocator
