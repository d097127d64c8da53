import Verif.Lemmas.SharedFill
import Verif.Lemmas.SharedIso

/-! What `read-with-shared-structure` returns. -/

namespace Meevax.Shared

variable {P : Nat → Option Raw} {N : Nat}

theorem known_value {P : Nat → Option Raw} {r : Raw} (h : ∀ k, r ≠ .thunk k) : r.value P = r := by
  cases r with
  | obj => rfl
  | thunk k => exact absurd rfl (h k)

mutual

theorem RDen.den {h h' : Heap Raw} {all : List Nat} (hf : Filled P h h' all) (ha : ∀ n ∈ all, (h n).isEmpty = false)
    (hP : ∀ j i, P j ≠ some (.thunk i)) : ∀ {D : Datum} {r : Raw} {ns : List Nat}, RDen h N P D r ns → (∀ n ∈ ns, n ∈ all) →
    Den (fun n => (h' n).map Raw.known) (fun k => (P k).map Raw.known) D (r.value P).known ns
  | _, _, _, .nil, _ => .nil
  | _, _, _, .atom a, _ => .atom a
  | _, _, _, .noString h₁ h₂, _ => .noString (by simp only [hf.empty ha _ (show (h _).isEmpty = true by rw [h₂]; rfl), h₂]; rfl)
  | _, _, _, .noVector h₁ h₂, _ => .noVector (by simp only [hf.empty ha _ (show (h _).isEmpty = true by rw [h₂]; rfl), h₂]; rfl)
  | _, _, _, .string h₁ h₂ h₃, hn => .string (by simp only [hf _, if_pos (hn _ (List.mem_singleton.2 rfl)), h₂]; rfl) h₃
  | _, _, _, .pair h₁ h₂ h₃ h₄, hn =>
    .pair (by simp only [hf _, if_pos (hn _ (List.mem_cons_self ..)), h₂]; rfl)
      (h₃.den hf ha hP fun n h => hn n (by simp [h])) (h₄.den hf ha hP fun n h => hn n (by simp [h]))
  | _, _, _, .vector h₁ h₂ h₃ h₄, hn =>
    .vector (by simp only [hf _, if_pos (hn _ (List.mem_cons_self ..)), h₂]; rfl) (by simpa using h₃)
      (h₄.den hf ha hP fun n h => hn n (by simp [h]))
  | _, _, _, .label (r := r) h₁ h₂, hn =>
    .label (by rw [known_value fun k hk => hP _ k (hk ▸ h₁), h₁]; rfl) (h₂.den hf ha hP hn)
  | _, _, _, .ref h₁, _ => .ref (by simp [h₁, Raw.value])

theorem RDens.den {h h' : Heap Raw} {all : List Nat} (hf : Filled P h h' all) (ha : ∀ n ∈ all, (h n).isEmpty = false)
    (hP : ∀ j i, P j ≠ some (.thunk i)) : ∀ {Ds : List Datum} {rs : List Raw} {ns : List Nat}, RDens h N P Ds rs ns →
    (∀ n ∈ ns, n ∈ all) →
    Dens (fun n => (h' n).map Raw.known) (fun k => (P k).map Raw.known) Ds ((rs.map (Raw.value P)).map Raw.known) ns
  | _, _, _, .nil, _ => .nil
  | _, _, _, .cons h₁ h₂, hn => .cons (h₁.den hf ha hP fun n h => hn n (by simp [h])) (h₂.den hf ha hP fun n h => hn n (by simp [h]))

end

/-- All parts of the nodes are objects. -/
def Settled (h : Heap Raw) (ns : List Nat) : Prop := ∀ n ∈ ns, ∀ r ∈ (h n).parts, ∃ o, r = .obj o

theorem lookup_of_mem {k : Nat} {x : Option Raw} : ∀ {ps : List (Nat × Option Raw)}, (ps.map Prod.fst).Nodup → (k, x) ∈ ps →
    ps.lookup k = some x
  | [], _, h => by cases h
  | (j, y) :: ps, hn, h => by
    simp only [List.map_cons, List.nodup_cons] at hn
    rcases List.mem_cons.1 h with h' | h'
    · cases h'; simp [List.lookup]
    · have : k ≠ j := by
        rintro rfl
        exact hn.1 (List.mem_map.2 ⟨_, h', rfl⟩)
      simp only [List.lookup, beq_eq_false_iff_ne.2 this]
      exact lookup_of_mem hn.2 h'

theorem mem_of_lookup {k : Nat} {x : Option Raw} : ∀ {ps : List (Nat × Option Raw)}, ps.lookup k = some x → (k, x) ∈ ps
  | [], h => by cases h
  | (j, y) :: ps, h => by
    by_cases hk : k = j
    · subst hk
      simp [List.lookup] at h
      simp [h]
    · simp only [List.lookup, beq_eq_false_iff_ne.2 hk] at h
      exact List.mem_cons_of_mem _ (mem_of_lookup h)

/-- Reading a text in which labels are declared once and before their use gives what it denotes. -/
theorem readShared_reads {ts : List Tok} {D : Datum} {ks : List Nat} (ht : Text ts D) (hs : Scoped [] D ks) (rest : List Tok) :
    ∃ h v M ns, (∀ f, M ≤ f → readShared f (ts ++ rest) = some (h, .obj v, rest)) ∧
      Denotes (fun n => (h n).map Raw.known) D v ns ∧ Settled h ns := by
  obtain ⟨r, s, M₁, h₁, h₂, -, h₃⟩ := readObject_reads ht (s := ⟨fun _ => .string [], 0, []⟩) rest hs rfl .nil
  obtain ⟨new, h₄, h₅⟩ := h₂.parts
  simp only [List.append_nil] at h₄
  have hnd : (s.parts.map Prod.fst).Nodup := h₂.keys ▸ h₂.nodup
  let P : Nat → Option Raw := fun k => (s.parts.lookup k).join
  have hmem : ∀ k x, P k = some x → (k, some x) ∈ s.parts := fun k x h => by
    simp only [P, Option.join_eq_some_iff] at h
    exact mem_of_lookup h
  have hobj : ∀ k x, P k = some x → ∃ n, x = .obj (.ref n) := fun k x h => by
    have := hmem k x h
    rw [h₄] at this
    obtain ⟨n, hn⟩ := h₅ _ this
    exact ⟨n, by simpa using hn⟩
  have hP : Holds P s := by
    refine ⟨fun k r hk => by simp only [P, lookup_of_mem hnd hk, Option.join_some], fun k hk => ?_⟩
    obtain ⟨⟨j, x⟩, hx, rfl⟩ := List.mem_map.1 hk
    obtain ⟨n, hn⟩ := h₅ _ (h₄ ▸ hx)
    simp only at hn
    subst hn
    exact ⟨.ref n, by simp only [P, lookup_of_mem hnd hx, Option.join_some]⟩
  have hF : Finds P s.parts := by
    refine ⟨fun k o hk f => ?_, fun j i hj => ?_⟩
    · simp only [unthunk, lookup_of_mem hnd (hmem k _ hk)]
    · obtain ⟨n, hn⟩ := hobj _ _ hj
      cases hn
  obtain ⟨ns, h₆, h₇⟩ := h₃ P hP
  obtain ⟨M₂, hM₂⟩ := fill_spec hF D r ns s.heap h₇ h₆.nodup
  have hr : ∃ v, r = .obj v := by
    cases r with
    | obj v => exact ⟨v, rfl⟩
    | thunk k =>
      exfalso
      generalize hq : Raw.thunk k = q at h₇
      cases h₇ with
      | ref => cases hs with | ref hk => cases hk
      | label hk => subst hq; exact hF.known _ _ hk
      | nil | atom | noString | noVector | string | pair | vector => cases hq
  obtain ⟨v, rfl⟩ := hr
  let h' : Heap Raw := fun m => if m ∈ ns then (s.heap m).map (Raw.value P) else s.heap m
  have hfill : Filled P s.heap h' ns := fun m => rfl
  refine ⟨h', v, M₁ + M₂, ns, fun f hf => ?_, ⟨_, ks, hs, h₇.den hfill h₇.full hF.known fun n h => h, h₆.nodup⟩, fun n hn x hx => ?_⟩
  · obtain ⟨h'', h₈, h₉⟩ := hM₂ f (by omega)
    obtain rfl : h'' = h' := funext h₉
    simp only [readShared, h₁ f (by omega), Option.bind_some, h₈, Option.map_some]
  · have hv : ∀ y : Raw, ∃ o, y.value P = .obj o := fun y => by
      cases y with
      | obj o => exact ⟨o, rfl⟩
      | thunk k =>
        cases hk : P k with
        | none => exact ⟨.nil, by simp [Raw.value, hk]⟩
        | some x =>
          obtain ⟨n, rfl⟩ := hobj k x hk
          exact ⟨.ref n, by simp [Raw.value, hk]⟩
    simp only [h', if_pos hn] at hx
    cases hh : s.heap n with
    | pair a d =>
      simp only [hh, Node.map, Node.parts, List.mem_cons, List.not_mem_nil, or_false] at hx
      rcases hx with rfl | rfl <;> exact hv _
    | vector es =>
      simp only [hh, Node.map, Node.parts, List.mem_map] at hx
      obtain ⟨y, -, rfl⟩ := hx
      exact hv y
    | string => simp [hh, Node.map, Node.parts] at hx

end Meevax.Shared
