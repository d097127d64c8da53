import Verif.Lemmas.LabelWrite
import Verif.Lemmas.LabelRead
import Verif.Lemmas.SharedIso

/-! What `write` writes, and what `read` reads back. -/

namespace Meevax.Label

open Meevax.Shared

/-- The heap of the reader, where no label is left. -/
def heapOf (h : Heap Raw) : Heap Obj := fun n => (h n).map Raw.known

/-- All parts of the nodes are objects. -/
def NoLabels (h : Heap Raw) (ns : List Nat) : Prop := ∀ n ∈ ns, ∀ r ∈ (h n).parts, ∃ o, r = .obj o

/-- The labels that were read. -/
def stands (Q : List (Nat × Obj)) (k : Nat) : Option Obj := Q.lookup k

theorem stands_mem {k : Nat} {o : Obj} : ∀ {Q : List (Nat × Obj)}, (Q.map Prod.fst).Nodup → (k, o) ∈ Q → stands Q k = some o
  | [], _, h => by cases h
  | (j, y) :: Q, hn, h => by
    simp only [List.map_cons, List.nodup_cons] at hn
    rcases List.mem_cons.1 h with h' | h'
    · cases h'; simp [stands, List.lookup]
    · have : k ≠ j := by
        rintro rfl
        exact hn.1 (List.mem_map.2 ⟨_, h', rfl⟩)
      simp only [stands, List.lookup, beq_eq_false_iff_ne.2 this]
      exact stands_mem hn.2 h'

mutual

theorem scoped_nodup : ∀ {ks ls : List Nat} {D : Datum}, Scoped ks D ls → ks.Nodup → ls.Nodup
  | _, _, _, .nil _, h => h
  | _, _, _, .atom _ _, h => h
  | _, _, _, .string _ _, h => h
  | _, _, _, .pair ha hd, h => scoped_nodup hd (scoped_nodup ha h)
  | _, _, _, .vector hs, h => scopeds_nodup hs h
  | _, _, _, .label hk _ hs, h => scoped_nodup hs (List.nodup_cons.2 ⟨hk, h⟩)
  | _, _, _, .ref _, h => h

theorem scopeds_nodup : ∀ {ks ls : List Nat} {Ds : List Datum}, Scopeds ks Ds ls → ks.Nodup → ls.Nodup
  | _, _, _, .nil _, h => h
  | _, _, _, .cons h hs, hn => scopeds_nodup hs (scoped_nodup h hn)

end

variable {h : Heap Raw} {N : Nat} {L : Nat → Option Obj}

mutual

theorem LDen.den : ∀ {D : Datum} {r : Raw} {ns : List Nat}, LDen h N (fun k => (L k).map Raw.obj) D r ns →
    (∃ o, r = .obj o) ∧ Den (heapOf h) L D r.known ns ∧ NoLabels h ns
  | _, _, _, .nil => ⟨⟨_, rfl⟩, .nil, fun n hn => by cases hn⟩
  | _, _, _, .atom a => ⟨⟨_, rfl⟩, .atom a, fun n hn => by cases hn⟩
  | _, _, _, .noString _ h₂ => ⟨⟨_, rfl⟩, .noString (by simp only [heapOf, h₂]; rfl), fun n hn => by cases hn⟩
  | _, _, _, .noVector _ h₂ => ⟨⟨_, rfl⟩, .noVector (by simp only [heapOf, h₂]; rfl), fun n hn => by cases hn⟩
  | _, _, _, .string _ h₂ h₃ => ⟨⟨_, rfl⟩, .string (by simp only [heapOf, h₂]; rfl) h₃, fun n hn r hr => by
      obtain rfl := List.mem_singleton.1 hn
      simp [h₂, Node.parts] at hr⟩
  | _, _, _, .pair _ h₂ h₃ h₄ => by
    obtain ⟨⟨o₁, e₁⟩, d₁, p₁⟩ := LDen.den h₃
    obtain ⟨⟨o₂, e₂⟩, d₂, p₂⟩ := LDen.den h₄
    refine ⟨⟨_, rfl⟩, .pair (by simp only [heapOf, h₂]; rfl) d₁ d₂, fun n hn r hr => ?_⟩
    rcases List.mem_cons.1 hn with rfl | hn
    · simp only [h₂, Node.parts, List.mem_cons, List.not_mem_nil, or_false] at hr
      rcases hr with rfl | rfl
      · exact ⟨_, e₁⟩
      · exact ⟨_, e₂⟩
    · rcases List.mem_append.1 hn with hn | hn
      · exact p₁ n hn r hr
      · exact p₂ n hn r hr
  | _, _, _, .vector _ h₂ h₃ h₄ => by
    obtain ⟨e₁, d₁, p₁⟩ := LDens.den h₄
    refine ⟨⟨_, rfl⟩, .vector (by simp only [heapOf, h₂]; rfl) (by simpa using h₃) d₁, fun n hn r hr => ?_⟩
    rcases List.mem_cons.1 hn with rfl | hn
    · simp only [h₂, Node.parts] at hr
      exact e₁ r hr
    · exact p₁ n hn r hr
  | _, _, _, .label (k := k) (r := r) h₁ h₂ => by
    obtain ⟨⟨o, e⟩, d₁, p₁⟩ := LDen.den h₂
    subst e
    refine ⟨⟨_, rfl⟩, .label ?_ d₁, p₁⟩
    cases hk : L k with
    | none => simp [hk] at h₁
    | some x => simp [hk] at h₁; rw [h₁]; rfl
  | _, _, _, .ref (k := k) (r := r) h₁ => by
    cases hk : L k with
    | none => simp [hk] at h₁
    | some x =>
      simp [hk] at h₁
      subst h₁
      exact ⟨⟨_, rfl⟩, .ref hk, fun n hn => by cases hn⟩

theorem LDens.den : ∀ {Ds : List Datum} {rs : List Raw} {ns : List Nat}, LDens h N (fun k => (L k).map Raw.obj) Ds rs ns →
    (∀ r ∈ rs, ∃ o, r = .obj o) ∧ Dens (heapOf h) L Ds (rs.map Raw.known) ns ∧ NoLabels h ns
  | _, _, _, .nil => ⟨(fun r hr => by cases hr), .nil, fun n hn => by cases hn⟩
  | _, _, _, .cons h₁ h₂ => by
    obtain ⟨e₁, d₁, p₁⟩ := LDen.den h₁
    obtain ⟨e₂, d₂, p₂⟩ := LDens.den h₂
    refine ⟨fun r hr => ?_, .cons d₁ d₂, fun n hn r hr => ?_⟩
    · rcases List.mem_cons.1 hr with rfl | hr
      · exact e₁
      · exact e₂ r hr
    · rcases List.mem_append.1 hn with hn | hn
      · exact p₁ n hn r hr
      · exact p₂ n hn r hr

end

/-- What `read` returns for a text as in Spec/DatumRing. -/
theorem read_denotes {ts : List Tok} {D : Datum} {ks : List Nat} (ht : Text ts D) (hf : Flat .top D) (hs : Scoped [] D ks)
    (s : Port) (hl : s.labels = []) (rest : List Tok) :
    ∃ v s' M ns, (∀ f, M ≤ f → read f (ts ++ rest) s = some (.ok (.obj v), rest, s')) ∧ Denotes (heapOf s'.heap) D v ns ∧
      NoLabels s'.heap ns ∧ s'.labels = [] ∧ ∀ m < s.next, s'.heap m = s.heap m := by
  obtain ⟨v, s', Q, M, hk, h₁, h₂, ns, h₃, h₄⟩ := read_reads ht rest (.inl hf) hs (s := s) (p := .top)
    ⟨fun _ => hl, fun k e => by cases e⟩
  have hnd : (Q.map Prod.fst).Nodup := by
    have := scoped_nodup hs List.nodup_nil
    rw [hk.keys] at this
    simpa using this
  obtain ⟨⟨o, rfl⟩, d, p⟩ := (h₄ (fun k => (stands Q k).map Raw.obj) ⟨(fun k e => by cases e), fun q hq => by
    simp only [stands_mem hnd hq, Option.map_some]⟩).den
  exact ⟨o, s', M, ns, h₁, ⟨_, _, hs, d, h₃.nodup⟩, p, h₂.labels.trans hl, h₂.heap⟩

/-- Two objects that the same text shows unfold to the same tree. -/
theorem similar {G G' : Heap Obj} {L L' : Nat → Option Obj} {D : Datum} {ks : List Nat} {v v' : Obj} {ns ns' : List Nat}
    (hs : Scoped [] D ks) (hd : Den G L D v ns) (hd' : Den G' L' D v' ns') : Similar G v G' v' := by
  obtain ⟨h₁, h₂⟩ := Den.same (F := fun n n' => (n, n') ∈ ns.zip ns') hs hd hd' (fun k hk => by cases hk) fun p hp => hp
  exact ⟨_, h₁, fun n n' h => h₂.nodes (n, n') h⟩

mutual

theorem simple_ringed {H : Heap Obj} : ∀ {x : Obj} {rs : List Nat}, Simple H x rs → ∀ S, Ringed H S x
  | _, _, .nil, S => .nil S
  | _, _, .atom a, S => .atom S a
  | _, _, .string h, S => .string h
  | _, _, .vector h hs, S => .vector h (simples_ringed hs S)
  | _, _, .pair h ha hd, S => .pair h (simple_ringed ha S) (simple_ends hd S)
  | _, _, .ring h, S => .ring (simple_ring h _)

theorem simple_ends {H : Heap Obj} : ∀ {x : Obj} {rs : List Nat}, SimpleEnds H x rs → ∀ S, Ends H S x
  | _, _, .last hx h, S => .last hx (simple_ringed h S)
  | _, _, .pair h ha hd, S => .pair h (simple_ringed ha S) (simple_ends hd S)

theorem simple_ring {H : Heap Obj} : ∀ {root n : Nat}, SimpleRing H root n → ∀ S, Ring H S root n
  | _, _, .last h ha, S => .last h (simple_ringed ha S)
  | _, _, .step h hm ha hs, S => .step h hm (simple_ringed ha S) (simple_ring hs S)

theorem simples_ringed {H : Heap Obj} : ∀ {es : List Obj} {rs : List Nat}, Simples H es rs → ∀ S, Ringeds H S es
  | _, _, .nil, S => .nil S
  | _, _, .cons h hs, S => .cons (simple_ringed h S) (simples_ringed hs S)

end

end Meevax.Label
