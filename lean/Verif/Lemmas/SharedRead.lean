import Verif.Model.SharedStructure
import Mathlib.Data.List.Basic
import Mathlib.Data.List.Nodup

/-! `read-with-shared-structure` of SRFI 38: what it makes of a text. -/

namespace Meevax.Shared

mutual

/-- The datum shows an object of a heap with parts that are not known yet.  `P` gives the objects of labels;
all nodes are below `N`. -/
inductive RDen (h : Heap Raw) (N : Nat) (P : Nat → Option Raw) : Datum → Raw → List Nat → Prop where
  | nil : RDen h N P .nil (.obj .nil) []
  | atom (a : Nat) : RDen h N P (.atom a) (.obj (.atom a)) []
  | noString {n : Nat} (hN : n < N) (hn : h n = .string []) : RDen h N P (.string []) (.obj (.ref n)) []
  | noVector {n : Nat} (hN : n < N) (hn : h n = .vector []) : RDen h N P (.vector []) (.obj (.ref n)) []
  | string {n : Nat} {s : List Nat} (hN : n < N) (hn : h n = .string s) (hs : s ≠ []) :
      RDen h N P (.string s) (.obj (.ref n)) [n]
  | pair {n : Nat} {a d : Datum} {x y : Raw} {ns ms : List Nat} (hN : n < N) (hn : h n = .pair x y)
      (ha : RDen h N P a x ns) (hd : RDen h N P d y ms) : RDen h N P (.pair a d) (.obj (.ref n)) (n :: (ns ++ ms))
  | vector {n : Nat} {ds : List Datum} {xs : List Raw} {ns : List Nat} (hN : n < N) (hn : h n = .vector xs)
      (hx : xs ≠ []) (hs : RDens h N P ds xs ns) : RDen h N P (.vector ds) (.obj (.ref n)) (n :: ns)
  | label {k : Nat} {d : Datum} {r : Raw} {ns : List Nat} (hk : P k = some r) (hd : RDen h N P d r ns) :
      RDen h N P (.label k d) r ns
  | ref {k : Nat} {o : Obj} (hk : P k = some (.obj o)) : RDen h N P (.ref k) (.thunk k) []

inductive RDens (h : Heap Raw) (N : Nat) (P : Nat → Option Raw) : List Datum → List Raw → List Nat → Prop where
  | nil : RDens h N P [] [] []
  | cons {d : Datum} {ds : List Datum} {v : Raw} {vs : List Raw} {ns ms : List Nat} (hd : RDen h N P d v ns)
      (hs : RDens h N P ds vs ms) : RDens h N P (d :: ds) (v :: vs) (ns ++ ms)

end

variable {h h' : Heap Raw} {N N' : Nat} {P : Nat → Option Raw}

mutual

theorem RDen.mono (hN : N ≤ N') (hh : ∀ m < N, h' m = h m) : ∀ {D : Datum} {r : Raw} {ns : List Nat},
    RDen h N P D r ns → RDen h' N' P D r ns
  | _, _, _, .nil => .nil
  | _, _, _, .atom a => .atom a
  | _, _, _, .noString h₁ h₂ => .noString (Nat.lt_of_lt_of_le h₁ hN) (by rw [hh _ h₁, h₂])
  | _, _, _, .noVector h₁ h₂ => .noVector (Nat.lt_of_lt_of_le h₁ hN) (by rw [hh _ h₁, h₂])
  | _, _, _, .string h₁ h₂ h₃ => .string (Nat.lt_of_lt_of_le h₁ hN) (by rw [hh _ h₁, h₂]) h₃
  | _, _, _, .pair h₁ h₂ h₃ h₄ => .pair (Nat.lt_of_lt_of_le h₁ hN) (by rw [hh _ h₁, h₂]) (h₃.mono hN hh) (h₄.mono hN hh)
  | _, _, _, .vector h₁ h₂ h₃ h₄ => .vector (Nat.lt_of_lt_of_le h₁ hN) (by rw [hh _ h₁, h₂]) h₃ (h₄.mono hN hh)
  | _, _, _, .label h₁ h₂ => .label h₁ (h₂.mono hN hh)
  | _, _, _, .ref h₁ => .ref h₁

theorem RDens.mono (hN : N ≤ N') (hh : ∀ m < N, h' m = h m) : ∀ {Ds : List Datum} {rs : List Raw} {ns : List Nat},
    RDens h N P Ds rs ns → RDens h' N' P Ds rs ns
  | _, _, _, .nil => .nil
  | _, _, _, .cons h₁ h₂ => .cons (h₁.mono hN hh) (h₂.mono hN hh)

end

/-- The elements of a list that was read, and its tail. -/
inductive RTail (h : Heap Raw) (N : Nat) (P : Nat → Option Raw) : Datum → List Raw → Raw → List Nat → Prop where
  | last {D : Datum} {t : Raw} {ns : List Nat} (hd : RDen h N P D t ns) : RTail h N P D [] t ns
  | pair {a d : Datum} {x : Raw} {xs : List Raw} {t : Raw} {ns ms : List Nat} (ha : RDen h N P a x ns)
      (hd : RTail h N P d xs t ms) : RTail h N P (.pair a d) (x :: xs) t (ns ++ ms)

theorem RTail.mono (hN : N ≤ N') (hh : ∀ m < N, h' m = h m) {D : Datum} {xs : List Raw} {t : Raw} {ns : List Nat}
    (hd : RTail h N P D xs t ns) : RTail h' N' P D xs t ns := by
  induction hd with
  | last hd => exact .last (hd.mono hN hh)
  | pair ha _ ih => exact .pair (ha.mono hN hh) ih

/-- What changes while a datum is read. -/
structure ReadTo (s s' : St) (ls : List Nat) : Prop where
  next : s.next ≤ s'.next
  heap : ∀ m < s.next, s'.heap m = s.heap m
  parts : ∃ new, s'.parts = new ++ s.parts ∧ ∀ p ∈ new, ∃ n, p.2 = some (.obj (.ref n))
  keys : s'.parts.map Prod.fst = ls
  nodup : ls.Nodup

theorem ReadTo.refl {s : St} {ks : List Nat} (hk : s.parts.map Prod.fst = ks) (hn : ks.Nodup) : ReadTo s s ks :=
  ⟨Nat.le_refl _, fun _ _ => rfl, ⟨[], rfl, by simp⟩, hk, hn⟩

theorem ReadTo.trans {s s' s'' : St} {ks ls : List Nat} (h : ReadTo s s' ks) (h' : ReadTo s' s'' ls) : ReadTo s s'' ls := by
  obtain ⟨new, h₁, h₂⟩ := h.parts
  obtain ⟨new', h₃, h₄⟩ := h'.parts
  refine ⟨Nat.le_trans h.next h'.next, fun m hm => ?_, ⟨new' ++ new, by rw [h₃, h₁, List.append_assoc], ?_⟩, h'.keys, h'.nodup⟩
  · rw [h'.heap m (Nat.lt_of_lt_of_le hm h.next), h.heap m hm]
  · intro p hp
    rcases List.mem_append.1 hp with hp | hp
    · exact h₄ p hp
    · exact h₂ p hp

theorem ReadTo.alloc {s : St} {ks : List Nat} (hk : s.parts.map Prod.fst = ks) (hn : ks.Nodup) (x : Node Raw) :
    ReadTo s (s.alloc x).2 ks := by
  refine ⟨by simp [St.alloc], fun m hm => ?_, ⟨[], rfl, by simp⟩, hk, hn⟩
  simp only [St.alloc]
  rw [if_neg (Nat.ne_of_lt hm)]

theorem St.alloc_heap (s : St) (x : Node Raw) : (s.alloc x).2.heap s.next = x := by simp [St.alloc]

/-- `P` gives the objects of labels. -/
structure Holds (P : Nat → Option Raw) (s : St) : Prop where
  value : ∀ k r, (k, some r) ∈ s.parts → P k = some r
  known : ∀ k ∈ s.parts.map Prod.fst, ∃ o, P k = some (.obj o)

theorem Holds.before {s s' : St} {ls : List Nat} (h : ReadTo s s' ls) (hP : Holds P s') : Holds P s := by
  obtain ⟨new, h₁, -⟩ := h.parts
  refine ⟨fun k r hk => hP.value k r (by rw [h₁]; simp [hk]), fun k hk => hP.known k ?_⟩
  rw [h₁]
  simp only [List.map_append, List.mem_append]
  exact .inr hk

/-- The nodes are new and different. -/
structure New (s s' : St) (ns : List Nat) : Prop where
  nodup : ns.Nodup
  mem : ∀ n ∈ ns, s.next ≤ n ∧ n < s'.next

theorem New.nil (s s' : St) : New s s' [] := ⟨List.nodup_nil, by simp⟩

theorem New.append {s s' s'' : St} {ns ms : List Nat} (h₁ : s.next ≤ s'.next) (h₂ : s'.next ≤ s''.next)
    (h : New s s' ns) (h' : New s' s'' ms) : New s s'' (ns ++ ms) := by
  refine ⟨List.nodup_append.2 ⟨h.nodup, h'.nodup, ?_⟩, fun n hn => ?_⟩
  · rintro a ha b hb rfl
    have := h.mem a ha
    have := h'.mem a hb
    omega
  · rcases List.mem_append.1 hn with hn | hn
    · have := h.mem n hn; omega
    · have := h'.mem n hn; omega

theorem New.cons {s s' : St} {ns : List Nat} (h₁ : s.next ≤ s'.next) (h : New s s' ns) (x : Node Raw) :
    New s (s'.alloc x).2 (s'.next :: ns) := by
  refine ⟨List.nodup_cons.2 ⟨fun hn => ?_, h.nodup⟩, fun n hn => ?_⟩
  · have := h.mem _ hn; omega
  · simp only [St.alloc]
    rcases List.mem_cons.1 hn with rfl | hn
    · omega
    · have := h.mem n hn; omega

/-- The pairs of a list. -/
theorem St.list_to {ls : List Nat} : ∀ {xs : List Raw} {s : St} {t : Raw}, s.parts.map Prod.fst = ls → ls.Nodup →
    ReadTo s (s.list xs t).2 ls ∧ (s.list xs t).2.parts = s.parts
  | [], s, t, hk, hn => ⟨.refl hk hn, rfl⟩
  | x :: xs, s, t, hk, hn => by
    obtain ⟨h₁, h₂⟩ := St.list_to (xs := xs) (s := s) (t := t) hk hn
    simp only [St.list]
    generalize (s.list xs t) = p at h₁ h₂ ⊢
    obtain ⟨r, s₁⟩ := p
    exact ⟨h₁.trans (.alloc (by rw [h₂, hk]) hn _), h₂⟩

theorem St.list_shows {s : St} {D : Datum} {xs : List Raw} {t : Raw} {ns : List Nat} (hd : RTail s.heap s.next P D xs t ns)
    (hs : (s.parts.map Prod.fst).Nodup) (hns : ∀ n ∈ ns, n < s.next) (hn : ns.Nodup) :
    ∃ ns', ns'.Nodup ∧ (∀ n ∈ ns', n ∈ ns ∨ s.next ≤ n ∧ n < (s.list xs t).2.next) ∧
      RDen (s.list xs t).2.heap (s.list xs t).2.next P D (s.list xs t).1 ns' := by
  induction hd with
  | last hd => exact ⟨_, hn, fun n h => .inl h, hd⟩
  | pair ha hd ih =>
    rename_i a d x xs t ns ms
    obtain ⟨hn₁, hn₂, hn₃⟩ := List.nodup_append.1 hn
    obtain ⟨ms', h₁, h₂, h₃⟩ := ih (fun n h => hns n (by simp [h])) hn₂
    obtain ⟨h₄, -⟩ := St.list_to (xs := xs) (s := s) (t := t) rfl hs
    simp only [St.list]
    generalize (s.list xs t) = p at h₂ h₃ h₄ ⊢
    obtain ⟨r, s₁⟩ := p
    simp only at h₂ h₃ h₄ ⊢
    have h₅ := ReadTo.alloc (s := s₁) rfl (h₄.keys ▸ h₄.nodup) (.pair x r)
    refine ⟨s₁.next :: (ns ++ ms'), List.nodup_cons.2 ⟨fun h => ?_, List.nodup_append.2 ⟨hn₁, h₁, ?_⟩⟩, fun n h => ?_, ?_⟩
    · have := h₄.next
      rcases List.mem_append.1 h with h | h
      · have := hns _ (List.mem_append_left _ h); omega
      · rcases h₂ _ h with h | h
        · have := hns _ (List.mem_append_right _ h); omega
        · omega
    · intro a ha b hb he
      rcases h₂ b hb with h | h
      · exact hn₃ a ha b h he
      · have := hns a (List.mem_append_left _ ha); omega
    · have := h₄.next
      simp only [St.alloc]
      rcases List.mem_cons.1 h with rfl | h
      · exact .inr ⟨by omega, by omega⟩
      · rcases List.mem_append.1 h with h | h
        · exact .inl (List.mem_append_left _ h)
        · rcases h₂ n h with h | h
          · exact .inl (List.mem_append_right _ h)
          · exact .inr ⟨h.1, by omega⟩
    · refine .pair (by simp [St.alloc]) (St.alloc_heap _ _) ?_ (h₃.mono h₅.next h₅.heap)
      exact (ha.mono h₄.next h₄.heap).mono h₅.next h₅.heap

/-- The first token of a text. -/
def Tok.starts : Tok → Prop
  | .space | .rp | .dot => False
  | _ => True

theorem Text.starts {ts : List Tok} {D : Datum} (h : Text ts D) : ∃ t us, ts = t :: us ∧ t.starts := by
  cases h <;> exact ⟨_, _, rfl, trivial⟩

theorem eat_starts {t : Tok} (h : t.starts) (ts : List Tok) : eat (t :: ts) = t :: ts := by
  cases t <;> simp only [Tok.starts] at h <;> rfl

theorem Text.eat {ts : List Tok} {D : Datum} (h : Text ts D) (rest : List Tok) : eat (ts ++ rest) = ts ++ rest := by
  obtain ⟨t, us, rfl, ht⟩ := h.starts
  exact eat_starts ht _

theorem setPart_new {k : Nat} {v : Raw} {o : Option Raw} {ps : List (Nat × Option Raw)} : ∀ {new : List (Nat × Option Raw)},
    k ∉ new.map Prod.fst → setPart k v (new ++ (k, o) :: ps) = new ++ (k, some v) :: ps
  | [], _ => by simp [setPart]
  | (j, x) :: new, h => by
    simp only [List.map_cons, List.mem_cons, not_or] at h
    simp only [List.cons_append, setPart, if_neg (Ne.symm h.1), setPart_new h.2]

theorem declared_iff {k : Nat} {ps : List (Nat × Option Raw)} : declared k ps = true ↔ k ∈ ps.map Prod.fst := by
  simp only [declared, List.any_eq_true, decide_eq_true_eq, List.mem_map]

/-- What `finish-reading-object` makes of a text. -/
def Reads (s s' : St) (ls : List Nat) (D : Datum) (v : Raw) : Prop :=
  ReadTo s s' ls ∧ (D.labelled → ∃ n, v = .obj (.ref n)) ∧
    ∀ P, Holds P s' → ∃ ns, New s s' ns ∧ RDen s'.heap s'.next P D v ns

/-- What `read-list-tail` makes of a text. -/
def ReadsTail (s s' : St) (ls : List Nat) (D : Datum) (xs : List Raw) (t : Raw) : Prop :=
  ReadTo s s' ls ∧ ∀ P, Holds P s' → ∃ ns, New s s' ns ∧ RTail s'.heap s'.next P D xs t ns

def ReadsElements (s s' : St) (ls : List Nat) (Ds : List Datum) (xs : List Raw) : Prop :=
  ReadTo s s' ls ∧ ∀ P, Holds P s' → ∃ ns, New s s' ns ∧ RDens s'.heap s'.next P Ds xs ns

theorem ReadsTail.list {s s' : St} {ls : List Nat} {D : Datum} {x : Raw} {xs : List Raw} {t : Raw}
    (h : ReadsTail s s' ls D (x :: xs) t) : Reads s (s'.list (x :: xs) t).2 ls D (s'.list (x :: xs) t).1 := by
  obtain ⟨h₁, h₂⟩ := h
  obtain ⟨h₃, h₄⟩ := St.list_to (s := s') (xs := x :: xs) (t := t) h₁.keys h₁.nodup
  refine ⟨h₁.trans h₃, fun _ => ?_, fun P hP => ?_⟩
  · simp only [St.list, St.alloc]
    exact ⟨_, rfl⟩
  · obtain ⟨ns, h₅, h₆⟩ := h₂ P (hP.before h₃)
    obtain ⟨ns', h₇, h₈, h₉⟩ := St.list_shows h₆ (h₁.keys ▸ h₁.nodup) (fun n hn => (h₅.mem n hn).2) h₅.nodup
    refine ⟨ns', ⟨h₇, fun n hn => ?_⟩, h₉⟩
    have := h₁.next
    have := h₃.next
    rcases h₈ n hn with h | h
    · have := h₅.mem n h; omega
    · omega

mutual

theorem readObject_reads {ts : List Tok} {D : Datum} : Text ts D → ∀ {ks ls : List Nat} {s : St} (rest : List Tok),
    Scoped ks D ls → s.parts.map Prod.fst = ks → ks.Nodup →
    ∃ v s' M, (∀ f, M ≤ f → readObject f (ts ++ rest) s = some (v, rest, s')) ∧ Reads s s' ls D v
  | .nil, ks, ls, s, rest, hs, hk, hn => by
    cases hs
    refine ⟨.obj .nil, s, 2, fun f hf => ?_, .refl hk hn, fun h => by simp [Datum.labelled] at h,
      fun P hP => ⟨[], .nil _ _, .nil⟩⟩
    obtain ⟨f, rfl⟩ : ∃ g, f = g + 2 := ⟨f - 2, by omega⟩
    rfl
  | .atom a, ks, ls, s, rest, hs, hk, hn => by
    cases hs
    refine ⟨.obj (.atom a), s, 1, fun f hf => ?_, .refl hk hn, fun h => by simp [Datum.labelled] at h,
      fun P hP => ⟨[], .nil _ _, .atom a⟩⟩
    obtain ⟨f, rfl⟩ : ∃ g, f = g + 1 := ⟨f - 1, by omega⟩
    rfl
  | .string x, ks, ls, s, rest, hs, hk, hn => by
    cases hs
    refine ⟨(s.alloc (.string x)).1, (s.alloc (.string x)).2, 1, fun f hf => ?_, .alloc hk hn _, fun h => ⟨_, rfl⟩,
      fun P hP => ?_⟩
    · obtain ⟨f, rfl⟩ : ∃ g, f = g + 1 := ⟨f - 1, by omega⟩
      rfl
    · by_cases hx : x = []
      · subst hx
        exact ⟨[], .nil _ _, .noString (by simp [St.alloc]) (St.alloc_heap _ _)⟩
      · exact ⟨[s.next], .cons (Nat.le_refl _) (.nil _ _) _, .string (by simp [St.alloc]) (St.alloc_heap _ _) hx⟩
  | .pair (ts := ts) (us := us) (a := a) (d := d) ha hd, ks, ls, s, rest, hs, hk, hn => by
    cases hs with
    | pair hsa hsd =>
      obtain ⟨v, s₁, M₁, h₁, h₂, -, h₃⟩ := readObject_reads ha (us ++ rest) hsa hk hn
      obtain ⟨xs, t, s₂, M₂, h₄, h₅, h₆⟩ := readTail_reads hd rest hsd h₂.keys h₂.nodup
      have hr : ReadsTail s s₂ ls (.pair a d) (v :: xs) t := by
        refine ⟨h₂.trans h₅, fun P hP => ?_⟩
        obtain ⟨ns, h₇, h₈⟩ := h₃ P (hP.before h₅)
        obtain ⟨ms, h₉, h₁₀⟩ := h₆ P hP
        exact ⟨ns ++ ms, h₇.append h₂.next h₅.next h₉, .pair (h₈.mono h₅.next h₅.heap) h₁₀⟩
      refine ⟨_, _, M₁ + M₂ + 2, fun f hf => ?_, hr.list⟩
      obtain ⟨f, rfl⟩ : ∃ g, f = g + 2 := ⟨f - 2, by omega⟩
      have e : readTail (f + 1) (ts ++ (us ++ rest)) s = some (v :: xs, t, rest, s₂) := by
        obtain ⟨t₀, ts', rfl, ht⟩ := ha.starts
        rw [readTail.eq_def]
        have := h₁ f (by omega)
        simp only [List.cons_append, eat_starts ht] at this ⊢
        cases t₀ <;> simp only [Tok.starts] at ht <;>
          simp only [this, h₄ f (by omega), Option.bind_some, Option.map_some]
      rw [readObject.eq_def]
      simp only [List.cons_append, List.append_assoc, eat, e, Option.map_some]
  | .vector (ts := ts) he, ks, ls, s, rest, hs, hk, hn => by
    cases hs with
    | vector hs =>
      obtain ⟨xs, s₁, M, h₁, h₂, h₃⟩ := readTail_elements he rest hs hk hn
      have h₄ := ReadTo.alloc (s := s₁) h₂.keys h₂.nodup (.vector xs)
      refine ⟨(s₁.alloc (.vector xs)).1, (s₁.alloc (.vector xs)).2, M + 1, fun f hf => ?_, h₂.trans h₄, fun h => ⟨_, rfl⟩,
        fun P hP => ?_⟩
      · obtain ⟨f, rfl⟩ : ∃ g, f = g + 1 := ⟨f - 1, by omega⟩
        have := h₁ f (by omega)
        rw [readObject.eq_def]
        simp only [List.cons_append, List.append_assoc, eat, List.nil_append, this, Option.bind_some]
      · obtain ⟨ns, h₅, h₆⟩ := h₃ P (hP.before h₄)
        by_cases hx : xs = []
        · subst hx
          cases h₆
          exact ⟨[], .nil _ _, .noVector (by simp [St.alloc]) (St.alloc_heap _ _)⟩
        · exact ⟨_, .cons h₂.next h₅ _, .vector (by simp [St.alloc]) (St.alloc_heap _ _) hx (h₆.mono h₄.next h₄.heap)⟩
  | .label (ts := ts) (d := d) k h, ks, ls, s, rest, hs, hk, hn => by
    cases hs with
    | label hkk hd hs =>
      obtain ⟨v, s₁, M, h₁, h₂, h₃, h₄⟩ := readObject_reads h (s := { s with parts := (k, none) :: s.parts }) rest hs
        (by simp [hk]) (List.nodup_cons.2 ⟨hkk, hn⟩)
      obtain ⟨n, rfl⟩ := h₃ hd
      obtain ⟨new, h₅, h₆⟩ := h₂.parts
      have h₇ : k ∉ new.map Prod.fst := by
        have := h₂.nodup
        rw [← h₂.keys, h₅] at this
        simp only [List.map_append, List.map_cons] at this
        intro hm
        exact (List.nodup_append.1 this).2.2 k hm k (by simp) rfl
      have h₈ : setPart k (.obj (.ref n)) s₁.parts = new ++ (k, some (.obj (.ref n))) :: s.parts := by
        rw [h₅, setPart_new h₇]
      refine ⟨.obj (.ref n), { s₁ with parts := setPart k (.obj (.ref n)) s₁.parts }, M + 3, fun f hf => ?_,
        ⟨h₂.next, h₂.heap, ⟨new ++ [(k, some (.obj (.ref n)))], ?_, ?_⟩, ?_, h₂.nodup⟩, fun h => ⟨n, rfl⟩, fun P hP => ?_⟩
      · obtain ⟨f, rfl⟩ : ∃ g, f = g + 3 := ⟨f - 3, by omega⟩
        have hnd : declared k s.parts = false := by
          rw [Bool.eq_false_iff, Ne, declared_iff, hk]; exact hkk
        have e : readDecls (f + 1) s.parts (ts ++ rest) { s with parts := (k, none) :: s.parts } =
            some (.obj (.ref n), rest, s₁) := by
          have hf' := h₁ f (by omega)
          rw [readDecls.eq_def]
          cases h with
          | nil | atom | label | ref => simp [Datum.labelled] at hd
          | string => exact hf'
          | pair => exact hf'
          | vector => exact hf'
        rw [readObject.eq_def]
        simp only [List.cons_append, eat]
        rw [readDecls.eq_def]
        simp only [eat, hnd, Bool.false_eq_true, if_false, e, Option.map_some]
      · simp only [h₈, List.append_assoc, List.cons_append, List.nil_append]
      · intro p hp
        rcases List.mem_append.1 hp with hp | hp
        · exact h₆ p hp
        · obtain rfl := List.mem_singleton.1 hp
          exact ⟨n, rfl⟩
      · simp only [h₈]
        rw [← h₂.keys, h₅]
        simp
      · have hP₁ : Holds P s₁ := by
          refine ⟨fun j r hj => hP.value j r ?_, fun j hj => hP.known j ?_⟩
          · simp only [h₈]
            rw [h₅] at hj
            simp only [List.mem_append, List.mem_cons, Prod.mk.injEq] at hj ⊢
            rcases hj with hj | ⟨-, hj⟩ | hj
            · exact .inl hj
            · cases hj
            · exact .inr (.inr hj)
          · simp only [h₈]
            rw [h₅] at hj
            simpa using hj
        obtain ⟨ns, h₉, h₁₀⟩ := h₄ P hP₁
        exact ⟨ns, ⟨h₉.nodup, h₉.mem⟩, .label (hP.value k _ (by simp [h₈])) h₁₀⟩
  | .ref k, ks, ls, s, rest, hs, hk, hn => by
    cases hs with
    | ref hkk =>
      refine ⟨.thunk k, s, 2, fun f hf => ?_, .refl hk hn, fun h => by simp [Datum.labelled] at h, fun P hP => ?_⟩
      · obtain ⟨f, rfl⟩ : ∃ g, f = g + 2 := ⟨f - 2, by omega⟩
        have : declared k s.parts = true := declared_iff.2 (hk ▸ hkk)
        rw [readObject.eq_def]
        simp only [List.cons_append, List.nil_append, eat]
        rw [readDecls.eq_def]
        simp only [eat, this, if_true]
      · obtain ⟨o, ho⟩ := hP.known k (hk ▸ hkk)
        exact ⟨[], .nil _ _, .ref ho⟩

theorem readTail_reads {ts : List Tok} {D : Datum} : Tail ts D → ∀ {ks ls : List Nat} {s : St} (rest : List Tok),
    Scoped ks D ls → s.parts.map Prod.fst = ks → ks.Nodup →
    ∃ xs t s' M, (∀ f, M ≤ f → readTail f (ts ++ rest) s = some (xs, t, rest, s')) ∧ ReadsTail s s' ls D xs t
  | .nil, ks, ls, s, rest, hs, hk, hn => by
    cases hs
    refine ⟨[], .obj .nil, s, 1, fun f hf => ?_, .refl hk hn, fun P hP => ⟨[], .nil _ _, .last .nil⟩⟩
    obtain ⟨f, rfl⟩ : ∃ g, f = g + 1 := ⟨f - 1, by omega⟩
    rfl
  | .pair (ts := ts) (us := us) ha hd, ks, ls, s, rest, hs, hk, hn => by
    cases hs with
    | pair hsa hsd =>
      obtain ⟨v, s₁, M₁, h₁, h₂, -, h₃⟩ := readObject_reads ha (us ++ rest) hsa hk hn
      obtain ⟨xs, t, s₂, M₂, h₄, h₅, h₆⟩ := readTail_reads hd rest hsd h₂.keys h₂.nodup
      refine ⟨v :: xs, t, s₂, M₁ + M₂ + 1, fun f hf => ?_, h₂.trans h₅, fun P hP => ?_⟩
      · obtain ⟨f, rfl⟩ : ∃ g, f = g + 1 := ⟨f - 1, by omega⟩
        obtain ⟨t₀, ts', rfl, ht⟩ := ha.starts
        rw [readTail.eq_def]
        have := h₁ f (by omega)
        simp only [List.cons_append, List.append_assoc, eat, eat_starts ht] at this ⊢
        cases t₀ <;> simp only [Tok.starts] at ht <;>
          simp only [this, h₄ f (by omega), Option.bind_some, Option.map_some]
      · obtain ⟨ns, h₇, h₈⟩ := h₃ P (hP.before h₅)
        obtain ⟨ms, h₉, h₁₀⟩ := h₆ P hP
        exact ⟨ns ++ ms, h₇.append h₂.next h₅.next h₉, .pair (h₈.mono h₅.next h₅.heap) h₁₀⟩
  | .dot (ts := ts) hd, ks, ls, s, rest, hs, hk, hn => by
    obtain ⟨v, s₁, M₁, h₁, h₂, -, h₃⟩ := readObject_reads hd (.rp :: rest) hs hk hn
    refine ⟨[], v, s₁, M₁ + 1, fun f hf => ?_, h₂, fun P hP => ?_⟩
    · obtain ⟨f, rfl⟩ : ∃ g, f = g + 1 := ⟨f - 1, by omega⟩
      rw [readTail.eq_def]
      simp only [List.cons_append, List.append_assoc, List.nil_append, eat, h₁ f (by omega), Option.bind_some]
    · obtain ⟨ns, h₇, h₈⟩ := h₃ P hP
      exact ⟨ns, h₇, .last h₈⟩

theorem readTail_elements {ts : List Tok} {Ds : List Datum} : Elements ts Ds → ∀ {ks ls : List Nat} {s : St} (rest : List Tok),
    Scopeds ks Ds ls → s.parts.map Prod.fst = ks → ks.Nodup →
    ∃ xs s' M, (∀ f, M ≤ f → readTail f (ts ++ (.rp :: rest)) s = some (xs, .obj .nil, rest, s')) ∧
      ReadsElements s s' ls Ds xs
  | .nil, ks, ls, s, rest, hs, hk, hn => by
    cases hs
    refine ⟨[], s, 1, fun f hf => ?_, .refl hk hn, fun P hP => ⟨[], .nil _ _, .nil⟩⟩
    obtain ⟨f, rfl⟩ : ∃ g, f = g + 1 := ⟨f - 1, by omega⟩
    rfl
  | .one ha, ks, ls, s, rest, hs, hk, hn => by
    cases hs with
    | cons hsa hsd =>
      cases hsd
      obtain ⟨v, s₁, M₁, h₁, h₂, -, h₃⟩ := readObject_reads ha (.rp :: rest) hsa hk hn
      refine ⟨[v], s₁, M₁ + 2, fun f hf => ?_, h₂, fun P hP => ?_⟩
      · obtain ⟨f, rfl⟩ : ∃ g, f = g + 2 := ⟨f - 2, by omega⟩
        obtain ⟨t₀, ts', rfl, ht⟩ := ha.starts
        have e : readTail (f + 1) (.rp :: rest) s₁ = some ([], .obj .nil, rest, s₁) := rfl
        rw [readTail.eq_def]
        have := h₁ (f + 1) (by omega)
        simp only [List.cons_append, eat_starts ht] at this ⊢
        cases t₀ <;> simp only [Tok.starts] at ht <;>
          simp only [this, e, Option.bind_some, Option.map_some]
      · obtain ⟨ns, h₇, h₈⟩ := h₃ P hP
        exact ⟨ns ++ [], by simpa using h₇, .cons h₈ .nil⟩
  | .cons (ts := ts) (us := us) ha hd, ks, ls, s, rest, hs, hk, hn => by
    cases hs with
    | cons hsa hsd =>
      obtain ⟨v, s₁, M₁, h₁, h₂, -, h₃⟩ := readObject_reads ha (.space :: (us ++ .rp :: rest)) hsa hk hn
      obtain ⟨xs, s₂, M₂, h₄, h₅, h₆⟩ := readTail_elements hd rest hsd h₂.keys h₂.nodup
      refine ⟨v :: xs, s₂, M₁ + M₂ + 1, fun f hf => ?_, h₂.trans h₅, fun P hP => ?_⟩
      · obtain ⟨f, rfl⟩ : ∃ g, f = g + 1 := ⟨f - 1, by omega⟩
        obtain ⟨t₀, ts', rfl, ht⟩ := ha.starts
        have e : readTail f (.space :: (us ++ .rp :: rest)) s₁ = some (xs, .obj .nil, rest, s₂) := by
          rw [← h₄ f (by omega)]
          cases f with
          | zero => rfl
          | succ f => rw [readTail.eq_def, readTail.eq_def]; simp only [eat]
        rw [readTail.eq_def]
        have := h₁ f (by omega)
        simp only [List.cons_append, List.append_assoc, eat_starts ht] at this ⊢
        cases t₀ <;> simp only [Tok.starts] at ht <;>
          simp only [this, e, Option.bind_some, Option.map_some]
      · obtain ⟨ns, h₇, h₈⟩ := h₃ P (hP.before h₅)
        obtain ⟨ms, h₉, h₁₀⟩ := h₆ P hP
        exact ⟨ns ++ ms, h₇.append h₂.next h₅.next h₉, .cons (h₈.mono h₅.next h₅.heap) h₁₀⟩

end

end Meevax.Shared
