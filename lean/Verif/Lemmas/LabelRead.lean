import Verif.Model.DatumLabels
import Verif.Spec.DatumRing
import Mathlib.Data.List.Basic
import Mathlib.Data.List.Nodup

/-! What `read` makes of a text with datum labels. -/

namespace Meevax.Label

open Meevax.Shared

mutual

/-- The datum shows an object of a heap in which the label `k` is `P k`.  All nodes are below `N`. -/
inductive LDen (h : Heap Raw) (N : Nat) (P : Nat → Option Raw) : Datum → Raw → List Nat → Prop where
  | nil : LDen h N P .nil (.obj .nil) []
  | atom (a : Nat) : LDen h N P (.atom a) (.obj (.atom a)) []
  | noString {n : Nat} (hN : n < N) (hn : h n = .string []) : LDen h N P (.string []) (.obj (.ref n)) []
  | noVector {n : Nat} (hN : n < N) (hn : h n = .vector []) : LDen h N P (.vector []) (.obj (.ref n)) []
  | string {n : Nat} {s : List Nat} (hN : n < N) (hn : h n = .string s) (hs : s ≠ []) :
      LDen h N P (.string s) (.obj (.ref n)) [n]
  | pair {n : Nat} {a d : Datum} {x y : Raw} {ns ms : List Nat} (hN : n < N) (hn : h n = .pair x y)
      (ha : LDen h N P a x ns) (hd : LDen h N P d y ms) : LDen h N P (.pair a d) (.obj (.ref n)) (n :: (ns ++ ms))
  | vector {n : Nat} {ds : List Datum} {xs : List Raw} {ns : List Nat} (hN : n < N) (hn : h n = .vector xs)
      (hx : xs ≠ []) (hs : LDens h N P ds xs ns) : LDen h N P (.vector ds) (.obj (.ref n)) (n :: ns)
  | label {k : Nat} {d : Datum} {r : Raw} {ns : List Nat} (hk : P k = some r) (hd : LDen h N P d r ns) :
      LDen h N P (.label k d) r ns
  | ref {k : Nat} {r : Raw} (hk : P k = some r) : LDen h N P (.ref k) r []

inductive LDens (h : Heap Raw) (N : Nat) (P : Nat → Option Raw) : List Datum → List Raw → List Nat → Prop where
  | nil : LDens h N P [] [] []
  | cons {d : Datum} {ds : List Datum} {v : Raw} {vs : List Raw} {ns ms : List Nat} (hd : LDen h N P d v ns)
      (hs : LDens h N P ds vs ms) : LDens h N P (d :: ds) (v :: vs) (ns ++ ms)

end

variable {h h' : Heap Raw} {N N' : Nat} {P : Nat → Option Raw}

mutual

theorem LDen.mono (hN : N ≤ N') (hh : ∀ m < N, h' m = h m) : ∀ {D : Datum} {r : Raw} {ns : List Nat},
    LDen h N P D r ns → LDen h' N' P D r ns
  | _, _, _, .nil => .nil
  | _, _, _, .atom a => .atom a
  | _, _, _, .noString h₁ h₂ => .noString (Nat.lt_of_lt_of_le h₁ hN) (by rw [hh _ h₁, h₂])
  | _, _, _, .noVector h₁ h₂ => .noVector (Nat.lt_of_lt_of_le h₁ hN) (by rw [hh _ h₁, h₂])
  | _, _, _, .string h₁ h₂ h₃ => .string (Nat.lt_of_lt_of_le h₁ hN) (by rw [hh _ h₁, h₂]) h₃
  | _, _, _, .pair h₁ h₂ h₃ h₄ => .pair (Nat.lt_of_lt_of_le h₁ hN) (by rw [hh _ h₁, h₂]) (h₃.mono hN hh) (h₄.mono hN hh)
  | _, _, _, .vector h₁ h₂ h₃ h₄ => .vector (Nat.lt_of_lt_of_le h₁ hN) (by rw [hh _ h₁, h₂]) h₃ (h₄.mono hN hh)
  | _, _, _, .label h₁ h₂ => .label h₁ (h₂.mono hN hh)
  | _, _, _, .ref h₁ => .ref h₁

theorem LDens.mono (hN : N ≤ N') (hh : ∀ m < N, h' m = h m) : ∀ {Ds : List Datum} {rs : List Raw} {ns : List Nat},
    LDens h N P Ds rs ns → LDens h' N' P Ds rs ns
  | _, _, _, .nil => .nil
  | _, _, _, .cons h₁ h₂ => .cons (h₁.mono hN hh) (h₂.mono hN hh)

end

mutual

/-- What a datum shows depends only on the nodes it shows. -/
theorem LDen.congr (he : ∀ n, (h n).isEmpty = true → h' n = h n) : ∀ {D : Datum} {r : Raw} {ns : List Nat},
    LDen h N P D r ns → (∀ n ∈ ns, h' n = h n) → LDen h' N P D r ns
  | _, _, _, .nil, _ => .nil
  | _, _, _, .atom a, _ => .atom a
  | _, _, _, .noString h₁ h₂, _ => .noString h₁ (by rw [he _ (by rw [h₂]; rfl), h₂])
  | _, _, _, .noVector h₁ h₂, _ => .noVector h₁ (by rw [he _ (by rw [h₂]; rfl), h₂])
  | _, _, _, .string h₁ h₂ h₃, hn => .string h₁ (by rw [hn _ (by simp), h₂]) h₃
  | _, _, _, .pair h₁ h₂ h₃ h₄, hn => .pair h₁ (by rw [hn _ (by simp), h₂]) (h₃.congr he fun n h => hn n (by simp [h]))
      (h₄.congr he fun n h => hn n (by simp [h]))
  | _, _, _, .vector h₁ h₂ h₃ h₄, hn => .vector h₁ (by rw [hn _ (by simp), h₂]) h₃ (h₄.congr he fun n h => hn n (by simp [h]))
  | _, _, _, .label h₁ h₂, hn => .label h₁ (h₂.congr he hn)
  | _, _, _, .ref h₁, _ => .ref h₁

theorem LDens.congr (he : ∀ n, (h n).isEmpty = true → h' n = h n) : ∀ {Ds : List Datum} {rs : List Raw}
    {ns : List Nat}, LDens h N P Ds rs ns → (∀ n ∈ ns, h' n = h n) → LDens h' N P Ds rs ns
  | _, _, _, .nil, _ => .nil
  | _, _, _, .cons h₁ h₂, hn => .cons (h₁.congr he fun n h => hn n (by simp [h])) (h₂.congr he fun n h => hn n (by simp [h]))

end

/-- What is read for such a datum is an object, not a label. -/
theorem LDen.known {p : Place} {D : Datum} (hf : Flat p D) {r : Raw} {ns : List Nat} (hd : LDen h N P D r ns) :
    ∃ o, r = .obj o := by
  match hf, hd with
  | .nil _, .nil => exact ⟨_, rfl⟩
  | .atom _ _, .atom _ => exact ⟨_, rfl⟩
  | .string _ _, .noString _ _ => exact ⟨_, rfl⟩
  | .string _ _, .string _ _ _ => exact ⟨_, rfl⟩
  | .pair _ _, .pair _ _ _ _ => exact ⟨_, rfl⟩
  | .back _, .pair _ _ _ _ => exact ⟨_, rfl⟩
  | .vector _, .noVector _ _ => exact ⟨_, rfl⟩
  | .vector _, .vector _ _ _ _ => exact ⟨_, rfl⟩
  | .label hf, .label _ hd => exact LDen.known hf hd

/-! ### `circulate` -/

/-- A pair after its cdr was set, if that was the label `k`. -/
def patch (x : Raw) (k : Nat) : Node Raw → Node Raw
  | .pair a d => .pair a (if d = .thunk k then x else d)
  | n => n

/-- The heap after the pairs among the nodes `ns` were patched. -/
def Patched (x : Raw) (k : Nat) (h h' : Heap Raw) (ns : List Nat) : Prop :=
  ∀ m, h' m = if m ∈ ns then patch x k (h m) else h m

theorem patch_isEmpty {x : Raw} {k : Nat} {n : Node Raw} (h : n.isEmpty = true) : patch x k n = n := by
  cases n with
  | pair => simp [Node.isEmpty] at h
  | vector => rfl
  | string => rfl

theorem Patched.empty {x : Raw} {k : Nat} {ns : List Nat} (hp : Patched x k h h' ns) :
    ∀ n, (h n).isEmpty = true → h' n = h n := by
  intro n hn
  rw [hp n]
  split
  · exact patch_isEmpty hn
  · rfl

theorem Patched.nil (x : Raw) (k : Nat) (h : Heap Raw) : Patched x k h h [] := fun m => by simp

theorem Patched.append {x : Raw} {k : Nat} {h₁ h₂ : Heap Raw} {ns ms : List Nat} (f₁ : Patched x k h h₁ ns) (f₂ : Patched x k h₁ h₂ ms)
    (hd : ∀ n ∈ ns, n ∉ ms) : Patched x k h h₂ (ns ++ ms) := by
  intro m
  rw [f₂ m, f₁ m]
  by_cases h₁ : m ∈ ns
  · simp [h₁, hd m h₁]
  · by_cases h₂ : m ∈ ms
    · simp [h₁, h₂]
    · simp [h₁, h₂]

mutual

/-- In a vector there is nothing to patch. -/
theorem LDen.plain {x : Raw} {k : Nat} : ∀ {D : Datum} {r : Raw} {ns : List Nat}, Flat .plain D → LDen h N P D r ns →
    ∀ n ∈ ns, patch x k (h n) = h n
  | _, _, _, _, .nil => by simp
  | _, _, _, _, .atom _ => by simp
  | _, _, _, _, .noString _ _ => by simp
  | _, _, _, _, .noVector _ _ => by simp
  | _, _, _, _, .string _ hn _ => by simp [hn, patch]
  | _, _, _, hf, .pair _ hn ha hd => by
    cases hf with
    | pair hfa hfd =>
      intro m hm
      rcases List.mem_cons.1 hm with rfl | hm
      · obtain ⟨o, rfl⟩ := LDen.known hfd hd
        simp [hn, patch]
      · rcases List.mem_append.1 hm with hm | hm
        · exact LDen.plain hfa ha m hm
        · exact LDen.plain hfd hd m hm
  | _, _, _, hf, .vector _ hn _ hs => by
    cases hf with
    | vector hfs =>
      intro m hm
      rcases List.mem_cons.1 hm with rfl | hm
      · simp [hn, patch]
      · exact LDens.plain hfs hs m hm
  | _, _, _, hf, .label _ _ => by cases hf
  | _, _, _, hf, .ref _ => by cases hf

theorem LDens.plain {x : Raw} {k : Nat} : ∀ {Ds : List Datum} {rs : List Raw} {ns : List Nat}, Flats .plain Ds → LDens h N P Ds rs ns →
    ∀ n ∈ ns, patch x k (h n) = h n
  | _, _, _, _, .nil => by simp
  | _, _, _, hf, .cons hd hs => by
    cases hf with
    | cons hfd hfs =>
      intro m hm
      rcases List.mem_append.1 hm with hm | hm
      · exact LDen.plain hfd hd m hm
      · exact LDens.plain hfs hs m hm

end

/-- `circulate` patches the pairs of the datum. -/
theorem circulate_spec {x : Raw} {k : Nat} (hk : P k = some (.thunk k)) : ∀ {D : Datum} {r : Raw} {ns : List Nat} {h : Heap Raw},
    Flat (.inside k) D → LDen h N P D r ns → ns.Nodup → ∃ M h', Patched x k h h' ns ∧ ∀ f, M ≤ f → circulate x k f r h = some h'
  | _, _, _, h, _, .nil, _ => ⟨1, h, .nil _ _ _, fun f hf => by
    obtain ⟨f, rfl⟩ : ∃ g, f = g + 1 := ⟨f - 1, by omega⟩
    rfl⟩
  | _, _, _, h, _, .atom _, _ => ⟨1, h, .nil _ _ _, fun f hf => by
    obtain ⟨f, rfl⟩ : ∃ g, f = g + 1 := ⟨f - 1, by omega⟩
    rfl⟩
  | _, _, _, h, _, .noString _ hn, _ => ⟨1, h, .nil _ _ _, fun f hf => by
    obtain ⟨f, rfl⟩ : ∃ g, f = g + 1 := ⟨f - 1, by omega⟩
    simp only [circulate, hn]⟩
  | _, _, _, h, _, .noVector _ hn, _ => ⟨1, h, .nil _ _ _, fun f hf => by
    obtain ⟨f, rfl⟩ : ∃ g, f = g + 1 := ⟨f - 1, by omega⟩
    simp only [circulate, hn]⟩
  | _, _, _, h, _, .string (n := n) _ hn _, _ => ⟨1, h, fun m => by
      split
      · rename_i hm
        obtain rfl := List.mem_singleton.1 hm
        simp [hn, patch]
      · rfl, fun f hf => by
    obtain ⟨f, rfl⟩ : ∃ g, f = g + 1 := ⟨f - 1, by omega⟩
    simp only [circulate, hn]⟩
  | _, _, _, h, hf, .vector (n := n) (ns := ns) _ hn _ hs, _ => ⟨1, h, fun m => by
      cases hf with
      | vector hfs =>
        split
        · rename_i hm
          rcases List.mem_cons.1 hm with rfl | hm
          · simp [hn, patch]
          · exact (LDens.plain hfs hs m hm).symm
        · rfl, fun f hf => by
    obtain ⟨f, rfl⟩ : ∃ g, f = g + 1 := ⟨f - 1, by omega⟩
    simp only [circulate, hn]⟩
  | .pair A D, _, _, h, hf, .pair (n := n) (x := a) (y := d) (ns := ns) (ms := ms) hN hn ha hd, hnd => by
    obtain ⟨hnd₁, hnd₂⟩ := List.nodup_cons.1 hnd
    obtain ⟨hnd₃, hnd₄, hnd₅⟩ := List.nodup_append.1 hnd₂
    have hfa : Flat (.inside k) A := by
      cases hf with
      | pair hfa _ => exact hfa
      | back hfa => exact hfa
    obtain ⟨M₁, h₁, h₂, h₃⟩ := circulate_spec hk hfa ha hnd₃
    have h₄ : h₁ n = .pair a d := by
      rw [h₂ n, if_neg fun hm => hnd₁ (by simp [hm]), hn]
    cases hf with
    | back _ =>
      cases hd with
      | ref hr =>
        rw [hk] at hr
        cases hr
        refine ⟨M₁ + 1, setNode h₁ n (.pair a x), fun m => ?_, fun f hf => ?_⟩
        · simp only [setNode]
          by_cases hm : m = n
          · subst hm
            simp [hn, patch]
          · simp only [hm, if_false, List.mem_cons, false_or, List.append_nil]
            exact h₂ m
        · obtain ⟨f, rfl⟩ : ∃ g, f = g + 1 := ⟨f - 1, by omega⟩
          rw [circulate.eq_def]
          simp only [hn, h₃ f (by omega), Option.bind_some, h₄, if_true]
    | pair _ hfd =>
      obtain ⟨o, rfl⟩ := LDen.known hfd hd
      have hd' : LDen h₁ N P D (.obj o) ms := hd.congr h₂.empty fun m hm => by
        rw [h₂ m, if_neg fun hm' => hnd₅ m hm' m hm rfl]
      obtain ⟨M₂, h₅, h₆, h₇⟩ := circulate_spec hk hfd hd' hnd₄
      refine ⟨M₁ + M₂ + 1, h₅, fun m => ?_, fun f hf => ?_⟩
      · have := h₂.append h₆ (fun a ha hb => hnd₅ a ha a hb rfl) m
        by_cases hm : m = n
        · subst hm
          rw [if_neg hnd₁] at this
          simp [this, hn, patch]
        · simp only [List.mem_cons, hm, false_or]
          exact this
      · obtain ⟨f, rfl⟩ : ∃ g, f = g + 1 := ⟨f - 1, by omega⟩
        rw [circulate.eq_def]
        simp only [hn, h₃ f (by omega), Option.bind_some, h₄]
        rw [if_neg (by simp)]
        exact h₇ f (by omega)
  | _, _, _, _, hf, .label _ _, _ => by cases hf
  | _, _, _, _, hf, .ref _, _ => by cases hf

mutual

/-- After that, the label is the object. -/
theorem LDen.patched {P' : Nat → Option Raw} {x : Raw} {k : Nat} {all : List Nat} (hp : Patched x k h h' all)
    (hk' : P' k = some x) (hk : P k = some (.thunk k)) : ∀ {p : Place} {D : Datum} {r : Raw} {ns : List Nat}, p = .inside k ∨ p = .plain →
    Flat p D → LDen h N P D r ns → (∀ n ∈ ns, n ∈ all) → LDen h' N P' D r ns
  | _, _, _, _, _, _, .nil, _ => .nil
  | _, _, _, _, _, _, .atom a, _ => .atom a
  | _, _, _, _, _, _, .noString h₁ h₂, _ => .noString h₁ (by rw [hp.empty _ (by rw [h₂]; rfl), h₂])
  | _, _, _, _, _, _, .noVector h₁ h₂, _ => .noVector h₁ (by rw [hp.empty _ (by rw [h₂]; rfl), h₂])
  | _, _, _, _, _, _, .string h₁ h₂ h₃, hn => .string h₁ (by rw [hp _, if_pos (hn _ (by simp)), h₂]; rfl) h₃
  | _, _, _, _, hpl, hf, .pair (n := n) (x := a) h₁ h₂ h₃ h₄, hn => by
    have h₅ : h' n = patch x k (h n) := by rw [hp n, if_pos (hn n (by simp))]
    cases hf with
    | pair hfa hfd =>
      obtain ⟨o, rfl⟩ := LDen.known hfd h₄
      exact .pair h₁ (by rw [h₅, h₂]; simp [patch]) (LDen.patched hp hk' hk hpl hfa h₃ fun n h => hn n (by simp [h]))
        (LDen.patched hp hk' hk hpl hfd h₄ fun n h => hn n (by simp [h]))
    | back hfa =>
      rcases hpl with e | e
      · cases e
        cases h₄ with
        | ref hr =>
          rw [hk] at hr
          cases hr
          exact .pair h₁ (by rw [h₅, h₂]; simp [patch]) (LDen.patched hp hk' hk (.inl rfl) hfa h₃ fun n h => hn n (by simp [h]))
            (.ref hk')
      · cases e
  | p, _, _, _, hpl, hf, .vector h₁ h₂ h₃ h₄, hn => by
    cases hf with
    | vector hfs =>
      refine .vector h₁ (by rw [hp _, if_pos (hn _ (by simp)), h₂]; rfl) h₃ (LDens.patched hp hk' hk ?_ hfs h₄ fun n h => hn n (by simp [h]))
      rcases hpl with e | e <;> rw [e] <;> exact .inr rfl
  | _, _, _, _, hpl, hf, .label _ _, _ => by
    cases hf
    rcases hpl with e | e <;> cases e
  | _, _, _, _, hpl, hf, .ref _, _ => by cases hf

theorem LDens.patched {P' : Nat → Option Raw} {x : Raw} {k : Nat} {all : List Nat} (hp : Patched x k h h' all)
    (hk' : P' k = some x) (hk : P k = some (.thunk k)) : ∀ {p : Place} {Ds : List Datum} {rs : List Raw} {ns : List Nat},
    p = .inside k ∨ p = .plain → Flats p Ds → LDens h N P Ds rs ns → (∀ n ∈ ns, n ∈ all) → LDens h' N P' Ds rs ns
  | _, _, _, _, _, _, .nil, _ => .nil
  | _, _, _, _, hpl, hf, .cons h₁ h₂, hn => by
    cases hf with
    | cons hfd hfs =>
      exact .cons (LDen.patched hp hk' hk hpl hfd h₁ fun n h => hn n (by simp [h]))
        (LDens.patched hp hk' hk hpl hfs h₂ fun n h => hn n (by simp [h]))

end

/-! ### `read` -/

/-- What changes while a datum is read: nodes are added. -/
structure To (s s' : Port) : Prop where
  next : s.next ≤ s'.next
  heap : ∀ m < s.next, s'.heap m = s.heap m
  labels : s'.labels = s.labels

theorem To.refl (s : Port) : To s s := ⟨Nat.le_refl _, fun _ _ => rfl, rfl⟩

theorem To.trans {s s' s'' : Port} (h : To s s') (h' : To s' s'') : To s s'' :=
  ⟨Nat.le_trans h.next h'.next, fun m hm => by rw [h'.heap m (Nat.lt_of_lt_of_le hm h.next), h.heap m hm], h'.labels.trans h.labels⟩

theorem To.alloc (s : Port) (x : Node Raw) : To s (s.alloc x).2 := by
  refine ⟨by simp [Port.alloc], fun m hm => ?_, rfl⟩
  simp only [Port.alloc]
  rw [if_neg (Nat.ne_of_lt hm)]

theorem Port.alloc_heap (s : Port) (x : Node Raw) : (s.alloc x).2.heap s.next = x := by simp [Port.alloc]

theorem To.list (s : Port) : ∀ (xs : List Raw) (t : Raw), To s (s.list xs t).2
  | [], t => .refl s
  | x :: xs, t => (To.list s xs t).trans (.alloc _ _)

/-- The nodes are new and different. -/
structure New (s s' : Port) (ns : List Nat) : Prop where
  nodup : ns.Nodup
  mem : ∀ n ∈ ns, s.next ≤ n ∧ n < s'.next

theorem New.nil (s s' : Port) : New s s' [] := ⟨List.nodup_nil, by simp⟩

theorem New.append {s s' s'' : Port} {ns ms : List Nat} (h₁ : s.next ≤ s'.next) (h₂ : s'.next ≤ s''.next)
    (h : New s s' ns) (h' : New s' s'' ms) : New s s'' (ns ++ ms) := by
  refine ⟨List.nodup_append.2 ⟨h.nodup, h'.nodup, ?_⟩, fun n hn => ?_⟩
  · rintro a ha b hb rfl
    have := h.mem a ha
    have := h'.mem a hb
    omega
  · rcases List.mem_append.1 hn with hn | hn
    · have := h.mem n hn; omega
    · have := h'.mem n hn; omega

theorem New.cons {s s' : Port} {ns : List Nat} (h₁ : s.next ≤ s'.next) (h : New s s' ns) (x : Node Raw) :
    New s (s'.alloc x).2 (s'.next :: ns) := by
  refine ⟨List.nodup_cons.2 ⟨fun hn => ?_, h.nodup⟩, fun n hn => ?_⟩
  · have := h.mem _ hn; omega
  · simp only [Port.alloc]
    rcases List.mem_cons.1 hn with rfl | hn
    · omega
    · have := h.mem n hn; omega

/-- `P` gives what the labels are: the one that is being read stands for itself, those of `Q` for objects. -/
structure Holds (P : Nat → Option Raw) (p : Place) (Q : List (Nat × Obj)) : Prop where
  inside : ∀ k, p = .inside k → P k = some (.thunk k)
  done : ∀ q ∈ Q, P q.1 = some (.obj q.2)

theorem Holds.left {p : Place} {Q Q' : List (Nat × Obj)} (h : Holds P p (Q' ++ Q)) : Holds P p Q :=
  ⟨h.inside, fun q hq => h.done q (by simp [hq])⟩

theorem Holds.right {p : Place} {Q Q' : List (Nat × Obj)} (h : Holds P p (Q' ++ Q)) : Holds P p Q' :=
  ⟨h.inside, fun q hq => h.done q (by simp [hq])⟩

/-- A datum as in Spec/DatumRing, or the label as the rest of a list. -/
def Fits (p : Place) (D : Datum) : Prop := Flat p D ∨ ∃ k, p = .inside k ∧ D = .ref k

theorem Fits.pair {p : Place} {a d : Datum} (h : Fits p (.pair a d)) : Flat p a ∧ Fits p d := by
  rcases h with h | ⟨k, -, h⟩
  · cases h with
    | pair ha hd => exact ⟨ha, .inl hd⟩
    | back ha => exact ⟨ha, .inr ⟨_, rfl, rfl⟩⟩
  · cases h

/-- Which labels are active. -/
structure Active (p : Place) (ks : List Nat) (s : Port) : Prop where
  top : p = .top → s.labels = []
  inside : ∀ k, p = .inside k → k ∈ s.labels

theorem Active.mono {p : Place} {ks : List Nat} {s s' : Port} (h : Active p ks s) (ht : To s s') (ls : List Nat) : Active p ls s' :=
  ⟨fun e => ht.labels.trans (h.top e), fun k e => ht.labels ▸ h.inside k e⟩

/-- The labels declared in a text. -/
structure Keys (p : Place) (ks ls : List Nat) (Q : List (Nat × Obj)) : Prop where
  keys : ls = Q.map Prod.fst ++ ks
  top : p ≠ .top → Q = []

theorem Keys.refl (p : Place) (ks : List Nat) : Keys p ks ks [] := ⟨rfl, fun _ => rfl⟩

theorem Keys.trans {p : Place} {ks ls ms : List Nat} {Q Q' : List (Nat × Obj)} (h : Keys p ks ls Q) (h' : Keys p ls ms Q') :
    Keys p ks ms (Q' ++ Q) := by
  refine ⟨?_, fun hp => by rw [h.top hp, h'.top hp]; rfl⟩
  rw [h'.keys, h.keys]
  simp

/-- What `read` makes of a text. -/
def Reads (s s' : Port) (p : Place) (Q : List (Nat × Obj)) (D : Datum) (v : Raw) : Prop :=
  To s s' ∧ ∃ ns, New s s' ns ∧ ∀ P, Holds P p Q → LDen s'.heap s'.next P D v ns

/-- What is read for the rest of a list, as a datum that shows the pairs to be made. -/
def ReadsTail (s s' : Port) (p : Place) (Q : List (Nat × Obj)) (D : Datum) (xs : List Raw) (t : Raw) : Prop :=
  To s s' ∧ ∀ s₁, To s' s₁ → ∃ ns, New s (s₁.list xs t).2 ns ∧ (∀ n ∈ ns, n < s'.next ∨ s₁.next ≤ n) ∧
    ∀ P, Holds P p Q → LDen (s₁.list xs t).2.heap (s₁.list xs t).2.next P D (s₁.list xs t).1 ns

def ReadsElements (s s' : Port) (p : Place) (Q : List (Nat × Obj)) (Ds : List Datum) (xs : List Raw) : Prop :=
  To s s' ∧ ∃ ns, New s s' ns ∧ ∀ P, Holds P p Q → LDens s'.heap s'.next P Ds xs ns

theorem ReadsTail.last {s s' : Port} {p : Place} {Q : List (Nat × Obj)} {D : Datum} {v : Raw} (h : Reads s s' p Q D v) :
    ReadsTail s s' p Q D [] v := by
  obtain ⟨h₁, ns, h₂, h₃⟩ := h
  refine ⟨h₁, fun s₁ hs => ⟨ns, ⟨h₂.nodup, fun n hn => ?_⟩, fun n hn => .inl (h₂.mem n hn).2, fun P hP => (h₃ P hP).mono hs.next hs.heap⟩⟩
  have := h₂.mem n hn
  have := hs.next
  simp only [Port.list]
  omega

theorem ReadsTail.cons {s s₁ s₂ : Port} {p : Place} {Q Q' : List (Nat × Obj)} {a d : Datum} {v t : Raw} {xs : List Raw}
    (h : Reads s s₁ p Q a v) (h' : ReadsTail s₁ s₂ p Q' d xs t) : ReadsTail s s₂ p (Q' ++ Q) (.pair a d) (v :: xs) t := by
  obtain ⟨h₁, ns, h₂, h₃⟩ := h
  obtain ⟨h₄, h₅⟩ := h'
  refine ⟨h₁.trans h₄, fun s₃ hs => ?_⟩
  obtain ⟨ms, h₆, h₇, h₈⟩ := h₅ s₃ hs
  have h₉ := To.list s₃ xs t
  simp only [Port.list]
  generalize (s₃.list xs t) = q at h₆ h₈ h₉ ⊢
  obtain ⟨r, s₄⟩ := q
  simp only at h₆ h₈ h₉ ⊢
  have h₁₀ := To.alloc s₄ (.pair v r)
  have h₁₁ := h₁.next
  have h₁₂ := h₄.next
  have h₁₃ := hs.next
  have h₁₄ := h₉.next
  refine ⟨s₄.next :: (ns ++ ms), .cons (by omega) (h₂.append h₁.next (by omega) h₆) _, fun n hn => ?_, fun P hP => ?_⟩
  · rcases List.mem_cons.1 hn with rfl | hn
    · exact .inr h₁₄
    · rcases List.mem_append.1 hn with hn | hn
      · have := h₂.mem n hn; exact .inl (by omega)
      · exact h₇ n hn
  · refine .pair (by simp [Port.alloc]) (Port.alloc_heap _ _) ?_ ((h₈ P hP.right).mono h₁₀.next h₁₀.heap)
    exact ((h₃ P hP.left).mono (Nat.le_trans h₁₂ (Nat.le_trans h₁₃ h₁₄)) ((h₄.trans (hs.trans h₉)).heap)).mono h₁₀.next h₁₀.heap

theorem ReadsTail.list {s s' : Port} {p : Place} {Q : List (Nat × Obj)} {D : Datum} {xs : List Raw} {t : Raw}
    (h : ReadsTail s s' p Q D xs t) : Reads s (s'.list xs t).2 p Q D (s'.list xs t).1 := by
  obtain ⟨h₁, h₂⟩ := h
  obtain ⟨ns, h₃, -, h₄⟩ := h₂ s' (.refl _)
  exact ⟨h₁.trans (.list _ _ _), ns, h₃, h₄⟩

/-- The first token of a text. -/
def starts : Tok → Prop
  | .space | .rp | .dot => False
  | _ => True

theorem text_starts {ts : List Tok} {D : Datum} (h : Text ts D) : ∃ t us, ts = t :: us ∧ starts t := by
  cases h <;> exact ⟨_, _, rfl, trivial⟩

mutual

theorem read_reads {ts : List Tok} {D : Datum} : Text ts D → ∀ {ks ls : List Nat} {s : Port} {p : Place} (rest : List Tok),
    Fits p D → Scoped ks D ls → Active p ks s →
    ∃ v s' Q M, Keys p ks ls Q ∧ (∀ f, M ≤ f → read f (ts ++ rest) s = some (.ok v, rest, s')) ∧ Reads s s' p Q D v
  | .nil, ks, ls, s, p, rest, hf, hs, ha => by
    cases hs
    refine ⟨.obj .nil, s, [], 3, .refl _ _, fun f hf => ?_, .refl _, [], .nil _ _, fun P hP => .nil⟩
    obtain ⟨f, rfl⟩ : ∃ g, f = g + 3 := ⟨f - 3, by omega⟩
    rfl
  | .atom a, ks, ls, s, p, rest, hf, hs, ha => by
    cases hs
    refine ⟨.obj (.atom a), s, [], 1, .refl _ _, fun f hf => ?_, .refl _, [], .nil _ _, fun P hP => .atom a⟩
    obtain ⟨f, rfl⟩ : ∃ g, f = g + 1 := ⟨f - 1, by omega⟩
    rfl
  | .string x, ks, ls, s, p, rest, hf, hs, ha => by
    cases hs
    refine ⟨(s.alloc (.string x)).1, (s.alloc (.string x)).2, [], 1, .refl _ _, fun f hf => ?_, .alloc _ _, ?_⟩
    · obtain ⟨f, rfl⟩ : ∃ g, f = g + 1 := ⟨f - 1, by omega⟩
      rfl
    · by_cases hx : x = []
      · subst hx
        exact ⟨[], .nil _ _, fun P hP => .noString (by simp [Port.alloc]) (Port.alloc_heap _ _)⟩
      · exact ⟨[s.next], .cons (Nat.le_refl _) (.nil _ _) _, fun P hP => .string (by simp [Port.alloc]) (Port.alloc_heap _ _) hx⟩
  | .pair (ts := ts) (us := us) (a := a) (d := d) ht hd, ks, ls, s, p, rest, hf, hs, ha => by
    cases hs with
    | pair hsa hsd =>
      obtain ⟨hfa, hfd⟩ := hf.pair
      obtain ⟨v, s₁, Q₁, M₁, hk₁, h₁, h₂⟩ := read_reads ht (us ++ rest) (.inl hfa) hsa ha
      obtain ⟨xs, t, s₂, Q₂, M₂, hk₂, h₃, h₄⟩ := readList_reads hd rest hfd hsd (ha.mono h₂.1 _)
      refine ⟨_, _, _, M₁ + M₂ + 2, hk₁.trans hk₂, fun f hf => ?_, (ReadsTail.cons h₂ h₄).list⟩
      obtain ⟨f, rfl⟩ : ∃ g, f = g + 2 := ⟨f - 2, by omega⟩
      have e : readList (f + 1) (ts ++ (us ++ rest)) s = some (.ok t, v :: xs, rest, s₂) := by
        rw [readList.eq_def]
        simp only [h₁ f (by omega), Option.bind_some, h₃ f (by omega), Option.map_some]
      rw [read.eq_def]
      simp only [List.cons_append, List.append_assoc, e, Option.map_some]
  | .vector (ts := ts) (ds := ds) he, ks, ls, s, p, rest, hf, hs, ha => by
    cases hs with
    | vector hs =>
      have hfs : Flats p.elements ds := by
        rcases hf with hf | ⟨k, -, hf⟩
        · cases hf with
          | vector hfs => exact hfs
        · cases hf
      have ha' : Active p.elements ks s := by
        refine ⟨fun e => ha.top ?_, fun k e => ?_⟩
        · cases p <;> simp [Place.elements] at e ⊢
        · cases p <;> simp [Place.elements] at e
      obtain ⟨xs, s₁, Q, M, hk, h₁, h₂, ns, h₃, h₄⟩ := readList_elements he rest hfs hs ha'
      have hk' : Keys p ks ls Q := by
        refine ⟨hk.keys, fun hp => hk.top ?_⟩
        cases p <;> simp [Place.elements] at hp ⊢
      have hP' : ∀ P, Holds P p Q → Holds P p.elements Q := fun P hP => by
        refine ⟨fun k e => ?_, hP.done⟩
        cases p <;> simp [Place.elements] at e
      have h₅ := To.alloc s₁ (.vector xs)
      refine ⟨(s₁.alloc (.vector xs)).1, (s₁.alloc (.vector xs)).2, Q, M + 1, hk', fun f hf => ?_, h₂.trans h₅, ?_⟩
      · obtain ⟨f, rfl⟩ : ∃ g, f = g + 1 := ⟨f - 1, by omega⟩
        have := (h₁ f (by omega)).1
        rw [read.eq_def]
        simp only [List.cons_append, List.append_assoc, List.nil_append, this, Option.bind_some]
      · by_cases hx : xs = []
        · subst hx
          refine ⟨[], .nil _ _, fun P hP => ?_⟩
          cases h₄ P (hP' P hP)
          exact .noVector (by simp [Port.alloc]) (Port.alloc_heap _ _)
        · exact ⟨_, .cons h₂.next h₃ _, fun P hP =>
            .vector (by simp [Port.alloc]) (Port.alloc_heap _ _) hx ((h₄ P (hP' P hP)).mono h₅.next h₅.heap)⟩
  | .label (ts := ts) (d := d) k h, ks, ls, s, p, rest, hf, hs, ha => by
    cases hs with
    | label hkk hd hs =>
      have hf' : p = .top ∧ Flat (.inside k) d := by
        rcases hf with hf | ⟨k, -, hf⟩
        · cases hf with
          | label hf => exact ⟨rfl, hf⟩
        · cases hf
      obtain ⟨rfl, hfd⟩ := hf'
      have hl := ha.top rfl
      obtain ⟨v, s₁, Q, M₁, hk, h₁, h₂, ns, h₃, h₄⟩ := read_reads h (s := { s with labels := k :: s.labels }) (p := .inside k) rest
        (.inl hfd) hs ⟨(fun e => by cases e), (fun j e => by cases e; simp)⟩
      obtain rfl := hk.top (by simp)
      have h₅ : LDen s₁.heap s₁.next (fun j => if j = k then some (.thunk k) else none) d v ns :=
        h₄ _ ⟨fun j e => by cases e; simp, by simp⟩
      obtain ⟨o, rfl⟩ := LDen.known hfd h₅
      obtain ⟨M₂, h', h₆, h₇⟩ := circulate_spec (x := .obj o) (k := k) (by simp) hfd h₅ h₃.nodup
      refine ⟨.obj o, { s₁ with heap := h', labels := s₁.labels.erase k }, [(k, o)], M₁ + M₂ + 1, ⟨?_, by simp⟩,
        fun f hf => ?_, ⟨h₂.next, fun m hm => ?_, ?_⟩, ns, ⟨h₃.nodup, h₃.mem⟩, fun P hP => ?_⟩
      · rw [hk.keys]; rfl
      · obtain ⟨f, rfl⟩ : ∃ g, f = g + 1 := ⟨f - 1, by omega⟩
        rw [read.eq_def]
        simp only [List.cons_append, hl, List.not_mem_nil, if_false]
        have := h₁ f (by omega)
        simp only [hl] at this
        simp only [this, Option.bind_some, reduceCtorEq, if_false, h₇ f (by omega), Option.map_some]
      · simp only
        rw [h₆ m, if_neg, h₂.heap m hm]
        intro hm'
        have := h₃.mem m hm'
        simp only at this hm
        omega
      · simp only [h₂.labels, List.erase_cons_head]
      · have hPk : P k = some (.obj o) := hP.done (k, o) (by simp)
        exact .label hPk (LDen.patched h₆ hPk (by simp) (.inl rfl) hfd h₅ fun n h => h)
  | .ref k, ks, ls, s, p, rest, hf, hs, ha => by
    cases hs with
    | ref hkk =>
      have hp : p = .inside k := by
        rcases hf with hf | ⟨k', hp, hf⟩
        · cases hf
        · cases hf; exact hp
      refine ⟨.thunk k, s, [], 1, .refl _ _, fun f hf => ?_, .refl _, [], .nil _ _, fun P hP => .ref (hP.inside k hp)⟩
      obtain ⟨f, rfl⟩ : ∃ g, f = g + 1 := ⟨f - 1, by omega⟩
      rw [read.eq_def]
      simp only [List.cons_append, List.nil_append, ha.inside k hp, if_true]

theorem readList_reads {ts : List Tok} {D : Datum} : Tail ts D → ∀ {ks ls : List Nat} {s : Port} {p : Place} (rest : List Tok),
    Fits p D → Scoped ks D ls → Active p ks s →
    ∃ xs t s' Q M, Keys p ks ls Q ∧ (∀ f, M ≤ f → readList f (ts ++ rest) s = some (.ok t, xs, rest, s')) ∧
      ReadsTail s s' p Q D xs t
  | .nil, ks, ls, s, p, rest, hf, hs, ha => by
    cases hs
    refine ⟨[], .obj .nil, s, [], 2, .refl _ _, fun f hf => ?_, .last ⟨.refl _, [], .nil _ _, fun P hP => .nil⟩⟩
    obtain ⟨f, rfl⟩ : ∃ g, f = g + 2 := ⟨f - 2, by omega⟩
    rfl
  | .pair (ts := ts) (us := us) ht hd, ks, ls, s, p, rest, hf, hs, ha => by
    cases hs with
    | pair hsa hsd =>
      obtain ⟨hfa, hfd⟩ := hf.pair
      obtain ⟨v, s₁, Q₁, M₁, hk₁, h₁, h₂⟩ := read_reads ht (us ++ rest) (.inl hfa) hsa ha
      obtain ⟨xs, t, s₂, Q₂, M₂, hk₂, h₃, h₄⟩ := readList_reads hd rest hfd hsd (ha.mono h₂.1 _)
      refine ⟨v :: xs, t, s₂, _, M₁ + M₂ + 2, hk₁.trans hk₂, fun f hf => ?_, ReadsTail.cons h₂ h₄⟩
      obtain ⟨f, rfl⟩ : ∃ g, f = g + 2 := ⟨f - 2, by omega⟩
      rw [readList.eq_def]
      have e : read (f + 1) (.space :: (ts ++ us) ++ rest) s = some (.ok v, us ++ rest, s₁) := by
        rw [read.eq_def]
        simp only [List.cons_append, List.append_assoc, h₁ f (by omega)]
      simp only [e, Option.bind_some, h₃ (f + 1) (by omega), Option.map_some]
  | .dot (ts := ts) hd, ks, ls, s, p, rest, hf, hs, ha => by
    obtain ⟨v, s₁, Q₁, M₁, hk₁, h₁, h₂⟩ := read_reads hd (.rp :: rest) hf hs ha
    refine ⟨[], v, s₁, Q₁, M₁ + 2, hk₁, fun f hf => ?_, .last h₂⟩
    obtain ⟨f, rfl⟩ : ∃ g, f = g + 2 := ⟨f - 2, by omega⟩
    rw [readList.eq_def]
    have e : read (f + 1) (.dot :: (ts ++ [.rp]) ++ rest) s = some (.dot, ts ++ (.rp :: rest), s) := by
      rw [read.eq_def]
      simp only [List.cons_append, List.append_assoc, List.nil_append]
    simp only [e, Option.bind_some, h₁ (f + 1) (by omega), Option.map_some, skip]

theorem readList_elements {ts : List Tok} {Ds : List Datum} : Elements ts Ds → ∀ {ks ls : List Nat} {s : Port} {p : Place}
    (rest : List Tok), Flats p Ds → Scopeds ks Ds ls → Active p ks s →
    ∃ xs s' Q M, Keys p ks ls Q ∧ (∀ f, M ≤ f → readList f (ts ++ (.rp :: rest)) s = some (.ok (.obj .nil), xs, rest, s') ∧
        readList f (.space :: (ts ++ (.rp :: rest))) s = some (.ok (.obj .nil), xs, rest, s')) ∧
      ReadsElements s s' p Q Ds xs
  | .nil, ks, ls, s, p, rest, hf, hs, ha => by
    cases hs
    refine ⟨[], s, [], 3, .refl _ _, fun f hf => ?_, .refl _, [], .nil _ _, fun P hP => .nil⟩
    obtain ⟨f, rfl⟩ : ∃ g, f = g + 3 := ⟨f - 3, by omega⟩
    exact ⟨rfl, rfl⟩
  | .one (ts := ts) ht, ks, ls, s, p, rest, hf, hs, ha => by
    cases hs with
    | cons hsa hsd =>
      cases hsd
      cases hf with
      | cons hfa hfd =>
        obtain ⟨v, s₁, Q₁, M₁, hk₁, h₁, h₂, ns, h₃, h₄⟩ := read_reads ht (.rp :: rest) (.inl hfa) hsa ha
        refine ⟨[v], s₁, Q₁, M₁ + 3, hk₁, fun f hf => ?_, h₂, ns ++ [], by simpa using h₃, fun P hP => .cons (h₄ P hP) .nil⟩
        obtain ⟨f, rfl⟩ : ∃ g, f = g + 3 := ⟨f - 3, by omega⟩
        have e : readList (f + 2) (.rp :: rest) s₁ = some (.ok (.obj .nil), [], rest, s₁) := rfl
        have e' : ∀ g, M₁ + 1 ≤ g → read g (.space :: (ts ++ .rp :: rest)) s = some (.ok v, .rp :: rest, s₁) := fun g hg => by
          obtain ⟨g, rfl⟩ : ∃ i, g = i + 1 := ⟨g - 1, by omega⟩
          rw [read.eq_def]
          simp only [h₁ g (by omega)]
        rw [readList.eq_def, readList.eq_def]
        simp only [h₁ (f + 2) (by omega), e' (f + 2) (by omega), e, Option.bind_some, Option.map_some, and_self]
  | .cons (ts := ts) (us := us) ht hd, ks, ls, s, p, rest, hf, hs, ha => by
    cases hs with
    | cons hsa hsd =>
      cases hf with
      | cons hfa hfd =>
        obtain ⟨v, s₁, Q₁, M₁, hk₁, h₁, h₂, ns, h₃, h₄⟩ := read_reads ht (.space :: (us ++ .rp :: rest)) (.inl hfa) hsa ha
        obtain ⟨xs, s₂, Q₂, M₂, hk₂, h₅, h₆, ms, h₇, h₈⟩ := readList_elements hd rest hfd hsd (ha.mono h₂ _)
        refine ⟨v :: xs, s₂, _, M₁ + M₂ + 2, hk₁.trans hk₂, fun f hf => ?_, h₂.trans h₆, ns ++ ms, h₃.append h₂.next h₆.next h₇,
          fun P hP => .cons ((h₄ P hP.left).mono h₆.next h₆.heap) (h₈ P hP.right)⟩
        obtain ⟨f, rfl⟩ : ∃ g, f = g + 2 := ⟨f - 2, by omega⟩
        have e' : read (f + 1) (.space :: (ts ++ .space :: (us ++ .rp :: rest))) s =
            some (.ok v, .space :: (us ++ .rp :: rest), s₁) := by
          rw [read.eq_def]
          simp only [h₁ f (by omega)]
        rw [readList.eq_def, readList.eq_def]
        simp only [List.append_assoc, List.cons_append, h₁ (f + 1) (by omega), e', (h₅ (f + 1) (by omega)).2, Option.bind_some,
          Option.map_some, and_self]

end

end Meevax.Label
