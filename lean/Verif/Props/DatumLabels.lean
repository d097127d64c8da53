import Verif.Lemmas.LabelRound

/-! C68: `write` and `read` with datum labels. -/

namespace Meevax.Label

open Meevax.Shared

/-- **C68.** What `write` writes for a pair is a text that shows the object: labels are declared once and
before they are used, and everything shown is as it is in the heap. -/
theorem C68_write_denotes {H : Heap Obj} {B f n : Nat} {a d : Obj} {ts : List Tok} (hn : H n = .pair a d)
    (h : writeDatum H B f (.ref n) = some ts) :
    ∃ D L ks ns, Text ts D ∧ Scoped [] D ks ∧ Den H L D (.ref n) ns := by
  obtain ⟨⟨us, T⟩, h₁, rfl⟩ := map_some h
  rw [write_none hn] at h₁
  obtain ⟨⟨vs, T'⟩, h₂, h₃⟩ := map_some h₁
  simp only [Prod.mk.injEq] at h₃
  obtain ⟨rfl, rfl⟩ := h₃
  obtain ⟨t', D, rfl, h₄, h₅, ⟨ns, h₆⟩, -⟩ := (all (B := B) f).write _ _ _ _ h₂
  have hs := h₅.scope (fun k hk => by cases hk)
  have hnd := scoped_nodup hs List.nodup_nil
  refine ⟨D, fun k => (t'.map fun p => (p.2, Obj.ref p.1)).lookup k, _, ns, h₄, hs, h₆ _ fun n k hk => ?_⟩
  refine stands_mem (Q := t'.map fun p => (p.2, Obj.ref p.1)) ?_ (List.mem_map.2 ⟨_, hk, rfl⟩)
  simpa [nums, Function.comp_def] using hnd

/-- **C68.** `write` ends on every object whose cycles are circular lists, each entered at a pair on the
cycle: on every other descent it comes to an end, or to a circular list that it is inside of. -/
theorem C68_write_ends_partial {H : Heap Obj} {B : Nat} (hB : Bounded H B) {n : Nat} (hn : n < B) {a d : Obj}
    (hp : H n = .pair a d) (hr : Ringed H [] (.ref n)) :
    ∃ ts M, ∀ f, M ≤ f → writeDatum H B f (.ref n) = some ts := by
  obtain ⟨ts, t', M, -, h⟩ := write_ends hB hr (fun m e => by cases e; exact hn) (t := [])
    ⟨fun n hn => (by cases hn), fun n hn => (by cases hn)⟩
  refine ⟨ts, M, fun f hf => ?_⟩
  rw [writeDatum, write_none hp, h f hf]
  rfl

/-- **C68.** `read`, of a text whose labels are not inside one another and are used only as the rest of a
list inside of what they label, gives what the text denotes; no label remains, neither in it nor in the
port, and objects that were there before are not changed. -/
theorem C68_read_denotes_partial {ts : List Tok} {D : Datum} {ks : List Nat} (ht : Text ts D) (hf : Flat .top D)
    (hs : Scoped [] D ks) (s : Port) (hl : s.labels = []) (rest : List Tok) :
    ∃ v s' M ns, (∀ f, M ≤ f → read f (ts ++ rest) s = some (.ok (.obj v), rest, s')) ∧ Denotes (heapOf s'.heap) D v ns ∧
      NoLabels s'.heap ns ∧ s'.labels = [] ∧ ∀ m < s.next, s'.heap m = s.heap m :=
  read_denotes ht hf hs s hl rest

/-- **C68.** What is written for a pair, in which circular lists are not inside one another and occur once, is read
back as an object that unfolds to the same tree. -/
theorem C68_round_trip_partial {H : Heap Obj} {B : Nat} (hB : Bounded H B) {n : Nat} (hn : n < B) {a d : Obj}
    (hp : H n = .pair a d) {rs : List Nat} (hr : Simple H (.ref n) rs) (hd : rs.Nodup) (s : Port) (hl : s.labels = []) :
    ∃ ts M, (∀ f, M ≤ f → writeDatum H B f (.ref n) = some ts) ∧ ∀ rest, ∃ v s' M', (∀ f, M' ≤ f →
      read f (ts ++ rest) s = some (.ok (.obj v), rest, s')) ∧ Similar H (.ref n) (heapOf s'.heap) v ∧ s'.labels = [] := by
  obtain ⟨ts, t', M, -, h⟩ := write_ends hB (simple_ringed hr []) (fun m e => by cases e; exact hn) (t := [])
    ⟨fun n hn => (by cases hn), fun n hn => (by cases hn)⟩
  refine ⟨ts, M, fun f hf => by rw [writeDatum, write_none hp, h f hf]; rfl, fun rest => ?_⟩
  have hw := h M (Nat.le_refl _)
  obtain ⟨t'', D, e, h₄, h₅, ⟨ns, h₆⟩, h₇⟩ := (all (B := B) M).write _ _ _ _ hw
  cases e
  have hright : Right H B (circular H B) := by
    refine ⟨hB, fun n a d rs hn hp hs => ?_, fun n a d hn hp hs => ?_⟩
    · rw [circular_ends hB (simple_ends hs []) (.part hB hn (by simp [hp, Node.parts]))]
      simp
    · rw [circular_ring hB (simple_ring hs []) hn hp]
      simp
  have hs := h₅.scope (fun k hk => by cases hk)
  have hnd := scoped_nodup hs List.nodup_nil
  obtain ⟨-, hflat, -⟩ := h₇ hright rs ⟨fun m e => by cases e; exact hn, hr⟩ hd (fun r _ hk => by cases hk)
  obtain ⟨v, s', M', ns', h₈, ⟨L', ks', -, h₉, -⟩, -, h₁₀, -⟩ := read_denotes h₄ hflat hs s hl rest
  refine ⟨v, s', M', h₈, similar hs (h₆ (fun k => (t'.map fun p => (p.2, Obj.ref p.1)).lookup k) fun n k hk => ?_) h₉, h₁₀⟩
  refine stands_mem (Q := t'.map fun p => (p.2, Obj.ref p.1)) ?_ (List.mem_map.2 ⟨_, hk, rfl⟩)
  simpa [nums, Function.comp_def] using hnd

/-! ### Non-vacuity -/

/-- `(0 #1=(1 2 . #1#))`. -/
def sample : Heap Obj
  | 0 => .pair (.atom 0) (.ref 1)
  | 1 => .pair (.ref 2) .nil
  | 2 => .pair (.atom 1) (.ref 3)
  | 3 => .pair (.atom 2) (.ref 2)
  | _ => .string []

theorem sample_bounded : Bounded sample 4 := by
  intro n hn m hm
  match n, hn with
  | 0, _ => simp [sample, Node.parts] at hm; omega
  | 1, _ => simp [sample, Node.parts] at hm; omega
  | 2, _ => simp [sample, Node.parts] at hm; omega
  | 3, _ => simp [sample, Node.parts] at hm; omega

theorem sample_noPair : NoPair sample .nil := fun n _ _ h => by cases h

theorem sample_simple : Simple sample (.ref 0) [2] :=
  .pair (rs := []) (qs := [2]) rfl (.atom 0) (.pair (rs := [2]) (qs := []) rfl (.ring (.step rfl (by decide) (.atom 1) (.last rfl (.atom 2))))
    (.last sample_noPair .nil))

/-- A list with a circular list in it is written and read back. -/
theorem C68_example : ∃ ts M, (∀ f, M ≤ f → writeDatum sample 4 f (.ref 0) = some ts) ∧ ∀ rest, ∃ v s' M', (∀ f, M' ≤ f →
    read f (ts ++ rest) Port.empty = some (.ok (.obj v), rest, s')) ∧ Similar sample (.ref 0) (heapOf s'.heap) v ∧ s'.labels = [] :=
  C68_round_trip_partial sample_bounded (by decide) rfl sample_simple (by decide) _ rfl

/-- Its text. -/
theorem C68_example_text (f : Nat) : writeDatum sample 4 (f + 8) (.ref 0) =
    some [.lp, .atom 0, .space, .label 1, .lp, .atom 1, .space, .atom 2, .dot, .ref 1, .rp, .rp] := by
  have h₁ : circular sample 4 (.ref 1) = some false :=
    circular_ends sample_bounded (S := []) (.pair (n := 1) rfl (simple_ringed (.ring (.step rfl (by decide) (.atom 1) (.last rfl (.atom 2)))) [])
      (.last sample_noPair (.nil _))) (fun m e => by cases e; decide)
  have h₂ : circular sample 4 (.ref 3) = some true :=
    circular_ring sample_bounded (S := []) (n := 2) (.step rfl (by decide) (.atom _ 1) (.last rfl (.atom _ 2))) (by decide) rfl
  simp [writeDatum, write, writeList, writeRing, sample, h₁, h₂]

/-- `#1=(#1# . #1#)`: a circular list that is its own element. -/
def own : Heap Obj := fun _ => .pair (.ref 0) (.ref 0)

/-- The hypotheses of `C68_write_ends_partial` are met by it. -/
theorem C68_example_ends : ∃ ts M, ∀ f, M ≤ f → writeDatum own 1 f (.ref 0) = some ts :=
  C68_write_ends_partial (fun n hn m hm => by simp [own, Node.parts] at hm; omega) (by decide) rfl
    (.ring (.last rfl (.again (by simp))))

/-! ### Where it fails -/

/-- No pair of the list from `x` on is `n`. -/
def Misses (H : Heap Obj) (n : Nat) (x : Obj) : Prop := ∀ B as, ¬ Lists.Seg (listHeap H B) (listObj H x) as (.pair n)

theorem writeRing_misses {H : Heap Obj} {circ : Obj → Option Bool} {root : Nat} {a₀ d₀ : Obj} (h₀ : H root = .pair a₀ d₀) :
    ∀ (f m : Nat) (t : List (Nat × Nat)), (∀ a d, H m = .pair a d → Misses H root d) → writeRing circ H f root m t = none
  | 0, m, t, _ => by rw [writeRing.eq_def]
  | f + 1, m, t, h => by
    rw [writeRing.eq_def]
    cases hm : H m with
    | vector => simp only [hm]
    | string => simp only [hm]
    | pair a d =>
      have hd := h a d hm
      have hne : d ≠ .ref root := by
        rintro rfl
        refine hd 0 [] ?_
        have : listObj H (.ref root) = .pair root := by simp [listObj, h₀]
        rw [this]
        exact .nil _
      simp only [hm, hne, if_false]
      cases d with
      | nil => simp
      | atom => simp
      | ref j =>
        have hj : ∀ a d, H j = .pair a d → Misses H root d := fun a d hjp B as hs => by
          refine hd (B + j + 1) (j :: as) ?_
          have : listObj H (.ref j) = .pair j := by simp [listObj, hjp]
          rw [this]
          refine .cons (by simp only [listHeap]; omega) ?_
          have hmono : ∀ {x y as}, Lists.Seg (listHeap H B) x as y → Lists.Seg (listHeap H (B + j + 1)) x as y := by
            intro x y as hs
            induction hs with
            | nil => exact .nil _
            | cons hlt _ ih => exact .cons (by simp only [listHeap] at hlt ⊢; omega) ih
          simpa [listHeap, hjp] using hmono hs
        simp only [writeRing_misses h₀ f j _ hj]
        cases write circ H f a (some t) <;> rfl

/-- **C68, a counterexample.** `write` of a list that runs into a cycle, its first pair not on the cycle, never
ends. -/
theorem C68_write_fails {H : Heap Obj} {B : Nat} (hB : Bounded H B) {n : Nat} (hn : n < B) {a d : Obj} (hp : H n = .pair a d)
    (hc : Lists.Circular (listHeap H B) (listObj H d)) (hm : Misses H n d) (f : Nat) : writeDatum H B f (.ref n) = none := by
  have hd : Below B d := .part hB hn (by simp [hp, Node.parts])
  obtain ⟨p, c, q, -, h₃, -, -, h₄, -⟩ := Lists.C10_classification (closed hB hd)
  have hcirc : circular H B d = some true := by rw [circular, h₃, h₄.2 hc]
  rw [writeDatum, write_none hp]
  cases f with
  | zero => rw [write.eq_def]; rfl
  | succ f =>
    rw [write.eq_def]
    simp only [hp, hcirc, Option.bind_some, Option.getD_some, if_true, List.lookup]
    rw [writeRing_misses hp f n _ fun a' d' h => by rw [hp] at h; cases h; exact hm]
    rfl

/-- `(0 . #1=(1 . #1#))`. -/
def rho : Heap Obj
  | 0 => .pair (.atom 0) (.ref 1)
  | 1 => .pair (.atom 1) (.ref 1)
  | _ => .string []

theorem rho_bounded : Bounded rho 2 := by
  intro n hn m hm
  match n, hn with
  | 0, _ => simp [rho, Node.parts] at hm; omega
  | 1, _ => simp [rho, Node.parts] at hm; omega

/-- Such a list. -/
theorem C68_write_rho_fails (f : Nat) : writeDatum rho 2 f (.ref 0) = none := by
  refine C68_write_fails rho_bounded (by decide) (n := 0) rfl ?_ ?_ f
  · exact fun k => circular_of_cycle (h := listHeap rho 2) (r := 1) (by decide) (as := []) (.nil _) k _ [] (.nil _)
  · intro B as hs
    have : ∀ x as y, Lists.Seg (listHeap rho B) x as y → x = .pair 1 → y = .pair 1 := by
      intro x as y hs
      induction hs with
      | nil => exact id
      | cons _ _ ih =>
        intro e
        cases e
        exact ih rfl
    have := this _ _ _ hs rfl
    cases this

/-- **C68, counterexamples.** `write` never ends on a pair that is its own car. -/
theorem C68_write_car_fails (f : Nat) : writeDatum (fun _ => .pair (.ref 0) .nil) 1 f (.ref 0) = none := by
  have h : ∀ f t, write (circular (fun _ => .pair (.ref 0) .nil) 1) (fun _ => .pair (.ref 0) .nil) f (.ref 0) t = none := by
    intro f
    induction f with
    | zero => intro t; rw [write.eq_def]
    | succ f ih =>
      intro t
      have : circular (fun _ => .pair (.ref 0) .nil) 1 .nil = some false :=
        circular_ends (fun n hn m hm => by simp [Node.parts] at hm; omega) (S := []) (.last (fun n _ _ h => by cases h) (.nil _))
          (fun m e => by cases e)
      rw [write.eq_def]
      simp only [this, Option.bind_some, Bool.false_eq_true, if_false, ih, Option.bind_none]
  rw [writeDatum, h]
  rfl

/-- Nor on a vector that is its own element. -/
theorem C68_write_vector_fails (f B : Nat) : writeDatum (fun _ => .vector [.ref 0]) B f (.ref 0) = none := by
  have h : ∀ f t, write (circular (fun _ => .vector [.ref 0]) B) (fun _ => .vector [.ref 0]) f (.ref 0) t = none ∧
      writeVector (circular (fun _ => .vector [.ref 0]) B) (fun _ => .vector [.ref 0]) f [.ref 0] t = none := by
    intro f
    induction f with
    | zero => intro t; rw [write.eq_def, writeVector.eq_def]; exact ⟨rfl, rfl⟩
    | succ f ih =>
      intro t
      rw [write.eq_def, writeVector.eq_def]
      simp only [(ih t).1, (ih t).2, Option.map_none, and_self]
  rw [writeDatum, (h f none).1]
  rfl

/-- `#(#1=(5 . #1#) #2=(6 . #2#))`. -/
def twoRings : Heap Obj
  | 0 => .vector [.ref 1, .ref 2]
  | 1 => .pair (.atom 5) (.ref 1)
  | 2 => .pair (.atom 6) (.ref 2)
  | _ => .string []

/-- **C68, a counterexample.** A vector with two circular lists is written with the label 1 twice. -/
theorem C68_write_label_twice_fails (f : Nat) : writeDatum twoRings 3 (f + 6) (.ref 0) =
    some [.vec, .label 1, .lp, .atom 5, .dot, .ref 1, .rp, .space, .label 1, .lp, .atom 6, .dot, .ref 1, .rp, .rp] := by
  have hB : Bounded twoRings 3 := by
    intro n hn m hm
    match n, hn with
    | 0, _ => simp [twoRings, Node.parts] at hm; omega
    | 1, _ => simp [twoRings, Node.parts] at hm; omega
    | 2, _ => simp [twoRings, Node.parts] at hm; omega
  have h₁ : circular twoRings 3 (.ref 1) = some true :=
    circular_ring hB (S := []) (n := 1) (.last rfl (.atom _ 5)) (by decide) rfl
  have h₂ : circular twoRings 3 (.ref 2) = some true :=
    circular_ring hB (S := []) (n := 2) (.last rfl (.atom _ 6)) (by decide) rfl
  simp [writeDatum, write, writeVector, writeRing, twoRings, h₁, h₂]

/-- `(#1=(5) #1#)`. -/
def sharedText : List Tok := [.lp, .label 1, .lp, .atom 5, .rp, .space, .ref 1, .rp]

def sharedDatum : Datum := .pair (.label 1 (.pair (.atom 5) .nil)) (.pair (.ref 1) .nil)

def sharedHeap : Heap Obj
  | 0 => .pair (.ref 1) (.ref 2)
  | 1 => .pair (.atom 5) .nil
  | 2 => .pair (.ref 1) .nil
  | _ => .string []

/-- **C68, a counterexample.** A text that denotes an object, a list with the same list twice in it, is an
error for `read`: a label is forgotten when what it labels has been read. -/
theorem C68_read_shared_fails (f : Nat) : Text sharedText sharedDatum ∧ Denotes sharedHeap sharedDatum (.ref 0) [0, 1, 2] ∧
    ∃ s ts, read (f + 9) sharedText Port.empty = some (.error, ts, s) := by
  refine ⟨.pair (ts := [.label 1, .lp, .atom 5, .rp]) (.label 1 (.pair (.atom 5) .nil)) (.pair (ts := [.ref 1]) (.ref 1) .nil), ?_,
    _, _, rfl⟩
  exact ⟨fun k => if k = 1 then some (.ref 1) else none, [1],
    .pair (.label (by simp) rfl (.pair (.atom _ 5) (.nil _))) (.pair (.ref (by simp)) (.nil _)),
    .pair (ns := [1]) (ms := [2]) rfl (.label rfl (.pair (ns := []) (ms := []) rfl (.atom 5) .nil))
      (.pair (ns := []) (ms := []) rfl (.ref rfl) .nil), by decide⟩

/-- **C68, a counterexample.** `#1=(#1#)`: a list that is its own element is read as a list whose element is
not an object of the language. -/
theorem C68_read_car_fails (f : Nat) : ∃ s, read (f + 6) [.label 1, .lp, .ref 1, .rp] Port.empty = some (.ok (.obj (.ref 0)), [], s) ∧
    s.heap 0 = .pair (.thunk 1) (.obj .nil) := ⟨_, rfl, rfl⟩

/-- **C68, a counterexample.** `#1=#(#1#)`: the same for a vector. -/
theorem C68_read_vector_fails (f : Nat) : ∃ s, read (f + 6) [.label 1, .vec, .ref 1, .rp] Port.empty = some (.ok (.obj (.ref 0)), [], s) ∧
    s.heap 0 = .vector [.thunk 1] := ⟨_, rfl, rfl⟩

theorem circulate_cycle {x : Raw} {k a n : Nat} {h : Heap Raw} (hn : h n = .pair (.obj (.atom a)) (.obj (.ref n))) :
    ∀ f, circulate x k f (.obj (.ref n)) h = none
  | 0 => rfl
  | f + 1 => by
    rw [circulate.eq_def]
    simp only [hn]
    cases f with
    | zero => rfl
    | succ f =>
      have : circulate x k (f + 1) (.obj (.atom a)) h = some h := rfl
      simp only [this, Option.bind_some, hn, reduceCtorEq, if_false]
      exact circulate_cycle hn (f + 1)

/-- `#1=(#2=(5 . #2#) . #1#)`: what `write` writes for a circular list whose element is a circular list. -/
def nestedText : List Tok := [.label 1, .lp, .label 2, .lp, .atom 5, .dot, .ref 2, .rp, .dot, .ref 1, .rp]

def nested : Heap Obj
  | 0 => .pair (.ref 1) (.ref 0)
  | 1 => .pair (.atom 5) (.ref 1)
  | _ => .string []

/-- **C68, a counterexample.** `read` never ends on it. -/
theorem C68_nested_fails (f : Nat) : writeDatum nested 2 (f + 5) (.ref 0) = some nestedText ∧ read f nestedText Port.empty = none := by
  constructor
  · have hB : Bounded nested 2 := by
      intro n hn m hm
      match n, hn with
      | 0, _ => simp [nested, Node.parts] at hm; omega
      | 1, _ => simp [nested, Node.parts] at hm; omega
    have hr : Ring nested [1, 0] 1 1 := .last rfl (.atom _ 5)
    have h₁ : circular nested 2 (.ref 1) = some true :=
      circular_ring hB (n := 1) hr (by decide) rfl
    have h₂ : circular nested 2 (.ref 0) = some true :=
      circular_ring hB (S := [0]) (n := 0) (.last rfl (.ring hr)) (by decide) rfl
    simp [writeDatum, write, writeRing, nested, nestedText, h₁, h₂]
  · match f with
    | 0 => rfl
    | 1 => rfl
    | 2 => rfl
    | 3 => rfl
    | 4 => rfl
    | 5 => rfl
    | 6 => rfl
    | 7 => rfl
    | f + 8 =>
      have e : ∃ s, read (f + 7) (nestedText.drop 1) { Port.empty with labels := [1] } = some (.ok (.obj (.ref 1)), [], s) ∧
          s.heap 0 = .pair (.obj (.atom 5)) (.obj (.ref 0)) ∧ s.heap 1 = .pair (.obj (.ref 0)) (.thunk 1) := ⟨_, rfl, rfl, rfl⟩
      obtain ⟨s, h₁, h₂, h₃⟩ := e
      have h₄ : circulate (.obj (.ref 1)) 1 (f + 7) (.obj (.ref 1)) s.heap = none := by
        rw [circulate.eq_def]
        simp only [h₃, circulate_cycle h₂, Option.bind_none]
      rw [read.eq_def]
      simp only [nestedText, List.drop] at h₁ ⊢
      simp only [Port.empty] at h₁ ⊢
      simp only [List.not_mem_nil, if_false, h₁, Option.bind_some, reduceCtorEq, h₄, Option.map_none]

/-- **C68, a counterexample.** `#1=#1#` is read as the empty list, and the label stays with the port: the next
text that declares it is an error. -/
theorem C68_read_self_fails (f : Nat) : ∃ s, read (f + 2) [.label 1, .ref 1] Port.empty = some (.ok (.obj .nil), [], s) ∧
    s.labels = [1] ∧ read (f + 2) [.label 1, .atom 5] s = some (.error, [.atom 5], s) := ⟨_, rfl, rfl, rfl⟩

/-- **C68, a counterexample.** The same after an error inside of what a label labels. -/
theorem C68_read_error_fails (f : Nat) : ∃ s, read (f + 5) [.label 1, .lp, .ref 2, .rp] Port.empty = some (.error, [.rp], s) ∧
    s.labels = [1] ∧ read (f + 2) [.label 1, .atom 5] s = some (.error, [.atom 5], s) := ⟨_, rfl, rfl, rfl⟩

end Meevax.Label
