import Verif.Lemmas.LinearUpdateSets

/-!
C90: the linear update procedures of SRFI 1 (`filter!`, `partition!`, ..., `lset-xor!`).

The first part of each claim, `After (calls) (result)`, says: the user's procedure is called with exactly these
arguments in this order; the procedure has a result if the calls have (it terminates, and there is no error or
undefined behaviour); and its only effects are those of the calls and those on the pairs of the arguments.
-/

namespace Meevax.Linear

open Meevax.Lists Spec

variable {S : Type}

/-! ### Filtering -/

/-- **C90, `filter!`**: on any list, proper or dotted, the predicate is called once on each element in order, and the
result is the list of the pairs whose elements it accepts.  No pair is made, and the elements stay in their pairs. -/
theorem C90_filter (P : Pred S) {h : Heap} {x t : Obj} {as : List Nat} (ht : isPair t = false) (seg : Seg h x as t)
    (s : S) :
    After (answers (fun v s => P v h s) (as.map h.car) s) (filterBang P x h s) fun bs x' h' =>
      Seg h' x' (pick true as bs) t ∧ Relinked h h' as := filterBang_spec P ht seg s

/-- `filter!` with a complemented predicate picks those that the predicate rejects. -/
theorem filterBang_complement (P : Pred S) {h : Heap} {x t : Obj} {as : List Nat} (ht : isPair t = false)
    (seg : Seg h x as t) (s : S) :
    After (answers (fun v s => P v h s) (as.map h.car) s) (filterBang (complement P) x h s) fun bs x' h' =>
      Seg h' x' (pick false as bs) t ∧ Relinked h h' as := by
  have fs := filterBang_spec (complement P) ht seg s
  rw [answers_complement] at fs
  cases hA : answers (fun v s => P v h s) (as.map h.car) s with
  | none => rw [hA] at fs; exact fs
  | some r =>
    obtain ⟨bs, s1⟩ := r
    rw [hA] at fs
    obtain ⟨r, h', e, sg, rel⟩ := fs
    rw [pick_not] at sg
    exact ⟨r, h', e, sg, rel⟩

/-- **C90, `remove!`**: the result is the list of the pairs whose elements the predicate rejects. -/
theorem C90_remove (P : Pred S) {h : Heap} {x t : Obj} {as : List Nat} (ht : isPair t = false) (seg : Seg h x as t)
    (s : S) :
    After (answers (fun v s => P v h s) (as.map h.car) s) (removeBang P x h s) fun bs x' h' =>
      Seg h' x' (pick false as bs) t ∧ Relinked h h' as := filterBang_complement P ht seg s

/-- **C90, `delete!`**: the comparison is called with the object and each element, in this order. -/
theorem C90_delete (E : Pred2 S) (k : Obj) {h : Heap} {x t : Obj} {as : List Nat} (ht : isPair t = false)
    (seg : Seg h x as t) (s : S) :
    After (answers (fun v s => E k v h s) (as.map h.car) s) (deleteBang E k x h s) fun bs x' h' =>
      Seg h' x' (pick false as bs) t ∧ Relinked h h' as := filterBang_complement (E k) ht seg s

/-- **C90, `alist-delete!`**: on a list of pairs, the comparison is called with the key and the car of each. -/
theorem C90_alist_delete (E : Pred2 S) (k : Obj) {h : Heap} {x t : Obj} {as es : List Nat} (ht : isPair t = false)
    (seg : Seg h x as t) (pairs : as.map h.car = es.map .pair) (s : S) :
    After (answers (fun v s => E k v h s) (es.map h.car) s) (alistDeleteBang E k x h s) fun bs x' h' =>
      Seg h' x' (pick false as bs) t ∧ Relinked h h' as := by
  have fs := filterBang_complement (fun x h s => (car h x).bind fun k' => E k k' h s) ht seg s
  have key : ∀ s, answers (fun v s => (car h v).bind fun k' => E k k' h s) (as.map h.car) s =
      answers (fun v s => E k v h s) (es.map h.car) s := by
    rw [pairs]
    intro s
    clear pairs seg fs
    induction es generalizing s with
    | nil => rfl
    | cons e es ih => simp only [List.map_cons, answers, car_pair, Option.bind_some, ih]
  rw [key] at fs
  exact fs

/-- **C90, `partition!`**: the pairs are distributed to two lists.  The predicate must not look at the cdrs of the
list, which change between its calls. -/
theorem C90_partition (P : Pred S) {h : Heap} {x : Obj} {as : List Nat} (seg : Seg h x as .null)
    (st : Steady h as (as.map h.car) P) (s : S) :
    After (answers (fun v s => P v h s) (as.map h.car) s) (partitionBang P x h s) fun bs r h' =>
      Seg h' r.1 (pick true as bs) .null ∧ Seg h' r.2 (pick false as bs) .null ∧ Relinked h h' as :=
  partitionBang_spec P seg st s

/-! ### Splitting -/

/-- **C90, `take-while!`**: the predicate is called up to the first element that it rejects; the result consists of the
pairs before. -/
theorem C90_take_while (P : Pred S) {h : Heap} {x : Obj} {as : List Nat} (seg : Seg h x as .null) (s : S) :
    After (leading (fun v s => P v h s) (as.map h.car) s) (takeWhileBang P x h s) fun n r h' =>
      Seg h' r (as.take n) .null ∧ Relinked h h' as := takeWhileBang_spec P seg s

/-- **C90, `span!`**: the second result consists of the other pairs. -/
theorem C90_span (P : Pred S) {h : Heap} {x : Obj} {as : List Nat} (seg : Seg h x as .null) (s : S) :
    After (leading (fun v s => P v h s) (as.map h.car) s) (spanBang P x h s) fun n r h' =>
      Seg h' r.1 (as.take n) .null ∧ Seg h' r.2 (as.drop n) .null ∧ Relinked h h' as := spanBang_spec P seg s

/-- **C90, `break!`**: as `span!`, up to the first element that the predicate accepts. -/
theorem C90_break (P : Pred S) {h : Heap} {x : Obj} {as : List Nat} (seg : Seg h x as .null) (s : S) :
    After (leading (fun v s => (P v h s).map fun (b, s) => (!b, s)) (as.map h.car) s) (breakBang P x h s)
      fun n r h' => Seg h' r.1 (as.take n) .null ∧ Seg h' r.2 (as.drop n) .null ∧ Relinked h h' as :=
  spanBang_spec (complement P) seg s

/-- **C90, `split-at!`**: the first `k` pairs, and the rest, for every `k` up to the length; the list may be dotted. -/
theorem C90_split_at {h : Heap} {x t : Obj} {as : List Nat} (ht : isPair t = false) (seg : Seg h x as t) (k : Nat)
    (hk : k ≤ as.length) :
    ∃ r h', splitAtBang h x k = some (r, h') ∧ Seg h' r.1 (as.take k) .null ∧ Seg h' r.2 (as.drop k) t ∧
      Relinked h h' (as.take k) := by
  have sp := splitAtBang_spec (as := as.take k) (bs := as.drop k) ht (by rw [List.take_append_drop]; exact seg)
  rw [List.length_take, Nat.min_eq_left hk] at sp
  exact sp

/-! ### map! -/

/-- **C90, `map!`**: the procedure is called on the first elements, the second elements, ... in order, as often as the
first list has elements; the elements of the first list are replaced by its results, in order; nothing else changes.
The other lists have at least as many elements, in other pairs. -/
theorem C90_map (f : Proc S) {h : Heap} {x : Obj} {as : List Nat} {xs : List Obj} {bss : List (List Nat)}
    (seg : Seg h x as .null) (segs : List.Forall₂ (fun x bs => ∃ t, Seg h x bs t) xs bss)
    (other : ∀ bs ∈ bss, as.length ≤ bs.length ∧ ∀ b ∈ bs, b ∉ as)
    (st : SteadyCars h as (rows (as.map h.car) (bss.map (·.map h.car))) f) (s : S) :
    After (results (fun vs s => f vs h s) (rows (as.map h.car) (bss.map (·.map h.car))) s) (mapBang f x xs h s)
      fun rs r h' => r = x ∧ Seg h' x as .null ∧ as.map h'.car = rs ∧ OnlyCars h h' as := by
  have nd := seg.nodup rfl
  have fin : ∀ m : Option (Heap × S),
      After (results (fun vs s => f vs h s) (rows (as.map h.car) (bss.map (·.map h.car))) s)
        (m.map fun (h, s) => ((), h, s)) (fun rs _ h' => as.map h'.car = rs ∧ OnlyCars h h' as) →
      After (results (fun vs s => f vs h s) (rows (as.map h.car) (bss.map (·.map h.car))) s)
        (m.bind fun (h, s) => some (x, h, s))
        (fun rs r h' => r = x ∧ Seg h' x as .null ∧ as.map h'.car = rs ∧ OnlyCars h h' as) := by
    intro m hm
    cases hA : results (fun vs s => f vs h s) (rows (as.map h.car) (bss.map (·.map h.car))) s with
    | none =>
      rw [hA] at hm
      simp only [After, Option.map_eq_none_iff] at hm
      simp [After, hm]
    | some r =>
      obtain ⟨rs, s1⟩ := r
      rw [hA] at hm
      obtain ⟨_, h', e, i1, i2⟩ := hm
      simp only [Option.map_eq_some_iff, Prod.exists, Prod.mk.injEq] at e
      obtain ⟨h'', s'', e, -, rfl, rfl⟩ := e
      exact ⟨x, h'', by rw [e]; rfl, rfl, i2.seg seg, i1, i2⟩
  simp only [mapBang]
  cases segs with
  | nil =>
    have er : ∀ as : List Nat, rows (as.map h.car) ([].map fun bs : List Nat => bs.map h.car) =
        as.map fun a => [h.car a] := by
      intro as
      induction as with
      | nil => rfl
      | cons a as ih => simp only [List.map_cons, rows, List.map_nil] at ih ⊢; rw [ih]
    rw [er] at st fin ⊢
    exact fin _ (mapLoop_spec f as s seg nd (OnlyCars.refl _ _) (fun _ h => h) (fun _ _ => rfl) st)
  | cons hx fa =>
    exact fin _ (mapLoopMany_spec f as s seg nd (.cons hx fa) other (OnlyCars.refl _ _) (fun _ h => h)
      (fun _ _ => rfl) st)

/-! ### Lists as sets -/

/-- **C90, `delete-duplicates!`**: of elements that are equal to each other, the first stays. -/
theorem C90_delete_duplicates (E : Pred2 S) {h : Heap} {x : Obj} {as : List Nat} (seg : Seg h x as .null)
    (st : Steady2 h as (as.map h.car) E) (s : S) :
    After (unique (fun a b s => E a b h s) (as.map h.car) s) (deleteDuplicatesBang E x h s) fun rs r h' =>
      ListIs h' r rs ∧ OnlyCdrs h h' as :=
  deleteDuplicatesBang_spec E as.length s rfl seg (OnlyCdrs.refl _ _) (fun _ h => h) seg.lt st

/-- **C90, `lset-union!`** of any number of lists that share no pairs: the result is made of their pairs. -/
theorem C90_lset_union (E : Pred2 S) {h : Heap} {args : List (Obj × List Nat)}
    (segs : ∀ p ∈ args, Seg h p.1 p.2 .null) (nd : (args.map (·.2)).flatten.Nodup)
    (st : Steady2 h (args.map (·.2)).flatten ((args.map (·.2)).flatten.map h.car) E) (s : S) :
    After (combine (union fun a b s => E a b h s) [] (args.map (·.2.map h.car)) s)
      (lsetUnionBang E (args.map (·.1)) h s) fun rs r h' =>
        ∃ cs, Seg h' r cs .null ∧ cs.map h.car = rs ∧ (∀ c ∈ cs, c ∈ (args.map (·.2)).flatten) ∧
          Relinked h h' (args.map (·.2)).flatten := by
  cases args with
  | nil => exact ⟨.null, h, rfl, [], .nil _, rfl, by simp, Relinked.refl _ _⟩
  | cons p args =>
    obtain ⟨x, as⟩ := p
    have step := reduceGo_spec (f := union2 E) (g := union fun a b s => E a b h s) (h0 := h)
      (L := (((x, as) :: args).map (·.2)).flatten)
      (fun {h1 x1 y1 as1 bs1} s sx sy dis rel sub => union2_spec E s sx sy dis rel
        (fun a ha => sub a (by simp [ha]))
        (fun v hv w hw => st v (List.map_subset _ sub hv) w (List.map_subset _ sub hw)))
      args s (segs (x, as) (by simp)) (fun p hp => segs p (by simp [hp])) (by simpa using nd) (Relinked.refl _ _)
      (fun a ha => by simpa using ha)
    simpa [lsetUnionBang, reduceArgs, combine, union, MadeOf] using step

/-- **C90, `lset-xor!`** of any number of lists that share no pairs: the result is made of their pairs. -/
theorem C90_lset_xor (E : Pred2 S) {h : Heap} {x : Obj} {as : List Nat} {args : List (Obj × List Nat)}
    (segs : ∀ p ∈ (x, as) :: args, Seg h p.1 p.2 .null) (nd : (as ++ (args.map (·.2)).flatten).Nodup)
    (st : Steady2 h (as ++ (args.map (·.2)).flatten) ((as ++ (args.map (·.2)).flatten).map h.car) E) (s : S) :
    After (combine (exclusive fun a b s => E a b h s) (as.map h.car) (args.map (·.2.map h.car)) s)
      (lsetXorBang E (x :: args.map (·.1)) h s) fun rs r h' =>
        ∃ cs, Seg h' r cs .null ∧ cs.map h.car = rs ∧ (∀ c ∈ cs, c ∈ as ++ (args.map (·.2)).flatten) ∧
          Relinked h h' (as ++ (args.map (·.2)).flatten) :=
  reduceGo_spec (f := xor2 E) (g := exclusive fun a b s => E a b h s) (h0 := h)
    (L := as ++ (args.map (·.2)).flatten)
    (fun {h1 x1 y1 as1 bs1} s sx sy dis rel sub => xor2_spec E s sx sy dis rel sub
      (fun v hv w hw => st v (List.map_subset _ sub hv) w (List.map_subset _ sub hw)))
    args s (segs (x, as) (by simp)) (fun p hp => segs p (by simp [hp])) nd (Relinked.refl _ _) (fun _ h => h)

/-- **C90, `lset-intersection!`**: the lists that are the first list itself are passed over.  If one of the others is
empty, so is the result, and nothing is compared; if not, the result consists of the pairs whose elements are in all
of the others. -/
theorem C90_lset_intersection (E : Pred2 S) {h : Heap} {x : Obj} {as : List Nat} {args : List (Obj × List Nat)}
    (seg : Seg h x as .null) (segs : ∀ p ∈ args, Seg h p.1 p.2 .null) (s : S) :
    ((∃ p ∈ args, p.1 ≠ x ∧ p.2 = []) → lsetIntersectionBang E x (args.map (·.1)) h s = some (.null, h, s)) ∧
    ((∀ p ∈ args, p.1 ≠ x → p.2 ≠ []) →
      After (answers (fun v => amongAll (fun a b s => E a b h s) v
          ((args.filter (·.1 ≠ x)).map (·.2.map h.car))) (as.map h.car) s)
        (lsetIntersectionBang E x (args.map (·.1)) h s) fun bs r h' =>
          Seg h' r (pick true as bs) .null ∧ Relinked h h' as) := by
  have ef : (args.map (·.1)).filter (· ≠ x) = (args.filter (·.1 ≠ x)).map (·.1) := by
    rw [List.filter_map]; rfl
  have segs' : ∀ p ∈ args.filter (·.1 ≠ x), Seg h p.1 p.2 .null := fun p hp => segs p (List.mem_filter.1 hp).1
  have an := anyNull_spec segs'
  simp only [lsetIntersectionBang, ef, an, Option.bind_eq_bind, Option.bind_some]
  constructor
  · rintro ⟨p, hp, hx, h2⟩
    have : ((args.filter (·.1 ≠ x)).any fun p => p.2.isEmpty) = true :=
      List.any_eq_true.2 ⟨p, List.mem_filter.2 ⟨hp, by simpa using hx⟩, by simp [h2]⟩
    rw [if_pos this]
  · intro ne
    have : ¬ ((args.filter (·.1 ≠ x)).any fun p => p.2.isEmpty) = true := by
      intro hh
      obtain ⟨p, hp, he⟩ := List.any_eq_true.1 hh
      obtain ⟨hp, hx⟩ := List.mem_filter.1 hp
      exact ne p hp (by simpa using hx) (by simpa using he)
    rw [if_neg this]
    by_cases he : ((args.filter (·.1 ≠ x)).map (·.1)).isEmpty = true
    · rw [if_pos he]
      have hn : args.filter (·.1 ≠ x) = [] := by simpa using he
      rw [hn, List.map_nil, answers_true (q := fun v => amongAll (fun a b s => E a b h s) v []) (fun v s => rfl)]
      refine ⟨x, h, rfl, ?_, Relinked.refl _ _⟩
      rw [pick_const _ _ _ _ (by simp)]
      simpa using seg
    · rw [if_neg he]
      have fs := filterBang_spec (fun x' h s => everyArg (fun ys s => memberOf E x' ys h s)
        ((args.filter (·.1 ≠ x)).map (·.1)) s) rfl seg s
      rw [answers_congr (fun v _ s => everyArg_spec E v segs' s)] at fs
      exact fs

/-- **C90, `lset-difference!`**: if the first list is given again, the result is empty and nothing is compared; if not,
it consists of the pairs whose elements are in none of the other lists. -/
theorem C90_lset_difference (E : Pred2 S) {h : Heap} {x : Obj} {as : List Nat} {args : List (Obj × List Nat)}
    (seg : Seg h x as .null) (segs : ∀ p ∈ args, Seg h p.1 p.2 .null) (s : S) :
    (isPair x = true ∧ x ∈ args.map (·.1) → lsetDifferenceBang E x (args.map (·.1)) h s = some (.null, h, s)) ∧
    (¬ (isPair x = true ∧ x ∈ args.map (·.1)) →
      After (answers (fun v => amongAny (fun a b s => E a b h s) v (args.map (·.2.map h.car))) (as.map h.car) s)
        (lsetDifferenceBang E x (args.map (·.1)) h s) fun bs r h' =>
          Seg h' r (pick false as bs) .null ∧ Relinked h h' as) := lsetDifferenceBang_spec E seg segs s

/-- **C90, `lset-diff+intersection!`**: the pairs whose elements are in none of the other lists, and the rest. -/
theorem C90_lset_diff_intersection (E : Pred2 S) {h : Heap} {x : Obj} {as : List Nat}
    {args : List (Obj × List Nat)} (seg : Seg h x as .null) (segs : ∀ p ∈ args, Seg h p.1 p.2 .null) (s : S) :
    (x ∈ args.map (·.1) → lsetDiffIntersectionBang E x (args.map (·.1)) h s = some ((.null, x), h, s)) ∧
    (x ∉ args.map (·.1) → (∀ p ∈ args, ∀ a ∈ p.2, a ∉ as) →
      Steady2 h as (as.map h.car ++ (args.map (·.2.map h.car)).flatten) E →
      After (answers (fun v => amongAny (fun a b s => E a b h s) v (args.map (·.2.map h.car))) (as.map h.car) s)
        (lsetDiffIntersectionBang E x (args.map (·.1)) h s) fun bs r h' =>
          Seg h' r.1 (pick false as bs) .null ∧ Seg h' r.2 (pick true as bs) .null ∧ Relinked h h' as) :=
  lsetDiffIntersectionBang_spec E seg segs s

/-! ### With tests that only look at the elements -/

theorem answers_pure (p : Obj → Bool) (vs : List Obj) (s : S) :
    answers (fun v s => some (p v, s)) vs s = some (vs.map p, s) := by
  induction vs with
  | nil => rfl
  | cons v vs ih => simp [answers, ih]

theorem pick_pure {α : Type} (p : α → Bool) (b : Bool) (vs : List α) :
    pick b vs (vs.map p) = vs.filter fun v => p v == b := by
  induction vs with
  | nil => rfl
  | cons v vs ih =>
    simp only [List.map_cons, pick, ih, List.filter_cons]
    cases p v <;> cases b <;> rfl

/-- **C90, `filter!` and `remove!` of a test of the elements**: the elements that pass it, or that do not. -/
theorem C90_filter_elements (p : Obj → Bool) {h : Heap} {x : Obj} {as : List Nat} (seg : Seg h x as .null) (s : S) :
    (∃ r h', filterBang (fun v _ s => some (p v, s)) x h s = some (r, h', s) ∧ ListIs h' r ((as.map h.car).filter p)) ∧
    (∃ r h', removeBang (fun v _ s => some (p v, s)) x h s = some (r, h', s) ∧
      ListIs h' r ((as.map h.car).filter fun v => !p v)) := by
  have f1 := C90_filter (fun v _ s => some (p v, s)) rfl seg s
  have f2 := C90_remove (fun v _ s => some (p v, s)) rfl seg s
  rw [answers_pure] at f1 f2
  obtain ⟨r1, h1, e1, s1, rel1⟩ := f1
  obtain ⟨r2, h2, e2, s2, rel2⟩ := f2
  refine ⟨⟨r1, h1, e1, _, s1, ?_⟩, r2, h2, e2, _, s2, ?_⟩
  · rw [show h1.car = h.car from funext rel1.car, pick_map, pick_pure]
    simp
  · rw [show h2.car = h.car from funext rel2.car, pick_map, pick_pure]
    simp

theorem among_eq (v : Obj) (ws : List Obj) (s : S) :
    among (fun a b s => some (decide (a = b), s)) v ws s = some (decide (v ∈ ws), s) := by
  induction ws with
  | nil => rfl
  | cons w ws ih =>
    simp only [among, Option.bind_eq_bind, Option.bind_some, ih]
    by_cases h : v = w <;> simp [h]

theorem adjoin_members (vs : List Obj) : ∀ (ws : List Obj) (s : S),
    ∃ rs, adjoin (fun a b s => some (decide (a = b), s)) vs ws s = some (rs, s) ∧ (∀ v, v ∈ rs ↔ v ∈ vs ∨ v ∈ ws) ∧
      (ws.Nodup → rs.Nodup) := by
  induction vs with
  | nil => intro ws s; exact ⟨ws, rfl, by simp, fun h => h⟩
  | cons u vs ih =>
    intro ws s
    simp only [adjoin, among_eq, Option.bind_eq_bind, Option.bind_some]
    obtain ⟨rs, e, m, nd⟩ := ih (if decide (u ∈ ws) then ws else u :: ws) s
    refine ⟨rs, e, fun v => ?_, fun h => nd ?_⟩
    · rw [m]
      by_cases hu : u ∈ ws
      · simp only [hu, decide_true, if_true, List.mem_cons]
        constructor
        · tauto
        · rintro ((rfl | h) | h) <;> tauto
      · simp only [hu, decide_false, Bool.false_eq_true, if_false, List.mem_cons]
        tauto
    · by_cases hu : u ∈ ws <;> simp [hu, h]

/-- **C90, `lset-union!` as a set**, of lists of objects that are compared by identity: the result has the elements of
all of the lists and no others. -/
theorem C90_union_members {h : Heap} {args : List (Obj × List Nat)} (segs : ∀ p ∈ args, Seg h p.1 p.2 .null)
    (nd : (args.map (·.2)).flatten.Nodup) (s : S) :
    ∃ r h' rs, lsetUnionBang (fun a b _ s => some (decide (a = b), s)) (args.map (·.1)) h s = some (r, h', s) ∧
      ListIs h' r rs ∧ ∀ v, v ∈ rs ↔ ∃ p ∈ args, v ∈ p.2.map h.car := by
  have key : ∀ (vss : List (List Obj)) (acc : List Obj), ∃ rs,
      combine (union fun a b s => some (decide (a = b), s)) acc vss s = some (rs, s) ∧
        ∀ v, v ∈ rs ↔ v ∈ acc ∨ ∃ vs ∈ vss, v ∈ vs := by
    intro vss
    induction vss with
    | nil => intro acc; exact ⟨acc, rfl, by simp⟩
    | cons vs vss ih =>
      intro acc
      have : ∃ r1, union (fun a b s => some (decide (a = b), s)) vs acc s = some (r1, s) ∧
          ∀ v, v ∈ r1 ↔ v ∈ vs ∨ v ∈ acc := by
        cases acc with
        | nil => exact ⟨vs, rfl, by simp⟩
        | cons a acc =>
          obtain ⟨r1, e1, m1, -⟩ := adjoin_members vs (a :: acc) s
          exact ⟨r1, by simpa [union] using e1, m1⟩
      obtain ⟨r1, e1, m1⟩ := this
      obtain ⟨rs, e, m⟩ := ih r1
      refine ⟨rs, by simp [combine, e1, e], fun v => ?_⟩
      rw [m, m1]
      simp only [List.mem_cons, exists_eq_or_imp]
      tauto
  have cu := C90_lset_union (fun a b _ s => some (decide (a = b), s)) segs nd (fun _ _ _ _ _ _ _ => rfl) s
  obtain ⟨rs, e, m⟩ := key (args.map (·.2.map h.car)) []
  rw [e] at cu
  obtain ⟨r, h', e', cs, sc, mcs, -, rel⟩ := cu
  refine ⟨r, h', rs, e', ⟨cs, sc, by rw [show h'.car = h.car from funext rel.car, mcs]⟩, fun v => ?_⟩
  rw [m]
  simp

theorem adjoinOthers_members (cs vs : List Obj) : ∀ (ws : List Obj) (s : S),
    ∃ rs, adjoinOthers (fun a b s => some (decide (a = b), s)) cs vs ws s = some (rs, s) ∧
      ∀ v, v ∈ rs ↔ (v ∈ vs ∧ v ∉ cs) ∨ v ∈ ws := by
  induction vs with
  | nil => intro ws s; exact ⟨ws, rfl, by simp⟩
  | cons u vs ih =>
    intro ws s
    simp only [adjoinOthers, among_eq, Option.bind_eq_bind, Option.bind_some]
    obtain ⟨rs, e, m⟩ := ih (if decide (u ∈ cs) then ws else u :: ws) s
    refine ⟨rs, e, fun v => ?_⟩
    rw [m]
    by_cases hu : u ∈ cs
    · simp only [hu, decide_true, if_true, List.mem_cons]
      constructor
      · tauto
      · rintro (⟨rfl | h, h'⟩ | h) <;> tauto
    · simp only [hu, decide_false, Bool.false_eq_true, if_false, List.mem_cons]
      constructor
      · rintro (h | rfl | h) <;> tauto
      · rintro (⟨rfl | h, h'⟩ | h) <;> tauto

/-- **C90, `lset-xor!` of two lists as a set**, of objects that are compared by identity: the result has the elements
that are in one of the lists and not in the other. -/
theorem C90_xor_members {h : Heap} {x y : Obj} {as bs : List Nat} (sx : Seg h x as .null) (sy : Seg h y bs .null)
    (nd : (as ++ bs).Nodup) (s : S) :
    ∃ r h' rs, lsetXorBang (fun a b _ s => some (decide (a = b), s)) [x, y] h s = some (r, h', s) ∧
      ListIs h' r rs ∧ ∀ v, v ∈ rs ↔ (v ∈ as.map h.car ∧ v ∉ bs.map h.car) ∨ (v ∈ bs.map h.car ∧ v ∉ as.map h.car) := by
  have key : ∀ vs ws : List Obj, ∃ rs, exclusive (fun a b s => some (decide (a = b), s)) vs ws s = some (rs, s) ∧
      ∀ v, v ∈ rs ↔ (v ∈ ws ∧ v ∉ vs) ∨ (v ∈ vs ∧ v ∉ ws) := by
    intro vs ws
    have ans : ∀ us zs : List Obj, answers (fun w => among (fun a b s => some (decide (a = b), s)) w zs) us s =
        some (us.map fun u => decide (u ∈ zs), s) := by
      intro us zs
      rw [answers_congr (q' := fun v s => some (decide (v ∈ zs), s)) (fun v _ s => among_eq v zs s)]
      exact answers_pure _ us s
    simp only [exclusive, ans, Option.bind_eq_bind, Option.bind_some, pick_pure]
    have memf : ∀ v, v ∈ ws.filter (fun v => decide (v ∈ vs) == false) ↔ v ∈ ws ∧ v ∉ vs := by simp
    have memt : ∀ v, v ∈ ws.filter (fun v => decide (v ∈ vs) == true) ↔ v ∈ ws ∧ v ∈ vs := by simp
    by_cases h1 : (ws.filter fun v => decide (v ∈ vs) == false).isEmpty = true
    · rw [if_pos h1]
      refine ⟨_, rfl, fun v => ?_⟩
      have : ∀ v, ¬ (v ∈ ws ∧ v ∉ vs) := fun v hv => by
        have := (memf v).2 hv
        rw [List.isEmpty_iff.1 h1] at this
        cases this
      have := this v
      simp only [List.mem_filter, beq_iff_eq, decide_eq_false_iff_not]
      tauto
    · rw [if_neg h1]
      by_cases h2 : (ws.filter fun v => decide (v ∈ vs) == true).isEmpty = true
      · rw [if_pos h2]
        refine ⟨_, rfl, fun v => ?_⟩
        have : ∀ v, ¬ (v ∈ ws ∧ v ∈ vs) := fun v hv => by
          have := (memt v).2 hv
          rw [List.isEmpty_iff.1 h2] at this
          cases this
        have := this v
        simp only [List.mem_append]
        tauto
      · rw [if_neg h2]
        obtain ⟨rs, e, m⟩ := adjoinOthers_members (ws.filter fun v => decide (v ∈ vs) == true) vs
          (ws.filter fun v => decide (v ∈ vs) == false) s
        refine ⟨rs, e, fun v => ?_⟩
        rw [m, memf, memt]
        tauto
  have cx := C90_lset_xor (fun a b _ s => some (decide (a = b), s)) (args := [(y, bs)]) (x := x) (as := as)
    (by intro p hp; simp at hp; rcases hp with rfl | rfl <;> assumption) (by simpa using nd)
    (fun _ _ _ _ _ _ _ => rfl) s
  obtain ⟨rs, e, m⟩ := key (bs.map h.car) (as.map h.car)
  simp only [List.map_cons, List.map_nil, combine, e, Option.bind_eq_bind, Option.bind_some] at cx
  obtain ⟨r, h', e', cs, sc, mcs, -, rel⟩ := cx
  exact ⟨r, h', rs, e', ⟨cs, sc, by rw [show h'.car = h.car from funext rel.car, mcs]⟩, m⟩

/-- **C90, `delete-duplicates!` as a set**, of objects that are compared by identity: the same elements, none twice. -/
theorem C90_unique_members {h : Heap} {x : Obj} {as : List Nat} (seg : Seg h x as .null) (s : S) :
    ∃ r h' rs, deleteDuplicatesBang (fun a b _ s => some (decide (a = b), s)) x h s = some (r, h', s) ∧
      ListIs h' r rs ∧ rs.Nodup ∧ rs.Sublist (as.map h.car) ∧ ∀ v, v ∈ rs ↔ v ∈ as.map h.car := by
  have key : ∀ (n : Nat) (vs : List Obj), vs.length = n → ∃ rs,
      unique (fun a b s => some (decide (a = b), s)) vs s = some (rs, s) ∧
      rs.Nodup ∧ rs.Sublist vs ∧ ∀ v, v ∈ rs ↔ v ∈ vs := by
    intro n
    induction n using Nat.strongRecOn with
    | ind n ih =>
      intro vs len
      cases vs with
      | nil => exact ⟨[], by simp [unique], by simp, by simp, by simp⟩
      | cons v vs =>
        have ea : answers (fun b s => some (decide (v = b), s)) vs s = some (vs.map fun b => decide (v = b), s) :=
          answers_pure _ vs s
        have le := List.length_filter_le (fun b => decide (v = b) == false) vs
        obtain ⟨rs, e, nd, sl, m⟩ := ih (vs.filter fun b => decide (v = b) == false).length
          (by simp at len; omega) _ rfl
        refine ⟨v :: rs, ?_, ?_, ?_, ?_⟩
        · rw [unique]
          simp only [ea, Option.bind_eq_bind, Option.bind_some, pick_pure, e]
        · rw [List.nodup_cons]
          refine ⟨fun hm => ?_, nd⟩
          have := (m v).1 hm
          simp at this
        · exact (sl.trans List.filter_sublist).cons_cons v
        · intro w
          simp only [List.mem_cons, m, List.mem_filter, beq_iff_eq, decide_eq_false_iff_not]
          constructor
          · rintro (h | h)
            · exact Or.inl h
            · exact Or.inr h.1
          · rintro (h | h)
            · exact Or.inl h
            · by_cases e : w = v
              · exact Or.inl e
              · exact Or.inr ⟨h, fun e' => e e'.symm⟩
  have cd := C90_delete_duplicates (fun a b _ s => some (decide (a = b), s)) seg (fun _ _ _ _ _ _ _ => rfl) s
  obtain ⟨rs, e, nd, sl, m⟩ := key _ (as.map h.car) rfl
  rw [e] at cd
  obtain ⟨r, h', e', li, -⟩ := cd
  exact ⟨r, h', rs, e', li, nd, sl, m⟩

/-! ### The hypotheses are met -/

namespace Example

/-- Is the number even?  The calls are recorded. -/
def even : Pred (List Obj) := fun v _ s =>
  match v with
  | .atom n => some (n % 2 == 0, s ++ [v])
  | _ => none

/-- The comparison of the numbers modulo 3; the calls are recorded. -/
def mod3 : Pred2 (List (Obj × Obj)) := fun v w _ s =>
  match v, w with
  | .atom n, .atom k => some (n % 3 == k % 3, s ++ [(v, w)])
  | _, _ => none

/-- `(filter! even? (list 10 11 12))` is `(10 12)`, and the predicate is called on 10, 11 and 12. -/
example : ∃ h', filterBang even (.pair 0) sample [] = some (.pair 0, h', [.atom 10, .atom 11, .atom 12]) ∧
    Seg h' (.pair 0) [0, 2] .null ∧ Relinked sample h' [0, 1, 2] := by
  obtain ⟨r, h', e, sg, rel⟩ : After (some ([true, false, true], [Obj.atom 10, .atom 11, .atom 12]))
    (filterBang even (.pair 0) sample []) _ := C90_filter even rfl sample_seg []
  cases sg
  exact ⟨h', e, .cons (by assumption) (by assumption), rel⟩

/-- `(partition! even? (list 10 11 12))` is `(10 12)` and `(11)`. -/
example : ∃ h', partitionBang even (.pair 0) sample [] =
      some ((.pair 0, .pair 1), h', [.atom 10, .atom 11, .atom 12]) ∧
    Seg h' (.pair 0) [0, 2] .null ∧ Seg h' (.pair 1) [1] .null := by
  obtain ⟨⟨r, q⟩, h', e, sg, sq, -⟩ : After (some ([true, false, true], [Obj.atom 10, .atom 11, .atom 12]))
    (partitionBang even (.pair 0) sample []) _ := C90_partition even sample_seg (fun _ _ _ _ _ => rfl) []
  change Seg h' r [0, 2] .null at sg
  change Seg h' q [1] .null at sq
  cases sg
  cases sq
  exact ⟨h', e, .cons (by assumption) (by assumption), .cons (by assumption) (by assumption)⟩

/-- `(lset-union! mod3=? (list 10 11 12) (list 13 14))`: both of the second list are equal to one of the first. -/
example : ∃ h' log, lsetUnionBang mod3 [.pair 0, .pair 3] sample [] = some (.pair 0, h', log) ∧
    Seg h' (.pair 0) [0, 1, 2] .null ∧ log = [(.atom 13, .atom 10), (.atom 14, .atom 10), (.atom 14, .atom 11)] := by
  have cu := C90_lset_union mod3 (h := sample) (args := [(.pair 0, [0, 1, 2]), (.pair 3, [3, 4])])
    (by intro p hp; simp at hp; rcases hp with rfl | rfl; exacts [sample_seg, sample_seg']) (by decide)
    (fun _ _ _ _ _ _ _ => rfl) []
  obtain ⟨r, h', e, cs, sc, mcs, -, -⟩ : After (some ([Obj.atom 10, .atom 11, .atom 12],
    [(Obj.atom 13, Obj.atom 10), (.atom 14, .atom 10), (.atom 14, .atom 11)])) _ _ := cu
  have inj : ∀ a b, sample.car a = sample.car b → a = b := by
    intro a b h
    simp only [sample, Obj.atom.injEq] at h
    omega
  have ec : cs = [0, 1, 2] := by
    have : cs.map sample.car = [0, 1, 2].map sample.car := mcs
    exact List.map_injective_iff.2 (fun a b h => inj a b h) this
  subst ec
  cases sc
  exact ⟨h', _, e, .cons (by assumption) (by assumption), rfl⟩

end Example

end Meevax.Linear
