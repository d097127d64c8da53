import Verif.Lemmas.ImportSet

/-
Lemmas about `import`.
-/

namespace Meevax.Library
open Meevax.Text

variable {V S : Type}

theorem exist_iff {s : Config V S} {c : Nat} : c < s.cells.length ↔ ∃ n, nameOf s c = some n := by
  constructor
  · intro h
    exact ⟨_, by unfold nameOf; rw [List.getElem?_eq_getElem h]; rfl⟩
  · rintro ⟨n, hn⟩
    obtain ⟨cell, h1, _⟩ := nameOf_eq.1 hn
    exact getElem?_lt h1

theorem Grows.exist {s t : Config V S} (h : Grows s t) {c : Nat} (hc : c < s.cells.length) :
    c < t.cells.length := by
  obtain ⟨n, hn⟩ := exist_iff.1 hc
  exact exist_iff.2 ⟨n, h.keeps c n hn⟩

theorem lookup_push_self {s : Config V S} {env x : Nat} {n : Name} (hl : env < s.envs.length)
    (hn : nameOf s x = some n) (m : Name) :
    lookup (push env x s) env m = if n = m then some x else lookup s env m := by
  unfold lookup
  rw [variables_push_self hl]
  obtain ⟨cell, h1, h2⟩ := nameOf_eq.1 hn
  show find s.cells m (x :: variables s env) = _
  conv => lhs; unfold find
  rw [h1]
  simp only [h2]

theorem lookup_push_ne {s : Config V S} {env env' x : Nat} (h : env ≠ env') (m : Name) :
    lookup (push env x s) env' m = lookup s env' m := by
  unfold lookup
  rw [variables_push_ne h]
  rfl

theorem importAll_conflict {env : Nat} (he : env ≠ 0) {xs : List Nat} {s : Config V S}
    (hl : env < s.envs.length) (hx : Exist s xs) :
    (importAll env xs s).1 = false ↔ Conflict s env xs := by
  induction xs generalizing s with
  | nil => simp [importAll, Conflict]
  | cons x xs ih =>
    obtain ⟨n, hn⟩ := exist_iff.1 (hx x List.mem_cons_self)
    have hx' : Exist s xs := fun d hd => hx d (List.mem_cons_of_mem _ hd)
    unfold importAll
    simp only [hn]
    split
    · rename_i hnone
      rw [ih (s := push env x s) (by simpa [push] using hl) hx']
      constructor
      · rintro ⟨a, ha, b, hab, m, hm, hb⟩
        rw [nameOf_push] at hm
        refine ⟨a, List.mem_cons_of_mem _ ha, b, hab, m, hm, ?_⟩
        rw [lookup_push_self hl hn, nameOf_push] at hb
        rcases hb with hb | ⟨hb, hb'⟩
        · split at hb
          · rename_i hnm
            subst hnm
            cases hb
            exact Or.inr ⟨List.mem_cons_self, hn⟩
          · exact Or.inl hb
        · exact Or.inr ⟨List.mem_cons_of_mem _ hb, hb'⟩
      · rintro ⟨a, ha, b, hab, m, hm, hb⟩
        simp only [Conflict, nameOf_push, lookup_push_self hl hn]
        rcases List.mem_cons.1 ha with rfl | ha
        · rw [hn] at hm; cases hm
          rcases hb with hb | ⟨hb, hb'⟩
          · rw [hnone] at hb; cases hb
          · rcases List.mem_cons.1 hb with rfl | hb
            · exact absurd rfl hab
            · exact ⟨b, hb, a, Ne.symm hab, n, hb', Or.inl (by rw [if_pos rfl])⟩
        · refine ⟨a, ha, b, hab, m, hm, ?_⟩
          rcases hb with hb | ⟨hb, hb'⟩
          · have : n ≠ m := by rintro rfl; rw [hnone] at hb; cases hb
            exact Or.inl (by rw [if_neg this]; exact hb)
          · rcases List.mem_cons.1 hb with rfl | hb
            · rw [hn] at hb'; cases hb'
              exact Or.inl (by rw [if_pos rfl])
            · exact Or.inr ⟨hb, hb'⟩
    · rename_i y hy
      rw [if_neg he]
      split
      · rename_i hxy
        subst hxy
        rw [ih hl hx']
        constructor
        · rintro ⟨a, ha, b, hab, m, hm, hb⟩
          refine ⟨a, List.mem_cons_of_mem _ ha, b, hab, m, hm, ?_⟩
          exact hb.imp id fun h => ⟨List.mem_cons_of_mem _ h.1, h.2⟩
        · rintro ⟨a, ha, b, hab, m, hm, hb⟩
          rcases List.mem_cons.1 ha with rfl | ha
          · rw [hn] at hm; cases hm
            rcases hb with hb | ⟨hb, hb'⟩
            · rw [hy] at hb; cases hb; exact absurd rfl hab
            · rcases List.mem_cons.1 hb with rfl | hb
              · exact absurd rfl hab
              · exact ⟨b, hb, a, Ne.symm hab, n, hb', Or.inl hy⟩
          · refine ⟨a, ha, b, hab, m, hm, ?_⟩
            rcases hb with hb | ⟨hb, hb'⟩
            · exact Or.inl hb
            · rcases List.mem_cons.1 hb with rfl | hb
              · rw [hn] at hb'; cases hb'
                exact Or.inl hy
              · exact Or.inr ⟨hb, hb'⟩
      · rename_i hxy
        simp only [true_iff]
        exact ⟨x, List.mem_cons_self, y, hxy, n, hn, Or.inl hy⟩

/-- What importing leaves alone. -/
theorem importAll_frame {env : Nat} {xs : List Nat} {s : Config V S} :
    (importAll env xs s).2.cells = s.cells ∧ (importAll env xs s).2.libs = s.libs ∧
    (importAll env xs s).2.stack = s.stack ∧ (importAll env xs s).2.envs.length = s.envs.length ∧
    (∀ env', env' ≠ env → variables (importAll env xs s).2 env' = variables s env') ∧
    (importAll env xs s).2.log = s.log ∧ (importAll env xs s).2.registry = s.registry := by
  induction xs generalizing s with
  | nil => exact ⟨rfl, rfl, rfl, rfl, fun _ _ => rfl, rfl, rfl⟩
  | cons x xs ih =>
    have hp : ∀ t : Config V S, t = push env x s →
      (importAll env xs t).2.cells = s.cells ∧ (importAll env xs t).2.libs = s.libs ∧
      (importAll env xs t).2.stack = s.stack ∧ (importAll env xs t).2.envs.length = s.envs.length ∧
      (∀ env', env' ≠ env → variables (importAll env xs t).2 env' = variables s env') ∧
      (importAll env xs t).2.log = s.log ∧ (importAll env xs t).2.registry = s.registry := by
      rintro t rfl
      obtain ⟨h1, h2, h3, h4, h5, h6, h7⟩ := ih (s := push env x s)
      exact ⟨h1, h2, h3, h4.trans (by simp [push]),
        fun env' h => (h5 env' h).trans (variables_push_ne (Ne.symm h)), h6, h7⟩
    unfold importAll
    split
    · exact ih
    · split
      · exact hp _ rfl
      · split
        · exact hp _ rfl
        · split
          · exact ih
          · exact ⟨rfl, rfl, rfl, rfl, fun _ _ => rfl, rfl, rfl⟩

theorem importAll_bound {env : Nat} (he : env ≠ 0) {xs : List Nat} {s : Config V S} (hv : Valid s)
    (hl : env < s.envs.length) (hok : (importAll env xs s).1 = true) :
    (∀ x ∈ xs, ∀ n, nameOf s x = some n → lookup (importAll env xs s).2 env n = some x) ∧
    ∀ n, (∀ x ∈ xs, nameOf s x ≠ some n) → lookup (importAll env xs s).2 env n = lookup s env n := by
  induction xs generalizing s with
  | nil => exact ⟨by simp, fun _ _ => rfl⟩
  | cons x xs ih =>
    unfold importAll at hok ⊢
    split
    · rename_i hn
      simp only [hn] at hok
      obtain ⟨h1, h2⟩ := ih hv hl hok
      refine ⟨?_, fun n h => h2 n fun y hy => h y (List.mem_cons_of_mem _ hy)⟩
      intro y hy n hyn
      rcases List.mem_cons.1 hy with rfl | hy
      · rw [hn] at hyn; cases hyn
      · exact h1 y hy n hyn
    · rename_i n hn
      simp only [hn] at hok
      split
      · rename_i hnone
        simp only [hnone] at hok
        have hg := grows_push hv hn (Or.inr hnone)
        have hl' : env < (push env x s).envs.length := by simpa [push] using hl
        obtain ⟨h1, h2⟩ := ih hg.valid hl' hok
        have hself : lookup (push env x s) env n = some x := by
          rw [lookup_push_self hl hn, if_pos rfl]
        refine ⟨?_, ?_⟩
        · intro y hy m hym
          rcases List.mem_cons.1 hy with rfl | hy
          · rw [hn] at hym; cases hym
            exact (grows_importAll hg.valid).found env n y he hself
          · exact h1 y hy m hym
        · intro m hm
          rw [h2 m fun y hy => hm y (List.mem_cons_of_mem _ hy), lookup_push_self hl hn, if_neg]
          rintro rfl
          exact hm x List.mem_cons_self hn
      · rename_i y hy
        simp only [hy, if_neg he] at hok ⊢
        split
        · rename_i hxy
          subst hxy
          rw [if_pos rfl] at hok
          obtain ⟨h1, h2⟩ := ih hv hl hok
          refine ⟨?_, fun m h => h2 m fun y hy => h y (List.mem_cons_of_mem _ hy)⟩
          intro z hz m hzm
          rcases List.mem_cons.1 hz with rfl | hz
          · rw [hn] at hzm; cases hzm
            exact (grows_importAll hv).found env n z he hy
          · exact h1 z hz m hzm
        · rename_i hxy
          rw [if_neg hxy] at hok
          cases hok

theorem lastNamed_cons {s : Config V S} {n : Name} {x : Nat} {xs : List Nat} :
    lastNamed s n (x :: xs) = (lastNamed s n xs).or (if nameOf s x = some n then some x else none) := by
  unfold lastNamed
  by_cases h : nameOf s x = some n
  · rw [List.filter_cons_of_pos (by simpa using h), List.getLast?_cons]
    cases (List.filter (fun x => nameOf s x == some n) xs).getLast? <;> simp [h]
  · rw [List.filter_cons_of_neg (by simpa using h)]
    simp [h]

theorem importAll_interactive {xs : List Nat} {s : Config V S} (hl : 0 < s.envs.length) (hx : Exist s xs) :
    (importAll 0 xs s).1 = true ∧
    ∀ n, lookup (importAll 0 xs s).2 0 n = (lastNamed s n xs).or (lookup s 0 n) := by
  induction xs generalizing s with
  | nil => exact ⟨rfl, fun _ => rfl⟩
  | cons x xs ih =>
    obtain ⟨n, hn⟩ := exist_iff.1 (hx x List.mem_cons_self)
    have hx' : Exist s xs := fun d hd => hx d (List.mem_cons_of_mem _ hd)
    have key : (importAll 0 xs (push 0 x s)).1 = true ∧
        ∀ m, lookup (importAll 0 xs (push 0 x s)).2 0 m = (lastNamed s m (x :: xs)).or (lookup s 0 m) := by
      obtain ⟨h1, h2⟩ := ih (s := push 0 x s) (by simpa [push] using hl) hx'
      refine ⟨h1, fun m => ?_⟩
      rw [h2 m]
      have e : lastNamed (push 0 x s) m xs = lastNamed s m xs := rfl
      rw [e, lastNamed_cons, lookup_push_self hl hn, hn]
      simp only [Option.some.injEq]
      cases lastNamed s m xs with
      | some y => rfl
      | none => by_cases h : n = m <;> simp [h]
    unfold importAll
    simp only [hn]
    split
    · exact key
    · simp only [if_true]
      exact key

/-! ### What holds in all states a program can reach -/

/-- The environment a frame works in is there. -/
def FrameOk (size : Nat) : Frame → Prop
  | .into env => env < size
  | .forms env _ => env < size
  | .imports env _ => env < size
  | _ => True

structure Sound (s : Config V S) : Prop where
  valid : Valid s
  ret : ∀ cs, s.mode = .ret cs → Exist s cs
  frames : ∀ f ∈ s.stack, FrameOk s.envs.length f
  libs : ∀ (i : Nat) (l : Library), s.libs[i]? = some l → 0 < l.env ∧ l.env < s.envs.length
  envs : 0 < s.envs.length

theorem FrameOk.mono {a b : Nat} (h : a ≤ b) {f : Frame} (hf : FrameOk a f) : FrameOk b f := by
  unfold FrameOk at *
  split <;> simp_all <;> omega

theorem changes_frame {pr : Program V S} {env : Nat} {chs : List (Change V)} {s : Config V S} :
    (chs.foldl (change pr env) s).stack = s.stack ∧ (chs.foldl (change pr env) s).libs = s.libs ∧
    (chs.foldl (change pr env) s).log = s.log ∧ (chs.foldl (change pr env) s).registry = s.registry ∧
    (chs.foldl (change pr env) s).mode = s.mode := by
  have hi : ∀ (n : Name) (s : Config V S), (identify pr env n s).2.stack = s.stack ∧
      (identify pr env n s).2.libs = s.libs ∧ (identify pr env n s).2.log = s.log ∧
      (identify pr env n s).2.registry = s.registry ∧ (identify pr env n s).2.mode = s.mode := by
    intro n s
    unfold identify
    split <;> exact ⟨rfl, rfl, rfl, rfl, rfl⟩
  have ha : ∀ (c : Nat) (v : V) (s : Config V S), (assign c v s).stack = s.stack ∧
      (assign c v s).libs = s.libs ∧ (assign c v s).log = s.log ∧ (assign c v s).registry = s.registry ∧
      (assign c v s).mode = s.mode := by
    intro c v s
    unfold assign
    split <;> exact ⟨rfl, rfl, rfl, rfl, rfl⟩
  induction chs generalizing s with
  | nil => exact ⟨rfl, rfl, rfl, rfl, rfl⟩
  | cons ch chs ih =>
    obtain ⟨h1, h2, h3, h4, h5⟩ := ih (s := change pr env s ch)
    have : (change pr env s ch).stack = s.stack ∧ (change pr env s ch).libs = s.libs ∧
        (change pr env s ch).log = s.log ∧ (change pr env s ch).registry = s.registry ∧
        (change pr env s ch).mode = s.mode := by
      cases ch with
      | mention n => exact hi n s
      | define n v =>
        obtain ⟨a1, a2, a3, a4, a5⟩ := ha (identify pr env n s).1 v (identify pr env n s).2
        obtain ⟨b1, b2, b3, b4, b5⟩ := hi n s
        exact ⟨a1.trans b1, a2.trans b2, a3.trans b3, a4.trans b4, a5.trans b5⟩
      | assign c v => exact ha c v s
    exact ⟨h1.trans this.1, h2.trans this.2.1, h3.trans this.2.2.1, h4.trans this.2.2.2.1, h5.trans this.2.2.2.2⟩

theorem run_frame {pr : Program V S} {env : Nat} {d : Datum} {s : Config V S} :
    (run pr env d s).stack = s.stack ∧ (run pr env d s).libs = s.libs ∧ (run pr env d s).log = s.log ∧
    (run pr env d s).registry = s.registry := by
  obtain ⟨h1, h2, h3, h4, _⟩ := changes_frame (pr := pr) (env := env)
    (chs := (pr.eval d (lookup s env) s.cells s.user).2.1)
    (s := { s with user := (pr.eval d (lookup s env) s.cells s.user).1 })
  exact ⟨h1, h2, h3, h4⟩

theorem run_mode {pr : Program V S} {env : Nat} {d : Datum} {s : Config V S} :
    (run pr env d s).mode = .next ∨ (run pr env d s).mode = .failed := by
  unfold run
  simp only
  split
  · exact Or.inr rfl
  · exact Or.inl rfl

/-- Sound, if the new frames are. -/
theorem Sound.of {s t : Config V S} (h : Sound s) (hg : Grows s t) (hm : ∀ cs, t.mode = .ret cs → Exist t cs)
    (hf : ∀ f ∈ t.stack, f ∈ s.stack ∨ FrameOk t.envs.length f)
    (hl : ∀ (i : Nat) (l : Library), t.libs[i]? = some l →
      (∃ l', s.libs[i]? = some l' ∧ l'.env = l.env) ∨ (0 < l.env ∧ l.env < t.envs.length)) : Sound t where
  valid := hg.valid
  ret := hm
  frames f hf' := (hf f hf').elim (fun h' => (h.frames f h').mono hg.envs) id
  libs i l hl' := by
    rcases hl i l hl' with ⟨l', h1, h2⟩ | h'
    · have := h.libs i l' h1
      have := hg.envs
      rw [← h2]; omega
    · exact h'
  envs := by have := h.envs; have := hg.envs; omega

theorem Sound.frames_of {s : Config V S} (h : Sound s) {f : Frame} {k : List Frame} (hs : s.stack = f :: k) :
    FrameOk s.envs.length f ∧ ∀ g ∈ k, FrameOk s.envs.length g :=
  ⟨h.frames f (by rw [hs]; exact List.mem_cons_self), fun g hg =>
    h.frames g (by rw [hs]; exact List.mem_cons_of_mem _ hg)⟩

/-- Only the mode and the frames changed. -/
theorem Sound.restack {s : Config V S} (h : Sound s) {m : Mode} {k : List Frame} {ds : List Datum}
    {log : List (Nat × Datum)} (hm : ∀ cs, m = .ret cs → Exist s cs) (hk : ∀ f ∈ k, FrameOk s.envs.length f) :
    Sound { s with mode := m, stack := k, top := ds, log := log } where
  valid := Valid.same h.valid rfl rfl
  ret := hm
  frames := hk
  libs := h.libs
  envs := h.envs

theorem sound_run {pr : Program V S} {env : Nat} {d : Datum} {s : Config V S} (h : Sound s) :
    Sound (run pr env d s) := by
  obtain ⟨h1, h2, _, _⟩ := run_frame (pr := pr) (env := env) (d := d) (s := s)
  refine h.of (grows_run h.valid pr env d) ?_ ?_ ?_
  · intro cs hm
    rcases run_mode (pr := pr) (env := env) (d := d) (s := s) with e | e <;> (rw [e] at hm; cases hm)
  · intro f hf; rw [h1] at hf; exact Or.inl hf
  · intro i l hl; rw [h2] at hl; exact Or.inl ⟨l, hl, rfl⟩

theorem sound_define {key : List Byte} {ds : List Datum} {m : Mode} {s : Config V S} (h : Sound s)
    (hm : ∀ cs, m ≠ .ret cs) : Sound { defineLibrary key ds s with mode := m } := by
  have hg := grows_define h.valid key ds
  have he : (defineLibrary key ds s).envs = s.envs ++ [[]] := by
    unfold defineLibrary; simp only; split <;> rfl
  have hlibs : (defineLibrary key ds s).libs = s.libs ++ [(⟨s.envs.length, ds, []⟩ : Library)] := by
    unfold defineLibrary; simp only; split <;> rfl
  have hst : (defineLibrary key ds s).stack = s.stack := by
    unfold defineLibrary; simp only; split <;> rfl
  refine h.of (hg.trans (.same hg.valid rfl rfl rfl)) (fun cs hc => absurd hc (hm cs)) ?_ ?_
  · intro f hf
    have hf : f ∈ (defineLibrary key ds s).stack := hf
    rw [hst] at hf; exact Or.inl hf
  · intro i l hl
    have hl : (defineLibrary key ds s).libs[i]? = some l := hl
    rw [hlibs] at hl
    by_cases hi : i < s.libs.length
    · rw [List.getElem?_append_left hi] at hl
      exact Or.inl ⟨l, hl, rfl⟩
    · rw [List.getElem?_append_right (by omega)] at hl
      have : i - s.libs.length = 0 := by
        by_contra h0
        rw [List.getElem?_eq_none (by simp; omega)] at hl
        cases hl
      rw [this] at hl
      cases hl
      have := h.envs
      refine Or.inr ⟨this, ?_⟩
      show s.envs.length < (defineLibrary key ds s).envs.length
      rw [he]; simp

theorem mem_cons_ok {size : Nat} {f : Frame} {k : List Frame} (hf : FrameOk size f)
    (hk : ∀ g ∈ k, FrameOk size g) : ∀ g ∈ f :: k, FrameOk size g := by
  intro g hg
  rcases List.mem_cons.1 hg with rfl | hg
  · exact hf
  · exact hk g hg

theorem sound_evaluate {pr : Program V S} {env : Nat} {d : Datum} {s : Config V S} (h : Sound s)
    (he : env < s.envs.length) : Sound (evaluate pr env d s) := by
  unfold evaluate
  split
  · split
    · split
      · split
        · exact sound_define h (fun cs hc => by cases hc)
        · exact h.restack (fun cs hc => by cases hc) h.frames
      · exact h.restack (fun cs hc => by cases hc) h.frames
    · split
      · exact h.restack (fun cs hc => by cases hc) (mem_cons_ok he h.frames)
      · split
        · split
          · exact h.restack (fun cs hc => by cases hc) (mem_cons_ok he h.frames)
          · exact h.restack (fun cs hc => by cases hc) h.frames
        · exact sound_run h
  · exact sound_run h

theorem sound_libs {s t : Config V S} (h : Sound s) {i : Nat} {l l' : Library} (hl : s.libs[i]? = some l)
    (h1 : t.cells = s.cells) (h2 : t.envs = s.envs) (h3 : t.libs = s.libs.set i l') (he : l'.env = l.env)
    (hm : ∀ cs, t.mode ≠ .ret cs) (hf : ∀ f ∈ t.stack, f ∈ s.stack ∨ FrameOk t.envs.length f) : Sound t := by
  refine h.of (grows_libs h.valid h1 h2 hl h3 he) (fun cs hc => absurd hc (hm cs)) hf ?_
  intro j m hj
  rw [h3] at hj
  by_cases hij : i = j
  · subst hij
    rw [List.getElem?_set_self (getElem?_lt hl)] at hj
    cases hj
    exact Or.inl ⟨l, hl, he.symm⟩
  · rw [List.getElem?_set_ne hij] at hj
    exact Or.inl ⟨m, hj, rfl⟩

theorem sound_declare {pr : Program V S} {lib : Nat} {d : Datum} {s : Config V S} (h : Sound s) :
    Sound (declare pr lib d s) := by
  unfold declare
  split
  · exact h.restack (fun cs hc => by cases hc) h.frames
  · rename_i l hl
    have he := h.libs lib l hl
    split
    · split
      · exact sound_libs h hl rfl rfl rfl rfl (fun cs hc => by cases hc) fun f hf => Or.inl hf
      · split
        · exact h.restack (fun cs hc => by cases hc) (mem_cons_ok he.2 h.frames)
        · split
          · split
            · exact h.restack (fun cs hc => by cases hc) (mem_cons_ok trivial h.frames)
            · exact h.restack (fun cs hc => by cases hc) h.frames
          · split
            · split
              · exact h.restack (fun cs hc => by cases hc) (mem_cons_ok trivial h.frames)
              · exact h.restack (fun cs hc => by cases hc) h.frames
              · exact h.restack (fun cs hc => by cases hc) h.frames
            · exact sound_evaluate h he.2
    · exact sound_evaluate h he.2

theorem sound_startLibrary {lib : Nat} {s : Config V S} (h : Sound s) : Sound (startLibrary lib s) := by
  unfold startLibrary
  split
  · rename_i l hl
    refine sound_libs h hl rfl rfl rfl rfl (fun cs hc => by cases hc) ?_
    intro f hf
    rcases List.mem_cons.1 hf with rfl | hf
    · exact Or.inr trivial
    · rcases List.mem_cons.1 hf with rfl | hf
      · exact Or.inr trivial
      · exact Or.inl hf
  · exact h.restack (fun cs hc => by cases hc) h.frames

theorem sound_importSet {pr : Program V S} {form : Datum} {s : Config V S} (h : Sound s) :
    Sound (importSet pr form s) := by
  unfold importSet
  split
  · split
    · split
      · exact h.restack (fun cs hc => by cases hc) (mem_cons_ok trivial h.frames)
      · exact h.restack (fun cs hc => by cases hc) h.frames
    · split
      · split
        · exact h.restack (fun cs hc => by cases hc) (mem_cons_ok trivial h.frames)
        · exact h.restack (fun cs hc => by cases hc) h.frames
      · split
        · split
          · exact h.restack (fun cs hc => by cases hc) (mem_cons_ok trivial h.frames)
          · exact h.restack (fun cs hc => by cases hc) h.frames
        · split
          · split
            · exact h.restack (fun cs hc => by cases hc) (mem_cons_ok trivial h.frames)
            · exact h.restack (fun cs hc => by cases hc) h.frames
          · split
            · exact h.restack (fun cs hc => by cases hc) h.frames
            · split
              · exact sound_startLibrary h
              · split
                · exact h.restack (fun cs hc => by cases hc) h.frames
                · refine h.of (grows_new h.valid rfl rfl fun i l h => ⟨l, h, rfl⟩) (fun cs hc => by cases hc) ?_ ?_
                  · intro f hf
                    rcases List.mem_cons.1 hf with rfl | hf
                    · exact Or.inr (by simp [FrameOk])
                    · rcases List.mem_cons.1 hf with rfl | hf
                      · exact Or.inr trivial
                      · exact Or.inl hf
                  · intro i l hl
                    exact Or.inl ⟨l, hl, rfl⟩
  · exact h.restack (fun cs hc => by cases hc) h.frames
  · exact h.restack (fun cs hc => by cases hc) h.frames

theorem prefixAll_exist {pr : Program V S} {p : Datum} {cs : List Nat} {s : Config V S}
    {r : List Nat × Config V S} (h : prefixAll pr p cs s = some r) : Exist r.2 r.1 := by
  induction cs generalizing s r with
  | nil => cases h; simp [Exist]
  | cons c cs ih =>
    unfold prefixAll at h
    split at h
    · cases h
    · split at h
      · simp only at h
        split at h
        · rename_i cs' s' h2
          obtain ⟨extra, he⟩ := prefixAll_extra h2
          have := ih h2
          cases h
          intro d hd
          rcases List.mem_cons.1 hd with rfl | hd
          · simp only at he
            rw [he]; simp [make]
          · exact this d hd
        · cases h
      · cases h

theorem renameAll_exist {rs : List Datum} {cs : List Nat} {s : Config V S}
    {r : List Nat × Config V S} (hx : Exist s cs) (h : renameAll rs cs s = some r) : Exist r.2 r.1 := by
  induction cs generalizing s r with
  | nil => cases h; simp [Exist]
  | cons c cs ih =>
    have hx' : Exist s cs := fun d hd => hx d (List.mem_cons_of_mem _ hd)
    unfold renameAll at h
    split at h
    · cases h
    · split at h
      · cases h
      · rename_i new _
        cases new with
        | none =>
          simp only at h
          split at h
          · rename_i cs' s' h2
            obtain ⟨extra, he⟩ := renameAll_extra h2
            have := ih hx' h2
            cases h
            intro d hd
            rcases List.mem_cons.1 hd with rfl | hd
            · have := hx d List.mem_cons_self
              simp only at he
              rw [he]; simp; omega
            · exact this d hd
          · cases h
        | some new =>
          simp only at h
          split at h
          · rename_i cs' s' h2
            obtain ⟨extra, he⟩ := renameAll_extra h2
            have := ih (fun d hd => by have := hx' d hd; simp [make]; omega) h2
            cases h
            intro d hd
            rcases List.mem_cons.1 hd with rfl | hd
            · simp only at he
              rw [he]; simp [make]
            · exact this d hd
          · cases h

theorem identify_exist {pr : Program V S} {env : Nat} {n : Name} {s : Config V S} (hv : Valid s) :
    (identify pr env n s).1 < (identify pr env n s).2.cells.length :=
  getElem?_lt (identify_spec hv n).2

theorem export1_frame {pr : Program V S} {env : Nat} {spec : Datum} {s : Config V S} (hv : Valid s)
    {r : Nat × Config V S} (h : export1 pr env spec s = some r) :
    r.1 < r.2.cells.length ∧ r.2.stack = s.stack ∧ r.2.libs = s.libs ∧ r.2.log = s.log := by
  have hi : ∀ n, (identify pr env n s).2.stack = s.stack ∧ (identify pr env n s).2.libs = s.libs ∧
      (identify pr env n s).2.log = s.log := by
    intro n; unfold identify; split <;> exact ⟨rfl, rfl, rfl⟩
  unfold export1 at h
  split at h
  · simp only at h
    split at h
    · cases h
      exact ⟨by simp [make], hi _⟩
    · cases h
  · cases h
    exact ⟨identify_exist hv, hi _⟩
  · cases h

theorem exportAll_frame {pr : Program V S} {env : Nat} {specs : List Datum} {s : Config V S} (hv : Valid s)
    {r : List Nat × Config V S} (h : exportAll pr env specs s = some r) :
    Exist r.2 r.1 ∧ r.2.stack = s.stack ∧ r.2.libs = s.libs ∧ r.2.log = s.log := by
  induction specs generalizing s r with
  | nil => cases h; exact ⟨by simp [Exist], rfl, rfl, rfl⟩
  | cons spec specs ih =>
    unfold exportAll at h
    split at h
    · rename_i c s1 h1
      split at h
      · rename_i cs s2 h2
        cases h
        have g1 := grows_export1 hv h1
        obtain ⟨a1, a2, a3, a4⟩ := export1_frame hv h1
        obtain ⟨b1, b2, b3, b4⟩ := ih (s := s1) g1.valid h2
        refine ⟨?_, b2.trans a2, b3.trans a3, b4.trans a4⟩
        intro d hd
        rcases List.mem_cons.1 hd with rfl | hd
        · exact (grows_exportAll (s := s1) g1.valid h2).exist a1
        · exact b1 d hd
      · cases h
    · cases h

theorem sound_returnTo {pr : Program V S} {cs : List Nat} {s : Config V S} (h : Sound s) (hx : Exist s cs) :
    Sound (returnTo pr cs s) := by
  unfold returnTo
  split
  · rename_i hs
    refine h.restack ?_ (h.frames_of hs).2
    intro cs' hc; cases hc
    exact fun d hd => hx d (List.mem_filter.1 hd).1
  · rename_i hs
    refine h.restack ?_ (h.frames_of hs).2
    intro cs' hc; cases hc
    exact fun d hd => hx d (List.mem_filter.1 hd).1
  · rename_i hs
    split
    · rename_i cs' s' h2
      have hx' := prefixAll_exist h2
      obtain ⟨extra, he⟩ := prefixAll_extra h2
      simp only at he hx'
      subst he
      refine h.of (.extra h.valid rfl rfl rfl) (fun cs hc => by cases hc; exact hx') ?_ fun i l hl =>
        Or.inl ⟨l, hl, rfl⟩
      intro f hf
      exact Or.inr ((h.frames_of hs).2 f hf)
    · exact h.restack (fun cs hc => by cases hc) h.frames
  · rename_i hs
    split
    · rename_i cs' s' h2
      have hx' := renameAll_exist hx h2
      obtain ⟨extra, he⟩ := renameAll_extra h2
      simp only at he hx'
      subst he
      refine h.of (.extra h.valid rfl rfl rfl) (fun cs hc => by cases hc; exact hx') ?_ fun i l hl =>
        Or.inl ⟨l, hl, rfl⟩
      intro f hf
      exact Or.inr ((h.frames_of hs).2 f hf)
    · exact h.restack (fun cs hc => by cases hc) h.frames
  · rename_i env k hs
    simp only
    obtain ⟨h1, h2, h3, h4, _⟩ := importAll_frame (env := env) (xs := cs) (s := s)
    have hg := grows_importAll h.valid (env := env) (cs := cs)
    refine h.of (hg.trans (.same hg.valid rfl rfl rfl)) ?_ ?_ ?_
    · intro cs' hc
      simp only at hc
      split at hc <;> cases hc
    · intro f hf
      refine Or.inr ?_
      show FrameOk (importAll env cs s).2.envs.length f
      rw [h4]
      exact (h.frames_of hs).2 f hf
    · intro i l hl
      exact Or.inl ⟨l, by rw [← h2]; exact hl, rfl⟩
  · exact h.restack (fun cs hc => by cases hc) h.frames

theorem sound_next {pr : Program V S} {s t : Config V S} (h : Sound s) (hm : s.mode = .next)
    (hn : next pr s = some t) : Sound t := by
  have hmode : ∀ cs, s.mode = .ret cs → Exist s cs := h.ret
  unfold next at hn
  split at hn
  · split at hn
    · cases hn
    · cases hn
      refine h.restack hmode ?_
      intro f hf
      obtain rfl := List.mem_singleton.1 hf
      exact h.envs
  · rename_i hs
    cases hn
    exact h.restack hmode (h.frames_of hs).2
  · rename_i env d ds k hs
    cases hn
    have := h.frames_of hs
    exact sound_evaluate (h.restack hmode (mem_cons_ok this.1 this.2)) this.1
  · rename_i hs
    cases hn
    exact h.restack hmode (h.frames_of hs).2
  · rename_i hs
    cases hn
    exact sound_declare (h.restack hmode (mem_cons_ok trivial (h.frames_of hs).2))
  · rename_i hs
    cases hn
    exact h.restack hmode (h.frames_of hs).2
  · rename_i hs
    cases hn
    have := h.frames_of hs
    exact h.restack (fun cs hc => by cases hc) (mem_cons_ok this.1 (mem_cons_ok this.1 this.2))
  · rename_i hs
    split at hn
    · cases hn
      exact h.restack (fun cs hc => by cases hc) h.frames
    · split at hn
      · rename_i cs s' h2
        cases hn
        have hg := grows_exportAll h.valid h2
        obtain ⟨a1, a2, a3, a4⟩ := exportAll_frame h.valid h2
        refine h.of (hg.trans (.same hg.valid rfl rfl rfl)) (fun cs hc => by cases hc; exact a1) ?_ ?_
        · intro f hf
          exact Or.inr (((h.frames_of hs).2 f hf).mono hg.envs)
        · intro i l hl
          exact Or.inl ⟨l, by simp only at a3; rw [← a3]; exact hl, rfl⟩
      · cases hn
        exact h.restack (fun cs hc => by cases hc) h.frames
  · rename_i hs
    split at hn
    · cases hn
      exact h.restack (fun cs hc => by cases hc) h.frames
    · split at hn
      · cases hn
        exact sound_startLibrary (h.restack hmode (h.frames_of hs).2)
      · cases hn
        exact h.restack (fun cs hc => by cases hc) h.frames
  · cases hn
    exact h.restack (fun cs hc => by cases hc) h.frames

theorem sound_step {pr : Program V S} {s t : Config V S} (h : Sound s) (hs : step pr s = some t) : Sound t := by
  unfold step at hs
  split at hs
  · cases hs; exact sound_importSet h
  · rename_i cs hm
    cases hs; exact sound_returnTo h (h.ret cs hm)
  · rename_i hm
    exact sound_next h hm hs
  · cases hs
    exact h.restack (fun cs hc => by cases hc) (by simp)
  · cases hs

theorem sound_runs {pr : Program V S} {q : Config V S → Prop} {s t : Config V S} (h : Sound s)
    (hr : RunThrough pr q s t) : Sound t := by
  induction hr with
  | refl => exact h
  | step _ _ he ih => exact sound_step ih he

theorem sound_start (features : List Name) (program : List Datum) (user : S) :
    Sound (start features program user : Config V S) where
  valid := valid_start features program user
  ret cs h := by cases h
  frames f h := by cases h
  libs i l h := by simp [start] at h
  envs := by simp [start]

end Meevax.Library
