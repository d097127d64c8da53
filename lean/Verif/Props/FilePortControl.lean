import Verif.Lemmas.FilePortControl

/-
C88: the procedures that open a file, call a procedure and close the file.
-/

namespace Meevax.FilePort
open Meevax.Control
open Meevax.Text (Byte utf8String)

variable {C W S P : Type} [DecidableEq P]

/-- Whatever a program does, the files that have a name or are open exist. -/
theorem sound_run {pr : FileProgram C W S P} {pl : Platform}
    {q : Config (FileCode C) W (FileState S) P → Prop} {s t : Config (FileCode C) W (FileState S) P}
    (h : RunThrough (pr.translate pl) q s t) (hs : Sound s.user.world) : Sound t.user.world := by
  obtain ⟨ops, e, -⟩ := run_traces h
  rw [e]
  exact sound_execAll pl ops hs

theorem isFile_opened {pl : Platform} {w : World} {output : Bool} {path : String}
    (hn : (exec pl w (opening output path)).1 = .port w.ports.length) :
    IsFile w.ports.length (exec pl w (opening output path)).2 := by
  have last : ∀ (d : Disk) (x : Port), (∀ s, x ≠ .inputString s) → (∀ b, x ≠ .outputString b) →
      IsFile w.ports.length { disk := d, ports := w.ports ++ [x] } := by
    intro d x h1 h2
    refine ⟨x, ?_, h1, h2⟩
    show (w.ports ++ [x])[w.ports.length]? = _
    rw [List.getElem?_append_right (Nat.le_refl _), Nat.sub_self]
    rfl
  cases output with
  | true =>
    show IsFile _ (openOutput pl path w).2
    unfold openOutput
    split
    · split
      · exact last _ _ (by simp) (by simp)
      · exact last _ _ (by simp) (by simp)
    · exact last _ _ (by simp) (by simp)
  | false =>
    simp only [opening, Bool.false_eq_true, if_false, exec] at hn ⊢
    unfold openInput at hn ⊢
    split
    · exact last _ _ (by simp) (by simp)
    · rename_i h; rw [h] at hn; cases hn

theorem isOpen_closed (pl : Platform) {w : World} {p : Nat} (h : IsFile p w) :
    isOpen p (exec pl w (.close p)).2 = .boolean false := (C88_closed pl w p h []).1

/-- A parameter keeps its value while its binding stays the same and nothing is assigned to it. -/
theorem value_kept {pr : Program C W S P} {c : C} {v : W} {u : S} {cells : Cell P → W}
    {s t : Config C W S P} (h : CalmRun pr (start c v u cells) s) {p : P}
    (ht : RunThrough pr (fun x => Calm pr x ∧ ¬ Assigns pr x (cellOf s.bindings p)) s t)
    {c1 c2 : C} {w1 w2 : W} (hs1 : s.mode = .run c1 w1) (ht1 : t.mode = .run c2 w2)
    (hl : bindingsOf (lexical t.stack) = bindingsOf (lexical s.stack)) : value t p = value s p := by
  have h2 : CalmRun pr (start c v u cells) t := h.trans (ht.mono fun _ hx => hx.1)
  have hb1 := C42_scope_partial pr c v u cells s h c1 w1 hs1
  have hb2 := C42_scope_partial pr c v u cells t h2 c2 w2 ht1
  obtain ⟨wd, xs, hi⟩ := inv_run h
  have hold : Old s.fresh (cellOf s.bindings p) := by
    refine cellOf_old (fun y hy => ?_) p
    have hs := hi.shape
    rw [hs1] at hs
    cases hs with
    | run hg hl hx hr =>
      rw [hr.1] at hy
      rw [← hi.n]
      exact bound_of_known hi.known y hy
  have := keeps_run ht (fun x hx => hx.2) hold
  unfold value
  rw [hb2, hl, ← hb1, this.cells]

/-- Values stand for ports. -/
def Faithful (pr : FileProgram C W S P) : Prop := ∀ n, pr.toPort (pr.ofResult (.port n)) = some n

/-- The course of a `with-output-to-file` or `with-input-from-file` that returns: the thunk is called while the
parameter is the new port, output (input) that names no port goes to (comes from) it, and when the thunk has
returned the port is closed, the parameters are bound as before, and the thunk's value is passed on. -/
theorem with_file {pr : FileProgram C W S P} {pl : Platform} (hport : Faithful pr)
    {c : FileCode C} {v : W} {u : FileState S} {cells : Cell P → W}
    {s : Config (FileCode C) W (FileState S) P} (h : CalmRun (pr.translate pl) (start c v u cells) s)
    {output : Bool} {path : String} {thunk next : C} {n : Nat}
    (ha : userAction pr s = some (withFile output path thunk next))
    (hl : n = s.user.world.ports.length)
    (hn : (exec pl s.user.world (opening output path)).1 = .port n) :
    ∃ s1, CalmRun (pr.translate pl) s s1 ∧ s1.mode = .run (.user thunk) pr.unspecified ∧
      (∀ p, value s1 p = if p = currentPort pr output then pr.ofResult (.port n) else value s p) ∧
      s1.user.world = (exec pl s.user.world (opening output path)).2 ∧
      s1.user.calls = s.user.calls ++ [opening output path] ∧
      (∀ t code w, RunThrough (pr.translate pl) (fun x => Calm (pr.translate pl) x ∧
          ¬ Assigns (pr.translate pl) x (cellOf s1.bindings (currentPort pr output))) s1 t →
        t.mode = .run code w → bindingsOf (lexical t.stack) = bindingsOf (lexical s1.stack) →
        value t (currentPort pr output) = pr.ofResult (.port n)) ∧
      ∀ t v', RunThrough (pr.translate pl) (fun x => Calm (pr.translate pl) x ∧
          ¬ Assigns (pr.translate pl) x (cellOf s1.bindings (currentPort pr output))) s1 t →
        t.mode = .ret v' → t.stack = s1.stack →
        ∃ t', CalmRun (pr.translate pl) t t' ∧ t'.mode = .run (.user next) v' ∧ t'.stack = s.stack ∧
          t'.bindings = s.bindings ∧ t'.user.world = (exec pl t.user.world (.close n)).2 ∧
          isOpen n t'.user.world = .boolean false := by
  obtain ⟨s1, i, inner, h1, h2, h3, h4, h5, h6⟩ := with_enter h ha hn
  have hs1 : CalmRun (pr.translate pl) (start c v u cells) s1 := h.trans h1
  have h7 : value s1 (currentPort pr output) = pr.ofResult (.port n) := by rw [h4, if_pos rfl]
  refine ⟨s1, h1, h2, h4, h5, h6, fun t code w ht hm hb => ?_, fun t v' ht hm hs => ?_⟩
  · rw [value_kept hs1 ht h2 hm hb, h7]
  · have hf : IsFile n t.user.world := by
      obtain ⟨ops, e, -⟩ := run_traces ht
      rw [e, h5]
      subst hl
      exact isFile_execAll pl ops (isFile_opened hn)
    have hv : ∀ t1, step (pr.translate pl) t = some t1 →
        pr.toPort (value t1 (currentPort pr output)) = some n := by
      intro t1 e
      have ht1 := RunThrough.step ht ⟨calm_of_none (by simp [hm]), fun hx => by
        obtain ⟨p, w, nx, hx, -⟩ := hx
        simp [nextAction, hm] at hx⟩ e
      rw [h3] at hs
      simp only [step, hm, returnTo, hs] at e
      injection e with e
      have hm1 : t1.mode = .run (.closeCurrent output) v' := by rw [← e]
      have hb1 : bindingsOf (lexical t1.stack) = bindingsOf (lexical s1.stack) := by
        rw [h3, ← e]
        rfl
      rw [value_kept hs1 ht1 h2 hm1 hb1, h7]
      exact hport n
    rw [h3] at hs
    obtain ⟨t', g1, g2, g3, g4, -, g6, -⟩ := with_exit hm hs hf hv
    exact ⟨t', g1, g2, g3, g4, g6, by rw [g6]; exact isOpen_closed pl hf⟩

theorem wrote_snoc (p : Nat) : ∀ ops : List Op, wrote p (ops ++ [.close p]) = wrote p ops
  | [] => by simp [wrote]
  | op :: ops => by
    have ih := wrote_snoc p ops
    cases op with
    | put q text => simp only [List.cons_append, wrote, ih]
    | close q => simp only [List.cons_append, wrote, ih]
    | _ => simpa only [List.cons_append, wrote] using ih

/-- C88, `with-output-to-file`: the thunk runs with the new port as `current-output-port`, which it stays in all code
of the thunk that is in no further `parameterize`, unless assigned to; when the thunk returns, its value is
passed on, the parameters are bound as before, the port is closed and the file contains what was written to the
port, if nothing else opened or deleted it. (`Calm`: the runs of `C41_nesting_partial`.) -/
theorem C88_with_output_partial (pr : FileProgram C W S P) (pl : Platform) (hport : Faithful pr)
    (c : FileCode C) (v : W) (u : FileState S) (cells : Cell P → W)
    (s : Config (FileCode C) W (FileState S) P) (h : CalmRun (pr.translate pl) (start c v u cells) s)
    (hs : Sound u.world) (path : String) (thunk next : C)
    (ha : userAction pr s = some (.withOutput path thunk next)) (hu : Unshared s.user.world path)
    (hw : pl.writable path = true) (n : Nat) (hl : n = s.user.world.ports.length) :
    ∃ s1, CalmRun (pr.translate pl) s s1 ∧ s1.mode = .run (.user thunk) pr.unspecified ∧
      (∀ p, value s1 p = if p = pr.out then pr.ofResult (.port n) else value s p) ∧
      (∀ t code w, RunThrough (pr.translate pl) (fun x => Calm (pr.translate pl) x ∧
          ¬ Assigns (pr.translate pl) x (cellOf s1.bindings pr.out)) s1 t →
        t.mode = .run code w → bindingsOf (lexical t.stack) = bindingsOf (lexical s1.stack) →
        value t pr.out = pr.ofResult (.port n)) ∧
      ∀ t v' ops, RunThrough (pr.translate pl) (fun x => Calm (pr.translate pl) x ∧
          ¬ Assigns (pr.translate pl) x (cellOf s1.bindings pr.out)) s1 t →
        t.mode = .ret v' → t.stack = s1.stack →
        t.user.calls = s.user.calls ++ .openOutput path :: ops → Leaves path ops →
        ∃ t', CalmRun (pr.translate pl) t t' ∧ t'.mode = .run (.user next) v' ∧ t'.stack = s.stack ∧
          t'.bindings = s.bindings ∧ contents t'.user.world path = some (utf8String (wrote n ops)) ∧
          isOpen n t'.user.world = .boolean false := by
  have hso := sound_run h hs
  have hn : (exec pl s.user.world (opening true path)).1 = .port n := by
    subst hl
    exact (Owner.opened pl hso hu hw).1
  obtain ⟨s1, g1, g2, g3, g4, g5, g6, g7⟩ := with_file hport h (output := true) ha hl hn
  refine ⟨s1, g1, g2, g3, g6, fun t v' ops ht hm hst hc hle => ?_⟩
  obtain ⟨t', k1, k2, k3, k4, k5, k6⟩ := g7 t v' ht hm hst
  refine ⟨t', k1, k2, k3, k4, ?_, k6⟩
  have hc' : t.user.calls = s1.user.calls ++ ops := by
    rw [hc, g5, List.append_assoc]
    rfl
  have hwt := traces_ops (run_traces ht) hc'
  have e : t'.user.world = execAll pl s.user.world (.openOutput path :: (ops ++ [.close n])) := by
    rw [k5, hwt, g4]
    show _ = execAll pl _ (ops ++ [.close n])
    rw [execAll_append]
    rfl
  have hle' : Leaves path (ops ++ [.close n]) := by
    intro op hop
    rcases List.mem_append.mp hop with hop | hop
    · exact hle op hop
    · rw [List.mem_singleton.mp hop]; simp
  rw [e]
  subst hl
  rw [(C88_written pl _ path _ hso hu hw hle').2.1 (by simp), wrote_snoc]

/-- C88, output that names no port, inside of `with-output-to-file`: it is written to the new port. -/
theorem C88_inside (pr : FileProgram C W S P) (pl : Platform) (hport : Faithful pr) (n : Nat)
    (t : Config (FileCode C) W (FileState S) P) (text : List Nat) (next : C)
    (hv : value t pr.out = pr.ofResult (.port n)) (ha : userAction pr t = some (.write none text next)) :
    ∃ t', step (pr.translate pl) t = some t' ∧ t'.user.calls = t.user.calls ++ [.put n text] ∧
      t'.user.world = (exec pl t.user.world (.put n text)).2 := by
  unfold userAction at ha
  split at ha
  case h_2 => cases ha
  rename_i code x hm
  injection ha with ha
  obtain ⟨u', a, ha'⟩ : ∃ u' a, pr.step code x t.user.user (value t) = (u', a) := ⟨_, _, rfl⟩
  rw [ha'] at ha
  simp only at ha
  subst ha
  have htar : ∀ u'' : FileState S, pr.target u'' pr.out (value t) none = n := by
    intro u''
    simp only [FileProgram.target, hv, hport n, Option.getD_some]
  have e : (((pr.translate pl).step (.user code) x t.user (value t)).1).calls = t.user.calls ++ [.put n text] ∧
      (((pr.translate pl).step (.user code) x t.user (value t)).1).world =
        (exec pl t.user.world (.put n text)).2 := by
    simp only [FileProgram.translate, FileProgram.perform, ha', FileProgram.call, FileState.exec, htar, and_self]
  refine ⟨perform (pr.translate pl) { t with user := ((pr.translate pl).step (.user code) x t.user (value t)).1 }
    ((pr.translate pl).step (.user code) x t.user (value t)).2, ?_, ?_, ?_⟩
  · simp only [step, hm]
    rfl
  · rw [perform_user]; exact e.1
  · rw [perform_user]; exact e.2

/-- C88, input that names no port, inside of `with-input-from-file`: it comes from the new port. -/
theorem C88_inside_input (pr : FileProgram C W S P) (pl : Platform) (hport : Faithful pr) (n : Nat)
    (t : Config (FileCode C) W (FileState S) P) (next : C)
    (hv : value t pr.inp = pr.ofResult (.port n)) (ha : userAction pr t = some (.read none next)) :
    ∃ t', step (pr.translate pl) t = some t' ∧ t'.user.calls = t.user.calls ++ [.readChar n] ∧
      t'.user.world = (exec pl t.user.world (.readChar n)).2 := by
  unfold userAction at ha
  split at ha
  case h_2 => cases ha
  rename_i code x hm
  injection ha with ha
  obtain ⟨u', a, ha'⟩ : ∃ u' a, pr.step code x t.user.user (value t) = (u', a) := ⟨_, _, rfl⟩
  rw [ha'] at ha
  simp only at ha
  subst ha
  have htar : ∀ u'' : FileState S, pr.target u'' pr.inp (value t) none = n := by
    intro u''
    simp only [FileProgram.target, hv, hport n, Option.getD_some]
  have e : (((pr.translate pl).step (.user code) x t.user (value t)).1).calls = t.user.calls ++ [.readChar n] ∧
      (((pr.translate pl).step (.user code) x t.user (value t)).1).world =
        (exec pl t.user.world (.readChar n)).2 := by
    simp only [FileProgram.translate, FileProgram.perform, ha', FileProgram.call, FileState.exec, htar, and_self]
  refine ⟨perform (pr.translate pl) { t with user := ((pr.translate pl).step (.user code) x t.user (value t)).1 }
    ((pr.translate pl).step (.user code) x t.user (value t)).2, ?_, ?_, ?_⟩
  · simp only [step, hm]
    rfl
  · rw [perform_user]; exact e.1
  · rw [perform_user]; exact e.2

/-- C88, `with-input-from-file`: the same for reading. The characters read from the port are those of the file. -/
theorem C88_with_input_partial (pr : FileProgram C W S P) (pl : Platform) (hport : Faithful pr)
    (c : FileCode C) (v : W) (u : FileState S) (cells : Cell P → W)
    (s : Config (FileCode C) W (FileState S) P) (h : CalmRun (pr.translate pl) (start c v u cells) s)
    (hs : Sound u.world) (path : String) (thunk next : C)
    (ha : userAction pr s = some (.withInput path thunk next)) (hu : Unshared s.user.world path)
    (cs : List Char) (hz : ∀ c ∈ cs, c ≠ '\x00')
    (hcs : contents s.user.world path = some (utf8String (cs.map Char.toNat)))
    (n : Nat) (hl : n = s.user.world.ports.length) :
    ∃ s1, CalmRun (pr.translate pl) s s1 ∧ s1.mode = .run (.user thunk) pr.unspecified ∧
      (∀ p, value s1 p = if p = pr.inp then pr.ofResult (.port n) else value s p) ∧
      (∀ t code w, RunThrough (pr.translate pl) (fun x => Calm (pr.translate pl) x ∧
          ¬ Assigns (pr.translate pl) x (cellOf s1.bindings pr.inp)) s1 t →
        t.mode = .run code w → bindingsOf (lexical t.stack) = bindingsOf (lexical s1.stack) →
        value t pr.inp = pr.ofResult (.port n)) ∧
      (∀ t ops, RunThrough (pr.translate pl) (fun _ => True) s1 t → t.user.calls = s1.user.calls ++ ops →
        Leaves path ops → .close n ∉ ops → answers pl n s1.user.world ops = expected n ops cs) ∧
      ∀ t v', RunThrough (pr.translate pl) (fun x => Calm (pr.translate pl) x ∧
          ¬ Assigns (pr.translate pl) x (cellOf s1.bindings pr.inp)) s1 t →
        t.mode = .ret v' → t.stack = s1.stack →
        ∃ t', CalmRun (pr.translate pl) t t' ∧ t'.mode = .run (.user next) v' ∧ t'.stack = s.stack ∧
          t'.bindings = s.bindings ∧ t'.user.world = (exec pl t.user.world (.close n)).2 ∧
          isOpen n t'.user.world = .boolean false := by
  have hso := sound_run h hs
  have hn : (exec pl s.user.world (opening false path)).1 = .port n := by
    subst hl
    exact (C88_read_partial pl s.user.world path cs [] hso hu hz hcs (by unfold Leaves; simp) (by simp)).1
  obtain ⟨s1, g1, g2, g3, g4, g5, g6, g7⟩ := with_file hport h (output := false) ha hl hn
  refine ⟨s1, g1, g2, g3, g6, fun t ops _ _ hle hc => ?_, g7⟩
  rw [g4]
  subst hl
  exact (C88_read_partial pl s.user.world path cs ops hso hu hz hcs hle hc).2

/-! ### `call-with-output-file`, `call-with-input-file`, `call-with-port` -/

/-- C88, `call-with-output-file`: the procedure is called with a new port; when it returns (to where it was called),
the port is closed, its value is passed on, and the file contains what was written to the port. The run may do
anything, also leave and come back. -/
theorem C88_call_with_output (pr : FileProgram C W S P) (pl : Platform) (hport : Faithful pr)
    (s : Config (FileCode C) W (FileState S) P) (path : String) (f next : C)
    (ha : userAction pr s = some (.callWithOutput path f next)) (hs : Sound s.user.world)
    (hu : Unshared s.user.world path) (hw : pl.writable path = true) (n : Nat)
    (hl : n = s.user.world.ports.length) :
    ∃ s1, step (pr.translate pl) s = some s1 ∧ s1.mode = .run (.user f) (pr.ofResult (.port n)) ∧
      ∀ t v' ops, RunThrough (pr.translate pl) (fun _ => True) s1 t → t.mode = .ret v' → t.stack = s1.stack →
        t.user.calls = s.user.calls ++ .openOutput path :: ops → Leaves path ops →
        ∃ t', steps (pr.translate pl) 2 t = some t' ∧ t'.mode = .run (.user next) v' ∧ t'.stack = s.stack ∧
          t'.bindings = t.bindings ∧ contents t'.user.world path = some (utf8String (wrote n ops)) ∧
          isOpen n t'.user.world = .boolean false := by
  subst hl
  have hn := (Owner.opened pl hs hu hw).1
  unfold userAction at ha
  split at ha
  case h_2 => cases ha
  rename_i code x hm
  injection ha with ha
  obtain ⟨u', a, ha'⟩ : ∃ u' a, pr.step code x s.user.user (value s) = (u', a) := ⟨_, _, rfl⟩
  rw [ha'] at ha
  simp only at ha
  subst ha
  have hstep : (pr.translate pl).step (.user code) x s.user (value s) =
      ({ user := u', world := (exec pl s.user.world (.openOutput path)).2,
         calls := s.user.calls ++ [.openOutput path] },
        .call (.user f) (pr.ofResult (.port s.user.world.ports.length))
          (.closePort s.user.world.ports.length next)) := by
    simp only [FileProgram.translate, FileProgram.perform, ha', FileProgram.call, FileState.exec, hn,
      FileProgram.proceed, hport _, Option.getD_some]
  have e1 : step (pr.translate pl) s = some { s with
      mode := .run (.user f) (pr.ofResult (.port s.user.world.ports.length))
      stack := .next (.closePort s.user.world.ports.length next) :: s.stack
      user := (⟨u', (exec pl s.user.world (.openOutput path)).2, s.user.calls ++ [.openOutput path]⟩ : FileState S) } := by
    have : ((pr.translate pl).step (.user code) x s.user fun p => s.cells (cellOf s.bindings p)) = _ := hstep
    simp only [step, hm, this, perform]
  refine ⟨_, e1, rfl, fun t v' ops ht hmt hst hc hle => ?_⟩
  have hwt : t.user.world = execAll pl (exec pl s.user.world (.openOutput path)).2 ops :=
    traces_ops (run_traces ht) (by rw [hc]; simp)
  have hf : IsFile s.user.world.ports.length t.user.world := by
    rw [hwt]
    exact isFile_execAll pl ops (isFile_opened (output := true) hn)
  have hlt : s.user.world.ports.length < t.user.world.ports.length := by
    obtain ⟨x, hx, -⟩ := hf
    exact (List.getElem?_eq_some_iff.mp hx).1
  refine ⟨_, closePort_exit hmt hst hlt, rfl, rfl, rfl, ?_, isOpen_closed pl hf⟩
  have hle' : Leaves path (ops ++ [.close s.user.world.ports.length]) := by
    intro op hop
    rcases List.mem_append.mp hop with hop | hop
    · exact hle op hop
    · rw [List.mem_singleton.mp hop]; simp
  have e : (exec pl t.user.world (.close s.user.world.ports.length)).2 =
      execAll pl s.user.world (.openOutput path :: (ops ++ [.close s.user.world.ports.length])) := by
    rw [hwt]
    show _ = execAll pl _ (ops ++ [.close s.user.world.ports.length])
    rw [execAll_append]
    rfl
  show contents (exec pl t.user.world (.close s.user.world.ports.length)).2 path = _
  rw [e, (C88_written pl _ path _ hs hu hw hle').2.1 (by simp), wrote_snoc]

/-- C88, `call-with-input-file`: the same for reading. -/
theorem C88_call_with_input_partial (pr : FileProgram C W S P) (pl : Platform) (hport : Faithful pr)
    (s : Config (FileCode C) W (FileState S) P) (path : String) (f next : C)
    (ha : userAction pr s = some (.callWithInput path f next)) (hs : Sound s.user.world)
    (hu : Unshared s.user.world path) (cs : List Char) (hz : ∀ c ∈ cs, c ≠ '\x00')
    (hcs : contents s.user.world path = some (utf8String (cs.map Char.toNat))) (n : Nat)
    (hl : n = s.user.world.ports.length) :
    ∃ s1, step (pr.translate pl) s = some s1 ∧ s1.mode = .run (.user f) (pr.ofResult (.port n)) ∧
      ∀ t ops, RunThrough (pr.translate pl) (fun _ => True) s1 t → t.user.calls = s1.user.calls ++ ops →
        Leaves path ops →
        (.close n ∉ ops → answers pl n s1.user.world ops = expected n ops cs) ∧
        ∀ v', t.mode = .ret v' → t.stack = s1.stack →
        ∃ t', steps (pr.translate pl) 2 t = some t' ∧ t'.mode = .run (.user next) v' ∧ t'.stack = s.stack ∧
          t'.bindings = t.bindings ∧ isOpen n t'.user.world = .boolean false := by
  subst hl
  have hn := (C88_read_partial pl s.user.world path cs [] hs hu hz hcs (by unfold Leaves; simp) (by simp)).1
  unfold userAction at ha
  split at ha
  case h_2 => cases ha
  rename_i code x hm
  injection ha with ha
  obtain ⟨u', a, ha'⟩ : ∃ u' a, pr.step code x s.user.user (value s) = (u', a) := ⟨_, _, rfl⟩
  rw [ha'] at ha
  simp only at ha
  subst ha
  have hstep : (pr.translate pl).step (.user code) x s.user (value s) =
      ({ user := u', world := (exec pl s.user.world (.openInput path)).2,
         calls := s.user.calls ++ [.openInput path] },
        .call (.user f) (pr.ofResult (.port s.user.world.ports.length))
          (.closePort s.user.world.ports.length next)) := by
    simp only [FileProgram.translate, FileProgram.perform, ha', FileProgram.call, FileState.exec, hn,
      FileProgram.proceed, hport _, Option.getD_some]
  have e1 : step (pr.translate pl) s = some { s with
      mode := .run (.user f) (pr.ofResult (.port s.user.world.ports.length))
      stack := .next (.closePort s.user.world.ports.length next) :: s.stack
      user := (⟨u', (exec pl s.user.world (.openInput path)).2, s.user.calls ++ [.openInput path]⟩ : FileState S) } := by
    have : ((pr.translate pl).step (.user code) x s.user fun p => s.cells (cellOf s.bindings p)) = _ := hstep
    simp only [step, hm, this, perform]
  refine ⟨_, e1, rfl, fun t ops ht hc hle => ⟨fun hnc =>
    (C88_read_partial pl s.user.world path cs ops hs hu hz hcs hle hnc).2, fun v' hmt hst => ?_⟩⟩
  have hf : IsFile s.user.world.ports.length t.user.world := by
    rw [traces_ops (run_traces ht) hc]
    exact isFile_execAll pl ops (isFile_opened (output := false) hn)
  have hlt : s.user.world.ports.length < t.user.world.ports.length := by
    obtain ⟨x, hx, -⟩ := hf
    exact (List.getElem?_eq_some_iff.mp hx).1
  exact ⟨_, closePort_exit hmt hst hlt, rfl, rfl, rfl, isOpen_closed pl hf⟩

/-- C88, `call-with-port`: the procedure is called with the port; when it returns, the port is closed if it is a file
port, and the values are passed on. -/
theorem C88_call_with_port (pr : FileProgram C W S P) (pl : Platform)
    (s : Config (FileCode C) W (FileState S) P) (n : Nat) (f next : C)
    (ha : userAction pr s = some (.callWithPort n f next)) (hf : IsFile n s.user.world) :
    ∃ s1, step (pr.translate pl) s = some s1 ∧ s1.mode = .run (.user f) (pr.ofResult (.port n)) ∧
      ∀ t v', RunThrough (pr.translate pl) (fun _ => True) s1 t → t.mode = .ret v' → t.stack = s1.stack →
        ∃ t', steps (pr.translate pl) 2 t = some t' ∧ t'.mode = .run (.user next) v' ∧ t'.stack = s.stack ∧
          t'.bindings = t.bindings ∧ isOpen n t'.user.world = .boolean false := by
  unfold userAction at ha
  split at ha
  case h_2 => cases ha
  rename_i code x hm
  injection ha with ha
  obtain ⟨u', a, ha'⟩ : ∃ u' a, pr.step code x s.user.user (value s) = (u', a) := ⟨_, _, rfl⟩
  rw [ha'] at ha
  simp only at ha
  subst ha
  have hstep : (pr.translate pl).step (.user code) x s.user (value s) =
      ({ s.user with user := u' }, .call (.user f) (pr.ofResult (.port n)) (.closePort n next)) := by
    simp only [FileProgram.translate, FileProgram.perform, ha']
  have e1 : step (pr.translate pl) s = some { s with
      mode := .run (.user f) (pr.ofResult (.port n))
      stack := .next (.closePort n next) :: s.stack
      user := { s.user with user := u' } } := by
    have : ((pr.translate pl).step (.user code) x s.user fun p => s.cells (cellOf s.bindings p)) = _ := hstep
    simp only [step, hm, this, perform]
  refine ⟨_, e1, rfl, fun t v' ht hmt hst => ?_⟩
  have hf' : IsFile n t.user.world := by
    obtain ⟨ops, e, -⟩ := run_traces ht
    rw [e]
    exact isFile_execAll pl ops hf
  have hlt : n < t.user.world.ports.length := by
    obtain ⟨x, hx, -⟩ := hf'
    exact (List.getElem?_eq_some_iff.mp hx).1
  exact ⟨_, closePort_exit hmt hst hlt, rfl, rfl, rfl, isOpen_closed pl hf'⟩

/-! ### Programs -/

namespace Example

/-- Values are results of procedures and continuations; the parameters are `current-output-port` (0),
`current-input-port` (1) and others. -/
abbrev Demo := FileProgram Nat (Result ⊕ Nat) Unit Nat

/-- A program from what its pieces of code do. -/
def demo (f : Nat → Result ⊕ Nat → FileAction Nat (Result ⊕ Nat) Nat) : Demo where
  step c v _ _ := ((), f c v)
  convert _ w := w
  ofCont := .inr
  unspecified := .inl .unspecified
  ofResult := .inl
  toPort
    | .inl (.port n) => some n
    | _ => none
  out := 0
  inp := 1

theorem demo_faithful (f) : Faithful (demo f) := fun _ => rfl

/-- A world with a string port, which is the current output port. -/
def init (pr : Demo) : Config (FileCode Nat) (Result ⊕ Nat) (FileState Unit) Nat :=
  let _ := pr
  start (.user 0) (.inl .unspecified) ⟨(), { world with ports := [.outputString []] }, []⟩ fun _ => .inl (.port 0)

/-- `(with-output-to-file "f" (lambda () (write-string "hé") (dynamic-wind … (lambda () (write-char #\y)) …)))`,
then `(write-char #\!)`. -/
def writer : Demo := demo fun c v => match c with
  | 0 => .withOutput "f" 1 8
  | 1 => .write none [0x68, 0xE9] 2
  | 2 => .plain (.wind 3 4 3 5)
  | 3 => .plain (.ret v)
  | 4 => .write none [0x79] 3
  | 5 => .plain (.ret (.inl (.boolean true)))
  | 8 => .write none [0x21] 9
  | _ => .plain (.ret v)

/-- The file, the string port, and the ports that are open, at the end. -/
def outcome (pr : Demo) (n : Nat) : Option (Option (List Byte) × Option Port × Result) :=
  (steps (pr.translate platform) n (init pr)).map fun t =>
    (contents t.user.world "f", t.user.world.ports[0]?, isOpen 1 t.user.world)

theorem writer_outcome : outcome writer 22 = some (some [0x68, 0xC3, 0xA9, 0x79],
    some (.outputString [0x21]), .boolean false) := rfl

/-- The hypotheses of `C88_with_output_partial`, also those about the state in which the thunk returns. -/
example : CalmRun (writer.translate platform) (init writer) (init writer) ∧
    userAction writer (init writer) = some (.withOutput "f" 1 8) ∧
    Sound (init writer).user.world ∧ Unshared (init writer).user.world "f" ∧ platform.writable "f" = true ∧
    ∃ s1 t, steps (writer.translate platform) 3 (init writer) = some s1 ∧
      RunThrough (writer.translate platform) (fun x => Calm (writer.translate platform) x ∧
        ¬ Assigns (writer.translate platform) x (cellOf s1.bindings 0)) s1 t ∧
      t.mode = .ret (.inl (.boolean true)) ∧ t.stack = s1.stack ∧
      t.user.calls = [.openOutput "f", .put 1 [0x68, 0xE9], .put 1 [0x79]] := by
  refine ⟨.refl _, rfl, ⟨sound.names, fun n i o b hn => ?_⟩,
    ⟨(unshared "f").name, fun n i o b hn => ?_⟩, by decide, ?_⟩
  · rcases n with _ | n <;> simp [init, start] at hn
  · rcases n with _ | n <;> simp [init, start] at hn
  · refine ⟨(steps (writer.translate platform) 3 (init writer)).get (by decide),
      (stepsThrough (writer.translate platform) (quietNow (writer.translate platform)
        (cellOf ((steps (writer.translate platform) 3 (init writer)).get (by decide)).bindings 0)) 11
        ((steps (writer.translate platform) 3 (init writer)).get (by decide))).get (by decide),
      by simp, ?_, rfl, rfl, rfl⟩
    exact runThrough_of_steps (n := 11) (fun x hx => quiet_of_quietNow hx) (by simp)

/-- Leaves the thunk by calling a continuation. -/
def escaper : Demo := demo fun c v => match c with
  | 0 => .plain (.callcc 1 8)
  | 1 => .withOutput "f" 2 7
  | 2 => .write none [0x68, 0x79] 3
  | 3 => .plain (.jump 0 (.inl (.boolean true)))
  | 8 => .write none [0x21] 9
  | _ => .plain (.ret v)

/-- **Not when the thunk is left otherwise**: the current output port is the old one again, but the port is still
open and the text is not in the file. (R7RS allows this.) -/
theorem C88_escape_fails : outcome escaper 15 = some (some [], some (.outputString [0x21]), .boolean true) :=
  rfl

/-- `(call-with-output-file "f" (lambda (port) … (close-port port) …))` -/
def caller : Demo := demo fun c v => match c with
  | 0 => .callWithOutput "f" 1 8
  | 1 => .write (some 1) [0x68, 0x79] 2
  | 2 => .io (.close 1) 3
  | 3 => .write (some 1) [0x7A] 4
  | 4 => .io (.isOpen 1) 5
  | 5 => .plain (.ret v)
  | 8 => .callWithInput "f" 10 9
  | 10 => .io (.readChar 2) 5
  | 9 => .io (.isOpen 2) 11
  | _ => .plain (.ret v)

/-- What the second half of the program reads, and that its port is closed. -/
theorem caller_outcome : outcome caller 9 = some (some [0x68, 0x79], some (.outputString []), .boolean false) ∧
    ((steps (caller.translate platform) 11 (init caller)).map fun t => match t.mode with
      | .ret (.inl r) => r
      | _ => .unspecified) = some (.char 0x68) ∧
    ((steps (caller.translate platform) 15 (init caller)).map fun t => match t.mode with
      | .ret (.inl r) => r
      | _ => .unspecified) = some (.boolean false) := by
  exact ⟨rfl, rfl, rfl⟩

/-- The hypotheses of `C88_call_with_output` and `C88_call_with_input_partial`. -/
example : userAction caller (init caller) = some (.callWithOutput "f" 1 8) ∧
    ∃ s, steps (caller.translate platform) 8 (init caller) = some s ∧
      userAction caller s = some (.callWithInput "f" 10 9) ∧
      contents s.user.world "f" = some (utf8String (['h', 'y'].map Char.toNat)) ∧
      s.user.world.ports.length = 2 := by
  refine ⟨rfl, (steps (caller.translate platform) 8 (init caller)).get (by decide), by simp, rfl, ?_, ?_⟩ <;>
    decide

/-- `(with-input-from-file "old" (lambda () (read-char)))`, then `(call-with-port (open-input-file "old") …)`. -/
def reader : Demo := demo fun c v => match c with
  | 0 => .withInput "old" 1 2
  | 1 => .read none 9
  | 2 => .io (.openInput "old") 3
  | 3 => .callWithPort 2 4 5
  | 4 => .io (.readChar 2) 9
  | 5 => .io (.isOpen 2) 9
  | _ => .plain (.ret v)

/-- The hypotheses of `C88_with_input_partial` and `C88_call_with_port`, and what happens. -/
example : userAction reader (init reader) = some (.withInput "old" 1 2) ∧
    contents (init reader).user.world "old" = some (utf8String (['a'].map Char.toNat)) ∧
    (∃ t, steps (reader.translate platform) 5 (init reader) = some t ∧ t.mode = .ret (.inl (.char 0x61)) ∧
      t.user.calls = [.openInput "old", .readChar 1]) ∧
    ∃ s, steps (reader.translate platform) 11 (init reader) = some s ∧
      userAction reader s = some (.callWithPort 2 4 5) ∧ IsFile 2 s.user.world ∧
      ((steps (reader.translate platform) 7 s).map fun t => match t.mode with
        | .ret (.inl r) => r
        | _ => .unspecified) = some (.boolean false) := by
  refine ⟨rfl, by decide, ⟨(steps (reader.translate platform) 5 (init reader)).get (by decide), by simp, rfl, rfl⟩,
    (steps (reader.translate platform) 11 (init reader)).get (by decide), by simp, rfl, ?_, rfl⟩
  exact ⟨.input 0 0 [] false false, rfl, by simp, by simp⟩

end Example

end Meevax.FilePort
