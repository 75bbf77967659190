import Verif.Lemmas.ConcurrentIndex
import Verif.Lemmas.Sort
import Verif.Spec.Index
import Verif.Props.Stdout
import Verif.Model.ConcurrentStdout
/-! # What the goroutines of `Index` write to standard output -/
namespace Verif.ConcurrentIndex
open Index Progress Output Cmd Stdout

variable {D : Deps} {o : Opts} {ord : MapOrders} {loaded : Except Str (GoMap Package × GoMap Package)} {level : Level} {disk : Disk}

/-- The messages among the events. -/
def wroteOf : List Event → List Message
  | [] => []
  | .wrote m :: es => m :: wroteOf es
  | _ :: es => wroteOf es

theorem wroteOf_append (a b : List Event) : wroteOf (a ++ b) = wroteOf a ++ wroteOf b := by
  induction a with
  | nil => rfl
  | cons e a ih => cases e <;> simp [wroteOf, ih]

theorem shown_append (c : Pb.Bytes) (a b : List Event) :
    shown disk level c (a ++ b) = shown disk level c a ++ shown disk level ((wroteOf a).foldl (fun c m => c ++ appended disk c m) c) b := by
  induction a generalizing c with
  | nil => rfl
  | cons e a ih => cases e <;> simp [shown, wroteOf, ih]

theorem shown_lines (c : Pb.Bytes) (k : Phase) (ls : List Line) : shown disk level c (ls.map (Event.line k)) = ls.flatMap (ofLine k.task) := by
  induction ls with
  | nil => rfl
  | cons l ls ih => simp [shown, ih]

theorem wroteOf_lines (k : Phase) (ls : List Line) : wroteOf (ls.map (Event.line k)) = [] := by
  induction ls with
  | nil => rfl
  | cons l ls ih => simp [wroteOf, ih]

theorem chunks_append (c : Pb.Bytes) (a b : List Message) :
    chunks disk c (a ++ b) = chunks disk c a ++ chunks disk (a.foldl (fun c m => c ++ appended disk c m) c) b := by
  induction a generalizing c with
  | nil => rfl
  | cons m a ih => simp [chunks, ih]

theorem chunks_snoc (a b : List Message) (m : Message) :
    chunks disk (contentAfter disk a) (b ++ [m]) = chunks disk (contentAfter disk a) b ++ [.message (appended disk (contentAfter disk (a ++ b)) m)] := by
  rw [chunks_append]
  simp [chunks, contentAfter, List.foldl_append]

/-! ### Progress -/

/-- A step of the machine of Model/Progress.lean only adds lines. -/
theorem prog_out {n : Nat} {p q : Progress.State} (h : Progress.Step level n p q) : ∃ ls, q.out = p.out ++ ls := by
  cases h with
  | print c hpc => exact ⟨[.progress c n], rfl⟩
  | finish elapsed hpc hc => exact ⟨[.progress n n] ++ (if level < levelWarn then [.finished (humanElapsed elapsed)] else []) ++ [.newline], by simp⟩
  | _ => exact ⟨[], by simp⟩

theorem prog_done {n : Nat} {p q : Progress.State} (h : Progress.Step level n p q) (hd : ∀ w ∈ p.workers, w.done = true) :
    ∀ w ∈ q.workers, w.done = true := by
  cases h with
  | work i k hi =>
    have := hd _ (List.mem_of_getElem? hi)
    simp at this
  | workerDone i k hi =>
    have := hd _ (List.mem_of_getElem? hi)
    simp at this
  | _ => exact hd

theorem steps_reachable {tasks : List Nat} {n : Nat} {p q : Progress.State} (h : Progress.Steps level n p q) :
    Progress.Reachable level tasks n p → Progress.Reachable level tasks n q ∧ p.out <+: q.out := by
  induction h with
  | refl s => exact fun h => ⟨h, List.prefix_rfl⟩
  | step hst _ ih =>
    intro h
    obtain ⟨h1, h2⟩ := ih (.step h hst)
    obtain ⟨ls, hls⟩ := prog_out hst
    exact ⟨h1, (hls ▸ List.prefix_append _ _ : _ <+: _).trans h2⟩

theorem prefix_flatMap {α β : Type} (f : α → List β) {a b : List α} (h : a <+: b) : a.flatMap f <+: b.flatMap f := by
  obtain ⟨t, rfl⟩ := h
  rw [List.flatMap_append]
  exact List.prefix_append _ _

/-- What was printed so far is a beginning of what is printed in the end. -/
theorem parallel_extends {n : Nat} (name : Str) {p : Progress.State} (h : Progress.Reachable level [n] n p) :
    ∃ v, Parallel level name n v ∧ p.out.flatMap (ofLine name) <+: v := by
  obtain ⟨q, h1, h2⟩ := C60_can_return level [n] n (by simp) p h
  obtain ⟨h3, h4⟩ := steps_reachable h1 h
  exact ⟨_, ⟨q, h3, h2, rfl⟩, prefix_flatMap _ h4⟩

theorem parallel_exists (level : Level) (name : Str) (n : Nat) : ∃ v, Parallel level name n v := by
  obtain ⟨v, h, _⟩ := parallel_extends (level := level) (n := n) name .start
  exact ⟨v, h⟩

theorem writing_steps {name : Str} {n : Nat} {todo sh : List Shown} {p q : Progress.State} (h : Progress.Steps level n p q) :
    Writing level name n todo p [] sh → ∃ sh', Writing level name n todo q [] sh' ∧ sh <+: sh' := by
  induction h generalizing sh with
  | refl s => exact fun h => ⟨sh, h, List.prefix_rfl⟩
  | step hst _ ih =>
    intro h
    obtain ⟨ls, hls⟩ := prog_out hst
    obtain ⟨sh', h1, h2⟩ := ih (.step h hst (fun _ => rfl) hls)
    exact ⟨sh', h1, (List.prefix_append _ _).trans h2⟩

theorem writing_extends {name : Str} {n : Nat} {todo sh : List Shown} {p : Progress.State} (h : Writing level name n todo p [] sh) :
    ∃ sh', ParallelWriting level name n todo sh' ∧ sh <+: sh' := by
  obtain ⟨q, h1, h2⟩ := C60_can_return level [n] n (by simp) p (writing_shuffle h).1
  obtain ⟨sh', h3, h4⟩ := writing_steps h1 h
  exact ⟨sh', ⟨q, h3, h2⟩, h4⟩

theorem parallelWriting_exists (level : Level) (name : Str) (n : Nat) : ∃ v, ParallelWriting level name n [] v := by
  obtain ⟨v, h, _⟩ := writing_extends (Writing.start (level := level) (name := name) (n := n) (todo := []))
  exact ⟨v, h⟩

/-! ### How often the goroutines count -/

theorem sortedValues_length (m : GoMap Package) : (sortedValues m).length = m.length := by
  have hget : ∀ (m : GoMap Package) k v, (k, v) ∈ m → (m.get k).isSome := by
    intro m k v hm
    unfold GoMap.get
    induction m with
    | nil => simp at hm
    | cons e m ih =>
      rw [List.lookup_cons]
      split
      · rfl
      · rename_i hne
        rcases List.mem_cons.1 hm with e' | hm
        · subst e'; simp at hne
        · exact ih hm
  have h1 : (sortedValues m).length = (m.keys.filterMap m.get).length := ((sortStrs_perm m.keys).filterMap _).length_eq
  have h2 : ∀ l : List Str, (∀ k ∈ l, k ∈ m.keys) → (l.filterMap m.get).length = l.length := by
    intro l
    induction l with
    | nil => intro _; rfl
    | cons k l ih =>
      intro h
      have hk : (m.get k).isSome := by
        have := h k (by simp)
        unfold GoMap.keys at this
        obtain ⟨⟨k', v⟩, hm, hk'⟩ := List.mem_map.1 this
        simp only at hk'
        subst hk'
        exact hget m _ _ hm
      obtain ⟨v, hv⟩ := Option.isSome_iff_exists.1 hk
      rw [List.filterMap_cons, hv]
      simp [ih fun k hk => h k (by simp [hk])]
  rw [h1, h2 m.keys fun _ h => h]
  simp [GoMap.keys]

theorem counts_packages (ps : List Package) : counts (packageTasks ps) = ps.length := by
  induction ps with
  | nil => rfl
  | cons p ps ih =>
    have : packageTasks (p :: ps) = .package p :: .count :: packageTasks ps := rfl
    rw [this, counts_cons, counts_cons, ih]
    simp; omega

theorem counts_types (vs : List Impl.TypeVisit) : counts (typeTasks vs) = vs.length := by
  induction vs with
  | nil => rfl
  | cons p ps ih =>
    have : typeTasks (p :: ps) = .type p :: .count :: typeTasks ps := rfl
    rw [this, counts_cons, counts_cons, ih]
    simp; omega

theorem counts_files (ps : List Package) : counts (fileTasks ps) = ps.length := by
  induction ps with
  | nil => rfl
  | cons p ps ih =>
    have : fileTasks (p :: ps) = (p.files.map (.file p) ++ [.count]) ++ fileTasks ps := rfl
    have h0 : counts (p.files.map (Task.file p)) = 0 := by
      induction p.files with
      | nil => rfl
      | cons f fs ih => rw [List.map_cons, counts_cons, ih]
    rw [this, counts_append, counts_append, h0, ih]
    simp [counts]; omega

theorem counts_impls (hord : Spec.ValidOrders ord.impls) (loc rem : Impl.State) :
    counts (typeTasks ((ord.impls loc rem).localLocal ++ (ord.impls loc rem).localRemote ++ (ord.impls loc rem).remoteLocal)) =
      loc.concretes.length * 2 + rem.concretes.length := by
  obtain ⟨h1, h2, h3, -⟩ := hord loc rem
  have l1 := h1.1.length_eq
  have l2 := h2.1.length_eq
  have l3 := h3.1.length_eq
  simp only [List.length_map] at l1 l2 l3
  rw [counts_types]
  simp only [List.length_append]
  omega

/-! ### The invariant -/

/-- What was written before the packages are visited. -/
def Began (D : Deps) (o : Opts) (disk : Disk) (level : Level) (x : List Shown) : Prop :=
  writer disk [] (.metadata (metadata D o)) = none ∧ ∃ elapsed, x = chunks disk [] [.metadata (metadata D o)] ++ loading level elapsed

/-- What was written before the relationships are looked for. -/
def Visited (D : Deps) (o : Opts) (disk : Disk) (level : Level) (project : GoMap Package) (x : List Shown) : Prop :=
  ∃ pre v, Began D o disk level pre ∧ Parallel level (Phase.task .visiting) project.length v ∧ x = pre ++ v

/-- What was written before the files are visited. -/
def Related (D : Deps) (o : Opts) (disk : Disk) (level : Level) (project : GoMap Package) (x : List Shown) : Prop :=
  ∃ pre impls total, Visited D o disk level project pre ∧
    (if o.skipImplementations then impls = [] else Parallel level (Phase.task .relating) total impls) ∧ x = pre ++ impls

/-- Where the caller is, what was written to standard output. -/
def Shows (D : Deps) (o : Opts) (loaded : Except Str (GoMap Package × GoMap Package)) (disk : Disk) (level : Level) (s : State) (x : List Shown) : Prop :=
  let m₀ : Message := .metadata (metadata D o)
  match s.pc with
  | .metadata => x = [] ∧ s.mem.messages = []
  | .loading => writer disk [] m₀ = none ∧ x = chunks disk [] [m₀] ∧ s.mem.messages = [m₀]
  | .symbols project all => loaded = .ok (project, all) ∧ Began D o disk level x ∧ s.mem.messages = [m₀]
  | .visiting project all => loaded = .ok (project, all) ∧ s.mem.messages = [m₀] ∧ ∃ j pre, s.jobs .visiting = some j ∧ j.total = project.length ∧
      Progress.Reachable level [project.length] project.length j.prog ∧ Began D o disk level pre ∧ x = pre ++ j.prog.out.flatMap (ofLine (Phase.task .visiting))
  | .extracting project all => loaded = .ok (project, all) ∧ s.mem.messages = [m₀] ∧ Visited D o disk level project x
  | .relating project _ => (∃ all, loaded = .ok (project, all)) ∧ o.skipImplementations = false ∧ s.mem.messages = [m₀] ∧ ∃ j pre, s.jobs .relating = some j ∧
      Progress.Reachable level [j.total] j.total j.prog ∧ Visited D o disk level project pre ∧ x = pre ++ j.prog.out.flatMap (ofLine (Phase.task .relating))
  | .files project externals => (∃ all, loaded = .ok (project, all)) ∧ s.mem.messages = [m₀] ∧ Related D o disk level project x ∧
      ∀ m ∈ externals, isDocument m = false
  | .writing externals => ∃ project all j docs pre mixed, loaded = .ok (project, all) ∧ s.mem.messages = m₀ :: docs ∧ s.jobs .writing = some j ∧
      j.total = project.length ∧ Related D o disk level project pre ∧ (∀ m ∈ docs, isDocument m = true) ∧ (∀ m ∈ externals, isDocument m = false) ∧
      (∀ m, .write m ∈ j.todo → isDocument m = true) ∧
      (∀ rest, ((∀ w ∈ j.prog.workers, w.done = true) → rest = []) →
        Writing level (Phase.task .writing) project.length (chunks disk (contentAfter disk [m₀]) docs ++ rest) j.prog rest mixed) ∧
      x = pre ++ mixed
  | .externals rest => ∃ project all docs exts pre mixed, loaded = .ok (project, all) ∧ s.mem.messages = m₀ :: docs ++ exts ∧
      Related D o disk level project pre ∧ (∀ m ∈ docs, isDocument m = true) ∧ (∀ m ∈ exts, isDocument m = false) ∧ (∀ m ∈ rest, isDocument m = false) ∧
      ParallelWriting level (Phase.task .writing) project.length (chunks disk (contentAfter disk [m₀]) docs) mixed ∧
      x = pre ++ mixed ++ chunks disk (contentAfter disk (m₀ :: docs)) exts
  | .returned _ => ∀ out, Whole disk level o.skipImplementations loaded ⟨s.mem.messages, out⟩ x

structure Shown' (D : Deps) (o : Opts) (loaded : Except Str (GoMap Package × GoMap Package)) (disk : Disk) (level : Level) (s : State) : Prop where
  wrote : wroteOf s.events = s.mem.messages
  shows : Shows D o loaded disk level s (shown disk level [] s.events)

theorem takeWhile_docs {docs exts : List Message} (h1 : ∀ m ∈ docs, isDocument m = true) (h2 : ∀ m ∈ exts, isDocument m = false) :
    (docs ++ exts).takeWhile isDocument = docs ∧ (docs ++ exts).dropWhile isDocument = exts := by
  induction docs with
  | nil =>
    cases exts with
    | nil => exact ⟨rfl, rfl⟩
    | cons e es => simp [List.takeWhile_cons, List.dropWhile_cons, h2 e (by simp)]
  | cons d ds ih =>
    have := ih fun m hm => h1 m (by simp [hm])
    simp [List.takeWhile_cons, List.dropWhile_cons, h1 d (by simp), this]

/-- The parts put together. -/
theorem whole_of {project all : GoMap Package} {docs exts : List Message} {pre mixed : List Shown} (out : Outcome)
    (hl : loaded = .ok (project, all)) (hr : Related D o disk level project pre)
    (h1 : ∀ m ∈ docs, isDocument m = true) (h2 : ∀ m ∈ exts, isDocument m = false)
    (hw : ParallelWriting level (Phase.task .writing) project.length (chunks disk (contentAfter disk [.metadata (metadata D o)]) docs) mixed) :
    Whole disk level o.skipImplementations loaded ⟨.metadata (metadata D o) :: docs ++ exts, out⟩
      (pre ++ mixed ++ chunks disk (contentAfter disk (.metadata (metadata D o) :: docs)) exts) := by
  obtain ⟨pre', impls, total, ⟨pre'', v, ⟨hok, elapsed, rfl⟩, hv, rfl⟩, hi, rfl⟩ := hr
  unfold Whole
  simp only [List.cons_append, hok]
  obtain ⟨e1, e2⟩ := takeWhile_docs h1 h2
  refine ⟨elapsed, ?_⟩
  rw [hl]
  refine ⟨v, impls, mixed, total, hv, hi, ?_, ?_⟩
  · rw [e1]; exact hw
  · rw [e1, e2]

/-- Events of a job. -/
theorem shows_job {s : State} (h : Shown' D o loaded disk level s) {k : Phase} (hin : s.pc.inside k) {j j' : Job} (hj : s.jobs k = some j)
    (ht : j'.total = j.total) (htodo : ∀ m, .write m ∈ j'.todo → k = .writing → .write m ∈ j.todo ∨ isDocument m = true) {ls : List Line}
    (hp : (j'.prog = j.prog ∧ ls = []) ∨ (Progress.Step level j.total j.prog j'.prog ∧ j'.prog.out = j.prog.out ++ ls))
    {m : Mem} (hm : m.messages = s.mem.messages) {ev : List Event} (hev : ev = s.events ++ ls.map (Event.line k)) :
    Shown' D o loaded disk level { s with mem := m, jobs := setJob s.jobs k j', events := ev } := by
  subst hev
  have hout : j'.prog.out = j.prog.out ++ ls := by
    rcases hp with ⟨h1, h2⟩ | ⟨_, h2⟩
    · rw [h1, h2, List.append_nil]
    · exact h2
  refine ⟨by simp only [wroteOf_append, wroteOf_lines, List.append_nil, hm]; exact h.wrote, ?_⟩
  have hs := h.shows
  rw [shown_append, shown_lines]
  generalize shown disk level [] s.events = x at *
  unfold Shows at hs ⊢
  simp only at hs ⊢
  cases hpc : s.pc with
  | visiting project all =>
    have hk : k = .visiting := by rw [hpc] at hin; cases k <;> simp [Pc.inside] at hin ⊢
    subst hk
    rw [hpc] at hs
    simp only at hs ⊢
    obtain ⟨h1, h2, j₀, pre, h3, h4, h5, h6, rfl⟩ := hs
    rw [hj] at h3; injection h3 with h3; subst h3
    refine ⟨h1, hm.trans h2, j', pre, setJob_same _ _ _, ht.trans h4, ?_, h6, ?_⟩
    · rcases hp with ⟨e, _⟩ | ⟨e, _⟩
      · rw [e]; exact h5
      · rw [h4] at e; exact .step h5 e
    · rw [hout, List.flatMap_append, List.append_assoc]
  | relating project types =>
    have hk : k = .relating := by rw [hpc] at hin; cases k <;> simp [Pc.inside] at hin ⊢
    subst hk
    rw [hpc] at hs
    simp only at hs ⊢
    obtain ⟨h1, h2, h3, j₀, pre, h4, h5, h6, rfl⟩ := hs
    rw [hj] at h4; injection h4 with h4; subst h4
    refine ⟨h1, h2, hm.trans h3, j', pre, setJob_same _ _ _, ?_, h6, ?_⟩
    · rw [ht]
      rcases hp with ⟨e, _⟩ | ⟨e, _⟩
      · rw [e]; exact h5
      · exact .step h5 e
    · rw [hout, List.flatMap_append, List.append_assoc]
  | writing externals =>
    have hk : k = .writing := by rw [hpc] at hin; cases k <;> simp [Pc.inside] at hin ⊢
    subst hk
    rw [hpc] at hs
    simp only at hs ⊢
    obtain ⟨project, all, j₀, docs, pre, mixed, h1, h2, h3, h4, h5, h6, h7, h8, h9, rfl⟩ := hs
    rw [hj] at h3; injection h3 with h3; subst h3
    refine ⟨project, all, j', docs, pre, mixed ++ ls.flatMap (ofLine (Phase.task .writing)), h1, hm.trans h2, setJob_same _ _ _, ht.trans h4, h5, h6, h7, ?_, ?_, ?_⟩
    · intro m' hm'
      rcases htodo m' hm' rfl with e | e
      · exact h8 m' e
      · exact e
    · intro rest hrest
      rcases hp with ⟨e, e'⟩ | ⟨e, e'⟩
      · rw [e] at hrest ⊢
        rw [e']
        simpa using h9 rest hrest
      · rw [h4] at e
        exact .step (h9 rest fun hd => hrest (prog_done e hd)) e hrest e'
    · rw [List.append_assoc]
  | _ => rw [hpc] at hin; cases k <;> simp [Pc.inside] at hin

/-- A document is written. -/
theorem shows_write {s : State} (h : Shown' D o loaded disk level s) {k : Phase} (hin : s.pc.inside k) (hk : k = .writing) {j j' : Job} (hj : s.jobs k = some j)
    (ht : j'.total = j.total) (htodo : ∀ m, .write m ∈ j'.todo → .write m ∈ j.todo) (hp : j'.prog = j.prog) {n : Nat}
    (hw : j.prog.workers = [⟨n, false⟩]) {msg : Message} (hmsg : .write msg ∈ j.todo)
    {m : Mem} (hm : m.messages = s.mem.messages ++ [msg]) :
    Shown' D o loaded disk level { s with mem := m, jobs := setJob s.jobs k j', events := s.events ++ [.wrote msg] } := by
  subst hk
  refine ⟨by simp only [wroteOf_append, wroteOf, hm]; rw [h.wrote], ?_⟩
  have hs := h.shows
  rw [shown_append, h.wrote]
  generalize shown disk level [] s.events = x at *
  unfold Shows at hs ⊢
  simp only at hs ⊢
  cases hpc : s.pc with
  | writing externals =>
    rw [hpc] at hs
    simp only at hs ⊢
    obtain ⟨project, all, j₀, docs, pre, mixed, h1, h2, h3, h4, h5, h6, h7, h8, h9, rfl⟩ := hs
    rw [hj] at h3; injection h3 with h3; subst h3
    refine ⟨project, all, j', docs ++ [msg], pre, mixed ++ [.message (appended disk (contentAfter disk s.mem.messages) msg)], h1, ?_, setJob_same _ _ _, ht.trans h4, h5, ?_, h7, ?_, ?_, ?_⟩
    · rw [hm, h2]; simp
    · intro m' hm'
      rcases List.mem_append.1 hm' with e | e
      · exact h6 m' e
      · rw [List.mem_singleton] at e; subst e; exact h8 _ hmsg
    · exact fun m' hm' => h8 m' (htodo m' hm')
    · intro rest _
      rw [chunks_snoc, hp]
      have e : contentAfter disk ([.metadata (metadata D o)] ++ docs) = contentAfter disk s.mem.messages := by rw [h2]; rfl
      rw [e, List.append_assoc]
      refine .write (h9 _ ?_) ⟨n, hw⟩
      intro hd
      exact absurd (hd ⟨n, false⟩ (by simp [hw])) (by simp)
    · simp only [shown, contentAfter, List.append_assoc]
  | _ => rw [hpc] at hin; simp [Pc.inside] at hin

theorem perform_write {w : Writer} {m m' : Mem} {t : Task} :
    (∀ next, perform D o ord w m t = .go m' next → (∀ msg, t ≠ .write msg) → m'.messages = m.messages ∧ t.events = [] ∧
      ∀ msg, .write msg ∈ next → isDocument msg = true) ∧
    (∀ msg next, t = .write msg → perform D o ord w m t = .go m' next → m'.messages = m.messages ++ [msg] ∧ next = []) ∧
    (perform D o ord w m t = .leave m' → ∃ msg, t = .write msg ∧ m'.messages = m.messages ++ [msg]) := by
  cases t with
  | package p =>
    refine ⟨fun next h _ => ?_, fun _ _ h => by simp at h, fun h => ?_⟩
    · simp only [perform] at h
      split at h
      · exact absurd h (by simp)
      · injection h with h1 h2; subst h1; subst h2; exact ⟨rfl, rfl, by simp⟩
    · simp only [perform] at h
      split at h <;> simp at h
  | type v =>
    refine ⟨fun next h _ => ?_, fun _ _ h => by simp at h, fun h => by simp [perform] at h⟩
    simp only [perform] at h
    injection h with h1 h2; subst h1; subst h2; exact ⟨rfl, rfl, by simp⟩
  | count =>
    refine ⟨fun next h _ => ?_, fun _ _ h => by simp at h, fun h => by simp [perform] at h⟩
    simp only [perform] at h
    injection h with h1 h2; subst h1; subst h2; exact ⟨rfl, rfl, by simp⟩
  | write msg =>
    refine ⟨fun next h hn => absurd rfl (hn msg), fun msg' next h h' => ?_, fun h => ?_⟩
    · injection h with h; subst h
      simp only [perform] at h'
      split at h'
      · exact absurd h' (by simp)
      · injection h' with h1 h2; subst h1; subst h2; exact ⟨rfl, rfl⟩
    · simp only [perform] at h
      split at h
      · injection h with h1; subst h1; exact ⟨msg, rfl, rfl⟩
      · exact absurd h (by simp)
  | file p f =>
    refine ⟨fun next h _ => ?_, fun _ _ h => by simp at h, fun h => ?_⟩
    · simp only [perform] at h
      split at h
      · injection h with h1 h2; subst h1; subst h2; exact ⟨rfl, rfl, by simp⟩
      · split at h
        · exact absurd h (by simp)
        · rename_i msg g hv
          injection h with h1 h2; subst h1; subst h2
          refine ⟨rfl, rfl, ?_⟩
          intro msg' hm'
          simp only [List.mem_singleton, Task.write.injEq] at hm'
          subst hm'
          unfold visitFile at hv
          split at hv
          · simp at hv
          · simp only at hv
            split at hv
            · simp at hv
            · simp only [Option.some.injEq, Prod.mk.injEq] at hv
              rw [← hv.1]; rfl
    · simp only [perform] at h
      split at h
      · simp at h
      · split at h <;> simp at h

theorem writer_ne {k : Phase} {j : Job} (hok : JobOk k j) {msg : Message} {t : Task} {rest : List Task} (ht : j.todo = t :: rest) (h : t = .write msg) :
    k = .writing ∧ ∃ n, j.prog.workers = [⟨n, false⟩] := by
  obtain ⟨n, d, h1, h2, h3, h4, h5, h6⟩ := hok.worker
  have := hok.tasks t (by rw [ht]; simp)
  refine ⟨by subst h; cases k <;> simp [Task.of] at this ⊢, n, ?_⟩
  cases d with
  | false => exact h1
  | true => rw [h4 rfl] at ht; simp at ht

theorem shown'_step {s s' : State} {who : Who} {acc : List Access} (hord : Spec.ValidOrders ord.impls) (hi : Inv level s)
    (h : Shown' D o loaded disk level s) (hst : Step D o ord (writer disk) loaded level s who acc s') : Shown' D o loaded disk level s' := by
  have hs := h.shows
  have hwr := h.wrote
  cases hst with
  | metadataFails e hd hpc hw =>
    simp only [Shows, hpc] at hs
    obtain ⟨h1, h2⟩ := hs
    refine ⟨by simp [wroteOf_append, wroteOf, hwr], ?_⟩
    rw [shown_append, h1, hwr]
    rw [h2] at hw
    simp only [Shows, h2]
    intro out
    unfold Whole
    simp [hw, shown, chunks]
  | metadata hd hpc hw =>
    simp only [Shows, hpc] at hs
    obtain ⟨h1, h2⟩ := hs
    refine ⟨by simp [wroteOf_append, wroteOf, hwr], ?_⟩
    rw [shown_append, h1, hwr]
    rw [h2] at hw
    simp only [Shows, h2]
    exact ⟨hw, by simp [shown, chunks], rfl⟩
  | loadFails e elapsed hd hpc hl =>
    simp only [Shows, hpc] at hs
    obtain ⟨h1, h2, h3⟩ := hs
    refine ⟨by simp [wroteOf_append, wroteOf, hwr], ?_⟩
    rw [shown_append, h2]
    simp only [Shows, h3]
    intro out
    unfold Whole
    simp only [h1, hl]
    exact ⟨elapsed, by simp [shown]⟩
  | load project all elapsed hd hpc hl =>
    simp only [Shows, hpc] at hs
    obtain ⟨h1, h2, h3⟩ := hs
    refine ⟨by simp [wroteOf_append, wroteOf, hwr], ?_⟩
    rw [shown_append, h2]
    simp only [Shows]
    exact ⟨hl, ⟨h1, elapsed, by simp [shown]⟩, h3⟩
  | symbols project all hd hpc =>
    simp only [Shows, hpc] at hs
    obtain ⟨h1, h2, h3⟩ := hs
    refine ⟨hwr, ?_⟩
    simp only [Shows]
    refine ⟨h1, h3, _, _, setJob_same _ _ _, rfl, ?_, h2, by simp [newJob, Progress.start]⟩
    simp only [newJob, counts_packages, sortedValues_length]
    exact .start
  | visited j project all hd hpc hj hr =>
    simp only [Shows, hpc] at hs
    obtain ⟨h1, h2, j₀, pre, h3, h4, h5, h6, h7⟩ := hs
    rw [hj] at h3; injection h3 with h3; subst h3
    refine ⟨hwr, ?_⟩
    simp only [Shows]
    exact ⟨h1, h2, pre, _, h6, ⟨j.prog, h5, hr, rfl⟩, h7⟩
  | skip project all hd hpc hsk =>
    simp only [Shows, hpc] at hs
    obtain ⟨h1, h2, h3⟩ := hs
    refine ⟨hwr, ?_⟩
    simp only [Shows]
    exact ⟨⟨all, h1⟩, h2, ⟨_, [], 0, h3, by simp [hsk], by simp⟩, by simp⟩
  | extract project all loc rem hd hpc hsk he =>
    simp only [Shows, hpc] at hs
    obtain ⟨h1, h2, h3⟩ := hs
    refine ⟨hwr, ?_⟩
    simp only [Shows]
    refine ⟨⟨all, h1⟩, hsk, h2, _, _, setJob_same _ _ _, ?_, h3, by simp [newJob, Progress.start]⟩
    simp only [newJob, counts_impls hord]
    exact .start
  | extractPanics project all hd hpc hsk he => exact ⟨hwr, by simpa only [Shows] using hs⟩
  | related j project types hd hpc hj hr =>
    simp only [Shows, hpc] at hs
    obtain ⟨h1, h2, h3, j₀, pre, h4, h5, h6, h7⟩ := hs
    rw [hj] at h4; injection h4 with h4; subst h4
    refine ⟨hwr, ?_⟩
    simp only [Shows]
    refine ⟨h1, h3, ⟨pre, _, j.total, h6, ?_, h7⟩, ?_⟩
    · simp only [h2]; exact ⟨j.prog, h5, hr, rfl⟩
    · intro m hm
      simp only [externalMessages, List.mem_map] at hm
      obtain ⟨x, _, rfl⟩ := hm
      rfl
  | files project externals hd hpc =>
    simp only [Shows, hpc] at hs
    obtain ⟨⟨all, h1⟩, h2, h3, h4⟩ := hs
    refine ⟨hwr, ?_⟩
    simp only [Shows]
    refine ⟨project, all, _, [], _, [], h1, h2, setJob_same _ _ _, rfl, h3, by simp, h4, ?_, ?_, by simp⟩
    · intro m hm
      simp only [newJob, fileTasks, List.mem_flatMap, List.mem_append, List.mem_map, List.mem_singleton] at hm
      obtain ⟨p, -, ⟨f, -, hm⟩ | hm⟩ := hm <;> simp at hm
    · intro rest hrest
      simp only [newJob, counts_files, sortedValues_length, chunks, List.nil_append]
      exact .start
  | writeFailed j externals e hd hpc hj hr he =>
    simp only [Shows, hpc] at hs
    obtain ⟨project, all, j₀, docs, pre, mixed, h1, h2, h3, h4, h5, h6, h7, h8, h9, h10⟩ := hs
    rw [hj] at h3; injection h3 with h3; subst h3
    refine ⟨hwr, ?_⟩
    simp only [Shows]
    intro out
    have hw := h9 [] (fun _ => rfl)
    rw [List.append_nil] at hw
    have := whole_of (exts := []) out h1 h5 h6 (by simp) ⟨j.prog, hw, hr⟩
    rw [h10, h2]
    simpa [chunks] using this
  | written j externals hd hpc hj hr he =>
    simp only [Shows, hpc] at hs
    obtain ⟨project, all, j₀, docs, pre, mixed, h1, h2, h3, h4, h5, h6, h7, h8, h9, h10⟩ := hs
    rw [hj] at h3; injection h3 with h3; subst h3
    refine ⟨hwr, ?_⟩
    simp only [Shows]
    have hw := h9 [] (fun _ => rfl)
    rw [List.append_nil] at hw
    exact ⟨project, all, docs, [], pre, mixed, h1, by rw [h2]; simp, h5, h6, by simp, h7, ⟨j.prog, hw, hr⟩, by rw [h10]; simp [chunks]⟩
  | external m rest hd hpc hw =>
    simp only [Shows, hpc] at hs
    obtain ⟨project, all, docs, exts, pre, mixed, h1, h2, h3, h4, h5, h6, h7, h8⟩ := hs
    refine ⟨by simp [wroteOf_append, wroteOf, hwr], ?_⟩
    rw [shown_append, hwr, h8]
    simp only [Shows]
    refine ⟨project, all, docs, exts ++ [m], pre, mixed, h1, by rw [h2]; simp, h3, h4, ?_, fun m' hm' => h6 m' (by simp [hm']), h7, ?_⟩
    · intro m' hm'
      rcases List.mem_append.1 hm' with e | e
      · exact h5 m' e
      · rw [List.mem_singleton] at e; subst e; exact h6 _ (by simp)
    · rw [chunks_snoc, h2]
      simp [shown, contentAfter]
  | externalFails m rest e hd hpc hw =>
    simp only [Shows, hpc] at hs
    obtain ⟨project, all, docs, exts, pre, mixed, h1, h2, h3, h4, h5, h6, h7, h8⟩ := hs
    refine ⟨by simp [wroteOf_append, wroteOf, hwr], ?_⟩
    rw [shown_append, hwr, h8]
    simp only [Shows]
    intro out
    have := whole_of (exts := exts ++ [m]) out h1 h3 h4 (by
      intro m' hm'
      rcases List.mem_append.1 hm' with e | e
      · exact h5 m' e
      · rw [List.mem_singleton] at e; subst e; exact h6 _ (by simp)) h7
    rw [chunks_snoc] at this
    rw [h2]
    simpa [shown, contentAfter] using this
  | finished hd hpc =>
    simp only [Shows, hpc] at hs
    obtain ⟨project, all, docs, exts, pre, mixed, h1, h2, h3, h4, h5, h6, h7, h8⟩ := hs
    refine ⟨hwr, ?_⟩
    simp only [Shows]
    intro out
    rw [h8, h2]
    exact whole_of out h1 h3 h4 h5 h7
  | task k j t rest next m hd hj ht hc hp =>
    have hin : s.pc.inside k := inside_of_busy hi hj (by rintro ⟨ho, -⟩; rw [ho] at ht; exact absurd ht (by simp))
    obtain ⟨p1, p2, _⟩ := perform_write (D := D) (o := o) (ord := ord) (w := writer disk) (m := s.mem) (m' := m) (t := t)
    by_cases hwm : ∃ msg, t = .write msg
    · obtain ⟨msg, hmsg⟩ := hwm
      obtain ⟨q1, q2⟩ := p2 msg next hmsg hp
      obtain ⟨hk, n, hn⟩ := writer_ne (hi.ok k j hj) ht hmsg
      have he : t.events = [.wrote msg] := by rw [hmsg]; rfl
      rw [he]
      exact shows_write h hin hk hj (j' := { j with todo := next ++ rest }) rfl (by intro m' hm'; rw [q2] at hm'; rw [ht]; exact List.mem_cons_of_mem _ hm') rfl hn
        (by rw [ht, hmsg]; simp) q1
    · obtain ⟨q1, q2, q3⟩ := p1 next hp (fun msg e => hwm ⟨msg, e⟩)
      refine shows_job h hin hj (j' := { j with todo := next ++ rest }) (ls := []) rfl ?_ (.inl ⟨rfl, rfl⟩) q1 (by rw [q2]; simp)
      intro m' hm' _
      rcases List.mem_append.1 hm' with e | e
      · exact .inr (q3 m' e)
      · exact .inl (by rw [ht]; exact List.mem_cons_of_mem _ e)
  | leave k j t rest m hd hj ht hp =>
    have hin : s.pc.inside k := inside_of_busy hi hj (by rintro ⟨ho, -⟩; rw [ho] at ht; exact absurd ht (by simp))
    obtain ⟨_, _, p3⟩ := perform_write (D := D) (o := o) (ord := ord) (w := writer disk) (m := s.mem) (m' := m) (t := t)
    obtain ⟨msg, hmsg, q1⟩ := p3 hp
    obtain ⟨hk, n, hn⟩ := writer_ne (hi.ok k j hj) ht hmsg
    have he : t.events = [.wrote msg] := by rw [hmsg]; rfl
    rw [he]
    exact shows_write h hin hk hj (j' := { j with todo := [] }) rfl (by intro m' hm'; simp at hm') rfl hn (by rw [ht, hmsg]; simp) q1
  | panic k j t rest hd hj ht hp => exact ⟨hwr, by simpa only [Shows] using hs⟩
  | count k j rest n hd hj ht hw =>
    have hin : s.pc.inside k := inside_of_busy hi hj (by rintro ⟨ho, -⟩; rw [ho] at ht; exact absurd ht (by simp))
    refine shows_job h hin hj (j' := { j with todo := rest, prog := { j.prog with count := j.prog.count + 1, workers := j.prog.workers.set 0 ⟨n, false⟩ } }) (ls := []) rfl ?_ (.inr ⟨.work 0 n hw, by simp⟩) rfl (by simp)
    intro m' hm' _
    exact .inl (by rw [ht]; exact List.mem_cons_of_mem _ hm')
  | workerDone k j n hd hj ht hw =>
    obtain ⟨n', d, h1, h2, h3, h4, h5, h6⟩ := (hi.ok k j hj).worker
    have hin : s.pc.inside k := inside_of_busy hi hj (by rintro ⟨-, n, ho⟩; rw [ho] at hw; simp at hw)
    exact shows_job h hin hj (j' := { j with prog := { j.prog with wg := j.prog.wg - 1, workers := j.prog.workers.set 0 ⟨n, true⟩ } }) (ls := []) rfl (fun m' hm' _ => .inl hm') (.inr ⟨.workerDone 0 n hw, by simp⟩) rfl (by simp)
  | close k j hd hj hq hpc hc hwg =>
    have hin : s.pc.inside k := by
      rw [inside_iff]
      rcases Nat.lt_trichotomy k.order s.pc.order with h | h | h
      · rw [(hi.earlier k h j hj).2.2 hq] at hc; exact absurd hc (by simp)
      · exact h
      · rw [hi.later k h] at hj; exact absurd hj (by simp)
    exact shows_job h hin hj (j' := { j with prog := { j.prog with closed := true } }) (ls := []) rfl (fun m' hm' _ => .inl hm') (.inr ⟨.close hq hc hwg, by simp⟩) rfl (by simp)
  | quietReturn k j hd hin hj hq hpc hwg =>
    exact shows_job h hin hj (j' := { j with prog := { j.prog with pc := .returned } }) (ls := []) rfl (fun m' hm' _ => .inl hm') (.inr ⟨.quietReturn hq hpc hwg, by simp⟩) rfl (by simp)
  | first k j hd hin hj hq hpc =>
    exact shows_job h hin hj (j' := { j with prog := { j.prog with pc := .loaded j.prog.count } }) (ls := []) rfl (fun m' hm' _ => .inl hm') (.inr ⟨.first hq hpc, by simp⟩) rfl (by simp)
  | print k j c hd hin hj hpc =>
    exact shows_job h hin hj (j' := { j with prog := { j.prog with pc := .select, out := j.prog.out ++ [.progress c j.total] } }) (ls := [.progress c j.total]) rfl (fun m' hm' _ => .inl hm') (.inr ⟨.print c hpc, rfl⟩) rfl rfl
  | tick k j hd hin hj hpc =>
    exact shows_job h hin hj (j' := { j with prog := { j.prog with pc := .loaded j.prog.count } }) (ls := []) rfl (fun m' hm' _ => .inl hm') (.inr ⟨.tick hpc, by simp⟩) rfl (by simp)
  | finish k j elapsed hd hin hj hpc hc =>
    refine shows_job h hin hj (j' := { j with prog := { j.prog with pc := .returned, out := j.prog.out ++ lastLines level j.total elapsed } }) (ls := lastLines level j.total elapsed) rfl (fun m' hm' _ => .inl hm') (.inr ⟨?_, rfl⟩) rfl rfl
    have := Progress.Step.finish (level := level) (n := j.total) elapsed hpc hc
    simpa [lastLines] using this

theorem shown'_reachable {s : State} (hord : Spec.ValidOrders ord.impls) (h : Reachable D o ord (writer disk) loaded level s) :
    Shown' D o loaded disk level s := by
  induction h with
  | start => exact ⟨rfl, by simp [Shows, start, shown]⟩
  | step h hst ih => exact shown'_step hord (inv_reachable h) ih hst

/-- Whatever was written so far is a beginning of something whole. -/
theorem shows_extends {s : State} {x : List Shown} (h : Shows D o loaded disk level s x) (out : Outcome) :
    ∃ whole, Whole disk level o.skipImplementations loaded ⟨s.mem.messages, out⟩ whole ∧ x <+: whole := by
  have fromRelated : ∀ {project all : GoMap Package} {pre : List Shown}, loaded = .ok (project, all) → Related D o disk level project pre →
      ∃ whole, Whole disk level o.skipImplementations loaded ⟨[.metadata (metadata D o)], out⟩ whole ∧ pre <+: whole := by
    intro project all pre hl hr
    obtain ⟨mixed, hm⟩ := parallelWriting_exists level (Phase.task .writing) project.length
    refine ⟨_, whole_of (docs := []) (exts := []) out hl hr (by simp) (by simp) hm, ?_⟩
    rw [List.append_assoc]; exact List.prefix_append _ _
  have fromVisited : ∀ {project all : GoMap Package} {pre : List Shown}, loaded = .ok (project, all) → Visited D o disk level project pre →
      ∃ whole, Whole disk level o.skipImplementations loaded ⟨[.metadata (metadata D o)], out⟩ whole ∧ pre <+: whole := by
    intro project all pre hl hv
    obtain ⟨v, hv'⟩ := parallel_exists level (Phase.task .relating) 0
    have hr : Related D o disk level project (pre ++ if o.skipImplementations then [] else v) :=
      ⟨pre, _, 0, hv, by split <;> simp_all, rfl⟩
    obtain ⟨w, h1, h2⟩ := fromRelated hl hr
    exact ⟨w, h1, (List.prefix_append _ _).trans h2⟩
  have fromBegan : ∀ {project all : GoMap Package} {pre : List Shown}, loaded = .ok (project, all) → Began D o disk level pre →
      ∃ whole, Whole disk level o.skipImplementations loaded ⟨[.metadata (metadata D o)], out⟩ whole ∧ pre <+: whole := by
    intro project all pre hl hb
    obtain ⟨v, hv⟩ := parallel_exists level (Phase.task .visiting) project.length
    obtain ⟨w, h1, h2⟩ := fromVisited hl ⟨pre, v, hb, hv, rfl⟩
    exact ⟨w, h1, (List.prefix_append _ _).trans h2⟩
  unfold Shows at h
  simp only at h
  cases hpc : s.pc with
  | metadata =>
    rw [hpc] at h; simp only at h
    obtain ⟨rfl, h2⟩ := h
    rw [h2]
    exact ⟨[], by simp [Whole], List.prefix_rfl⟩
  | loading =>
    rw [hpc] at h; simp only at h
    obtain ⟨h1, rfl, h3⟩ := h
    rw [h3]
    cases hl : loaded with
    | error e =>
      refine ⟨chunks disk [] [.metadata (metadata D o)] ++ loading level 0, ?_, List.prefix_append _ _⟩
      simp only [Whole, h1]
      exact ⟨0, rfl⟩
    | ok pa =>
      obtain ⟨w, h4, h5⟩ := fromBegan (pre := chunks disk [] [.metadata (metadata D o)] ++ loading level 0) hl ⟨h1, 0, rfl⟩
      rw [hl] at h4
      exact ⟨w, h4, (List.prefix_append _ _).trans h5⟩
  | symbols project all =>
    rw [hpc] at h; simp only at h
    obtain ⟨h1, h2, h3⟩ := h
    rw [h3]; exact fromBegan h1 h2
  | visiting project all =>
    rw [hpc] at h; simp only at h
    obtain ⟨h1, h2, j, pre, h3, h4, h5, h6, rfl⟩ := h
    rw [h2]
    obtain ⟨v, hv, hp⟩ := parallel_extends (Phase.task .visiting) h5
    obtain ⟨w, h7, h8⟩ := fromVisited h1 ⟨pre, v, h6, hv, rfl⟩
    exact ⟨w, h7, ((List.prefix_append_right_inj pre).2 hp).trans h8⟩
  | extracting project all =>
    rw [hpc] at h; simp only at h
    obtain ⟨h1, h2, h3⟩ := h
    rw [h2]; exact fromVisited h1 h3
  | relating project types =>
    rw [hpc] at h; simp only at h
    obtain ⟨⟨all, h1⟩, h2, h3, j, pre, h4, h5, h6, rfl⟩ := h
    rw [h3]
    obtain ⟨v, hv, hp⟩ := parallel_extends (Phase.task .relating) h5
    obtain ⟨w, h7, h8⟩ := fromRelated h1 ⟨pre, v, j.total, h6, by simpa [h2] using hv, rfl⟩
    exact ⟨w, h7, ((List.prefix_append_right_inj pre).2 hp).trans h8⟩
  | files project externals =>
    rw [hpc] at h; simp only at h
    obtain ⟨⟨all, h1⟩, h2, h3, h4⟩ := h
    rw [h2]; exact fromRelated h1 h3
  | writing externals =>
    rw [hpc] at h; simp only at h
    obtain ⟨project, all, j₀, docs, pre, mixed, h1, h2, h3, h4, h5, h6, h7, h8, h9, rfl⟩ := h
    have hw := h9 [] (fun _ => rfl)
    rw [List.append_nil] at hw
    obtain ⟨mixed', h10, h11⟩ := writing_extends hw
    have := whole_of (exts := []) out h1 h5 h6 (by simp) h10
    rw [h2]
    simp only [List.append_nil, chunks] at this
    exact ⟨_, this, (List.prefix_append_right_inj pre).2 h11⟩
  | externals rest =>
    rw [hpc] at h; simp only at h
    obtain ⟨project, all, docs, exts, pre, mixed, h1, h2, h3, h4, h5, h6, h7, rfl⟩ := h
    rw [h2]
    exact ⟨_, whole_of out h1 h3 h4 h5 h7, List.prefix_rfl⟩
  | returned e =>
    rw [hpc] at h; simp only at h
    exact ⟨x, h out, List.prefix_rfl⟩

end Verif.ConcurrentIndex
