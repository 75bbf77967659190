import Verif.Model.ConcurrentIndex
/-! # The goroutines of `Index`: invariants -/
namespace Verif.ConcurrentIndex
open Index Progress Output Cmd

variable {D : Deps} {o : Opts} {ord : MapOrders} {w : Writer} {loaded : Except Str (GoMap Package × GoMap Package)} {level : Level}

theorem setJob_same (jobs : Phase → Option Job) (k : Phase) (j : Job) : setJob jobs k j k = some j := by simp [setJob]
theorem setJob_other (jobs : Phase → Option Job) {k k' : Phase} (j : Job) (h : k' ≠ k) : setJob jobs k j k' = jobs k' := by simp [setJob, h]

/-! ## Who is running -/

/-- How far the caller is. -/
def Pc.order : Pc → Nat
  | .metadata | .loading | .symbols _ _ => 0
  | .visiting _ _ => 1
  | .extracting _ _ => 2
  | .relating _ _ => 3
  | .files _ _ => 4
  | .writing _ => 5
  | .externals _ => 6
  | .returned _ => 6

def Phase.order : Phase → Nat
  | .visiting => 1
  | .relating => 3
  | .writing => 5

theorem inside_iff {pc : Pc} {k : Phase} : pc.inside k ↔ k.order = pc.order := by
  cases pc <;> cases k <;> simp [Pc.inside, Pc.order, Phase.order]

theorem order_inj {k k' : Phase} (h : k.order = k'.order) : k = k' := by
  cases k <;> cases k' <;> simp_all [Phase.order]

/-- A task that a goroutine of this phase may have. -/
def Task.of : Task → Phase → Bool
  | .package _, .visiting => true
  | .type _, .relating => true
  | .file _ _, .writing => true
  | .write _, .writing => true
  | .count, _ => true
  | _, _ => false

structure JobOk (k : Phase) (j : Job) : Prop where
  worker : ∃ n d, j.prog.workers = [⟨n, d⟩] ∧ j.prog.wg = (if d then 0 else 1) ∧ counts j.todo ≤ n ∧ (d = true → j.todo = []) ∧
    (j.prog.closed = true → d = true) ∧ (j.prog.pc = .returned → d = true)
  tasks : ∀ t ∈ j.todo, t.of k = true

/-- The working goroutine has called `wg.Done()`. -/
def Job.over (j : Job) : Prop := j.todo = [] ∧ ∃ n, j.prog.workers = [⟨n, true⟩]

structure Inv (level : Level) (s : State) : Prop where
  ok : ∀ k j, s.jobs k = some j → JobOk k j
  later : ∀ k : Phase, s.pc.order < k.order → s.jobs k = none
  earlier : ∀ k : Phase, k.order < s.pc.order → ∀ j, s.jobs k = some j → j.over ∧ j.prog.pc = .returned ∧ (¬ level > levelWarn → j.prog.closed = true)
  now : ∀ k : Phase, s.pc.inside k → ∃ j, s.jobs k = some j
  helper : ∀ k j, s.jobs k = some j → j.prog.pc = .returned → ¬ level > levelWarn → j.prog.closed = true
  heap : s.pc.order ≤ 2 → s.mem.heap = fun _ => []
  messages : s.pc = .metadata → s.mem.messages = []

theorem counts_cons (t : Task) (ts : List Task) : counts (t :: ts) = (match t with | .count => 1 | _ => 0) + counts ts := by
  cases t <;> simp [counts, List.filter_cons] <;> omega

theorem counts_append (ts us : List Task) : counts (ts ++ us) = counts ts + counts us := by simp [counts, List.filter_append]

theorem perform_next {m m' : Mem} {t : Task} {next : List Task} (h : perform D o ord w m t = .go m' next) :
    counts next = 0 ∧ ∀ k, t.of k = true → ∀ u ∈ next, u.of k = true := by
  cases t with
  | package p =>
    simp only [perform] at h
    split at h
    · exact absurd h (by simp)
    · injection h with h1 h2; subst h2; simp [counts]
  | type v => simp only [perform] at h; injection h with h1 h2; subst h2; simp [counts]
  | count => simp only [perform] at h; injection h with h1 h2; subst h2; simp [counts]
  | write msg =>
    simp only [perform] at h
    split at h
    · exact absurd h (by simp)
    · injection h with h1 h2; subst h2; simp [counts]
  | file p f =>
    simp only [perform] at h
    split at h
    · injection h with h1 h2; subst h2; simp [counts]
    · split at h
      · exact absurd h (by simp)
      · injection h with h1 h2
        subst h2
        refine ⟨by simp [counts], ?_⟩
        intro k hk u hu
        simp only [List.mem_cons, List.not_mem_nil, or_false] at hu
        subst hu
        cases k <;> simp_all [Task.of]

theorem newJob_ok {k : Phase} {ts : List Task} (n : Nat) (h : ∀ t ∈ ts, t.of k = true) : JobOk k (newJob ts n) :=
  ⟨⟨counts ts, false, by simp [newJob, Progress.start], by simp [newJob, Progress.start], by simp [newJob], by simp,
    by simp [newJob, Progress.start], by simp [newJob, Progress.start]⟩, h⟩

theorem packageTasks_of (ps : List Package) : ∀ t ∈ packageTasks ps, t.of .visiting = true := by
  intro t ht
  simp only [packageTasks, List.mem_flatMap, List.mem_cons, List.not_mem_nil, or_false] at ht
  obtain ⟨p, -, h | h⟩ := ht <;> subst h <;> rfl

theorem typeTasks_of (vs : List Impl.TypeVisit) : ∀ t ∈ typeTasks vs, t.of .relating = true := by
  intro t ht
  simp only [typeTasks, List.mem_flatMap, List.mem_cons, List.not_mem_nil, or_false] at ht
  obtain ⟨p, -, h | h⟩ := ht <;> subst h <;> rfl

theorem fileTasks_of (ps : List Package) : ∀ t ∈ fileTasks ps, t.of .writing = true := by
  intro t ht
  simp only [fileTasks, List.mem_flatMap, List.mem_append, List.mem_map, List.mem_cons, List.not_mem_nil, or_false] at ht
  obtain ⟨p, -, ⟨f, -, h⟩ | h⟩ := ht <;> subst h <;> rfl

/-- A goroutine with something left to do is the one the caller waits for. -/
theorem inside_of_busy {s : State} (hi : Inv level s) {k : Phase} {j : Job} (hj : s.jobs k = some j) (hb : ¬ j.over) : s.pc.inside k := by
  rw [inside_iff]
  rcases Nat.lt_trichotomy k.order s.pc.order with h | h | h
  · exact absurd (hi.earlier k h j hj).1 hb
  · exact h
  · rw [hi.later k h] at hj
    exact absurd hj (by simp)

/-- The caller has not moved and one job has changed. -/
theorem inv_setJob {s : State} (hi : Inv level s) {k : Phase} (hk : s.pc.inside k) {j' : Job} {m : Mem} {ev : List Event} {d : Bool} (hok : JobOk k j')
    (hh : j'.prog.pc = .returned → ¬ level > levelWarn → j'.prog.closed = true) (hheap : s.pc.order ≤ 2 → m.heap = s.mem.heap) :
    Inv level { s with mem := m, jobs := setJob s.jobs k j', events := ev, dead := d } := by
  have hko := inside_iff.1 hk
  refine ⟨?_, ?_, ?_, ?_, ?_, ?_, ?_⟩
  · intro k' j hj
    simp only at hj
    by_cases h : k' = k
    · subst h; rw [setJob_same] at hj; injection hj with hj; subst hj; exact hok
    · rw [setJob_other _ _ h] at hj; exact hi.ok k' j hj
  · intro k' h
    simp only at h ⊢
    have : k' ≠ k := by intro he; subst he; omega
    rw [setJob_other _ _ this]; exact hi.later k' h
  · intro k' h j hj
    simp only at h hj
    have : k' ≠ k := by intro he; subst he; omega
    rw [setJob_other _ _ this] at hj; exact hi.earlier k' h j hj
  · intro k' h
    have : k' = k := order_inj ((inside_iff.1 h).trans hko.symm)
    subst this
    exact ⟨j', setJob_same _ _ _⟩
  · intro k' j hj
    simp only at hj
    by_cases h : k' = k
    · subst h; rw [setJob_same] at hj; injection hj with hj; subst hj; exact hh
    · rw [setJob_other _ _ h] at hj; exact hi.helper k' j hj
  · intro h
    simp only
    rw [hheap h]; exact hi.heap h
  · intro h
    simp only at h
    rw [h] at hk
    cases k <;> exact hk.elim

/-- The caller moves on and starts a job. -/
theorem inv_start {s : State} (hi : Inv level s) {k : Phase} {pc : Pc} {j : Job} {m : Mem} (hlt : s.pc.order < k.order) (hpc : pc.inside k)
    (hnext : ∀ k' : Phase, k'.order < k.order → s.pc.order ≤ k'.order → s.jobs k' = none ∨ k'.order < s.pc.order)
    (hok : JobOk k j) (hr : j.prog.pc = .start) (hheap : pc.order ≤ 2 → m.heap = s.mem.heap) :
    Inv level { s with mem := m, pc := pc, jobs := setJob s.jobs k j } := by
  have hko := inside_iff.1 hpc
  refine ⟨?_, ?_, ?_, ?_, ?_, ?_, ?_⟩
  · intro k' j' hj
    simp only at hj
    by_cases h : k' = k
    · subst h; rw [setJob_same] at hj; injection hj with hj; subst hj; exact hok
    · rw [setJob_other _ _ h] at hj; exact hi.ok k' j' hj
  · intro k' h
    simp only at h ⊢
    have : k' ≠ k := by intro he; subst he; omega
    rw [setJob_other _ _ this]; exact hi.later k' (by omega)
  · intro k' h j' hj
    simp only at h hj
    have hne : k' ≠ k := by intro he; subst he; omega
    rw [setJob_other _ _ hne] at hj
    by_cases hlt' : k'.order < s.pc.order
    · exact hi.earlier k' hlt' j' hj
    · rcases hnext k' (by omega) (by omega) with h1 | h1
      · rw [h1] at hj; exact absurd hj (by simp)
      · exact absurd h1 hlt'
  · intro k' h
    have : k' = k := order_inj ((inside_iff.1 h).trans hko.symm)
    subst this
    exact ⟨j, setJob_same _ _ _⟩
  · intro k' j' hj
    simp only at hj
    by_cases h : k' = k
    · subst h; rw [setJob_same] at hj; injection hj with hj; subst hj
      intro h'; rw [hr] at h'; exact absurd h' (by simp)
    · rw [setJob_other _ _ h] at hj; exact hi.helper k' j' hj
  · intro h
    simp only
    rw [hheap h]; exact hi.heap (by simp only at h; omega)
  · intro h
    simp only at h
    rw [h] at hpc
    cases k <;> exact hpc.elim

/-- The caller moves on without starting anything. -/
theorem inv_pc {s : State} (hi : Inv level s) {pc : Pc} {m : Mem} {ev : List Event} {d : Bool} (hle : s.pc.order ≤ pc.order) (hno : ∀ k, ¬ pc.inside k)
    (hdone : ∀ k : Phase, s.pc.order ≤ k.order → k.order < pc.order → ∀ j, s.jobs k = some j →
      j.over ∧ j.prog.pc = .returned ∧ (¬ level > levelWarn → j.prog.closed = true))
    (hheap : pc.order ≤ 2 → m.heap = s.mem.heap) (hm : pc ≠ .metadata) : Inv level { s with mem := m, pc := pc, events := ev, dead := d } := by
  refine ⟨hi.ok, ?_, ?_, ?_, hi.helper, ?_, ?_⟩
  · intro k h; simp only at h; exact hi.later k (by omega)
  · intro k h j hj
    by_cases hlt : k.order < s.pc.order
    · exact hi.earlier k hlt j hj
    · exact hdone k (by omega) h j hj
  · intro k h; exact absurd h (hno k)
  · intro h; simp only; rw [hheap h]; exact hi.heap (by simp only at h; omega)
  · intro h; exact absurd h hm

theorem over_of_returned {s : State} (hi : Inv level s) {k : Phase} {j : Job} (hj : s.jobs k = some j) (hr : j.prog.pc = .returned) :
    j.over ∧ j.prog.pc = .returned ∧ (¬ level > levelWarn → j.prog.closed = true) := by
  obtain ⟨n, d, h1, -, -, h4, -, h6⟩ := (hi.ok k j hj).worker
  have hd := h6 hr
  subst hd
  exact ⟨⟨h4 rfl, n, h1⟩, hr, hi.helper k j hj hr⟩

theorem inv_dead {s : State} (hi : Inv level s) : Inv level { s with dead := true } :=
  ⟨hi.ok, hi.later, hi.earlier, hi.now, hi.helper, hi.heap, hi.messages⟩

theorem inv_step {s s' : State} {who : Who} {acc : List Access} (hi : Inv level s) (h : Step D o ord w loaded level s who acc s') : Inv level s' := by
  cases h with
  | metadataFails e hd hpc hw =>
    refine inv_pc hi (by rw [hpc]; simp [Pc.order]) (by intro k; cases k <;> simp [Pc.inside]) ?_ (by simp [Pc.order]) (by simp)
    intro k h1 h2 j hj
    rw [hi.later k (by rw [hpc]; cases k <;> simp [Pc.order, Phase.order])] at hj
    exact absurd hj (by simp)
  | metadata hd hpc hw =>
    refine inv_pc hi (by rw [hpc]; simp [Pc.order]) (by intro k; cases k <;> simp [Pc.inside]) ?_ (by simp [Pc.order]) (by simp)
    intro k h1 h2 j hj
    simp [Pc.order] at h2
  | loadFails e elapsed hd hpc hl =>
    refine inv_pc hi (by rw [hpc]; simp [Pc.order]) (by intro k; cases k <;> simp [Pc.inside]) ?_ (by simp [Pc.order]) (by simp)
    intro k h1 h2 j hj
    rw [hi.later k (by rw [hpc]; cases k <;> simp [Pc.order, Phase.order])] at hj
    exact absurd hj (by simp)
  | load project all elapsed hd hpc hl =>
    refine inv_pc hi (by rw [hpc]; simp [Pc.order]) (by intro k; cases k <;> simp [Pc.inside]) ?_ (by simp [Pc.order]) (by simp)
    intro k h1 h2 j hj
    simp [Pc.order] at h2
  | symbols project all hd hpc =>
    refine inv_start hi (by rw [hpc]; simp [Pc.order, Phase.order]) (by simp [Pc.inside]) ?_ (newJob_ok _ (packageTasks_of _)) rfl (by simp)
    intro k h1 h2
    exact absurd h1 (by cases k <;> simp [Phase.order])
  | visited j project all hd hpc hj hr =>
    refine inv_pc hi (by rw [hpc]; simp [Pc.order]) (by intro k; cases k <;> simp [Pc.inside]) ?_ (by simp) (by simp)
    intro k h1 h2 j' hj'
    have : k = .visiting := by cases k <;> simp [Pc.order, Phase.order] at h2 ⊢
    subst this
    rw [hj] at hj'; injection hj' with hj'; subst hj'
    exact over_of_returned hi hj hr
  | skip project all hd hpc hs =>
    refine inv_pc hi (by rw [hpc]; simp [Pc.order]) (by intro k; cases k <;> simp [Pc.inside]) ?_ (by simp [Pc.order]) (by simp)
    intro k h1 h2 j' hj'
    rw [hpc] at h1
    have : k = .relating := by cases k <;> simp [Pc.order, Phase.order] at h1 h2 ⊢
    subst this
    rw [hi.later .relating (by rw [hpc]; simp [Pc.order, Phase.order])] at hj'
    exact absurd hj' (by simp)
  | extract project all loc rem hd hpc hs he =>
    refine inv_start hi (by rw [hpc]; simp [Pc.order, Phase.order]) (by simp [Pc.inside]) ?_ (newJob_ok _ (typeTasks_of _)) rfl (by simp)
    intro k h1 h2
    rw [hpc] at h2 ⊢
    cases k <;> simp [Phase.order, Pc.order] at h1 h2
  | extractPanics project all hd hpc hs he => exact inv_dead hi
  | related j project types hd hpc hj hr =>
    refine inv_pc hi (by rw [hpc]; simp [Pc.order]) (by intro k; cases k <;> simp [Pc.inside]) ?_ (by simp) (by simp)
    intro k h1 h2 j' hj'
    rw [hpc] at h1
    have : k = .relating := by cases k <;> simp [Pc.order, Phase.order] at h1 h2 ⊢
    subst this
    rw [hj] at hj'; injection hj' with hj'; subst hj'
    exact over_of_returned hi hj hr
  | files project externals hd hpc =>
    refine inv_start hi (by rw [hpc]; simp [Pc.order, Phase.order]) (by simp [Pc.inside]) ?_ (newJob_ok _ (fileTasks_of _)) rfl (by simp)
    intro k h1 h2
    rw [hpc] at h2 ⊢
    cases k <;> simp [Phase.order, Pc.order] at h1 h2
  | writeFailed j externals e hd hpc hj hr he =>
    refine inv_pc hi (by rw [hpc]; simp [Pc.order]) (by intro k; cases k <;> simp [Pc.inside]) ?_ (by simp) (by simp)
    intro k h1 h2 j' hj'
    rw [hpc] at h1
    have : k = .writing := by cases k <;> simp [Pc.order, Phase.order] at h1 h2 ⊢
    subst this
    rw [hj] at hj'; injection hj' with hj'; subst hj'
    exact over_of_returned hi hj hr
  | written j externals hd hpc hj hr he =>
    refine inv_pc hi (by rw [hpc]; simp [Pc.order]) (by intro k; cases k <;> simp [Pc.inside]) ?_ (by simp) (by simp)
    intro k h1 h2 j' hj'
    rw [hpc] at h1
    have : k = .writing := by cases k <;> simp [Pc.order, Phase.order] at h1 h2 ⊢
    subst this
    rw [hj] at hj'; injection hj' with hj'; subst hj'
    exact over_of_returned hi hj hr
  | external m rest hd hpc hw =>
    refine inv_pc hi (by rw [hpc]; simp [Pc.order]) (by intro k; cases k <;> simp [Pc.inside]) ?_ (by simp [Pc.order]) (by simp)
    intro k h1 h2 j' hj'
    rw [hpc] at h1
    exact absurd h1 (by cases k <;> simp [Pc.order, Phase.order])
  | externalFails m rest e hd hpc hw =>
    refine inv_pc hi (by rw [hpc]; simp [Pc.order]) (by intro k; cases k <;> simp [Pc.inside]) ?_ (by simp [Pc.order]) (by simp)
    intro k h1 h2 j' hj'
    rw [hpc] at h1
    exact absurd h1 (by cases k <;> simp [Pc.order, Phase.order])
  | finished hd hpc =>
    refine inv_pc hi (by rw [hpc]; simp [Pc.order]) (by intro k; cases k <;> simp [Pc.inside]) ?_ (by simp [Pc.order]) (by simp)
    intro k h1 h2 j' hj'
    rw [hpc] at h1
    exact absurd h1 (by cases k <;> simp [Pc.order, Phase.order])
  | task k j t rest next m hd hj ht hc hp =>
    obtain ⟨n, d, h1, h2, h3, h4, h5, h6⟩ := (hi.ok k j hj).worker
    have htasks := (hi.ok k j hj).tasks
    have hdf : d = false := by cases d with
      | false => rfl
      | true => rw [h4 rfl] at ht; exact absurd ht (by simp)
    subst hdf
    have hin : s.pc.inside k := inside_of_busy hi hj (by rintro ⟨ho, -⟩; rw [ho] at ht; exact absurd ht (by simp))
    obtain ⟨hn1, hn2⟩ := perform_next hp
    rw [ht] at htasks h3
    rw [counts_cons] at h3
    refine inv_setJob hi hin ⟨⟨n, false, h1, h2, ?_, by simp, h5, h6⟩, ?_⟩ (hi.helper k j hj) ?_
    · simp only; rw [counts_append]; omega
    · intro u hu
      simp only [List.mem_append] at hu
      rcases hu with hu | hu
      · exact hn2 k (htasks t (by simp)) u hu
      · exact htasks u (by simp [hu])
    · intro ho
      have hk : k = .visiting := by
        rw [inside_iff] at hin
        cases k <;> simp [Phase.order] at hin ⊢ <;> omega
      subst hk
      have ht' := htasks t (by simp)
      cases t <;> simp [Task.of] at ht' hc
      simp only [perform] at hp
      split at hp
      · exact absurd hp (by simp)
      · injection hp with hp1 hp2; subst hp1; rfl
  | leave k j t rest m hd hj ht hp =>
    obtain ⟨n, d, h1, h2, h3, h4, h5, h6⟩ := (hi.ok k j hj).worker
    have htasks := (hi.ok k j hj).tasks
    have hdf : d = false := by cases d with
      | false => rfl
      | true => rw [h4 rfl] at ht; exact absurd ht (by simp)
    subst hdf
    have hin : s.pc.inside k := inside_of_busy hi hj (by rintro ⟨ho, -⟩; rw [ho] at ht; exact absurd ht (by simp))
    refine inv_setJob hi hin ⟨⟨n, false, h1, h2, by simp [counts], by simp, h5, h6⟩, by simp⟩ (hi.helper k j hj) ?_
    intro ho
    cases t <;> simp only [perform] at hp
    · split at hp <;> exact absurd hp (by simp)
    · exact absurd hp (by simp)
    · split at hp
      · exact absurd hp (by simp)
      · split at hp <;> exact absurd hp (by simp)
    · split at hp
      · injection hp with hp1; subst hp1; rfl
      · exact absurd hp (by simp)
    · exact absurd hp (by simp)
  | panic k j t rest hd hj ht hp => exact inv_dead hi
  | count k j rest n hd hj ht hw =>
    obtain ⟨n', d, h1, h2, h3, h4, h5, h6⟩ := (hi.ok k j hj).worker
    have htasks := (hi.ok k j hj).tasks
    rw [h1] at hw
    simp only [List.getElem?_cons_zero, Option.some.injEq, Worker.mk.injEq] at hw
    obtain ⟨hw1, hw2⟩ := hw
    subst hw1; subst hw2
    have hin : s.pc.inside k := inside_of_busy hi hj (by rintro ⟨ho, -⟩; rw [ho] at ht; exact absurd ht (by simp))
    rw [ht] at htasks h3
    rw [counts_cons] at h3
    refine inv_setJob hi hin ⟨⟨n, false, by simp [h1], h2, by simp only at h3 ⊢; omega, by simp, h5, h6⟩, fun u hu => htasks u (by simp [show u ∈ rest from hu])⟩ (hi.helper k j hj) (by simp)
  | workerDone k j n hd hj ht hw =>
    obtain ⟨n', d, h1, h2, h3, h4, h5, h6⟩ := (hi.ok k j hj).worker
    rw [h1] at hw
    simp only [List.getElem?_cons_zero, Option.some.injEq, Worker.mk.injEq] at hw
    obtain ⟨hw1, hw2⟩ := hw
    subst hw1; subst hw2
    have hin : s.pc.inside k := inside_of_busy hi hj (by rintro ⟨-, n, ho⟩; rw [ho] at h1; simp at h1)
    refine inv_setJob hi hin ⟨⟨n', true, by simp [h1], by simp [h2], by simp [ht, counts], by simp [ht], by simp, by simp⟩, by simp [ht]⟩ (hi.helper k j hj) (by simp)
  | close k j hd hj hq hpc hc hwg =>
    obtain ⟨n', d, h1, h2, h3, h4, h5, h6⟩ := (hi.ok k j hj).worker
    have hdt : d = true := by cases d with
      | true => rfl
      | false => rw [hwg] at h2; simp at h2
    subst hdt
    have hin : s.pc.inside k := by
      rw [inside_iff]
      rcases Nat.lt_trichotomy k.order s.pc.order with h | h | h
      · rw [(hi.earlier k h j hj).2.2 hq] at hc; exact absurd hc (by simp)
      · exact h
      · rw [hi.later k h] at hj; exact absurd hj (by simp)
    exact inv_setJob hi hin ⟨⟨n', true, h1, h2, h3, h4, by simp, by simp⟩, (hi.ok k j hj).tasks⟩ (by simp) (by simp)
  | quietReturn k j hd hin hj hq hpc hwg =>
    obtain ⟨n', d, h1, h2, h3, h4, h5, h6⟩ := (hi.ok k j hj).worker
    have hdt : d = true := by cases d with
      | true => rfl
      | false => rw [hwg] at h2; simp at h2
    subst hdt
    exact inv_setJob hi hin ⟨⟨n', true, h1, h2, h3, h4, by simp, by simp⟩, (hi.ok k j hj).tasks⟩ (fun _ hq' => absurd hq hq') (by simp)
  | first k j hd hin hj hq hpc =>
    obtain ⟨n', d, h1, h2, h3, h4, h5, h6⟩ := (hi.ok k j hj).worker
    exact inv_setJob hi hin ⟨⟨n', d, h1, h2, h3, h4, h5, by simp⟩, (hi.ok k j hj).tasks⟩ (by simp) (by simp)
  | print k j c hd hin hj hpc =>
    obtain ⟨n', d, h1, h2, h3, h4, h5, h6⟩ := (hi.ok k j hj).worker
    exact inv_setJob hi hin ⟨⟨n', d, h1, h2, h3, h4, h5, by simp⟩, (hi.ok k j hj).tasks⟩ (by simp) (by simp)
  | tick k j hd hin hj hpc =>
    obtain ⟨n', d, h1, h2, h3, h4, h5, h6⟩ := (hi.ok k j hj).worker
    exact inv_setJob hi hin ⟨⟨n', d, h1, h2, h3, h4, h5, by simp⟩, (hi.ok k j hj).tasks⟩ (by simp) (by simp)
  | finish k j elapsed hd hin hj hpc hc =>
    obtain ⟨n', d, h1, h2, h3, h4, h5, h6⟩ := (hi.ok k j hj).worker
    have := h5 hc
    subst this
    exact inv_setJob hi hin ⟨⟨n', true, h1, h2, h3, h4, by simp, by simp⟩, (hi.ok k j hj).tasks⟩ (fun _ _ => hc) (by simp)

theorem inv_start_state : Inv level (start o) := by
  refine ⟨?_, ?_, ?_, ?_, ?_, ?_, ?_⟩
  · intro k j hj; simp [start] at hj
  · intro k _; rfl
  · intro k _ j hj; simp [start] at hj
  · intro k h; cases k <;> exact h.elim
  · intro k j hj; simp [start] at hj
  · intro _; rfl
  · intro _; rfl

theorem inv_reachable {s : State} (h : Reachable D o ord w loaded level s) : Inv level s := by
  induction h with
  | start => exact inv_start_state
  | step _ hst ih => exact inv_step ih hst

/-! ## What remains to be done, without goroutines -/

/-- The tasks one after the other: did it panic, and what is shared at the end. -/
inductive Runs (D : Deps) (o : Opts) (ord : MapOrders) (w : Writer) : List Task → Mem → Bool → Mem → Prop where
  | nil (m : Mem) : Runs D o ord w [] m false m
  | go {t : Task} {rest next : List Task} {m m' m'' : Mem} {c : Bool} : perform D o ord w m t = .go m' next → Runs D o ord w (next ++ rest) m' c m'' →
      Runs D o ord w (t :: rest) m c m''
  | leave {t : Task} {rest : List Task} {m m' : Mem} : perform D o ord w m t = .leave m' → Runs D o ord w (t :: rest) m false m'
  | panic {t : Task} {rest : List Task} {m : Mem} : perform D o ord w m t = .panic → Runs D o ord w (t :: rest) m true m

theorem runs_packages {ps : List Package} {m m' : Mem} {c : Bool} (h : Runs D o ord w (packageTasks ps) m c m') :
    m'.heap = m.heap ∧ m'.messages = m.messages ∧ m'.writeErr = m.writeErr ∧
    visitPackages o.moduleRoot ps (m.docs, m.g) = (if c then none else some (m'.docs, m'.g)) := by
  induction ps generalizing m with
  | nil => cases h; simp [visitPackages]
  | cons p ps ih =>
    have hl : packageTasks (p :: ps) = .package p :: .count :: packageTasks ps := by simp [packageTasks]
    rw [hl] at h
    cases h with
    | go h1 h2 =>
      simp only [perform] at h1
      split at h1
      · exact absurd h1 (by simp)
      · next docs g hv =>
        injection h1 with h1 hn
        subst h1; subst hn
        simp only [List.nil_append] at h2
        cases h2 with
        | go h3 h4 =>
          simp only [perform] at h3
          injection h3 with h3 hn
          subst h3; subst hn
          obtain ⟨i1, i2, i3, i4⟩ := ih h4
          refine ⟨i1, i2, i3, ?_⟩
          simp only [visitPackages, hv]
          exact i4
        | leave h3 => simp only [perform] at h3; exact absurd h3 (by simp)
        | panic h3 => simp only [perform] at h3; exact absurd h3 (by simp)
    | leave h1 => simp only [perform] at h1; split at h1 <;> exact absurd h1 (by simp)
    | panic h1 =>
      simp only [perform] at h1
      split at h1
      · next hv => simp [visitPackages, hv]
      · exact absurd h1 (by simp)

theorem findImplementations_append (E : Impl.Ext) (vs us : List Impl.TypeVisit) (s : Impl.Heap × Nat) :
    Impl.findImplementations E (vs ++ us) s = Impl.findImplementations E us (Impl.findImplementations E vs s) := by
  induction vs generalizing s with
  | nil => rfl
  | cons v vs ih => obtain ⟨h, n⟩ := s; simp only [List.cons_append, Impl.findImplementations]; exact ih _

theorem findImplementations_heap (E : Impl.Ext) (vs : List Impl.TypeVisit) (h : Impl.Heap) (n n' : Nat) :
    (Impl.findImplementations E vs (h, n)).1 = (Impl.findImplementations E vs (h, n')).1 := by
  induction vs generalizing h n n' with
  | nil => rfl
  | cons v vs ih => simp only [Impl.findImplementations]; exact ih _ _ _

theorem runs_types {vs : List Impl.TypeVisit} {m m' : Mem} {c : Bool} (h : Runs D o ord w (typeTasks vs) m c m') :
    c = false ∧ m' = { m with heap := (Impl.findImplementations D.ext vs (m.heap, 0)).1 } := by
  induction vs generalizing m with
  | nil => cases h; simp [Impl.findImplementations]
  | cons v vs ih =>
    have hl : typeTasks (v :: vs) = .type v :: .count :: typeTasks vs := by simp [typeTasks]
    rw [hl] at h
    cases h with
    | go h1 h2 =>
      simp only [perform] at h1
      injection h1 with h1 hn
      subst h1; subst hn
      simp only [List.nil_append] at h2
      cases h2 with
      | go h3 h4 =>
        simp only [perform] at h3
        injection h3 with h3 hn
        subst h3; subst hn
        obtain ⟨i1, i2⟩ := ih h4
        refine ⟨i1, ?_⟩
        rw [i2]
        simp only
        have := findImplementations_append D.ext [v] vs (m.heap, 0)
        rw [List.singleton_append] at this
        rw [this]
        rw [findImplementations_heap D.ext vs _ 0 (Impl.findImplementations D.ext [v] (m.heap, 0)).2]
      | leave h3 => simp only [perform] at h3; exact absurd h3 (by simp)
      | panic h3 => simp only [perform] at h3; exact absurd h3 (by simp)
    | leave h1 => simp only [perform] at h1; exact absurd h1 (by simp)
    | panic h1 => simp only [perform] at h1; exact absurd h1 (by simp)

/-- How the third goroutine ends. -/
def afterFiles (c : Bool) (m : Mem) : Run :=
  ⟨m.messages, if c then .crash else match m.writeErr with | some e => .failed e | none => .ok⟩

theorem runs_files {ps : List Package} {fs : List SourceFile} {p : Package} {m m' : Mem} {c : Bool}
    (h : Runs D o ord w (fs.map (.file p) ++ .count :: fileTasks ps) m c m') (he : m.writeErr = none)
    (ih : ∀ {m : Mem}, Runs D o ord w (fileTasks ps) m c m' → m.writeErr = none →
      writeDocuments D ord w m.heap m.docs (filesOf ps) m.g m.messages = afterFiles c m') :
    writeDocuments D ord w m.heap m.docs (fs.map (fun f => (p, f)) ++ filesOf ps) m.g m.messages = afterFiles c m' := by
  induction fs generalizing m with
  | nil =>
    simp only [List.map_nil, List.nil_append] at h ⊢
    cases h with
    | go h1 h2 =>
      simp only [perform] at h1
      injection h1 with h1 hn
      subst h1; subst hn
      exact ih h2 he
    | leave h3 => simp only [perform] at h3; exact absurd h3 (by simp)
    | panic h3 => simp only [perform] at h3; exact absurd h3 (by simp)
  | cons f fs ihf =>
    simp only [List.map_cons, List.cons_append] at h ⊢
    unfold writeDocuments
    cases h with
    | go h1 h2 =>
      simp only [perform] at h1
      split at h1
      · next hg =>
        injection h1 with h1 hn
        subst h1; subst hn
        rw [hg]
        exact ihf h2 he
      · next d hg =>
        rw [hg]
        simp only
        split at h1
        · exact absurd h1 (by simp)
        · next msg g hv =>
          injection h1 with h1 hn
          subst h1; subst hn
          simp only [List.cons_append, List.nil_append] at h2
          rw [hv]
          simp only
          cases h2 with
          | go h3 h4 =>
            simp only [perform] at h3
            split at h3
            · exact absurd h3 (by simp)
            · next hw =>
              injection h3 with h3 hn
              subst h3; subst hn
              simp only [List.nil_append] at h4
              rw [hw]
              exact ihf h4 rfl
          | leave h3 =>
            simp only [perform] at h3
            split at h3
            · next e hw =>
              injection h3 with h3
              subst h3
              rw [hw]
              simp [afterFiles]
            · exact absurd h3 (by simp)
          | panic h3 =>
            simp only [perform] at h3
            split at h3 <;> exact absurd h3 (by simp)
    | leave h1 =>
      simp only [perform] at h1
      split at h1
      · exact absurd h1 (by simp)
      · split at h1 <;> exact absurd h1 (by simp)
    | panic h1 =>
      simp only [perform] at h1
      split at h1
      · exact absurd h1 (by simp)
      · next d hg =>
        rw [hg]
        simp only
        split at h1
        · next hv => rw [hv]; simp [afterFiles]
        · exact absurd h1 (by simp)

theorem runs_fileTasks {ps : List Package} {m m' : Mem} {c : Bool} (h : Runs D o ord w (fileTasks ps) m c m') (he : m.writeErr = none) :
    writeDocuments D ord w m.heap m.docs (filesOf ps) m.g m.messages = afterFiles c m' := by
  induction ps generalizing m with
  | nil => cases h; simp [filesOf, writeDocuments, afterFiles, he]
  | cons p ps ih =>
    have hl : fileTasks (p :: ps) = p.files.map (.file p) ++ .count :: fileTasks ps := by simp [fileTasks]
    have hf : filesOf (p :: ps) = p.files.map (fun f => (p, f)) ++ filesOf ps := by simp [filesOf]
    rw [hl] at h
    rw [hf]
    exact runs_files h he ih

/-! ## The rest of the run, without goroutines -/

section
variable (D o ord w loaded)

/-- scip.go:166-177. -/
def afterWriting (m : Mem) (externals : List Message) : Run :=
  match m.writeErr with
  | some e => ⟨m.messages, .failed e⟩
  | none => writeExternals w externals m.messages

/-- From scip.go:118 on. -/
def fromFiles (project : GoMap Package) (externals : List Message) (m : Mem) : Run :=
  match writeDocuments D ord w m.heap m.docs (filesOf (sortedValues project)) m.g m.messages with
  | ⟨done, .ok⟩ => writeExternals w externals done
  | r => r

/-- From scip.go:107 on. -/
def fromExtract (project all : GoMap Package) (m : Mem) : Run :=
  match implementations D o ord project all m.g with
  | none => ⟨m.messages, .crash⟩
  | some (g, heap, externals) => fromFiles D ord w project externals { m with g := g, heap := heap }

/-- From scip.go:187 on. -/
def fromSymbols (project all : GoMap Package) (m : Mem) : Run :=
  match indexVisitPackages o ord project all with
  | none => ⟨m.messages, .crash⟩
  | some (docs, g) => fromExtract D o ord w project all { m with docs := docs, g := g }

/-- From scip.go:101 on. -/
def fromLoading (m : Mem) : Run :=
  match loaded with
  | .error e => ⟨m.messages, .failed e⟩
  | .ok (project, all) => fromSymbols D o ord w project all m

/-- What is left to do is this run. -/
def Rest (s : State) (r : Run) : Prop :=
  if s.dead then r = ⟨s.mem.messages, .crash⟩
  else match s.pc with
    | .metadata => r = match w s.mem.messages (.metadata (Index.metadata D o)) with
        | some e => ⟨s.mem.messages ++ [.metadata (Index.metadata D o)], .failed e⟩
        | none => fromLoading D o ord w loaded { s.mem with messages := s.mem.messages ++ [.metadata (Index.metadata D o)] }
    | .loading => r = fromLoading D o ord w loaded s.mem
    | .symbols project all => r = fromSymbols D o ord w project all s.mem
    | .visiting project all => ∃ j c m, s.jobs .visiting = some j ∧ Runs D o ord w j.todo s.mem c m ∧
        r = if c then ⟨m.messages, .crash⟩ else fromExtract D o ord w project all m
    | .extracting project all => r = fromExtract D o ord w project all s.mem
    | .relating project types => ∃ j c m, s.jobs .relating = some j ∧ Runs D o ord w j.todo s.mem c m ∧
        r = if c then ⟨m.messages, .crash⟩ else fromFiles D ord w project (externalMessages m.heap types) m
    | .files project externals => r = fromFiles D ord w project externals s.mem
    | .writing externals => ∃ j c m, s.jobs .writing = some j ∧ Runs D o ord w j.todo s.mem c m ∧
        r = if c then ⟨m.messages, .crash⟩ else afterWriting w m externals
    | .externals rest => r = writeExternals w rest s.mem.messages
    | .returned none => r = ⟨s.mem.messages, .ok⟩
    | .returned (some e) => r = ⟨s.mem.messages, .failed e⟩
end

theorem rest_start {r : Run} (h : Rest D o ord w loaded (start o) r) : r = index D o ord w loaded := by
  simp only [Rest, start, Bool.false_eq_true, if_false, List.nil_append] at h
  rw [h]
  unfold index
  simp only
  cases hw : w [] (.metadata (metadata D o)) with
  | some e => rfl
  | none =>
    simp only [fromLoading]
    cases loaded with
    | error e => rfl
    | ok pa =>
      obtain ⟨project, all⟩ := pa
      simp only [fromSymbols]
      cases indexVisitPackages o ord project all with
      | none => rfl
      | some dg =>
        obtain ⟨docs, g⟩ := dg
        simp only [fromExtract]
        cases implementations D o ord project all g with
        | none => rfl
        | some x => rfl

theorem rest_ended {s : State} {out : Outcome} (h : s.ended = some out) : Rest D o ord w loaded s ⟨s.mem.messages, out⟩ := by
  unfold State.ended at h
  unfold Rest
  by_cases hd : s.dead = true
  · simp only [hd, if_true, Option.some.injEq] at h ⊢
    rw [h]
  · simp only [Bool.not_eq_true] at hd
    simp only [hd, Bool.false_eq_true, if_false] at h ⊢
    revert h
    cases s.pc with
    | returned e =>
      cases e with
      | none => intro h; injection h with h; subst h; rfl
      | some e => intro h; injection h with h; subst h; rfl
    | _ => intro h; exact absurd h (by simp)

theorem implementations_eq (project all : GoMap Package) (g : Global) (hs : o.skipImplementations = false) :
    implementations D o ord project all g = (extractBoth D ord project all g).map fun lr =>
      (lr.2.g, (Impl.findImplementations D.ext ((ord.impls lr.1 lr.2).localLocal ++ (ord.impls lr.1 lr.2).localRemote ++ (ord.impls lr.1 lr.2).remoteLocal)
        (fun _ => [], 0)).1, externalMessages (Impl.findImplementations D.ext ((ord.impls lr.1 lr.2).localLocal ++ (ord.impls lr.1 lr.2).localRemote ++
          (ord.impls lr.1 lr.2).remoteLocal) (fun _ => [], 0)).1 (ord.impls lr.1 lr.2).external) := by
  unfold implementations extractBoth Impl.addImplementations
  simp only [hs, Bool.false_eq_true, if_false]
  cases Impl.extract D.ext D.scopes true g ((ord.extractProject (project.map (·.2))).map (Package.impl ord)) with
  | none => rfl
  | some loc =>
    simp only
    cases Impl.extract D.ext D.scopes false loc.g (Impl.remotePackages ((ord.extractProject (project.map (·.2))).map (Package.impl ord))
        ((ord.extractAll (all.map (·.2))).map (Package.impl ord))) with
    | none => rfl
    | some rem =>
      simp only [Option.map_some, externalMessages, findImplementations_append]

/-- In a job of the phase the caller is in, only the tasks left matter. -/
theorem rest_inside {s : State} {k : Phase} {j : Job} (hd : s.dead = false) (hin : s.pc.inside k) (hj : s.jobs k = some j) {r : Run} :
    ∃ F : Bool → Mem → Run, ∀ (s' : State) (j' : Job), s'.dead = false → s'.pc = s.pc → s'.jobs k = some j' →
      (Rest D o ord w loaded s' r ↔ ∃ c m, Runs D o ord w j'.todo s'.mem c m ∧ r = F c m) ∧ ∀ m, F true m = ⟨m.messages, .crash⟩ := by
  cases hpc : s.pc with
  | visiting project all =>
    rw [hpc] at hin
    cases k <;> first | exact hin.elim | skip
    refine ⟨fun c m => if c then ⟨m.messages, .crash⟩ else fromExtract D o ord w project all m, fun s' j' h1 h2 h3 => ⟨?_, fun m => by simp⟩⟩
    unfold Rest
    simp only [h1, h2, Bool.false_eq_true, if_false, h3, Option.some.injEq, exists_and_left]
    constructor
    · rintro ⟨_, rfl, c, m, h⟩; exact ⟨c, m, h⟩
    · rintro ⟨c, m, h⟩; exact ⟨_, rfl, c, m, h⟩
  | relating project types =>
    rw [hpc] at hin
    cases k <;> first | exact hin.elim | skip
    refine ⟨fun c m => if c then ⟨m.messages, .crash⟩ else fromFiles D ord w project (externalMessages m.heap types) m, fun s' j' h1 h2 h3 => ⟨?_, fun m => by simp⟩⟩
    unfold Rest
    simp only [h1, h2, Bool.false_eq_true, if_false, h3, Option.some.injEq, exists_and_left]
    constructor
    · rintro ⟨_, rfl, c, m, h⟩; exact ⟨c, m, h⟩
    · rintro ⟨c, m, h⟩; exact ⟨_, rfl, c, m, h⟩
  | writing externals =>
    rw [hpc] at hin
    cases k <;> first | exact hin.elim | skip
    refine ⟨fun c m => if c then ⟨m.messages, .crash⟩ else afterWriting w m externals, fun s' j' h1 h2 h3 => ⟨?_, fun m => by simp⟩⟩
    unfold Rest
    simp only [h1, h2, Bool.false_eq_true, if_false, h3, Option.some.injEq, exists_and_left]
    constructor
    · rintro ⟨_, rfl, c, m, h⟩; exact ⟨c, m, h⟩
    · rintro ⟨c, m, h⟩; exact ⟨_, rfl, c, m, h⟩
  | _ => rw [hpc] at hin; cases k <;> exact hin.elim

theorem rest_inside' {s : State} {k : Phase} {j : Job} (hd : s.dead = false) (hin : s.pc.inside k) (hj : s.jobs k = some j) {r : Run} :
    ∃ F : Bool → Mem → Run, (∀ {s' : State}, Rest D o ord w loaded s' r → s'.dead = false → s'.pc = s.pc → ∀ {j' : Job}, s'.jobs k = some j' →
        ∃ c m, Runs D o ord w j'.todo s'.mem c m ∧ r = F c m) ∧
      ((∃ c m, Runs D o ord w j.todo s.mem c m ∧ r = F c m) → Rest D o ord w loaded s r) ∧ ∀ m, F true m = ⟨m.messages, .crash⟩ := by
  obtain ⟨F, hF⟩ := rest_inside (D := D) (o := o) (ord := ord) (w := w) (loaded := loaded) (r := r) hd hin hj
  exact ⟨F, fun {s'} h1 h2 h3 {j'} h4 => (hF s' j' h2 h3 h4).1.1 h1, (hF s j hd rfl hj).1.2, (hF s j hd rfl hj).2⟩

/-- A step of the progress display. -/
theorem rest_same {s : State} {k : Phase} {j j' : Job} {ev : List Event} (hd : s.dead = false) (hin : s.pc.inside k) (hj : s.jobs k = some j)
    {r : Run} (h : Rest D o ord w loaded { s with jobs := setJob s.jobs k j', events := ev } r) (ht : j'.todo = j.todo) : Rest D o ord w loaded s r := by
  obtain ⟨F, h1, h2, -⟩ := rest_inside' (D := D) (o := o) (ord := ord) (w := w) (loaded := loaded) (r := r) hd hin hj
  have h3 := h1 h hd rfl (setJob_same _ _ _)
  rw [ht] at h3
  exact h2 h3

/-- **The main step**: no step changes what the run will be. -/
theorem rest_step {s s' : State} {who : Who} {acc : List Access} (hi : Inv level s) (h : Step D o ord w loaded level s who acc s') {r : Run}
    (hr : Rest D o ord w loaded s' r) : Rest D o ord w loaded s r := by
  cases h with
  | metadataFails e hd hpc hw =>
    simp only [Rest, hd, Bool.false_eq_true, if_false] at hr
    simp only [Rest, hd, hpc, Bool.false_eq_true, if_false, hw]
    exact hr
  | metadata hd hpc hw =>
    simp only [Rest, hd, Bool.false_eq_true, if_false] at hr
    simp only [Rest, hd, hpc, Bool.false_eq_true, if_false, hw]
    exact hr
  | loadFails e elapsed hd hpc hl =>
    simp only [Rest, hd, Bool.false_eq_true, if_false] at hr
    simp only [Rest, hd, hpc, Bool.false_eq_true, if_false, fromLoading, hl]
    exact hr
  | load project all elapsed hd hpc hl =>
    simp only [Rest, hd, Bool.false_eq_true, if_false] at hr
    simp only [Rest, hd, hpc, Bool.false_eq_true, if_false, fromLoading, hl]
    exact hr
  | symbols project all hd hpc =>
    simp only [Rest, hd, Bool.false_eq_true, if_false, setJob_same, Option.some.injEq, exists_and_left] at hr
    obtain ⟨j, rfl, c, m, h1, h2⟩ := hr
    simp only [newJob] at h1
    obtain ⟨i1, i2, i3, i4⟩ := runs_packages h1
    simp only at i1 i2 i3 i4
    simp only [Rest, hd, hpc, Bool.false_eq_true, if_false, fromSymbols, indexVisitPackages, i4]
    rw [h2]
    cases c with
    | true => simp [i2]
    | false =>
      simp only [Bool.false_eq_true, if_false]
      congr 1
      cases m
      simp only at i1 i2 i3 ⊢
      rw [i1, i2, i3]
  | visited j project all hd hpc hj hret =>
    simp only [Rest, hd, Bool.false_eq_true, if_false] at hr
    have ho := (over_of_returned hi hj hret).1
    simp only [Rest, hd, hpc, Bool.false_eq_true, if_false]
    refine ⟨j, false, s.mem, hj, ?_, hr⟩
    rw [ho.1]
    exact .nil _
  | skip project all hd hpc hs =>
    simp only [Rest, hd, Bool.false_eq_true, if_false] at hr
    have hh := hi.heap (by rw [hpc]; simp [Pc.order])
    simp only [Rest, hd, hpc, Bool.false_eq_true, if_false, fromExtract, implementations, hs, if_true]
    rw [hr, ← hh]
  | extract project all loc rem hd hpc hs he =>
    simp only [Rest, hd, Bool.false_eq_true, if_false, setJob_same, Option.some.injEq, exists_and_left] at hr
    obtain ⟨j, rfl, c, m, h1, h2⟩ := hr
    simp only [newJob] at h1
    obtain ⟨i1, i2⟩ := runs_types h1
    subst i1
    have hh := hi.heap (by rw [hpc]; simp [Pc.order])
    simp only [Rest, hd, hpc, Bool.false_eq_true, if_false, fromExtract, implementations_eq project all s.mem.g hs, he, Option.map_some]
    rw [h2, i2]
    simp only [Bool.false_eq_true, if_false, hh]
  | extractPanics project all hd hpc hs he =>
    simp only [Rest, if_true] at hr
    simp only [Rest, hd, hpc, Bool.false_eq_true, if_false, fromExtract, implementations_eq project all s.mem.g hs, he, Option.map_none]
    exact hr
  | related j project types hd hpc hj hret =>
    simp only [Rest, hd, Bool.false_eq_true, if_false] at hr
    have ho := (over_of_returned hi hj hret).1
    simp only [Rest, hd, hpc, Bool.false_eq_true, if_false]
    refine ⟨j, false, s.mem, hj, ?_, hr⟩
    rw [ho.1]
    exact .nil _
  | files project externals hd hpc =>
    simp only [Rest, hd, Bool.false_eq_true, if_false, setJob_same, Option.some.injEq, exists_and_left] at hr
    obtain ⟨j, rfl, c, m, h1, h2⟩ := hr
    simp only [newJob] at h1
    have i1 := runs_fileTasks h1 rfl
    simp only at i1
    simp only [Rest, hd, hpc, Bool.false_eq_true, if_false, fromFiles, i1]
    rw [h2]
    cases c with
    | true => simp [afterFiles]
    | false =>
      simp only [Bool.false_eq_true, if_false, afterFiles, afterWriting]
      cases m.writeErr <;> rfl
  | writeFailed j externals e hd hpc hj hret he =>
    simp only [Rest, hd, Bool.false_eq_true, if_false] at hr
    have ho := (over_of_returned hi hj hret).1
    simp only [Rest, hd, hpc, Bool.false_eq_true, if_false]
    refine ⟨j, false, s.mem, hj, ?_, ?_⟩
    · rw [ho.1]; exact .nil _
    · simp only [Bool.false_eq_true, if_false, afterWriting, he]; exact hr
  | written j externals hd hpc hj hret he =>
    simp only [Rest, hd, Bool.false_eq_true, if_false] at hr
    have ho := (over_of_returned hi hj hret).1
    simp only [Rest, hd, hpc, Bool.false_eq_true, if_false]
    refine ⟨j, false, s.mem, hj, ?_, ?_⟩
    · rw [ho.1]; exact .nil _
    · simp only [Bool.false_eq_true, if_false, afterWriting, he]; exact hr
  | external m rest hd hpc hw =>
    simp only [Rest, hd, Bool.false_eq_true, if_false] at hr
    simp only [Rest, hd, hpc, Bool.false_eq_true, if_false, writeExternals, hw]
    exact hr
  | externalFails m rest e hd hpc hw =>
    simp only [Rest, hd, Bool.false_eq_true, if_false] at hr
    simp only [Rest, hd, hpc, Bool.false_eq_true, if_false, writeExternals, hw]
    exact hr
  | finished hd hpc =>
    simp only [Rest, hd, Bool.false_eq_true, if_false] at hr
    simp only [Rest, hd, hpc, Bool.false_eq_true, if_false, writeExternals]
    exact hr
  | task k j t rest next m hd hj ht hc hp =>
    have hin : s.pc.inside k := inside_of_busy hi hj (by rintro ⟨ho, -⟩; rw [ho] at ht; exact absurd ht (by simp))
    obtain ⟨F, hF, hB, hC⟩ := rest_inside' (D := D) (o := o) (ord := ord) (w := w) (loaded := loaded) (r := r) hd hin hj
    obtain ⟨c, m', h1, h2⟩ := hF hr hd rfl (setJob_same _ _ _)
    refine hB ⟨c, m', ?_, h2⟩
    rw [ht]
    exact .go hp h1
  | leave k j t rest m hd hj ht hp =>
    have hin : s.pc.inside k := inside_of_busy hi hj (by rintro ⟨ho, -⟩; rw [ho] at ht; exact absurd ht (by simp))
    obtain ⟨F, hF, hB, hC⟩ := rest_inside' (D := D) (o := o) (ord := ord) (w := w) (loaded := loaded) (r := r) hd hin hj
    obtain ⟨c, m', h1, h2⟩ := hF hr hd rfl (setJob_same _ _ _)
    refine hB ⟨c, m', ?_, h2⟩
    simp only at h1
    cases h1
    rw [ht]
    exact .leave hp
  | panic k j t rest hd hj ht hp =>
    have hin : s.pc.inside k := inside_of_busy hi hj (by rintro ⟨ho, -⟩; rw [ho] at ht; exact absurd ht (by simp))
    obtain ⟨F, hF, hB, hC⟩ := rest_inside' (D := D) (o := o) (ord := ord) (w := w) (loaded := loaded) (r := r) hd hin hj
    simp only [Rest, if_true] at hr
    refine hB ⟨true, s.mem, ?_, ?_⟩
    · rw [ht]; exact .panic hp
    · rw [hC]; exact hr
  | count k j rest n hd hj ht hw =>
    have hin : s.pc.inside k := inside_of_busy hi hj (by rintro ⟨ho, -⟩; rw [ho] at ht; exact absurd ht (by simp))
    obtain ⟨F, hF, hB, hC⟩ := rest_inside' (D := D) (o := o) (ord := ord) (w := w) (loaded := loaded) (r := r) hd hin hj
    obtain ⟨c, m', h1, h2⟩ := hF hr hd rfl (setJob_same _ _ _)
    refine hB ⟨c, m', ?_, h2⟩
    rw [ht]
    exact .go (m' := s.mem) (next := []) rfl h1
  | workerDone k j n hd hj ht hw =>
    have hin : s.pc.inside k := inside_of_busy hi hj (by rintro ⟨-, n', ho⟩; rw [ho] at hw; simp at hw)
    exact rest_same (s := s) hd hin hj hr rfl
  | close k j hd hj hq hpc hc hwg =>
    have hin : s.pc.inside k := by
      rw [inside_iff]
      rcases Nat.lt_trichotomy k.order s.pc.order with h | h | h
      · rw [(hi.earlier k h j hj).2.2 hq] at hc; exact absurd hc (by simp)
      · exact h
      · rw [hi.later k h] at hj; exact absurd hj (by simp)
    exact rest_same (s := s) hd hin hj hr rfl
  | quietReturn k j hd hin hj hq hpc hwg => exact rest_same (s := s) hd hin hj hr rfl
  | first k j hd hin hj hq hpc => exact rest_same (s := s) hd hin hj hr rfl
  | print k j c hd hin hj hpc => exact rest_same hd hin hj hr rfl
  | tick k j hd hin hj hpc => exact rest_same (s := s) hd hin hj hr rfl
  | finish k j elapsed hd hin hj hpc hc => exact rest_same hd hin hj hr rfl

theorem rest_reachable {s : State} (h : Reachable D o ord w loaded level s) {r : Run} (hr : Rest D o ord w loaded s r) : r = index D o ord w loaded := by
  induction h generalizing r with
  | start => exact rest_start hr
  | step h0 hst ih => exact ih (rest_step (inv_reachable h0) hst hr)

end Verif.ConcurrentIndex
