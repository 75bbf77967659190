import Verif.Lemmas.ConcurrentIndex
/-! # C92: every schedule of the goroutines of `Index` gives the same index -/
namespace Verif
open Index Progress Output Cmd ConcurrentIndex

/-- Two accesses that must not happen at the same time: to the same place, not both reading, not both through something made for it. -/
def Spec.Conflict (a b : Access) : Prop := a.1 = b.1 ∧ ¬ (a.2 = .read ∧ b.2 = .read) ∧ ¬ (a.2 = .synchronised ∧ b.2 = .synchronised)

/-- **C92**: whatever the schedule, when `Index` is over it has written the messages and has the outcome of the program without goroutines. -/
theorem C92_every_schedule (D : Deps) (o : Opts) (ord : MapOrders) (w : Writer) (loaded : Except Str (GoMap Package × GoMap Package)) (level : Level)
    (s : ConcurrentIndex.State) (h : ConcurrentIndex.Reachable D o ord w loaded level s) (out : Outcome) (he : s.ended = some out) :
    (⟨s.mem.messages, out⟩ : Run) = index D o ord w loaded :=
  rest_reachable h (rest_ended he)

namespace ConcurrentIndex

variable {D : Deps} {o : Opts} {ord : MapOrders} {w : Writer} {loaded : Except Str (GoMap Package × GoMap Package)} {level : Level}

/-- An upper bound of the steps a task takes. -/
def Task.weight : Task → Nat
  | .file _ _ => 2
  | _ => 1

def weights (ts : List Task) : Nat := (ts.map Task.weight).sum

theorem weights_append (ts us : List Task) : weights (ts ++ us) = weights ts + weights us := by simp [weights]
theorem weights_cons (t : Task) (ts : List Task) : weights (t :: ts) = t.weight + weights ts := by simp [weights]

theorem weight_next {m m' : Mem} {t : Task} {next : List Task} (h : perform D o ord w m t = .go m' next) : weights next < t.weight := by
  cases t with
  | package p =>
    simp only [perform] at h
    split at h
    · exact absurd h (by simp)
    · injection h with h1 h2; subst h2; simp [weights, Task.weight]
  | type v => simp only [perform] at h; injection h with h1 h2; subst h2; simp [weights, Task.weight]
  | count => simp only [perform] at h; injection h with h1 h2; subst h2; simp [weights, Task.weight]
  | write msg =>
    simp only [perform] at h
    split at h
    · exact absurd h (by simp)
    · injection h with h1 h2; subst h2; simp [weights, Task.weight]
  | file p f =>
    simp only [perform] at h
    split at h
    · injection h with h1 h2; subst h2; simp [weights, Task.weight]
    · split at h
      · exact absurd h (by simp)
      · injection h with h1 h2; subst h2; simp [weights, Task.weight]

theorem perform_messages (m : Mem) (t : Task) :
    (∀ m' next, perform D o ord w m t = .go m' next → m.messages <+: m'.messages) ∧
    (∀ m', perform D o ord w m t = .leave m' → m.messages <+: m'.messages) := by
  cases t with
  | package p =>
    simp only [perform]
    split
    · exact ⟨fun _ _ h => absurd h (by simp), fun _ h => absurd h (by simp)⟩
    · exact ⟨fun _ _ h => by injection h with h1 h2; subst h1; exact List.prefix_rfl, fun _ h => absurd h (by simp)⟩
  | type v => exact ⟨fun _ _ h => by simp only [perform] at h; injection h with h1 h2; subst h1; exact List.prefix_rfl, fun _ h => absurd h (by simp [perform])⟩
  | count => exact ⟨fun _ _ h => by simp only [perform] at h; injection h with h1 h2; subst h1; exact List.prefix_rfl, fun _ h => absurd h (by simp [perform])⟩
  | write msg =>
    simp only [perform]
    split
    · exact ⟨fun _ _ h => absurd h (by simp), fun _ h => by injection h with h1; subst h1; exact List.prefix_append _ _⟩
    · exact ⟨fun _ _ h => by injection h with h1 h2; subst h1; exact List.prefix_append _ _, fun _ h => absurd h (by simp)⟩
  | file p f =>
    simp only [perform]
    split
    · exact ⟨fun _ _ h => by injection h with h1 h2; subst h1; exact List.prefix_rfl, fun _ h => absurd h (by simp)⟩
    · split
      · exact ⟨fun _ _ h => absurd h (by simp), fun _ h => absurd h (by simp)⟩
      · exact ⟨fun _ _ h => by injection h with h1 h2; subst h1; exact List.prefix_rfl, fun _ h => absurd h (by simp)⟩

/-- The tasks come to an end; messages are only added. -/
theorem runs_total (n : Nat) (ts : List Task) (m : Mem) (hn : weights ts ≤ n) : ∃ c m', Runs D o ord w ts m c m' ∧ m.messages <+: m'.messages := by
  induction n generalizing ts m with
  | zero =>
    cases ts with
    | nil => exact ⟨false, m, .nil m, List.prefix_rfl⟩
    | cons t ts => rw [weights_cons] at hn; cases t <;> simp [Task.weight] at hn
  | succ n ih =>
    cases ts with
    | nil => exact ⟨false, m, .nil m, List.prefix_rfl⟩
    | cons t ts =>
      have hpm := perform_messages (D := D) (o := o) (ord := ord) (w := w) m t
      cases hp : perform D o ord w m t with
      | go m' next =>
        have := weight_next hp
        rw [weights_cons] at hn
        obtain ⟨c, m'', h1, h2⟩ := ih (next ++ ts) m' (by rw [weights_append]; omega)
        exact ⟨c, m'', .go hp h1, (hpm.1 _ _ hp).trans h2⟩
      | leave m' => exact ⟨false, m', .leave hp, hpm.2 _ hp⟩
      | panic => exact ⟨true, m, .panic hp, List.prefix_rfl⟩

theorem writeExternals_prefix (ms done : List Message) : done <+: (writeExternals w ms done).messages := by
  induction ms generalizing done with
  | nil => exact List.prefix_rfl
  | cons m ms ih =>
    simp only [writeExternals]
    split
    · exact List.prefix_append _ _
    · exact (List.prefix_append _ _).trans (ih _)

theorem writeDocuments_prefix (heap : Impl.Heap) (docs : Docs) (fs : List (Package × SourceFile)) (g : Global) (done : List Message) :
    done <+: (writeDocuments D ord w heap docs fs g done).messages := by
  induction fs generalizing g done with
  | nil => exact List.prefix_rfl
  | cons x fs ih =>
    obtain ⟨p, f⟩ := x
    simp only [writeDocuments]
    split
    · exact ih _ _
    · split
      · exact List.prefix_rfl
      · split
        · exact List.prefix_append _ _
        · exact (List.prefix_append _ _).trans (ih _ _)

theorem fromFiles_prefix (project : GoMap Package) (ext : List Message) (m : Mem) : m.messages <+: (fromFiles D ord w project ext m).messages := by
  have h := writeDocuments_prefix (D := D) (ord := ord) (w := w) m.heap m.docs (filesOf (sortedValues project)) m.g m.messages
  unfold fromFiles
  split
  · next done he => rw [he] at h; exact h.trans (writeExternals_prefix _ _)
  · exact h

theorem fromExtract_prefix (project all : GoMap Package) (m : Mem) : m.messages <+: (fromExtract D o ord w project all m).messages := by
  unfold fromExtract
  split
  · exact List.prefix_rfl
  · next g heap ext _ => exact fromFiles_prefix project ext { m with g := g, heap := heap }

theorem fromSymbols_prefix (project all : GoMap Package) (m : Mem) : m.messages <+: (fromSymbols D o ord w project all m).messages := by
  unfold fromSymbols
  split
  · exact List.prefix_rfl
  · next docs g _ => exact fromExtract_prefix project all { m with docs := docs, g := g }

theorem fromLoading_prefix (m : Mem) : m.messages <+: (fromLoading D o ord w loaded m).messages := by
  unfold fromLoading
  split
  · exact List.prefix_rfl
  · exact fromSymbols_prefix _ _ m

theorem rest_exists {s : State} (hi : Inv level s) : ∃ r, Rest D o ord w loaded s r ∧ s.mem.messages <+: r.messages := by
  unfold Rest
  by_cases hd : s.dead = true
  · simp only [hd, if_true]
    exact ⟨_, rfl, List.prefix_rfl⟩
  · simp only [Bool.not_eq_true] at hd
    simp only [hd, Bool.false_eq_true, if_false]
    cases hpc : s.pc with
    | metadata =>
      refine ⟨_, rfl, ?_⟩
      split
      · exact List.prefix_append _ _
      · exact (List.prefix_append _ _).trans (fromLoading_prefix { s.mem with messages := _ })
    | loading => exact ⟨_, rfl, fromLoading_prefix _⟩
    | symbols project all => exact ⟨_, rfl, fromSymbols_prefix _ _ _⟩
    | visiting project all =>
      obtain ⟨j, hj⟩ := hi.now .visiting (by rw [hpc]; trivial)
      obtain ⟨c, m, h1, h2⟩ := runs_total (D := D) (o := o) (ord := ord) (w := w) _ j.todo s.mem (Nat.le_refl _)
      refine ⟨_, ⟨j, c, m, hj, h1, rfl⟩, ?_⟩
      cases c with
      | true => exact h2
      | false => exact h2.trans (fromExtract_prefix _ _ _)
    | extracting project all => exact ⟨_, rfl, fromExtract_prefix _ _ _⟩
    | relating project types =>
      obtain ⟨j, hj⟩ := hi.now .relating (by rw [hpc]; trivial)
      obtain ⟨c, m, h1, h2⟩ := runs_total (D := D) (o := o) (ord := ord) (w := w) _ j.todo s.mem (Nat.le_refl _)
      refine ⟨_, ⟨j, c, m, hj, h1, rfl⟩, ?_⟩
      cases c with
      | true => exact h2
      | false => exact h2.trans (fromFiles_prefix _ _ _)
    | files project externals => exact ⟨_, rfl, fromFiles_prefix _ _ _⟩
    | writing externals =>
      obtain ⟨j, hj⟩ := hi.now .writing (by rw [hpc]; trivial)
      obtain ⟨c, m, h1, h2⟩ := runs_total (D := D) (o := o) (ord := ord) (w := w) _ j.todo s.mem (Nat.le_refl _)
      refine ⟨_, ⟨j, c, m, hj, h1, rfl⟩, ?_⟩
      cases c with
      | true => exact h2
      | false =>
        refine h2.trans ?_
        simp only [Bool.false_eq_true, if_false, afterWriting]
        split
        · exact List.prefix_rfl
        · exact writeExternals_prefix _ _
    | externals rest => exact ⟨_, rfl, writeExternals_prefix _ _⟩
    | returned e =>
      cases e with
      | none => exact ⟨_, rfl, List.prefix_rfl⟩
      | some e => exact ⟨_, rfl, List.prefix_rfl⟩

end ConcurrentIndex

/-- **C92**, at any time (so also when the process is killed): the messages written so far are the first ones of those of the program without
goroutines. -/
theorem C92_at_any_time (D : Deps) (o : Opts) (ord : MapOrders) (w : Writer) (loaded : Except Str (GoMap Package × GoMap Package)) (level : Level)
    (s : ConcurrentIndex.State) (h : ConcurrentIndex.Reachable D o ord w loaded level s) :
    s.mem.messages <+: (index D o ord w loaded).messages := by
  obtain ⟨r, h1, h2⟩ := rest_exists (D := D) (o := o) (ord := ord) (w := w) (loaded := loaded) (inv_reachable h)
  rw [← rest_reachable h h1]
  exact h2

/-- The places that are only accessed through something made for it. -/
def ConcurrentIndex.Loc.shared : Loc → Bool
  | .output | .counter | .waitGroup | .channel | .terminal => true
  | _ => false

theorem ConcurrentIndex.step_mode {D : Deps} {o : Opts} {ord : MapOrders} {w : Writer} {loaded : Except Str (GoMap Package × GoMap Package)} {level : Level}
    {s s' : ConcurrentIndex.State} {who : Who} {acc : List Access} (h : ConcurrentIndex.Step D o ord w loaded level s who acc s') :
    ∀ a ∈ acc, (a.2 = .synchronised ↔ a.1.shared = true) := by
  have ht : ∀ t : Task, ∀ a ∈ t.accesses, (a.2 = .synchronised ↔ a.1.shared = true) := by
    intro t; cases t <;> simp [Task.accesses, Loc.shared]
  cases h <;> first | exact ht _ | simp [Loc.shared]

/-- **C92**, no data races: in no reachable state two goroutines can do steps with conflicting accesses. -/
theorem C92_race_free (D : Deps) (o : Opts) (ord : MapOrders) (w : Writer) (loaded : Except Str (GoMap Package × GoMap Package)) (level : Level)
    (s s₁ s₂ : ConcurrentIndex.State) (h : ConcurrentIndex.Reachable D o ord w loaded level s) (who₁ who₂ : Who) (acc₁ acc₂ : List Access)
    (h₁ : ConcurrentIndex.Step D o ord w loaded level s who₁ acc₁ s₁) (h₂ : ConcurrentIndex.Step D o ord w loaded level s who₂ acc₂ s₂)
    (hne : who₁ ≠ who₂) : ∀ a ∈ acc₁, ∀ b ∈ acc₂, ¬ Spec.Conflict a b := by
  have hi := inv_reachable h
  -- A step with plain accesses is one of the caller while no goroutine works, or one of the only working goroutine.
  have key : ∀ {who acc s'}, ConcurrentIndex.Step D o ord w loaded level s who acc s' →
      (∀ a ∈ acc, a.2 = .synchronised) ∨ (who = .caller ∧ ∀ k j, s.jobs k = some j → j.over) ∨ (∃ k, who = .worker k ∧
        (∃ j, s.jobs k = some j ∧ ¬ j.over) ∧ ∀ k' j, s.jobs k' = some j → ¬ j.over → k' = k) := by
    intro who acc s' hst
    have outside : ∀ {pc : ConcurrentIndex.Pc}, s.pc = pc → (∀ k, ¬ pc.inside k) → ∀ k j, s.jobs k = some j → j.over := by
      intro pc hpc hno k j hj
      rcases Nat.lt_trichotomy k.order s.pc.order with h | h | h
      · exact (hi.earlier k h j hj).1
      · exact absurd (inside_iff.2 h) (by rw [hpc]; exact hno k)
      · rw [hi.later k h] at hj; exact absurd hj (by simp)
    have inside' : ∀ {k : Phase} {j : Job}, s.jobs k = some j → j.prog.pc = .returned → s.pc.inside k → ∀ k' j, s.jobs k' = some j → j.over := by
      intro k j hj hr hin k' j' hj'
      rcases Nat.lt_trichotomy k'.order s.pc.order with h | h | h
      · exact (hi.earlier k' h j' hj').1
      · have : k' = k := order_inj (h.trans (inside_iff.1 hin).symm)
        subst this
        rw [hj] at hj'; injection hj' with hj'; subst hj'
        exact (over_of_returned hi hj hr).1
      · rw [hi.later k' h] at hj'; exact absurd hj' (by simp)
    have busy : ∀ {k : Phase} {j : Job}, s.jobs k = some j → ¬ j.over → (∃ j, s.jobs k = some j ∧ ¬ j.over) ∧ ∀ k' j, s.jobs k' = some j → ¬ j.over → k' = k := by
      intro k j hj hb
      have hin := inside_of_busy hi hj hb
      refine ⟨⟨j, hj, hb⟩, fun k' j' hj' hb' => ?_⟩
      exact order_inj ((inside_iff.1 (inside_of_busy hi hj' hb')).trans (inside_iff.1 hin).symm)
    cases hst with
    | metadataFails e hd hpc hw => left; simp
    | metadata hd hpc hw => left; simp
    | loadFails e elapsed hd hpc hl => left; simp
    | load project all elapsed hd hpc hl => left; simp
    | symbols project all hd hpc => right; left; exact ⟨rfl, outside hpc (by intro k; cases k <;> simp [ConcurrentIndex.Pc.inside])⟩
    | visited j project all hd hpc hj hr => left; simp
    | skip project all hd hpc hs => left; simp
    | extract project all loc rem hd hpc hs he => right; left; exact ⟨rfl, outside hpc (by intro k; cases k <;> simp [ConcurrentIndex.Pc.inside])⟩
    | extractPanics project all hd hpc hs he => right; left; exact ⟨rfl, outside hpc (by intro k; cases k <;> simp [ConcurrentIndex.Pc.inside])⟩
    | related j project types hd hpc hj hr => right; left; exact ⟨rfl, inside' hj hr (by rw [hpc]; trivial)⟩
    | files project externals hd hpc => right; left; exact ⟨rfl, outside hpc (by intro k; cases k <;> simp [ConcurrentIndex.Pc.inside])⟩
    | writeFailed j externals e hd hpc hj hr he => right; left; exact ⟨rfl, inside' hj hr (by rw [hpc]; trivial)⟩
    | written j externals hd hpc hj hr he => right; left; exact ⟨rfl, inside' hj hr (by rw [hpc]; trivial)⟩
    | external m rest hd hpc hw => right; left; exact ⟨rfl, outside hpc (by intro k; cases k <;> simp [ConcurrentIndex.Pc.inside])⟩
    | externalFails m rest e hd hpc hw => right; left; exact ⟨rfl, outside hpc (by intro k; cases k <;> simp [ConcurrentIndex.Pc.inside])⟩
    | finished hd hpc => left; simp
    | task k j t rest next m hd hj ht hc hp =>
      right; right
      exact ⟨k, rfl, busy hj (by rintro ⟨ho, -⟩; rw [ho] at ht; exact absurd ht (by simp))⟩
    | leave k j t rest m hd hj ht hp =>
      right; right
      exact ⟨k, rfl, busy hj (by rintro ⟨ho, -⟩; rw [ho] at ht; exact absurd ht (by simp))⟩
    | panic k j t rest hd hj ht hp =>
      right; right
      exact ⟨k, rfl, busy hj (by rintro ⟨ho, -⟩; rw [ho] at ht; exact absurd ht (by simp))⟩
    | count k j rest n hd hj ht hw => left; simp [Task.accesses]
    | workerDone k j n hd hj ht hw => left; simp
    | close k j hd hj hq hpc hc hwg => left; simp
    | quietReturn k j hd hin hj hq hpc hwg => left; simp
    | first k j hd hin hj hq hpc => left; simp
    | print k j c hd hin hj hpc => left; simp
    | tick k j hd hin hj hpc => left; simp
    | finish k j elapsed hd hin hj hpc hc => left; simp
  intro a ha b hb hc
  obtain ⟨hl, -, hs⟩ := hc
  have ma := step_mode h₁ a ha
  have mb := step_mode h₂ b hb
  have hsame : a.2 = .synchronised ↔ b.2 = .synchronised := by rw [ma, mb, hl]
  have na : a.2 ≠ .synchronised := fun h => hs ⟨h, hsame.1 h⟩
  have nb : b.2 ≠ .synchronised := fun h => na (hsame.2 h)
  rcases key h₁ with k₁ | ⟨w₁, k₁⟩ | ⟨k, w₁, ⟨j, hj, hb⟩, k₁⟩
  · exact na (k₁ a ha)
  · rcases key h₂ with k₂ | ⟨w₂, k₂⟩ | ⟨k', w₂, ⟨j', hj', hb'⟩, k₂⟩
    · exact nb (k₂ b hb)
    · exact hne (w₁.trans w₂.symm)
    · exact hb' (k₁ k' j' hj')
  · rcases key h₂ with k₂ | ⟨w₂, k₂⟩ | ⟨k', w₂, ⟨j', hj', hb'⟩, k₂⟩
    · exact nb (k₂ b ‹_›)
    · exact hb (k₂ k j hj)
    · have := k₂ k j hj hb
      subst this
      exact hne (w₁.trans w₂.symm)

namespace ConcurrentIndex
variable {D : Deps} {o : Opts} {ord : MapOrders} {w : Writer} {loaded : Except Str (GoMap Package × GoMap Package)} {level : Level}

theorem perform_heap {m : Mem} {t : Task} (v : Impl.Heap) (hno : ∀ a, (Loc.relationships, a) ∉ t.accesses) :
    perform D o ord w { m with heap := v } t = match perform D o ord w m t with
      | .go m' next => .go { m' with heap := v } next
      | .leave m' => .leave { m' with heap := v }
      | .panic => .panic := by
  cases t with
  | package p => simp only [perform]; cases visitPackage o.moduleRoot p (m.docs, m.g) <;> rfl
  | type => exact absurd (hno .write) (by simp [Task.accesses])
  | file p f => exact absurd (hno .read) (by simp [Task.accesses])
  | write msg => simp only [perform]; cases w m.messages msg <;> rfl
  | count => rfl

theorem frame_heap {s s' : ConcurrentIndex.State} {who : Who} {acc : List Access} (h : ConcurrentIndex.Step D o ord w loaded level s who acc s')
   (v : Impl.Heap) (hno : ∀ a, (Loc.relationships, a) ∉ acc) :
   ConcurrentIndex.Step D o ord w loaded level { s with mem := { s.mem with heap := v } } who acc { s' with mem := { s'.mem with heap := v } } := by
  cases h with
  | metadataFails e hd hpc hw => exact .metadataFails (s := { s with mem := { s.mem with heap := v } }) e hd hpc hw
  | metadata hd hpc hw => exact .metadata (s := { s with mem := { s.mem with heap := v } }) hd hpc hw
  | loadFails e elapsed hd hpc hl => exact .loadFails (s := { s with mem := { s.mem with heap := v } }) e elapsed hd hpc hl
  | load project all elapsed hd hpc hl => exact .load (s := { s with mem := { s.mem with heap := v } }) project all elapsed hd hpc hl
  | symbols project all hd hpc => exact .symbols (s := { s with mem := { s.mem with heap := v } }) project all hd hpc
  | visited j project all hd hpc hj hr => exact .visited (s := { s with mem := { s.mem with heap := v } }) j project all hd hpc hj hr
  | skip project all hd hpc hs => exact .skip (s := { s with mem := { s.mem with heap := v } }) project all hd hpc hs
  | extract project all loc rem hd hpc hs he => exact .extract (s := { s with mem := { s.mem with heap := v } }) project all loc rem hd hpc hs he
  | extractPanics project all hd hpc hs he => exact .extractPanics (s := { s with mem := { s.mem with heap := v } }) project all hd hpc hs he
  | related j project types hd hpc hj hr => exact absurd (hno .read) (by simp)
  | files project externals hd hpc => exact .files (s := { s with mem := { s.mem with heap := v } }) project externals hd hpc
  | writeFailed j externals e hd hpc hj hr he => exact .writeFailed (s := { s with mem := { s.mem with heap := v } }) j externals e hd hpc hj hr he
  | written j externals hd hpc hj hr he => exact .written (s := { s with mem := { s.mem with heap := v } }) j externals hd hpc hj hr he
  | external m rest hd hpc hw => exact .external (s := { s with mem := { s.mem with heap := v } }) m rest hd hpc hw
  | externalFails m rest e hd hpc hw => exact .externalFails (s := { s with mem := { s.mem with heap := v } }) m rest e hd hpc hw
  | finished hd hpc => exact .finished (s := { s with mem := { s.mem with heap := v } }) hd hpc
  | task k j t rest next m hd hj ht hc hp => exact .task (s := { s with mem := { s.mem with heap := v } }) k j t rest next _ hd hj ht hc (by rw [perform_heap v hno, hp])
  | leave k j t rest m hd hj ht hp => exact .leave (s := { s with mem := { s.mem with heap := v } }) k j t rest _ hd hj ht (by rw [perform_heap v hno, hp])
  | panic k j t rest hd hj ht hp => exact .panic (s := { s with mem := { s.mem with heap := v } }) k j t rest hd hj ht (by rw [perform_heap v hno, hp])
  | count k j rest n hd hj ht hw => exact .count (s := { s with mem := { s.mem with heap := v } }) k j rest n hd hj ht hw
  | workerDone k j n hd hj ht hw => exact .workerDone (s := { s with mem := { s.mem with heap := v } }) k j n hd hj ht hw
  | close k j hd hj hq hpc hc hwg => exact .close (s := { s with mem := { s.mem with heap := v } }) k j hd hj hq hpc hc hwg
  | quietReturn k j hd hin hj hq hpc hwg => exact .quietReturn (s := { s with mem := { s.mem with heap := v } }) k j hd hin hj hq hpc hwg
  | first k j hd hin hj hq hpc => exact .first (s := { s with mem := { s.mem with heap := v } }) k j hd hin hj hq hpc
  | print k j c hd hin hj hpc => exact .print (s := { s with mem := { s.mem with heap := v } }) k j c hd hin hj hpc
  | tick k j hd hin hj hpc => exact .tick (s := { s with mem := { s.mem with heap := v } }) k j hd hin hj hpc
  | finish k j elapsed hd hin hj hpc hc => exact .finish (s := { s with mem := { s.mem with heap := v } }) k j elapsed hd hin hj hpc hc

theorem perform_docs {m : Mem} {t : Task} (v : Docs) (hno : ∀ a, (Loc.documents, a) ∉ t.accesses) :
    perform D o ord w { m with docs := v } t = match perform D o ord w m t with
      | .go m' next => .go { m' with docs := v } next
      | .leave m' => .leave { m' with docs := v }
      | .panic => .panic := by
  cases t with
  | package p => exact absurd (hno .write) (by simp [Task.accesses])
  | type v' => rfl
  | file p f => exact absurd (hno .read) (by simp [Task.accesses])
  | write msg => simp only [perform]; cases w m.messages msg <;> rfl
  | count => rfl

theorem frame_docs {s s' : ConcurrentIndex.State} {who : Who} {acc : List Access} (h : ConcurrentIndex.Step D o ord w loaded level s who acc s')
   (v : Docs) (hno : ∀ a, (Loc.documents, a) ∉ acc) :
   ConcurrentIndex.Step D o ord w loaded level { s with mem := { s.mem with docs := v } } who acc { s' with mem := { s'.mem with docs := v } } := by
  cases h with
  | metadataFails e hd hpc hw => exact .metadataFails (s := { s with mem := { s.mem with docs := v } }) e hd hpc hw
  | metadata hd hpc hw => exact .metadata (s := { s with mem := { s.mem with docs := v } }) hd hpc hw
  | loadFails e elapsed hd hpc hl => exact .loadFails (s := { s with mem := { s.mem with docs := v } }) e elapsed hd hpc hl
  | load project all elapsed hd hpc hl => exact .load (s := { s with mem := { s.mem with docs := v } }) project all elapsed hd hpc hl
  | symbols project all hd hpc => exact absurd (hno .write) (by simp)
  | visited j project all hd hpc hj hr => exact .visited (s := { s with mem := { s.mem with docs := v } }) j project all hd hpc hj hr
  | skip project all hd hpc hs => exact .skip (s := { s with mem := { s.mem with docs := v } }) project all hd hpc hs
  | extract project all loc rem hd hpc hs he => exact .extract (s := { s with mem := { s.mem with docs := v } }) project all loc rem hd hpc hs he
  | extractPanics project all hd hpc hs he => exact .extractPanics (s := { s with mem := { s.mem with docs := v } }) project all hd hpc hs he
  | related j project types hd hpc hj hr => exact .related (s := { s with mem := { s.mem with docs := v } }) j project types hd hpc hj hr
  | files project externals hd hpc => exact .files (s := { s with mem := { s.mem with docs := v } }) project externals hd hpc
  | writeFailed j externals e hd hpc hj hr he => exact .writeFailed (s := { s with mem := { s.mem with docs := v } }) j externals e hd hpc hj hr he
  | written j externals hd hpc hj hr he => exact .written (s := { s with mem := { s.mem with docs := v } }) j externals hd hpc hj hr he
  | external m rest hd hpc hw => exact .external (s := { s with mem := { s.mem with docs := v } }) m rest hd hpc hw
  | externalFails m rest e hd hpc hw => exact .externalFails (s := { s with mem := { s.mem with docs := v } }) m rest e hd hpc hw
  | finished hd hpc => exact .finished (s := { s with mem := { s.mem with docs := v } }) hd hpc
  | task k j t rest next m hd hj ht hc hp => exact .task (s := { s with mem := { s.mem with docs := v } }) k j t rest next _ hd hj ht hc (by rw [perform_docs v hno, hp])
  | leave k j t rest m hd hj ht hp => exact .leave (s := { s with mem := { s.mem with docs := v } }) k j t rest _ hd hj ht (by rw [perform_docs v hno, hp])
  | panic k j t rest hd hj ht hp => exact .panic (s := { s with mem := { s.mem with docs := v } }) k j t rest hd hj ht (by rw [perform_docs v hno, hp])
  | count k j rest n hd hj ht hw => exact .count (s := { s with mem := { s.mem with docs := v } }) k j rest n hd hj ht hw
  | workerDone k j n hd hj ht hw => exact .workerDone (s := { s with mem := { s.mem with docs := v } }) k j n hd hj ht hw
  | close k j hd hj hq hpc hc hwg => exact .close (s := { s with mem := { s.mem with docs := v } }) k j hd hj hq hpc hc hwg
  | quietReturn k j hd hin hj hq hpc hwg => exact .quietReturn (s := { s with mem := { s.mem with docs := v } }) k j hd hin hj hq hpc hwg
  | first k j hd hin hj hq hpc => exact .first (s := { s with mem := { s.mem with docs := v } }) k j hd hin hj hq hpc
  | print k j c hd hin hj hpc => exact .print (s := { s with mem := { s.mem with docs := v } }) k j c hd hin hj hpc
  | tick k j hd hin hj hpc => exact .tick (s := { s with mem := { s.mem with docs := v } }) k j hd hin hj hpc
  | finish k j elapsed hd hin hj hpc hc => exact .finish (s := { s with mem := { s.mem with docs := v } }) k j elapsed hd hin hj hpc hc

theorem perform_g {m : Mem} {t : Task} (v : Global) (hno : ∀ a, (Loc.tables, a) ∉ t.accesses) :
    perform D o ord w { m with g := v } t = match perform D o ord w m t with
      | .go m' next => .go { m' with g := v } next
      | .leave m' => .leave { m' with g := v }
      | .panic => .panic := by
  cases t with
  | package p => exact absurd (hno .write) (by simp [Task.accesses])
  | type v' => exact absurd (hno .read) (by simp [Task.accesses])
  | file p f => exact absurd (hno .write) (by simp [Task.accesses])
  | write msg => simp only [perform]; cases w m.messages msg <;> rfl
  | count => rfl

theorem frame_g {s s' : ConcurrentIndex.State} {who : Who} {acc : List Access} (h : ConcurrentIndex.Step D o ord w loaded level s who acc s')
   (v : Global) (hno : ∀ a, (Loc.tables, a) ∉ acc) :
   ConcurrentIndex.Step D o ord w loaded level { s with mem := { s.mem with g := v } } who acc { s' with mem := { s'.mem with g := v } } := by
  cases h with
  | metadataFails e hd hpc hw => exact .metadataFails (s := { s with mem := { s.mem with g := v } }) e hd hpc hw
  | metadata hd hpc hw => exact .metadata (s := { s with mem := { s.mem with g := v } }) hd hpc hw
  | loadFails e elapsed hd hpc hl => exact .loadFails (s := { s with mem := { s.mem with g := v } }) e elapsed hd hpc hl
  | load project all elapsed hd hpc hl => exact .load (s := { s with mem := { s.mem with g := v } }) project all elapsed hd hpc hl
  | symbols project all hd hpc => exact absurd (hno .write) (by simp)
  | visited j project all hd hpc hj hr => exact .visited (s := { s with mem := { s.mem with g := v } }) j project all hd hpc hj hr
  | skip project all hd hpc hs => exact .skip (s := { s with mem := { s.mem with g := v } }) project all hd hpc hs
  | extract project all loc rem hd hpc hs he => exact absurd (hno .write) (by simp)
  | extractPanics project all hd hpc hs he => exact absurd (hno .write) (by simp)
  | related j project types hd hpc hj hr => exact .related (s := { s with mem := { s.mem with g := v } }) j project types hd hpc hj hr
  | files project externals hd hpc => exact .files (s := { s with mem := { s.mem with g := v } }) project externals hd hpc
  | writeFailed j externals e hd hpc hj hr he => exact .writeFailed (s := { s with mem := { s.mem with g := v } }) j externals e hd hpc hj hr he
  | written j externals hd hpc hj hr he => exact .written (s := { s with mem := { s.mem with g := v } }) j externals hd hpc hj hr he
  | external m rest hd hpc hw => exact .external (s := { s with mem := { s.mem with g := v } }) m rest hd hpc hw
  | externalFails m rest e hd hpc hw => exact .externalFails (s := { s with mem := { s.mem with g := v } }) m rest e hd hpc hw
  | finished hd hpc => exact .finished (s := { s with mem := { s.mem with g := v } }) hd hpc
  | task k j t rest next m hd hj ht hc hp => exact .task (s := { s with mem := { s.mem with g := v } }) k j t rest next _ hd hj ht hc (by rw [perform_g v hno, hp])
  | leave k j t rest m hd hj ht hp => exact .leave (s := { s with mem := { s.mem with g := v } }) k j t rest _ hd hj ht (by rw [perform_g v hno, hp])
  | panic k j t rest hd hj ht hp => exact .panic (s := { s with mem := { s.mem with g := v } }) k j t rest hd hj ht (by rw [perform_g v hno, hp])
  | count k j rest n hd hj ht hw => exact .count (s := { s with mem := { s.mem with g := v } }) k j rest n hd hj ht hw
  | workerDone k j n hd hj ht hw => exact .workerDone (s := { s with mem := { s.mem with g := v } }) k j n hd hj ht hw
  | close k j hd hj hq hpc hc hwg => exact .close (s := { s with mem := { s.mem with g := v } }) k j hd hj hq hpc hc hwg
  | quietReturn k j hd hin hj hq hpc hwg => exact .quietReturn (s := { s with mem := { s.mem with g := v } }) k j hd hin hj hq hpc hwg
  | first k j hd hin hj hq hpc => exact .first (s := { s with mem := { s.mem with g := v } }) k j hd hin hj hq hpc
  | print k j c hd hin hj hpc => exact .print (s := { s with mem := { s.mem with g := v } }) k j c hd hin hj hpc
  | tick k j hd hin hj hpc => exact .tick (s := { s with mem := { s.mem with g := v } }) k j hd hin hj hpc
  | finish k j elapsed hd hin hj hpc hc => exact .finish (s := { s with mem := { s.mem with g := v } }) k j elapsed hd hin hj hpc hc

theorem perform_writeErr {m : Mem} {t : Task} (v : Option Str) (hno : ∀ a, (Loc.writeErr, a) ∉ t.accesses) :
    perform D o ord w { m with writeErr := v } t = match perform D o ord w m t with
      | .go m' next => .go { m' with writeErr := v } next
      | .leave m' => .leave { m' with writeErr := v }
      | .panic => .panic := by
  cases t with
  | package p => simp only [perform]; cases visitPackage o.moduleRoot p (m.docs, m.g) <;> rfl
  | type v' => rfl
  | file p f => 
    simp only [perform]
    cases m.docs.get f.fileName with
    | none => rfl
    | some d => simp only; cases visitFile D ord m.heap m.messages.length p f d m.g <;> rfl
  | write msg => exact absurd (hno .write) (by simp [Task.accesses])
  | count => rfl

theorem frame_writeErr {s s' : ConcurrentIndex.State} {who : Who} {acc : List Access} (h : ConcurrentIndex.Step D o ord w loaded level s who acc s')
   (v : Option Str) (hno : ∀ a, (Loc.writeErr, a) ∉ acc) :
   ConcurrentIndex.Step D o ord w loaded level { s with mem := { s.mem with writeErr := v } } who acc { s' with mem := { s'.mem with writeErr := v } } := by
  cases h with
  | metadataFails e hd hpc hw => exact .metadataFails (s := { s with mem := { s.mem with writeErr := v } }) e hd hpc hw
  | metadata hd hpc hw => exact .metadata (s := { s with mem := { s.mem with writeErr := v } }) hd hpc hw
  | loadFails e elapsed hd hpc hl => exact .loadFails (s := { s with mem := { s.mem with writeErr := v } }) e elapsed hd hpc hl
  | load project all elapsed hd hpc hl => exact .load (s := { s with mem := { s.mem with writeErr := v } }) project all elapsed hd hpc hl
  | symbols project all hd hpc => exact .symbols (s := { s with mem := { s.mem with writeErr := v } }) project all hd hpc
  | visited j project all hd hpc hj hr => exact .visited (s := { s with mem := { s.mem with writeErr := v } }) j project all hd hpc hj hr
  | skip project all hd hpc hs => exact .skip (s := { s with mem := { s.mem with writeErr := v } }) project all hd hpc hs
  | extract project all loc rem hd hpc hs he => exact .extract (s := { s with mem := { s.mem with writeErr := v } }) project all loc rem hd hpc hs he
  | extractPanics project all hd hpc hs he => exact .extractPanics (s := { s with mem := { s.mem with writeErr := v } }) project all hd hpc hs he
  | related j project types hd hpc hj hr => exact .related (s := { s with mem := { s.mem with writeErr := v } }) j project types hd hpc hj hr
  | files project externals hd hpc => exact absurd (hno .write) (by simp)
  | writeFailed j externals e hd hpc hj hr he => exact absurd (hno .read) (by simp)
  | written j externals hd hpc hj hr he => exact absurd (hno .read) (by simp)
  | external m rest hd hpc hw => exact .external (s := { s with mem := { s.mem with writeErr := v } }) m rest hd hpc hw
  | externalFails m rest e hd hpc hw => exact .externalFails (s := { s with mem := { s.mem with writeErr := v } }) m rest e hd hpc hw
  | finished hd hpc => exact .finished (s := { s with mem := { s.mem with writeErr := v } }) hd hpc
  | task k j t rest next m hd hj ht hc hp => exact .task (s := { s with mem := { s.mem with writeErr := v } }) k j t rest next _ hd hj ht hc (by rw [perform_writeErr v hno, hp])
  | leave k j t rest m hd hj ht hp => exact .leave (s := { s with mem := { s.mem with writeErr := v } }) k j t rest _ hd hj ht (by rw [perform_writeErr v hno, hp])
  | panic k j t rest hd hj ht hp => exact .panic (s := { s with mem := { s.mem with writeErr := v } }) k j t rest hd hj ht (by rw [perform_writeErr v hno, hp])
  | count k j rest n hd hj ht hw => exact .count (s := { s with mem := { s.mem with writeErr := v } }) k j rest n hd hj ht hw
  | workerDone k j n hd hj ht hw => exact .workerDone (s := { s with mem := { s.mem with writeErr := v } }) k j n hd hj ht hw
  | close k j hd hj hq hpc hc hwg => exact .close (s := { s with mem := { s.mem with writeErr := v } }) k j hd hj hq hpc hc hwg
  | quietReturn k j hd hin hj hq hpc hwg => exact .quietReturn (s := { s with mem := { s.mem with writeErr := v } }) k j hd hin hj hq hpc hwg
  | first k j hd hin hj hq hpc => exact .first (s := { s with mem := { s.mem with writeErr := v } }) k j hd hin hj hq hpc
  | print k j c hd hin hj hpc => exact .print (s := { s with mem := { s.mem with writeErr := v } }) k j c hd hin hj hpc
  | tick k j hd hin hj hpc => exact .tick (s := { s with mem := { s.mem with writeErr := v } }) k j hd hin hj hpc
  | finish k j elapsed hd hin hj hpc hc => exact .finish (s := { s with mem := { s.mem with writeErr := v } }) k j elapsed hd hin hj hpc hc

end ConcurrentIndex

/-- **C92**, what C92_race_free says about accesses is complete: a step leaves everything alone that it does not note as written, and what it does not
note as accessed may just as well be something else.  (A step may look at the number of messages to find its order of iteration, which stands for
chance; so for the output only the first part holds.) -/
theorem C92_accesses_noted (D : Deps) (o : Opts) (ord : MapOrders) (w : Writer) (loaded : Except Str (GoMap Package × GoMap Package)) (level : Level)
    (s s' : ConcurrentIndex.State) (who : Who) (acc : List Access) (h : ConcurrentIndex.Step D o ord w loaded level s who acc s') :
    ((.documents, .write) ∉ acc → s'.mem.docs = s.mem.docs) ∧ ((.tables, .write) ∉ acc → s'.mem.g = s.mem.g) ∧
    ((.relationships, .write) ∉ acc → s'.mem.heap = s.mem.heap) ∧ ((.writeErr, .write) ∉ acc → s'.mem.writeErr = s.mem.writeErr) ∧
    ((.output, .synchronised) ∉ acc → s'.mem.messages = s.mem.messages) ∧
    ((∀ a, (.documents, a) ∉ acc) → ∀ v, ConcurrentIndex.Step D o ord w loaded level { s with mem := { s.mem with docs := v } } who acc
      { s' with mem := { s'.mem with docs := v } }) ∧
    ((∀ a, (.tables, a) ∉ acc) → ∀ v, ConcurrentIndex.Step D o ord w loaded level { s with mem := { s.mem with g := v } } who acc
      { s' with mem := { s'.mem with g := v } }) ∧
    ((∀ a, (.relationships, a) ∉ acc) → ∀ v, ConcurrentIndex.Step D o ord w loaded level { s with mem := { s.mem with heap := v } } who acc
      { s' with mem := { s'.mem with heap := v } }) ∧
    ((∀ a, (.writeErr, a) ∉ acc) → ∀ v, ConcurrentIndex.Step D o ord w loaded level { s with mem := { s.mem with writeErr := v } } who acc
      { s' with mem := { s'.mem with writeErr := v } }) := by
  have hF : _ ∧ _ ∧ _ ∧ _ := ⟨fun hno v => frame_docs h v hno, fun hno v => frame_g h v hno, fun hno v => frame_heap h v hno, fun hno v => frame_writeErr h v hno⟩
  have hp : ∀ (t : Task) (m : Mem) (next : List Task), perform D o ord w s.mem t = .go m next →
      ((.documents, .write) ∉ t.accesses → m.docs = s.mem.docs) ∧ ((.tables, .write) ∉ t.accesses → m.g = s.mem.g) ∧
      ((.relationships, .write) ∉ t.accesses → m.heap = s.mem.heap) ∧ ((.writeErr, .write) ∉ t.accesses → m.writeErr = s.mem.writeErr) ∧
      ((.output, .synchronised) ∉ t.accesses → m.messages = s.mem.messages) := by
    intro t m next h
    cases t <;> simp only [perform] at h
    · split at h
      · exact absurd h (by simp)
      · injection h with h1 h2; subst h1; simp [Task.accesses]
    · injection h with h1 h2; subst h1; simp [Task.accesses]
    · split at h
      · injection h with h1 h2; subst h1; simp
      · split at h
        · exact absurd h (by simp)
        · injection h with h1 h2; subst h1; simp [Task.accesses]
    · split at h
      · exact absurd h (by simp)
      · injection h with h1 h2; subst h1; simp [Task.accesses]
    · injection h with h1 h2; subst h1; simp
  have hl : ∀ (t : Task) (m : Mem), perform D o ord w s.mem t = .leave m →
      ((.documents, .write) ∉ t.accesses → m.docs = s.mem.docs) ∧ ((.tables, .write) ∉ t.accesses → m.g = s.mem.g) ∧
      ((.relationships, .write) ∉ t.accesses → m.heap = s.mem.heap) ∧ ((.writeErr, .write) ∉ t.accesses → m.writeErr = s.mem.writeErr) ∧
      ((.output, .synchronised) ∉ t.accesses → m.messages = s.mem.messages) := by
    intro t m h
    cases t <;> simp only [perform] at h
    · split at h <;> exact absurd h (by simp)
    · exact absurd h (by simp)
    · split at h
      · exact absurd h (by simp)
      · split at h <;> exact absurd h (by simp)
    · split at h
      · injection h with h1; subst h1; simp [Task.accesses]
      · exact absurd h (by simp)
    · exact absurd h (by simp)
  have hW : ((.documents, .write) ∉ acc → s'.mem.docs = s.mem.docs) ∧ ((.tables, .write) ∉ acc → s'.mem.g = s.mem.g) ∧
      ((.relationships, .write) ∉ acc → s'.mem.heap = s.mem.heap) ∧ ((.writeErr, .write) ∉ acc → s'.mem.writeErr = s.mem.writeErr) ∧
      ((.output, .synchronised) ∉ acc → s'.mem.messages = s.mem.messages) := by
    clear hF
    cases h with
    | task k j t rest next m hd hj ht hc hpf => exact hp t m next hpf
    | leave k j t rest m hd hj ht hpf => exact hl t m hpf
    | _ => simp
  exact ⟨hW.1, hW.2.1, hW.2.2.1, hW.2.2.2.1, hW.2.2.2.2, hF.1, hF.2.1, hF.2.2.1, hF.2.2.2⟩

/-- **C92**, nothing is left behind: once `Index` is over, no goroutine does anything any more. -/
theorem C92_nothing_left (D : Deps) (o : Opts) (ord : MapOrders) (w : Writer) (loaded : Except Str (GoMap Package × GoMap Package)) (level : Level)
    (s : ConcurrentIndex.State) (h : ConcurrentIndex.Reachable D o ord w loaded level s) (out : Outcome) (he : s.ended = some out) :
    ¬ ∃ who acc s', ConcurrentIndex.Step D o ord w loaded level s who acc s' := by
  rintro ⟨who, acc, s', hst⟩
  have hi := inv_reachable h
  have hd : s.dead = false := by cases hst <;> assumption
  have hr : ∃ e, s.pc = .returned e := by
    unfold State.ended at he
    simp only [hd, Bool.false_eq_true, if_false] at he
    revert he
    cases s.pc with
    | returned e => intro _; exact ⟨e, rfl⟩
    | _ => intro h; exact absurd h (by simp)
  obtain ⟨e, hpc⟩ := hr
  have hall : ∀ k j, s.jobs k = some j → j.over ∧ j.prog.pc = .returned ∧ (¬ level > levelWarn → j.prog.closed = true) := by
    intro k j hj
    exact hi.earlier k (by rw [hpc]; cases k <;> simp [ConcurrentIndex.Pc.order, Phase.order]) j hj
  have hno : ∀ k, ¬ s.pc.inside k := by intro k; rw [hpc]; cases k <;> simp [ConcurrentIndex.Pc.inside]
  cases hst with
  | task k j t rest next m hd hj ht hc hp => have := (hall k j hj).1.1; rw [ht] at this; exact absurd this (by simp)
  | leave k j t rest m hd hj ht hp => have := (hall k j hj).1.1; rw [ht] at this; exact absurd this (by simp)
  | panic k j t rest hd hj ht hp => have := (hall k j hj).1.1; rw [ht] at this; exact absurd this (by simp)
  | count k j rest n hd hj ht hw => have := (hall k j hj).1.1; rw [ht] at this; exact absurd this (by simp)
  | workerDone k j n hd hj ht hw => obtain ⟨n', h1⟩ := (hall k j hj).1.2; rw [h1] at hw; simp at hw
  | close k j hd hj hq hpc' hc hwg => rw [(hall k j hj).2.2 hq] at hc; exact absurd hc (by simp)
  | quietReturn k j hd hin hj hq hpc' hwg => exact hno k hin
  | first k j hd hin hj hq hpc' => exact hno k hin
  | print k j c hd hin hj hpc' => exact hno k hin
  | tick k j hd hin hj hpc' => exact hno k hin
  | finish k j elapsed hd hin hj hpc' hc => exact hno k hin
  | _ => simp_all

namespace ConcurrentIndex

variable {D : Deps} {o : Opts} {ord : MapOrders} {w : Writer} {loaded : Except Str (GoMap Package × GoMap Package)} {level : Level}

/-- Any number of steps. -/
inductive Steps (D : Deps) (o : Opts) (ord : MapOrders) (w : Writer) (loaded : Except Str (GoMap Package × GoMap Package)) (level : Level) :
    State → State → Prop where
  | refl (s : State) : Steps D o ord w loaded level s s
  | step {s s' s'' : State} {who : Who} {acc : List Access} : Step D o ord w loaded level s who acc s' → Steps D o ord w loaded level s' s'' →
      Steps D o ord w loaded level s s''

/-- How far the caller has to go. -/
def Pc.left : Pc → Nat
  | .metadata => 9
  | .loading => 8
  | .symbols _ _ => 7
  | .visiting _ _ => 6
  | .extracting _ _ => 5
  | .relating _ _ => 4
  | .files _ _ => 3
  | .writing _ => 2
  | .externals _ => 1
  | .returned _ => 0

/-- How much there is to do in a job; `f` weighs where the caller is. -/
def Job.left (f : Progress.Pc → Nat) (j : Job) : Nat :=
  weights j.todo + (j.prog.workers.filter (fun x => !x.done)).length + (if j.prog.closed then 0 else 1) + f j.prog.pc

/-- How much there is to do until the caller goes on. -/
def State.inner (f : Progress.Pc → Nat) (s : State) : Nat :=
  match s.pc with
  | .visiting _ _ => ((s.jobs .visiting).map (Job.left f)).getD 0
  | .relating _ _ => ((s.jobs .relating).map (Job.left f)).getD 0
  | .writing _ => ((s.jobs .writing).map (Job.left f)).getD 0
  | .externals rest => rest.length
  | _ => 0

/-- The measure: compared lexicographically. -/
def State.left (f : Progress.Pc → Nat) (s : State) : Nat × Nat := if s.dead then (0, 0) else (s.pc.left, s.inner f)

theorem inner_inside {f : Progress.Pc → Nat} {s : State} {k : Phase} {j : Job} (hin : s.pc.inside k) (hj : s.jobs k = some j) : s.inner f = j.left f := by
  unfold State.inner
  cases hpc : s.pc <;> rw [hpc] at hin <;> cases k <;> first | exact hin.elim | (simp only [hj, Option.map_some, Option.getD_some])

theorem pc_left_pos {pc : Pc} {k : Phase} (hin : pc.inside k) : 0 < pc.left := by
  cases pc <;> cases k <;> first | exact hin.elim | simp [Pc.left]

/-- The display before, at and after its loop. -/
def loopWeight : Progress.Pc → Nat
  | .start => 2
  | .loaded _ => 1
  | .select => 1
  | .returned => 0

def stepWeight : Progress.Pc → Nat
  | .start => 3
  | .loaded _ => 2
  | .select => 1
  | .returned => 0

/-- A step inside of a job. -/
theorem left_job {f : Progress.Pc → Nat} {s : State} {k : Phase} {j j' : Job} {m : Mem} {ev : List Event} (hd : s.dead = false) (hin : s.pc.inside k)
    (hj : s.jobs k = some j) {R : Nat → Nat → Prop} (h : R (j'.left f) (j.left f)) :
    ∃ a b b', State.left f { s with mem := m, jobs := setJob s.jobs k j', events := ev } = (a, b') ∧ s.left f = (a, b) ∧ R b' b := by
  refine ⟨s.pc.left, j.left f, j'.left f, ?_, ?_, h⟩
  · unfold State.left
    simp only [hd, Bool.false_eq_true, if_false]
    rw [inner_inside (s := { s with mem := m, jobs := setJob s.jobs k j', events := ev, dead := false }) hin (setJob_same _ _ _)]
  · unfold State.left
    simp only [hd, Bool.false_eq_true, if_false]
    rw [inner_inside hin hj]

/-- Lexicographically smaller. -/
def Less (a b : Nat × Nat) : Prop := a.1 < b.1 ∨ a.1 = b.1 ∧ a.2 < b.2

theorem less_wf : WellFounded Less := by
  have : WellFounded (Prod.Lex (· < ·) (· < ·) : Nat × Nat → Nat × Nat → Prop) := (Prod.lex ⟨_, Nat.lt_wfRel.wf⟩ ⟨_, Nat.lt_wfRel.wf⟩).wf
  refine Subrelation.wf ?_ this
  rintro ⟨a, b⟩ ⟨c, d⟩ h
  rcases h with h | ⟨h1, h2⟩
  · exact Prod.Lex.left _ _ h
  · simp only at h1 h2; subst h1; exact Prod.Lex.right _ h2

theorem less_job {f : Progress.Pc → Nat} {s : State} {k : Phase} {j j' : Job} {m : Mem} {ev : List Event} (hd : s.dead = false) (hin : s.pc.inside k)
    (hj : s.jobs k = some j) (h : j'.left f < j.left f) : Less (State.left f { s with mem := m, jobs := setJob s.jobs k j', events := ev }) (s.left f) := by
  obtain ⟨a, b, b', h1, h2, h3⟩ := left_job (m := m) (ev := ev) hd hin hj (R := (· < ·)) h
  rw [h1, h2]
  exact .inr ⟨rfl, h3⟩

theorem less_pc {f : Progress.Pc → Nat} {s s' : State} (hd : s.dead = false) (h : s'.dead = true ∨ s'.pc.left < s.pc.left) (hp : 0 < s.pc.left) :
    Less (s'.left f) (s.left f) := by
  left
  unfold State.left
  simp only [hd, Bool.false_eq_true, if_false]
  rcases h with h | h
  · simpa [h] using hp
  · split
    · exact hp
    · exact h

/-- The steps of the progress display that do not bring the end nearer: it shows the counter once more. -/
def Display (s : State) (who : Who) (s' : State) : Prop :=
  who = .caller ∧ ∃ k j j', s.pc.inside k ∧ s.jobs k = some j ∧ s'.jobs k = some j' ∧ s'.pc = s.pc ∧ s'.mem = s.mem ∧ j'.todo = j.todo ∧
    ((∃ c, j.prog.pc = .loaded c) ∧ j'.prog.pc = .select ∨ j.prog.pc = .select ∧ ∃ c, j'.prog.pc = .loaded c)

theorem step_less {s s' : State} {who : Who} {acc : List Access} (hi : Inv level s) (h : Step D o ord w loaded level s who acc s') :
    Less (s'.left loopWeight) (s.left loopWeight) ∨ (s'.left loopWeight = s.left loopWeight ∧ Display s who s') := by
  have busy : ∀ {k j t rest}, s.jobs k = some j → j.todo = t :: rest → s.pc.inside k := fun hj ht =>
    inside_of_busy hi hj (by rintro ⟨ho, -⟩; rw [ho] at ht; exact absurd ht (by simp))
  cases h with
  | metadataFails e hd hpc hw => left; exact less_pc hd (.inr (by simp [hpc, Pc.left])) (by simp [hpc, Pc.left])
  | metadata hd hpc hw => left; exact less_pc hd (.inr (by simp [hpc, Pc.left])) (by simp [hpc, Pc.left])
  | loadFails e elapsed hd hpc hl => left; exact less_pc hd (.inr (by simp [hpc, Pc.left])) (by simp [hpc, Pc.left])
  | load project all elapsed hd hpc hl => left; exact less_pc hd (.inr (by simp [hpc, Pc.left])) (by simp [hpc, Pc.left])
  | symbols project all hd hpc => left; exact less_pc hd (.inr (by simp [hpc, Pc.left])) (by simp [hpc, Pc.left])
  | visited j project all hd hpc hj hr => left; exact less_pc hd (.inr (by simp [hpc, Pc.left])) (by simp [hpc, Pc.left])
  | skip project all hd hpc hs => left; exact less_pc hd (.inr (by simp [hpc, Pc.left])) (by simp [hpc, Pc.left])
  | extract project all loc rem hd hpc hs he => left; exact less_pc hd (.inr (by simp [hpc, Pc.left])) (by simp [hpc, Pc.left])
  | extractPanics project all hd hpc hs he => left; exact less_pc hd (.inl rfl) (by simp [hpc, Pc.left])
  | related j project types hd hpc hj hr => left; exact less_pc hd (.inr (by simp [hpc, Pc.left])) (by simp [hpc, Pc.left])
  | files project externals hd hpc => left; exact less_pc hd (.inr (by simp [hpc, Pc.left])) (by simp [hpc, Pc.left])
  | writeFailed j externals e hd hpc hj hr he => left; exact less_pc hd (.inr (by simp [hpc, Pc.left])) (by simp [hpc, Pc.left])
  | written j externals hd hpc hj hr he => left; exact less_pc hd (.inr (by simp [hpc, Pc.left])) (by simp [hpc, Pc.left])
  | external m rest hd hpc hw =>
    left; right
    simp [State.left, State.inner, hd, hpc, Pc.left]
  | externalFails m rest e hd hpc hw => left; exact less_pc hd (.inr (by simp [hpc, Pc.left])) (by simp [hpc, Pc.left])
  | finished hd hpc => left; exact less_pc hd (.inr (by simp [hpc, Pc.left])) (by simp [hpc, Pc.left])
  | task k j t rest next m hd hj ht hc hp =>
    left
    refine less_job hd (busy hj ht) hj ?_
    have := weight_next hp
    simp only [Job.left, ht, weights_cons, weights_append]
    omega
  | leave k j t rest m hd hj ht hp =>
    left
    refine less_job hd (busy hj ht) hj ?_
    have : 0 < t.weight := by cases t <;> simp [Task.weight]
    simp only [Job.left, ht, weights_cons]
    simp only [weights, List.map_nil, List.sum_nil]
    omega
  | panic k j t rest hd hj ht hp => left; exact less_pc hd (.inl rfl) (pc_left_pos (busy hj ht))
  | count k j rest n hd hj ht hw =>
    left
    obtain ⟨n', d, h1, -⟩ := (hi.ok k j hj).worker
    rw [h1] at hw
    simp only [List.getElem?_cons_zero, Option.some.injEq, Worker.mk.injEq] at hw
    obtain ⟨rfl, rfl⟩ := hw
    refine less_job (m := s.mem) (ev := s.events) hd (busy hj ht) hj ?_
    simp only [Job.left, ht, weights_cons, h1, Task.weight]
    simp
  | workerDone k j n hd hj ht hw =>
    left
    obtain ⟨n', d, h1, -⟩ := (hi.ok k j hj).worker
    rw [h1] at hw
    simp only [List.getElem?_cons_zero, Option.some.injEq, Worker.mk.injEq] at hw
    obtain ⟨rfl, rfl⟩ := hw
    refine less_job (m := s.mem) (ev := s.events) hd (inside_of_busy hi hj (by rintro ⟨-, n', ho⟩; rw [ho] at h1; simp at h1)) hj ?_
    simp only [Job.left, h1]
    simp
  | close k j hd hj hq hpc hc hwg =>
    left
    have hin : s.pc.inside k := by
      rw [inside_iff]
      rcases Nat.lt_trichotomy k.order s.pc.order with h | h | h
      · rw [(hi.earlier k h j hj).2.2 hq] at hc; exact absurd hc (by simp)
      · exact h
      · rw [hi.later k h] at hj; exact absurd hj (by simp)
    refine less_job (m := s.mem) (ev := s.events) hd hin hj ?_
    simp only [Job.left, hc]
    simp
  | quietReturn k j hd hin hj hq hpc hwg =>
    left
    refine less_job (m := s.mem) (ev := s.events) hd hin hj ?_
    simp only [Job.left, hpc, loopWeight]
    omega
  | first k j hd hin hj hq hpc =>
    left
    refine less_job (m := s.mem) (ev := s.events) hd hin hj ?_
    simp only [Job.left, hpc, loopWeight]
    omega
  | print k j c hd hin hj hpc =>
    right
    constructor
    · obtain ⟨a, b, b', h1, h2, h3⟩ := left_job (f := loopWeight) (m := s.mem) (ev := s.events ++ [.line k (.progress c j.total)]) hd hin hj (R := (· = ·))
        (j' := { j with prog := { j.prog with pc := .select, out := j.prog.out ++ [.progress c j.total] } }) (by simp only [Job.left, hpc, loopWeight])
      rw [h2, ← h3]; exact h1
    · exact ⟨rfl, k, j, _, hin, hj, setJob_same _ _ _, rfl, rfl, rfl, .inl ⟨⟨c, hpc⟩, rfl⟩⟩
  | tick k j hd hin hj hpc =>
    right
    constructor
    · obtain ⟨a, b, b', h1, h2, h3⟩ := left_job (f := loopWeight) (m := s.mem) (ev := s.events) hd hin hj (R := (· = ·))
        (j' := { j with prog := { j.prog with pc := .loaded j.prog.count } }) (by simp only [Job.left, hpc, loopWeight])
      rw [h2, ← h3]; exact h1
    · exact ⟨rfl, k, j, _, hin, hj, setJob_same _ _ _, rfl, rfl, rfl, .inr ⟨hpc, _, rfl⟩⟩
  | finish k j elapsed hd hin hj hpc hc =>
    left
    refine less_job (m := s.mem) hd hin hj ?_
    simp only [Job.left, hpc, loopWeight]
    omega

/-- In quiet mode there is no display. -/
theorem quiet_reachable {s : State} (h : Reachable D o ord w loaded level s) (hq : level > levelWarn) :
    ∀ k j, s.jobs k = some j → j.prog.pc = .start ∨ j.prog.pc = .returned := by
  have put : ∀ {jobs : Phase → Option Job} {k : Phase} {j' : Job}, (∀ k j, jobs k = some j → j.prog.pc = .start ∨ j.prog.pc = .returned) →
      (j'.prog.pc = .start ∨ j'.prog.pc = .returned) → ∀ k' j, setJob jobs k j' k' = some j → j.prog.pc = .start ∨ j.prog.pc = .returned := by
    intro jobs k j' h1 h2 k' j hj
    by_cases h : k' = k
    · subst h; rw [setJob_same] at hj; injection hj with hj; subst hj; exact h2
    · rw [setJob_other _ _ h] at hj; exact h1 k' j hj
  induction h with
  | start => intro k j hj; simp [start] at hj
  | step h0 hst ih =>
    cases hst with
    | symbols => exact put ih (.inl rfl)
    | extract => exact put ih (.inl rfl)
    | files => exact put ih (.inl rfl)
    | task k j t rest next m hd hj ht hc hp => exact put ih (ih k j hj)
    | leave k j t rest m hd hj ht hp => exact put ih (ih k j hj)
    | count k j rest n hd hj ht hw => exact put ih (ih k j hj)
    | workerDone k j n hd hj ht hw => exact put ih (ih k j hj)
    | close k j hd hj hq' hpc hc hwg => exact absurd hq hq'
    | quietReturn k j hd hin hj hq hpc hwg => exact put ih (.inr rfl)
    | first k j hd hin hj hq' hpc => exact absurd hq hq'
    | print k j c hd hin hj hpc => rcases ih k j hj with h | h <;> rw [hpc] at h <;> exact absurd h (by simp)
    | tick k j hd hin hj hpc => rcases ih k j hj with h | h <;> rw [hpc] at h <;> exact absurd h (by simp)
    | finish k j elapsed hd hin hj hpc hc => rcases ih k j hj with h | h <;> rw [hpc] at h <;> exact absurd h (by simp)
    | _ => exact ih

/-- Inside of a phase some goroutine can do a step that brings the end nearer, unless the display has returned. -/
theorem job_progress {s : State} (h : Reachable D o ord w loaded level s) (hd : s.dead = false) {k : Phase} {j : Job} (hin : s.pc.inside k)
    (hj : s.jobs k = some j) (hr : j.prog.pc ≠ .returned) :
    ∃ who acc s', Step D o ord w loaded level s who acc s' ∧ Less (s'.left stepWeight) (s.left stepWeight) := by
  have hi := inv_reachable h
  obtain ⟨n, d, h1, h2, h3, h4, h5, h6⟩ := (hi.ok k j hj).worker
  cases d with
  | false =>
    cases ht : j.todo with
    | nil =>
      refine ⟨_, _, _, .workerDone k j n hd hj ht (by rw [h1]; rfl), less_job (m := s.mem) (ev := s.events) hd hin hj ?_⟩
      simp only [Job.left, h1]
      simp
    | cons t rest =>
      by_cases hc : t = .count
      · subst hc
        rw [ht, counts_cons] at h3
        obtain ⟨n', rfl⟩ : ∃ n', n = n' + 1 := ⟨n - 1, by simp only at h3; omega⟩
        refine ⟨_, _, _, .count k j rest n' hd hj ht (by rw [h1]; rfl), less_job (m := s.mem) (ev := s.events) hd hin hj ?_⟩
        simp only [Job.left, ht, weights_cons, h1, Task.weight]
        simp
      · cases hp : perform D o ord w s.mem t with
        | go m next =>
          refine ⟨_, _, _, .task k j t rest next m hd hj ht hc hp, less_job hd hin hj ?_⟩
          have := weight_next hp
          simp only [Job.left, ht, weights_cons, weights_append]
          omega
        | leave m =>
          refine ⟨_, _, _, .leave k j t rest m hd hj ht hp, less_job hd hin hj ?_⟩
          have : 0 < t.weight := by cases t <;> simp [Task.weight]
          simp only [Job.left, ht, weights_cons]
          simp only [weights, List.map_nil, List.sum_nil]
          omega
        | panic => exact ⟨_, _, _, .panic k j t rest hd hj ht hp, less_pc hd (.inl rfl) (pc_left_pos hin)⟩
  | true =>
    simp only [if_true] at h2
    cases hpc : j.prog.pc with
    | returned => exact absurd hpc hr
    | start =>
      by_cases hq : level > levelWarn
      · refine ⟨_, _, _, .quietReturn k j hd hin hj hq hpc h2, less_job (m := s.mem) (ev := s.events) hd hin hj ?_⟩
        simp only [Job.left, hpc, stepWeight]; omega
      · refine ⟨_, _, _, .first k j hd hin hj hq hpc, less_job (m := s.mem) (ev := s.events) hd hin hj ?_⟩
        simp only [Job.left, hpc, stepWeight]; omega
    | loaded c =>
      refine ⟨_, _, _, .print k j c hd hin hj hpc, less_job (m := s.mem) hd hin hj ?_⟩
      simp only [Job.left, hpc, stepWeight]; omega
    | select =>
      by_cases hc : j.prog.closed = true
      · refine ⟨_, _, _, .finish k j 0 hd hin hj hpc hc, less_job (m := s.mem) hd hin hj ?_⟩
        simp only [Job.left, hpc, stepWeight]; omega
      · by_cases hq : level > levelWarn
        · rcases quiet_reachable h hq k j hj with h | h <;> rw [hpc] at h <;> exact absurd h (by simp)
        · simp only [Bool.not_eq_true] at hc
          refine ⟨_, _, _, .close k j hd hj hq (by rw [hpc]; simp) hc h2, less_job (m := s.mem) (ev := s.events) hd hin hj ?_⟩
          simp only [Job.left, hc]
          simp

theorem progress {s : State} (h : Reachable D o ord w loaded level s) (he : s.ended = none) :
    ∃ who acc s', Step D o ord w loaded level s who acc s' ∧ Less (s'.left stepWeight) (s.left stepWeight) := by
  have hi := inv_reachable h
  have hd : s.dead = false := by
    cases hd : s.dead with
    | false => rfl
    | true => simp [State.ended, hd] at he
  cases hpc : s.pc with
  | metadata =>
    cases hw : w s.mem.messages (.metadata (metadata D o)) with
    | some e => exact ⟨_, _, _, .metadataFails e hd hpc hw, less_pc hd (.inr (by simp [hpc, Pc.left])) (by simp [hpc, Pc.left])⟩
    | none => exact ⟨_, _, _, .metadata hd hpc hw, less_pc hd (.inr (by simp [hpc, Pc.left])) (by simp [hpc, Pc.left])⟩
  | loading =>
    cases hl : loaded with
    | error e => exact ⟨_, _, _, .loadFails e 0 hd hpc rfl, less_pc hd (.inr (by simp [hpc, Pc.left])) (by simp [hpc, Pc.left])⟩
    | ok pa => exact ⟨_, _, _, .load pa.1 pa.2 0 hd hpc rfl, less_pc hd (.inr (by simp [hpc, Pc.left])) (by simp [hpc, Pc.left])⟩
  | symbols project all => exact ⟨_, _, _, .symbols project all hd hpc, less_pc hd (.inr (by simp [hpc, Pc.left])) (by simp [hpc, Pc.left])⟩
  | visiting project all =>
    have hin : s.pc.inside .visiting := by rw [hpc]; trivial
    obtain ⟨j, hj⟩ := hi.now _ hin
    by_cases hr : j.prog.pc = .returned
    · exact ⟨_, _, _, .visited j project all hd hpc hj hr, less_pc hd (.inr (by simp [hpc, Pc.left])) (by simp [hpc, Pc.left])⟩
    · exact job_progress h hd hin hj hr
  | extracting project all =>
    cases hs : o.skipImplementations with
    | true => exact ⟨_, _, _, .skip project all hd hpc hs, less_pc hd (.inr (by simp [hpc, Pc.left])) (by simp [hpc, Pc.left])⟩
    | false =>
      cases he : extractBoth D ord project all s.mem.g with
      | none => exact ⟨_, _, _, .extractPanics project all hd hpc hs he, less_pc hd (.inl rfl) (by simp [hpc, Pc.left])⟩
      | some lr => exact ⟨_, _, _, .extract project all lr.1 lr.2 hd hpc hs he, less_pc hd (.inr (by simp [hpc, Pc.left])) (by simp [hpc, Pc.left])⟩
  | relating project types =>
    have hin : s.pc.inside .relating := by rw [hpc]; trivial
    obtain ⟨j, hj⟩ := hi.now _ hin
    by_cases hr : j.prog.pc = .returned
    · exact ⟨_, _, _, .related j project types hd hpc hj hr, less_pc hd (.inr (by simp [hpc, Pc.left])) (by simp [hpc, Pc.left])⟩
    · exact job_progress h hd hin hj hr
  | files project externals => exact ⟨_, _, _, .files project externals hd hpc, less_pc hd (.inr (by simp [hpc, Pc.left])) (by simp [hpc, Pc.left])⟩
  | writing externals =>
    have hin : s.pc.inside .writing := by rw [hpc]; trivial
    obtain ⟨j, hj⟩ := hi.now _ hin
    by_cases hr : j.prog.pc = .returned
    · cases he : s.mem.writeErr with
      | some e => exact ⟨_, _, _, .writeFailed j externals e hd hpc hj hr he, less_pc hd (.inr (by simp [hpc, Pc.left])) (by simp [hpc, Pc.left])⟩
      | none => exact ⟨_, _, _, .written j externals hd hpc hj hr he, less_pc hd (.inr (by simp [hpc, Pc.left])) (by simp [hpc, Pc.left])⟩
    · exact job_progress h hd hin hj hr
  | externals rest =>
    cases rest with
    | nil => exact ⟨_, _, _, .finished hd hpc, less_pc hd (.inr (by simp [hpc, Pc.left])) (by simp [hpc, Pc.left])⟩
    | cons m rest =>
      cases hw : w s.mem.messages m with
      | some e => exact ⟨_, _, _, .externalFails m rest e hd hpc hw, less_pc hd (.inr (by simp [hpc, Pc.left])) (by simp [hpc, Pc.left])⟩
      | none => exact ⟨_, _, _, .external m rest hd hpc hw, .inr (by simp [State.left, State.inner, hd, hpc, Pc.left])⟩
  | returned e => cases e <;> simp [State.ended, hd, hpc] at he

end ConcurrentIndex

/-- **C92**, it ends: as long as `Index` is not over some goroutine can go on, and it can be brought to its end from wherever it is. -/
theorem C92_can_end (D : Deps) (o : Opts) (ord : MapOrders) (w : Writer) (loaded : Except Str (GoMap Package × GoMap Package)) (level : Level)
    (s : ConcurrentIndex.State) (h : ConcurrentIndex.Reachable D o ord w loaded level s) :
    ∃ s' out, ConcurrentIndex.Steps D o ord w loaded level s s' ∧ s'.ended = some out := by
  generalize hm : s.left stepWeight = m
  induction m using less_wf.induction generalizing s with
  | h m ih =>
    cases he : s.ended with
    | some out => exact ⟨s, out, .refl s, he⟩
    | none =>
      obtain ⟨who, acc, s', hst, hlt⟩ := ConcurrentIndex.progress h he
      obtain ⟨s'', out, h1, h2⟩ := ih _ (hm ▸ hlt) s' (.step h hst) rfl
      exact ⟨s'', out, .step hst h1, h2⟩

/-- **C92**, it ends (2): there is no infinite schedule in which the ticker fires only finitely often; from some point on only the display
would move. -/
theorem C92_no_infinite_schedule (D : Deps) (o : Opts) (ord : MapOrders) (w : Writer) (loaded : Except Str (GoMap Package × GoMap Package)) (level : Level)
    (run : Nat → ConcurrentIndex.State) (who : Nat → Who) (acc : Nat → List Access) (h0 : ConcurrentIndex.Reachable D o ord w loaded level (run 0))
    (hrun : ∀ n, ConcurrentIndex.Step D o ord w loaded level (run n) (who n) (acc n) (run (n + 1))) :
    ∃ n, ∀ n' ≥ n, Display (run n') (who n') (run (n' + 1)) := by
  have hr : ∀ n, ConcurrentIndex.Reachable D o ord w loaded level (run n) := by
    intro n
    induction n with
    | zero => exact h0
    | succ n ih => exact .step ih (hrun n)
  have hs := fun n => step_less (inv_reachable (hr n)) (hrun n)
  suffices ∀ m n, (run n).left loopWeight = m → ∃ N, ∀ n' ≥ N, Display (run n') (who n') (run (n' + 1)) from this _ 0 rfl
  intro m
  induction m using less_wf.induction with
  | h m ih =>
    intro n hn
    by_cases hex : ∃ k ≥ n, Less ((run (k + 1)).left loopWeight) ((run k).left loopWeight) ∧ (run k).left loopWeight = m
    · obtain ⟨k, -, h1, h2⟩ := hex
      exact ih _ (h2 ▸ h1) (k + 1) rfl
    · refine ⟨n, ?_⟩
      have heq : ∀ k, (run (n + k)).left loopWeight = m := by
        intro k
        induction k with
        | zero => exact hn
        | succ k ihk =>
          rcases hs (n + k) with h | ⟨h, -⟩
          · exact absurd ⟨n + k, by omega, h, ihk⟩ hex
          · rw [← ihk]; exact h
      intro n' hn'
      obtain ⟨k, rfl⟩ : ∃ k, n' = n + k := ⟨n' - n, by omega⟩
      rcases hs (n + k) with h | ⟨-, h⟩
      · exact absurd ⟨n + k, by omega, h, heq k⟩ hex
      · exact h

end Verif
