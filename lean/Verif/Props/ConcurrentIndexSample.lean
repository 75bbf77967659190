import Verif.Props.ConcurrentIndex
import Verif.Props.ConcurrentStdout
import Verif.Props.IndexSample
/-! # C92: a project with two files -/
namespace Verif.ConcurrentIndexSample
open Index Progress Output Cmd ConcurrentIndex IndexSample

/-- `Index` can be brought to its end, and then it has succeeded and written four messages: the metadata, two documents, one external symbol. -/
example : ∃ s, ConcurrentIndex.Reachable deps opts ord writer (.ok (project, all)) levelWarn s ∧ s.ended = some .ok ∧ s.mem.messages.length = 4 := by
  obtain ⟨s, out, h1, h2⟩ := C92_can_end deps opts ord writer (.ok (project, all)) levelWarn _ .start
  have hr : ∀ {a b}, ConcurrentIndex.Steps deps opts ord writer (.ok (project, all)) levelWarn a b →
      ConcurrentIndex.Reachable deps opts ord writer (.ok (project, all)) levelWarn a →
      ConcurrentIndex.Reachable deps opts ord writer (.ok (project, all)) levelWarn b := by
    intro a b h
    induction h with
    | refl s => exact id
    | step hst _ ih => exact fun h => ih (.step h hst)
  have hs := hr h1 .start
  have he := C92_every_schedule deps opts ord writer _ levelWarn s hs out h2
  have hd : (index deps opts ord writer (.ok (project, all))).outcome = .ok ∧ (index deps opts ord writer (.ok (project, all))).messages.length = 4 := by
    decide +kernel
  rw [← he] at hd
  obtain ⟨hd1, hd2⟩ := hd
  simp only at hd1 hd2
  subst hd1
  exact ⟨s, hs, h2, hd2⟩

/-- There are states in which two goroutines can go on: here the caller can load the counter while the working goroutine visits a package. -/
example : ∃ s s₁ s₂ acc₁ acc₂, ConcurrentIndex.Reachable deps opts ord writer (.ok (project, all)) levelWarn s ∧
    ConcurrentIndex.Step deps opts ord writer (.ok (project, all)) levelWarn s .caller acc₁ s₁ ∧
    ConcurrentIndex.Step deps opts ord writer (.ok (project, all)) levelWarn s (.worker .visiting) acc₂ s₂ ∧
    (Loc.counter, Mode.synchronised) ∈ acc₁ ∧ (Loc.tables, Mode.write) ∈ acc₂ := by
  have h1 := ConcurrentIndex.Reachable.step (D := deps) (o := opts) (ord := ord) (w := writer) (loaded := .ok (project, all)) (level := levelWarn)
    .start (.metadata rfl rfl rfl)
  have h2 := ConcurrentIndex.Reachable.step h1 (.load project all 0 rfl rfl rfl)
  have h3 := ConcurrentIndex.Reachable.step h2 (.symbols project all rfl rfl)
  have hv : (visitPackage opts.moduleRoot pkgP ([], setPkgSymbols (ord.all (all.map (·.2))) (newGlobal opts))).isSome = true := by decide +kernel
  obtain ⟨⟨docs, g⟩, hdg⟩ := Option.isSome_iff_exists.1 hv
  have htodo : packageTasks (sortedValues project) = [.package pkgP, .count] := by
    simp [packageTasks, sortedValues, project, GoMap.keys, GoMap.get, sortStrs, sortBy, insertBy]
  have h4 := ConcurrentIndex.Step.first (D := deps) (o := opts) (ord := ord) (w := writer) (loaded := .ok (project, all)) (level := levelWarn)
    (s := ⟨⟨[], setPkgSymbols (ord.all (all.map (·.2))) (newGlobal opts), fun _ => [], none, [.metadata (metadata deps opts)]⟩, .visiting project all,
      setJob (fun _ => none) .visiting (newJob (packageTasks (sortedValues project)) project.length), false,
      [.wrote (.metadata (metadata deps opts)), .loaded 0]⟩) .visiting _ rfl trivial rfl (by decide) rfl
  have h5 := ConcurrentIndex.Step.task (D := deps) (o := opts) (ord := ord) (w := writer) (loaded := .ok (project, all)) (level := levelWarn)
    (s := ⟨⟨[], setPkgSymbols (ord.all (all.map (·.2))) (newGlobal opts), fun _ => [], none, [.metadata (metadata deps opts)]⟩, .visiting project all,
      setJob (fun _ => none) .visiting (newJob (packageTasks (sortedValues project)) project.length), false,
      [.wrote (.metadata (metadata deps opts)), .loaded 0]⟩) .visiting _ (.package pkgP) [.count] []
      ⟨docs, g, fun _ => [], none, [.metadata (metadata deps opts)]⟩ rfl rfl htodo (by simp) (by simp only [perform, hdg])
  exact ⟨_, _, _, _, _, h3, h4, h5, by simp, by simp [Task.accesses]⟩

/-- A run with a disk that takes everything, without `--quiet`: it ends well, standard output is as described, and it is more than the index. -/
example : ∃ s, ConcurrentIndex.Reachable deps opts ord (Cmd.writer fun _ _ => none) (.ok (project, all)) levelWarn s ∧ s.ended = some .ok ∧
    Stdout.Whole (fun _ _ => none) levelWarn opts.skipImplementations (.ok (project, all)) ⟨s.mem.messages, .ok⟩
      (shown (fun _ _ => none) levelWarn [] s.events) ∧
    ∃ x ∈ shown (fun _ _ => none) levelWarn [] s.events, ∀ b, x ≠ .message b := by
  obtain ⟨s, out, h1, h2⟩ := C92_can_end deps opts ord (Cmd.writer fun _ _ => none) (.ok (project, all)) levelWarn _ .start
  have hr : ∀ {a b}, ConcurrentIndex.Steps deps opts ord (Cmd.writer fun _ _ => none) (.ok (project, all)) levelWarn a b →
      ConcurrentIndex.Reachable deps opts ord (Cmd.writer fun _ _ => none) (.ok (project, all)) levelWarn a →
      ConcurrentIndex.Reachable deps opts ord (Cmd.writer fun _ _ => none) (.ok (project, all)) levelWarn b := by
    intro a b h
    induction h with
    | refl s => exact id
    | step hst _ ih => exact fun h => ih (.step h hst)
  have hs := hr h1 .start
  have he := C92_every_schedule deps opts ord _ _ levelWarn s hs out h2
  have hd : (index deps opts ord (Cmd.writer fun _ _ => none) (.ok (project, all))).outcome = .ok := by decide +kernel
  have hi := C89_every_schedule deps opts ord ord_ok.impls _ _ levelWarn s hs out h2
  rw [← he] at hd hi
  simp only at hd
  subst hd
  simp only [Stdout.Indexing, reduceCtorEq, if_false] at hi
  refine ⟨s, hs, h2, hi, ?_⟩
  have hm := C92_at_any_time deps opts ord _ _ levelWarn s hs
  unfold Stdout.Whole at hi
  have hne : s.mem.messages = (index deps opts ord (Cmd.writer fun _ _ => none) (.ok (project, all))).messages := by rw [← he]
  have hlen : (index deps opts ord (Cmd.writer fun _ _ => none) (.ok (project, all))).messages.head? = some (.metadata (metadata deps opts)) := by
    decide +kernel
  have hwok : Cmd.writer (fun _ _ => none) [] (.metadata (metadata deps opts)) = none := by decide +kernel
  rw [← hne] at hlen
  cases hmm : s.mem.messages with
  | nil => rw [hmm] at hlen; simp at hlen
  | cons m rest =>
    rw [hmm] at hlen hi
    simp only [List.head?_cons, Option.some.injEq] at hlen
    subst hlen
    simp only [hwok] at hi
    obtain ⟨elapsed, v, i, mixed, total, _, _, _, hsh⟩ := hi
    rw [hsh]
    refine ⟨.text go!"Loading Packages\n", ?_, by simp⟩
    simp [Stdout.loading, Stdout.task, withProgress, levelWarn, Stdout.ofPiece]

end Verif.ConcurrentIndexSample
