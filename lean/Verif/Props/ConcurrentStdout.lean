import Verif.Lemmas.ConcurrentStdout
import Verif.Props.ConcurrentIndex
/-! # C89, C92: standard output in every schedule of the goroutines of `Index` -/
namespace Verif
open Index Progress Output Cmd ConcurrentIndex

/-- **C89**, every schedule: what the goroutines of `Index` have written to standard output when it is over is what Model/Stdout.lean describes
(what is said there about the order of progress and documents is all that the goroutines can do). -/
theorem C89_every_schedule (D : Deps) (o : Opts) (ord : MapOrders) (hord : Spec.ValidOrders ord.impls) (disk : Disk)
    (loaded : Except Str (GoMap Package × GoMap Package)) (level : Level) (s : ConcurrentIndex.State)
    (h : ConcurrentIndex.Reachable D o ord (writer disk) loaded level s) (out : Outcome) (he : s.ended = some out) :
    Stdout.Indexing disk level o.skipImplementations loaded (index D o ord (writer disk) loaded) (shown disk level [] s.events) := by
  have hr := C92_every_schedule D o ord (writer disk) loaded level s h out he
  have hs := (shown'_reachable hord h).shows
  rw [← hr]
  unfold Stdout.Indexing
  split
  · exact shows_extends hs out
  · rename_i hout
    unfold State.ended at he
    split at he
    · injection he with he; subst he; exact absurd rfl hout
    · unfold Shows at hs
      simp only at hs
      split at he
      · rename_i hpc; rw [hpc] at hs; exact hs out
      · rename_i hpc; rw [hpc] at hs; exact hs out
      · exact absurd he (by simp)

/-- **C89**, at any time (so also when the process is killed): what is on standard output is a beginning of something described there; the bytes
of the index in it are exactly those of the messages written so far; and with `--quiet` there is nothing else. -/
theorem C89_at_any_time (D : Deps) (o : Opts) (ord : MapOrders) (hord : Spec.ValidOrders ord.impls) (disk : Disk)
    (loaded : Except Str (GoMap Package × GoMap Package)) (level : Level) (s : ConcurrentIndex.State)
    (h : ConcurrentIndex.Reachable D o ord (writer disk) loaded level s) :
    (∃ whole, Stdout.Whole disk level o.skipImplementations loaded ⟨s.mem.messages, .crash⟩ whole ∧ shown disk level [] s.events <+: whole) ∧
    Spec.indexPart (shown disk level [] s.events) = contentAfter disk s.mem.messages ∧
    s.mem.messages <+: (index D o ord (writer disk) loaded).messages ∧
    (level > levelWarn → ∀ showTime, Stdout.render showTime (shown disk level [] s.events) = contentAfter disk s.mem.messages) := by
  have hs := shown'_reachable hord h
  obtain ⟨whole, h1, h2⟩ := shows_extends hs.shows .crash
  have hidx : ∀ (c : Pb.Bytes) (es : List Event), c ++ Spec.indexPart (shown disk level c es) = (wroteOf es).foldl (fun c m => c ++ appended disk c m) c := by
    intro c es
    induction es generalizing c with
    | nil => simp [shown, wroteOf, Spec.indexPart]
    | cons e es ih =>
      cases e with
      | loaded d =>
        simp only [shown, wroteOf]
        rw [Stdout.indexPart_append, Stdout.loading, Stdout.indexPart_none (Stdout.task_noIndex _ _ _), List.nil_append]
        exact ih c
      | line k l =>
        have hl : Spec.NoIndex (Stdout.ofLine k.task l) := by
          intro x hx b
          cases l <;> simp [Stdout.ofLine] at hx
          · subst hx; simp
          · rcases hx with h | h | h <;> subst h <;> simp
          · subst hx; simp
        simp only [shown, wroteOf]
        rw [Stdout.indexPart_append, Stdout.indexPart_none hl, List.nil_append]
        exact ih c
      | wrote m =>
        simp only [shown, wroteOf, Spec.indexPart, List.foldl_cons]
        rw [← ih, List.append_assoc]
  have hpart : Spec.indexPart (shown disk level [] s.events) = contentAfter disk s.mem.messages := by
    have := hidx [] s.events
    rw [List.nil_append, hs.wrote] at this
    exact this
  refine ⟨⟨whole, h1, h2⟩, hpart, C92_at_any_time D o ord (writer disk) loaded level s h, ?_⟩
  intro hq showTime
  rw [Stdout.render_onlyIndex showTime (fun x hx => Stdout.whole_quiet hq h1 x (h2.subset hx)), hpart]

end Verif
