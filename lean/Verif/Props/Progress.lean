import Verif.Model.Progress
/-! # C60: progress reporting -/
namespace Verif
open Output Cmd Progress

namespace Progress

def unfinished (ws : List Worker) : Nat := (ws.filter (fun w => !w.done)).length
def leftOver (ws : List Worker) : Nat := (ws.map (·.left)).sum

theorem unfinished_set {ws : List Worker} {i : Nat} {w : Worker} (h : ws[i]? = some w) (w' : Worker) :
    unfinished (ws.set i w') + (if w.done then 0 else 1) = unfinished ws + (if w'.done then 0 else 1) := by
  induction ws generalizing i with
  | nil => simp at h
  | cons a l ih =>
    cases i with
    | zero =>
      simp only [List.getElem?_cons_zero, Option.some.injEq] at h
      subst h
      simp only [List.set_cons_zero, unfinished]
      cases ha : a.done <;> cases hw : w'.done <;> simp [ha, hw]
    | succ i =>
      simp only [List.getElem?_cons_succ] at h
      have := ih h
      simp only [List.set_cons_succ, unfinished] at this ⊢
      cases ha : a.done <;> simp only [List.filter_cons, ha, Bool.not_false, Bool.not_true, if_true, Bool.false_eq_true, if_false, List.length_cons] <;> omega

theorem leftOver_set {ws : List Worker} {i : Nat} {w : Worker} (h : ws[i]? = some w) (w' : Worker) :
    leftOver (ws.set i w') + w.left = leftOver ws + w'.left := by
  induction ws generalizing i with
  | nil => simp at h
  | cons a l ih =>
    cases i with
    | zero =>
      simp only [List.getElem?_cons_zero, Option.some.injEq] at h
      subst h
      simp only [List.set_cons_zero, leftOver, List.map_cons, List.sum_cons]
      omega
    | succ i =>
      simp only [List.getElem?_cons_succ] at h
      have := ih h
      simp only [List.set_cons_succ, leftOver, List.map_cons, List.sum_cons] at this ⊢
      omega

/-- What the caller has printed so far: counts that never go back and are at most the present count. -/
def Printed (level : Level) (n : Nat) (s : State) : Prop :=
  match s.pc with
  | .start => s.out = []
  | .loaded c => ¬ level > levelWarn ∧ ∃ cs : List Nat, s.out = cs.map (Line.progress · n) ∧ (cs ++ [c]).Pairwise (· ≤ ·) ∧ c ≤ s.count
  | .select => ¬ level > levelWarn ∧ ∃ cs : List Nat, s.out = cs.map (Line.progress · n) ∧ cs ≠ [] ∧ cs.Pairwise (· ≤ ·) ∧ ∀ c ∈ cs, c ≤ s.count
  | .returned => s.wg = 0 ∧ if level > levelWarn then s.out = [] else
      ∃ (cs : List Nat) (elapsed : Int), cs ≠ [] ∧ (cs ++ [n]).Pairwise (· ≤ ·) ∧ s.out = cs.map (Line.progress · n) ++ [.progress n n] ++
        (if level < levelWarn then [.finished (humanElapsed elapsed)] else []) ++ [.newline]

structure Ok (level : Level) (tasks : List Nat) (n : Nat) (s : State) : Prop where
  wg : s.wg = unfinished s.workers
  length : s.workers.length = tasks.length
  count : s.count + leftOver s.workers = tasks.sum
  closed : s.closed = true → s.wg = 0
  printed : Printed level n s

theorem ok_start (level : Level) (tasks : List Nat) (n : Nat) : Ok level tasks n (start tasks) where
  wg := by
    simp only [start, unfinished]
    induction tasks with
    | nil => rfl
    | cons a l ih => simp only [List.map_cons, List.filter_cons, Bool.not_false, if_true, List.length_cons]; rw [ih]
  length := by simp [start]
  count := by simp [start, leftOver, Function.comp_def]
  closed := by simp [start]
  printed := rfl

theorem printed_mono {level : Level} {n : Nat} {s s' : State} (h : Printed level n s) (hpc : s'.pc = s.pc) (hout : s'.out = s.out)
    (hc : s.count ≤ s'.count) (hwg : s.wg = 0 → s'.wg = 0) : Printed level n s' := by
  unfold Printed at h ⊢
  rw [hpc, hout]
  cases hs : s.pc with
  | start => rw [hs] at h; exact h
  | loaded c => rw [hs] at h; obtain ⟨h1, cs, h2, h3, h4⟩ := h; exact ⟨h1, cs, h2, h3, by omega⟩
  | select => rw [hs] at h; obtain ⟨h1, cs, h2, h3, h4, h5⟩ := h; exact ⟨h1, cs, h2, h3, h4, fun c hc' => Nat.le_trans (h5 c hc') hc⟩
  | returned => rw [hs] at h; exact ⟨hwg h.1, h.2⟩

theorem ok_step {level : Level} {tasks : List Nat} {n : Nat} (hn : tasks.sum ≤ n) {s s' : State} (h : Ok level tasks n s)
    (hst : Step level n s s') : Ok level tasks n s' := by
  obtain ⟨h1, h2, h3, h4, h5⟩ := h
  cases hst with
  | work i k hi =>
    have hu := unfinished_set hi ⟨k, false⟩
    have hl := leftOver_set hi ⟨k, false⟩
    simp only [Bool.false_eq_true, if_false] at hu hl
    exact ⟨by show s.wg = unfinished (s.workers.set i ⟨k, false⟩); omega, by simpa using h2, by show s.count + 1 + leftOver (s.workers.set i ⟨k, false⟩) = tasks.sum; omega, h4, printed_mono h5 rfl rfl (by simp) (fun h => h)⟩
  | workerDone i k hi =>
    have hu := unfinished_set hi ⟨k, true⟩
    have hl := leftOver_set hi ⟨k, true⟩
    simp only [Bool.false_eq_true, if_false, if_true] at hu hl
    exact ⟨by show s.wg - 1 = unfinished (s.workers.set i ⟨k, true⟩); omega, by simpa using h2, by show s.count + leftOver (s.workers.set i ⟨k, true⟩) = tasks.sum; omega, fun hc => by have := h4 hc; show s.wg - 1 = 0; omega,
      printed_mono h5 rfl rfl (Nat.le_refl _) (fun h => by show s.wg - 1 = 0; omega)⟩
  | quietReturn hq hpc hwg =>
    refine ⟨h1, h2, h3, h4, ?_⟩
    unfold Printed at h5 ⊢
    rw [hpc] at h5
    simp only [if_pos hq]
    exact ⟨hwg, h5⟩
  | close hq hc hwg => exact ⟨h1, h2, h3, fun _ => hwg, printed_mono h5 rfl rfl (Nat.le_refl _) (fun h => h)⟩
  | first hq hpc =>
    refine ⟨h1, h2, h3, h4, ?_⟩
    unfold Printed at h5 ⊢
    rw [hpc] at h5
    exact ⟨hq, [], h5, by simp, Nat.le_refl _⟩
  | print c hpc =>
    refine ⟨h1, h2, h3, h4, ?_⟩
    unfold Printed at h5 ⊢
    rw [hpc] at h5
    obtain ⟨hq, cs, e, hp, hc⟩ := h5
    refine ⟨hq, cs ++ [c], ?_, by simp, hp, ?_⟩
    · simp only [e, List.map_append, List.map_cons, List.map_nil]
    · intro x hx
      rcases List.mem_append.1 hx with hx | hx
      · exact Nat.le_trans ((List.pairwise_append.1 hp).2.2 x hx c (by simp)) hc
      · simp only [List.mem_singleton] at hx; subst hx; exact hc
  | tick hpc =>
    refine ⟨h1, h2, h3, h4, ?_⟩
    unfold Printed at h5 ⊢
    rw [hpc] at h5
    obtain ⟨hq, cs, e, _, hp, hc⟩ := h5
    exact ⟨hq, cs, e, List.pairwise_append.2 ⟨hp, by simp, fun x hx y hy => by simp only [List.mem_singleton] at hy; subst hy; exact hc x hx⟩, Nat.le_refl _⟩
  | finish elapsed hpc hc =>
    refine ⟨h1, h2, h3, h4, ?_⟩
    unfold Printed at h5 ⊢
    rw [hpc] at h5
    obtain ⟨hq, cs, e, hne, hp, hle⟩ := h5
    simp only [if_neg hq]
    refine ⟨h4 hc, cs, elapsed, hne, ?_, by rw [e]⟩
    refine List.pairwise_append.2 ⟨hp, by simp, fun x hx y hy => ?_⟩
    simp only [List.mem_singleton] at hy
    subst hy
    have := hle x hx
    omega

theorem reachable_ok {level : Level} {tasks : List Nat} {n : Nat} (hn : tasks.sum ≤ n) {s : State} (h : Reachable level tasks n s) :
    Ok level tasks n s := by
  induction h with
  | start => exact ok_start level tasks n
  | step _ hst ih => exact ok_step hn ih hst

theorem unfinished_zero {ws : List Worker} (h : unfinished ws = 0) : ∀ w ∈ ws, w.done = true := by
  intro w hw
  cases hd : w.done with
  | true => rfl
  | false =>
    exfalso
    have : w ∈ ws.filter (fun w => !w.done) := List.mem_filter.2 ⟨hw, by simp [hd]⟩
    unfold unfinished at h
    rw [List.length_eq_zero_iff] at h
    rw [h] at this
    simp at this

/-- How many steps other than those of the ticker are still possible at most. -/
def fuel (s : State) : Nat :=
  leftOver s.workers + s.wg + (if s.closed then 0 else 1) +
    (match s.pc with | .start => 3 | .loaded _ => 2 | .select => 1 | .returned => 0)

/-- The same without telling the two states of the printing loop apart. -/
def supply (s : State) : Nat :=
  leftOver s.workers + s.wg + (if s.closed then 0 else 1) +
    (match s.pc with | .start => 2 | .loaded _ => 1 | .select => 1 | .returned => 0)

end Progress

/-- **C60**, safety. Let `tasks` be how often each worker would count, `n` at least their sum. In every schedule: when the call has
returned, every worker has finished; in quiet mode it has then printed nothing; otherwise it has printed at least one progress line,
counts that never go back, and then the line `n/n`, the time (only with more verbosity) and the end of the line.  Before it returns it
has printed a sequence of counts that never go back and were all reached. -/
theorem C60_progress (level : Level) (tasks : List Nat) (n : Nat) (hn : tasks.sum ≤ n) (s : Progress.State) (h : Progress.Reachable level tasks n s) :
    (s.pc = .returned → (∀ w ∈ s.workers, w.done = true) ∧ s.workers.length = tasks.length ∧
      (level ≤ levelWarn → ∃ (cs : List Nat) (elapsed : Int), cs ≠ [] ∧ (cs ++ [n]).Pairwise (· ≤ ·) ∧
        s.out = cs.map (Line.progress · n) ++ [.progress n n] ++ (if level < levelWarn then [.finished (humanElapsed elapsed)] else []) ++ [.newline])) ∧
    (level > levelWarn → s.out = []) ∧
    (s.pc ≠ .returned → ∃ cs : List Nat, s.out = cs.map (Line.progress · n) ∧ cs.Pairwise (· ≤ ·) ∧ ∀ c ∈ cs, c ≤ s.count) ∧
    s.count ≤ n := by
  have hok := reachable_ok hn h
  have hp := hok.printed
  unfold Printed at hp
  refine ⟨?_, ?_, ?_, by have := hok.count; omega⟩
  · intro hr
    rw [hr] at hp
    obtain ⟨hwg, hp⟩ := hp
    refine ⟨unfinished_zero (by rw [← hok.wg]; exact hwg), hok.length, fun hl => ?_⟩
    rw [if_neg (by unfold Level at *; omega)] at hp
    exact hp
  · intro hq
    cases hpc : s.pc with
    | start => rw [hpc] at hp; exact hp
    | loaded c => rw [hpc] at hp; exact absurd hq hp.1
    | select => rw [hpc] at hp; exact absurd hq hp.1
    | returned => rw [hpc] at hp; simp only [if_pos hq] at hp; exact hp.2
  · intro hr
    cases hpc : s.pc with
    | start => rw [hpc] at hp; exact ⟨[], hp, by simp, by simp⟩
    | loaded c =>
      rw [hpc] at hp
      obtain ⟨_, cs, h1, h2, h3⟩ := hp
      have h4 := List.pairwise_append.1 h2
      exact ⟨cs, h1, h4.1, fun x hx => Nat.le_trans (h4.2.2 x hx c (by simp)) h3⟩
    | select => rw [hpc] at hp; obtain ⟨_, cs, h1, _, h2, h3⟩ := hp; exact ⟨cs, h1, h2, h3⟩
    | returned => exact absurd hpc hr

/-- If no worker leaves early, `n/n` at the end is true: the counter is the sum of all tasks. -/
theorem C60_count_complete (level : Level) (tasks : List Nat) (n : Nat) (hn : tasks.sum ≤ n) (s : Progress.State)
    (h : Progress.Reachable level tasks n s) (hall : ∀ w ∈ s.workers, w.left = 0) : s.count = tasks.sum := by
  have hc := (reachable_ok hn h).count
  have : leftOver s.workers = 0 := by
    unfold leftOver
    generalize s.workers = ws at hall
    induction ws with
    | nil => rfl
    | cons a l ih => simp only [List.map_cons, List.sum_cons]; rw [hall a (by simp), ih (fun w hw => hall w (by simp [hw]))]
  omega

/-- After the call has returned it prints nothing more. -/
theorem C60_silent_after_return (level : Level) (n : Nat) (s s' : Progress.State) (hr : s.pc = .returned) (h : Progress.Step level n s s') :
    s'.pc = .returned ∧ s'.out = s.out := by
  cases h <;> simp_all

/-- No deadlock: until the call has returned some goroutine can do a step that brings the end nearer. -/
theorem C60_no_deadlock (level : Level) (tasks : List Nat) (n : Nat) (hn : tasks.sum ≤ n) (s : Progress.State)
    (h : Progress.Reachable level tasks n s) (hr : s.pc ≠ .returned) : ∃ s', Progress.Step level n s s' ∧ fuel s' < fuel s := by
  have hok := reachable_ok hn h
  have hp := hok.printed
  unfold Printed at hp
  by_cases hu : ∃ (i k : Nat), s.workers[i]? = some (Worker.mk k false)
  · obtain ⟨i, k, hi⟩ := hu
    refine ⟨_, .workerDone i k hi, ?_⟩
    have h1 := unfinished_set hi ⟨k, true⟩
    have h2 := leftOver_set hi ⟨k, true⟩
    have h3 := hok.wg
    simp only [Bool.false_eq_true, if_false, if_true] at h1 h2
    unfold fuel
    simp only
    omega
  · have hwg : s.wg = 0 := by
      rw [hok.wg]
      unfold unfinished
      rw [List.length_eq_zero_iff, List.filter_eq_nil_iff]
      intro w hw
      obtain ⟨i, hi, e⟩ := List.mem_iff_getElem.1 hw
      cases hd : w.done with
      | true => simp
      | false =>
        refine absurd ⟨i, w.left, ?_⟩ hu
        rw [List.getElem?_eq_getElem hi, e, ← hd]
    cases hpc : s.pc with
    | start =>
      by_cases hq : level > levelWarn
      · exact ⟨_, .quietReturn hq hpc hwg, by simp [fuel, hpc]⟩
      · exact ⟨_, .first hq hpc, by simp [fuel, hpc]⟩
    | loaded c => exact ⟨_, .print c hpc, by simp [fuel, hpc]⟩
    | select =>
      rw [hpc] at hp
      cases hc : s.closed with
      | true => exact ⟨_, .finish 0 hpc hc, by simp [fuel, hpc, hc]⟩
      | false => exact ⟨_, .close hp.1 hc hwg, by simp [fuel, hpc, hc]⟩
    | returned => exact absurd hpc hr

/-- Only the ticker can delay the end: every other step uses up a bounded supply, which starts as the work to do (counts and workers) plus 3. So in every
schedule all but that many steps are progress lines. -/
theorem C60_only_ticker_repeats (level : Level) (tasks : List Nat) (n : Nat) (hn : tasks.sum ≤ n) (s s' : Progress.State)
    (h : Progress.Reachable level tasks n s) (hst : Progress.Step level n s s') :
    supply s' < supply s ∨ supply s' = supply s ∧ ((s.pc = .select ∧ s'.pc = .loaded s.count) ∨ ∃ c, s.pc = .loaded c ∧ s'.pc = .select) := by
  have hok := reachable_ok hn h
  cases hst with
  | work i k hi =>
    have h2 := leftOver_set hi ⟨k, false⟩
    simp only at h2
    left
    unfold supply
    simp only
    omega
  | workerDone i k hi =>
    have h1 := unfinished_set hi ⟨k, true⟩
    have h2 := leftOver_set hi ⟨k, true⟩
    have h3 := hok.wg
    simp only [Bool.false_eq_true, if_false, if_true] at h1 h2
    left
    unfold supply
    simp only
    omega
  | quietReturn hq hpc hwg => left; simp [supply, hpc]
  | close hq hc hwg => left; simp [supply, hc]
  | first hq hpc => left; simp [supply, hpc]
  | print c hpc => exact .inr ⟨by simp [supply, hpc], .inr ⟨c, hpc, rfl⟩⟩
  | tick hpc => exact .inr ⟨by simp [supply, hpc], .inl ⟨hpc, rfl⟩⟩
  | finish e hpc hc => left; simp [supply, hpc]

theorem C60_supply_start (tasks : List Nat) : supply (Progress.start tasks) = tasks.sum + tasks.length + 3 := by
  simp [supply, Progress.start, leftOver, Function.comp_def]

/-- From every reachable state the call can still return. -/
theorem C60_can_return (level : Level) (tasks : List Nat) (n : Nat) (hn : tasks.sum ≤ n) (s : Progress.State)
    (h : Progress.Reachable level tasks n s) : ∃ s', Progress.Steps level n s s' ∧ s'.pc = .returned := by
  generalize hf : fuel s = f
  induction f using Nat.strongRecOn generalizing s with
  | ind f ih =>
    by_cases hr : s.pc = .returned
    · exact ⟨s, .refl s, hr⟩
    · obtain ⟨s', hst, hlt⟩ := C60_no_deadlock level tasks n hn s h hr
      obtain ⟨s'', h1, h2⟩ := ih (fuel s') (by omega) s' (.step h hst) rfl
      exact ⟨s'', .step hst h1, h2⟩

/-- **C60**, `WithProgress`: the function's result is returned; nothing is printed in quiet mode, otherwise the name first; a time only
with more verbosity than by default. -/
theorem C60_with_progress {ε : Type} (level : Level) (name : Str) (e : ε) (after : Level) (d : Int) :
    (withProgress level name (e, after) d).1 = e ∧
    (level > levelWarn → (withProgress level name (e, after) d).2 = []) ∧
    (level ≤ levelWarn → levelWarn ≤ after → (withProgress level name (e, after) d).2 = [.text (name ++ go!"\n")]) ∧
    (level ≤ levelWarn → after < levelWarn → (withProgress level name (e, after) d).2 =
      [.text (name ++ go!"\n"), .text go!"Finished in ", .time (humanElapsed d), .text go!".\n\n"]) := by
  unfold withProgress
  by_cases h : level > levelWarn
  · have h' : ¬ level ≤ levelWarn := by unfold Level at *; omega
    simp [h]
    unfold Level at *
    omega
  · by_cases h2 : after < levelWarn
    · have h' : ¬ levelWarn ≤ after := by unfold Level at *; omega
      simp [h, h2, h']
    · simp [h, h2]

/-! ## An execution with two workers, one of which leaves early -/
namespace ProgressSample

def tasks : List Nat := [1, 2]

theorem run_returns : ∃ s, Progress.Reachable levelInfo tasks 3 s ∧ s.pc = .returned ∧ s.count = 2 ∧
    s.out = [.progress 1 3, .progress 2 3, .progress 3 3, .finished 5, .newline] := by
  refine ⟨_, .step (.step (.step (.step (.step (.step (.step (.step (.step (.step .start (.work 0 0 rfl)) (.first (by decide) rfl)) (.work 1 1 rfl))
    (.print 1 rfl)) (.workerDone 0 0 rfl)) (.workerDone 1 1 rfl)) (.tick rfl)) (.close (by decide) rfl rfl)) (.print 2 rfl)) (.finish 5 rfl rfl), rfl, rfl, ?_⟩
  decide +kernel

example : tasks.sum ≤ 3 := by decide

end ProgressSample
end Verif
