import Verif.Model.Output
/-!
# internal/output/output.go:31-67 `WithProgressParallel`

The caller has started goroutines that increase the counter and finally call `wg.Done()`.  Each step below is one action at which other
goroutines can run in between.  The ticker may fire at any time; if both channels are ready `select` takes either.
-/
namespace Verif.Progress
open Output Cmd

/-- A working goroutine: how many times it would still increase the counter, and whether it has called `wg.Done()`.  It may leave early
(scip.go:155-157). -/
structure Worker where
  left : Nat
  done : Bool
  deriving DecidableEq

/-- What is printed: `\r<name> [<c>/<n>]`, ` Finished in <d>.`, and the end of the line. -/
inductive Line where
  | progress (c n : Nat)
  | finished (d : Int)
  | newline
  deriving DecidableEq

/-- Where the calling goroutine is. -/
inductive Pc where
  /-- Before the first progress line (output.go:32-53), also in the silent branch (output.go:32-35). -/
  | start
  /-- Has loaded the counter (output.go:49), has not printed it yet (output.go:50). -/
  | loaded (c : Nat)
  /-- In `select` (output.go:55). -/
  | select
  /-- Has returned. -/
  | returned
  deriving DecidableEq

/-- The counter, the wait group, the workers, whether the helper goroutine has closed `done` (output.go:40-43), the caller and what it
printed. -/
structure State where
  count : Nat
  wg : Nat
  workers : List Worker
  closed : Bool
  pc : Pc
  out : List Line

/-- One step; `level` is the log level, `n` the total, `elapsed` the time measured at the end (anything). -/
inductive Step (level : Level) (n : Nat) : State → State → Prop where
  /-- `atomic.AddUint64(&count, 1)` in a worker (scip.go:160, 214, 245, implementations.go:121). -/
  | work {s : State} (i k : Nat) (h : s.workers[i]? = some ⟨k + 1, false⟩) :
      Step level n s { s with count := s.count + 1, workers := s.workers.set i ⟨k, false⟩ }
  /-- `wg.Done()` in a worker (scip.go:127, 202, implementations.go:151), deferred, so also when it leaves early. -/
  | workerDone {s : State} (i k : Nat) (h : s.workers[i]? = some ⟨k, false⟩) :
      Step level n s { s with wg := s.wg - 1, workers := s.workers.set i ⟨k, true⟩ }
  /-- output.go:32-35: silent; `wg.Wait()` returns. -/
  | quietReturn {s : State} (hq : level > levelWarn) (hpc : s.pc = .start) (hwg : s.wg = 0) : Step level n s { s with pc := .returned }
  /-- output.go:40-43: the helper goroutine gets past `wg.Wait()` and closes the channel. It only exists if the caller is not silent. -/
  | close {s : State} (hq : ¬ level > levelWarn) (hc : s.closed = false) (hwg : s.wg = 0) : Step level n s { s with closed := true }
  /-- output.go:49, 53: the counter is loaded for the first line. -/
  | first {s : State} (hq : ¬ level > levelWarn) (hpc : s.pc = .start) : Step level n s { s with pc := .loaded s.count }
  /-- output.go:50: the line is printed. -/
  | print {s : State} (c : Nat) (hpc : s.pc = .loaded c) : Step level n s { s with pc := .select, out := s.out ++ [.progress c n] }
  /-- output.go:63-64: the ticker fired. -/
  | tick {s : State} (hpc : s.pc = .select) : Step level n s { s with pc := .loaded s.count }
  /-- output.go:56-62: everything is done. -/
  | finish {s : State} (elapsed : Int) (hpc : s.pc = .select) (hc : s.closed = true) :
      Step level n s { s with pc := .returned, out := s.out ++ [.progress n n] ++
        (if level < levelWarn then [.finished (humanElapsed elapsed)] else []) ++ [.newline] }

/-- The caller has done `wg.Add(len(workers))` before it started them. -/
def start (tasks : List Nat) : State := ⟨0, tasks.length, tasks.map (⟨·, false⟩), false, .start, []⟩

inductive Reachable (level : Level) (tasks : List Nat) (n : Nat) : State → Prop where
  | start : Reachable level tasks n (start tasks)
  | step {s s' : State} : Reachable level tasks n s → Step level n s s' → Reachable level tasks n s'

inductive Steps (level : Level) (n : Nat) : State → State → Prop where
  | refl (s : State) : Steps level n s s
  | step {s s' s'' : State} : Step level n s s' → Steps level n s' s'' → Steps level n s s''

end Verif.Progress
