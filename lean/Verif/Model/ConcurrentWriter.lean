import Verif.Model.Cmd
/-!
# The writer of the command line program under concurrent calls (cmd/scip-go/main.go:156-186)

Goroutines are numbered; each makes its calls of the writer one after the other.  A call is split at every point at which another
goroutine can run: marshalling, taking the mutex, every single `write` system call of `file.Write` (which writes any non-empty part of
what is left, see os.File.Write and poll.FD.Write), leaving `file.Write`, releasing the mutex and returning.
-/
namespace Verif.ConcurrentWriter
open Pb

/-- Where a goroutine is within its current call. -/
inductive Pc where
  /-- Between two calls. -/
  | outside
  /-- Marshalled (main.go:171), before `fileMutex.Lock()` (main.go:177). -/
  | marshalled (m : Index.Message) (b : Bytes)
  /-- Holds the mutex, in `file.Write(b)` (main.go:180) with `rest` still to be written. -/
  | writing (m : Index.Message) (b rest : Bytes)
  /-- `file.Write` has returned, the deferred `fileMutex.Unlock()` (main.go:178) has not run yet. -/
  | unlocking (m : Index.Message) (ok : Bool)

/-- The calls a goroutine will still make, where it is, and what its calls so far returned (true: no error). -/
structure Thread where
  todo : List Index.Message
  pc : Pc
  returned : List (Index.Message × Bool)

/-- The file, the mutex (held or not) and the goroutines. -/
structure State where
  file : Bytes
  locked : Bool
  threads : Nat → Thread

def State.set (s : State) (t : Nat) (x : Thread) : State := { s with threads := fun u => if u = t then x else s.threads u }

/-- One step of goroutine `t`. -/
inductive Step : State → State → Prop where
  /-- main.go:158-171: the index is built and marshalled, without the mutex. -/
  | marshal {s : State} (t : Nat) (m : Index.Message) (ms : List Index.Message) (b : Bytes) (hpc : (s.threads t).pc = .outside)
      (htodo : (s.threads t).todo = m :: ms) (hb : Pb.marshal (indexOf m) = some b) :
      Step s (s.set t ⟨ms, .marshalled m b, (s.threads t).returned⟩)
  /-- main.go:172-174: marshalling failed, the call returns an error. -/
  | marshalFails {s : State} (t : Nat) (m : Index.Message) (ms : List Index.Message) (hpc : (s.threads t).pc = .outside)
      (htodo : (s.threads t).todo = m :: ms) (hb : Pb.marshal (indexOf m) = none) :
      Step s (s.set t ⟨ms, .outside, (s.threads t).returned ++ [(m, false)]⟩)
  /-- main.go:177: the mutex is taken once it is free. -/
  | lock {s : State} (t : Nat) (m : Index.Message) (b : Bytes) (hpc : (s.threads t).pc = .marshalled m b) (hfree : s.locked = false) :
      Step s { s.set t { s.threads t with pc := .writing m b b } with locked := true }
  /-- main.go:180: one `write` system call appends some of the remaining bytes. -/
  | write {s : State} (t : Nat) (m : Index.Message) (b x y : Bytes) (hpc : (s.threads t).pc = .writing m b (x ++ y)) (hx : x ≠ []) :
      Step s { s.set t { s.threads t with pc := .writing m b y } with file := s.file ++ x }
  /-- main.go:180: everything is written, `file.Write` returns. -/
  | wrote {s : State} (t : Nat) (m : Index.Message) (b : Bytes) (hpc : (s.threads t).pc = .writing m b []) :
      Step s (s.set t { s.threads t with pc := .unlocking m true })
  /-- main.go:180-182: a `write` system call fails with bytes left over. -/
  | writeFails {s : State} (t : Nat) (m : Index.Message) (b rest : Bytes) (hpc : (s.threads t).pc = .writing m b rest) (hrest : rest ≠ []) :
      Step s (s.set t { s.threads t with pc := .unlocking m false })
  /-- main.go:178: the deferred unlock, then the call returns (main.go:181, 184). -/
  | unlock {s : State} (t : Nat) (m : Index.Message) (ok : Bool) (hpc : (s.threads t).pc = .unlocking m ok) :
      Step s { s.set t ⟨(s.threads t).todo, .outside, (s.threads t).returned ++ [(m, ok)]⟩ with locked := false }

/-- At the beginning the file is empty (main.go:149), nobody holds the mutex, goroutine `t` will write `calls t`. -/
def start (calls : Nat → List Index.Message) : State := ⟨[], false, fun t => ⟨calls t, .outside, []⟩⟩

/-- The states that some schedule leads to. -/
inductive Reachable (calls : Nat → List Index.Message) : State → Prop where
  | start : Reachable calls (start calls)
  | step {s s' : State} : Reachable calls s → Step s s' → Reachable calls s'

end Verif.ConcurrentWriter
