import Verif.Model.Composer
import Verif.Spec.GoPackage
/-!
# `Composer.Compose` under concurrent calls (internal/symbols/composer.go:28-70)

Goroutines are numbered; each makes its calls of `Compose` on one shared composer one after the other.  A call is split at every point at
which another goroutine can run: the checks and the origin (composer.go:29-38), taking the mutex (composer.go:40), looking the object up in the
table (composer.go:43), describing it (composer.go:47-62), storing the symbol (composer.go:64-68), reading it back (composer.go:69) and the
deferred unlock (composer.go:41).  (A Go map must not be accessed by two goroutines at once; that they never do is part of C90.)
-/
namespace Verif.ConcurrentComposer
open Spec (Request)

/-- Where a goroutine is within its current call; `obj` is the object as given, `path` the path of its package. -/
inductive Pc where
  /-- Between two calls. -/
  | outside
  /-- Past composer.go:38, before `c.mu.Lock()`. -/
  | waiting (p : Option (Option ModIdent)) (obj : Obj) (path : Str)
  /-- Holds the mutex, before the lookup (composer.go:43). -/
  | looking (p : Option (Option ModIdent)) (obj : Obj) (path : Str)
  /-- Nothing found; before composer.go:47. -/
  | describing (p : Option (Option ModIdent)) (obj : Obj) (path : Str)
  /-- Descriptors found; before the map is updated (composer.go:64). -/
  | storing (p : Option (Option ModIdent)) (obj : Obj) (ds : List Descriptor)
  /-- The map is updated; before it is read (composer.go:69). -/
  | stored (p : Option (Option ModIdent)) (obj : Obj)
  /-- The result is known (composer.go:44, 61, 69), the deferred `c.mu.Unlock()` has not run yet. -/
  | unlocking (p : Option (Option ModIdent)) (obj : Obj) (answer : Str)

/-- The calls a goroutine will still make, where it is, and what its calls so far returned. -/
structure Thread where
  todo : List Request
  pc : Pc
  returned : List (Request × Str)

/-- The composer, its mutex (held or not) and the goroutines. -/
structure State where
  composer : Composer
  locked : Bool
  threads : Nat → Thread

/-- The state after goroutine `t` has become `x`. -/
def State.set (s : State) (t : Nat) (x : Thread) : State := { s with threads := fun u => if u = t then x else s.threads u }

/-- One step of goroutine `t`. -/
inductive Step (scopes : Scopes) : State → State → Prop where
  /-- composer.go:29-31: a nil object or an object without a package: the call returns "" without the mutex. -/
  | refuse {s : State} (t : Nat) (r : Request) (rs : List Request) (hpc : (s.threads t).pc = .outside) (htodo : (s.threads t).todo = r :: rs)
      (hr : ∀ obj, r.2 = some obj → obj.self.pkg = none) :
      Step scopes s (s.set t ⟨rs, .outside, (s.threads t).returned ++ [(r, [])]⟩)
  /-- composer.go:29-38: the object has a package. -/
  | enter {s : State} (t : Nat) (p : Option (Option ModIdent)) (obj : Obj) (path : Str) (rs : List Request) (hpc : (s.threads t).pc = .outside)
      (htodo : (s.threads t).todo = (p, some obj) :: rs) (hpath : obj.self.pkg = some path) :
      Step scopes s (s.set t ⟨rs, .waiting p obj path, (s.threads t).returned⟩)
  /-- composer.go:40: the mutex is taken once it is free. -/
  | lock {s : State} (t : Nat) (p : Option (Option ModIdent)) (obj : Obj) (path : Str) (hpc : (s.threads t).pc = .waiting p obj path)
      (hfree : s.locked = false) :
      Step scopes s { s.set t { s.threads t with pc := .looking p obj path } with locked := true }
  /-- composer.go:43-45: found. -/
  | hit {s : State} (t : Nat) (p : Option (Option ModIdent)) (obj : Obj) (path a : Str) (hpc : (s.threads t).pc = .looking p obj path)
      (hl : s.composer.compositions.lookup obj.canon.id = some a) :
      Step scopes s (s.set t { s.threads t with pc := .unlocking p obj a })
  /-- composer.go:43: not found. -/
  | miss {s : State} (t : Nat) (p : Option (Option ModIdent)) (obj : Obj) (path : Str) (hpc : (s.threads t).pc = .looking p obj path)
      (hl : s.composer.compositions.lookup obj.canon.id = none) :
      Step scopes s (s.set t { s.threads t with pc := .describing p obj path })
  /-- composer.go:47-62: no descriptors, the result is "". -/
  | nothing {s : State} (t : Nat) (p : Option (Option ModIdent)) (obj : Obj) (path : Str) (hpc : (s.threads t).pc = .describing p obj path)
      (hd : describe scopes path obj.canon = []) :
      Step scopes s (s.set t { s.threads t with pc := .unlocking p obj [] })
  /-- composer.go:47-62: descriptors. -/
  | described {s : State} (t : Nat) (p : Option (Option ModIdent)) (obj : Obj) (path : Str) (hpc : (s.threads t).pc = .describing p obj path)
      (hd : describe scopes path obj.canon ≠ []) :
      Step scopes s (s.set t { s.threads t with pc := .storing p obj (describe scopes path obj.canon) })
  /-- composer.go:64-68: the symbol is stored. -/
  | store {s : State} (t : Nat) (p : Option (Option ModIdent)) (obj : Obj) (ds : List Descriptor) (hpc : (s.threads t).pc = .storing p obj ds) :
      Step scopes s { s.set t { s.threads t with pc := .stored p obj } with
        composer := { s.composer with compositions := (obj.canon.id, formatSymbol (s.composer.pack p) ds) :: s.composer.compositions } }
  /-- composer.go:69: the symbol is read back ("" if there were none). -/
  | readBack {s : State} (t : Nat) (p : Option (Option ModIdent)) (obj : Obj) (hpc : (s.threads t).pc = .stored p obj) :
      Step scopes s (s.set t { s.threads t with pc := .unlocking p obj ((s.composer.compositions.lookup obj.canon.id).getD []) })
  /-- composer.go:41: the deferred unlock, then the call returns. -/
  | unlock {s : State} (t : Nat) (p : Option (Option ModIdent)) (obj : Obj) (a : Str) (hpc : (s.threads t).pc = .unlocking p obj a) :
      Step scopes s { s.set t ⟨(s.threads t).todo, .outside, (s.threads t).returned ++ [((p, some obj), a)]⟩ with locked := false }

/-- At the beginning: a fresh composer (composer.go:19-26), nobody holds the mutex, goroutine `t` will ask for `calls t`. -/
def start (path version : Str) (calls : Nat → List Request) : State := ⟨newComposer path version, false, fun t => ⟨calls t, .outside, []⟩⟩

/-- Any number of steps. -/
inductive Steps (scopes : Scopes) : State → State → Prop where
  | refl (s : State) : Steps scopes s s
  | step {s s' s'' : State} : Steps scopes s s' → Step scopes s' s'' → Steps scopes s s''

end Verif.ConcurrentComposer
