import Verif.Model.Lookup
/-!
# `lookup.Global` under concurrent calls (internal/lookup/lookup.go:75-214)

Goroutines are numbered; each makes its calls on one shared `Global` one after the other.  `Add` and `SetPkgSymbol` hold the mutex `m` while they write; the
other functions read the same maps without it, and `GetSymbolOfObject` also reads and writes the process-wide map `skippedTypes`.  A call is split at every access
to one of these maps.  Every step notes which maps it accesses.  `Composer.Compose` has a mutex of its own (C90) and is one step here.  Simplified: a panic is
one of the answers of `GetSymbolOfObject` (in Go it ends the program); the table of a package is a value (`GetPackage` returns a pointer).
-/
namespace Verif.ConcurrentLookup

/-- A call of a function of `lookup.Global`. -/
inductive Call where
  /-- lookup.go:86-90 -/
  | add (path : Str) (r : PkgRecord)
  /-- lookup.go:92-102 -/
  | setPkgSymbol (path : Str) (m : ModIdent)
  /-- lookup.go:104-111 `GetPkgSymbolByID`, `GetPkgSymbol` -/
  | pkgSymbol (path : Str)
  /-- lookup.go:113-115 `GetPackage` -/
  | package (path : Str)
  /-- lookup.go:201-223 `GetSymbolInformation` (and `GetSymbol`) -/
  | information (path : Str) (pos : Nat)
  /-- lookup.go:125-199 `GetSymbolOfObject` -/
  | ofObject (obj : Obj)

/-- What a call returns. -/
inductive Answer where
  | nothing
  | symbol (s : Option Str)
  | record (r : Option PkgRecord)
  | info (i : Option SymInfo)
  | found (f : Found)
  deriving DecidableEq

/-- The maps. -/
inductive Loc where
  | symbols | pkgSymbols | skipped
  deriving DecidableEq, Repr

/-- An access without synchronisation of its own. -/
structure Access where
  loc : Loc
  write : Bool
  deriving DecidableEq, Repr

/-- lookup.go:92-96: the symbol that `SetPkgSymbol` stores and returns. -/
def pkgSymbolText (path : Str) (m : ModIdent) : Str := formatSymbol ⟨m.path, m.version⟩ [⟨path, .nspace⟩]

/-- What `GetSymbolOfObject` does next if the object's id is not in `skippedTypes`. -/
inductive Next where
  | answer (f : Found)
  /-- lookup.go:148: the id is put into `skippedTypes` -/
  | mark
  /-- lookup.go:174 -/
  | search (path : Str)
  deriving DecidableEq

/-- lookup.go:134-172, which look at the object only. -/
def next (obj : Obj) : Next :=
  match obj.self.cls with
  | .pkgName _ => .answer .panic
  | .nil => .answer .skip
  | .label => .answer .skip
  | cls =>
    match obj.self.pkg with
    | none =>
      match cls with
      | .typeName _ => .mark
      | .const => .answer .skip
      | .builtin => .answer .skip
      | .func _ => if isErrorError obj.origin then .answer .skip else .answer .panic
      | _ => .answer .panic
    | some path => if path = go!"unsafe" then .answer .skip else .search path

/-- Where a goroutine is within its current call. -/
inductive Pc where
  /-- Between two calls. -/
  | outside
  /-- Before `p.m.Lock()`, lookup.go:87, 97. -/
  | waiting (c : Call)
  /-- Holds the mutex, before the first write, lookup.go:88, 98. -/
  | holding (c : Call)
  /-- Holds the mutex, between the two writes of `SetPkgSymbol`, lookup.go:99. -/
  | halfway (path : Str) (m : ModIdent)
  /-- Before `p.m.Unlock()`, lookup.go:89, 100; `answer` is what the call will return. -/
  | written (c : Call) (answer : Answer)
  /-- Before lookup.go:148. -/
  | marking (obj : Obj)
  /-- In the loop of lookup.go:174-179, before the lookup in the table of the first of `left`. -/
  | searching (obj : Obj) (path : Str) (left : List Str)
  /-- Before lookup.go:182. -/
  | composing (obj : Obj) (path : Str) (m : Option ModIdent)

/-- The calls a goroutine will still make, where it is, and what its calls so far returned. -/
structure Thread where
  todo : List Call
  pc : Pc
  returned : List (Call × Answer)

/-- The tables (with `skippedTypes`), the mutex (held or not) and the goroutines. -/
structure State where
  g : Global
  locked : Bool
  threads : Nat → Thread

/-- The state after goroutine `t` has become `x`. -/
def State.set (s : State) (t : Nat) (x : Thread) : State := { s with threads := fun u => if u = t then x else s.threads u }

/-- Goroutine `t` goes on to `pc` within its call. -/
def State.move (s : State) (t : Nat) (pc : Pc) : State := s.set t { s.threads t with pc := pc }

/-- Goroutine `t` returns from the call `c`. -/
def State.ret (s : State) (t : Nat) (c : Call) (a : Answer) : State :=
  s.set t ⟨(s.threads t).todo, .outside, (s.threads t).returned ++ [(c, a)]⟩

/-- Goroutine `t` makes the call `c` and returns at once; `cs` are the calls after it. -/
def State.once (s : State) (t : Nat) (cs : List Call) (c : Call) (a : Answer) : State :=
  s.set t ⟨cs, .outside, (s.threads t).returned ++ [(c, a)]⟩

/-- A call that takes the mutex. -/
def Call.isUpdate : Call → Bool
  | .add .. => true
  | .setPkgSymbol .. => true
  | _ => false

/-- One step of goroutine `t`, with the accesses it makes. -/
inductive Step (scopes : Scopes) : State → Nat → List Access → State → Prop where
  /-- lookup.go:86, 92-96: an update begins. -/
  | enter {s : State} (t : Nat) (c : Call) (cs : List Call) (hpc : (s.threads t).pc = .outside) (htodo : (s.threads t).todo = c :: cs)
      (hc : c.isUpdate = true) : Step scopes s t [] (s.set t ⟨cs, .waiting c, (s.threads t).returned⟩)
  /-- lookup.go:87, 97: the mutex is taken once it is free. -/
  | lock {s : State} (t : Nat) (c : Call) (hpc : (s.threads t).pc = .waiting c) (hfree : s.locked = false) :
      Step scopes s t [] { s.move t (.holding c) with locked := true }
  /-- lookup.go:88 -/
  | addWrite {s : State} (t : Nat) (path : Str) (r : PkgRecord) (hpc : (s.threads t).pc = .holding (.add path r)) :
      Step scopes s t [⟨.symbols, true⟩] { s.move t (.written (.add path r) .nothing) with g := { s.g with symbols := (path, r) :: s.g.symbols } }
  /-- lookup.go:98 -/
  | pkgWrite {s : State} (t : Nat) (path : Str) (m : ModIdent) (hpc : (s.threads t).pc = .holding (.setPkgSymbol path m)) :
      Step scopes s t [⟨.pkgSymbols, true⟩]
        { s.move t (.halfway path m) with g := { s.g with pkgSymbols := (path, pkgSymbolText path m) :: s.g.pkgSymbols } }
  /-- lookup.go:99 -/
  | tableWrite {s : State} (t : Nat) (path : Str) (m : ModIdent) (hpc : (s.threads t).pc = .halfway path m) :
      Step scopes s t [⟨.symbols, true⟩]
        { s.move t (.written (.setPkgSymbol path m) (.symbol (some (pkgSymbolText path m)))) with
          g := { s.g with symbols := (path, ⟨some m, []⟩) :: s.g.symbols } }
  /-- lookup.go:89, 100-101 -/
  | unlock {s : State} (t : Nat) (c : Call) (a : Answer) (hpc : (s.threads t).pc = .written c a) :
      Step scopes s t [] { s.ret t c a with locked := false }
  /-- lookup.go:105 -/
  | readPkgSymbol {s : State} (t : Nat) (path : Str) (cs : List Call) (hpc : (s.threads t).pc = .outside)
      (htodo : (s.threads t).todo = .pkgSymbol path :: cs) :
      Step scopes s t [⟨.pkgSymbols, false⟩] (s.once t cs (.pkgSymbol path) (.symbol (s.g.pkgSymbols.lookup path)))
  /-- lookup.go:114 -/
  | readPackage {s : State} (t : Nat) (path : Str) (cs : List Call) (hpc : (s.threads t).pc = .outside)
      (htodo : (s.threads t).todo = .package path :: cs) :
      Step scopes s t [⟨.symbols, false⟩] (s.once t cs (.package path) (.record (s.g.symbols.lookup path)))
  /-- lookup.go:202-208 -/
  | readInfo {s : State} (t : Nat) (path : Str) (pos : Nat) (cs : List Call) (hpc : (s.threads t).pc = .outside)
      (htodo : (s.threads t).todo = .information path pos :: cs) :
      Step scopes s t [⟨.symbols, false⟩] (s.once t cs (.information path pos) (.info ((s.g.symbols.lookup path).bind (fun r => r.table.get pos))))
  /-- lookup.go:126-128: the id is in `skippedTypes`. -/
  | skipHit {s : State} (t : Nat) (obj : Obj) (cs : List Call) (hpc : (s.threads t).pc = .outside)
      (htodo : (s.threads t).todo = .ofObject obj :: cs) (hs : obj.self.objId ∈ s.g.skipped) :
      Step scopes s t [⟨.skipped, false⟩] (s.once t cs (.ofObject obj) (.found .skip))
  /-- lookup.go:126-172: it is not, and the object alone tells the answer. -/
  | decided {s : State} (t : Nat) (obj : Obj) (cs : List Call) (f : Found) (hpc : (s.threads t).pc = .outside)
      (htodo : (s.threads t).todo = .ofObject obj :: cs) (hs : obj.self.objId ∉ s.g.skipped) (hn : next obj = .answer f) :
      Step scopes s t [⟨.skipped, false⟩] (s.once t cs (.ofObject obj) (.found f))
  /-- lookup.go:126-147 -/
  | toMark {s : State} (t : Nat) (obj : Obj) (cs : List Call) (hpc : (s.threads t).pc = .outside)
      (htodo : (s.threads t).todo = .ofObject obj :: cs) (hs : obj.self.objId ∉ s.g.skipped) (hn : next obj = .mark) :
      Step scopes s t [⟨.skipped, false⟩] (s.set t ⟨cs, .marking obj, (s.threads t).returned⟩)
  /-- lookup.go:148-149 -/
  | mark {s : State} (t : Nat) (obj : Obj) (hpc : (s.threads t).pc = .marking obj) :
      Step scopes s t [⟨.skipped, true⟩]
        { s.ret t (.ofObject obj) (.found .skip) with g := { s.g with skipped := obj.self.objId :: s.g.skipped } }
  /-- lookup.go:126-174 -/
  | toSearch {s : State} (t : Nat) (obj : Obj) (path : Str) (cs : List Call) (hpc : (s.threads t).pc = .outside)
      (htodo : (s.threads t).todo = .ofObject obj :: cs) (hs : obj.self.objId ∉ s.g.skipped) (hn : next obj = .search path) :
      Step scopes s t [⟨.skipped, false⟩] (s.set t ⟨cs, .searching obj path (testPackageCombinations path), (s.threads t).returned⟩)
  /-- lookup.go:175-178: found. -/
  | hit {s : State} (t : Nat) (obj : Obj) (path c : Str) (left : List Str) (i : SymInfo) (hpc : (s.threads t).pc = .searching obj path (c :: left))
      (hi : s.g.getSymbolInformation c obj.self.pos = some i) :
      Step scopes s t [⟨.symbols, false⟩] (s.ret t (.ofObject obj) (.found (.info i)))
  /-- lookup.go:175-178: not found. -/
  | miss {s : State} (t : Nat) (obj : Obj) (path c : Str) (left : List Str) (hpc : (s.threads t).pc = .searching obj path (c :: left))
      (hi : s.g.getSymbolInformation c obj.self.pos = none) :
      Step scopes s t [⟨.symbols, false⟩] (s.move t (.searching obj path left))
  /-- lookup.go:181, 187-198: the package is not known. -/
  | unknown {s : State} (t : Nat) (obj : Obj) (path : Str) (hpc : (s.threads t).pc = .searching obj path [])
      (hr : s.g.symbols.lookup path = none) :
      Step scopes s t [⟨.symbols, false⟩] (s.ret t (.ofObject obj) (.found .error))
  /-- lookup.go:181: it is known. -/
  | known {s : State} (t : Nat) (obj : Obj) (path : Str) (r : PkgRecord) (hpc : (s.threads t).pc = .searching obj path [])
      (hr : s.g.symbols.lookup path = some r) :
      Step scopes s t [⟨.symbols, false⟩] (s.move t (.composing obj path r.module))
  /-- lookup.go:182-198 -/
  | compose {s : State} (t : Nat) (obj : Obj) (path : Str) (m : Option ModIdent) (c : Composer) (sym : Str)
      (hpc : (s.threads t).pc = .composing obj path m) (hcs : s.g.composer.compose scopes (some m) (some obj) = (c, sym)) :
      Step scopes s t [] { s.ret t (.ofObject obj) (.found (if sym = [] then .error else .info (composedInfo sym))) with g := { s.g with composer := c } }

/-- At the beginning: the tables are `g`, nobody holds the mutex, goroutine `t` will make the calls `calls t`. -/
def start (g : Global) (calls : Nat → List Call) : State := ⟨g, false, fun t => ⟨calls t, .outside, []⟩⟩

/-- Any number of steps. -/
inductive Steps (scopes : Scopes) : State → State → Prop where
  | refl (s : State) : Steps scopes s s
  | step {s s' s'' : State} {t : Nat} {acc : List Access} : Steps scopes s s' → Step scopes s' t acc s'' → Steps scopes s s''

end Verif.ConcurrentLookup
