import Verif.Model.Index
import Verif.Model.Progress
/-!
# `Index` with all its goroutines (internal/index/scip.go:84-252, internal/implementations/implementations.go:125-174)

`Index` starts three goroutines one after the other (scip.go:201, implementations.go:150, scip.go:126); around each of them the caller is in
`WithProgressParallel` (output.go:31-67, Model/Progress.lean), which starts a goroutine of its own.  The model below has one step for each action
between which another goroutine can run, and notes with each step which goroutine does it and what it accesses.  A panic in any of the
goroutines ends the process (none of them recovers).  `Model/Index.lean` is the same program without goroutines; that every schedule
computes what that model says is C92.

Simplified: visiting one package, checking one type and visiting one file are one step each; the orders of map iteration are chosen before
the run; the writer (main.go:157-185) is one step, see Model/ConcurrentWriter.lean for its parts.
-/
namespace Verif.ConcurrentIndex
open Index Progress Output Cmd

/-- What more than one goroutine can access. -/
inductive Loc where
  /-- The map `pathToDocuments` and the documents (scip.go:185). -/
  | documents
  /-- `globalSymbols` with its composer, its tables and the descriptions in them, and the map `skippedTypes` (lookup.go:74-122). -/
  | tables
  /-- The field `Relationships` of the descriptions. -/
  | relationships
  /-- scip.go:123 `writeErr`. -/
  | writeErr
  /-- The file the writer writes to. -/
  | output
  /-- `count`. -/
  | counter
  /-- `wg`. -/
  | waitGroup
  /-- output.go:39 `done`. -/
  | channel
  /-- Standard output, for progress. -/
  | terminal
  deriving DecidableEq

/-- An access: plain, or through something that is made for it (sync/atomic, sync.WaitGroup, a channel, a mutex, `os.File`). -/
inductive Mode where
  | read
  | write
  | synchronised
  deriving DecidableEq

abbrev Access := Loc × Mode

/-- The three times a goroutine is started: scip.go:201 (visiting packages), implementations.go:150, scip.go:126 (visiting files). -/
inductive Phase where
  | visiting
  | relating
  | writing
  deriving DecidableEq

/-- Who does a step: the caller of `Index`, the goroutine that works, the goroutine of output.go:40. -/
inductive Who where
  | caller
  | worker (k : Phase)
  | helper (k : Phase)
  deriving DecidableEq

/-- What the goroutines share, as far as it is not part of `Progress.State`. -/
structure Mem where
  docs : Docs
  g : Global
  heap : Impl.Heap
  writeErr : Option Str
  /-- All messages handed to the writer. -/
  messages : List Message

/-- What a working goroutine has to do. -/
inductive Task where
  /-- scip.go:205-243: one package. -/
  | package (p : Package)
  /-- implementations.go:69-119: one type. -/
  | type (v : Impl.TypeVisit)
  /-- scip.go:134-152: one file. -/
  | file (p : Package) (f : SourceFile)
  /-- scip.go:155: the document is written. -/
  | write (m : Message)
  /-- `atomic.AddUint64(&count, 1)` (scip.go:160, 214, 245, implementations.go:121). -/
  | count

/-- The result of a task: what is shared then and what is to be done first, before the other tasks; leaving (scip.go:156); a panic. -/
inductive Done where
  | go (m : Mem) (next : List Task)
  | leave (m : Mem)
  | panic

/-- A task (`count` is not done here, see `Step.count`). -/
def perform (D : Deps) (o : Opts) (ord : MapOrders) (w : Writer) (m : Mem) : Task → Done
  /- scip.go:205-243, visitors.go:18-38. -/
  | .package p =>
    match visitPackage o.moduleRoot p (m.docs, m.g) with
    | none => .panic
    | some (docs, g) => .go { m with docs := docs, g := g } []
  /- implementations.go:69-119. -/
  | .type v => .go { m with heap := (Impl.findImplementations D.ext [v] (m.heap, 0)).1 } []
  /- scip.go:134-152: without a document the file is left out. -/
  | .file p f =>
    match m.docs.get f.fileName with
    | none => .go m []
    | some d =>
      match visitFile D ord m.heap m.messages.length p f d m.g with
      | none => .panic
      | some (msg, g) => .go { m with g := g } [.write msg]
  /- scip.go:155-157. -/
  | .write msg =>
    match w m.messages msg with
    | some e => .leave { m with messages := m.messages ++ [msg], writeErr := some e }
    | none => .go { m with messages := m.messages ++ [msg], writeErr := none } []
  | .count => .go m []

/-- What a task accesses. -/
def Task.accesses : Task → List Access
  | .package _ => [(.documents, .write), (.tables, .write)]
  | .type _ => [(.relationships, .write), (.tables, .read)]
  | .file _ _ => [(.documents, .read), (.tables, .write), (.relationships, .read)]
  | .write _ => [(.output, .synchronised), (.writeErr, .write)]
  | .count => [(.counter, .synchronised)]

/-- scip.go:204-246. -/
def packageTasks (ps : List Package) : List Task := ps.flatMap fun p => [.package p, .count]

/-- implementations.go:153-161. -/
def typeTasks (vs : List Impl.TypeVisit) : List Task := vs.flatMap fun v => [.type v, .count]

/-- scip.go:129-161. -/
def fileTasks (ps : List Package) : List Task := ps.flatMap fun p => p.files.map (.file p) ++ [.count]

/-- How often a task list counts. -/
def counts (ts : List Task) : Nat := (ts.filter fun t => t matches .count).length

/-- A working goroutine with the `WithProgressParallel` around it. -/
structure Job where
  todo : List Task
  total : Nat
  prog : Progress.State

/-- Where the caller is; what it remembers. -/
inductive Pc where
  /-- Before scip.go:88. -/
  | metadata
  /-- Before scip.go:101. -/
  | loading
  /-- Before scip.go:187. -/
  | symbols (project all : GoMap Package)
  /-- Inside of `WithProgressParallel`, scip.go:249. -/
  | visiting (project all : GoMap Package)
  /-- Before scip.go:108. -/
  | extracting (project all : GoMap Package)
  /-- Inside of `WithProgressParallel`, implementations.go:164; `types` are the remote types in the order of implementations.go:167. -/
  | relating (project : GoMap Package) (types : List Impl.ImplDef)
  /-- Before scip.go:118. -/
  | files (project : GoMap Package) (externals : List Message)
  /-- Inside of `WithProgressParallel`, scip.go:164. -/
  | writing (externals : List Message)
  /-- scip.go:171-175: these are still to be written. -/
  | externals (rest : List Message)
  /-- `Index` has returned. -/
  | returned (e : Option Str)

/-- What happens on standard output and at the writer, in its order: the progress of loading (it takes some time), progress lines, and messages. -/
inductive Event where
  | loaded (elapsed : Int)
  | line (k : Phase) (l : Line)
  | wrote (m : Message)

structure State where
  mem : Mem
  pc : Pc
  jobs : Phase → Option Job
  /-- A goroutine panicked: the process is gone. -/
  dead : Bool
  events : List Event

/-- `jobs` with another job. -/
def setJob (jobs : Phase → Option Job) (k : Phase) (j : Job) : Phase → Option Job := fun k' => if k' = k then some j else jobs k'

/-- `wg.Add(1)` and the `go` statement (scip.go:195-201, implementations.go:146-150, scip.go:121-126). -/
def newJob (todo : List Task) (total : Nat) : Job := ⟨todo, total, Progress.start [counts todo]⟩

/-- The message about an external symbol (scip.go:171-175 with implementations.go:167-171). -/
def externalMessages (h : Impl.Heap) (types : List Impl.ImplDef) : List Message :=
  ((types.filter (fun t => h t.symbol.ref ≠ [])).map (·.symbol)).map (fun s => .external s.sym (h s.ref))

/-- implementations.go:132-144: the two passes of the extractor; none is a panic. -/
def extractBoth (D : Deps) (ord : MapOrders) (project all : GoMap Package) (g : Global) : Option (Impl.State × Impl.State) :=
  let pkgs := (ord.extractProject (project.map (·.2))).map (Package.impl ord)
  match Impl.extract D.ext D.scopes true g pkgs with
  | none => none
  | some loc =>
    match Impl.extract D.ext D.scopes false loc.g (Impl.remotePackages pkgs ((ord.extractAll (all.map (·.2))).map (Package.impl ord))) with
    | none => none
    | some rem => some (loc, rem)

/-- The caller is inside of the `WithProgressParallel` of this phase. -/
def Pc.inside : Pc → Phase → Prop
  | .visiting _ _, .visiting => True
  | .relating _ _, .relating => True
  | .writing _, .writing => True
  | _, _ => False

/-- What is written in a task. -/
def Task.events : Task → List Event
  | .write msg => [.wrote msg]
  | _ => []

/-- output.go:57-61: what is printed at the end. -/
def lastLines (level : Level) (n : Nat) (elapsed : Int) : List Line :=
  [.progress n n] ++ (if level < levelWarn then [.finished (humanElapsed elapsed)] else []) ++ [.newline]

section
variable (D : Deps) (o : Opts) (ord : MapOrders) (w : Writer) (loaded : Except Str (GoMap Package × GoMap Package)) (level : Level)

/-- One step: who does it and what it accesses.  Nothing happens in a process that is gone. -/
inductive Step : State → Who → List Access → State → Prop where
  /-- scip.go:88-99: the writer refuses the metadata. -/
  | metadataFails {s : State} (e : Str) (hd : s.dead = false) (hpc : s.pc = .metadata) (hw : w s.mem.messages (.metadata (metadata D o)) = some e) :
      Step s .caller [(.output, .synchronised)] { s with
        mem := { s.mem with messages := s.mem.messages ++ [.metadata (metadata D o)] }, pc := .returned (some e)
        events := s.events ++ [.wrote (.metadata (metadata D o))] }
  /-- scip.go:88-97. -/
  | metadata {s : State} (hd : s.dead = false) (hpc : s.pc = .metadata) (hw : w s.mem.messages (.metadata (metadata D o)) = none) :
      Step s .caller [(.output, .synchronised)] { s with
        mem := { s.mem with messages := s.mem.messages ++ [.metadata (metadata D o)] }, pc := .loading
        events := s.events ++ [.wrote (.metadata (metadata D o))] }
  /-- scip.go:101-104. -/
  | loadFails {s : State} (e : Str) (elapsed : Int) (hd : s.dead = false) (hpc : s.pc = .loading) (hl : loaded = .error e) :
      Step s .caller [(.terminal, .synchronised)] { s with pc := .returned (some e), events := s.events ++ [.loaded elapsed] }
  /-- scip.go:101. -/
  | load {s : State} (project all : GoMap Package) (elapsed : Int) (hd : s.dead = false) (hpc : s.pc = .loading) (hl : loaded = .ok (project, all)) :
      Step s .caller [(.terminal, .synchronised)] { s with pc := .symbols project all, events := s.events ++ [.loaded elapsed] }
  /-- scip.go:185-201: the tables are made, the first goroutine is started. -/
  | symbols {s : State} (project all : GoMap Package) (hd : s.dead = false) (hpc : s.pc = .symbols project all) :
      Step s .caller [(.documents, .write), (.tables, .write)] { s with
        mem := { s.mem with docs := [], g := setPkgSymbols (ord.all (all.map (·.2))) (newGlobal o) }
        pc := .visiting project all
        jobs := setJob s.jobs .visiting (newJob (packageTasks (sortedValues project)) project.length) }
  /-- scip.go:251: `WithProgressParallel` has returned. -/
  | visited {s : State} (j : Job) (project all : GoMap Package) (hd : s.dead = false) (hpc : s.pc = .visiting project all)
      (hj : s.jobs .visiting = some j) (hr : j.prog.pc = .returned) :
      Step s .caller [] { s with pc := .extracting project all }
  /-- scip.go:107: no relationships are wanted. -/
  | skip {s : State} (project all : GoMap Package) (hd : s.dead = false) (hpc : s.pc = .extracting project all) (hs : o.skipImplementations = true) :
      Step s .caller [] { s with pc := .files project [] }
  /-- implementations.go:132-150: the types are extracted, the second goroutine is started. -/
  | extract {s : State} (project all : GoMap Package) (loc rem : Impl.State) (hd : s.dead = false) (hpc : s.pc = .extracting project all)
      (hs : o.skipImplementations = false) (he : extractBoth D ord project all s.mem.g = some (loc, rem)) :
      Step s .caller [(.tables, .write)] { s with
        mem := { s.mem with g := rem.g }
        pc := .relating project (ord.impls loc rem).external
        jobs := setJob s.jobs .relating (newJob
          (typeTasks ((ord.impls loc rem).localLocal ++ (ord.impls loc rem).localRemote ++ (ord.impls loc rem).remoteLocal))
          (loc.concretes.length * 2 + rem.concretes.length)) }
  /-- A panic of the extractor. -/
  | extractPanics {s : State} (project all : GoMap Package) (hd : s.dead = false) (hpc : s.pc = .extracting project all)
      (hs : o.skipImplementations = false) (he : extractBoth D ord project all s.mem.g = none) :
      Step s .caller [(.tables, .write)] { s with dead := true }
  /-- implementations.go:166-173, scip.go:115: `WithProgressParallel` has returned; the external symbols are collected. -/
  | related {s : State} (j : Job) (project : GoMap Package) (types : List Impl.ImplDef) (hd : s.dead = false) (hpc : s.pc = .relating project types)
      (hj : s.jobs .relating = some j) (hr : j.prog.pc = .returned) :
      Step s .caller [(.relationships, .read)] { s with pc := .files project (externalMessages s.mem.heap types) }
  /-- scip.go:118-126: the third goroutine is started. -/
  | files {s : State} (project : GoMap Package) (externals : List Message) (hd : s.dead = false) (hpc : s.pc = .files project externals) :
      Step s .caller [(.writeErr, .write)] { s with
        mem := { s.mem with writeErr := none }
        pc := .writing externals
        jobs := setJob s.jobs .writing (newJob (fileTasks (sortedValues project)) project.length) }
  /-- scip.go:166-168: `WithProgressParallel` has returned; there was an error. -/
  | writeFailed {s : State} (j : Job) (externals : List Message) (e : Str) (hd : s.dead = false) (hpc : s.pc = .writing externals)
      (hj : s.jobs .writing = some j) (hr : j.prog.pc = .returned) (he : s.mem.writeErr = some e) :
      Step s .caller [(.writeErr, .read)] { s with pc := .returned (some e) }
  /-- scip.go:166: there was none. -/
  | written {s : State} (j : Job) (externals : List Message) (hd : s.dead = false) (hpc : s.pc = .writing externals)
      (hj : s.jobs .writing = some j) (hr : j.prog.pc = .returned) (he : s.mem.writeErr = none) :
      Step s .caller [(.writeErr, .read)] { s with pc := .externals externals }
  /-- scip.go:171-174: an external symbol is written. -/
  | external {s : State} (m : Message) (rest : List Message) (hd : s.dead = false) (hpc : s.pc = .externals (m :: rest))
      (hw : w s.mem.messages m = none) :
      Step s .caller [(.output, .synchronised), (.relationships, .read)] { s with
        mem := { s.mem with messages := s.mem.messages ++ [m] }, pc := .externals rest, events := s.events ++ [.wrote m] }
  /-- scip.go:172-174: writing it fails. -/
  | externalFails {s : State} (m : Message) (rest : List Message) (e : Str) (hd : s.dead = false) (hpc : s.pc = .externals (m :: rest))
      (hw : w s.mem.messages m = some e) :
      Step s .caller [(.output, .synchronised), (.relationships, .read)] { s with
        mem := { s.mem with messages := s.mem.messages ++ [m] }, pc := .returned (some e), events := s.events ++ [.wrote m] }
  /-- scip.go:177. -/
  | finished {s : State} (hd : s.dead = false) (hpc : s.pc = .externals []) : Step s .caller [] { s with pc := .returned none }
  /-- A working goroutine does a task that is not counting. -/
  | task {s : State} (k : Phase) (j : Job) (t : Task) (rest next : List Task) (m : Mem) (hd : s.dead = false) (hj : s.jobs k = some j)
      (ht : j.todo = t :: rest) (hc : t ≠ .count) (hp : perform D o ord w s.mem t = .go m next) :
      Step s (.worker k) t.accesses { s with
        mem := m, jobs := setJob s.jobs k { j with todo := next ++ rest }
        events := s.events ++ t.events }
  /-- It leaves (scip.go:156); `wg.Done()` is deferred. -/
  | leave {s : State} (k : Phase) (j : Job) (t : Task) (rest : List Task) (m : Mem) (hd : s.dead = false) (hj : s.jobs k = some j)
      (ht : j.todo = t :: rest) (hp : perform D o ord w s.mem t = .leave m) :
      Step s (.worker k) t.accesses { s with
        mem := m, jobs := setJob s.jobs k { j with todo := [] }
        events := s.events ++ t.events }
  /-- It panics. -/
  | panic {s : State} (k : Phase) (j : Job) (t : Task) (rest : List Task) (hd : s.dead = false) (hj : s.jobs k = some j)
      (ht : j.todo = t :: rest) (hp : perform D o ord w s.mem t = .panic) :
      Step s (.worker k) t.accesses { s with dead := true }
  /-- It counts. -/
  | count {s : State} (k : Phase) (j : Job) (rest : List Task) (n : Nat) (hd : s.dead = false) (hj : s.jobs k = some j)
      (ht : j.todo = .count :: rest) (hw : j.prog.workers[0]? = some ⟨n + 1, false⟩) :
      Step s (.worker k) Task.count.accesses { s with
        jobs := setJob s.jobs k { j with todo := rest, prog := { j.prog with count := j.prog.count + 1, workers := j.prog.workers.set 0 ⟨n, false⟩ } } }
  /-- The deferred `wg.Done()` (scip.go:127, 202, implementations.go:151). -/
  | workerDone {s : State} (k : Phase) (j : Job) (n : Nat) (hd : s.dead = false) (hj : s.jobs k = some j) (ht : j.todo = [])
      (hw : j.prog.workers[0]? = some ⟨n, false⟩) :
      Step s (.worker k) [(.waitGroup, .synchronised)] { s with
        jobs := setJob s.jobs k { j with prog := { j.prog with wg := j.prog.wg - 1, workers := j.prog.workers.set 0 ⟨n, true⟩ } } }
  /-- output.go:40-43 (see `Progress.Step.close`): this goroutine exists once the caller is past its start. -/
  | close {s : State} (k : Phase) (j : Job) (hd : s.dead = false) (hj : s.jobs k = some j) (hq : ¬ level > levelWarn) (hpc : j.prog.pc ≠ .start) (hc : j.prog.closed = false)
      (hwg : j.prog.wg = 0) :
      Step s (.helper k) [(.waitGroup, .synchronised), (.channel, .synchronised)] { s with
        jobs := setJob s.jobs k { j with prog := { j.prog with closed := true } } }
  /-- output.go:32-35. -/
  | quietReturn {s : State} (k : Phase) (j : Job) (hd : s.dead = false) (hi : s.pc.inside k) (hj : s.jobs k = some j) (hq : level > levelWarn)
      (hpc : j.prog.pc = .start) (hwg : j.prog.wg = 0) :
      Step s .caller [(.waitGroup, .synchronised)] { s with jobs := setJob s.jobs k { j with prog := { j.prog with pc := .returned } } }
  /-- output.go:49, 53. -/
  | first {s : State} (k : Phase) (j : Job) (hd : s.dead = false) (hi : s.pc.inside k) (hj : s.jobs k = some j) (hq : ¬ level > levelWarn)
      (hpc : j.prog.pc = .start) :
      Step s .caller [(.counter, .synchronised)] { s with jobs := setJob s.jobs k { j with prog := { j.prog with pc := .loaded j.prog.count } } }
  /-- output.go:50. -/
  | print {s : State} (k : Phase) (j : Job) (c : Nat) (hd : s.dead = false) (hi : s.pc.inside k) (hj : s.jobs k = some j)
      (hpc : j.prog.pc = .loaded c) :
      Step s .caller [(.terminal, .synchronised)] { s with
        jobs := setJob s.jobs k { j with prog := { j.prog with pc := .select, out := j.prog.out ++ [.progress c j.total] } }
        events := s.events ++ [.line k (.progress c j.total)] }
  /-- output.go:63-64. -/
  | tick {s : State} (k : Phase) (j : Job) (hd : s.dead = false) (hi : s.pc.inside k) (hj : s.jobs k = some j) (hpc : j.prog.pc = .select) :
      Step s .caller [(.counter, .synchronised)] { s with jobs := setJob s.jobs k { j with prog := { j.prog with pc := .loaded j.prog.count } } }
  /-- output.go:56-62. -/
  | finish {s : State} (k : Phase) (j : Job) (elapsed : Int) (hd : s.dead = false) (hi : s.pc.inside k) (hj : s.jobs k = some j)
      (hpc : j.prog.pc = .select) (hc : j.prog.closed = true) :
      Step s .caller [(.channel, .synchronised), (.terminal, .synchronised)] { s with
        jobs := setJob s.jobs k { j with prog := { j.prog with
          pc := .returned
          out := j.prog.out ++ lastLines level j.total elapsed } }
        events := s.events ++ (lastLines level j.total elapsed).map (Event.line k) }

/-- Before `Index` begins. -/
def start : State := ⟨⟨[], newGlobal o, fun _ => [], none, []⟩, .metadata, fun _ => none, false, []⟩

/-- What can be reached by any schedule. -/
inductive Reachable : State → Prop where
  | start : Reachable (start o)
  | step {s s' : State} {who : Who} {acc : List Access} : Reachable s → Step D o ord w loaded level s who acc s' → Reachable s'
end

/-- How `Index` ended, if it did. -/
def State.ended (s : State) : Option Outcome :=
  if s.dead then some .crash
  else match s.pc with
    | .returned none => some .ok
    | .returned (some e) => some (.failed e)
    | _ => none

end Verif.ConcurrentIndex
