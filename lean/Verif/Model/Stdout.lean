import Verif.Model.Commands
import Verif.Model.Progress
import Verif.Model.Program
/-!
# Everything that goes to standard output

Progress (internal/output) is printed to standard output by `fmt.Printf`; so is the index if the output is `-`; and so are the listings.
Each call writes at once (`os.Stdout` is not buffered), so standard output is a sequence of what single calls wrote.  Not modelled: errors of
printing (the program ignores them) and what kong prints.
-/
namespace Verif.Stdout
open Cmd Output Commands Pb

/-- What is written: text, a measured time (shown by `%s`), or bytes of a message of the index. -/
inductive Shown where
  | text (s : Str)
  | time (d : Int)
  | message (b : Bytes)
  deriving DecidableEq

/-- The bytes of it; `showTime` is `time.Duration.String` (Go standard library). -/
def Shown.bytes (showTime : Int → Str) : Shown → Bytes
  | .text s => Pb.bytes s
  | .time d => Pb.bytes (showTime d)
  | .message b => b

/-- All bytes of standard output. -/
def render (showTime : Int → Str) (l : List Shown) : Bytes := l.flatMap (Shown.bytes showTime)

def ofPiece : Piece → Shown
  | .text s => .text s
  | .time d => .time d

/-- output.go:50, 57, 59, 61. -/
def ofLine (name : Str) : Progress.Line → List Shown
  | .progress c n => [.text (go!"\r" ++ name ++ go!" [" ++ Str.natDigits c ++ go!"/" ++ Str.natDigits n ++ go!"]")]
  | .finished d => [.text go!" Finished in ", .time d, .text go!"."]
  | .newline => [.text go!"\n"]

/-- What `WithProgress` prints around a function that returns (output.go:15-26). -/
def task (level : Level) (name : Str) (elapsed : Int) : List Shown := (withProgress level name ((), level) elapsed).2.map ofPiece

/-- What `makeOptions` prints (main.go:73-119): modules.go:40 runs the resolution of the module name with progress.  If it panics
(modules.go:35) the time is not printed. -/
def options (S : Surroundings) (sh : SharedFlags) (elapsed : Int) : List Shown :=
  match S.abs sh.moduleRoot with
  | .error _ => []
  | .ok root =>
    match getLogLevel sh.quiet sh.verbose with
    | none => []
    | some level =>
      match S.moduleName root sh.repositoryRemote sh.modulePath with
      | .crash => if level > levelWarn then [] else [.text go!"Resolving module name\n"]
      | _ => task level go!"Resolving module name" elapsed

/-- What `LoadPackages` prints, whether it succeeds or not (loader.go:101-128; a panic is recovered). -/
def loading (level : Level) (elapsed : Int) : List Shown := task level go!"Loading Packages" elapsed

/-- Standard output of a listing command: `body` is what the command prints itself (main.go:200-243); it begins with `makeOptions`, then
loads the packages, then prints. -/
def listing (S : Surroundings) (sh : SharedFlags) (elapsed elapsed' : Int) (body : Res IndexOpts → Listing) : List Shown :=
  match makeOptions S sh with
  | .ok (o, level) => options S sh elapsed ++ loading level elapsed' ++ [.text (body (.ok o)).printed]
  | .error e => options S sh elapsed ++ [.text (body (.error e)).printed]
  | .crash => options S sh elapsed ++ [.text (body .crash).printed]

/-- What `WithProgressParallel` may print for one goroutine that counts up to at most `n` (scip.go:121-164, 195-249,
implementations.go:146-164): what the machine of Model/Progress.lean has printed when it returns. -/
def Parallel (level : Level) (name : Str) (n : Nat) (shown : List Shown) : Prop :=
  ∃ s, Progress.Reachable level [n] n s ∧ s.pc = .returned ∧ shown = s.out.flatMap (ofLine name)

/-- `WithProgressParallel` around a goroutine that also writes `todo`, one after the other, while it counts (scip.go:121-164): the state of the
machine of Model/Progress.lean, what is still to be written and all that is on standard output so far.  The goroutine writes before its `wg.Done()`
(deferred, scip.go:127); it does not matter here how many files lie between two counts. -/
inductive Writing (level : Level) (name : Str) (n : Nat) (todo : List Shown) : Progress.State → List Shown → List Shown → Prop where
  | start : Writing level name n todo (Progress.start [n]) todo []
  /-- The working goroutine writes. -/
  | write {s : Progress.State} {m : Shown} {rest shown : List Shown} : Writing level name n todo s (m :: rest) shown →
      (∃ k, s.workers = [⟨k, false⟩]) → Writing level name n todo s rest (shown ++ [m])
  /-- Any step of the machine; what it prints is written at once.  The working goroutine is done only when everything is written. -/
  | step {s s' : Progress.State} {rest shown : List Shown} {lines : List Progress.Line} : Writing level name n todo s rest shown →
      Progress.Step level n s s' → ((∀ w ∈ s'.workers, w.done = true) → rest = []) → s'.out = s.out ++ lines →
      Writing level name n todo s' rest (shown ++ lines.flatMap (ofLine name))

/-- All that is written when `WithProgressParallel` returns. -/
def ParallelWriting (level : Level) (name : Str) (n : Nat) (todo shown : List Shown) : Prop :=
  ∃ s, Writing level name n todo s [] shown ∧ s.pc = .returned

/-- What the calls of the writer for these messages write, after the bytes `c` (main.go:171-183). -/
def chunks (disk : Disk) (c : Bytes) : List Index.Message → List Shown
  | [] => []
  | m :: ms => .message (appended disk c m) :: chunks disk (c ++ appended disk c m) ms

def isDocument : Index.Message → Bool
  | .document _ _ _ => true
  | _ => false

/-- What `Index` writes to standard output (progress and, if that is where the writer writes, messages) in the run `r` on what was
loaded (scip.go:84-178): the metadata; loading; collecting definitions; implementations (how many types there are to check is left
open); the files, while the documents are written; the external symbols.  If the run ends early the rest is missing: the messages
are only those of `r`, and if writing a document failed the progress of the files still ends as usual. -/
def Whole (disk : Disk) (level : Level) (skipImplementations : Bool) (loaded : Except Str (GoMap Index.Package × GoMap Index.Package))
    (r : Index.Run) (shown : List Shown) : Prop :=
  match r.messages with
  | [] => shown = []
  | m :: rest =>
    match writer disk [] m with
    | some _ => shown = chunks disk [] [m]
    | none =>
      ∃ elapsed, match loaded with
        | .error _ => shown = chunks disk [] [m] ++ loading level elapsed
        | .ok (project, _) =>
          ∃ visiting impls mixed total, Parallel level go!"Visiting Packages" project.length visiting ∧
            (if skipImplementations then impls = [] else Parallel level go!"Indexing Implementations" total impls) ∧
            ParallelWriting level go!"Visiting Project Files" project.length (chunks disk (contentAfter disk [m]) (rest.takeWhile isDocument)) mixed ∧
            shown = chunks disk [] [m] ++ loading level elapsed ++ visiting ++ impls ++ mixed ++
              chunks disk (contentAfter disk (m :: rest.takeWhile isDocument)) (rest.dropWhile isDocument)

/-- What `Index` may write to standard output; before a panic it is a beginning of it (how far it gets is left open). -/
def Indexing (disk : Disk) (level : Level) (skipImplementations : Bool) (loaded : Except Str (GoMap Index.Package × GoMap Index.Package))
    (r : Index.Run) (shown : List Shown) : Prop :=
  if r.outcome = .crash then ∃ whole, Whole disk level skipImplementations loaded r whole ∧ shown <+: whole
  else Whole disk level skipImplementations loaded r shown

/-- Is it not a part of the index? -/
def isProgress : Shown → Bool
  | .message _ => false
  | _ => true

/-- Standard output of the command `index` (main.go:121-198): with an output other than `-` messages go to the file.  `loaded` is what is
loaded with the options (see `Program.command`). -/
def Command (S : Surroundings) (sh : SharedFlags) (W : World) (profile : Int) (output : Str)
    (loaded : IndexOpts → Except Str (GoMap Index.Package × GoMap Index.Package)) (indexing : IndexOpts → Index.Writer → Index.Run)
    (shown : List Shown) : Prop :=
  match (if profile > 0 then W.createProfile else none) with
  | some _ => shown = []
  | none =>
    ∃ elapsed, match makeOptions S sh with
      | .error _ => shown = options S sh elapsed
      | .crash => shown = options S sh elapsed
      | .ok (o, level) =>
        if output = go!"-" then
          ∃ l, Indexing W.disk level o.skipImplementations (loaded o) (indexing o (writer W.disk)) l ∧ shown = options S sh elapsed ++ l
        else
          match W.create with
          | some _ => shown = options S sh elapsed
          | none => ∃ l, Indexing W.disk level o.skipImplementations (loaded o) (indexing o (writer W.disk)) l ∧
              shown = options S sh elapsed ++ l.filter isProgress

/-- Standard output of the whole command `index` (see `Program.command`), if enough steps are given for loading to end. -/
def Program (D : Index.Deps) (answer : Program.Query → Except Str Program.Delivered) (env : Loader.Env) (order : Nat → Nat → List Nat) (fuel : Nat)
    (ord : Index.MapOrders) (S : Surroundings) (sh : SharedFlags) (W : World) (profile : Int) (output : Str) (shown : List Shown) : Prop :=
  let loaded := fun o => (Program.load answer env order fuel o o.moduleRoot).getD (.error [])
  Command S sh W profile output loaded (fun o w => Index.index D (Program.indexOpts o) ord w (loaded o)) shown

end Verif.Stdout
