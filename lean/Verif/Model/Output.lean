import Verif.Model.Cmd
/-!
# internal/output: durations and progress

`time.Duration` is a signed 64 bit count of nanoseconds; nothing here can leave that range (the largest product is 10 ms), so integers
are used.
-/
namespace Verif.Output
open Cmd

def nanosecond : Int := 1
def microsecond : Int := 1000 * nanosecond
def millisecond : Int := 1000 * microsecond
def second : Int := 1000 * millisecond
def minute : Int := 60 * second
def hour : Int := 60 * minute

/-- duration.go:7-14 `durations`. -/
def durations : List Int := [nanosecond, microsecond, millisecond, second, minute, hour]

/-- time.Duration.Truncate (Go standard library). -/
def truncate (d m : Int) : Int := if m ≤ 0 then d else d - d.tmod m

/-- duration.go:25-28: the loop that counts the units up to `elapsed`. -/
def countUnits (elapsed : Int) : List Int → Nat
  | [] => 0
  | u :: us => if elapsed ≥ u then countUnits elapsed us + 1 else 0

/-- duration.go:24-46 `humanElapsed`. -/
def humanElapsed (elapsed : Int) : Int :=
  let i := countUnits elapsed durations
  if i ≥ 2 then
    let resolution := durations.getD (i - 2) 0
    let resolution := if (durations.getD (i - 1) 0).tdiv (durations.getD (i - 2) 0) > 100 then resolution * 10 else resolution
    truncate elapsed resolution
  else elapsed

/-- What is printed: texts without a measured time, and measured times (as shown by `%s` of the value). -/
inductive Piece where
  | text (s : Str)
  | time (d : Int)
  deriving DecidableEq

/-- output.go:15-26 `WithProgress`. `fn` is run once and may change the log level (`after`); `elapsed` is how long it took. -/
def withProgress {ε : Type} (level : Level) (name : Str) (fn : ε × Level) (elapsed : Int) : ε × List Piece :=
  if level > levelWarn then (fn.1, [])
  else
    let start := [Piece.text (name ++ go!"\n")]
    if fn.2 < levelWarn then (fn.1, start ++ [.text go!"Finished in ", .time (humanElapsed elapsed), .text go!".\n\n"])
    else (fn.1, start)

end Verif.Output
