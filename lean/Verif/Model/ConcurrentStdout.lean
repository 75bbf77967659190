import Verif.Model.ConcurrentIndex
import Verif.Model.Stdout
/-! # Standard output of `Index` with all its goroutines

`os.Stdout` is not buffered: what the goroutines write appears in the order of their calls. -/
namespace Verif.ConcurrentIndex
open Cmd Output Stdout

/-- The names of the tasks (scip.go:164, 249, implementations.go:164). -/
def Phase.task : Phase → Str
  | .visiting => go!"Visiting Packages"
  | .relating => go!"Indexing Implementations"
  | .writing => go!"Visiting Project Files"

/-- What appears on standard output, if the writer writes there too: `c` is what the writer has written before (main.go:171-183). -/
def shown (disk : Disk) (level : Level) (c : Pb.Bytes) : List Event → List Shown
  | [] => []
  | .loaded elapsed :: es => loading level elapsed ++ shown disk level c es
  | .line k l :: es => ofLine k.task l ++ shown disk level c es
  | .wrote m :: es => .message (appended disk c m) :: shown disk level (c ++ appended disk c m) es

end Verif.ConcurrentIndex
