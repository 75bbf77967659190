import Verif.Model.ConcurrentLookup
/-! # Calls one after the other, and data races (for C109) -/
namespace Verif.Spec
open ConcurrentLookup

/-- One call when nobody else is there: the functions of lookup.go. -/
def oneCall (scopes : Scopes) (g : Global) : Call → Global × Answer
  | .add path r => (g.add path r, .nothing)
  | .setPkgSymbol path m => ((g.setPkgSymbol path m).1, .symbol (some (g.setPkgSymbol path m).2))
  | .pkgSymbol path => (g, .symbol (g.getPkgSymbol path))
  | .package path => (g, .record (g.symbols.lookup path))
  | .information path pos => (g, .info (g.getSymbolInformation path pos))
  | .ofObject obj => ((g.getSymbolOfObject scopes obj).1, .found (g.getSymbolOfObject scopes obj).2)

/-- Calls one after the other. -/
def inOrder (scopes : Scopes) (g : Global) : List Call → Global × List Answer
  | [] => (g, [])
  | c :: cs =>
    let (g', a) := oneCall scopes g c
    let (g'', as) := inOrder scopes g' cs
    (g'', a :: as)

/-- A finished call: who called, what, and what was answered. -/
structure Finished where
  thread : Nat
  call : Call
  answer : Answer

/-- What the calls of goroutine `t` were and returned, in the order of the log. -/
def finishedBy (log : List Finished) (t : Nat) : List (Call × Answer) := (log.filter (fun c => c.thread = t)).map (fun c => (c.call, c.answer))

/-- The object is a predeclared type (`int`, `error`, …): a type name without a package. -/
def Predeclared (obj : Obj) : Prop := obj.self.pkg = none ∧ ∃ k, obj.self.cls = .typeName k

/-- A call that only looks something up, and not a predeclared type. -/
def Lookup : Call → Prop
  | .add .. => False
  | .setPkgSymbol .. => False
  | .ofObject obj => ¬ Predeclared obj
  | _ => True

/-- A call that fills the tables. -/
def Update : Call → Prop
  | .add .. => True
  | .setPkgSymbol .. => True
  | _ => False

/-- Two accesses that must not happen at once. -/
def Clash (a b : Access) : Prop := a.loc = b.loc ∧ (a.write = true ∨ b.write = true)

/-- Two goroutines are about to make accesses that must not happen at once. -/
def Race (scopes : Scopes) (s : State) : Prop :=
  ∃ t u acc acc' s₁ s₂, t ≠ u ∧ Step scopes s t acc s₁ ∧ Step scopes s u acc' s₂ ∧ ∃ a ∈ acc, ∃ b ∈ acc', Clash a b

/-- The call that a goroutine is in, or about to make. -/
def currentCall (x : Thread) : Option Call :=
  match x.pc with
  | .outside => x.todo.head?
  | .waiting c | .holding c | .written c _ => some c
  | .halfway path m => some (.setPkgSymbol path m)
  | .marking obj | .searching obj _ _ | .composing obj _ _ => some (.ofObject obj)

/-- The package that an update is about. -/
def About (path : Str) : Call → Prop
  | .add p _ => p = path
  | .setPkgSymbol p _ => p = path
  | _ => False

/-- The goroutine has returned from all its calls. -/
def Through (x : Thread) : Prop := x.pc = .outside ∧ x.todo = []

end Verif.Spec
