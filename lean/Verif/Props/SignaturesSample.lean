import Verif.Props.Signatures
import Verif.Props.AnonKey
/-! # C79 and C80 on the declarations of internal/testdata/snapshots -/
namespace Verif.SignSample
open Ts Ts.Spec Sign Sign.Spec AnonSample
set_option autoImplicit false

def here : Pkg := ⟨1, go!"example.com/m/here", go!"here"⟩
def secret : Pkg := ⟨2, go!"example.com/m/secret", go!"secret"⟩
def ref {P : Type} (n : Str) : TExpr P := .ref none n .nil
def own (n : Str) : TExpr Pkg := .ref (some here) n .nil
def obj (n : Str) (c : Cls) : View := ⟨some here, true, n, c⟩
/-- A formatter that knows the declarations of the samples. -/
def gofmt (s : Str) : Option Str :=
  if s = go!"package p\n\ntype _ struct{Field string; N []int}\n" then some go!"package p\n\ntype _ struct {\n\tField string\n\tN     []int\n}\n" else none

def noSig : Sig Pkg := .mk .nil false .nil
/-- `func (Processor[T any]).Process(payload T)` -/
def process : View := obj go!"Process" (.func (some (.named false (some here) go!"Processor" [([go!"T"], ref go!"any")])) []
  (.mk (.cons go!"payload" (.tparam go!"T") .nil) false .nil))
/-- `func DoWork[T Person](things []T)` -/
def doWork : View := obj go!"DoWork" (.func none [([go!"T"], own go!"Person")] (.mk (.cons go!"things" (.slice (.tparam go!"T")) .nil) false .nil))
/-- `func (*S).M[…]`: a pointer receiver, a variadic parameter, two results, a union as constraint. -/
def pick : View := obj go!"Pick" (.func none [([go!"K", go!"V"], .union (.cons true (ref go!"int") (.cons false (ref go!"string") .nil)))]
  (.mk (.cons go!"k" (.tparam go!"K") (.cons go!"more" (.slice (.ref (some secret) go!"Burger" .nil)) .nil)) true
    (.cons [] (.tparam go!"V") (.cons [] (ref go!"error") .nil))))
def method : View := obj go!"M" (.func (some (.named true (some here) go!"S" [])) [] noSig)
def ifaceMethod : View := obj go!"M" (.func (some .iface) [] noSig)
/-- `a struct{Name string "json:\"name\""}` -/
def field : View := obj go!"a" (.var true (.struct (.cons (some go!"Name") (ref go!"string") go!"json:\"name\"" .nil)))
def variable' : View := obj go!"a" (.var false (.chan .both (.chan .recv (own go!"T"))))
def constant : View := obj go!"C" (.const (own go!"T") go!"5")
def burger : View := obj go!"BadBurger" (.typeName (.defined [] (.struct (.cons (some go!"Field") (ref go!"string") []
  (.cons (some go!"N") (.slice (ref go!"int")) [] .nil)))))
def aliasOf : View := obj go!"SecretBurger" (.typeName (.alias [] (.ref (some secret) go!"Burger" .nil)))
def defined : View := obj go!"M" (.typeName (.defined [([go!"K"], ref go!"comparable")] (.map (.tparam go!"K") (ref go!"bool"))))
def set : View := obj go!"Set" (.typeName (.alias [([go!"K"], ref go!"comparable")] (.ref (some here) go!"Map" (.cons (.tparam go!"K") (.cons (ref go!"bool") .nil)))))

def sig (v : View) : Str := typeStringForObject gofmt quote unquote v

example : sig process = go!"func (Processor[T any]).Process(payload T)" := by decide +kernel
example : sig doWork = go!"func DoWork[T Person](things []T)" := by decide +kernel
example : sig pick = go!"func Pick[K, V ~int | string](k K, more ...secret.Burger) (V, error)" := by decide +kernel
example : sig method = go!"func (*S).M()" ∧ sig ifaceMethod = go!"func (interface).M()" := by decide +kernel
example : sig field = go!"struct field a struct{Name string `json:\"name\"`}" := by decide +kernel
example : sig variable' = go!"var a chan (<-chan T)" ∧ sig constant = go!"const C T = 5" := by decide +kernel
example : sig burger = go!"type BadBurger struct {\n    Field string\n    N     []int\n}" := by decide +kernel
example : sig aliasOf = go!"type SecretBurger = secret.Burger" ∧ sig set = go!"type Set[K comparable] = Map[K, bool]" := by decide +kernel
/-- The type parameter is missing. -/
example : sig defined = go!"type M map[K]bool" := by decide +kernel
example : localSignature quote (some pick) = go!"func Pick[K, V ~int | string](k K, more ...Burger) (V, error)" ∧
    localSignature quote (some defined) = go!"type M[K comparable] map[K]bool" ∧
    localSignature quote (some ⟨some here, false, go!"T", .typeName (.tparam (own go!"Person") (.iface .nil .nil))⟩) = go!"type parameter T Person" ∧
    localSignature quote (some ⟨some here, false, go!"fmt", .pkgName (some go!"fmt")⟩) = go!"import fmt fmt" ∧
    localSignature quote (some ⟨some here, false, go!"loop", .label⟩) = go!"label loop" := by decide +kernel

/-- The names of the types of the samples that are written without package. -/
def names : List Str := [go!"T", go!"S", go!"Person", go!"Processor", go!"Map", go!"Burger"]
/-- In the declarations of generic functions, `T` is a type parameter. -/
def names' : List Str := [go!"S", go!"Person", go!"Processor", go!"Map", go!"Burger"]

theorem describes : Describes (inPackage process.pkg) process (.function (some (.named false none go!"Processor" [([go!"T"], ref go!"any")])) go!"Process" []
      (.mk (.cons go!"payload" (.tparam go!"T") .nil) false .nil)) ∧
    Describes (inPackage doWork.pkg) doWork (.function none go!"DoWork" [([go!"T"], ref go!"Person")] (.mk (.cons go!"things" (.slice (.tparam go!"T")) .nil) false .nil)) ∧
    Describes (inPackage pick.pkg) pick (.function none go!"Pick" [([go!"K", go!"V"], .union (.cons true (ref go!"int") (.cons false (ref go!"string") .nil)))]
      (.mk (.cons go!"k" (.tparam go!"K") (.cons go!"more" (.slice (.ref (some go!"secret") go!"Burger" .nil)) .nil)) true
        (.cons [] (.tparam go!"V") (.cons [] (ref go!"error") .nil)))) :=
  ⟨.method (v := process) rfl rfl, .function (v := doWork) rfl, .function (v := pick) rfl⟩

theorem wellFormed : WellFormedEntity names' (.function (some (.named false none go!"Processor" [([go!"T"], ref go!"any")])) go!"Process" []
      (.mk (.cons go!"payload" (.tparam go!"T") .nil) false .nil)) ∧
    WellFormedEntity names' (.function none go!"DoWork" [([go!"T"], ref go!"Person")] (.mk (.cons go!"things" (.slice (.tparam go!"T")) .nil) false .nil)) ∧
    WellFormedEntity names' (.function none go!"Pick" [([go!"K", go!"V"], .union (.cons true (ref go!"int") (.cons false (ref go!"string") .nil)))]
      (.mk (.cons go!"k" (.tparam go!"K") (.cons go!"more" (.slice (.ref (some go!"secret") go!"Burger" .nil)) .nil)) true
        (.cons [] (.tparam go!"V") (.cons [] (ref go!"error") .nil)))) := by
  refine ⟨⟨?_, ?_, ?_, ?_⟩, ⟨?_, ?_, ?_, ?_⟩, ⟨?_, ?_, ?_, ?_⟩⟩ <;>
    (try simp only [Option.some.injEq, forall_eq', reduceCtorEq, false_imp_iff, implies_true, WellFormedRecv, WellFormedTParams, List.mem_singleton, forall_eq, List.not_mem_nil,
      ref, names', WellFormed, WellFormedS, WellFormedP, WellFormedL, WellFormedU, WellFormedT, Proper, LastIsSlice, or_false, false_or, and_true, true_and, Bool.false_eq_true]) <;>
    decide +kernel

/-- The three functions have three signatures, as `C79_determines_partial` says. -/
example (gofmt : Str → Option Str) : typeStringForObject gofmt quote unquote doWork ≠ typeStringForObject gofmt quote unquote pick := by
  rw [ne_eq, C79_determines_partial gofmt quote unquote quotes names' _ _ _ _ describes.2.1 describes.2.2 wellFormed.2.1 wellFormed.2.2 trivial trivial]
  simp [Entity.shown]

/-- A field with a tag meets the hypotheses too. -/
example : Describes (inPackage field.pkg) field (.field go!"a" (.struct (.cons (some go!"Name") (ref go!"string") go!"json:\"name\"" .nil))) ∧
    WellFormedEntity [] (.field go!"a" (.struct (.cons (some go!"Name") (ref go!"string") go!"json:\"name\"" .nil))) ∧
    OneLine (.field go!"a" (.struct (.cons (some go!"Name") (ref go!"string") go!"json:\"name\"" .nil))) := by
  refine ⟨.field (v := field) rfl, ?_, ?_⟩
  · simp only [WellFormedEntity, WellFormed, WellFormedF, ref, WellFormedL, List.not_mem_nil, false_and, or_false]
    decide +kernel
  · simp only [OneLine, PlainTags, tags, tagsF, tagsL, ref]
    decide +kernel

/-- A variable and an alias. -/
example : Describes (inPackage variable'.pkg) variable' (.variable go!"a" (.chan .both (.chan .recv (ref go!"T")))) ∧
    Describes (inPackage aliasOf.pkg) aliasOf (.alias go!"SecretBurger" [] (.ref (some go!"secret") go!"Burger" .nil)) ∧
    OneLine (.alias go!"SecretBurger" [] (.ref (some go!"secret") go!"Burger" .nil)) :=
  ⟨.variable (v := variable') rfl, .alias (v := aliasOf) rfl, rfl, rfl⟩

/-- The layout of the formatter of the samples. -/
example : LaidOut gofmt (render quote id (relabel (inPackage burger.pkg) (.struct (.cons (some go!"Field") (ref go!"string") []
    (.cons (some go!"N") (.slice (ref go!"int")) [] .nil))))) go!"struct {\n\tField string\n\tN     []int\n}" :=
  ⟨by decide +kernel, by decide, fun w hw => (show Verif.Spec.NoBlankEnds go!"struct {\n\tField string\n\tN     []int\n}" by decide +kernel) w hw |>.2⟩

/-- A view of the objects of the model. -/
def view (o : Obj) : View := ⟨none, false, o.self.name, match o.self.cls with | .pkgName p => .pkgName (some p) | _ => .label⟩
theorem views : Views view := by
  intro o
  refine ⟨rfl, ?_⟩
  unfold view
  cases h : o.self.cls with
  | pkgName p => exact .inl ⟨p, rfl, rfl⟩
  | _ => exact .inr ⟨by simp, by simp⟩

end Verif.SignSample
