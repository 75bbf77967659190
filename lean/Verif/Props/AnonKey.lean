import Verif.Lemmas.TypeTextReads
import Verif.Props.Visitors
/-! # C25: the keys of anonymous types -/
namespace Verif
open Ts Ts.Spec
set_option autoImplicit false

theorem hexDigit_inj {a b : Nat} (ha : a < 16) (hb : b < 16) (h : hexDigit a = hexDigit b) : a = b := by
  have all : ∀ a b : Fin 16, hexDigit a.val = hexDigit b.val → a = b := by decide +kernel
  exact congrArg Fin.val (all ⟨a, ha⟩ ⟨b, hb⟩ h)

theorem hexEncode_inj {a b : List UInt8} (h : hexEncode a = hexEncode b) : a = b := by
  induction a generalizing b with
  | nil =>
    cases b with
    | nil => rfl
    | cons y b => simp [hexEncode] at h
  | cons x a ih =>
    cases b with
    | nil => simp [hexEncode] at h
    | cons y b =>
      simp only [hexEncode, List.cons.injEq] at h
      obtain ⟨h1, h2, h3⟩ := h
      have hx := x.toNat_lt
      have hy := y.toNat_lt
      have e1 := hexDigit_inj (by omega) (by omega) h1
      have e2 := hexDigit_inj (by omega) (by omega) h2
      have : x.toNat = y.toNat := by omega
      rw [ih h3, UInt8.toNat_inj.1 this]

/-- The hash does not confuse these two texts (8 bytes of SHA-256). -/
def NoCollision (sum : Str → List UInt8) (a b : Str) : Prop := (sum a).take 8 = (sum b).take 8 → a = b

/-- **C25**, the key of an anonymous type determines the type as it is written — every field name, tag, order, embedding, package, type
argument and nested type, and nothing else: two typed expressions have the same key iff they have the same type expression. -/
theorem C25_key_iff (quote : Str → Str) (unquote : Str → Option Str) (hq : Quotes quote unquote) (sum : Str → List UInt8)
    (typeOf : Node → Option (TExpr Str)) (e₁ e₂ : Node) (t₁ t₂ : TExpr Str) (h₁ : typeOf e₁ = some t₁) (h₂ : typeOf e₂ = some t₂)
    (w₁ : WellFormed [] t₁) (w₂ : WellFormed [] t₂) (hc : NoCollision sum (render quote id t₁) (render quote id t₂)) :
    anonTypeKey quote sum typeOf e₁ = anonTypeKey quote sum typeOf e₂ ↔ t₁ = t₂ := by
  unfold anonTypeKey
  rw [h₁, h₂]
  simp only [List.append_cancel_left_eq]
  constructor
  · intro h
    exact render_injective (fun s => .inl (hq s)) w₁ w₂ (hc (hexEncode_inj h))
  · rintro rfl
    rfl

/-- **C25**, partial: below the same owner the field symbols of two anonymous types without aliases, names of parameters and embedded
interfaces coincide iff the types are identical and the fields have the same name.  Missing: types in which aliases, parameter names or
embedded interfaces occur, for which it is false (below). -/
theorem C25_identical_types_partial (env : PkgEnv) (o : List Descriptor) (quote : Str → Str) (unquote : Str → Option Str)
    (hq : Quotes quote unquote) (sum : Str → List UInt8) (typeOf : Node → Option (TExpr Str)) (hk : env.anonKey = anonTypeKey quote sum typeOf)
    (alias : Option Str → Str → Option (TExpr Str))
    (e₁ e₂ : Node) (t₁ t₂ : TExpr Str) (h₁ : typeOf e₁ = some t₁) (h₂ : typeOf e₂ = some t₂) (w₁ : WellFormed [] t₁) (w₂ : WellFormed [] t₂)
    (p₁ : Plain alias t₁) (p₂ : Plain alias t₂) (hc : NoCollision sum (render quote id t₁) (render quote id t₂)) (n₁ n₂ : Str)
    (hm : Spec.fieldOk env.module.path) (hv : Spec.fieldOk env.module.version) :
    env.fromDescriptors (o ++ [⟨env.anonKey e₁, .typ⟩, ⟨n₁, .term⟩]) = env.fromDescriptors (o ++ [⟨env.anonKey e₂, .typ⟩, ⟨n₂, .term⟩]) ↔
      Identical alias t₁ t₂ ∧ n₁ = n₂ := by
  rw [C25_sharing env o _ _ _ _ hm hv, hk, C25_key_iff quote unquote hq sum typeOf e₁ e₂ t₁ t₂ h₁ h₂ w₁ w₂ hc]
  unfold Identical
  rw [p₁, p₂]

/-- **C25** is false for identical types that are written differently: whenever the hash does not confuse the two texts, the same field of two
identical types has two symbols. -/
theorem C25_written_differently (env : PkgEnv) (o : List Descriptor) (quote : Str → Str) (unquote : Str → Option Str)
    (hq : Quotes quote unquote) (sum : Str → List UInt8) (typeOf : Node → Option (TExpr Str)) (hk : env.anonKey = anonTypeKey quote sum typeOf)
    (e₁ e₂ : Node) (t₁ t₂ : TExpr Str) (h₁ : typeOf e₁ = some t₁) (h₂ : typeOf e₂ = some t₂) (w₁ : WellFormed [] t₁) (w₂ : WellFormed [] t₂)
    (hne : t₁ ≠ t₂) (hc : NoCollision sum (render quote id t₁) (render quote id t₂)) (n : Str)
    (hm : Spec.fieldOk env.module.path) (hv : Spec.fieldOk env.module.version) :
    env.fromDescriptors (o ++ [⟨env.anonKey e₁, .typ⟩, ⟨n, .term⟩]) ≠ env.fromDescriptors (o ++ [⟨env.anonKey e₂, .typ⟩, ⟨n, .term⟩]) := by
  rw [ne_eq, C25_sharing env o _ _ _ _ hm hv, hk, C25_key_iff quote unquote hq sum typeOf e₁ e₂ t₁ t₂ h₁ h₂ w₁ w₂ hc]
  simp [hne]

/-- **C25**, the form of a key: `$anon_` and 16 hexadecimal digits; no key (and no symbols) for an expression without type. -/
theorem C25_key_shape (quote : Str → Str) (sum : Str → List UInt8) (hs : ∀ s, (sum s).length = 32) (typeOf : Node → Option (TExpr Str)) (e : Node) :
    (typeOf e = none → anonTypeKey quote sum typeOf e = []) ∧
    (∀ t, typeOf e = some t → ∃ d, anonTypeKey quote sum typeOf e = go!"$anon_" ++ d ∧ d.length = 16 ∧ ∀ c ∈ d, c ∈ go!"0123456789abcdef") := by
  refine ⟨fun h => by simp [anonTypeKey, h], fun t h => ⟨hexEncode ((sum (render quote id t)).take 8), by simp only [anonTypeKey, h], ?_, ?_⟩⟩
  · have : ∀ l : List UInt8, (hexEncode l).length = 2 * l.length := by
      intro l
      induction l with
      | nil => rfl
      | cons x l ih => simp [hexEncode, ih]; omega
    rw [this, List.length_take, hs]
    rfl
  · have all : ∀ a : Fin 16, hexDigit a.val ∈ go!"0123456789abcdef" := by decide +kernel
    have : ∀ l : List UInt8, ∀ c ∈ hexEncode l, c ∈ go!"0123456789abcdef" := by
      intro l
      induction l with
      | nil => simp [hexEncode]
      | cons x l ih =>
        intro c hc
        have hx := x.toNat_lt
        simp only [hexEncode, List.mem_cons] at hc
        rcases hc with rfl | rfl | hc
        · exact all ⟨x.toNat / 16, by omega⟩
        · exact all ⟨x.toNat % 16, by omega⟩
        · exact ih c hc
    exact this _

/-! ## Samples -/
namespace AnonSample

/-- Quoting without special characters, enough for the tags of the samples: `\` before `"` and `\`. -/
def quoteBody : Str → Str
  | [] => []
  | c :: r => if c = '"' ∨ c = '\\' then '\\' :: c :: quoteBody r else c :: quoteBody r
def quote (s : Str) : Str := '"' :: (quoteBody s ++ ['"'])
def unquoteBody : Str → Str
  | '\\' :: c :: r => c :: unquoteBody r
  | '"' :: _ => []
  | c :: r => c :: unquoteBody r
  | [] => []
def unquote : Str → Option Str
  | '"' :: r => some (unquoteBody r)
  | _ => none

theorem unquote_body (s : Str) : unquoteBody (quoteBody s ++ ['"']) = s := by
  induction s with
  | nil => rfl
  | cons c s ih =>
    unfold quoteBody
    split
    · simp [unquoteBody, ih]
    · rename_i h
      simp only [not_or] at h
      show unquoteBody (c :: (quoteBody s ++ ['"'])) = _
      rw [unquoteBody.eq_3 c _ (fun _ _ h1 _ => h.2 h1) (fun h1 => h.1 h1), ih]

theorem quotes : Quotes quote unquote := by
  intro s
  refine ⟨quoteBody s, rfl, ?_, by simp [quote, unquote, unquote_body]⟩
  induction s with
  | nil => exact .nil
  | cons c s ih =>
    unfold quoteBody
    split
    · exact .escape ih
    · rename_i h
      simp only [not_or] at h
      exact .plain h.1 h.2 ih

/-- An injective stand-in for the hash is not needed: only two texts are compared. -/
def sum (s : Str) : List UInt8 := (s.foldl (fun h c => (h * 31 + c.toNat) % 2 ^ 61) 7 |> fun h => (List.range 32).map (fun i => UInt8.ofNat (h / 2 ^ (8 * i) % 256)))

def int : TExpr Str := .ref none go!"int" .nil
/-- `struct{ F int "json:\"f\""; *io.Reader; G map[string][]func(int, ...string) (bool, error) }` -/
def t₁ : TExpr Str := .struct (.cons (some go!"F") int go!"json:\"f\"" (.cons none (.ptr (.ref (some go!"io") go!"Reader" .nil)) []
  (.cons (some go!"G") (.map (.ref none go!"string" .nil) (.slice (.func (.mk (.cons [] int (.cons [] (.slice (.ref none go!"string" .nil)) .nil)) true
    (.cons [] (.ref none go!"bool" .nil) (.cons [] (.ref none go!"error" .nil) .nil)))))) [] .nil)))
/-- The same with another tag. -/
def t₂ : TExpr Str := .struct (.cons (some go!"F") int go!"json:\"g\"" (.cons none (.ptr (.ref (some go!"io") go!"Reader" .nil)) []
  (.cons (some go!"G") (.map (.ref none go!"string" .nil) (.slice (.func (.mk (.cons [] int (.cons [] (.slice (.ref none go!"string" .nil)) .nil)) true
    (.cons [] (.ref none go!"bool" .nil) (.cons [] (.ref none go!"error" .nil) .nil)))))) [] .nil)))

example : render quote id t₁ =
    go!"struct{F int \"json:\\\"f\\\"\"; *io.Reader; G map[string][]func(int, ...string) (bool, error)}" := by decide +kernel

/-- The four nestings of channels: only a receive-only element of a bidirectional channel needs parentheses. -/
example : render quote id (.chan .both (.chan .recv int)) = go!"chan (<-chan int)" ∧ render quote id (.chan .send (.chan .both int)) = go!"chan<- chan int" ∧
    render quote id (.chan .both (.chan .send int)) = go!"chan chan<- int" ∧ render quote id (.chan .recv (.chan .recv int)) = go!"<-chan <-chan int" := by
  decide +kernel

instance (n : Str) : Decidable (Identifier n) := by unfold Identifier; infer_instance
instance (n : Str) : Decidable (ImportPath n) := by unfold ImportPath; infer_instance

theorem wf₁ : WellFormed [] t₁ ∧ WellFormed [] t₂ := by
  simp only [t₁, t₂, int, WellFormed, WellFormedF, WellFormedS, WellFormedP, WellFormedL, Embeddable, LastIsSlice, true_or, true_and, and_true,
    implies_true, List.not_mem_nil, false_and, or_false]
  decide +kernel

/-- A tag makes another type, hence another key. -/
example (typeOf : Node → Option (TExpr Str)) (e₁ e₂ : Node) (h₁ : typeOf e₁ = some t₁) (h₂ : typeOf e₂ = some t₂) :
    anonTypeKey quote sum typeOf e₁ ≠ anonTypeKey quote sum typeOf e₂ := by
  rw [ne_eq, C25_key_iff quote unquote quotes sum typeOf e₁ e₂ t₁ t₂ h₁ h₂ wf₁.1 wf₁.2 (by
    intro h
    revert h
    decide +kernel)]
  simp [t₁, t₂]

theorem plain₁ : Plain predeclaredAlias t₁ ∧ Plain predeclaredAlias t₂ := by
  constructor <;> rfl

/-- `struct{ F any }` and `struct{ F interface{} }` are identical, `interface{ M(x int) }` and `interface{ M(y int) }` too — with different
texts, so with different keys. -/
def anyStruct : TExpr Str := .struct (.cons (some go!"F") (.ref none go!"any" .nil) [] .nil)
def emptyStruct : TExpr Str := .struct (.cons (some go!"F") (.iface .nil .nil) [] .nil)
def namedX : TExpr Str := .iface (.cons go!"M" (.mk (.cons go!"x" int .nil) false .nil) .nil) .nil
def namedY : TExpr Str := .iface (.cons go!"M" (.mk (.cons go!"y" int .nil) false .nil) .nil) .nil

theorem identical_pairs : Identical predeclaredAlias anyStruct emptyStruct ∧ Identical predeclaredAlias namedX namedY ∧
    WellFormed [] anyStruct ∧ WellFormed [] emptyStruct ∧ WellFormed [] namedX ∧ WellFormed [] namedY ∧ anyStruct ≠ emptyStruct ∧ namedX ≠ namedY := by
  refine ⟨rfl, rfl, ?_, ?_, ?_, ?_, by simp [anyStruct, emptyStruct], by simp [namedX, namedY]⟩ <;>
    simp only [anyStruct, emptyStruct, namedX, namedY, int, WellFormed, WellFormedF, WellFormedS, WellFormedP, WellFormedL, WellFormedM, WellFormedE,
      LastIsSlice, List.not_mem_nil, false_and, or_false] <;> decide +kernel

example : render quote id anyStruct = go!"struct{F any}" ∧ render quote id emptyStruct = go!"struct{F interface{}}" ∧
    render quote id namedX = go!"interface{M(x int)}" ∧ render quote id namedY = go!"interface{M(y int)}" := by decide +kernel

/-- The two fields `F` of `var v struct { A struct{ F any }; B struct{ F interface{} } }`-like owners have different symbols. -/
example (env : PkgEnv) (o : List Descriptor) (typeOf : Node → Option (TExpr Str)) (hk : env.anonKey = anonTypeKey quote sum typeOf) (e₁ e₂ : Node)
    (h₁ : typeOf e₁ = some anyStruct) (h₂ : typeOf e₂ = some emptyStruct) (hm : Spec.fieldOk env.module.path) (hv : Spec.fieldOk env.module.version) :
    env.fromDescriptors (o ++ [⟨env.anonKey e₁, .typ⟩, ⟨go!"F", .term⟩]) ≠ env.fromDescriptors (o ++ [⟨env.anonKey e₂, .typ⟩, ⟨go!"F", .term⟩]) :=
  C25_written_differently env o quote unquote quotes sum typeOf hk e₁ e₂ _ _ h₁ h₂ identical_pairs.2.2.1 identical_pairs.2.2.2.1
    identical_pairs.2.2.2.2.2.2.1 (by intro h; revert h; decide +kernel) _ hm hv

end AnonSample
end Verif
