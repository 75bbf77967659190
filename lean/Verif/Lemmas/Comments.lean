import Verif.Lemmas.Package
import Verif.Props.Document
import Verif.Spec.Comments
import Mathlib.Data.List.Nodup
/-! # The comment of each identifier of a package -/
namespace Verif
open Spec

mutual

/-- The identifiers of a tree that is not a top-level declaration, each with the node its documentation comes from (none: it is not known
which).  `emb` is for the name of an embedded field. -/
def nested (emb : Option Parent) : Node → List (Ident × Option Parent)
  | .ident i => [(i, emb)]
  | .selector x sel => (sel, emb) :: nested none x
  | .star x => nested emb x
  | .paren x => nested none x
  | .index x is => nested emb x ++ nestedList is
  | .unary x => nested emb x
  | .arrayT len elt => nestedList len ++ nested none elt
  | .mapT k v => nested none k ++ nested none v
  | .chanT v => nested none v
  | .funcT tps ps rs => nestedList tps ++ (nestedList ps ++ nestedList rs)
  | .structT fs => nestedList fs
  | .ifaceT ms => nestedList ms
  | .field _ names typ d c => names.map (·, some (.field d c)) ++ nested (if names = [] then some (.field d c) else none) typ
  | .block ss => nestedList ss
  | .importSpec _ name _ => name.toList.map (·, none)
  | .typeSpec name tps typ _ => (name, none) :: (nestedList tps ++ nested none typ)
  | .valueSpec _ names typ values _ _ => names.map (·, none) ++ (nestedList typ ++ nestedList values)
  | .genDecl _ specs _ => nestedList specs
  | .funcDecl recv name typ body _ _ _ => (name, none) :: (nestedList recv ++ (nested none typ ++ nestedList body))
  | .badDecl => []
  | .file _ decls => nestedList decls
  | .other cs => nestedList cs

def nestedList : List Node → List (Ident × Option Parent)
  | [] => []
  | n :: ns => nested none n ++ nestedList ns

end

theorem nested_fst_both : (∀ emb n, (nested emb n).map (·.1) = identifiers n) ∧ ∀ ns, (nestedList ns).map (·.1) = identifiersList ns := by
  apply nested.mutual_induct
  all_goals intros; simp_all [nested, nestedList, identifiers, identifiersList, Function.comp_def]

theorem nested_fst (emb : Option Parent) (n : Node) : (nested emb n).map (·.1) = identifiers n := nested_fst_both.1 emb n

theorem nestedList_fst (ns : List Node) : (nestedList ns).map (·.1) = identifiersList ns := nested_fst_both.2 ns

theorem nestedList_sub {n : Node} {ns : List Node} (h : n ∈ ns) : nested none n ⊆ nestedList ns := by
  induction ns with
  | nil => simp at h
  | cons m ms ih =>
    rcases List.mem_cons.1 h with rfl | h
    · intro e he; simp [nestedList, he]
    · intro e he; simp [nestedList, ih h he]

/-- A node below is visited. -/
theorem nested_child (emb : Option Parent) {n c : Node} (h : c ∈ children n) : ∃ emb', nested emb' c ⊆ nested emb n := by
  cases n <;> simp only [children, List.mem_append, List.mem_cons, List.not_mem_nil, or_false] at h
  case selector x s => subst h; exact ⟨none, fun e he => by simp [nested, he]⟩
  case star x => subst h; exact ⟨emb, fun e he => by simp [nested, he]⟩
  case paren x => subst h; exact ⟨none, fun e he => by simp [nested, he]⟩
  case index x is =>
    rcases h with rfl | h
    · exact ⟨emb, fun e he => by simp [nested, he]⟩
    · exact ⟨none, fun e he => by simp [nested, nestedList_sub h he]⟩
  case unary x => subst h; exact ⟨emb, fun e he => by simp [nested, he]⟩
  case arrayT l x =>
    rcases h with h | rfl
    · exact ⟨none, fun e he => by simp [nested, nestedList_sub h he]⟩
    · exact ⟨none, fun e he => by simp [nested, he]⟩
  case mapT k v => rcases h with rfl | rfl <;> exact ⟨none, fun e he => by simp [nested, he]⟩
  case chanT x => subst h; exact ⟨none, fun e he => by simp [nested, he]⟩
  case funcT a b c => rcases h with h | h | h <;> exact ⟨none, fun e he => by simp [nested, nestedList_sub h he]⟩
  case structT fs => exact ⟨none, fun e he => by simp [nested, nestedList_sub h he]⟩
  case ifaceT fs => exact ⟨none, fun e he => by simp [nested, nestedList_sub h he]⟩
  case field p ns t d c => subst h; exact ⟨_, fun e he => by simp only [nested]; exact List.mem_append.2 (.inr he)⟩
  case block fs => exact ⟨none, fun e he => by simp [nested, nestedList_sub h he]⟩
  case typeSpec n l x d =>
    rcases h with h | rfl
    · exact ⟨none, fun e he => by simp [nested, nestedList_sub h he]⟩
    · exact ⟨none, fun e he => by simp [nested, he]⟩
  case valueSpec p ns a b d c => rcases h with h | h <;> exact ⟨none, fun e he => by simp [nested, nestedList_sub h he]⟩
  case genDecl t fs d => exact ⟨none, fun e he => by simp [nested, nestedList_sub h he]⟩
  case funcDecl r n t b p q d =>
    rcases h with h | rfl | h
    · exact ⟨none, fun e he => by simp [nested, nestedList_sub h he]⟩
    · exact ⟨none, fun e he => by simp [nested, he]⟩
    · exact ⟨none, fun e he => by simp [nested, nestedList_sub h he]⟩
  case file n fs => exact ⟨none, fun e he => by simp [nested, nestedList_sub h he]⟩
  case other fs => exact ⟨none, fun e he => by simp [nested, nestedList_sub h he]⟩

theorem nested_below {n m : Node} (h : Below n m) : ∀ emb, ∃ emb', nested emb' m ⊆ nested emb n := by
  induction h with
  | refl n => exact fun emb => ⟨emb, fun _ h => h⟩
  | child hc _ ih =>
    intro emb
    obtain ⟨e₁, h₁⟩ := nested_child emb hc
    obtain ⟨e₂, h₂⟩ := ih e₁
    exact ⟨e₂, fun _ h => h₁ (h₂ h)⟩

theorem nested_embedded {n : Node} {i : Ident} (h : EmbeddedName n i) (par : Option Parent) : (i, par) ∈ nested par n := by
  induction h with
  | ident i => simp [nested]
  | selector x i => simp [nested]
  | star _ ih => simpa [nested] using ih
  | index _ ih => simp [nested, ih]
  | unary _ ih => simpa [nested] using ih

/-- Where the documentation of the identifiers of a spec comes from. -/
def specPlaces (par : Parent) (value : Bool) : Node → List (Ident × Option Parent)
  | .typeSpec n tps typ _ => (n, some par) :: (nestedList tps ++ nested none typ)
  | .valueSpec _ names typ vs _ _ => names.map (·, if value then some par else none) ++ (nestedList typ ++ nestedList vs)
  | s => nested none s

theorem specPlaces_fst (par : Parent) (value : Bool) (s : Node) : (specPlaces par value s).map (·.1) = identifiers s := by
  cases s <;> simp [specPlaces, nested_fst, nestedList_fst, identifiers, Function.comp_def]

open Classical in
/-- Specs of a declaration; `value`: the comments of values are known. -/
noncomputable def specsPlaces (par : Parent) : Bool → List Node → List (Ident × Option Parent)
  | _, [] => []
  | value, s :: ss => specPlaces par value s ++ specsPlaces par (value && decide (NoDecl s)) ss

theorem specsPlaces_fst (par : Parent) (value : Bool) (ss : List Node) :
    (specsPlaces par value ss).map (·.1) = identifiersList ss := by
  induction ss generalizing value with
  | nil => rfl
  | cons s ss ih => simp [specsPlaces, identifiersList, specPlaces_fst, ih]

/-- A top-level declaration. -/
noncomputable def declPlaces : Node → List (Ident × Option Parent)
  | .genDecl tok specs doc => specsPlaces (.genDecl specs doc) (decide (tok = .var ∨ tok = .const)) specs
  | .funcDecl recv name typ body _ _ doc => (name, some (.funcDecl doc)) :: (nestedList recv ++ (nested none typ ++ nestedList body))
  | d => nested none d

theorem declPlaces_fst (d : Node) : (declPlaces d).map (·.1) = identifiers d := by
  cases d <;> simp [declPlaces, nested_fst, nestedList_fst, identifiers, specsPlaces_fst]

theorem flatMap_fst {α} (l : List α) (g : α → List (Ident × Option Parent)) (h : α → List Ident) (e : ∀ a, (g a).map (·.1) = h a) :
    (l.flatMap g).map (·.1) = l.flatMap h := by
  rw [List.map_flatMap]; congr 1; funext a; exact e a

theorem identifiersList_eq (ns : List Node) : identifiersList ns = ns.flatMap identifiers := by
  induction ns with
  | nil => rfl
  | cons n ns ih => simp [identifiersList, ih]

/-! ## Members -/

theorem specPlaces_below {par : Parent} {value : Bool} {s m : Node} (h : Below s m) :
    (s = m) ∨ ∃ emb, nested emb m ⊆ specPlaces par value s := by
  cases h with
  | refl => exact .inl rfl
  | child hc hb =>
    rename_i c
    right
    have hs : ∃ emb, nested emb c ⊆ specPlaces par value s := by
      cases s
      case typeSpec n tps typ d =>
        simp only [children, List.mem_append, List.mem_cons, List.not_mem_nil, or_false] at hc
        rcases hc with h | rfl
        · exact ⟨none, fun e he => by simp [specPlaces, nestedList_sub h he]⟩
        · exact ⟨none, fun e he => by simp [specPlaces, he]⟩
      case valueSpec p ns a b d c =>
        simp only [children, List.mem_append] at hc
        rcases hc with h | h <;> exact ⟨none, fun e he => by simp [specPlaces, nestedList_sub h he]⟩
      all_goals exact nested_child none hc
    obtain ⟨e, he⟩ := hs
    obtain ⟨e', he'⟩ := nested_below hb e
    exact ⟨e', fun _ h => he (he' h)⟩

theorem specsPlaces_sub {par : Parent} {s : Node} {ss : List Node} (h : s ∈ ss) (value : Bool) :
    ∃ v, specPlaces par v s ⊆ specsPlaces par value ss := by
  induction ss generalizing value with
  | nil => simp at h
  | cons a ss ih =>
    rcases List.mem_cons.1 h with rfl | h
    · exact ⟨value, fun e he => by simp [specsPlaces, he]⟩
    · obtain ⟨v, hv⟩ := ih h _
      exact ⟨v, fun e he => by simp only [specsPlaces]; exact List.mem_append.2 (.inr (hv he))⟩

theorem nested_field {par : Option Parent} {pos names typ d c i} (h : i ∈ names ∨ names = [] ∧ EmbeddedName typ i) :
    (i, some (.field d c)) ∈ nested par (.field pos names typ d c) := by
  simp only [nested]
  rcases h with h | ⟨rfl, h⟩
  · exact List.mem_append.2 (.inl (List.mem_map.2 ⟨i, h, rfl⟩))
  · simpa using nested_embedded h (some (.field d c))

/-- The documentation of a field comes from the field. -/
theorem declPlaces_field {d : Node} {pos names typ own c i} (hb : Below d (.field pos names typ own c))
    (h : i ∈ names ∨ names = [] ∧ EmbeddedName typ i) : (i, some (.field own c)) ∈ declPlaces d := by
  cases d
  case genDecl tok specs doc =>
    cases hb with
    | child hs hb =>
      rename_i s
      obtain ⟨v, hv⟩ := specsPlaces_sub (par := .genDecl specs doc) hs (decide (tok = .var ∨ tok = .const))
      apply hv
      rcases specPlaces_below (par := .genDecl specs doc) (value := v) hb with rfl | ⟨emb, he⟩
      · exact nested_field (par := none) (pos := pos) h
      · exact he (nested_field h)
  case funcDecl recv name t body a b doc =>
    cases hb with
    | child hc hb =>
      rename_i n
      simp only [children, List.mem_append, List.mem_cons] at hc
      obtain ⟨emb, he⟩ := nested_below hb none
      have := he (nested_field h)
      rcases hc with hc | rfl | hc
      · simp [declPlaces, nestedList_sub hc this]
      · simp [declPlaces, this]
      · simp [declPlaces, nestedList_sub hc this]
  all_goals
    obtain ⟨emb, he⟩ := nested_below hb none
    exact he (nested_field h)

theorem nested_value {par : Option Parent} {pos names typ vs d c i} (h : i ∈ names) :
    (i, none) ∈ nested par (.valueSpec pos names typ vs d c) := by
  simp [nested, h]

theorem specsPlaces_type {par : Parent} {value : Bool} {ss : List Node} {n tps typ own} (h : .typeSpec n tps typ own ∈ ss) :
    (n, some par) ∈ specsPlaces par value ss := by
  obtain ⟨v, hv⟩ := specsPlaces_sub (par := par) h value
  exact hv (by simp [specPlaces])

theorem specsPlaces_value {par : Parent} {pre post : List Node} {pos names typ vs own c i} (hi : i ∈ names) (hpre : ∀ s ∈ pre, NoDecl s) :
    (i, some par) ∈ specsPlaces par true (pre ++ .valueSpec pos names typ vs own c :: post) := by
  induction pre with
  | nil => simp [specsPlaces, specPlaces, hi]
  | cons s pre ih =>
    have hs : NoDecl s := hpre s (by simp)
    have := ih (fun s h => hpre s (by simp [h]))
    simp [specsPlaces, hs, this]

/-! ## The attributions of the visitors -/

/-- The documentation of `i` comes from `par`, or it is not known where from. -/
def MayBe (P : List (Ident × Option Parent)) (i : Ident) (par : Parent) : Prop := ∀ o, (i, o) ∈ P → o = none ∨ o = some par

section
variable {P : List (Ident × Option Parent)}

theorem fst_inj (h : ((P.map (·.1)).map (·.uid)).Nodup) {i : Ident} {a b : Option Parent} (ha : (i, a) ∈ P) (hb : (i, b) ∈ P) : a = b := by
  have := List.inj_on_of_nodup_map (List.Nodup.of_map _ h) ha hb rfl
  exact (Prod.mk.inj this).2

theorem mayBe_some (h : ((P.map (·.1)).map (·.uid)).Nodup) {i : Ident} {par : Parent} (ha : (i, some par) ∈ P) : MayBe P i par :=
  fun _ ho => .inr (fst_inj h ho ha)

theorem mayBe_none (h : ((P.map (·.1)).map (·.uid)).Nodup) {i : Ident} (ha : (i, none) ∈ P) (par : Parent) : MayBe P i par :=
  fun _ ho => .inl (fst_inj h ho ha)

theorem namesQ_of_nested (h : ((P.map (·.1)).map (·.uid)).Nodup) {n : Node} {emb} (hn : nested emb n ⊆ P) : NamesQ (MayBe P) n := by
  intro pos names typ vs d c hb i hi par
  obtain ⟨e, he⟩ := nested_below hb emb
  exact mayBe_none h (hn (he (nested_value hi))) par

theorem namesQ_of_spec (h : ((P.map (·.1)).map (·.uid)).Nodup) {par : Parent} {s : Node} (hs : specPlaces par false s ⊆ P) :
    NamesQ (MayBe P) s := by
  intro pos names typ vs d c hb i hi par'
  rcases specPlaces_below (par := par) (value := false) hb with rfl | ⟨e, he⟩
  · exact mayBe_none h (hs (by simp [specPlaces, hi])) par'
  · exact mayBe_none h (hs (he (nested_value hi))) par'

theorem namesFrom_of (h : ((P.map (·.1)).map (·.uid)).Nodup) (par : Parent) (ss : List Node) (hs : specsPlaces par true ss ⊆ P) :
    NamesFrom (MayBe P) par ss := by
  induction ss with
  | nil => trivial
  | cons s ss ih =>
    simp only [specsPlaces, List.append_subset] at hs
    obtain ⟨h1, h2⟩ := hs
    refine ⟨?_, ?_, ?_, ?_⟩
    · intro i hi
      cases s <;> simp only [specNames, List.not_mem_nil] at hi
      · simp only [List.mem_singleton] at hi; subst hi
        exact mayBe_some h (h1 (by simp [specPlaces]))
      · exact mayBe_some h (h1 (by simp [specPlaces, hi]))
    · intro c hc pos names typ vs d c' hb i hi par'
      rcases specPlaces_below (par := par) (value := true) (.child hc hb) with heq | ⟨e, he⟩
      · exfalso
        have h1 := sizeOf_children hc
        have : ∀ {a b : Node}, Below a b → sizeOf b ≤ sizeOf a := by
          intro a b hab
          induction hab with
          | refl => exact Nat.le_refl _
          | child hc _ ih => exact Nat.le_of_lt (Nat.lt_of_le_of_lt ih (sizeOf_children hc))
        have h2 := this hb
        rw [← heq] at h2
        omega
      · exact mayBe_none h (h1 (he (nested_value hi))) par'
    · intro hn
      apply ih
      simpa [hn] using h2
    · intro hn s' hs'
      have h2 : specsPlaces par false ss ⊆ P := by simpa [hn] using h2
      have hf : ∀ ss : List Node, s' ∈ ss → specPlaces par false s' ⊆ specsPlaces par false ss := by
        intro ss hs'
        induction ss with
        | nil => simp at hs'
        | cons a ss ih =>
          rcases List.mem_cons.1 hs' with rfl | hs'
          · intro e he; simp [specsPlaces, he]
          · intro e he; simp [specsPlaces, ih hs' he]
      exact namesQ_of_spec h (fun e he => h2 (hf ss hs' he))

/-- All attributions of a declaration are right. -/
theorem declQ_of (h : ((P.map (·.1)).map (·.uid)).Nodup) {d : Node} (hd : declPlaces d ⊆ P) : DeclQ (MayBe P) d where
  fields := fun _ _ _ _ _ hb _ hi => mayBe_some h (hd (declPlaces_field hb hi))
  types := by
    rintro tok specs doc rfl n tps typ own hs
    exact mayBe_some h (hd (specsPlaces_type hs))
  funcs := by
    rintro recv name typ body a b doc rfl
    exact mayBe_some h (hd (by simp [declPlaces]))
  values := by
    rintro tok specs doc rfl ht
    exact namesFrom_of h _ specs (by simpa [declPlaces, ht] using hd)

end

/-- The identifiers of the files of a package with the places of their documentation. -/
noncomputable def packagePlaces (files : List (List Node)) : List (Ident × Option Parent) := files.flatMap fun ds => ds.flatMap declPlaces

theorem packagePlaces_fst (files : List (List Node)) : (packagePlaces files).map (·.1) = files.flatMap identifiersList := by
  unfold packagePlaces
  apply flatMap_fst
  intro ds
  rw [identifiersList_eq]
  exact flatMap_fst _ _ _ declPlaces_fst

theorem identifiers_spec {specs : List Node} {s : Node} (h : s ∈ specs) {i : Ident} (hi : i ∈ identifiers s) : i ∈ identifiersList specs := by
  rw [identifiersList_eq]; exact List.mem_flatMap.2 ⟨s, h, hi⟩

theorem specNames_identifiers (s : Node) {i : Ident} (h : i ∈ specNames s) : i ∈ identifiers s := by
  cases s <;> simp only [specNames, List.not_mem_nil, List.mem_singleton] at h
  · subst h; simp [identifiers]
  · simp [identifiers, h]

theorem first_of_nodup {specs : List Node} (hn : ((identifiersList specs).map (·.uid)).Nodup) {pre post : List Node} {s : Node}
    (he : specs = pre ++ s :: post) {n : Ident} (h : n ∈ specNames s) : ∀ s ∈ pre, ∀ m ∈ specNames s, m.uid ≠ n.uid := by
  subst he
  intro s' hs' m hm heq
  rw [identifiersList_eq, List.flatMap_append, List.map_append, List.nodup_append] at hn
  refine hn.2.2 m.uid (List.mem_map.2 ⟨m, List.mem_flatMap.2 ⟨s', hs', specNames_identifiers _ hm⟩, rfl⟩) n.uid
    (List.mem_map.2 ⟨n, List.mem_flatMap.2 ⟨s, by simp, specNames_identifiers _ h⟩, rfl⟩) heq

/-- The documentation that the specification names is that of the place. -/
theorem documentedAs_place {decls : List Node} (hn : ((identifiersList decls).map (·.uid)).Nodup) {i : Ident} {docs : List Str}
    (h : DocumentedAs decls i docs) : ∃ par, (i, some par) ∈ decls.flatMap declPlaces ∧ documentationOf par i = docs := by
  have hsub : ∀ {tok specs doc}, .genDecl tok specs doc ∈ decls → ((identifiersList specs).map (·.uid)).Nodup := by
    intro tok specs doc hd
    refine hn.sublist (List.Sublist.map _ ?_)
    rw [identifiersList_eq decls]
    have : identifiersList specs = identifiers (.genDecl tok specs doc) := by simp [identifiers]
    rw [this]
    obtain ⟨a, b, rfl⟩ := List.append_of_mem hd
    rw [List.flatMap_append, List.flatMap_cons]
    exact ((List.sublist_append_left _ _).trans (List.sublist_append_right _ _))
  cases h with
  | typ hd hs =>
    rename_i tok specs doc tps typ own
    obtain ⟨pre, post, hspec⟩ := List.append_of_mem hs
    refine ⟨.genDecl specs doc, List.mem_flatMap.2 ⟨_, hd, specsPlaces_type hs⟩, ?_⟩
    have hf := first_of_nodup (hsub hd) hspec (n := i) (by simp [specNames])
    rw [hspec]
    exact C68_type_spec_documentation pre post doc own i tps typ hf
  | value hd ht hi hpre =>
    rename_i tok pre post doc pos names typ vs own comment
    refine ⟨.genDecl (pre ++ .valueSpec pos names typ vs own comment :: post) doc, List.mem_flatMap.2 ⟨_, hd, ?_⟩, ?_⟩
    · simp only [declPlaces, decide_eq_true ht]
      exact specsPlaces_value hi hpre
    · exact C68_value_spec_documentation pre post doc own comment i pos names typ vs hi (first_of_nodup (hsub hd) rfl (n := i) (by simp [specNames, hi]))
  | func hd =>
    rename_i recv typ body a b doc
    exact ⟨.funcDecl doc, List.mem_flatMap.2 ⟨_, hd, by simp [declPlaces]⟩, (C68_field_func_documentation i doc []).2⟩
  | field hd hb hi =>
    rename_i d pos names typ own comment
    exact ⟨.field own comment, List.mem_flatMap.2 ⟨_, hd, declPlaces_field hb hi⟩, (C68_field_func_documentation i own comment).1⟩

end Verif
