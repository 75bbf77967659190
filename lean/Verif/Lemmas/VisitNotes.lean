import Verif.Spec.VisitNotes
import Verif.Lemmas.VarVisitor
/-! # The records of the collecting pass are those of the specification -/
namespace Verif
open Spec

theorem embeddedNotes_iff (pos : Nat) (n : VisitNote) : ∀ typ, n ∈ embeddedNotes pos typ ↔ NotFound typ ∧ n = .fieldUnhandled pos := by
  intro typ
  have none : ∀ x : Node, (∃ i, EmbeddedName x i) ∨ NamesNothing x → ¬ NotFound x := by
    rintro x (⟨i, h⟩ | h) ⟨h1, h2⟩
    · exact h1 i h
    · exact h2 h
  have here : ∀ x : Node, (∀ i, ¬ EmbeddedName x i) → ¬ NamesNothing x → (n ∈ [VisitNote.fieldUnhandled pos] ↔ NotFound x ∧ n = .fieldUnhandled pos) := by
    intro x h1 h2
    simp [NotFound, h1, h2]
  cases typ with
  | ident i => simp [embeddedNotes, none _ (.inl ⟨_, .ident i⟩)]
  | selector x s => simp [embeddedNotes, none _ (.inl ⟨_, .selector x s⟩)]
  | star x =>
    rw [embeddedNotes, embeddedNotes_iff pos n x]
    refine and_congr_left fun _ => and_congr ⟨fun h i hi => ?_, fun h i hi => h i (.star hi)⟩ (not_congr ⟨.star, fun h => ?_⟩)
    · cases hi with | star hi => exact h i hi
    · cases h with | star h => exact h
  | index x is =>
    rw [embeddedNotes, embeddedNotes_iff pos n x]
    refine and_congr_left fun _ => and_congr ⟨fun h i hi => ?_, fun h i hi => h i (.index hi)⟩ (not_congr ⟨.index, fun h => ?_⟩)
    · cases hi with | index hi => exact h i hi
    · cases h with | index h => exact h
  | unary x =>
    rw [embeddedNotes, embeddedNotes_iff pos n x]
    refine and_congr_left fun _ => and_congr ⟨fun h i hi => ?_, fun h i hi => h i (.unary hi)⟩ (not_congr ⟨.unary, fun h => ?_⟩)
    · cases hi with | unary hi => exact h i hi
    · cases h with | unary h => exact h
  | other cs => simp [embeddedNotes, none _ (.inr (.union cs))]
  | ifaceT ms => simp [embeddedNotes, none _ (.inr (.iface ms))]
  | funcT a b c => simp [embeddedNotes, none _ (.inr (.func a b c))]
  | mapT k v => simp [embeddedNotes, none _ (.inr (.map k v))]
  | arrayT l e => simp [embeddedNotes, none _ (.inr (.array l e))]
  | chanT v => simp [embeddedNotes, none _ (.inr (.chan v))]
  | _ =>
    rw [embeddedNotes]
    · refine here _ (fun i h => ?_) (fun h => ?_) <;> cases h
    all_goals simp

/-- What is told of one element of a field list. -/
def FieldTells (key : Node → Str) (isI : Bool) (f : Node) (n : VisitNote) : Prop :=
  ∃ pos names typ d c, f = .field pos names typ d c ∧
    ((names = [] ∧ isI = false ∧ NotFound typ ∧ n = .fieldUnhandled pos) ∨ (names = [] ∧ isI = true ∧ TypeTells key isI typ n) ∨
      (names ≠ [] ∧ ∃ lit, Reaches typ lit ∧ key lit ≠ [] ∧ TypeTells key isI lit n))

theorem typeTells_iff {key : Node → Str} {isI : Bool} {t : Node} {n : VisitNote} : TypeTells key isI t n ↔ ∃ f, HasField t f ∧ FieldTells key isI f n := by
  constructor
  · intro h
    cases h with
    | embedded hi hf hn => exact ⟨_, hf, _, _, _, _, _, rfl, .inl ⟨rfl, hi, hn, rfl⟩⟩
    | embeddedLit hi hf hn => exact ⟨_, hf, _, _, _, _, _, rfl, .inr (.inl ⟨rfl, hi, hn⟩)⟩
    | anon hf hne hr hk hn => exact ⟨_, hf, _, _, _, _, _, rfl, .inr (.inr ⟨hne, _, hr, hk, hn⟩)⟩
  · rintro ⟨f, hf, pos, names, typ, d, c, rfl, ⟨rfl, hi, hn, rfl⟩ | ⟨rfl, hi, hn⟩ | ⟨hne, lit, hr, hk, hn⟩⟩
    · exact .embedded hi hf hn
    · exact .embeddedLit hi hf hn
    · exact .anon hf hne hr hk hn

theorem fieldTells_iff {key : Node → Str} {isI : Bool} {pos names typ d c} {n : VisitNote} : FieldTells key isI (.field pos names typ d c) n ↔
    ((names = [] ∧ isI = false ∧ NotFound typ ∧ n = .fieldUnhandled pos) ∨ (names = [] ∧ isI = true ∧ TypeTells key isI typ n) ∨
      (names ≠ [] ∧ ∃ lit, Reaches typ lit ∧ key lit ≠ [] ∧ TypeTells key isI lit n)) :=
  ⟨fun ⟨_, _, _, _, _, e, h⟩ => by cases e; exact h, fun h => ⟨_, _, _, _, _, rfl, h⟩⟩

theorem mem_flatMap_const {α β : Type _} {names : List α} {l : List β} {n : β} : (n ∈ names.flatMap fun _ => l) ↔ names ≠ [] ∧ n ∈ l := by
  cases names with
  | nil => simp
  | cons a as => simp only [List.mem_flatMap, ne_eq, reduceCtorEq, not_false_eq_true, true_and]; exact ⟨fun ⟨_, _, h⟩ => h, fun h => ⟨a, by simp, h⟩⟩

mutual

theorem typeBodyNotes_iff (env : PkgEnv) (isI : Bool) (n : VisitNote) : ∀ t, n ∈ typeBodyNotes env isI t ↔ TypeTells env.anonKey isI t n
  | .structT fs => by
    rw [typeBodyNotes, typeFieldsNotes_iff env isI n fs, typeTells_iff]
    exact ⟨fun ⟨f, h, h'⟩ => ⟨f, .struct h, h'⟩, fun ⟨f, h, h'⟩ => by cases h with | struct h => exact ⟨f, h, h'⟩⟩
  | .ifaceT ms => by
    rw [typeBodyNotes, typeFieldsNotes_iff env isI n ms, typeTells_iff]
    exact ⟨fun ⟨f, h, h'⟩ => ⟨f, .iface h, h'⟩, fun ⟨f, h, h'⟩ => by cases h with | iface h => exact ⟨f, h, h'⟩⟩
  | .ident _ | .selector .. | .star _ | .paren _ | .index .. | .unary _ | .arrayT .. | .mapT .. | .chanT _ | .funcT .. | .field .. | .block _ | .importSpec ..
  | .typeSpec .. | .valueSpec .. | .genDecl .. | .funcDecl .. | .badDecl | .file .. | .other _ => by
    rw [typeBodyNotes, typeTells_iff]
    · simp only [List.not_mem_nil, false_iff]; rintro ⟨f, h, _⟩; cases h
    all_goals simp

theorem typeFieldNotes_iff (env : PkgEnv) (isI : Bool) (n : VisitNote) : ∀ f, n ∈ typeFieldNotes env isI f ↔ FieldTells env.anonKey isI f n
  | .field pos [] typ d c => by
    have h := typeBodyNotes_iff env isI n typ
    simp only [typeFieldNotes]
    cases isI with
    | true => simp [fieldTells_iff, h]
    | false => simp [fieldTells_iff, embeddedNotes_iff]
  | .field pos (a :: as) typ d c => by
    have h := typeAnonNotes_iff env isI n typ
    simp only [typeFieldNotes]
    rw [mem_flatMap_const, h]
    simp [fieldTells_iff]
  | .ident _ | .selector .. | .star _ | .paren _ | .index .. | .unary _ | .arrayT .. | .mapT .. | .chanT _ | .funcT .. | .structT _ | .ifaceT _ | .block _
  | .importSpec .. | .typeSpec .. | .valueSpec .. | .genDecl .. | .funcDecl .. | .badDecl | .file .. | .other _ => by
    simp [typeFieldNotes, FieldTells]

theorem typeAnonNotes_iff (env : PkgEnv) (isI : Bool) (n : VisitNote) : ∀ t, n ∈ typeAnonNotes env isI t ↔
    ∃ lit, Reaches t lit ∧ env.anonKey lit ≠ [] ∧ TypeTells env.anonKey isI lit n
  | .mapT k v => by
    rw [typeAnonNotes, List.mem_append, typeAnonNotes_iff env isI n k, typeAnonNotes_iff env isI n v]
    constructor
    · rintro (⟨l, h, h'⟩ | ⟨l, h, h'⟩)
      · exact ⟨l, .mapKey h, h'⟩
      · exact ⟨l, .mapValue h, h'⟩
    · rintro ⟨l, h, h'⟩
      cases h with
      | mapKey h => exact .inl ⟨l, h, h'⟩
      | mapValue h => exact .inr ⟨l, h, h'⟩
  | .arrayT l e => by
    rw [typeAnonNotes, typeAnonNotes_iff env isI n e]
    exact ⟨fun ⟨l, h, h'⟩ => ⟨l, .array h, h'⟩, fun ⟨l, h, h'⟩ => by cases h with | array h => exact ⟨l, h, h'⟩⟩
  | .star x => by
    rw [typeAnonNotes, typeAnonNotes_iff env isI n x]
    exact ⟨fun ⟨l, h, h'⟩ => ⟨l, .star h, h'⟩, fun ⟨l, h, h'⟩ => by cases h with | star h => exact ⟨l, h, h'⟩⟩
  | .structT fs => by
    have h := typeFieldsNotes_iff env isI n fs
    have hb : (∃ f ∈ fs, FieldTells env.anonKey isI f n) ↔ TypeTells env.anonKey isI (.structT fs) n := by
      rw [typeTells_iff]
      exact ⟨fun ⟨f, h, h'⟩ => ⟨f, .struct h, h'⟩, fun ⟨f, h, h'⟩ => by cases h with | struct h => exact ⟨f, h, h'⟩⟩
    rw [typeAnonNotes]
    have hr : (∃ lit, Reaches (.structT fs) lit ∧ env.anonKey lit ≠ [] ∧ TypeTells env.anonKey isI lit n) ↔
        env.anonKey (.structT fs) ≠ [] ∧ TypeTells env.anonKey isI (.structT fs) n :=
      ⟨fun ⟨l, h, h'⟩ => by cases h; exact h', fun h => ⟨_, .struct fs, h⟩⟩
    rw [hr, ← hb, ← h]
    split <;> simp_all
  | .ifaceT fs => by
    have h := typeFieldsNotes_iff env isI n fs
    have hb : (∃ f ∈ fs, FieldTells env.anonKey isI f n) ↔ TypeTells env.anonKey isI (.ifaceT fs) n := by
      rw [typeTells_iff]
      exact ⟨fun ⟨f, h, h'⟩ => ⟨f, .iface h, h'⟩, fun ⟨f, h, h'⟩ => by cases h with | iface h => exact ⟨f, h, h'⟩⟩
    rw [typeAnonNotes]
    have hr : (∃ lit, Reaches (.ifaceT fs) lit ∧ env.anonKey lit ≠ [] ∧ TypeTells env.anonKey isI lit n) ↔
        env.anonKey (.ifaceT fs) ≠ [] ∧ TypeTells env.anonKey isI (.ifaceT fs) n :=
      ⟨fun ⟨l, h, h'⟩ => by cases h; exact h', fun h => ⟨_, .iface fs, h⟩⟩
    rw [hr, ← hb, ← h]
    split <;> simp_all
  | .ident _ | .selector .. | .paren _ | .index .. | .unary _ | .chanT _ | .funcT .. | .field .. | .block _ | .importSpec ..
  | .typeSpec .. | .valueSpec .. | .genDecl .. | .funcDecl .. | .badDecl | .file .. | .other _ => by
    rw [typeAnonNotes]
    · simp only [List.not_mem_nil, false_iff]; rintro ⟨f, h, _⟩; cases h
    all_goals simp

theorem typeFieldsNotes_iff (env : PkgEnv) (isI : Bool) (n : VisitNote) : ∀ fs, n ∈ typeFieldsNotes env isI fs ↔ ∃ f ∈ fs, FieldTells env.anonKey isI f n
  | [] => by simp [typeFieldsNotes]
  | f :: fs => by
    rw [typeFieldsNotes, List.mem_append, typeFieldNotes_iff env isI n f, typeFieldsNotes_iff env isI n fs]
    simp

end

theorem typeSpecsNotes_iff (env : PkgEnv) (n : VisitNote) : ∀ (specs : List Node) (isI : Bool), n ∈ typeSpecsNotes env isI specs ↔
    ∃ t tps typ own, .typeSpec t tps typ own ∈ specs ∧ TypeTells env.anonKey (isIfaceBody typ) typ n := by
  intro specs
  induction specs with
  | nil => intro isI; simp [typeSpecsNotes]
  | cons s ss ih =>
    intro isI
    cases s with
    | typeSpec t tps typ own =>
      have hi : typeSpecsNotes env isI (.typeSpec t tps typ own :: ss) = typeBodyNotes env (isIfaceBody typ) typ ++ typeSpecsNotes env (isIfaceBody typ) ss := by
        cases typ <;> simp [typeSpecsNotes, isIfaceBody]
      rw [hi, List.mem_append, ih, typeBodyNotes_iff]
      constructor
      · rintro (h | ⟨t', tps', typ', own', h, h'⟩)
        · exact ⟨_, _, _, _, List.mem_cons_self, h⟩
        · exact ⟨_, _, _, _, List.mem_cons_of_mem _ h, h'⟩
      · rintro ⟨t', tps', typ', own', h, h'⟩
        rcases List.mem_cons.1 h with h | h
        · cases h; exact .inl h'
        · exact .inr ⟨_, _, _, _, h, h'⟩
    | _ =>
      unfold typeSpecsNotes
      simp only [List.nil_append, ih]
      simp

theorem typeDeclsNotes_iff (env : PkgEnv) (n : VisitNote) : ∀ (decls : List Node), n ∈ typeDeclsNotes env decls ↔
    ∃ tok specs doc t tps typ own, .genDecl tok specs doc ∈ decls ∧ .typeSpec t tps typ own ∈ specs ∧ TypeTells env.anonKey (isIfaceBody typ) typ n := by
  intro decls
  induction decls with
  | nil => simp [typeDeclsNotes]
  | cons d ds ih =>
    cases d with
    | genDecl tok specs doc =>
      rw [typeDeclsNotes, List.mem_append, typeSpecsNotes_iff, ih]
      constructor
      · rintro (⟨t, tps, typ, own, h, h'⟩ | ⟨tok', specs', doc', t, tps, typ, own, h, h'⟩)
        · exact ⟨_, _, _, t, tps, typ, own, List.mem_cons_self, h, h'⟩
        · exact ⟨_, _, _, t, tps, typ, own, List.mem_cons_of_mem _ h, h'⟩
      · rintro ⟨tok', specs', doc', t, tps, typ, own, h, h'⟩
        rcases List.mem_cons.1 h with h | h
        · cases h; exact .inl ⟨t, tps, typ, own, h'⟩
        · exact .inr ⟨_, _, _, t, tps, typ, own, h, h'⟩
    | _ =>
      rw [typeDeclsNotes, ih]
      · simp
      all_goals simp

/-! ## The variable visitor -/

theorem varNotesList_iff' (env : PkgEnv) (n : VisitNote) (ns : List Node) : n ∈ varNotesList env ns ↔ ∃ c ∈ ns, n ∈ varNotes env c := by
  induction ns with
  | nil => simp [varNotesList]
  | cons c cs ih => rw [varNotesList, List.mem_append, ih]; simp

theorem varNotes_plain (env : PkgEnv) (m : Node) (h : isPlain m = true) (n : VisitNote) : n ∈ varNotes env m ↔ ∃ c ∈ children m, n ∈ varNotes env c := by
  cases m <;> simp [isPlain] at h <;> simp [varNotes, children, varNotesList_iff', or_and_right, exists_or]

theorem varAnonNotes_iff (env : PkgEnv) (n : VisitNote) : ∀ typ, n ∈ varAnonNotes env typ ↔
    ∃ lit f, Reaches typ lit ∧ env.anonKey lit ≠ [] ∧ HasField lit f ∧ n ∈ varNotes env f
  | .mapT k v => by
    rw [varAnonNotes, List.mem_append, varAnonNotes_iff env n k, varAnonNotes_iff env n v]
    constructor
    · rintro (⟨l, f, h, h'⟩ | ⟨l, f, h, h'⟩)
      · exact ⟨l, f, .mapKey h, h'⟩
      · exact ⟨l, f, .mapValue h, h'⟩
    · rintro ⟨l, f, h, h'⟩
      cases h with
      | mapKey h => exact .inl ⟨l, f, h, h'⟩
      | mapValue h => exact .inr ⟨l, f, h, h'⟩
  | .arrayT l e => by
    rw [varAnonNotes, varAnonNotes_iff env n e]
    exact ⟨fun ⟨l, f, h, h'⟩ => ⟨l, f, .array h, h'⟩, fun ⟨l, f, h, h'⟩ => by cases h with | array h => exact ⟨l, f, h, h'⟩⟩
  | .star x => by
    rw [varAnonNotes, varAnonNotes_iff env n x]
    exact ⟨fun ⟨l, f, h, h'⟩ => ⟨l, f, .star h, h'⟩, fun ⟨l, f, h, h'⟩ => by cases h with | star h => exact ⟨l, f, h, h'⟩⟩
  | .structT fs => by
    rw [varAnonNotes]
    constructor
    · intro h
      split at h
      · simp at h
      · obtain ⟨f, hf, h⟩ := (varNotesList_iff' env n fs).1 h
        exact ⟨_, f, .struct fs, by assumption, .struct hf, h⟩
    · rintro ⟨l, f, hr, hk, hf, h⟩
      cases hr
      rw [if_neg hk, varNotesList_iff']
      cases hf with | struct hf => exact ⟨f, hf, h⟩
  | .ifaceT fs => by
    rw [varAnonNotes]
    constructor
    · intro h
      split at h
      · simp at h
      · obtain ⟨f, hf, h⟩ := (varNotesList_iff' env n fs).1 h
        exact ⟨_, f, .iface fs, by assumption, .iface hf, h⟩
    · rintro ⟨l, f, hr, hk, hf, h⟩
      cases hr
      rw [if_neg hk, varNotesList_iff']
      cases hf with | iface hf => exact ⟨f, hf, h⟩
  | .ident _ | .selector .. | .paren _ | .index .. | .unary _ | .chanT _ | .funcT .. | .field .. | .block _ | .importSpec ..
  | .typeSpec .. | .valueSpec .. | .genDecl .. | .funcDecl .. | .badDecl | .file .. | .other _ => by
    rw [varAnonNotes]
    · simp only [List.not_mem_nil, false_iff]; rintro ⟨f, _, h, _⟩; cases h
    all_goals simp

theorem varTypeClass_spec (typ : List Node) : (handledSpec typ = false ↔ varTypeClass typ = .unhandled) ∧
    ((typ ≠ [] ∧ ∀ t' ∈ typ.head?, OpenVarType t') ↔ varTypeClass typ = .walk) := by
  cases typ with
  | nil => simp [handledSpec, varTypeClass]
  | cons t ts =>
    cases t <;> simp [handledSpec, varTypeClass, isHandledType]
    case structT => exact .struct _
    case ifaceT => exact .iface _
    all_goals intro h; cases h

theorem varNotes_iff (env : PkgEnv) (n : VisitNote) (m : Node) : n ∈ varNotes env m ↔ VarTells env.anonKey m n := by
  constructor
  · induction m using WellFounded.induction (r := fun a b : Node => sizeOf a < sizeOf b) (measure (fun a : Node => sizeOf a)).wf with
    | _ m ih =>
      intro h
      by_cases hp : isPlain m = true
      · obtain ⟨c, hc, h⟩ := (varNotes_plain env m hp n).1 h
        exact .descend hp hc (ih c (sizeOf_children hc) h)
      · cases m <;> simp [isPlain] at hp
        case genDecl tok specs doc =>
          simp only [varNotes] at h
          split at h
          · obtain ⟨s, hs, h⟩ := (varNotesList_iff' env n specs).1 h
            exact .decl (by assumption) hs (ih s (sizeOf_children (by simpa [children] using hs)) h)
          · simp at h
        case valueSpec pos names typ vs d c =>
          simp only [varNotes] at h
          split at h
          · simp at h
          · rename_i hne
            have hs := varTypeClass_spec typ
            split at h
            · rename_i hc
              simp only [List.mem_singleton] at h
              subst h
              exact .skipped hne (hs.1.2 hc)
            · rename_i hc
              obtain ⟨v, hv, h⟩ := (varNotesList_iff' env n vs).1 h
              exact .inValue hne (by rw [← Bool.not_eq_false, hs.1, hc]; simp) hv (ih v (sizeOf_children (by simp [children, hv])) h)
            · rename_i hc
              rcases List.mem_append.1 h with h | h
              · obtain ⟨v, hv, h⟩ := (varNotesList_iff' env n typ).1 h
                exact .inType hne hv (hs.2.2 hc).2 (ih v (sizeOf_children (by simp [children, hv])) h)
              · obtain ⟨v, hv, h⟩ := (varNotesList_iff' env n vs).1 h
                exact .inValue hne (by rw [← Bool.not_eq_false, hs.1, hc]; simp) hv (ih v (sizeOf_children (by simp [children, hv])) h)
        case field pos names typ d c =>
          cases names with
          | nil =>
            simp only [varNotes] at h
            obtain ⟨h1, rfl⟩ := (embeddedNotes_iff pos n typ).1 h
            exact .embedded h1
          | cons a as =>
            simp only [varNotes] at h
            obtain ⟨hne, h⟩ := mem_flatMap_const.1 h
            obtain ⟨lit, f, hr, hk, hf, h⟩ := (varAnonNotes_iff env n typ).1 h
            refine .anon hne hr hk hf (ih f ?_ h)
            have := sizeOf_reaches hr hf
            simp; omega
  · intro h
    induction h with
    | skipped hne hh => simp only [varNotes, if_neg hne, (varTypeClass_spec _).1.1 hh]; simp
    | inType hne ht ho _ ih =>
      rename_i typ _ _ _ _ _ _
      have hc := (varTypeClass_spec typ).2.1 ⟨fun h => (by subst h; simp at ht), ho⟩
      simp only [varNotes, if_neg hne, hc]
      exact List.mem_append_left _ ((varNotesList_iff' ..).2 ⟨_, ht, ih⟩)
    | inValue hne hh hv _ ih =>
      rename_i typ _ _ _ _ _ _
      have h1 := (varTypeClass_spec typ).1
      have hl := (varNotesList_iff' env _ _).2 ⟨_, hv, ih⟩
      simp only [varNotes, if_neg hne]
      cases hc : varTypeClass typ with
      | unhandled => rw [h1.2 hc] at hh; simp at hh
      | skip => exact hl
      | walk => exact List.mem_append_right _ hl
    | decl ht hs _ ih =>
      simp only [varNotes, if_pos ht]
      exact (varNotesList_iff' ..).2 ⟨_, hs, ih⟩
    | embedded hn =>
      simp only [varNotes]
      exact (embeddedNotes_iff ..).2 ⟨hn, rfl⟩
    | @anon pos names typ d c lit f n hne hr hk hf _ ih =>
      cases names with
      | nil => exact absurd rfl hne
      | cons a as =>
        simp only [varNotes]
        exact mem_flatMap_const.2 ⟨hne, (varAnonNotes_iff ..).2 ⟨_, _, hr, hk, hf, ih⟩⟩
    | descend hp hc _ ih => exact (varNotes_plain env _ hp _).2 ⟨_, hc, ih⟩

/-! ## Files and packages -/

theorem visitDeclsNotes_iff (env : PkgEnv) (n : VisitNote) : ∀ (decls : List Node), (∀ d ∈ decls, DeclOk d) → (n ∈ visitDeclsNotes env decls ↔
    ∃ tok specs doc, .genDecl tok specs doc ∈ decls ∧ (tok = .var ∨ tok = .const) ∧ VarTells env.anonKey (.genDecl tok specs doc) n) := by
  intro decls
  induction decls with
  | nil => intro _; simp [visitDeclsNotes]
  | cons d ds ih =>
    intro hok
    have ih := ih (fun d' h => hok d' (by simp [h]))
    have hd := hok d (by simp)
    have skip : (∀ tok specs doc, d = .genDecl tok specs doc → ¬ (tok = .var ∨ tok = .const)) → ((∃ tok specs doc, Node.genDecl tok specs doc ∈ d :: ds ∧ (tok = .var ∨ tok = .const) ∧
        VarTells env.anonKey (.genDecl tok specs doc) n) ↔ n ∈ visitDeclsNotes env ds) := by
      intro hno
      rw [ih]
      constructor
      · rintro ⟨tok, specs, doc, h, ht, h'⟩
        rcases List.mem_cons.1 h with h | h
        · exact absurd ht (hno _ _ _ h.symm)
        · exact ⟨tok, specs, doc, h, ht, h'⟩
      · rintro ⟨tok, specs, doc, h, h'⟩
        exact ⟨tok, specs, doc, List.mem_cons_of_mem _ h, h'⟩
    have take : ∀ tok specs doc, d = .genDecl tok specs doc → (tok = .var ∨ tok = .const) → ((∃ tok specs doc, Node.genDecl tok specs doc ∈ d :: ds ∧ (tok = .var ∨ tok = .const) ∧
        VarTells env.anonKey (.genDecl tok specs doc) n) ↔ n ∈ varNotes env d ++ visitDeclsNotes env ds) := by
      rintro tok specs doc rfl ht
      rw [List.mem_append, varNotes_iff, ih]
      constructor
      · rintro ⟨tok, specs, doc, h, ht, h'⟩
        rcases List.mem_cons.1 h with h | h
        · cases h; exact .inl h'
        · exact .inr ⟨tok, specs, doc, h, ht, h'⟩
      · rintro (h | ⟨tok, specs, doc, h, h'⟩)
        · exact ⟨tok, specs, doc, List.mem_cons_self, ht, h⟩
        · exact ⟨tok, specs, doc, List.mem_cons_of_mem _ h, h'⟩
    cases d with
    | genDecl tok specs doc =>
      cases tok with
      | other => exact absurd rfl hd.1
      | var => exact (take _ _ _ rfl (.inl rfl)).symm
      | const => exact (take _ _ _ rfl (.inr rfl)).symm
      | imp => exact (skip (by simp)).symm
      | typ => exact (skip (by simp)).symm
    | _ => exact (skip (by simp)).symm

theorem visitSyntaxNotes_iff (env : PkgEnv) (n : VisitNote) (name : Ident) (decls : List Node) (hok : ∀ d ∈ decls, DeclOk d) :
    n ∈ visitSyntaxNotes env (.file name decls) ↔ DeclsTell env.anonKey decls n := by
  rw [visitSyntaxNotes, List.mem_append, typeDeclsNotes_iff, visitDeclsNotes_iff env n decls hok]
  constructor
  · rintro (⟨tok, specs, doc, t, tps, typ, own, h1, h2, h3⟩ | ⟨tok, specs, doc, h1, h2, h3⟩)
    · exact .typ h1 h2 h3
    · exact .var h1 h2 h3
  · intro h
    cases h with
    | typ h1 h2 h3 => exact .inl ⟨_, _, _, _, _, _, _, h1, h2, h3⟩
    | var h1 h2 h3 => exact .inr ⟨_, _, _, h1, h2, h3⟩

end Verif
