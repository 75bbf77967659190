import Verif.Spec.Locality
import Verif.Props.Modularity
/-!
# C96: the document of a file does not depend on the bodies of the other files
-/
namespace Verif
open Spec Index

/-! ## Reading a file uses only what is known about its identifiers -/

theorem mem_identifiersList {ns : List Node} {n : Node} (h : n ∈ ns) {i : Ident} (hi : i ∈ identifiers n) : i ∈ identifiersList ns := by
  rw [identifiersList_eq]; exact List.mem_flatMap.2 ⟨n, h, hi⟩

theorem identifiers_children {n c : Node} (h : c ∈ children n) {i : Ident} (hi : i ∈ identifiers c) : i ∈ identifiers n := by
  cases n <;> simp only [children, List.mem_append, List.mem_cons, List.not_mem_nil, or_false] at h <;>
    simp only [identifiers, List.mem_append, List.mem_cons]
  case selector => subst h; exact .inr hi
  case star => subst h; exact hi
  case paren => subst h; exact hi
  case index =>
    rcases h with rfl | h
    · exact .inl hi
    · exact .inr (mem_identifiersList h hi)
  case unary => subst h; exact hi
  case arrayT =>
    rcases h with h | rfl
    · exact .inl (mem_identifiersList h hi)
    · exact .inr hi
  case mapT =>
    rcases h with rfl | rfl
    · exact .inl hi
    · exact .inr hi
  case chanT => subst h; exact hi
  case funcT =>
    rcases h with h | h | h
    · exact .inl (mem_identifiersList h hi)
    · exact .inr (.inl (mem_identifiersList h hi))
    · exact .inr (.inr (mem_identifiersList h hi))
  case structT => exact mem_identifiersList h hi
  case ifaceT => exact mem_identifiersList h hi
  case field => subst h; exact .inr hi
  case block => exact mem_identifiersList h hi
  case typeSpec =>
    rcases h with h | rfl
    · exact .inr (.inl (mem_identifiersList h hi))
    · exact .inr (.inr hi)
  case valueSpec =>
    rcases h with h | h
    · exact .inr (.inl (mem_identifiersList h hi))
    · exact .inr (.inr (mem_identifiersList h hi))
  case genDecl => exact mem_identifiersList h hi
  case funcDecl =>
    rcases h with h | rfl | h
    · exact .inr (.inl (mem_identifiersList h hi))
    · exact .inr (.inr (.inl hi))
    · exact .inr (.inr (.inr (mem_identifiersList h hi)))
  case file => exact mem_identifiersList h hi
  case other => exact mem_identifiersList h hi

theorem identifiers_below {n m : Node} (h : Below n m) {i : Ident} (hi : i ∈ identifiers m) : i ∈ identifiers n := by
  induction h with
  | refl => exact hi
  | child hc _ ih => exact identifiers_children hc (ih hi)

section
variable {env env' : FileEnv} {known known' : Str → Bool}

/-- The two environments agree on these identifiers. -/
def AgreeOn (env env' : FileEnv) (known known' : Str → Bool) (is : List Ident) : Prop :=
  ∀ i ∈ is, packageQualifier env' (.ident i) = packageQualifier env (.ident i) ∧
    ∀ j x imported, packageQualifier env (.ident i) = some (j, x, imported) → known' imported = known imported

theorem AgreeOn.mono {is js : List Ident} (h : AgreeOn env env' known known' is) (hs : ∀ i ∈ js, i ∈ is) : AgreeOn env env' known known' js :=
  fun i hi => h i (hs i hi)

mutual

theorem traverse_agree : ∀ n : Node, AgreeOn env env' known known' (identifiers n) → traverse env' known' n = traverse env known n
  | .importSpec .., _ => by simp only [traverse]
  | .selector x sel, h => by
    have hx : AgreeOn env env' known known' (identifiers x) := h.mono fun i hi => by simp [identifiers, hi]
    simp only [traverse]
    rw [traverse_agree x hx]
    cases x with
    | ident i =>
      obtain ⟨h1, h2⟩ := hx i (by simp [identifiers])
      rw [h1]
      cases hq : packageQualifier env (.ident i) with
      | none => rfl
      | some y => obtain ⟨j, x, imported⟩ := y; simp only [h2 j x imported hq]
    | _ => rfl
  | .funcDecl recv name typ body pos endPos _, h => by
    simp only [traverse]
    rw [traverseList_agree recv (h.mono fun i hi => by simp [identifiers, hi]), traverse_agree typ (h.mono fun i hi => by simp [identifiers, hi]),
      traverseList_agree body (h.mono fun i hi => by simp [identifiers, hi])]
  | .file _ decls, h => by simp only [traverse]; rw [traverseList_agree decls (h.mono fun i hi => by simp [identifiers, hi])]
  | .ident i, _ => by simp only [traverse]
  | .star x, h => by simp only [traverse]; rw [traverse_agree x (h.mono fun i hi => by simp [identifiers, hi])]
  | .paren x, h => by simp only [traverse]; rw [traverse_agree x (h.mono fun i hi => by simp [identifiers, hi])]
  | .index x is, h => by
    simp only [traverse]
    rw [traverse_agree x (h.mono fun i hi => by simp [identifiers, hi]), traverseList_agree is (h.mono fun i hi => by simp [identifiers, hi])]
  | .unary x, h => by simp only [traverse]; rw [traverse_agree x (h.mono fun i hi => by simp [identifiers, hi])]
  | .arrayT len elt, h => by
    simp only [traverse]
    rw [traverseList_agree len (h.mono fun i hi => by simp [identifiers, hi]), traverse_agree elt (h.mono fun i hi => by simp [identifiers, hi])]
  | .mapT k v, h => by
    simp only [traverse]
    rw [traverse_agree k (h.mono fun i hi => by simp [identifiers, hi]), traverse_agree v (h.mono fun i hi => by simp [identifiers, hi])]
  | .chanT v, h => by simp only [traverse]; rw [traverse_agree v (h.mono fun i hi => by simp [identifiers, hi])]
  | .funcT tps ps rs, h => by
    simp only [traverse]
    rw [traverseList_agree tps (h.mono fun i hi => by simp [identifiers, hi]), traverseList_agree ps (h.mono fun i hi => by simp [identifiers, hi]),
      traverseList_agree rs (h.mono fun i hi => by simp [identifiers, hi])]
  | .structT fs, h => by simp only [traverse]; rw [traverseList_agree fs (h.mono fun i hi => by simp [identifiers, hi])]
  | .ifaceT ms, h => by simp only [traverse]; rw [traverseList_agree ms (h.mono fun i hi => by simp [identifiers, hi])]
  | .field _ names typ _ _, h => by simp only [traverse]; rw [traverse_agree typ (h.mono fun i hi => by simp [identifiers, hi])]
  | .block ss, h => by simp only [traverse]; rw [traverseList_agree ss (h.mono fun i hi => by simp [identifiers, hi])]
  | .typeSpec name tps typ _, h => by
    simp only [traverse]
    rw [traverseList_agree tps (h.mono fun i hi => by simp [identifiers, hi]), traverse_agree typ (h.mono fun i hi => by simp [identifiers, hi])]
  | .valueSpec _ names typ values _ _, h => by
    simp only [traverse]
    rw [traverseList_agree typ (h.mono fun i hi => by simp [identifiers, hi]),
      traverseList_agree values (h.mono fun i hi => by simp [identifiers, hi])]
  | .genDecl _ specs _, h => by simp only [traverse]; rw [traverseList_agree specs (h.mono fun i hi => by simp [identifiers, hi])]
  | .badDecl, _ => by simp only [traverse]
  | .other cs, h => by simp only [traverse]; rw [traverseList_agree cs (h.mono fun i hi => by simp [identifiers, hi])]

theorem traverseList_agree : ∀ ns : List Node, AgreeOn env env' known known' (identifiersList ns) → traverseList env' known' ns = traverseList env known ns
  | [], _ => by simp only [traverseList]
  | n :: ns, h => by
    simp only [traverseList]
    rw [traverse_agree n (h.mono fun i hi => by simp [identifiersList, hi]), traverseList_agree ns (h.mono fun i hi => by simp [identifiersList, hi])]

end

/-- An event is about an identifier of the tree. -/
def EventIn (is : List Ident) : Event → Prop
  | .ident i _ => i ∈ is
  | .qualifier i _ _ => i ∈ is
  | .imp _ _ _ => True

theorem EventIn.mono {is js : List Ident} (h : ∀ i ∈ is, i ∈ js) : ∀ {e : Event}, EventIn is e → EventIn js e
  | .ident _ _, x => h _ x
  | .qualifier _ _ _, x => h _ x
  | .imp _ _ _, _ => trivial

mutual

theorem traverse_in : ∀ (n : Node), ∀ e ∈ traverse env known n, EventIn (identifiers n) e
  | .importSpec .., e, h => by
    simp only [traverse, List.mem_singleton] at h; subst h; trivial
  | .selector x sel, e, h => by
    simp only [traverse] at h
    split at h
    · rename_i i o imported hq
      have hi : i ∈ identifiers x := by
        unfold packageQualifier at hq
        split at hq
        · obtain ⟨y, _, hq⟩ := Option.bind_eq_some_iff.1 hq
          split at hq
          · simp only [Option.some.injEq, Prod.mk.injEq] at hq
            simp [identifiers, hq.1]
          · simp at hq
        · simp at hq
      split at h
      · simp only [List.mem_cons, List.not_mem_nil, or_false] at h
        rcases h with rfl | rfl
        · show i ∈ _; simp [identifiers, hi]
        · show sel ∈ _; simp [identifiers]
      · simp at h
    · rcases List.mem_append.1 h with h | h
      · exact (traverse_in x e h).mono fun i hi => by simp [identifiers, hi]
      · simp only [List.mem_singleton] at h; subst h; show sel ∈ _; simp [identifiers]
  | .funcDecl recv name typ body pos endPos _, e, h => by
    simp only [traverse, List.mem_append, List.mem_cons] at h
    rcases h with h | rfl | h | h
    · exact (traverseList_in recv e h).mono fun i hi => by simp [identifiers, hi]
    · show name ∈ _; simp [identifiers]
    · exact (traverse_in typ e h).mono fun i hi => by simp [identifiers, hi]
    · exact (traverseList_in body e h).mono fun i hi => by simp [identifiers, hi]
  | .file _ decls, e, h => by simp only [traverse] at h; exact (traverseList_in decls e h).mono fun i hi => by simp [identifiers, hi]
  | .ident i, e, h => by simp only [traverse, List.mem_singleton] at h; subst h; show i ∈ _; simp [identifiers]
  | .star x, e, h => by simp only [traverse] at h; exact (traverse_in x e h).mono fun i hi => by simp [identifiers, hi]
  | .paren x, e, h => by simp only [traverse] at h; exact (traverse_in x e h).mono fun i hi => by simp [identifiers, hi]
  | .index x is, e, h => by
    simp only [traverse, List.mem_append] at h
    rcases h with h | h
    · exact (traverse_in x e h).mono fun i hi => by simp [identifiers, hi]
    · exact (traverseList_in is e h).mono fun i hi => by simp [identifiers, hi]
  | .unary x, e, h => by simp only [traverse] at h; exact (traverse_in x e h).mono fun i hi => by simp [identifiers, hi]
  | .arrayT len elt, e, h => by
    simp only [traverse, List.mem_append] at h
    rcases h with h | h
    · exact (traverseList_in len e h).mono fun i hi => by simp [identifiers, hi]
    · exact (traverse_in elt e h).mono fun i hi => by simp [identifiers, hi]
  | .mapT k v, e, h => by
    simp only [traverse, List.mem_append] at h
    rcases h with h | h
    · exact (traverse_in k e h).mono fun i hi => by simp [identifiers, hi]
    · exact (traverse_in v e h).mono fun i hi => by simp [identifiers, hi]
  | .chanT v, e, h => by simp only [traverse] at h; exact (traverse_in v e h).mono fun i hi => by simp [identifiers, hi]
  | .funcT a b c, e, h => by
    simp only [traverse, List.mem_append] at h
    rcases h with (h | h) | h
    · exact (traverseList_in a e h).mono fun i hi => by simp [identifiers, hi]
    · exact (traverseList_in b e h).mono fun i hi => by simp [identifiers, hi]
    · exact (traverseList_in c e h).mono fun i hi => by simp [identifiers, hi]
  | .structT fs, e, h => by simp only [traverse] at h; exact (traverseList_in fs e h).mono fun i hi => by simp [identifiers, hi]
  | .ifaceT fs, e, h => by simp only [traverse] at h; exact (traverseList_in fs e h).mono fun i hi => by simp [identifiers, hi]
  | .field _ names typ _ _, e, h => by
    simp only [traverse, List.mem_append, List.mem_map] at h
    rcases h with ⟨i, hi, rfl⟩ | h
    · show i ∈ _; simp [identifiers, hi]
    · exact (traverse_in typ e h).mono fun i hi => by simp [identifiers, hi]
  | .block fs, e, h => by simp only [traverse] at h; exact (traverseList_in fs e h).mono fun i hi => by simp [identifiers, hi]
  | .typeSpec name tps typ _, e, h => by
    simp only [traverse, List.mem_append, List.mem_cons] at h
    rcases h with rfl | h | h
    · show name ∈ _; simp [identifiers]
    · exact (traverseList_in tps e h).mono fun i hi => by simp [identifiers, hi]
    · exact (traverse_in typ e h).mono fun i hi => by simp [identifiers, hi]
  | .valueSpec _ names typ values _ _, e, h => by
    simp only [traverse, List.mem_append, List.mem_map] at h
    rcases h with (⟨i, hi, rfl⟩ | h) | h
    · show i ∈ _; simp [identifiers, hi]
    · exact (traverseList_in typ e h).mono fun i hi => by simp [identifiers, hi]
    · exact (traverseList_in values e h).mono fun i hi => by simp [identifiers, hi]
  | .genDecl _ specs _, e, h => by simp only [traverse] at h; exact (traverseList_in specs e h).mono fun i hi => by simp [identifiers, hi]
  | .badDecl, e, h => by simp [traverse] at h
  | .other cs, e, h => by simp only [traverse] at h; exact (traverseList_in cs e h).mono fun i hi => by simp [identifiers, hi]

theorem traverseList_in : ∀ (ns : List Node), ∀ e ∈ traverseList env known ns, EventIn (identifiersList ns) e
  | [], e, h => by simp [traverseList] at h
  | n :: ns, e, h => by
    simp only [traverseList, List.mem_append] at h
    rcases h with h | h
    · exact (traverse_in n e h).mono fun i hi => by simp [identifiersList, hi]
    · exact (traverseList_in ns e h).mono fun i hi => by simp [identifiersList, hi]

end
end

theorem identsOf_in {D : Deps} {all : GoMap Package} {p : Package} {f : SourceFile} {i : Ident} (h : i ∈ identsOf (fileEventsOf D all p f)) :
    i ∈ identifiersList f.decls := by
  obtain ⟨e, he, h⟩ := List.mem_filterMap.1 h
  have := traverseList_in _ e he
  cases e <;> simp at h
  subst h
  exact this

/-! ## What is declared is an identifier of the file -/

theorem embedded_in {n : Node} {i : Ident} (h : EmbeddedName n i) : i ∈ identifiers n := by
  induction h <;> simp_all [identifiers]

theorem reaches_below {t l : Node} (h : Reaches t l) : Below t l := by
  induction h with
  | struct => exact .refl _
  | iface => exact .refl _
  | mapKey _ ih => exact .child (by simp [children]) ih
  | mapValue _ ih => exact .child (by simp [children]) ih
  | array _ ih => exact .child (by simp [children]) ih
  | star _ ih => exact .child (by simp [children]) ih

theorem field_child {t f : Node} (h : HasField t f) : f ∈ children t := by cases h <;> simpa [children]

theorem member_in {key : Node → Str} {isI : Bool} {t : Node} {o p : List Descriptor} {i : Ident} (h : Member key isI t o i p) : i ∈ identifiers t := by
  induction h with
  | named hf hi => exact identifiers_children (field_child hf) (by simp [identifiers, hi])
  | embedded _ hf he => exact identifiers_children (field_child hf) (by simp [identifiers, embedded_in he])
  | embeddedLit _ hf _ ih => exact identifiers_children (field_child hf) (by simp [identifiers, ih])
  | anon hf _ hr _ _ ih => exact identifiers_children (field_child hf) (by simp [identifiers, identifiers_below (reaches_below hr) ih])

theorem resultMethod_in {n : Node} {i : Ident} (h : ResultMethod n i) : i ∈ identifiers n := by
  induction h with
  | iface hf hi => exact mem_identifiersList hf (by simp [identifiers, hi])
  | result hr _ ih => simp [identifiers, mem_identifiersList hr ih]
  | struct hf _ ih => exact mem_identifiersList hf ih
  | indexI hy _ ih => simp [identifiers, mem_identifiersList hy ih]
  | arrayLen hy _ ih => simp [identifiers, mem_identifiersList hy ih]
  | other hy _ ih => exact mem_identifiersList hy ih
  | _ => simp_all [identifiers]

theorem varDeclares_in {key : Node → Str} {sname : Nat → List Ident → Str} {o p : List Descriptor} {n : Node} {i : Ident} {q : Nat}
    (h : VarDeclares key sname o n i p q) : i ∈ identifiers n := by
  induction h with
  | name hi => simp [identifiers, hi]
  | inType _ ht _ _ ih => simp [identifiers, mem_identifiersList ht ih]
  | inValue _ _ hv _ ih => subst hv; simp [identifiers, mem_identifiersList (List.mem_append_right _ List.mem_cons_self) ih]
  | decl _ hs _ ih => subst hs; exact mem_identifiersList (List.mem_append_right _ List.mem_cons_self) ih
  | named hi => simp [identifiers, hi]
  | embedded he => simp [identifiers, embedded_in he]
  | anon _ hr _ hf _ ih => simp [identifiers, identifiers_below (reaches_below hr) (identifiers_children (field_child hf) ih)]
  | descend _ hc _ ih => exact identifiers_children (by rw [hc]; simp) ih

theorem declsDeclare_in {env : PkgEnv} {decls : List Node} {i : Ident} {ds : List Descriptor} {q : Nat} (h : DeclsDeclare env decls i ds q) :
    i ∈ identifiersList decls := by
  cases h with
  | typ h =>
    obtain ⟨tok, specs, doc, spec, hd, hs, h⟩ := h
    refine mem_identifiersList hd (mem_identifiersList hs ?_)
    cases h with
    | name => simp [identifiers]
    | member h => simp [identifiers, member_in h]
  | func hd h =>
    refine mem_identifiersList hd ?_
    cases h with
    | name => simp [identifiers]
    | result _ h => simp [identifiers, resultMethod_in h]
  | var hd _ h => exact mem_identifiersList hd (varDeclares_in h)

theorem documentedAs_in {decls : List Node} {i : Ident} {docs : List Str} (h : DocumentedAs decls i docs) : i ∈ identifiersList decls := by
  cases h with
  | typ hd hs => exact mem_identifiersList hd (mem_identifiersList hs (by simp [identifiers]))
  | value hd _ hi =>
    refine mem_identifiersList hd ?_
    exact mem_identifiersList (List.mem_append_right _ (List.mem_cons_self ..)) (by simp [identifiers, hi])
  | func hd => exact mem_identifiersList hd (by simp [identifiers])
  | field hd hb hi =>
    refine mem_identifiersList hd (identifiers_below hb ?_)
    rcases hi with hi | ⟨_, hi⟩
    · simp [identifiers, hi]
    · simp [identifiers, embedded_in hi]

section
variable {D D' : Deps} {o o' : Opts} {project all project' all' : GoMap Package} {objs objs' : List Obj} {p p' : Package} {f : SourceFile}

theorem same_file (ht : TypedProject D project all objs) (hp : (p.path, p) ∈ project) {g h : SourceFile} (hg : g ∈ p.files) (hh : h ∈ p.files)
    (e : g.file = h.file) : g = h := by
  have hnd := ht.files_apart
  have hm : ∀ x ∈ p.files, (p, x) ∈ filesOf (project.map (·.2)) := fun x hx =>
    List.mem_flatMap.2 ⟨p, List.mem_map.2 ⟨_, hp, rfl⟩, List.mem_map.2 ⟨x, hx, rfl⟩⟩
  have := List.inj_on_of_nodup_map hnd (hm g hg) (hm h hh) e
  exact (Prod.mk.inj this).2

/-- The marks of a reference. -/
theorem deprecated_iff (hu : Unambiguous project) {r : Obj} {range : List Int} {sym : Str} {dep : Bool}
    (h : RefsDeprecated project r [⟨range, sym, false, none, dep⟩]) (hl : ∀ k, sym ≠ localName k) : dep = true ↔ DeprecatedIn project r := by
  rcases h _ (List.mem_singleton_self _) hl with ⟨path, q, s, a1, a2, a3, a4, a5, a6⟩ | ⟨a1, a2⟩
  · refine a6.trans ⟨fun h => ⟨path, q, s, a1, a2, a3, a4, h⟩, ?_⟩
    rintro ⟨path', q', s', b1, b2, b3, b4, b5⟩
    have := hu.packages q q' a2 b2 _ _ _ (EntityInfo.declared a4) (EntityInfo.declared b4)
    subst this
    rw [entity_unique hu a2 a4 b4]
    exact b5
  · constructor
    · intro h; have a2 : dep = false := a2; rw [h] at a2; simp at a2
    · rintro ⟨path', q', s', b1, b2, b3, b4, b5⟩
      exact absurd ⟨q', b2, b3, EntityInfo.declared b4⟩ (a1 path' _ b1)

section
variable (hx : NotEdited D D' project all project' all' p p' f) (ht : TypedProject D project all objs) (ht' : TypedProject D' project' all' objs')
  (hp : (p.path, p) ∈ project) (hp' : (p'.path, p') ∈ project') (ho : OwnPositions D p) (ho' : OwnPositions D' p')
include hx

theorem packageSymbol_local : packageSymbol p' = packageSymbol p := by
  unfold packageSymbol; rw [hx.module, hx.path]

theorem fromDescriptors_local (ds : List Descriptor) : p'.env.fromDescriptors ds = p.env.fromDescriptors ds := by
  unfold PkgEnv.fromDescriptors; rw [hx.module]

theorem span_local (i : Ident) : identSpan (sourceEnv D' p') i = identSpan (sourceEnv D p) i := by
  show span (p'.env.position i.pos) (p'.env.position (i.pos + i.name.length)) = span (p.env.position i.pos) (p.env.position (i.pos + i.name.length))
  rw [hx.position]

theorem qualifier_local {i : Ident} (hi : i ∈ identifiersList f.decls) :
    packageQualifier (sourceEnv D' p') (.ident i) = packageQualifier (sourceEnv D p) (.ident i) := by
  show (p'.env.uses i.uid).bind _ = (p.env.uses i.uid).bind _
  rcases hx.uses i hi with ⟨h1, h2⟩ | ⟨r, r', h1, h2, he⟩
  · rw [h1, h2]
  · rw [h1, h2]
    simp only [Option.bind_some]
    by_cases hq : ∃ q, r.self.cls = .pkgName q ∨ r'.self.cls = .pkgName q
    · obtain ⟨q, hq⟩ := hq
      rw [he.pkgName q hq]
    · have n1 : ∀ q, r.self.cls ≠ .pkgName q := fun q x => hq ⟨q, .inl x⟩
      have n2 : ∀ q, r'.self.cls ≠ .pkgName q := fun q x => hq ⟨q, .inr x⟩
      cases h3 : r.self.cls <;> cases h4 : r'.self.cls <;> first | rfl | exact absurd h3 (n1 _) | exact absurd h4 (n2 _)

include ht ht' in
theorem events_local : fileEventsOf D' all' p' f = fileEventsOf D all p f := by
  unfold fileEventsOf fileEventsIn
  refine traverseList_agree _ fun i hi => ⟨qualifier_local hx hi, ?_⟩
  intro j x imported hq
  have hf : FileImports D all p f imported := by
    unfold packageQualifier at hq
    obtain ⟨y, hy, hq⟩ := Option.bind_eq_some_iff.1 hq
    split at hq
    · rename_i q hc
      simp only [Option.some.injEq, Prod.mk.injEq] at hq
      obtain ⟨_, _, rfl⟩ := hq
      exact .qualifier i y hi hy hc
    · simp at hq
  obtain ⟨h1, h2⟩ := hx.loaded imported hf
  rw [Bool.eq_iff_iff, Option.isSome_iff_exists, Option.isSome_iff_exists]
  constructor
  · rintro ⟨q', h⟩
    obtain ⟨q, h'⟩ := h2 ⟨q', GoMap.mem_of_get h⟩
    exact ⟨q, GoMap.get_of_mem ht.all_keyed.nodup h'⟩
  · rintro ⟨q, h⟩
    obtain ⟨q', h', _⟩ := h1 q (GoMap.mem_of_get h)
    exact ⟨q', GoMap.get_of_mem ht'.all_keyed.nodup h'⟩

/-- What is declared at a position of the file is declared in the file. -/
theorem declares_here (ht : TypedProject D project all objs) (hp : (p.path, p) ∈ project) (ho : OwnPositions D p) {i : Ident}
    {ds : List Descriptor} {q : Nat} (hq : D.fileOf q = some f.file) (h : PackageDeclares p.env (p.files.map SourceFile.node) i ds q) :
    DeclsDeclare p.env f.decls i ds q := by
  obtain ⟨name, decls, h1, h2⟩ := h
  obtain ⟨g, hg, e⟩ := List.mem_map.1 h1
  simp only [SourceFile.node, Node.file.injEq] at e
  obtain ⟨rfl, rfl⟩ := e
  have := ho.declared g hg i ds q h2
  rw [hq] at this
  simp only [Option.some.injEq] at this
  rw [same_file ht hp hx.mem hg this]
  exact h2

theorem declares_here' (ht' : TypedProject D' project' all' objs') (hp' : (p'.path, p') ∈ project') (ho' : OwnPositions D' p') {i : Ident}
    {ds : List Descriptor} {q : Nat} (hq : D.fileOf q = some f.file) (h : PackageDeclares p'.env (p'.files.map SourceFile.node) i ds q) :
    DeclsDeclare p'.env f.decls i ds q := by
  obtain ⟨name, decls, h1, h2⟩ := h
  obtain ⟨g, hg, e⟩ := List.mem_map.1 h1
  simp only [SourceFile.node, Node.file.injEq] at e
  obtain ⟨rfl, rfl⟩ := e
  have := ho'.declared g hg i ds q h2
  rw [hx.fileOf, hq] at this
  simp only [Option.some.injEq] at this
  rw [same_file ht' hp' hx.mem' hg this]
  exact h2

include ht ht' hp hp' ho ho'

theorem declares_local {i : Ident} {ds : List Descriptor} {q : Nat} (hq : D.fileOf q = some f.file) :
    PackageDeclares p'.env (p'.files.map SourceFile.node) i ds q ↔ PackageDeclares p.env (p.files.map SourceFile.node) i ds q := by
  constructor
  · intro h
    have := declares_here' hx ht' hp' ho' hq h
    exact ⟨f.name, f.decls, List.mem_map.2 ⟨f, hx.mem, rfl⟩, declsDeclare_same hx.path.symm hx.anonKey.symm hx.position.symm this⟩
  · intro h
    have := declares_here hx ht hp ho hq h
    exact ⟨f.name, f.decls, List.mem_map.2 ⟨f, hx.mem', rfl⟩, declsDeclare_same hx.path hx.anonKey hx.position this⟩

theorem clause_file {g : SourceFile} (hg : g ∈ p.files) (h : D.fileOf g.name.pos = some f.file) : g = f := by
  have := (ht.fileSet _ _ hp _ hg).1
  rw [h] at this
  simp only [Option.some.injEq] at this
  exact (same_file ht hp hx.mem hg this).symm

theorem clause_file' {g : SourceFile} (hg : g ∈ p'.files) (h : D.fileOf g.name.pos = some f.file) : g = f := by
  have := (ht'.fileSet _ _ hp' _ hg).1
  rw [hx.fileOf, h] at this
  simp only [Option.some.injEq] at this
  exact (same_file ht' hp' hx.mem' hg this).symm

theorem declaredAs_local {q : Nat} (hq : D.fileOf q = some f.file) {sym : Str} : DeclaredAs p' q sym ↔ DeclaredAs p q sym := by
  unfold DeclaredAs
  simp only [declares_local hx ht ht' hp hp' ho ho' hq, fromDescriptors_local hx, packageSymbol_local hx]
  refine or_congr_right ⟨?_, ?_⟩
  · rintro ⟨g, h1, rfl, h3⟩
    obtain rfl := clause_file' hx ht ht' hp hp' ho ho' (List.mem_of_mem_head? h1) hq
    exact ⟨g, hx.first.1 h1, rfl, h3⟩
  · rintro ⟨g, h1, rfl, h3⟩
    obtain rfl := clause_file hx ht ht' hp hp' ho ho' (List.mem_of_mem_head? h1) hq
    exact ⟨g, hx.first.2 h1, rfl, h3⟩

theorem entityInfo_local {q : Nat} (hq : D.fileOf q = some f.file) {s : SymInfo} (h : EntityInfo p' q s) : EntityInfo p q s := by
  cases h with
  | entity i ds h1 h2 h3 h4 h5 h6 =>
    have hd := (declares_local hx ht ht' hp hp' ho ho' hq).1 h1
    have hi := declsDeclare_in (declares_here hx ht hp ho hq hd)
    refine .entity i ds hd (by rw [h2, fromDescriptors_local hx]) h3 (by rw [h4, hx.defs i hi]) ?_ ?_
    · rw [h5, hx.defs i hi]
      cases e : p.env.defs i.uid with
      | none => rfl
      | some d => simp only [Option.bind_some, hx.signature i hi d e]
    · intro g hg docs hdoc
      have := ho.identifiers g hg i (documentedAs_in hdoc)
      rw [ho.identifiers f hx.mem i hi] at this
      simp only [Option.some.injEq] at this
      obtain rfl := same_file ht hp hx.mem hg this
      exact h6 f hx.mem' docs hdoc
  | clause g h1 h2 h3 =>
    subst h2
    obtain rfl := clause_file' hx ht ht' hp hp' ho ho' (List.mem_of_mem_head? h1) hq
    exact .clause g (hx.first.1 h1) rfl (by rw [h3, packageSymbol_local hx, hx.comments (hx.first.1 h1), hx.name])

theorem switch_local {i : Ident} (hi : i ∈ identifiersList f.decls) : SwitchIdent p' i ↔ SwitchIdent p i := by
  have hpos := ho.identifiers f hx.mem i hi
  constructor
  · rintro ⟨x, h1, h2⟩
    exact ⟨x, (hx.implicits x (by rw [h2]; exact hpos)).1 h1, h2⟩
  · rintro ⟨x, h1, h2⟩
    exact ⟨x, (hx.implicits x (by rw [h2]; exact hpos)).2 h1, h2⟩

theorem declaring_local {i : Ident} (hi : i ∈ identifiersList f.decls) : DeclaringIdent p' i ↔ DeclaringIdent p i := by
  unfold DeclaringIdent; rw [switch_local hx ht ht' hp hp' ho ho' hi, hx.defs i hi]

theorem localIdent_local {i : Ident} (hi : i ∈ identifiersList f.decls) : LocalIdent p' i ↔ LocalIdent p i := by
  unfold LocalIdent PackageLevel
  simp only [switch_local hx ht ht' hp hp' ho ho' hi, hx.defs i hi, declares_local hx ht ht' hp hp' ho ho' (ho.identifiers f hx.mem i hi)]

theorem locals_local : localIdents D' all' p' f = localIdents D all p f := by
  unfold localIdents
  rw [events_local hx ht ht']
  refine List.filter_congr fun i hi => ?_
  simp only [decide_eq_decide]
  exact localIdent_local hx ht ht' hp hp' ho ho' (identsOf_in hi)

theorem localInfo_local {i : Ident} (hi : i ∈ identifiersList f.decls) {k : Nat} {s : SymInfo} (hs : LocalInfo D' p' i k s) :
    LocalInfo D p i k s := by
  refine ⟨hs.symbol, hs.documentation, fun x => ?_, fun x => ?_⟩
  · obtain ⟨h1, y, h2, h3, h4⟩ := hs.switch ((switch_local hx ht ht' hp hp' ho ho' hi).2 x)
    exact ⟨h1, y, (hx.implicits y (by rw [h3]; exact ho.identifiers f hx.mem i hi)).1 h2, h3, h4⟩
  · obtain ⟨d, h1, h2, h3, h4⟩ := hs.declared fun y => x ((switch_local hx ht ht' hp hp' ho ho' hi).1 y)
    rw [hx.defs i hi] at h1
    rw [hx.objectString i hi d h1] at h4
    exact ⟨d, h1, h2, h3, h4⟩

/-! ## Occurrences -/

theorem identDefs_local (hu : Unambiguous project) {syms syms' : List (SymInfo × List Str)} {i : Ident} (hi : i ∈ identifiersList f.decls)
    {decl : Option (Nat × Nat)} {os os' : List Occurrence} (h1 : IdentDefs D all (p, f) syms i decl os)
    (h2 : IdentDefs D' all' (p', f) syms' i decl os') : os = os' := by
  have hloc := locals_local hx ht ht' hp hp' ho ho'
  have hsw := switch_local hx ht ht' hp hp' ho ho' hi
  refine identDefs_unique ht hu hp hx.mem h1 (syms' := syms') ⟨fun hn => ?_, fun hb hs => ?_, fun hl hs => ?_, fun hd hl => ?_⟩
  · exact h2.nothing (fun x => hn ((declaring_local hx ht ht' hp hp' ho ho' hi).1 x))
  · obtain ⟨k, hk, e⟩ := h2.switch hb (hsw.2 hs)
    refine ⟨k, ?_, ?_⟩
    · rw [← hk]; exact congrArg (fun l => l[k]?) hloc.symm
    · rw [e]; simp only [span_local hx]
  · obtain ⟨k, hk, e⟩ := h2.toLocal ((localIdent_local hx ht ht' hp hp' ho ho' hi).2 hl) (fun x => hs (hsw.1 x))
    refine ⟨k, ?_, ?_⟩
    · rw [← hk]; exact congrArg (fun l => l[k]?) hloc.symm
    · rw [e]; simp only [span_local hx, hx.position]
  · obtain ⟨s, hs, h3, dep, h4, e⟩ := h2.toEntity ((declaring_local hx ht ht' hp hp' ho ho' hi).2 hd)
      (fun x => hl ((localIdent_local hx ht ht' hp hp' ho ho' hi).1 x))
    exact ⟨s, hs, entityInfo_local hx ht ht' hp hp' ho ho' (ho.identifiers f hx.mem i hi) h3, dep, h4, by
      rw [e]; simp only [span_local hx, hx.position]⟩

theorem identRefs_local (hu : Unambiguous project) (hu' : Unambiguous project') {upto : List Ident} {u : Ident} (hi : u ∈ identifiersList f.decls)
    {os os' : List Occurrence} (h1 : IdentRefs D project all (p, f) upto u os) (h2 : IdentRefs D' project' all' (p', f) upto u os')
    (d1 : ∀ r, p.env.uses u.uid = some r → RefsDeprecated project r os) (d2 : ∀ r, p'.env.uses u.uid = some r → RefsDeprecated project' r os') :
    os = os' := by
  classical
  have hsw := switch_local hx ht ht' hp hp' ho ho' hi
  rcases hx.uses u hi with ⟨e1, e2⟩ | ⟨r, r', e1, e2, he⟩
  · rw [h1.nothing (.inr (.inr e1)), h2.nothing (.inr (.inr e2))]
  · by_cases hno : u.name = go!"_" ∨ SwitchIdent p u
    · rw [h1.nothing (hno.imp_right .inl), h2.nothing (hno.imp_right fun x => .inl (hsw.2 x))]
    simp only [not_or] at hno
    obtain ⟨hb, hs⟩ := hno
    have hs' : ¬ SwitchIdent p' u := fun x => hs (hsw.1 x)
    have hloc := locals_local hx ht ht' hp hp' ho ho'
    have hspan := span_local hx u
    have hiff : ∀ l ∈ localIdents D all p f, l.pos = r'.self.pos ↔ l.pos = r.self.pos := by
      intro l hm
      have hl := ho.identifiers f hx.mem l (identsOf_in (List.mem_filter.1 hm).1)
      constructor
      · intro e; rw [e]; exact he.here (.inr (by rw [← e]; exact hl))
      · intro e; rw [e]; exact (he.here (.inl (by rw [← e]; exact hl))).symm
    by_cases hlo : ∃ l ∈ localIdents D all p f, l ∈ upto ∧ l.pos = r.self.pos
    · obtain ⟨l, hl1, hl2, hl3⟩ := hlo
      obtain ⟨k, hk⟩ := List.mem_iff_getElem?.1 hl1
      rw [h1.toLocal hb hs r e1 k l hk hl2 hl3,
        h2.toLocal hb hs' r' e2 k l (by rw [show localIdents D' all' (p', f).1 (p', f).2 = _ from hloc]; exact hk) hl2 ((hiff l hl1).2 hl3), hspan]
    · have hl1 : ∀ l ∈ localIdents D all p f, l ∈ upto → l.pos ≠ r.self.pos := fun l a b c => hlo ⟨l, a, b, c⟩
      have hl2 : ∀ l ∈ localIdents D' all' p' f, l ∈ upto → l.pos ≠ r'.self.pos := by
        rw [hloc]; intro l a b c; exact hlo ⟨l, a, b, (hiff l a).1 c⟩
      by_cases hnm : ∃ sym, NamedBy D project all r sym
      · obtain ⟨sym, dep, eq1, n1⟩ := h1.toEntity hb hs r e1 hl1 hnm
        obtain ⟨sym', dep', eq2, n2⟩ := h2.toEntity hb hs' r' e2 hl2 (by obtain ⟨s, hs⟩ := hnm; exact ⟨s, (he.named s).2 hs⟩)
        obtain rfl := namedBy_unique ht hu n1 ((he.named sym').1 n2)
        have d1 := d1 r e1
        have d2 := d2 r' e2
        rw [eq1] at d1
        rw [eq2] at d2
        have hdd : dep = dep' := by
          rw [Bool.eq_iff_iff]
          exact (deprecated_iff hu d1 (namedBy_global n1)).trans (he.deprecated.symm.trans (deprecated_iff hu' d2 (namedBy_global n1)).symm)
        rw [eq1, eq2, hdd, hspan]
      · have hnm1 : ∀ sym, ¬ NamedBy D project all r sym := fun s x => hnm ⟨s, x⟩
        rw [h1.unnamed hb hs r e1 hl1 hnm1, h2.unnamed hb hs' r' e2 hl2 (fun s x => hnm1 s ((he.named s).1 x))]

theorem loadedSymbol_local {path : Str} (hr : FileImports D all p f path) {q q' : Package} (hq : (path, q) ∈ all) (hq' : (path, q') ∈ all') :
    packageSymbol q' = packageSymbol q := by
  obtain ⟨q₂, h1, h2⟩ := (hx.loaded path hr).1 q hq
  have e := GoMap.get_of_mem ht'.all_keyed.nodup h1
  rw [GoMap.get_of_mem ht'.all_keyed.nodup hq'] at e
  simp only [Option.some.injEq] at e
  subst e
  exact h2

theorem event_local (hu : Unambiguous project) (hu' : Unambiguous project') {syms syms' : List (SymInfo × List Str)} {upto : List Ident} {ev : Event}
    (hm : ev ∈ fileEventsOf D all p f) {defs refs defs' refs' : List Occurrence}
    (h1 : EventOccurrences D project all (p, f) syms upto ev defs refs) (h2 : EventOccurrences D' project' all' (p', f) syms' upto ev defs' refs') :
    defs = defs' ∧ refs = refs' := by
  classical
  obtain ⟨a1, a2⟩ := h1
  obtain ⟨b1, b2⟩ := h2
  have hin := traverseList_in _ ev hm
  cases ev with
  | ident i decl =>
    exact ⟨identDefs_local hx ht ht' hp hp' ho ho' hu hin a2.1 b2.1, identRefs_local hx ht ht' hp hp' ho ho' hu hu' hin a1 b1 a2.2 b2.2⟩
  | qualifier i x imported =>
    obtain ⟨hr, hc⟩ := traverseList_qualifier _ _ _ _ _ _ hm
    have href : FileImports D all p f imported := .qualifier i x hin hr hc
    refine ⟨(show defs = [] from a2).trans (show defs' = [] from b2).symm, ?_⟩
    by_cases hq : ∃ q, (imported, q) ∈ all
    · obtain ⟨q, hq⟩ := hq
      obtain ⟨q', hq', _⟩ := (hx.loaded imported href).1 q hq
      rw [a1.1 q hq, b1.1 q' hq', loadedSymbol_local hx ht ht' hp hp' ho ho' href hq hq', span_local hx]
    · rw [a1.2 (fun q x => hq ⟨q, x⟩), b1.2 (fun q' x => hq ((hx.loaded imported href).2 ⟨q', x⟩))]
  | imp uid name pp =>
    refine ⟨(show defs = [] from a2).trans (show defs' = [] from b2).symm, ?_⟩
    have hb := hx.imports uid name pp hm
    by_cases hq : ∃ imported q, (p.pkgNameOf uid).bind p.imports = some imported ∧ (imported, q) ∈ all
    · obtain ⟨imported, q, hi, hq⟩ := hq
      have href : FileImports D all p f imported := .imported uid name pp hm hi
      obtain ⟨q', hq', _⟩ := (hx.loaded imported href).1 q hq
      rw [a1.1 imported q hi hq, b1.1 imported q' (hb.trans hi) hq', loadedSymbol_local hx ht ht' hp hp' ho ho' href hq hq']
      simp only [hx.position]
    · rw [a1.2 (fun imported q hi x => hq ⟨imported, q, hi, x⟩), b1.2 ?_]
      intro imported q' hi x
      rw [show (p', f).1 = p' from rfl, hb] at hi
      obtain ⟨q, hq'⟩ := (hx.loaded imported (.imported uid name pp hm hi)).2 ⟨q', x⟩
      exact hq ⟨imported, q, hi, hq'⟩

theorem occurrences_local (hu : Unambiguous project) (hu' : Unambiguous project') {syms syms' : List (SymInfo × List Str)}
    {occs occs' : List Occurrence} (h1 : DocumentOccurrences D project all (p, f) syms occs)
    (h2 : DocumentOccurrences D' project' all' (p', f) syms' occs') : occs = occs' := by
  obtain ⟨parts, rfl, hlen, h1⟩ := h1
  obtain ⟨parts', rfl, hlen', h2⟩ := h2
  have hev : fileEventsOf D' all' (p', f).1 (p', f).2 = fileEventsOf D all p f := events_local hx ht ht'
  simp only [packageSymbol_local hx, hx.position]
  have : parts = parts' := by
    refine List.ext_getElem (by rw [hlen, hlen', hev]) ?_
    intro k hk hk'
    have hk₀ : k < (fileEventsOf D all p f).length := by rw [← show parts.length = _ from hlen]; exact hk
    have e := List.getElem?_eq_getElem hk₀
    have hh := h2 k ((fileEventsOf D all p f)[k]) _ (by rw [hev]; exact e) (List.getElem?_eq_getElem hk')
    rw [hev] at hh
    obtain ⟨x, y⟩ := event_local hx ht ht' hp hp' ho ho' hu hu' (List.getElem_mem hk₀) (h1 k _ _ e (List.getElem?_eq_getElem hk)) hh
    exact Prod.ext x y
  rw [this]

/-! ## Descriptions -/

theorem descriptions_local (hu : Unambiguous project) {syms syms' : List (SymInfo × List Str)}
    (h1 : DocumentDescriptions D o project all (p, f) syms) (h2 : DocumentDescriptions D' o' project' all' (p', f) syms') :
    (syms.map (·.1)).Perm (syms'.map (·.1)) ∧
    ((∀ q rels, D.fileOf q = some f.file → RelationshipsAt D' o' project' all' p' q rels → RelationshipsAt D o project all p q rels) →
      syms.Perm syms') := by
  have hloc' : localIdents D' all' (p', f).1 (p', f).2 = localIdents D all p f := locals_local hx ht ht' hp hp' ho ho'
  obtain ⟨qs, en, lo, a1, a2, a3, a4, a5, a6⟩ := h1
  obtain ⟨qs', en', lo', b1, b2, b3, b4, b5, b6⟩ := h2
  rw [hloc'] at b5 b6
  have hfile : ∀ q ∈ qs', D.fileOf q = some f.file := fun q hq => by
    have := ((b3 q).1 hq).1
    rw [hx.fileOf] at this
    exact this
  have hq : qs.Perm qs' := (List.perm_ext_iff_of_nodup a2 b2).2 fun q => by
    rw [a3 q, b3 q, hx.fileOf]
    refine and_congr_right fun h => ?_
    simp only [declaredAs_local hx ht ht' hp hp' ho ho' h]
  have b4' : List.Forall₂ (fun q (s : SymInfo × List Str) => EntityInfo p q s.1 ∧ (RelationshipsAt D' o' project' all' p' q s.2 ∧
      D.fileOf q = some f.file)) qs' en' := by
    rw [List.forall₂_iff_get] at b4 ⊢
    refine ⟨b4.1, fun k hk hk' => ?_⟩
    obtain ⟨x, y⟩ := b4.2 k hk hk'
    have hm := hfile _ (List.getElem_mem hk)
    exact ⟨entityInfo_local hx ht ht' hp hp' ho ho' hm x, y, hm⟩
  have hl : lo = lo' := by
    refine List.ext_getElem (a5.trans b5.symm) ?_
    intro k hk hk'
    have hi : k < (localIdents D all p f).length := lt_of_lt_of_eq hk a5
    have hid : (localIdents D all p f)[k] ∈ identifiersList f.decls := identsOf_in (List.mem_filter.1 (List.getElem_mem hi)).1
    obtain ⟨x1, x2⟩ := a6 k _ _ (List.getElem?_eq_getElem hi) (List.getElem?_eq_getElem hk)
    obtain ⟨y1, y2⟩ := b6 k _ _ (List.getElem?_eq_getElem hi) (List.getElem?_eq_getElem hk')
    exact Prod.ext (localInfo_unique hu hp x1 (localInfo_local hx ht ht' hp hp' ho ho' hid y1)) (x2.trans y2.symm)
  constructor
  · have he : (en.map (·.1)).Perm (en'.map (·.1)) := by
      refine forall2_perm (R := fun q s => EntityInfo p q s) (fun q s s' => entity_unique hu hp) ?_ ?_ hq
      · rw [List.forall₂_map_right_iff]
        exact a4.imp fun q s x => x.1
      · rw [List.forall₂_map_right_iff]
        exact b4'.imp fun q s x => x.1
    have p1 := (a1.map (·.1))
    have p2 := (b1.map (·.1))
    rw [List.map_append] at p1 p2
    rw [hl] at p1
    exact p1.trans ((he.append_right _).trans p2.symm)
  · intro hrel
    have he : en.Perm en' := by
      refine forall2_perm ?_ a4 (b4'.imp fun q s x => ⟨x.1, hrel q _ x.2.2 x.2.1⟩) hq
      rintro q ⟨a, b⟩ ⟨a', b'⟩ ⟨x1, x2⟩ ⟨y1, y2⟩
      exact Prod.ext (entity_unique hu hp x1 y1) (relationships_unique x2 y2)
    rw [hl] at a1
    exact a1.trans ((he.append_right _).trans b1.symm)

end

/-- **C96.** A file that is not edited while other files of the project are: its document has the same path, the same occurrences in the same
order, and describes the same entities in the same words; if its types also implement the same interfaces as before, the relationships are
the same too. -/
theorem C96_document (D D' : Deps) (o o' : Opts) (ord ord' : MapOrders) (w w' : Writer) (project all project' all' : GoMap Package)
    (objs objs' : List Obj) (ht : TypedProject D project all objs) (ht' : TypedProject D' project' all' objs')
    (hv : ValidMapOrders ord) (hv' : ValidMapOrders ord') (hn : NamedTypes D project all) (hn' : NamedTypes D' project' all')
    (hdist : ∀ p, (p.path, p) ∈ project → DistinctIdents p) (hdist' : ∀ p, (p.path, p) ∈ project' → DistinctIdents p)
    (horig : ∀ r ∈ objs, ∀ q, (entityOf r).cls ≠ .pkgName q) (horig' : ∀ r ∈ objs', ∀ q, (entityOf r).cls ≠ .pkgName q)
    (hu : Unambiguous project) (hu' : Unambiguous project') (p p' : Package) (f : SourceFile)
    (hx : NotEdited D D' project all project' all' p p' f) (ho : OwnPositions D p) (ho' : OwnPositions D' p') (n n' : Nat)
    (he : (filesOf (sortedValues project))[n]? = some (p, f)) (he' : (filesOf (sortedValues project'))[n']? = some (p', f))
    (path path' : Str) (occs occs' : List Occurrence) (syms syms' : List (SymInfo × List Str))
    (hm : (index D o ord w (.ok (project, all))).messages[n + 1]? = some (.document path occs syms))
    (hm' : (index D' o' ord' w' (.ok (project', all'))).messages[n' + 1]? = some (.document path' occs' syms')) :
    (o'.moduleRoot = o.moduleRoot → path' = path) ∧ occs' = occs ∧ (syms.map (·.1)).Perm (syms'.map (·.1)) ∧
    ((∀ q rels, D.fileOf q = some f.file → RelationshipsAt D' o' project' all' p' q rels → RelationshipsAt D o project all p q rels) →
      syms.Perm syms') := by
  obtain ⟨hp, hf, _⟩ := mem_project_files ht (List.mem_of_getElem? he)
  obtain ⟨hp', hf', _⟩ := mem_project_files ht' (List.mem_of_getElem? he')
  have d := C87_document D o ord w project all objs ht hv hn hdist horig n (p, f) he path occs syms hm
  have d' := C87_document D' o' ord' w' project' all' objs' ht' hv' hn' hdist' horig' n' (p', f) he' path' occs' syms' hm'
  obtain ⟨s1, s2⟩ := descriptions_local hx ht ht' hp hp' ho ho' hu d.descriptions d'.descriptions
  refine ⟨fun e => ?_, (occurrences_local hx ht ht' hp hp' ho ho' hu hu' d.occurrences d'.occurrences).symm, s1, s2⟩
  rw [d.path, d'.path, e]

end
end Verif
