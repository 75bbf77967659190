import Verif.Lemmas.VisitNotes
import Verif.Props.Visitors
import Verif.Lemmas.Places
/-! # C108: what the collecting pass tells of, and what its silence means -/
namespace Verif
open Spec

/-- **C108**: with `-V -V` the collecting pass over a package tells exactly of the variable and constant specs with a declared type that it does not know (and
skips), and of the embedded elements that it finds no name for. -/
theorem C108_told (env : PkgEnv) (n : VisitNote) : ∀ (files : List Node) (_ : FilesOk files), n ∈ visitPackageNotes env files ↔ PackageTells env.anonKey files n := by
  intro files
  induction files with
  | nil => intro _; simp [visitPackageNotes, PackageTells]
  | cons f fs ih =>
    intro hok
    have ih := ih (fun name decls h => hok name decls (List.mem_cons_of_mem _ h))
    have hrest : n ∈ visitPackageNotes env fs → PackageTells env.anonKey (f :: fs) n := by
      intro h
      obtain ⟨name, decls, h1, h2⟩ := ih.1 h
      exact ⟨name, decls, List.mem_cons_of_mem _ h1, h2⟩
    have hnone : (visitSyntax env f []).isNone = false := by
      obtain ⟨t', h, _⟩ := C21_package_collected env [f] (fun name decls h => hok name decls (by simp at h; simp [h])) []
      cases hs : visitSyntax env f [] with
      | none => rw [visitPackageSyntax, hs] at h; simp at h
      | some _ => rfl
    rw [visitPackageNotes, hnone]
    simp only [Bool.false_eq_true, if_false, List.mem_append]
    cases f with
    | file name decls =>
      rw [visitSyntaxNotes_iff env n name decls (hok name decls (by simp))]
      constructor
      · rintro (h | h)
        · exact ⟨name, decls, List.mem_cons_self, h⟩
        · exact hrest h
      · rintro ⟨name', decls', h1, h2⟩
        rcases List.mem_cons.1 h1 with h1 | h1
        · cases h1; exact .inl h2
        · exact .inr (ih.2 ⟨name', decls', h1, h2⟩)
    | _ =>
      constructor
      · rintro (h | h)
        · simp [visitSyntaxNotes] at h
        · exact hrest h
      · rintro ⟨name', decls', h1, h2⟩
        rcases List.mem_cons.1 h1 with h1 | h1
        · cases h1
        · exact .inr (ih.2 ⟨name', decls', h1, h2⟩)

theorem visitDecls_panics (env : PkgEnv) (specs : List Node) (doc : Str) (post : List Node) : ∀ (pre : List Node) (t : Table),
    visitDecls env (pre ++ .genDecl .other specs doc :: post) t = none
  | [], t => rfl
  | d :: ds, t => by
    rw [List.cons_append, visitDecls]
    cases visitDecl env d t with
    | none => rfl
    | some t' => exact visitDecls_panics env specs doc post ds t'

theorem visitDeclsNotes_panics (env : PkgEnv) (specs : List Node) (doc : Str) (post : List Node) : ∀ (pre : List Node), (∀ d ∈ pre, DeclOk d) →
    visitDeclsNotes env (pre ++ .genDecl .other specs doc :: post) = visitDeclsNotes env pre
  | [], _ => rfl
  | d :: ds, hok => by
    have ih := visitDeclsNotes_panics env specs doc post ds fun d' h => hok d' (List.mem_cons_of_mem _ h)
    have hd := hok d (List.mem_cons_self ..)
    cases d with
    | genDecl tok _ _ => cases tok <;> simp only [List.cons_append, visitDeclsNotes, ih]
    | _ => simp only [List.cons_append, visitDeclsNotes, ih]

/-- C108, when the program panics: at a declaration with a token that no Go declaration has, the pass over the package ends; it has told of what is in the type
declarations of the file and in the variable and constant declarations before, and tells of nothing after. -/
theorem C108_told_before_panic (env : PkgEnv) (n : VisitNote) (name : Ident) (pre post specs : List Node) (doc : Str) (later : List Node) (t : Table)
    (hok : ∀ d ∈ pre, DeclOk d) :
    let files := .file name (pre ++ .genDecl .other specs doc :: post) :: later
    visitPackageSyntax env files t = none ∧
    (n ∈ visitPackageNotes env files ↔
      (∃ tok specs' doc' t tps typ own, .genDecl tok specs' doc' ∈ pre ++ .genDecl .other specs doc :: post ∧ .typeSpec t tps typ own ∈ specs' ∧
        TypeTells env.anonKey (isIfaceBody typ) typ n) ∨
      (∃ tok specs' doc', .genDecl tok specs' doc' ∈ pre ∧ (tok = .var ∨ tok = .const) ∧ VarTells env.anonKey (.genDecl tok specs' doc') n)) := by
  have h : ∀ t, visitSyntax env (.file name (pre ++ .genDecl .other specs doc :: post)) t = none := fun t => visitDecls_panics env specs doc post pre _
  refine ⟨by rw [visitPackageSyntax, h]; rfl, ?_⟩
  rw [visitPackageNotes, h]
  simp only [Option.isNone_none, if_true, List.append_nil]
  rw [visitSyntaxNotes, List.mem_append, typeDeclsNotes_iff, visitDeclsNotes_panics env specs doc post pre hok, visitDeclsNotes_iff env n pre hok]

/-- A panicking pass: the spec before the unknown declaration is told of, the one after is not. -/
example : visitPackageNotes ⟨go!"p", ⟨go!"m", go!"v1"⟩, fun _ => none, fun _ => none, fun _ => [], fun _ => [], fun _ => ⟨1, 1⟩⟩
    [.file ⟨0, go!"p", 8⟩ [.genDecl .var [.valueSpec 20 [⟨1, go!"a", 20⟩] [.paren (.ident ⟨2, go!"int", 23⟩)] [] [] []] [], .genDecl .other [] [],
      .genDecl .var [.valueSpec 40 [⟨3, go!"b", 40⟩] [.paren (.ident ⟨4, go!"int", 43⟩)] [] [] []] []]] = [.typeTodo 20] := by decide +kernel

theorem leftOpenList_ne (sname) {ns : List Node} {c : Node} (hc : c ∈ ns) (h : leftOpen sname c ≠ []) : leftOpenList sname ns ≠ [] := by
  obtain ⟨a, b, rfl⟩ := List.append_of_mem hc
  rw [leftOpenList_append, leftOpenList]
  intro e
  rw [List.append_eq_nil_iff, List.append_eq_nil_iff] at e
  exact h e.2.1

/-- A spec is told of below a node exactly if something is left open there. -/
theorem tells_leftOpen (sname : Nat → List Ident → Str) (key : Node → Str) (m : Node) (hp : Parsed m) :
    (∃ q, VarTells key m (.typeTodo q)) ↔ leftOpen sname m ≠ [] := by
  constructor
  · rintro ⟨q, h⟩
    generalize hn : VisitNote.typeTodo q = n at h
    induction h with
    | skipped hne hh => simp [leftOpen, hne, hh]
    | @inType pos names typ t vs d c n hne ht ho _ ih =>
      have hl := (leftOpen_type sname hp ho).1
      exact absurd hl (leftOpenList_ne sname ht (ih (hp.child (by simp [children, ht])) hn))
    | @inValue pos names typ vs v d c n hne hh hv _ ih =>
      have h1 := leftOpenList_ne sname hv (ih (hp.child (by simp [children, hv])) hn)
      rw [leftOpen, if_neg hne, if_pos hh, List.dropLast_cons_of_ne_nil h1]
      simp
    | decl ht hs _ ih =>
      rw [leftOpen, if_pos ht]
      exact leftOpenList_ne sname hs (ih (hp.child (by simpa [children] using hs)) hn)
    | embedded _ => cases hn
    | anon hne hr hk hf _ ih =>
      obtain ⟨h1, _, _, _, _, _, rfl⟩ := (hp.child (by simp [children])).reaches hr hf
      exact absurd rfl (ih h1 hn)
    | descend hpl hc _ ih =>
      rw [leftOpen_plain _ _ hpl]
      exact leftOpenList_ne sname hc (ih (hp.child hc) hn)
  · intro h
    induction m using nodeInduction with
    | h m ih =>
      have list : ∀ ns : List Node, (∀ c ∈ ns, c ∈ children m) → leftOpenList sname ns ≠ [] → ∃ c ∈ ns, ∃ q, VarTells key c (.typeTodo q) := by
        intro ns
        induction ns with
        | nil => intro _ h; exact absurd rfl h
        | cons c ns ihl =>
          intro hc h
          by_cases h1 : leftOpen sname c = []
          · rw [leftOpenList, h1, List.nil_append] at h
            obtain ⟨c', hc', h'⟩ := ihl (fun x hx => hc x (by simp [hx])) h
            exact ⟨c', by simp [hc'], h'⟩
          · exact ⟨c, by simp, ih c (hc c (by simp)) (hp.child (hc c (by simp))) h1⟩
      by_cases hpl : isPlain m = true
      · rw [leftOpen_plain _ _ hpl] at h
        obtain ⟨c, hc, q, hq⟩ := list _ (fun _ hc => hc) h
        exact ⟨q, .descend hpl hc hq⟩
      · match m, hpl, h, list with
        | .field .., _, h, _ => exact absurd rfl h
        | .genDecl tok specs doc, _, h, list =>
          rw [leftOpen] at h
          split at h
          · obtain ⟨c, hc, q, hq⟩ := list specs (fun _ hc => hc) h
            exact ⟨q, .decl (by assumption) hc hq⟩
          · exact absurd rfl h
        | .valueSpec pos names typ vs d c, _, h, list =>
          rw [leftOpen] at h
          split at h
          · exact absurd rfl h
          · rename_i hne
            split at h
            · rename_i hh
              have : leftOpenList sname vs ≠ [] := by
                intro e
                rw [e] at h
                exact h rfl
              obtain ⟨v, hv, q, hq⟩ := list vs (fun c hc => by simp [children, hc]) this
              exact ⟨q, .inValue hne hh hv hq⟩
            · rename_i hh
              exact ⟨pos, .skipped hne (by simpa using hh)⟩

/-- **C108**, what silence means: a package-level variable or constant is recorded under its package and its name alone *if and only if* the pass tells of no
type in the specs before it in the same declaration. -/
theorem C108_silent_exact (env : PkgEnv) (files : List Node) (hok : FilesOk files) (t : Table)
    (fname : Ident) (decls pre post : List Node) (tok : Tok) (doc : Str) (pos : Nat) (names : List Ident)
    (typ vs : List Node) (d c : Str) (n : Ident)
    (hf : .file fname decls ∈ files) (hd : .genDecl tok (pre ++ .valueSpec pos names typ vs d c :: post) doc ∈ decls)
    (ht : tok = .var ∨ tok = .const) (hn : n ∈ names)
    (huniq : ∀ i p i' p', PackageDeclares env files i p n.pos → PackageDeclares env files i' p' n.pos → p = p')
    (hm : fieldOk env.module.path) (hv : fieldOk env.module.version) :
    ∃ t', visitPackageSyntax env files t = some t' ∧
      (t'.getSymbol n.pos = some (formatSymbol ⟨env.module.path, env.module.version⟩ [⟨env.pkgPath, .nspace⟩, ⟨n.name, .term⟩]) ↔
        ∀ s ∈ pre, ∀ q, ¬ VarTells env.anonKey s (.typeTodo q)) := by
  obtain ⟨t', h1, _, h3⟩ := C22_var_names_exact env files hok t fname decls pre post tok doc pos names typ vs d c n hf hd ht hn huniq hm hv
  refine ⟨t', h1, h3.trans ?_⟩
  have hp : ∀ s ∈ pre, Parsed s := fun s hs => ((hok fname decls hf _ hd).2 ht).child (by simp [children, hs])
  constructor
  · intro h s hs q hq
    exact leftOpenList_ne _ hs ((tells_leftOpen (specScopeName env.position) env.anonKey s (hp s hs)).1 ⟨q, hq⟩) h
  · intro h
    have : ∀ ns : List Node, (∀ s ∈ ns, s ∈ pre) → leftOpenList (specScopeName env.position) ns = [] := by
      intro ns
      induction ns with
      | nil => intro _; rfl
      | cons s ns ih =>
        intro hs
        rw [leftOpenList, ih (fun x hx => hs x (by simp [hx])), List.append_nil]
        refine Classical.byContradiction fun hne => ?_
        obtain ⟨q, hq⟩ := (tells_leftOpen (specScopeName env.position) env.anonKey s (hp s (hs s (by simp)))).2 hne
        exact h s (hs s (by simp)) q hq
    exact this pre (fun _ h => h)

/-- **C108** for a package: if its collecting pass makes no record of a type that it does not know, then all package-level variables and constants are
recorded under their package and their name alone. -/
theorem C108_silent_package (env : PkgEnv) (files : List Node) (hok : FilesOk files) (t : Table) (hsil : ∀ q, .typeTodo q ∉ visitPackageNotes env files)
    (fname : Ident) (decls specs : List Node) (tok : Tok) (doc : Str) (pos : Nat) (names : List Ident)
    (typ vs : List Node) (d c : Str) (n : Ident)
    (hf : .file fname decls ∈ files) (hd : .genDecl tok specs doc ∈ decls) (hs : .valueSpec pos names typ vs d c ∈ specs)
    (ht : tok = .var ∨ tok = .const) (hn : n ∈ names)
    (huniq : ∀ i p i' p', PackageDeclares env files i p n.pos → PackageDeclares env files i' p' n.pos → p = p')
    (hm : fieldOk env.module.path) (hv : fieldOk env.module.version) :
    ∃ t', visitPackageSyntax env files t = some t' ∧
      t'.getSymbol n.pos = some (formatSymbol ⟨env.module.path, env.module.version⟩ [⟨env.pkgPath, .nspace⟩, ⟨n.name, .term⟩]) := by
  obtain ⟨pre, post, rfl⟩ := List.append_of_mem hs
  obtain ⟨t', h1, h2⟩ := C108_silent_exact env files hok t fname decls pre post tok doc pos names typ vs d c n hf hd ht hn huniq hm hv
  refine ⟨t', h1, h2.2 fun s hs' q hq => hsil q ?_⟩
  exact (C108_told env _ files hok).2 ⟨fname, decls, hf, .var hd ht (.decl ht (by simp [hs']) hq)⟩

/-- **C108** for embedded elements of struct types in type declarations: each names a field, which is recorded, or is told of, or is one that names nothing. -/
theorem C108_embedded (env : PkgEnv) (files : List Node) (hok : FilesOk files) (t : Table)
    (fname : Ident) (decls : List Node) (tok : Tok) (specs : List Node) (doc : Str) (n : Ident) (tps fs : List Node) (d : Str) (pos : Nat) (ft : Node) (fd fc : Str)
    (hfile : .file fname decls ∈ files) (hd : .genDecl tok specs doc ∈ decls) (hs : .typeSpec n tps (.structT fs) d ∈ specs) (hf : .field pos [] ft fd fc ∈ fs)
    (hnot : .fieldUnhandled pos ∉ visitPackageNotes env files) (hnames : ¬ NamesNothing ft) :
    ∃ t' e sym, visitPackageSyntax env files t = some t' ∧ EmbeddedName ft e ∧ t'.getSymbol e.pos = some sym := by
  obtain ⟨t', h1, h2⟩ := C21_package_collected env files hok t
  by_cases he : ∃ e, EmbeddedName ft e
  · obtain ⟨e, he⟩ := he
    obtain ⟨info, hi⟩ := h2.complete e _ e.pos ⟨fname, decls, hfile, .typ ⟨tok, specs, doc, _, hd, hs, .member (.embedded rfl (.struct hf) he)⟩⟩
    exact ⟨t', e, info.symbol, h1, he, by simp [Table.getSymbol, hi]⟩
  · exact absurd ((C108_told env _ files hok).2 ⟨fname, decls, hfile, .typ hd hs (.embedded rfl (.struct hf) ⟨fun i hi => he ⟨i, hi⟩, hnames⟩)⟩) hnot

namespace ParenSample
open Sample

/-- The type of `a` is told of … -/
theorem told : visitPackageNotes env [file] = [.typeTodo 10] := by decide +kernel

/-- … because it is in parentheses (C108_told), … -/
example : PackageTells env.anonKey [file] (.typeTodo 10) := (C108_told env _ [file] filesOk).1 (by rw [told]; simp)

/-- … so that the name of `b` is wrong (C108_silent_exact): the hypotheses of the theorem are met, and its right-hand side is false here. -/
example : ∃ t, visitPackageSyntax env [file] [] = some t ∧ t.getSymbol 20 ≠ some (formatSymbol ⟨go!"m", go!"v1"⟩ [⟨go!"m/p", .nspace⟩, ⟨go!"b", .term⟩]) := by
  obtain ⟨t, ht, h⟩ := C108_silent_exact env [file] filesOk [] (id 0 go!"p" 1) [declAB] [.valueSpec 10 [id 1 go!"a" 10] [.paren (ty go!"int" 13)] [] [] []] []
    .var [] 20 [id 2 go!"b" 20] [ty go!"int" 22] [] [] [] (id 2 go!"b" 20) (List.mem_singleton.2 rfl) (List.mem_singleton.2 rfl) (.inl rfl) (List.mem_singleton.2 rfl)
    (fun i p i' p' h h' => (unique i p h).trans (unique i' p' h').symm) (by decide) (by decide)
  exact ⟨t, ht, fun e => h.1 e _ (List.mem_singleton.2 rfl) 10 (.skipped (by simp) rfl)⟩

/-- `type T struct { (E); *F; G interface { (io.Reader) } }`, `var v interface { (E); ~int | string }` -/
def embedding : Node := .file (id 0 go!"p" 1)
  [ .genDecl .typ [.typeSpec (id 1 go!"T" 10) [] (.structT [.field 20 [] (.paren (ty go!"E" 21)) [] [], .field 24 [] (.star (ty go!"F" 25)) [] [],
      .field 28 [id 2 go!"G" 28] (.ifaceT [.field 30 [] (.paren (.selector (ty go!"io" 31) (id 3 go!"Reader" 34))) [] []]) [] []]) []] [],
    .genDecl .var [.valueSpec 40 [id 4 go!"v" 40] [.ifaceT [.field 50 [] (.paren (ty go!"E" 51)) [] [], .field 54 [] (.other [.unary (ty go!"int" 55), ty go!"string" 57]) [] []]] [] [] []] [] ]

theorem embedding_ok : FilesOk [embedding] := by
  intro name ds h d hd
  simp only [embedding, List.mem_singleton, Node.file.injEq] at h
  obtain ⟨rfl, rfl⟩ := h
  simp only [List.mem_cons, List.not_mem_nil, or_false] at hd
  rcases hd with rfl | rfl
  · exact ⟨by simp, fun h => by rcases h with h | h <;> cases h⟩
  · exact ⟨by simp, fun _ => parsedTree _ (by decide +kernel)⟩

theorem embedding_told : visitPackageNotes { env with anonKey := fun _ => go!"k" } [embedding] = [.fieldUnhandled 20, .fieldUnhandled 30, .fieldUnhandled 50] := by
  decide +kernel

/-- C108_embedded applies to the field `*F`: it is not told of, so it is recorded. -/
example : ∃ t e sym, visitPackageSyntax { env with anonKey := fun _ => go!"k" } [embedding] [] = some t ∧ EmbeddedName (.star (ty go!"F" 25)) e ∧
    t.getSymbol e.pos = some sym :=
  C108_embedded { env with anonKey := fun _ => go!"k" } [embedding] embedding_ok [] _ _ _ _ _ _ _ _ _ 24 _ [] [] (List.mem_singleton.2 rfl) List.mem_cons_self
    (List.mem_singleton.2 rfl) (by simp) (by rw [embedding_told]; decide) (by intro h; cases h with | star h => cases h)

/-- `var ( a, b int; c = func() { var x struct { y int } } )` -/
def silent : Node := .genDecl .var
  [ .valueSpec 10 [id 1 go!"a" 10, id 2 go!"b" 12] [ty go!"int" 14] [] [] [],
    .valueSpec 20 [id 3 go!"c" 20] [] [.other [.funcT [] [] [], .block [.genDecl .var [.valueSpec 30 [id 4 go!"x" 30]
      [.structT [.field 40 [id 5 go!"y" 40] (ty go!"int" 42) [] []]] [] [] []] []]]] [] []] []

theorem silent_ok : FilesOk [.file (id 0 go!"p" 1) [silent]] := by
  intro name ds h d hd
  simp only [List.mem_singleton, Node.file.injEq] at h
  obtain ⟨rfl, rfl⟩ := h
  rw [List.mem_singleton.1 hd]
  exact ⟨by simp, fun _ => parsedTree silent (by decide +kernel)⟩

/-- C108_silent_package applies to a package in which nothing is told of. -/
example : ∃ t, visitPackageSyntax env [.file (id 0 go!"p" 1) [silent]] [] = some t ∧
    t.getSymbol 20 = some (formatSymbol ⟨go!"m", go!"v1"⟩ [⟨go!"m/p", .nspace⟩, ⟨go!"c", .term⟩]) := by
  have hnone : visitPackageNotes env [.file (id 0 go!"p" 1) [silent]] = [] := by decide +kernel
  refine C108_silent_package env _ silent_ok [] (by rw [hnone]; simp) (id 0 go!"p" 1) [silent] _ .var [] 20 [id 3 go!"c" 20] [] _ [] [] (id 3 go!"c" 20)
    (List.mem_singleton.2 rfl) (List.mem_singleton.2 rfl) (List.mem_cons_of_mem _ List.mem_cons_self) (.inl rfl) (List.mem_singleton.2 rfl) ?_ (by decide) (by decide)
  intro i p i' p' h h'
  refine (PackageDeclares.unique (by decide +kernel) ?_ h h').2
  intro name decls hf
  simp only [List.mem_singleton, Node.file.injEq] at hf
  obtain ⟨rfl, rfl⟩ := hf
  intro tok specs doc hd _ s hs
  simp only [silent, List.mem_singleton, Node.genDecl.injEq] at hd
  obtain ⟨rfl, rfl, rfl⟩ := hd
  simp only [List.mem_cons, List.not_mem_nil, or_false] at hs
  rcases hs with rfl | rfl <;> exact ⟨_, _, _, _, _, _, rfl⟩

end ParenSample

end Verif
