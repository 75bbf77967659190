import Verif.Lemmas.VarVisitor
import Verif.Spec.Naming
import Verif.Lemmas.Places
/-! # Different entities have different paths -/
namespace Verif
open Spec Index

section
variable {key : Node → Str} {isI : Bool}

theorem Member.split {t : Node} {o p : List Descriptor} {i : Ident} (h : Member key isI t o i p) :
    (MemberName isI t i ∧ p = o ++ [⟨i.name, .term⟩]) ∨
    ∃ lit, MemberType isI t lit ∧ Member key isI lit (o ++ [⟨key lit, .typ⟩]) i p := by
  induction h with
  | named hf hi => exact .inl ⟨.named hf hi, rfl⟩
  | embedded h hf he => exact .inl ⟨.embedded h hf he, rfl⟩
  | embeddedLit h hf _ ih =>
    rcases ih with ⟨h1, h2⟩ | ⟨lit, h1, h2⟩
    · exact .inl ⟨.embeddedLit h hf h1, h2⟩
    · exact .inr ⟨lit, .embeddedLit h hf h1, h2⟩
  | anon hf hne hr _ hm _ => exact .inr ⟨_, .named hf hne hr, hm⟩

theorem Member.extends {t : Node} {o p : List Descriptor} {i : Ident} (h : Member key isI t o i p) :
    ∃ r, p = o ++ r ++ [⟨i.name, .term⟩] ∧ ∀ d ∈ r, d.suffix = .typ := by
  induction h with
  | named => exact ⟨[], by simp, by simp⟩
  | embedded => exact ⟨[], by simp, by simp⟩
  | embeddedLit _ _ _ ih => exact ih
  | @anon _ _ _ _ _ _ _ lit _ _ _ _ _ _ _ ih =>
    obtain ⟨r, rfl, h⟩ := ih
    exact ⟨⟨key lit, .typ⟩ :: r, by simp only [List.append_assoc, List.cons_append, List.nil_append], by simpa using h⟩

/-- The path of a member determines it. -/
theorem Member.determined {t : Node} (hd : DistinctMembers isI t) (ht : NoTwins key isI t) {o p : List Descriptor} {i j : Ident}
    (h : Member key isI t o i p) (h' : Member key isI t o j p) (hi : i.name ≠ go!"_") : i = j := by
  induction hd generalizing o with
  | @mk t hnames _ ih =>
    cases ht with
    | mk htw hrec =>
    have hn : i.name = j.name := by
      obtain ⟨r, e, _⟩ := Member.extends h
      obtain ⟨r', e', _⟩ := Member.extends h'
      rw [e] at e'
      have := List.append_inj_right' e' rfl
      simpa using this
    rcases Member.split h with ⟨h1, h2⟩ | ⟨l, h1, h2⟩ <;> rcases Member.split h' with ⟨h1', h2'⟩ | ⟨l', h1', h2'⟩
    · exact hnames i j h1 h1' hn hi
    · obtain ⟨r, e, _⟩ := Member.extends h2'
      have := congrArg List.length (h2.symm.trans e)
      simp at this
    · obtain ⟨r, e, _⟩ := Member.extends h2
      have := congrArg List.length (h2'.symm.trans e)
      simp at this
    · obtain ⟨r, e, _⟩ := Member.extends h2
      obtain ⟨r', e', _⟩ := Member.extends h2'
      have hk : key l = key l' := by
        have := e.symm.trans e'
        simp only [List.append_assoc] at this
        have := List.append_cancel_left this
        simp at this
        exact this.1
      cases htw l l' h1 h1' hk
      exact ih l h1 (hrec l h1) h2 h2'

theorem VarDeclares.extends {sname : Nat → List Ident → Str} {o p : List Descriptor} {n : Node} {i : Ident} {q : Nat}
    (h : VarDeclares key sname o n i p q) : ∃ r, p = o ++ r := by
  induction h with
  | name => exact ⟨_, rfl⟩
  | inType _ _ _ _ ih => obtain ⟨r, rfl⟩ := ih; exact ⟨_, List.append_assoc _ _ _⟩
  | inValue _ _ _ _ ih => obtain ⟨r, rfl⟩ := ih; exact ⟨_, List.append_assoc _ _ _⟩
  | decl _ _ _ ih => obtain ⟨r, rfl⟩ := ih; exact ⟨_, List.append_assoc _ _ _⟩
  | named => exact ⟨_, rfl⟩
  | embedded => exact ⟨_, rfl⟩
  | anon _ _ _ _ _ ih => obtain ⟨r, rfl⟩ := ih; exact ⟨_, List.append_assoc _ _ _⟩
  | descend _ _ _ ih => obtain ⟨r, rfl⟩ := ih; exact ⟨_, List.append_assoc _ _ _⟩

end

variable {env : PkgEnv} {files : List Node}

/-- Scopes of variables are marked as such. -/
theorem leftOpen_meta (sname : Nat → List Ident → Str) (n : Node) : ∀ d ∈ leftOpen sname n, d.suffix = .metadesc := by
  induction n using nodeInduction with
  | h n ih =>
    have list : ∀ ns : List Node, (∀ c ∈ ns, c ∈ children n) → ∀ d ∈ leftOpenList sname ns, d.suffix = .metadesc := by
      intro ns
      induction ns with
      | nil => intro _ d hd; simp [leftOpenList] at hd
      | cons c ns ihl =>
        intro hc d hd
        rw [leftOpenList] at hd
        rcases List.mem_append.1 hd with hd | hd
        · exact ih c (hc c (by simp)) d hd
        · exact ihl (fun x hx => hc x (by simp [hx])) d hd
    by_cases hp : isPlain n = true
    · rw [leftOpen_plain _ _ hp]; exact list _ (fun _ hc => hc)
    · match n, hp, list with
      | .field .., _, _ => simp [leftOpen]
      | .genDecl tok specs doc, _, list =>
        rw [leftOpen]
        split
        · exact list _ (fun _ hc => hc)
        · simp
      | .valueSpec pos names typ vs d c, _, list =>
        rw [leftOpen]
        split
        · simp
        · split
          · intro x hx
            rcases List.mem_cons.1 ((List.dropLast_sublist _).subset hx) with rfl | hx
            · rfl
            · exact list vs (fun c hc => by simp [children, hc]) x hx
          · intro x hx; rw [List.mem_singleton.1 hx]

theorem leftOpenList_meta (sname : Nat → List Ident → Str) (ns : List Node) : ∀ d ∈ leftOpenList sname ns, d.suffix = .metadesc := by
  have := leftOpen_meta sname (.other ns)
  rwa [leftOpen] at this

theorem _root_.Verif.Spec.DeclaresPlainValue.value {n : Ident} (h : DeclaresPlainValue files n) : DeclaresValue files n := by
  obtain ⟨tok, pre, pos, names, typ, vs, d, c, post, doc, hd, ht, hn, _⟩ := h
  exact ⟨tok, _, doc, pos, names, typ, vs, d, c, hd, ht, by simp, hn⟩

/-- What a package declares: one of the named entities, or `_` or something in it, or `init`, or something inside of a function or variable declaration. -/
inductive Shape (env : PkgEnv) (files : List Node) : Ident → List Descriptor → Nat → Prop
  | typ {n typ} : DeclaresType files n typ → Shape env files n [⟨env.pkgPath, .nspace⟩, ⟨n.name, .typ⟩] n.pos
  | value {n} : DeclaresValue files n → Shape env files n [⟨env.pkgPath, .nspace⟩, ⟨n.name, .term⟩] n.pos
  | func {n} : DeclaresFunc files n → Shape env files n [⟨env.pkgPath, .nspace⟩, ⟨n.name, .method⟩] n.pos
  | method {base n} : DeclaresMethod files base n → Shape env files n [⟨env.pkgPath, .nspace⟩, ⟨base, .typ⟩, ⟨n.name, .method⟩] n.pos
  | member {n typ i ds} : DeclaresType files n typ →
      Member env.anonKey (isIfaceBody typ) typ [⟨env.pkgPath, .nspace⟩, ⟨n.name, .typ⟩] i ds → Shape env files i ds i.pos
  | inner {i ds q} : (∃ d ∈ ds, d.suffix = .metadesc) → Shape env files i ds q

theorem PackageDeclares.shape (hv : ∀ name decls, .file name decls ∈ files → ValueSpecs decls) {i : Ident} {ds : List Descriptor} {q : Nat}
    (h : PackageDeclares env files i ds q) : Shape env files i ds q := by
  obtain ⟨name, decls, hf, h⟩ := h
  cases h with
  | typ h =>
    obtain ⟨tok, specs, doc, spec, hd, hs, h⟩ := h
    cases h with
    | name n tps typ d => exact .typ ⟨tok, specs, doc, tps, d, ⟨name, decls, hf, hd⟩, hs⟩
    | member hm => exact .member ⟨tok, specs, doc, _, _, ⟨name, decls, hf, hd⟩, hs⟩ hm
  | func hd h =>
    cases h with
    | name hr =>
      cases hr with
      | func => exact .func ⟨_, _, _, _, _, name, decls, hf, hd⟩
      | method hb => exact .method ⟨_, _, _, _, _, _, _, _, _, _, _, ⟨name, decls, hf, hd⟩, hb⟩
    | result => exact .inner ⟨⟨go!"func", .metadesc⟩, by simp, rfl⟩
  | var hd htok h =>
    cases h with
    | descend hp => simp [isPlain] at hp
    | @decl _ _ _ pre s post _ _ _ _ _ hsp h =>
      have hs : s ∈ pre ++ s :: post := List.mem_append_right _ List.mem_cons_self
      rw [← hsp] at hs
      obtain ⟨pos, names, typ, vs, d, c, rfl⟩ := hv name decls hf _ _ _ hd htok _ hs
      cases h with
      | descend hp => simp [isPlain] at hp
      | name hi =>
        cases hl : leftOpenList (specScopeName env.position) pre with
        | nil => exact .value ⟨_, _, _, _, _, _, _, _, _, ⟨name, decls, hf, hd⟩, htok, hs, hi⟩
        | cons x r => exact .inner ⟨x, by simp, leftOpenList_meta (specScopeName env.position) pre x (by simp [hl])⟩
      | inType _ _ _ h =>
        obtain ⟨r, rfl⟩ := VarDeclares.extends h
        exact .inner ⟨⟨specScopeName env.position pos names, .metadesc⟩, by simp, rfl⟩
      | inValue _ _ _ h =>
        obtain ⟨r, rfl⟩ := VarDeclares.extends h
        exact .inner ⟨⟨specScopeName env.position pos names, .metadesc⟩, by simp, rfl⟩

theorem DeclaresType.same (hn : (placesList files).Nodup) {n : Ident} {typ typ' : Node} (h : DeclaresType files n typ) (h' : DeclaresType files n typ') :
    typ = typ' := by
  obtain ⟨tok, specs, doc, tps, d, ⟨name, decls, hf, hd⟩, hs⟩ := h
  obtain ⟨tok', specs', doc', tps', d', ⟨name', decls', hf', hd'⟩, hs'⟩ := h'
  have p1 : n.pos ∈ places (.typeSpec n tps typ d) := place_own (by simp [ownPlaces])
  have p1' : n.pos ∈ places (.typeSpec n tps' typ' d') := place_own (by simp [ownPlaces])
  have p2 : n.pos ∈ places (.genDecl tok specs doc) := place_child (by simpa [children] using hs) p1
  have p2' : n.pos ∈ places (.genDecl tok' specs' doc') := place_child (by simpa [children] using hs') p1'
  cases same_of_place hn hf hf' (place_child (by simpa [children] using hd) p2) (place_child (by simpa [children] using hd') p2')
  have hdn := nodup_children (nodup_member hn hf)
  simp only [children] at hdn
  cases same_of_place hdn hd hd' p2 p2'
  have hsn := nodup_children (nodup_member hdn hd)
  simp only [children] at hsn
  cases same_of_place hsn hs hs' p1 p1'
  rfl

/-- The path of a named entity determines it among everything that the package declares. -/
theorem NamedEntity.determined (hn : (placesList files).Nodup) (hv : ∀ name decls, .file name decls ∈ files → ValueSpecs decls) (hg : GoNames files)
    {i j : Ident} {ds : List Descriptor} {q : Nat} (h : NamedEntity env files i ds) (h' : PackageDeclares env files j ds q) : i = j ∧ q = i.pos := by
  have no_meta : ∀ {r : List Descriptor} {x y : Descriptor}, (∀ d ∈ r, d.suffix = .typ) → x.suffix ≠ .metadesc → y.suffix ≠ .metadesc →
      ¬ ∃ d ∈ x :: (r ++ [y]), d.suffix = .metadesc := by
    rintro r x y hr hx hy ⟨d, hd, e⟩
    rcases List.mem_cons.1 hd with rfl | hd
    · exact hx e
    · rcases List.mem_append.1 hd with hd | hd
      · rw [hr d hd] at e; simp at e
      · rw [List.mem_singleton.1 hd] at e; exact hy e
  have hs := PackageDeclares.shape hv h'
  clear h'
  cases h with
  | typ ht h_ =>
    generalize hds : [_, _] = ds at hs
    cases hs with
    | typ ht' =>
      simp only [List.cons.injEq, Descriptor.mk.injEq, and_true, true_and] at hds
      cases hg.package _ _ (.inl ⟨_, ht⟩) (.inl ⟨_, ht'⟩) hds h_ (hg.init _ (.inl ⟨_, ht⟩))
      exact ⟨rfl, rfl⟩
    | value => simp at hds
    | func => simp at hds
    | method => simp at hds
    | member _ hm =>
      obtain ⟨r, rfl, _⟩ := Member.extends hm
      simp at hds
    | inner h => subst hds; exact absurd h (no_meta (r := []) (by simp) (by simp) (by simp))
  | value hp h_ =>
    have ht := hp.value
    generalize hds : [_, _] = ds at hs
    cases hs with
    | value ht' =>
      simp only [List.cons.injEq, Descriptor.mk.injEq, and_true, true_and] at hds
      cases hg.package _ _ (.inr (.inl ht)) (.inr (.inl ht')) hds h_ (hg.init _ (.inr ht))
      exact ⟨rfl, rfl⟩
    | typ => simp at hds
    | func => simp at hds
    | method => simp at hds
    | member _ hm =>
      obtain ⟨r, rfl, _⟩ := Member.extends hm
      simp at hds
    | inner h => subst hds; exact absurd h (no_meta (r := []) (by simp) (by simp) (by simp))
  | func ht h_ hinit =>
    generalize hds : [_, _] = ds at hs
    cases hs with
    | func ht' =>
      simp only [List.cons.injEq, Descriptor.mk.injEq, and_true, true_and] at hds
      cases hg.package _ _ (.inr (.inr ht)) (.inr (.inr ht')) hds h_ hinit
      exact ⟨rfl, rfl⟩
    | typ => simp at hds
    | value => simp at hds
    | method => simp at hds
    | member _ hm =>
      obtain ⟨r, rfl, _⟩ := Member.extends hm
      simp at hds
    | inner h => subst hds; exact absurd h (no_meta (r := []) (by simp) (by simp) (by simp))
  | method ht hb h_ =>
    generalize hds : [_, _, _] = ds at hs
    cases hs with
    | method ht' =>
      simp only [List.cons.injEq, Descriptor.mk.injEq, and_true, true_and] at hds
      obtain ⟨rfl, hds⟩ := hds
      cases hg.methods _ _ _ ht ht' hds hb h_
      exact ⟨rfl, rfl⟩
    | typ => simp at hds
    | value => simp at hds
    | func => simp at hds
    | member _ hm =>
      obtain ⟨r, rfl, _⟩ := Member.extends hm
      rw [show ∀ a b c : Descriptor, [a, b, c] = [a, b] ++ [c] from fun _ _ _ => rfl] at hds
      have := (List.append_inj' hds rfl).2
      simp at this
    | inner h => subst hds; exact absurd h (no_meta (r := [⟨_, .typ⟩]) (by simp) (by simp) (by simp))
  | member ht hb htw hm h_ =>
    obtain ⟨r, e, hr⟩ := Member.extends hm
    cases hs with
    | method =>
      rw [show ∀ a b c : Descriptor, [a, b, c] = [a, b] ++ [c] from fun _ _ _ => rfl] at e
      have := (List.append_inj' e rfl).2
      simp at this
    | typ => simp at e
    | value => simp at e
    | func => simp at e
    | @member n' typ' _ _ ht' hm' =>
      obtain ⟨r', e', _⟩ := Member.extends hm'
      have := e.symm.trans e'
      simp only [List.append_assoc, List.cons_append, List.nil_append, List.cons.injEq, Descriptor.mk.injEq, and_true, true_and] at this
      cases hg.package _ _ (.inl ⟨_, ht⟩) (.inl ⟨_, ht'⟩) this.1 hb (hg.init _ (.inl ⟨_, ht⟩))
      cases DeclaresType.same hn ht ht'
      cases Member.determined (hg.members _ _ ht hb) htw hm hm' h_
      exact ⟨rfl, rfl⟩
    | inner h =>
      subst e
      refine absurd h ?_
      simp only [List.cons_append, List.nil_append]
      exact no_meta (r := _ :: r) (by simpa using hr) (by simp) (by simp)

/-- A named entity is declared by its package, at its own position. -/
theorem NamedEntity.declares {i : Ident} {ds : List Descriptor} (h : NamedEntity env files i ds) : PackageDeclares env files i ds i.pos := by
  cases h with
  | typ ht _ =>
    obtain ⟨tok, specs, doc, tps, d, ⟨name, decls, hf, hd⟩, hs⟩ := ht
    exact ⟨name, decls, hf, .typ ⟨_, _, _, _, hd, hs, .name _ _ _ _⟩⟩
  | value ht _ =>
    obtain ⟨tok, pre, pos, names, typ, vs, d, c, post, doc, ⟨name, decls, hf, hd⟩, htok, hi, hh⟩ := ht
    refine ⟨name, decls, hf, .var hd htok (.decl htok rfl ?_)⟩
    rw [leftOpenList_nil _ hh]
    exact .name hi
  | func ht _ _ =>
    obtain ⟨typ, body, a, b, d, name, decls, hf, hd⟩ := ht
    exact ⟨name, decls, hf, .func hd (.name .func)⟩
  | method ht _ _ =>
    obtain ⟨pos, names, recv, fd, fc, rest, typ, body, a, b, d, ⟨name, decls, hf, hd⟩, hb⟩ := ht
    exact ⟨name, decls, hf, .func hd (.name (.method hb))⟩
  | member ht _ _ hm _ =>
    obtain ⟨tok, specs, doc, tps, d, ⟨name, decls, hf, hd⟩, hs⟩ := ht
    exact ⟨name, decls, hf, .typ ⟨_, _, _, _, hd, hs, .member hm⟩⟩

/-- The path of a named entity begins with the path of the package, and is longer. -/
theorem NamedEntity.path {i : Ident} {ds : List Descriptor} (h : NamedEntity env files i ds) : ∃ d r, ds = ⟨env.pkgPath, .nspace⟩ :: d :: r := by
  cases h with
  | typ => exact ⟨_, _, rfl⟩
  | value => exact ⟨_, _, rfl⟩
  | func => exact ⟨_, _, rfl⟩
  | method => exact ⟨_, _, rfl⟩
  | member _ _ _ hm _ =>
    obtain ⟨r, rfl, _⟩ := Member.extends hm
    exact ⟨_, _, rfl⟩

/-- Everything that a package declares has a path that begins with the path of the package. -/
theorem PackageDeclares.path {i : Ident} {ds : List Descriptor} {q : Nat} (h : PackageDeclares env files i ds q) :
    ∃ r, ds = ⟨env.pkgPath, .nspace⟩ :: r := by
  obtain ⟨name, decls, hf, h⟩ := h
  cases h with
  | typ h =>
    obtain ⟨tok, specs, doc, spec, hd, hs, h⟩ := h
    cases h with
    | name n tps typ d => exact ⟨_, rfl⟩
    | member hm =>
      obtain ⟨r, rfl, _⟩ := Member.extends hm
      exact ⟨_, rfl⟩
  | func hd h => cases h <;> exact ⟨_, rfl⟩
  | var hd htok h =>
    obtain ⟨r, rfl⟩ := VarDeclares.extends h
    exact ⟨_, rfl⟩

end Verif
