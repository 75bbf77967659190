import Verif.Props.Implementations
/-! # A concrete program for C30-C36

Package `m/p` declares `I interface{ m() }`, `S` with method `m`, `J interface{ M() }`; package `m/q` declares `T struct{ p.S }`
with a method `M` on `*T`; the dependency `d` exports type `R` with method `M` and `K interface{ M() }`.
-/
namespace Verif
open Spec Impl

/-- The described types of a list of packages, computed. -/
def describedList (scopes : Scopes) (g : Global) (b : Bool) (ps : List Pkg) : List (NamedT × SymRef × Str) :=
  ps.flatMap fun p =>
    if p.name = go!"builtin" then [] else
    match p.defs with
    | some ds => match g.symbols.lookup p.path with
      | none => []
      | some r => ds.flatMap fun d => match d with
        | none => []
        | some d => if p.scope.isSome ∧ ¬ d.pkgLevel then [] else match d.named, r.table.get d.obj.pos with
          | some t, some i => [(t, ⟨.entry p.path d.obj.pos, i.symbol⟩, p.path)]
          | _, _ => []
    | none => match p.scope with
      | none => []
      | some ds => ds.flatMap fun d => match d with
        | none => []
        | some d => if ¬ isExported d.obj.name then [] else match d.named with
          | none => []
          | some t =>
            let sym := (g.composer.compose scopes (some p.module) (some (.plain d.obj))).2
            if sym = [] then [] else [(t, ⟨.type b sym, sym⟩, p.path)]

theorem mem_describedList {scopes g b ps t s p} (h : Described scopes g b ps t s p) : (t, s, p) ∈ describedList scopes g b ps := by
  cases h with
  | source h1 h2 h3 h4 h5 h6 h7 h8 =>
    rename_i p ds d r i
    refine List.mem_flatMap.2 ⟨p, h1, ?_⟩
    rw [if_neg h2, h3]
    simp only [h7]
    refine List.mem_flatMap.2 ⟨some d, h4, ?_⟩
    simp only
    rw [if_neg]
    · simp [h6, h8]
    · rintro ⟨h, h'⟩; exact h' (h5 h)
  | exported h1 h2 h3 h4 h5 h6 h7 h8 h9 =>
    rename_i p ds d sym
    refine List.mem_flatMap.2 ⟨p, h1, ?_⟩
    rw [if_neg h2, h3]
    simp only [h4]
    refine List.mem_flatMap.2 ⟨some d, h5, ?_⟩
    simp only
    rw [if_neg (by simp [(isExported_iff _).2 h6])]
    simp [h7, h8, h9]

/-- The description of a method, computed. -/
def methodSymRef (scopes : Scopes) (g : Global) (b : Bool) (sym : Str) (m : Method) : Option SymRef :=
  match (g.getSymbolOfObject scopes m.obj).2 with
  | .info i => some ⟨methodRef b sym g m, i.symbol⟩
  | _ => none

theorem methodDescribed_iff {scopes g b sym m s} : MethodDescribed scopes g b sym m s ↔ methodSymRef scopes g b sym m = some s := by
  unfold MethodDescribed methodSymRef
  constructor
  · rintro ⟨i, hi, hs, hr⟩
    rw [hi]
    obtain ⟨ref, sy⟩ := s
    simp only at hs hr
    subst hs
    simp only [Option.some.injEq, SymRef.mk.injEq, and_true]
    unfold methodRef
    rcases hr with ⟨c, h1, h2⟩ | ⟨h1, h2⟩ <;> simp [h1, h2]
  · intro h
    split at h
    · rename_i i hi
      simp only [Option.some.injEq] at h
      subst h
      refine ⟨i, hi, rfl, ?_⟩
      unfold methodRef
      cases ht : tableOf g m.obj with
      | none => exact .inr ⟨rfl, rfl⟩
      | some c => exact .inl ⟨c, rfl, rfl⟩
    · simp at h

theorem eq_of_nodup_map {α β : Type} {l : List α} {f : α → β} (h : (l.map f).Nodup) {a b : α} (ha : a ∈ l) (hb : b ∈ l)
    (e : f a = f b) : a = b := by
  induction l with
  | nil => simp at ha
  | cons x l ih =>
    simp only [List.map_cons, List.nodup_cons] at h
    rcases List.mem_cons.1 ha with ea | ha <;> rcases List.mem_cons.1 hb with eb | hb
    · rw [ea, eb]
    · exact absurd (List.mem_map.2 ⟨b, hb, by rw [← e, ea]⟩) h.1
    · exact absurd (List.mem_map.2 ⟨a, ha, by rw [e, eb]⟩) h.1
    · exact ih h.2 ha hb

theorem symbolsDistinct_of {scopes g b ps} (h : ((describedList scopes g b ps).map (·.2.1.sym)).Nodup) :
    SymbolsDistinct scopes g b ps := by
  intro t s p t' s' p' h1 h2 e
  have := eq_of_nodup_map h (mem_describedList h1) (mem_describedList h2) e
  simpa using this

/-- Types of both sides with their side. -/
def bothSides (scopes : Scopes) (g : Global) (pkgs all : List Pkg) : List (Bool × NamedT × SymRef × Str) :=
  (describedList scopes g true pkgs).map (fun x => (true, x)) ++
  (describedList scopes g false (remotePackages pkgs all)).map (fun x => (false, x))

theorem mem_bothSides {scopes g pkgs all b t s p} (h : Described scopes g b (side pkgs all b) t s p) :
    (b, t, s, p) ∈ bothSides scopes g pkgs all := by
  cases b with
  | true => exact List.mem_append_left _ (List.mem_map.2 ⟨_, mem_describedList h, rfl⟩)
  | false => exact List.mem_append_right _ (List.mem_map.2 ⟨_, mem_describedList h, rfl⟩)

theorem descriptionsDistinct_of {scopes g pkgs all}
    (h : ((bothSides scopes g pkgs all).map (·.2.2.1.ref)).Nodup)
    (h' : (bothSides scopes g pkgs all).all (fun x => (bothSides scopes g pkgs all).all (fun y => y.2.1.methods.all (fun n =>
      match methodSymRef scopes g y.1 y.2.2.1.sym n with
      | none => true
      | some sn => decide (x.2.2.1.ref ≠ sn.ref)))) = true) : DescriptionsDistinct scopes g pkgs all where
  types := by
    intro b t s p b' t' s' p' h1 h2 e
    have := eq_of_nodup_map h (mem_bothSides h1) (mem_bothSides h2) e
    simpa using this
  methods := by
    intro b t s p b' t' s' p' n sn h1 h2 hn hm
    have := List.all_eq_true.1 (List.all_eq_true.1 (List.all_eq_true.1 h' _ (mem_bothSides h1)) _ (mem_bothSides h2)) n hn
    rw [methodDescribed_iff.1 hm] at this
    simpa using this

namespace ImplSample

def fnSig : Fp.Ty := .sig .nil false .nil
def meth (id : Nat) (name path : Str) (recv : Str) (pos : Nat) (iface value : Bool) : Method :=
  ⟨.plain ⟨id, .func (some (some (.named recv iface))), name, some path, pos⟩, fnSig, value⟩

def mI : Method := meth 1 go!"m" go!"m/p" go!"I" 12 true true
def mS : Method := meth 2 go!"m" go!"m/p" go!"S" 25 false true
def mJ : Method := meth 3 go!"M" go!"m/p" go!"J" 32 true true
def mT : Method := meth 4 go!"M" go!"m/q" go!"T" 20 false false
def mR : Method := meth 5 go!"M" go!"d" go!"R" 0 false true
def mK : Method := meth 6 go!"M" go!"d" go!"K" 0 true true

def tI : NamedT := ⟨1, true, [mI]⟩
def tS : NamedT := ⟨2, false, [mS]⟩
def tJ : NamedT := ⟨3, true, [mJ]⟩
def tT : NamedT := ⟨4, false, [mT, mS]⟩
def tR : NamedT := ⟨5, false, [mR]⟩
def tK : NamedT := ⟨6, true, [mK]⟩

def td (id : Nat) (name path : Str) (pos : Nat) (t : NamedT) : Option TypeDef :=
  some ⟨⟨id, .typeName (.named (if t.isIface then .iface else .struct [])), name, some path, pos⟩, true, some t⟩

def pkgP : Pkg := ⟨go!"m/p", go!"p", some ⟨go!"m", go!"v1"⟩,
  some [td 11 go!"I" go!"m/p" 10 tI, none, td 12 go!"S" go!"m/p" 20 tS, td 13 go!"J" go!"m/p" 30 tJ], some []⟩
def pkgQ : Pkg := ⟨go!"m/q", go!"q", some ⟨go!"m", go!"v1"⟩, some [none, td 14 go!"T" go!"m/q" 10 tT], some []⟩
def pkgD : Pkg := ⟨go!"d", go!"d", some ⟨go!"d", go!"v2"⟩, none, some [td 15 go!"K" go!"d" 0 tK, td 16 go!"R" go!"d" 0 tR]⟩
def pkgs : List Pkg := [pkgP, pkgQ]
def all : List Pkg := [pkgD, pkgP, pkgQ]

def info (s : Str) : SymInfo := ⟨s, .type, [], [], none⟩
def g : Global :=
  { symbols := [(go!"m/p", ⟨some ⟨go!"m", go!"v1"⟩, [(10, info go!"I#"), (12, info go!"I#m."), (20, info go!"S#"), (25, info go!"S#m()."),
      (30, info go!"J#"), (32, info go!"J#M.")]⟩),
      (go!"m/q", ⟨some ⟨go!"m", go!"v1"⟩, [(10, info go!"T#"), (20, info go!"T#M().")]⟩),
      (go!"d", ⟨some ⟨go!"d", go!"v2"⟩, []⟩)]
    pkgSymbols := [], composer := newComposer go!"m" go!"v1", skipped := [] }

def E : Ext := ⟨sampleLex, fun s => BitVec.ofNat 32 (s.length * 2654435761), fun _ _ _ => true⟩
def scopes : Scopes := fun _ => []

/-- Maps are enumerated as they are. -/
def visits (cs ifs : List (Str × ImplDef)) : List TypeVisit :=
  cs.map (fun c => ⟨c.2, ifs.map (fun i => ⟨i.2, i.2.methods⟩), c.2.methods⟩)
def orders (loc rem : State) : Orders :=
  ⟨visits loc.concretes loc.ifaces, visits loc.concretes rem.ifaces, visits rem.concretes loc.ifaces, rem.concretes.map (·.2)⟩

/-- And in the opposite order. -/
def visits' (cs ifs : List (Str × ImplDef)) : List TypeVisit :=
  cs.reverse.map (fun c => ⟨c.2, ifs.reverse.map (fun i => ⟨i.2, i.2.methods.reverse⟩), c.2.methods.reverse⟩)
def orders' (loc rem : State) : Orders :=
  ⟨visits' loc.concretes loc.ifaces, visits' loc.concretes rem.ifaces, visits' rem.concretes loc.ifaces,
    rem.concretes.reverse.map (·.2)⟩

theorem visits_ok (cs ifs : List (Str × ImplDef)) : Enumerates cs ifs (visits cs ifs) := by
  refine ⟨by simp [visits, Function.comp_def], ?_⟩
  intro v hv
  obtain ⟨c, hc, rfl⟩ := List.mem_map.1 hv
  refine ⟨by simp [Function.comp_def], List.Perm.refl _, ?_⟩
  intro w hw
  obtain ⟨i, hi, rfl⟩ := List.mem_map.1 hw
  exact List.Perm.refl _

theorem visits'_ok (cs ifs : List (Str × ImplDef)) : Enumerates cs ifs (visits' cs ifs) := by
  refine ⟨?_, ?_⟩
  · simp only [visits', List.map_map, Function.comp_def]
    exact (List.reverse_perm cs).map _
  intro v hv
  obtain ⟨c, hc, rfl⟩ := List.mem_map.1 hv
  refine ⟨?_, List.reverse_perm _, ?_⟩
  · simp only [List.map_map, Function.comp_def]
    exact (List.reverse_perm ifs).map _
  intro w hw
  obtain ⟨i, hi, rfl⟩ := List.mem_map.1 hw
  exact List.reverse_perm _

theorem orders_ok : ValidOrders orders := fun _ _ => ⟨visits_ok _ _, visits_ok _ _, visits_ok _ _, List.Perm.refl _⟩
theorem orders'_ok : ValidOrders orders' := fun _ _ => ⟨visits'_ok _ _, visits'_ok _ _, visits'_ok _ _, (List.reverse_perm _).map _⟩

theorem consistent : Consistent g all where
  fresh := ⟨rfl, rfl⟩
  coherent := by
    have : ∀ o₁ ∈ askedObjs all, ∀ o₂ ∈ askedObjs all, (entityOf o₁).id = (entityOf o₂).id → entityOf o₁ = entityOf o₂ ∧ o₁.self.pkg = o₂.self.pkg := by
      decide +kernel
    exact this
  wellFormed := by
    have h1 : ∀ o ∈ askedObjs all, '.' ∉ o.self.name := by decide +kernel
    have h2 : ∀ o ∈ askedObjs all, o.self.pkg ≠ none ∧ o.self.pkg ≠ some [] ∧ o.self.pkg ≠ some go!"_" := by decide +kernel
    intro o ho
    obtain ⟨a, b, c⟩ := h2 o ho
    exact ⟨h1 o ho, fun p hp => ⟨fun e => b (by rw [hp, e]), fun e => c (by rw [hp, e])⟩, fun h => absurd h a, fun h => absurd h a⟩
  funcs := by
    intro n hn m hm
    have : ∀ n ∈ methodSets all, ∀ m ∈ n.methods, ∃ r, m.obj.self.cls = .func (some (some r)) := by
      intro n hn m hm
      simp [methodSets, all, pkgD, pkgP, pkgQ, td] at hn
      rcases hn with rfl | rfl | rfl | rfl | rfl | rfl <;>
        simp [tK, tR, tI, tS, tJ, tT] at hm <;> first | (subst hm; exact ⟨_, rfl⟩) | (rcases hm with rfl | rfl <;> exact ⟨_, rfl⟩)
    obtain ⟨r, hr⟩ := this n hn m hm
    exact ⟨_, hr⟩
  oneMethod := by
    intro n hn
    simp [methodSets, all, pkgD, pkgP, pkgQ, td] at hn
    rcases hn with rfl | rfl | rfl | rfl | rfl | rfl <;> decide +kernel
  scopeTypes := by
    intro p hp ds hds d hd
    simp only [all, List.mem_cons, List.not_mem_nil, or_false] at hp
    rcases hp with rfl | rfl | rfl
    · simp only [pkgD, Option.some.injEq] at hds
      subst hds
      simp only [td, List.mem_cons, List.not_mem_nil, or_false, Option.some.injEq] at hd
      rcases hd with rfl | rfl <;> rfl
    · simp only [pkgP, Option.some.injEq] at hds; subst hds; simp at hd
    · simp only [pkgQ, Option.some.injEq] at hds; subst hds; simp at hd
  modules := by
    intro p hp r hr
    simp only [all, List.mem_cons, List.not_mem_nil, or_false] at hp
    rcases hp with rfl | rfl | rfl
    · have h : some (⟨some ⟨go!"d", go!"v2"⟩, []⟩ : PkgRecord) = some r := hr
      cases h; rfl
    · have h : some (_ : PkgRecord) = some r := hr
      cases h; rfl
    · have h : some (_ : PkgRecord) = some r := hr
      cases h; rfl
  registered := by
    intro p hp
    simp only [all, List.mem_cons, List.not_mem_nil, or_false] at hp
    rcases hp with rfl | rfl | rfl <;> exact ⟨_, rfl⟩

theorem sub : ∀ p ∈ pkgs, p ∈ all := by
  intro p hp
  simp only [pkgs, all, List.mem_cons, List.not_mem_nil, or_false] at hp ⊢
  rcases hp with rfl | rfl <;> simp

theorem distinct : ∀ b, SymbolsDistinct scopes g b (side pkgs all b) := by
  intro b
  cases b
  · exact symbolsDistinct_of (by decide +kernel)
  · exact symbolsDistinct_of (by decide +kernel)

theorem descriptions : DescriptionsDistinct scopes g pkgs all :=
  descriptionsDistinct_of (by decide +kernel) (by decide +kernel)

theorem valid : ValidSignatures E all := by
  intro n hn m hm
  simp [methodSets, all, pkgD, pkgP, pkgQ, td] at hn
  rcases hn with rfl | rfl | rfl | rfl | rfl | rfl <;> simp [tK, tR, tI, tS, tJ, tT] at hm <;>
    first
    | (subst hm; simp [mK, mR, mI, mS, mJ, meth, fnSig, Fp.Spec.Valid, Fp.Spec.ValidEach])
    | (rcases hm with rfl | rfl <;> simp [mT, mS, meth, fnSig, Fp.Spec.Valid, Fp.Spec.ValidEach])

/-- The result of the pass: `T` is related to `J` and `K` but not to `I`, `S` to `I`, methods accordingly, and `R` is emitted as
an external symbol related to `J`. -/
example : (addImplementations E scopes g (fun _ => []) pkgs all orders).map (fun r =>
    [r.heap (.entry go!"m/q" 10), r.heap (.entry go!"m/q" 20), r.heap (.entry go!"m/p" 20), r.heap (.entry go!"m/p" 25)]) =
    some [[go!"J#", go!"scip-go gomod d v2 d/K#"], [go!"J#M.", go!"scip-go gomod d v2 d/K#M()."], [go!"I#"], [go!"I#m."]] := by
  decide +kernel
example : (addImplementations E scopes g (fun _ => []) pkgs all orders).map (fun r => r.external) =
    some [⟨.type false go!"scip-go gomod d v2 d/R#", go!"scip-go gomod d v2 d/R#"⟩] := by
  decide +kernel
example : (addImplementations E scopes g (fun _ => []) pkgs all orders).map (fun r => r.external.map (fun s => r.heap s.ref)) =
    some [[go!"J#"]] := by
  decide +kernel
example : (addImplementations E scopes g (fun _ => []) pkgs all orders).map (fun r => (r.total, r.count)) =
    some (5, 5) := by
  decide +kernel

/-- `T` implements `I`, by the method promoted from `S`. -/
theorem T_implements_I : ImplementsSome E tT tI := by
  left
  refine ⟨rfl, ?_⟩
  intro m hm
  simp only [tI, List.mem_cons, List.not_mem_nil, or_false] at hm
  subst hm
  refine ⟨mS, by simp [tT], .inr rfl, by decide +kernel, ?_⟩
  exact Fp.identical_sound _ _ (by decide +kernel)

theorem T_described : Described scopes g true pkgs tT ⟨.entry go!"m/q" 10, go!"T#"⟩ go!"m/q" :=
  Described.source (scopes := scopes) (g := g) (project := true) (ps := pkgs) (i := info go!"T#") (p := pkgQ) (d := ⟨⟨14, .typeName (.named (.struct [])), go!"T", some go!"m/q", 10⟩, true, some tT⟩)
    (ds := [none, td 14 go!"T" go!"m/q" 10 tT]) (List.mem_cons_of_mem _ (List.mem_cons_self ..)) (by decide) rfl
    (List.mem_cons_of_mem _ (List.mem_cons_self ..)) (fun _ => rfl) rfl rfl rfl

theorem I_described : Described scopes g true pkgs tI ⟨.entry go!"m/p" 10, go!"I#"⟩ go!"m/p" :=
  Described.source (scopes := scopes) (g := g) (project := true) (ps := pkgs) (i := info go!"I#") (p := pkgP) (d := ⟨⟨11, .typeName (.named .iface), go!"I", some go!"m/p", 10⟩, true, some tI⟩)
    (ds := [td 11 go!"I" go!"m/p" 10 tI, none, td 12 go!"S" go!"m/p" 20 tS, td 13 go!"J" go!"m/p" 30 tJ])
    (List.mem_cons_self ..) (by decide) rfl (List.mem_cons_self ..) (fun _ => rfl) rfl rfl rfl

theorem J_described : Described scopes g true pkgs tJ ⟨.entry go!"m/p" 30, go!"J#"⟩ go!"m/p" :=
  Described.source (scopes := scopes) (g := g) (project := true) (ps := pkgs) (i := info go!"J#") (p := pkgP) (d := ⟨⟨13, .typeName (.named .iface), go!"J", some go!"m/p", 30⟩, true, some tJ⟩)
    (ds := [td 11 go!"I" go!"m/p" 10 tI, none, td 12 go!"S" go!"m/p" 20 tS, td 13 go!"J" go!"m/p" 30 tJ])
    (List.mem_cons_self ..) (by decide) rfl
    (List.mem_cons_of_mem _ (List.mem_cons_of_mem _ (List.mem_cons_of_mem _ (List.mem_cons_self ..)))) (fun _ => rfl) rfl rfl rfl

/-- All hypotheses of the theorems are met; in particular the lost implementation is a real one. -/
example : ∃ r, addImplementations E scopes g (fun _ => []) pkgs all orders = some r ∧ r.count = r.total ∧
    ImplementsSome E tT tI ∧ go!"I#" ∉ r.heap (.entry go!"m/q" 10) ∧ go!"J#" ∈ r.heap (.entry go!"m/q" 10) := by
  obtain ⟨r, hr⟩ := C33_never_crashes E sampleLex_ok scopes g (fun _ => []) pkgs all orders consistent sub valid
  refine ⟨r, hr, C36_counter_reaches_total consistent sub orders_ok hr, T_implements_I, ?_, ?_⟩
  · refine C32_embedding_across_packages_lost consistent sub orders_ok distinct descriptions (fun _ => rfl) hr T_described
      I_described ?_ (by decide) ?_
    · intro h; exact absurd (h mI (by simp [tI])) (by decide)
    · intro i' s' p' hd
      have := mem_describedList hd
      have hk : ∀ x ∈ describedList scopes g false (remotePackages pkgs all), x.2.1.sym ≠ go!"I#" := by decide +kernel
      exact hk _ this
  · refine (C32_every_implementation_partial (b' := true) consistent sub orders_ok distinct hr T_described rfl J_described rfl (by simp [tJ]) ?_ (.inl ?_)).1
    · right
      refine ⟨rfl, ?_⟩
      intro m hm
      simp only [tJ, List.mem_cons, List.not_mem_nil, or_false] at hm
      subst hm
      exact ⟨mT, by simp [tT], .inl rfl, by decide +kernel, Fp.identical_sound _ _ (by decide +kernel)⟩
    · intro m hm
      simp only [tJ, List.mem_cons, List.not_mem_nil, or_false] at hm
      subst hm
      decide

/-- Another listing of the same packages. -/
example : SameListing pkgs [pkgQ, { pkgP with defs := pkgP.defs.map List.reverse }] := by
  have h : SamePackage pkgP { pkgP with defs := pkgP.defs.map List.reverse } := .mk (List.reverse_perm _).symm
  refine ⟨?_, ?_⟩
  · intro p hp
    simp only [pkgs, List.mem_cons, List.not_mem_nil, or_false] at hp
    rcases hp with rfl | rfl
    · exact ⟨_, by simp, h⟩
    · exact ⟨pkgQ, by simp, .refl⟩
  · intro p hp
    simp only [List.mem_cons, List.not_mem_nil, or_false] at hp
    rcases hp with rfl | rfl
    · exact ⟨pkgQ, by simp [pkgs], .refl⟩
    · exact ⟨pkgP, by simp [pkgs], h⟩

end ImplSample
end Verif
