import Verif.Spec.Program
import Verif.Props.Normalize
import Verif.Lemmas.Traversal
/-! # Lemmas: what loading makes of a delivered program -/
namespace Verif.Program
open Verif.Index Verif.Spec Verif.Loader Verif.Loader.Spec

section
variable {D : Deps} {d : Delivered} {objs : List Obj} {env : Loader.Env} {o : Cmd.IndexOpts} {order : Nat → Nat → List Nat}
  {fuel : Nat} {l : Loaded}

theorem seen_eq (d : Delivered) : d.seen = d.graph := rfl

theorem identityOpts_eq (o : Cmd.IndexOpts) : loaderOpts o = identityOpts o := rfl

theorem asDelivered_eq (d : Delivered) (i : Nat) : asDelivered d i = packageOf d d.info i := by
  have h1 : moduleIdent (d.info i).module = (match (d.info i).module with | some m => ⟨m.path, m.version⟩ | none => ⟨[], []⟩) := by
    unfold moduleIdent; rfl
  have h2 : (fun path => ((d.imports i).get path).map fun j => (d.info j).path) = fun path => (match (d.imports i).get path with
      | some j => some (d.info j).path
      | none => none) := by
    funext path; cases (d.imports i).get path <;> rfl
  unfold asDelivered packageOf
  rw [h1, h2]
  rfl

/-- What is assumed about a load. -/
structure LoadOk (d : Delivered) (env : Loader.Env) (o : Cmd.IndexOpts) (order : Nat → Nat → List Nat) (fuel : Nat) (l : Loaded) : Prop where
  valid : ValidOrder d.graph order
  noStd : NoStdPrefix d.info
  variants : GoVariants d
  load : loadPackages env (loaderOpts o) (some (d.graph, d.info)) order fuel = some (some l)

variable (h : LoadOk d env o order fuel l)
include h

theorem LoadOk.fixed : PathsFixed (loaderOpts o) d.info := .inr h.noStd
theorem LoadOk.once : PathsOnce (loaderOpts o) d.info := .inr (.inl h.noStd)
theorem LoadOk.inv : Inv env (withVersion (loaderOpts o)) d.graph l.st [] := (load_inv h.valid h.load).1
theorem LoadOk.invC : InvC d.info d.graph l.st := load_invC h.valid h.fixed h.load

theorem LoadOk.path (i : Nat) : (l.st.pkgs i).path = (d.info i).path := h.invC.same i

theorem LoadOk.roots_met (i : Nat) (hi : i ∈ d.roots) : i ∈ l.st.met := (C44_all_variants_met h.valid h.load).1 i hi

/-- A kept package has at least as many files as any reachable package of its path. -/
theorem LoadOk.maximal {k : Str} {i j : Nat} (hk : l.st.all.get k = some (.loaded i)) (hj : Reachable d.graph j) (hp : (d.info j).path = k) :
    (d.package j).files.length ≤ (d.package i).files.length := by
  have hi := h.inv.reach i (.inl (h.inv.keptMet k i hk))
  have hik := h.invC.key k i hk
  rcases h.variants.largest i j hi hj (by rw [hik, hp]) with h1 | ⟨r, hr, hrp, h1⟩
  · exact h1
  · obtain ⟨x, hx, hf⟩ := h.invC.best h.inv (h.roots_met r hr)
    rw [hrp, hik, hk] at hx
    simp only [Option.some.injEq] at hx
    subst hx
    exact Nat.le_trans h1 hf

/-- Every reachable package is represented, by one with at least as many files. -/
theorem LoadOk.represented {j : Nat} (hj : Reachable d.graph j) : ∃ x, l.st.all.get (d.info j).path = some x ∧
    (d.package j).files.length ≤ x.files d.graph := by
  have step : ∀ i m, Reachable d.graph i → m ∈ l.st.met → (d.info m).path = (d.info i).path →
      ∃ x, l.st.all.get (d.info i).path = some x ∧ (d.package i).files.length ≤ x.files d.graph := by
    intro i m hi hm hp
    obtain ⟨x, hx, -⟩ := h.invC.best h.inv hm
    rw [hp] at hx
    refine ⟨x, hx, ?_⟩
    cases x with
    | loaded k => exact h.maximal hx hi rfl
    | builtin =>
      have hb := h.inv.builtinOnly _ hx
      rw [hb] at hx
      have h0 : ∀ k ∈ l.st.met, (d.info k).path = (d.info i).path → (d.package k).files.length = 0 := fun k hk e =>
        h.invC.builtin hx k hk (e.trans hb)
      rcases h.variants.largest m i (h.inv.reach m (.inl hm)) hi hp with h1 | ⟨r, hr, hrp, h1⟩
      · rw [h0 m hm hp] at h1; exact h1
      · rw [h0 r (h.roots_met r hr) (hrp.trans hp)] at h1; exact h1
  have hmet : ∃ m ∈ l.st.met, (d.info m).path = (d.info j).path := by
    induction hj with
    | root hr => exact ⟨_, h.roots_met _ hr, rfl⟩
    | @imported i j hi hij ih =>
      obtain ⟨m, hm, hmp⟩ := ih
      obtain ⟨x, hx, hf⟩ := step i m hi hm hmp
      cases x with
      | loaded k =>
        have hk := h.inv.reach k (.inl (h.inv.keptMet _ k hx))
        obtain ⟨b, hb, hbp⟩ := h.variants.imports_nested i k hi hk (h.invC.key _ k hx).symm hf j hij
        refine ⟨b, ?_, hbp⟩
        rcases h.inv.keptImports _ k hx b hb with h1 | h1
        · exact h1
        · simp at h1
      | builtin =>
        exfalso
        have hb := h.inv.builtinOnly _ hx
        have hf0 : (d.package i).files = [] := List.length_eq_zero_iff.1 (Nat.le_zero.1 hf)
        have := h.variants.builtin i hi hb hf0
        simp only [Delivered.graph, this] at hij
        simp at hij
  obtain ⟨m, hm, hmp⟩ := hmet
  exact step j m hj hm hmp

/-- The paths of the loaded packages are the known ones. -/
theorem LoadOk.known (q : Str) : (∃ x, l.st.all.get q = some x) ↔ PathKnown d q := by
  constructor
  · rintro ⟨x, hx⟩
    cases x with
    | builtin => exact .inl (h.inv.builtinOnly _ hx)
    | loaded i => exact .inr ⟨i, h.inv.reach i (.inl (h.inv.keptMet _ i hx)), h.invC.key _ i hx⟩
  · rintro (rfl | ⟨i, hi, rfl⟩)
    · exact GoMap.mem_keys.1 h.inv.builtinKey
    · obtain ⟨x, hx, _⟩ := h.represented hi
      exact ⟨x, hx⟩

theorem LoadOk.largest : RootsLargest d.graph d.info := by
  intro i j hi hj hp
  rcases h.variants.largest i j (.root hi) hj hp.symm with h1 | ⟨r, hr, hrp, h1⟩
  · exact ⟨i, hi, rfl, h1⟩
  · exact ⟨r, hr, hrp, h1⟩

/-- The project packages are those of the matched paths, and the same as in the set of all packages. -/
theorem LoadOk.project_get (k : Str) (x : Kept) : l.project.get k = some (some x) ↔
    (∃ r ∈ d.roots, (d.info r).path = k) ∧ l.st.all.get k = some x := by
  have hL := load_latest h.valid h.fixed h.load
  constructor
  · intro hk
    obtain ⟨i, hi, hik⟩ := (hL.keys k).1 (GoMap.mem_keys.2 ⟨_, hk⟩)
    obtain ⟨y, hy, hy'⟩ := C46_same_object_partial h.valid h.fixed h.largest h.load hk
    simp only [Option.some.injEq] at hy
    subst hy
    exact ⟨⟨i, hi, hik⟩, hy'⟩
  · rintro ⟨⟨i, hi, hik⟩, hx⟩
    obtain ⟨v, hv⟩ := GoMap.mem_keys.1 ((hL.keys k).2 ⟨i, hi, hik⟩)
    obtain ⟨y, rfl, hy'⟩ := C46_same_object_partial h.valid h.fixed h.largest h.load hv
    rw [hx] at hy'
    simp only [Option.some.injEq] at hy'
    subst hy'
    exact hv

/-! ## The maps of packages -/

theorem mem_allOf {k : Str} {p : Package} : (k, p) ∈ allOf d o l ↔ ∃ x, l.st.all.get k = some x ∧ p = keptPackage d o l.st.pkgs x := by
  unfold allOf
  rw [List.mem_map]
  constructor
  · rintro ⟨e, he, h1⟩
    simp only [Prod.mk.injEq] at h1
    obtain ⟨rfl, rfl⟩ := h1
    exact ⟨e.2, GoMap.get_of_mem h.inv.nodup he, rfl⟩
  · rintro ⟨x, hx, rfl⟩
    exact ⟨(k, x), GoMap.mem_of_get hx, rfl⟩

theorem mem_projectOf {k : Str} {p : Package} : (k, p) ∈ projectOf d o l ↔
    ∃ x, l.project.get k = some (some x) ∧ p = keptPackage d o l.st.pkgs x := by
  unfold projectOf
  rw [List.mem_filterMap]
  have hnd := (load_inv h.valid h.load).2.nodup
  constructor
  · rintro ⟨⟨k', v⟩, he, h1⟩
    cases v with
    | none => simp at h1
    | some x =>
      simp only [Option.map_some, Option.some.injEq, Prod.mk.injEq] at h1
      obtain ⟨rfl, rfl⟩ := h1
      exact ⟨x, GoMap.get_of_mem hnd he, rfl⟩
  · rintro ⟨x, hx, rfl⟩
    exact ⟨(k, some x), GoMap.mem_of_get hx, rfl⟩

theorem allOf_keys : (allOf d o l).keys = l.st.all.keys := by
  simp [allOf, GoMap.keys]

theorem projectOf_nodup : (projectOf d o l).keys.Nodup := by
  have hnd := (load_inv h.valid h.load).2.nodup
  have : (projectOf d o l).keys.Sublist l.project.keys := by
    unfold projectOf GoMap.keys
    generalize l.project = m
    induction m with
    | nil => simp
    | cons e m ih =>
      rcases e with ⟨k, _ | x⟩
      · simpa using ih.cons k
      · simpa using ih.cons_cons k
  exact this.nodup hnd

theorem kept_path {k : Str} {x : Kept} (hx : l.st.all.get k = some x) : (keptPackage d o l.st.pkgs x).path = k := by
  cases x with
  | builtin => exact (h.inv.builtinOnly _ hx).symm
  | loaded i => show (l.st.pkgs i).path = k; rw [h.path]; exact h.invC.key _ i hx

theorem known_all : (fun q => ((allOf d o l).get q).isSome) = pathKnown d := by
  classical
  funext q
  rw [Bool.eq_iff_iff]
  unfold pathKnown
  rw [decide_eq_true_iff, ← h.known q, Option.isSome_iff_exists]
  have e := allOf_keys h
  constructor
  · intro hq
    exact GoMap.mem_keys.1 (by rw [← e]; exact GoMap.mem_keys.2 hq)
  · intro hq
    exact GoMap.mem_keys.1 (by rw [e]; exact GoMap.mem_keys.2 hq)

/-- Normalising changes nothing but the modules. -/
theorem packageOf_eq (i : Nat) : packageOf d l.st.pkgs i =
    { packageOf d d.info i with env := { (packageOf d d.info i).env with module := moduleIdent (l.st.pkgs i).module } } := by
  unfold packageOf
  simp only [h.path]

end

/-! ## What was typed remains typed -/

theorem typedSource_module {D : Deps} {known : Str → Bool} {objs : List Obj} {p : Package} {f : SourceFile} (m : ModIdent)
    (h : TypedSource D known objs p f) : TypedSource D known objs { p with env := { p.env with module := m } } f := by
  have e : fileEventsIn D known { p with env := { p.env with module := m } } f = fileEventsIn D known p f :=
    traverseList_congr (env := sourceEnv D { p with env := { p.env with module := m } }) (env' := sourceEnv D p) rfl _ _
  refine ⟨⟨h.parsed.top_level, ?_⟩, h.declarations, ?_, h.imports, ?_, ?_, ?_, ?_⟩
  · exact (congrArg (fun l => ((identsOf l).map (·.uid)).Nodup) e).mpr h.parsed.distinct
  · rw [e]; exact h.looked_up
  · rw [e]; exact h.import_names
  · rw [e]; exact h.apart
  · rw [e]; exact h.declared_at
  · rw [e]; exact h.no_package_value

theorem typedPackage_module {D : Deps} {known : Str → Bool} {objs : List Obj} {p : Package} (m : ModIdent)
    (h : TypedPackage D known objs p) : TypedPackage D known objs { p with env := { p.env with module := m } } := by
  have e : ∀ f, fileEventsIn D known { p with env := { p.env with module := m } } f = fileEventsIn D known p f :=
    fun f => traverseList_congr (env := sourceEnv D { p with env := { p.env with module := m } }) (env' := sourceEnv D p) rfl _ _
  refine ⟨fun f hf => typedSource_module m (h.files f hf), h.positions, h.unquoted, ?_, h.clause_names, ?_, h.implicits⟩
  · intro f; rw [e f]; exact h.clauses f
  · intro f; rw [e f]; exact h.fileSet f

/-- Which other packages are known does not matter, as long as the same identifiers are read. -/
theorem typedPackage_known {D : Deps} {known known' : Str → Bool} {objs : List Obj} {p : Package} (h : TypedPackage D known objs p)
    (e : ∀ f, fileEventsIn D known' p f = fileEventsIn D known p f) : TypedPackage D known' objs p := by
  refine ⟨fun f hf => ?_, h.positions, h.unquoted, ?_, h.clause_names, ?_, h.implicits⟩
  · have hs := h.files f hf
    refine ⟨⟨hs.parsed.top_level, ?_⟩, hs.declarations, ?_, hs.imports, ?_, ?_, ?_, ?_⟩
    · exact (congrArg (fun l => ((identsOf l).map (·.uid)).Nodup) (e f)).mpr hs.parsed.distinct
    · rw [e]; exact hs.looked_up
    · rw [e]; exact hs.import_names
    · rw [e]; exact hs.apart
    · rw [e]; exact hs.declared_at
    · rw [e]; exact hs.no_package_value
  · intro f; rw [e f]; exact h.clauses f
  · intro f; rw [e f]; exact h.fileSet f

theorem typed_builtin (D : Deps) (known : Str → Bool) (objs : List Obj) (o : Cmd.IndexOpts) :
    TypedPackage D known objs (builtinPackage o) ∧ TypedTypes objs (builtinPackage o) := by
  refine ⟨⟨?_, ?_, ?_, ?_, ?_, ?_, ?_⟩, ⟨?_, ?_⟩⟩
  · intro f hf; simp [builtinPackage] at hf
  · intro a; exact ⟨by simp [builtinPackage], by simp [builtinPackage], by simp [builtinPackage], by simp [builtinPackage]⟩
  · rintro x (⟨u, h | h⟩ | h) <;> simp [builtinPackage] at h
  · intro f hf; simp [builtinPackage] at hf
  · intro f hf; simp [builtinPackage] at hf
  · intro f hf; simp [builtinPackage] at hf
  · intro x hx; simp [builtinPackage] at hx
  · rintro t ⟨ds, h | h, _⟩ <;> simp [builtinPackage] at h
  · intro ds h; simp [builtinPackage] at h

section
variable {D : Deps} {d : Delivered} {objs : List Obj} {env : Loader.Env} {o : Cmd.IndexOpts} {order : Nat → Nat → List Nat}
  {fuel : Nat} {l : Loaded}

/-- The project package of a key. -/
theorem LoadOk.project_cases (h : LoadOk d env o order fuel l) {k : Str} {p : Package} (hp : (k, p) ∈ projectOf d o l) :
    (k = go!"builtin" ∧ p = builtinPackage o) ∨ ∃ i, InProject d i ∧ (d.info i).path = k ∧ p = packageOf d l.st.pkgs i ∧
      l.st.all.get k = some (.loaded i) := by
  obtain ⟨x, hx, rfl⟩ := (mem_projectOf h).1 hp
  obtain ⟨⟨r, hr, hrp⟩, hx'⟩ := (h.project_get k x).1 hx
  cases x with
  | builtin => exact .inl ⟨h.inv.builtinOnly _ hx', rfl⟩
  | loaded i =>
    have hi := h.inv.reach i (.inl (h.inv.keptMet _ i hx'))
    have hik := h.invC.key _ i hx'
    exact .inr ⟨i, ⟨hi, r, hr, by rw [hrp, hik]⟩, hik, rfl, hx'⟩

/-- A nodup list of files of all packages, package by package. -/
theorem filesOf_nodup {β : Type} (g : SourceFile → β) (m : GoMap Package) (hn : m.keys.Nodup)
    (h1 : ∀ k p, (k, p) ∈ m → (p.files.map g).Nodup)
    (h2 : ∀ k p k' p', (k, p) ∈ m → (k', p') ∈ m → k ≠ k' → ∀ f ∈ p.files, ∀ f' ∈ p'.files, g f ≠ g f') :
    ((filesOf (m.map (·.2))).map (fun e => g e.2)).Nodup := by
  have e : (filesOf (m.map (·.2))).map (fun e => g e.2) = m.flatMap (fun e => e.2.files.map g) := by
    simp [filesOf, List.map_flatMap, List.flatMap_map, Function.comp_def]
  rw [e]
  unfold List.Nodup
  rw [List.pairwise_flatMap]
  refine ⟨fun a ha => h1 a.1 a.2 ha, ?_⟩
  have hn' : m.Pairwise (fun a b => a.1 ≠ b.1) := by
    unfold GoMap.keys List.Nodup at hn
    exact List.pairwise_map.1 hn
  have hm : m.Pairwise (fun a b => a ∈ m ∧ b ∈ m) := List.pairwise_of_forall_mem_list fun a ha b hb => ⟨ha, hb⟩
  refine (hn'.and hm).imp ?_
  rintro a b ⟨hne, ha, hb⟩ x hx y hy
  obtain ⟨f, hf, rfl⟩ := List.mem_map.1 hx
  obtain ⟨f', hf', rfl⟩ := List.mem_map.1 hy
  exact h2 a.1 a.2 b.1 b.2 ha hb hne f hf f' hf'

/-- A program that was delivered without errors is, after loading, one that indexing can rely on. -/
theorem LoadOk.typed (h : LoadOk d env o order fuel l) (ht : TypedProgram d D objs) :
    TypedProject D (projectOf d o l) (allOf d o l) objs where
  project_keyed := ⟨projectOf_nodup h, fun k p hp => by
    obtain ⟨x, hx, rfl⟩ := (mem_projectOf h).1 hp
    exact kept_path h ((h.project_get k x).1 hx).2⟩
  all_keyed := ⟨by rw [allOf_keys h]; exact h.inv.nodup, fun k p hp => by
    obtain ⟨x, hx, rfl⟩ := (mem_allOf h).1 hp
    exact kept_path h hx⟩
  sub := fun k p hp => by
    obtain ⟨x, hx, rfl⟩ := (mem_projectOf h).1 hp
    exact (mem_allOf h).2 ⟨x, ((h.project_get k x).1 hx).2, rfl⟩
  packages := by
    intro k p hp
    rw [known_all h]
    rcases h.project_cases hp with ⟨_, rfl⟩ | ⟨i, hi, _, rfl, _⟩
    · exact (typed_builtin D _ objs o).1
    · rw [packageOf_eq h]
      exact typedPackage_module _ (by rw [← asDelivered_eq]; exact ht.packages i hi)
  types := by
    intro k p hp
    obtain ⟨x, hx, rfl⟩ := (mem_allOf h).1 hp
    cases x with
    | builtin => exact (typed_builtin D (fun _ => false) objs o).2
    | loaded i =>
      have := ht.types i (h.inv.reach i (.inl (h.inv.keptMet _ i hx)))
      rw [asDelivered_eq] at this
      refine ⟨this.asked, ?_⟩
      show ∀ ds, (packageOf d l.st.pkgs i).scope = some ds → ∀ t, some t ∈ ds → t.obj.pkg = some (packageOf d l.st.pkgs i).path ∧ _
      rw [packageOf_eq h]
      exact this.scope
  apart := by
    refine filesOf_nodup (·.fileName) _ (projectOf_nodup h) ?_ ?_
    · intro k p hp
      rcases h.project_cases hp with ⟨_, rfl⟩ | ⟨i, hi, _, rfl, _⟩
      · simp [builtinPackage]
      · exact (ht.files_once i hi).1
    · intro k p k' p' hp hp' hne f hf f' hf'
      rcases h.project_cases hp with ⟨_, rfl⟩ | ⟨i, hi, e, rfl, _⟩
      · simp [builtinPackage] at hf
      · rcases h.project_cases hp' with ⟨_, rfl⟩ | ⟨j, hj, e', rfl, _⟩
        · simp [builtinPackage] at hf'
        · exact (ht.files_apart i j hi hj (by rw [e, e']; exact hne) f hf f' hf').1
  files_apart := by
    refine filesOf_nodup (·.file) _ (projectOf_nodup h) ?_ ?_
    · intro k p hp
      rcases h.project_cases hp with ⟨_, rfl⟩ | ⟨i, hi, _, rfl, _⟩
      · simp [builtinPackage]
      · exact (ht.files_once i hi).2
    · intro k p k' p' hp hp' hne f hf f' hf'
      rcases h.project_cases hp with ⟨_, rfl⟩ | ⟨i, hi, e, rfl, _⟩
      · simp [builtinPackage] at hf
      · rcases h.project_cases hp' with ⟨_, rfl⟩ | ⟨j, hj, e', rfl, _⟩
        · simp [builtinPackage] at hf'
        · exact (ht.files_apart i j hi hj (by rw [e, e']; exact hne) f hf f' hf').2
  coherent := ht.coherent
  wellFormed := ht.wellFormed

end

end Verif.Program
