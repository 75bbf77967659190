import Verif.Lemmas.Program
import Verif.Props.Identity
import Verif.Props.SymbolsRun
/-! # C82, C83, C84: from the delivered program to the messages of the index -/
namespace Verif
open Spec Index Program Loader Loader.Spec

section
variable {D : Deps} {answer : Query → Except Str Delivered} {env : Loader.Env} {order : Nat → Nat → List Nat} {fuel : Nat} {ord : MapOrders}
  {o : Cmd.IndexOpts} {w : Writer} {d : Delivered} {objs : List Obj} {r : Run}

theorem query_eq (o : Cmd.IndexOpts) : query o.moduleRoot o =
    ⟨o.moduleRoot, !o.skipTests, if o.packagePatterns = [] then [go!"./..."] else o.packagePatterns⟩ := by
  unfold query
  cases o.packagePatterns <;> simp

/-- How a run of the whole program goes on after loading. -/
theorem indexing_cases (hg : GoProgram d answer order o) (hr : indexing D answer env order fuel ord o w = some r) :
    (r = index D (indexOpts o) ord w (.error panicText) ∧
      loadPackages env (loaderOpts o) (some (d.graph, d.info)) order fuel = some none) ∨
    ∃ l, LoadOk d env o order fuel l ∧ r = index D (indexOpts o) ord w (.ok (projectOf d o l, allOf d o l)) := by
  unfold indexing load at hr
  rw [query_eq, hg.answer] at hr
  simp only at hr
  split at hr
  · simp at hr
  · rename_i h
    simp only [Option.map_some, Option.some.injEq] at hr
    exact .inl ⟨hr.symm, h⟩
  · rename_i l h
    simp only [Option.map_some, Option.some.injEq] at hr
    exact .inr ⟨l, ⟨hg.order, hg.paths, hg.variants, h⟩, hr.symm⟩

theorem failed_load (D : Deps) (io : Index.Opts) (ord : MapOrders) (w : Writer) (e : Str) :
    (index D io ord w (.error e)).messages = [.metadata (metadata D io)] ∧
    ∃ e', (index D io ord w (.error e)).outcome = .failed e' ∧ (e' = e ∨ w [] (.metadata (metadata D io)) = some e') := by
  unfold index
  simp only
  cases h : w [] (.metadata (metadata D io)) with
  | some e' => exact ⟨rfl, e', rfl, .inr rfl⟩
  | none => exact ⟨rfl, e, rfl, .inl rfl⟩

/-- A successful run has loaded the program. -/
theorem indexing_ok (hg : GoProgram d answer order o) (hr : indexing D answer env order fuel ord o w = some r) (hok : r.outcome = .ok) :
    ∃ l, LoadOk d env o order fuel l ∧ r = index D (indexOpts o) ord w (.ok (projectOf d o l, allOf d o l)) := by
  rcases indexing_cases hg hr with ⟨rfl, _⟩ | h
  · obtain ⟨_, e, he, _⟩ := failed_load D (indexOpts o) ord w panicText
    rw [he] at hok; simp at hok
  · exact h

/-- The names of the files of the project. -/
theorem project_file_names {l : Loaded} (h : LoadOk d env o order fuel l) (n : Str) :
    (∃ k p, (k, p) ∈ projectOf d o l ∧ ∃ f ∈ p.files, f.fileName = n) ↔ ∃ i ∈ d.roots, n ∈ fileNames d i := by
  constructor
  · rintro ⟨k, p, hp, f, hf, rfl⟩
    rcases h.project_cases hp with ⟨_, rfl⟩ | ⟨i, ⟨hi, r, hr, hrp⟩, hik, rfl, hget⟩
    · simp [builtinPackage] at hf
    · have hf' : f ∈ (d.package i).files := hf
      obtain ⟨r', hr', hrp', hle⟩ := h.largest r i hr hi hrp.symm
      refine ⟨r', hr', ?_⟩
      exact h.variants.files_nested i r' hi (.root hr') (by rw [hrp', hrp]) hle _ (List.mem_map.2 ⟨f, hf', rfl⟩)
  · rintro ⟨i, hi, hn⟩
    obtain ⟨x, hx, hrest⟩ := h.represented (.root hi)
    have hproj := (h.project_get _ x).2 ⟨⟨i, hi, rfl⟩, hx⟩
    refine ⟨_, _, (mem_projectOf h).2 ⟨x, hproj, rfl⟩, ?_⟩
    cases x with
    | builtin =>
      exfalso
      obtain ⟨f, hf, rfl⟩ := List.mem_map.1 hn
      have hlen : (d.package i).files = [] := List.length_eq_zero_iff.1 (Nat.le_zero.1 hrest)
      rw [hlen] at hf
      simp at hf
    | loaded j =>
      have hj := h.inv.reach j (.inl (h.inv.keptMet _ j hx))
      obtain ⟨f, hf, hfn⟩ := List.mem_map.1 (h.variants.files_nested i j (.root hi) hj (h.invC.key _ j hx).symm hrest n hn)
      exact ⟨f, hf, hfn⟩

end

/-- **C82.** A successful run writes exactly one document for every source file of every package that the patterns matched (in whatever
variant of the package the file occurs) and no other document: the paths of the documents are, in order, the names of these files
relative to the module root. -/
theorem C82_every_file_indexed (D : Deps) (answer : Query → Except Str Delivered) (env : Loader.Env) (order : Nat → Nat → List Nat)
    (fuel : Nat) (ord : MapOrders) (o : Cmd.IndexOpts) (w : Writer) (d : Delivered) (objs : List Obj) (hg : GoProgram d answer order o)
    (ht : TypedProgram d D objs) (r : Run) (hr : indexing D answer env order fuel ord o w = some r) (hok : r.outcome = .ok) :
    ∃ names : List Str, names.Nodup ∧ (∀ n, n ∈ names ↔ ∃ i ∈ d.roots, n ∈ fileNames d i) ∧
      documentPaths r.messages = names.map (fun n => (Filepath.rel o.moduleRoot n).getD []) := by
  obtain ⟨l, hl, rfl⟩ := indexing_ok hg hr hok
  have htp := hl.typed ht
  obtain ⟨ps, hps, _, hdocs⟩ := C51_one_document_per_file D (indexOpts o) ord w _ _ htp.project_keyed hok
  refine ⟨(filesOf ps).map (·.2.fileName), ?_, ?_, ?_⟩
  · have hperm : ((filesOf ps).map (·.2.fileName)).Perm ((filesOf ((projectOf d o l).map (·.2))).map (·.2.fileName)) := by
      apply List.Perm.map
      unfold filesOf
      exact hps.flatMap_right _
    exact hperm.nodup_iff.2 htp.apart
  · intro n
    rw [← project_file_names hl n]
    constructor
    · intro hn
      obtain ⟨e, he, rfl⟩ := List.mem_map.1 hn
      unfold filesOf at he
      obtain ⟨p, hp, he⟩ := List.mem_flatMap.1 he
      obtain ⟨f, hf, rfl⟩ := List.mem_map.1 he
      obtain ⟨⟨k, p'⟩, hk, rfl⟩ := List.mem_map.1 (hps.subset hp)
      exact ⟨k, p', hk, f, hf, rfl⟩
    · rintro ⟨k, p, hp, f, hf, rfl⟩
      refine List.mem_map.2 ⟨(p, f), List.mem_flatMap.2 ⟨p, hps.symm.subset (List.mem_map.2 ⟨_, hp, rfl⟩), List.mem_map.2 ⟨f, hf, rfl⟩⟩, rfl⟩
  · rw [hdocs]
    simp [filesOf, List.map_flatMap, Function.comp_def, indexOpts]

/-- The signatures of the methods of all delivered types are types of a checked program. -/
def Spec.SignedProgram (d : Delivered) (D : Deps) : Prop :=
  Fp.Spec.LexOk D.ext.lex ∧ ∀ i, Reachable d.graph i → ∀ t : Impl.TypeDef,
    (∃ ds, ((d.package i).defs = some ds ∨ (d.package i).scope = some ds) ∧ some t ∈ ds) →
    ∀ n, t.named = some n → ∀ m ∈ n.methods, Fp.Spec.Valid D.ext.lex m.sig

theorem extractorOk_of {D : Deps} {d : Delivered} {env : Loader.Env} {o : Cmd.IndexOpts} {order : Nat → Nat → List Nat} {fuel : Nat}
    {l : Loaded} (h : LoadOk d env o order fuel l) (hs : SignedProgram d D) : ExtractorOk D (allOf d o l) := by
  refine ⟨hs.1, ?_⟩
  intro k p hp t ht
  obtain ⟨x, hx, rfl⟩ := (mem_allOf h).1 hp
  cases x with
  | builtin => obtain ⟨ds, h1 | h1, _⟩ := ht <;> simp [keptPackage, builtinPackage] at h1
  | loaded i => exact hs.2 i (h.inv.reach i (.inl (h.inv.keptMet _ i hx))) t ht

theorem localStep_some {env : Loader.Env} (hb : ∀ f, env.readMod f ≠ .broken) (m : ModBase) : ∃ m', localStep env m = some m' := by
  unfold localStep
  split
  · split
    · exact ⟨_, rfl⟩
    · rename_i h; exact absurd h (hb _)
    · exact ⟨_, rfl⟩
  · exact ⟨_, rfl⟩

theorem normalize_some {env : Loader.Env} (hb : ∀ f, env.readMod f ≠ .broken) (opts : Loader.Opts) (p : PkgSt) :
    ∃ q, normalize env opts p = some q := by
  cases hn : normalize env opts p with
  | some q => exact ⟨q, rfl⟩
  | none =>
    exfalso
    unfold normalize at hn
    split at hn
    · simp at hn
    · simp only [Option.map_eq_none_iff] at hn
      obtain ⟨m', hm'⟩ := localStep_some hb (replaceStep opts (standardStep opts p).2)
      rw [hm'] at hn
      simp at hn

theorem collect_some {env : Loader.Env} (hb : ∀ f, env.readMod f ≠ .broken) (opts : Loader.Opts) (g : Graph) (order : Nat → Nat → List Nat) :
    ∀ (fuel : Nat) (st : St) (q : List Nat), collect env opts g order fuel st q ≠ some none := by
  intro fuel
  induction fuel with
  | zero => intro st q; cases q <;> simp [collect]
  | succ n ih =>
    intro st q
    cases q with
    | nil => simp [collect]
    | cons i rest =>
      unfold collect
      simp only
      split
      · exact ih _ _
      · obtain ⟨p, hp⟩ := normalize_some hb opts (st.pkgs i)
        split
        · rename_i h; rw [hp] at h; simp at h
        · exact ih _ _

theorem collectRoots_some {env : Loader.Env} (hb : ∀ f, env.readMod f ≠ .broken) (opts : Loader.Opts) (g : Graph) (order : Nat → Nat → List Nat)
    (fuel : Nat) : ∀ (rs : List Nat) (st : St) (pr : GoMap (Option Kept)), collectRoots env opts g order fuel st pr rs ≠ some none := by
  intro rs
  induction rs with
  | nil => intro st pr; simp [collectRoots]
  | cons i rs ih =>
    intro st pr
    unfold collectRoots
    split
    · simp
    · rename_i h; exact absurd h (collect_some hb opts g order fuel st [i])
    · exact ih _ _

/-- **C82.** The run ends normally: it never crashes; if in addition no write fails and no go.mod file that has to be read is broken, it
succeeds. -/
theorem C82_never_crashes (D : Deps) (answer : Query → Except Str Delivered) (env : Loader.Env) (order : Nat → Nat → List Nat)
    (fuel : Nat) (ord : MapOrders) (o : Cmd.IndexOpts) (w : Writer) (d : Delivered) (objs : List Obj) (hg : GoProgram d answer order o)
    (ht : TypedProgram d D objs) (hs : SignedProgram d D) (hv : ValidMapOrders ord) (r : Run)
    (hr : indexing D answer env order fuel ord o w = some r) :
    r.outcome ≠ .crash ∧ ((∀ a m, w a m = none) → (∀ f, env.readMod f ≠ .broken) → r.outcome = .ok) := by
  rcases indexing_cases hg hr with ⟨rfl, hl⟩ | ⟨l, hl, rfl⟩
  · obtain ⟨_, e, he, _⟩ := failed_load D (indexOpts o) ord w panicText
    refine ⟨by rw [he]; simp, ?_⟩
    intro _ hb
    exfalso
    unfold loadPackages at hl
    simp only at hl
    split at hl
    · simp at hl
    · rename_i h; exact collectRoots_some hb _ _ _ _ _ _ _ h
    · simp at hl
  · obtain ⟨h1, h2⟩ := C74_never_crashes D (indexOpts o) ord w _ _ objs (hl.typed ht) (extractorOk_of hl hs) hv
    exact ⟨h1, fun hw _ => h2 hw⟩

/-- **C82.** The run ends: for every finite graph of packages there is a number of steps after which it has a result, and this does not
depend on how many more are allowed. -/
theorem C82_run_ends (D : Deps) (answer : Query → Except Str Delivered) (env : Loader.Env) (order : Nat → Nat → List Nat)
    (ord : MapOrders) (o : Cmd.IndexOpts) (w : Writer) (d : Delivered) (hg : GoProgram d answer order o) (hf : FiniteGraph d.graph) :
    ∃ n r, ∀ m, n ≤ m → indexing D answer env order m ord o w = some r := by
  obtain ⟨n, r, h⟩ := C45_loading_terminates (order := order) env (loaderOpts o) hf hg.order d.info
  cases r with
  | none =>
    refine ⟨n, index D (indexOpts o) ord w (.error panicText), fun m hm => ?_⟩
    unfold indexing load
    rw [query_eq, hg.answer]
    simp only [seen_eq, h m hm]
    rfl
  | some l =>
    refine ⟨n, index D (indexOpts o) ord w (.ok (projectOf d o l, allOf d o l)), fun m hm => ?_⟩
    unfold indexing load
    rw [query_eq, hg.answer]
    simp only [seen_eq, h m hm]
    rfl

/-- **C82.** If the go command fails, the run fails with its error (unless already the first write fails) and has written nothing but the
metadata. -/
theorem C82_go_command_fails (D : Deps) (answer : Query → Except Str Delivered) (env : Loader.Env) (order : Nat → Nat → List Nat)
    (fuel : Nat) (ord : MapOrders) (o : Cmd.IndexOpts) (w : Writer) (e : Str)
    (h : answer ⟨o.moduleRoot, !o.skipTests, if o.packagePatterns = [] then [go!"./..."] else o.packagePatterns⟩ = .error e) :
    ∃ r m, indexing D answer env order fuel ord o w = some r ∧ r.messages = [.metadata m] ∧
      ∃ e', r.outcome = .failed e' ∧ (e' = e ∨ w [] (.metadata m) = some e') := by
  obtain ⟨h1, h2⟩ := failed_load D (indexOpts o) ord w e
  refine ⟨_, _, ?_, h1, h2⟩
  unfold indexing load
  rw [query_eq, h]
  rfl

/-- **C82**, why a run fails: a write failed (it is then the last one), the go command failed, or a go.mod file that had to be read is broken,
which is reported as a panic during loading. -/
theorem C82_causes (D : Deps) (answer : Query → Except Str Delivered) (env : Loader.Env) (order : Nat → Nat → List Nat)
    (fuel : Nat) (ord : MapOrders) (o : Cmd.IndexOpts) (w : Writer) (r : Run) (hr : indexing D answer env order fuel ord o w = some r)
    (e : Str) (he : r.outcome = .failed e) :
    (∃ a m, r.messages = a ++ [m] ∧ w a m = some e) ∨
    answer ⟨o.moduleRoot, !o.skipTests, if o.packagePatterns = [] then [go!"./..."] else o.packagePatterns⟩ = .error e ∨
    (e = go!"during package loading: runtime error: invalid memory address or nil pointer dereference" ∧ ∃ f, env.readMod f = .broken) := by
  unfold indexing at hr
  simp only [Option.map_eq_some_iff] at hr
  obtain ⟨loaded, hl, rfl⟩ := hr
  rcases (C50_write_failure D (indexOpts o) ord w loaded).2.2.1 e he with h | ⟨rfl, _⟩
  · exact .inl h
  · refine .inr ?_
    unfold load at hl
    rw [query_eq] at hl
    split at hl
    · rename_i e' ha
      simp only [Option.some.injEq, Except.error.injEq] at hl
      rw [← hl]
      exact .inl ha
    · split at hl
      · simp at hl
      · rename_i hp
        simp only [Option.some.injEq, Except.error.injEq] at hl
        refine .inr ⟨hl.symm, ?_⟩
        by_contra hb
        have hb : ∀ f, env.readMod f ≠ .broken := fun f hf => hb ⟨f, hf⟩
        unfold loadPackages at hp
        simp only at hp
        split at hp
        · simp at hp
        · rename_i h; exact collectRoots_some hb _ _ _ _ _ _ _ h
        · simp at hp
      · simp at hl

/-- A loaded package has the identity that the specification gives. -/
theorem loadOk_identity {d : Delivered} {env : Loader.Env} {o : Cmd.IndexOpts} {order : Nat → Nat → List Nat} {fuel : Nat}
    {l : Loaded} (h : LoadOk d env o order fuel l) (hroot : o.moduleRoot = [] ∨ Absolute o.moduleRoot)
    (hdir : ∀ i, Reachable d.graph i → DirOk (identityOpts o) (d.info i)) {k : Str} {p : Package} (hp : (k, p) ∈ allOf d o l) :
    p.path = k ∧ PackageIdentity d env o k p.env.module.path p.env.module.version := by
  obtain ⟨x, hx, rfl⟩ := (mem_allOf h).1 hp
  refine ⟨kept_path h hx, ?_⟩
  cases x with
  | builtin => exact .inl ⟨h.inv.builtinOnly _ hx, rfl, rfl⟩
  | loaded i =>
    have hi := h.inv.reach i (.inl (h.inv.keptMet _ i hx))
    obtain ⟨m, hm, hid⟩ := C81_identity h.valid h.once h.load hroot (hdir i hi) hx
    refine .inr ⟨i, hi, h.invC.key _ i hx, ?_⟩
    have e : (keptPackage d o l.st.pkgs (.loaded i)).env.module = ⟨m.path, m.version⟩ := by
      show moduleIdent (l.st.pkgs i).module = _
      rw [hm]; rfl
    rw [e]
    exact hid

theorem ofDelivered_of {d : Delivered} {env : Loader.Env} {o : Cmd.IndexOpts} {order : Nat → Nat → List Nat} {fuel : Nat}
    {l : Loaded} (h : LoadOk d env o order fuel l) (hroot : o.moduleRoot = [] ∨ Absolute o.moduleRoot)
    (hdir : ∀ i, Reachable d.graph i → DirOk (identityOpts o) (d.info i)) {sym : Str} (hs : OfLoaded (allOf d o l) sym) :
    OfDelivered d env o sym := by
  obtain ⟨p, hp, ds, rfl⟩ := hs
  exact ⟨_, _, _, ds, (loadOk_identity h hroot hdir hp).2, rfl⟩

/-- **C83.** Every symbol in the output of a run is `local` with a number (occurrences and descriptions only), or it names a delivered
package with exactly the module path and version that identify it (C81). -/
theorem C83_every_symbol_identified (D : Deps) (answer : Query → Except Str Delivered) (env : Loader.Env) (order : Nat → Nat → List Nat)
    (fuel : Nat) (ord : MapOrders) (o : Cmd.IndexOpts) (w : Writer) (d : Delivered) (objs : List Obj) (hg : GoProgram d answer order o)
    (ht : TypedProgram d D objs) (hv : ValidMapOrders ord) (horig : ∀ r ∈ objs, ∀ q, (entityOf r).cls ≠ .pkgName q)
    (hroot : o.moduleRoot = [] ∨ Absolute o.moduleRoot) (hdir : ∀ i, Reachable d.graph i → DirOk (identityOpts o) (d.info i))
    (r : Run) (hr : indexing D answer env order fuel ord o w = some r) (m : Message) (hm : m ∈ r.messages) :
    match m with
    | .metadata _ => True
    | .document _ occs syms => (∀ x ∈ occs, (∃ k, x.symbol = localName k) ∨ OfDelivered d env o x.symbol) ∧
        ∀ s ∈ syms, ((∃ k, s.1.symbol = localName k) ∨ OfDelivered d env o s.1.symbol) ∧ ∀ x ∈ s.2, OfDelivered d env o x
    | .external sym rels => OfDelivered d env o sym ∧ ∀ x ∈ rels, OfDelivered d env o x := by
  rcases indexing_cases hg hr with ⟨rfl, _⟩ | ⟨l, hl, rfl⟩
  · rw [(failed_load D (indexOpts o) ord w panicText).1] at hm
    simp only [List.mem_singleton] at hm
    subst hm
    trivial
  · have key := C83_symbols_of_run D (indexOpts o) ord w _ _ objs (hl.typed ht) hv horig m hm
    have up : ∀ s, OfLoaded (allOf d o l) s → OfDelivered d env o s := fun s => ofDelivered_of hl hroot hdir
    cases m with
    | metadata => trivial
    | document path occs syms =>
      exact ⟨fun x hx => (key.1 x hx).imp id (up _), fun s hs => ⟨(key.2 s hs).1.imp id (up _), fun x hx => up _ ((key.2 s hs).2 x hx)⟩⟩
    | external sym rels => exact ⟨up _ key.1, fun x hx => up _ (key.2 x hx)⟩

end Verif
