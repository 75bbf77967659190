import Verif.Props.ProgramTypes
/-!
# C82, C85: a broken go.mod file fails the run, whatever the order in which packages are met

Loading panics (and the panic is recovered) exactly if a package of the program belongs to a module that is a local directory whose go.mod file
can be read but not used.
-/
namespace Verif.Spec
open Loader Loader.Spec Program

/-- The package belongs to an ordinary module in a local directory, and the go.mod file there is not one. -/
def NeedsBrokenGoMod (env : Loader.Env) (o : Cmd.IndexOpts) (p : PkgSt) : Prop :=
  o.isGoPackagesDriverSet = false ∧ o.isIndexingStdlib = false ∧
    ∃ m, p.module = some m ∧ m.path ≠ go!"std" ∧ IsLocal (effective m) ∧ env.readMod (effective m).goMod = .broken

/-- All variants of a package (with and without its tests) belong to the same module. -/
def SameModules (d : Delivered) : Prop :=
  ∀ i j, Reachable d.graph i → Reachable d.graph j → (d.info i).path = (d.info j).path → (d.info i).module = (d.info j).module

/-- Some package of the program needs a broken go.mod file. A package without source files that is called `builtin` is not looked at. -/
def BrokenProgram (d : Delivered) (env : Loader.Env) (o : Cmd.IndexOpts) : Prop :=
  ∃ i, Reachable d.graph i ∧ ((d.info i).path = go!"builtin" → (d.package i).files ≠ []) ∧ NeedsBrokenGoMod env o (d.info i)

end Verif.Spec

namespace Verif
open Spec Loader Loader.Spec Program Index

/-- When normalising panics. -/
theorem normalize_none_iff {env : Loader.Env} {o : Cmd.IndexOpts} {p : PkgSt} :
    normalize env (withVersion (loaderOpts o)) p = none ↔ NeedsBrokenGoMod env o p := by
  obtain ⟨_, _, h3, _, h5⟩ := withVersion_rest (loaderOpts o)
  have h3 : (withVersion (loaderOpts o)).driverSet = o.isGoPackagesDriverSet := h3
  have h5 : (withVersion (loaderOpts o)).stdlib = o.isIndexingStdlib := h5
  have hpre : ∀ s : Str, Str.hasPrefix s go!"." = true ↔ go!"." <+: s := fun s => hasPrefix_iff
  have hlocal : ∀ m : ModBase, localStep env m = none ↔ IsLocal m ∧ env.readMod m.goMod = .broken := by
    intro m
    unfold localStep IsLocal
    by_cases hc : (Str.hasPrefix m.path go!"." && m.goMod ≠ []) = true
    · rw [if_pos hc]
      simp only [Bool.and_eq_true, hpre, decide_eq_true_eq] at hc
      cases hr : env.readMod m.goMod <;> simp [hc.1, hc.2]
    · rw [if_neg hc]
      simp only [Bool.and_eq_true, hpre, decide_eq_true_eq] at hc
      simp only [reduceCtorEq, false_iff]
      exact fun h => hc h.1
  have hrep : ∀ (opts : Loader.Opts) (m : ModInfo), (replaceStep opts m).path = (effective m).path ∧ (replaceStep opts m).goMod = (effective m).goMod := by
    intro opts m
    unfold replaceStep effective
    cases m.replace with
    | none => exact ⟨rfl, rfl⟩
    | some r => simp only [Option.getD_some]; split <;> exact ⟨rfl, rfl⟩
  unfold normalize NeedsBrokenGoMod
  rw [h3]
  cases hd : o.isGoPackagesDriverSet with
  | true => simp
  | false =>
    simp only [Bool.false_eq_true, if_false, true_and]
    have key : (match localStep env (replaceStep (withVersion (loaderOpts o)) (standardStep (withVersion (loaderOpts o)) p).2) with
        | none => none
        | some m => some (⟨(standardStep (withVersion (loaderOpts o)) p).1,
            some ⟨versionStep env (withVersion (loaderOpts o)) (pathStep m), none⟩⟩ : PkgSt)) = none ↔
        localStep env (replaceStep (withVersion (loaderOpts o)) (standardStep (withVersion (loaderOpts o)) p).2) = none := by
      cases localStep env (replaceStep (withVersion (loaderOpts o)) (standardStep (withVersion (loaderOpts o)) p).2) <;> simp
    refine key.trans ?_
    rw [hlocal, IsLocal, (hrep _ _).1, (hrep _ _).2]
    unfold standardStep
    rw [h5]
    by_cases hs : (isStandardLib p || o.isIndexingStdlib) = true
    · rw [if_pos hs]
      constructor
      · rintro ⟨⟨h, _⟩, _⟩
        have h : go!"." <+: go!"github.com/golang/go/src" := h
        exact absurd h (by decide)
      · rintro ⟨h1, m, h2, h3, _⟩
        simp [isStandardLib, h2, h1, h3] at hs
    · rw [if_neg hs]
      simp only [Bool.or_eq_true, not_or, Bool.not_eq_true] at hs
      cases hm : p.module with
      | none => simp [isStandardLib, hm] at hs
      | some m =>
        have hne : m.path ≠ go!"std" := by
          have := hs.1
          simpa [isStandardLib, hm] using this
        simp only [Option.getD_some, Option.some.injEq]
        constructor
        · rintro ⟨h1, h2⟩; exact ⟨hs.2, m, rfl, hne, h1, h2⟩
        · rintro ⟨_, m', rfl, _, h1, h2⟩; exact ⟨h1, h2⟩

section
variable {env : Env} {opts : Loader.Opts} {g : Graph} {order : Nat → Nat → List Nat}

/-- If collecting panics, it does so while normalising a package, in a state where the invariant holds. -/
theorem collect_panic (I : St → List Nat → Prop)
    (hskip : ∀ st i rest, I st (i :: rest) → alreadyKept g st i = true → I (st.skip i) rest)
    (hkeep : ∀ st i rest p n, I st (i :: rest) → alreadyKept g st i = false → normalize env opts (st.pkgs i) = some p →
      I (st.keep i p) (order n i ++ rest))
    {fuel st pending} (h : collect env opts g order fuel st pending = some none) (hi : I st pending) :
    ∃ st i rest, I st (i :: rest) ∧ alreadyKept g st i = false ∧ normalize env opts (st.pkgs i) = none := by
  induction fuel generalizing st pending with
  | zero => cases pending <;> simp [collect] at h
  | succ fuel ih =>
    cases pending with
    | nil => simp [collect] at h
    | cons i rest =>
      rw [collect] at h
      simp only at h
      have hk : alreadyKept g { st with met := st.met ++ [i] } i = alreadyKept g st i := rfl
      rw [hk] at h
      cases hg : alreadyKept g st i with
      | true => rw [hg] at h; exact ih h (hskip st i rest hi hg)
      | false =>
        rw [hg] at h
        simp only [Bool.false_eq_true, if_false] at h
        cases hn : normalize env opts (st.pkgs i) with
        | none => exact ⟨st, i, rest, hi, hg, hn⟩
        | some p => rw [hn] at h; exact ih h (hkeep st i rest p _ hi hg hn)

theorem collectRoots_panic (I : St → List Nat → Prop)
    (hskip : ∀ st i rest, I st (i :: rest) → alreadyKept g st i = true → I (st.skip i) rest)
    (hkeep : ∀ st i rest p n, I st (i :: rest) → alreadyKept g st i = false → normalize env opts (st.pkgs i) = some p →
      I (st.keep i p) (order n i ++ rest))
    (hroot : ∀ st i, i ∈ g.roots → I st [] → I st [i])
    {fuel : Nat} {st project roots} (hr : ∀ i ∈ roots, i ∈ g.roots)
    (h : collectRoots env opts g order fuel st project roots = some none) (hi : I st []) :
    ∃ st i rest, I st (i :: rest) ∧ alreadyKept g st i = false ∧ normalize env opts (st.pkgs i) = none := by
  induction roots generalizing st project with
  | nil => simp [collectRoots] at h
  | cons i rest ih =>
    rw [collectRoots] at h
    cases hc : collect env opts g order fuel st [i] with
    | none => simp [hc] at h
    | some x =>
      cases x with
      | none => exact collect_panic I hskip hkeep hc (hroot st i (hr i (by simp)) hi)
      | some st₁ =>
        rw [hc] at h
        exact ih (fun j hj => hr j (by simp [hj])) h (collect_inv I hskip hkeep hc (hroot st i (hr i (by simp)) hi))

end

variable {D : Deps} {answer : Query → Except Str Delivered} {env : Loader.Env} {order order' : Nat → Nat → List Nat} {fuel fuel' : Nat}
  {ord : MapOrders} {o : Cmd.IndexOpts} {w : Writer} {d : Delivered} {r : Run}

/-- A load that panics needs a broken go.mod file. -/
theorem broken_of_panic (hg : GoProgram d answer order o)
    (h : loadPackages env (loaderOpts o) (some (d.graph, d.info)) order fuel = some none) : BrokenProgram d env o := by
  have hp : NoStdPrefix d.info := hg.paths
  have h0 : InvN env (withVersion (loaderOpts o)) d.info (initial d.info) := by
    refine ⟨fun _ => .inl rfl, ?_, ?_⟩ <;>
    · intro k i hk
      have := GoMap.mem_of_get hk
      simp [initial] at this
  have hc : collectRoots env (withVersion (loaderOpts o)) d.graph order fuel (initial d.info) [] d.graph.roots = some none := by
    unfold loadPackages at h
    simp only at h
    unfold withVersion initial
    split at h
    · simp at h
    · assumption
    · simp at h
  obtain ⟨st, i, rest, ⟨hinv, hC, hN⟩, hk, hn⟩ := collectRoots_panic
    (fun st pending => Loader.Inv env (withVersion (loaderOpts o)) d.graph st pending ∧ InvC d.info d.graph st ∧ InvN env (withVersion (loaderOpts o)) d.info st)
    (fun _ _ _ h hk => ⟨h.1.skip hk, h.2.1.skip hk, h.2.2.skip⟩)
    (fun st i rest p _ h hk hn => ⟨h.1.keep hg.order hn, h.2.1.keep h.1 hk (fixed_same (.inr hp) (h.2.1.same _) hn), h.2.2.keep hn (by
      intro _ hm
      exfalso
      obtain ⟨k, hk', hf⟩ := h.2.1.best h.1 hm
      rw [Bool.eq_false_iff] at hk
      exact hk (alreadyKept_iff.2 ⟨k, by rw [h.2.1.same]; exact hk', hf⟩))⟩)
    (fun _ _ hi h => ⟨h.1.root hi, h.2⟩) (fun i hi => hi) hc ⟨inv_initial d.info, invC_initial d.info, h0⟩
  have hkeys := hinv.builtinKey
  refine ⟨i, hinv.reach i (.inr (by simp)), ?_, ?_⟩
  · intro hb hf
    obtain ⟨k, hk'⟩ := GoMap.mem_keys.1 hkeys
    rw [Bool.eq_false_iff] at hk
    refine hk (alreadyKept_iff.2 ⟨k, by rw [hC.same, hb]; exact hk', ?_⟩)
    have : d.graph.files i = 0 := by show (d.package i).files.length = 0; rw [hf]; rfl
    omega
  · rcases hN.each i with e | ⟨_, hm⟩
    · rw [e] at hn; exact normalize_none_iff.1 hn
    · exfalso
      obtain ⟨k, hk', hf⟩ := hC.best hinv hm
      rw [Bool.eq_false_iff] at hk
      exact hk (alreadyKept_iff.2 ⟨k, by rw [hC.same]; exact hk', hf⟩)

/-- A load that does not panic needs no broken go.mod file. -/
theorem not_broken_of_load {l : Loaded} (h : LoadOk d env o order fuel l) (hs : SameModules d) : ¬ BrokenProgram d env o := by
  rintro ⟨i, hi, hb, hn⟩
  obtain ⟨x, hx, hf⟩ := h.represented hi
  cases x with
  | builtin =>
    have e := h.inv.builtinOnly _ hx
    exact hb e (List.length_eq_zero_iff.1 (Nat.le_zero.1 hf))
  | loaded k =>
    have hk := h.inv.reach k (.inl (h.inv.keptMet _ k hx))
    have hmod := hs i k hi hk (h.invC.key _ k hx).symm
    have hok := (load_invN h.valid h.once h.load).kept _ k hx
    have : normalize env (withVersion (loaderOpts o)) (d.info k) = none := by
      rw [normalize_none_iff]
      obtain ⟨h1, h2, m, h3, h4⟩ := hn
      exact ⟨h1, h2, m, by rw [← hmod]; exact h3, h4⟩
    rw [this] at hok
    simp at hok

/-- **C82**, exactly when a run fails: if no write fails, the run fails exactly if a package of the program needs a broken go.mod file; then it
has written nothing but the metadata, and the error tells of a panic during loading. -/
theorem C82_succeeds_iff (D : Deps) (answer : Query → Except Str Delivered) (env : Loader.Env) (order : Nat → Nat → List Nat)
    (fuel : Nat) (ord : MapOrders) (o : Cmd.IndexOpts) (w : Writer) (d : Delivered) (objs : List Obj) (hg : GoProgram d answer order o)
    (ht : TypedProgram d D objs) (hs : SignedProgram d D) (hm : SameModules d) (hv : ValidMapOrders ord) (hw : ∀ a m, w a m = none) (r : Run)
    (hr : indexing D answer env order fuel ord o w = some r) :
    (r.outcome = .ok ↔ ¬ BrokenProgram d env o) ∧
    (BrokenProgram d env o → (∃ m, r.messages = [.metadata m]) ∧
      r.outcome = .failed go!"during package loading: runtime error: invalid memory address or nil pointer dereference") := by
  rcases indexing_cases hg hr with ⟨rfl, hl⟩ | ⟨l, hl, rfl⟩
  · have hb := broken_of_panic hg hl
    obtain ⟨h1, e, he, h2⟩ := failed_load D (indexOpts o) ord w panicText
    rw [hw] at h2
    simp only [reduceCtorEq, or_false] at h2
    subst h2
    exact ⟨⟨fun h => by rw [he] at h; simp at h, fun h => absurd hb h⟩, fun _ => ⟨⟨_, h1⟩, he⟩⟩
  · have hb := not_broken_of_load hl hm
    obtain ⟨h1, h2⟩ := C74_never_crashes D (indexOpts o) ord w _ _ objs (hl.typed ht) (extractorOk_of hl hs) hv
    exact ⟨⟨fun _ => hb, fun _ => h2 hw⟩, fun h => absurd h hb⟩

/-- **C85**, with broken go.mod files: if no write fails, then two runs on the same delivered packages have the same outcome, whatever the orders
of iteration: both write the same index, or both fail in the same way after the metadata. -/
theorem C85_same_outcome (D : Deps) (answer : Query → Except Str Delivered) (env : Loader.Env) (order order' : Nat → Nat → List Nat)
    (fuel fuel' : Nat) (ord ord' : MapOrders) (o : Cmd.IndexOpts) (w w' : Writer) (d : Delivered) (objs : List Obj)
    (hg : GoProgram d answer order o) (hg' : GoProgram d answer order' o) (ha : AlikeVariants d) (hm : SameModules d) (ht : TypedProgram d D objs)
    (hs : SignedProgram d D) (hn : NamedProgram d D env o) (hv : ValidMapOrders ord) (hv' : ValidMapOrders ord')
    (hroot : o.moduleRoot = [] ∨ Absolute o.moduleRoot) (hdir : ∀ i, Reachable d.graph i → DirOk (identityOpts o) (d.info i))
    (hw : ∀ a m, w a m = none) (hw' : ∀ a m, w' a m = none)
    (r r' : Run) (hr : indexing D answer env order fuel ord o w = some r) (hr' : indexing D answer env order' fuel' ord' o w' = some r') :
    r.outcome = r'.outcome ∧ (r.outcome = .ok → SameIndex r.messages r'.messages) ∧
      (r.outcome ≠ .ok → r.messages = r'.messages ∧ ∃ m, r.messages = [.metadata m]) := by
  obtain ⟨h1, h2⟩ := C82_succeeds_iff D answer env order fuel ord o w d objs hg ht hs hm hv hw r hr
  obtain ⟨h1', h2'⟩ := C82_succeeds_iff D answer env order' fuel' ord' o w' d objs hg' ht hs hm hv' hw' r' hr'
  have hsame := C85_same_output D answer env order order' fuel fuel' ord ord' o w w' d objs hg hg' ha ht hn hv hv' hroot hdir r r' hr hr'
  by_cases hb : BrokenProgram d env o
  · obtain ⟨⟨m, hm1⟩, ho⟩ := h2 hb
    obtain ⟨⟨m', hm1'⟩, ho'⟩ := h2' hb
    have hmm := hsame.1
    rw [hm1, hm1'] at hmm
    simp only [List.getElem?_cons_zero, Option.some.injEq] at hmm
    refine ⟨by rw [ho, ho'], fun h => ?_, fun _ => ⟨by rw [hm1, hm1', hmm], m, hm1⟩⟩
    rw [ho] at h; simp at h
  · have hok := h1.2 hb
    have hok' := h1'.2 hb
    refine ⟨by rw [hok, hok'], fun _ => ?_, fun h => absurd hok h⟩
    obtain ⟨l, hl, rfl⟩ := indexing_ok hg hr hok
    obtain ⟨l', hl', rfl⟩ := indexing_ok hg' hr' hok'
    obtain ⟨hp, hal⟩ := same_loaded hl hl' ha
    have ht1 := hl.typed ht
    have ht2 := hl'.typed ht
    have e := index_perm D (indexOpts o) ord' w' (all := allOf d o l) (all' := allOf d o l') ht1.project_keyed ht2.project_keyed hp
    rw [e] at hok' ⊢
    exact C69_same_index D (indexOpts o) ord _ w w' _ _ objs ht1 hv (ordersFor_valid hv' hp hal) (hl.named hn hroot hdir) hok hok'

end Verif
