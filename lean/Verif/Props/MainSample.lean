import Verif.Props.MainCrash
import Verif.Props.MainStatus
import Verif.Props.TextSample
import Verif.Props.EndToEndCommandSample
import Verif.Props.BrokenModuleSample
/-! # The sample program, checked out in a repository, meets the hypotheses of C101 and C102 -/
namespace Verif.ProgramSample
open Verif Spec Index IndexSample Program Loader.Spec Cmd Commands Main Git

/-- As the go command delivers it: the module of the project has no version. -/
def infoMain : Nat → Loader.PkgSt := fun i =>
  { info i with module := (info i).module.map fun m => { m with version := [] } }
def checkedOut : Delivered := { delivered with info := infoMain }
def answerMain : Query → Except Str Delivered := fun q => if q = ⟨go!"/w/m", true, [go!"./..."]⟩ then .ok checkedOut else .error go!"no packages"

theorem checkedOut_as (i : Nat) : ∃ m, asDelivered checkedOut i = { asDelivered delivered i with env := { (asDelivered delivered i).env with module := m } } :=
  ⟨moduleIdent (infoMain i).module, by
    rw [asDelivered_eq, asDelivered_eq]
    rfl⟩

theorem typed_main : TypedProgram checkedOut deps objs where
  packages := fun i hi => by
    obtain ⟨m, e⟩ := checkedOut_as i
    rw [e]; exact typedPackage_module m (typed.packages i hi)
  types := fun i hi => by
    obtain ⟨m, e⟩ := checkedOut_as i
    rw [e]
    have := typed.types i hi
    exact ⟨this.asked, this.scope⟩
  files_once := typed.files_once
  files_apart := typed.files_apart
  coherent := typed.coherent
  wellFormed := typed.wellFormed

theorem variants_main : GoVariants checkedOut :=
  ⟨go_program.variants.largest, go_program.variants.files_nested, go_program.variants.imports_nested, go_program.variants.builtin⟩

/-- What `git` and `go` say in `/w/m`: the commit has two tags, the second of which is a version. -/
def system : System where
  getwd := .ok go!"/w/m"
  showToplevel := ⟨go!"/w\n", none⟩
  stat := fun _ => .missing
  tools := fun _ => ⟨⟨go!"git@github.com:a/m.git\n", none⟩, ⟨go!"latest\nv2.0.0\n", none⟩, ⟨go!"0123456789abcdef\n", none⟩, ⟨go!"{}\n", none⟩⟩
  modules := ⟨fun p => if p = go!"/w/m/go.mod" then some go!"module m" else none, fun d => if d = go!"module m" then .ok (some go!"m") else .ok none,
    fun _ => .error go!"unrecognized import path"⟩
  driver := some go!"off"
  args := []
  parseUrl := fun _ => none
  decode := fun s => if s = go!"{}" then .module go!"1.22" else .error

def noFlags : Given := ⟨none, none, none, none, none, false, 0, false, false, []⟩

theorem in_repository : InRepository system [go!"w", go!"m"] [go!"latest", go!"v2.0.0"] go!"0123456789abcdef" where
  wd := rfl
  names := by decide
  top := ⟨go!"/w", rfl, ⟨by decide, by decide⟩, ⟨go!"/m", rfl⟩⟩
  tagNames := by unfold TagName; decide
  tagList := rfl
  commit := by unfold TagName; decide
  head := rfl

/-- `v2.0.0` is the first of the tags that is a version. -/
theorem commit_version : CommitVersion [go!"latest", go!"v2.0.0"] go!"0123456789abcdef" go!"v2.0.0" := by
  obtain ⟨b, hb⟩ := Semver.isValid_iff.1 (show Semver.isValid go!"v2.0.0" = true by decide +kernel)
  refine .versionTag (before := [go!"latest"]) (later := []) rfl hb ?_
  intro x hx b hv
  simp only [List.mem_singleton] at hx
  subst hx
  have : Semver.isValid go!"latest" = true := Semver.isValid_iff.2 ⟨b, hv⟩
  revert this; decide +kernel

theorem indexed : Indexed system [go!"w", go!"m"] [go!"latest", go!"v2.0.0"] go!"0123456789abcdef" noFlags [go!"w", go!"m"] go!"m" go!"v2.0.0" go!"go1.22" where
  atRoot := rfl
  named := ⟨go!"module m", by decide +kernel, by decide +kernel⟩
  versioned := commit_version
  goVersioned := ⟨go!"1.22", ⟨rfl, by decide +kernel⟩, rfl⟩

def outcome : Option Main.Outcome :=
  Main.main deps answerMain env order 1 20 ord (fun m => m.map (·.2), fun m => m.map (·.2)) system (CmdSample.world CmdSample.good) (.ok (noFlags, .index none 0)) .absent

theorem outcome_ok : outcome.map (fun x => x.ending.status) = some 0 := by decide +kernel

/-- The symbols in the file: the module has the version of the tag, the standard library that of Go. -/
theorem c101 : ∃ x c ms, outcome = some x ∧ x.target = .regular c ∧ Decodes c ms ∧
    ∀ m ∈ ms, EverySymbol (SymbolOf checkedOut [go!"w", go!"m"] go!"m" go!"v2.0.0" go!"go1.22") m := by
  have h := outcome_ok
  cases hx : outcome with
  | none => rw [hx] at h; simp at h
  | some x =>
    rw [hx] at h
    simp only [Option.map_some, Option.some.injEq] at h
    obtain ⟨ms, h1, h2⟩ := C101_symbols deps answerMain env order 1 20 ord _ system (CmdSample.world CmdSample.good) noFlags none 0 .absent
      [go!"w", go!"m"] [go!"latest", go!"v2.0.0"] go!"0123456789abcdef" [go!"w", go!"m"] go!"m" go!"v2.0.0" go!"go1.22" checkedOut objs
      in_repository indexed (.inr rfl) ⟨by decide, by decide, by decide⟩ (by decide) (by decide) (if_pos (by decide +kernel)) (fun _ _ => .refl _)
      go_program.paths variants_main typed_main ord_ok no_packages (by
        intro i hi m hm
        match i, reach hi with
        | 0, _ =>
          have : m = ⟨⟨go!"m", [], go!"/w/m", go!"/w/m/go.mod"⟩, none⟩ := by
            simp only [checkedOut, infoMain, info, Option.map_some, Option.some.injEq] at hm
            exact hm.symm
          subst this
          exact ⟨by simp, fun _ => .inr rfl⟩
        | 1, _ | 2, _ | 3, _ | 4, _ => simp [checkedOut, infoMain, info] at hm) x hx h
    unfold IndexIn at h1
    rw [if_neg (by decide)] at h1
    rcases h1 with ⟨h3, _⟩ | ⟨_, c, h3, h4⟩
    · simp at h3
    · exact ⟨x, c, ms, rfl, h3, h4, h2⟩

/-- What is said about the package of the module and about one of the standard library. -/
example (path v : Str) (h : IdentifiedAs [go!"w", go!"m"] go!"m" go!"v2.0.0" go!"go1.22" (checkedOut.info 0) path v) : path = go!"m" ∧ v = go!"v2.0.0" :=
  h.ofModule _ rfl rfl rfl rfl
example (path v : Str) (h : IdentifiedAs [go!"w", go!"m"] go!"m" go!"v2.0.0" go!"go1.22" (checkedOut.info 1) path v) :
    path = go!"github.com/golang/go/src" ∧ v = go!"go1.22" :=
  ⟨(h.standard (.inl rfl)).1, (h.standard (.inl rfl)).2.2 ⟨go!"1.22", rfl⟩⟩

/-- The go command delivers nothing but this. -/
theorem deliveries : GoodDeliveries deps answerMain order := by
  intro q d h
  unfold answerMain at h
  split at h
  · simp only [Except.ok.injEq] at h
    subst h
    exact ⟨fun _ _ => .refl _, go_program.paths, variants_main, signed, objs, typed_main⟩
  · simp at h

/-- C102 on the sample: no panic, since nothing is bad here; with a negative verbosity there is one. -/
example (x : Main.Outcome) (h : outcome = some x) : x.ending.status ≠ 2 := by
  obtain ⟨dir, hdir, hiff⟩ := C102_panics_iff deps answerMain env order 1 20 ord _ system (CmdSample.world CmdSample.good) (.ok (noFlags, .index none 0)) .absent
    deliveries ord_ok (fun _ => .refl _) x h
  rw [Ne, hiff]
  have : dir = go!"." := root_found in_repository hdir
  subst this
  rintro (h1 | ⟨g, c, root, h1, h2, h3, _⟩)
  · rcases h1 with ⟨_, h1, _⟩ | ⟨_, h1⟩
    · revert h1; decide +kernel
    · revert h1; decide +kernel
  · simp only [Except.ok.injEq, Prod.mk.injEq] at h1
    obtain ⟨rfl, rfl⟩ := h1
    rcases h3 with ⟨_, h3⟩ | ⟨_, data, h3, h4⟩
    · revert h3; decide
    · have hroot : root = go!"/w/m" := by
        have : Main.abs system.getwd (noFlags.moduleRoot.getD go!".") = .ok go!"/w/m" := by decide +kernel
        rw [this] at h2
        simpa using h2.symm
      subst hroot
      have : system.modules.readGoMod (goModIn go!"/w/m") = some go!"module m" := by decide +kernel
      rw [this] at h3
      simp only [Option.some.injEq] at h3
      subst h3
      revert h4; decide +kernel

def outcomeBad : Option Main.Outcome :=
  Main.main deps answerMain env order 1 20 ord (fun m => m.map (·.2), fun m => m.map (·.2)) system (CmdSample.world CmdSample.good)
    (.ok ({ noFlags with verbose := -1 }, .packages)) .absent
example : outcomeBad.map (·.ending.status) = some 2 := by decide +kernel

/-- The listing of the packages. -/
example : (Main.main deps answerMain env order 1 20 ord (fun m => m.map (·.2), fun m => m.map (·.2)) system (CmdSample.world CmdSample.good)
    (.ok (noFlags, .packages)) .absent).map (fun x => (x.ending.status, x.printed)) =
    some (0, go!"Current packages\nm/p\nDependency packages\nbuiltin\nfmt\nio\nm/p\nos\n") := by decide +kernel
example : (Main.main deps answerMain env order 1 20 ord (fun m => m.map (·.2), fun m => m.map (·.2)) system (CmdSample.world CmdSample.good)
    (.ok (noFlags, .missing)) .absent).map (fun x => (x.ending.status, x.printed)) = some (0, go!"No missing documents\n") := by decide +kernel

/-- C102_ends on the sample. -/
example : ∃ n x, (∀ steps fuel, n ≤ steps → n ≤ fuel → Main.main deps answerMain env order steps fuel ord (fun m => m.map (·.2), fun m => m.map (·.2)) system
    (CmdSample.world CmdSample.good) (.ok (noFlags, .index none 0)) .absent = some x) ∧ x.ending.status ≤ 2 :=
  C102_ends deps answerMain env order ord _ system _ _ _ (.inl ⟨[go!"w", go!"m"], by decide, rfl⟩) (by
    intro q d h
    unfold answerMain at h
    split at h
    · simp only [Except.ok.injEq] at h
      subst h
      exact ⟨fun _ _ => .refl _, finite⟩
    · simp at h)

/-- With `--module-root /elsewhere`, in another repository, the version is still that of the repository in which the program was started. -/
example : (parseArgs system 1 (.ok ({ noFlags with moduleRoot := some go!"/elsewhere" }, ()))) =
    some (.ok (⟨go!"/elsewhere", go!"github.com/a/m", [], go!"v2.0.0", go!"go1.22", false, 0, false, false, [go!"./..."]⟩, ())) := by decide +kernel

/-! ## C103 -/

def optionsMain : IndexOpts :=
  { moduleRoot := go!"/w/m", moduleVersion := go!"v2.0.0", modulePath := go!"m", isGoPackagesDriverSet := false, goStdlibVersion := go!"go1.22"
    skipImplementations := false, skipTests := false, isIndexingStdlib := false, packagePatterns := [go!"./..."], arguments := [] }

theorem starts : Starts system go!"." noFlags optionsMain :=
  (starts_iff (steps := 1) (c := ()) (by decide +kernel)).1 ⟨sharedFlags go!"." ⟨go!"github.com/a/m", go!"v2.0.0", go!"go1.22"⟩ noFlags, levelWarn, by decide +kernel, by decide +kernel⟩

theorem starts_only {dir : Str} (hdir : defaultModuleRoot system 1 = some dir) {o : IndexOpts} (h : Starts system dir noFlags o) : o = optionsMain := by
  have : dir = go!"." := root_found in_repository hdir
  subst this
  obtain ⟨sh, _, h3, h4⟩ := (starts_iff hdir (c := ())).2 h
  obtain ⟨sh', _, h5, h6⟩ := (starts_iff hdir (c := ())).2 starts
  rw [h3] at h5
  simp only [Option.some.injEq, Res.ok.injEq, Prod.mk.injEq, and_true] at h5
  subst h5
  rw [h4] at h6
  simp only [Res.ok.injEq, Prod.mk.injEq] at h6
  exact h6.1

theorem same_modules_main : SameModules checkedOut := fun i j hi hj h => by
  have := same_modules i j hi hj h
  show (infoMain i).module = (infoMain j).module
  unfold infoMain
  rw [show (info i).module = (info j).module from this]

theorem deliveries_same (q : Query) (d : Delivered) (h : answerMain q = .ok d) : SameModules d := by
  unfold answerMain at h
  split at h
  · simp only [Except.ok.injEq] at h; subst h; exact same_modules_main
  · simp at h

theorem not_broken_main : ¬ BrokenProgram checkedOut env optionsMain := by
  rintro ⟨i, _, _, _, _, m, _, _, _, h⟩
  simp [env] at h

/-- The listing commands succeed. -/
example (x : Main.Outcome) (command : Selected) (hc : command = .packages ∨ command = .missing)
    (h : Main.main deps answerMain env order 1 20 ord (fun m => m.map (·.2), fun m => m.map (·.2)) system (CmdSample.world CmdSample.good)
      (.ok (noFlags, command)) .absent = some x) : x.ending.status = 0 := by
  obtain ⟨dir, hdir, hiff⟩ := C103_listing_succeeds_iff deps answerMain env order 1 20 ord _ system _ noFlags command .absent hc deliveries deliveries_same ord_ok
    (fun _ => .refl _) x h
  have : dir = go!"." := root_found in_repository hdir
  subst this
  exact hiff.2 ⟨optionsMain, checkedOut, starts, if_pos (by decide +kernel), not_broken_main⟩

theorem text_main (o : IndexOpts) (ho : o = optionsMain) : ProgramText checkedOut deps env o := by
  subst ho
  have h := TextSample.program_text
  refine ⟨⟨h.surroundings.scopes, h.surroundings.toolVersion, h.surroundings.url, h.surroundings.root, text_ascii' rfl, by simp [optionsMain, indexOpts]⟩,
    text_ascii' rfl, text_ascii' rfl, fun i hi => ?_, fun i hi m r hm hr => ?_, h.goMod⟩
  · obtain ⟨m, e⟩ := checkedOut_as i
    have hp := h.packages i hi
    have hm : m = moduleIdent (infoMain i).module := by
      have := congrArg (fun p : Package => p.env.module) e
      rw [asDelivered_eq] at this
      exact this.symm
    have ht : Text m.path ∧ Text m.version := by
      rw [hm]
      match i, reach hi with
      | 0, _ => exact ⟨text_ascii' rfl, text_ascii' rfl⟩
      | 1, _ | 2, _ | 3, _ | 4, _ => exact ⟨text_ascii' rfl, text_ascii' rfl⟩
    rw [e]
    exact ⟨hp.path, ht.1, ht.2, hp.name, hp.fileName, hp.syntaxTree, hp.fileDoc, hp.defs, hp.uses, hp.implicits, hp.signature, hp.anonKey, hp.types⟩
  · match i, reach hi with
    | 0, _ =>
      simp only [checkedOut, infoMain, info, Option.map_some, Option.some.injEq] at hm
      subst hm
      simp at hr
    | 1, _ | 2, _ | 3, _ | 4, _ => simp [checkedOut, infoMain, info] at hm

/-- So does `index`, into a file that can be created, and it does not if the file cannot be created. -/
theorem index_status (W : World) (hdisk : ∀ c b, W.disk c b = none) (x : Main.Outcome)
    (h : Main.main deps answerMain env order 1 20 ord (fun m => m.map (·.2), fun m => m.map (·.2)) system W (.ok (noFlags, .index none 0)) .absent = some x) :
    x.ending.status = 0 ↔ W.create = none := by
  obtain ⟨dir, hdir, hiff⟩ := C103_index_succeeds_iff deps answerMain env order 1 20 ord _ system W noFlags none 0 .absent deliveries deliveries_same ord_ok
    (fun w hw => ⟨[go!"w", go!"m"], by decide, by simp only [system, Except.ok.injEq] at hw; exact hw.symm⟩) hdisk
    (fun dir o d hdir hs ha => by
      have ho := starts_only hdir hs
      have hd : d = checkedOut := by
        subst ho
        rw [show answerMain _ = .ok checkedOut from if_pos (by decide +kernel)] at ha
        simp only [Except.ok.injEq] at ha; exact ha.symm
      subst hd
      refine ⟨text_main o ho, ?_⟩
      intro i hi m hm
      subst ho
      match i, reach hi with
      | 0, _ =>
        simp only [checkedOut, infoMain, info, Option.map_some, Option.some.injEq] at hm
        subst hm
        exact .inr rfl
      | 1, _ | 2, _ | 3, _ | 4, _ => simp [checkedOut, infoMain, info] at hm) x h
  have : dir = go!"." := root_found in_repository hdir
  subst this
  rw [hiff]
  constructor
  · exact fun h => h.2.1 (by simp)
  · exact fun h => ⟨fun h => absurd h (by decide), fun _ => h, optionsMain, checkedOut, starts, if_pos (by decide +kernel), not_broken_main⟩

end Verif.ProgramSample
