import Verif.Props.ContentDetermined
import Verif.Props.Commands
import Verif.Props.Truncation
import Verif.Props.Stdout
/-! # C88: the command `index` from the flags to the output file -/
namespace Verif
open Spec Index Program Loader Loader.Spec Cmd Commands

/-- The messages `ms` are what the command has written to its output: standard output for `-` (all of it with `--quiet`, else the part of it
that is not progress), else the file (nothing can be said about what a device or a pipe has received). -/
def Spec.OutputHolds (showTime : Int → Str) (quiet : Bool) (output : Str) (before : Target) (r : Result) (shown : List Stdout.Shown)
    (ms : List Message) : Prop :=
  if output = go!"-" then Decodes (indexPart shown) ms ∧ (quiet = true → Decodes (Stdout.render showTime shown) ms) ∧ r.target = before
  else NoIndex shown ∧ (before = .special ∧ r.target = .special ∨ before ≠ .special ∧ ∃ c, r.target = .regular c ∧ Decodes c ms)

/-- Nothing outside of the program fails: files can be created and written, and no go.mod file is broken. -/
structure Spec.NothingFails (W : World) (profile : Int) (output : Str) (env : Loader.Env) : Prop where
  profile : 0 < profile → W.createProfile = none
  create : output ≠ go!"-" → W.create = none
  write : ∀ c b, W.disk c b = none
  goMod : ∀ f, env.readMod f ≠ .broken

/-- All texts in the messages are UTF-8. -/
def Spec.Utf8 (ms : List Message) : Prop := ∀ m ∈ ms, ∀ t ∈ (Pb.indexOf m).strings, Pb.validUtf8 t = true

theorem writer_ok {disk : Disk} (h : ∀ c b, disk c b = none) {a : List Message} {m : Message}
    (hm : ∀ t ∈ (Pb.indexOf m).strings, Pb.validUtf8 t = true) : writer disk a m = none := by
  unfold writer
  have : Pb.marshal (Pb.indexOf m) = some (Pb.encodeFields (Pb.indexOf m).fields) := by
    unfold Pb.marshal
    rw [if_pos (List.all_eq_true.2 hm)]
  rw [this]
  simp only [h]

/-- **C88.** The command `index` on a program that the Go tools deliver ends with status 0 or 1.  With status 0 its output is the index of the
program.  With status 1 it says why, and leaves what was at the output path or nothing.  If nothing fails the status is 0. -/
theorem C88_command (D : Deps) (answer : Query → Except Str Delivered) (env : Loader.Env) (order : Nat → Nat → List Nat)
    (fuel : Nat) (ord : MapOrders) (S : Surroundings) (sh : SharedFlags) (W : World) (profile : Int) (output : Str) (before : Target)
    (o : IndexOpts) (level : Level) (d : Delivered) (objs : List Obj) (hS : makeOptions S sh = .ok (o, level))
    (habs : ∀ p q, S.abs p = .ok q → Absolute q)
    (hg : GoProgram d answer order o) (ht : TypedProgram d D objs) (hsig : SignedProgram d D) (hn : NamedProgram d D env o)
    (hv : ValidMapOrders ord) (hdist : ∀ i, InProject d i → DistinctIdents (d.package i))
    (horig : ∀ r ∈ objs, ∀ q, (entityOf r).cls ≠ .pkgName q) (hdir : ∀ i, Reachable d.graph i → DirOk (identityOpts o) (d.info i))
    (hstat : W.statOk = true) (hrem : W.removeOk = true) (showTime : Int → Str) (shown : List Stdout.Shown)
    (hshown : Stdout.Program D answer env order fuel ord S sh W profile output shown) (r : Result) (hr : command D answer env order fuel ord S sh W profile output before = some r) :
    ((mainEnding (.ok ()) r.exit).status = 0 ∧
      (∃ project all ms, ProgramMaps d env o project all ∧ IndexOf D (indexOpts o) project all ms ∧ OutputHolds showTime sh.quiet output before r shown ms) ∨
     (mainEnding (.ok ()) r.exit).status = 1 ∧ (mainEnding (.ok ()) r.exit).stderr ≠ [] ∧ (r.target = before ∨ r.target = .absent)) ∧
    (NothingFails W profile output env →
      (∀ project all ms, ProgramMaps d env o project all → IndexOf D (indexOpts o) project all ms → Utf8 ms) →
      (mainEnding (.ok ()) r.exit).status = 0) := by
  have hroot : o.moduleRoot = [] ∨ Absolute o.moduleRoot := .inr (habs _ _ (C41_options_taken_over S sh o level hS).1)
  unfold command at hr
  rw [hS] at hr
  simp only [Option.map_eq_some_iff] at hr
  obtain ⟨loaded, hload, rfl⟩ := hr
  have hcmd : Stdout.Command S sh W profile output (fun _ => loaded) (indexingOf D ord fun _ => loaded) shown := by
    unfold Stdout.Program Stdout.Command at hshown
    unfold Stdout.Command
    rw [hS] at hshown ⊢
    simp only [hload, Option.getD_some] at hshown
    exact hshown
  have hpart : ∀ R, Cmd.run W profile output (.ok o) (fun o w => index D (indexOpts o) ord w loaded) before = R →
      (output = go!"-" → R.exit ≠ .crash → indexPart shown = R.piped) ∧ (output ≠ go!"-" → NoIndex shown ∧ R.piped = []) := by
    intro R hR
    have := C89_index_part D ord (fun _ => loaded) S sh W profile output before shown hcmd
    rw [hS] at this
    rw [← hR]
    exact this
  have hquiet : ∀ R, Cmd.run W profile output (.ok o) (fun o w => index D (indexOpts o) ord w loaded) before = R →
      sh.quiet = true → R.exit ≠ .crash → Stdout.render showTime shown = R.piped := by
    intro R hR hq
    have := (C89_standard_output_partial D ord (fun _ => loaded) showTime S sh W profile output before shown hq hcmd).2.1
    rw [hS] at this
    rw [← hR]
    exact this
  have hrun : ∀ w, indexing D answer env order fuel ord o w = some (index D (indexOpts o) ord w loaded) := by
    intro w
    unfold indexing
    rw [hload]
    rfl
  have hcrash := (C82_never_crashes D answer env order fuel ord o (writer W.disk) d objs hg ht hsig hv _ (hrun _)).1
  have hindex : ∀ w, (index D (indexOpts o) ord w loaded).outcome = .ok → ∃ project all, ProgramMaps d env o project all ∧
      IndexOf D (indexOpts o) project all (index D (indexOpts o) ord w loaded).messages := by
    intro w hok
    obtain ⟨project, all, h1, _, h2⟩ := C87_program D answer env order fuel ord o w d objs hg ht hn hv hdist horig hroot hdir _ (hrun w) (.inl hok)
    exact ⟨project, all, h1, (h2 hok).1⟩
  have hdec : (index D (indexOpts o) ord (writer W.disk) loaded).outcome = .ok →
      Decodes (contentAfter W.disk (index D (indexOpts o) ord (writer W.disk) loaded).messages)
        (index D (indexOpts o) ord (writer W.disk) loaded).messages :=
    fun hok => C52_successful_run_decodes D ord (fun _ => loaded) o W.disk hok
  have hleft := fun e => C54_failed_run_leaves_nothing W profile output (.ok o) (fun o w => index D (indexOpts o) ord w loaded) before e hstat hrem
  -- the only way to fail after the file has been created is that indexing fails
  have hfine : NothingFails W profile output env →
      (∀ project all ms, ProgramMaps d env o project all → IndexOf D (indexOpts o) project all ms → Utf8 ms) →
      (index D (indexOpts o) ord (writer W.disk) loaded).outcome = .ok := by
    intro hf hu
    have hok' := (C82_never_crashes D answer env order fuel ord o (fun _ _ => none) d objs hg ht hsig hv _ (hrun _)).2 (fun _ _ => rfl) hf.goMod
    obtain ⟨project, all, h1, h2⟩ := hindex _ hok'
    obtain ⟨hpre, hsame⟩ := C50_cut_off D (indexOpts o) ord (writer W.disk) loaded
    rw [hsame fun a m b hm => writer_ok hf.write (hu project all _ h1 h2 m (hpre.subset (by
      rw [show (index D (indexOpts o) ord (writer W.disk) loaded).messages = a ++ m :: b from hm]; simp)))]
    exact hok'
  generalize hR : Cmd.run W profile output (.ok o) (fun o w => index D (indexOpts o) ord w loaded) before = R at hleft
  have hpart := hpart R hR
  have hquiet := hquiet R hR
  have hR' := hR
  unfold Cmd.run at hR'
  cases hp : (if profile > 0 then W.createProfile else none) with
  | some e =>
    rw [hp] at hR'
    simp only at hR'
    subst hR'
    refine ⟨.inr ⟨rfl, by simp [mainEnding], .inl rfl⟩, fun hf _ => ?_⟩
    split at hp
    · rename_i h; rw [hf.profile h] at hp; simp at hp
    · simp at hp
  | none =>
    rw [hp] at hR'
    simp only at hR'
    generalize hrr : index D (indexOpts o) ord (writer W.disk) loaded = rr at *
    by_cases ho : output = go!"-"
    · rw [if_pos ho] at hR'
      cases hout : rr.outcome with
      | crash => exact absurd hout hcrash
      | ok =>
        rw [hout] at hR'
        simp only at hR'
        obtain ⟨project, all, h1, h2⟩ := hindex (writer W.disk) (by rw [hrr]; exact hout)
        rw [hrr] at h2
        subst hR'
        refine ⟨.inl ⟨rfl, project, all, _, h1, h2, ?_⟩, fun _ _ => rfl⟩
        unfold OutputHolds
        rw [if_pos ho]
        refine ⟨?_, fun hq => ?_, rfl⟩
        · rw [hpart.1 ho (by simp)]; exact hdec hout
        · rw [hquiet hq (by simp)]; exact hdec hout
      | failed e =>
        rw [hout] at hR'
        simp only at hR'
        subst hR'
        exact ⟨.inr ⟨rfl, by simp [mainEnding], .inl rfl⟩, fun hf hu => by have := hfine hf hu; rw [hout] at this; simp at this⟩
    · rw [if_neg ho] at hR'
      cases hc : W.create with
      | some e =>
        rw [hc] at hR'
        simp only at hR'
        subst hR'
        exact ⟨.inr ⟨rfl, by simp [mainEnding], .inl rfl⟩, fun hf _ => by have := hf.create ho; rw [hc] at this; simp at this⟩
      | none =>
        rw [hc] at hR'
        simp only at hR'
        cases hout : rr.outcome with
        | crash => exact absurd hout hcrash
        | ok =>
          rw [hout] at hR'
          simp only at hR'
          obtain ⟨project, all, h1, h2⟩ := hindex (writer W.disk) (by rw [hrr]; exact hout)
          rw [hrr] at h2
          subst hR'
          refine ⟨.inl ⟨rfl, project, all, _, h1, h2, ?_⟩, fun _ _ => rfl⟩
          unfold OutputHolds
          rw [if_neg ho]
          refine ⟨(hpart.2 ho).1, ?_⟩
          cases before with
          | special => exact .inl ⟨rfl, rfl⟩
          | absent => exact .inr ⟨by simp, _, rfl, hdec hout⟩
          | regular c => exact .inr ⟨by simp, _, rfl, hdec hout⟩
        | failed e =>
          have hex : R.exit = .error e := by
            rw [← hR', hout]
          refine ⟨.inr ?_, fun hf hu => by have := hfine hf hu; rw [hout] at this; simp at this⟩
          rw [hex]
          exact ⟨rfl, by simp [mainEnding], (hleft e hex).1⟩

/-- The command ends, whatever the order of iteration, for a finite graph of packages. -/
theorem C88_ends (D : Deps) (answer : Query → Except Str Delivered) (env : Loader.Env) (order : Nat → Nat → List Nat)
    (ord : MapOrders) (S : Surroundings) (sh : SharedFlags) (W : World) (profile : Int) (output : Str) (before : Target) (d : Delivered)
    (hg : ∀ o level, makeOptions S sh = .ok (o, level) → GoProgram d answer order o) (hf : FiniteGraph d.graph) :
    ∃ n r, ∀ m, n ≤ m → command D answer env order m ord S sh W profile output before = some r := by
  unfold command
  cases hS : makeOptions S sh with
  | error e => exact ⟨0, _, fun _ _ => rfl⟩
  | crash => exact ⟨0, _, fun _ _ => rfl⟩
  | ok x =>
    obtain ⟨o, level⟩ := x
    have hgo := hg o level hS
    obtain ⟨n, r, h⟩ := C45_loading_terminates (order := order) env (loaderOpts o) hf hgo.order d.info
    obtain ⟨loaded, hload⟩ : ∃ loaded, ∀ m, n ≤ m → load answer env order m o o.moduleRoot = some loaded := by
      refine ⟨r.elim (.error panicText) fun l => .ok (projectOf d o l, allOf d o l), fun m hm => ?_⟩
      unfold load
      rw [query_eq, hgo.answer]
      simp only [seen_eq, h m hm]
      cases r <;> rfl
    exact ⟨n, Cmd.run W profile output (.ok o) (fun o w => index D (indexOpts o) ord w loaded) before, fun m hm => by
      simp only [hload m hm, Option.map_some]⟩

end Verif
