import Verif.Lemmas.Memo
import Verif.Lemmas.Extract
/-! # The implementation pass only asks the symbol table -/
namespace Verif.Impl
open Verif Verif.Spec

theorem methodSymbols_asked {scopes g objs project sym} : ∀ (ms : List Method) (g' : Global) (acc) {g'' res},
    Asked scopes g objs g' → (∀ m ∈ ms, m.obj ∈ objs) → methodSymbols scopes project sym g' ms acc = some (g'', res) →
    Asked scopes g objs g'' := by
  intro ms
  induction ms with
  | nil =>
    intro g' acc g'' res ha _ h
    simp only [methodSymbols, Option.some.injEq, Prod.mk.injEq] at h
    rw [← h.1]; exact ha
  | cons m ms ih =>
    intro g' acc g'' res ha hm h
    have hn := Asked.lookup ha (hm m (by simp))
    have hm' : ∀ x ∈ ms, x.obj ∈ objs := fun x hx => hm x (by simp [hx])
    unfold methodSymbols at h
    obtain ⟨g1, a, hga⟩ : ∃ g1 a, g'.getSymbolOfObject scopes m.obj = (g1, a) := ⟨_, _, rfl⟩
    rw [hga] at h hn
    cases a with
    | panic => simp at h
    | error => exact ih _ _ hn hm' h
    | skip => exact ih _ _ hn hm' h
    | info i => exact ih _ _ hn hm' h

theorem classify_asked {E scopes g objs project t sy path} {s s' : State} (ha : Asked scopes g objs s.g)
    (hm : ∀ m ∈ t.methods, m.obj ∈ objs) (h : classify E scopes project t sy path s = some s') : Asked scopes g objs s'.g := by
  unfold classify at h
  split at h
  · simp only [Option.some.injEq] at h; subst h; exact ha
  · cases hms : methodSymbols scopes project sy.sym s.g t.methods [] with
    | none => rw [hms] at h; simp at h
    | some x =>
      obtain ⟨g', ms⟩ := x
      rw [hms] at h
      cases hk : methodMask E t.methods with
      | none => rw [hk] at h; simp at h
      | some k =>
        rw [hk] at h
        simp only [Option.bind_eq_bind, Option.bind_some, pure] at h
        have := methodSymbols_asked _ _ _ ha hm hms
        split at h <;> (simp only [Option.some.injEq] at h; subst h; exact this)

/-- The objects of a package are among `objs` and its types belong to it. -/
structure PkgKnown (g : Global) (objs : List Obj) (p : Pkg) : Prop where
  methods : ∀ t : TypeDef, (∃ ds, (p.defs = some ds ∨ p.scope = some ds) ∧ some t ∈ ds) → ∀ n, t.named = some n →
    ∀ m ∈ n.methods, m.obj ∈ objs
  scope : ∀ ds, p.scope = some ds → ∀ t, some t ∈ ds → t.obj.pkg = some p.path ∧ Obj.plain t.obj ∈ objs
  registered : ∃ r, g.symbols.lookup p.path = some r ∧ r.module = p.module

theorem extractPkg_asked {E scopes g objs project} {p : Pkg} (hk : PkgKnown g objs p) {s s' : State} (ha : Asked scopes g objs s.g)
    (h : extractPkg E scopes project p s = some s') : Asked scopes g objs s'.g := by
  unfold extractPkg at h
  split at h
  · simp only [Option.some.injEq] at h; subst h; exact ha
  · split at h
    · rename_i ds0 hds
      split at h
      · simp only [Option.some.injEq] at h; subst h; exact ha
      · rename_i r _
        have : ∀ (ds : List (Option TypeDef)) (s s' : State), (∀ d ∈ ds, d ∈ ds0) → Asked scopes g objs s.g →
            extractDefs E scopes project p r.table ds s = some s' → Asked scopes g objs s'.g := by
          intro ds
          induction ds with
          | nil => intro s s' _ ha h; simp only [extractDefs, Option.some.injEq] at h; subst h; exact ha
          | cons d ds ih =>
            intro s s' hsub ha h
            have hsub' : ∀ x ∈ ds, x ∈ ds0 := fun x hx => hsub x (by simp [hx])
            cases d with
            | none => exact ih s s' hsub' ha h
            | some d =>
              unfold extractDefs at h
              split at h
              · exact ih s s' hsub' ha h
              · split at h
                · exact ih s s' hsub' ha h
                · rename_i t ht
                  split at h
                  · exact ih s s' hsub' ha h
                  · split at h
                    · simp at h
                    · rename_i s₁ hs₁
                      exact ih s₁ s' hsub' (classify_asked ha
                        (hk.methods d ⟨ds0, .inl hds, hsub _ (by simp)⟩ t ht) hs₁) h
        exact this ds0 s s' (fun _ h => h) ha h
    · split at h
      · rename_i ds0 hds
        obtain ⟨r, hr, hrm⟩ := hk.registered
        have : ∀ (ds : List (Option TypeDef)) (s s' : State), (∀ d ∈ ds, d ∈ ds0) → Asked scopes g objs s.g →
            extractScope E scopes project p ds s = some s' → Asked scopes g objs s'.g := by
          intro ds
          induction ds with
          | nil => intro s s' _ ha h; simp only [extractScope, Option.some.injEq] at h; subst h; exact ha
          | cons d ds ih =>
            intro s s' hsub ha h
            have hsub' : ∀ x ∈ ds, x ∈ ds0 := fun x hx => hsub x (by simp [hx])
            cases d with
            | none => exact ih s s' hsub' ha h
            | some d =>
              unfold extractScope at h
              split at h
              · exact ih s s' hsub' ha h
              · split at h
                · exact ih s s' hsub' ha h
                · rename_i t ht
                  obtain ⟨hp, ho⟩ := hk.scope ds0 hds d (hsub _ (by simp))
                  have ha' := Asked.compose ha ho (show (Obj.plain d.obj).self.pkg = some p.path from hp) hr
                  rw [hrm] at ha'
                  dsimp only at h
                  split at h
                  · exact ih _ s' hsub' ha' h
                  · split at h
                    · simp at h
                    · rename_i s₁ hs₁
                      exact ih s₁ s' hsub' (classify_asked (s := { s with g := _ }) ha'
                        (hk.methods d ⟨ds0, .inr hds, hsub _ (by simp)⟩ t ht) hs₁) h
        exact this ds0 s s' (fun _ h => h) ha h
      · simp only [Option.some.injEq] at h; subst h; exact ha

theorem extractAll_asked {E scopes g objs project} : ∀ (ps : List Pkg) (s s' : State), (∀ p ∈ ps, PkgKnown g objs p) →
    Asked scopes g objs s.g → extractAll E scopes project ps s = some s' → Asked scopes g objs s'.g := by
  intro ps
  induction ps with
  | nil => intro s s' _ ha h; simp only [extractAll, Option.some.injEq] at h; subst h; exact ha
  | cons p ps ih =>
    intro s s' hk ha h
    unfold extractAll at h
    split at h
    · simp at h
    · rename_i s₁ hs₁
      exact ih s₁ s' (fun q hq => hk q (by simp [hq])) (extractPkg_asked (hk p (by simp)) ha hs₁) h

theorem addImplementations_asked {E scopes g objs h pkgs all orders r} (hk : ∀ p ∈ all, PkgKnown g objs p)
    (hsub : ∀ p ∈ pkgs, p ∈ all) (hrun : addImplementations E scopes g h pkgs all orders = some r) : Asked scopes g objs r.g := by
  unfold addImplementations at hrun
  split at hrun
  · simp at hrun
  · rename_i loc hloc
    split at hrun
    · simp at hrun
    · rename_i rem hrem
      simp only [Option.some.injEq] at hrun
      rw [← hrun]
      show Asked scopes g objs rem.g
      have h1 := extractAll_asked _ ⟨g, [], []⟩ loc (fun p hp => hk p (hsub p hp)) Asked.start hloc
      exact extractAll_asked _ ⟨loc.g, [], []⟩ rem (fun p hp => hk p (List.mem_filter.1 hp).1) h1 hrem

end Verif.Impl
