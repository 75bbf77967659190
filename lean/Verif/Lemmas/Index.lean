import Verif.Spec.Index
import Verif.Lemmas.GoMap
import Verif.Lemmas.Sort
/-! # Lemmas: the run of the indexer -/
namespace Verif.Index
open Verif Verif.Spec

/-! ### Documents -/

theorem newDocs_get (root : Str) (files : List SourceFile) (docs : Docs) (k : Str) :
    (newDocs root files docs).get k =
      if k ∈ files.map (·.fileName) then some ⟨(Filepath.rel root k).getD [], none⟩ else docs.get k := by
  unfold newDocs
  induction files generalizing docs with
  | nil => simp
  | cons f fs ih =>
    simp only [List.foldl_cons]
    rw [ih, GoMap.get_set]
    by_cases h1 : k ∈ fs.map (·.fileName)
    · simp [h1]
    · by_cases h2 : k = f.fileName
      · subst h2; simp
      · simp [h1, h2]

theorem setOccurrences_get (p : Package) (sym : Str) (files : List SourceFile) (docs : Docs) (k : Str) :
    ((setOccurrences p sym files docs).get k).map (·.relativePath) = (docs.get k).map (·.relativePath) ∧
    (k ∉ files.map (·.fileName) → (setOccurrences p sym files docs).get k = docs.get k) ∧
    (k ∈ files.map (·.fileName) → (docs.get k).isSome → ∃ f ∈ files, f.fileName = k ∧
      ((setOccurrences p sym files docs).get k).map (·.pkgOcc) = some (some (packageOccurrence p sym f))) := by
  unfold setOccurrences
  induction files generalizing docs with
  | nil => simp
  | cons f fs ih =>
    simp only [List.foldl_cons]
    obtain ⟨docs', hd⟩ : ∃ docs', docs' = setOccurrence p sym docs f := ⟨_, rfl⟩
    rw [← hd]
    unfold setOccurrence at hd
    obtain ⟨i1, i2, i3⟩ := ih docs'
    have hrel : (docs'.get k).map (·.relativePath) = (docs.get k).map (·.relativePath) := by
      rw [hd]
      cases hg : docs.get f.fileName with
      | none => rfl
      | some d =>
        simp only
        rw [GoMap.get_set]
        split
        · rename_i e; subst e; rw [hg]; rfl
        · rfl
    have hne : k ≠ f.fileName → docs'.get k = docs.get k := by
      intro h
      rw [hd]
      cases hg : docs.get f.fileName with
      | none => rfl
      | some d => simp only; rw [GoMap.get_set, if_neg h]
    refine ⟨i1.trans hrel, ?_, ?_⟩
    · intro h
      simp only [List.map_cons, List.mem_cons, not_or] at h
      rw [i2 h.2, hne h.1]
    · intro h hs
      by_cases h1 : k ∈ fs.map (·.fileName)
      · have hs' : (docs'.get k).isSome := by
          have := congrArg Option.isSome hrel
          simp only [Option.isSome_map] at this
          rw [this]; exact hs
        obtain ⟨f', hf', e, h'⟩ := i3 h1 hs'
        exact ⟨f', List.mem_cons_of_mem _ hf', e, h'⟩
      · have hk : k = f.fileName := by simpa [h1] using h
        subst hk
        refine ⟨f, by simp, rfl, ?_⟩
        rw [i2 h1, hd]
        obtain ⟨d, hg⟩ := Option.isSome_iff_exists.1 hs
        rw [hg]
        simp only
        rw [GoMap.get_set, if_pos rfl]
        rfl

/-- After the collecting pass every file has its document. -/
theorem visitPackage_docs {root p s s'} (h : visitPackage root p s = some s') :
    (∀ k, (s'.1.get k).map (·.relativePath) =
      if k ∈ p.files.map (·.fileName) then some ((Filepath.rel root k).getD []) else (s.1.get k).map (·.relativePath)) ∧
    (∀ k, k ∉ p.files.map (·.fileName) → s'.1.get k = s.1.get k) ∧
    (∀ k ∈ p.files.map (·.fileName), ∃ f ∈ p.files, f.fileName = k ∧
      (s'.1.get k).map (·.pkgOcc) = some (some (packageOccurrence p ((s.2.getPkgSymbol p.path).getD []) f))) := by
  unfold visitPackage visitSyntaxOf at h
  cases hv : visitPackageSyntax p.env (p.files.map SourceFile.node) [] with
  | none => rw [hv] at h; simp at h
  | some t =>
    rw [hv] at h
    simp only [Option.map_some] at h
    cases hf : p.files with
    | nil =>
      rw [hf] at h
      simp only [Option.some.injEq] at h
      subst h
      simp [newDocs]
    | cons f fs =>
      rw [hf] at h
      simp only [Option.some.injEq] at h
      subst h
      simp only
      refine ⟨fun k => ?_, fun k hk => ?_, fun k hk => ?_⟩
      · rw [(setOccurrences_get _ _ _ _ _).1, newDocs_get]
        split <;> rfl
      · rw [(setOccurrences_get _ _ _ _ _).2.1 hk, newDocs_get, if_neg hk]
      · exact (setOccurrences_get p _ (f :: fs) _ k).2.2 hk (by rw [newDocs_get, if_pos hk]; rfl)

theorem visitPackages_docs {root ps s s'} (h : visitPackages root ps s = some s') (k : Str) :
    (s'.1.get k).map (·.relativePath) =
      if k ∈ (filesOf ps).map (·.2.fileName) then some ((Filepath.rel root k).getD []) else (s.1.get k).map (·.relativePath) := by
  induction ps generalizing s with
  | nil => simp only [visitPackages, Option.some.injEq] at h; subst h; simp [filesOf]
  | cons p ps ih =>
    unfold visitPackages at h
    split at h
    · simp at h
    · rename_i s₁ hs₁
      rw [ih h, (visitPackage_docs hs₁).1]
      have e : (filesOf (p :: ps)).map (·.2.fileName) = p.files.map (·.fileName) ++ (filesOf ps).map (·.2.fileName) := by
        simp [filesOf]
      rw [e]
      by_cases h1 : k ∈ (filesOf ps).map (·.2.fileName)
      · rw [if_pos h1, if_pos (List.mem_append_right _ h1)]
      · rw [if_neg h1]
        by_cases h2 : k ∈ p.files.map (·.fileName)
        · rw [if_pos h2, if_pos (List.mem_append_left _ h2)]
        · rw [if_neg h2, if_neg (by rw [List.mem_append]; exact fun h => h.elim h2 h1)]

/-! ### Writing -/

/-- No write but the last can have failed, and a failed write decides the outcome. -/
structure WriterOk (w : Writer) (r : Run) : Prop where
  earlier : ∀ a m b, r.messages = a ++ m :: b → b ≠ [] → w a m = none
  failing : ∀ a m b e, r.messages = a ++ m :: b → w a m = some e → b = [] ∧ r.outcome = .failed e

theorem writerOk_of (w : Writer) (done : List Message) (o : Outcome) (h : ∀ a m b, done = a ++ m :: b → w a m = none) :
    WriterOk w ⟨done, o⟩ :=
  ⟨fun a m b e _ => h a m b e, fun a m b e h1 h2 => by rw [h a m b h1] at h2; simp at h2⟩

theorem snoc_split {α : Type} {done a b : List α} {x m : α} (h : done ++ [x] = a ++ m :: b) :
    (b = [] ∧ a = done ∧ m = x) ∨ ∃ b', b = b' ++ [x] ∧ done = a ++ m :: b' := by
  rcases List.eq_nil_or_concat b with rfl | ⟨b', y, rfl⟩
  · left
    have := List.append_inj' h rfl
    exact ⟨rfl, this.1.symm, by simpa using this.2.symm⟩
  · right
    rw [List.concat_eq_append] at h ⊢
    have : done ++ [x] = (a ++ m :: b') ++ [y] := by rw [h]; simp
    have := List.append_inj' this rfl
    have hy : x = y := by simpa using this.2
    exact ⟨b', by rw [hy], this.1⟩

theorem writerOk_failed (w : Writer) (done : List Message) (m : Message) (e : Str)
    (h : ∀ a m b, done = a ++ m :: b → w a m = none) (hm : w done m = some e) : WriterOk w ⟨done ++ [m], .failed e⟩ := by
  constructor
  · intro a x b hb hne
    rcases snoc_split hb with ⟨rfl, _⟩ | ⟨b', _, hd⟩
    · exact absurd rfl hne
    · exact h _ _ _ hd
  · intro a x b e' hb hx
    rcases snoc_split hb with ⟨rfl, rfl, rfl⟩ | ⟨b', _, hd⟩
    · rw [hm] at hx; simp at hx; subst hx; exact ⟨rfl, rfl⟩
    · rw [h _ _ _ hd] at hx; simp at hx

theorem allOk_snoc {w : Writer} {done : List Message} {m : Message} (h : ∀ a m b, done = a ++ m :: b → w a m = none)
    (hm : w done m = none) : ∀ a x b, done ++ [m] = a ++ x :: b → w a x = none := by
  intro a x b hb
  rcases snoc_split hb with ⟨rfl, rfl, rfl⟩ | ⟨b', _, hd⟩
  · exact hm
  · exact h _ _ _ hd

/-- The documents: what is written is a document for every file up to the point where the run stops. -/
theorem writeDocuments_spec (D ord w heap docs) (fs : List (Package × SourceFile)) (g : Global) (done : List Message)
    (hok : ∀ a m b, done = a ++ m :: b → w a m = none) :
    let r := writeDocuments D ord w heap docs fs g done
    WriterOk w r ∧ (∃ ds, r.messages = done ++ ds ∧ (∀ m ∈ ds, isDocument m) ∧
      documentPaths ds <+: fs.filterMap (fun e => (docs.get e.2.fileName).map (·.relativePath)) ∧
      (r.outcome = .ok → documentPaths ds = fs.filterMap (fun e => (docs.get e.2.fileName).map (·.relativePath)) ∧
        (∀ a m b, r.messages = a ++ m :: b → w a m = none))) ∧
    (∀ e, r.outcome = .failed e → ∃ a m, r.messages = a ++ [m] ∧ w a m = some e) := by
  induction fs generalizing g done with
  | nil =>
    refine ⟨writerOk_of w done _ hok, ⟨[], by simp [writeDocuments], by simp, by simp [documentPaths], fun _ => ⟨by simp [documentPaths], ?_⟩⟩, ?_⟩
    · intro a m b hb
      exact hok a m b (by simpa [writeDocuments] using hb)
    · intro e he; simp [writeDocuments] at he
  | cons pf fs ih =>
    obtain ⟨p, f⟩ := pf
    unfold writeDocuments
    cases hd : docs.get f.fileName with
    | none =>
      simp only [List.filterMap_cons, hd, Option.map_none]
      exact ih g done hok
    | some d =>
      simp only [List.filterMap_cons, hd, Option.map_some]
      cases hv : visitFile D ord heap done.length p f d g with
      | none =>
        simp only
        exact ⟨writerOk_of w done _ hok, ⟨[], by simp, by simp, by simp [documentPaths], by simp⟩, by simp⟩
      | some mg =>
        obtain ⟨m, g'⟩ := mg
        have hm : ∃ occs syms, m = .document d.relativePath occs syms := by
          unfold visitFile at hv
          split at hv
          · simp at hv
          · simp only at hv
            split at hv
            · simp at hv
            · simp only [Option.some.injEq, Prod.mk.injEq] at hv
              exact ⟨_, _, hv.1.symm⟩
        obtain ⟨occs, syms, rfl⟩ := hm
        simp only
        cases hw : w done (.document d.relativePath occs syms) with
        | some e =>
          simp only
          refine ⟨writerOk_failed w done _ e hok hw, ⟨[.document d.relativePath occs syms], rfl, by simp [isDocument], ?_, by simp⟩, ?_⟩
          · simp [documentPaths]
          · rintro e' he
            simp only [Outcome.failed.injEq] at he
            subst he
            exact ⟨_, _, rfl, hw⟩
        | none =>
          simp only
          obtain ⟨h1, ⟨ds, h2, h3, h4, h5⟩, h6⟩ := ih g' (done ++ [.document d.relativePath occs syms]) (allOk_snoc hok hw)
          refine ⟨h1, ⟨.document d.relativePath occs syms :: ds, by rw [h2]; simp, ?_, ?_, ?_⟩, h6⟩
          · intro m hm
            rcases List.mem_cons.1 hm with rfl | hm
            · trivial
            · exact h3 m hm
          · simp only [documentPaths, List.filterMap_cons]
            exact List.cons_prefix_cons.2 ⟨rfl, h4⟩
          · intro ho
            obtain ⟨e1, e2⟩ := h5 ho
            exact ⟨by simp only [documentPaths, List.filterMap_cons]; rw [← e1]; rfl, e2⟩

theorem writeExternals_spec (w) (ms done : List Message) (hok : ∀ a m b, done = a ++ m :: b → w a m = none) :
    let r := writeExternals w ms done
    WriterOk w r ∧ (∃ es, r.messages = done ++ es ∧ es <+: ms ∧ (r.outcome = .ok → es = ms)) ∧ r.outcome ≠ .crash ∧
    (∀ e, r.outcome = .failed e → ∃ a m, r.messages = a ++ [m] ∧ w a m = some e) := by
  induction ms generalizing done with
  | nil => exact ⟨writerOk_of w done _ hok, ⟨[], by simp [writeExternals], by simp, fun _ => rfl⟩, by simp [writeExternals], by simp [writeExternals]⟩
  | cons m ms ih =>
    unfold writeExternals
    cases hw : w done m with
    | some e =>
      refine ⟨writerOk_failed w done _ e hok hw, ⟨[m], rfl, by simp, by simp⟩, by simp, ?_⟩
      rintro e' he
      simp only [Outcome.failed.injEq] at he
      subst he
      exact ⟨_, _, rfl, hw⟩
    | none =>
      obtain ⟨h1, ⟨es, h2, h3, h4⟩, h5, h6⟩ := ih (done ++ [m]) (allOk_snoc hok hw)
      refine ⟨h1, ⟨m :: es, by simp only; rw [h2]; simp, List.cons_prefix_cons.2 ⟨rfl, h3⟩, fun ho => by rw [h4 ho]⟩, h5, h6⟩

end Verif.Index
