import Verif.Spec.Project
import Verif.Lemmas.Index
import Verif.Lemmas.Memo
import Verif.Lemmas.Table
/-! # Lemmas: the global symbol table of a run -/
namespace Verif.Index
open Verif Verif.Spec

/-! ### The symbol table -/

theorem setPkgSymbols_frame (ps : List Package) (g : Global) :
    (setPkgSymbols ps g).composer = g.composer ∧ (setPkgSymbols ps g).skipped = g.skipped := by
  induction ps generalizing g with
  | nil => exact ⟨rfl, rfl⟩
  | cons p ps ih =>
    unfold setPkgSymbols
    obtain ⟨a, b⟩ := ih (g.setPkgSymbol p.path p.env.module).1
    exact ⟨a.trans rfl, b.trans rfl⟩

theorem setPkgSymbols_other (ps : List Package) (g : Global) (k : Str) (h : k ∉ ps.map (·.path)) :
    (setPkgSymbols ps g).symbols.lookup k = g.symbols.lookup k ∧ (setPkgSymbols ps g).getPkgSymbol k = g.getPkgSymbol k := by
  induction ps generalizing g with
  | nil => exact ⟨rfl, rfl⟩
  | cons p ps ih =>
    simp only [List.map_cons, List.mem_cons, not_or] at h
    unfold setPkgSymbols
    obtain ⟨a, b⟩ := ih (g.setPkgSymbol p.path p.env.module).1 h.2
    have hne : (k == p.path) = false := by simpa using h.1
    refine ⟨a.trans ?_, b.trans ?_⟩
    · simp only [Global.setPkgSymbol, List.lookup_cons, hne]
    · simp only [Global.setPkgSymbol, Global.getPkgSymbol, List.lookup_cons, hne]

theorem setPkgSymbols_mem (ps : List Package) (g : Global) (hn : (ps.map (·.path)).Nodup) (p : Package) (hp : p ∈ ps) :
    (setPkgSymbols ps g).symbols.lookup p.path = some ⟨some p.env.module, []⟩ ∧
    (setPkgSymbols ps g).getPkgSymbol p.path = some (packageSymbol p) := by
  induction ps generalizing g with
  | nil => simp at hp
  | cons q ps ih =>
    simp only [List.map_cons, List.nodup_cons] at hn
    unfold setPkgSymbols
    rcases List.mem_cons.1 hp with rfl | hp
    · obtain ⟨a, b⟩ := setPkgSymbols_other ps (g.setPkgSymbol p.path p.env.module).1 p.path hn.1
      refine ⟨a.trans ?_, b.trans ?_⟩
      · simp [Global.setPkgSymbol]
      · simp [Global.setPkgSymbol, Global.getPkgSymbol, packageSymbol]
    · exact ih _ hn.2 hp

/-- The table that is registered for a package. -/
def tableFor (p : Package) (sym : Str) : Option Table :=
  (visitPackageSyntax p.env (p.files.map SourceFile.node) []).map fun t =>
    match p.files with
    | [] => t
    | f :: _ => t.set f.name.pos (packageInfo p sym)

theorem visitPackage_global {root p s s'} (h : visitPackage root p s = some s') :
    ∃ t, tableFor p ((s.2.getPkgSymbol p.path).getD []) = some t ∧ s'.2 = s.2.add p.path ⟨some p.env.module, t⟩ := by
  unfold visitPackage visitSyntaxOf at h
  unfold tableFor
  cases hv : visitPackageSyntax p.env (p.files.map SourceFile.node) [] with
  | none => rw [hv] at h; simp at h
  | some t =>
    rw [hv] at h
    simp only [Option.map_some] at h
    cases hf : p.files with
    | nil => rw [hf] at h; simp only [Option.some.injEq] at h; subst h; exact ⟨_, rfl, rfl⟩
    | cons f fs => rw [hf] at h; simp only [Option.some.injEq] at h; subst h; exact ⟨_, rfl, rfl⟩

theorem visitPackages_frame {root ps s s'} (h : visitPackages root ps s = some s') :
    s'.2.composer = s.2.composer ∧ s'.2.skipped = s.2.skipped ∧ s'.2.pkgSymbols = s.2.pkgSymbols ∧
    ∀ k, k ∉ ps.map (·.path) → s'.2.symbols.lookup k = s.2.symbols.lookup k := by
  induction ps generalizing s with
  | nil => simp only [visitPackages, Option.some.injEq] at h; subst h; simp
  | cons p ps ih =>
    unfold visitPackages at h
    split at h
    · simp at h
    · rename_i s₁ hs₁
      obtain ⟨a, b, c, d⟩ := ih h
      obtain ⟨t, _, hg⟩ := visitPackage_global hs₁
      rw [hg] at a b c d
      refine ⟨a, b, c, fun k hk => ?_⟩
      simp only [List.map_cons, List.mem_cons, not_or] at hk
      rw [d k hk.2]
      have hne : (k == p.path) = false := by simpa using hk.1
      simp only [Global.add, List.lookup_cons, hne]

theorem visitPackages_mem {root ps s s'} (h : visitPackages root ps s = some s') (hn : (ps.map (·.path)).Nodup)
    (p : Package) (hp : p ∈ ps) :
    ∃ t, tableFor p ((s.2.getPkgSymbol p.path).getD []) = some t ∧ s'.2.symbols.lookup p.path = some ⟨some p.env.module, t⟩ := by
  induction ps generalizing s with
  | nil => simp at hp
  | cons q ps ih =>
    simp only [List.map_cons, List.nodup_cons] at hn
    unfold visitPackages at h
    split at h
    · simp at h
    · rename_i s₁ hs₁
      obtain ⟨t, ht, hg⟩ := visitPackage_global hs₁
      rcases List.mem_cons.1 hp with rfl | hp
      · refine ⟨t, ht, ?_⟩
        rw [(visitPackages_frame h).2.2.2 _ hn.1, hg]
        simp [Global.add]
      · have := ih h hn.2 hp
        rw [hg] at this
        exact this

theorem filterMap_congr' {α β : Type} {f g : α → Option β} {l : List α} (h : ∀ x ∈ l, f x = g x) : l.filterMap f = l.filterMap g := by
  induction l with
  | nil => rfl
  | cons a l ih => rw [List.filterMap_cons, List.filterMap_cons, h a (by simp), ih (fun x hx => h x (by simp [hx]))]

theorem sortedValues_spec {m : GoMap Package} (hk : Keyed m) :
    (sortedValues m).Perm (m.map (·.2)) ∧ (sortedValues m).Pairwise (fun p q => Str.lt p.path q.path = true) := by
  have hget : ∀ k p, m.get k = some p → p.path = k := fun k p h => hk.path k p (GoMap.mem_of_get h)
  have hmap : (sortedValues m).map (·.path) = sortStrs m.keys := by
    unfold sortedValues
    rw [List.map_filterMap]
    have : ∀ l : List Str, (∀ k ∈ l, k ∈ m.keys) → l.filterMap (fun x => (m.get x).map (·.path)) = l := by
      intro l hl
      induction l with
      | nil => rfl
      | cons k l ih =>
        obtain ⟨p, hp⟩ := GoMap.mem_keys.1 (hl k (by simp))
        rw [List.filterMap_cons, hp]
        simp only [Option.map_some]
        rw [ih (fun x hx => hl x (by simp [hx])), hget k p hp]
    exact this _ (fun k h => (sortStrs_perm m.keys).subset h)
  constructor
  · have h1 : (sortedValues m).Perm (m.keys.filterMap m.get) := (sortStrs_perm m.keys).filterMap _
    refine h1.trans (List.Perm.of_eq ?_)
    unfold GoMap.keys
    rw [List.filterMap_map, ← List.filterMap_eq_map]
    apply filterMap_congr'
    rintro ⟨k, p⟩ he
    show m.get k = _
    rw [GoMap.get_of_mem hk.nodup he]
    rfl
  · have := sortStrs_strict hk.nodup
    unfold StrictlySorted at this
    rw [← hmap] at this
    exact List.pairwise_map.1 this

theorem keyed_paths {m : GoMap Package} (hk : Keyed m) : (m.map (·.2)).map (·.path) = m.keys := by
  unfold GoMap.keys
  rw [List.map_map]
  apply List.map_congr_left
  rintro ⟨k, p⟩ he
  exact hk.path k p he

theorem mem_sortedValues {m : GoMap Package} (hk : Keyed m) {p : Package} : p ∈ sortedValues m ↔ (p.path, p) ∈ m := by
  rw [(sortedValues_spec hk).1.mem_iff, List.mem_map]
  constructor
  · rintro ⟨⟨k, q⟩, he, rfl⟩
    simp only
    rw [hk.path k q he]; exact he
  · intro h; exact ⟨_, h, rfl⟩

theorem sortedValues_nodup {m : GoMap Package} (hk : Keyed m) : ((sortedValues m).map (·.path)).Nodup := by
  have := ((sortedValues_spec hk).1.map (·.path)).nodup_iff
  rw [this, keyed_paths hk]
  exact hk.nodup

/-- The contents of the symbol table after the collecting pass, independent of any order. -/
structure Collected' (o : Opts) (project all : GoMap Package) (g : Global) : Prop where
  composer : g.composer = newComposer o.moduleRoot o.moduleVersion
  skipped : g.skipped = []
  packages : ∀ k, g.getPkgSymbol k = (all.get k).map packageSymbol
  inProject : ∀ p, (p.path, p) ∈ project → ∃ t, tableFor p (packageSymbol p) = some t ∧
    g.symbols.lookup p.path = some ⟨some p.env.module, t⟩
  others : ∀ k, project.get k = none → g.symbols.lookup k = (all.get k).map (fun p => ⟨some p.env.module, []⟩)

theorem collected_global {o ord project all docs g} (hk : Keyed project) (ha : Keyed all)
    (hsub : ∀ k p, (k, p) ∈ project → (k, p) ∈ all) (hord : ∀ l, (ord.all l).Perm l)
    (h : indexVisitPackages o ord project all = some (docs, g)) : Collected' o project all g := by
  unfold indexVisitPackages at h
  have hn : ((ord.all (all.map (·.2))).map (·.path)).Nodup := by
    rw [((hord _).map (·.path)).nodup_iff, keyed_paths ha]; exact ha.nodup
  have hmem : ∀ p, (p.path, p) ∈ all → p ∈ ord.all (all.map (·.2)) :=
    fun p hp => (hord _).symm.subset (List.mem_map.2 ⟨_, hp, rfl⟩)
  have hnot : ∀ k, all.get k = none → k ∉ (ord.all (all.map (·.2))).map (·.path) := by
    intro k hk' hm
    have := ((hord (all.map (·.2))).map (·.path)).subset hm
    rw [keyed_paths ha] at this
    obtain ⟨v, hv⟩ := GoMap.mem_keys.1 this
    rw [hk'] at hv; simp at hv
  obtain ⟨f1, f2, f3, f4⟩ := visitPackages_frame h
  have hsym : ∀ k, (setPkgSymbols (ord.all (all.map (·.2))) (newGlobal o)).getPkgSymbol k = (all.get k).map packageSymbol := by
    intro k
    cases hg : all.get k with
    | none => rw [(setPkgSymbols_other _ _ _ (hnot k hg)).2]; rfl
    | some p =>
      have hp := GoMap.mem_of_get hg
      have e := ha.path k p hp
      subst e
      rw [(setPkgSymbols_mem _ _ hn p (hmem p hp)).2]; rfl
  refine ⟨?_, ?_, ?_, ?_, ?_⟩
  · rw [f1, (setPkgSymbols_frame _ _).1]; rfl
  · rw [f2, (setPkgSymbols_frame _ _).2]; rfl
  · intro k
    rw [← hsym]
    simp only [Global.getPkgSymbol]
    rw [f3]
  · intro p hp
    obtain ⟨t, ht, hl⟩ := visitPackages_mem h (sortedValues_nodup hk) p ((mem_sortedValues hk).2 hp)
    rw [hsym, GoMap.get_of_mem ha.nodup (hsub _ _ hp)] at ht
    exact ⟨t, ht, hl⟩
  · intro k hk'
    rw [f4 k]
    · cases hg : all.get k with
      | none => rw [(setPkgSymbols_other _ _ _ (hnot k hg)).1]; rfl
      | some p =>
        have hp := GoMap.mem_of_get hg
        have e := ha.path k p hp
        subst e
        rw [(setPkgSymbols_mem _ _ hn p (hmem p hp)).1]; rfl
    · intro hm
      obtain ⟨p, hp, rfl⟩ := List.mem_map.1 hm
      rw [GoMap.get_of_mem hk.nodup ((mem_sortedValues hk).1 hp)] at hk'
      simp at hk'

end Verif.Index

namespace Verif.Index
open Verif Verif.Spec

theorem filesOf_cons (p : Package) (ps : List Package) :
    filesOf (p :: ps) = p.files.map (fun f => (p, f)) ++ filesOf ps := by simp [filesOf]

theorem mem_filesOf {ps : List Package} {e : Package × SourceFile} : e ∈ filesOf ps ↔ e.1 ∈ ps ∧ e.2 ∈ e.1.files := by
  unfold filesOf
  rw [List.mem_flatMap]
  constructor
  · rintro ⟨p, hp, he⟩
    obtain ⟨f, hf, rfl⟩ := List.mem_map.1 he
    exact ⟨hp, hf⟩
  · rintro ⟨h1, h2⟩
    exact ⟨e.1, h1, List.mem_map.2 ⟨e.2, h2, rfl⟩⟩

/-- Documents of packages visited before are not touched again. -/
theorem visitPackages_keeps {root ps s s'} (h : visitPackages root ps s = some s') (k : Str)
    (hk : k ∉ (filesOf ps).map (·.2.fileName)) : s'.1.get k = s.1.get k := by
  induction ps generalizing s with
  | nil => simp only [visitPackages, Option.some.injEq] at h; subst h; rfl
  | cons p ps ih =>
    unfold visitPackages at h
    split at h
    · simp at h
    · rename_i s₁ hs₁
      rw [filesOf_cons, List.map_append, List.mem_append, not_or] at hk
      rw [ih h hk.2, (visitPackage_docs hs₁).2.1 k (by simpa [Function.comp_def] using hk.1)]

theorem nodup_file {fs : List SourceFile} (hn : (fs.map (·.fileName)).Nodup) {a b : SourceFile} (ha : a ∈ fs) (hb : b ∈ fs)
    (h : a.fileName = b.fileName) : a = b := by
  induction fs with
  | nil => simp at ha
  | cons c fs ih =>
    simp only [List.map_cons, List.nodup_cons] at hn
    rcases List.mem_cons.1 ha with h1 | h1 <;> rcases List.mem_cons.1 hb with h2 | h2
    · rw [h1, h2]
    · exact absurd (List.mem_map.2 ⟨b, h2, by rw [← h, h1]⟩) hn.1
    · exact absurd (List.mem_map.2 ⟨a, h1, by rw [h, h2]⟩) hn.1
    · exact ih hn.2 h1 h2

/-- Every file has its document, with the occurrence of its own package clause. -/
theorem visitPackages_doc {root ps s s'} (h : visitPackages root ps s = some s')
    (hn : ((filesOf ps).map (·.2.fileName)).Nodup) (e : Package × SourceFile) (he : e ∈ filesOf ps) :
    s'.1.get e.2.fileName = some ⟨(Filepath.rel root e.2.fileName).getD [],
      some (packageOccurrence e.1 ((s.2.getPkgSymbol e.1.path).getD []) e.2)⟩ := by
  induction ps generalizing s with
  | nil => simp [filesOf] at he
  | cons p ps ih =>
    unfold visitPackages at h
    split at h
    · simp at h
    · rename_i s₁ hs₁
      rw [filesOf_cons, List.map_append, List.nodup_append] at hn
      obtain ⟨hn1, hn2, hn3⟩ := hn
      rw [filesOf_cons, List.mem_append] at he
      rcases he with he | he
      · obtain ⟨f, hf, rfl⟩ := List.mem_map.1 he
        have hk : f.fileName ∉ (filesOf ps).map (·.2.fileName) := by
          intro hm
          exact hn3 _ (List.mem_map.2 ⟨(p, f), he, rfl⟩) _ hm rfl
        rw [visitPackages_keeps h _ hk]
        obtain ⟨d1, _, d3⟩ := visitPackage_docs hs₁
        have hmem : f.fileName ∈ p.files.map (·.fileName) := List.mem_map.2 ⟨f, hf, rfl⟩
        obtain ⟨f', hf', e1, e2⟩ := d3 _ hmem
        have hff : f' = f := nodup_file (by simpa [Function.comp_def] using hn1) hf' hf e1
        subst hff
        have e0 := d1 f'.fileName
        rw [if_pos hmem] at e0
        cases hd : s₁.1.get f'.fileName with
        | none => rw [hd] at e0; simp at e0
        | some d =>
          rw [hd] at e0 e2
          simp only [Option.map_some, Option.some.injEq] at e0 e2
          obtain ⟨r, o⟩ := d
          simp only at e0 e2
          rw [e0, e2]
      · have hps : s₁.2.pkgSymbols = s.2.pkgSymbols := by
          obtain ⟨t, _, hg⟩ := visitPackage_global hs₁
          rw [hg]; rfl
        rw [ih h hn2 he]
        simp only [Global.getPkgSymbol, hps]

end Verif.Index
