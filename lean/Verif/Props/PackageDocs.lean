import Verif.Spec.PackageDocs
import Verif.Lemmas.Sort
import Verif.Lemmas.Pseudo
/-! # C57: package documentation -/
namespace Verif
open Spec Index

theorem insertBy_filter {α : Type} (key : α → Nat) (k : Nat) (x : α) (l : List α) :
    (insertBy (fun a b => decide (key a ≤ key b)) x l).filter (fun a => key a == k) = (x :: l).filter (fun a => key a == k) := by
  induction l with
  | nil => rfl
  | cons y l ih =>
    unfold insertBy
    split
    · rfl
    · rename_i h
      have hlt : key y < key x := by simpa using h
      rw [List.filter_cons, ih]
      by_cases hx : key x = k
      · have hy : key y ≠ k := by omega
        simp [hx, hy]
      · rw [List.filter_cons, List.filter_cons, List.filter_cons]
        simp [hx]

/-- A stable sort keeps the order within each class. -/
theorem sortBy_filter {α : Type} (key : α → Nat) (k : Nat) (l : List α) :
    (sortBy (fun a b => decide (key a ≤ key b)) l).filter (fun a => key a == k) = l.filter (fun a => key a == k) := by
  induction l with
  | nil => rfl
  | cons x l ih =>
    show (insertBy _ x (sortBy _ l)).filter _ = _
    rw [insertBy_filter, List.filter_cons, List.filter_cons, ih]

theorem sorted_split {α : Type} (key : α → Nat) (m : Nat) (l : List α) (h : l.Pairwise (fun a b => key a ≤ key b))
    (hm : ∀ a ∈ l, m ≤ key a) :
    l = l.filter (fun a => key a == m) ++ l.filter (fun a => decide (m < key a)) := by
  induction l with
  | nil => rfl
  | cons x l ih =>
    have h' := List.pairwise_cons.1 h
    have := ih h'.2 (fun a ha => hm a (by simp [ha]))
    by_cases hx : key x = m
    · have hx' : ¬ m < key x := by omega
      rw [List.filter_cons, List.filter_cons, if_pos (by simpa using hx), if_neg (by simpa using hx'), List.cons_append]
      rw [← this]
    · have hx' : m < key x := by have := hm x (by simp); omega
      have e : (x :: l).filter (fun a => key a == m) = [] := by
        rw [List.filter_eq_nil_iff]
        intro a ha
        have : key x ≤ key a := by
          rcases List.mem_cons.1 ha with rfl | ha
          · exact Nat.le_refl _
          · exact h'.1 a ha
        simp; omega
      have e' : (x :: l).filter (fun a => decide (m < key a)) = x :: l := by
        rw [List.filter_eq_self]
        intro a ha
        have : key x ≤ key a := by
          rcases List.mem_cons.1 ha with rfl | ha
          · exact Nat.le_refl _
          · exact h'.1 a ha
        simp; omega
      rw [e, e']; rfl

theorem sortBy_classes {α : Type} (key : α → Nat) (l : List α) (hk : ∀ a ∈ l, key a ≤ 3) :
    sortBy (fun a b => decide (key a ≤ key b)) l =
      l.filter (fun a => key a == 0) ++ l.filter (fun a => key a == 1) ++ l.filter (fun a => key a == 2) ++
        l.filter (fun a => key a == 3) := by
  obtain ⟨s, hs⟩ : ∃ s, s = sortBy (fun a b => decide (key a ≤ key b)) l := ⟨_, rfl⟩
  have hsorted : s.Pairwise (fun a b => key a ≤ key b) := by
    have := sortBy_sorted (le := fun a b => decide (key a ≤ key b)) (by simp; intros; omega) (by simp; intros; omega) l
    rw [← hs] at this
    simpa using this
  have hmem : ∀ a ∈ s, key a ≤ 3 := by
    intro a ha
    rw [hs] at ha
    exact hk a ((sortBy_perm _ _).subset ha)
  rw [← sortBy_filter key 0 l, ← sortBy_filter key 1 l, ← sortBy_filter key 2 l, ← sortBy_filter key 3 l, ← hs]
  have ff : ∀ (m k : Nat), m < k → (s.filter (fun a => decide (m < key a))).filter (fun a => key a == k) = s.filter (fun a => key a == k) := by
    intro m k hmk
    rw [List.filter_filter]
    apply List.filter_congr
    intro a _
    by_cases h : key a = k
    · simp [h, hmk]
    · simp [h]
  have fg : ∀ (m k : Nat), m < k → (s.filter (fun a => decide (m < key a))).filter (fun a => decide (k < key a)) = s.filter (fun a => decide (k < key a)) := by
    intro m k hmk
    rw [List.filter_filter]
    apply List.filter_congr
    intro a _
    by_cases h : k < key a
    · have : m < key a := by omega
      simp [h, this]
    · simp [h]
  have h0 := sorted_split key 0 s hsorted (by simp)
  have h1 := sorted_split key 1 (s.filter (fun a => decide (0 < key a))) (hsorted.filter _) (by simp; intros; omega)
  have h2 := sorted_split key 2 (s.filter (fun a => decide (1 < key a))) (hsorted.filter _) (by simp; intros; omega)
  have h3 := sorted_split key 3 (s.filter (fun a => decide (2 < key a))) (hsorted.filter _) (by simp; intros; omega)
  rw [ff _ _ (by omega), fg _ _ (by omega)] at h1 h2 h3
  have h4 : s.filter (fun a => decide (3 < key a)) = [] := by
    rw [List.filter_eq_nil_iff]; intro a ha; have := hmem a ha; simp; omega
  rw [h4, List.append_nil] at h3
  rw [h3] at h2
  rw [h2] at h1
  rw [h1] at h0
  rw [List.append_assoc, List.append_assoc]
  exact h0

theorem takeWhile_stop_at {p : Char → Bool} (a : Str) (c : Char) (b : Str) (ha : ∀ x ∈ a, p x = true) (hc : p c = false) :
    (a ++ c :: b).takeWhile p = a := by
  induction a with
  | nil => simp [hc]
  | cons x a ih =>
    rw [List.cons_append, List.takeWhile_cons, if_pos (ha x (by simp)), ih (fun y hy => ha y (by simp [hy]))]

theorem takeWhile_all {p : Char → Bool} (a : Str) (ha : ∀ x ∈ a, p x = true) : a.takeWhile p = a := by
  induction a with
  | nil => rfl
  | cons x a ih => rw [List.takeWhile_cons, if_pos (ha x (by simp)), ih (fun y hy => ha y (by simp [hy]))]

/-- The part after the last slash. -/
theorem lastElem {dir base : Str} (hd : dir = [] ∨ ∃ d, dir = d ++ ['/']) (hb : '/' ∉ base) :
    ((dir ++ base).reverse.takeWhile (· != '/')).reverse = base := by
  have hall : ∀ x ∈ base.reverse, (x != '/') = true := by
    intro x hx
    have : x ≠ '/' := by rintro rfl; exact hb (List.mem_reverse.1 hx)
    simpa using this
  rcases hd with rfl | ⟨d, rfl⟩
  · rw [List.nil_append, takeWhile_all _ hall, List.reverse_reverse]
  · have e : (d ++ ['/'] ++ base).reverse = base.reverse ++ '/' :: d.reverse := by simp
    rw [e, takeWhile_stop_at _ _ _ hall (by simp), List.reverse_reverse]

theorem pathBase_of {dir base : Str} (hd : dir = [] ∨ ∃ d, dir = d ++ ['/']) (hb : '/' ∉ base) (hne : base ≠ []) :
    pathBase (dir ++ base) = base := by
  unfold pathBase
  have h1 : dir ++ base ≠ [] := by simp [hne]
  rw [if_neg h1]
  have h2 : ((dir ++ base).reverse.dropWhile (· == '/')) = (dir ++ base).reverse := by
    rw [List.reverse_append]
    cases hr : base.reverse with
    | nil => simp at hr; exact absurd hr hne
    | cons x r =>
      have hx : x ≠ '/' := by
        rintro rfl
        exact hb (List.mem_reverse.1 (by rw [hr]; simp))
      rw [List.cons_append, List.dropWhile_cons, if_neg (by simpa using hx)]
  simp only [h2, List.reverse_reverse]
  rw [if_neg h1, lastElem hd hb]

theorem pathExt_of {dir stem ext : Str} (h : IsFileName dir stem ext) : pathExt (dir ++ (stem ++ '.' :: ext)) = '.' :: ext := by
  have hb : '/' ∉ stem ++ '.' :: ext := by
    simp only [List.mem_append, List.mem_cons, not_or]
    exact ⟨h.stem, by decide, h.extSlash⟩
  unfold pathExt
  simp only [lastElem h.dir hb]
  rw [if_pos (by simp)]
  have e : (stem ++ '.' :: ext).reverse = ext.reverse ++ '.' :: stem.reverse := by simp
  rw [e, takeWhile_stop_at _ _ _ ?_ (by simp), List.reverse_reverse]
  intro x hx
  have : x ≠ '.' := by rintro rfl; exact h.extDot (List.mem_reverse.1 hx)
  simpa using this

theorem lastDot_unique {a b c d : Str} (hb : '.' ∉ b) (hd : '.' ∉ d) (h : a ++ '.' :: b = c ++ '.' :: d) : a = c ∧ b = d := by
  have h' := congrArg (fun l => (l.reverse.takeWhile (· != '.')).reverse) h
  have key : ∀ (x y : Str), '.' ∉ y → ((x ++ '.' :: y).reverse.takeWhile (· != '.')).reverse = y := by
    intro x y hy
    have e : (x ++ '.' :: y).reverse = y.reverse ++ '.' :: x.reverse := by simp
    rw [e, takeWhile_stop_at _ _ _ ?_ (by simp), List.reverse_reverse]
    intro z hz
    have : z ≠ '.' := by rintro rfl; exact hy (List.mem_reverse.1 hz)
    simpa using this
  simp only [key _ _ hb, key _ _ hd] at h'
  subst h'
  exact ⟨List.append_cancel_right h, rfl⟩

theorem suffix_base {dir base s : Str} (hd : dir = [] ∨ ∃ d, dir = d ++ ['/']) (hs : '/' ∉ s) : s <:+ dir ++ base ↔ s <:+ base := by
  constructor
  · rintro ⟨t, ht⟩
    rcases hd with rfl | ⟨d, rfl⟩
    · exact ⟨t, ht⟩
    · rcases List.append_eq_append_iff.1 ht with ⟨x, hx, hy⟩ | ⟨x, hx, hy⟩
      · -- s = x ++ base with '/' in x unless x is empty
        cases x with
        | nil => exact ⟨[], by simpa using hy⟩
        | cons c x =>
          exfalso
          apply hs
          rw [hy]
          apply List.mem_append_left
          have : (t ++ c :: x).getLast? = some '/' := by rw [← hx]; simp
          rw [List.getLast?_append] at this
          cases hl : (c :: x).getLast? with
          | none => simp at hl
          | some z =>
            rw [hl] at this
            simp only [Option.some_or, Option.some.injEq] at this
            subst this
            exact List.mem_of_getLast? hl
      · exact ⟨x, hy.symm⟩
  · rintro ⟨t, rfl⟩
    exact ⟨dir ++ t, by simp⟩

/-- **C57** (classes). The class of a file is determined by its name as documented. -/
theorem C57_relevance (pkgName dir stem ext : Str) (h : IsFileName dir stem ext) :
    fileRelevance pkgName (dir ++ stem ++ '.' :: ext) = relevance pkgName stem ext := by
  have hb : '/' ∉ stem ++ '.' :: ext := by
    simp only [List.mem_append, List.mem_cons, not_or]
    exact ⟨h.stem, by decide, h.extSlash⟩
  rw [List.append_assoc]
  unfold fileRelevance relevance
  rw [pathBase_of h.dir hb (by simp), pathExt_of h, Semver.trimSuffix_append]
  have e1 : stem ++ '.' :: ext = go!"doc.go" ↔ stem = go!"doc" ∧ ext = go!"go" := by
    constructor
    · intro e
      exact lastDot_unique (c := go!"doc") (d := go!"go") h.extDot (by decide) e
    · rintro ⟨rfl, rfl⟩; rfl
  have e2 : Str.hasSuffix (dir ++ (stem ++ '.' :: ext)) go!"_test.go" = true ↔ ext = go!"go" ∧ go!"_test" <:+ stem := by
    unfold Str.hasSuffix
    rw [List.isSuffixOf_iff_suffix, suffix_base h.dir (by decide)]
    constructor
    · rintro ⟨t, ht⟩
      have ht' : (t ++ go!"_test") ++ '.' :: go!"go" = stem ++ '.' :: ext := by rw [← ht]; simp
      obtain ⟨a, b⟩ := lastDot_unique (by decide) h.extDot ht'
      exact ⟨b.symm, t, a⟩
    · rintro ⟨rfl, t, rfl⟩
      exact ⟨t, by simp⟩
  by_cases c1 : stem = go!"doc" ∧ ext = go!"go"
  · rw [if_pos (e1.2 c1), if_pos c1]
  · rw [if_neg (fun x => c1 (e1.1 x)), if_neg c1]
    by_cases c2 : stem = pkgName
    · rw [if_pos c2, if_pos c2]
    · rw [if_neg c2, if_neg c2]
      by_cases c3 : ext = go!"go" ∧ go!"_test" <:+ stem
      · rw [if_pos c3, if_neg (by simpa using e2.2 c3)]
      · rw [if_neg c3, if_pos (fun x => c3 (e2.1 x))]

/-- **C57.** For every package: its documentation is the doc comments of exactly the files that have one, those of doc.go first, then
those of the file named like the package, then those of other files, then those of tests, each class in file order. -/
theorem C57_package_docs (p : Package) : ∃ cls : SourceFile → Nat,
    (∀ f dir stem ext, f.position = dir ++ stem ++ '.' :: ext → IsFileName dir stem ext → cls f = relevance p.name stem ext) ∧
    findPackageDocs p = docsOfClass cls 0 p.files ++ docsOfClass cls 1 p.files ++ docsOfClass cls 2 p.files ++ docsOfClass cls 3 p.files ∧
    (findPackageDocs p).Perm (p.files.filterMap (·.doc)) := by
  refine ⟨fun f => fileRelevance p.name f.position, ?_, ?_, ?_⟩
  · intro f dir stem ext e h
    simp only [e]
    exact C57_relevance _ _ _ _ h
  · unfold findPackageDocs docsOfClass
    simp only
    rw [sortBy_classes (fun f : SourceFile => fileRelevance p.name f.position) _ (by
      intro a _; simp only [fileRelevance]; split
      · omega
      · split
        · omega
        · split <;> omega)]
    simp only [List.filterMap_append]
    have : ∀ k, ((p.files.filter (fun f => f.doc.isSome)).filter (fun a => fileRelevance p.name a.position == k)).filterMap (·.doc) =
        (p.files.filter (fun a => fileRelevance p.name a.position == k)).filterMap (·.doc) := by
      intro k
      induction p.files with
      | nil => rfl
      | cons f fs ih =>
        cases hd : f.doc with
        | none =>
          rw [List.filter_cons, if_neg (by simp [hd]), ih, List.filter_cons]
          split
          · rw [List.filterMap_cons, hd]
          · rfl
        | some d =>
          rw [List.filter_cons, if_pos (by simp [hd]), List.filter_cons, List.filter_cons]
          split
          · rw [List.filterMap_cons, List.filterMap_cons, ih]
          · exact ih
    rw [this, this, this, this]
  · unfold findPackageDocs
    simp only
    refine ((sortBy_perm _ _).filterMap _).trans (List.Perm.of_eq ?_)
    induction p.files with
    | nil => rfl
    | cons f fs ih =>
      cases hd : f.doc with
      | none => rw [List.filter_cons, if_neg (by simp [hd]), ih, List.filterMap_cons, hd]
      | some d => rw [List.filter_cons, if_pos (by simp [hd]), List.filterMap_cons, List.filterMap_cons, ih]

/-- Non-vacuity: the four classes on real names. -/
example :
    IsFileName go!"/m/" go!"doc" go!"go" ∧ fileRelevance go!"yaml" go!"/m/doc.go" = 0 ∧ fileRelevance go!"yaml" go!"/m/yaml.go" = 1 ∧
    fileRelevance go!"yaml" go!"/m/a.b.go" = 2 ∧ fileRelevance go!"yaml" go!"/m/_test.go/x.go" = 2 ∧
    fileRelevance go!"yaml" go!"/m/doc_test.go" = 3 :=
  ⟨⟨.inr ⟨go!"/m", rfl⟩, by decide, by decide, by decide⟩, by decide, by decide, by decide, by decide, by decide⟩

end Verif
