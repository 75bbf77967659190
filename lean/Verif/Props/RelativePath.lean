import Verif.Props.Index
import Verif.Lemmas.Filepath
import Mathlib.Data.List.Nodup
/-! # C73: relative paths of documents -/
namespace Verif
open Spec Filepath

theorem splitOn_sep (c : Char) (a s : Str) : Str.splitOn c (a ++ c :: s) = Str.splitOn c a ++ Str.splitOn c s := by
  induction a with
  | nil => simp [Str.splitOn]
  | cons d a ih =>
    rw [List.cons_append, Str.splitOn, Str.splitOn, ih]
    split
    · rfl
    · have := splitOn_ne_nil c a
      cases h : Str.splitOn c a with
      | nil => exact absurd h this
      | cons x l => rfl

theorem enter_names (l dir : List Str) (h : ∀ x ∈ l, Name x) : l.foldl enter dir = dir ++ l := by
  induction l generalizing dir with
  | nil => simp
  | cons x l ih =>
    have hx := h x (by simp)
    rw [List.foldl_cons, ih _ (fun y hy => h y (by simp [hy]))]
    unfold enter
    rw [if_neg (by simp [hx.1, hx.2.1]), if_neg hx.2.2.1]
    simp

theorem enter_up (n : Nat) (c as : List Str) (h : as.length = n) : (List.replicate n go!"..").foldl enter (c ++ as) = c := by
  induction n generalizing as with
  | zero => have := List.eq_nil_of_length_eq_zero h; subst this; simp
  | succ n ih =>
    rw [List.replicate_succ, List.foldl_cons]
    have hne : as ≠ [] := by intro e; rw [e] at h; simp at h
    have : enter (c ++ as) go!".." = c ++ as.dropLast := by
      unfold enter
      rw [if_neg (by decide), if_pos rfl, List.dropLast_append_of_ne_nil hne]
    rw [this]
    apply ih
    rw [List.length_dropLast, h]; rfl

/-- The relative path, by components: up to the common ancestor, then down. -/
theorem rel_abs {a b : Str} (ha : Absolute a) (hb : Absolute b) : ∃ c as bs, directory a = c ++ as ∧ directory b = c ++ bs ∧
    (as = [] ∨ bs = [] ∨ as.head? ≠ bs.head?) ∧
    rel a b = some (if directory b = directory a then go!"." else Str.join go!"/" (List.replicate as.length go!".." ++ bs)) := by
  have hna := (cleanComps_abs ha).2
  have hnb := (cleanComps_abs hb).2
  have pa : ∀ x ∈ directory a, x ≠ [] ∧ '/' ∉ x := fun x hx => ⟨(hna x hx).1, (hna x hx).2.2.2⟩
  have pb : ∀ x ∈ directory b, x ≠ [] ∧ '/' ∉ x := fun x hx => ⟨(hnb x hx).1, (hnb x hx).2.2.2⟩
  obtain ⟨c, h1, h2, h3⟩ := dropCommon_spec (directory a) (directory b)
  refine ⟨c, _, _, h1, h2, h3, ?_⟩
  unfold rel
  rw [clean_abs ha, clean_abs hb]
  simp only
  by_cases he : directory b = directory a
  · rw [if_pos (by rw [he]), if_pos he]
  · have hne : ¬ ('/' :: Str.join go!"/" (directory b) = '/' :: Str.join go!"/" (directory a)) := by
      intro e
      simp only [List.cons.injEq, true_and] at e
      exact he (join_inj pb pa e)
    rw [if_neg hne, if_neg (show ¬ ('/' :: Str.join go!"/" (directory a) = go!".") by simp), if_neg he]
    have hA : ∀ s : Str, isAbs ('/' :: s) = true := by intro s; rfl
    rw [if_neg (by rw [hA, hA]; simp)]
    simp only [hA, if_true, List.drop_succ_cons, List.drop_zero, pieces_join pa, pieces_join pb]
    obtain ⟨x, hx⟩ : ∃ x, x = dropCommon (directory a) (directory b) := ⟨_, rfl⟩
    rw [← hx] at h1 h2 h3 ⊢
    obtain ⟨as, bs⟩ := x
    simp only at h1 h2 h3
    cases as with
    | nil => simp
    | cons k as =>
      have hk : Name k := hna k (by rw [h1]; simp)
      simp only [if_neg hk.2.2.1]
      rw [List.map_const']

/-- **C73** (any two absolute paths): the relative path exists, is not absolute, and followed from the root leads to the file. -/
theorem C73_leads_to_file (root file : Str) (hr : Absolute root) (hf : Absolute file) :
    ∃ r, rel root file = some r ∧ ¬ Absolute r ∧ directory (root ++ '/' :: r) = directory file := by
  obtain ⟨c, as, bs, h1, h2, _, h4⟩ := rel_abs hr hf
  refine ⟨_, h4, ?_, ?_⟩
  all_goals
    have hnf := (cleanComps_abs hf).2
    have hbs : ∀ x ∈ bs, Name x := fun x hx => hnf x (by rw [h2]; simp [hx])
    have hall : ∀ x ∈ List.replicate as.length go!".." ++ bs, x ≠ [] ∧ '/' ∉ x := by
      intro x hx
      rcases List.mem_append.1 hx with h | h
      · rw [List.eq_of_mem_replicate h]; decide
      · exact ⟨(hbs x h).1, (hbs x h).2.2.2⟩
  · split
    · simp [Absolute]
    · rename_i hne
      cases hl : List.replicate as.length go!".." ++ bs with
      | nil =>
        exfalso
        obtain ⟨e1, e2⟩ := List.append_eq_nil_iff.1 hl
        have : as = [] := by
          have := congrArg List.length e1
          rw [List.length_replicate] at this
          exact List.eq_nil_of_length_eq_zero this
        exact hne (by rw [h1, h2, this, e2])
      | cons a l =>
        rw [hl] at hall
        obtain ⟨ha, ha'⟩ := hall a (by simp)
        unfold Absolute
        rw [join_head ha]
        intro e
        exact ha' (List.mem_of_head? e)
  · have key : ∀ r, directory (root ++ '/' :: r) = (Str.splitOn '/' r).foldl enter (directory root) := by
      intro r; unfold directory; rw [splitOn_sep, List.foldl_append]
    rw [key]
    split
    · rename_i he
      have : Str.splitOn '/' go!"." = [go!"."] := by decide
      rw [this, he]
      simp [enter]
    · rename_i hne
      have hn : List.replicate as.length go!".." ++ bs ≠ [] := by
        intro hl
        obtain ⟨e1, e2⟩ := List.append_eq_nil_iff.1 hl
        have : as = [] := by
          have := congrArg List.length e1
          rw [List.length_replicate] at this
          exact List.eq_nil_of_length_eq_zero this
        exact hne (by rw [h1, h2, this, e2])
      rw [splitOn_join (fun x hx => (hall x hx).2) hn, List.foldl_append, h1, enter_up _ _ _ rfl, enter_names _ _ hbs, h2]

/-- **C73** (files below the root): the relative path is the rest of the path, without `..`. -/
theorem C73_below_root (root file : Str) (hr : Absolute root) (hf : Absolute file) (rest : List Str) (hne : rest ≠ [])
    (h : directory file = directory root ++ rest) :
    rel root file = some (Str.join go!"/" rest) ∧ ∀ x ∈ rest, x ≠ go!".." ∧ x ≠ go!"." ∧ x ≠ [] ∧ '/' ∉ x := by
  have hnf := (cleanComps_abs hf).2
  refine ⟨?_, fun x hx => ?_⟩
  · obtain ⟨c, as, bs, h1, h2, h3, h4⟩ := rel_abs hr hf
    have e : c ++ bs = c ++ (as ++ rest) := by rw [← h2, h, h1, List.append_assoc]
    have e := List.append_cancel_left e
    have has : as = [] := by
      rcases h3 with h3 | h3 | h3
      · exact h3
      · rw [h3] at e; exact absurd (List.append_eq_nil_iff.1 e.symm).2 hne
      · cases as with
        | nil => rfl
        | cons x as => rw [e] at h3; simp at h3
    subst has
    rw [h4, if_neg]
    · simp at e; simp [e]
    · rw [h]; simp [hne]
  · have := hnf x (by rw [h]; simp [hx])
    exact ⟨this.2.2.1, this.2.1, this.1, this.2.2.2⟩

/-- **C73**: different files get different relative paths. -/
theorem C73_injective (root f f' : Str) (hr : Absolute root) (hf : Absolute f) (hf' : Absolute f') (h : rel root f = rel root f') :
    directory f = directory f' := by
  obtain ⟨r, h1, _, h2⟩ := C73_leads_to_file root f hr hf
  obtain ⟨r', h1', _, h2'⟩ := C73_leads_to_file root f' hr hf'
  rw [h1, h1'] at h
  simp only [Option.some.injEq] at h
  subst h
  rw [← h2, h2']

example : Absolute go!"/w/m" ∧ Absolute go!"/w/m/a/b.go" ∧ directory go!"/w/m/a/b.go" = directory go!"/w/m" ++ [go!"a", go!"b.go"] ∧
    rel go!"/w/m" go!"/w/m/a/b.go" = some go!"a/b.go" ∧ rel go!"/w/m" go!"/w/cache/c.go" = some go!"../cache/c.go" := by
  refine ⟨rfl, rfl, by decide, by decide, by decide⟩

/-- **C73** (a run): the documents of a successful run have pairwise different paths, and each leads from the module root to its
file. -/
theorem C73_documents (D : Index.Deps) (o : Index.Opts) (ord : Index.MapOrders) (w : Index.Writer)
    (project all : GoMap Index.Package) (hroot : Absolute o.moduleRoot)
    (habs : ∀ e ∈ Index.filesOf (Index.sortedValues project), Absolute e.2.fileName)
    (hdist : ((Index.filesOf (Index.sortedValues project)).map (fun e => directory e.2.fileName)).Nodup)
    (h : (Index.index D o ord w (.ok (project, all))).outcome = .ok) :
    (documentPaths (Index.index D o ord w (.ok (project, all))).messages).Nodup ∧
    (documentPaths (Index.index D o ord w (.ok (project, all))).messages).map (fun r => directory (o.moduleRoot ++ '/' :: r)) =
      (Index.filesOf (Index.sortedValues project)).map (fun e => directory e.2.fileName) := by
  have hp : documentPaths (Index.index D o ord w (.ok (project, all))).messages =
      (Index.filesOf (Index.sortedValues project)).map (fun e => (rel o.moduleRoot e.2.fileName).getD []) := by
    obtain ⟨pr, al, docs, g, g', heap, ds, ex, hl, hv, hi, hm, hp, _⟩ := C49_success_is_complete D o ord w _ h
    simp only [Except.ok.injEq, Prod.mk.injEq] at hl
    obtain ⟨rfl, rfl⟩ := hl
    have hex : documentPaths ex = [] := by
      unfold documentPaths
      rw [List.filterMap_eq_nil_iff]
      intro m hm
      have := externals_of hi m hm
      cases m <;> simp_all [isExternal]
    have happ : documentPaths (.metadata (Index.metadata D o) :: (ds ++ ex)) = documentPaths ds ++ documentPaths ex := by
      simp [documentPaths]
    rw [hm, happ, hex, hp, List.append_nil]
  have hmap : (documentPaths (Index.index D o ord w (.ok (project, all))).messages).map (fun r => directory (o.moduleRoot ++ '/' :: r)) =
      (Index.filesOf (Index.sortedValues project)).map (fun e => directory e.2.fileName) := by
    rw [hp, List.map_map]
    apply List.map_congr_left
    intro e he
    obtain ⟨r, h1, _, h2⟩ := C73_leads_to_file _ _ hroot (habs e he)
    simp only [Function.comp_apply, h1, Option.getD_some]
    exact h2
  refine ⟨?_, hmap⟩
  rw [← hmap] at hdist
  exact List.Nodup.of_map _ hdist

end Verif
