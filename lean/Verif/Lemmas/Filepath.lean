import Verif.Model.Filepath
import Verif.Spec.Directory
/-! # Lemmas about paths -/
namespace Verif.Filepath
open Spec

theorem splitOn_ne_nil (c : Char) (s : Str) : Str.splitOn c s ≠ [] := by
  cases s with
  | nil => simp [Str.splitOn]
  | cons d s =>
    rw [Str.splitOn]
    split
    · simp
    · split <;> simp

theorem splitOn_append {c : Char} {a s : Str} (h : c ∉ a) : Str.splitOn c (a ++ c :: s) = a :: Str.splitOn c s := by
  induction a with
  | nil => simp [Str.splitOn]
  | cons d a ih =>
    have hd : d ≠ c := fun e => h (by simp [e])
    simp only [List.cons_append]
    rw [Str.splitOn, if_neg hd, ih fun hm => h (by simp [hm])]

theorem splitOn_single {c : Char} {a : Str} (h : c ∉ a) : Str.splitOn c a = [a] := by
  induction a with
  | nil => simp [Str.splitOn]
  | cons d a ih =>
    have hd : d ≠ c := fun e => h (by simp [e])
    rw [Str.splitOn, if_neg hd, ih fun hm => h (by simp [hm])]

theorem splitOn_join {c : Char} {l : List Str} (h : ∀ x ∈ l, c ∉ x) (hn : l ≠ []) : Str.splitOn c (Str.join [c] l) = l := by
  induction l with
  | nil => exact absurd rfl hn
  | cons a l ih =>
    cases l with
    | nil => exact splitOn_single (h a (by simp))
    | cons b l =>
      simp only [Str.join, List.append_assoc, List.cons_append, List.nil_append]
      rw [splitOn_append (h a (by simp)), ih (fun x hx => h x (by simp [hx])) (by simp)]

theorem mem_splitOn {c : Char} {s x : Str} (h : x ∈ Str.splitOn c s) : c ∉ x := by
  induction s generalizing x with
  | nil => simp [Str.splitOn] at h; simp [h]
  | cons d s ih =>
    rw [Str.splitOn] at h
    split at h
    · rcases List.mem_cons.1 h with rfl | h
      · simp
      · exact ih h
    · rename_i hd
      split at h
      · rename_i he; exact absurd he (splitOn_ne_nil _ _)
      · rename_i a l he
        rcases List.mem_cons.1 h with rfl | h
        · have := ih (x := a) (by rw [he]; simp)
          simp only [List.mem_cons, not_or]
          exact ⟨fun e => hd e.symm, this⟩
        · exact ih (by rw [he]; simp [h])

/-- A proper name of a file or directory. -/
def Name (c : Str) : Prop := c ≠ [] ∧ c ≠ go!"." ∧ c ≠ go!".." ∧ '/' ∉ c

theorem clean_abs_step {stack : List Str} {c : Str} (h : ∀ x ∈ stack, Name x) (hc : '/' ∉ c) :
    (cleanStep true stack c).reverse = enter stack.reverse c ∧ ∀ x ∈ cleanStep true stack c, Name x := by
  unfold cleanStep enter
  split
  · exact ⟨rfl, h⟩
  · rename_i h1
    split
    · cases stack with
      | nil => simp
      | cons top rest =>
        have := h top (by simp)
        simp only [if_neg this.2.2.1]
        exact ⟨by simp, fun x hx => h x (by simp [hx])⟩
    · rename_i h2
      refine ⟨by simp, ?_⟩
      intro x hx
      rcases List.mem_cons.1 hx with rfl | hx
      · exact ⟨fun e => h1 (.inl e), fun e => h1 (.inr e), h2, hc⟩
      · exact h x hx

theorem clean_abs_fold (l : List Str) (hl : ∀ x ∈ l, '/' ∉ x) {stack : List Str} (h : ∀ x ∈ stack, Name x) :
    (l.foldl (cleanStep true) stack).reverse = l.foldl enter stack.reverse ∧
    ∀ x ∈ l.foldl (cleanStep true) stack, Name x := by
  induction l generalizing stack with
  | nil => exact ⟨rfl, h⟩
  | cons c l ih =>
    obtain ⟨h1, h2⟩ := clean_abs_step h (hl c (by simp))
    obtain ⟨h3, h4⟩ := ih (fun x hx => hl x (by simp [hx])) h2
    refine ⟨?_, h4⟩
    simp only [List.foldl_cons]
    rw [h3, h1]

theorem isAbs_iff {s : Str} : isAbs s = true ↔ Absolute s := by simp [isAbs, Absolute]

/-- The cleaned form of an absolute path lists the directory it denotes. -/
theorem cleanComps_abs {s : Str} (h : Absolute s) : cleanComps s = directory s ∧ ∀ x ∈ directory s, Name x := by
  unfold cleanComps directory comps
  rw [isAbs_iff.2 h]
  obtain ⟨h1, h2⟩ := clean_abs_fold (Str.splitOn '/' s) (fun x hx => mem_splitOn hx) (stack := []) (by simp)
  refine ⟨h1, ?_⟩
  intro x hx
  rw [List.reverse_nil] at h1
  rw [← h1] at hx
  exact h2 x (by simpa using hx)

theorem clean_abs {s : Str} (h : Absolute s) : clean s = '/' :: Str.join go!"/" (directory s) := by
  unfold clean
  rw [if_pos (isAbs_iff.2 h), (cleanComps_abs h).1]

theorem join_ne_nil {l : List Str} (h : ∀ x ∈ l, x ≠ []) (hl : l ≠ []) : Str.join go!"/" l ≠ [] := by
  cases l with
  | nil => exact absurd rfl hl
  | cons a l => cases l with
    | nil => exact h a (by simp)
    | cons b l => simp [Str.join]

theorem pieces_join {l : List Str} (h : ∀ x ∈ l, x ≠ [] ∧ '/' ∉ x) : pieces (Str.join go!"/" l) = l := by
  unfold pieces
  by_cases hl : l = []
  · subst hl; rfl
  · rw [if_neg (join_ne_nil (fun x hx => (h x hx).1) hl)]
    exact splitOn_join (fun x hx => (h x hx).2) hl

theorem join_inj {l m : List Str} (hl : ∀ x ∈ l, x ≠ [] ∧ '/' ∉ x) (hm : ∀ x ∈ m, x ≠ [] ∧ '/' ∉ x)
    (e : Str.join go!"/" l = Str.join go!"/" m) : l = m := by
  rw [← pieces_join hl, e, pieces_join hm]

theorem dropCommon_spec (as bs : List Str) : ∃ c, as = c ++ (dropCommon as bs).1 ∧ bs = c ++ (dropCommon as bs).2 ∧
    ((dropCommon as bs).1 = [] ∨ (dropCommon as bs).2 = [] ∨ (dropCommon as bs).1.head? ≠ (dropCommon as bs).2.head?) := by
  induction as generalizing bs with
  | nil => exact ⟨[], by cases bs <;> simp [dropCommon]⟩
  | cons a as ih =>
    cases bs with
    | nil => exact ⟨[], by simp [dropCommon]⟩
    | cons b bs =>
      rw [dropCommon]
      split
      · rename_i e; subst e
        obtain ⟨c, h1, h2, h3⟩ := ih bs
        refine ⟨a :: c, ?_, ?_, h3⟩
        · rw [List.cons_append, ← h1]
        · rw [List.cons_append, ← h2]
      · rename_i e; exact ⟨[], by simp [e]⟩

theorem isLocal_dot : isLocal go!"." = true := by decide

theorem hasDots_names {l : List Str} (h : ∀ x ∈ l, Name x) : l.any (fun c => c == go!"." || c == go!"..") = false := by
  rw [List.any_eq_false]
  intro x hx
  have := h x hx
  simp [this.2.1, this.2.2.1]

theorem join_head {a : Str} {l : List Str} (ha : a ≠ []) : (Str.join go!"/" (a :: l)).head? = a.head? := by
  cases a with
  | nil => exact absurd rfl ha
  | cons c a => cases l <;> rfl

theorem prefix_dotdot {a : Str} {l : List Str} (ha : '/' ∉ a) :
    (Str.join go!"/" (a :: l) == go!".." || Str.hasPrefix (Str.join go!"/" (a :: l)) go!"../") = true ↔ a = go!".." := by
  have key : ∀ s : Str, '/' ∉ s → ∀ r : Str, go!"../" <+: s ++ '/' :: r → s = go!".." := by
    intro s hs r h
    obtain ⟨t, e⟩ := h
    match s, hs, e with
    | [], _, e => simp at e
    | [c], _, e => simp at e
    | [c, d], _, e => simp at e; rw [← e.1, ← e.2.1]
    | c :: d :: k :: s, hs, e =>
      simp at e
      exact absurd (by simp [← e.2.2.1]) hs
  constructor
  · intro h
    simp only [Bool.or_eq_true, beq_iff_eq, Str.hasPrefix, List.isPrefixOf_iff_prefix] at h
    cases l with
    | nil =>
      rcases h with h | h
      · exact h
      · obtain ⟨t, e⟩ := h
        exfalso
        simp only [Str.join] at e
        exact ha (by rw [← e]; simp)
    | cons b l =>
      simp only [Str.join, List.append_assoc, List.cons_append, List.nil_append] at h
      rcases h with h | h
      · exfalso
        have : '/' ∈ go!".." := by rw [← h]; simp
        revert this; decide
      · exact key a ha _ h
  · rintro rfl
    cases l with
    | nil => decide
    | cons b l => simp [Str.join, Str.hasPrefix]

theorem isLocal_names {l : List Str} (h : ∀ x ∈ l, Name x) (hl : l ≠ []) : isLocal (Str.join go!"/" l) = true := by
  cases l with
  | nil => exact absurd rfl hl
  | cons a l =>
    have ha := h a (by simp)
    unfold isLocal
    have hne := join_ne_nil (l := a :: l) (fun x hx => (h x hx).1) (by simp)
    have habs : isAbs (Str.join go!"/" (a :: l)) = false := by
      unfold isAbs
      rw [join_head ha.1]
      simp only [beq_eq_false_iff_ne, ne_eq]
      intro e
      exact ha.2.2.2 (List.mem_of_mem_head? (by rw [e]; rfl))
    rw [if_neg (by simp [habs, hne])]
    have hc : comps (Str.join go!"/" (a :: l)) = a :: l := splitOn_join (fun x hx => (h x hx).2.2.2) (by simp)
    rw [hc, if_neg (by rw [hasDots_names h]; simp)]
    simp only [Bool.not_eq_eq_eq_not, Bool.not_true]
    cases hp : (Str.join go!"/" (a :: l) == go!".." || Str.hasPrefix (Str.join go!"/" (a :: l)) go!"../") with
    | false => rfl
    | true => exact absurd ((prefix_dotdot ha.2.2.2).1 hp) ha.2.2.1

/-- A stack that starts with `..` keeps doing so when only `..` and names are added. -/
theorem clean_up_fold {n : Nat} {names : List Str} (hn : ∀ x ∈ names, Name x) :
    (List.replicate n go!".." ++ names).foldl (cleanStep false) [] = (List.replicate n go!".." ++ names).reverse := by
  have h1 : ∀ n, (List.replicate n go!"..").foldl (cleanStep false) [] = List.replicate n go!".." := by
    intro n
    have h : ∀ n m, (List.replicate n go!"..").foldl (cleanStep false) (List.replicate m go!"..") = List.replicate (m + n) go!".." := by
      intro n
      induction n with
      | zero => intro m; rfl
      | succ n ih =>
        intro m
        rw [List.replicate_succ, List.foldl_cons]
        have : cleanStep false (List.replicate m go!"..") go!".." = List.replicate (m + 1) go!".." := by
          cases m with
          | zero => rfl
          | succ m => simp [cleanStep, List.replicate_succ]
        rw [this, ih]
        congr 1
        omega
    simpa using h n 0
  have h2 : ∀ (stack : List Str), names.foldl (cleanStep false) stack = names.reverse ++ stack := by
    intro stack
    induction names generalizing stack with
    | nil => rfl
    | cons c l ih =>
      have hc := hn c (by simp)
      rw [List.foldl_cons, ih fun x hx => hn x (by simp [hx])]
      simp [cleanStep, hc.1, hc.2.1, hc.2.2.1]
  rw [List.foldl_append, h1, h2]
  simp

theorem isLocal_up {n : Nat} {names : List Str} (hn : ∀ x ∈ names, Name x) :
    isLocal (Str.join go!"/" (List.replicate (n + 1) go!".." ++ names)) = false := by
  have hall : ∀ x ∈ List.replicate (n + 1) go!".." ++ names, x ≠ [] ∧ '/' ∉ x := by
    intro x hx
    rcases List.mem_append.1 hx with h | h
    · rw [List.eq_of_mem_replicate h]; exact ⟨by simp, by decide⟩
    · exact ⟨(hn x h).1, (hn x h).2.2.2⟩
  have hnn : List.replicate (n + 1) go!".." ++ names ≠ [] := by simp
  have hc : comps (Str.join go!"/" (List.replicate (n + 1) go!".." ++ names)) = List.replicate (n + 1) go!".." ++ names :=
    splitOn_join (fun x hx => (hall x hx).2) hnn
  have hhead : (Str.join go!"/" (List.replicate (n + 1) go!".." ++ names)).head? = some '.' := by
    rw [List.replicate_succ, List.cons_append, join_head (by simp)]; rfl
  have habs : isAbs (Str.join go!"/" (List.replicate (n + 1) go!".." ++ names)) = false := by
    unfold isAbs; rw [hhead]; decide
  unfold isLocal
  have hne := join_ne_nil (l := List.replicate (n + 1) go!".." ++ names) (fun x hx => (hall x hx).1) hnn
  rw [if_neg (by rw [habs]; simp [hne])]
  have hdots : (comps (Str.join go!"/" (List.replicate (n + 1) go!".." ++ names))).any (fun c => c == go!"." || c == go!"..") = true := by
    rw [hc, List.any_eq_true]
    exact ⟨go!"..", by simp [List.replicate_succ], by decide⟩
  rw [if_pos hdots]
  have hcl : clean (Str.join go!"/" (List.replicate (n + 1) go!".." ++ names)) = Str.join go!"/" (List.replicate (n + 1) go!".." ++ names) := by
    unfold clean
    rw [if_neg (by simp [habs])]
    unfold cleanComps
    rw [habs, hc, clean_up_fold hn, List.reverse_reverse, if_neg hnn]
  rw [hcl]
  have := (prefix_dotdot (a := go!"..") (l := List.replicate n go!".." ++ names) (by decide)).2 rfl
  rw [List.replicate_succ, List.cons_append]
  simp only [Bool.not_eq_eq_eq_not, Bool.not_false]
  exact this

/-- On absolute paths, the relative path is local exactly if the target is at or below the base. -/
theorem rel_local_abs {a b : Str} (ha : Absolute a) (hb : Absolute b) :
    relLocal a b = true ↔ directory a <+: directory b := by
  have hna := (cleanComps_abs ha).2
  have hnb := (cleanComps_abs hb).2
  have pa : ∀ x ∈ directory a, x ≠ [] ∧ '/' ∉ x := fun x hx => ⟨(hna x hx).1, (hna x hx).2.2.2⟩
  have pb : ∀ x ∈ directory b, x ≠ [] ∧ '/' ∉ x := fun x hx => ⟨(hnb x hx).1, (hnb x hx).2.2.2⟩
  unfold relLocal rel
  rw [clean_abs ha, clean_abs hb]
  simp only
  by_cases he : directory b = directory a
  · rw [if_pos (by rw [he])]
    simp [isLocal_dot, he]
  · have hne : ¬ ('/' :: Str.join go!"/" (directory b) = '/' :: Str.join go!"/" (directory a)) := by
      intro e
      simp only [List.cons.injEq, true_and] at e
      exact he (join_inj pb pa e)
    rw [if_neg hne, if_neg (show ¬ ('/' :: Str.join go!"/" (directory a) = go!".") by simp)]
    have hA : ∀ s : Str, isAbs ('/' :: s) = true := by intro s; rfl
    rw [if_neg (by rw [hA, hA]; simp)]
    simp only [hA, if_true, List.drop_succ_cons, List.drop_zero, pieces_join pa, pieces_join pb]
    obtain ⟨c, h1, h2, h3⟩ := dropCommon_spec (directory a) (directory b)
    obtain ⟨x, hx⟩ : ∃ x, x = dropCommon (directory a) (directory b) := ⟨_, rfl⟩
    rw [← hx] at h1 h2 h3 ⊢
    obtain ⟨as, bs⟩ := x
    simp only at h1 h2 h3
    have hbs : ∀ x ∈ bs, Name x := fun x hx => hnb x (by rw [h2]; simp [hx])
    cases as with
    | nil =>
      have hp : directory a <+: directory b := ⟨bs, by rw [h1, h2]; simp⟩
      have hne' : bs ≠ [] := by
        rintro rfl
        exact he (by rw [h1, h2])
      simp [isLocal_names hbs hne', hp]
    | cons k as =>
      have hk : Name k := hna k (by rw [h1]; simp)
      simp only [if_neg hk.2.2.1]
      have : (k :: as).map (fun _ => go!"..") = List.replicate (as.length + 1) go!".." := by
        rw [List.map_const']; rfl
      rw [this, isLocal_up hbs]
      simp only [Bool.false_eq_true, false_iff]
      rintro ⟨r, e⟩
      rw [h1, h2, List.append_assoc] at e
      have e := List.append_cancel_left e
      rcases h3 with h3 | h3 | h3
      · simp at h3
      · rw [h3] at e; simp at e
      · rw [← e] at h3; simp at h3

theorem isNestedDir_abs {a b : Str} (ha : Absolute a) (hb : Absolute b) :
    isNestedDir a b = true ↔ directory a <+: directory b ∨ directory b <+: directory a := by
  have h1 : a ≠ [] := by rintro rfl; simp [Absolute] at ha
  have h2 : b ≠ [] := by rintro rfl; simp [Absolute] at hb
  unfold isNestedDir
  rw [if_neg (by simp [h1, h2]), ← rel_local_abs ha hb, ← rel_local_abs hb ha]
  generalize relLocal a b = x
  generalize relLocal b a = y
  cases x <;> cases y <;> simp

theorem isNestedDir_symm (a b : Str) : isNestedDir a b = isNestedDir b a := by
  unfold isNestedDir
  generalize relLocal a b = x
  generalize relLocal b a = y
  by_cases h1 : a = [] <;> by_cases h2 : b = [] <;> cases x <;> cases y <;> simp [h1, h2]

end Verif.Filepath
