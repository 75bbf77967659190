import Verif.Lemmas.Collect
/-! # Termination of collecting packages; project packages -/
namespace Verif.Loader
open Spec

variable {env : Env} {opts : Opts} {g : Graph} {order : Nat → Nat → List Nat}

/-! ## Termination -/

/-- More steps do not change the result. -/
theorem collect_more {fuel st pending r} (h : collect env opts g order fuel st pending = some r) (n : Nat) :
    collect env opts g order (fuel + n) st pending = some r := by
  induction fuel generalizing st pending with
  | zero =>
    cases pending with
    | nil => simp only [collect, Option.some.injEq] at h; subst h; cases n <;> simp [collect]
    | cons i rest => simp [collect] at h
  | succ fuel ih =>
    rw [show fuel + 1 + n = (fuel + n) + 1 by omega]
    cases pending with
    | nil => simpa [collect] using h
    | cons i rest =>
      rw [collect] at h ⊢
      simp only at h ⊢
      split
      · rename_i hk; rw [if_pos hk] at h; exact ih h
      · rename_i hk; rw [if_neg hk] at h
        split
        · rename_i hn; simpa [hn] using h
        · rename_i p hn; simp only [hn] at h; exact ih h

/-- Number of files plus one of the package kept under a path; 0 if there is none. -/
def level (g : Graph) (st : St) (k : Str) : Nat :=
  match st.all.get k with
  | none => 0
  | some x => x.files g + 1

def pathSum (st : St) (l : List Nat) : Nat := (l.map fun i => (st.pkgs i).path.length).sum
def gapSum (g : Graph) (st : St) (l : List Nat) (M : Nat) : Nat := (l.map fun i => M + 1 - level g st (st.pkgs i).path).sum

theorem sum_le {l : List Nat} {f h : Nat → Nat} (hle : ∀ i ∈ l, f i ≤ h i) : (l.map f).sum ≤ (l.map h).sum := by
  induction l with
  | nil => simp
  | cons a l ih =>
    simp only [List.map_cons, List.sum_cons]
    have h1 := hle a (by simp)
    have h2 := ih fun i hi => hle i (by simp [hi])
    omega

theorem sum_lt {l : List Nat} {f h : Nat → Nat} (hle : ∀ i ∈ l, f i ≤ h i) {i : Nat} (hi : i ∈ l) (hlt : f i < h i) :
    (l.map f).sum < (l.map h).sum := by
  induction l with
  | nil => simp at hi
  | cons a l ih =>
    simp only [List.map_cons, List.sum_cons]
    have h1 := hle a (by simp)
    rcases List.mem_cons.1 hi with rfl | hi
    · have h2 := sum_le (l := l) fun i hi => hle i (by simp [hi])
      omega
    · have h2 := ih (fun i hi => hle i (by simp [hi])) hi
      omega

theorem level_keep {st : St} {i : Nat} {p : PkgSt} {k : Str} :
    level g (st.keep i p) k = if k = p.path then g.files i + 1 else level g st k := by
  unfold level
  rw [get_keep]
  by_cases h : k = p.path <;> simp [h, Kept.files]

/-- The termination order. -/
def Before (x y : Nat × Nat × Nat) : Prop := x.1 < y.1 ∨ (x.1 = y.1 ∧ (x.2.1 < y.2.1 ∨ (x.2.1 = y.2.1 ∧ x.2.2 < y.2.2)))

theorem before_wf : WellFounded Before := by
  refine Subrelation.wf (r := Prod.Lex (· < ·) (Prod.Lex (· < ·) (· < ·))) ?_
    (Prod.lex ⟨_, Nat.lt_wfRel.wf⟩ (Prod.lex ⟨_, Nat.lt_wfRel.wf⟩ ⟨_, Nat.lt_wfRel.wf⟩)).wf
  rintro ⟨a, b, c⟩ ⟨a', b', c'⟩ (h | ⟨rfl, h | ⟨rfl, h⟩⟩)
  · exact Prod.Lex.left _ _ h
  · exact Prod.Lex.right _ (Prod.Lex.left _ _ h)
  · exact Prod.Lex.right _ (Prod.Lex.right _ h)

theorem keep_before {l : List Nat} {M : Nat} (hM : ∀ i ∈ l, g.files i ≤ M) {st : St} {i : Nat} {p : PkgSt} (hi : i ∈ l)
    (hk : alreadyKept g st i = false) (hn : normalize env opts (st.pkgs i) = some p) (a b : Nat) :
    Before (pathSum (st.keep i p) l, gapSum g (st.keep i p) l M, a) (pathSum st l, gapSum g st l M, b) := by
  have hpi : (st.keep i p).pkgs i = p := if_pos rfl
  have hpj : ∀ j, j ≠ i → (st.keep i p).pkgs j = st.pkgs j := fun j e => if_neg e
  rcases normalize_path hn with e | ⟨_, e⟩
  · have hpaths : ∀ j, ((st.keep i p).pkgs j).path = (st.pkgs j).path := by
      intro j
      by_cases ej : j = i
      · subst ej; rw [hpi, e]
      · rw [hpj j ej]
    have h1 : pathSum (st.keep i p) l = pathSum st l := by
      unfold pathSum
      congr 1
      exact List.map_congr_left fun j _ => by rw [hpaths]
    refine .inr ⟨h1, .inl ?_⟩
    show gapSum g (st.keep i p) l M < gapSum g st l M
    unfold gapSum
    have hlev : level g st (st.pkgs i).path < g.files i + 1 := by
      unfold alreadyKept at hk
      unfold level
      split
      · exact Nat.succ_pos _
      · rename_i x hx
        rw [hx] at hk
        simp only [decide_eq_false_iff_not] at hk
        omega
    refine sum_lt ?_ hi ?_
    · intro j _
      rw [hpaths, level_keep]
      split
      · rename_i ej
        rw [e] at ej
        rw [ej]
        omega
      · exact Nat.le_refl _
    · rw [hpaths, level_keep, if_pos e.symm]
      have := hM i hi
      omega
  · refine .inl ?_
    show pathSum (st.keep i p) l < pathSum st l
    unfold pathSum
    refine sum_lt ?_ hi ?_
    · intro j _
      by_cases ej : j = i
      · subst ej; rw [hpi, e, List.length_append]; omega
      · rw [hpj j ej]; exact Nat.le_refl _
    · rw [hpi, e, List.length_append]; simp only [List.length_cons]; omega

theorem collect_terminates {l : List Nat} {M : Nat} (hl : ∀ i ∈ l, ∀ j ∈ g.imports i, j ∈ l) (hM : ∀ i ∈ l, g.files i ≤ M)
    (ho : ValidOrder g order) (st : St) (pending : List Nat) (hp : ∀ i ∈ pending, i ∈ l) :
    ∃ fuel r, collect env opts g order fuel st pending = some r := by
  obtain ⟨m, hm⟩ : ∃ m, m = (pathSum st l, gapSum g st l M, pending.length) := ⟨_, rfl⟩
  induction m using before_wf.induction generalizing st pending with
  | _ m ih =>
  subst hm
  match pending, hp with
  | [], _ => exact ⟨0, _, rfl⟩
  | i :: rest, hp =>
    have hi : i ∈ l := hp i (by simp)
    cases hk : alreadyKept g st i with
    | true =>
      obtain ⟨fuel, r, h⟩ := ih (pathSum (st.skip i) l, gapSum g (st.skip i) l M, rest.length)
        (.inr ⟨rfl, .inr ⟨rfl, Nat.lt_succ_self _⟩⟩) (st.skip i) rest (fun j hj => hp j (by simp [hj])) rfl
      refine ⟨fuel + 1, r, ?_⟩
      rw [collect]
      simp only
      rw [if_pos (show alreadyKept g { st with met := st.met ++ [i] } i = true from hk)]
      exact h
    | false =>
      cases hn : normalize env opts (st.pkgs i) with
      | none =>
        refine ⟨1, none, ?_⟩
        rw [collect]
        simp only
        rw [if_neg (show ¬ alreadyKept g { st with met := st.met ++ [i] } i = true from by rw [Bool.not_eq_true]; exact hk), hn]
      | some p =>
        obtain ⟨fuel, r, h⟩ := ih _ (keep_before hM hi hk hn _ _) (st.keep i p) (order (st.met ++ [i]).length i ++ rest) (by
          intro j hj
          rcases List.mem_append.1 hj with hj | hj
          · exact hl i hi j ((ho _ i).mem_iff.1 hj)
          · exact hp j (by simp [hj])) rfl
        refine ⟨fuel + 1, r, ?_⟩
        rw [collect]
        simp only
        rw [if_neg (show ¬ alreadyKept g { st with met := st.met ++ [i] } i = true from by rw [Bool.not_eq_true]; exact hk), hn]
        exact h

theorem collectRoots_more {fuel st project roots r} (h : collectRoots env opts g order fuel st project roots = some r) (n : Nat) :
    collectRoots env opts g order (fuel + n) st project roots = some r := by
  induction roots generalizing st project with
  | nil => simpa [collectRoots] using h
  | cons i rest ih =>
    rw [collectRoots] at h ⊢
    cases hc : collect env opts g order fuel st [i] with
    | none => simp [hc] at h
    | some o =>
      rw [collect_more hc n]
      rw [hc] at h
      cases o with
      | none => exact h
      | some st' => exact ih h

theorem exists_bound (f : Nat → Nat) (l : List Nat) : ∃ M, ∀ i ∈ l, f i ≤ M := by
  induction l with
  | nil => exact ⟨0, by simp⟩
  | cons a l ih =>
    obtain ⟨M, hM⟩ := ih
    refine ⟨f a + M, ?_⟩
    intro i hi
    rcases List.mem_cons.1 hi with rfl | hi
    · omega
    · have := hM i hi; omega

theorem collectRoots_terminates (hf : FiniteGraph g) (ho : ValidOrder g order) (st : St) (project : GoMap (Option Kept)) (roots : List Nat)
    (hr : ∀ i ∈ roots, i ∈ g.roots) : ∃ fuel r, collectRoots env opts g order fuel st project roots = some r := by
  classical
  obtain ⟨l, hl⟩ := hf
  let l' := l.filter fun i => decide (Reachable g i)
  have hl' : ∀ i, i ∈ l' ↔ Reachable g i := by
    intro i
    simp only [l', List.mem_filter, decide_eq_true_eq]
    exact ⟨fun h => h.2, fun h => ⟨hl i h, h⟩⟩
  obtain ⟨M, hM⟩ := exists_bound g.files l'
  induction roots generalizing st project with
  | nil => exact ⟨0, _, rfl⟩
  | cons i rest ih =>
    obtain ⟨f1, r1, h1⟩ := collect_terminates (env := env) (opts := opts) (l := l') (M := M)
      (fun i hi j hj => (hl' j).2 (.imported ((hl' i).1 hi) hj)) hM ho st [i]
      (by intro j hj; simp only [List.mem_singleton] at hj; subst hj; exact (hl' j).2 (.root (hr j (by simp))))
    cases r1 with
    | none => exact ⟨f1, none, by rw [collectRoots, h1]⟩
    | some st' =>
      obtain ⟨f2, r2, h2⟩ := ih st' (project.set (st'.pkgs i).path (st'.all.get (st'.pkgs i).path)) (fun j hj => hr j (by simp [hj]))
      refine ⟨f1 + f2, r2, ?_⟩
      rw [collectRoots, collect_more h1 f2]
      have := collectRoots_more h2 f1
      rw [Nat.add_comm] at this
      exact this

/-! ## Project packages are the kept ones -/

/-- While collecting, the package kept under a path is only replaced by one with more files. -/
theorem collect_grows {pkgs fuel st pending st'} (ho : ValidOrder g order) (hp : PathsFixed opts pkgs)
    (h : collect env opts g order fuel st pending = some (some st')) (hI : Inv env opts g st pending) (hC : InvC pkgs g st)
    {k : Str} {y : Kept} (hy : st.all.get k = some y) :
    ∃ y', st'.all.get k = some y' ∧ (y' = y ∨ y.files g < y'.files g) := by
  refine (collect_inv (g := g) (I := fun s pending => Inv env opts g s pending ∧ InvC pkgs g s ∧
    ∃ y', s.all.get k = some y' ∧ (y' = y ∨ y.files g < y'.files g)) ?_ ?_ h ⟨hI, hC, y, hy, .inl rfl⟩).2.2
  · rintro s i rest ⟨h1, h2, h3⟩ hk
    exact ⟨h1.skip hk, h2.skip hk, h3⟩
  · rintro s i rest p n ⟨h1, h2, y', h3, h4⟩ hk hn
    refine ⟨h1.keep ho hn, h2.keep h1 hk (fixed_same hp (h2.same _) hn), ?_⟩
    rw [get_keep]
    split
    · rename_i e
      refine ⟨_, rfl, .inr ?_⟩
      have hs := fixed_same hp (h2.same _) hn
      have : y'.files g < g.files i := by
        refine Nat.lt_of_not_le fun hle => ?_
        rw [Bool.eq_false_iff] at hk
        exact hk (alreadyKept_iff.2 ⟨y', by rw [← hs, ← e]; exact h3, hle⟩)
      rcases h4 with rfl | h4
      · exact this
      · exact Nat.lt_trans h4 this
    · exact ⟨y', h3, h4⟩

theorem collect_both {pkgs fuel st pending st'} (ho : ValidOrder g order) (hp : PathsFixed opts pkgs)
    (h : collect env opts g order fuel st pending = some (some st')) (hI : Inv env opts g st pending) (hC : InvC pkgs g st) :
    Inv env opts g st' [] ∧ InvC pkgs g st' := by
  refine collect_inv (g := g) (I := fun s pending => Inv env opts g s pending ∧ InvC pkgs g s) ?_ ?_ h ⟨hI, hC⟩
  · rintro s i rest ⟨h1, h2⟩ hk
    exact ⟨h1.skip hk, h2.skip hk⟩
  · rintro s i rest p n ⟨h1, h2⟩ hk hn
    exact ⟨h1.keep ho hn, h2.keep h1 hk (fixed_same hp (h2.same _) hn)⟩

structure Latest (pkgs : Nat → PkgSt) (g : Graph) (st : St) (project : GoMap (Option Kept)) (done : List Nat) : Prop where
  keys : ∀ k, k ∈ project.keys ↔ ∃ i ∈ done, (pkgs i).path = k
  value : ∀ k v, project.get k = some v → ∃ x y, v = some x ∧ st.all.get k = some y ∧ (y = x ∨ x.files g < y.files g) ∧
    ∀ i ∈ done, (pkgs i).path = k → g.files i ≤ x.files g

theorem roots_latest {pkgs fuel st project roots st' project' done} (ho : ValidOrder g order) (hp : PathsFixed opts pkgs)
    (hr : ∀ i ∈ roots, i ∈ g.roots)
    (h : collectRoots env opts g order fuel st project roots = some (some (st', project')))
    (hI : Inv env opts g st []) (hC : InvC pkgs g st) (hL : Latest pkgs g st project done) :
    Latest pkgs g st' project' (done ++ roots) := by
  induction roots generalizing st project done with
  | nil => simp only [collectRoots, Option.some.injEq, Prod.mk.injEq] at h; obtain ⟨rfl, rfl⟩ := h; simpa using hL
  | cons i rest ih =>
    rw [collectRoots] at h
    cases hc : collect env opts g order fuel st [i] with
    | none => simp [hc] at h
    | some o =>
      cases o with
      | none => simp [hc] at h
      | some st₁ =>
        rw [hc] at h
        have hI' := hI.root (hr i (by simp))
        obtain ⟨hI₁, hC₁⟩ := collect_both ho hp hc hI' hC
        have hb := hC₁.best hI₁ (met_of_collect hc)
        rw [show done ++ i :: rest = (done ++ [i]) ++ rest by simp]
        refine ih (fun j hj => hr j (by simp [hj])) h hI₁ hC₁ ?_
        rw [hC₁.same]
        constructor
        · intro k
          rw [GoMap.keys_set, hL.keys]
          constructor
          · rintro (rfl | ⟨j, hj, e⟩)
            · exact ⟨i, by simp, rfl⟩
            · exact ⟨j, by simp [hj], e⟩
          · rintro ⟨j, hj, e⟩
            rcases List.mem_append.1 hj with hj | hj
            · exact .inr ⟨j, hj, e⟩
            · simp only [List.mem_singleton] at hj; subst hj; exact .inl e.symm
        · intro k v hv
          rw [GoMap.get_set] at hv
          split at hv
          · rename_i e; subst e
            simp only [Option.some.injEq] at hv
            subst hv
            obtain ⟨x, hx, hf⟩ := hb
            refine ⟨x, x, hx, hx, .inl rfl, ?_⟩
            intro j hj e
            rcases List.mem_append.1 hj with hj | hj
            · obtain ⟨v, hv⟩ := GoMap.mem_keys.1 ((hL.keys _).2 ⟨j, hj, rfl⟩)
              obtain ⟨x', y', -, h2, h3, h4⟩ := hL.value _ v hv
              obtain ⟨y'', h5, h6⟩ := collect_grows ho hp hc hI' hC h2
              rw [e, hx] at h5
              simp only [Option.some.injEq] at h5
              subst h5
              have h7 := h4 j hj rfl
              have : x'.files g ≤ y'.files g := by
                rcases h3 with rfl | h3
                · exact Nat.le_refl _
                · exact Nat.le_of_lt h3
              have : y'.files g ≤ x.files g := by
                rcases h6 with rfl | h6
                · exact Nat.le_refl _
                · exact Nat.le_of_lt h6
              omega
            · simp only [List.mem_singleton] at hj; subst hj; exact hf
          · rename_i e
            obtain ⟨x, y, h1, h2, h3, h4⟩ := hL.value k v hv
            obtain ⟨y', h5, h6⟩ := collect_grows ho hp hc hI' hC h2
            refine ⟨x, y', h1, h5, ?_, ?_⟩
            · rcases h3 with rfl | h3
              · exact h6
              · rcases h6 with rfl | h6
                · exact .inr h3
                · exact .inr (Nat.lt_trans h3 h6)
            · intro j hj hpj
              rcases List.mem_append.1 hj with hj | hj
              · exact h4 j hj hpj
              · simp only [List.mem_singleton] at hj; subst hj; exact absurd hpj.symm e

theorem load_latest {pkgs fuel l} (ho : ValidOrder g order) (hp : PathsFixed opts pkgs)
    (h : loadPackages env opts (some (g, pkgs)) order fuel = some (some l)) : Latest pkgs g l.st l.project g.roots := by
  obtain ⟨g', pkgs', e, h⟩ := load_split h
  simp only [Option.some.injEq, Prod.mk.injEq] at e
  obtain ⟨rfl, rfl⟩ := e
  have hp : PathsFixed (withVersion opts) pkgs := by
    unfold withVersion; split <;> exact hp
  have := roots_latest (done := []) ho hp (fun i hi => hi) h (inv_initial pkgs) (invC_initial pkgs) ⟨by simp [GoMap.keys], by simp [GoMap.get]⟩
  simpa using this

end Verif.Loader
