import Verif.Lemmas.Loader
/-! # Invariants of collecting packages -/
namespace Verif.Loader
open Spec

variable {env : Env} {opts : Opts} {g : Graph} {order : Nat → Nat → List Nat}

/-- The state after meeting a package that is not kept. -/
def St.skip (st : St) (i : Nat) : St := { st with met := st.met ++ [i] }

/-- The state after keeping a package. -/
def St.keep (st : St) (i : Nat) (p : PkgSt) : St :=
  { pkgs := fun j => if j = i then p else st.pkgs j, all := st.all.set p.path (.loaded i), met := st.met ++ [i] }

theorem collect_inv (I : St → List Nat → Prop)
    (hskip : ∀ st i rest, I st (i :: rest) → alreadyKept g st i = true → I (st.skip i) rest)
    (hkeep : ∀ st i rest p n, I st (i :: rest) → alreadyKept g st i = false → normalize env opts (st.pkgs i) = some p →
      I (st.keep i p) (order n i ++ rest))
    {fuel st pending st'} (h : collect env opts g order fuel st pending = some (some st')) (hi : I st pending) : I st' [] := by
  induction fuel generalizing st pending with
  | zero =>
    cases pending with
    | nil => simp only [collect, Option.some.injEq] at h; subst h; exact hi
    | cons i rest => simp [collect] at h
  | succ fuel ih =>
    cases pending with
    | nil => simp only [collect, Option.some.injEq] at h; subst h; exact hi
    | cons i rest =>
      rw [collect] at h
      simp only at h
      have hk : alreadyKept g { st with met := st.met ++ [i] } i = alreadyKept g st i := rfl
      rw [hk] at h
      cases hg : alreadyKept g st i with
      | true =>
        rw [hg] at h
        exact ih h (hskip st i rest hi hg)
      | false =>
        rw [hg] at h
        simp only [Bool.false_eq_true, if_false] at h
        cases hn : normalize env opts (st.pkgs i) with
        | none => simp [hn] at h
        | some p =>
          rw [hn] at h
          exact ih h (hkeep st i rest p _ hi hg hn)

/-- Every root is collected in turn, with an invariant of states and one relating states to the project map. -/
theorem collectRoots_inv (I : St → List Nat → Prop) (J : St → GoMap (Option Kept) → Prop)
    (hskip : ∀ st i rest, I st (i :: rest) → alreadyKept g st i = true → I (st.skip i) rest)
    (hkeep : ∀ st i rest p n, I st (i :: rest) → alreadyKept g st i = false → normalize env opts (st.pkgs i) = some p →
      I (st.keep i p) (order n i ++ rest))
    (hroot : ∀ st i, i ∈ g.roots → I st [] → I st [i])
    {fuel : Nat}
    (hproj : ∀ st st' project i, i ∈ g.roots → I st [] → J st project → collect env opts g order fuel st [i] = some (some st') → I st' [] →
      J st' (project.set (st'.pkgs i).path (st'.all.get (st'.pkgs i).path)))
    {st project roots st' project'} (hr : ∀ i ∈ roots, i ∈ g.roots)
    (h : collectRoots env opts g order fuel st project roots = some (some (st', project'))) (hi : I st []) (hj : J st project) :
    I st' [] ∧ J st' project' := by
  induction roots generalizing st project with
  | nil => simp only [collectRoots, Option.some.injEq, Prod.mk.injEq] at h; obtain ⟨rfl, rfl⟩ := h; exact ⟨hi, hj⟩
  | cons i rest ih =>
    rw [collectRoots] at h
    cases hc : collect env opts g order fuel st [i] with
    | none => simp [hc] at h
    | some o =>
      cases o with
      | none => simp [hc] at h
      | some st₁ =>
        rw [hc] at h
        have hi' := collect_inv I hskip hkeep hc (hroot st i (hr i (by simp)) hi)
        exact ih (fun j hj => hr j (by simp [hj])) h hi' (hproj st st₁ project i (hr i (by simp)) hi hj hc hi')

/-- The unconditional part of the invariant. -/
structure Inv (env : Env) (opts : Opts) (g : Graph) (st : St) (pending : List Nat) : Prop where
  nodup : st.all.keys.Nodup
  builtinKey : go!"builtin" ∈ st.all.keys
  builtinOnly : ∀ k, st.all.get k = some .builtin → k = go!"builtin"
  metKeys : ∀ i ∈ st.met, (st.pkgs i).path ∈ st.all.keys
  keptImports : ∀ k i, st.all.get k = some (.loaded i) → ∀ j ∈ g.imports i, j ∈ st.met ∨ j ∈ pending
  keptMet : ∀ k i, st.all.get k = some (.loaded i) → i ∈ st.met
  reach : ∀ i, i ∈ st.met ∨ i ∈ pending → Reachable g i
  normal : ∀ k i, st.all.get k = some (.loaded i) → ∃ p, normalize env opts p = some (st.pkgs i)

theorem alreadyKept_iff {st : St} {i : Nat} : alreadyKept g st i = true ↔
    ∃ k, st.all.get (st.pkgs i).path = some k ∧ g.files i ≤ k.files g := by
  unfold alreadyKept
  split
  · rename_i h; simp [h]
  · rename_i k h; simp [h]

theorem get_keep {st : St} {i : Nat} {p : PkgSt} {k : Str} :
    (st.keep i p).all.get k = if k = p.path then some (.loaded i) else st.all.get k := GoMap.get_set

theorem Inv.skip {st i rest} (h : Inv env opts g st (i :: rest)) (hk : alreadyKept g st i = true) : Inv env opts g (st.skip i) rest where
  nodup := h.nodup
  builtinKey := h.builtinKey
  builtinOnly := h.builtinOnly
  metKeys := by
    intro j hj
    rcases List.mem_append.1 hj with hj | hj
    · exact h.metKeys j hj
    · simp only [List.mem_singleton] at hj; subst hj
      obtain ⟨k, hk, -⟩ := alreadyKept_iff.1 hk
      exact GoMap.mem_keys.2 ⟨k, hk⟩
  keptImports := by
    intro k l hl j hj
    rcases h.keptImports k l hl j hj with h | h
    · exact .inl (List.mem_append_left _ h)
    · rcases List.mem_cons.1 h with rfl | h
      · exact .inl (List.mem_append_right _ (by simp))
      · exact .inr h
  keptMet := fun k l hl => List.mem_append_left _ (h.keptMet k l hl)
  reach := by
    rintro j (hj | hj)
    · rcases List.mem_append.1 hj with hj | hj
      · exact h.reach j (.inl hj)
      · simp only [List.mem_singleton] at hj; subst hj; exact h.reach _ (.inr (by simp))
    · exact h.reach j (.inr (by simp [hj]))
  normal := h.normal

theorem Inv.keep (ho : ValidOrder g order) {st i rest p n} (h : Inv env opts g st (i :: rest))
    (hn : normalize env opts (st.pkgs i) = some p) : Inv env opts g (st.keep i p) (order n i ++ rest) where
  nodup := GoMap.set_nodup h.nodup
  builtinKey := GoMap.keys_set.2 (.inr h.builtinKey)
  builtinOnly := by
    intro k hk
    rw [get_keep] at hk
    split at hk
    · simp at hk
    · exact h.builtinOnly k hk
  metKeys := by
    intro j hj
    show (if j = i then p else st.pkgs j).path ∈ _
    by_cases e : j = i
    · rw [if_pos e]; exact GoMap.keys_set.2 (.inl rfl)
    · rw [if_neg e]
      rcases List.mem_append.1 hj with hj | hj
      · exact GoMap.keys_set.2 (.inr (h.metKeys j hj))
      · simp only [List.mem_singleton] at hj; exact absurd hj e
  keptImports := by
    intro k l hl j hj
    rw [get_keep] at hl
    split at hl
    · simp only [Option.some.injEq, Kept.loaded.injEq] at hl; subst hl
      exact .inr (List.mem_append_left _ ((ho n i).mem_iff.2 hj))
    · rcases h.keptImports k l hl j hj with h | h
      · exact .inl (List.mem_append_left _ h)
      · rcases List.mem_cons.1 h with rfl | h
        · exact .inl (List.mem_append_right _ (by simp))
        · exact .inr (List.mem_append_right _ h)
  keptMet := by
    intro k l hl
    rw [get_keep] at hl
    split at hl
    · simp only [Option.some.injEq, Kept.loaded.injEq] at hl; subst hl
      exact List.mem_append_right _ (by simp)
    · exact List.mem_append_left _ (h.keptMet k l hl)
  reach := by
    have hi : Reachable g i := h.reach i (.inr (by simp))
    rintro j (hj | hj)
    · rcases List.mem_append.1 hj with hj | hj
      · exact h.reach j (.inl hj)
      · simp only [List.mem_singleton] at hj; subst hj; exact hi
    · rcases List.mem_append.1 hj with hj | hj
      · exact .imported hi ((ho n i).mem_iff.1 hj)
      · exact h.reach j (.inr (by simp [hj]))
  normal := by
    intro k l hl
    rw [get_keep] at hl
    show ∃ q, normalize env opts q = some (if l = i then p else st.pkgs l)
    split at hl
    · simp only [Option.some.injEq, Kept.loaded.injEq] at hl; subst hl
      exact ⟨_, by rw [if_pos rfl]; exact hn⟩
    · by_cases e : l = i
      · exact ⟨_, by rw [if_pos e]; exact hn⟩
      · rw [if_neg e]; exact h.normal k l hl

theorem Inv.root {st i} (hi : i ∈ g.roots) (h : Inv env opts g st []) : Inv env opts g st [i] where
  nodup := h.nodup
  builtinKey := h.builtinKey
  builtinOnly := h.builtinOnly
  metKeys := h.metKeys
  keptImports := fun k l hl j hj => .inl (by simpa using h.keptImports k l hl j hj)
  keptMet := h.keptMet
  reach := by
    rintro j (hj | hj)
    · exact h.reach j (.inl hj)
    · simp only [List.mem_singleton] at hj; subst hj; exact .root hi
  normal := h.normal

/-- A package has been met once `collect` has been called on it. -/
theorem met_of_collect {fuel st i st'} (h : collect env opts g order fuel st [i] = some (some st')) : i ∈ st'.met := by
  refine collect_inv (g := g) (I := fun st pending => i ∈ st.met ∨ i ∈ pending) ?_ ?_ h (.inr (by simp)) |>.elim id (by simp)
  · rintro st j rest (h | h) _
    · exact .inl (List.mem_append_left _ h)
    · rcases List.mem_cons.1 h with rfl | h
      · exact .inl (List.mem_append_right _ (by simp))
      · exact .inr h
  · rintro st j rest p n (h | h) _ _
    · exact .inl (List.mem_append_left _ h)
    · rcases List.mem_cons.1 h with rfl | h
      · exact .inl (List.mem_append_right _ (by simp))
      · exact .inr (List.mem_append_right _ h)

/-- What project maps satisfy unconditionally. -/
structure ProjInv (g : Graph) (st : St) (project : GoMap (Option Kept)) : Prop where
  keys : ∀ k, k ∈ project.keys → k ∈ st.all.keys
  nonNil : ∀ k v, project.get k = some v → ∃ x, v = some x
  nodup : project.keys.Nodup

theorem keys_mono {fuel st pending st'} (h : collect env opts g order fuel st pending = some (some st')) :
    ∀ k ∈ st.all.keys, k ∈ st'.all.keys := by
  intro k hk
  refine collect_inv (g := g) (I := fun st _ => k ∈ st.all.keys) ?_ ?_ h hk
  · intro st j rest h _; exact h
  · intro st j rest p n h _ _; exact GoMap.keys_set.2 (.inr h)

def initial (pkgs : Nat → PkgSt) : St := ⟨pkgs, [(go!"builtin", .builtin)], []⟩

theorem inv_initial (pkgs : Nat → PkgSt) : Inv env opts g (initial pkgs) [] where
  nodup := by simp [initial, GoMap.keys]
  builtinKey := by simp [initial, GoMap.keys]
  builtinOnly := by
    intro k hk
    have := GoMap.mem_of_get hk
    simpa [initial] using this
  metKeys := by simp [initial]
  keptImports := by
    intro k i hk
    have := GoMap.mem_of_get hk
    simp [initial] at this
  keptMet := by
    intro k i hk
    have := GoMap.mem_of_get hk
    simp [initial] at this
  reach := by simp [initial]
  normal := by
    intro k i hk
    have := GoMap.mem_of_get hk
    simp [initial] at this

/-- Effective options: a module version is always set (loader.go:85-88). -/
def withVersion (opts : Opts) : Opts := if opts.moduleVersion = [] then { opts with moduleVersion := go!"." } else opts

theorem load_split {loaded fuel l} (h : loadPackages env opts loaded order fuel = some (some l)) :
    ∃ g pkgs, loaded = some (g, pkgs) ∧
      collectRoots env (withVersion opts) g order fuel (initial pkgs) [] g.roots = some (some (l.st, l.project)) := by
  unfold loadPackages at h
  simp only at h
  cases loaded with
  | none => simp at h
  | some x =>
    obtain ⟨g, pkgs⟩ := x
    refine ⟨g, pkgs, rfl, ?_⟩
    simp only at h
    unfold withVersion initial
    split at h
    · simp at h
    · simp at h
    · rename_i st project hc
      simp only [Option.some.injEq] at h
      subst h
      exact hc

theorem load_inv {pkgs fuel l} (ho : ValidOrder g order) (h : loadPackages env opts (some (g, pkgs)) order fuel = some (some l)) :
    Inv env (withVersion opts) g l.st [] ∧ ProjInv g l.st l.project := by
  obtain ⟨g', pkgs', e, h⟩ := load_split h
  simp only [Option.some.injEq, Prod.mk.injEq] at e
  obtain ⟨rfl, rfl⟩ := e
  refine collectRoots_inv (Inv env (withVersion opts) g) (ProjInv g) (fun _ _ _ => Inv.skip) (fun _ _ _ _ _ h _ => h.keep ho)
    (fun _ _ hi => Inv.root hi) ?_ (fun i hi => hi) h (inv_initial pkgs) ⟨by simp [GoMap.keys], ?_, by simp [GoMap.keys]⟩
  · intro st st' project i hi _ hj hc hi'
    have hm := hi'.metKeys i (met_of_collect hc)
    refine ⟨?_, ?_, GoMap.set_nodup hj.nodup⟩
    · intro k hk
      rcases GoMap.keys_set.1 hk with rfl | hk
      · exact hm
      · exact keys_mono hc k (hj.keys k hk)
    · intro k v hk
      rw [GoMap.get_set] at hk
      split at hk
      · simp only [Option.some.injEq] at hk; subst hk
        exact GoMap.mem_keys.1 hm
      · exact hj.nonNil k v hk
  · intro k v hk; simp [GoMap.get] at hk

/-! ## Unchanged import paths -/

/-- The invariant when normalising does not change import paths. -/
structure InvC (pkgs : Nat → PkgSt) (g : Graph) (st : St) : Prop where
  same : ∀ i, (st.pkgs i).path = (pkgs i).path
  key : ∀ k i, st.all.get k = some (.loaded i) → (pkgs i).path = k
  first : ∀ k i, st.all.get k = some (.loaded i) → ∃ pre post, st.met = pre ++ i :: post ∧
    (∀ j ∈ pre, (pkgs j).path = k → g.files j < g.files i) ∧ (∀ j ∈ post, (pkgs j).path = k → g.files j ≤ g.files i)
  builtin : st.all.get go!"builtin" = some .builtin → ∀ j ∈ st.met, (pkgs j).path = go!"builtin" → g.files j = 0
  /-- a package without files does not replace the builtin package -/
  replaced : ∀ i, st.all.get go!"builtin" = some (.loaded i) → 0 < g.files i

/-- Every package met is represented by one with at least as many files. -/
theorem InvC.best {pkgs st pending} (h : InvC pkgs g st) (h' : Inv env opts g st pending) {i : Nat} (hi : i ∈ st.met) :
    ∃ k, st.all.get (pkgs i).path = some k ∧ g.files i ≤ k.files g := by
  have hk := h'.metKeys i hi
  rw [h.same] at hk
  obtain ⟨k, hk⟩ := GoMap.mem_keys.1 hk
  refine ⟨k, hk, ?_⟩
  cases k with
  | builtin =>
    have := h'.builtinOnly _ hk
    rw [this] at hk
    rw [h.builtin hk i hi this]; exact Nat.zero_le _
  | loaded j =>
    obtain ⟨pre, post, e, h1, h2⟩ := h.first _ j hk
    rw [e] at hi
    rcases List.mem_append.1 hi with hi | hi
    · exact Nat.le_of_lt (h1 i hi rfl)
    · rcases List.mem_cons.1 hi with rfl | hi
      · exact Nat.le_refl _
      · exact h2 i hi rfl

theorem InvC.skip {pkgs st i} (h : InvC pkgs g st) (hk : alreadyKept g st i = true) : InvC pkgs g (st.skip i) where
  same := h.same
  key := h.key
  first := by
    intro k l hl
    obtain ⟨pre, post, e, h1, h2⟩ := h.first k l hl
    refine ⟨pre, post ++ [i], by simp [St.skip, e], h1, ?_⟩
    intro j hj hp
    rcases List.mem_append.1 hj with hj | hj
    · exact h2 j hj hp
    · simp only [List.mem_singleton] at hj; subst hj
      obtain ⟨k', hk', hf⟩ := alreadyKept_iff.1 hk
      rw [h.same, hp] at hk'
      have : st.all.get k = some (.loaded l) := hl
      rw [this] at hk'
      simp only [Option.some.injEq] at hk'; subst hk'
      exact hf
  builtin := by
    intro hb j hj hp
    rcases List.mem_append.1 hj with hj | hj
    · exact h.builtin hb j hj hp
    · simp only [List.mem_singleton] at hj; subst hj
      obtain ⟨k', hk', hf⟩ := alreadyKept_iff.1 hk
      rw [h.same, hp] at hk'
      have : st.all.get go!"builtin" = some .builtin := hb
      rw [this] at hk'
      simp only [Option.some.injEq] at hk'; subst hk'
      exact Nat.le_zero.1 hf
  replaced := h.replaced

theorem InvC.keep {pkgs st i p} {pending : List Nat} (h : InvC pkgs g st) (hI : Inv env opts g st pending) (hk : alreadyKept g st i = false)
    (hp : p.path = (st.pkgs i).path) : InvC pkgs g (st.keep i p) := by
  rw [h.same] at hp
  have hlt : ∀ j ∈ st.met, (pkgs j).path = p.path → g.files j < g.files i := by
    intro j hj e
    obtain ⟨k, hk', hf⟩ := h.best hI hj
    rw [e] at hk'
    refine Nat.lt_of_le_of_lt hf (Nat.lt_of_not_le fun hle => ?_)
    rw [Bool.eq_false_iff] at hk
    exact hk (alreadyKept_iff.2 ⟨k, by rw [h.same, ← hp]; exact hk', hle⟩)
  constructor
  · intro j
    show (if j = i then p else st.pkgs j).path = _
    by_cases e : j = i
    · rw [if_pos e, hp, e]
    · rw [if_neg e, h.same]
  · intro k l hl
    rw [get_keep] at hl
    split at hl
    · rename_i e; simp only [Option.some.injEq, Kept.loaded.injEq] at hl; subst hl; rw [e, hp]
    · exact h.key k l hl
  · intro k l hl
    rw [get_keep] at hl
    split at hl
    · rename_i e; simp only [Option.some.injEq, Kept.loaded.injEq] at hl; subst hl
      exact ⟨st.met, [], rfl, fun j hj hpj => hlt j hj (by rw [hpj, e]), by simp⟩
    · rename_i e
      obtain ⟨pre, post, e', h1, h2⟩ := h.first k l hl
      refine ⟨pre, post ++ [i], by simp [St.keep, e'], h1, ?_⟩
      intro j hj hpj
      rcases List.mem_append.1 hj with hj | hj
      · exact h2 j hj hpj
      · simp only [List.mem_singleton] at hj; subst hj
        exact absurd (by rw [← hpj, hp]) e
  · intro hb j hj hpj
    rw [get_keep] at hb
    split at hb
    · simp at hb
    · rename_i e
      rcases List.mem_append.1 hj with hj | hj
      · exact h.builtin hb j hj hpj
      · simp only [List.mem_singleton] at hj; subst hj
        exact absurd (by rw [← hpj, hp]) e
  · intro l hl
    rw [get_keep] at hl
    split at hl
    · rename_i e; simp only [Option.some.injEq, Kept.loaded.injEq] at hl; subst hl
      obtain ⟨k, hk'⟩ := GoMap.mem_keys.1 hI.builtinKey
      refine Nat.pos_of_ne_zero fun h0 => ?_
      rw [Bool.eq_false_iff] at hk
      exact hk (alreadyKept_iff.2 ⟨k, by rw [h.same, ← hp, ← e]; exact hk', by rw [h0]; exact Nat.zero_le _⟩)
    · exact h.replaced l hl

/-- Normalising does not change the paths at hand. -/
def PathsFixed (opts : Opts) (pkgs : Nat → PkgSt) : Prop := opts.driverSet = true ∨ NoStdPrefix pkgs

theorem fixed_same {pkgs : Nat → PkgSt} {st : St} {i : Nat} {p : PkgSt} (h : PathsFixed opts pkgs) (hs : (st.pkgs i).path = (pkgs i).path)
    (hn : normalize env opts (st.pkgs i) = some p) : p.path = (st.pkgs i).path := by
  rcases normalize_path hn with e | ⟨hd, e⟩
  · exact e
  · rcases h with h | h
    · simp [h] at hd
    · exact absurd ⟨_, by rw [← hs]; exact e.symm⟩ (h i)

theorem invC_initial (pkgs : Nat → PkgSt) : InvC pkgs g (initial pkgs) where
  same := fun _ => rfl
  key := by
    intro k i hk
    have := GoMap.mem_of_get hk
    simp [initial] at this
  first := by
    intro k i hk
    have := GoMap.mem_of_get hk
    simp [initial] at this
  builtin := by simp [initial]
  replaced := by
    intro i hk
    have := GoMap.mem_of_get hk
    simp [initial] at this

/-- The largest number of files of the kept package never decreases. -/
theorem load_invC {pkgs fuel l} (ho : ValidOrder g order) (hp : PathsFixed opts pkgs)
    (h : loadPackages env opts (some (g, pkgs)) order fuel = some (some l)) :
    InvC pkgs g l.st := by
  obtain ⟨g', pkgs', e, h⟩ := load_split h
  simp only [Option.some.injEq, Prod.mk.injEq] at e
  obtain ⟨rfl, rfl⟩ := e
  have hp : PathsFixed (withVersion opts) pkgs := by
    unfold withVersion; split <;> exact hp
  refine (collectRoots_inv (fun st pending => Inv env (withVersion opts) g st pending ∧ InvC pkgs g st) (fun _ _ => True)
    (fun _ _ _ h hk => ⟨h.1.skip hk, h.2.skip hk⟩) (fun _ _ _ _ _ h hk hn => ⟨h.1.keep ho hn, h.2.keep h.1 hk (fixed_same hp (h.2.same _) hn)⟩)
    (fun _ _ hi h => ⟨h.1.root hi, h.2⟩) (fun _ _ _ _ _ _ _ _ _ => trivial) (fun i hi => hi) h
    ⟨inv_initial pkgs, invC_initial pkgs⟩ trivial).1.2

/-! ## Every kept package is normalised once -/

structure InvN (env : Env) (opts : Opts) (pkgs : Nat → PkgSt) (st : St) : Prop where
  each : ∀ i, st.pkgs i = pkgs i ∨ (normalize env opts (pkgs i) = some (st.pkgs i) ∧ i ∈ st.met)
  kept : ∀ k i, st.all.get k = some (.loaded i) → normalize env opts (pkgs i) = some (st.pkgs i)
  key : ∀ k i, st.all.get k = some (.loaded i) → (st.pkgs i).path = k

theorem InvN.skip {pkgs st i} (h : InvN env opts pkgs st) : InvN env opts pkgs (st.skip i) where
  each := fun j => (h.each j).imp id fun h => ⟨h.1, List.mem_append_left _ h.2⟩
  kept := h.kept
  key := h.key

theorem InvN.keep {pkgs st i p} (h : InvN env opts pkgs st) (hn : normalize env opts (st.pkgs i) = some p)
    (hre : normalize env opts (pkgs i) = some (st.pkgs i) → i ∈ st.met → p = st.pkgs i) :
    InvN env opts pkgs (st.keep i p) := by
  have hi : normalize env opts (pkgs i) = some p := by
    rcases h.each i with e | ⟨e, hm⟩
    · rw [← e]; exact hn
    · rw [hre e hm]; exact e
  have hpi : (st.keep i p).pkgs i = p := if_pos rfl
  constructor
  · intro j
    by_cases e : j = i
    · subst e
      right
      exact ⟨by rw [hpi]; exact hi, List.mem_append_right _ (by simp)⟩
    · rw [show (st.keep i p).pkgs j = st.pkgs j from if_neg e]
      exact (h.each j).imp id fun h => ⟨h.1, List.mem_append_left _ h.2⟩
  · intro k l hl
    by_cases e : l = i
    · subst e; rw [hpi]; exact hi
    · rw [get_keep] at hl
      split at hl
      · simp only [Option.some.injEq, Kept.loaded.injEq] at hl; exact absurd hl.symm e
      · rw [show (st.keep i p).pkgs l = st.pkgs l from if_neg e]; exact h.kept k l hl
  · intro k l hl
    by_cases e : l = i
    · subst e
      rw [get_keep] at hl
      split at hl
      · rename_i e; rw [e, hpi]
      · rename_i hne
        exfalso
        refine hne ?_
        have e1 := h.kept k l hl
        rw [hi] at e1
        simp only [Option.some.injEq] at e1
        rw [← h.key k l hl, e1]
    · rw [get_keep] at hl
      split at hl
      · simp only [Option.some.injEq, Kept.loaded.injEq] at hl; exact absurd hl.symm e
      · rw [show (st.keep i p).pkgs l = st.pkgs l from if_neg e]; exact h.key k l hl

theorem load_invN {pkgs fuel l} (ho : ValidOrder g order) (hp : PathsOnce opts pkgs)
    (h : loadPackages env opts (some (g, pkgs)) order fuel = some (some l)) : InvN env (withVersion opts) pkgs l.st := by
  obtain ⟨g', pkgs', e, h⟩ := load_split h
  simp only [Option.some.injEq, Prod.mk.injEq] at e
  obtain ⟨rfl, rfl⟩ := e
  have hp : PathsOnce (withVersion opts) pkgs := by
    unfold withVersion; split <;> exact hp
  have h0 : InvN env (withVersion opts) pkgs (initial pkgs) := by
    refine ⟨fun _ => .inl rfl, ?_, ?_⟩ <;>
    · intro k i hk
      have := GoMap.mem_of_get hk
      simp [initial] at this
  by_cases hd : (withVersion opts).driverSet = true
  · refine (collectRoots_inv (fun st _ => InvN env (withVersion opts) pkgs st) (fun _ _ => True)
      (fun _ _ _ h _ => h.skip) (fun _ _ _ _ _ h _ hn => h.keep hn ?_)
      (fun _ _ hi h => h) (fun _ _ _ _ _ _ _ _ _ => trivial) (fun i hi => hi) h h0 trivial).1
    intro e _
    have := normalize_idem_driver hd e
    rw [this] at hn; simpa using hn.symm
  · rcases hp with hp | hp | ⟨hs, hp⟩
    · exact absurd hp hd
    · refine (collectRoots_inv (fun st pending => Inv env (withVersion opts) g st pending ∧ InvC pkgs g st ∧ InvN env (withVersion opts) pkgs st)
        (fun _ _ => True)
        (fun _ _ _ h hk => ⟨h.1.skip hk, h.2.1.skip hk, h.2.2.skip⟩)
        (fun _ _ _ _ _ h hk hn => ⟨h.1.keep ho hn, h.2.1.keep h.1 hk (fixed_same (.inr hp) (h.2.1.same _) hn), h.2.2.keep hn ?_⟩)
        (fun _ _ hi h => ⟨h.1.root hi, h.2⟩) (fun _ _ _ _ _ _ _ _ _ => trivial) (fun i hi => hi) h
        ⟨inv_initial pkgs, invC_initial pkgs, h0⟩ trivial).1.2.2
      intro _ hm
      exfalso
      obtain ⟨k, hk', hf⟩ := h.2.1.best h.1 hm
      rw [Bool.eq_false_iff] at hk
      exact hk (alreadyKept_iff.2 ⟨k, by rw [h.2.1.same]; exact hk', hf⟩)
    · refine (collectRoots_inv (fun st _ => InvN env (withVersion opts) pkgs st) (fun _ _ => True)
        (fun _ _ _ h _ => h.skip) (fun _ _ _ _ _ h _ hn => h.keep hn ?_)
        (fun _ _ hi h => h) (fun _ _ _ _ _ _ _ _ _ => trivial) (fun i hi => hi) h h0 trivial).1
      intro e _
      have := normalize_idem_stdlib (by simpa using hd) hs (hp _) e
      rw [this] at hn; simpa using hn.symm

end Verif.Loader
