import Verif.Lemmas.FingerprintInj
import Verif.Lemmas.FingerprintMatch
import Verif.Lemmas.FingerprintLinear
/-!
# C26-C29: fingerprints
-/
namespace Verif
open Fp Fp.Spec

/-! ### C26, C27: equality of fingerprints and identity of types -/

/-- **C26**: identical types have the same fingerprint and the same tricky flag (or both crash). -/
theorem C26_identical_types_equal_fingerprints (L : Lex) (t u : Ty) (h : Identical t u) : encode L t = encode L u := by
  obtain ⟨h1, h2⟩ := print_identical L h
  unfold encode
  rw [h1, h2]

/-- **C27**: if no two declared types share a qualified name, then two types with the same fingerprint, one of them not
tricky, are identical. -/
theorem C27_equal_fingerprints_identical_types (L : Lex) (hL : LexOk L) (D : Option Str → Str → Nat) (t u : Ty)
    (ht : Valid L t) (hu : Valid L u) (hnt : NamesUnique D t) (hnu : NamesUnique D u) (s : Str) (b : Bool)
    (h1 : encode L t = some (s, false)) (h2 : encode L u = some (s, b)) : Identical t u := by
  unfold encode at h1 h2
  obtain ⟨s₁, hs₁, e₁⟩ := Option.map_eq_some_iff.1 h1
  obtain ⟨s₂, hs₂, e₂⟩ := Option.map_eq_some_iff.1 h2
  simp only [Prod.mk.injEq] at e₁ e₂
  obtain ⟨s₁', hp₁, hq₁⟩ := parse_print hL t ht
  obtain ⟨s₂', hp₂, hq₂⟩ := parse_print hL u hu
  rw [hs₁] at hp₁; rw [hs₂] at hp₂
  simp only [Option.some.injEq] at hp₁ hp₂
  rw [← hp₁, e₁.1] at hq₁
  rw [← hp₂, e₂.1, hq₁] at hq₂
  simp only [Option.some.injEq] at hq₂
  exact tree_identical L D t u hq₂ e₁.2 ht hu hnt hnu

/-- Without unique names C27 fails: two types of the same name declared in different functions of a package have
the same fingerprint. -/
theorem C27_function_local_types_collide (L : Lex) : ∃ t u, encode L t = encode L u ∧ tricky t = false ∧ ¬ Identical t u := by
  refine ⟨.named 1 (some go!"p") go!"T" .nil, .named 2 (some go!"p") go!"T" .nil, rfl, rfl, ?_⟩
  intro h
  cases h

/-- For tricky types C27 fails: all non-empty interface literals have the same fingerprint. -/
theorem C27_interfaces_collide (L : Lex) : ∃ t u, encode L t = encode L u ∧ ¬ Identical t u := by
  refine ⟨.iface (.cons go!"A" (.sig .nil false .nil) .nil), .iface (.cons go!"B" (.sig .nil false .nil) .nil), rfl, ?_⟩
  intro h
  cases h with
  | iface h => cases h

/-- **C27**: a fingerprint is reported as tricky exactly if a type parameter or an interface literal with methods is part of
the type. -/
theorem C27_tricky_exactly_vague (L : Lex) (t : Ty) (s : Str) (b : Bool) (h : encode L t = some (s, b)) : b = true ↔ Vague t := by
  unfold encode at h
  obtain ⟨_, _, e⟩ := Option.map_eq_some_iff.1 h
  simp only [Prod.mk.injEq] at e
  rw [← e.2]
  exact ⟨vague_of_tricky t, tricky_of_vague⟩

/-- `func(interface{}) map[string]T0`: the empty interface is not tricky, the type parameter is. -/
example : Vague (.sig (.cons (.iface .nil) .nil) false (.cons (.map (.basic .string) (.typeParam 1 0)) .nil)) ∧
    ¬ Vague (.sig (.cons (.iface .nil) .nil) false .nil) := by
  refine ⟨.result (.head (.mapElem .typeParam)), ?_⟩
  intro h
  have := tricky_of_vague h
  simp [tricky, trickyEach] at this

/-! ### C28: parsing -/

/-- **C28**: every type that can occur in a method signature has a fingerprint, and parsing it succeeds with the tree that
the grammar prescribes. -/
theorem C28_parse_infallible (L : Lex) (hL : LexOk L) (t : Ty) (ht : Valid L t) :
    ∃ s b, encode L t = some (s, b) ∧ parse L s = some (tree t) := by
  obtain ⟨s, h1, h2⟩ := parse_print hL t ht
  exact ⟨s, tricky t, by simp [encode, h1], h2⟩

/-! ### C29: matching -/

/-- **C29**: a tree with type parameters matches a tree without them, in either order, exactly if some assignment of
expressions to the type parameters makes them equal; the computation terminates without a crash. -/
theorem C29_match_exact_partial (x y : Sexpr) (hx : IsExpr true false x) (hy : IsExpr false false y) :
    ∃ b N, (∀ fuel, N ≤ fuel → unify fuel x y = some (some b) ∧ unify fuel y x = some (some b)) ∧
      (b = true ↔ ∃ θ, inst θ x = y) := by
  obtain ⟨k, hk⟩ := numParams_some x false hx
  have hy0 := ground_params y hy
  have fin : ∀ st', (∀ θ : Nat → Sexpr, Agrees θ ⟨[], [], fun _ => none⟩) ∧ ∃ θ, Agrees θ st' := by
    intro st'
    refine ⟨fun θ i s h => by simp at h, ⟨fun i => (st'.cells i).getD .nil, ?_⟩⟩
    intro i s h
    simp [h]
  obtain ⟨N₁, st₁, b₁, hr₁, _, _, _, _, hs₁, hc₁⟩ :=
    match_left x y false k k ⟨List.range k, [], fun _ => none⟩ hx hy hk (Nat.le_refl _) rfl rfl (by intro i s h; simp at h)
  obtain ⟨N₂, st₂, b₂, hr₂, _, _, _, _, hs₂, hc₂⟩ :=
    match_right x y false k k ⟨[], List.range k, fun _ => none⟩ hx hy hk (Nat.le_refl _) rfl rfl (by intro i s h; simp at h)
  have hb₁ : b₁ = true ↔ ∃ θ, inst θ x = y := by
    constructor
    · intro hb
      obtain ⟨θ, hθ⟩ := (fin st₁).2
      exact ⟨θ, hs₁ hb θ hθ⟩
    · rintro ⟨θ, hθ⟩
      exact (hc₁ θ (by intro i s h; simp at h) hθ).1
  have hb₂ : b₂ = true ↔ ∃ θ, inst θ x = y := by
    constructor
    · intro hb
      obtain ⟨θ, hθ⟩ := (fin st₂).2
      exact ⟨θ, hs₂ hb θ hθ⟩
    · rintro ⟨θ, hθ⟩
      exact (hc₂ θ (by intro i s h; simp at h) hθ).1
  have hbb : b₁ = b₂ := by
    rw [Bool.eq_iff_iff, hb₁, hb₂]
  subst hbb
  refine ⟨b₁, max N₁ N₂, ?_, hb₁⟩
  intro fuel hf
  constructor
  · unfold unify
    rw [hk, hy0]
    have := hr₁ fuel (by omega)
    simp only [List.range_zero, List.map_nil] at this ⊢
    rw [this]
    rfl
  · unfold unify
    rw [hk, hy0]
    have := hr₂ fuel (by omega)
    simp only [List.range_zero, Nat.add_zero, List.map_id'] at this ⊢
    rw [this]
    rfl

/-- C29 for types: the fingerprint of a type with type parameters, parsed, matches that of a type without, in either order,
exactly if the former has an instance equal to the latter. -/
theorem C29_types_match_exact_partial (L : Lex) (hL : LexOk L) (t u : Ty) (ht : Valid L t) (hu : Valid L u)
    (hmt : Matchable true t) (hmu : Matchable false u) :
    ∃ s₁ b₁ s₂ b₂ x y b N, encode L t = some (s₁, b₁) ∧ encode L u = some (s₂, b₂) ∧
      parse L s₁ = some x ∧ parse L s₂ = some y ∧
      (∀ fuel, N ≤ fuel → unify fuel x y = some (some b) ∧ unify fuel y x = some (some b)) ∧
      (b = true ↔ ∃ θ, inst θ (tree t) = tree u) := by
  obtain ⟨s₁, b₁, h1, h2⟩ := C28_parse_infallible L hL t ht
  obtain ⟨s₂, b₂, h3, h4⟩ := C28_parse_infallible L hL u hu
  obtain ⟨b, N, h5, h6⟩ := C29_match_exact_partial (tree t) (tree u) (tree_isExpr true t hmt) (tree_isExpr false u hmu)
  exact ⟨s₁, b₁, s₂, b₂, _, _, b, N, h1, h3, h2, h4, h5, h6⟩

/-- In particular trees without type parameters match exactly if they are equal. -/
theorem C29_ground (x y : Sexpr) (hx : IsExpr false false x) (hy : IsExpr false false y) :
    ∃ N, ∀ fuel, N ≤ fuel → unify fuel x y = some (some (decide (x = y))) := by
  obtain ⟨N, hN⟩ := uni_ground ⟨[], [], fun _ => none⟩ x y hx hy
  refine ⟨N, fun fuel hf => ?_⟩
  unfold unify
  rw [ground_params x hx, ground_params y hy]
  simp only [List.range_zero, List.map_nil]
  rw [hN fuel hf]
  rfl

/-- Type parameter `i`. -/
def tparam (i : Nat) : Sexpr := lst [.sym go!"typeparam", .int i]

/-- Two trees that both have type parameters can crash the matcher: `(l T0 T0)` against `(l (p U1) (p U1))`. -/
theorem C29_two_patterns_crash : ∀ fuel, 10 ≤ fuel → unify fuel
    (lst [.sym go!"l", tparam 0, tparam 0])
    (lst [.sym go!"l", lst [.sym go!"p", tparam 1], lst [.sym go!"p", tparam 1]]) = some none := by
  intro fuel hf
  obtain ⟨n, rfl⟩ : ∃ n, fuel = n + 10 := ⟨fuel - 10, by omega⟩
  rfl

/-- Two trees that both have type parameters can be rejected although they have a common instance. -/
theorem C29_two_patterns_missed :
    let x := lst [.sym go!"l", tparam 0, tparam 0, tparam 1, .sym go!"string"]
    let y := lst [.sym go!"l", lst [.sym go!"p", tparam 1], lst [.sym go!"p", tparam 0], .sym go!"int", tparam 0]
    (∀ fuel, 20 ≤ fuel → unify fuel x y = some (some false)) ∧ ∃ θ φ, inst θ x = inst φ y := by
  intro x y
  refine ⟨?_, ?_⟩
  · intro fuel hf
    obtain ⟨n, rfl⟩ : ∃ n, fuel = n + 20 := ⟨fuel - 20, by omega⟩
    rfl
  · exact ⟨fun i => if i = 0 then lst [.sym go!"p", .sym go!"string"] else .sym go!"int", fun _ => .sym go!"string", rfl⟩

/-- Two trees that both have type parameters can be accepted although they have no common instance: `(l T0 T0)` against
`(l (p U0) (p (p U0)))`, where `U0` cannot be `(p U0)`. -/
theorem C29_two_patterns_wrong :
    let x := lst [.sym go!"l", tparam 0, tparam 0]
    let y := lst [.sym go!"l", lst [.sym go!"p", tparam 0], lst [.sym go!"p", lst [.sym go!"p", tparam 0]]]
    (∀ fuel, 20 ≤ fuel → unify fuel x y = some (some true)) ∧ ¬ ∃ θ φ, inst θ x = inst φ y := by
  intro x y
  refine ⟨?_, ?_⟩
  · intro fuel hf
    obtain ⟨n, rfl⟩ : ∃ n, fuel = n + 20 := ⟨fuel - 20, by omega⟩
    rfl
  · rintro ⟨θ, φ, h⟩
    have h1 : θ 0 = .cons (.sym go!"p") (.cons (φ 0) .nil) := by
      have := congrArg (fun s => match s with | .cons _ (.cons a _) => a | _ => .nil) h
      exact this
    have h2 : θ 0 = .cons (.sym go!"p") (.cons (.cons (.sym go!"p") (.cons (φ 0) .nil)) .nil) := by
      have := congrArg (fun s => match s with | .cons _ (.cons _ (.cons a _)) => a | _ => .nil) h
      exact this
    rw [h1] at h2
    simp only [Sexpr.cons.injEq, true_and, and_true] at h2
    have h3 := congrArg sizeOf h2
    simp at h3
    omega

/-- **C29**, two trees with type parameters: if no type parameter occurs twice in a tree, matching terminates without a crash and
answers whether the trees have a common instance (their type parameters are different variables even if they have the same number). -/
theorem C29_linear (x y : Sexpr) (hx : IsExpr true false x) (hy : IsExpr true false y) (nx : (occurrences x).Nodup)
    (ny : (occurrences y).Nodup) :
    ∃ b N, (∀ fuel, N ≤ fuel → unify fuel x y = some (some b)) ∧ (b = true ↔ ∃ θ φ, inst θ x = inst φ y) := by
  obtain ⟨m, hm⟩ := numParams_some x false hx
  obtain ⟨n, hn⟩ := numParams_some y false hy
  have hfresh : Fresh m ⟨List.range m, (List.range n).map (· + m), fun _ => none⟩ (occurrences x) (occurrences y) := by
    constructor
    · intro i hi
      have := occ_lt x hx hm i hi
      exact ⟨this, List.getElem?_range this, rfl⟩
    · intro j hj
      have := occ_lt y hy hn j hj
      refine ⟨?_, rfl⟩
      simp only
      rw [List.getElem?_map, List.getElem?_range this]
      rfl
  obtain ⟨N, st', b, run, _, hb⟩ := match_linear m x y false _ hx hy nx ny hfresh
  refine ⟨b, N, ?_, hb.trans ⟨fun h => compat_instance h hx hy nx ny, fun ⟨_, _, h⟩ => instance_compat x hx hy h⟩⟩
  intro fuel hf
  unfold unify
  rw [hm, hn]
  simp only
  rw [run fuel hf]
  rfl

/-- C29 for types: the same of the fingerprints of two types. -/
theorem C29_types_linear (L : Lex) (hL : LexOk L) (t u : Ty) (ht : Valid L t) (hu : Valid L u) (hmt : Matchable true t)
    (hmu : Matchable true u) (nt : (occurrences (tree t)).Nodup) (nu : (occurrences (tree u)).Nodup) :
    ∃ s₁ b₁ s₂ b₂ x y b N, encode L t = some (s₁, b₁) ∧ encode L u = some (s₂, b₂) ∧
      parse L s₁ = some x ∧ parse L s₂ = some y ∧ (∀ fuel, N ≤ fuel → unify fuel x y = some (some b)) ∧
      (b = true ↔ ∃ θ φ, inst θ (tree t) = inst φ (tree u)) := by
  obtain ⟨s₁, b₁, h1, h2⟩ := C28_parse_infallible L hL t ht
  obtain ⟨s₂, b₂, h3, h4⟩ := C28_parse_infallible L hL u hu
  obtain ⟨b, N, h5, h6⟩ := C29_linear (tree t) (tree u) (tree_isExpr true t hmt) (tree_isExpr true u hmu) nt nu
  exact ⟨s₁, b₁, s₂, b₂, _, _, b, N, h1, h3, h2, h4, h5, h6⟩

/-- `func(T0, []T1)` and `func(map[U1]int, U0)` have a common instance, `func(T0, []T1)` and `func(int, map[U0]U1)` do not. -/
example :
    let x := tree (.sig (.cons (.typeParam 0 0) (.cons (.slice (.typeParam 0 1)) .nil)) false .nil)
    let y := tree (.sig (.cons (.map (.typeParam 1 1) (.basic .int)) (.cons (.typeParam 1 0) .nil)) false .nil)
    let z := tree (.sig (.cons (.basic .int) (.cons (.map (.typeParam 1 0) (.typeParam 1 1)) .nil)) false .nil)
    (IsExpr true false x ∧ IsExpr true false y ∧ IsExpr true false z) ∧
    ((occurrences x).Nodup ∧ (occurrences y).Nodup ∧ (occurrences z).Nodup) ∧
    unify 20 x y = some (some true) ∧ unify 20 x z = some (some false) := by
  refine ⟨?_, by decide +kernel, by decide +kernel, by decide +kernel⟩
  simp [tree, trees, lst, basicTree, IsExpr, paramOf]

/-- The occurs check computes containment. -/
theorem occurs_iff {tl : Bool} (k n : Nat) (y : Sexpr) (hy : IsExpr true tl y) {j : Nat} (hj : numTypeParams y = some j) (hjn : j ≤ n) (i : Nat) :
    ∃ b, occurs (i + k) ((List.range n).map (· + k)) y = some b ∧ (b = true ↔ Contains i y) := by
  induction y generalizing tl j with
  | cons a b iha ihb =>
    simp only [IsExpr] at hy
    rcases hy with ⟨_, _, hp⟩ | ⟨h1, h2⟩
    · obtain ⟨l, hl⟩ := Option.isSome_iff_exists.1 hp
      have hc : Contains i (.cons a b) ↔ l = i := by simp only [Contains, hl]
      rw [hc]
      obtain ⟨rfl, rfl⟩ := isExpr_param hl
      have := numParams_param hj
      refine ⟨decide (i + k = l + k), ?_, ?_⟩
      · rw [occurs]
        simp only [typeParamIndex, ↓reduceIte]
        rw [List.getElem?_map, List.getElem?_range (by omega)]
        rfl
      · rw [decide_eq_true_iff]; omega
    · have hk := isExpr_not_key h1
      have hc : Contains i (.cons a b) ↔ Contains i a ∨ Contains i b := by simp only [Contains, paramOf_cons hk]
      obtain ⟨m, m', hm, hm', rfl⟩ := numParams_cons hk hj
      obtain ⟨r, hr, hr'⟩ := iha h1 hm (by omega)
      obtain ⟨r', hr2, hr2'⟩ := ihb h2 hm' (by omega)
      rw [hc, occurs, typeParamIndex_cons hk]
      simp only [hr, hr2, Option.bind_some]
      cases r <;> simp at hr' ⊢ <;> simp [hr', hr2']
  | _ => exact ⟨false, rfl, by simp [Contains]⟩

/-- **C29**, occurs check: `(w T0 T0)` matches `(w U0 s)` exactly if `s` is `U0` itself or does not contain it, that is exactly if they
have a common (finite) instance. -/
theorem C29_no_infinite_match (w : Str) (hw : w ≠ go!"typeparam") (s : Sexpr) (hs : IsExpr true false s) :
    ∃ b, (∀ fuel, 10 ≤ fuel → unify fuel (lst [.sym w, tparam 0, tparam 0]) (lst [.sym w, tparam 0, s]) = some (some b)) ∧
      (b = true ↔ s = tparam 0 ∨ ¬ Contains 0 s) := by
  obtain ⟨k, hk⟩ := numParams_some s false hs
  have hw' : Sexpr.sym w ≠ .sym go!"typeparam" := by simpa using hw
  have hx : numTypeParams (lst [.sym w, tparam 0, tparam 0]) = some 1 := by
    simp only [lst, tparam, numTypeParams, typeParamIndex, hw, ↓reduceIte]; rfl
  have ht : numTypeParams (tparam 0) = some 1 := by
    simp only [lst, tparam, numTypeParams, typeParamIndex, ↓reduceIte]
  have hn1 : numTypeParams (.cons s .nil) = some k := by
    have : s ≠ .sym go!"typeparam" := isExpr_not_key hs
    rw [numTypeParams, typeParamIndex_cons this]; simp [hk, numTypeParams]
  have hy : numTypeParams (lst [.sym w, tparam 0, s]) = some (max 1 k) := by
    show numTypeParams (.cons (.sym w) (.cons (tparam 0) (.cons s .nil))) = _
    rw [numTypeParams, typeParamIndex_cons hw']
    have : numTypeParams (.cons (tparam 0) (.cons s .nil)) = some (max 1 k) := by
      rw [numTypeParams, typeParamIndex_cons (by simp [tparam, lst])]
      simp [ht, hn1]
    simp only [this]; simp [numTypeParams]
  obtain ⟨b, hb, hb'⟩ := occurs_iff 1 (max 1 k) s hs hk (by omega) 0
  have hw0 : typeParamIndex (.sym w) = some none := rfl
  -- both trees up to the last element
  have key : ∀ fuel, 10 ≤ fuel → unify fuel (lst [.sym w, tparam 0, tparam 0]) (lst [.sym w, tparam 0, s]) =
      (uni (fuel - 3) ⟨[1], (List.range (max 1 k)).map (· + 1), fun _ => none⟩ (tparam 0) s).map
        (·.map (·.2)) := by
    intro fuel hf
    obtain ⟨n, rfl⟩ : ∃ n, fuel = n + 10 := ⟨fuel - 10, by omega⟩
    unfold unify
    rw [hx, hy]
    simp only
    have e0 : uni (n + 9) ⟨List.range 1, (List.range (max 1 k)).map (· + 1), fun _ => none⟩ (.sym w) (.sym w) =
        some (some (⟨List.range 1, (List.range (max 1 k)).map (· + 1), fun _ => none⟩, true)) := by
      rw [uni_step _ _ _ _ hw0 hw0]; simp
    have g0 : ((List.range (max 1 k)).map (· + 1))[0]? = some 1 := by
      rw [List.getElem?_map, List.getElem?_range (by omega)]; rfl
    have e1 : uni (n + 8) ⟨List.range 1, (List.range (max 1 k)).map (· + 1), fun _ => none⟩ (tparam 0) (tparam 0) =
        some (some (⟨[1], (List.range (max 1 k)).map (· + 1), fun _ => none⟩, true)) := by
      rw [uni.eq_def]
      have hi : typeParamIndex (tparam 0) = some (some 0) := rfl
      simp only [hi, Option.map_some, g0]
      rfl
    have i1 : typeParamIndex (lst [.sym w, tparam 0, tparam 0]) = some none := typeParamIndex_cons hw'
    have i2 : typeParamIndex (lst [.sym w, tparam 0, s]) = some none := typeParamIndex_cons hw'
    have i3 : typeParamIndex (lst [tparam 0, tparam 0]) = some none := typeParamIndex_cons (by simp [tparam, lst])
    have i4 : typeParamIndex (lst [tparam 0, s]) = some none := typeParamIndex_cons (by simp [tparam, lst])
    have i5 : typeParamIndex (lst [tparam 0]) = some none := typeParamIndex_cons (by simp [tparam, lst])
    have i6 : typeParamIndex (lst [s]) = some none := typeParamIndex_cons (isExpr_not_key hs)
    rw [uni_step _ _ _ _ i1 i2]
    simp only [lst, e0]
    rw [if_neg (by simp), if_neg (by simp)]
    have s2 := fun st => uni_step (n + 8) st _ _ i3 i4
    simp only [lst] at s2
    rw [s2]
    simp only [e1]
    rw [if_neg (by simp), if_neg (by simp)]
    have s3 := fun st => uni_step (n + 7) st _ _ i5 i6
    simp only [lst] at s3
    rw [s3]
    rw [show n + 10 - 3 = n + 7 by omega]
    cases uni (n + 7) ⟨[1], (List.range (max 1 k)).map (· + 1), fun _ => none⟩ (tparam 0) s with
    | none => rfl
    | some o =>
      rcases o with _ | ⟨st, _ | _⟩ <;> simp
  have hi : typeParamIndex (tparam 0) = some (some 0) := rfl
  have hstep : ∀ n, uni (n + 1) ⟨[1], (List.range (max 1 k)).map (· + 1), fun _ => none⟩ (tparam 0) s =
      match typeParamIndex s with
      | some (some j) => some (some (⟨[j + 1], (List.range (max 1 k)).map (· + 1), fun _ => none⟩, true))
      | _ => some (bindCell ⟨[1], (List.range (max 1 k)).map (· + 1), fun _ => none⟩ 1 s ((List.range (max 1 k)).map (· + 1))) := by
    intro n
    rw [uni.eq_def]
    simp only [hi, Option.map_some]
    have hcase : (∃ j, s = tparam j) ∨ typeParamIndex s = some none := by
      cases s with
      | cons a b =>
        simp only [IsExpr] at hs
        rcases hs with ⟨_, _, hp⟩ | ⟨h1, _⟩
        · obtain ⟨j, hj⟩ := Option.isSome_iff_exists.1 hp
          obtain ⟨rfl, rfl⟩ := isExpr_param hj
          exact .inl ⟨j, rfl⟩
        · exact .inr (typeParamIndex_cons (isExpr_not_key h1))
      | _ => exact .inr rfl
    rcases hcase with ⟨j, rfl⟩ | hj
    · have hkj := numParams_param hk
      have hj : typeParamIndex (tparam j) = some (some j) := rfl
      have gj : ((List.range (max 1 k)).map (· + 1))[j]? = some (j + 1) := by
        rw [List.getElem?_map, List.getElem?_range (by omega)]; rfl
      simp only [hj, Option.map_some, gj]
      rfl
    · simp only [hj, Option.map_none]
      rfl
  by_cases hp : ∃ j, s = tparam j
  · obtain ⟨j, rfl⟩ := hp
    refine ⟨true, ?_, ?_⟩
    · intro fuel hf
      rw [key fuel hf]
      obtain ⟨n, rfl⟩ : ∃ n, fuel = n + 4 := ⟨fuel - 4, by omega⟩
      rw [show n + 4 - 3 = n + 1 by omega, hstep]
      rfl
    · by_cases hj : j = 0
      · subst hj; simp
      · simp only [true_iff]; right
        show ¬ (j = 0)
        exact hj
  · have hidx : typeParamIndex s = some none := by
      cases s with
      | cons a c =>
        simp only [IsExpr] at hs
        rcases hs with ⟨_, _, hpp⟩ | ⟨h1, _⟩
        · obtain ⟨j, hj⟩ := Option.isSome_iff_exists.1 hpp
          obtain ⟨rfl, rfl⟩ := isExpr_param hj
          exact absurd ⟨j, rfl⟩ hp
        · exact typeParamIndex_cons (isExpr_not_key h1)
      | _ => rfl
    refine ⟨!b, ?_, ?_⟩
    · intro fuel hf
      rw [key fuel hf]
      obtain ⟨n, rfl⟩ : ∃ n, fuel = n + 4 := ⟨fuel - 4, by omega⟩
      rw [show n + 4 - 3 = n + 1 by omega, hstep, hidx]
      simp only [bindCell]
      rw [Nat.zero_add] at hb
      rw [hb]
      cases b <;> rfl
    · have : s ≠ tparam 0 := fun h => hp ⟨0, h⟩
      cases b <;> simp at hb' ⊢ <;> simp [hb', this]

def Sexpr.size : Sexpr → Nat
  | .cons a b => Sexpr.size a + Sexpr.size b + 1
  | _ => 1

theorem size_contains {i : Nat} (φ : Nat → Sexpr) (s : Sexpr) (h : Contains i s) : Sexpr.size (φ i) ≤ Sexpr.size (inst φ s) ∧
    (paramOf s = none → Sexpr.size (φ i) < Sexpr.size (inst φ s)) := by
  induction s with
  | cons a b iha ihb =>
    simp only [Contains] at h
    rw [inst]
    split at h
    · rename_i j hj; subst h; rw [hj]; exact ⟨Nat.le_refl _, by simp⟩
    · rename_i hj
      rw [hj]
      have : Sexpr.size (φ i) < Sexpr.size (.cons (inst φ a) (inst φ b)) := by
        rw [Sexpr.size]
        rcases h with h | h
        · have := (iha h).1; omega
        · have := (ihb h).1; omega
      exact ⟨Nat.le_of_lt this, fun _ => this⟩
  | _ => exact absurd h (by simp [Contains])

theorem inst_irrelevant {i : Nat} {φ ψ : Nat → Sexpr} (hφ : ∀ j, j ≠ i → φ j = ψ j) (s : Sexpr) (h : ¬ Contains i s) : inst φ s = inst ψ s := by
  induction s with
  | cons a b iha ihb =>
    simp only [Contains] at h
    rw [inst, inst]
    split at h
    · exact hφ _ h
    · simp only [not_or] at h
      simp only [iha h.1, ihb h.2]
  | _ => rfl

/-- The condition of `C29_no_infinite_match` says that the two trees have a common instance. -/
theorem C29_no_infinite_match_instance (w : Str) (hw : w ≠ go!"typeparam") (s : Sexpr) (hs : IsExpr true false s) :
    (∃ θ φ, inst θ (lst [.sym w, tparam 0, tparam 0]) = inst φ (lst [.sym w, tparam 0, s])) ↔ (s = tparam 0 ∨ ¬ Contains 0 s) := by
  have hw' : Sexpr.sym w ≠ .sym go!"typeparam" := by simpa using hw
  have e : ∀ θ z, z ≠ .sym go!"typeparam" → inst θ (lst [.sym w, tparam 0, z]) = lst [.sym w, θ 0, inst θ z] := by
    intro θ z hz
    have e1 : inst θ (.cons z .nil) = .cons (inst θ z) .nil := by rw [inst, paramOf_cons hz]; rfl
    have e2 : inst θ (.cons (tparam 0) (.cons z .nil)) = .cons (θ 0) (.cons (inst θ z) .nil) := by
      rw [inst, paramOf_cons (by simp [tparam, lst]), e1]; rfl
    show inst θ (.cons (.sym w) (.cons (tparam 0) (.cons z .nil))) = _
    rw [inst, paramOf_cons hw', e2]; rfl
  have e' : ∀ θ, inst θ (tparam 0) = θ 0 := fun _ => rfl
  constructor
  · rintro ⟨θ, φ, h⟩
    rw [e θ _ (by simp [tparam, lst]), e φ _ (isExpr_not_key hs), e'] at h
    simp only [lst, Sexpr.cons.injEq, true_and, and_true] at h
    obtain ⟨h1, h2⟩ := h
    by_cases hc : Contains 0 s
    · left
      have := (size_contains φ s hc).2
      rw [← h1, h2] at this
      cases hp : paramOf s with
      | none => exact absurd (this hp) (Nat.lt_irrefl _)
      | some j =>
        cases s with
        | cons a b =>
          simp only [Contains, hp] at hc
          subst hc
          obtain ⟨rfl, rfl⟩ := isExpr_param hp
          rfl
        | _ => simp [paramOf] at hp
    · exact .inr hc
  · rintro (rfl | h)
    · exact ⟨fun _ => .nil, fun _ => .nil, rfl⟩
    · refine ⟨fun _ => inst (fun _ => .nil) s, fun i => if i = 0 then inst (fun _ => .nil) s else .nil, ?_⟩
      rw [e _ _ (by simp [tparam, lst]), e _ _ (isExpr_not_key hs), e']
      have := inst_irrelevant (i := 0) (φ := fun i => if i = 0 then inst (fun _ => .nil) s else .nil) (ψ := fun _ => .nil) (by intro j hj; simp [hj]) s h
      rw [this]; rfl

example : ∃ b, (∀ fuel, 10 ≤ fuel → unify fuel (lst [.sym go!"func", tparam 0, tparam 0]) (lst [.sym go!"func", tparam 0, lst [.sym go!"slice", tparam 0]]) =
    some (some b)) ∧ b = false := by
  obtain ⟨b, h1, h2⟩ := C29_no_infinite_match go!"func" (by decide) (lst [.sym go!"slice", tparam 0]) (by simp [lst, tparam, IsExpr, paramOf])
  refine ⟨b, h1, ?_⟩
  cases b with
  | false => rfl
  | true => exact absurd (h2.1 rfl) (by simp [Contains, lst, tparam, paramOf])

/-- A declared type with the name `typeparam` crashes the matcher, even against itself. -/
theorem C29_keyword_name_crash : unify 20 (tree (.named 1 (some go!"p") go!"typeparam" .nil))
    (tree (.named 1 (some go!"p") go!"typeparam" .nil)) = some none := by
  decide +kernel

/-! ### A concrete instance of the lexical assumptions, and concrete types -/

/-- A simple quoting function: quotes, backslashes and newlines are escaped. -/
def sampleQuoteBody : Str → Str
  | [] => ['"']
  | c :: r => if c = '"' ∨ c = '\\' then '\\' :: c :: sampleQuoteBody r
    else if c = '\n' then '\\' :: 'n' :: sampleQuoteBody r else c :: sampleQuoteBody r

/-- Its inverse. -/
def sampleUnquoteBody : Str → Option Str
  | [] => none
  | '\\' :: 'n' :: r => (sampleUnquoteBody r).map ('\n' :: ·)
  | '\\' :: c :: r => (sampleUnquoteBody r).map (c :: ·)
  | '"' :: r => if r = [] then some [] else none
  | c :: r => (sampleUnquoteBody r).map (c :: ·)

def sampleLex : Lex where
  quote s := '"' :: sampleQuoteBody s
  unquote s := sampleUnquoteBody (s.drop 1)
  letter c := ('a' ≤ c && c ≤ 'z') || ('A' ≤ c && c ≤ 'Z') || c = '_'
  digit c := c.isDigit

theorem sampleLex_ok : LexOk sampleLex where
  quoted := by
    intro s
    refine ⟨sampleQuoteBody s, rfl, ?_⟩
    intro rest
    induction s with
    | nil => simp [sampleQuoteBody, scanStr]
    | cons c r ih =>
      unfold sampleQuoteBody
      split
      · rename_i h
        rcases h with rfl | rfl <;> simp [scanStr, ih]
      · split
        · simp [scanStr, ih]
        · rename_i h1 h2
          rw [List.cons_append, scanStr]
          · rw [ih]; rfl
          · rintro rfl; simp at h1
          · rintro c' r' rfl; simp at h1
          · rintro rfl; simp at h1
          · exact h2
  quote_plain := by
    intro s hs
    show '"' :: sampleQuoteBody s = _
    congr 1
    induction s with
    | nil => rfl
    | cons c r ih =>
      have hc := hs c (by simp)
      unfold sampleQuoteBody
      rw [if_neg, if_neg, ih (fun d hd => hs d (by simp [hd]))]
      · rfl
      · rintro rfl; exact absurd hc (by decide)
      · rintro (rfl | rfl) <;> exact absurd hc (by decide)
  unquote_quote := by
    intro s
    show sampleUnquoteBody (sampleQuoteBody s) = some s
    induction s with
    | nil => rfl
    | cons c r ih =>
      unfold sampleQuoteBody
      split
      · rename_i h
        rcases h with rfl | rfl <;> simp [sampleUnquoteBody, ih]
      · split
        · rename_i h; simp [sampleUnquoteBody, ih, h]
        · rename_i h1 h2
          rw [sampleUnquoteBody]
          · rw [ih]; rfl
          · rintro r' rfl; simp at h1
          · rintro c' r' rfl; simp at h1
          · rintro rfl; simp at h1
  not_letter := by decide
  not_digit := by decide
  ascii_letter := by
    intro c hc
    rcases hc with hc | rfl
    · simp [sampleLex, hc.1, hc.2]
    · decide
  ascii_digit := fun c hc => hc

/-- `func(ctx context.Context, m map[string]struct{ X int "t"; y *T }) (p.G[int], error)`, variadic. -/
def sampleTy : Ty :=
  .sig (.cons (.named 1 (some go!"context") go!"Context" .nil)
      (.cons (.map (.basic .string) (.struct (.cons ⟨go!"X", go!"p", false, go!"a \"b\""⟩ (.basic .int)
        (.cons ⟨go!"y", go!"p", false, []⟩ (.ptr (.named 2 (some go!"p") go!"T" .nil)) .nil)))) .nil)) true
    (.cons (.named 3 (some go!"p") go!"G" (.cons (.alias (.basic .int)) .nil)) (.cons (.named 4 none go!"error" .nil) .nil))

theorem sampleTy_valid : Valid sampleLex sampleTy := by
  simp [sampleTy, Valid, ValidEach, ValidFields, IsIdent, sampleLex]

example : encode sampleLex sampleTy = some (go!"(func (tuple (qual \"context\" Context) (map string (struct X false \"a \\\"b\\\"\" int (qual \"p\" y) false \"\" (ptr (qual \"p\" T))))) v (tuple (inst (qual \"p\" G) int) error))", false) := by
  decide +kernel

example : ∃ s b, encode sampleLex sampleTy = some (s, b) ∧ parse sampleLex s = some (tree sampleTy) :=
  C28_parse_infallible sampleLex sampleLex_ok sampleTy sampleTy_valid

example : NamesUnique (fun _ n => if n = go!"Context" then 1 else if n = go!"T" then 2 else if n = go!"G" then 3 else 4) sampleTy := by
  simp [sampleTy, NamesUnique, NamesUniqueEach, NamesUniqueFields]

/-- Two spellings of the same type. -/
example : Identical (.sig (.cons (.alias (.basic .uint8)) .nil) false .nil) (.sig (.cons (.basic .uint8) .nil) false .nil) :=
  .sig (.cons (.aliasL .basic) .nil) .nil

/-- `func(T0, []T0)` matches `func(int, []int)` but not `func(int, []string)`. -/
example : IsExpr true false (tree (.sig (.cons (.typeParam 0 0) (.cons (.slice (.typeParam 0 0)) .nil)) false .nil)) ∧
    IsExpr false false (tree (.sig (.cons (.basic .int) (.cons (.slice (.basic .int)) .nil)) false .nil)) := by
  simp [tree, trees, lst, basicTree, IsExpr, paramOf]

example : unify 20 (tree (.sig (.cons (.typeParam 0 0) (.cons (.slice (.typeParam 0 0)) .nil)) false .nil))
    (tree (.sig (.cons (.basic .int) (.cons (.slice (.basic .int)) .nil)) false .nil)) = some (some true) ∧
  unify 20 (tree (.sig (.cons (.typeParam 0 0) (.cons (.slice (.typeParam 0 0)) .nil)) false .nil))
    (tree (.sig (.cons (.basic .int) (.cons (.slice (.basic .string)) .nil)) false .nil)) = some (some false) := by
  decide +kernel

end Verif
