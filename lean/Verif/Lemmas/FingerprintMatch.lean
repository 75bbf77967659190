import Verif.Spec.Fingerprint
/-!
# Matching a fingerprint tree with type parameters against one without
-/
namespace Verif.Fp
open Verif Spec

theorem isExpr_param {a b : Sexpr} {i : Nat} (h : paramOf (.cons a b) = some i) :
    a = .sym go!"typeparam" ∧ b = .cons (.int i) .nil := by
  unfold paramOf at h
  split at h
  · split at h
    · rename_i h1 h2
      simp at h1 h
      obtain ⟨rfl, rfl⟩ := h1
      subst h
      subst h2
      exact ⟨rfl, rfl⟩
    · simp at h
  · simp at h

theorem isExpr_not_key {p : Bool} {a : Sexpr} (h : IsExpr p false a) : a ≠ .sym go!"typeparam" := by
  rintro rfl
  simp [IsExpr] at h

theorem typeParamIndex_cons {a b : Sexpr} (h : a ≠ .sym go!"typeparam") : typeParamIndex (.cons a b) = some none := by
  unfold typeParamIndex
  split
  · rename_i he
    simp at he
    obtain ⟨rfl, rfl⟩ := he
    rw [if_neg]
    intro hs; subst hs; exact h rfl
  · rfl

theorem paramOf_cons {a b : Sexpr} (h : a ≠ .sym go!"typeparam") : paramOf (.cons a b) = none := by
  cases hp : paramOf (.cons a b) with
  | none => rfl
  | some i => exact absurd (isExpr_param hp).1 h

theorem ground_cons {tl : Bool} {a b : Sexpr} (h : IsExpr false tl (.cons a b)) : IsExpr false false a ∧ IsExpr false true b := by
  simp only [IsExpr] at h
  rcases h with ⟨h, _⟩ | h
  · simp at h
  · exact h

theorem ground_index {tl : Bool} (y : Sexpr) (h : IsExpr false tl y) : typeParamIndex y = some none := by
  cases y with
  | cons a b => exact typeParamIndex_cons (isExpr_not_key (ground_cons h).1)
  | _ => rfl

theorem ground_params {tl : Bool} (y : Sexpr) (h : IsExpr false tl y) : numTypeParams y = some 0 := by
  induction y generalizing tl with
  | cons a b iha ihb =>
    have h' := ground_cons h
    rw [numTypeParams, ground_index _ h]
    simp [iha h'.1, ihb h'.2]
  | _ => rfl

theorem inst_ground {tl : Bool} (θ : Nat → Sexpr) (y : Sexpr) (h : IsExpr false tl y) : inst θ y = y := by
  induction y generalizing tl with
  | cons a b iha ihb =>
    have h' := ground_cons h
    rw [inst, paramOf_cons (isExpr_not_key h'.1)]
    simp only [iha h'.1, ihb h'.2]
  | _ => rfl

theorem occurs_ground {tl : Bool} (c : Nat) (l : List Nat) (y : Sexpr) (h : IsExpr false tl y) : occurs c l y = some false := by
  induction y generalizing tl with
  | cons a b iha ihb =>
    have h' := ground_cons h
    rw [occurs, ground_index _ h]
    simp [iha h'.1, ihb h'.2]
  | _ => rfl

/-- One step on two expressions that are not type parameters. -/
theorem uni_step (fuel : Nat) (st : Bindings) (x y : Sexpr) (hx : typeParamIndex x = some none) (hy : typeParamIndex y = some none) :
    uni (fuel + 1) st x y =
      match (generalizing := false) x, y with
      | .nil, .nil => some (some (st, true))
      | .str a, .str b => some (some (st, decide (a = b)))
      | .int a, .int b => some (some (st, decide (a = b)))
      | .sym a, .sym b => some (some (st, decide (a = b)))
      | .cons a c, .cons b d =>
        match uni fuel st a b with
        | none => none
        | some none => some none
        | some (some (st, false)) => some (some (st, false))
        | some (some (st, true)) =>
          if c = .nil then some (some (st, decide (d = .nil)))
          else if d = .nil then some (some (st, false))
          else uni fuel st c d
      | _, _ => some (some (st, false)) := by
  conv => lhs; rw [uni.eq_def]
  simp only [hx, hy, Option.map_none, Option.join_none]
  rfl

/-- Two expressions without type parameters match iff they are equal. -/
theorem uni_ground (st : Bindings) (x y : Sexpr) {tl tl' : Bool} (hx : IsExpr false tl x) (hy : IsExpr false tl' y) :
    ∃ N, ∀ fuel, N ≤ fuel → uni fuel st x y = some (some (st, decide (x = y))) := by
  induction x generalizing y tl tl' with
  | cons a c iha ihc =>
    have hx' := ground_cons hx
    cases y with
    | cons b d =>
      have hy' := ground_cons hy
      obtain ⟨N₁, h₁⟩ := iha b hx'.1 hy'.1
      obtain ⟨N₂, h₂⟩ := ihc d hx'.2 hy'.2
      refine ⟨max N₁ N₂ + 1, ?_⟩
      intro fuel hf
      obtain ⟨n, rfl⟩ : ∃ n, fuel = n + 1 := ⟨fuel - 1, by omega⟩
      rw [uni_step n st _ _ (ground_index _ hx) (ground_index _ hy)]
      simp only [h₁ n (by omega)]
      by_cases hab : a = b
      · subst hab
        simp only [decide_true]
        by_cases hc : c = .nil
        · subst hc; simp; exact eq_comm
        · by_cases hd : d = .nil
          · subst hd; simp [hc]
          · simp [hc, hd, h₂ n (by omega)]
      · simp [hab]
    | _ =>
      refine ⟨1, ?_⟩
      intro fuel hf
      obtain ⟨n, rfl⟩ : ∃ n, fuel = n + 1 := ⟨fuel - 1, by omega⟩
      rw [uni_step n st _ _ (ground_index _ hx) (ground_index _ hy)]
      simp
  | _ =>
    refine ⟨1, ?_⟩
    intro fuel hf
    obtain ⟨n, rfl⟩ : ∃ n, fuel = n + 1 := ⟨fuel - 1, by omega⟩
    rw [uni_step n st _ _ (ground_index _ hx) (ground_index _ hy)]
    cases y <;> simp

/-- The assignment agrees with the cells. -/
def Agrees (θ : Nat → Sexpr) (st : Bindings) : Prop := ∀ i s, st.cells i = some s → θ i = s

/-- All cells hold expressions without type parameters. -/
def GoodCells (st : Bindings) : Prop := ∀ i s, st.cells i = some s → IsExpr false false s

theorem get_good {st : Bindings} (h : GoodCells st) (c : Nat) : st.get c = st.cells c := by
  unfold Bindings.get
  split
  · rename_i hc; have := h c .nil hc; simp [IsExpr] at this
  · rfl

/-- The outcome of matching a pattern `x` against an expression `y`. -/
def Outcome (run : Nat → Option (Option (Bindings × Bool))) (st : Bindings) (x y : Sexpr) : Prop :=
  ∃ N st' b, (∀ fuel, N ≤ fuel → run fuel = some (some (st', b))) ∧ GoodCells st' ∧ st'.xs = st.xs ∧ st'.ys = st.ys ∧
    (∀ i s, st.cells i = some s → st'.cells i = some s) ∧
    (b = true → ∀ θ, Agrees θ st' → inst θ x = y) ∧
    (∀ θ, Agrees θ st → inst θ x = y → b = true ∧ Agrees θ st')

theorem numParams_cons {a b : Sexpr} {k : Nat} (ha : a ≠ .sym go!"typeparam") (h : numTypeParams (.cons a b) = some k) :
    ∃ m n, numTypeParams a = some m ∧ numTypeParams b = some n ∧ k = max m n := by
  rw [numTypeParams, typeParamIndex_cons ha] at h
  simp only at h
  obtain ⟨m, hm, h⟩ := Option.bind_eq_some_iff.1 h
  obtain ⟨n, hn, h⟩ := Option.map_eq_some_iff.1 h
  exact ⟨m, n, hm, hn, h.symm⟩

theorem numParams_param {i k : Nat} (h : numTypeParams (.cons (.sym go!"typeparam") (.cons (.int i) .nil)) = some k) :
    k = i + 1 := by
  rw [numTypeParams] at h
  simp [typeParamIndex] at h
  omega

/-- Patterns on the left. -/
theorem match_left (x : Sexpr) : ∀ (y : Sexpr) (tl : Bool) (m k : Nat) (st : Bindings), IsExpr true tl x → IsExpr false tl y →
    numTypeParams x = some k → k ≤ m → st.xs = List.range m → st.ys = [] → GoodCells st →
    Outcome (fun fuel => uni fuel st x y) st x y := by
  have atom : ∀ (x y : Sexpr) (tl : Bool) (st : Bindings), IsExpr false tl x → IsExpr false tl y → GoodCells st →
      Outcome (fun fuel => uni fuel st x y) st x y := by
    intro x y tl st hx hy hg
    obtain ⟨N, hN⟩ := uni_ground st x y hx hy
    refine ⟨N, st, decide (x = y), hN, hg, rfl, rfl, fun _ _ h => h, ?_, ?_⟩
    · intro hb θ _; rw [inst_ground θ x hx]; exact of_decide_eq_true hb
    · intro θ hθ he; rw [inst_ground θ x hx] at he; exact ⟨decide_eq_true he, hθ⟩
  induction x with
  | nil => intro y tl m k st hx hy _ _ _ _ hg; exact atom _ _ tl st (by simpa [IsExpr] using hx) hy hg
  | str s => intro y tl m k st hx hy _ _ _ _ hg; exact atom _ _ tl st (by simpa [IsExpr] using hx) hy hg
  | int s => intro y tl m k st hx hy _ _ _ _ hg; exact atom _ _ tl st (by simpa [IsExpr] using hx) hy hg
  | sym s => intro y tl m k st hx hy _ _ _ _ hg; exact atom _ _ tl st (by simpa [IsExpr] using hx) hy hg
  | cons a c iha ihc =>
    intro y tl m k st hx hy hk hkm hxs hys hg
    simp only [IsExpr] at hx
    rcases hx with ⟨_, htl, hp⟩ | ⟨hxa, hxc⟩
    · -- a type parameter
      obtain ⟨i, hi⟩ := Option.isSome_iff_exists.1 hp
      obtain ⟨rfl, rfl⟩ := isExpr_param hi
      have hki := numParams_param hk
      have hxi : st.xs[i]? = some i := by rw [hxs, List.getElem?_range (by omega)]
      have hstep : ∀ n, uni (n + 1) st (.cons (.sym go!"typeparam") (.cons (.int i) .nil)) y =
          match st.get i with
          | none => some (bindCell st i y st.ys)
          | some x => uni n st x y := by
        intro n
        have h1 : typeParamIndex (.cons (.sym go!"typeparam") (.cons (.int i) .nil)) = some (some i) := by
          simp [typeParamIndex]
        conv => lhs; rw [uni.eq_def]
        simp only [h1, ground_index y hy, Option.map_some, hxi, Option.map_none, Option.join_some, Option.join_none]
        rfl
      have hinst : ∀ θ, inst θ (.cons (.sym go!"typeparam") (.cons (.int i) .nil)) = θ i := by
        intro θ; rw [inst, hi]
      subst htl
      cases hc : st.cells i with
      | none =>
        refine ⟨1, { st with cells := fun c => if c = i then some y else st.cells c }, true, ?_, ?_, rfl, rfl, ?_, ?_, ?_⟩
        · intro fuel hf
          obtain ⟨n, rfl⟩ : ∃ n, fuel = n + 1 := ⟨fuel - 1, by omega⟩
          simp only
          rw [hstep, get_good hg, hc]
          simp only [bindCell, occurs_ground i st.ys y hy, Option.map_some]
          rfl
        · intro j s hs
          simp only at hs
          split at hs
          · simp at hs; subst hs; exact hy
          · exact hg j s hs
        · intro j s hs
          simp only
          split
          · rename_i hj; subst hj; rw [hc] at hs; simp at hs
          · exact hs
        · intro _ θ hθ
          rw [hinst]
          exact hθ i y (by simp)
        · intro θ hθ he
          rw [hinst] at he
          refine ⟨rfl, ?_⟩
          intro j s hs
          simp only at hs
          split at hs
          · rename_i hj; simp at hs; rw [hj, ← hs]; exact he
          · exact hθ j s hs
      | some v =>
        obtain ⟨N, hN⟩ := uni_ground st v y (hg i v hc) hy
        refine ⟨N + 1, st, decide (v = y), ?_, hg, rfl, rfl, fun _ _ h => h, ?_, ?_⟩
        · intro fuel hf
          obtain ⟨n, rfl⟩ : ∃ n, fuel = n + 1 := ⟨fuel - 1, by omega⟩
          simp only
          rw [hstep, get_good hg, hc]
          exact hN n (by omega)
        · intro hb θ hθ; rw [hinst, hθ i v hc]; exact of_decide_eq_true hb
        · intro θ hθ he
          rw [hinst, hθ i v hc] at he
          exact ⟨decide_eq_true he, hθ⟩
    · -- a list
      have hkey := isExpr_not_key hxa
      have hidx : typeParamIndex (.cons a c) = some none := typeParamIndex_cons hkey
      have hinst : ∀ θ, inst θ (.cons a c) = .cons (inst θ a) (inst θ c) := by
        intro θ; rw [inst, paramOf_cons hkey]
      obtain ⟨ka, kc, hka, hkc, rfl⟩ := numParams_cons hkey hk
      cases y with
      | cons b d =>
        have hy' := ground_cons hy
        obtain ⟨N₁, st₁, r₁, hrun₁, hg₁, hxs₁, hys₁, hext₁, hs₁, hc₁⟩ :=
          iha b false m ka st hxa hy'.1 hka (by omega) hxs hys hg
        cases r₁ with
        | false =>
          refine ⟨N₁ + 1, st₁, false, ?_, hg₁, hxs₁, hys₁, hext₁, by simp, ?_⟩
          · intro fuel hf
            obtain ⟨n, rfl⟩ : ∃ n, fuel = n + 1 := ⟨fuel - 1, by omega⟩
            simp only
            rw [uni_step n st _ _ hidx (ground_index _ hy)]
            have := hrun₁ n (by omega)
            simp only at this
            simp only [this]
          · intro θ hθ he
            rw [hinst] at he
            simp only [Sexpr.cons.injEq] at he
            exact absurd (hc₁ θ hθ he.1).1 (by simp)
        | true =>
          by_cases hcn : c = .nil
          · subst hcn
            refine ⟨N₁ + 1, st₁, decide (d = .nil), ?_, hg₁, hxs₁, hys₁, hext₁, ?_, ?_⟩
            · intro fuel hf
              obtain ⟨n, rfl⟩ : ∃ n, fuel = n + 1 := ⟨fuel - 1, by omega⟩
              simp only
              rw [uni_step n st _ _ hidx (ground_index _ hy)]
              have := hrun₁ n (by omega)
              simp only at this
              simp only [this, if_true]
            · intro hb θ hθ
              rw [hinst, hs₁ rfl θ hθ, of_decide_eq_true hb]
              rfl
            · intro θ hθ he
              rw [hinst] at he
              simp only [Sexpr.cons.injEq] at he
              exact ⟨decide_eq_true he.2.symm, (hc₁ θ hθ he.1).2⟩
          · by_cases hdn : d = .nil
            · subst hdn
              refine ⟨N₁ + 1, st₁, false, ?_, hg₁, hxs₁, hys₁, hext₁, by simp, ?_⟩
              · intro fuel hf
                obtain ⟨n, rfl⟩ : ∃ n, fuel = n + 1 := ⟨fuel - 1, by omega⟩
                simp only
                rw [uni_step n st _ _ hidx (ground_index _ hy)]
                have := hrun₁ n (by omega)
                simp only at this
                simp only [this, if_true, if_neg hcn]
              · intro θ hθ he
                exfalso
                rw [hinst] at he
                simp only [Sexpr.cons.injEq] at he
                cases c with
                | cons p q =>
                  simp only [IsExpr] at hxc
                  rcases hxc with ⟨_, h, _⟩ | hxc
                  · simp at h
                  · have h3 : inst θ (.cons p q) = .cons (inst θ p) (inst θ q) := by
                      rw [inst, paramOf_cons (isExpr_not_key hxc.1)]
                    rw [h3] at he
                    simp at he
                | nil => exact hcn rfl
                | _ => simp [IsExpr] at hxc
            · obtain ⟨N₂, st₂, r₂, hrun₂, hg₂, hxs₂, hys₂, hext₂, hs₂, hc₂⟩ :=
                ihc d true m kc st₁ hxc hy'.2 hkc (by omega) (by rw [hxs₁, hxs]) (by rw [hys₁, hys]) hg₁
              refine ⟨max N₁ N₂ + 1, st₂, r₂, ?_, hg₂, by rw [hxs₂, hxs₁], by rw [hys₂, hys₁],
                fun i s h => hext₂ i s (hext₁ i s h), ?_, ?_⟩
              · intro fuel hf
                obtain ⟨n, rfl⟩ : ∃ n, fuel = n + 1 := ⟨fuel - 1, by omega⟩
                simp only
                rw [uni_step n st _ _ hidx (ground_index _ hy)]
                have h1 := hrun₁ n (by omega)
                have h2 := hrun₂ n (by omega)
                simp only at h1 h2
                simp only [h1, if_neg hcn, if_neg hdn, h2]
              · intro hb θ hθ
                rw [hinst, hs₂ hb θ hθ, hs₁ rfl θ (fun i s h => hθ i s (hext₂ i s h))]
              · intro θ hθ he
                rw [hinst] at he
                simp only [Sexpr.cons.injEq] at he
                exact hc₂ θ (hc₁ θ hθ he.1).2 he.2
      | _ =>
        refine ⟨1, st, false, ?_, hg, rfl, rfl, fun _ _ h => h, by simp, ?_⟩
        · intro fuel hf
          obtain ⟨n, rfl⟩ : ∃ n, fuel = n + 1 := ⟨fuel - 1, by omega⟩
          simp only
          rw [uni_step n st _ _ hidx (ground_index _ hy)]
        · intro θ _ he; rw [hinst] at he; simp at he

/-- Patterns on the right. -/
theorem match_right (x : Sexpr) : ∀ (y : Sexpr) (tl : Bool) (m k : Nat) (st : Bindings), IsExpr true tl x → IsExpr false tl y →
    numTypeParams x = some k → k ≤ m → st.ys = List.range m → st.xs = [] → GoodCells st →
    Outcome (fun fuel => uni fuel st y x) st x y := by
  have atom : ∀ (x y : Sexpr) (tl : Bool) (st : Bindings), IsExpr false tl x → IsExpr false tl y → GoodCells st →
      Outcome (fun fuel => uni fuel st y x) st x y := by
    intro x y tl st hx hy hg
    obtain ⟨N, hN⟩ := uni_ground st y x hy hx
    refine ⟨N, st, decide (y = x), hN, hg, rfl, rfl, fun _ _ h => h, ?_, ?_⟩
    · intro hb θ _; rw [inst_ground θ x hx]; exact (of_decide_eq_true hb).symm
    · intro θ hθ he; rw [inst_ground θ x hx] at he; exact ⟨decide_eq_true he.symm, hθ⟩
  induction x with
  | nil => intro y tl m k st hx hy _ _ _ _ hg; exact atom _ _ tl st (by simpa [IsExpr] using hx) hy hg
  | str s => intro y tl m k st hx hy _ _ _ _ hg; exact atom _ _ tl st (by simpa [IsExpr] using hx) hy hg
  | int s => intro y tl m k st hx hy _ _ _ _ hg; exact atom _ _ tl st (by simpa [IsExpr] using hx) hy hg
  | sym s => intro y tl m k st hx hy _ _ _ _ hg; exact atom _ _ tl st (by simpa [IsExpr] using hx) hy hg
  | cons a c iha ihc =>
    intro y tl m k st hx hy hk hkm hxs hys hg
    simp only [IsExpr] at hx
    rcases hx with ⟨_, htl, hp⟩ | ⟨hxa, hxc⟩
    · obtain ⟨i, hi⟩ := Option.isSome_iff_exists.1 hp
      obtain ⟨rfl, rfl⟩ := isExpr_param hi
      have hki := numParams_param hk
      have hxi : st.ys[i]? = some i := by rw [hxs, List.getElem?_range (by omega)]
      have hstep : ∀ n, uni (n + 1) st y (.cons (.sym go!"typeparam") (.cons (.int i) .nil)) =
          match st.get i with
          | none => some (bindCell st i y st.xs)
          | some x => uni n st y x := by
        intro n
        have h1 : typeParamIndex (.cons (.sym go!"typeparam") (.cons (.int i) .nil)) = some (some i) := by
          simp [typeParamIndex]
        conv => lhs; rw [uni.eq_def]
        simp only [h1, ground_index y hy, Option.map_some, hxi, Option.map_none, Option.join_some, Option.join_none]
        rfl
      have hinst : ∀ θ, inst θ (.cons (.sym go!"typeparam") (.cons (.int i) .nil)) = θ i := by
        intro θ; rw [inst, hi]
      subst htl
      cases hc : st.cells i with
      | none =>
        refine ⟨1, { st with cells := fun c => if c = i then some y else st.cells c }, true, ?_, ?_, rfl, rfl, ?_, ?_, ?_⟩
        · intro fuel hf
          obtain ⟨n, rfl⟩ : ∃ n, fuel = n + 1 := ⟨fuel - 1, by omega⟩
          simp only
          rw [hstep, get_good hg, hc]
          simp only [bindCell, occurs_ground i st.xs y hy, Option.map_some]
          rfl
        · intro j s hs
          simp only at hs
          split at hs
          · simp at hs; subst hs; exact hy
          · exact hg j s hs
        · intro j s hs
          simp only
          split
          · rename_i hj; subst hj; rw [hc] at hs; simp at hs
          · exact hs
        · intro _ θ hθ
          rw [hinst]
          exact hθ i y (by simp)
        · intro θ hθ he
          rw [hinst] at he
          refine ⟨rfl, ?_⟩
          intro j s hs
          simp only at hs
          split at hs
          · rename_i hj; simp at hs; rw [hj, ← hs]; exact he
          · exact hθ j s hs
      | some v =>
        obtain ⟨N, hN⟩ := uni_ground st y v hy (hg i v hc)
        refine ⟨N + 1, st, decide (y = v), ?_, hg, rfl, rfl, fun _ _ h => h, ?_, ?_⟩
        · intro fuel hf
          obtain ⟨n, rfl⟩ : ∃ n, fuel = n + 1 := ⟨fuel - 1, by omega⟩
          simp only
          rw [hstep, get_good hg, hc]
          exact hN n (by omega)
        · intro hb θ hθ; rw [hinst, hθ i v hc]; exact (of_decide_eq_true hb).symm
        · intro θ hθ he
          rw [hinst, hθ i v hc] at he
          exact ⟨decide_eq_true he.symm, hθ⟩
    · have hkey := isExpr_not_key hxa
      have hidx : typeParamIndex (.cons a c) = some none := typeParamIndex_cons hkey
      have hinst : ∀ θ, inst θ (.cons a c) = .cons (inst θ a) (inst θ c) := by
        intro θ; rw [inst, paramOf_cons hkey]
      obtain ⟨ka, kc, hka, hkc, rfl⟩ := numParams_cons hkey hk
      cases y with
      | cons b d =>
        have hy' := ground_cons hy
        obtain ⟨N₁, st₁, r₁, hrun₁, hg₁, hxs₁, hys₁, hext₁, hs₁, hc₁⟩ :=
          iha b false m ka st hxa hy'.1 hka (by omega) hxs hys hg
        cases r₁ with
        | false =>
          refine ⟨N₁ + 1, st₁, false, ?_, hg₁, hxs₁, hys₁, hext₁, by simp, ?_⟩
          · intro fuel hf
            obtain ⟨n, rfl⟩ : ∃ n, fuel = n + 1 := ⟨fuel - 1, by omega⟩
            simp only
            rw [uni_step n st _ _ (ground_index _ hy) hidx]
            have := hrun₁ n (by omega)
            simp only at this
            simp only [this]
          · intro θ hθ he
            rw [hinst] at he
            simp only [Sexpr.cons.injEq] at he
            exact absurd (hc₁ θ hθ he.1).1 (by simp)
        | true =>
          by_cases hdn : d = .nil
          · subst hdn
            refine ⟨N₁ + 1, st₁, decide (c = .nil), ?_, hg₁, hxs₁, hys₁, hext₁, ?_, ?_⟩
            · intro fuel hf
              obtain ⟨n, rfl⟩ : ∃ n, fuel = n + 1 := ⟨fuel - 1, by omega⟩
              simp only
              rw [uni_step n st _ _ (ground_index _ hy) hidx]
              have := hrun₁ n (by omega)
              simp only at this
              simp only [this, if_true]
            · intro hb θ hθ
              rw [hinst, hs₁ rfl θ hθ, of_decide_eq_true hb]
              rfl
            · intro θ hθ he
              rw [hinst] at he
              simp only [Sexpr.cons.injEq] at he
              refine ⟨decide_eq_true ?_, (hc₁ θ hθ he.1).2⟩
              cases c with
              | cons p q =>
                simp only [IsExpr] at hxc
                rcases hxc with ⟨_, h, _⟩ | hxc
                · simp at h
                · have h3 : inst θ (.cons p q) = .cons (inst θ p) (inst θ q) := by
                    rw [inst, paramOf_cons (isExpr_not_key hxc.1)]
                  rw [h3] at he
                  simp at he
              | nil => rfl
              | _ => simp [IsExpr] at hxc
          · by_cases hcn : c = .nil
            · subst hcn
              refine ⟨N₁ + 1, st₁, false, ?_, hg₁, hxs₁, hys₁, hext₁, by simp, ?_⟩
              · intro fuel hf
                obtain ⟨n, rfl⟩ : ∃ n, fuel = n + 1 := ⟨fuel - 1, by omega⟩
                simp only
                rw [uni_step n st _ _ (ground_index _ hy) hidx]
                have := hrun₁ n (by omega)
                simp only at this
                simp only [this, if_true, if_neg hdn]
              · intro θ hθ he
                exfalso
                rw [hinst] at he
                simp only [Sexpr.cons.injEq] at he
                exact hdn he.2.symm
            · obtain ⟨N₂, st₂, r₂, hrun₂, hg₂, hxs₂, hys₂, hext₂, hs₂, hc₂⟩ :=
                ihc d true m kc st₁ hxc hy'.2 hkc (by omega) (by rw [hys₁, hxs]) (by rw [hxs₁, hys]) hg₁
              refine ⟨max N₁ N₂ + 1, st₂, r₂, ?_, hg₂, by rw [hxs₂, hxs₁], by rw [hys₂, hys₁],
                fun i s h => hext₂ i s (hext₁ i s h), ?_, ?_⟩
              · intro fuel hf
                obtain ⟨n, rfl⟩ : ∃ n, fuel = n + 1 := ⟨fuel - 1, by omega⟩
                simp only
                rw [uni_step n st _ _ (ground_index _ hy) hidx]
                have h1 := hrun₁ n (by omega)
                have h2 := hrun₂ n (by omega)
                simp only at h1 h2
                simp only [h1, if_neg hcn, if_neg hdn, h2]
              · intro hb θ hθ
                rw [hinst, hs₂ hb θ hθ, hs₁ rfl θ (fun i s h => hθ i s (hext₂ i s h))]
              · intro θ hθ he
                rw [hinst] at he
                simp only [Sexpr.cons.injEq] at he
                exact hc₂ θ (hc₁ θ hθ he.1).2 he.2
      | _ =>
        refine ⟨1, st, false, ?_, hg, rfl, rfl, fun _ _ h => h, by simp, ?_⟩
        · intro fuel hf
          obtain ⟨n, rfl⟩ : ∃ n, fuel = n + 1 := ⟨fuel - 1, by omega⟩
          simp only
          rw [uni_step n st _ _ (ground_index _ hy) hidx]
        · intro θ _ he; rw [hinst] at he; simp at he

/-- Expressions have a number of type parameters. -/
theorem numParams_some (x : Sexpr) (tl : Bool) (h : IsExpr true tl x) : ∃ k, numTypeParams x = some k := by
  induction x generalizing tl with
  | cons a b iha ihb =>
    simp only [IsExpr] at h
    rcases h with ⟨_, _, hp⟩ | h
    · obtain ⟨i, hi⟩ := Option.isSome_iff_exists.1 hp
      obtain ⟨rfl, rfl⟩ := isExpr_param hi
      exact ⟨i + 1, by rw [numTypeParams]; simp [typeParamIndex]⟩
    · obtain ⟨m, hm⟩ := iha _ h.1
      obtain ⟨n, hn⟩ := ihb _ h.2
      exact ⟨max m n, by rw [numTypeParams, typeParamIndex_cons (isExpr_not_key h.1)]; simp [hm, hn]⟩
  | _ => exact ⟨0, rfl⟩

/-- A list of expressions is an expression. -/
theorem isExpr_lst (p : Bool) (xs : List Sexpr) (h : ∀ x ∈ xs, IsExpr p false x) : IsExpr p true (lst xs) := by
  induction xs with
  | nil => rfl
  | cons x xs ih =>
    simp only [lst, IsExpr]
    exact .inr ⟨h x (by simp), ih (fun y hy => h y (by simp [hy]))⟩

theorem isExpr_form (p : Bool) (w : Str) (hw : w ≠ go!"typeparam") (xs : List Sexpr) (h : ∀ x ∈ xs, IsExpr p false x) :
    IsExpr p false (lst (.sym w :: xs)) := by
  simp only [lst, IsExpr]
  exact .inr ⟨⟨trivial, hw⟩, isExpr_lst p xs h⟩

theorem isExpr_name (p : Bool) (pkg : Option Str) (n : Str) (h : n ≠ go!"typeparam") : IsExpr p false (nameTree pkg n) := by
  cases pkg with
  | none => exact ⟨rfl, h⟩
  | some q => exact isExpr_form p _ (by decide) _ (by intro x hx; simp at hx; rcases hx with rfl | rfl <;> simp [IsExpr, h])

mutual
theorem tree_isExpr (p : Bool) : ∀ t, Matchable p t → IsExpr p false (tree t)
  | .alias t, h => by rw [tree]; exact tree_isExpr p t (by simpa [Matchable] using h)
  | .named _ pkg n .nil, h => by
    simp only [Matchable] at h
    rw [tree]; exact isExpr_name p pkg n h.1
  | .named _ pkg n (.cons t ts), h => by
    simp only [Matchable] at h
    rw [tree]
    refine isExpr_form p _ (by decide) _ ?_
    intro x hx
    rcases List.mem_cons.1 hx with rfl | hx
    · exact isExpr_name p pkg n h.1
    · exact trees_isExpr p (.cons t ts) h.2 x hx
  | .array l t, h => by
    have := tree_isExpr p t (by simpa [Matchable] using h)
    rw [tree]; exact isExpr_form p _ (by decide) _ (by intro x hx; simp at hx; rcases hx with rfl | rfl; rfl; exact this)
  | .slice t, h => by
    have := tree_isExpr p t (by simpa [Matchable] using h)
    rw [tree]; exact isExpr_form p _ (by decide) _ (by intro x hx; simp at hx; subst hx; exact this)
  | .ptr t, h => by
    have := tree_isExpr p t (by simpa [Matchable] using h)
    rw [tree]; exact isExpr_form p _ (by decide) _ (by intro x hx; simp at hx; subst hx; exact this)
  | .map k t, h => by
    simp only [Matchable] at h
    have h1 := tree_isExpr p k h.1
    have h2 := tree_isExpr p t h.2
    rw [tree]; exact isExpr_form p _ (by decide) _ (by intro x hx; simp at hx; rcases hx with rfl | rfl; exact h1; exact h2)
  | .chan d t, h => by
    have := tree_isExpr p t (by simpa [Matchable] using h)
    rw [tree]; exact isExpr_form p _ (by decide) _ (by intro x hx; simp at hx; rcases hx with rfl | rfl; rfl; exact this)
  | .basic b, _ => by cases b <;> simp [tree, basicTree, lst, IsExpr]
  | .sig ps v rs, h => by
    simp only [Matchable] at h
    have h1 : IsExpr p false (lst (.sym go!"tuple" :: trees ps)) := isExpr_form p _ (by decide) _ (trees_isExpr p ps h.1)
    have h2 : IsExpr p false (lst (.sym go!"tuple" :: trees rs)) := isExpr_form p _ (by decide) _ (trees_isExpr p rs h.2)
    cases v
    · rw [tree]
      exact isExpr_form p _ (by decide) _ (by intro x hx; simp at hx; rcases hx with rfl | rfl; exact h1; exact h2)
    · rw [tree]
      refine isExpr_form p _ (by decide) _ ?_
      intro x hx
      simp at hx
      rcases hx with rfl | rfl | rfl
      · exact h1
      · exact ⟨rfl, by decide⟩
      · exact h2
  | .struct fs, h => by
    rw [tree]; exact isExpr_form p _ (by decide) _ (fields_isExpr p fs (by simpa [Matchable] using h))
  | .iface .nil, _ => by rw [tree]; exact ⟨rfl, by decide⟩
  | .iface (.cons _ _ _), _ => by rw [tree]; exact isExpr_form p _ (by decide) _ (by simp)
  | .typeParam _ i, h => by
    simp only [Matchable] at h
    subst h
    simp [tree, lst, IsExpr, paramOf]
  | .union, h => by simp [Matchable] at h
theorem trees_isExpr (p : Bool) : ∀ ts, MatchableEach p ts → ∀ x ∈ trees ts, IsExpr p false x
  | .nil, _ => by simp [trees]
  | .cons t ts, h => by
    simp only [MatchableEach] at h
    intro x hx
    rw [trees] at hx
    rcases List.mem_cons.1 hx with rfl | hx
    · exact tree_isExpr p t h.1
    · exact trees_isExpr p ts h.2 x hx
theorem fields_isExpr (p : Bool) : ∀ fs, MatchableFields p fs → ∀ x ∈ fieldTrees fs, IsExpr p false x
  | .nil, _ => by simp [fieldTrees]
  | .cons h t fs, hm => by
    simp only [MatchableFields] at hm
    intro x hx
    rw [fieldTrees] at hx
    simp only [List.mem_cons] at hx
    rcases hx with rfl | rfl | rfl | rfl | hx
    · split
      · exact ⟨rfl, hm.1⟩
      · exact isExpr_name p _ _ hm.1
    · cases h.embedded <;> exact ⟨rfl, by decide⟩
    · rfl
    · exact tree_isExpr p t hm.2.1
    · exact fields_isExpr p fs hm.2.2 x hx
end

end Verif.Fp
