import Verif.Lemmas.FingerprintMatch
/-!
# Matching two trees in which every type parameter occurs once; which types are tricky
-/
namespace Verif.Fp
open Verif Spec

/-! ### Tricky types -/

mutual
theorem vague_of_tricky : ∀ t, tricky t = true → Vague t
  | .alias t, h => .alias (vague_of_tricky t (by simpa [tricky] using h))
  | .named _ _ _ ts, h => .targ (vagueIn_of_tricky ts (by simpa [tricky] using h))
  | .array _ t, h => .array (vague_of_tricky t (by simpa [tricky] using h))
  | .slice t, h => .slice (vague_of_tricky t (by simpa [tricky] using h))
  | .ptr t, h => .ptr (vague_of_tricky t (by simpa [tricky] using h))
  | .map k t, h => by
    simp only [tricky, Bool.or_eq_true] at h
    rcases h with h | h
    · exact .mapKey (vague_of_tricky k h)
    · exact .mapElem (vague_of_tricky t h)
  | .chan _ t, h => .chan (vague_of_tricky t (by simpa [tricky] using h))
  | .basic _, h => by simp [tricky] at h
  | .sig ps _ rs, h => by
    simp only [tricky, Bool.or_eq_true] at h
    rcases h with h | h
    · exact .param (vagueIn_of_tricky ps h)
    · exact .result (vagueIn_of_tricky rs h)
  | .struct fs, h => .field (vagueField_of_tricky fs (by simpa [tricky] using h))
  | .iface .nil, h => by simp [tricky] at h
  | .iface (.cons _ _ _), _ => .iface
  | .typeParam _ _, _ => .typeParam
  | .union, h => by simp [tricky] at h
theorem vagueIn_of_tricky : ∀ ts, trickyEach ts = true → VagueIn ts
  | .nil, h => by simp [trickyEach] at h
  | .cons t ts, h => by
    simp only [trickyEach, Bool.or_eq_true] at h
    rcases h with h | h
    · exact .head (vague_of_tricky t h)
    · exact .tail (vagueIn_of_tricky ts h)
theorem vagueField_of_tricky : ∀ fs, trickyFields fs = true → VagueField fs
  | .nil, h => by simp [trickyFields] at h
  | .cons _ t fs, h => by
    simp only [trickyFields, Bool.or_eq_true] at h
    rcases h with h | h
    · exact .head (vague_of_tricky t h)
    · exact .tail (vagueField_of_tricky fs h)
end

mutual
theorem tricky_of_vague : ∀ {t}, Vague t → tricky t = true
  | _, .typeParam => rfl
  | _, .iface => rfl
  | _, .alias h => by simp [tricky, tricky_of_vague h]
  | _, .targ h => by simp [tricky, tricky_of_vagueIn h]
  | _, .array h => by simp [tricky, tricky_of_vague h]
  | _, .slice h => by simp [tricky, tricky_of_vague h]
  | _, .ptr h => by simp [tricky, tricky_of_vague h]
  | _, .mapKey h => by simp [tricky, tricky_of_vague h]
  | _, .mapElem h => by simp [tricky, tricky_of_vague h]
  | _, .chan h => by simp [tricky, tricky_of_vague h]
  | _, .param h => by simp [tricky, tricky_of_vagueIn h]
  | _, .result h => by simp [tricky, tricky_of_vagueIn h]
  | _, .field h => by simp [tricky, tricky_of_vagueField h]
theorem tricky_of_vagueIn : ∀ {ts}, VagueIn ts → trickyEach ts = true
  | _, .head h => by simp [trickyEach, tricky_of_vague h]
  | _, .tail h => by simp [trickyEach, tricky_of_vagueIn h]
theorem tricky_of_vagueField : ∀ {fs}, VagueField fs → trickyFields fs = true
  | _, .head h => by simp [trickyFields, tricky_of_vague h]
  | _, .tail h => by simp [trickyFields, tricky_of_vagueField h]
end

/-! ### Linear trees -/

theorem inst_congr {θ φ : Nat → Sexpr} (x : Sexpr) (h : ∀ i ∈ occurrences x, θ i = φ i) : inst θ x = inst φ x := by
  induction x with
  | cons a b iha ihb =>
    simp only [occurrences] at h
    rw [inst, inst]
    split at h
    · exact h _ (by simp)
    · simp only [List.mem_append] at h
      rw [iha fun i hi => h i (.inl hi), ihb fun i hi => h i (.inr hi)]
  | _ => rfl

theorem expr_cases {tl : Bool} {x : Sexpr} (h : IsExpr true tl x) :
    (∃ i, tl = false ∧ x = .cons (.sym go!"typeparam") (.cons (.int i) .nil)) ∨
    (typeParamIndex x = some none ∧ paramOf x = none ∧
      ∀ a b, x = .cons a b → IsExpr true false a ∧ IsExpr true true b ∧ a ≠ .sym go!"typeparam") := by
  cases x with
  | cons a b =>
    simp only [IsExpr] at h
    rcases h with ⟨_, h2, h3⟩ | ⟨h1, h2⟩
    · obtain ⟨i, hi⟩ := Option.isSome_iff_exists.1 h3
      obtain ⟨rfl, rfl⟩ := isExpr_param hi
      exact .inl ⟨i, h2, rfl⟩
    · refine .inr ⟨typeParamIndex_cons (isExpr_not_key h1), paramOf_cons (isExpr_not_key h1), ?_⟩
      rintro _ _ ⟨⟩
      exact ⟨h1, h2, isExpr_not_key h1⟩
  | _ => exact .inr ⟨rfl, rfl, by rintro _ _ ⟨⟩⟩

/-- The two trees agree except where one has a type parameter. -/
inductive Compat : Sexpr → Sexpr → Prop
  | left (i y) : Compat (.cons (.sym go!"typeparam") (.cons (.int i) .nil)) y
  | right (x j) : Compat x (.cons (.sym go!"typeparam") (.cons (.int j) .nil))
  | same (x) : Compat x x
  | cons {a b c d} : Compat a b → Compat c d → Compat (.cons a c) (.cons b d)

theorem occ_param (i : Nat) : occurrences (.cons (.sym go!"typeparam") (.cons (.int i) .nil)) = [i] := rfl

theorem inst_param (θ : Nat → Sexpr) (i : Nat) : inst θ (.cons (.sym go!"typeparam") (.cons (.int i) .nil)) = θ i := rfl

theorem occ_cons {a b : Sexpr} (h : a ≠ .sym go!"typeparam") : occurrences (.cons a b) = occurrences a ++ occurrences b := by
  rw [occurrences, paramOf_cons h]

theorem inst_cons {a b : Sexpr} (θ : Nat → Sexpr) (h : a ≠ .sym go!"typeparam") :
    inst θ (.cons a b) = .cons (inst θ a) (inst θ b) := by
  rw [inst, paramOf_cons h]

/-- Linear trees that agree except at type parameters have a common instance. -/
theorem compat_instance {x y : Sexpr} (h : Compat x y) : ∀ {tl : Bool}, IsExpr true tl x → IsExpr true tl y →
    (occurrences x).Nodup → (occurrences y).Nodup → ∃ θ φ, inst θ x = inst φ y := by
  induction h with
  | left i y => intro _ _ _ _ _; exact ⟨fun _ => inst (fun _ => .nil) y, fun _ => .nil, rfl⟩
  | right x j => intro _ _ _ _ _; exact ⟨fun _ => .nil, fun _ => inst (fun _ => .nil) x, rfl⟩
  | same x => intro _ _ _ _ _; exact ⟨fun _ => .nil, fun _ => .nil, rfl⟩
  | @cons a b c d _ _ ih1 ih2 =>
    intro tl hx hy nx ny
    rcases expr_cases hx with ⟨i, _, e⟩ | ⟨_, _, hx'⟩
    · rw [e]; exact ⟨fun _ => inst (fun _ => .nil) (.cons b d), fun _ => .nil, rfl⟩
    rcases expr_cases hy with ⟨j, _, e⟩ | ⟨_, _, hy'⟩
    · rw [e]; exact ⟨fun _ => .nil, fun _ => inst (fun _ => .nil) (.cons a c), rfl⟩
    obtain ⟨xa, xc, ka⟩ := hx' _ _ rfl
    obtain ⟨yb, yd, kb⟩ := hy' _ _ rfl
    rw [occ_cons ka, List.nodup_append] at nx
    rw [occ_cons kb, List.nodup_append] at ny
    obtain ⟨θ₁, φ₁, e₁⟩ := ih1 xa yb nx.1 ny.1
    obtain ⟨θ₂, φ₂, e₂⟩ := ih2 xc yd nx.2.1 ny.2.1
    refine ⟨fun i => if i ∈ occurrences a then θ₁ i else θ₂ i, fun j => if j ∈ occurrences b then φ₁ j else φ₂ j, ?_⟩
    rw [inst_cons _ ka, inst_cons _ kb]
    congr 1
    · rw [inst_congr a (φ := θ₁) (by intro i hi; simp [hi]), inst_congr b (φ := φ₁) (by intro i hi; simp [hi]), e₁]
    · rw [inst_congr c (φ := θ₂), inst_congr d (φ := φ₂), e₂]
      · intro i hi; exact if_neg fun h => ny.2.2 i h i hi rfl
      · intro i hi; exact if_neg fun h => nx.2.2 i h i hi rfl

/-- Trees with a common instance agree except at type parameters. -/
theorem instance_compat {θ φ : Nat → Sexpr} (x : Sexpr) : ∀ {y : Sexpr} {tl : Bool}, IsExpr true tl x → IsExpr true tl y →
    inst θ x = inst φ y → Compat x y := by
  induction x with
  | cons a c iha ihc =>
    intro y tl hx hy h
    rcases expr_cases hx with ⟨i, _, e⟩ | ⟨_, _, hx'⟩
    · rw [e]; exact .left _ _
    rcases expr_cases hy with ⟨j, _, e⟩ | ⟨_, _, hy'⟩
    · rw [e]; exact .right _ _
    obtain ⟨xa, xc, ka⟩ := hx' _ _ rfl
    rw [inst_cons _ ka] at h
    cases y with
    | cons b d =>
      obtain ⟨yb, yd, kb⟩ := hy' _ _ rfl
      rw [inst_cons _ kb] at h
      simp only [Sexpr.cons.injEq] at h
      exact .cons (iha xa yb h.1) (ihc xc yd h.2)
    | _ => simp [inst] at h
  | _ =>
    intro y tl hx hy h
    rcases expr_cases hy with ⟨j, _, e⟩ | ⟨_, _, hy'⟩
    · rw [e]; exact .right _ _
    cases y with
    | cons b d =>
      obtain ⟨yb, yd, kb⟩ := hy' _ _ rfl
      rw [inst_cons _ kb] at h
      simp [inst] at h
    | _ =>
      simp only [inst] at h
      first
        | exact .same _
        | (cases h; exact .same _)
        | cases h

/-- Nothing is known of the type parameters of the two trees: those of the left tree use the first `m` cells, those of the right tree
the following ones, and these cells are empty. -/
structure Fresh (m : Nat) (st : Bindings) (ps qs : List Nat) : Prop where
  left : ∀ i ∈ ps, i < m ∧ st.xs[i]? = some i ∧ st.cells i = none
  right : ∀ j ∈ qs, st.ys[j]? = some (j + m) ∧ st.cells (j + m) = none

/-- Only the entries and the cells of the two trees have changed. -/
structure Frame (m : Nat) (st st' : Bindings) (ps qs : List Nat) : Prop where
  ys : st'.ys = st.ys
  xs : ∀ i, i ∉ ps → st'.xs[i]? = st.xs[i]?
  cells : ∀ c, c ∉ ps → (∀ j ∈ qs, c ≠ j + m) → st'.cells c = st.cells c

theorem Frame.refl (m st ps qs) : Frame m st st ps qs := ⟨rfl, fun _ _ => rfl, fun _ _ _ => rfl⟩

theorem Frame.mono {m st st' ps qs ps' qs'} (h : Frame m st st' ps qs) (hp : ∀ i ∈ ps, i ∈ ps') (hq : ∀ j ∈ qs, j ∈ qs') :
    Frame m st st' ps' qs' :=
  ⟨h.ys, fun i hi => h.xs i fun k => hi (hp i k), fun c hc hd => h.cells c (fun k => hc (hp c k)) fun j hj => hd j (hq j hj)⟩

theorem Frame.trans {m st st' st'' ps qs} (h : Frame m st st' ps qs) (k : Frame m st' st'' ps qs) : Frame m st st'' ps qs :=
  ⟨k.ys.trans h.ys, fun i hi => (k.xs i hi).trans (h.xs i hi), fun c hc hd => (k.cells c hc hd).trans (h.cells c hc hd)⟩

theorem Fresh.frame {m st st' ps qs ps' qs'} (h : Fresh m st ps' qs') (f : Frame m st st' ps qs)
    (hp : ∀ i ∈ ps, i ∉ ps' ∧ i < m) (hq : ∀ j ∈ qs, j ∉ qs') : Fresh m st' ps' qs' := by
  constructor
  · intro i hi
    obtain ⟨h1, h2, h3⟩ := h.left i hi
    have hn : i ∉ ps := fun k => (hp i k).1 hi
    exact ⟨h1, (f.xs i hn).trans h2, (f.cells i hn (by intro j _; omega)).trans h3⟩
  · intro j hj
    obtain ⟨h1, h2⟩ := h.right j hj
    refine ⟨by rw [f.ys]; exact h1, (f.cells _ (fun k => ?_) ?_).trans h2⟩
    · have := (hp _ k).2; omega
    · intro k hk e
      have : k = j := by omega
      exact hq k hk (this ▸ hj)

/-- The occurs check finds nothing in a tree whose entries differ from the cell. -/
theorem occurs_fresh (b : Nat) (l : List Nat) (x : Sexpr) : ∀ {tl : Bool}, IsExpr true tl x →
    (∀ i ∈ occurrences x, ∃ c, l[i]? = some c ∧ b ≠ c) → occurs b l x = some false := by
  induction x with
  | cons p q ihp ihq =>
    intro tl hx h
    rcases expr_cases hx with ⟨i, _, e⟩ | ⟨h1, _, hx'⟩
    · cases e
      obtain ⟨c, hc, hn⟩ := h i (by simp [occ_param])
      simp [occurs, typeParamIndex, hc, hn]
    · obtain ⟨xp, xq, kp⟩ := hx' _ _ rfl
      rw [occ_cons kp] at h
      simp only [List.mem_append] at h
      rw [occurs, h1]
      simp [ihp xp fun i hi => h i (.inl hi), ihq xq fun i hi => h i (.inr hi)]
  | _ => intros; rfl

/-- The number of type parameters bounds their indices. -/
theorem occ_lt (x : Sexpr) : ∀ {tl : Bool} {k : Nat}, IsExpr true tl x → numTypeParams x = some k → ∀ i ∈ occurrences x, i < k := by
  induction x with
  | cons a b iha ihb =>
    intro tl k hx hk i hi
    rcases expr_cases hx with ⟨j, _, e⟩ | ⟨_, _, hx'⟩
    · cases e
      have := numParams_param hk
      simp only [occ_param, List.mem_singleton] at hi
      omega
    · obtain ⟨xa, xb, ka⟩ := hx' _ _ rfl
      obtain ⟨m, n, hm, hn, rfl⟩ := numParams_cons ka hk
      rw [occ_cons ka, List.mem_append] at hi
      rcases hi with hi | hi
      · have := iha xa hm i hi; omega
      · have := ihb xb hn i hi; omega
  | _ => intro _ _ _ _ i hi; simp [occurrences] at hi

theorem get_none {st : Bindings} {c : Nat} (h : st.cells c = none) : st.get c = none := by
  unfold Bindings.get; rw [h]

/-- Matching two linear trees. -/
theorem match_linear (m : Nat) (x : Sexpr) : ∀ (y : Sexpr) (tl : Bool) (st : Bindings), IsExpr true tl x → IsExpr true tl y →
    (occurrences x).Nodup → (occurrences y).Nodup → Fresh m st (occurrences x) (occurrences y) →
    ∃ N st' b, (∀ fuel, N ≤ fuel → uni fuel st x y = some (some (st', b))) ∧
      Frame m st st' (occurrences x) (occurrences y) ∧ (b = true ↔ Compat x y) := by
  -- a type parameter on the left
  have left : ∀ (i : Nat) (y : Sexpr) (tl : Bool) (st : Bindings), IsExpr true tl y →
      Fresh m st [i] (occurrences y) →
      ∃ N st' b, (∀ fuel, N ≤ fuel → uni fuel st (.cons (.sym go!"typeparam") (.cons (.int i) .nil)) y = some (some (st', b))) ∧
        Frame m st st' [i] (occurrences y) ∧ (b = true ↔ Compat (.cons (.sym go!"typeparam") (.cons (.int i) .nil)) y) := by
    intro i y tl st hy hf
    have h1 : typeParamIndex (.cons (.sym go!"typeparam") (.cons (.int i) .nil)) = some (some i) := by simp [typeParamIndex]
    obtain ⟨hm, hxi, hci⟩ := hf.left i (by simp)
    rcases expr_cases hy with ⟨j, _, rfl⟩ | ⟨h2, _, hy'⟩
    · have h2 : typeParamIndex (.cons (.sym go!"typeparam") (.cons (.int j) .nil)) = some (some j) := by simp [typeParamIndex]
      obtain ⟨hyj, hcj⟩ := hf.right j (by simp [occ_param])
      refine ⟨1, { st with xs := st.xs.set i (j + m) }, true, ?_, ⟨rfl, ?_, fun _ _ _ => rfl⟩, by simp [Compat.left]⟩
      · intro fuel hfu
        obtain ⟨n, rfl⟩ : ∃ n, fuel = n + 1 := ⟨fuel - 1, by omega⟩
        rw [uni.eq_def]
        simp only [h1, h2, Option.map_some, hxi, hyj, Option.join_some, get_none hci, get_none hcj, Option.getD_some]
      · intro k hk
        simp only [List.mem_singleton] at hk
        simp [List.getElem?_set, Ne.symm hk]
    · refine ⟨1, { st with cells := fun c => if c = i then some y else st.cells c }, true, ?_,
        ⟨rfl, fun _ _ => rfl, ?_⟩, by simp [Compat.left]⟩
      · intro fuel hfu
        obtain ⟨n, rfl⟩ : ∃ n, fuel = n + 1 := ⟨fuel - 1, by omega⟩
        have ho : occurs i st.ys y = some false := by
          refine occurs_fresh i st.ys y hy fun k hk => ⟨k + m, (hf.right k hk).1, by omega⟩
        rw [uni.eq_def]
        simp only [h1, h2, Option.map_some, Option.map_none, hxi, Option.join_some, Option.join_none, get_none hci, bindCell, ho]
        rfl
      · intro c hc _
        simp only [List.mem_singleton] at hc
        simp [hc]
  -- a type parameter on the right
  have right : ∀ (x : Sexpr) (j : Nat) (tl : Bool) (st : Bindings), IsExpr true tl x → typeParamIndex x = some none →
      Fresh m st (occurrences x) [j] →
      ∃ N st' b, (∀ fuel, N ≤ fuel → uni fuel st x (.cons (.sym go!"typeparam") (.cons (.int j) .nil)) = some (some (st', b))) ∧
        Frame m st st' (occurrences x) [j] ∧ (b = true ↔ Compat x (.cons (.sym go!"typeparam") (.cons (.int j) .nil))) := by
    intro x j tl st hx h1 hf
    have h2 : typeParamIndex (.cons (.sym go!"typeparam") (.cons (.int j) .nil)) = some (some j) := by simp [typeParamIndex]
    obtain ⟨hyj, hcj⟩ := hf.right j (by simp)
    refine ⟨1, { st with cells := fun c => if c = j + m then some x else st.cells c }, true, ?_,
      ⟨rfl, fun _ _ => rfl, ?_⟩, by simp [Compat.right]⟩
    · intro fuel hfu
      obtain ⟨n, rfl⟩ : ∃ n, fuel = n + 1 := ⟨fuel - 1, by omega⟩
      have ho : occurs (j + m) st.xs x = some false := by
        refine occurs_fresh (j + m) st.xs x hx fun k hk => ?_
        obtain ⟨a, b, _⟩ := hf.left k hk
        exact ⟨k, b, by omega⟩
      rw [uni.eq_def]
      simp only [h1, h2, Option.map_some, Option.map_none, hyj, Option.join_some, Option.join_none, get_none hcj, bindCell, ho]
      rfl
    · intro c _ hc
      simp only
      rw [if_neg (hc j (by simp))]
  -- an atom on the left
  have atom : ∀ (x y : Sexpr) (tl : Bool) (st : Bindings), typeParamIndex x = some none → (∀ a b, x ≠ .cons a b) →
      IsExpr true tl x → IsExpr true tl y → Fresh m st (occurrences x) (occurrences y) →
      ∃ N st' b, (∀ fuel, N ≤ fuel → uni fuel st x y = some (some (st', b))) ∧
        Frame m st st' (occurrences x) (occurrences y) ∧ (b = true ↔ Compat x y) := by
    intro x y tl st h1 hn hx hy hf
    rcases expr_cases hy with ⟨j, _, e⟩ | ⟨h2, hp, hy'⟩
    · rw [e] at hf ⊢; exact right _ j tl st hx h1 hf
    refine ⟨1, st, decide (x = y), ?_, Frame.refl _ _ _ _, ?_⟩
    · intro fuel hfu
      obtain ⟨n, rfl⟩ : ∃ n, fuel = n + 1 := ⟨fuel - 1, by omega⟩
      rw [uni_step n st _ _ h1 h2]
      cases x with
      | cons a b => exact absurd rfl (hn a b)
      | _ => cases y <;> simp
    · rw [decide_eq_true_iff]
      constructor
      · rintro rfl; exact .same _
      · intro h
        cases h with
        | left i => exact absurd rfl (hn _ _)
        | right _ j => simp [paramOf] at hp
        | same => rfl
        | cons => exact absurd rfl (hn _ _)
  induction x with
  | cons a c iha ihc =>
    intro y tl st hx hy nx ny hf
    rcases expr_cases hx with ⟨i, _, e⟩ | ⟨h1, _, hx'⟩
    · rw [e] at hf ⊢; exact left i y tl st hy hf
    rcases expr_cases hy with ⟨j, _, e⟩ | ⟨h2, _, hy'⟩
    · rw [e] at hf ⊢; exact right _ j tl st hx h1 hf
    obtain ⟨xa, xc, ka⟩ := hx' _ _ rfl
    cases y with
    | cons b d =>
      obtain ⟨yb, yd, kb⟩ := hy' _ _ rfl
      rw [occ_cons ka] at nx hf ⊢
      rw [occ_cons kb] at ny hf ⊢
      rw [List.nodup_append] at nx ny
      have hfa : Fresh m st (occurrences a) (occurrences b) :=
        ⟨fun i hi => hf.left i (by simp [hi]), fun j hj => hf.right j (by simp [hj])⟩
      obtain ⟨N₁, st₁, b₁, run₁, fr₁, c₁⟩ := iha b false st xa yb nx.1 ny.1 hfa
      have fr₁' : Frame m st st₁ (occurrences a ++ occurrences c) (occurrences b ++ occurrences d) :=
        fr₁.mono (by intro i hi; simp [hi]) (by intro i hi; simp [hi])
      have inv : Compat (.cons a c) (.cons b d) ↔ Compat a b ∧ Compat c d := by
        constructor
        · intro h
          cases h with
          | left => exact absurd rfl ka
          | right => exact absurd rfl kb
          | same => exact ⟨.same _, .same _⟩
          | cons h1 h2 => exact ⟨h1, h2⟩
        · exact fun h => .cons h.1 h.2
      rw [inv]
      cases b₁ with
      | false =>
        refine ⟨N₁ + 1, st₁, false, ?_, fr₁', ?_⟩
        · intro fuel hfu
          obtain ⟨n, rfl⟩ : ∃ n, fuel = n + 1 := ⟨fuel - 1, by omega⟩
          rw [uni_step n st _ _ h1 h2]
          simp only [run₁ n (by omega)]
        · simp at c₁; simp [c₁]
      | true =>
        simp only [true_iff] at c₁
        by_cases hc : c = .nil
        · subst hc
          refine ⟨N₁ + 1, st₁, decide (d = .nil), ?_, fr₁', ?_⟩
          · intro fuel hfu
            obtain ⟨n, rfl⟩ : ∃ n, fuel = n + 1 := ⟨fuel - 1, by omega⟩
            rw [uni_step n st _ _ h1 h2]
            simp only [run₁ n (by omega), if_true]
          · rw [decide_eq_true_iff]
            constructor
            · rintro rfl; exact ⟨c₁, .same _⟩
            · rintro ⟨_, h⟩
              rcases expr_cases yd with ⟨_, h', _⟩ | ⟨_, hp, _⟩
              · simp at h'
              · cases h with
                | right _ j => simp [paramOf] at hp
                | same => rfl
        · by_cases hd : d = .nil
          · subst hd
            refine ⟨N₁ + 1, st₁, false, ?_, fr₁', ?_⟩
            · intro fuel hfu
              obtain ⟨n, rfl⟩ : ∃ n, fuel = n + 1 := ⟨fuel - 1, by omega⟩
              rw [uni_step n st _ _ h1 h2]
              simp only [run₁ n (by omega), if_neg hc, if_true]
            · simp only [Bool.false_eq_true, false_iff]
              rintro ⟨_, h⟩
              rcases expr_cases xc with ⟨_, h', _⟩ | ⟨_, hp, _⟩
              · simp at h'
              · cases h with
                | left i => simp [paramOf] at hp
                | same => exact hc rfl
          · have hfc : Fresh m st₁ (occurrences c) (occurrences d) := by
              refine Fresh.frame (ps := occurrences a) (qs := occurrences b)
                ⟨fun i hi => hf.left i (by simp [hi]), fun j hj => hf.right j (by simp [hj])⟩ fr₁ ?_ ?_
              · intro i hi
                exact ⟨fun k => nx.2.2 i hi i k rfl, (hf.left i (by simp [hi])).1⟩
              · intro j hj k
                exact ny.2.2 j hj j k rfl
            obtain ⟨N₂, st₂, b₂, run₂, fr₂, c₂⟩ := ihc d true st₁ xc yd nx.2.1 ny.2.1 hfc
            refine ⟨max N₁ N₂ + 1, st₂, b₂, ?_, fr₁'.trans (fr₂.mono (by intro i hi; simp [hi]) (by intro i hi; simp [hi])), ?_⟩
            · intro fuel hfu
              obtain ⟨n, rfl⟩ : ∃ n, fuel = n + 1 := ⟨fuel - 1, by omega⟩
              rw [uni_step n st _ _ h1 h2]
              simp only [run₁ n (by omega), if_neg hc, if_neg hd, run₂ n (by omega)]
            · rw [c₂]; simp [c₁]
    | _ =>
      refine ⟨1, st, false, ?_, Frame.refl _ _ _ _, ?_⟩
      · intro fuel hfu
        obtain ⟨n, rfl⟩ : ∃ n, fuel = n + 1 := ⟨fuel - 1, by omega⟩
        rw [uni_step n st _ _ h1 h2]
      · simp only [Bool.false_eq_true, false_iff]
        intro h
        cases h with
        | left => exact absurd rfl ka
  | nil => exact fun y tl st hx hy _ _ hf => atom _ y tl st rfl (by rintro _ _ ⟨⟩) hx hy hf
  | str => exact fun y tl st hx hy _ _ hf => atom _ y tl st rfl (by rintro _ _ ⟨⟩) hx hy hf
  | int => exact fun y tl st hx hy _ _ hf => atom _ y tl st rfl (by rintro _ _ ⟨⟩) hx hy hf
  | sym => exact fun y tl st hx hy _ _ hf => atom _ y tl st rfl (by rintro _ _ ⟨⟩) hx hy hf

end Verif.Fp
