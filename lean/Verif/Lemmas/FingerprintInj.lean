import Verif.Lemmas.Fingerprint
/-!
# Equal fingerprint trees of non-tricky types mean identical types
-/
namespace Verif.Fp
open Verif Spec

/-- Outer aliases removed. -/
def strip : Ty → Ty
  | .alias t => strip t
  | t => t

theorem strip_spec (L : Lex) (D : Option Str → Str → Nat) : ∀ u, tree (strip u) = tree u ∧ (Valid L u → Valid L (strip u)) ∧
    (NamesUnique D u → NamesUnique D (strip u)) ∧ (∀ t, Identical t (strip u) → Identical t u) ∧
    ∀ w, strip u ≠ .alias w
  | .alias t => by
    obtain ⟨h1, h2, h3, h4, h5⟩ := strip_spec L D t
    exact ⟨by rw [strip, h1, tree], by simpa [strip, Valid] using h2, by simpa [strip, NamesUnique] using h3,
      fun w hw => .aliasR (h4 w hw), h5⟩
  | .named _ _ _ _ | .array _ _ | .slice _ | .ptr _ | .map _ _ | .chan _ _ | .basic _ | .sig _ _ _ | .struct _
  | .iface _ | .typeParam _ _ | .union => by simp [strip]

theorem basicTree_inj (b c : Basic) (h : basicTree b = basicTree c) : b = c := by
  cases b <;> cases c <;> first | rfl | (simp [basicTree, lst] at h)

theorem lst_inj {xs ys : List Sexpr} (h : lst xs = lst ys) : xs = ys := by
  induction xs generalizing ys with
  | nil => cases ys <;> simp [lst] at h ⊢
  | cons x xs ih =>
    cases ys with
    | nil => simp [lst] at h
    | cons y ys => simp only [lst, Sexpr.cons.injEq] at h; rw [h.1, ih h.2]

/-- The key word of a tree. -/
def headOf : Sexpr → Option Str
  | .cons (.sym s) _ => some s
  | _ => none

theorem basic_head (b : Basic) : headOf (basicTree b) = none ∨ basicTree b = nameTree (some go!"unsafe") go!"Pointer" := by
  cases b <;> first | exact .inr rfl | exact .inl rfl

/-- The key word of the tree of a type that is not an alias, a declared type or a basic type. -/
def keyOf : Ty → Option Str
  | .array _ _ => some go!"array" | .slice _ => some go!"slice" | .ptr _ => some go!"ptr" | .map _ _ => some go!"map"
  | .chan _ _ => some go!"chan" | .sig _ _ _ => some go!"func" | .struct _ => some go!"struct"
  | .iface (.cons _ _ _) => some go!"interface" | .typeParam _ _ => some go!"typeparam"
  | .named _ (some _) _ .nil => some go!"qual"
  | .named _ _ _ (.cons _ _) => some go!"inst"
  | .basic .unsafePointer => some go!"qual"
  | _ => none

theorem headOf_tree (t : Ty) (h : ∀ u, t ≠ .alias u) : headOf (tree t) = keyOf t := by
  cases t with
  | alias u => exact absurd rfl (h u)
  | named d p n as => cases as <;> cases p <;> simp [tree, headOf, keyOf, nameTree, lst]
  | basic b => cases b <;> simp [tree, headOf, keyOf, basicTree, lst]
  | sig ps v rs => cases v <;> simp [tree, headOf, keyOf, lst]
  | iface ms => cases ms <;> simp [tree, headOf, keyOf, lst]
  | _ => simp [tree, headOf, keyOf, lst]

/-- The symbols that stand for a type on their own. -/
theorem atom_tree (t : Ty) (h : ∀ u, t ≠ .alias u) (L : Lex) (hv : Valid L t) (s : Str) (hs : tree t = .sym s) :
    (∃ b, t = .basic b ∧ basicTree b = .sym s) ∨ (t = .iface .nil ∧ s = go!"any") ∨
    (∃ d n, t = .named d none n .nil ∧ s = n ∧ (n = go!"error" ∨ n = go!"comparable")) := by
  cases t with
  | alias u => exact absurd rfl (h u)
  | named d p n as =>
    simp only [Valid] at hv
    cases as <;> cases p <;> simp [tree, nameTree, lst] at hs
    subst hs
    exact .inr (.inr ⟨d, n, rfl, rfl, hv.1⟩)
  | basic b => exact .inl ⟨b, rfl, by simpa [tree] using hs⟩
  | sig ps v rs => cases v <;> simp [tree, lst] at hs
  | iface ms =>
    cases ms <;> simp [tree, lst] at hs
    exact .inr (.inl ⟨rfl, hs.symm⟩)
  | _ => simp [tree, lst] at hs

theorem basic_sym (b : Basic) (s : Str) (h : basicTree b = .sym s) : s ≠ go!"any" ∧ s ≠ go!"error" ∧ s ≠ go!"comparable" := by
  cases b <;> simp [basicTree, lst] at h <;> subst h <;> decide

mutual
theorem tree_identical (L : Lex) (D : Option Str → Str → Nat) : ∀ t u, tree t = tree u → tricky t = false → Valid L t →
    Valid L u → NamesUnique D t → NamesUnique D u → Identical t u
  | .alias t, u, he, htr, hv, hv', hn, hn' =>
    .aliasL (tree_identical L D t u (by simpa [tree] using he) (by simpa [tricky] using htr) (by simpa [Valid] using hv) hv'
      (by simpa [NamesUnique] using hn) hn')
  | .named d p n as, u, he, htr, hv, hv', hn, hn' => by
    obtain ⟨e1, e2, e3, e4, e5⟩ := strip_spec L D u
    apply e4
    rw [← e1] at he
    replace hv' := e2 hv'
    replace hn' := e3 hn'
    generalize strip u = u at *
    have hk := headOf_tree u e5
    rw [← he, headOf_tree _ (by simp)] at hk
    cases as with
    | nil =>
      cases p with
      | none =>
        have hs : tree u = .sym n := by rw [← he]; rfl
        simp only [Valid] at hv
        rcases atom_tree u e5 L hv' n hs with ⟨b, rfl, hb⟩ | ⟨rfl, rfl⟩ | ⟨d', n', rfl, rfl, _⟩
        · have := basic_sym b n hb
          rcases hv.1 with h | h
          · exact absurd h this.2.1
          · exact absurd h this.2.2
        · rcases hv.1 with h | h <;> simp at h
        · simp only [NamesUnique] at hn hn'
          rw [hn.1, hn'.1]
          exact .named .nil
      | some p =>
        cases u with
        | alias w => exact absurd rfl (e5 w)
        | named d' p' n' as' =>
          cases as' with
          | cons _ _ => cases p' <;> simp [keyOf] at hk
          | nil =>
            cases p' with
            | none => simp [keyOf] at hk
            | some p' =>
              simp [tree, nameTree, lst] at he
              obtain ⟨rfl, rfl⟩ := he
              simp only [NamesUnique] at hn hn'
              rw [hn.1, hn'.1]
              exact .named .nil
        | basic b =>
          exfalso
          simp only [Valid] at hv
          cases b <;> simp [tree, basicTree, nameTree, lst] at he
          exact hv.1.1 he.1
        | iface ms => cases ms <;> simp [keyOf] at hk
        | _ => simp [keyOf] at hk
    | cons a as =>
      cases u with
      | alias w => exact absurd rfl (e5 w)
      | named d' p' n' as' =>
        cases as' with
        | nil => cases p' <;> simp [keyOf] at hk
        | cons a' as' =>
          simp only [tree] at he
          have := lst_inj he
          simp only [List.cons.injEq, true_and] at this
          obtain ⟨h1, h2⟩ := this
          have hpn : p = p' ∧ n = n' := by
            cases p <;> cases p' <;> simp_all [nameTree, lst]
          obtain ⟨rfl, rfl⟩ := hpn
          simp only [Valid, NamesUnique, tricky] at hv hv' hn hn' htr
          rw [hn.1, hn'.1]
          exact .named (trees_identical L D (.cons a as) (.cons a' as') h2 htr hv.2 hv'.2 hn.2 hn'.2)
      | basic b => cases b <;> simp [keyOf] at hk
      | iface ms => cases ms <;> simp [keyOf] at hk
      | _ => simp [keyOf] at hk
  | .array l t, u, he, htr, hv, hv', hn, hn' => by
    obtain ⟨e1, e2, e3, e4, e5⟩ := strip_spec L D u
    apply e4
    rw [← e1] at he
    replace hv' := e2 hv'
    replace hn' := e3 hn'
    generalize strip u = u at *
    have hk := headOf_tree u e5
    rw [← he, headOf_tree _ (by simp)] at hk
    cases u with
    | alias w => exact absurd rfl (e5 w)
    | named d' p' n' as' => cases as' <;> cases p' <;> simp [keyOf] at hk
    | basic b => cases b <;> simp [keyOf] at hk
    | iface ms => cases ms <;> simp [keyOf] at hk
    | array l' t' =>
      simp only [tree, lst, Sexpr.cons.injEq, true_and, and_true, Sexpr.int.injEq] at he
      obtain ⟨rfl, he⟩ := he
      simp only [Valid, NamesUnique, tricky] at hv hv' hn hn' htr
      exact .array (tree_identical L D t t' he htr hv hv' hn hn')
    | _ => simp [keyOf] at hk
  | .slice t, u, he, htr, hv, hv', hn, hn' => by
    obtain ⟨e1, e2, e3, e4, e5⟩ := strip_spec L D u
    apply e4
    rw [← e1] at he
    replace hv' := e2 hv'
    replace hn' := e3 hn'
    generalize strip u = u at *
    have hk := headOf_tree u e5
    rw [← he, headOf_tree _ (by simp)] at hk
    cases u with
    | alias w => exact absurd rfl (e5 w)
    | named d' p' n' as' => cases as' <;> cases p' <;> simp [keyOf] at hk
    | basic b => cases b <;> simp [keyOf] at hk
    | iface ms => cases ms <;> simp [keyOf] at hk
    | slice t' =>
      simp only [tree, lst, Sexpr.cons.injEq, true_and, and_true] at he
      simp only [Valid, NamesUnique, tricky] at hv hv' hn hn' htr
      exact .slice (tree_identical L D t t' he htr hv hv' hn hn')
    | _ => simp [keyOf] at hk
  | .ptr t, u, he, htr, hv, hv', hn, hn' => by
    obtain ⟨e1, e2, e3, e4, e5⟩ := strip_spec L D u
    apply e4
    rw [← e1] at he
    replace hv' := e2 hv'
    replace hn' := e3 hn'
    generalize strip u = u at *
    have hk := headOf_tree u e5
    rw [← he, headOf_tree _ (by simp)] at hk
    cases u with
    | alias w => exact absurd rfl (e5 w)
    | named d' p' n' as' => cases as' <;> cases p' <;> simp [keyOf] at hk
    | basic b => cases b <;> simp [keyOf] at hk
    | iface ms => cases ms <;> simp [keyOf] at hk
    | ptr t' =>
      simp only [tree, lst, Sexpr.cons.injEq, true_and, and_true] at he
      simp only [Valid, NamesUnique, tricky] at hv hv' hn hn' htr
      exact .ptr (tree_identical L D t t' he htr hv hv' hn hn')
    | _ => simp [keyOf] at hk
  | .map k t, u, he, htr, hv, hv', hn, hn' => by
    obtain ⟨e1, e2, e3, e4, e5⟩ := strip_spec L D u
    apply e4
    rw [← e1] at he
    replace hv' := e2 hv'
    replace hn' := e3 hn'
    generalize strip u = u at *
    have hk := headOf_tree u e5
    rw [← he, headOf_tree _ (by simp)] at hk
    cases u with
    | alias w => exact absurd rfl (e5 w)
    | named d' p' n' as' => cases as' <;> cases p' <;> simp [keyOf] at hk
    | basic b => cases b <;> simp [keyOf] at hk
    | iface ms => cases ms <;> simp [keyOf] at hk
    | map k' t' =>
      simp only [tree, lst, Sexpr.cons.injEq, true_and, and_true] at he
      simp only [Valid, NamesUnique, tricky, Bool.or_eq_false_iff] at hv hv' hn hn' htr
      exact .map (tree_identical L D k k' he.1 htr.1 hv.1 hv'.1 hn.1 hn'.1)
        (tree_identical L D t t' he.2 htr.2 hv.2 hv'.2 hn.2 hn'.2)
    | _ => simp [keyOf] at hk
  | .chan d t, u, he, htr, hv, hv', hn, hn' => by
    obtain ⟨e1, e2, e3, e4, e5⟩ := strip_spec L D u
    apply e4
    rw [← e1] at he
    replace hv' := e2 hv'
    replace hn' := e3 hn'
    generalize strip u = u at *
    have hk := headOf_tree u e5
    rw [← he, headOf_tree _ (by simp)] at hk
    cases u with
    | alias w => exact absurd rfl (e5 w)
    | named d' p' n' as' => cases as' <;> cases p' <;> simp [keyOf] at hk
    | basic b => cases b <;> simp [keyOf] at hk
    | iface ms => cases ms <;> simp [keyOf] at hk
    | chan d' t' =>
      simp only [tree, lst, Sexpr.cons.injEq, true_and, and_true, Sexpr.int.injEq] at he
      obtain ⟨rfl, he⟩ := he
      simp only [Valid, NamesUnique, tricky] at hv hv' hn hn' htr
      exact .chan (tree_identical L D t t' he htr hv hv' hn hn')
    | _ => simp [keyOf] at hk
  | .basic b, u, he, htr, hv, hv', hn, hn' => by
    obtain ⟨e1, e2, e3, e4, e5⟩ := strip_spec L D u
    apply e4
    rw [← e1] at he
    replace hv' := e2 hv'
    generalize strip u = u at *
    by_cases hb : b = .unsafePointer
    · subst hb
      have hk := headOf_tree u e5
      rw [← he, headOf_tree _ (by simp)] at hk
      cases u with
      | alias w => exact absurd rfl (e5 w)
      | named d' p' n' as' =>
        cases as' <;> cases p' <;> simp [keyOf] at hk
        simp [tree, basicTree, nameTree, lst] at he
        simp only [Valid] at hv'
        exact absurd he.1.symm hv'.1.1
      | basic b' =>
        have := basicTree_inj _ _ (by simpa [tree] using he)
        subst this
        exact .basic
      | iface ms => cases ms <;> simp [keyOf] at hk
      | _ => simp [keyOf] at hk
    · obtain ⟨s, hs⟩ : ∃ s, basicTree b = .sym s := by
        cases b <;> first | exact absurd rfl hb | exact ⟨_, rfl⟩
      have hu : tree u = .sym s := by rw [← he]; simpa [tree] using hs
      rcases atom_tree u e5 L hv' s hu with ⟨b', rfl, hb'⟩ | ⟨rfl, rfl⟩ | ⟨d', n', rfl, rfl, hn⟩
      · have := basicTree_inj b b' (by rw [hs, hb'])
        subst this
        exact .basic
      · exact absurd rfl (basic_sym b _ hs).1
      · rcases hn with rfl | rfl
        · exact absurd rfl (basic_sym b _ hs).2.1
        · exact absurd rfl (basic_sym b _ hs).2.2
  | .sig ps v rs, u, he, htr, hv, hv', hn, hn' => by
    obtain ⟨e1, e2, e3, e4, e5⟩ := strip_spec L D u
    apply e4
    rw [← e1] at he
    replace hv' := e2 hv'
    replace hn' := e3 hn'
    generalize strip u = u at *
    have hk := headOf_tree u e5
    rw [← he, headOf_tree _ (by simp)] at hk
    cases u with
    | alias w => exact absurd rfl (e5 w)
    | named d' p' n' as' => cases as' <;> cases p' <;> simp [keyOf] at hk
    | basic b => cases b <;> simp [keyOf] at hk
    | iface ms => cases ms <;> simp [keyOf] at hk
    | sig ps' v' rs' =>
      simp only [Valid, NamesUnique, tricky, Bool.or_eq_false_iff] at hv hv' hn hn' htr
      have hvv : v = v' ∧ trees ps = trees ps' ∧ trees rs = trees rs' := by
        cases v <;> cases v' <;> simp only [tree] at he <;> have h2 := lst_inj he <;> simp at h2
        · exact ⟨rfl, by have := lst_inj h2.1; simpa using this, by have := lst_inj h2.2; simpa using this⟩
        · exact ⟨rfl, by have := lst_inj h2.1; simpa using this, by have := lst_inj h2.2; simpa using this⟩
      obtain ⟨rfl, h1, h2⟩ := hvv
      exact .sig (trees_identical L D ps ps' h1 htr.1 hv.1 hv'.1 hn.1 hn'.1)
        (trees_identical L D rs rs' h2 htr.2 hv.2 hv'.2 hn.2 hn'.2)
    | _ => simp [keyOf] at hk
  | .struct fs, u, he, htr, hv, hv', hn, hn' => by
    obtain ⟨e1, e2, e3, e4, e5⟩ := strip_spec L D u
    apply e4
    rw [← e1] at he
    replace hv' := e2 hv'
    replace hn' := e3 hn'
    generalize strip u = u at *
    have hk := headOf_tree u e5
    rw [← he, headOf_tree _ (by simp)] at hk
    cases u with
    | alias w => exact absurd rfl (e5 w)
    | named d' p' n' as' => cases as' <;> cases p' <;> simp [keyOf] at hk
    | basic b => cases b <;> simp [keyOf] at hk
    | iface ms => cases ms <;> simp [keyOf] at hk
    | struct fs' =>
      simp only [tree] at he
      have h2 := lst_inj he
      simp only [List.cons.injEq, true_and] at h2
      simp only [Valid, NamesUnique, tricky] at hv hv' hn hn' htr
      exact .struct (fields_identical L D fs fs' h2 htr hv hv' hn hn')
    | _ => simp [keyOf] at hk
  | .iface .nil, u, he, _, _, hv', _, _ => by
    obtain ⟨e1, e2, e3, e4, e5⟩ := strip_spec L D u
    apply e4
    rw [← e1] at he
    replace hv' := e2 hv'
    generalize strip u = u at *
    rcases atom_tree u e5 L hv' go!"any" (by rw [← he]; rfl) with ⟨b', rfl, hb'⟩ | ⟨rfl, _⟩ | ⟨d', n', rfl, rfl, hn⟩
    · exact absurd rfl (basic_sym b' _ hb').1
    · exact .iface .nil
    · rcases hn with hn | hn <;> simp at hn
  | .iface (.cons _ _ _), _, _, htr, _, _, _, _ => by simp [tricky] at htr
  | .typeParam _ _, _, _, htr, _, _, _, _ => by simp [tricky] at htr
  | .union, _, _, _, hv, _, _, _ => by simp [Valid] at hv
theorem trees_identical (L : Lex) (D : Option Str → Str → Nat) : ∀ ts us, trees ts = trees us → trickyEach ts = false →
    ValidEach L ts → ValidEach L us → NamesUniqueEach D ts → NamesUniqueEach D us → IdenticalEach ts us
  | .nil, us, he, _, _, _, _, _ => by
    cases us with
    | nil => exact .nil
    | cons _ _ => simp [trees] at he
  | .cons t ts, us, he, htr, hv, hv', hn, hn' => by
    cases us with
    | nil => simp [trees] at he
    | cons u us =>
      simp only [trees, List.cons.injEq] at he
      simp only [ValidEach, NamesUniqueEach, trickyEach, Bool.or_eq_false_iff] at hv hv' hn hn' htr
      exact .cons (tree_identical L D t u he.1 htr.1 hv.1 hv'.1 hn.1 hn'.1)
        (trees_identical L D ts us he.2 htr.2 hv.2 hv'.2 hn.2 hn'.2)
theorem fields_identical (L : Lex) (D : Option Str → Str → Nat) : ∀ fs gs, fieldTrees fs = fieldTrees gs →
    trickyFields fs = false → ValidFields L fs → ValidFields L gs → NamesUniqueFields D fs → NamesUniqueFields D gs →
    IdenticalFields fs gs
  | .nil, gs, he, _, _, _, _, _ => by
    cases gs with
    | nil => exact .nil
    | cons _ _ _ => simp [fieldTrees] at he
  | .cons h t fs, gs, he, htr, hv, hv', hn, hn' => by
    cases gs with
    | nil => simp [fieldTrees] at he
    | cons k u gs =>
      simp only [fieldTrees, List.cons.injEq, Sexpr.sym.injEq, Sexpr.str.injEq] at he
      simp only [ValidFields, NamesUniqueFields, trickyFields, Bool.or_eq_false_iff] at hv hv' hn hn' htr
      refine .cons ?_ (tree_identical L D t u he.2.2.2.1 htr.1 hv.2.1 hv'.2.1 hn.1 hn'.1)
        (fields_identical L D fs gs he.2.2.2.2 htr.2 hv.2.2 hv'.2.2 hn.2 hn'.2)
      have hemb : h.embedded = k.embedded := by
        have := he.2.1
        cases hh : h.embedded <;> cases hk : k.embedded <;> simp [hh, hk] at this ⊢
      refine ⟨?_, ?_, hemb, he.2.2.1⟩
      · have := he.1
        split at this <;> split at this <;> simp [nameTree, lst] at this
        · exact this
        · exact this.2
      · have := he.1
        split at this <;> split at this <;> simp [nameTree, lst] at this
        · left; exact (isExported_iff _).1 (by assumption)
        · right; exact this.1
end

end Verif.Fp
