import Verif.Lemmas.TypeVisitor
/-! # The function visitor as a list of registrations -/
namespace Verif
open Spec

variable {Q : Ident → Parent → Prop}

theorem baseTypeName_iff (x : Node) (n : Str) : baseTypeName x = some n ↔ RecvExprBase x n := by
  fun_induction baseTypeName x with
  | case1 i => constructor
               · intro h; simp at h; subst h; exact .ident _
               · intro h; cases h; rfl
  | case2 x ih => rw [ih]; exact ⟨.star, fun h => by cases h; assumption⟩
  | case3 x is ih => rw [ih]; exact ⟨.index, fun h => by cases h; assumption⟩
  | case4 x ih => rw [ih]; exact ⟨.paren, fun h => by cases h; assumption⟩
  | case5 x h1 h2 h3 h4 =>
    simp only [reduceCtorEq, false_iff]
    intro h; cases h
    · exact h1 _ rfl
    · exact h2 _ rfl
    · exact h4 _ rfl
    · exact h3 _ _ rfl

/-- A method registered below the current scope. -/
def FuncReg (n : Node) (scope : List Descriptor) (i : Ident) (p : List Descriptor) (q : Nat) : Prop :=
  q = i.pos ∧ ResultMethod n i ∧ p = scope ++ [⟨i.name, .method⟩]

def FuncRegL (ns : List Node) (scope : List Descriptor) (i : Ident) (p : List Descriptor) (q : Nat) : Prop :=
  q = i.pos ∧ (∃ n ∈ ns, ResultMethod n i) ∧ p = scope ++ [⟨i.name, .method⟩]

theorem names_acts (env : PkgEnv) (scope : List Descriptor) (sfx : Suffix) (par : Parent) (names : List Ident) (hq : ∀ i ∈ names, Q i par) :
    ActsAs env Q (fun st => names.foldl (fun st n =>
          st.register env (st.scope ++ [⟨n.name, sfx⟩]) par n n.pos) st) scope
      (fun i p q => i ∈ names ∧ q = i.pos ∧ p = scope ++ [⟨i.name, sfx⟩]) := by
  have hstep : ∀ n ∈ names, ActsAs env Q (fun st => st.register env (st.scope ++ [⟨n.name, sfx⟩]) par n n.pos)
      scope (fun i p q => i = n ∧ p = scope ++ [⟨n.name, sfx⟩] ∧ q = n.pos) := by
    intro n hn
    exact (ActsAs.register env scope (scope ++ [⟨n.name, sfx⟩]) par n n.pos (hq n hn)).congr_fun
      (by intro st hst; rw [← hst])
  refine (ActsAs.foldl _ _ names hstep).congr ?_
  intro i p q
  constructor
  · rintro ⟨n, hn, rfl, rfl, rfl⟩; exact ⟨hn, rfl, rfl⟩
  · rintro ⟨hn, rfl, rfl⟩; exact ⟨i, hn, rfl, rfl, rfl⟩

theorem funcIface_acts (env : PkgEnv) (ms : List Node) (scope : List Descriptor) (hq : ∀ m ∈ ms, FieldsQ Q m) :
    ActsAs env Q (funcIface env ms) scope (FuncReg (.ifaceT ms) scope) := by
  have hstep : ∀ m ∈ ms, ActsAs env Q (fun st => match m with
      | .field _ names _ doc comment => names.foldl (fun st n =>
          st.register env (st.scope ++ [⟨n.name, .method⟩]) (.field doc comment) n n.pos) st
      | _ => st) scope
    (fun i p q => ∃ a names t d c, m = Node.field a names t d c ∧ i ∈ names ∧ q = i.pos ∧
      p = scope ++ [⟨i.name, .method⟩]) := by
    intro m hm
    cases m with
    | field a names t d c =>
      refine (names_acts env scope .method (.field d c) names (fun i hi => hq _ hm _ _ _ _ _ (.refl _) i (.inl hi))).congr ?_
      intro i p q
      constructor
      · rintro ⟨hn, rfl, rfl⟩; exact ⟨_, _, _, _, _, rfl, hn, rfl, rfl⟩
      · rintro ⟨_, _, _, _, _, h, hn, rfl, rfl⟩; cases h; exact ⟨hn, rfl, rfl⟩
    | _ => exact (ActsAs.id env Q scope).congr (by intro i p q; simp)
  refine ((ActsAs.foldl _ _ ms hstep).congr ?_).congr_fun (by intro st _; rfl)
  intro i p q
  constructor
  · rintro ⟨m, hm, a, names, t, d, c, rfl, hi, rfl, rfl⟩
    exact ⟨rfl, .iface hm hi, rfl⟩
  · rintro ⟨rfl, h, rfl⟩
    cases h with
    | iface hm hi => exact ⟨_, hm, _, _, _, _, _, rfl, hi, rfl, rfl⟩

mutual

theorem funcWalk_acts (env : PkgEnv) : ∀ (n : Node) (scope : List Descriptor), TypeExprNode n → FieldsQ Q n →
    ActsAs env Q (funcWalk env n) scope (FuncReg n scope)
  | .ident _, scope, _, hq => ((ActsAs.id env Q scope).congr (by
      intro i p q; simp only [FuncReg, false_iff]; rintro ⟨-, h, -⟩; cases h)).congr_fun (by
      intro st _; simp [funcWalk])
  | .block _, scope, _, hq => ((ActsAs.id env Q scope).congr (by
      intro i p q; simp only [FuncReg, false_iff]; rintro ⟨-, h, -⟩; cases h)).congr_fun (by
      intro st _; simp [funcWalk])
  | .ifaceT ms, scope, _, hq => (funcIface_acts env ms scope (fun _ hm => hq.child hm)).congr_fun (by intro st _; simp [funcWalk])
  | .funcT a b c, scope, h, hq => ((funcWalkList_acts env c scope (by cases h; assumption) (fun _ hm => hq.child (by simp [children, hm]))).congr (by
      intro i p q; constructor
      · rintro ⟨h1, ⟨n, hn, h2⟩, h3⟩; exact ⟨h1, .result hn h2, h3⟩
      · rintro ⟨h1, h2, h3⟩; cases h2 with | result hn h2 => exact ⟨h1, ⟨_, hn, h2⟩, h3⟩)).congr_fun
      (by intro st _; simp [funcWalk])
  | .structT c, scope, h, hq => ((funcWalkList_acts env c scope (by cases h; assumption) (fun _ hm => hq.child (by simp [children, hm]))).congr (by
      intro i p q; constructor
      · rintro ⟨h1, ⟨n, hn, h2⟩, h3⟩; exact ⟨h1, .struct hn h2, h3⟩
      · rintro ⟨h1, h2, h3⟩; cases h2 with | struct hn h2 => exact ⟨h1, ⟨_, hn, h2⟩, h3⟩)).congr_fun
      (by intro st _; simp [funcWalk])
  | .other c, scope, h, hq => ((funcWalkList_acts env c scope (by cases h; assumption) (fun _ hm => hq.child (by simp [children, hm]))).congr (by
      intro i p q; constructor
      · rintro ⟨h1, ⟨n, hn, h2⟩, h3⟩; exact ⟨h1, .other hn h2, h3⟩
      · rintro ⟨h1, h2, h3⟩; cases h2 with | other hn h2 => exact ⟨h1, ⟨_, hn, h2⟩, h3⟩)).congr_fun
      (by intro st _; simp [funcWalk])
  | .selector x s, scope, h, hq => ((funcWalk_acts env x scope (by cases h; assumption) (hq.child (by simp [children]))).congr (by
      intro i p q; constructor
      · rintro ⟨h1, h2, h3⟩; exact ⟨h1, .selector h2, h3⟩
      · rintro ⟨h1, h2, h3⟩; cases h2 with | selector h2 => exact ⟨h1, h2, h3⟩)).congr_fun
      (by intro st _; simp [funcWalk])
  | .star x, scope, h, hq => ((funcWalk_acts env x scope (by cases h; assumption) (hq.child (by simp [children]))).congr (by
      intro i p q; constructor
      · rintro ⟨h1, h2, h3⟩; exact ⟨h1, .star h2, h3⟩
      · rintro ⟨h1, h2, h3⟩; cases h2 with | star h2 => exact ⟨h1, h2, h3⟩)).congr_fun
      (by intro st _; simp [funcWalk])
  | .paren x, scope, h, hq => ((funcWalk_acts env x scope (by cases h; assumption) (hq.child (by simp [children]))).congr (by
      intro i p q; constructor
      · rintro ⟨h1, h2, h3⟩; exact ⟨h1, .paren h2, h3⟩
      · rintro ⟨h1, h2, h3⟩; cases h2 with | paren h2 => exact ⟨h1, h2, h3⟩)).congr_fun
      (by intro st _; simp [funcWalk])
  | .unary x, scope, h, hq => ((funcWalk_acts env x scope (by cases h; assumption) (hq.child (by simp [children]))).congr (by
      intro i p q; constructor
      · rintro ⟨h1, h2, h3⟩; exact ⟨h1, .unary h2, h3⟩
      · rintro ⟨h1, h2, h3⟩; cases h2 with | unary h2 => exact ⟨h1, h2, h3⟩)).congr_fun
      (by intro st _; simp [funcWalk])
  | .chanT x, scope, h, hq => ((funcWalk_acts env x scope (by cases h; assumption) (hq.child (by simp [children]))).congr (by
      intro i p q; constructor
      · rintro ⟨h1, h2, h3⟩; exact ⟨h1, .chan h2, h3⟩
      · rintro ⟨h1, h2, h3⟩; cases h2 with | chan h2 => exact ⟨h1, h2, h3⟩)).congr_fun
      (by intro st _; simp [funcWalk])
  | .field _ _ x _ _, scope, h, hq => ((funcWalk_acts env x scope (by cases h; assumption) (hq.child (by simp [children]))).congr (by
      intro i p q; constructor
      · rintro ⟨h1, h2, h3⟩; exact ⟨h1, .field h2, h3⟩
      · rintro ⟨h1, h2, h3⟩; cases h2 with | field h2 => exact ⟨h1, h2, h3⟩)).congr_fun
      (by intro st _; simp [funcWalk])
  | .index x is, scope, h, hq => ((ActsAs.comp (funcWalk_acts env x scope (by cases h; assumption) (hq.child (by simp [children])))
      (funcWalkList_acts env is scope (by cases h; assumption) (fun _ hm => hq.child (by simp [children, hm])))).congr (by
      intro i p q; constructor
      · rintro (⟨h1, h2, h3⟩ | ⟨h1, ⟨n, hn, h2⟩, h3⟩)
        · exact ⟨h1, .indexX h2, h3⟩
        · exact ⟨h1, .indexI hn h2, h3⟩
      · rintro ⟨h1, h2, h3⟩
        cases h2 with
        | indexX h2 => exact .inl ⟨h1, h2, h3⟩
        | indexI hn h2 => exact .inr ⟨h1, ⟨_, hn, h2⟩, h3⟩)).congr_fun (by intro st _; simp [funcWalk])
  | .arrayT l e, scope, h, hq => ((ActsAs.comp (funcWalkList_acts env l scope (by cases h; assumption) (fun _ hm => hq.child (by simp [children, hm])))
      (funcWalk_acts env e scope (by cases h; assumption) (hq.child (by simp [children])))).congr (by
      intro i p q; constructor
      · rintro (⟨h1, ⟨n, hn, h2⟩, h3⟩ | ⟨h1, h2, h3⟩)
        · exact ⟨h1, .arrayLen hn h2, h3⟩
        · exact ⟨h1, .arrayElt h2, h3⟩
      · rintro ⟨h1, h2, h3⟩
        cases h2 with
        | arrayLen hn h2 => exact .inl ⟨h1, ⟨_, hn, h2⟩, h3⟩
        | arrayElt h2 => exact .inr ⟨h1, h2, h3⟩)).congr_fun (by intro st _; simp [funcWalk])
  | .mapT k v, scope, h, hq => ((ActsAs.comp (funcWalk_acts env k scope (by cases h; assumption) (hq.child (by simp [children])))
      (funcWalk_acts env v scope (by cases h; assumption) (hq.child (by simp [children])))).congr (by
      intro i p q; constructor
      · rintro (⟨h1, h2, h3⟩ | ⟨h1, h2, h3⟩)
        · exact ⟨h1, .mapKey h2, h3⟩
        · exact ⟨h1, .mapValue h2, h3⟩
      · rintro ⟨h1, h2, h3⟩
        cases h2 with
        | mapKey h2 => exact .inl ⟨h1, h2, h3⟩
        | mapValue h2 => exact .inr ⟨h1, h2, h3⟩)).congr_fun (by intro st _; simp [funcWalk])
  | .importSpec _ _ _, _, h, _ => absurd h (by intro h; cases h)
  | .typeSpec _ _ _ _, _, h, _ => absurd h (by intro h; cases h)
  | .valueSpec _ _ _ _ _ _, _, h, _ => absurd h (by intro h; cases h)
  | .genDecl _ _ _, _, h, _ => absurd h (by intro h; cases h)
  | .funcDecl _ _ _ _ _ _ _, _, h, _ => absurd h (by intro h; cases h)
  | .badDecl, _, h, _ => absurd h (by intro h; cases h)
  | .file _ _, _, h, _ => absurd h (by intro h; cases h)

theorem funcWalkList_acts (env : PkgEnv) : ∀ (ns : List Node) (scope : List Descriptor),
    (∀ n ∈ ns, TypeExprNode n) → (∀ n ∈ ns, FieldsQ Q n) → ActsAs env Q (funcWalkList env ns) scope (FuncRegL ns scope)
  | [], scope, _, hq => ((ActsAs.id env Q scope).congr (by intro i p q; simp [FuncRegL])).congr_fun (by
      intro st _; simp [funcWalkList])
  | n :: ns, scope, h, hq => ((ActsAs.comp (funcWalk_acts env n scope (h n List.mem_cons_self) (hq n List.mem_cons_self))
      (funcWalkList_acts env ns scope (fun m hm => h m (List.mem_cons_of_mem _ hm)) (fun m hm => hq m (List.mem_cons_of_mem _ hm)))).congr (by
      intro i p q
      simp only [FuncReg, FuncRegL, List.mem_cons, exists_eq_or_imp]
      constructor
      · rintro (⟨h1, h2, h3⟩ | ⟨h1, h2, h3⟩)
        · exact ⟨h1, .inl h2, h3⟩
        · exact ⟨h1, .inr h2, h3⟩
      · rintro ⟨h1, h2 | h2, h3⟩
        · exact .inl ⟨h1, h2, h3⟩
        · exact .inr ⟨h1, h2, h3⟩)).congr_fun (by intro st _; simp [funcWalkList])

end

theorem receiverTypeName_cases (recv : List Node) (r : List Descriptor) (h : RecvPath recv r) :
    r = (match receiverTypeName recv with | some n => [⟨n, Suffix.typ⟩] | none => []) := by
  cases h with
  | func => rfl
  | method h => rw [← baseTypeName_iff] at h; simp [receiverTypeName, h]

/-- The function visitor on a declaration whose receiver, if any, names a base type. -/
theorem funcDecl_acts (env : PkgEnv) (recv : List Node) (name : Ident) (typ : Node) (body : List Node) (a b : Nat)
    (d : Str) (r : List Descriptor) (hr : RecvPath recv r) (ht : TypeExprNode typ) (hq : Q name (.funcDecl d))
    (hf : FieldsQ Q typ) (t : Table) :
    ∃ rs, (funcWalk env (.funcDecl recv name typ body a b d) ⟨newScope env.pkgPath, t, none, []⟩).table = t.setAll rs ∧
      (∀ e ∈ rs, ∃ i p, FuncDeclares env.pkgPath (.funcDecl recv name typ body a b d) i p ∧ regOf env Q i p i.pos e) ∧
      (∀ i p, FuncDeclares env.pkgPath (.funcDecl recv name typ body a b d) i p →
        ∃ e ∈ rs, regOf env Q i p i.pos e) := by
  have hrt := receiverTypeName_cases recv r hr
  obtain ⟨rs, h1, h2, h3⟩ := funcWalk_acts env typ
    (newScope env.pkgPath ++ r ++ [⟨go!"func", .metadesc⟩] ++ [⟨name.name, .metadesc⟩]) ht hf
  refine ⟨(name.pos, newSymInfo env (env.fromDescriptors (newScope env.pkgPath ++ r ++ [⟨name.name, .method⟩]))
    (.funcDecl d) name) :: rs, ?_, ?_, ?_⟩
  · simp only [funcWalk]
    cases hn : receiverTypeName recv with
    | none =>
      rw [hn] at hrt; subst hrt
      dsimp only
      rw [h1 _ (by simp [VState.register, VState.push])]
      simp [VState.regs, VState.register, VState.push, VState.pop]
    | some n =>
      rw [hn] at hrt; subst hrt
      dsimp only
      rw [h1 _ (by simp [VState.register, VState.push])]
      simp [VState.regs, VState.register, VState.push, VState.pop]
  · intro e he
    simp only [List.mem_cons] at he
    rcases he with rfl | he
    · exact ⟨name, _, .name hr, rfl, _, hq, rfl⟩
    · obtain ⟨i, p, q, ⟨rfl, hm, rfl⟩, ho⟩ := h2 e he
      refine ⟨i, _, .result hr hm, ?_⟩
      simpa [newScope] using ho
  · intro i p h
    generalize hn : Node.funcDecl recv name typ body a b d = n at h
    cases h with
    | name hr' =>
      cases hn
      have := receiverTypeName_cases recv _ hr'
      rw [← hrt] at this; subst this
      exact ⟨_, List.mem_cons_self, rfl, _, hq, rfl⟩
    | result hr' hm =>
      cases hn
      have := receiverTypeName_cases recv _ hr'
      rw [← hrt] at this; subst this
      obtain ⟨e, he, ho⟩ := h3 i _ _ ⟨rfl, hm, rfl⟩
      exact ⟨e, List.mem_cons_of_mem _ he, by simpa [newScope] using ho⟩

end Verif
