import Verif.Lemmas.VarVisitor
/-! # Scopes only grow, and everything is registered below the current scope

Unlike the exact lemmas, these hold for *every* syntax tree, also where the variable visitor leaks scopes. -/
namespace Verif
open Spec

variable {Q : Ident → Parent → Prop}

/-- `f` leaves the scope alone except for descriptors added at the end, and registers only below it. -/
def Grows (env : PkgEnv) (f : VState → VState) : Prop :=
  ∀ st, ∃ (extra : List Descriptor) (rs : List (Nat × SymInfo)), (f st).scope = st.scope ++ extra ∧
    (f st).table = st.table.setAll rs ∧
    ∀ e ∈ rs, ∃ ds par i, ds ≠ [] ∧ e.2 = newSymInfo env (env.fromDescriptors (st.scope ++ ds)) par i

theorem Grows.id (env) : Grows env (fun st => st) := fun st => ⟨[], [], by simp, by simp, by simp⟩

theorem Grows.comp {env f g} (hf : Grows env f) (hg : Grows env g) : Grows env (fun st => g (f st)) := by
  intro st
  obtain ⟨x, rs, h1, h2, h3⟩ := hf st
  obtain ⟨y, ss, k1, k2, k3⟩ := hg (f st)
  refine ⟨x ++ y, rs ++ ss, ?_, ?_, ?_⟩
  · dsimp only; rw [k1, h1, List.append_assoc]
  · dsimp only; rw [k2, h2, Table.setAll_append]
  · intro e he
    rcases List.mem_append.1 he with h | h
    · exact h3 e h
    · obtain ⟨ds, par, i, hne, he⟩ := k3 e h
      refine ⟨x ++ ds, par, i, by simp [hne], ?_⟩
      rw [he, h1, List.append_assoc]

theorem Grows.congr {env f g} (hf : Grows env f) (h : ∀ st, g st = f st) : Grows env g := by
  have : g = f := funext h
  exact this ▸ hf

theorem Grows.foldl {α} {env : PkgEnv} (f : VState → α → VState) (l : List α)
    (h : ∀ a ∈ l, Grows env (fun st => f st a)) : Grows env (fun st => l.foldl f st) := by
  induction l with
  | nil => exact Grows.id env
  | cons a l ih =>
    exact (Grows.comp (h a (by simp)) (ih (fun b hb => h b (by simp [hb])))).congr (fun st => rfl)

theorem Grows.push {env f n s} (hf : Grows env f) : Grows env (fun st => f (st.push n s)) := by
  intro st
  obtain ⟨x, rs, h1, h2, h3⟩ := hf (st.push n s)
  refine ⟨⟨n, s⟩ :: x, rs, ?_, ?_, ?_⟩
  · dsimp only; rw [h1]; simp
  · dsimp only; rw [h2]; rfl
  · intro e he
    obtain ⟨ds, par, i, hne, he⟩ := h3 e he
    exact ⟨⟨n, s⟩ :: ds, par, i, by simp, by rw [he]; simp⟩

theorem Grows.scoped {env f n s} (hf : Grows env f) : Grows env (fun st => (f (st.push n s)).pop) := by
  intro st
  obtain ⟨x, rs, h1, h2, h3⟩ := hf (st.push n s)
  refine ⟨(⟨n, s⟩ :: x).dropLast, rs, ?_, ?_, ?_⟩
  · simp only [VState.pop]
    rw [h1]
    simp only [VState.push_scope, List.append_assoc, List.singleton_append]
    rw [List.dropLast_append_of_ne_nil (by simp)]
  · simp only [VState.pop]; rw [h2]; rfl
  · intro e he
    obtain ⟨ds, par, i, hne, he⟩ := h3 e he
    exact ⟨⟨n, s⟩ :: ds, par, i, by simp, by rw [he]; simp⟩

theorem Grows.register (env : PkgEnv) (d : VState → Descriptor) (par : VState → Parent) (i : Ident) (pos : Nat) :
    Grows env (fun st => st.register env (st.scope ++ [d st]) (par st) i pos) := by
  intro st
  refine ⟨[], [(pos, newSymInfo env (env.fromDescriptors (st.scope ++ [d st])) (par st) i)],
    by simp [VState.register], by simp only [VState.register, Table.setAll_cons, Table.setAll_nil], ?_⟩
  intro e he
  simp only [List.mem_singleton] at he
  exact ⟨[d st], par st, i, by simp, by rw [he]⟩

theorem Grows.curDecl {env f} (hf : Grows env f) (c : Option Parent) :
    Grows env (fun st => f { st with curDecl := c }) := fun st => hf { st with curDecl := c }

theorem ActsAs.grows {env f} {R : List Descriptor → Ident → List Descriptor → Nat → Prop} (hf : ∀ scope, ActsAs env Q f scope (R scope))
    (hR : ∀ scope i p q, R scope i p q → ∃ ds, ds ≠ [] ∧ p = scope ++ ds) : Grows env f := by
  intro st
  obtain ⟨rs, h1, h2, _⟩ := hf st.scope
  refine ⟨[], rs, by rw [h1 st rfl]; simp, by rw [h1 st rfl]; rfl, ?_⟩
  intro e he
  obtain ⟨i, p, q, hr, hpos, par, _, ho⟩ := h2 e he
  obtain ⟨ds, hne, rfl⟩ := hR _ _ _ _ hr
  exact ⟨ds, par, i, hne, ho⟩

theorem funcIface_grows (env : PkgEnv) (ms : List Node) : Grows env (funcIface env ms) :=
  ActsAs.grows (fun scope => funcIface_acts (Q := fun _ _ => True) env ms scope (fun _ _ _ _ _ _ _ _ _ _ => trivial)) (by
    rintro scope i p q ⟨_, _, rfl⟩; exact ⟨_, by simp, rfl⟩)

mutual
theorem funcWalk_grows (env : PkgEnv) : ∀ n : Node, Grows env (funcWalk env n)
  | .funcDecl recv name typ body a b doc => by
    have h1 := funcWalk_grows env typ
    have hreg : Grows env (fun st => st.register env (st.scope ++ [⟨name.name, .method⟩]) (.funcDecl doc) name name.pos) :=
      Grows.register env (fun _ => ⟨name.name, .method⟩) (fun _ => .funcDecl doc) name name.pos
    have h2 : Grows env (fun st => (funcWalk env typ ((st.push go!"func" .metadesc).push name.name .metadesc)).pop) := by
      exact (Grows.push (n := go!"func") (s := .metadesc) (Grows.scoped (n := name.name) (s := .metadesc) h1)).congr
        (fun st => rfl)
    have h3 := Grows.comp hreg h2
    cases hn : receiverTypeName recv with
    | none => exact h3.congr (by intro st; simp [funcWalk, hn])
    | some r => exact (Grows.push (n := r) (s := .typ) h3).congr (by intro st; simp [funcWalk, hn])
  | .funcT _ _ r => (funcWalkList_grows env r).congr (by intro st; simp [funcWalk])
  | .block _ => (Grows.id env).congr (by intro st; simp [funcWalk])
  | .ifaceT ms => (funcIface_grows env ms).congr (by intro st; simp [funcWalk])
  | .ident _ => (Grows.id env).congr (by intro st; simp [funcWalk])
  | .selector x _ => (funcWalk_grows env x).congr (by intro st; simp [funcWalk])
  | .star x => (funcWalk_grows env x).congr (by intro st; simp [funcWalk])
  | .paren x => (funcWalk_grows env x).congr (by intro st; simp [funcWalk])
  | .index x is => (Grows.comp (funcWalk_grows env x) (funcWalkList_grows env is)).congr (by intro st; simp [funcWalk])
  | .unary x => (funcWalk_grows env x).congr (by intro st; simp [funcWalk])
  | .arrayT l e => (Grows.comp (funcWalkList_grows env l) (funcWalk_grows env e)).congr (by intro st; simp [funcWalk])
  | .mapT k v => (Grows.comp (funcWalk_grows env k) (funcWalk_grows env v)).congr (by intro st; simp [funcWalk])
  | .chanT x => (funcWalk_grows env x).congr (by intro st; simp [funcWalk])
  | .structT r => (funcWalkList_grows env r).congr (by intro st; simp [funcWalk])
  | .field _ _ x _ _ => (funcWalk_grows env x).congr (by intro st; simp [funcWalk])
  | .importSpec _ _ _ => (Grows.id env).congr (by intro st; simp [funcWalk])
  | .typeSpec _ l e _ => (Grows.comp (funcWalkList_grows env l) (funcWalk_grows env e)).congr (by intro st; simp [funcWalk])
  | .valueSpec _ _ t v _ _ => (Grows.comp (funcWalkList_grows env t) (funcWalkList_grows env v)).congr
      (by intro st; simp [funcWalk])
  | .genDecl _ r _ => (funcWalkList_grows env r).congr (by intro st; simp [funcWalk])
  | .badDecl => (Grows.id env).congr (by intro st; simp [funcWalk])
  | .file _ r => (funcWalkList_grows env r).congr (by intro st; simp [funcWalk])
  | .other r => (funcWalkList_grows env r).congr (by intro st; simp [funcWalk])
theorem funcWalkList_grows (env : PkgEnv) : ∀ ns : List Node, Grows env (funcWalkList env ns)
  | [] => (Grows.id env).congr (by intro st; simp [funcWalkList])
  | n :: ns => (Grows.comp (funcWalk_grows env n) (funcWalkList_grows env ns)).congr (by intro st; simp [funcWalkList])
end

mutual
theorem varWalk_grows (env : PkgEnv) : ∀ n : Node, Grows env (varWalk env n)
  | .genDecl tok specs doc => by
    by_cases ht : tok = .var ∨ tok = .const
    · exact (Grows.curDecl (varWalkList_grows env specs) (some (.genDecl specs doc))).congr
        (by intro st; simp only [varWalk, if_pos ht])
    · exact (Grows.id env).congr (by intro st; simp only [varWalk, if_neg ht])
  | .valueSpec pos names typ vs d c => by
    have hv := varWalkList_grows env vs
    have ht := varWalkList_grows env typ
    have hn : Grows env (fun st => names.foldl (fun st n =>
        st.register env (st.scope ++ [⟨n.name, .term⟩]) (st.curDecl.getD noParent) n n.pos) st) :=
      Grows.foldl _ _ (fun n _ => Grows.register env (fun _ => ⟨n.name, .term⟩) (fun st => st.curDecl.getD noParent) n n.pos)
    by_cases he : names = []
    · exact hn.congr (by intro st; simp [varWalk, he])
    · cases hc : varTypeClass typ with
      | skip =>
        exact (Grows.comp hn (Grows.scoped (n := varScopeName env pos names) (s := .metadesc) hv)).congr
          (by intro st; simp [varWalk, he, hc])
      | walk =>
        exact (Grows.comp hn (Grows.scoped (n := varScopeName env pos names) (s := .metadesc)
          (Grows.comp ht hv))).congr (by intro st; simp [varWalk, he, hc])
      | unhandled =>
        exact (Grows.comp hn (Grows.push (n := varScopeName env pos names) (s := .metadesc)
          (Grows.id env))).congr (by intro st; simp [varWalk, he, hc])
  | .field pos names typ doc comment => by
    have ha := varAnon_grows env typ
    cases names with
    | nil =>
      refine Grows.congr ?_ (fun st => varWalk_field_nil env pos typ doc comment st)
      exact Grows.foldl _ _ (fun n _ => Grows.register env (fun _ => ⟨n.name, .term⟩) (fun _ => .field doc comment) n pos)
    | cons n0 ns =>
      refine Grows.congr ?_ (fun st => varWalk_field_cons env pos n0 ns typ doc comment st)
      generalize varAnon env typ = g at ha ⊢
      exact Grows.foldl _ _ (fun n _ => Grows.comp
        (Grows.register env (fun _ => ⟨n.name, .term⟩) (fun _ => .field doc comment) n n.pos) ha)
  | .ident _ => (Grows.id env).congr (by intro st; simp [varWalk])
  | .selector x _ => (varWalk_grows env x).congr (by intro st; simp [varWalk])
  | .star x => (varWalk_grows env x).congr (by intro st; simp [varWalk])
  | .paren x => (varWalk_grows env x).congr (by intro st; simp [varWalk])
  | .index x is => (Grows.comp (varWalk_grows env x) (varWalkList_grows env is)).congr (by intro st; simp [varWalk])
  | .unary x => (varWalk_grows env x).congr (by intro st; simp [varWalk])
  | .arrayT l e => (Grows.comp (varWalkList_grows env l) (varWalk_grows env e)).congr (by intro st; simp [varWalk])
  | .mapT k v => (Grows.comp (varWalk_grows env k) (varWalk_grows env v)).congr (by intro st; simp [varWalk])
  | .chanT x => (varWalk_grows env x).congr (by intro st; simp [varWalk])
  | .funcT a b c => (Grows.comp (varWalkList_grows env a) (Grows.comp (varWalkList_grows env b)
      (varWalkList_grows env c))).congr (by intro st; simp [varWalk])
  | .structT r => (varWalkList_grows env r).congr (by intro st; simp [varWalk])
  | .ifaceT r => (varWalkList_grows env r).congr (by intro st; simp [varWalk])
  | .block r => (varWalkList_grows env r).congr (by intro st; simp [varWalk])
  | .importSpec _ _ _ => (Grows.id env).congr (by intro st; simp [varWalk])
  | .typeSpec _ l e _ => (Grows.comp (varWalkList_grows env l) (varWalk_grows env e)).congr (by intro st; simp [varWalk])
  | .funcDecl r _ t b _ _ _ => (Grows.comp (varWalkList_grows env r) (Grows.comp (varWalk_grows env t)
      (varWalkList_grows env b))).congr (by intro st; simp [varWalk])
  | .badDecl => (Grows.id env).congr (by intro st; simp [varWalk])
  | .file _ r => (varWalkList_grows env r).congr (by intro st; simp [varWalk])
  | .other r => (varWalkList_grows env r).congr (by intro st; simp [varWalk])
theorem varAnon_grows (env : PkgEnv) : ∀ n : Node, Grows env (varAnon env n)
  | .mapT k v => (Grows.comp (varAnon_grows env k) (varAnon_grows env v)).congr (by intro st; simp [varAnon])
  | .arrayT _ e => (varAnon_grows env e).congr (by intro st; simp [varAnon])
  | .star x => (varAnon_grows env x).congr (by intro st; simp [varAnon])
  | .structT fs => by
    have h := varWalkList_grows env fs
    by_cases hk : env.anonKey (.structT fs) = []
    · exact (Grows.id env).congr (by intro st; simp [varAnon, hk])
    · exact (Grows.scoped h).congr (by intro st; simp only [varAnon]; rw [if_neg hk])
  | .ifaceT fs => by
    have h := varWalkList_grows env fs
    by_cases hk : env.anonKey (.ifaceT fs) = []
    · exact (Grows.id env).congr (by intro st; simp [varAnon, hk])
    · exact (Grows.scoped h).congr (by intro st; simp only [varAnon]; rw [if_neg hk])
  | .field _ _ _ _ _
  | .ident _ | .selector _ _ | .paren _ | .index _ _
  | .unary _ | .chanT _ | .funcT _ _ _
  | .block _ | .importSpec _ _ _ | .typeSpec _ _ _ _
  | .valueSpec _ _ _ _ _ _ | .genDecl _ _ _ | .funcDecl _ _ _ _ _ _ _ | .badDecl
  | .file _ _ | .other _ => (Grows.id env).congr (by intro st; simp [varAnon])
theorem varWalkList_grows (env : PkgEnv) : ∀ ns : List Node, Grows env (varWalkList env ns)
  | [] => (Grows.id env).congr (by intro st; simp [varWalkList])
  | n :: ns => (Grows.comp (varWalk_grows env n) (varWalkList_grows env ns)).congr (by intro st; simp [varWalkList])
end

theorem member_below {key isI t o i p} (h : Member key isI t o i p) : ∃ ds, ds ≠ [] ∧ p = o ++ ds := by
  induction h with
  | named _ _ => exact ⟨_, by simp, rfl⟩
  | embedded _ _ _ => exact ⟨_, by simp, rfl⟩
  | embeddedLit _ _ _ ih => exact ih
  | anon _ _ _ _ _ ih =>
    obtain ⟨ds, hne, rfl⟩ := ih
    exact ⟨_, by simp, List.append_assoc _ _ _⟩

theorem typeDecls_grows (env : PkgEnv) (decls : List Node) : Grows env (typeDecls env decls) :=
  ActsAs.grows (fun scope => typeDecls_acts (Q := fun _ _ => True) env decls scope (fun _ _ _ _ _ _ _ _ _ => trivial)
      (fun _ _ _ _ _ _ _ _ _ _ => trivial)) (by
    rintro scope i p q ⟨_, _, _, _, s, _, _, n, tps, typ, d, _, ⟨_, rfl⟩ | h⟩
    · exact ⟨_, by simp, rfl⟩
    · obtain ⟨ds, hne, rfl⟩ := member_below h
      exact ⟨_, by simp, List.append_assoc _ _ _⟩)

end Verif
