import Verif.Model.Visitors
import Verif.Spec.Comments
import Verif.Lemmas.Table
/-! # The type visitor as a list of registrations -/
namespace Verif
open Spec

/-- Applying registrations to a state. -/
def VState.regs (st : VState) (rs : List (Nat × SymInfo)) : VState :=
  { st with table := st.table.setAll rs, warned := st.warned ++ st.table.conflicts rs }

@[simp] theorem VState.regs_nil (st : VState) : st.regs [] = st := by simp [VState.regs]
theorem VState.regs_append (st : VState) (a b) : st.regs (a ++ b) = (st.regs a).regs b := by
  simp [VState.regs, Table.setAll_append, Table.conflicts_append]
@[simp] theorem VState.regs_scope (st : VState) (a) : (st.regs a).scope = st.scope := rfl
@[simp] theorem VState.regs_curDecl (st : VState) (a) : (st.regs a).curDecl = st.curDecl := rfl
theorem VState.register_eq (st : VState) (env ds p i pos) :
    st.register env ds p i pos = st.regs [(pos, newSymInfo env (env.fromDescriptors ds) p i)] := by
  simp [VState.regs, VState.register]
theorem VState.push_regs (st : VState) (n s rs) : (st.push n s).regs rs = (st.regs rs).push n s := rfl
@[simp] theorem VState.pop_push (st : VState) (n s) : (st.push n s).pop = st := by
  simp [VState.push, VState.pop]
@[simp] theorem VState.push_scope (st : VState) (n s) : (st.push n s).scope = st.scope ++ [⟨n, s⟩] := rfl

variable {Q : Ident → Parent → Prop}

/-- A registration: position, symbol, and a parent (from which the documentation is taken) of which `Q` holds. -/
def regOf (env : PkgEnv) (Q : Ident → Parent → Prop) (i : Ident) (p : List Descriptor) (pos : Nat) (e : Nat × SymInfo) : Prop :=
  e.1 = pos ∧ ∃ par, Q i par ∧ e.2 = newSymInfo env (env.fromDescriptors p) par i

/-- `f` acts, in scope `scope`, as a list of registrations that are exactly those described by `R`. -/
def ActsAs (env : PkgEnv) (Q : Ident → Parent → Prop) (f : VState → VState) (scope : List Descriptor)
    (R : Ident → List Descriptor → Nat → Prop) : Prop :=
  ∃ rs : List (Nat × SymInfo), (∀ st : VState, st.scope = scope → f st = st.regs rs) ∧
    (∀ e ∈ rs, ∃ i p pos, R i p pos ∧ regOf env Q i p pos e) ∧
    (∀ i p pos, R i p pos → ∃ e ∈ rs, regOf env Q i p pos e)

theorem ActsAs.id (env Q scope) : ActsAs env Q (fun st => st) scope (fun _ _ _ => False) :=
  ⟨[], by simp, by simp, by simp⟩

theorem ActsAs.comp {env f g scope R S} (hf : ActsAs env Q f scope R) (hg : ActsAs env Q g scope S) :
    ActsAs env Q (fun st => g (f st)) scope (fun i p pos => R i p pos ∨ S i p pos) := by
  obtain ⟨rs, h1, h2, h3⟩ := hf
  obtain ⟨ss, k1, k2, k3⟩ := hg
  refine ⟨rs ++ ss, ?_, ?_, ?_⟩
  · intro st hst
    dsimp only
    rw [h1 st hst, k1 _ (by simpa using hst), VState.regs_append]
  · intro e he
    rcases List.mem_append.mp he with h | h
    · obtain ⟨i, p, q, hr, ho⟩ := h2 e h; exact ⟨i, p, q, .inl hr, ho⟩
    · obtain ⟨i, p, q, hr, ho⟩ := k2 e h; exact ⟨i, p, q, .inr hr, ho⟩
  · rintro i p q (h | h)
    · obtain ⟨e, he, ho⟩ := h3 i p q h; exact ⟨e, by simp [he], ho⟩
    · obtain ⟨e, he, ho⟩ := k3 i p q h; exact ⟨e, by simp [he], ho⟩

theorem ActsAs.congr {env f scope R S} (hf : ActsAs env Q f scope R)
    (h : ∀ i p pos, R i p pos ↔ S i p pos) : ActsAs env Q f scope S := by
  have : R = S := by funext i p q; exact propext (h i p q)
  exact this ▸ hf

theorem ActsAs.congr_fun {env f g scope R} (hf : ActsAs env Q f scope R)
    (h : ∀ st : VState, st.scope = scope → g st = f st) : ActsAs env Q g scope R := by
  obtain ⟨rs, h1, h2, h3⟩ := hf
  exact ⟨rs, fun st hst => by rw [h st hst, h1 st hst], h2, h3⟩

theorem ActsAs.register (env : PkgEnv) (scope ds par i pos) (hq : Q i par) :
    ActsAs env Q (fun st => st.register env ds par i pos) scope
      (fun i' p' q => i' = i ∧ p' = ds ∧ q = pos) := by
  refine ⟨[(pos, newSymInfo env (env.fromDescriptors ds) par i)], ?_, ?_, ?_⟩
  · intro st _; exact st.register_eq env ds par i pos
  · intro e he
    simp only [List.mem_singleton] at he
    subst he
    exact ⟨i, ds, pos, ⟨rfl, rfl, rfl⟩, rfl, par, hq, rfl⟩
  · rintro i' p' q ⟨rfl, rfl, rfl⟩
    exact ⟨_, List.mem_cons_self, rfl, par, hq, rfl⟩

theorem ActsAs.scoped {env f scope n s R} (hf : ActsAs env Q f (scope ++ [⟨n, s⟩]) R) :
    ActsAs env Q (fun st => (f (st.push n s)).pop) scope R := by
  obtain ⟨rs, h1, h2, h3⟩ := hf
  refine ⟨rs, ?_, h2, h3⟩
  intro st hst
  dsimp only
  rw [h1 (st.push n s) (by simp [hst]), VState.push_regs, VState.pop_push]

theorem ActsAs.foldl {α} {env : PkgEnv} {scope} (f : VState → α → VState) (R : α → Ident → List Descriptor → Nat → Prop)
    (l : List α) (h : ∀ a ∈ l, ActsAs env Q (fun st => f st a) scope (R a)) :
    ActsAs env Q (fun st => l.foldl f st) scope (fun i p q => ∃ a ∈ l, R a i p q) := by
  induction l with
  | nil => exact (ActsAs.id env Q scope).congr (by simp)
  | cons a l ih =>
    have h1 := h a (by simp)
    have h2 := ih (fun b hb => h b (by simp [hb]))
    exact (ActsAs.comp h1 h2).congr (by intro i p q; simp)

/-- `Q` holds of every field or method of the tree with its own comments. -/
def FieldsQ (Q : Ident → Parent → Prop) (n : Node) : Prop := ∀ pos names typ d c, Below n (.field pos names typ d c) →
  ∀ i, (i ∈ names ∨ names = [] ∧ EmbeddedName typ i) → Q i (.field d c)

theorem FieldsQ.child {n c : Node} (h : FieldsQ Q n) (hc : c ∈ children n) : FieldsQ Q c :=
  fun pos names typ d c' hb => h pos names typ d c' (.child hc hb)

theorem getIdentOfTypeExpr_iff (n : Node) (i : Ident) : i ∈ getIdentOfTypeExpr n ↔ EmbeddedName n i := by
  fun_induction getIdentOfTypeExpr n with
  | case1 j => constructor
               · intro h; simp at h; subst h; exact .ident _
               · intro h; cases h; simp
  | case2 x s => constructor
                 · intro h; simp at h; subst h; exact .selector _ _
                 · intro h; cases h; simp
  | case3 x ih => rw [ih]; exact ⟨.star, fun h => by cases h; assumption⟩
  | case4 x is ih => rw [ih]; exact ⟨.index, fun h => by cases h; assumption⟩
  | case5 x ih => rw [ih]; exact ⟨.unary, fun h => by cases h; assumption⟩
  | case6 n h1 h2 h3 h4 h5 =>
    simp only [List.not_mem_nil, false_iff]
    intro h; cases h
    · exact h1 _ rfl
    · exact h2 _ _ rfl
    · exact h3 _ rfl
    · exact h4 _ _ rfl
    · exact h5 _ rfl

theorem member_iface_iff (key isI ms o i p) :
    Member key isI (.ifaceT ms) o i p ↔ Member key isI (.structT ms) o i p := by
  have hf : ∀ f, HasField (.ifaceT ms) f ↔ HasField (.structT ms) f := by
    intro f; constructor
    · intro h; cases h; constructor; assumption
    · intro h; cases h; constructor; assumption
  constructor
  · intro h
    cases h with
    | named h1 h2 => exact .named ((hf _).1 h1) h2
    | embedded h0 h1 h2 => exact .embedded h0 ((hf _).1 h1) h2
    | embeddedLit h0 h1 h2 => exact .embeddedLit h0 ((hf _).1 h1) h2
    | anon h1 h2 h3 h4 h5 => exact .anon ((hf _).1 h1) h2 h3 h4 h5
  · intro h
    cases h with
    | named h1 h2 => exact .named ((hf _).2 h1) h2
    | embedded h0 h1 h2 => exact .embedded h0 ((hf _).2 h1) h2
    | embeddedLit h0 h1 h2 => exact .embeddedLit h0 ((hf _).2 h1) h2
    | anon h1 h2 h3 h4 h5 => exact .anon ((hf _).2 h1) h2 h3 h4 h5

/-- What the anonymous types reachable from a field's type declare. -/
def AnonDecl (key : Node → Str) (isI : Bool) (n : Node) (o : List Descriptor) (i : Ident)
    (p : List Descriptor) (q : Nat) : Prop :=
  q = i.pos ∧ ∃ lit, Reaches n lit ∧ key lit ≠ [] ∧ Member key isI lit (o ++ [⟨key lit, .typ⟩]) i p

/-- The members of a list of fields are the members of the fields. -/
theorem member_struct_iff (key isI fs o i p) :
    Member key isI (.structT fs) o i p ↔
      ∃ f ∈ fs, (∃ a b c d e, f = .field a b c d e) ∧ Member key isI (.structT [f]) o i p := by
  constructor
  · intro h
    cases h with
    | named h1 h2 => cases h1; rename_i hm; exact ⟨_, hm, ⟨_, _, _, _, _, rfl⟩, .named (.struct List.mem_cons_self) h2⟩
    | embedded h0 h1 h2 =>
      cases h1; rename_i hm; exact ⟨_, hm, ⟨_, _, _, _, _, rfl⟩, .embedded h0 (.struct List.mem_cons_self) h2⟩
    | embeddedLit h0 h1 h2 =>
      cases h1; rename_i hm; exact ⟨_, hm, ⟨_, _, _, _, _, rfl⟩, .embeddedLit h0 (.struct List.mem_cons_self) h2⟩
    | anon h1 h2 h3 h4 h5 =>
      cases h1; rename_i hm; exact ⟨_, hm, ⟨_, _, _, _, _, rfl⟩, .anon (.struct List.mem_cons_self) h2 h3 h4 h5⟩
  · rintro ⟨f, hf, _, h⟩
    cases h with
    | named h1 h2 => cases h1; rename_i hm; simp at hm; subst hm; exact .named (.struct hf) h2
    | embedded h0 h1 h2 => cases h1; rename_i hm; simp at hm; subst hm; exact .embedded h0 (.struct hf) h2
    | embeddedLit h0 h1 h2 =>
      cases h1; rename_i hm; simp at hm; subst hm; exact .embeddedLit h0 (.struct hf) h2
    | anon h1 h2 h3 h4 h5 => cases h1; rename_i hm; simp at hm; subst hm; exact .anon (.struct hf) h2 h3 h4 h5

theorem member_other (key isI) (n : Node) (o i p) (h1 : ∀ fs, n ≠ .structT fs) (h2 : ∀ fs, n ≠ .ifaceT fs) :
    ¬ Member key isI n o i p := by
  have hf : ∀ f, ¬ HasField n f := by
    intro f h; cases h
    · exact h1 _ rfl
    · exact h2 _ rfl
  intro h
  cases h with
  | named h _ => exact hf _ h
  | embedded _ h _ => exact hf _ h
  | embeddedLit _ h _ => exact hf _ h
  | anon h _ _ _ _ => exact hf _ h

theorem member_field_iff (key isI o i p) (pos : Nat) (names : List Ident) (typ : Node) (d c : Str) :
    Member key isI (.structT [.field pos names typ d c]) o i p ↔
      (i ∈ names ∧ p = o ++ [⟨i.name, .term⟩]) ∨
      (names = [] ∧ isI = false ∧ EmbeddedName typ i ∧ p = o ++ [⟨i.name, .term⟩]) ∨
      (names = [] ∧ isI = true ∧ Member key isI typ o i p) ∨
      (names ≠ [] ∧ ∃ lit, Reaches typ lit ∧ key lit ≠ [] ∧ Member key isI lit (o ++ [⟨key lit, .typ⟩]) i p) := by
  constructor
  · intro h
    cases h with
    | named h1 h2 => cases h1; rename_i hm; simp at hm; obtain ⟨rfl, rfl, rfl, rfl, rfl⟩ := hm; simp [h2]
    | embedded h0 h1 h2 =>
      cases h1; rename_i hm; simp at hm; obtain ⟨rfl, rfl, rfl, rfl, rfl⟩ := hm; simp [h0, h2]
    | embeddedLit h0 h1 h2 =>
      cases h1; rename_i hm; simp at hm; obtain ⟨rfl, rfl, rfl, rfl, rfl⟩ := hm; right; right; left; exact ⟨rfl, h0, h2⟩
    | anon h1 h2 h3 h4 h5 =>
      cases h1; rename_i hm; simp at hm; obtain ⟨rfl, rfl, rfl, rfl, rfl⟩ := hm
      right; right; right; exact ⟨h2, _, h3, h4, h5⟩
  · have hf : HasField (.structT [.field pos names typ d c]) (.field pos names typ d c) := .struct (by simp)
    rintro (⟨h, rfl⟩ | ⟨rfl, h0, h, rfl⟩ | ⟨rfl, h0, h⟩ | ⟨hn, lit, h1, h2, h3⟩)
    · exact .named hf h
    · exact .embedded h0 hf h
    · exact .embeddedLit h0 hf h
    · exact .anon hf hn h1 h2 h3

theorem typeField_nil (env isI pos typ doc comment) (st : VState) :
    typeField env isI (.field pos [] typ doc comment) st =
      if isI = true then typeBody env isI typ st
      else (getIdentOfTypeExpr typ).foldl (fun st n =>
        st.register env (st.scope ++ [⟨n.name, .term⟩]) (.field doc comment) n n.pos) st := by
  rw [typeField]

theorem typeField_cons (env isI pos n0 ns typ doc comment) (st : VState) :
    typeField env isI (.field pos (n0 :: ns) typ doc comment) st =
      (n0 :: ns).foldl (fun st n => typeAnon env isI typ
        (st.register env (st.scope ++ [⟨n.name, .term⟩]) (.field doc comment) n n.pos)) st := by
  rw [typeField]
  simp

theorem typeField_acts_aux (env : PkgEnv) (isI : Bool) (pos : Nat) (names : List Ident) (typ : Node)
    (doc comment : Str) (scope : List Descriptor)
    (hq : ∀ i, (i ∈ names ∨ names = [] ∧ EmbeddedName typ i) → Q i (.field doc comment))
    (hb : ActsAs env Q (typeBody env isI typ) scope
      (fun i p q => q = i.pos ∧ Member env.anonKey isI typ scope i p))
    (ha : ActsAs env Q (typeAnon env isI typ) scope (AnonDecl env.anonKey isI typ scope)) :
    ActsAs env Q (typeField env isI (.field pos names typ doc comment)) scope (fun i p q => q = i.pos ∧
      (∃ a b c d e, Node.field pos names typ doc comment = .field a b c d e) ∧
      Member env.anonKey isI (.structT [.field pos names typ doc comment]) scope i p) := by
    cases names with
    | nil =>
      by_cases hI : isI = true
      · refine (hb.congr ?_).congr_fun (by intro st _; rw [typeField_nil, if_pos hI])
        intro i p q
        rw [member_field_iff]
        simp [hI]
      · have hI' : isI = false := by simpa using hI
        have := ActsAs.foldl (env := env) (scope := scope)
          (fun st (n : Ident) => st.register env (st.scope ++ [⟨n.name, .term⟩]) (.field doc comment) n n.pos)
          (fun n i p q => i = n ∧ p = scope ++ [⟨n.name, .term⟩] ∧ q = n.pos) (getIdentOfTypeExpr typ)
          (fun a ha => (ActsAs.register env scope _ _ _ _ (hq a (.inr ⟨rfl, (getIdentOfTypeExpr_iff _ _).1 ha⟩))).congr_fun (by intro st hst; rw [← hst]))
        refine (this.congr ?_).congr_fun (by intro st _; rw [typeField_nil, if_neg hI])
        intro i p q
        rw [member_field_iff]
        simp only [getIdentOfTypeExpr_iff, hI']
        constructor
        · rintro ⟨a, ha, rfl, rfl, rfl⟩; simp [ha]
        · rintro ⟨rfl, -, h⟩; simp at h; exact ⟨i, h.1, rfl, h.2, rfl⟩
    | cons n0 ns =>
      refine ActsAs.congr_fun (f := fun st => (n0 :: ns).foldl (fun st n => typeAnon env isI typ
        (st.register env (st.scope ++ [⟨n.name, .term⟩]) (.field doc comment) n n.pos)) st) ?_
        (by intro st _; rw [typeField_cons])
      generalize typeAnon env isI typ = g at ha ⊢
      have hstep : ∀ a ∈ n0 :: ns, ActsAs env Q (fun st => g
          (st.register env (st.scope ++ [⟨a.name, .term⟩]) (.field doc comment) a a.pos)) scope
          (fun i p q => (i = a ∧ p = scope ++ [⟨a.name, .term⟩] ∧ q = a.pos) ∨
            AnonDecl env.anonKey isI typ scope i p q) := by
        intro a ha'
        have hr := (ActsAs.register env scope (scope ++ [⟨a.name, .term⟩]) (.field doc comment) a a.pos (hq a (.inl ha'))).congr_fun
            (g := fun st => st.register env (st.scope ++ [⟨a.name, .term⟩]) (.field doc comment) a a.pos)
            (by intro st hst; rw [← hst])
        exact ActsAs.comp hr ha
      refine (ActsAs.foldl _ _ (n0 :: ns) hstep).congr ?_
      intro i p q
      rw [member_field_iff]
      constructor
      · rintro ⟨a, ha, ⟨rfl, rfl, rfl⟩ | ⟨rfl, h⟩⟩
        · exact ⟨rfl, ⟨_, _, _, _, _, rfl⟩, .inl ⟨ha, rfl⟩⟩
        · exact ⟨rfl, ⟨_, _, _, _, _, rfl⟩, .inr (.inr (.inr ⟨by simp, h⟩))⟩
      · rintro ⟨rfl, -, ⟨h, rfl⟩ | ⟨h, _⟩ | ⟨h, _⟩ | ⟨-, h⟩⟩
        · exact ⟨i, h, .inl ⟨rfl, rfl, rfl⟩⟩
        · simp at h
        · simp at h
        · exact ⟨n0, by simp, .inr ⟨rfl, h⟩⟩

mutual

theorem typeBody_acts (env : PkgEnv) (isI : Bool) : ∀ (n : Node) (scope : List Descriptor), FieldsQ Q n →
    ActsAs env Q (typeBody env isI n) scope (fun i p q => q = i.pos ∧ Member env.anonKey isI n scope i p)
  | .structT fs, scope, hq => (typeFields_acts env isI fs scope (fun _ hm => hq.child hm)).congr_fun (by intro st _; simp [typeBody])
  | .ifaceT ms, scope, hq =>
    ((typeFields_acts env isI ms scope (fun _ hm => hq.child hm)).congr (by intro i p q; rw [member_iface_iff])).congr_fun
      (by intro st _; simp [typeBody])
  | .ident _, scope, hq | .selector _ _, scope, hq | .star _, scope, hq | .paren _, scope, hq | .index _ _, scope, hq
  | .unary _, scope, hq | .arrayT _ _, scope, hq | .mapT _ _, scope, hq | .chanT _, scope, hq | .funcT _ _ _, scope, hq
  | .field _ _ _ _ _, scope, hq | .block _, scope, hq | .importSpec _ _ _, scope, hq | .typeSpec _ _ _ _, scope, hq
  | .valueSpec _ _ _ _ _ _, scope, hq | .genDecl _ _ _, scope, hq | .funcDecl _ _ _ _ _ _ _, scope, hq | .badDecl, scope, hq
  | .file _ _, scope, hq | .other _, scope, hq =>
    ((ActsAs.id env Q scope).congr (by
      intro i p q
      simp only [false_iff, not_and]
      intro _; exact member_other _ _ _ _ _ _ (by simp) (by simp))).congr_fun (by intro st _; simp [typeBody])

theorem typeField_acts (env : PkgEnv) (isI : Bool) : ∀ (n : Node) (scope : List Descriptor), FieldsQ Q n →
    ActsAs env Q (typeField env isI n) scope (fun i p q => q = i.pos ∧
      (∃ a b c d e, n = .field a b c d e) ∧ Member env.anonKey isI (.structT [n]) scope i p)
  | .field pos names typ doc comment, scope, hq =>
    typeField_acts_aux env isI pos names typ doc comment scope (fun i hi => hq _ _ _ _ _ (.refl _) i hi)
      (typeBody_acts env isI typ scope (hq.child (by simp [children]))) (typeAnon_acts env isI typ scope (hq.child (by simp [children])))
  | .structT _, scope, hq | .ifaceT _, scope, hq
  | .ident _, scope, hq | .selector _ _, scope, hq | .star _, scope, hq | .paren _, scope, hq | .index _ _, scope, hq
  | .unary _, scope, hq | .arrayT _ _, scope, hq | .mapT _ _, scope, hq | .chanT _, scope, hq | .funcT _ _ _, scope, hq
  | .block _, scope, hq | .importSpec _ _ _, scope, hq | .typeSpec _ _ _ _, scope, hq
  | .valueSpec _ _ _ _ _ _, scope, hq | .genDecl _ _ _, scope, hq | .funcDecl _ _ _ _ _ _ _, scope, hq | .badDecl, scope, hq
  | .file _ _, scope, hq | .other _, scope, hq =>
    ((ActsAs.id env Q scope).congr (by intro i p q; simp)).congr_fun (by intro st _; simp [typeField])

theorem typeAnon_acts (env : PkgEnv) (isI : Bool) : ∀ (n : Node) (scope : List Descriptor), FieldsQ Q n →
    ActsAs env Q (typeAnon env isI n) scope (AnonDecl env.anonKey isI n scope)
  | .mapT k v, scope, hq =>
    ((ActsAs.comp (typeAnon_acts env isI k scope (hq.child (by simp [children]))) (typeAnon_acts env isI v scope (hq.child (by simp [children])))).congr (by
      intro i p q
      simp only [AnonDecl]
      constructor
      · rintro (⟨rfl, l, h, r⟩ | ⟨rfl, l, h, r⟩)
        · exact ⟨rfl, l, .mapKey h, r⟩
        · exact ⟨rfl, l, .mapValue h, r⟩
      · rintro ⟨rfl, l, h, r⟩
        cases h with
        | mapKey h => exact .inl ⟨rfl, l, h, r⟩
        | mapValue h => exact .inr ⟨rfl, l, h, r⟩)).congr_fun (by intro st _; simp [typeAnon])
  | .arrayT _ e, scope, hq =>
    ((typeAnon_acts env isI e scope (hq.child (by simp [children]))).congr (by
      intro i p q
      simp only [AnonDecl]
      constructor
      · rintro ⟨rfl, l, h, r⟩; exact ⟨rfl, l, .array h, r⟩
      · rintro ⟨rfl, l, h, r⟩; cases h; exact ⟨rfl, l, by assumption, r⟩)).congr_fun
      (by intro st _; simp [typeAnon])
  | .star e, scope, hq =>
    ((typeAnon_acts env isI e scope (hq.child (by simp [children]))).congr (by
      intro i p q
      simp only [AnonDecl]
      constructor
      · rintro ⟨rfl, l, h, r⟩; exact ⟨rfl, l, .star h, r⟩
      · rintro ⟨rfl, l, h, r⟩; cases h; exact ⟨rfl, l, by assumption, r⟩)).congr_fun
      (by intro st _; simp [typeAnon])
  | .structT fs, scope, hq => by
    by_cases hk : env.anonKey (.structT fs) = []
    · refine ((ActsAs.id env Q scope).congr ?_).congr_fun (by intro st _; simp [typeAnon, hk])
      intro i p q
      simp only [AnonDecl, false_iff]
      rintro ⟨-, l, h, r, -⟩; cases h; exact r hk
    · refine ((ActsAs.scoped (typeFields_acts env isI fs _ (fun _ hm => hq.child hm))).congr ?_).congr_fun
        (by intro st _; simp only [typeAnon, if_neg hk]; rfl)
      intro i p q
      simp only [AnonDecl]
      constructor
      · rintro ⟨rfl, h⟩; exact ⟨rfl, _, .struct fs, hk, h⟩
      · rintro ⟨rfl, l, h, -, r⟩; cases h; exact ⟨rfl, r⟩
  | .ifaceT fs, scope, hq => by
    by_cases hk : env.anonKey (.ifaceT fs) = []
    · refine ((ActsAs.id env Q scope).congr ?_).congr_fun (by intro st _; simp [typeAnon, hk])
      intro i p q
      simp only [AnonDecl, false_iff]
      rintro ⟨-, l, h, r, -⟩; cases h; exact r hk
    · refine ((ActsAs.scoped (typeFields_acts env isI fs _ (fun _ hm => hq.child hm))).congr ?_).congr_fun
        (by intro st _; simp only [typeAnon, if_neg hk]; rfl)
      intro i p q
      simp only [AnonDecl]
      constructor
      · rintro ⟨rfl, h⟩; exact ⟨rfl, _, .iface fs, hk, (member_iface_iff ..).2 h⟩
      · rintro ⟨rfl, l, h, -, r⟩; cases h; exact ⟨rfl, (member_iface_iff ..).1 r⟩
  | .field _ _ _ _ _, scope, hq
  | .ident _, scope, hq | .selector _ _, scope, hq | .paren _, scope, hq | .index _ _, scope, hq
  | .unary _, scope, hq | .chanT _, scope, hq | .funcT _ _ _, scope, hq
  | .block _, scope, hq | .importSpec _ _ _, scope, hq | .typeSpec _ _ _ _, scope, hq
  | .valueSpec _ _ _ _ _ _, scope, hq | .genDecl _ _ _, scope, hq | .funcDecl _ _ _ _ _ _ _, scope, hq | .badDecl, scope, hq
  | .file _ _, scope, hq | .other _, scope, hq =>
    ((ActsAs.id env Q scope).congr (by
      intro i p q; simp only [AnonDecl, false_iff]; rintro ⟨-, l, h, -⟩; cases h)).congr_fun
      (by intro st _; simp [typeAnon])

theorem typeFields_acts (env : PkgEnv) (isI : Bool) : ∀ (ns : List Node) (scope : List Descriptor), (∀ n ∈ ns, FieldsQ Q n) →
    ActsAs env Q (typeFields env isI ns) scope (fun i p q => q = i.pos ∧
      Member env.anonKey isI (.structT ns) scope i p)
  | [], scope, hq =>
    ((ActsAs.id env Q scope).congr (by
      intro i p q; rw [member_struct_iff]; simp)).congr_fun (by intro st _; simp [typeFields])
  | n :: ns, scope, hq =>
    ((ActsAs.comp (typeField_acts env isI n scope (hq n List.mem_cons_self)) (typeFields_acts env isI ns scope (fun m hm => hq m (List.mem_cons_of_mem _ hm)))).congr (by
      intro i p q
      rw [member_struct_iff _ _ (n :: ns), member_struct_iff _ _ ns]
      simp only [List.mem_cons, exists_eq_or_imp]
      constructor
      · rintro (⟨rfl, h⟩ | ⟨rfl, h⟩)
        · exact ⟨rfl, .inl h⟩
        · exact ⟨rfl, .inr h⟩
      · rintro ⟨rfl, h | h⟩
        · exact .inl ⟨rfl, h⟩
        · exact .inr ⟨rfl, h⟩)).congr_fun (by intro st _; simp [typeFields])

end

/-- What a spec declares relative to a scope. -/
def SpecDeclares (key : Node → Str) (scope : List Descriptor) (spec : Node) (i : Ident) (p : List Descriptor)
    (q : Nat) : Prop :=
  q = i.pos ∧ ∃ n tps typ d, spec = .typeSpec n tps typ d ∧
    ((i = n ∧ p = scope ++ [⟨n.name, .typ⟩]) ∨
      Member key (isIfaceBody typ) typ (scope ++ [⟨n.name, .typ⟩]) i p)

theorem typeSpec_acts (env : PkgEnv) (cur : Parent) (isI : Bool) (spec : Node) (scope : List Descriptor)
    (hI : ∀ n tps typ d, spec = .typeSpec n tps typ d → isI = isIfaceBody typ)
    (hn : ∀ n tps typ d, spec = .typeSpec n tps typ d → Q n cur) (hf : FieldsQ Q spec) :
    ActsAs env Q (typeSpec env cur isI spec) scope (SpecDeclares env.anonKey scope spec) := by
  cases spec with
  | typeSpec name tps typ d =>
    have hI := hI _ _ _ _ rfl
    have hb := typeBody_acts env isI typ (scope ++ [⟨name.name, .typ⟩]) (hf.child (by simp [children]))
    have hr := ActsAs.register env (scope ++ [⟨name.name, .typ⟩]) (scope ++ [⟨name.name, .typ⟩]) cur name name.pos
      (hn _ _ _ _ rfl)
    refine ((ActsAs.scoped (ActsAs.comp hr hb)).congr ?_).congr_fun ?_
    · intro i p q
      simp only [SpecDeclares, ← hI]
      constructor
      · rintro (⟨rfl, rfl, rfl⟩ | ⟨rfl, h⟩)
        · exact ⟨rfl, _, _, _, _, rfl, .inl ⟨rfl, rfl⟩⟩
        · exact ⟨rfl, _, _, _, _, rfl, .inr (hI ▸ h)⟩
      · rintro ⟨rfl, n, tps', typ', d', h, h'⟩
        cases h
        rcases h' with ⟨rfl, rfl⟩ | h'
        · exact .inl ⟨rfl, rfl, rfl⟩
        · exact .inr ⟨rfl, hI ▸ h'⟩
    · intro st hst
      simp only [typeSpec, VState.push_scope, hst]
  | _ =>
    exact ((ActsAs.id env Q scope).congr (by intro i p q; simp [SpecDeclares])).congr_fun
      (by intro st _; simp [typeSpec])

theorem typeSpecs_acts (env : PkgEnv) (cur : Parent) (isI : Bool) (specs : List Node) (scope : List Descriptor)
    (hn : ∀ n tps typ d, .typeSpec n tps typ d ∈ specs → Q n cur) (hf : ∀ s ∈ specs, FieldsQ Q s) :
    ActsAs env Q (typeSpecs env cur isI specs) scope
      (fun i p q => ∃ s ∈ specs, SpecDeclares env.anonKey scope s i p q) := by
  induction specs generalizing isI with
  | nil => exact ((ActsAs.id env Q scope).congr (by simp)).congr_fun (by intro st _; rfl)
  | cons s ss ih =>
    let isI' := match s with
      | .typeSpec _ _ (.ifaceT _) _ => true
      | .typeSpec _ _ _ _ => false
      | _ => isI
    have h1 : ActsAs env Q (typeSpec env cur isI' s) scope (SpecDeclares env.anonKey scope s) := by
      apply typeSpec_acts
      · intro n tps typ d h
        subst h
        cases typ <;> rfl
      · exact fun n tps typ d h => hn n tps typ d (by simp [h])
      · exact hf s (by simp)
    have h2 := ih isI' (fun n tps typ d h => hn n tps typ d (by simp [h])) (fun s h => hf s (by simp [h]))
    refine ((ActsAs.comp h1 h2).congr ?_).congr_fun (by intro st _; rfl)
    intro i p q; simp

theorem typeDecls_acts (env : PkgEnv) (decls : List Node) (scope : List Descriptor)
    (hn : ∀ tok specs doc, .genDecl tok specs doc ∈ decls → ∀ n tps typ d, .typeSpec n tps typ d ∈ specs → Q n (.genDecl specs doc))
    (hf : ∀ d ∈ decls, FieldsQ Q d) :
    ActsAs env Q (typeDecls env decls) scope
      (fun i p q => ∃ tok specs doc, .genDecl tok specs doc ∈ decls ∧
        ∃ s ∈ specs, SpecDeclares env.anonKey scope s i p q) := by
  induction decls with
  | nil => exact ((ActsAs.id env Q scope).congr (by simp)).congr_fun (by intro st _; rfl)
  | cons d ds ih =>
    have ih := ih (fun tok specs doc h => hn tok specs doc (by simp [h])) (fun d h => hf d (by simp [h]))
    cases d with
    | genDecl tok specs doc =>
      refine ((ActsAs.comp (typeSpecs_acts env (.genDecl specs doc) false specs scope (hn tok specs doc (by simp))
        (fun s hs => (hf _ List.mem_cons_self).child hs)) ih).congr ?_).congr_fun
        (by intro st _; rfl)
      intro i p q
      constructor
      · rintro (h | ⟨t, sp, dc, hm, h⟩)
        · exact ⟨tok, specs, doc, by simp, h⟩
        · exact ⟨t, sp, dc, by simp [hm], h⟩
      · rintro ⟨t, sp, dc, hm, h⟩
        simp only [List.mem_cons, Node.genDecl.injEq] at hm
        rcases hm with ⟨rfl, rfl, rfl⟩ | hm
        · exact .inl h
        · exact .inr ⟨t, sp, dc, hm, h⟩
    | _ => exact (ih.congr (by intro i p q; simp)).congr_fun (by intro st _; rfl)

/-- The type visitor on a file registers exactly what the file's type declarations declare. -/
theorem typeDecls_declares (env : PkgEnv) (decls : List Node)
    (hn : ∀ tok specs doc, .genDecl tok specs doc ∈ decls → ∀ n tps typ d, .typeSpec n tps typ d ∈ specs → Q n (.genDecl specs doc))
    (hf : ∀ d ∈ decls, FieldsQ Q d) :
    ActsAs env Q (typeDecls env decls) (newScope env.pkgPath)
      (fun i p q => q = i.pos ∧ FileTypeDeclares env.anonKey env.pkgPath decls i p) := by
  refine (typeDecls_acts env decls _ hn hf).congr ?_
  intro i p q
  constructor
  · rintro ⟨t, sp, dc, hm, s, hs, rfl, n, tps, typ, d, rfl, h⟩
    refine ⟨rfl, t, sp, dc, _, hm, hs, ?_⟩
    rcases h with ⟨rfl, rfl⟩ | h
    · exact .name _ _ _ _
    · exact .member h
  · rintro ⟨rfl, t, sp, dc, s, hm, hs, h⟩
    refine ⟨t, sp, dc, hm, s, hs, rfl, ?_⟩
    cases h with
    | name n tps typ d => exact ⟨_, _, _, _, rfl, .inl ⟨rfl, rfl⟩⟩
    | member h => exact ⟨_, _, _, _, rfl, .inr h⟩

end Verif
