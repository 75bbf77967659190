import Verif.Lemmas.FuncVisitor
/-! # The variable visitor as a list of registrations -/
namespace Verif
open Spec

variable {Q : Ident → Parent → Prop}

/-- Like `ActsAs`, for a given `curDecl` to start with; `f` may also change it, and leave the scopes `l` open. -/
def ActsFrom (env : PkgEnv) (Q : Ident → Parent → Prop) (f : VState → VState) (scope l : List Descriptor) (cur : Option Parent)
    (R : Ident → List Descriptor → Nat → Prop) : Prop :=
  ∃ (rs : List (Nat × SymInfo)) (cur' : Option Parent),
    (∀ (t : Table) (w : List Conflict), f ⟨scope, t, cur, w⟩ = ⟨scope ++ l, t.setAll rs, cur', w ++ t.conflicts rs⟩) ∧
    (∀ e ∈ rs, ∃ i p pos, R i p pos ∧ regOf env Q i p pos e) ∧
    (∀ i p pos, R i p pos → ∃ e ∈ rs, regOf env Q i p pos e)

/-- `ActsFrom` for every `curDecl`. -/
def ActsV (env : PkgEnv) (Q : Ident → Parent → Prop) (f : VState → VState) (scope l : List Descriptor)
    (R : Ident → List Descriptor → Nat → Prop) : Prop := ∀ cur, ActsFrom env Q f scope l cur R

theorem ActsV.id (env Q scope) : ActsV env Q (fun st => st) scope [] (fun _ _ _ => False) :=
  fun cur => ⟨[], cur, by simp, by simp, by simp⟩

theorem ActsFrom.comp' {env f g scope l l' cur R S} (hf : ActsFrom env Q f scope l cur R)
    (hg : ∀ cur', (∀ t w, (f ⟨scope, t, cur, w⟩).curDecl = cur') → ActsFrom env Q g (scope ++ l) l' cur' S) :
    ActsFrom env Q (fun st => g (f st)) scope (l ++ l') cur (fun i p pos => R i p pos ∨ S i p pos) := by
  obtain ⟨rs, cur1, h1, h2, h3⟩ := hf
  obtain ⟨ss, cur2, k1, k2, k3⟩ := hg cur1 (fun t w => by rw [h1])
  refine ⟨rs ++ ss, cur2, ?_, ?_, ?_⟩
  · intro t w
    dsimp only
    rw [h1, k1, Table.setAll_append, Table.conflicts_append, List.append_assoc, List.append_assoc]
  · intro e he
    rcases List.mem_append.mp he with h | h
    · obtain ⟨i, p, q, hr, ho⟩ := h2 e h; exact ⟨i, p, q, .inl hr, ho⟩
    · obtain ⟨i, p, q, hr, ho⟩ := k2 e h; exact ⟨i, p, q, .inr hr, ho⟩
  · rintro i p q (h | h)
    · obtain ⟨e, he, ho⟩ := h3 i p q h; exact ⟨e, by simp [he], ho⟩
    · obtain ⟨e, he, ho⟩ := k3 i p q h; exact ⟨e, by simp [he], ho⟩

theorem ActsFrom.comp {env f g scope l l' cur R S} (hf : ActsFrom env Q f scope l cur R) (hg : ActsV env Q g (scope ++ l) l' S) :
    ActsFrom env Q (fun st => g (f st)) scope (l ++ l') cur (fun i p pos => R i p pos ∨ S i p pos) :=
  hf.comp' (fun cur' _ => hg cur')

theorem ActsV.comp {env f g scope l l' R S} (hf : ActsV env Q f scope l R) (hg : ActsV env Q g (scope ++ l) l' S) :
    ActsV env Q (fun st => g (f st)) scope (l ++ l') (fun i p pos => R i p pos ∨ S i p pos) := fun cur => (hf cur).comp hg

theorem ActsFrom.comp0 {env f g scope cur R S} (hf : ActsFrom env Q f scope [] cur R) (hg : ActsV env Q g scope [] S) :
    ActsFrom env Q (fun st => g (f st)) scope [] cur (fun i p pos => R i p pos ∨ S i p pos) :=
  hf.comp (by simpa using hg)

theorem ActsV.comp0 {env f g scope R S} (hf : ActsV env Q f scope [] R) (hg : ActsV env Q g scope [] S) :
    ActsV env Q (fun st => g (f st)) scope [] (fun i p pos => R i p pos ∨ S i p pos) := fun cur => (hf cur).comp0 hg

theorem ActsFrom.congr {env f scope l cur R S} (hf : ActsFrom env Q f scope l cur R)
    (h : ∀ i p pos, R i p pos ↔ S i p pos) : ActsFrom env Q f scope l cur S := by
  have : R = S := by funext i p q; exact propext (h i p q)
  exact this ▸ hf

theorem ActsFrom.congr_fun {env f g scope l cur R} (hf : ActsFrom env Q f scope l cur R)
    (h : ∀ st : VState, st.scope = scope → g st = f st) : ActsFrom env Q g scope l cur R := by
  obtain ⟨rs, cur', h1, h2, h3⟩ := hf
  exact ⟨rs, cur', fun t w => by rw [h _ rfl, h1], h2, h3⟩

theorem ActsV.congr {env f scope l R S} (hf : ActsV env Q f scope l R)
    (h : ∀ i p pos, R i p pos ↔ S i p pos) : ActsV env Q f scope l S := by
  have : R = S := by funext i p q; exact propext (h i p q)
  exact this ▸ hf

theorem ActsV.congr_fun {env f g scope l R} (hf : ActsV env Q f scope l R)
    (h : ∀ st : VState, st.scope = scope → g st = f st) : ActsV env Q g scope l R := by
  intro cur
  obtain ⟨rs, cur', h1, h2, h3⟩ := hf cur
  exact ⟨rs, cur', fun t w => by rw [h _ rfl, h1], h2, h3⟩

theorem ActsAs.toV {env f scope R} (hf : ActsAs env Q f scope R) : ActsV env Q f scope [] R := by
  intro cur
  obtain ⟨rs, h1, h2, h3⟩ := hf
  exact ⟨rs, cur, fun t w => by rw [h1 _ rfl, List.append_nil]; rfl, h2, h3⟩

/-- Pushing, working, popping: what is closed is the innermost open scope. -/
theorem ActsV.scoped {env f scope l n s R} (hf : ActsV env Q f (scope ++ [⟨n, s⟩]) l R) :
    ActsV env Q (fun st => (f (st.push n s)).pop) scope (⟨n, s⟩ :: l).dropLast R := by
  intro cur
  obtain ⟨rs, cur', h1, h2, h3⟩ := hf cur
  refine ⟨rs, cur', ?_, h2, h3⟩
  intro t w
  simp only [VState.push]
  rw [h1]
  simp only [VState.pop, VState.mk.injEq, and_true]
  rw [List.append_assoc, List.dropLast_append_of_ne_nil (by simp)]
  rfl

theorem ActsV.foldl {α} {env : PkgEnv} {scope} (f : VState → α → VState) (R : α → Ident → List Descriptor → Nat → Prop)
    (l : List α) (h : ∀ a ∈ l, ActsV env Q (fun st => f st a) scope [] (R a)) :
    ActsV env Q (fun st => l.foldl f st) scope [] (fun i p q => ∃ a ∈ l, R a i p q) := by
  induction l with
  | nil => exact (ActsV.id env Q scope).congr (by simp)
  | cons a l ih =>
    have h1 := h a (by simp)
    have h2 := ih (fun b hb => h b (by simp [hb]))
    exact (ActsV.comp0 h1 h2).congr (by intro i p q; simp)

theorem leftOpenList_append (sname) (a b : List Node) : leftOpenList sname (a ++ b) = leftOpenList sname a ++ leftOpenList sname b := by
  induction a with
  | nil => rfl
  | cons n a ih => simp [leftOpenList, ih]

theorem leftOpen_plain (sname) (n : Node) (h : isPlain n = true) : leftOpen sname n = leftOpenList sname (children n) := by
  cases n <;> simp_all [isPlain, leftOpen, children, leftOpenList, leftOpenList_append]

theorem list_split_cons (sname) (R : List Descriptor → Node → Ident → List Descriptor → Nat → Prop) (scope : List Descriptor) (n : Node) (ns : List Node)
    (i p q) : (R scope n i p q ∨ ∃ pre m post, ns = pre ++ m :: post ∧ R (scope ++ leftOpen sname n ++ leftOpenList sname pre) m i p q) ↔
      ∃ pre m post, n :: ns = pre ++ m :: post ∧ R (scope ++ leftOpenList sname pre) m i p q := by
  constructor
  · rintro (h | ⟨pre, m, post, rfl, h⟩)
    · exact ⟨[], n, ns, rfl, by simpa [leftOpenList] using h⟩
    · exact ⟨n :: pre, m, post, rfl, by simpa [leftOpenList] using h⟩
  · rintro ⟨pre, m, post, e, h⟩
    cases pre with
    | nil =>
      simp only [List.nil_append, List.cons.injEq] at e
      obtain ⟨rfl, rfl⟩ := e
      exact .inl (by simpa [leftOpenList] using h)
    | cons a pre =>
      simp only [List.cons_append, List.cons.injEq] at e
      obtain ⟨rfl, rfl⟩ := e
      exact .inr ⟨pre, m, post, rfl, by simpa [leftOpenList] using h⟩

/-- A list of nodes, one after the other. -/
theorem varWalkList_acts (env : PkgEnv) (sname) (scope : List Descriptor) (R : List Descriptor → Node → Ident → List Descriptor → Nat → Prop)
    (ns : List Node) (h : ∀ n ∈ ns, ∀ scope, ActsV env Q (varWalk env n) scope (leftOpen sname n) (R scope n)) :
    ActsV env Q (varWalkList env ns) scope (leftOpenList sname ns)
      (fun i p q => ∃ pre n post, ns = pre ++ n :: post ∧ R (scope ++ leftOpenList sname pre) n i p q) := by
  induction ns generalizing scope with
  | nil => exact ((ActsV.id env Q scope).congr (by simp)).congr_fun (by intro st _; simp [varWalkList])
  | cons n ns ih =>
    refine ((ActsV.comp (h n (by simp) scope) (ih (scope ++ leftOpen sname n) (fun m hm => h m (by simp [hm])))).congr
      ?_).congr_fun (by intro st _; simp [varWalkList])
    intro i p q
    exact list_split_cons sname R scope n ns i p q

theorem varWalkList_append (env : PkgEnv) (a b : List Node) (st : VState) :
    varWalkList env (a ++ b) st = varWalkList env b (varWalkList env a st) := by
  induction a generalizing st with
  | nil => simp [varWalkList]
  | cons n a ih => simp [varWalkList, ih]

theorem varWalkList_acts0 (env : PkgEnv) (scope : List Descriptor) (R : Node → Ident → List Descriptor → Nat → Prop)
    (ns : List Node) (h : ∀ n ∈ ns, ActsV env Q (varWalk env n) scope [] (R n)) :
    ActsV env Q (varWalkList env ns) scope [] (fun i p q => ∃ n ∈ ns, R n i p q) := by
  induction ns with
  | nil => exact ((ActsV.id env Q scope).congr (by simp)).congr_fun (by intro st _; simp [varWalkList])
  | cons n ns ih =>
    exact ((ActsV.comp0 (h n (by simp)) (ih (fun m hm => h m (by simp [hm])))).congr
      (by intro i p q; simp)).congr_fun (by intro st _; simp [varWalkList])

/-- Plain nodes are walked through their children. -/
theorem varWalk_plain (env : PkgEnv) (n : Node) (h : isPlain n = true) (st : VState) :
    varWalk env n st = varWalkList env (children n) st := by
  cases n <;> simp_all [isPlain, varWalk, children, varWalkList, varWalkList_append]

/-- Registrations made for the anonymous types reachable from a type expression. -/
def AnonV (env : PkgEnv) (sname : Nat → List Ident → Str) (scope : List Descriptor) (typ : Node) (i : Ident)
    (p : List Descriptor) (q : Nat) : Prop :=
  ∃ lit f, Reaches typ lit ∧ env.anonKey lit ≠ [] ∧
      HasField lit f ∧ VarDeclares env.anonKey sname (scope ++ [⟨env.anonKey lit, .typ⟩]) f i p q

theorem varAnon_none (env : PkgEnv) (sname) (scope : List Descriptor) (n : Node) (hn : ∀ l, ¬ Reaches n l)
    (hw : ∀ st, varAnon env n st = st) : ActsV env Q (varAnon env n) scope [] (AnonV env sname scope n) := by
  refine ((ActsV.id env Q scope).congr ?_).congr_fun (fun st _ => hw st)
  intro i p q
  simp only [false_iff]
  rintro ⟨l, f, hr, _⟩; exact hn l hr

theorem varAnon_lit (env : PkgEnv) (sname) (scope : List Descriptor) (n : Node) (fs : List Node)
    (hr : ∀ l, Reaches n l ↔ l = n) (hf : ∀ f, HasField n f ↔ f ∈ fs)
    (hw : ∀ st : VState, varAnon env n st =
      if env.anonKey n = [] then st else (varWalkList env fs (st.push (env.anonKey n) .typ)).pop)
    (h : ∀ lit f, Reaches n lit → HasField lit f →
      ActsV env Q (varWalk env f) (scope ++ [⟨env.anonKey lit, .typ⟩]) []
        (VarDeclares env.anonKey sname (scope ++ [⟨env.anonKey lit, .typ⟩]) f)) :
    ActsV env Q (varAnon env n) scope [] (AnonV env sname scope n) := by
  by_cases hk : env.anonKey n = []
  · refine ((ActsV.id env Q scope).congr ?_).congr_fun (fun st _ => by rw [hw, if_pos hk])
    intro i p q
    simp only [false_iff]
    rintro ⟨l, f, hl, hne, _⟩
    rw [hr] at hl; subst hl; exact hne hk
  · have h1 := varWalkList_acts0 env (scope ++ [⟨env.anonKey n, .typ⟩])
      (VarDeclares env.anonKey sname (scope ++ [⟨env.anonKey n, .typ⟩])) fs
      (fun f hm => h n f ((hr n).2 rfl) ((hf f).2 hm))
    refine ((ActsV.scoped h1).congr ?_).congr_fun (fun st _ => by rw [hw, if_neg hk])
    intro i p q
    constructor
    · rintro ⟨f, hm, hd⟩; exact ⟨n, f, (hr n).2 rfl, hk, (hf f).2 hm, hd⟩
    · rintro ⟨l, f, hl, _, hm, hd⟩
      rw [hr] at hl; subst hl
      exact ⟨f, (hf f).1 hm, hd⟩

theorem varAnon_acts (env : PkgEnv) (sname) (scope : List Descriptor) : ∀ (typ : Node)
    (_h : ∀ lit f, Reaches typ lit → HasField lit f →
      ActsV env Q (varWalk env f) (scope ++ [⟨env.anonKey lit, .typ⟩]) []
        (VarDeclares env.anonKey sname (scope ++ [⟨env.anonKey lit, .typ⟩]) f)),
    ActsV env Q (varAnon env typ) scope [] (AnonV env sname scope typ)
  | .mapT k v, h => by
    have h1 := varAnon_acts env sname scope k (fun l f hr hf => h l f (.mapKey hr) hf)
    have h2 := varAnon_acts env sname scope v (fun l f hr hf => h l f (.mapValue hr) hf)
    refine ((ActsV.comp0 h1 h2).congr ?_).congr_fun (by intro st _; simp [varAnon])
    intro i p q
    constructor
    · rintro (⟨l, f, hr, r⟩ | ⟨l, f, hr, r⟩)
      · exact ⟨l, f, .mapKey hr, r⟩
      · exact ⟨l, f, .mapValue hr, r⟩
    · rintro ⟨l, f, hr, r⟩
      cases hr with
      | mapKey hr => exact .inl ⟨l, f, hr, r⟩
      | mapValue hr => exact .inr ⟨l, f, hr, r⟩
  | .arrayT n e, h => by
    have h1 := varAnon_acts env sname scope e (fun l f hr hf => h l f (.array hr) hf)
    refine (h1.congr ?_).congr_fun (by intro st _; simp [varAnon])
    intro i p q
    constructor
    · rintro ⟨l, f, hr, r⟩; exact ⟨l, f, .array hr, r⟩
    · rintro ⟨l, f, hr, r⟩; cases hr with | array hr => exact ⟨l, f, hr, r⟩
  | .star e, h => by
    have h1 := varAnon_acts env sname scope e (fun l f hr hf => h l f (.star hr) hf)
    refine (h1.congr ?_).congr_fun (by intro st _; simp [varAnon])
    intro i p q
    constructor
    · rintro ⟨l, f, hr, r⟩; exact ⟨l, f, .star hr, r⟩
    · rintro ⟨l, f, hr, r⟩; cases hr with | star hr => exact ⟨l, f, hr, r⟩
  | .structT fs, h => varAnon_lit env sname scope _ fs
      (by intro l; constructor
          · intro h; cases h; rfl
          · rintro rfl; exact .struct fs)
      (by intro f; constructor
          · intro h; cases h; assumption
          · exact .struct) (by intro st; simp [varAnon]) h
  | .ifaceT fs, h => varAnon_lit env sname scope _ fs
      (by intro l; constructor
          · intro h; cases h; rfl
          · rintro rfl; exact .iface fs)
      (by intro f; constructor
          · intro h; cases h; assumption
          · exact .iface) (by intro st; simp [varAnon]) h
  | .field _ _ _ _ _, _
  | .ident _, _ | .selector _ _, _ | .paren _, _ | .index _ _, _
  | .unary _, _ | .chanT _, _ | .funcT _ _ _, _
  | .block _, _ | .importSpec _ _ _, _ | .typeSpec _ _ _ _, _
  | .valueSpec _ _ _ _ _ _, _ | .genDecl _ _ _, _ | .funcDecl _ _ _ _ _ _ _, _ | .badDecl, _
  | .file _ _, _ | .other _, _ =>
    varAnon_none env sname scope _ (by intro l h; cases h) (by intro st; simp [varAnon])

/-- Fields of reachable anonymous types are smaller. -/
theorem sizeOf_reaches {t l f : Node} (hr : Reaches t l) (hf : HasField l f) : sizeOf f < sizeOf t := by
  induction hr with
  | struct fs => exact sizeOf_children (n := .structT fs) (by cases hf; assumption)
  | iface ms => exact sizeOf_children (n := .ifaceT ms) (by cases hf; assumption)
  | @mapKey k v l _ ih =>
    have := ih hf; have := sizeOf_children (n := .mapT k v) (c := k) (by simp [children]); omega
  | @mapValue k v l _ ih =>
    have := ih hf; have := sizeOf_children (n := .mapT k v) (c := v) (by simp [children]); omega
  | @array n e l _ ih =>
    have := ih hf; have := sizeOf_children (n := .arrayT n e) (c := e) (by simp [children]); omega
  | @star x l _ ih =>
    have := ih hf; have := sizeOf_children (n := .star x) (c := x) (by simp [children]); omega

theorem _root_.Verif.Spec.HandledTypes.child {n c : Node} (h : HandledTypes n) (hc : c ∈ children n) : HandledTypes c := by
  cases h with | mk h _ => exact h c hc

theorem _root_.Verif.Spec.HandledTypes.reaches {t l f : Node} (h : HandledTypes t) (hr : Reaches t l) (hf : HasField l f) :
    HandledTypes f := by
  induction hr with
  | struct fs => cases hf with | struct hm => exact h.child hm
  | iface ms => cases hf with | iface hm => exact h.child hm
  | mapKey _ ih => exact ih (h.child (by simp [children])) hf
  | mapValue _ ih => exact ih (h.child (by simp [children])) hf
  | array _ ih => exact ih (h.child (by simp [children])) hf
  | star _ ih => exact ih (h.child (by simp [children])) hf

theorem _root_.Verif.Spec.Parsed.child {n c : Node} (h : Parsed n) (hc : c ∈ children n) : Parsed c := by
  cases h with | mk h _ _ => exact h c hc

theorem _root_.Verif.Spec.Parsed.reaches {t l f : Node} (h : Parsed t) (hr : Reaches t l) (hf : HasField l f) :
    Parsed f ∧ ∃ pos names typ d c, f = .field pos names typ d c := by
  induction hr with
  | struct fs => cases h with | mk h1 h2 _ => exact ⟨by cases hf with | struct hm => exact h1 _ hm, h2 f hf⟩
  | iface ms => cases h with | mk h1 h2 _ => exact ⟨by cases hf with | iface hm => exact h1 _ hm, h2 f hf⟩
  | mapKey _ ih => exact ih (h.child (by simp [children])) hf
  | mapValue _ ih => exact ih (h.child (by simp [children])) hf
  | array _ ih => exact ih (h.child (by simp [children])) hf
  | star _ ih => exact ih (h.child (by simp [children])) hf

theorem varWalk_field_nil (env pos typ doc comment) (st : VState) :
    varWalk env (.field pos [] typ doc comment) st =
      (getIdentOfTypeExpr typ).foldl (fun st n =>
        st.register env (st.scope ++ [⟨n.name, .term⟩]) (.field doc comment) n pos) st := by
  rw [varWalk]

theorem varWalk_field_cons (env pos n0 ns typ doc comment) (st : VState) :
    varWalk env (.field pos (n0 :: ns) typ doc comment) st =
      (n0 :: ns).foldl (fun st n => varAnon env typ
        (st.register env (st.scope ++ [⟨n.name, .term⟩]) (.field doc comment) n n.pos)) st := by
  rw [varWalk]
  simp

theorem varField_acts (env : PkgEnv) (sname) (scope : List Descriptor) (pos : Nat) (names : List Ident) (typ : Node)
    (doc comment : Str) (hq : ∀ i, (i ∈ names ∨ names = [] ∧ EmbeddedName typ i) → Q i (.field doc comment))
    (ha : ActsV env Q (varAnon env typ) scope [] (AnonV env sname scope typ)) :
    ActsV env Q (varWalk env (.field pos names typ doc comment)) scope []
      (VarDeclares env.anonKey sname scope (.field pos names typ doc comment)) := by
  cases names with
  | nil =>
    have hstep : ∀ n ∈ getIdentOfTypeExpr typ,
        ActsV env Q (fun st => st.register env (st.scope ++ [⟨n.name, .term⟩]) (.field doc comment) n pos)
        scope [] (fun i p q => i = n ∧ p = scope ++ [⟨n.name, .term⟩] ∧ q = pos) := by
      intro n hn
      exact ((ActsAs.register env scope (scope ++ [⟨n.name, .term⟩]) (.field doc comment) n pos
        (hq n (.inr ⟨rfl, (getIdentOfTypeExpr_iff _ _).1 hn⟩))).congr_fun
        (by intro st hst; rw [← hst])).toV
    refine ((ActsV.foldl _ _ _ hstep).congr ?_).congr_fun (by intro st _; rw [varWalk_field_nil])
    intro i p q
    constructor
    · rintro ⟨n, hn, rfl, rfl, rfl⟩
      exact .embedded ((getIdentOfTypeExpr_iff _ _).1 hn)
    · intro h
      cases h with
      | named h => simp at h
      | embedded h => exact ⟨i, (getIdentOfTypeExpr_iff _ _).2 h, rfl, rfl, rfl⟩
      | anon h => exact absurd rfl h
      | descend h => simp [isPlain] at h
  | cons n0 ns =>
    refine ActsV.congr_fun (f := fun st => (n0 :: ns).foldl (fun st n => varAnon env typ
        (st.register env (st.scope ++ [⟨n.name, .term⟩]) (.field doc comment) n n.pos)) st) ?_
        (by intro st _; rw [varWalk_field_cons])
    generalize varAnon env typ = g at ha ⊢
    have hstep : ∀ a ∈ n0 :: ns, ActsV env Q (fun st => g
          (st.register env (st.scope ++ [⟨a.name, .term⟩]) (.field doc comment) a a.pos)) scope []
          (fun i p q => (i = a ∧ p = scope ++ [⟨a.name, .term⟩] ∧ q = a.pos) ∨
            AnonV env sname scope typ i p q) := by
        intro a ha'
        have hr := ((ActsAs.register env scope (scope ++ [⟨a.name, .term⟩]) (.field doc comment) a a.pos (hq a (.inl ha'))).congr_fun
            (g := fun st => st.register env (st.scope ++ [⟨a.name, .term⟩]) (.field doc comment) a a.pos)
            (by intro st hst; rw [← hst])).toV
        exact ActsV.comp0 hr ha
    refine (ActsV.foldl _ _ (n0 :: ns) hstep).congr ?_
    intro i p q
    constructor
    · rintro ⟨a, ha, ⟨rfl, rfl, rfl⟩ | ⟨lit, f, hr, hk, hf, hd⟩⟩
      · exact .named ha
      · exact .anon (by simp) hr hk hf hd
    · intro h
      cases h with
      | named h => exact ⟨i, h, .inl ⟨rfl, rfl, rfl⟩⟩
      | anon h hr hk hf hd => exact ⟨n0, by simp, .inr ⟨_, _, hr, hk, hf, hd⟩⟩
      | descend h => simp [isPlain] at h

theorem curDecl_names_acts (env : PkgEnv) (scope : List Descriptor) (cur : Option Parent) (names : List Ident)
    (hq : ∀ i ∈ names, Q i (cur.getD noParent)) :
    ActsFrom env Q (fun st => names.foldl (fun st n =>
          st.register env (st.scope ++ [⟨n.name, .term⟩]) (st.curDecl.getD noParent) n n.pos) st) scope [] cur
      (fun i p q => i ∈ names ∧ q = i.pos ∧ p = scope ++ [⟨i.name, .term⟩]) := by
  induction names with
  | nil => exact ((ActsV.id env Q scope).congr (by simp)) cur
  | cons n ns ih =>
    obtain ⟨rs, cur', h1, h2, h3⟩ := ih (fun i hi => hq i (by simp [hi]))
    refine ⟨(n.pos, newSymInfo env (env.fromDescriptors (scope ++ [⟨n.name, .term⟩])) (cur.getD noParent) n) :: rs, cur', ?_, ?_, ?_⟩
    · intro t w
      dsimp only
      rw [List.foldl_cons, Table.setAll_cons, Table.conflicts_cons, ← List.append_assoc]
      exact h1 _ _
    · intro e he
      rcases List.mem_cons.1 he with rfl | he
      · exact ⟨n, _, n.pos, ⟨by simp, rfl, rfl⟩, rfl, _, hq n (by simp), rfl⟩
      · obtain ⟨i, p, q, ⟨hi, hr⟩, ho⟩ := h2 e he
        exact ⟨i, p, q, ⟨by simp [hi], hr⟩, ho⟩
    · rintro i p q ⟨hi, rfl, rfl⟩
      rcases List.mem_cons.1 hi with rfl | hi
      · exact ⟨_, List.mem_cons_self, rfl, _, hq i (by simp), rfl⟩
      · obtain ⟨e, he, ho⟩ := h3 i _ _ ⟨hi, rfl, rfl⟩
        exact ⟨e, List.mem_cons_of_mem _ he, ho⟩

theorem varTypeClass_cases (typ : List Node) :
    varTypeClass typ = .unhandled ∧ handledSpec typ = false ∨
    varTypeClass typ = .skip ∧ handledSpec typ = true ∧ (∀ t, t ∈ typ → ¬ ∀ t' ∈ typ.head?, OpenVarType t') ∨
    varTypeClass typ = .walk ∧ handledSpec typ = true ∧ (∀ t' ∈ typ.head?, OpenVarType t') := by
  cases typ with
  | nil => right; left; simp [varTypeClass, handledSpec]
  | cons t ts =>
    have no : (¬ OpenVarType t) → ∀ t', t' ∈ t :: ts → ¬ ∀ t'' ∈ (t :: ts).head?, OpenVarType t'' := fun h t' _ hall => h (hall t (by simp))
    cases t with
    | structT fs => exact .inr (.inr ⟨rfl, rfl, by simpa using OpenVarType.struct fs⟩)
    | ifaceT fs => exact .inr (.inr ⟨rfl, rfl, by simpa using OpenVarType.iface fs⟩)
    | ident _ => exact .inr (.inl ⟨rfl, rfl, no (by rintro ⟨⟩)⟩)
    | selector _ _ => exact .inr (.inl ⟨rfl, rfl, no (by rintro ⟨⟩)⟩)
    | star _ => exact .inr (.inl ⟨rfl, rfl, no (by rintro ⟨⟩)⟩)
    | index _ _ => exact .inr (.inl ⟨rfl, rfl, no (by rintro ⟨⟩)⟩)
    | arrayT _ _ => exact .inr (.inl ⟨rfl, rfl, no (by rintro ⟨⟩)⟩)
    | mapT _ _ => exact .inr (.inl ⟨rfl, rfl, no (by rintro ⟨⟩)⟩)
    | chanT _ => exact .inr (.inl ⟨rfl, rfl, no (by rintro ⟨⟩)⟩)
    | funcT _ _ _ => exact .inr (.inl ⟨rfl, rfl, no (by rintro ⟨⟩)⟩)
    | _ => exact .inl ⟨rfl, rfl⟩

/-- Whatever declaration a variable or constant of the tree is attributed to, `Q` holds. -/
def NamesQ (Q : Ident → Parent → Prop) (n : Node) : Prop := ∀ pos names typ vs d c, Below n (.valueSpec pos names typ vs d c) →
  ∀ i ∈ names, ∀ par, Q i par

theorem NamesQ.child {n c : Node} (h : NamesQ Q n) (hc : c ∈ children n) : NamesQ Q c :=
  fun pos names typ vs d c' hb => h pos names typ vs d c' (.child hc hb)

theorem _root_.Verif.Spec.Below.trans {a b c : Node} (h : Below a b) (k : Below b c) : Below a c := by
  induction h with
  | refl => exact k
  | child hc _ ih => exact .child hc (ih k)

theorem _root_.Verif.Spec.Reaches.belowField {t l f : Node} (hr : Reaches t l) (hf : HasField l f) : Below t f := by
  induction hr with
  | struct fs => cases hf with | struct hm => exact .child hm (.refl _)
  | iface ms => cases hf with | iface hm => exact .child hm (.refl _)
  | mapKey _ ih => exact .child (by simp [children]) (ih hf)
  | mapValue _ ih => exact .child (by simp [children]) (ih hf)
  | array _ ih => exact .child (by simp [children]) (ih hf)
  | star _ ih => exact .child (by simp [children]) (ih hf)

theorem FieldsQ.below {n m : Node} (h : FieldsQ Q n) (hb : Below n m) : FieldsQ Q m :=
  fun pos names typ d c hb' => h pos names typ d c (hb.trans hb')
theorem NamesQ.below {n m : Node} (h : NamesQ Q n) (hb : Below n m) : NamesQ Q m :=
  fun pos names typ vs d c hb' => h pos names typ vs d c (hb.trans hb')

theorem leftOpen_type (sname) {pos names typ vs d c} (hh : Parsed (.valueSpec pos names typ vs d c)) (ho : ∀ t' ∈ typ.head?, OpenVarType t') :
    leftOpenList sname typ = [] ∧ ∀ pre t post, typ = pre ++ t :: post → pre = [] := by
  cases hh with
  | mk h1 _ h3 =>
    have hl := h3 _ _ _ _ _ _ rfl
    match typ, hl with
    | [], _ => simp [leftOpenList]
    | [t], _ =>
      have fields : ∀ fs : List Node, (∀ f ∈ fs, ∃ pos names typ d c, f = .field pos names typ d c) → leftOpenList sname fs = [] := by
        intro fs
        induction fs with
        | nil => simp [leftOpenList]
        | cons f fs ih =>
          intro h
          obtain ⟨_, _, _, _, _, rfl⟩ := h f (by simp)
          simp [leftOpenList, leftOpen, ih (fun g hg => h g (by simp [hg]))]
      have ht := h1 t (by simp [children])
      constructor
      · cases ho t (by simp) with
        | struct fs => cases ht with | mk _ h _ => simpa [leftOpenList, leftOpen] using fields fs (fun f hf => h f (.struct hf))
        | iface fs => cases ht with | mk _ h _ => simpa [leftOpenList, leftOpen] using fields fs (fun f hf => h f (.iface hf))
      · intro pre t' post e
        cases pre with
        | nil => rfl
        | cons a pre => simp at e
    | _ :: _ :: _, hl => simp at hl

theorem varSpec_acts (env : PkgEnv) (scope : List Descriptor) (cur : Option Parent) (pos : Nat) (names : List Ident)
    (typ vs : List Node) (d c : Str) (hq : ∀ i ∈ names, Q i (cur.getD noParent))
    (hh : Parsed (.valueSpec pos names typ vs d c))
    (ih : ∀ n ∈ typ ++ vs, ∀ scope, ActsV env Q (varWalk env n) scope (leftOpen (varScopeName env) n)
      (VarDeclares env.anonKey (varScopeName env) scope n)) :
    ActsFrom env Q (varWalk env (.valueSpec pos names typ vs d c)) scope (leftOpen (varScopeName env) (.valueSpec pos names typ vs d c)) cur
      (VarDeclares env.anonKey (varScopeName env) scope (.valueSpec pos names typ vs d c)) := by
  have hnames := curDecl_names_acts env scope cur names hq
  by_cases hn : names = []
  · rw [leftOpen, if_pos hn]
    refine (hnames.congr ?_).congr_fun (by intro st _; simp [varWalk, hn])
    intro i p q
    constructor
    · rintro ⟨h, rfl, rfl⟩; exact .name h
    · intro h
      cases h with
      | name h => exact ⟨h, rfl, rfl⟩
      | inType h => exact absurd hn h
      | inValue h => exact absurd hn h
      | descend h => simp [isPlain] at h
  · have hv := varWalkList_acts env (varScopeName env) (scope ++ [⟨varScopeName env pos names, .metadesc⟩])
      (VarDeclares env.anonKey (varScopeName env)) vs (fun n hm => ih n (by simp [hm]))
    have htw := varWalkList_acts env (varScopeName env) (scope ++ [⟨varScopeName env pos names, .metadesc⟩])
      (VarDeclares env.anonKey (varScopeName env)) typ (fun n hm => ih n (by simp [hm]))
    rw [leftOpen, if_neg hn]
    rcases varTypeClass_cases typ with ⟨hc, hu⟩ | ⟨hc, hu, hno⟩ | ⟨hc, hu, hyes⟩
    · obtain ⟨rs, cur', h1, h2, h3⟩ := hnames
      refine ⟨rs, cur', ?_, ?_, ?_⟩
      · intro t w
        have := h1 t w
        simp only [varWalk, if_neg hn, hc, hu]
        simp only [List.append_nil] at this
        rw [this]
        simp [VState.push]
      · intro e he
        obtain ⟨i, p, q, ⟨h, rfl, rfl⟩, ho⟩ := h2 e he
        exact ⟨i, _, _, .name h, ho⟩
      · intro i p q h
        cases h with
        | name h => exact h3 _ _ _ ⟨h, rfl, rfl⟩
        | inType _ hm h _ =>
          exfalso
          cases typ with
          | nil => simp at hm
          | cons t ts =>
            have := h t (by simp)
            cases this <;> simp [handledSpec, isHandledType] at hu
        | inValue _ h => rw [hu] at h; simp at h
        | descend h => simp [isPlain] at h
    · rw [if_pos hu]
      refine ((ActsFrom.comp hnames (g := fun st => (varWalkList env vs (st.push (varScopeName env pos names) .metadesc)).pop)
        (by rw [List.append_nil]; exact ActsV.scoped hv)).congr ?_).congr_fun (by
        intro st _; simp [varWalk, hn, hc])
      intro i p q
      constructor
      · rintro (⟨h, rfl, rfl⟩ | ⟨pre, n, post, rfl, h⟩)
        · exact .name h
        · exact .inValue hn hu rfl (by simpa using h)
      · intro h
        cases h with
        | name h => exact .inl ⟨h, rfl, rfl⟩
        | inType _ hm h _ => exact absurd h (hno _ hm)
        | inValue _ _ e h => exact .inr ⟨_, _, _, e, by simpa using h⟩
        | descend h => simp [isPlain] at h
    · rw [if_pos hu]
      obtain ⟨hl, hpre⟩ := leftOpen_type (varScopeName env) hh hyes
      have hboth := ActsV.comp htw (by rw [hl, List.append_nil]; exact hv)
      rw [hl, List.nil_append] at hboth
      refine ((ActsFrom.comp hnames (g := fun st => (varWalkList env vs (varWalkList env typ (st.push (varScopeName env pos names) .metadesc))).pop)
        (by rw [List.append_nil]; exact ActsV.scoped hboth)).congr ?_).congr_fun (by
        intro st _; simp [varWalk, hn, hc])
      intro i p q
      constructor
      · rintro (⟨h, rfl, rfl⟩ | ⟨pre, n, post, e, h⟩ | ⟨pre, n, post, rfl, h⟩)
        · exact .name h
        · cases hpre pre n post e
          exact .inType hn (t := n) (by rw [e]; simp) hyes (by simpa [leftOpenList] using h)
        · exact .inValue hn hu rfl (by simpa using h)
      · intro h
        cases h with
        | name h => exact .inl ⟨h, rfl, rfl⟩
        | inType _ hm h' h =>
          obtain ⟨pre, post, e⟩ := List.append_of_mem hm
          cases hpre pre _ post e
          exact .inr (.inl ⟨_, _, _, e, by simpa [leftOpenList] using h⟩)
        | inValue _ _ e h => exact .inr (.inr ⟨_, _, _, e, by simpa using h⟩)
        | descend h => simp [isPlain] at h

/-- **The variable visitor registers exactly what the specification says.** -/
theorem varWalk_acts (env : PkgEnv) (n : Node) (scope : List Descriptor) (hh : Parsed n)
    (hf : FieldsQ Q n) (hv : NamesQ Q n) :
    ActsV env Q (varWalk env n) scope (leftOpen (varScopeName env) n) (VarDeclares env.anonKey (varScopeName env) scope n) := by
  by_cases hp : isPlain n = true
  · have h1 := varWalkList_acts env (varScopeName env) scope (VarDeclares env.anonKey (varScopeName env)) (children n)
      (fun c hc scope => varWalk_acts env c scope (hh.child hc) (hf.child hc) (hv.child hc))
    rw [leftOpen_plain _ _ hp]
    refine (h1.congr ?_).congr_fun (fun st _ => varWalk_plain env n hp st)
    intro i p q
    constructor
    · rintro ⟨pre, c, post, hc, h⟩; exact .descend hp hc h
    · intro h
      cases h with
      | descend _ hc h => exact ⟨_, _, _, hc, h⟩
      | name _ => simp [isPlain] at hp
      | inType _ _ _ _ => simp [isPlain] at hp
      | inValue _ _ _ _ => simp [isPlain] at hp
      | decl _ _ _ => simp [isPlain] at hp
      | named _ => simp [isPlain] at hp
      | embedded _ => simp [isPlain] at hp
      | anon _ _ _ _ _ => simp [isPlain] at hp
  · match n, hp with
    | .valueSpec pos names typ vs d c, _ =>
      exact fun cur => varSpec_acts env scope cur pos names typ vs d c (fun i hi => hv _ _ _ _ _ _ (.refl _) i hi _) hh
        (fun n hm scope => varWalk_acts env n scope (hh.child hm) (hf.child hm) (hv.child hm))
    | .field pos names typ d c, _ =>
      rw [leftOpen]
      exact varField_acts env (varScopeName env) scope pos names typ d c (fun i hi => hf _ _ _ _ _ (.refl _) i hi)
        (varAnon_acts env (varScopeName env) scope typ (fun lit f hr hm => by
          have hpf := (hh.child (c := typ) (by simp [children])).reaches hr hm
          have := varWalk_acts env f (scope ++ [⟨env.anonKey lit, .typ⟩]) hpf.1
            (hf.below (.child (c := typ) (by simp [children]) (hr.belowField hm))) (hv.below (.child (c := typ) (by simp [children]) (hr.belowField hm)))
          have hz : leftOpen (varScopeName env) f = [] := by obtain ⟨_, _, _, _, _, rfl⟩ := hpf.2; rfl
          rwa [hz] at this))
    | .genDecl tok specs doc, _ =>
      rw [leftOpen]
      by_cases ht : tok = .var ∨ tok = .const
      · have h1 := varWalkList_acts env (varScopeName env) scope (VarDeclares env.anonKey (varScopeName env)) specs
          (fun c hc scope => varWalk_acts env c scope (hh.child hc) (hf.child hc) (hv.child hc))
        rw [if_pos ht]
        intro cur
        obtain ⟨rs, cur', a, b, c⟩ := h1 (some (.genDecl specs doc))
        refine ⟨rs, cur', ?_, ?_, ?_⟩
        · intro t; simp only [varWalk, if_pos ht]; exact a t
        · intro e he
          obtain ⟨i, p, q, ⟨pre, s, post, rfl, h⟩, ho⟩ := b e he
          exact ⟨i, p, q, .decl ht rfl h, ho⟩
        · intro i p q h
          cases h with
          | decl _ e h => exact c i p q ⟨_, _, _, e, h⟩
          | descend h => simp [isPlain] at h
      · rw [if_neg ht]
        refine ((ActsV.id env Q scope).congr ?_).congr_fun (by intro st _; simp [varWalk, ht])
        intro i p q
        simp only [false_iff]
        intro h
        cases h with
        | decl h => exact ht h
        | descend h => simp [isPlain] at h
termination_by sizeOf n
decreasing_by
  · exact sizeOf_children hc
  · exact sizeOf_children (n := .valueSpec pos names typ vs d c) hm
  · have := sizeOf_reaches hr hm
    have := sizeOf_children (n := .field pos names typ d c) (c := typ) (by simp [children])
    omega
  · exact sizeOf_children (n := .genDecl tok specs doc) hc

/-! ## The declaration that is being visited -/

theorem foldl_curDecl {α} (f : VState → α → VState) (l : List α) (h : ∀ a ∈ l, ∀ st, (f st a).curDecl = st.curDecl) (st : VState) :
    (l.foldl f st).curDecl = st.curDecl := by
  induction l generalizing st with
  | nil => rfl
  | cons a l ih => rw [List.foldl_cons, ih (fun b hb => h b (by simp [hb])), h a (by simp)]

theorem varWalkList_curDecl (env : PkgEnv) (ns : List Node) (h : ∀ n ∈ ns, ∀ st, (varWalk env n st).curDecl = st.curDecl) (st : VState) :
    (varWalkList env ns st).curDecl = st.curDecl := by
  induction ns generalizing st with
  | nil => simp [varWalkList]
  | cons n ns ih => simp only [varWalkList]; rw [ih (fun m hm => h m (by simp [hm])), h n (by simp)]

theorem varAnon_curDecl (env : PkgEnv) : ∀ (typ : Node) (_ : ∀ lit f, Reaches typ lit → HasField lit f → ∀ st, (varWalk env f st).curDecl = st.curDecl)
    (st : VState), (varAnon env typ st).curDecl = st.curDecl
  | .mapT k v, h, st => by
    simp only [varAnon]
    rw [varAnon_curDecl env v (fun l f hr hf => h l f (.mapValue hr) hf), varAnon_curDecl env k (fun l f hr hf => h l f (.mapKey hr) hf)]
  | .arrayT n e, h, st => by
    simp only [varAnon]
    rw [varAnon_curDecl env e (fun l f hr hf => h l f (.array hr) hf)]
  | .star e, h, st => by
    simp only [varAnon]
    rw [varAnon_curDecl env e (fun l f hr hf => h l f (.star hr) hf)]
  | .structT fs, h, st => by
    simp only [varAnon]
    split
    · rfl
    · simp only [VState.pop]
      rw [varWalkList_curDecl env fs (fun n hn => h _ n (.struct fs) (.struct hn))]; rfl
  | .ifaceT fs, h, st => by
    simp only [varAnon]
    split
    · rfl
    · simp only [VState.pop]
      rw [varWalkList_curDecl env fs (fun n hn => h _ n (.iface fs) (.iface hn))]; rfl
  | .field _ _ _ _ _, _, _
  | .ident _, _, _ | .selector _ _, _, _ | .paren _, _, _ | .index _ _, _, _
  | .unary _, _, _ | .chanT _, _, _ | .funcT _ _ _, _, _
  | .block _, _, _ | .importSpec _ _ _, _, _ | .typeSpec _ _ _ _, _, _
  | .valueSpec _ _ _ _ _ _, _, _ | .genDecl _ _ _, _, _ | .funcDecl _ _ _ _ _ _ _, _, _ | .badDecl, _, _
  | .file _ _, _, _ | .other _, _, _ => by simp [varAnon]

theorem _root_.Verif.Spec.NoDecl.child {n c : Node} (h : NoDecl n) (hc : c ∈ children n) : NoDecl c := by
  cases h with | mk _ h => exact h c hc

theorem _root_.Verif.Spec.NoDecl.of_below {n m : Node} (h : NoDecl n) (hb : Below n m) : NoDecl m := by
  induction hb with
  | refl => exact h
  | child hc _ ih => exact ih (h.child hc)

/-- Where no variable or constant is declared, the visitor stays with its declaration. -/
theorem varWalk_curDecl (env : PkgEnv) (n : Node) (h : NoDecl n) (st : VState) : (varWalk env n st).curDecl = st.curDecl := by
  by_cases hp : isPlain n = true
  · rw [varWalk_plain env n hp, varWalkList_curDecl env _ (fun c hc st => varWalk_curDecl env c (h.child hc) st)]
  · match n, hp with
    | .valueSpec pos names typ vs d c, _ =>
      have hv := varWalkList_curDecl env vs (fun m hm st => varWalk_curDecl env m (h.child (by simp [children, hm])) st)
      have ht := varWalkList_curDecl env typ (fun m hm st => varWalk_curDecl env m (h.child (by simp [children, hm])) st)
      have hf := foldl_curDecl (fun (st : VState) (n : Ident) =>
        st.register env (st.scope ++ [⟨n.name, .term⟩]) (st.curDecl.getD noParent) n n.pos) names (fun _ _ _ => rfl) st
      simp only [varWalk]
      split
      · exact hf
      · split
        · exact hf
        · simp only [VState.pop]; rw [hv]; exact hf
        · simp only [VState.pop]; rw [hv, ht]; exact hf
    | .field pos names typ d c, _ =>
      cases names with
      | nil =>
        rw [varWalk_field_nil]
        refine foldl_curDecl _ _ (fun _ _ _ => ?_) st
        rfl
      | cons n0 ns =>
        rw [varWalk_field_cons]
        refine foldl_curDecl _ _ (fun a _ st => ?_) st
        rw [varAnon_curDecl env typ (fun lit f hr hm st =>
          varWalk_curDecl env f (h.of_below (.child (c := typ) (by simp [children]) (hr.belowField hm))) st)]
        rfl
    | .genDecl tok specs doc, _ =>
      cases h with
      | mk h _ =>
        have := h _ _ _ rfl
        simp [varWalk, this]
termination_by sizeOf n
decreasing_by
  · exact sizeOf_children hc
  · exact sizeOf_children (n := .valueSpec pos names typ vs d c) (by simp [children, hm])
  · exact sizeOf_children (n := .valueSpec pos names typ vs d c) (by simp [children, hm])
  · have := sizeOf_reaches hr hm
    have := sizeOf_children (n := .field pos names typ d c) (c := typ) (by simp [children])
    omega

/-- The names of the specs are attributed to `par`, as long as no other declaration has been visited. -/
def NamesFrom (Q : Ident → Parent → Prop) (par : Parent) : List Node → Prop
  | [] => True
  | s :: ss => (∀ i ∈ specNames s, Q i par) ∧ (∀ c ∈ children s, NamesQ Q c) ∧
    (NoDecl s → NamesFrom Q par ss) ∧ (¬ NoDecl s → ∀ s' ∈ ss, NamesQ Q s')

/-- The specs of a variable or constant declaration. -/
theorem varSpecs_acts (env : PkgEnv) (scope : List Descriptor) (par : Parent) (specs : List Node) (hh : ∀ s ∈ specs, Parsed s)
    (hf : ∀ s ∈ specs, FieldsQ Q s) (hn : NamesFrom Q par specs) :
    ActsFrom env Q (varWalkList env specs) scope (leftOpenList (varScopeName env) specs) (some par)
      (fun i p q => ∃ pre s post, specs = pre ++ s :: post ∧
        VarDeclares env.anonKey (varScopeName env) (scope ++ leftOpenList (varScopeName env) pre) s i p q) := by
  induction specs generalizing scope with
  | nil => exact (((ActsV.id env Q scope).congr (by simp)).congr_fun (by intro st _; simp [varWalkList])) (some par)
  | cons s ss ih =>
    obtain ⟨h1, h2, h3, h4⟩ := hn
    have hs : ActsFrom env Q (varWalk env s) scope (leftOpen (varScopeName env) s) (some par) (VarDeclares env.anonKey (varScopeName env) scope s) := by
      have hs' : ∀ m ∈ children s, ∀ scope, ActsV env Q (varWalk env m) scope (leftOpen (varScopeName env) m)
          (VarDeclares env.anonKey (varScopeName env) scope m) :=
        fun m hm scope => varWalk_acts env m scope ((hh s (by simp)).child hm) ((hf s (by simp)).child hm) (h2 m hm)
      by_cases hv : ∃ pos names typ vs d c, s = .valueSpec pos names typ vs d c
      · obtain ⟨pos, names, typ, vs, d, c, rfl⟩ := hv
        exact varSpec_acts env scope (some par) pos names typ vs d c h1 (hh _ (by simp)) hs'
      · refine varWalk_acts env s scope (hh s (by simp)) (hf s (by simp)) ?_ (some par)
        intro pos names typ vs d c hb
        cases hb with
        | refl => exact absurd ⟨_, _, _, _, _, _, rfl⟩ hv
        | child hc hb => exact h2 _ hc pos names typ vs d c hb
    refine ((hs.comp' (l' := leftOpenList (varScopeName env) ss)
      (S := fun i p q => ∃ pre m post, ss = pre ++ m :: post ∧ VarDeclares env.anonKey (varScopeName env)
        (scope ++ leftOpen (varScopeName env) s ++ leftOpenList (varScopeName env) pre) m i p q)
      (g := varWalkList env ss) ?_).congr (list_split_cons (varScopeName env) (VarDeclares env.anonKey (varScopeName env)) scope s ss)).congr_fun
        (by intro st _; simp [varWalkList])
    intro cur' hc
    by_cases hd : NoDecl s
    · have : cur' = some par := by rw [← hc [] [], varWalk_curDecl env s hd]
      subst this
      exact ih _ (fun s' hs' => hh s' (by simp [hs'])) (fun s' hs' => hf s' (by simp [hs'])) (h3 hd)
    · exact varWalkList_acts env (varScopeName env) _ (VarDeclares env.anonKey (varScopeName env)) ss (fun s' hs' scope =>
        varWalk_acts env s' scope (hh s' (by simp [hs'])) (hf s' (by simp [hs'])) (h4 hd s' hs')) cur'

/-! ## Where all declared types are known, nothing is left open -/

theorem handledSpec_of {t : Node} {ts : List Node} (h : OpaqueVarType t ∨ OpenVarType t) : handledSpec (t :: ts) = true := by
  rcases h with h | h <;> cases h <;> rfl

theorem _root_.Verif.Spec.HandledTypes.leftOpen_nil (sname) {n : Node} (h : HandledTypes n) : leftOpen sname n = [] := by
  induction n using nodeInduction with
  | h n ih =>
    have list : ∀ ns : List Node, (∀ c ∈ ns, c ∈ children n) → leftOpenList sname ns = [] := by
      intro ns
      induction ns with
      | nil => intro _; rfl
      | cons c ns ihl =>
        intro hc
        simp [leftOpenList, ih c (hc c (by simp)) (h.child (hc c (by simp))), ihl (fun d hd => hc d (by simp [hd]))]
    by_cases hp : isPlain n = true
    · rw [leftOpen_plain _ _ hp]; exact list _ (fun _ hc => hc)
    · match n, hp, h, list with
      | .field .., _, _, _ => rfl
      | .genDecl tok specs doc, _, _, list =>
        rw [leftOpen]
        split
        · exact list _ (fun _ hc => hc)
        · rfl
      | .valueSpec pos names typ vs d c, _, h, list =>
        rw [leftOpen, list vs (fun c hc => by simp [children, hc])]
        by_cases hn : names = []
        · rw [if_pos hn]
        · rw [if_neg hn]
          have : handledSpec typ = true := by
            cases typ with
            | nil => rfl
            | cons t ts =>
              cases h with
              | mk _ h2 => exact handledSpec_of (h2 _ _ _ _ _ _ _ rfl hn)
          rw [if_pos this]; rfl

theorem leftOpenList_nil (sname) {ns : List Node} (h : ∀ n ∈ ns, HandledTypes n) : leftOpenList sname ns = [] := by
  induction ns with
  | nil => rfl
  | cons n ns ih => rw [leftOpenList, (h n (by simp)).leftOpen_nil, ih (fun m hm => h m (by simp [hm]))]; rfl

end Verif
