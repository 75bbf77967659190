import Verif.Spec.SourceText
import Verif.Lemmas.Text
/-! # UTF-8 texts: the collecting visitors -/
namespace Verif
open Spec

theorem Spec.NodeText.own {n : Node} (h : NodeText n) : ∀ t ∈ ownTexts n, Text t := by cases h; assumption

theorem Spec.NodeText.child {n : Node} (h : NodeText n) : ∀ c ∈ children n, NodeText c := by cases h; assumption

structure InfoText (s : SymInfo) : Prop where
  symbol : Text s.symbol
  displayName : Text s.displayName
  documentation : ∀ d ∈ s.documentation, Text d
  signature : ∀ t, s.signature = some t → Text t

def TableText (t : Table) : Prop := ∀ e ∈ t, InfoText e.2

theorem tableText_put {t : Table} {q : Nat} {s : SymInfo} (h : TableText t) (hs : InfoText s) : TableText (t.put q s) := by
  intro e he
  unfold Table.put at he
  rcases List.mem_cons.1 he with rfl | he
  · exact hs
  · exact h e (List.mem_filter.1 he).1

theorem tableText_set {t : Table} {q : Nat} {s : SymInfo} (h : TableText t) (hs : InfoText s) : TableText (t.set q s) := by
  unfold Table.set
  split
  · split
    · exact h
    · exact tableText_put h hs
  · exact tableText_put h hs

theorem mem_of_lookup {α β : Type} [BEq α] [LawfulBEq α] {l : List (α × β)} {k : α} {v : β} (h : l.lookup k = some v) : (k, v) ∈ l := by
  induction l with
  | nil => simp at h
  | cons e l ih =>
    obtain ⟨a, b⟩ := e
    rw [List.lookup_cons] at h
    by_cases e : k == a
    · rw [e] at h
      simp only [Option.some.injEq] at h
      rw [eq_of_beq e, h]
      simp
    · rw [Bool.eq_false_iff.2 e] at h
      exact List.mem_cons_of_mem _ (ih h)

theorem tableText_get {t : Table} (h : TableText t) {q : Nat} {s : SymInfo} (hs : t.get q = some s) : InfoText s :=
  h (q, s) (mem_of_lookup hs)

theorem tableText_getSymbol {t : Table} (h : TableText t) {q : Nat} {s : Str} (hs : t.getSymbol q = some s) : Text s := by
  unfold Table.getSymbol at hs
  obtain ⟨i, h1, rfl⟩ := Option.map_eq_some_iff.1 hs
  exact (tableText_get h h1).symbol

def ParentText : Parent → Prop
  | .genDecl specs doc => Text doc ∧ ∀ s ∈ specs, NodeText s
  | .field doc comment => Text doc ∧ Text comment
  | .funcDecl doc => Text doc

theorem ownText_text {p : Parent} (h : ParentText p) : Text p.ownText := by
  cases p with
  | genDecl specs doc => exact text_trimSpace h.1
  | field doc comment => exact text_trimSpace (text_append h.1 (text_cons (by decide) h.2))
  | funcDecl doc => exact text_trimSpace h

theorem hoverInSpecs_text {doc : Str} (hd : Text doc) {i : Ident} {specs : List Node} (h : ∀ s ∈ specs, NodeText s) {t : Str}
    (ht : hoverInSpecs doc i specs = some t) : Text t := by
  induction specs with
  | nil => simp [hoverInSpecs] at ht
  | cons s ss ih =>
    have hss := fun x hx => h x (List.mem_cons_of_mem _ hx)
    have hs := (h s (by simp)).own
    cases s
    case typeSpec name tps typ sdoc =>
      rw [hoverInSpecs] at ht
      split at ht
      · simp only [Option.some.injEq] at ht
        rw [← ht]
        split
        · exact text_trimSpace hd
        · exact text_trimSpace (hs _ (by simp [ownTexts]))
      · exact ih hss ht
    case valueSpec pos names typ values sdoc comment =>
      rw [hoverInSpecs] at ht
      split at ht
      · simp only [Option.some.injEq] at ht
        rw [← ht]
        split
        · exact text_trimSpace hd
        · exact text_trimSpace (text_append (hs _ (by simp [ownTexts])) (text_cons (by decide) (hs _ (by simp [ownTexts]))))
      · exact ih hss ht
    all_goals exact ih hss (by simpa [hoverInSpecs] using ht)

theorem hover_text {p : Parent} (h : ParentText p) (i : Ident) : Text (extractHoverText p i) := by
  unfold extractHoverText
  cases p with
  | genDecl specs doc =>
    dsimp only
    cases e : hoverInSpecs doc i specs with
    | none => exact ownText_text (p := .genDecl specs doc) h
    | some t => exact hoverInSpecs_text h.1 h.2 e
  | field doc comment => exact ownText_text (p := .field doc comment) h
  | funcDecl doc => exact ownText_text (p := .funcDecl doc) h

theorem documentation_text {p : Parent} (h : ParentText p) (i : Ident) : ∀ d ∈ documentationOf p i, Text d := by
  have hb : ∀ d ∈ (if extractHoverText p i = [] then [] else [extractHoverText p i]), Text d := by
    split
    · simp
    · simp only [List.mem_singleton]; rintro d rfl; exact hover_text h i
  unfold documentationOf
  dsimp only
  generalize (if extractHoverText p i = [] then [] else [extractHoverText p i]) = l at hb ⊢
  cases p with
  | genDecl specs doc =>
    dsimp only
    split
    · intro d hd
      rcases List.mem_append.1 hd with hd | hd
      · exact hb d hd
      · simp only [List.mem_singleton] at hd
        rw [hd]
        exact text_trimSpace h.1
    · exact hb
  | field doc comment => exact hb
  | funcDecl doc => exact hb

structure EnvText (env : PkgEnv) : Prop where
  path : Text env.pkgPath
  modulePath : Text env.module.path
  moduleVersion : Text env.module.version
  signature : ∀ u o, env.defs u = some o → Text (env.signature o)
  anonKey : ∀ n, Text (env.anonKey n)

theorem newSymInfo_text {env : PkgEnv} (he : EnvText env) {ds : List Descriptor} (hd : ∀ d ∈ ds, Text d.name) {p : Parent} (hp : ParentText p)
    {i : Ident} (hi : Text i.name) : InfoText (newSymInfo env (env.fromDescriptors ds) p i) := by
  refine ⟨text_formatSymbol he.modulePath he.moduleVersion hd, hi, documentation_text hp i, ?_⟩
  intro t ht
  unfold newSymInfo at ht
  dsimp only at ht
  split at ht
  · simp at ht
  · rename_i o ho
    split at ht
    · simp at ht
    · simp only [Option.some.injEq] at ht
      rw [← ht]
      exact he.signature _ _ ho

structure VText (st : VState) : Prop where
  scope : ∀ d ∈ st.scope, Text d.name
  table : TableText st.table
  cur : ∀ p, st.curDecl = some p → ParentText p

theorem vtext_push {st : VState} (h : VText st) {n : Str} (hn : Text n) (s : Suffix) : VText (st.push n s) := by
  refine ⟨?_, h.table, h.cur⟩
  intro d hd
  simp only [VState.push, List.mem_append, List.mem_singleton] at hd
  rcases hd with hd | rfl
  · exact h.scope d hd
  · exact hn

theorem vtext_pop {st : VState} (h : VText st) : VText st.pop :=
  ⟨fun d hd => h.scope d ((List.dropLast_prefix _).subset hd), h.table, h.cur⟩

theorem vtext_register {env : PkgEnv} (he : EnvText env) {st : VState} (h : VText st) {ds : List Descriptor} (hd : ∀ d ∈ ds, Text d.name)
    {p : Parent} (hp : ParentText p) {i : Ident} (hi : Text i.name) (pos : Nat) : VText (st.register env ds p i pos) :=
  ⟨h.scope, tableText_set h.table (newSymInfo_text he hd hp hi), h.cur⟩

theorem scope_snoc {st : VState} (h : VText st) {n : Str} (hn : Text n) (s : Suffix) : ∀ d ∈ st.scope ++ [⟨n, s⟩], Text d.name := by
  intro d hd
  rcases List.mem_append.1 hd with hd | hd
  · exact h.scope d hd
  · simp only [List.mem_singleton] at hd
    rw [hd]
    exact hn

/-- Folding over a list. -/
theorem vtext_foldl {α : Type} {f : VState → α → VState} {l : List α} (h : ∀ x ∈ l, ∀ st, VText st → VText (f st x)) {st : VState} (hst : VText st) :
    VText (l.foldl f st) := by
  induction l generalizing st with
  | nil => exact hst
  | cons x l ih => exact ih (fun y hy => h y (by simp [hy])) (h x (by simp) st hst)

theorem identOfType_text {n : Node} (h : NodeText n) : ∀ i ∈ getIdentOfTypeExpr n, Text i.name := by
  induction n using nodeInduction with
  | _ n ih =>
    cases n
    case ident i => simp only [getIdentOfTypeExpr, List.mem_singleton]; rintro j rfl; exact h.own _ (by simp [ownTexts])
    case selector x sel => simp only [getIdentOfTypeExpr, List.mem_singleton]; rintro j rfl; exact h.own _ (by simp [ownTexts])
    case star x => exact ih x (by simp [children]) (h.child x (by simp [children]))
    case index x is => exact ih x (by simp [children]) (h.child x (by simp [children]))
    case unary x => exact ih x (by simp [children]) (h.child x (by simp [children]))
    all_goals simp [getIdentOfTypeExpr]

/-! ## Types -/

theorem typeFields_text {env : PkgEnv} {isI : Bool} {ns : List Node} (h : ∀ n ∈ ns, ∀ st, VText st → VText (typeField env isI n st)) :
    ∀ {st : VState}, VText st → VText (typeFields env isI ns st) := by
  induction ns with
  | nil => intro st hst; rw [typeFields]; exact hst
  | cons n ns ih =>
    intro st hst
    rw [typeFields]
    exact ih (fun x hx => h x (by simp [hx])) (h n (by simp) st hst)

theorem typeExpr_text {env : PkgEnv} (he : EnvText env) (isI : Bool) (n : Node) (hn : NodeText n) :
    (∀ st, VText st → VText (typeBody env isI n st)) ∧ (∀ st, VText st → VText (typeField env isI n st)) ∧
      ∀ st, VText st → VText (typeAnon env isI n st) := by
  induction n using nodeInduction with
  | _ n ih =>
    replace ih := fun c hc => ih c hc (hn.child c hc)
    cases n
    case structT fs =>
      refine ⟨fun st hst => ?_, fun st hst => by rw [typeField]; exact hst; simp, fun st hst => ?_⟩
      · rw [typeBody]; exact typeFields_text (fun c hc => (ih c hc).2.1) hst
      · rw [typeAnon]
        split
        · exact hst
        · exact vtext_pop (typeFields_text (fun c hc => (ih c hc).2.1) (vtext_push hst (he.anonKey _) _))
    case ifaceT fs =>
      refine ⟨fun st hst => ?_, fun st hst => by rw [typeField]; exact hst; simp, fun st hst => ?_⟩
      · rw [typeBody]; exact typeFields_text (fun c hc => (ih c hc).2.1) hst
      · rw [typeAnon]
        split
        · exact hst
        · exact vtext_pop (typeFields_text (fun c hc => (ih c hc).2.1) (vtext_push hst (he.anonKey _) _))
    case field pos names typ doc comment =>
      have hp : ParentText (.field doc comment) := ⟨hn.own _ (by simp [ownTexts]), hn.own _ (by simp [ownTexts])⟩
      have iht := ih typ (by simp [children])
      refine ⟨fun st hst => by rw [typeBody]; exact hst; all_goals simp, fun st hst => ?_, fun st hst => by rw [typeAnon]; exact hst; all_goals simp⟩
      cases names with
      | nil =>
        rw [typeField]
        split
        · exact iht.1 st hst
        · refine vtext_foldl (fun i hi st hst => ?_) hst
          have hin := identOfType_text (hn.child typ (by simp [children])) i hi
          exact vtext_register he hst (scope_snoc hst hin _) hp hin _
      | cons a as =>
        rw [typeField]
        · refine vtext_foldl (fun i hi st hst => ?_) hst
          have hin : Text i.name := hn.own _ (List.mem_cons_of_mem _ (List.mem_cons_of_mem _ (List.mem_map.2 ⟨i, hi, rfl⟩)))
          exact iht.2.2 _ (vtext_register he hst (scope_snoc hst hin _) hp hin _)
        · simp
    case mapT k v =>
      refine ⟨fun st hst => by rw [typeBody]; exact hst; all_goals simp, fun st hst => by rw [typeField]; exact hst; all_goals simp, fun st hst => ?_⟩
      rw [typeAnon]
      exact (ih v (by simp [children])).2.2 _ ((ih k (by simp [children])).2.2 _ hst)
    case arrayT l e =>
      refine ⟨fun st hst => by rw [typeBody]; exact hst; all_goals simp, fun st hst => by rw [typeField]; exact hst; all_goals simp, fun st hst => ?_⟩
      rw [typeAnon]
      exact (ih e (by simp [children])).2.2 _ hst
    case star x =>
      refine ⟨fun st hst => by rw [typeBody]; exact hst; all_goals simp, fun st hst => by rw [typeField]; exact hst; all_goals simp, fun st hst => ?_⟩
      rw [typeAnon]
      exact (ih x (by simp [children])).2.2 _ hst
    all_goals
      exact ⟨fun st hst => by rw [typeBody]; exact hst; all_goals simp, fun st hst => by rw [typeField]; exact hst; all_goals simp,
        fun st hst => by rw [typeAnon]; exact hst; all_goals simp⟩

theorem typeSpec_text {env : PkgEnv} (he : EnvText env) {cur : Parent} (hc : ParentText cur) (isI : Bool) {s : Node} (hs : NodeText s) {st : VState}
    (hst : VText st) : VText (typeSpec env cur isI s st) := by
  unfold typeSpec
  split
  · rename_i name tps typ doc
    have hn : Text name.name := hs.own _ (by simp [ownTexts])
    have h1 := vtext_push hst hn .typ
    exact vtext_pop ((typeExpr_text he isI typ (hs.child typ (by simp [children]))).1 _ (vtext_register he h1 h1.scope hc hn _))
  · exact hst

theorem typeSpecs_text {env : PkgEnv} (he : EnvText env) {cur : Parent} (hc : ParentText cur) (isI : Bool) {ss : List Node}
    (hs : ∀ s ∈ ss, NodeText s) {st : VState} (hst : VText st) : VText (typeSpecs env cur isI ss st) := by
  induction ss generalizing isI st with
  | nil => exact hst
  | cons s ss ih =>
    unfold typeSpecs
    exact ih _ (fun x hx => hs x (by simp [hx])) (typeSpec_text he hc _ (hs s (by simp)) hst)

theorem typeDecls_text {env : PkgEnv} (he : EnvText env) {ds : List Node} (hs : ∀ s ∈ ds, NodeText s) {st : VState} (hst : VText st) :
    VText (typeDecls env ds st) := by
  induction ds generalizing st with
  | nil => exact hst
  | cons d ds ih =>
    have hs' := fun x hx => hs x (List.mem_cons_of_mem _ hx)
    have hd := hs d (by simp)
    cases d
    case genDecl tok specs doc =>
      rw [typeDecls]
      have hc : ∀ s ∈ specs, NodeText s := hd.child
      exact ih hs' (typeSpecs_text he (cur := .genDecl specs doc) ⟨hd.own _ (by simp [ownTexts]), hc⟩ _ hc hst)
    all_goals exact ih hs' hst

/-! ## Functions -/

theorem baseTypeName_text {n : Node} (h : NodeText n) : ∀ t, baseTypeName n = some t → Text t := by
  induction n using nodeInduction with
  | _ n ih =>
    cases n
    case ident i => simp only [baseTypeName, Option.some.injEq]; rintro t rfl; exact h.own _ (by simp [ownTexts])
    case star x => exact ih x (by simp [children]) (h.child x (by simp [children]))
    case index x is => exact ih x (by simp [children]) (h.child x (by simp [children]))
    case paren x => exact ih x (by simp [children]) (h.child x (by simp [children]))
    all_goals simp [baseTypeName]

theorem receiver_text {ns : List Node} (h : ∀ n ∈ ns, NodeText n) : ∀ t, receiverTypeName ns = some t → Text t := by
  unfold receiverTypeName
  split
  · exact baseTypeName_text ((h _ List.mem_cons_self).child _ (by simp [children]))
  · simp

theorem funcWalkList_text {env : PkgEnv} {ns : List Node} (h : ∀ n ∈ ns, ∀ st, VText st → VText (funcWalk env n st)) :
    ∀ {st : VState}, VText st → VText (funcWalkList env ns st) := by
  induction ns with
  | nil => intro st hst; rw [funcWalkList]; exact hst
  | cons n ns ih =>
    intro st hst
    rw [funcWalkList]
    exact ih (fun x hx => h x (by simp [hx])) (h n (by simp) st hst)

theorem funcIface_text {env : PkgEnv} (he : EnvText env) {ms : List Node} (h : ∀ n ∈ ms, NodeText n) {st : VState} (hst : VText st) :
    VText (funcIface env ms st) := by
  unfold funcIface
  refine vtext_foldl (fun m hm st hst => ?_) hst
  split
  · rename_i pos names typ doc comment
    have hm := (h _ hm).own
    refine vtext_foldl (fun i hi st hst => ?_) hst
    have hin : Text i.name := hm _ (List.mem_cons_of_mem _ (List.mem_cons_of_mem _ (List.mem_map.2 ⟨i, hi, rfl⟩)))
    exact vtext_register he hst (scope_snoc hst hin _) (p := .field doc comment) ⟨hm _ (by simp [ownTexts]), hm _ (by simp [ownTexts])⟩ hin _
  · exact hst

theorem funcWalk_text {env : PkgEnv} (he : EnvText env) (n : Node) (hn : NodeText n) : ∀ st, VText st → VText (funcWalk env n st) := by
  induction n using nodeInduction with
  | _ n ih =>
    replace ih := fun c hc => ih c hc (hn.child c hc)
    intro st hst
    cases n
    case funcDecl recv name typ body pos endPos doc =>
      have hname : Text name.name := hn.own _ (by simp [ownTexts])
      rw [funcWalk]
      refine vtext_pop (ih typ (by simp [children]) _ (vtext_push (vtext_push ?_ (text_ascii' rfl) _) hname _))
      have h1 : VText (match receiverTypeName recv with | some r => st.push r .typ | none => st) := by
        split
        · rename_i r hr
          exact vtext_push hst (receiver_text (fun x hx => hn.child x (by simp [children, hx])) r hr) _
        · exact hst
      exact vtext_register he h1 (scope_snoc h1 hname _) (p := .funcDecl doc) (hn.own _ (by simp [ownTexts])) hname _
    case ifaceT ms => rw [funcWalk]; exact funcIface_text he hn.child hst
    case funcT a b c => rw [funcWalk]; exact funcWalkList_text (fun x hx => ih x (by simp [children, hx])) hst
    case block => rw [funcWalk]; exact hst
    case ident => rw [funcWalk]; exact hst
    case importSpec => rw [funcWalk]; exact hst
    case badDecl => rw [funcWalk]; exact hst
    case selector x s => rw [funcWalk]; exact ih _ (by simp [children]) _ hst
    case star x => rw [funcWalk]; exact ih _ (by simp [children]) _ hst
    case paren x => rw [funcWalk]; exact ih _ (by simp [children]) _ hst
    case unary x => rw [funcWalk]; exact ih _ (by simp [children]) _ hst
    case chanT x => rw [funcWalk]; exact ih _ (by simp [children]) _ hst
    case field => rw [funcWalk]; exact ih _ (by simp [children]) _ hst
    case index x is => rw [funcWalk]; exact funcWalkList_text (fun y hy => ih y (by simp [children, hy])) (ih x (by simp [children]) _ hst)
    case arrayT l e => rw [funcWalk]; exact ih e (by simp [children]) _ (funcWalkList_text (fun y hy => ih y (by simp [children, hy])) hst)
    case mapT k v => rw [funcWalk]; exact ih v (by simp [children]) _ (ih k (by simp [children]) _ hst)
    case structT fs => rw [funcWalk]; exact funcWalkList_text ih hst
    case typeSpec a b c d => rw [funcWalk]; exact ih c (by simp [children]) _ (funcWalkList_text (fun y hy => ih y (by simp [children, hy])) hst)
    case valueSpec a b c d e f =>
      rw [funcWalk]
      exact funcWalkList_text (fun y hy => ih y (by simp [children, hy])) (funcWalkList_text (fun y hy => ih y (by simp [children, hy])) hst)
    case genDecl a b c => rw [funcWalk]; exact funcWalkList_text ih hst
    case file a b => rw [funcWalk]; exact funcWalkList_text ih hst
    case other a => rw [funcWalk]; exact funcWalkList_text ih hst

/-! ## Variables and constants -/

theorem varWalkList_text {env : PkgEnv} {ns : List Node} (h : ∀ n ∈ ns, ∀ st, VText st → VText (varWalk env n st)) :
    ∀ {st : VState}, VText st → VText (varWalkList env ns st) := by
  induction ns with
  | nil => intro st hst; rw [varWalkList]; exact hst
  | cons n ns ih =>
    intro st hst
    rw [varWalkList]
    exact ih (fun x hx => h x (by simp [hx])) (h n (by simp) st hst)

theorem varScopeName_text {env : PkgEnv} {pos : Nat} {names : List Ident} (h : ∀ i ∈ names, Text i.name) : Text (varScopeName env pos names) := by
  unfold varScopeName
  split
  · exact h _ (by simp)
  · exact text_append (text_append (text_ascii' rfl) (text_natDigits _)) (text_cons (by decide) (text_natDigits _))

theorem varExpr_text {env : PkgEnv} (he : EnvText env) (n : Node) (hn : NodeText n) :
    (∀ st, VText st → VText (varWalk env n st)) ∧ ∀ st, VText st → VText (varAnon env n st) := by
  induction n using nodeInduction with
  | _ n ih =>
    replace ih := fun c hc => ih c hc (hn.child c hc)
    have ihw := fun c hc => (ih c hc).1
    cases n
    case genDecl tok specs doc =>
      refine ⟨fun st hst => ?_, fun st hst => by rw [varAnon]; exact hst; all_goals simp⟩
      rw [varWalk]
      split
      · refine varWalkList_text (fun x hx => ihw x hx) ⟨hst.scope, hst.table, ?_⟩
        simp only [Option.some.injEq]
        rintro p rfl
        exact ⟨hn.own _ (by simp [ownTexts]), hn.child⟩
      · exact hst
    case valueSpec pos names typ values doc comment =>
      refine ⟨fun st hst => ?_, fun st hst => by rw [varAnon]; exact hst; all_goals simp⟩
      have hin : ∀ i ∈ names, Text i.name := fun i hi =>
        hn.own _ (List.mem_cons_of_mem _ (List.mem_cons_of_mem _ (List.mem_map.2 ⟨i, hi, rfl⟩)))
      have hf : VText (names.foldl (fun st n =>
          st.register env (st.scope ++ [⟨n.name, .term⟩]) (st.curDecl.getD noParent) n n.pos) st) := by
        refine vtext_foldl (fun i hi st hst => ?_) hst
        refine vtext_register he hst (scope_snoc hst (hin i hi) _) ?_ (hin i hi) _
        cases e : st.curDecl with
        | none => exact text_nil
        | some p => exact hst.cur p e
      rw [varWalk]
      dsimp only
      split
      · exact hf
      · have hp := vtext_push hf (varScopeName_text (env := env) (pos := pos) hin) .metadesc
        have hv : ∀ x ∈ values, ∀ st, VText st → VText (varWalk env x st) := fun x hx => ihw x (by simp [children, hx])
        have ht : ∀ x ∈ typ, ∀ st, VText st → VText (varWalk env x st) := fun x hx => ihw x (by simp [children, hx])
        split
        · exact hp
        · exact vtext_pop (varWalkList_text hv hp)
        · exact vtext_pop (varWalkList_text hv (varWalkList_text ht hp))
    case field pos names typ doc comment =>
      have hp : ParentText (.field doc comment) := ⟨hn.own _ (by simp [ownTexts]), hn.own _ (by simp [ownTexts])⟩
      have iht := ih typ (by simp [children])
      refine ⟨fun st hst => ?_, fun st hst => by rw [varAnon]; exact hst; all_goals simp⟩
      cases names with
      | nil =>
        rw [varWalk]
        refine vtext_foldl (fun i hi st hst => ?_) hst
        have hin := identOfType_text (hn.child typ (by simp [children])) i hi
        exact vtext_register he hst (scope_snoc hst hin _) hp hin _
      | cons a as =>
        rw [varWalk]
        · refine vtext_foldl (fun i hi st hst => ?_) hst
          have hin : Text i.name := hn.own _ (List.mem_cons_of_mem _ (List.mem_cons_of_mem _ (List.mem_map.2 ⟨i, hi, rfl⟩)))
          exact iht.2 _ (vtext_register he hst (scope_snoc hst hin _) hp hin _)
        · simp
    case structT fs =>
      refine ⟨fun st hst => by rw [varWalk]; exact varWalkList_text ihw hst, fun st hst => ?_⟩
      rw [varAnon]
      split
      · exact hst
      · exact vtext_pop (varWalkList_text ihw (vtext_push hst (he.anonKey _) _))
    case ifaceT fs =>
      refine ⟨fun st hst => by rw [varWalk]; exact varWalkList_text ihw hst, fun st hst => ?_⟩
      rw [varAnon]
      split
      · exact hst
      · exact vtext_pop (varWalkList_text ihw (vtext_push hst (he.anonKey _) _))
    case mapT k v =>
      refine ⟨fun st hst => ?_, fun st hst => ?_⟩
      · rw [varWalk]; exact ihw v (by simp [children]) _ (ihw k (by simp [children]) _ hst)
      · rw [varAnon]; exact (ih v (by simp [children])).2 _ ((ih k (by simp [children])).2 _ hst)
    case arrayT l e =>
      refine ⟨fun st hst => ?_, fun st hst => ?_⟩
      · rw [varWalk]; exact ihw e (by simp [children]) _ (varWalkList_text (fun y hy => ihw y (by simp [children, hy])) hst)
      · rw [varAnon]; exact (ih e (by simp [children])).2 _ hst
    case star x =>
      refine ⟨fun st hst => ?_, fun st hst => ?_⟩
      · rw [varWalk]; exact ihw x (by simp [children]) _ hst
      · rw [varAnon]; exact (ih x (by simp [children])).2 _ hst
    all_goals
      refine ⟨fun st hst => ?_, fun st hst => by rw [varAnon]; exact hst; all_goals simp⟩
    case funcT a b c =>
      rw [varWalk]
      exact varWalkList_text (fun y hy => ihw y (by simp [children, hy])) (varWalkList_text (fun y hy => ihw y (by simp [children, hy]))
        (varWalkList_text (fun y hy => ihw y (by simp [children, hy])) hst))
    case block => rw [varWalk]; exact varWalkList_text ihw hst
    case ident => rw [varWalk]; exact hst
    case importSpec => rw [varWalk]; exact hst
    case badDecl => rw [varWalk]; exact hst
    case selector x s => rw [varWalk]; exact ihw _ (by simp [children]) _ hst
    case paren x => rw [varWalk]; exact ihw _ (by simp [children]) _ hst
    case unary x => rw [varWalk]; exact ihw _ (by simp [children]) _ hst
    case chanT x => rw [varWalk]; exact ihw _ (by simp [children]) _ hst
    case index x is => rw [varWalk]; exact varWalkList_text (fun y hy => ihw y (by simp [children, hy])) (ihw x (by simp [children]) _ hst)
    case typeSpec a b c d => rw [varWalk]; exact ihw c (by simp [children]) _ (varWalkList_text (fun y hy => ihw y (by simp [children, hy])) hst)
    case funcDecl recv name typ body a b c =>
      rw [varWalk]
      exact varWalkList_text (fun y hy => ihw y (by simp [children, hy])) (ihw typ (by simp [children]) _
        (varWalkList_text (fun y hy => ihw y (by simp [children, hy])) hst))
    case file a b => rw [varWalk]; exact varWalkList_text ihw hst
    case other a => rw [varWalk]; exact varWalkList_text ihw hst

/-! ## The collecting pass -/

theorem newScope_text {env : PkgEnv} (he : EnvText env) {t : Table} (ht : TableText t) : VText ⟨newScope env.pkgPath, t, none, []⟩ := by
  refine ⟨?_, ht, by simp⟩
  simp only [newScope, List.mem_singleton]
  rintro d rfl
  exact he.path

theorem visitDecl_text {env : PkgEnv} (he : EnvText env) {d : Node} (hd : NodeText d) {t t' : Table} (ht : TableText t)
    (h : visitDecl env d t = some t') : TableText t' := by
  unfold visitDecl at h
  split at h
  all_goals first
    | exact (Option.some.inj h) ▸ ht
    | exact (Option.some.inj h) ▸ ((varExpr_text he _ hd).1 _ (newScope_text he ht)).table
    | exact (Option.some.inj h) ▸ (funcWalk_text he _ hd _ (newScope_text he ht)).table
    | simp at h

theorem visitDecls_text {env : PkgEnv} (he : EnvText env) {ds : List Node} (hd : ∀ d ∈ ds, NodeText d) {t t' : Table} (ht : TableText t)
    (h : visitDecls env ds t = some t') : TableText t' := by
  induction ds generalizing t with
  | nil => exact (Option.some.inj h) ▸ ht
  | cons d ds ih =>
    rw [visitDecls] at h
    obtain ⟨u, h1, h2⟩ := Option.bind_eq_some_iff.1 h
    exact ih (fun x hx => hd x (by simp [hx])) (visitDecl_text he (hd d (by simp)) ht h1) h2

theorem visitPackageSyntax_text {env : PkgEnv} (he : EnvText env) {fs : List Node} (hf : ∀ f ∈ fs, NodeText f) {t t' : Table} (ht : TableText t)
    (h : visitPackageSyntax env fs t = some t') : TableText t' := by
  induction fs generalizing t with
  | nil => exact (Option.some.inj h) ▸ ht
  | cons f fs ih =>
    rw [visitPackageSyntax] at h
    obtain ⟨u, h1, h2⟩ := Option.bind_eq_some_iff.1 h
    refine ih (fun x hx => hf x (by simp [hx])) ?_ h2
    have hff := hf f (by simp)
    unfold visitSyntax at h1
    split at h1
    · have hc := hff.child
      exact visitDecls_text he hc (typeDecls_text he hc (newScope_text he ht)).table h1
    · exact (Option.some.inj h1) ▸ ht

end Verif
