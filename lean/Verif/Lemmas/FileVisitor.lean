import Verif.Spec.FileTraversal
import Verif.Lemmas.Memo
/-! # The file visitor acts event by event -/
namespace Verif
open Spec

/-- `visitDef` with a given enclosing range. -/
def visitDefE (env : FileEnv) (i : Ident) (encl : Option (List Int)) (d : Obj) (st : FState) : Option FState :=
  let named : Option (FState × Str) :=
    match env.pkgTable.getSymbol d.self.pos with
    | some s => some (st, s)
    | none =>
      match st.global.getSymbol env.pkg.pkgPath d.self.pos with
      | some s => some (st, s)
      | none => st.createNewLocal d.self.pos d
  named.map fun (st, s) =>
    st.emit ⟨identRange env i d, s, true, encl, isDeprecatedAt env st d.self.pos⟩

def enclOf (env : FileEnv) (i : Ident) (decl : Option (Nat × Nat)) : Option (List Int) :=
  decl.map fun (s, e) => scipRange (env.pkg.position s) (env.pkg.position e)
    ((env.pkg.defs i.uid).map (·.self.quotedPkgName) |>.getD false)

def visitIdentE (env : FileEnv) (i : Ident) (decl : Option (Nat × Nat)) (st : FState) : Option FState :=
  if i.name = go!"_" then some st
  else
    match env.caseClauses i.pos with
    | some obj =>
      (st.createNewLocal obj.self.pos obj).map fun (st, s) =>
        st.emit ⟨identRange env i obj, s, true, none, false⟩
    | none =>
      let st₁ := match env.pkg.defs i.uid with
        | some d => visitDefE env i (enclOf env i decl) d st
        | none => some st
      st₁.bind fun st =>
        match env.pkg.uses i.uid with
        | some r => visitRef env i r st
        | none => some st

/-- One event. -/
def step (env : FileEnv) : Event → FState → Option FState
  | .ident i decl, st => visitIdentE env i decl st
  | .qualifier i o imported, st =>
    match st.global.getPkgSymbol imported with
    | none => some st
    | some sym => some (st.emit ⟨identRange env i o, sym, false, none, false⟩)
  | .imp uid name pathPos, st => some (visitImport env uid name pathPos st)

def run (env : FileEnv) : List Event → FState → Option FState
  | [], st => some st
  | e :: es, st => (step env e st).bind (run env es)

theorem runEvents_append (env) (a b : List Event) (st : FState) : run env (a ++ b) st = (run env a st).bind (run env b) := by
  induction a generalizing st with
  | nil => rfl
  | cons e a ih =>
    simp only [List.cons_append, run]
    cases step env e st with
    | none => rfl
    | some st' => exact ih st'

/-- Changing the current function. -/
def FState.setCur (st : FState) (c : Option (Nat × Nat × Nat)) : FState := { st with cur := c }

@[simp] theorem setCur_global (st : FState) (c) : (st.setCur c).global = st.global := rfl

theorem createNewLocal_setCur (st : FState) (c pos obj) :
    (st.setCur c).createNewLocal pos obj = (st.createNewLocal pos obj).map fun p => (p.1.setCur c, p.2) := by
  unfold FState.createNewLocal FState.localAt FState.setCur
  dsimp only
  split <;> rfl

theorem visitRef_setCur (env i r) (st : FState) (c) :
    visitRef env i r (st.setCur c) = (visitRef env i r st).map (·.setCur c) := by
  unfold visitRef FState.localAt FState.setCur
  dsimp only
  split
  · rfl
  · split <;> rfl

theorem visitDefE_setCur (env i encl d) (st : FState) (c) :
    visitDefE env i encl d (st.setCur c) = (visitDefE env i encl d st).map (·.setCur c) := by
  unfold visitDefE
  rw [createNewLocal_setCur]
  dsimp only
  split
  · rfl
  · rw [setCur_global]
    cases st.global.getSymbol env.pkg.pkgPath d.self.pos with
    | some s => rfl
    | none => cases st.createNewLocal d.self.pos d <;> rfl

theorem visitIdentE_setCur (env i decl) (st : FState) (c) :
    visitIdentE env i decl (st.setCur c) = (visitIdentE env i decl st).map (·.setCur c) := by
  unfold visitIdentE
  split
  · rfl
  · split
    · rw [createNewLocal_setCur]
      cases st.createNewLocal _ _ <;> rfl
    · dsimp only
      cases hd : env.pkg.defs i.uid with
      | none =>
        cases hu : env.pkg.uses i.uid with
        | none => rfl
        | some r => simp only [Option.bind_some]; exact visitRef_setCur ..
      | some d =>
        dsimp only
        rw [visitDefE_setCur]
        cases visitDefE env i (enclOf env i decl) d st with
        | none => rfl
        | some st' =>
          cases hu : env.pkg.uses i.uid with
          | none => rfl
          | some r => simp only [Option.map_some, Option.bind_some]; exact visitRef_setCur ..

theorem visitImport_setCur (env uid name pathPos) (st : FState) (c) :
    visitImport env uid name pathPos (st.setCur c) = (visitImport env uid name pathPos st).setCur c := by
  unfold visitImport emitImportReference FState.emit FState.setCur
  dsimp only
  repeat' split
  all_goals first | rfl | simp_all

theorem step_setCur (env e) (st : FState) (c) : step env e (st.setCur c) = (step env e st).map (·.setCur c) := by
  cases e with
  | ident i decl => exact visitIdentE_setCur ..
  | qualifier i o imported =>
    unfold step
    dsimp only
    rw [setCur_global]
    cases st.global.getPkgSymbol imported <;> rfl
  | imp uid name pathPos => exact congrArg some (visitImport_setCur ..)

theorem run_setCur (env es) (st : FState) (c) : run env es (st.setCur c) = (run env es st).map (·.setCur c) := by
  induction es generalizing st with
  | nil => rfl
  | cons e es ih =>
    simp only [run, step_setCur]
    cases step env e st with
    | none => rfl
    | some st' => exact ih st'

theorem setCur_self (st : FState) : st.setCur st.cur = st := rfl

theorem step_cur (env e) (st st' : FState) (h : step env e st = some st') : st'.cur = st.cur := by
  have := step_setCur env e st st.cur
  rw [setCur_self, h] at this
  simp only [Option.map_some, Option.some.injEq] at this
  rw [this]; rfl

theorem run_cur (env es) (st st' : FState) (h : run env es st = some st') : st'.cur = st.cur := by
  have := run_setCur env es st st.cur
  rw [setCur_self, h] at this
  simp only [Option.map_some, Option.some.injEq] at this
  rw [this]; rfl

theorem visitRef_pkgSymbols (env i r) (st st' : FState) (h : visitRef env i r st = some st') :
    st'.global.pkgSymbols = st.global.pkgSymbols := by
  unfold visitRef at h
  have hf := (getSymbolOfObject_frame env.scopes st.global r).2
  generalize st.global.getSymbolOfObject env.scopes r = p at h hf
  obtain ⟨g, res⟩ := p
  dsimp only at h hf
  split at h
  · simp only [Option.some.injEq] at h; subst h; rfl
  · split at h <;> simp only [Option.some.injEq, reduceCtorEq] at h <;> subst h <;> exact hf

theorem createNewLocal_global (st : FState) (pos obj st' s) (h : st.createNewLocal pos obj = some (st', s)) :
    st'.global = st.global := by
  unfold FState.createNewLocal at h
  split at h
  · simp at h
  · simp only [Option.some.injEq, Prod.mk.injEq] at h; rw [← h.1]

theorem visitDefE_global (env i encl d) (st st' : FState) (h : visitDefE env i encl d st = some st') :
    st'.global = st.global := by
  unfold visitDefE at h
  dsimp only at h
  split at h
  · simp only [Option.map_some, Option.some.injEq] at h; subst h; rfl
  · split at h
    · simp only [Option.map_some, Option.some.injEq] at h; subst h; rfl
    · cases hc : st.createNewLocal d.self.pos d with
      | none => rw [hc] at h; simp at h
      | some p =>
        rw [hc] at h
        simp only [Option.map_some, Option.some.injEq] at h; subst h
        exact createNewLocal_global st _ _ p.1 p.2 hc

theorem step_pkgSymbols (env e) (st st' : FState) (h : step env e st = some st') :
    st'.global.pkgSymbols = st.global.pkgSymbols := by
  cases e with
  | ident i decl =>
    simp only [step] at h
    unfold visitIdentE at h
    split at h
    · simp only [Option.some.injEq] at h; subst h; rfl
    · split at h
      · cases hc : st.createNewLocal _ _ with
        | none => rw [hc] at h; simp at h
        | some p =>
          rw [hc] at h
          simp only [Option.map_some, Option.some.injEq] at h; subst h
          show p.1.global.pkgSymbols = _
          rw [createNewLocal_global _ _ _ _ _ hc]
      · dsimp only at h
        obtain ⟨st₁, h1, h2⟩ := Option.bind_eq_some_iff.1 h
        have e1 : st₁.global.pkgSymbols = st.global.pkgSymbols := by
          split at h1
          · rw [visitDefE_global _ _ _ _ _ _ h1]
          · simp only [Option.some.injEq] at h1; rw [h1]
        split at h2
        · rw [visitRef_pkgSymbols _ _ _ _ _ h2, e1]
        · simp only [Option.some.injEq] at h2; rw [← h2, e1]
  | qualifier i o imported =>
    simp only [step] at h
    split at h <;> simp only [Option.some.injEq] at h <;> subst h <;> rfl
  | imp uid name pathPos =>
    simp only [step, Option.some.injEq] at h
    subst h
    unfold visitImport emitImportReference FState.emit
    dsimp only
    repeat' split
    all_goals rfl

theorem run_pkgSymbols (env es) (st st' : FState) (h : run env es st = some st') :
    st'.global.pkgSymbols = st.global.pkgSymbols := by
  induction es generalizing st with
  | nil => simp only [run, Option.some.injEq] at h; rw [h]
  | cons e es ih =>
    obtain ⟨st₁, h1, h2⟩ := Option.bind_eq_some_iff.1 h
    rw [ih _ h2, step_pkgSymbols _ _ _ _ h1]

theorem visitDef_eq (env i) (st : FState) (encl) (d : Obj)
    (this : ∀ st' : FState, st'.cur = st.cur → enclosingRange env st' i = encl) :
    visitDef env i d st = visitDefE env i encl d st := by
  unfold visitDef visitDefE
  cases h1 : env.pkgTable.getSymbol d.self.pos with
  | some s => simp only [Option.map_some, this st rfl]
  | none =>
    cases h2 : st.global.getSymbol env.pkg.pkgPath d.self.pos with
    | some s => simp only [Option.map_some, this st rfl]
    | none =>
      cases hc : st.createNewLocal d.self.pos d with
      | none => rfl
      | some p =>
        have hp : p.1.cur = st.cur := by
          unfold FState.createNewLocal at hc
          split at hc
          · simp at hc
          · simp only [Option.some.injEq] at hc; subst hc; rfl
        simp only [Option.map_some]
        rw [this p.1 hp]

/-- Away from its name, a function declaration has no effect on identifiers. -/
theorem visitIdent_eq (env i) (st : FState) (h : ∀ u s e, st.cur = some (u, s, e) → u ≠ i.uid) :
    visitIdent env i st = visitIdentE env i none st := by
  have hd : ∀ d, visitDef env i d st = visitDefE env i (enclOf env i none) d st := by
    intro d
    apply visitDef_eq
    intro st' hc
    unfold enclosingRange enclOf
    rw [hc]
    cases hcur : st.cur with
    | none => rfl
    | some c =>
      obtain ⟨u, s, e⟩ := c
      simp [h u s e hcur]
  unfold visitIdent visitIdentE
  simp only [hd]
  rfl

theorem visitIdent_eq_name (env i) (st : FState) (s e) (h : st.cur = some (i.uid, s, e)) :
    visitIdent env i st = visitIdentE env i (some (s, e)) st := by
  have hd : ∀ d, visitDef env i d st = visitDefE env i (enclOf env i (some (s, e))) d st := by
    intro d
    apply visitDef_eq
    intro st' hc
    unfold enclosingRange enclOf
    rw [hc, h]
    simp
  unfold visitIdent visitIdentE
  simp only [hd]
  rfl

theorem selectorPkg_eq (env : FileEnv) (x : Node) : selectorPkg env x = packageQualifier env x := by
  unfold selectorPkg packageQualifier
  cases x <;> try rfl
  rename_i i
  dsimp only
  cases env.pkg.uses i.uid with
  | none => rfl
  | some o => rfl

/-- The tree walk `f` performs the events `es`, in every state whose current function is not named by one of the identifiers
and in which exactly the packages `known` have symbols. -/
def Performs (env : FileEnv) (known : Str → Bool) (f : FState → Option FState) (es : List Event) : Prop :=
  ∀ st : FState, (∀ p, (st.global.getPkgSymbol p).isSome = known p) →
    (∀ u s e, st.cur = some (u, s, e) → ∀ i ∈ identsOf es, u ≠ i.uid) → f st = run env es st

theorem Performs.comp {env known f g a b} (hf : Performs env known f a) (hg : Performs env known g b) :
    Performs env known (fun st => (f st).bind g) (a ++ b) := by
  intro st hk hc
  dsimp only
  rw [runEvents_append, hf st hk (fun u s e h i hi => hc u s e h i (by
    unfold identsOf at hi ⊢; rw [List.filterMap_append]; exact List.mem_append_left _ hi))]
  cases hr : run env a st with
  | none => rfl
  | some st' =>
    refine hg st' ?_ ?_
    · intro p; rw [← hk p]; unfold Global.getPkgSymbol; rw [run_pkgSymbols _ _ _ _ hr]
    · intro u s e h i hi
      rw [run_cur _ _ _ _ hr] at h
      exact hc u s e h i (by unfold identsOf at hi ⊢; rw [List.filterMap_append]; exact List.mem_append_right _ hi)

theorem Performs.ident (env known i) : Performs env known (visitIdent env i) [.ident i none] := by
  intro st _ hc
  rw [visitIdent_eq _ _ _ (fun u s e h => hc u s e h i (by simp [identsOf]))]
  simp only [run, step]
  cases visitIdentE env i none st <;> rfl

theorem Performs.nil (env known) : Performs env known some [] := fun _ _ _ => rfl

theorem Performs.congr {env known f g a b} (hf : Performs env known f a) (h : ∀ st, g st = f st) (e : b = a) :
    Performs env known g b := by
  subst e; intro st h1 h2; rw [h]; exact hf st h1 h2

theorem Performs.idents (env known) : ∀ is : List Ident, Performs env known (visitIdents env is) (is.map (Event.ident · none))
  | [] => (Performs.nil env known).congr (fun _ => by rw [visitIdents]) rfl
  | i :: is => ((Performs.ident env known i).comp (Performs.idents env known is)).congr
      (fun _ => by rw [visitIdents]) rfl

mutual

theorem fileWalk_performs (env known) : ∀ n : Node, FuncFree n → Performs env known (fileWalk env n) (traverse env known n)
  | .importSpec uid name pathPos, _ => by
    intro st _ _; simp [fileWalk, traverse, run, step]
  | .selector x sel, h => by
    cases h with
    | mk _ hc =>
      have hx := fileWalk_performs env known x (hc x (by simp [children]))
      intro st hk hcur
      rw [fileWalk, traverse, selectorPkg_eq]
      cases hq : packageQualifier env x with
      | none =>
        dsimp only
        refine (hx.comp (Performs.ident env known sel)) st hk ?_
        rw [traverse, hq] at hcur; exact hcur
      | some q =>
        obtain ⟨i, o, imported⟩ := q
        dsimp only
        have hki := hk imported
        cases hs : st.global.getPkgSymbol imported with
        | none => rw [hs] at hki; simp at hki; simp [hki, run]
        | some sym =>
          rw [hs] at hki; simp at hki
          rw [traverse, hq] at hcur
          simp only [hki, if_true] at hcur ⊢
          simp only [run, step, hs, Option.bind_some]
          rw [visitIdent_eq env sel (st.emit _) (fun u s e h => hcur u s e h sel (by simp [identsOf]))]
          cases visitIdentE env sel none _ <;> rfl
  | .funcDecl .., h => by cases h with | mk h1 _ => exact absurd rfl (h1 _ _ _ _ _ _ _)
  | .file _ decls, h => by
    cases h with | mk _ hc => exact (fileWalkList_performs env known decls (fun c h => hc c (by simpa [children] using h))).congr (fun _ => by rw [fileWalk]) (by rw [traverse])
  | .ident i, _ => (Performs.ident env known i).congr (fun _ => by rw [fileWalk]) (by rw [traverse])
  | .star x, h => by
    cases h with | mk _ hc => exact (fileWalk_performs env known x (hc x (by simp [children]))).congr (fun _ => by rw [fileWalk]) (by rw [traverse])
  | .paren x, h => by
    cases h with | mk _ hc => exact (fileWalk_performs env known x (hc x (by simp [children]))).congr (fun _ => by rw [fileWalk]) (by rw [traverse])
  | .index x is, h => by
    cases h with | mk _ hc => exact ((fileWalk_performs env known x (hc x (by simp [children]))).comp (fileWalkList_performs env known is (fun c h => hc c (by simp [children, h])))).congr (fun _ => by rw [fileWalk]) (by rw [traverse])
  | .unary x, h => by
    cases h with | mk _ hc => exact (fileWalk_performs env known x (hc x (by simp [children]))).congr (fun _ => by rw [fileWalk]) (by rw [traverse])
  | .arrayT len elt, h => by
    cases h with | mk _ hc => exact ((fileWalkList_performs env known len (fun c h => hc c (by simp [children, h]))).comp (fileWalk_performs env known elt (hc elt (by simp [children])))).congr (fun _ => by rw [fileWalk]) (by rw [traverse])
  | .mapT k v, h => by
    cases h with | mk _ hc => exact ((fileWalk_performs env known k (hc k (by simp [children]))).comp (fileWalk_performs env known v (hc v (by simp [children])))).congr (fun _ => by rw [fileWalk]) (by rw [traverse])
  | .chanT x, h => by
    cases h with | mk _ hc => exact (fileWalk_performs env known x (hc x (by simp [children]))).congr (fun _ => by rw [fileWalk]) (by rw [traverse])
  | .funcT a b c, h => by
    cases h with | mk _ hc => exact (((fileWalkList_performs env known a (fun c h => hc c (by simp [children, h]))).comp (fileWalkList_performs env known b (fun c h => hc c (by simp [children, h])))).comp (fileWalkList_performs env known c (fun c h => hc c (by simp [children, h])))).congr (fun _ => by rw [fileWalk]) (by rw [traverse])
  | .structT fs, h => by
    cases h with | mk _ hc => exact (fileWalkList_performs env known fs (fun c h => hc c (by simpa [children] using h))).congr (fun _ => by rw [fileWalk]) (by rw [traverse])
  | .ifaceT fs, h => by
    cases h with | mk _ hc => exact (fileWalkList_performs env known fs (fun c h => hc c (by simpa [children] using h))).congr (fun _ => by rw [fileWalk]) (by rw [traverse])
  | .field _ names typ _ _, h => by
    cases h with | mk _ hc => exact ((Performs.idents env known names).comp (fileWalk_performs env known typ (hc typ (by simp [children])))).congr (fun _ => by rw [fileWalk]) (by rw [traverse])
  | .block fs, h => by
    cases h with | mk _ hc => exact (fileWalkList_performs env known fs (fun c h => hc c (by simpa [children] using h))).congr (fun _ => by rw [fileWalk]) (by rw [traverse])
  | .typeSpec name tps typ _, h => by
    cases h with | mk _ hc => exact (((Performs.ident env known name).comp (fileWalkList_performs env known tps (fun c h => hc c (by simp [children, h])))).comp (fileWalk_performs env known typ (hc typ (by simp [children])))).congr (fun _ => by rw [fileWalk]) (by rw [traverse]; simp)
  | .valueSpec _ names typ values _ _, h => by
    cases h with | mk _ hc => exact (((Performs.idents env known names).comp (fileWalkList_performs env known typ (fun c h => hc c (by simp [children, h])))).comp (fileWalkList_performs env known values (fun c h => hc c (by simp [children, h])))).congr (fun _ => by rw [fileWalk]) (by rw [traverse])
  | .genDecl _ specs _, h => by
    cases h with | mk _ hc => exact (fileWalkList_performs env known specs (fun c h => hc c (by simpa [children] using h))).congr (fun _ => by rw [fileWalk]) (by rw [traverse])
  | .badDecl, _ => (Performs.nil env known).congr (fun _ => by rw [fileWalk]) (by rw [traverse])
  | .other cs, h => by
    cases h with | mk _ hc => exact (fileWalkList_performs env known cs (fun c h => hc c (by simpa [children] using h))).congr (fun _ => by rw [fileWalk]) (by rw [traverse])

theorem fileWalkList_performs (env known) : ∀ ns : List Node, (∀ n ∈ ns, FuncFree n) →
    Performs env known (fileWalkList env ns) (traverseList env known ns)
  | [], _ => (Performs.nil env known).congr (fun _ => by rw [fileWalkList]) (by rw [traverseList])
  | n :: ns, h => ((fileWalk_performs env known n (h n (by simp))).comp
      (fileWalkList_performs env known ns (fun m hm => h m (by simp [hm])))).congr
      (fun _ => by rw [fileWalkList]) (by rw [traverseList])

end

theorem identsOf_append (a b : List Event) : identsOf (a ++ b) = identsOf a ++ identsOf b := by
  simp [identsOf]

theorem fileWalkList_run (env known) (decls : List Node) (h : ParsedFile env known decls) (st : FState)
    (hk : ∀ p, (st.global.getPkgSymbol p).isSome = known p)
    (hc : ∀ u s e, st.cur = some (u, s, e) → ∀ i ∈ identsOf (traverseList env known decls), u ≠ i.uid) :
    (fileWalkList env decls st).map (·.setCur none) = (run env (traverseList env known decls) st).map (·.setCur none) := by
  induction decls generalizing st with
  | nil => rw [fileWalkList, traverseList]; rfl
  | cons d ds ih =>
    rw [fileWalkList, traverseList, runEvents_append]
    have hd := h.distinct
    rw [traverseList] at hc hd
    simp only [identsOf_append, List.map_append, List.nodup_append, List.mem_append] at hc hd
    have hds : ParsedFile env known ds := ⟨fun d hd => h.top_level d (by simp [hd]), hd.2.1⟩
    rcases h.top_level d (by simp) with hf | ⟨recv, name, typ, body, pos, endPos, doc, rfl, h1, h2, h3⟩
    · rw [fileWalk_performs env known d hf st hk (fun u s e h i hi => hc u s e h i (.inl hi))]
      cases hr : run env (traverse env known d) st with
      | none => rfl
      | some st' =>
        refine ih hds st' ?_ ?_
        · intro p; rw [← hk p]; unfold Global.getPkgSymbol; rw [run_pkgSymbols _ _ _ _ hr]
        · intro u s e h i hi
          rw [run_cur _ _ _ _ hr] at h
          exact hc u s e h i (.inr hi)
    · -- a function declaration
      rw [fileWalk]
      rw [traverse] at hd hc ⊢
      simp only [identsOf_append, List.map_append, List.nodup_append, List.mem_append] at hc hd
      have hnm : identsOf (.ident name (some (pos, endPos)) :: (traverse env known typ ++ traverseList env known body)) =
          name :: (identsOf (traverse env known typ) ++ identsOf (traverseList env known body)) := by
        simp [identsOf]
      rw [hnm] at hd hc
      simp only [List.map_cons, List.map_append, List.nodup_cons, List.mem_append, List.mem_cons] at hd
      obtain ⟨⟨hd1, ⟨hd2, hd3⟩, hd4⟩, hd5, hd6⟩ := hd
      obtain ⟨st₀, hst₀⟩ : ∃ st₀, st₀ = st.setCur (some (name.uid, pos, endPos)) := ⟨_, rfl⟩
      rw [show ({ st with cur := some (name.uid, pos, endPos) } : FState) = st₀ from hst₀.symm]
      show Option.map _ (Option.bind (((fileWalkList env recv st₀).bind (visitIdent env name)).bind _) _) = _
      have hrun : ∀ es, (run env es st).map (·.setCur (some (name.uid, pos, endPos))) = run env es st₀ := by
        intro es; rw [hst₀, run_setCur]
      have hname : ∀ st₁ : FState, st₁.cur = some (name.uid, pos, endPos) →
          visitIdent env name st₁ = run env [.ident name (some (pos, endPos))] st₁ := by
        intro st₁ h
        rw [visitIdent_eq_name _ _ _ _ _ h]
        simp only [run, step]
        cases visitIdentE env name (some (pos, endPos)) st₁ <;> rfl
      have key : ((fileWalkList env recv st₀).bind (visitIdent env name)).bind
          (fun st => (fileWalk env typ st).bind (fileWalkList env body)) =
          run env (traverseList env known recv ++ .ident name (some (pos, endPos)) ::
            (traverse env known typ ++ traverseList env known body)) st₀ := by
        have e : (traverseList env known recv ++ Event.ident name (some (pos, endPos)) ::
            (traverse env known typ ++ traverseList env known body)) = traverseList env known recv ++
            ([Event.ident name (some (pos, endPos))] ++ (traverse env known typ ++ traverseList env known body)) := by simp
        rw [e, runEvents_append]
        rw [fileWalkList_performs env known recv h1 st₀ (by rw [hst₀]; exact hk)]
        · cases hr : run env (traverseList env known recv) st₀ with
          | none => rfl
          | some st₁ =>
            have hc1 := run_cur _ _ _ _ hr
            simp only [Option.bind_some]
            rw [hname st₁ (by rw [hc1, hst₀]; rfl), runEvents_append]
            cases hr2 : run env [.ident name (some (pos, endPos))] st₁ with
            | none => rfl
            | some st₂ =>
              simp only [Option.bind_some]
              refine ((fileWalk_performs env known typ h2).comp (fileWalkList_performs env known body h3)) st₂ ?_ ?_
              · intro p; rw [← hk p]; unfold Global.getPkgSymbol
                rw [run_pkgSymbols _ _ _ _ hr2, run_pkgSymbols _ _ _ _ hr, hst₀]; rfl
              · intro u s e hcur i hi
                rw [run_cur _ _ _ _ hr2, hc1] at hcur
                have : name.uid = u := by
                  simp only [hst₀, FState.setCur, Option.some.injEq, Prod.mk.injEq] at hcur
                  exact hcur.1
                rw [← this]
                intro heq
                apply hd2
                rw [identsOf_append, List.mem_append] at hi
                rcases hi with hi | hi
                · exact .inl (List.mem_map.2 ⟨i, hi, heq.symm⟩)
                · exact .inr (List.mem_map.2 ⟨i, hi, heq.symm⟩)
        · intro u s e hcur i hi
          have : name.uid = u := by
            simp only [hst₀, FState.setCur, Option.some.injEq, Prod.mk.injEq] at hcur
            exact hcur.1
          rw [← this]
          intro heq
          exact hd4 _ (List.mem_map.2 ⟨i, hi, rfl⟩) _ (.inl rfl) heq.symm
      rw [key, ← hrun]
      cases hr : run env (traverseList env known recv ++ .ident name (some (pos, endPos)) ::
            (traverse env known typ ++ traverseList env known body)) st with
      | none => rfl
      | some st' =>
        simp only [Option.map_some, Option.bind_some]
        rw [ih hds]
        · rw [run_setCur]; cases run env (traverseList env known ds) st' <;> rfl
        · intro p; rw [← hk p]
          show ((st'.global.getPkgSymbol p)).isSome = _
          unfold Global.getPkgSymbol; rw [run_pkgSymbols _ _ _ _ hr]
        · intro u s e hcur i hi
          have : name.uid = u := by
            simp only [FState.setCur, Option.some.injEq, Prod.mk.injEq] at hcur
            exact hcur.1
          rw [← this]
          intro heq
          exact hd6 _ (.inr (.inl rfl)) _ (List.mem_map.2 ⟨i, hi, rfl⟩) heq

end Verif
