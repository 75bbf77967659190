import Verif.Spec.Log
import Verif.Lemmas.FileEvents
import Verif.Props.EndToEnd
/-! # What is logged about the mentions of a tree -/
namespace Verif
open Spec Log

theorem eventsMet_append (a b : List Mention) : eventsMet (a ++ b) = eventsMet a ++ eventsMet b := by simp [eventsMet]

theorem eventsMet_met (e : Event) (ms : List Mention) : eventsMet (.met e :: ms) = e :: eventsMet ms := rfl

theorem eventsMet_idents (is : List Ident) : eventsMet (is.map fun i => Mention.met (.ident i none)) = is.map (Event.ident · none) := by
  induction is with
  | nil => rfl
  | cons i is ih => rw [List.map_cons, eventsMet_met, ih]; rfl

mutual

theorem eventsMet_mentions (env : FileEnv) (known : Str → Bool) : ∀ n : Node, eventsMet (mentions env known n) = traverse env known n
  | .importSpec _ _ _ => rfl
  | .selector x sel => by
    simp only [mentions, traverse]
    cases packageQualifier env x with
    | some p =>
      obtain ⟨i, o, imported⟩ := p
      by_cases hk : known imported = true <;> simp [hk, eventsMet]
    | none => rw [eventsMet_append, eventsMet_mentions env known x]; rfl
  | .funcDecl recv name typ body pos endPos _ => by
    simp only [mentions, traverse]
    rw [eventsMet_append, eventsMet_met, eventsMet_append, eventsMet_mentionsList env known recv, eventsMet_mentions env known typ,
      eventsMet_mentionsList env known body]
  | .file _ decls => by simp only [mentions, traverse]; exact eventsMet_mentionsList env known decls
  | .ident i => rfl
  | .star x => by simp only [mentions, traverse]; exact eventsMet_mentions env known x
  | .paren x => by simp only [mentions, traverse]; exact eventsMet_mentions env known x
  | .index x is => by
    simp only [mentions, traverse]; rw [eventsMet_append, eventsMet_mentions env known x, eventsMet_mentionsList env known is]
  | .unary x => by simp only [mentions, traverse]; exact eventsMet_mentions env known x
  | .arrayT len elt => by
    simp only [mentions, traverse]; rw [eventsMet_append, eventsMet_mentionsList env known len, eventsMet_mentions env known elt]
  | .mapT k v => by simp only [mentions, traverse]; rw [eventsMet_append, eventsMet_mentions env known k, eventsMet_mentions env known v]
  | .chanT v => by simp only [mentions, traverse]; exact eventsMet_mentions env known v
  | .funcT tps ps rs => by
    simp only [mentions, traverse]
    rw [eventsMet_append, eventsMet_append, eventsMet_mentionsList env known tps, eventsMet_mentionsList env known ps,
      eventsMet_mentionsList env known rs, List.append_assoc]
  | .structT fs => by simp only [mentions, traverse]; exact eventsMet_mentionsList env known fs
  | .ifaceT ms => by simp only [mentions, traverse]; exact eventsMet_mentionsList env known ms
  | .field _ names typ _ _ => by
    simp only [mentions, traverse]; rw [eventsMet_append, eventsMet_idents, eventsMet_mentions env known typ]
  | .block ss => by simp only [mentions, traverse]; exact eventsMet_mentionsList env known ss
  | .typeSpec name tps typ _ => by
    simp only [mentions, traverse]
    rw [eventsMet_met, eventsMet_append, eventsMet_mentionsList env known tps, eventsMet_mentions env known typ]
  | .valueSpec _ names typ values _ _ => by
    simp only [mentions, traverse]
    rw [eventsMet_append, eventsMet_idents, eventsMet_append, eventsMet_mentionsList env known typ, eventsMet_mentionsList env known values,
      List.append_assoc]
  | .genDecl _ specs _ => by simp only [mentions, traverse]; exact eventsMet_mentionsList env known specs
  | .badDecl => rfl
  | .other cs => by simp only [mentions, traverse]; exact eventsMet_mentionsList env known cs

theorem eventsMet_mentionsList (env : FileEnv) (known : Str → Bool) : ∀ ns : List Node,
    eventsMet (mentionsList env known ns) = traverseList env known ns
  | [] => rfl
  | n :: ns => by
    simp only [mentionsList, traverseList]; rw [eventsMet_append, eventsMet_mentions env known n, eventsMet_mentionsList env known ns]

end

/-- The records of an identifier, after the events `before`. -/
def identRecords (env : FileEnv) (g : Global) (upto : List Event) (i : Ident) : List Record :=
  if i.name = go!"_" ∨ (env.caseClauses i.pos).isSome then []
  else match env.pkg.uses i.uid with
  | some r => match localSymbolAt env upto r.self.pos with
    | some _ => []
    | none => match (g.getSymbolOfObject env.scopes r).2 with
      | .error => [.objectUnknown (env.pkg.position i.pos) (r.self.pkg.getD [])]
      | _ => []
  | none => if (env.pkg.defs i.uid).isSome then [] else [.unresolved i.name (env.pkg.position i.pos)]

/-- The records of a mention. -/
def recordsAt (env : FileEnv) (g : Global) (before : List Event) : Mention → List Record
  | .met (.ident i decl) => identRecords env g (before ++ [.ident i decl]) i
  | .met (.qualifier _ _ _) => []
  | .met (.imp uid _ pathPos) => match (env.pkgNameOf uid).bind env.imports with
    | none => [.importUnresolved pathPos]
    | some imported => match g.getPkgSymbol imported with
      | none => [.importUnknown imported]
      | some _ => []
  | .dropped _ imported _ => [.packageUnknown imported]

def recordsFrom (env : FileEnv) (g : Global) (before : List Event) : List Mention → List (List Record)
  | [] => []
  | m :: ms => recordsAt env g before m :: recordsFrom env g (before ++ eventsMet [m]) ms

theorem recordsFrom_append (env : FileEnv) (g : Global) (before : List Event) (a b : List Mention) :
    recordsFrom env g before (a ++ b) = recordsFrom env g before a ++ recordsFrom env g (before ++ eventsMet a) b := by
  induction a generalizing before with
  | nil => simp [recordsFrom, eventsMet]
  | cons m a ih =>
    simp only [List.cons_append, recordsFrom, ih]
    rw [List.append_assoc, ← eventsMet_append]
    rfl

theorem recordsFrom_length (env : FileEnv) (g : Global) (before : List Event) (ms : List Mention) :
    (recordsFrom env g before ms).length = ms.length := by
  induction ms generalizing before with
  | nil => rfl
  | cons m ms ih => simp [recordsFrom, ih]

theorem recordsFrom_get (env : FileEnv) (g : Global) (before : List Event) (ms : List Mention) (k : Nat) (m : Mention) (h : ms[k]? = some m) :
    (recordsFrom env g before ms)[k]? = some (recordsAt env g (before ++ eventsMet (ms.take k)) m) := by
  induction ms generalizing before k with
  | nil => simp at h
  | cons x ms ih =>
    cases k with
    | zero => simp only [List.getElem?_cons_zero, Option.some.injEq] at h; subst h; simp [recordsFrom, eventsMet]
    | succ k =>
      simp only [List.getElem?_cons_succ] at h
      simp only [recordsFrom, List.getElem?_cons_succ, List.take_succ_cons]
      rw [ih _ _ h, List.append_assoc, ← eventsMet_append]
      rfl

/-- The state after the events `before`, as far as later reports depend on it. -/
structure LogInv (env : FileEnv) (g : Global) (objs : List Obj) (before : List Event) (st : FState) : Prop where
  locals : st.locals = localMap (localDecls env before)
  global : Asked env.scopes g objs st.global

/-- A visit (`walk`, `log`) that reports what the mentions `ms` call for. -/
def Reports (env : FileEnv) (g : Global) (objs : List Obj) (walk : FState → Option FState) (log : FState → List Record) (ms : List Mention) : Prop :=
  ∀ before st st', LogInv env g objs before st → walk st = some st' →
    LogInv env g objs (before ++ eventsMet ms) st' ∧ log st = (recordsFrom env g before ms).flatten

section
variable {env : FileEnv} {g : Global} {objs : List Obj}

theorem Reports.seq {w₁ w₂ : FState → Option FState} {l₁ l₂ : FState → List Record} {m₁ m₂ : List Mention} (h₁ : Reports env g objs w₁ l₁ m₁)
    (h₂ : Reports env g objs w₂ l₂ m₂) :
    Reports env g objs (fun st => (w₁ st).bind w₂) (fun st => l₁ st ++ afterwards (w₁ st) l₂) (m₁ ++ m₂) := by
  intro before st st' h hw
  obtain ⟨st₁, e₁, e₂⟩ := Option.bind_eq_some_iff.1 hw
  obtain ⟨i₁, r₁⟩ := h₁ before st st₁ h e₁
  obtain ⟨i₂, r₂⟩ := h₂ _ st₁ st' i₁ e₂
  refine ⟨by rw [eventsMet_append, ← List.append_assoc]; exact i₂, ?_⟩
  simp only [e₁, afterwards, recordsFrom_append, List.flatten_append, r₁, r₂]

theorem LogInv.localAt {before : List Event} {st : FState} (h : LogInv env g objs before st) (pos : Nat) :
    (st.localAt pos).map (·.symbol) = localSymbolAt env before pos := by
  unfold FState.localAt localSymbolAt
  rw [h.locals, localMap_lookup]

theorem reports_ident {es : List Event} (ht : TypedFile env es objs g) (i : Ident) (decl : Option (Nat × Nat)) (hi : i ∈ identsOf es) :
    Reports env g objs (visitIdent env i) (identLog env i) [.met (.ident i decl)] := by
  intro before st st' h hw
  have hlog : (recordsFrom env g before [Mention.met (.ident i decl)]).flatten = identRecords env g (before ++ [.ident i decl]) i := by
    simp [recordsFrom, recordsAt]
  rw [hlog]
  show LogInv env g objs (before ++ [.ident i decl]) st' ∧ _
  unfold visitIdent at hw
  unfold identLog identRecords
  have keep : localDecl env (.ident i decl) = none → LogInv env g objs (before ++ [.ident i decl]) st := by
    intro hn
    exact ⟨by rw [localDecls_append, show localDecls env [.ident i decl] = [] by simp [localDecls, hn], List.append_nil]; exact h.locals, h.global⟩
  have created : ∀ pos obj st₁ s, localDecl env (.ident i decl) = some (pos, obj) → st.createNewLocal pos obj = some (st₁, s) →
      LogInv env g objs (before ++ [.ident i decl]) st₁ := by
    intro pos obj st₁ s hd hc
    unfold FState.createNewLocal at hc
    split at hc
    · cases hc
    · simp only [Option.some.injEq, Prod.mk.injEq] at hc
      obtain ⟨rfl, _⟩ := hc
      refine ⟨?_, h.global⟩
      rw [localDecls_append, show localDecls env [.ident i decl] = [(pos, obj)] by simp [localDecls, hd], localMap_snoc]
      show st.locals ++ [(pos, ⟨localSymbol st.locals.length, obj⟩)] = _
      rw [h.locals, localMap_length]
  by_cases hb : i.name = go!"_"
  · rw [if_pos hb] at hw
    simp only [Option.some.injEq] at hw
    subst hw
    rw [if_pos hb, if_pos (.inl hb)]
    exact ⟨keep (by simp [localDecl, hb]), rfl⟩
  · rw [if_neg hb] at hw ⊢
    cases hc : env.caseClauses i.pos with
    | some obj =>
      rw [hc] at hw
      simp only [Option.map_eq_some_iff] at hw
      obtain ⟨⟨st₁, s⟩, e₁, rfl⟩ := hw
      rw [if_pos (.inr rfl)]
      have := created _ _ _ _ (by simp [localDecl, hb, hc]) e₁
      exact ⟨⟨this.locals, this.global⟩, rfl⟩
    | none =>
      rw [hc] at hw
      dsimp only at hw ⊢
      rw [if_neg (by simp [hb])]
      -- after the definition
      have ref : ∀ st₁, LogInv env g objs (before ++ [.ident i decl]) st₁ → ∀ r, env.pkg.uses i.uid = some r → visitRef env i r st₁ = some st' →
          LogInv env g objs (before ++ [.ident i decl]) st' ∧ refLog env i r st₁ =
            match localSymbolAt env (before ++ [.ident i decl]) r.self.pos with
            | some _ => []
            | none => match (g.getSymbolOfObject env.scopes r).2 with
              | .error => [.objectUnknown (env.pkg.position i.pos) (r.self.pkg.getD [])]
              | _ => [] := by
        intro st₁ h₁ r hr hv
        have hmem := ht.looked_up i hi r hr
        have hans := h₁.global.answer ht.fresh ht.coherent ht.objects hmem
        have hl := h₁.localAt r.self.pos
        unfold visitRef at hv
        unfold refLog
        cases hla : st₁.localAt r.self.pos with
        | some l =>
          rw [hla] at hv hl
          simp only [Option.some.injEq] at hv
          subst hv
          rw [← hl]
          exact ⟨⟨h₁.locals, h₁.global⟩, rfl⟩
        | none =>
          rw [hla] at hv hl
          rw [← hl]
          dsimp only [Option.map_none] at hv ⊢
          have hg' : Asked env.scopes g objs (st₁.global.getSymbolOfObject env.scopes r).1 := .lookup h₁.global hmem
          rw [← hans]
          generalize st₁.global.getSymbolOfObject env.scopes r = p at hv hg'
          obtain ⟨g', res⟩ := p
          dsimp only at hv hg' ⊢
          refine ⟨?_, rfl⟩
          cases res with
          | panic => simp at hv
          | error => simp only [Option.some.injEq] at hv; subst hv; exact ⟨h₁.locals, hg'⟩
          | skip => simp only [Option.some.injEq] at hv; subst hv; exact ⟨h₁.locals, hg'⟩
          | info info => simp only [Option.some.injEq] at hv; subst hv; exact ⟨h₁.locals, hg'⟩
      cases hd : env.pkg.defs i.uid with
      | none =>
        rw [hd] at hw
        dsimp only [Option.bind_some] at hw ⊢
        have h₁ := keep (by simp [localDecl, hb, hc, hd])
        cases hu : env.pkg.uses i.uid with
        | none =>
          rw [hu] at hw
          simp only [Option.bind_some, Option.some.injEq] at hw
          subst hw
          exact ⟨h₁, rfl⟩
        | some r =>
          rw [hu] at hw
          exact ref st h₁ r hu hw
      | some d =>
        rw [hd] at hw
        dsimp only at hw ⊢
        obtain ⟨st₁, e₁, e₂⟩ := Option.bind_eq_some_iff.1 hw
        have h₁ : LogInv env g objs (before ++ [.ident i decl]) st₁ := by
          unfold visitDef at e₁
          cases hp : env.pkgTable.get d.self.pos with
          | some info =>
            simp only [Table.getSymbol, hp, Option.map_some, Option.some.injEq] at e₁
            subst e₁
            have := keep (by simp [localDecl, hb, hc, hd, hp])
            exact ⟨this.locals, this.global⟩
          | none =>
            have hgs : st.global.getSymbol env.pkg.pkgPath d.self.pos = none := by
              unfold Global.getSymbol
              rw [h.global.getSymbolInformation, ht.table, hp]; rfl
            simp only [Table.getSymbol, hp, Option.map_none, hgs, Option.map_eq_some_iff] at e₁
            obtain ⟨⟨st₂, s⟩, e₃, rfl⟩ := e₁
            have := created _ _ _ _ (by simp [localDecl, hb, hc, hd, hp]) e₃
            exact ⟨this.locals, this.global⟩
        rw [e₁]
        cases hu : env.pkg.uses i.uid with
        | none =>
          rw [hu] at e₂
          simp only [Option.some.injEq] at e₂
          subst e₂
          exact ⟨h₁, by simp⟩
        | some r =>
          rw [hu] at e₂
          exact ref st₁ h₁ r hu e₂

theorem reports_idents {es : List Event} (ht : TypedFile env es objs g) : ∀ is : List Ident, (∀ i ∈ is, i ∈ identsOf es) →
    Reports env g objs (visitIdents env is) (identsLog env is) (is.map fun i => .met (.ident i none))
  | [], _ => by
    intro before st st' h hw
    simp only [visitIdents, Option.some.injEq] at hw
    subst hw
    simpa [eventsMet, identsLog, recordsFrom] using h
  | i :: is, hi => by
    have := (reports_ident ht i none (hi i (by simp))).seq (reports_idents ht is fun j hj => hi j (by simp [hj]))
    intro before st st' h hw
    simp only [visitIdents] at hw
    simp only [identsLog]
    exact this before st st' h hw

theorem reports_import (uid : Nat) (name : Option Ident) (pathPos : Nat) :
    Reports env g objs (fun st => some (visitImport env uid name pathPos st)) (importLog env uid pathPos) [.met (.imp uid name pathPos)] := by
  intro before st st' h hw
  simp only [Option.some.injEq] at hw
  subst hw
  have hsame : (visitImport env uid name pathPos st).locals = st.locals ∧ (visitImport env uid name pathPos st).global = st.global := by
    unfold visitImport emitImportReference
    cases (env.pkgNameOf uid).bind env.imports with
    | none => exact ⟨rfl, rfl⟩
    | some imported =>
      dsimp only
      repeat' split
      all_goals exact ⟨rfl, rfl⟩
  refine ⟨⟨?_, by rw [hsame.2]; exact h.global⟩, ?_⟩
  · rw [hsame.1, h.locals]
    show _ = localMap (localDecls env (before ++ [.imp uid name pathPos]))
    rw [localDecls_append, show localDecls env [.imp uid name pathPos] = [] from rfl, List.append_nil]
  · simp only [recordsFrom, recordsAt, List.flatten_cons, List.flatten_nil, List.append_nil, importLog]
    cases (env.pkgNameOf uid).bind env.imports with
    | none => rfl
    | some imported => dsimp only; rw [h.global.getPkgSymbol]; rfl

theorem Reports.congr {w w' : FState → Option FState} {l l' : FState → List Record} {ms ms' : List Mention} (h : Reports env g objs w l ms)
    (hw : ∀ st, w' st = w st) (hl : ∀ st, l' st = l st) (hm : ms' = ms) : Reports env g objs w' l' ms' := by
  intro before st st' hi he
  rw [hm, hl]
  exact h before st st' hi (by rw [← hw]; exact he)

theorem packageQualifier_eq (x : Node) : packageQualifier env x = selectorPkg env x := by
  cases x with
  | ident i =>
    simp only [packageQualifier, selectorPkg]
    cases env.pkg.uses i.uid with
    | none => rfl
    | some o => rfl
  | _ => rfl

mutual

theorem reports_node {es : List Event} (ht : TypedFile env es objs g) {known : Str → Bool} (hk : ∀ p, known p = (g.getPkgSymbol p).isSome) :
    ∀ n : Node, (∀ i ∈ identsOf (traverse env known n), i ∈ identsOf es) →
      Reports env g objs (fileWalk env n) (fileLog env n) (mentions env known n)
  | .importSpec uid name pathPos, _ =>
    (reports_import uid name pathPos).congr (fun _ => by simp only [fileWalk]) (fun _ => by simp only [fileLog]) (by simp only [mentions])
  | .selector x sel, hi => by
    have hsel : ∀ (he : Event.ident sel none ∈ traverse env known (.selector x sel)), sel ∈ identsOf es := fun he => hi sel (mem_identsOf.2 ⟨_, he⟩)
    cases hq : packageQualifier env x with
    | some p =>
      obtain ⟨i, o, imported⟩ := p
      have hq' : selectorPkg env x = some (i, o, imported) := by rw [← packageQualifier_eq, hq]
      intro before st st' h hw
      simp only [fileWalk, hq'] at hw
      simp only [fileLog, hq', mentions, hq]
      have hp : st.global.getPkgSymbol imported = g.getPkgSymbol imported := by rw [h.global.getPkgSymbol]
      rw [hp] at hw ⊢
      cases hg : g.getPkgSymbol imported with
      | none =>
        rw [hg] at hw
        simp only [Option.some.injEq] at hw
        subst hw
        rw [show known imported = false by rw [hk, hg]; rfl]
        simpa [eventsMet, recordsFrom, recordsAt] using h
      | some sym =>
        rw [hg] at hw
        have hkt : known imported = true := by rw [hk, hg]; rfl
        rw [hkt]
        simp only [if_true] at hw ⊢
        have h₁ : LogInv env g objs (before ++ [.qualifier i o imported]) (st.emit ⟨identRange env i o, sym, false, none, false⟩) := by
          refine ⟨?_, h.global⟩
          rw [localDecls_append, show localDecls env [.qualifier i o imported] = [] from rfl, List.append_nil]
          exact h.locals
        obtain ⟨a, b⟩ := reports_ident ht sel none (hsel (by simp only [traverse, hq, hkt]; simp)) _ _ st' h₁ hw
        refine ⟨by simpa [eventsMet] using a, ?_⟩
        rw [b]
        simp only [recordsFrom, recordsAt, List.flatten_cons, List.nil_append]
        rfl
    | none =>
      have hq' : selectorPkg env x = none := by rw [← packageQualifier_eq, hq]
      have ht1 : traverse env known (.selector x sel) = traverse env known x ++ [.ident sel none] := by simp only [traverse, hq]
      refine ((reports_node ht hk x fun j hj => hi j (by rw [ht1, identsOf_append]; exact List.mem_append_left _ hj)).seq
        (reports_ident ht sel none (hsel (by rw [ht1]; simp)))).congr ?_ ?_ ?_
      · intro st; simp only [fileWalk, hq']
      · intro st; simp only [fileLog, hq']
      · simp only [mentions, hq]
  | .funcDecl recv name typ body pos endPos doc, hi => by
    have ht1 : traverse env known (.funcDecl recv name typ body pos endPos doc) =
      traverseList env known recv ++ .ident name (some (pos, endPos)) :: (traverse env known typ ++ traverseList env known body) := by simp only [traverse]
    rw [ht1] at hi
    simp only [identsOf_append, List.mem_append] at hi
    have h := (reports_list ht hk recv fun j hj => hi j (.inl hj)).seq
      ((reports_ident ht name (some (pos, endPos)) (hi name (.inr (by simp [identsOf])))).seq
        ((reports_node ht hk typ fun j hj => hi j (.inr (by
            rw [show Event.ident name (some (pos, endPos)) :: (traverse env known typ ++ traverseList env known body) =
              [Event.ident name (some (pos, endPos))] ++ (traverse env known typ ++ traverseList env known body) from rfl]
            simp only [identsOf_append, List.mem_append]; exact .inr (.inl hj)))).seq
          (reports_list ht hk body fun j hj => hi j (.inr (by
            rw [show Event.ident name (some (pos, endPos)) :: (traverse env known typ ++ traverseList env known body) =
              [Event.ident name (some (pos, endPos))] ++ (traverse env known typ ++ traverseList env known body) from rfl]
            simp only [identsOf_append, List.mem_append]; exact .inr (.inr hj))))))
    intro before st st' hl hw
    have hl' : LogInv env g objs before { st with cur := some (name.uid, pos, endPos) } := ⟨hl.locals, hl.global⟩
    have := h before _ st' hl' (by
      simp only [fileWalk] at hw
      rw [← hw]
      dsimp only
      cases fileWalkList env recv { st with cur := some (name.uid, pos, endPos) } <;> rfl)
    simp only [mentions, fileLog]
    exact this
  | .file _ decls, hi =>
    (reports_list ht hk decls (by simpa only [traverse] using hi)).congr (fun _ => by simp only [fileWalk]) (fun _ => by simp only [fileLog])
      (by simp only [mentions])
  | .ident i, hi =>
    (reports_ident ht i none (hi i (by simp [traverse, identsOf]))).congr (fun _ => by simp only [fileWalk]) (fun _ => by simp only [fileLog])
      (by simp only [mentions])
  | .star x, hi =>
    (reports_node ht hk x (by simpa only [traverse] using hi)).congr (fun _ => by simp only [fileWalk]) (fun _ => by simp only [fileLog])
      (by simp only [mentions])
  | .paren x, hi =>
    (reports_node ht hk x (by simpa only [traverse] using hi)).congr (fun _ => by simp only [fileWalk]) (fun _ => by simp only [fileLog])
      (by simp only [mentions])
  | .index x is, hi => by
    simp only [traverse, identsOf_append, List.mem_append] at hi
    exact ((reports_node ht hk x fun j hj => hi j (.inl hj)).seq (reports_list ht hk is fun j hj => hi j (.inr hj))).congr
      (fun _ => by simp only [fileWalk]) (fun _ => by simp only [fileLog]) (by simp only [mentions])
  | .unary x, hi =>
    (reports_node ht hk x (by simpa only [traverse] using hi)).congr (fun _ => by simp only [fileWalk]) (fun _ => by simp only [fileLog])
      (by simp only [mentions])
  | .arrayT len elt, hi => by
    simp only [traverse, identsOf_append, List.mem_append] at hi
    exact ((reports_list ht hk len fun j hj => hi j (.inl hj)).seq (reports_node ht hk elt fun j hj => hi j (.inr hj))).congr
      (fun _ => by simp only [fileWalk]) (fun _ => by simp only [fileLog]) (by simp only [mentions])
  | .mapT k v, hi => by
    simp only [traverse, identsOf_append, List.mem_append] at hi
    exact ((reports_node ht hk k fun j hj => hi j (.inl hj)).seq (reports_node ht hk v fun j hj => hi j (.inr hj))).congr
      (fun _ => by simp only [fileWalk]) (fun _ => by simp only [fileLog]) (by simp only [mentions])
  | .chanT v, hi =>
    (reports_node ht hk v (by simpa only [traverse] using hi)).congr (fun _ => by simp only [fileWalk]) (fun _ => by simp only [fileLog])
      (by simp only [mentions])
  | .funcT tps ps rs, hi => by
    simp only [traverse, identsOf_append, List.mem_append] at hi
    exact ((reports_list ht hk tps fun j hj => hi j (.inl (.inl hj))).seq ((reports_list ht hk ps fun j hj => hi j (.inl (.inr hj))).seq
      (reports_list ht hk rs fun j hj => hi j (.inr hj)))).congr
      (fun st => by simp only [fileWalk]; cases fileWalkList env tps st <;> rfl) (fun _ => by simp only [fileLog]) (by simp only [mentions])
  | .structT fs, hi =>
    (reports_list ht hk fs (by simpa only [traverse] using hi)).congr (fun _ => by simp only [fileWalk]) (fun _ => by simp only [fileLog])
      (by simp only [mentions])
  | .ifaceT ms, hi =>
    (reports_list ht hk ms (by simpa only [traverse] using hi)).congr (fun _ => by simp only [fileWalk]) (fun _ => by simp only [fileLog])
      (by simp only [mentions])
  | .field _ names typ _ _, hi => by
    simp only [traverse, identsOf_append, List.mem_append] at hi
    exact ((reports_idents ht names fun j hj => hi j (.inl (mem_identsOf.2 ⟨none, List.mem_map.2 ⟨j, hj, rfl⟩⟩))).seq
      (reports_node ht hk typ fun j hj => hi j (.inr hj))).congr
      (fun _ => by simp only [fileWalk]) (fun _ => by simp only [fileLog]) (by simp only [mentions])
  | .block ss, hi =>
    (reports_list ht hk ss (by simpa only [traverse] using hi)).congr (fun _ => by simp only [fileWalk]) (fun _ => by simp only [fileLog])
      (by simp only [mentions])
  | .typeSpec name tps typ _, hi => by
    simp only [traverse] at hi
    rw [show Event.ident name none :: (traverseList env known tps ++ traverse env known typ) =
      [Event.ident name none] ++ (traverseList env known tps ++ traverse env known typ) from rfl] at hi
    simp only [identsOf_append, List.mem_append] at hi
    exact ((reports_ident ht name none (hi name (.inl (by simp [identsOf])))).seq ((reports_list ht hk tps fun j hj => hi j (.inr (.inl hj))).seq
      (reports_node ht hk typ fun j hj => hi j (.inr (.inr hj))))).congr
      (fun st => by simp only [fileWalk]; cases visitIdent env name st <;> rfl) (fun _ => by simp only [fileLog]) (by simp only [mentions]; rfl)
  | .valueSpec _ names typ values _ _, hi => by
    simp only [traverse, identsOf_append, List.mem_append] at hi
    exact ((reports_idents ht names fun j hj => hi j (.inl (.inl (mem_identsOf.2 ⟨none, List.mem_map.2 ⟨j, hj, rfl⟩⟩)))).seq
      ((reports_list ht hk typ fun j hj => hi j (.inl (.inr hj))).seq (reports_list ht hk values fun j hj => hi j (.inr hj)))).congr
      (fun st => by simp only [fileWalk]; cases visitIdents env names st <;> rfl) (fun _ => by simp only [fileLog]) (by simp only [mentions])
  | .genDecl _ specs _, hi =>
    (reports_list ht hk specs (by simpa only [traverse] using hi)).congr (fun _ => by simp only [fileWalk]) (fun _ => by simp only [fileLog])
      (by simp only [mentions])
  | .badDecl, _ => by
    intro before st st' h hw
    simp only [fileWalk, Option.some.injEq] at hw
    subst hw
    simpa [fileLog, mentions, recordsFrom, eventsMet] using h
  | .other cs, hi =>
    (reports_list ht hk cs (by simpa only [traverse] using hi)).congr (fun _ => by simp only [fileWalk]) (fun _ => by simp only [fileLog])
      (by simp only [mentions])

theorem reports_list {es : List Event} (ht : TypedFile env es objs g) {known : Str → Bool} (hk : ∀ p, known p = (g.getPkgSymbol p).isSome) :
    ∀ ns : List Node, (∀ i ∈ identsOf (traverseList env known ns), i ∈ identsOf es) →
      Reports env g objs (fileWalkList env ns) (fileLogList env ns) (mentionsList env known ns)
  | [], _ => by
    intro before st st' h hw
    simp only [fileWalkList, Option.some.injEq] at hw
    subst hw
    simpa [fileLogList, mentionsList, recordsFrom, eventsMet] using h
  | n :: ns, hi => by
    simp only [traverseList, identsOf_append, List.mem_append] at hi
    exact ((reports_node ht hk n fun j hj => hi j (.inl hj)).seq (reports_list ht hk ns fun j hj => hi j (.inr hj))).congr
      (fun _ => by simp only [fileWalkList]) (fun _ => by simp only [fileLogList]) (by simp only [mentionsList])

end

end

end Verif
