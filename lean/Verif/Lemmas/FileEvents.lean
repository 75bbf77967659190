import Verif.Lemmas.FileVisitor
/-! # The file visitor computes the specified document -/
namespace Verif
open Spec

theorem toInt32_of_lt (x : Int) (h0 : -2 ^ 31 ≤ x) (h1 : x < 2 ^ 31) : toInt32 x = x := by
  unfold toInt32
  rw [Int.bmod_eq_of_le] <;> omega

theorem scipRange_eq_span (s e : Position) (hs : PosOk s) (he : PosOk e) : scipRange s e false = span s e := by
  obtain ⟨h1, h2, h3, h4⟩ := hs
  obtain ⟨k1, k2, k3, k4⟩ := he
  unfold scipRange span
  have a1 : toInt32 ((s.line : Int) - 1) = s.line - 1 := toInt32_of_lt _ (by omega) (by omega)
  have a2 : toInt32 ((s.col : Int) - 1) = s.col - 1 := toInt32_of_lt _ (by omega) (by omega)
  have a3 : toInt32 ((e.line : Int) - 1) = e.line - 1 := toInt32_of_lt _ (by omega) (by omega)
  have a4 : toInt32 ((e.col : Int) - 1) = e.col - 1 := toInt32_of_lt _ (by omega) (by omega)
  simp only [a1, a2, a3, a4, Bool.false_eq_true, if_false, Int.add_zero, Int.sub_zero]
  by_cases h : s.line = e.line
  · simp [h, a2, a4]
  · have : (s.line : Int) - 1 ≠ e.line - 1 := by omega
    simp [h, this, a2, a4]

theorem rangeFromName_eq (p : Position) (n : Nat) (adj : Bool) (hp : PosOk p) (h : p.col + 1 + n < 2 ^ 31) :
    rangeFromName p n adj = if adj then [(p.line : Int) - 1, p.col, p.col + n]
      else [(p.line : Int) - 1, p.col - 1, p.col - 1 + n] := by
  obtain ⟨h1, h2, h3, h4⟩ := hp
  unfold rangeFromName
  have a1 : toInt32 ((p.line : Int) - 1) = p.line - 1 := toInt32_of_lt _ (by omega) (by omega)
  have a2 : toInt32 ((p.col : Int) - 1) = p.col - 1 := toInt32_of_lt _ (by omega) (by omega)
  have a3 : toInt32 (n : Int) = n := toInt32_of_lt _ (by omega) (by omega)
  cases adj
  · have a4 : toInt32 ((p.col : Int) - 1 + n) = p.col - 1 + n := toInt32_of_lt _ (by omega) (by omega)
    simp only [a1, a2, a3, Bool.false_eq_true, if_false, Int.add_zero, a4]
  · have a4 : toInt32 ((p.col : Int) - 1 + 1) = p.col := by rw [toInt32_of_lt _ (by omega) (by omega)]; omega
    have a5 : toInt32 ((p.col : Int) - 1 + n + 1) = p.col + n := by rw [toInt32_of_lt _ (by omega) (by omega)]; omega
    simp only [a1, a2, a3, if_true, a4, a5]

theorem rangeFromName_eq' (p : Position) (n : Nat) (hp : PosOk p) (h : p.col + n < 2 ^ 31) :
    rangeFromName p n false = [(p.line : Int) - 1, p.col - 1, p.col - 1 + n] := by
  obtain ⟨h1, h2, h3, h4⟩ := hp
  unfold rangeFromName
  have a1 : toInt32 ((p.line : Int) - 1) = p.line - 1 := toInt32_of_lt _ (by omega) (by omega)
  have a2 : toInt32 ((p.col : Int) - 1) = p.col - 1 := toInt32_of_lt _ (by omega) (by omega)
  have a3 : toInt32 (n : Int) = n := toInt32_of_lt _ (by omega) (by omega)
  simp only [a1, a2, a3, Bool.false_eq_true, if_false, Int.add_zero]
  rw [toInt32_of_lt ((p.col : Int) - 1 + n) (by omega) (by omega)]

theorem quotedPkgName_false (o : ObjData) (h : o.name.head? ≠ some '"') : o.quotedPkgName = false := by
  unfold ObjData.quotedPkgName
  split
  · cases hn : o.name with
    | nil => rfl
    | cons c s =>
      rw [hn] at h
      simp only [List.head?_cons, ne_eq, Option.some.injEq] at h
      simp only [Str.hasPrefix, List.isPrefixOf_cons₂, Bool.and_eq_false_iff]
      exact .inl (by simpa using Ne.symm h)
  · rfl

/-- The map of locals for a list of declarations. -/
def localMap (ds : List (Nat × Obj)) : List (Nat × Local) :=
  ds.zipIdx.map fun p => (p.1.1, ⟨localSymbol p.2, p.1.2⟩)

theorem localMap_snoc (ds : List (Nat × Obj)) (d) :
    localMap (ds ++ [d]) = localMap ds ++ [(d.1, ⟨localSymbol ds.length, d.2⟩)] := by
  simp [localMap, List.zipIdx_append]

theorem localMap_length (ds : List (Nat × Obj)) : (localMap ds).length = ds.length := by simp [localMap]

theorem localMap_lookup (ds : List (Nat × Obj)) (pos : Nat) :
    ((localMap ds).lookup pos).map (·.symbol) = (ds.findIdx? (fun d => d.1 == pos)).map localSymbol := by
  have : ∀ (ds : List (Nat × Obj)) k, (((ds.zipIdx k).map fun p => (p.1.1, (⟨localSymbol p.2, p.1.2⟩ : Local))).lookup
      pos).map (·.symbol) = (ds.findIdx? (fun d => d.1 == pos)).map (fun i => localSymbol (i + k)) := by
    intro ds
    induction ds with
    | nil => intro k; rfl
    | cons d ds ih =>
      intro k
      simp only [List.zipIdx_cons, List.map_cons, List.lookup_cons, List.findIdx?_cons]
      by_cases h : d.1 = pos
      · subst h; simp
      · have h' : (pos == d.1) = false := by simpa using fun h' => h h'.symm
        have h'' : (d.1 == pos) = false := by simpa using h
        rw [h', h'']
        simp only [Bool.false_eq_true, if_false]
        rw [ih, Option.map_map]
        congr 1
        funext i
        show localSymbol _ = localSymbol _
        congr 1; show i + (k + 1) = i + 1 + k; omega
  exact this ds 0

theorem localMap_lookup_none (ds : List (Nat × Obj)) (pos : Nat) :
    (localMap ds).lookup pos = none ↔ pos ∉ ds.map (·.1) := by
  have h := localMap_lookup ds pos
  constructor
  · intro hn
    rw [hn] at h
    have : ds.findIdx? (fun d => d.1 == pos) = none := by
      cases hh : ds.findIdx? (fun d => d.1 == pos) with
      | none => rfl
      | some k => rw [hh] at h; simp at h
    rw [List.findIdx?_eq_none_iff] at this
    intro hm
    obtain ⟨d, hd, rfl⟩ := List.mem_map.1 hm
    simpa using this d hd
  · intro hn
    have : ds.findIdx? (fun d => d.1 == pos) = none := by
      rw [List.findIdx?_eq_none_iff]
      intro d hd
      simpa using fun he => hn (List.mem_map.2 ⟨d, hd, he⟩)
    rw [this] at h
    simpa using h

theorem localDecls_append (env) (a b : List Event) : localDecls env (a ++ b) = localDecls env a ++ localDecls env b := by
  simp [localDecls]

theorem occsFrom_append (env g) (b es es' : List Event) :
    occsFrom env g b (es ++ es') = occsFrom env g b es ++ occsFrom env g (b ++ es) es' := by
  induction es generalizing b with
  | nil => simp [occsFrom]
  | cons e es ih => simp [occsFrom, ih]

theorem occsFrom_snoc (env g) (b es : List Event) (e) :
    occsFrom env g b (es ++ [e]) = occsFrom env g b es ++ occsAt env g (b ++ es) e := by
  rw [occsFrom_append]; simp [occsFrom]

theorem CoherentObjs.mono {a b : List Obj} (h : CoherentObjs b) (hs : ∀ o ∈ a, o ∈ b) : CoherentObjs a :=
  fun o₁ h₁ o₂ h₂ => h o₁ (hs _ h₁) o₂ (hs _ h₂)

/-- The state after the events `before`. -/
structure Inv (env : FileEnv) (g : Global) (objs : List Obj) (occs : List Occurrence) (before : List Event)
    (st : FState) : Prop where
  locals : st.locals = localMap (localDecls env before)
  occs : st.occs = occs ++ occsFrom env g [] before
  global : Asked env.scopes g objs st.global
  nodup : ((localDecls env before).map (·.1)).Nodup

/-- The event declares a second local at the same position. -/
def Clash (env : FileEnv) (before : List Event) (e : Event) : Prop :=
  ∃ d, localDecl env e = some d ∧ d.1 ∈ (localDecls env before).map (·.1)

/-- The event looks up something that cannot be looked up. -/
def Crash (env : FileEnv) (g : Global) (e : Event) : Prop :=
  ∃ i decl r, e = .ident i decl ∧ env.pkg.uses i.uid = some r ∧ (g.getSymbolOfObject env.scopes r).2 = .panic

/-- The state after a definition. -/
structure InvMid (env : FileEnv) (g : Global) (objs : List Obj) (occs : List Occurrence) (before : List Event)
    (e : Event) (more : List Occurrence) (st : FState) : Prop where
  locals : st.locals = localMap (localDecls env (before ++ [e]))
  occs : st.occs = occs ++ occsFrom env g [] before ++ more
  global : Asked env.scopes g objs st.global
  nodup : ((localDecls env (before ++ [e])).map (·.1)).Nodup

theorem createNewLocal_inv {env g objs occs before st} (h : Inv env g objs occs before st) (e : Event) (d : Nat × Obj)
    (hd : localDecl env e = some d) (mk : Str → Occurrence) :
    match (st.createNewLocal d.1 d.2).map (fun p => p.1.emit (mk p.2)) with
    | some st' => InvMid env g objs occs before e [mk (localSymbol (localDecls env before).length)] st'
    | none => Clash env before e := by
  unfold FState.createNewLocal FState.localAt
  cases hl : st.locals.lookup d.1 with
  | some l =>
    refine ⟨d, hd, Classical.byContradiction fun hn => ?_⟩
    rw [h.locals, (localMap_lookup_none _ _).2 hn] at hl
    simp at hl
  | none =>
    have hnot : d.1 ∉ (localDecls env before).map (·.1) := by
      rw [← localMap_lookup_none, ← h.locals]; exact hl
    have hds : localDecls env (before ++ [e]) = localDecls env before ++ [d] := by
      rw [localDecls_append]; simp [localDecls, hd]
    have hlen : st.locals.length = (localDecls env before).length := by rw [h.locals, localMap_length]
    refine ⟨?_, ?_, h.global, ?_⟩
    · rw [hds, localMap_snoc]
      show st.locals ++ [(d.1, ⟨localSymbol st.locals.length, d.2⟩)] = _
      rw [hlen, h.locals]
    · show st.occs ++ _ = _
      rw [h.occs, hlen]
    · rw [hds, List.map_append, List.nodup_append]
      refine ⟨h.nodup, by simp, ?_⟩
      intro a ha b hb
      simp only [List.map_cons, List.map_nil, List.mem_singleton] at hb
      subst hb
      rintro rfl
      exact hnot ha

theorem isDeprecatedAt_eq {env : FileEnv} {es objs g} (ht : TypedFile env es objs g) (st : FState)
    (hg : Asked env.scopes g objs st.global) (pos : Nat) :
    isDeprecatedAt env st pos = match env.pkgTable.get pos with
      | some info => isDocDeprecated info.documentation
      | none => false := by
  unfold isDeprecatedAt
  rw [hg.getSymbolInformation, ht.table]
  cases env.pkgTable.get pos <;> rfl

theorem identRange_eq {env : FileEnv} {es objs g} (ht : TypedFile env es objs g) (i : Ident) (o : Obj)
    (ho : (∃ u, env.pkg.defs u = some o ∨ env.pkg.uses u = some o) ∨ o ∈ env.implicits) :
    identRange env i o = identSpan env i := by
  unfold identRange identSpan
  rw [quotedPkgName_false _ (ht.unquoted o ho), scipRange_eq_span _ _ (ht.positions _) (ht.positions _)]
  rfl

theorem caseClauses_mem (env : FileEnv) (p : Nat) (o : Obj) (h : env.caseClauses p = some o) :
    o ∈ env.implicits ∧ o.self.pos = p := by
  unfold FileEnv.caseClauses at h
  have h1 := List.mem_of_find?_eq_some h
  have h2 := List.find?_some h
  exact ⟨by simpa using h1, by simpa using h2⟩

theorem visitDefE_inv {env es g objs occs before st} (ht : TypedFile env es objs g)
    (h : Inv env g objs occs before st) (i : Ident) (decl : Option (Nat × Nat)) (d : Obj) (hb : i.name ≠ go!"_")
    (hc : env.caseClauses i.pos = none) (hd : env.pkg.defs i.uid = some d) :
    match visitDefE env i (enclOf env i decl) d st with
    | some st' => InvMid env g objs occs before (.ident i decl) (defOccs env before i decl) st'
    | none => Clash env before (.ident i decl) := by
  have hg := h.global
  have hencl : enclOf env i decl = decl.map fun (s, e) => span (env.pkg.position s) (env.pkg.position e) := by
    unfold enclOf
    rw [hd]
    simp only [Option.map_some, Option.getD_some, quotedPkgName_false _ (ht.unquoted d (.inl ⟨_, .inl hd⟩))]
    congr 1
    funext p
    exact scipRange_eq_span _ _ (ht.positions _) (ht.positions _)
  have hr := identRange_eq ht i d (.inl ⟨_, .inl hd⟩)
  unfold visitDefE
  rw [hencl, hr]
  cases hp : env.pkgTable.get d.self.pos with
  | some info =>
    have hl : localDecl env (.ident i decl) = none := by
      unfold localDecl; simp [hb, hc, hd, hp]
    have hds : localDecls env (before ++ [.ident i decl]) = localDecls env before := by
      rw [localDecls_append]; simp [localDecls, hl]
    simp only [Table.getSymbol, hp, Option.map_some]
    refine ⟨by rw [hds]; exact h.locals, ?_, h.global, by rw [hds]; exact h.nodup⟩
    show st.occs ++ _ = _
    rw [h.occs, isDeprecatedAt_eq ht st hg]
    simp only [defOccs, hb, hc, hd, hp, if_false]
  | none =>
    have hl : localDecl env (.ident i decl) = some (d.self.pos, d) := by
      unfold localDecl; simp [hb, hc, hd, hp]
    have hgs : st.global.getSymbol env.pkg.pkgPath d.self.pos = none := by
      unfold Global.getSymbol
      rw [hg.getSymbolInformation, ht.table, hp]; rfl
    simp only [Table.getSymbol, hp, hgs, Option.map_none]
    have hdep : ∀ st' : FState, st'.global = st.global → isDeprecatedAt env st' d.self.pos = false := by
      intro st' he
      rw [isDeprecatedAt_eq ht st' (he ▸ hg), hp]
    have := createNewLocal_inv h (.ident i decl) (d.self.pos, d) hl (fun s =>
      ⟨identSpan env i, s, true, decl.map fun (s, e) => span (env.pkg.position s) (env.pkg.position e), false⟩)
    cases hcn : st.createNewLocal d.self.pos d with
    | none => simp only [hcn, Option.map_none] at this ⊢; exact this
    | some p =>
      simp only [hcn, Option.map_some] at this ⊢
      rw [hdep p.1 (createNewLocal_global _ _ _ p.1 p.2 hcn)]
      have e : defOccs env before i decl = [⟨identSpan env i, localSymbol (localDecls env before).length, true,
          decl.map fun (s, e) => span (env.pkg.position s) (env.pkg.position e), false⟩] := by
        simp only [defOccs, hb, hc, hd, hp, if_false]
      rw [e]
      exact this

theorem visitRef_inv {env es g objs occs before e more st} (ht : TypedFile env es objs g)
    (h : InvMid env g objs occs before e more st) (i : Ident) (r : Obj) (hi : i ∈ identsOf es)
    (hu : env.pkg.uses i.uid = some r) :
    match visitRef env i r st with
    | some st' => InvMid env g objs occs before e (more ++
        match target env g (before ++ [e]) r with
        | some (s, dep) => [⟨identSpan env i, s, false, none, dep⟩]
        | none => []) st'
    | none => (g.getSymbolOfObject env.scopes r).2 = .panic := by
  have hg := h.global
  have hr := identRange_eq ht i r (.inl ⟨_, .inr hu⟩)
  have hmem := ht.looked_up i hi r hu
  have hans : (st.global.getSymbolOfObject env.scopes r).2 = (g.getSymbolOfObject env.scopes r).2 := by
    exact hg.answer ht.fresh ht.coherent ht.objects hmem
  have hglob : Asked env.scopes g objs (st.global.getSymbolOfObject env.scopes r).1 := .lookup hg hmem
  unfold visitRef
  rw [hr]
  have hloc := localMap_lookup (localDecls env (before ++ [e])) r.self.pos
  have hla : st.localAt r.self.pos = (localMap (localDecls env (before ++ [e]))).lookup r.self.pos := by
    unfold FState.localAt; rw [h.locals]
  cases hl : st.localAt r.self.pos with
  | some l =>
    have : target env g (before ++ [e]) r = some (l.symbol, false) := by
      unfold target localSymbolAt
      rw [← hloc, ← hla, hl]; rfl
    simp only [this]
    refine ⟨h.locals, ?_, h.global, h.nodup⟩
    show st.occs ++ _ = _
    rw [h.occs]; simp
  | none =>
    have hls : localSymbolAt env (before ++ [e]) r.self.pos = none := by
      unfold localSymbolAt
      rw [← hloc, ← hla, hl]; rfl
    dsimp only
    generalize st.global.getSymbolOfObject env.scopes r = p at hans hglob
    obtain ⟨g', res⟩ := p
    dsimp only at hans hglob ⊢
    subst hans
    have htar : target env g (before ++ [e]) r = match (g.getSymbolOfObject env.scopes r).2 with
        | .info info => some (info.symbol, isDocDeprecated info.documentation)
        | _ => none := by
      unfold target; rw [hls]
      rfl
    rw [htar]
    cases hres : (g.getSymbolOfObject env.scopes r).2 with
    | panic => rfl
    | error => exact ⟨h.locals, by simpa using h.occs, hglob, h.nodup⟩
    | skip => exact ⟨h.locals, by simpa using h.occs, hglob, h.nodup⟩
    | info info =>
      refine ⟨h.locals, ?_, hglob, h.nodup⟩
      show st.occs ++ _ = _
      rw [h.occs]; simp

theorem InvMid.toInv {env g objs occs before e more st} (h : InvMid env g objs occs before e more st)
    (he : more = occsAt env g before e) : Inv env g objs occs (before ++ [e]) st := by
  refine ⟨h.locals, ?_, h.global, h.nodup⟩
  rw [h.occs, occsFrom_snoc, he]; simp

theorem Inv.toMid {env g objs occs before st} (h : Inv env g objs occs before st) (e : Event)
    (he : localDecl env e = none) : InvMid env g objs occs before e [] st := by
  have hds : localDecls env (before ++ [e]) = localDecls env before := by
    rw [localDecls_append]; simp [localDecls, he]
  exact ⟨by rw [hds]; exact h.locals, by simpa using h.occs, h.global, by rw [hds]; exact h.nodup⟩

theorem InvMid.emit {env g objs occs before e more st} (h : InvMid env g objs occs before e more st) (o : Occurrence) :
    InvMid env g objs occs before e (more ++ [o]) (st.emit o) :=
  ⟨h.locals, by show st.occs ++ _ = _; rw [h.occs]; simp, h.global, h.nodup⟩

theorem step_inv {env es g objs occs before st} (ht : TypedFile env es objs g) (h : Inv env g objs occs before st)
    (e : Event) (he : e ∈ es) (hq : ∀ i o imp, e = .qualifier i o imp → env.pkg.uses i.uid = some o) :
    match step env e st with
    | some st' => Inv env g objs occs (before ++ [e]) st'
    | none => Clash env before e ∨ Crash env g e := by
  cases e with
  | qualifier i o imported =>
    have hg := h.global
    have hm := h.toMid (.qualifier i o imported) rfl
    unfold step
    have hp : st.global.getPkgSymbol imported = g.getPkgSymbol imported := by rw [hg.getPkgSymbol]
    dsimp only
    rw [hp, identRange_eq ht i o (.inl ⟨_, .inr (hq i o imported rfl)⟩)]
    cases hs : g.getPkgSymbol imported with
    | none => exact hm.toInv (by simp [occsAt, hs])
    | some sym => exact (hm.emit _).toInv (by simp [occsAt, hs])
  | imp uid name pathPos =>
    have hg := h.global
    have hm := h.toMid (.imp uid name pathPos) rfl
    have hp : ∀ imported, st.global.getPkgSymbol imported = g.getPkgSymbol imported := fun _ => by
      rw [hg.getPkgSymbol]
    simp only [step]
    unfold visitImport
    cases hi : (env.pkgNameOf uid).bind env.imports with
    | none => exact hm.toInv (by simp [occsAt, importOccs, hi])
    | some imported =>
      dsimp only
      have hlen : (env.pkg.position pathPos).col + 1 + imported.length < 2 ^ 31 := by
        rcases ht.imports pathPos imported with h | h
        · exact h
        · obtain ⟨q, _, hq⟩ := Option.bind_eq_some_iff.1 hi
          exact absurd hq (h q)
      have hrange : rangeFromName (env.pkg.position pathPos) imported.length true =
          [((env.pkg.position pathPos).line : Int) - 1, (env.pkg.position pathPos).col,
            (env.pkg.position pathPos).col + imported.length] := by
        rw [rangeFromName_eq _ _ _ (ht.positions _) hlen]; rfl
      cases hs : g.getPkgSymbol imported with
      | none =>
        unfold emitImportReference
        have : InvMid env g objs occs before (.imp uid name pathPos) [] st := hm
        cases name with
        | none =>
          dsimp only
          rw [hp, hs]
          exact hm.toInv (by simp [occsAt, importOccs, hi, hs])
        | some n =>
          dsimp only
          simp only [hp, hs, ite_self]
          exact hm.toInv (by simp [occsAt, importOccs, hi, hs])
      | some sym =>
        have hname : ∀ n, name = some n → rangeFromName (env.pkg.position n.pos) n.name.length false =
            [((env.pkg.position n.pos).line : Int) - 1, (env.pkg.position n.pos).col - 1,
              (env.pkg.position n.pos).col - 1 + n.name.length] := by
          rintro n rfl
          exact rangeFromName_eq' _ _ (ht.positions _) (ht.import_names uid n pathPos he)
        unfold emitImportReference
        cases name with
        | none =>
          dsimp only
          rw [hp, hs]
          refine (hm.emit _).toInv ?_
          simp [occsAt, importOccs, hi, hs, hrange]
        | some n =>
          dsimp only
          rw [hp, hs]
          by_cases hn : n.name ≠ go!"." ∧ n.name ≠ go!"_"
          · simp only [hn, not_false_eq_true, and_self, if_true, ne_eq]
            have : (st.emit ⟨rangeFromName (env.pkg.position n.pos) n.name.length false, sym, false, none, false⟩
                ).global.getPkgSymbol imported = some sym := by rw [← hs]; exact hp imported
            rw [this]
            refine ((hm.emit _).emit _).toInv ?_
            simp [occsAt, importOccs, hi, hs, hrange, hname n rfl, hn.1, hn.2]
          · rw [if_neg hn, hp, hs]
            refine (hm.emit _).toInv ?_
            have : n.name = go!"." ∨ n.name = go!"_" := by
              by_cases h1 : n.name = go!"."
              · exact .inl h1
              · exact .inr (Classical.byContradiction fun h2 => hn ⟨h1, h2⟩)
            simp only [occsAt, importOccs, hi, hs, hrange, this, if_true, List.nil_append]
  | ident i decl =>
    have hi : i ∈ identsOf es := by
      unfold identsOf; rw [List.mem_filterMap]; exact ⟨_, he, rfl⟩
    simp only [step]
    unfold visitIdentE
    by_cases hb : i.name = go!"_"
    · simp only [hb, if_true]
      refine (h.toMid (.ident i decl) ?_).toInv ?_
      · simp [localDecl, hb]
      · simp [occsAt, defOccs, refOccs, hb]
    · simp only [hb, if_false]
      cases hc : env.caseClauses i.pos with
      | some obj =>
        have hl : localDecl env (.ident i decl) = some (obj.self.pos, obj) := by
          unfold localDecl; simp [hb, hc]
        have := createNewLocal_inv h (.ident i decl) (obj.self.pos, obj) hl (fun s =>
          ⟨identSpan env i, s, true, none, false⟩)
        dsimp only at this ⊢
        rw [identRange_eq ht i obj (.inr (caseClauses_mem env _ _ hc).1)]
        split at this
        · refine this.toInv ?_
          simp [occsAt, defOccs, refOccs, hb, hc]
        · exact .inl this
      | none =>
        dsimp only
        -- the definition part
        have hdef : match (match env.pkg.defs i.uid with
            | some d => visitDefE env i (enclOf env i decl) d st
            | none => some st) with
          | some st' => InvMid env g objs occs before (.ident i decl) (defOccs env before i decl) st'
          | none => Clash env before (.ident i decl) := by
          cases hd : env.pkg.defs i.uid with
          | some d => exact visitDefE_inv ht h i decl d hb hc hd
          | none =>
            have e1 : defOccs env before i decl = [] := by simp [defOccs, hb, hc, hd]
            rw [e1]
            exact h.toMid _ (by simp [localDecl, hb, hc, hd])
        suffices hgen : ∀ res : Option FState, (match res with
              | some st' => InvMid env g objs occs before (.ident i decl) (defOccs env before i decl) st'
              | none => Clash env before (.ident i decl)) →
            (match res.bind (fun st => match env.pkg.uses i.uid with
              | some r => visitRef env i r st
              | none => some st) with
            | some st' => Inv env g objs occs (before ++ [.ident i decl]) st'
            | none => Clash env before (.ident i decl) ∨ Crash env g (.ident i decl)) from hgen _ hdef
        clear hdef
        intro res hdef
        cases res with
        | some st' =>
          dsimp only at hdef
          simp only [Option.bind_some]
          cases hu : env.pkg.uses i.uid with
          | none =>
            refine hdef.toInv ?_
            simp [occsAt, refOccs, hc, hu]
          | some r =>
            have := visitRef_inv ht hdef i r hi hu
            dsimp only at this ⊢
            cases hres : visitRef env i r st' with
            | some st'' =>
              rw [hres] at this
              refine this.toInv ?_
              simp only [occsAt]
              congr 1
              simp only [refOccs, hb, hc, hu]
              simp
              rfl
            | none =>
              rw [hres] at this
              exact .inr ⟨i, decl, r, rfl, hu, this⟩
        | none => exact .inl hdef

theorem run_inv {env es g objs occs before st} (ht : TypedFile env es objs g) (h : Inv env g objs occs before st)
    (evs : List Event) (he : ∀ e ∈ evs, e ∈ es)
    (hq : ∀ i o imp, Event.qualifier i o imp ∈ evs → env.pkg.uses i.uid = some o) :
    match run env evs st with
    | some st' => Inv env g objs occs (before ++ evs) st'
    | none => ∃ a e b, evs = a ++ e :: b ∧ (Clash env (before ++ a) e ∨ Crash env g e) := by
  induction evs generalizing before st with
  | nil => simpa [run] using h
  | cons e evs ih =>
    have hs := step_inv ht h e (he e (by simp)) (fun i o imp heq => hq i o imp (by simp [heq]))
    simp only [run]
    split at hs
    · rename_i st' hst
      rw [hst]
      have := ih hs (fun x hx => he x (by simp [hx])) (fun i o imp hx => hq i o imp (by simp [hx]))
      simp only [Option.bind_some]
      split at this
      · rename_i st'' hst'
        simpa using this
      · rename_i hst'
        obtain ⟨a, e', b, rfl, hcl⟩ := this
        exact ⟨e :: a, e', b, rfl, by simpa using hcl⟩
    · rename_i hst
      rw [hst]
      exact ⟨[], e, evs, rfl, by simpa using hs⟩

mutual

theorem traverse_qualifier (env known) : ∀ n i o imp, Event.qualifier i o imp ∈ traverse env known n →
    env.pkg.uses i.uid = some o ∧ o.self.cls = .pkgName imp
  | .selector x sel, i, o, imp, h => by
    rw [traverse] at h
    split at h
    · rename_i i' o' imp' hq
      split at h
      · simp only [List.mem_cons, Event.qualifier.injEq, reduceCtorEq, List.not_mem_nil, or_false] at h
        obtain ⟨rfl, rfl, rfl⟩ := h
        unfold packageQualifier at hq
        split at hq
        · obtain ⟨o'', h1, h2⟩ := Option.bind_eq_some_iff.1 hq
          split at h2
          · simp only [Option.some.injEq, Prod.mk.injEq] at h2
            obtain ⟨rfl, rfl, rfl⟩ := h2
            exact ⟨h1, by assumption⟩
          · simp at h2
        · simp at hq
      · simp at h
    · simp only [List.mem_append, List.mem_singleton, reduceCtorEq, or_false] at h
      exact traverse_qualifier env known x i o imp h
  | .importSpec uid name pathPos, i, o, imp, h => by rw [traverse] at h; simp at h
  | .funcDecl recv name typ body pos endPos _, i, o, imp, h => by
    rw [traverse] at h
    simp only [List.mem_append, List.mem_cons, reduceCtorEq, false_or] at h
    rcases h with h | h | h
    · exact traverseList_qualifier env known recv i o imp h
    · exact traverse_qualifier env known typ i o imp h
    · exact traverseList_qualifier env known body i o imp h
  | .file _ decls, i, o, imp, h => by rw [traverse] at h; exact traverseList_qualifier env known decls i o imp h
  | .ident _, i, o, imp, h => by rw [traverse] at h; simp at h
  | .star x, i, o, imp, h => by rw [traverse] at h; exact traverse_qualifier env known x i o imp h
  | .paren x, i, o, imp, h => by rw [traverse] at h; exact traverse_qualifier env known x i o imp h
  | .index x is, i, o, imp, h => by
    rw [traverse] at h
    rcases List.mem_append.1 h with h | h
    · exact traverse_qualifier env known x i o imp h
    · exact traverseList_qualifier env known is i o imp h
  | .unary x, i, o, imp, h => by rw [traverse] at h; exact traverse_qualifier env known x i o imp h
  | .arrayT len elt, i, o, imp, h => by
    rw [traverse] at h
    rcases List.mem_append.1 h with h | h
    · exact traverseList_qualifier env known len i o imp h
    · exact traverse_qualifier env known elt i o imp h
  | .mapT k v, i, o, imp, h => by
    rw [traverse] at h
    rcases List.mem_append.1 h with h | h
    · exact traverse_qualifier env known k i o imp h
    · exact traverse_qualifier env known v i o imp h
  | .chanT x, i, o, imp, h => by rw [traverse] at h; exact traverse_qualifier env known x i o imp h
  | .funcT a b c, i, o, imp, h => by
    rw [traverse] at h
    simp only [List.mem_append] at h
    rcases h with (h | h) | h
    · exact traverseList_qualifier env known a i o imp h
    · exact traverseList_qualifier env known b i o imp h
    · exact traverseList_qualifier env known c i o imp h
  | .structT fs, i, o, imp, h => by rw [traverse] at h; exact traverseList_qualifier env known fs i o imp h
  | .ifaceT fs, i, o, imp, h => by rw [traverse] at h; exact traverseList_qualifier env known fs i o imp h
  | .field _ names typ _ _, i, o, imp, h => by
    rw [traverse] at h
    simp only [List.mem_append, List.mem_map, reduceCtorEq, and_false, exists_false, false_or] at h
    exact traverse_qualifier env known typ i o imp h
  | .block fs, i, o, imp, h => by rw [traverse] at h; exact traverseList_qualifier env known fs i o imp h
  | .typeSpec name tps typ _, i, o, imp, h => by
    rw [traverse] at h
    simp only [List.mem_append, List.mem_cons, reduceCtorEq, false_or] at h
    rcases h with h | h
    · exact traverseList_qualifier env known tps i o imp h
    · exact traverse_qualifier env known typ i o imp h
  | .valueSpec _ names typ values _ _, i, o, imp, h => by
    rw [traverse] at h
    simp only [List.mem_append, List.mem_map, reduceCtorEq, and_false, exists_false, false_or] at h
    rcases h with h | h
    · exact traverseList_qualifier env known typ i o imp h
    · exact traverseList_qualifier env known values i o imp h
  | .genDecl _ specs _, i, o, imp, h => by rw [traverse] at h; exact traverseList_qualifier env known specs i o imp h
  | .badDecl, i, o, imp, h => by rw [traverse] at h; simp at h
  | .other cs, i, o, imp, h => by rw [traverse] at h; exact traverseList_qualifier env known cs i o imp h

theorem traverseList_qualifier (env known) : ∀ ns i o imp, Event.qualifier i o imp ∈ traverseList env known ns →
    env.pkg.uses i.uid = some o ∧ o.self.cls = .pkgName imp
  | [], i, o, imp, h => by rw [traverseList] at h; simp at h
  | n :: ns, i, o, imp, h => by
    rw [traverseList] at h
    rcases List.mem_append.1 h with h | h
    · exact traverse_qualifier env known n i o imp h
    · exact traverseList_qualifier env known ns i o imp h

end

/-- The whole file: `known` are the packages that have a symbol in `g`; the walk starts after arbitrary earlier questions. -/
theorem fileWalk_spec (env : FileEnv) (g : Global) (objs : List Obj) (g' : Global) (name : Ident) (decls : List Node)
    (pkgOcc : Occurrence) :
    let es := traverseList env (fun p => (g.getPkgSymbol p).isSome) decls
    ParsedFile env (fun p => (g.getPkgSymbol p).isSome) decls → TypedFile env es objs g → Asked env.scopes g objs g' →
    match fileWalk env (.file name decls) (newFileVisitor pkgOcc g') with
    | some st => Inv env g objs [pkgOcc] es st
    | none => ∃ a e b, es = a ++ e :: b ∧ (Clash env a e ∨ Crash env g e) := by
  intro es hp ht hh
  have hw := fileWalkList_run env (fun p => (g.getPkgSymbol p).isSome) decls hp
    (newFileVisitor pkgOcc g')
    (fun p => by show (g'.getPkgSymbol p).isSome = _; rw [hh.getPkgSymbol])
    (fun u s e h => by simp [newFileVisitor] at h)
  have h0 : Inv env g objs [pkgOcc] [] (newFileVisitor pkgOcc g') :=
    ⟨rfl, by simp [newFileVisitor, occsFrom], hh, by simp [localDecls]⟩
  have hr := run_inv ht h0 es (fun e h => h) (fun i o imp h => (traverseList_qualifier env _ decls i o imp h).1)
  simp only [fileWalk]
  change Option.map _ _ = Option.map _ (run env es _) at hw
  split at hr
  · rename_i st' hst
    rw [hst] at hw
    split
    · rename_i st hst'
      rw [hst'] at hw
      simp only [Option.map_some, Option.some.injEq] at hw
      simp only [List.nil_append] at hr
      have e1 : st.locals = st'.locals := by have := congrArg (fun x => FState.locals x) hw; exact this
      have e2 : st.occs = st'.occs := by have := congrArg (fun x => FState.occs x) hw; exact this
      have e3 : st.global = st'.global := by have := congrArg (fun x => FState.global x) hw; exact this
      exact ⟨e1 ▸ hr.locals, e2 ▸ hr.occs, e3 ▸ hr.global, hr.nodup⟩
    · rename_i hst'
      rw [hst'] at hw; simp at hw
  · rename_i hst
    rw [hst] at hw
    split
    · rename_i st hst'
      rw [hst'] at hw; simp at hw
    · simpa using hr

end Verif
