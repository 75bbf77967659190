import Verif.Lemmas.FileEvents
import Verif.Lemmas.Digits
import Verif.Props.Table
import Verif.Props.Symbol
import Mathlib.Data.List.Nodup
/-! # C07–C17: the document of a file -/
namespace Verif
open Spec

/-! ## Ranges -/

/-- **C07**: for positions of a file, the range emitted for a piece of source text has three components exactly if
it lies on one line and four otherwise, is zero based, ends not before it starts, and no component is changed by the
conversion to 32 bits. -/
theorem C07_range_well_formed (s e : Position) (hs : PosOk s) (he : PosOk e)
    (hle : s.line < e.line ∨ s.line = e.line ∧ s.col ≤ e.col) :
    scipRange s e false = span s e ∧
    ((scipRange s e false).length = 3 ↔ s.line = e.line) ∧
    ((scipRange s e false).length = 4 ↔ s.line ≠ e.line) ∧
    (∀ x ∈ scipRange s e false, 0 ≤ x ∧ x < 2 ^ 31) ∧
    (∀ l a b, scipRange s e false = [l, a, b] → a ≤ b) ∧
    (∀ l a l' b, scipRange s e false = [l, a, l', b] → l < l') := by
  rw [scipRange_eq_span s e hs he]
  obtain ⟨h1, h2, h3, h4⟩ := hs
  obtain ⟨k1, k2, k3, k4⟩ := he
  refine ⟨rfl, ?_, ?_, ?_, ?_, ?_⟩
  · unfold span; split <;> simp_all
  · unfold span; split <;> simp_all
  · intro x hx
    unfold span at hx
    split at hx <;> simp only [List.mem_cons, List.not_mem_nil, or_false] at hx
    · rcases hx with rfl | rfl | rfl <;> omega
    · rcases hx with rfl | rfl | rfl | rfl <;> omega
  · intro l a b h
    unfold span at h
    split at h <;> simp at h
    omega
  · intro l a l' b h
    unfold span at h
    split at h <;> simp at h
    omega

/-- **C07** (ranges built from a name): one line, zero based, as long as the name. -/
theorem C07_range_from_name (p : Position) (n : Nat) (adjust : Bool) (hp : PosOk p) (h : p.col + 1 + n < 2 ^ 31) :
    ∃ l a b, rangeFromName p n adjust = [l, a, b] ∧ l = (p.line : Int) - 1 ∧ 0 ≤ a ∧ b - a = n ∧
      a = (if adjust then (p.col : Int) else p.col - 1) := by
  obtain ⟨h1, h2, h3, h4⟩ := hp
  rw [rangeFromName_eq p n adjust ⟨h1, h2, h3, h4⟩ h]
  cases adjust
  · refine ⟨_, _, _, rfl, rfl, ?_, ?_, rfl⟩ <;> omega
  · refine ⟨_, _, _, rfl, rfl, ?_, ?_, rfl⟩ <;> omega

/-- **C07**, the conversion to 32 bits in general (lines and columns beyond any that a Go file can have): the result is always in the range of
32 bits and differs by a multiple of 2^32. -/
theorem C07_conversion (x : Int) : -2 ^ 31 ≤ toInt32 x ∧ toInt32 x < 2 ^ 31 ∧ ∃ k : Int, toInt32 x = x + k * 2 ^ 32 := by
  unfold toInt32
  refine ⟨?_, ?_, ?_⟩
  · have := Int.le_bmod (x := x) (m := 2 ^ 32) (by decide)
    simpa using this
  · have := Int.bmod_lt (x := x) (m := 2 ^ 32) (by decide)
    simpa using this
  · have h := Int.emod_add_mul_ediv x (2 ^ 32)
    have h2 : Int.bmod x (2 ^ 32) = x % 2 ^ 32 ∨ Int.bmod x (2 ^ 32) = x % 2 ^ 32 - 2 ^ 32 := by
      unfold Int.bmod
      simp only
      split <;> simp
    rcases h2 with h2 | h2
    · exact ⟨-(x / 2 ^ 32), by rw [h2]; omega⟩
    · exact ⟨-(x / 2 ^ 32) - 1, by rw [h2]; omega⟩

/-- **C07** for a name in quotes (a package name object named after its import path): the range leaves out the quotes, the first and the last
column. -/
theorem C07_quotes_left_out (s e : Position) (hs : PosOk s) (he : PosOk e) (hs' : s.col + 1 < 2 ^ 31) (path : Str) (name : Str) (id line : Nat) (pkg : Option Str) :
    scipRange s e (ObjData.quotedPkgName ⟨id, .pkgName path, '"' :: name, pkg, line⟩) =
      (if s.line = e.line then [(s.line : Int) - 1, (s.col : Int), (e.col : Int) - 2] else [(s.line : Int) - 1, (s.col : Int), (e.line : Int) - 1, (e.col : Int) - 2]) := by
  have hq : ObjData.quotedPkgName ⟨id, .pkgName path, '"' :: name, pkg, line⟩ = true := by
    simp [ObjData.quotedPkgName, Str.hasPrefix, List.isPrefixOf]
  rw [hq]
  obtain ⟨h1, h2, h3, h4⟩ := hs
  obtain ⟨k1, k2, k3, k4⟩ := he
  have a1 : toInt32 ((s.line : Int) - 1) = s.line - 1 := toInt32_of_lt _ (by omega) (by omega)
  have a2 : toInt32 ((s.col : Int) - 1) = s.col - 1 := toInt32_of_lt _ (by omega) (by omega)
  have a3 : toInt32 ((e.line : Int) - 1) = e.line - 1 := toInt32_of_lt _ (by omega) (by omega)
  have a4 : toInt32 ((e.col : Int) - 1) = e.col - 1 := toInt32_of_lt _ (by omega) (by omega)
  have a5 : toInt32 ((s.col : Int) - 1 + 1) = s.col := by rw [toInt32_of_lt _ (by omega) (by omega)]; omega
  have a6 : toInt32 ((e.col : Int) - 1 - 1) = e.col - 2 := by rw [toInt32_of_lt _ (by omega) (by omega)]; omega
  unfold scipRange
  simp only [a1, a2, a3, a4, if_true, a5, a6]
  by_cases h : s.line = e.line
  · simp [h]
  · have : (s.line : Int) - 1 ≠ e.line - 1 := by omega
    simp [h, this]

/-- Only package names are treated like this, and no Go identifier begins with a quote. -/
theorem C07_quotes_only (o : ObjData) (h : o.quotedPkgName = true) : (∃ path, o.cls = .pkgName path) ∧ ∃ name, o.name = '"' :: name := by
  unfold ObjData.quotedPkgName at h
  split at h
  · rename_i path hc
    refine ⟨⟨path, hc⟩, ?_⟩
    cases hn : o.name with
    | nil => rw [hn] at h; simp [Str.hasPrefix, List.isPrefixOf] at h
    | cons c l =>
      rw [hn] at h
      simp only [Str.hasPrefix, List.isPrefixOf, Bool.and_true, beq_iff_eq] at h
      exact ⟨l, by rw [← h]⟩
  · simp at h

example : PosOk ⟨3, 1⟩ ∧ scipRange ⟨3, 1⟩ ⟨5, 2⟩ false = [2, 0, 4, 1] ∧ scipRange ⟨3, 2⟩ ⟨3, 5⟩ false = [2, 1, 4] := by
  refine ⟨⟨by decide, by decide, by decide, by decide⟩, by decide, by decide⟩

/-- The part of a line that a one-line range covers. -/
def Spec.covered (line : Str) (range : List Int) : Str :=
  match range with
  | [_, a, b] => (line.drop a.toNat).take (b.toNat - a.toNat)
  | _ => []

/-- **C08**: if the line at a position reads `"path"`, the range of an import reference made for the package `path` covers
`path`; and if it reads `name`, the range made for `name` covers `name`. -/
theorem C08_import_and_package_clause (p : Position) (hp : PosOk p) (line before path rest : Str)
    (hlen : before.length + 1 = p.col) (h : p.col + 1 + path.length < 2 ^ 31) :
    (line = before ++ '"' :: (path ++ '"' :: rest) → covered line (rangeFromName p path.length true) = path) ∧
    (line = before ++ (path ++ rest) → covered line (rangeFromName p path.length false) = path) := by
  rw [rangeFromName_eq p _ true hp h, rangeFromName_eq p _ false hp h]
  constructor
  · rintro rfl
    simp only [if_true, covered]
    have e1 : ((p.col : Int)).toNat = before.length + 1 := by omega
    have e2 : ((p.col : Int) + path.length).toNat = before.length + 1 + path.length := by omega
    rw [e1, e2]
    have : before.length + 1 + path.length - (before.length + 1) = path.length := by omega
    rw [this]
    have e3 : (before ++ '"' :: (path ++ '"' :: rest)) = (before ++ ['"']) ++ (path ++ '"' :: rest) := by simp
    rw [e3, List.drop_left' (by simp), List.take_left' rfl]
  · rintro rfl
    simp only [Bool.false_eq_true, if_false, covered]
    have e1 : ((p.col : Int) - 1).toNat = before.length := by omega
    have e2 : ((p.col : Int) - 1 + path.length).toNat = before.length + path.length := by omega
    rw [e1, e2]
    have : before.length + path.length - before.length = path.length := by omega
    rw [this, List.drop_left' rfl, List.take_left' rfl]

example : PosOk ⟨3, 8⟩ ∧ covered go!"import \"net/http\"" (rangeFromName ⟨3, 8⟩ 8 true) = go!"net/http" := by
  refine ⟨⟨by decide, by decide, by decide, by decide⟩, by decide⟩

/-- Where the package path is not the path in the source (the vendored packages of the standard library), the range does
not cover the text between the quotes. -/
theorem C08_vendored_path_overruns :
    covered go!"import \"a/b\" // comment" (rangeFromName ⟨3, 8⟩ go!"vendor/a/b".length true) = go!"a/b\" // co" := by
  decide

/-! ## The walk -/

/-- The identifiers of a file in source order. -/
def fileEvents (env : FileEnv) (g : Global) (decls : List Node) : List Event :=
  traverseList env (fun p => (g.getPkgSymbol p).isSome) decls

/-- The file `decls` was parsed and type-checked, and has been visited, after any number of earlier questions to the symbol
table `g`, with result `st`; `pkgOcc` is the occurrence of the package clause. -/
structure Visited (env : FileEnv) (g : Global) (objs : List Obj) (decls : List Node) (pkgOcc : Occurrence)
    (st : FState) : Prop where
  parsed : ParsedFile env (fun p => (g.getPkgSymbol p).isSome) decls
  typed : TypedFile env (fileEvents env g decls) objs g
  visited : ∃ name g', Asked env.scopes g objs g' ∧
    fileWalk env (.file name decls) (newFileVisitor pkgOcc g') = some st

theorem Visited.inv {env g objs decls pkgOcc st} (h : Visited env g objs decls pkgOcc st) :
    Inv env g objs [pkgOcc] (fileEvents env g decls) st := by
  obtain ⟨name, g', hh, hw⟩ := h.visited
  have := fileWalk_spec env g objs g' name decls pkgOcc h.parsed h.typed hh
  rw [hw] at this
  exact this

/-- The occurrences of a document, event by event. -/
theorem Visited.occs {env g objs decls pkgOcc st} (h : Visited env g objs decls pkgOcc st) :
    st.occs = pkgOcc :: occsFrom env g [] (fileEvents env g decls) := h.inv.occs

theorem occsFrom_mem {env g} {es a b : List Event} {e : Event} (h : es = a ++ e :: b) (o : Occurrence)
    (ho : o ∈ occsAt env g a e) : o ∈ occsFrom env g [] es := by
  subst h
  rw [occsFrom_append]
  simp only [List.nil_append, occsFrom, List.mem_append]
  exact .inr (.inl ho)

theorem mem_occsFrom {env g} (before es : List Event) (o : Occurrence) (h : o ∈ occsFrom env g before es) :
    ∃ a e b, es = a ++ e :: b ∧ o ∈ occsAt env g (before ++ a) e := by
  induction es generalizing before with
  | nil => simp [occsFrom] at h
  | cons e es ih =>
    simp only [occsFrom, List.mem_append] at h
    rcases h with h | h
    · exact ⟨[], e, es, rfl, by simpa using h⟩
    · obtain ⟨a, e', b, rfl, ho⟩ := ih _ h
      exact ⟨e :: a, e', b, rfl, by simpa using ho⟩

/-- Filtering and mapping the occurrences of a document, event by event. -/
theorem occsFrom_filterMap {α} (env g) (f : Occurrence → Option α) (before es : List Event) (spec : List Event → Event → List α)
    (h : ∀ a e, (occsAt env g a e).filterMap f = spec a e) :
    (occsFrom env g before es).filterMap f =
      ((List.range es.length).map (fun k => match es[k]? with | some e => spec (before ++ es.take k) e | none => [])).flatten := by
  induction es generalizing before with
  | nil => simp [occsFrom]
  | cons e es ih =>
    simp only [occsFrom, List.filterMap_append, h, List.length_cons, List.range_succ_eq_map, List.map_cons,
      List.flatten_cons, List.getElem?_cons_zero, List.take_zero, List.append_nil, List.map_map]
    congr 1
    rw [ih]
    congr 1
    apply List.map_congr_left
    intro k _
    simp

/-! ### Symbols of locals -/

/-- A symbol of a file-local object. -/
def Spec.isLocalSymbol (s : Str) : Bool := s.hasPrefix go!"local "

/-- The symbols collected from packages and those of packages are global symbols. -/
structure GlobalSymbols (g : Global) : Prop where
  tables : ∀ path r pos info, g.symbols.lookup path = some r → r.table.get pos = some info →
    isLocalSymbol info.symbol = false
  packages : ∀ path s, g.getPkgSymbol path = some s → isLocalSymbol s = false
  fresh : g.composer.compositions = []

/-- No answer of the global symbol table is a local symbol. -/
theorem answer_global (scopes) (g : Global) (hg : GlobalSymbols g) (r : Obj) (info : SymInfo)
    (h : (g.getSymbolOfObject scopes r).2 = .info info) : isLocalSymbol info.symbol = false := by
  unfold Global.getSymbolOfObject at h
  dsimp only at h
  split at h
  · simp at h
  · split at h <;> try (simp at h; done)
    split at h
    · split at h <;> try (simp at h; done)
      split at h <;> simp at h
    · rename_i path hp
      split at h
      · simp at h
      · split at h
        · rename_i i hi
          simp only [Found.info.injEq] at h; subst h
          obtain ⟨c, _, hc⟩ := List.exists_of_findSome?_eq_some hi
          unfold Global.getSymbolInformation at hc
          obtain ⟨r', hr', ht⟩ := Option.bind_eq_some_iff.1 hc
          exact hg.tables _ _ _ _ hr' ht
        · split at h
          · rename_i rec hrec
            split at h
            · simp at h
            · simp only [Found.info.injEq] at h; subst h
              rename_i hne
              show isLocalSymbol (g.composer.compose scopes (some rec.module) (some r)).2 = false
              have hcomp := hg.fresh
              unfold Composer.compose
              simp only [hp, hcomp, List.lookup_nil]
              split
              · rename_i hds
                exfalso
                apply hne
                unfold Composer.compose
                simp only [hp, hcomp, List.lookup_nil, hds, if_true]
              · exact (C02_global_not_local _ _ 0).1
          · simp at h

theorem localDef_filter (env : FileEnv) (g : Global) (hg : GlobalSymbols g) (es : List Event) (objs)
    (ht : TypedFile env es objs g) (hloc : ∀ q info, env.pkgTable.get q = some info → isLocalSymbol info.symbol = false)
    (a : List Event) (e : Event) :
    (occsAt env g a e).filterMap (fun o => if o.isDef ∧ isLocalSymbol o.symbol = true then some o.symbol else none) =
      match localDecl env e with
      | some _ => [localSymbol (localDecls env a).length]
      | none => [] := by
  have hl : ∀ n, isLocalSymbol (localSymbol n) = true := localSymbol_prefix
  cases e with
  | qualifier i o imported =>
    simp only [occsAt, localDecl]
    split <;> simp
  | imp uid name pathPos =>
    simp only [occsAt, localDecl]
    have : ∀ o ∈ importOccs env g uid name pathPos, o.isDef = false := by
      intro o ho
      unfold importOccs at ho
      split at ho
      · simp at ho
      · split at ho
        · simp at ho
        · simp only [List.mem_append, List.mem_singleton] at ho
          rcases ho with ho | rfl
          · split at ho
            · simp at ho
            · split at ho
              · simp at ho
              · simp at ho; subst ho; rfl
          · rfl
    rw [List.filterMap_eq_nil_iff]
    intro o ho
    simp [this o ho]
  | ident i decl =>
    simp only [occsAt, List.filterMap_append]
    have href : (refOccs env g (a ++ [.ident i decl]) i).filterMap
        (fun o => if o.isDef ∧ isLocalSymbol o.symbol = true then some o.symbol else none) = [] := by
      rw [List.filterMap_eq_nil_iff]
      intro o ho
      unfold refOccs at ho
      split at ho
      · simp at ho
      · split at ho
        · simp at ho
        · split at ho
          · simp at ho; subst ho; simp
          · simp at ho
    rw [href, List.append_nil]
    unfold defOccs localDecl
    by_cases hb : i.name = go!"_"
    · simp [hb]
    · simp only [hb, if_false]
      cases hc : env.caseClauses i.pos with
      | some obj => simp [hl]
      | none =>
        cases hd : env.pkg.defs i.uid with
        | none => simp
        | some d =>
          cases hp : env.pkgTable.get d.self.pos with
          | some info => simp [hloc _ _ hp, hp]
          | none => simp [hl, hp]

/-- Numbering by counting. -/
theorem number_filter {α β} (f : α → Option β) (es : List α) (pre : List α) :
    ((List.range es.length).map (fun k => match es[k]? with
      | some e => (match f e with
        | some _ => [localSymbol ((pre ++ es.take k).filterMap f).length]
        | none => [])
      | none => [])).flatten =
    (List.range (es.filterMap f).length).map (fun k => localSymbol (k + (pre.filterMap f).length)) := by
  induction es generalizing pre with
  | nil => simp
  | cons e es ih =>
    simp only [List.length_cons, List.range_succ_eq_map, List.map_cons, List.flatten_cons, List.getElem?_cons_zero,
      List.take_zero, List.append_nil, List.map_map]
    have hrest := ih (pre ++ [e])
    have hcongr : (List.range es.length).map ((fun k => match (e :: es)[k]? with
        | some e' => (match f e' with
          | some _ => [localSymbol ((pre ++ (e :: es).take k).filterMap f).length]
          | none => [])
        | none => []) ∘ Nat.succ) = (List.range es.length).map (fun k => match es[k]? with
        | some e' => (match f e' with
          | some _ => [localSymbol (((pre ++ [e]) ++ es.take k).filterMap f).length]
          | none => [])
        | none => []) := by
      apply List.map_congr_left
      intro k _
      simp
    rw [hcongr, hrest]
    cases hf : f e with
    | none => simp [hf]
    | some b =>
      simp only [List.filterMap_cons, hf, List.length_cons, List.range_succ_eq_map, List.map_cons, List.map_map]
      simp only [List.filterMap_append, List.filterMap_cons, hf, List.filterMap_nil, List.length_append, List.length_cons,
        List.length_nil, Nat.zero_add, List.singleton_append, List.cons.injEq, true_and]
      apply List.map_congr_left
      intro k _
      show localSymbol _ = localSymbol _
      congr 1
      simp only [Nat.succ_eq_add_one]
      omega

/-- **C09**: in the document of a file, the definitions with a local symbol carry, in source order, the symbols `local 0`,
`local 1`, … without gaps or repetitions; there is one for every file-local declaration, and these have different positions. -/
theorem C09_locals_numbered {env g objs decls pkgOcc st} (h : Visited env g objs decls pkgOcc st)
    (hg : GlobalSymbols g) (hp : isLocalSymbol pkgOcc.symbol = false) :
    let locals := localDecls env (fileEvents env g decls)
    (st.occs.filter (fun o => o.isDef && isLocalSymbol o.symbol)).map (·.symbol) =
      (List.range locals.length).map localSymbol ∧
    ((st.occs.filter (fun o => o.isDef && isLocalSymbol o.symbol)).map (·.symbol)).Nodup ∧
    (locals.map (·.1)).Nodup := by
  intro locals
  have hloc : ∀ q info, env.pkgTable.get q = some info → isLocalSymbol info.symbol = false := by
    intro q info hq
    rw [← h.typed.table] at hq
    unfold Global.getSymbolInformation at hq
    obtain ⟨r, hr, hi⟩ := Option.bind_eq_some_iff.1 hq
    exact hg.tables _ _ _ _ hr hi
  have h1 : (st.occs.filter (fun o => o.isDef && isLocalSymbol o.symbol)).map (·.symbol) =
      (List.range locals.length).map localSymbol := by
    rw [h.occs]
    have : ∀ l : List Occurrence, (l.filter (fun o => o.isDef && isLocalSymbol o.symbol)).map (·.symbol) =
        l.filterMap (fun o => if o.isDef ∧ isLocalSymbol o.symbol = true then some o.symbol else none) := by
      intro l
      induction l with
      | nil => rfl
      | cons o l ih =>
        by_cases ho : o.isDef = true ∧ isLocalSymbol o.symbol = true
        · simp [ho.1, ho.2, ih]
        · have : (o.isDef && isLocalSymbol o.symbol) = false := by
            simpa [Bool.and_eq_false_iff, not_and_or] using ho
          rw [List.filter_cons_of_neg (by simp [this]), List.filterMap_cons_none (by simp [ho]), ih]
    rw [this, List.filterMap_cons_none (by simp [hp]),
      occsFrom_filterMap env g _ [] _ _ (localDef_filter env g hg _ objs h.typed hloc)]
    have := number_filter (localDecl env) (fileEvents env g decls) []
    simp only [List.filterMap_nil, List.length_nil, Nat.add_zero] at this
    refine Eq.trans ?_ this
    congr 1
    apply List.map_congr_left
    intro k _
    cases (fileEvents env g decls)[k]? with
    | none => rfl
    | some e => dsimp only; cases localDecl env e <;> rfl
  refine ⟨h1, ?_, h.inv.nodup⟩
  rw [h1]
  exact List.Nodup.map (fun a b => localSymbol_inj) List.nodup_range

/-- What a file-local declaration contributes. -/
theorem localDecl_def {env : FileEnv} {g a i decl d} (hd : localDecl env (.ident i decl) = some d) :
    ∃ encl, (⟨identSpan env i, localSymbol (localDecls env a).length, true, encl, false⟩ : Occurrence) ∈
      occsAt env g a (.ident i decl) := by
  unfold localDecl at hd
  by_cases hb : i.name = go!"_"
  · simp [hb] at hd
  · simp only [hb, if_false] at hd
    simp only [occsAt, List.mem_append]
    cases hc : env.caseClauses i.pos with
    | some obj => exact ⟨none, .inl (by simp [defOccs, hb, hc])⟩
    | none =>
      rw [hc] at hd
      cases hdef : env.pkg.defs i.uid with
      | none => rw [hdef] at hd; simp at hd
      | some o =>
        rw [hdef] at hd
        cases hp : env.pkgTable.get o.self.pos with
        | some info => simp [hp] at hd
        | none => exact ⟨_, .inl (by simp only [defOccs, hb, hc, hdef, hp, if_false, List.mem_singleton]; rfl)⟩

theorem findIdx_first {l₁ l₂ : List (Nat × Obj)} {d : Nat × Obj} (h : d.1 ∉ l₁.map (·.1)) :
    (l₁ ++ d :: l₂).findIdx? (fun x => x.1 == d.1) = some l₁.length := by
  induction l₁ with
  | nil => simp [List.findIdx?_cons]
  | cons x l₁ ih =>
    simp only [List.map_cons, List.mem_cons, not_or] at h
    have : (x.1 == d.1) = false := by simpa using fun e => h.1 e.symm
    simp only [List.cons_append, List.findIdx?_cons, this, Bool.false_eq_true, if_false]
    rw [ih h.2]; rfl

/-- **C10**: if an identifier makes a file-local declaration and a later identifier refers to the object at that position,
then the document has a definition and a reference for them with the same symbol, `local k` for the `k` local declarations
before. -/
theorem C10_local_reference {env g objs decls pkgOcc st} (h : Visited env g objs decls pkgOcc st)
    (a b c : List Event) (i u : Ident) (di du : Option (Nat × Nat)) (d : Nat × Obj) (r : Obj)
    (hes : fileEvents env g decls = a ++ .ident i di :: (b ++ .ident u du :: c))
    (hd : localDecl env (.ident i di) = some d) (hb : u.name ≠ go!"_") (hcc : env.caseClauses u.pos = none)
    (hu : env.pkg.uses u.uid = some r) (hpos : r.self.pos = d.1) :
    let s := localSymbol (localDecls env a).length
    (∃ encl, (⟨identSpan env i, s, true, encl, false⟩ : Occurrence) ∈ st.occs) ∧
    (⟨identSpan env u, s, false, none, false⟩ : Occurrence) ∈ st.occs := by
  intro s
  rw [h.occs]
  constructor
  · obtain ⟨encl, ho⟩ := localDecl_def (g := g) (a := a) hd
    exact ⟨encl, List.mem_cons_of_mem _ (occsFrom_mem hes _ ho)⟩
  · have hes' : fileEvents env g decls = (a ++ .ident i di :: b) ++ .ident u du :: c := by rw [hes]; simp
    refine List.mem_cons_of_mem _ (occsFrom_mem hes' _ ?_)
    simp only [occsAt, List.mem_append]
    right
    have hnd := h.inv.nodup
    rw [hes] at hnd
    have hls : localSymbolAt env (a ++ .ident i di :: b ++ [.ident u du]) r.self.pos = some s := by
      unfold localSymbolAt
      have e : a ++ .ident i di :: b ++ [.ident u du] = a ++ ([.ident i di] ++ (b ++ [.ident u du])) := by simp
      rw [e, localDecls_append, localDecls_append]
      have e2 : localDecls env [.ident i di] = [d] := by simp [localDecls, hd]
      rw [e2, hpos]
      have hnot : d.1 ∉ (localDecls env a).map (·.1) := by
        rw [localDecls_append, List.map_append, List.nodup_append] at hnd
        intro hm
        refine hnd.2.2 _ hm d.1 ?_ rfl
        have : localDecls env (.ident i di :: (b ++ .ident u du :: c)) = d :: localDecls env (b ++ .ident u du :: c) := by
          simp [localDecls, hd]
        rw [this]; simp
      rw [List.singleton_append, findIdx_first hnot]; rfl
    have htar : target env g (a ++ .ident i di :: b ++ [.ident u du]) r = some (s, false) := by
      unfold target; rw [hls]
    unfold refOccs
    simp only [hb, hcc, hu, htar]
    simp

/-- **C10** (converse): a reference occurrence with a local symbol refers to the object at the position of the
declaration with this symbol, made not after it. -/
theorem C10_local_reference_converse {env g objs decls pkgOcc st} (h : Visited env g objs decls pkgOcc st)
    (hg : GlobalSymbols g) (hpk : isLocalSymbol pkgOcc.symbol = false) (o : Occurrence) (ho : o ∈ st.occs) (href : o.isDef = false)
    (hl : isLocalSymbol o.symbol = true) :
    ∃ a u du c r k, fileEvents env g decls = a ++ .ident u du :: c ∧ env.pkg.uses u.uid = some r ∧
      o.range = identSpan env u ∧ o.symbol = localSymbol k ∧
      ∃ d, (localDecls env (a ++ [.ident u du]))[k]? = some d ∧ d.1 = r.self.pos := by
  rw [h.occs] at ho
  rcases List.mem_cons.1 ho with rfl | ho
  · rw [hpk] at hl; simp at hl
  · obtain ⟨a, e, c, hes, ho⟩ := mem_occsFrom _ _ _ ho
    simp only [List.nil_append] at ho
    cases e with
    | qualifier i o' imported =>
      simp only [occsAt] at ho
      split at ho
      · rename_i sym hs
        simp at ho; subst ho
        rw [hg.packages _ _ hs] at hl; simp at hl
      · simp at ho
    | imp uid name pathPos =>
      simp only [occsAt, importOccs] at ho
      split at ho
      · simp at ho
      · split at ho
        · simp at ho
        · rename_i sym hs
          have : o.symbol = sym := by
            simp only [List.mem_append, List.mem_singleton] at ho
            rcases ho with ho | rfl
            · split at ho
              · simp at ho
              · split at ho
                · simp at ho
                · simp at ho; subst ho; rfl
            · rfl
          rw [this, hg.packages _ _ hs] at hl; simp at hl
    | ident u du =>
      simp only [occsAt, List.mem_append] at ho
      rcases ho with ho | ho
      · exfalso
        unfold defOccs at ho
        split at ho
        · simp at ho
        · split at ho
          · simp at ho; subst ho; simp at href
          · split at ho
            · simp at ho
            · dsimp only at ho
              split at ho <;> (simp at ho; subst ho; simp at href)
      · unfold refOccs at ho
        split at ho
        · simp at ho
        · split at ho
          · simp at ho
          · rename_i r hr
            split at ho
            · rename_i s dep ht
              simp at ho; subst ho
              unfold target at ht
              split at ht
              · rename_i s' hs'
                simp only [Option.some.injEq, Prod.mk.injEq] at ht
                obtain ⟨rfl, rfl⟩ := ht
                unfold localSymbolAt at hs'
                obtain ⟨k, hk, hks⟩ := Option.map_eq_some_iff.1 hs'
                rw [List.findIdx?_eq_some_iff_getElem] at hk
                obtain ⟨hlt, hk, _⟩ := hk
                refine ⟨a, u, du, c, r, k, hes, hr, rfl, hks.symm, _, List.getElem?_eq_getElem hlt, ?_⟩
                simpa using hk
              · split at ht
                · rename_i info hi
                  simp only [Option.some.injEq, Prod.mk.injEq] at ht
                  obtain ⟨rfl, rfl⟩ := ht
                  rw [answer_global env.scopes g hg r info hi] at hl
                  simp at hl
                · simp at ht
            · simp at ho

/-- Every local symbol that occurs is one of the declared ones. -/
theorem local_occurs {env g objs decls pkgOcc st} (h : Visited env g objs decls pkgOcc st) (hg : GlobalSymbols g)
    (hp : isLocalSymbol pkgOcc.symbol = false) (o : Occurrence) (ho : o ∈ st.occs) (hl : isLocalSymbol o.symbol = true) :
    ∃ k, k < (localDecls env (fileEvents env g decls)).length ∧ o.symbol = localSymbol k := by
  by_cases hdef : o.isDef = true
  · have h9 := (C09_locals_numbered h hg hp).1
    have hm : o.symbol ∈ (st.occs.filter (fun o => o.isDef && isLocalSymbol o.symbol)).map (·.symbol) :=
      List.mem_map.2 ⟨o, List.mem_filter.2 ⟨ho, by simp [hdef, hl]⟩, rfl⟩
    rw [h9] at hm
    obtain ⟨k, hk, he⟩ := List.mem_map.1 hm
    exact ⟨k, List.mem_range.1 hk, he.symm⟩
  · have hdef : o.isDef = false := by simpa using hdef
    obtain ⟨a, u, du, c, r, k, hes, _, _, hs, d, hd, _⟩ := C10_local_reference_converse h hg hp o ho hdef hl
    refine ⟨k, ?_, hs⟩
    have hlt := (List.getElem?_eq_some_iff.1 hd).1
    have e3 : fileEvents env g decls = (a ++ [Event.ident u du]) ++ c := by rw [hes]; simp
    rw [e3, localDecls_append env (a ++ [Event.ident u du]) c, List.length_append]
    omega

/-- **C11**: whatever the iteration order of the two maps, the document describes each local symbol exactly once, with the
name and kind of the declared object and with its type signature (for a renamed import `import name path`, and none for
the variable of a type switch, whose type differs from case to case); every local symbol that occurs in the document is described; and no other local symbol
is. -/
theorem C11_locals_described {env g objs decls pkgOcc st} (h : Visited env g objs decls pkgOcc st)
    (hg : GlobalSymbols g) (hp : isLocalSymbol pkgOcc.symbol = false) (objectString : Obj → Str) (path : Str)
    (order : Table) (ho : order.Perm env.pkgTable) (lorder : List (Nat × Local)) (hlo : lorder.Perm st.locals)
    (hkeys : ∀ q i, (q, i) ∈ env.pkgTable → isLocalSymbol i.symbol = false)
    (fileOf : Nat → Option Nat) (file : Nat) :
    let doc := toScipDocument env objectString path st order lorder fileOf file
    let locals := localDecls env (fileEvents env g decls)
    (∀ k d, locals[k]? = some d → ∃ i, doc.symbols.filter (fun x => x.symbol == localSymbol k) = [i] ∧
      i.displayName = d.2.self.name ∧ i.kind = kindForObject (some d.2.self) ∧ i.documentation = [] ∧
      i.signature = (if (env.caseClauses d.2.self.pos).isSome then none
        else match d.2.self.cls with
          | .pkgName imported => some (go!"import " ++ d.2.self.name ++ go!" " ++ imported)
          | _ => if objectString d.2 = [] then none else some (objectString d.2))) ∧
    (∀ i ∈ doc.symbols, isLocalSymbol i.symbol = true → ∃ k < locals.length, i.symbol = localSymbol k) ∧
    (∀ o ∈ doc.occurrences, isLocalSymbol o.symbol = true → ∃ i ∈ doc.symbols, i.symbol = o.symbol) := by
  intro doc locals
  have hloc := h.inv.locals
  have hglob : ∀ i ∈ order.symbolsForFile fileOf file, isLocalSymbol i.symbol = false := by
    intro i hi
    obtain ⟨q, hm, _⟩ := (C19_listed_iff env.pkgTable order ho fileOf file i).1 hi
    exact hkeys q i hm
  -- the descriptions of the locals
  have hdesc : doc.symbols = order.symbolsForFile fileOf file ++ lorder.map (fun e => localInfo env objectString e.2) := rfl
  have hsyms : (lorder.map (fun e => (localInfo env objectString e.2).symbol)).Perm ((List.range locals.length).map localSymbol) := by
    have h1 : (lorder.map (fun e => (localInfo env objectString e.2).symbol)).Perm (st.locals.map (fun e => e.2.symbol)) :=
      hlo.map _
    refine h1.trans ?_
    rw [hloc]
    have : ∀ (ds : List (Nat × Obj)) n, ((ds.zipIdx n).map fun p => (p.1.1, (⟨localSymbol p.2, p.1.2⟩ : Local))).map
        (fun e => e.2.symbol) = (List.range ds.length).map (fun k => localSymbol (n + k)) := by
      intro ds
      induction ds with
      | nil => intro n; rfl
      | cons d ds ih =>
        intro n
        simp only [List.zipIdx_cons, List.map_cons, List.length_cons, List.range_succ_eq_map, List.map_map]
        have := ih (n + 1)
        simp only [List.map_map] at this
        rw [this]
        simp only [Nat.add_zero, List.cons.injEq, true_and]
        apply List.map_congr_left
        intro k _
        show localSymbol _ = localSymbol _
        congr 1
        simp only [Nat.succ_eq_add_one]
        omega
    have h2 := this (localDecls env (fileEvents env g decls)) 0
    unfold localMap
    rw [h2]
    simp only [Nat.zero_add]
    exact List.Perm.refl _
  have hnd : (lorder.map (fun e => (localInfo env objectString e.2).symbol)).Nodup :=
    hsyms.nodup_iff.2 (List.Nodup.map (fun a b => localSymbol_inj) List.nodup_range)
  refine ⟨?_, ?_, ?_⟩
  · intro k d hk
    have hmem : (d.1, (⟨localSymbol k, d.2⟩ : Local)) ∈ lorder := by
      rw [hlo.mem_iff, hloc]
      unfold localMap
      refine List.mem_map.2 ⟨(d, k), ?_, rfl⟩
      rw [List.mem_zipIdx_iff_getElem?]
      exact hk
    refine ⟨localInfo env objectString ⟨localSymbol k, d.2⟩, ?_, rfl, rfl, rfl, ?_⟩
    case refine_2 =>
      simp only [localInfo]
      cases hcc : env.caseClauses d.2.self.pos with
      | some _ => simp
      | none => cases hcls : d.2.self.cls <;> simp [signatureText, hcls]
    rw [hdesc, List.filter_append]
    have h1 : (order.symbolsForFile fileOf file).filter (fun x => x.symbol == localSymbol k) = [] := by
      rw [List.filter_eq_nil_iff]
      intro i hi
      have := hglob i hi
      intro he
      rw [beq_iff_eq] at he
      rw [he] at this
      unfold isLocalSymbol at this
      rw [localSymbol_prefix] at this
      simp at this
    rw [h1, List.nil_append]
    -- exactly one description
    have key : ∀ (l : List (Nat × Local)) (x : Nat × Local), x ∈ l →
        (l.map (fun e => (localInfo env objectString e.2).symbol)).Nodup →
        (l.map (fun e => localInfo env objectString e.2)).filter
          (fun y => y.symbol == (localInfo env objectString x.2).symbol) = [localInfo env objectString x.2] := by
      intro l
      induction l with
      | nil => intro x hx; simp at hx
      | cons y l ih =>
        intro x hx hn
        simp only [List.map_cons, List.nodup_cons] at hn
        rcases List.mem_cons.1 hx with rfl | hx
        · rw [List.map_cons, List.filter_cons_of_pos (by simp)]
          congr 1
          rw [List.filter_eq_nil_iff]
          intro z hz he
          obtain ⟨w, hw, rfl⟩ := List.mem_map.1 hz
          rw [beq_iff_eq] at he
          exact hn.1 (List.mem_map.2 ⟨w, hw, he⟩)
        · rw [List.map_cons, List.filter_cons_of_neg]
          · exact ih x hx hn.2
          · intro he
            rw [beq_iff_eq] at he
            exact hn.1 (List.mem_map.2 ⟨x, hx, he.symm⟩)
    exact key lorder _ hmem hnd
  · intro i hi hl
    rw [hdesc, List.mem_append] at hi
    rcases hi with hi | hi
    · rw [hglob i hi] at hl; simp at hl
    · obtain ⟨e, he, rfl⟩ := List.mem_map.1 hi
      have : (localInfo env objectString e.2).symbol ∈ (List.range locals.length).map localSymbol :=
        hsyms.mem_iff.1 (List.mem_map.2 ⟨e, he, rfl⟩)
      obtain ⟨k, hk, hke⟩ := List.mem_map.1 this
      exact ⟨k, List.mem_range.1 hk, hke.symm⟩
  · intro o ho' hl
    obtain ⟨k, hk, hks⟩ := local_occurs h hg hp o ho' hl
    have : localSymbol k ∈ lorder.map (fun e => (localInfo env objectString e.2).symbol) :=
      hsyms.mem_iff.2 (List.mem_map.2 ⟨k, List.mem_range.2 hk, rfl⟩)
    obtain ⟨e, he, hes⟩ := List.mem_map.1 this
    exact ⟨localInfo env objectString e.2, by rw [hdesc]; exact List.mem_append_right _ (List.mem_map.2 ⟨e, he, rfl⟩),
      by rw [hks]; exact hes⟩

/-! ### Definitions and references -/

/-- The identifier declares something: it is not blank and is the variable of a type switch or has an object. -/
def Spec.declares (env : FileEnv) (i : Ident) : Bool :=
  i.name ≠ go!"_" && ((env.caseClauses i.pos).isSome || (env.pkg.defs i.uid).isSome)

/-- **C12**: the definition occurrences of the document are, in order, that of the package clause and one for every
declaring identifier, with its range. -/
theorem C12_definitions {env g objs decls pkgOcc st} (h : Visited env g objs decls pkgOcc st)
    (hpk : pkgOcc.isDef = true) :
    (st.occs.filter (·.isDef)).map (·.range) =
      pkgOcc.range :: ((identsOf (fileEvents env g decls)).filter (declares env)).map (identSpan env) := by
  rw [h.occs, List.filter_cons_of_pos hpk, List.map_cons]
  congr 1
  generalize fileEvents env g decls = es
  suffices hg : ∀ before, ((occsFrom env g before es).filter (·.isDef)).map (·.range) =
      ((identsOf es).filter (declares env)).map (identSpan env) from hg []
  induction es with
  | nil => intro before; rfl
  | cons e es ih =>
    intro before
    simp only [occsFrom, List.filter_append, List.map_append, ih]
    have hcons : identsOf (e :: es) = identsOf [e] ++ identsOf es := identsOf_append [e] es
    rw [hcons, List.filter_append, List.map_append]
    congr 1
    cases e with
    | qualifier i o imported => simp only [occsAt, identsOf]; split <;> simp
    | imp uid name pathPos =>
      have : ((occsAt env g before (.imp uid name pathPos)).filter (·.isDef)) = [] := by
        rw [List.filter_eq_nil_iff]
        intro o ho
        simp only [occsAt, importOccs] at ho
        split at ho
        · simp at ho
        · split at ho
          · simp at ho
          · simp only [List.mem_append, List.mem_singleton] at ho
            rcases ho with ho | rfl
            · split at ho
              · simp at ho
              · split at ho
                · simp at ho
                · simp at ho; subst ho; simp
            · simp
      rw [this]; rfl
    | ident i decl =>
      simp only [occsAt, List.filter_append]
      have href : (refOccs env g (before ++ [.ident i decl]) i).filter (·.isDef) = [] := by
        rw [List.filter_eq_nil_iff]
        intro o ho
        unfold refOccs at ho
        split at ho
        · simp at ho
        · split at ho
          · simp at ho
          · split at ho
            · simp at ho; subst ho; simp
            · simp at ho
      rw [href, List.append_nil]
      simp only [identsOf, List.filterMap_cons, List.filterMap_nil]
      unfold defOccs
      by_cases hb : i.name = go!"_"
      · simp [hb, declares]
      · simp only [hb, if_false]
        cases hc : env.caseClauses i.pos with
        | some obj => simp [declares, hb, hc]
        | none =>
          cases hd : env.pkg.defs i.uid with
          | none => simp [declares, hc, hd]
          | some d =>
            cases hp : env.pkgTable.get d.self.pos with
            | some info => simp [declares, hb, hd, hp]
            | none => simp [declares, hb, hd, hp]

/-- What an event contributes to the references. -/
def Spec.refsOf (env : FileEnv) (g : Global) (upto : List Event) : Event → List Occurrence
  | .ident i _ => refOccs env g upto i
  | .qualifier i _ imported => match g.getPkgSymbol imported with
    | some sym => [⟨identSpan env i, sym, false, none, false⟩]
    | none => []
  | .imp uid name pathPos => importOccs env g uid name pathPos

/-- **C13**: the reference occurrences of the document are, in order, those of its identifiers, qualifiers and imports. -/
theorem C13_references {env g objs decls pkgOcc st} (h : Visited env g objs decls pkgOcc st)
    (hpk : pkgOcc.isDef = true) :
    let es := fileEvents env g decls
    st.occs.filter (fun o => !o.isDef) =
      ((List.range es.length).map (fun k => match es[k]? with
        | some e => refsOf env g (es.take (k + 1)) e
        | none => [])).flatten := by
  intro es
  rw [h.occs, List.filter_cons_of_neg (by simp [hpk])]
  change (occsFrom env g [] es).filter _ = _
  have hfm : ∀ l : List Occurrence, l.filter (fun o => !o.isDef) =
      l.filterMap (fun o => if o.isDef then none else some o) := by
    intro l
    induction l with
    | nil => rfl
    | cons o l ih => cases ho : o.isDef <;> simp [ho, ih]
  rw [hfm, occsFrom_filterMap env g _ [] es (fun a e => refsOf env g (a ++ [e]) e)]
  · congr 1
    apply List.map_congr_left
    intro k hk
    have hk := List.mem_range.1 hk
    rw [List.getElem?_eq_getElem hk]
    simp only [List.nil_append]
    rw [List.take_succ_eq_append_getElem hk]
  · intro a e
    rw [← hfm]
    cases e with
    | qualifier i o imported => simp only [occsAt, refsOf]; cases g.getPkgSymbol imported <;> simp
    | imp uid name pathPos =>
      simp only [occsAt, refsOf]
      rw [List.filter_eq_self]
      intro o ho
      simp only [importOccs] at ho
      split at ho
      · simp at ho
      · split at ho
        · simp at ho
        · simp only [List.mem_append, List.mem_singleton] at ho
          rcases ho with ho | rfl
          · split at ho
            · simp at ho
            · split at ho
              · simp at ho
              · simp at ho; subst ho; simp
          · simp
    | ident i decl =>
      simp only [occsAt, refsOf, List.filter_append]
      have hdef : (defOccs env a i decl).filter (fun o => !o.isDef) = [] := by
        rw [List.filter_eq_nil_iff]
        intro o ho
        unfold defOccs at ho
        split at ho
        · simp at ho
        · split at ho
          · simp at ho; subst ho; simp
          · split at ho
            · simp at ho
            · dsimp only at ho
              split at ho <;> (simp at ho; subst ho; simp)
      rw [hdef, List.nil_append, List.filter_eq_self]
      intro o ho
      unfold refOccs at ho
      split at ho
      · simp at ho
      · split at ho
        · simp at ho
        · split at ho
          · simp at ho; subst ho; simp
          · simp at ho

/-- **C13** (one identifier): an identifier that refers to an object contributes exactly one reference, with its range, if
the object is a local declared so far or has a symbol in the global table, and none otherwise. -/
theorem C13_one_identifier (env : FileEnv) (g : Global) (upto : List Event) (i : Ident) (decl : Option (Nat × Nat)) (r : Obj)
    (hb : i.name ≠ go!"_") (hc : env.caseClauses i.pos = none) (hu : env.pkg.uses i.uid = some r) :
    (∀ s, localSymbolAt env upto r.self.pos = some s →
      refsOf env g upto (.ident i decl) = [⟨identSpan env i, s, false, none, false⟩]) ∧
    (localSymbolAt env upto r.self.pos = none → ∀ info, (g.getSymbolOfObject env.scopes r).2 = .info info →
      refsOf env g upto (.ident i decl) =
        [⟨identSpan env i, info.symbol, false, none, isDocDeprecated info.documentation⟩]) ∧
    (localSymbolAt env upto r.self.pos = none → (∀ info, (g.getSymbolOfObject env.scopes r).2 ≠ .info info) →
      refsOf env g upto (.ident i decl) = []) := by
  refine ⟨?_, ?_, ?_⟩
  · intro s hs
    simp [refsOf, refOccs, hb, hc, hu, target, hs]
  · intro hs info hi
    simp [refsOf, refOccs, hb, hc, hu, target, hs, hi]
  · intro hs hn
    simp only [refsOf, refOccs, hb, hc, hu, target, hs]
    cases hr : (g.getSymbolOfObject env.scopes r).2 with
    | info info => exact absurd hr (hn info)
    | _ => simp

/-! ### No crash -/

/-- **C14**: if the parser gives different positions to different identifiers, and the type checker records for a
declaring identifier an object at its position and uses a package name only in front of a selector, then visiting a file
never crashes. -/
theorem C14_no_crash (env : FileEnv) (g : Global) (objs : List Obj) (g' : Global) (name : Ident) (decls : List Node)
    (pkgOcc : Occurrence) (hh : Asked env.scopes g objs g')
    (hparsed : ParsedFile env (fun p => (g.getPkgSymbol p).isSome) decls)
    (htyped : TypedFile env (fileEvents env g decls) objs g)
    (hpos : ((identsOf (fileEvents env g decls)).map (·.pos)).Nodup)
    (hdefs : ∀ i ∈ identsOf (fileEvents env g decls), ∀ d, env.pkg.defs i.uid = some d → d.self.pos = i.pos)
    (huses : ∀ i ∈ identsOf (fileEvents env g decls), ∀ r, env.pkg.uses i.uid = some r → ∀ p, r.self.cls ≠ .pkgName p) :
    ∃ st, fileWalk env (.file name decls) (newFileVisitor pkgOcc g') = some st := by
  have := fileWalk_spec env g objs g' name decls pkgOcc hparsed htyped hh
  cases hw : fileWalk env (.file name decls) (newFileVisitor pkgOcc g') with
  | some st => exact ⟨st, rfl⟩
  | none =>
    exfalso
    rw [hw] at this
    obtain ⟨a, e, b, hes, hcl⟩ := this
    change fileEvents env g decls = a ++ e :: b at hes
    -- a local declaration is at the position of its identifier
    have hat : ∀ e' ∈ fileEvents env g decls, ∀ d, localDecl env e' = some d → ∃ i decl, e' = .ident i decl ∧ d.1 = i.pos := by
      intro e' he' d hd
      cases e' with
      | qualifier => simp [localDecl] at hd
      | imp => simp [localDecl] at hd
      | ident i decl =>
        refine ⟨i, decl, rfl, ?_⟩
        have hi : i ∈ identsOf (fileEvents env g decls) := by
          unfold identsOf; rw [List.mem_filterMap]; exact ⟨_, he', rfl⟩
        unfold localDecl at hd
        by_cases hb : i.name = go!"_"
        · simp [hb] at hd
        · simp only [hb, if_false] at hd
          cases hc : env.caseClauses i.pos with
          | some obj =>
            rw [hc] at hd; simp only [Option.some.injEq] at hd; subst hd
            exact (caseClauses_mem env _ _ hc).2
          | none =>
            rw [hc] at hd
            cases hdef : env.pkg.defs i.uid with
            | none => rw [hdef] at hd; simp at hd
            | some o =>
              rw [hdef] at hd
              dsimp only at hd
              split at hd
              · simp at hd
              · simp only [Option.some.injEq] at hd; subst hd
                exact hdefs i hi o hdef
    rcases hcl with ⟨d, hd, hm⟩ | ⟨i, decl, r, rfl, hu, hpanic⟩
    · obtain ⟨i, decl, rfl, hdi⟩ := hat e (by rw [hes]; simp) d hd
      obtain ⟨d', hd', he⟩ := List.mem_map.1 hm
      obtain ⟨e', he', hl'⟩ := List.mem_filterMap.1 hd'
      obtain ⟨i', decl', rfl, hdi'⟩ := hat e' (by rw [hes]; simp [he']) d' hl'
      rw [hes, identsOf_append, List.map_append, List.nodup_append] at hpos
      have h1 : i'.pos ∈ (identsOf a).map (·.pos) :=
        List.mem_map.2 ⟨i', by unfold identsOf; rw [List.mem_filterMap]; exact ⟨_, he', rfl⟩, rfl⟩
      have h2 : i.pos ∈ (identsOf (.ident i decl :: b)).map (·.pos) := by simp [identsOf]
      exact hpos.2.2 _ h1 _ h2 (by rw [← hdi', he, hdi])
    · have hi : i ∈ identsOf (fileEvents env g decls) := by
        rw [hes]; simp [identsOf]
      have hw := htyped.objects r (htyped.looked_up i hi r hu)
      exact (C20_classification env.scopes g r hw).1 (huses i hi r hu) hpanic

/-! ### Collected entities -/

/-- The definition of a collected entity. -/
theorem collected_definition {env g objs decls pkgOcc st} (h : Visited env g objs decls pkgOcc st)
    (i : Ident) (decl : Option (Nat × Nat)) (d : Obj) (info : SymInfo)
    (hi : Event.ident i decl ∈ fileEvents env g decls) (hb : i.name ≠ go!"_") (hc : env.caseClauses i.pos = none)
    (hd : env.pkg.defs i.uid = some d) (ht : env.pkgTable.get d.self.pos = some info) :
    (⟨identSpan env i, info.symbol, true, decl.map fun (s, e) => span (env.pkg.position s) (env.pkg.position e),
      isDocDeprecated info.documentation⟩ : Occurrence) ∈ st.occs := by
  obtain ⟨a, b, hes⟩ := List.append_of_mem hi
  rw [h.occs]
  refine List.mem_cons_of_mem _ (occsFrom_mem hes _ ?_)
  simp only [occsAt, List.mem_append]
  left
  simp only [defOccs, hb, hc, hd, ht, if_false, List.mem_singleton]

/-- **C15**: let a file declare an entity that was collected (it has an entry in the table of its package), and let any
file, of the same or another package, refer to it, where the entity's position is not the position of a local of that file.
Then the definition and the reference carry the same symbol, and the document of the declaring file describes it. -/
theorem C15_definition_and_reference_agree {g objs} {env₁ env₂ : FileEnv} {decls₁ decls₂ pkgOcc₁ pkgOcc₂ st₁ st₂}
    (h₁ : Visited env₁ g objs decls₁ pkgOcc₁ st₁) (h₂ : Visited env₂ g objs decls₂ pkgOcc₂ st₂)
    (i u : Ident) (decl du : Option (Nat × Nat)) (d r : Obj) (info : SymInfo)
    (hi : Event.ident i decl ∈ fileEvents env₁ g decls₁) (hb : i.name ≠ go!"_") (hc : env₁.caseClauses i.pos = none)
    (hd : env₁.pkg.defs i.uid = some d) (ht : env₁.pkgTable.get d.self.pos = some info)
    (hu : Event.ident u du ∈ fileEvents env₂ g decls₂) (hub : u.name ≠ go!"_") (huc : env₂.caseClauses u.pos = none)
    (hur : env₂.pkg.uses u.uid = some r)
    (hpos : r.self.pos = d.self.pos) (hpkg : r.self.pkg = some env₁.pkg.pkgPath) (hunsafe : env₁.pkg.pkgPath ≠ go!"unsafe")
    (hcls : (∀ p, r.self.cls ≠ .pkgName p) ∧ r.self.cls ≠ .nil ∧ r.self.cls ≠ .label)
    (hlocal : ∀ l ∈ localDecls env₂ (fileEvents env₂ g decls₂), l.1 ≠ d.self.pos)
    (objectString : Obj → Str) (path : Str) (order : Table) (hord : order.Perm env₁.pkgTable) (lorder : List (Nat × Local))
    (fileOf : Nat → Option Nat) (file : Nat) (hfile : fileOf d.self.pos = some file) :
    (∃ o ∈ st₁.occs, o.isDef = true ∧ o.range = identSpan env₁ i ∧ o.symbol = info.symbol) ∧
    (∃ o ∈ st₂.occs, o.isDef = false ∧ o.range = identSpan env₂ u ∧ o.symbol = info.symbol ∧
      o.deprecated = isDocDeprecated info.documentation) ∧
    info ∈ (toScipDocument env₁ objectString path st₁ order lorder fileOf file).symbols := by
  refine ⟨⟨_, collected_definition h₁ i decl d info hi hb hc hd ht, rfl, rfl, rfl⟩, ?_, ?_⟩
  · obtain ⟨a, b, hes⟩ := List.append_of_mem hu
    have hls : localSymbolAt env₂ (a ++ [.ident u du]) r.self.pos = none := by
      unfold localSymbolAt
      have : (localDecls env₂ (a ++ [.ident u du])).findIdx? (fun x => x.1 == r.self.pos) = none := by
        rw [List.findIdx?_eq_none_iff]
        intro x hx
        have hx' : x ∈ localDecls env₂ (fileEvents env₂ g decls₂) := by
          have e3 : fileEvents env₂ g decls₂ = (a ++ [Event.ident u du]) ++ b := by rw [hes]; simp
          rw [e3, localDecls_append env₂ (a ++ [Event.ident u du]) b]
          exact List.mem_append_left _ hx
        have := hlocal x hx'
        rw [hpos]
        simpa using this
      rw [this]; rfl
    have hans : (g.getSymbolOfObject env₂.scopes r).2 = .info info := by
      have ht' := ht
      rw [← h₁.typed.table] at ht'
      unfold Global.getSymbolInformation at ht'
      obtain ⟨rec, hrec, hinf⟩ := Option.bind_eq_some_iff.1 ht'
      refine C20_collected_entity env₂.scopes g r env₁.pkg.pkgPath rec info hpkg hunsafe ?_ hcls hrec (by rw [hpos]; exact hinf)
      rw [h₁.typed.fresh.2]; simp
    refine ⟨⟨identSpan env₂ u, info.symbol, false, none, isDocDeprecated info.documentation⟩, ?_, rfl, rfl, rfl, rfl⟩
    rw [h₂.occs]
    refine List.mem_cons_of_mem _ (occsFrom_mem hes _ ?_)
    simp only [occsAt, List.mem_append]
    right
    have := (C13_one_identifier env₂ g (a ++ [.ident u du]) u du r hub huc hur).2.1 hls info hans
    simp only [refsOf] at this
    rw [this]; simp
  · show info ∈ order.symbolsForFile fileOf file ++ _
    refine List.mem_append_left _ ((C19_listed_iff _ _ hord _ _ _).2 ⟨d.self.pos, ?_, hfile⟩)
    unfold Table.get at ht
    rw [List.lookup_eq_some_iff] at ht
    obtain ⟨l₁, l₂, he, _⟩ := ht
    rw [he]; simp

/-! ### Deprecation -/

/-- **C16**: a definition occurrence carries the Deprecated diagnostic iff the declared object was collected with a
documentation that is deprecated (see C66), and a reference occurrence iff it refers to something that is not a local and whose
symbol information in the global table has such a documentation. -/
theorem C16_deprecated {env g objs decls pkgOcc st} (h : Visited env g objs decls pkgOcc st)
    (hpk : pkgOcc.deprecated = false) (o : Occurrence) (ho : o ∈ st.occs) (hdep : o.deprecated = true) :
    ∃ i decl info, Event.ident i decl ∈ fileEvents env g decls ∧ o.range = identSpan env i ∧ o.symbol = info.symbol ∧
      isDocDeprecated info.documentation = true ∧
      (o.isDef = true ∧ (∃ d, env.pkg.defs i.uid = some d ∧ env.pkgTable.get d.self.pos = some info) ∨
       o.isDef = false ∧ (∃ r, env.pkg.uses i.uid = some r ∧ (g.getSymbolOfObject env.scopes r).2 = .info info)) := by
  rw [h.occs] at ho
  rcases List.mem_cons.1 ho with rfl | ho
  · rw [hpk] at hdep; simp at hdep
  · obtain ⟨a, e, b, hes, ho⟩ := mem_occsFrom _ _ _ ho
    have hmem : e ∈ fileEvents env g decls := by rw [hes]; simp
    simp only [List.nil_append] at ho
    cases e with
    | qualifier i o' imported =>
      simp only [occsAt] at ho
      split at ho
      · simp at ho; subst ho; simp at hdep
      · simp at ho
    | imp uid name pathPos =>
      exfalso
      simp only [occsAt, importOccs] at ho
      split at ho
      · simp at ho
      · split at ho
        · simp at ho
        · simp only [List.mem_append, List.mem_singleton] at ho
          rcases ho with ho | rfl
          · split at ho
            · simp at ho
            · split at ho
              · simp at ho
              · simp at ho; subst ho; simp at hdep
          · simp at hdep
    | ident i decl =>
      simp only [occsAt, List.mem_append] at ho
      rcases ho with ho | ho
      · unfold defOccs at ho
        split at ho
        · simp at ho
        · split at ho
          · simp at ho; subst ho; simp at hdep
          · split at ho
            · simp at ho
            · rename_i d hd
              dsimp only at ho
              split at ho
              · rename_i info hp
                simp at ho; subst ho
                exact ⟨i, decl, info, hmem, rfl, rfl, hdep, .inl ⟨rfl, d, hd, hp⟩⟩
              · simp at ho; subst ho; simp at hdep
      · unfold refOccs at ho
        split at ho
        · simp at ho
        · split at ho
          · simp at ho
          · rename_i r hr
            split at ho
            · rename_i s dep ht
              simp at ho; subst ho
              unfold target at ht
              split at ht
              · simp only [Option.some.injEq, Prod.mk.injEq] at ht
                obtain ⟨rfl, rfl⟩ := ht
                simp at hdep
              · split at ht
                · rename_i info hi
                  simp only [Option.some.injEq, Prod.mk.injEq] at ht
                  obtain ⟨rfl, rfl⟩ := ht
                  exact ⟨i, decl, info, hmem, rfl, rfl, hdep, .inr ⟨rfl, r, hr, hi⟩⟩
                · simp at ht
            · simp at ho

/-- **C16** (dependencies): the answer of the symbol table for an object that was not collected has no documentation, so
references to it never carry the diagnostic. -/
theorem C16_uncollected_not_deprecated (scopes : Scopes) (g : Global) (r : Obj) (info : SymInfo)
    (hno : ∀ p rec, g.symbols.lookup p = some rec → rec.table.get r.self.pos = none)
    (h : (g.getSymbolOfObject scopes r).2 = .info info) : isDocDeprecated info.documentation = false := by
  unfold Global.getSymbolOfObject at h
  dsimp only at h
  split at h
  · simp at h
  · split at h <;> try (simp at h; done)
    split at h
    · split at h <;> try (simp at h; done)
      split at h <;> simp at h
    · split at h
      · simp at h
      · split at h
        · rename_i i hi
          obtain ⟨c, _, hc⟩ := List.exists_of_findSome?_eq_some hi
          unfold Global.getSymbolInformation at hc
          obtain ⟨r', hr', ht⟩ := Option.bind_eq_some_iff.1 hc
          rw [hno _ _ hr'] at ht; simp at ht
        · split at h
          · split at h
            · simp at h
            · simp only [Found.info.injEq] at h; subst h
              rfl
          · simp at h

/-- **C16** (the other direction, for definitions; for references see C15): the definition of a collected entity
carries the diagnostic iff its documentation is deprecated. -/
theorem C16_definition {env g objs decls pkgOcc st} (h : Visited env g objs decls pkgOcc st)
    (i : Ident) (decl : Option (Nat × Nat)) (d : Obj) (info : SymInfo)
    (hi : Event.ident i decl ∈ fileEvents env g decls) (hb : i.name ≠ go!"_") (hc : env.caseClauses i.pos = none)
    (hd : env.pkg.defs i.uid = some d) (ht : env.pkgTable.get d.self.pos = some info) :
    ∃ o ∈ st.occs, o.isDef = true ∧ o.range = identSpan env i ∧ o.symbol = info.symbol ∧
      o.deprecated = isDocDeprecated info.documentation :=
  ⟨_, collected_definition h i decl d info hi hb hc hd ht, rfl, rfl, rfl, rfl⟩

/-! ### Enclosing ranges -/

mutual

theorem traverse_funcFree (env known) : ∀ n, FuncFree n → ∀ i x, Event.ident i (some x) ∉ traverse env known n
  | .selector x sel, hf, i, y, h => by
    cases hf with | mk _ hc =>
    rw [traverse] at h
    split at h
    · split at h <;> simp at h
    · simp only [List.mem_append, List.mem_singleton, Event.ident.injEq, reduceCtorEq, and_false, or_false] at h
      exact traverse_funcFree env known x (hc x (by simp [children])) i y h
  | .importSpec .., _, i, y, h => by rw [traverse] at h; simp at h
  | .funcDecl .., hf, _, _, _ => by cases hf with | mk h1 _ => exact h1 _ _ _ _ _ _ _ rfl
  | .file _ decls, hf, i, y, h => by
    cases hf with | mk _ hc =>
    rw [traverse] at h; exact traverseList_funcFree env known decls (fun c h => hc c (by simp [children, h])) i y h
  | .ident _, _, i, y, h => by rw [traverse] at h; simp at h
  | .star x, hf, i, y, h => by
    cases hf with | mk _ hc =>
    rw [traverse] at h; exact traverse_funcFree env known x (hc x (by simp [children])) i y h
  | .paren x, hf, i, y, h => by
    cases hf with | mk _ hc =>
    rw [traverse] at h; exact traverse_funcFree env known x (hc x (by simp [children])) i y h
  | .index x is, hf, i, y, h => by
    cases hf with | mk _ hc =>
    rw [traverse] at h
    rcases List.mem_append.1 h with h | h
    · exact traverse_funcFree env known x (hc x (by simp [children])) i y h
    · exact traverseList_funcFree env known is (fun c h => hc c (by simp [children, h])) i y h
  | .unary x, hf, i, y, h => by
    cases hf with | mk _ hc =>
    rw [traverse] at h; exact traverse_funcFree env known x (hc x (by simp [children])) i y h
  | .arrayT len elt, hf, i, y, h => by
    cases hf with | mk _ hc =>
    rw [traverse] at h
    rcases List.mem_append.1 h with h | h
    · exact traverseList_funcFree env known len (fun c h => hc c (by simp [children, h])) i y h
    · exact traverse_funcFree env known elt (hc elt (by simp [children])) i y h
  | .mapT k v, hf, i, y, h => by
    cases hf with | mk _ hc =>
    rw [traverse] at h
    rcases List.mem_append.1 h with h | h
    · exact traverse_funcFree env known k (hc k (by simp [children])) i y h
    · exact traverse_funcFree env known v (hc v (by simp [children])) i y h
  | .chanT x, hf, i, y, h => by
    cases hf with | mk _ hc =>
    rw [traverse] at h; exact traverse_funcFree env known x (hc x (by simp [children])) i y h
  | .funcT a b c, hf, i, y, h => by
    cases hf with | mk _ hc =>
    rw [traverse] at h
    simp only [List.mem_append] at h
    rcases h with (h | h) | h
    · exact traverseList_funcFree env known a (fun c h => hc c (by simp [children, h])) i y h
    · exact traverseList_funcFree env known b (fun c h => hc c (by simp [children, h])) i y h
    · exact traverseList_funcFree env known c (fun c h => hc c (by simp [children, h])) i y h
  | .structT fs, hf, i, y, h => by
    cases hf with | mk _ hc =>
    rw [traverse] at h; exact traverseList_funcFree env known fs (fun c h => hc c (by simp [children, h])) i y h
  | .ifaceT fs, hf, i, y, h => by
    cases hf with | mk _ hc =>
    rw [traverse] at h; exact traverseList_funcFree env known fs (fun c h => hc c (by simp [children, h])) i y h
  | .field _ names typ _ _, hf, i, y, h => by
    cases hf with | mk _ hc =>
    rw [traverse] at h
    simp only [List.mem_append, List.mem_map, Event.ident.injEq, reduceCtorEq, and_false, exists_false, false_or] at h
    exact traverse_funcFree env known typ (hc typ (by simp [children])) i y h
  | .block fs, hf, i, y, h => by
    cases hf with | mk _ hc =>
    rw [traverse] at h; exact traverseList_funcFree env known fs (fun c h => hc c (by simp [children, h])) i y h
  | .typeSpec name tps typ _, hf, i, y, h => by
    cases hf with | mk _ hc =>
    rw [traverse] at h
    simp only [List.mem_append, List.mem_cons, Event.ident.injEq, reduceCtorEq, and_false, false_or] at h
    rcases h with h | h
    · exact traverseList_funcFree env known tps (fun c h => hc c (by simp [children, h])) i y h
    · exact traverse_funcFree env known typ (hc typ (by simp [children])) i y h
  | .valueSpec _ names typ values _ _, hf, i, y, h => by
    cases hf with | mk _ hc =>
    rw [traverse] at h
    simp only [List.mem_append, List.mem_map, Event.ident.injEq, reduceCtorEq, and_false, exists_false, false_or] at h
    rcases h with h | h
    · exact traverseList_funcFree env known typ (fun c h => hc c (by simp [children, h])) i y h
    · exact traverseList_funcFree env known values (fun c h => hc c (by simp [children, h])) i y h
  | .genDecl _ specs _, hf, i, y, h => by
    cases hf with | mk _ hc =>
    rw [traverse] at h; exact traverseList_funcFree env known specs (fun c h => hc c (by simp [children, h])) i y h
  | .badDecl, _, i, y, h => by rw [traverse] at h; simp at h
  | .other cs, hf, i, y, h => by
    cases hf with | mk _ hc =>
    rw [traverse] at h; exact traverseList_funcFree env known cs (fun c h => hc c (by simp [children, h])) i y h

theorem traverseList_funcFree (env known) : ∀ ns, (∀ n ∈ ns, FuncFree n) → ∀ i x,
    Event.ident i (some x) ∉ traverseList env known ns
  | [], _, i, y, h => by rw [traverseList] at h; simp at h
  | n :: ns, hf, i, y, h => by
    rw [traverseList] at h
    rcases List.mem_append.1 h with h | h
    · exact traverse_funcFree env known n (hf n (by simp)) i y h
    · exact traverseList_funcFree env known ns (fun m hm => hf m (by simp [hm])) i y h

end

/-- The identifiers marked in the traversal are the names of the declared functions, with the extent of the declaration. -/
theorem marked_iff (env known) (decls : List Node) (h : ParsedFile env known decls) (i : Ident) (s e : Nat) :
    Event.ident i (some (s, e)) ∈ traverseList env known decls ↔
      ∃ recv typ body doc, .funcDecl recv i typ body s e doc ∈ decls := by
  have key : ∀ ds : List Node, (∀ d ∈ ds, FuncFree d ∨
      ∃ recv name typ body pos endPos doc, d = .funcDecl recv name typ body pos endPos doc ∧
        (∀ c ∈ recv, FuncFree c) ∧ FuncFree typ ∧ (∀ c ∈ body, FuncFree c)) →
      (Event.ident i (some (s, e)) ∈ traverseList env known ds ↔
      ∃ recv typ body doc, .funcDecl recv i typ body s e doc ∈ ds) := by
    intro ds
    induction ds with
    | nil => intro _; rw [traverseList]; simp
    | cons d ds ih =>
      intro hds
      rw [traverseList, List.mem_append, ih (fun d hd => hds d (by simp [hd]))]
      rcases hds d (by simp) with hf | ⟨recv, name, typ, body, pos, endPos, doc, rfl, h1, h2, h3⟩
      · constructor
        · rintro (hm | ⟨recv, typ, body, doc, hm⟩)
          · exact absurd hm (traverse_funcFree env known d hf i (s, e))
          · exact ⟨recv, typ, body, doc, by simp [hm]⟩
        · rintro ⟨recv, typ, body, doc, hm⟩
          rcases List.mem_cons.1 hm with rfl | hm
          · cases hf with | mk hne _ => exact absurd rfl (hne _ _ _ _ _ _ _)
          · exact .inr ⟨recv, typ, body, doc, hm⟩
      · constructor
        · rintro (hm | ⟨recv', typ', body', doc', hm⟩)
          · rw [traverse] at hm
            simp only [List.mem_append, List.mem_cons, Event.ident.injEq, Option.some.injEq, Prod.mk.injEq] at hm
            rcases hm with hm | ⟨rfl, rfl, rfl⟩ | hm | hm
            · exact absurd hm (traverseList_funcFree env known recv h1 i (s, e))
            · exact ⟨recv, typ, body, doc, by simp⟩
            · exact absurd hm (traverse_funcFree env known typ h2 i (s, e))
            · exact absurd hm (traverseList_funcFree env known body h3 i (s, e))
          · exact ⟨recv', typ', body', doc', by simp [hm]⟩
        · rintro ⟨recv', typ', body', doc', hm⟩
          rcases List.mem_cons.1 hm with he | hm
          · simp only [Node.funcDecl.injEq] at he
            obtain ⟨rfl, rfl, rfl, rfl, rfl, rfl, rfl⟩ := he
            left; rw [traverse]; simp
          · exact .inr ⟨recv', typ', body', doc', hm⟩
  exact key decls h.top_level

/-- **C17**: an occurrence carries an enclosing range only if it is the definition of the name of a function declared in
the file, and the range is then that of the whole declaration; and the definition of a declared function's name always
carries it. -/
theorem C17_enclosing_range {env g objs decls pkgOcc st} (h : Visited env g objs decls pkgOcc st)
    (hpk : pkgOcc.enclosing = none) :
    (∀ o ∈ st.occs, ∀ rng, o.enclosing = some rng → ∃ recv i typ body s e doc,
      .funcDecl recv i typ body s e doc ∈ decls ∧ o.isDef = true ∧ o.range = identSpan env i ∧
      rng = span (env.pkg.position s) (env.pkg.position e)) ∧
    (∀ recv i typ body s e doc, .funcDecl recv i typ body s e doc ∈ decls → i.name ≠ go!"_" →
      env.caseClauses i.pos = none → ∀ d, env.pkg.defs i.uid = some d →
      ∃ o ∈ st.occs, o.isDef = true ∧ o.range = identSpan env i ∧
        o.enclosing = some (span (env.pkg.position s) (env.pkg.position e))) := by
  constructor
  · intro o ho rng hrng
    rw [h.occs] at ho
    rcases List.mem_cons.1 ho with rfl | ho
    · rw [hpk] at hrng; simp at hrng
    · obtain ⟨a, e, b, hes, ho⟩ := mem_occsFrom _ _ _ ho
      have hmem : e ∈ fileEvents env g decls := by rw [hes]; simp
      simp only [List.nil_append] at ho
      cases e with
      | qualifier i o' imported =>
        simp only [occsAt] at ho
        split at ho
        · simp at ho; subst ho; simp at hrng
        · simp at ho
      | imp uid name pathPos =>
        exfalso
        simp only [occsAt, importOccs] at ho
        split at ho
        · simp at ho
        · split at ho
          · simp at ho
          · simp only [List.mem_append, List.mem_singleton] at ho
            rcases ho with ho | rfl
            · split at ho
              · simp at ho
              · split at ho
                · simp at ho
                · simp at ho; subst ho; simp at hrng
            · simp at hrng
      | ident i decl =>
        simp only [occsAt, List.mem_append] at ho
        rcases ho with ho | ho
        · have fin : o.isDef = true → o.range = identSpan env i →
              o.enclosing = decl.map (fun (s, e) => span (env.pkg.position s) (env.pkg.position e)) → ∃ recv i typ body s e doc,
              .funcDecl recv i typ body s e doc ∈ decls ∧ o.isDef = true ∧ o.range = identSpan env i ∧
              rng = span (env.pkg.position s) (env.pkg.position e) := by
            intro h1 h2 h3
            rw [hrng] at h3
            cases decl with
            | none => simp at h3
            | some se =>
              obtain ⟨s, e⟩ := se
              simp only [Option.map_some, Option.some.injEq] at h3
              obtain ⟨recv, typ, body, doc, hm⟩ := (marked_iff env _ decls h.parsed i s e).1 hmem
              exact ⟨recv, i, typ, body, s, e, doc, hm, h1, h2, h3⟩
          unfold defOccs at ho
          split at ho
          · simp at ho
          · split at ho
            · simp at ho; subst ho; simp at hrng
            · split at ho
              · simp at ho
              · dsimp only at ho
                split at ho
                · simp only [List.mem_singleton] at ho; subst ho; exact fin rfl rfl rfl
                · simp only [List.mem_singleton] at ho; subst ho; exact fin rfl rfl rfl
        · exfalso
          unfold refOccs at ho
          split at ho
          · simp at ho
          · split at ho
            · simp at ho
            · split at ho
              · simp at ho; subst ho; simp at hrng
              · simp at ho
  · intro recv i typ body s e doc hm hb hc d hd
    have hmem : Event.ident i (some (s, e)) ∈ fileEvents env g decls :=
      (marked_iff env _ decls h.parsed i s e).2 ⟨recv, typ, body, doc, hm⟩
    obtain ⟨a, b, hes⟩ := List.append_of_mem hmem
    cases hp : env.pkgTable.get d.self.pos with
    | some info => exact ⟨_, collected_definition h i _ d info hmem hb hc hd hp, rfl, rfl, rfl⟩
    | none =>
      refine ⟨⟨identSpan env i, localSymbol (localDecls env a).length, true,
        some (span (env.pkg.position s) (env.pkg.position e)), false⟩, ?_, rfl, rfl, rfl⟩
      rw [h.occs]
      refine List.mem_cons_of_mem _ (occsFrom_mem hes _ ?_)
      simp only [occsAt, List.mem_append]
      left
      simp only [defOccs, hb, hc, hd, hp, if_false, List.mem_singleton, Option.map_some]

end Verif
