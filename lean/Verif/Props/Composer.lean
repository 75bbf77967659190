import Verif.Model.Composer
import Verif.Spec.GoPackage
import Verif.Props.Symbol
/-! # C03, C05, C06: composed symbols and kinds -/
set_option linter.unusedSimpArgs false
namespace Verif
open Spec

/-- A run of the composer over a history of requests: the final state and the answers in order. -/
def Composer.run (scopes : Scopes) (c : Composer) : List Request → Composer × List Str
  | [] => (c, [])
  | r :: rs =>
    let (c, s) := c.compose scopes r.1 r.2
    let (c, ss) := Composer.run scopes c rs
    (c, s :: ss)

theorem Obj.canon_eq_entityOf (o : Obj) : o.canon = entityOf o := by
  unfold Obj.canon entityOf; cases o.self.cls <;> rfl

/-- Invariant: every table entry is the symbol some earlier request asked for. -/
private def Justified (scopes : Scopes) (c : Composer) (rs : List Request) : Prop :=
  ∀ id s, c.compositions.lookup id = some s → ∃ r ∈ rs, ∃ o path, r.2 = some o ∧ o.self.pkg = some path ∧
    o.canon.id = id ∧ describe scopes path o.canon ≠ [] ∧
    s = formatSymbol (c.pack r.1) (describe scopes path o.canon)

private theorem compose_pack (scopes : Scopes) (c : Composer) (r : Request) (p) :
    (c.compose scopes r.1 r.2).1.pack p = c.pack p := by
  unfold Composer.compose
  split <;> try rfl
  split <;> try rfl
  dsimp only
  split <;> try rfl
  split <;> rfl

private theorem compose_justified (scopes : Scopes) (c : Composer) (rs : List Request) (r : Request)
    (h : Justified scopes c rs) : Justified scopes (c.compose scopes r.1 r.2).1 (rs ++ [r]) := by
  have mono : ∀ id s, c.compositions.lookup id = some s → ∃ r' ∈ rs ++ [r], ∃ o path, r'.2 = some o ∧
      o.self.pkg = some path ∧ o.canon.id = id ∧ describe scopes path o.canon ≠ [] ∧
      s = formatSymbol ((c.compose scopes r.1 r.2).1.pack r'.1) (describe scopes path o.canon) := by
    intro id s hs
    obtain ⟨r', hr', rest⟩ := h id s hs
    refine ⟨r', by simp [hr'], ?_⟩
    rw [compose_pack]; exact rest
  intro id s hs
  by_cases hold : c.compositions.lookup id = some s
  · exact mono id s hold
  · have hpack := compose_pack scopes c r
    unfold Composer.compose at hs
    split at hs
    · exact absurd hs hold
    · rename_i obj hobj
      split at hs
      · exact absurd hs hold
      · rename_i path hpath
        dsimp only at hs
        split at hs
        · exact absurd hs hold
        · split at hs
          · exact absurd hs hold
          · rename_i hlk hne
            simp only [List.lookup_cons] at hs
            split at hs
            · rename_i heq
              refine ⟨r, by simp, obj, path, hobj, hpath, (by simpa using (beq_iff_eq.mp heq).symm), hne, ?_⟩
              simp only [Option.some.injEq] at hs
              rw [hpack]; exact hs.symm
            · exact absurd hs hold

private theorem compose_keeps (scopes : Scopes) (c : Composer) (r : Request) (id : Nat) (s : Str)
    (h : c.compositions.lookup id = some s) :
    (c.compose scopes r.1 r.2).1.compositions.lookup id = some s := by
  unfold Composer.compose
  split
  · exact h
  · split
    · exact h
    · dsimp only
      split
      · exact h
      · split
        · exact h
        · rename_i hlk _
          simp only [List.lookup_cons]
          split
          · rename_i heq
            rw [beq_iff_eq.mp heq] at h; rw [h] at hlk; exact absurd hlk (by simp)
          · exact h

private theorem run_keeps (scopes : Scopes) (rs : List Request) (c : Composer) (id : Nat) (s : Str)
    (h : c.compositions.lookup id = some s) :
    (c.run scopes rs).1.compositions.lookup id = some s := by
  induction rs generalizing c with
  | nil => exact h
  | cons r rs ih => exact ih _ (compose_keeps scopes c r id s h)

private theorem run_justified (scopes : Scopes) (rs : List Request) (c : Composer) (pre : List Request)
    (h : Justified scopes c pre) : Justified scopes (c.run scopes rs).1 (pre ++ rs) := by
  induction rs generalizing c pre with
  | nil => simpa [Composer.run] using h
  | cons r rs ih =>
    have := ih _ _ (compose_justified scopes c pre r h)
    simpa [Composer.run] using this

private theorem run_pack (scopes : Scopes) (rs : List Request) (c : Composer) (p) :
    (c.run scopes rs).1.pack p = c.pack p := by
  induction rs generalizing c with
  | nil => rfl
  | cons r rs ih => rw [Composer.run]; simp only; rw [ih, compose_pack]

theorem Composer.run_append (scopes : Scopes) (rs ts : List Request) (c : Composer) :
    c.run scopes (rs ++ ts) =
      ((c.run scopes rs).1.run scopes ts |>.1,
       (c.run scopes rs).2 ++ ((c.run scopes rs).1.run scopes ts).2) := by
  induction rs generalizing c with
  | nil => rfl
  | cons r rs ih => simp [Composer.run, ih]

private theorem run_length (scopes : Scopes) (rs : List Request) (c : Composer) :
    (c.run scopes rs).2.length = rs.length := by
  induction rs generalizing c with
  | nil => rfl
  | cons r rs ih => simp [Composer.run, ih]

/-- The answer when the object has a package. -/
private theorem compose_cases (scopes : Scopes) (c : Composer) (p) (o : Obj) (path : Str)
    (hp : o.self.pkg = some path) :
    (∃ s, c.compositions.lookup o.canon.id = some s ∧ c.compose scopes p (some o) = (c, s)) ∨
    (c.compositions.lookup o.canon.id = none ∧ describe scopes path o.canon = [] ∧
      c.compose scopes p (some o) = (c, [])) ∨
    (c.compositions.lookup o.canon.id = none ∧ describe scopes path o.canon ≠ [] ∧
      (c.compose scopes p (some o)).2 = formatSymbol (c.pack p) (describe scopes path o.canon) ∧
      (c.compose scopes p (some o)).1.compositions.lookup o.canon.id =
        some (formatSymbol (c.pack p) (describe scopes path o.canon))) := by
  simp only [Composer.compose, hp]
  cases hl : c.compositions.lookup o.canon.id with
  | some s => left; exact ⟨s, rfl, rfl⟩
  | none =>
    right
    by_cases hd : describe scopes path o.canon = []
    · left; simp [hd]
    · right; simp [hd]

/-- **C03** (the first answer is kept).  In any history, two requests about the same entity get the same
answer, whatever else was requested before, in between, or with which package. -/
theorem C03_same_answer (scopes : Scopes) (path version : Str) (rs : List Request) (hc : Coherent rs)
    (i j : Nat) (ri rj : Request) (oi oj : Obj)
    (hi : rs[i]? = some ri) (hj : rs[j]? = some rj)
    (hoi : ri.2 = some oi) (hoj : rj.2 = some oj) (hsame : entityOf oi = entityOf oj) :
    ((newComposer path version).run scopes rs).2[i]? = ((newComposer path version).run scopes rs).2[j]? := by
  -- it is enough to treat i < j
  have main : ∀ (i j : Nat) (ri rj : Request) (oi oj : Obj), i < j → rs[i]? = some ri → rs[j]? = some rj →
      ri.2 = some oi → rj.2 = some oj → entityOf oi = entityOf oj →
      ((newComposer path version).run scopes rs).2[i]? =
        ((newComposer path version).run scopes rs).2[j]? := by
    clear hi hj hoi hoj hsame i j ri rj oi oj
    intro i j ri rj oi oj hij hi hj hoi hoj hsame
    have hi' := List.getElem?_eq_some_iff.mp hi
    have hj' := List.getElem?_eq_some_iff.mp hj
    obtain ⟨hil, hie⟩ := hi'
    obtain ⟨hjl, hje⟩ := hj'
    have hri : ri ∈ rs := hie ▸ List.getElem_mem hil
    have hrj : rj ∈ rs := hje ▸ List.getElem_mem hjl
    obtain ⟨_, hpkg⟩ := hc ri hri rj hrj oi oj hoi hoj (by rw [hsame])
    -- split the history: as ++ ri :: bs ++ rj :: cs
    obtain ⟨as, rest, hrs, hal⟩ : ∃ as rest, rs = as ++ ri :: rest ∧ as.length = i :=
      ⟨rs.take i, rs.drop (i+1), by rw [← hie]; simp, by simp; omega⟩
    subst hrs
    have hjr : rest[j - i - 1]? = some rj := by
      rw [List.getElem?_append_right (by omega)] at hj
      rw [show j - as.length = (j - i - 1) + 1 by omega, List.getElem?_cons_succ] at hj
      exact hj
    obtain ⟨hbl, hbe⟩ := List.getElem?_eq_some_iff.mp hjr
    obtain ⟨bs, cs, hrest, hbslen⟩ : ∃ bs cs, rest = bs ++ rj :: cs ∧ bs.length = j - i - 1 :=
      ⟨rest.take (j-i-1), rest.drop (j-i), by
        rw [← hbe]
        have := (List.take_append_drop (j-i-1) rest)
        conv => lhs; rw [← this]
        rw [List.drop_eq_getElem_cons hbl, show j - i - 1 + 1 = j - i by omega], by simp; omega⟩
    subst hrest
    -- the state before ri
    generalize hc0 : newComposer path version = c0 at *
    have hJ0 : Justified scopes c0 [] := by
      subst hc0; intro id s h; simp [newComposer] at h
    have hJ1 := run_justified scopes as c0 [] hJ0
    simp only [List.nil_append] at hJ1
    generalize hc1 : (c0.run scopes as).1 = c1 at *
    have hJ2 := compose_justified scopes c1 as ri hJ1
    have hJ3 := run_justified scopes bs _ _ hJ2
    generalize hc3 : ((c1.compose scopes ri.1 ri.2).1.run scopes bs).1 = c3 at *
    -- answers
    have ai : (c0.run scopes (as ++ ri :: (bs ++ rj :: cs))).2[i]? =
        some (c1.compose scopes ri.1 ri.2).2 := by
      rw [Composer.run_append, List.getElem?_append_right (by rw [run_length]; omega), run_length, hal, hc1]
      simp [Composer.run]
    have aj : (c0.run scopes (as ++ ri :: (bs ++ rj :: cs))).2[j]? =
        some (c3.compose scopes rj.1 rj.2).2 := by
      rw [Composer.run_append, List.getElem?_append_right (by rw [run_length]; omega), run_length, hal, hc1]
      rw [show j - i = (j - i - 1) + 1 by omega]
      simp only [Composer.run, List.getElem?_cons_succ]
      rw [Composer.run_append, List.getElem?_append_right (by rw [run_length]; omega), run_length, hbslen, hc3]
      simp [Composer.run]
    rw [ai, aj]; congr 1
    rw [hoi, hoj]
    have hcan : oi.canon = oj.canon := by rw [Obj.canon_eq_entityOf, Obj.canon_eq_entityOf, hsame]
    cases hpi : oi.self.pkg with
    | none =>
      have hpj : oj.self.pkg = none := by rw [← hpkg]; exact hpi
      simp [Composer.compose, hpi, hpj]
    | some pth =>
      have hpj : oj.self.pkg = some pth := by rw [← hpkg]; exact hpi
      rcases compose_cases scopes c1 ri.1 oi pth hpi with ⟨s, hl, he⟩ | ⟨hl, hd, he⟩ | ⟨hl, hd, he, hst⟩
      · have hk := compose_keeps scopes c1 ri _ _ hl
        have hk := run_keeps scopes bs _ _ _ hk
        rw [hc3, hcan] at hk
        rw [he]
        rcases compose_cases scopes c3 rj.1 oj pth hpj with ⟨s', hl', he'⟩ | ⟨hl', _⟩ | ⟨hl', _⟩
        · rw [he']; rw [hk] at hl'; simpa using hl'
        · rw [hk] at hl'; simp at hl'
        · rw [hk] at hl'; simp at hl'
      · rw [he]
        rcases compose_cases scopes c3 rj.1 oj pth hpj with ⟨s', hl', he'⟩ | ⟨hl', _, he'⟩ | ⟨hl', hd', _⟩
        · exfalso
          obtain ⟨r, hr, o, p, hro, hop, hid, hne, _⟩ := hJ3 _ _ hl'
          have hrm : r ∈ as ++ ri :: (bs ++ rj :: cs) := by
            simp only [List.mem_append, List.mem_cons, List.append_assoc] at hr ⊢
            rcases hr with h | h | h
            · left; exact h
            · right; left; simpa using h
            · right; right; left; exact h
          have := hc r hrm rj (by simp) o oj hro hoj (by
            rw [← Obj.canon_eq_entityOf, ← Obj.canon_eq_entityOf]; exact hid)
          rw [← Obj.canon_eq_entityOf, ← Obj.canon_eq_entityOf] at this
          rw [hop, hpj] at this
          simp only [Option.some.injEq] at this
          rw [this.1, this.2, ← hcan] at hne
          exact hne hd
        · rw [he']
        · rw [← hcan] at hd'; exact absurd hd hd'
      · rw [he]
        rw [← hoi] at hst
        have hk := run_keeps scopes bs _ _ _ hst
        rw [hc3, hcan] at hk
        rcases compose_cases scopes c3 rj.1 oj pth hpj with ⟨s', hl', he'⟩ | ⟨hl', _⟩ | ⟨hl', _⟩
        · rw [he']; rw [hk] at hl'; rw [hcan]; simpa using hl'
        · rw [hk] at hl'; simp at hl'
        · rw [hk] at hl'; simp at hl'
  rcases Nat.lt_trichotomy i j with h | h | h
  · exact main i j ri rj oi oj h hi hj hoi hoj hsame
  · rw [h]
  · exact (main j i rj ri oj oi h hj hi hoj hoi hsame.symm).symm

/-- **C03** (history independence).  If in the whole history an entity is always requested with the same
package, the answer is the one a fresh composer would give, i.e. a function of the entity and this package alone. -/
theorem C03_history_independent (scopes : Scopes) (path version : Str) (rs : List Request)
    (p : Option (Option ModIdent)) (o : Obj) (hc : Coherent (rs ++ [(p, some o)]))
    (hp : ∀ r ∈ rs, ∀ o', r.2 = some o' → entityOf o' = entityOf o → r.1 = p) :
    (((newComposer path version).run scopes rs).1.compose scopes p (some o)).2 =
      ((newComposer path version).compose scopes p (some o)).2 := by
  have hJ0 : Justified scopes (newComposer path version) [] := by
    intro id s h; simp [newComposer] at h
  have hJ := run_justified scopes rs _ [] hJ0
  have hpk := run_pack scopes rs (newComposer path version) p
  simp only [List.nil_append] at hJ
  cases hpo : o.self.pkg with
  | none => simp [Composer.compose, hpo]
  | some pth =>
    have fresh : (newComposer path version).compositions.lookup o.canon.id = none := rfl
    have key : ∀ s, ((newComposer path version).run scopes rs).1.compositions.lookup o.canon.id = some s →
        describe scopes pth o.canon ≠ [] ∧
        s = formatSymbol ((newComposer path version).pack p) (describe scopes pth o.canon) := by
      intro s hl
      obtain ⟨r, hr, o', p', hro, hop, hid, hne, hs⟩ := hJ _ _ hl
      have hco := hc r (by simp [hr]) (p, some o) (by simp) o' o hro rfl (by
        rw [← Obj.canon_eq_entityOf, ← Obj.canon_eq_entityOf]; exact hid)
      have hpp : p' = pth := by
        have := hco.2; rw [hop, hpo] at this; simpa using this
      have hcan : o'.canon = o.canon := by rw [Obj.canon_eq_entityOf, Obj.canon_eq_entityOf, hco.1]
      have hrp := hp r hr o' hro hco.1
      rw [hrp, run_pack] at hs
      subst hpp
      rw [hcan] at hne hs
      exact ⟨hne, hs⟩
    rcases compose_cases scopes (newComposer path version) p o pth hpo with ⟨_, h, _⟩ | ⟨_, hd, he⟩ | ⟨_, hd, he, _⟩
    · rw [fresh] at h; simp at h
    · rw [he]
      rcases compose_cases scopes ((newComposer path version).run scopes rs).1 p o pth hpo with
        ⟨s, hl, he'⟩ | ⟨_, _, he'⟩ | ⟨_, hd', _⟩
      · exact absurd hd (key s hl).1
      · rw [he']
      · exact absurd hd hd'
    · rw [he]
      rcases compose_cases scopes ((newComposer path version).run scopes rs).1 p o pth hpo with
        ⟨s, hl, he'⟩ | ⟨_, hd', _⟩ | ⟨_, _, he', _⟩
      · rw [he']; exact (key s hl).2
      · exact absurd hd' hd
      · rw [he', run_pack]

/-- The hypotheses of C03 are met by a history with an instantiated method, its generic origin, an unrelated
object and a package-less object, with different packages. -/
example :
    let m : ObjData := ⟨7, .func (some (some (.pointer (.named go!"T" false)))), go!"M", some go!"p", 3⟩
    let inst : Obj := ⟨⟨9, .func (some (some (.pointer (.named go!"T" false)))), go!"M", some go!"p", 3⟩, m⟩
    let k : ObjData := ⟨8, .const, go!"K", some go!"p", 4⟩
    let u : ObjData := ⟨1, .builtin, go!"len", none, 0⟩
    let rs : List Request := [(none, some (.plain k)), (some (some ⟨go!"m", go!"v1"⟩), some inst),
      (none, some (.plain u)), (none, none), (none, some (.plain m))]
    Coherent rs ∧ ((newComposer go!"d" go!"v0").run (fun _ => []) rs).2 =
      [go!"scip-go gomod d v0 p/K.", go!"scip-go gomod m v1 p/T#M().", [], [],
       go!"scip-go gomod m v1 p/T#M()."] := by
  constructor
  · intro r₁ h₁ r₂ h₂ o₁ o₂ e₁ e₂ hid
    simp only [List.mem_cons, List.not_mem_nil, or_false] at h₁ h₂
    rcases h₁ with rfl | rfl | rfl | rfl | rfl <;> rcases h₂ with rfl | rfl | rfl | rfl | rfl <;>
      simp_all [entityOf, Obj.plain] <;> (subst e₁; subst e₂; simp_all)
  · decide

private theorem nameType_of_base {t : RecvTy} {n : Str} (h : RecvBase t n) : nameType t = n := by
  induction h with
  | named n b => rfl
  | alias _ ih => simpa [nameType] using ih
  | pointer _ ih => simpa [nameType] using ih

/-- **C05**: in a package obeying Go's uniqueness rules, two different declared entities (other than
blank fields, which `field_unique` excludes from the package's `fields`) that have a composed symbol have
different ones — whatever modules they are composed for. -/
theorem C05_distinct_entities_distinct_symbols (path : Str) (scopes : Scopes)
    (P : WellFormedPackage path scopes) (o₁ o₂ : ObjData) (h₁ : P.Declares o₁) (h₂ : P.Declares o₂)
    (n₁ v₁ n₂ v₂ : Str) (hn₁ : fieldOk n₁) (hv₁ : fieldOk v₁) (hn₂ : fieldOk n₂) (hv₂ : fieldOk v₂)
    (hs₁ : describe scopes path o₁ ≠ []) (hne : o₁ ≠ o₂) :
    formatSymbol ⟨n₁, v₁⟩ (describe scopes path o₁) ≠ formatSymbol ⟨n₂, v₂⟩ (describe scopes path o₂) := by
  intro e
  obtain ⟨_, _, hd⟩ := C01_symbol_injective _ _ _ _ _ _ hn₁ hv₁ hn₂ hv₂ e
  clear e
  apply hne
  -- the shape of the descriptors of each kind of declared entity
  have shape : ∀ o, P.Declares o → describe scopes path o ≠ [] →
      (o ∈ P.scopeObjs ∧ ∃ sfx, describe scopes path o = [⟨path, .nspace⟩, ⟨o.name, sfx⟩]) ∨
      (∃ t, (t, o) ∈ P.methods ∧ describe scopes path o = [⟨path, .nspace⟩, ⟨t, .typ⟩, ⟨o.name, .method⟩]) ∨
      (o ∈ P.fields ∧ ∃ t ∈ P.scopeObjs, (∃ fs, t.cls = .typeName (.named (.struct fs)) ∧ o.id ∈ fs) ∧
        describe scopes path o = [⟨path, .nspace⟩, ⟨t.name, .typ⟩, ⟨o.name, .term⟩]) := by
    intro o ho hne
    rcases ho with ho | ⟨t, ho⟩ | ho
    · left; refine ⟨ho, ?_⟩
      rcases P.scope_kinds o ho with h | h | h | ⟨t, h⟩ <;> simp [describe, h]
    · right; left; refine ⟨t, ho, ?_⟩
      obtain ⟨r, hr, hb⟩ := P.method_recv _ ho
      have hb' := nameType_of_base hb
      have ht := P.method_recv_named _ ho
      simp only at hr hb' ht
      simp [describe, hr, hb', ht]
    · right; right; refine ⟨ho, ?_⟩
      have hcls := P.fields_cls o ho
      simp only [describe, hcls] at hne ⊢
      cases hl : locateOwner (scopes path) o.id with
      | none => rw [hl] at hne; exact absurd rfl hne
      | some t =>
        have hmem := List.mem_of_find?_eq_some hl
        have hp := List.find?_some hl
        refine ⟨t, P.scope_eq ▸ hmem, ?_, rfl⟩
        split at hp
        · rename_i fs hfs; exact ⟨fs, hfs, by simpa using hp⟩
        · exact absurd hp (by simp)
  have hs₂ : describe scopes path o₂ ≠ [] := by rw [← hd]; exact hs₁
  rcases shape o₁ h₁ hs₁ with ⟨m₁, s₁, e₁⟩ | ⟨t₁, m₁, e₁⟩ | ⟨m₁, t₁, ht₁, ⟨fs₁, hf₁, hi₁⟩, e₁⟩ <;>
  rcases shape o₂ h₂ hs₂ with ⟨m₂, s₂, e₂⟩ | ⟨t₂, m₂, e₂⟩ | ⟨m₂, t₂, ht₂, ⟨fs₂, hf₂, hi₂⟩, e₂⟩ <;>
  rw [e₁, e₂] at hd <;> simp at hd
  · exact P.scope_unique _ m₁ _ m₂ hd.1
  · have := P.method_unique _ m₁ _ m₂ hd.1 hd.2
    exact (Prod.mk.inj this).2
  · have ht : t₁ = t₂ := P.scope_unique _ ht₁ _ ht₂ hd.1
    subst ht
    rw [hf₁] at hf₂
    simp only [ObjClass.typeName.injEq, TNType.named.injEq, Under.struct.injEq] at hf₂
    exact P.field_unique _ m₁ _ m₂ _ ht₁ fs₁ hf₁ hi₁ (hf₂ ▸ hi₂) hd.2

/-- A package with a struct type, two fields, a method, a function and a constant meets the hypotheses of C05. -/
example : ∃ (scopes : Scopes) (P : WellFormedPackage go!"p" scopes) (a b : ObjData),
    P.Declares a ∧ P.Declares b ∧ a ≠ b ∧
    describe scopes go!"p" a = [⟨go!"p", .nspace⟩, ⟨go!"T", .typ⟩, ⟨go!"X", .term⟩] ∧
    describe scopes go!"p" b = [⟨go!"p", .nspace⟩, ⟨go!"T", .typ⟩, ⟨go!"M", .method⟩] := by
  let T : ObjData := ⟨1, .typeName (.named (.struct [2, 3])), go!"T", some go!"p", 1⟩
  let K : ObjData := ⟨4, .const, go!"K", some go!"p", 9⟩
  let F : ObjData := ⟨5, .func (some none), go!"F", some go!"p", 12⟩
  let X : ObjData := ⟨2, .var true, go!"X", some go!"p", 2⟩
  let Y : ObjData := ⟨3, .var true, go!"Y", some go!"p", 3⟩
  let M : ObjData := ⟨6, .func (some (some (.pointer (.named go!"T" false)))), go!"M", some go!"p", 15⟩
  refine ⟨fun _ => [F, K, T],
    { scopeObjs := [F, K, T], methods := [(go!"T", M)], scope_eq := rfl, scope_kinds := ?_,
      scope_unique := ?_, method_recv := ?_, method_recv_named := ?_, method_unique := ?_,
      fields := [X, Y], fields_cls := ?_, field_unique := ?_ }, X, M, ?_, ?_, ?_, ?_, ?_⟩
  · simp [F, K, T]
  · simp [F, K, T]
  · simp only [List.mem_singleton, forall_eq]
    exact ⟨_, rfl, .pointer (.named _ _)⟩
  · simp
  · simp
  · simp [X, Y]
  · simp [X, Y, F, K, T]
  · right; right; simp
  · right; left; exact ⟨go!"T", by simp⟩
  · decide
  · decide
  · decide

/-- The class of a symbol is shown by its last descriptor. -/
def Spec.kindMatches (k : Kind) : Suffix → Prop
  | .method => k = .function ∨ k = .method ∨ k = .methodSpecification
  | .typ => k = .typeAlias ∨ k = .struct ∨ k = .interface ∨ k = .typeParameter ∨ k = .type
  | .term => k = .constant ∨ k = .variable ∨ k = .field
  | .nspace => k = .package
  | .metadesc => False

/-- **C06** (kind and descriptor agree): if an object gets a symbol, the suffix of its last descriptor is
the one that belongs to its kind, and since the classes are disjoint the kind determines the suffix. -/
theorem C06_kind_matches_last_descriptor (scopes : Scopes) (path : Str) (o : ObjData)
    (h : describe scopes path o ≠ []) :
    ∃ d, (describe scopes path o).getLast? = some d ∧
      ∀ sfx, Spec.kindMatches (kindForObject (some o)) sfx ↔ sfx = d.suffix := by
  obtain ⟨id, cls, name, pkg, pos⟩ := o
  cases cls with
  | pkgName i => exact ⟨_, rfl, by intro s; cases s <;> simp [Spec.kindMatches, kindForObject, kindOfUnder]⟩
  | typeName t =>
    refine ⟨_, rfl, ?_⟩
    intro s
    cases t with
    | named u => cases u <;> cases s <;> simp [Spec.kindMatches, kindForObject, kindOfUnder]
    | alias u => cases s <;> simp [Spec.kindMatches, kindForObject, kindOfUnder]
    | typeParam => cases s <;> simp [Spec.kindMatches, kindForObject, kindOfUnder]
    | basic => cases s <;> simp [Spec.kindMatches, kindForObject, kindOfUnder]
  | const => exact ⟨_, rfl, by intro s; cases s <;> simp [Spec.kindMatches, kindForObject, kindOfUnder]⟩
  | func sig =>
    cases sig with
    | none => simp [describe] at h
    | some r =>
      cases r with
      | none => exact ⟨_, rfl, by intro s; cases s <;> simp [Spec.kindMatches, kindForObject, kindOfUnder]⟩
      | some r =>
        simp only [describe, kindForObject] at h ⊢
        by_cases hn : nameType r = []
        · simp [hn] at h
        · rw [if_neg hn]
          refine ⟨_, rfl, ?_⟩
          intro s
          by_cases hi : r.isInterface = true <;> cases s <;> simp [Spec.kindMatches, hi]
  | var f =>
    cases f with
    | false => exact ⟨_, rfl, by intro s; cases s <;> simp [Spec.kindMatches, kindForObject, kindOfUnder]⟩
    | true =>
      simp only [describe, kindForObject] at h ⊢
      cases hl : locateOwner (scopes path) id with
      | none => rw [hl] at h; exact absurd rfl h
      | some t => exact ⟨_, rfl, by intro s; cases s <;> simp [Spec.kindMatches, kindForObject, kindOfUnder]⟩
  | label => simp [describe] at h
  | builtin => simp [describe] at h
  | nil => simp [describe] at h

/-- **C06** (objects without kind): nil, labels, builtins and the `nil` object have no kind and no symbol, and a
package-less object never has a symbol. -/
theorem C06_unspecified (scopes : Scopes) (c : Composer) (p : Option (Option ModIdent)) :
    kindForObject none = .unspecified ∧ (c.compose scopes p none).2 = [] ∧
    (∀ o : Obj, o.self.pkg = none → (c.compose scopes p (some o)).2 = []) ∧
    (∀ (o : ObjData) (path : Str), kindForObject (some o) = .unspecified → describe scopes path o = []) := by
  refine ⟨rfl, rfl, ?_, ?_⟩
  · intro o h; simp [Composer.compose, h]
  · intro o path h
    by_cases hne : describe scopes path o = []
    · exact hne
    · obtain ⟨d, _, hd⟩ := C06_kind_matches_last_descriptor scopes path o hne
      have := (hd d.suffix).2 rfl
      rw [h] at this
      revert this
      cases d.suffix <;> simp [Spec.kindMatches]

example : describe (fun _ => []) go!"p" ⟨1, .const, go!"K", some go!"p", 0⟩ ≠ [] := by decide

/-- An interface type, as the type of a method receiver: a named type whose underlying type is an interface, an interface literal
(the receiver of the methods of an unnamed interface), or an alias of one of these.  A pointer is none. -/
inductive Spec.InterfaceType : RecvTy → Prop
  | named (n : Str) : InterfaceType (.named n true)
  | literal : InterfaceType .ifaceLit
  | alias {t : RecvTy} (h : InterfaceType t) : InterfaceType (.alias t)

theorem interfaceType_iff (r : RecvTy) : r.isInterface = true ↔ Spec.InterfaceType r := by
  induction r with
  | alias t ih => rw [RecvTy.isInterface, ih]; exact ⟨.alias, fun h => by cases h; assumption⟩
  | pointer t ih => exact ⟨fun h => by simp [RecvTy.isInterface] at h, fun h => by cases h⟩
  | named n b =>
    cases b with
    | true => exact ⟨fun _ => .named n, fun _ => rfl⟩
    | false => exact ⟨fun h => by simp [RecvTy.isInterface] at h, fun h => by cases h⟩
  | ifaceLit => exact ⟨fun _ => .literal, fun _ => rfl⟩
  | other => exact ⟨fun h => by simp [RecvTy.isInterface] at h, fun h => by cases h⟩

/-- **C06** (precise kinds): functions, interface methods and concrete methods, aliases and the definitions of structs, interfaces and
other types, fields and variables are told apart. -/
theorem C06_kind_exact (o : ObjData) :
    (kindForObject (some o) = .methodSpecification ↔
      ∃ r, o.cls = .func (some (some r)) ∧ Spec.InterfaceType r) ∧
    (kindForObject (some o) = .method ↔
      ∃ r, o.cls = .func (some (some r)) ∧ ¬ Spec.InterfaceType r) ∧
    (kindForObject (some o) = .function ↔ o.cls = .func none ∨ o.cls = .func (some none)) ∧
    (kindForObject (some o) = .typeAlias ↔ ∃ u, o.cls = .typeName (.alias u)) ∧
    (kindForObject (some o) = .field ↔ o.cls = .var true) ∧
    (kindForObject (some o) = .variable ↔ o.cls = .var false) ∧
    (kindForObject (some o) = .constant ↔ o.cls = .const) ∧
    (kindForObject (some o) = .package ↔ ∃ i, o.cls = .pkgName i) ∧
    (kindForObject (some o) = .struct ↔ ∃ fs, o.cls = .typeName (.named (.struct fs))) ∧
    (kindForObject (some o) = .type ↔ o.cls = .typeName (.named .other) ∨ o.cls = .typeName .basic) ∧
    (kindForObject (some o) = .interface ↔
      o.cls = .typeName (.named .iface) ∨ o.cls = .typeName .typeParam) := by
  obtain ⟨id, cls, name, pkg, pos⟩ := o
  simp only [← interfaceType_iff]
  unfold kindForObject kindOfUnder
  cases cls with
  | pkgName i => simp
  | typeName t =>
    cases t with
    | named u => cases u <;> simp
    | alias u => simp
    | typeParam => simp
    | basic => simp
  | const => simp
  | func sig =>
    cases sig with
    | none => simp
    | some r =>
      cases r with
      | none => simp
      | some r => by_cases hi : r.isInterface = true <;> simp [hi]
  | var f => cases f <;> simp
  | label => simp
  | builtin => simp
  | nil => simp

example : Spec.InterfaceType (.alias (.named go!"error" true)) ∧ ¬ Spec.InterfaceType (.pointer (.named go!"T" true)) :=
  ⟨.alias (.named _), fun h => by cases h⟩

/-- C71 is false: no object ever gets kind `TypeParameter`; type parameters are reported as interfaces. -/
theorem C71_type_parameter_kind_never_reported (o : Option ObjData) :
    kindForObject o ≠ .typeParameter := by
  cases o with
  | none => simp [kindForObject]
  | some o =>
    obtain ⟨id, cls, name, pkg, pos⟩ := o
    unfold kindForObject kindOfUnder
    cases cls with
    | typeName t =>
      cases t with
      | named u => cases u <;> simp
      | _ => simp
    | func sig =>
      cases sig with
      | none => simp
      | some r =>
        cases r with
        | none => simp
        | some r => by_cases hi : r.isInterface = true <;> simp [hi]
    | var f => cases f <;> simp
    | _ => simp

/-! ## C05 and C06 for the answers of a composer, after any history -/

/-- A non-empty answer is the symbol of the entity, for a package with which the entity has been asked for. -/
theorem answer_made (scopes : Scopes) (path version : Str) (rs : List Request) (hc : Coherent rs) (i : Nat) (p : Option (Option ModIdent)) (o : Obj)
    (hi : rs[i]? = some (p, some o)) (s : Str) (hs : ((newComposer path version).run scopes rs).2[i]? = some s) (hne : s ≠ []) :
    ∃ r ∈ rs, ∃ pth, o.self.pkg = some pth ∧ describe scopes pth (entityOf o) ≠ [] ∧
      s = formatSymbol ((newComposer path version).pack r.1) (describe scopes pth (entityOf o)) := by
  obtain ⟨hil, hie⟩ := List.getElem?_eq_some_iff.mp hi
  obtain ⟨as, rest, hrs, hal⟩ : ∃ as rest, rs = as ++ (p, some o) :: rest ∧ as.length = i :=
    ⟨rs.take i, rs.drop (i+1), by rw [← hie]; simp, by simp; omega⟩
  subst hrs
  have hJ0 : Justified scopes (newComposer path version) [] := by
    intro id s h; simp [newComposer] at h
  have hJ := run_justified scopes as _ [] hJ0
  simp only [List.nil_append] at hJ
  have hpack := run_pack scopes as (newComposer path version)
  rw [Composer.run_append, List.getElem?_append_right (by rw [run_length]; omega), run_length, hal] at hs
  simp only [Nat.sub_self, Composer.run, List.getElem?_cons_zero, Option.some.injEq] at hs
  cases hp : o.self.pkg with
  | none => simp [Composer.compose, hp] at hs; exact absurd hs.symm (by simpa using hne)
  | some pth =>
    rw [← Obj.canon_eq_entityOf]
    rcases compose_cases scopes ((newComposer path version).run scopes as).1 p o pth hp with ⟨s', hl, he⟩ | ⟨_, _, he⟩ | ⟨_, hd, he, _⟩
    · rw [he] at hs
      simp only at hs
      subst hs
      obtain ⟨r, hr, o', p', hro, hop, hid, hne', hsym⟩ := hJ _ _ hl
      have := hc r (List.mem_append_left _ hr) (p, some o) (by simp) o' o hro rfl (by
        rw [← Obj.canon_eq_entityOf, ← Obj.canon_eq_entityOf]; exact hid)
      rw [← Obj.canon_eq_entityOf, ← Obj.canon_eq_entityOf, hop, hp, Option.some.injEq] at this
      rw [this.1, this.2] at hne' hsym
      exact ⟨r, List.mem_append_left _ hr, pth, rfl, hne', by rw [hsym, hpack]⟩
    · rw [he] at hs
      exact absurd hs.symm hne
    · rw [he] at hs
      exact ⟨(p, some o), by simp, pth, rfl, hd, by rw [← hs, hpack]⟩

/-- All module paths and versions that occur are well-formed. -/
def FieldsOk (path version : Str) (rs : List Request) : Prop :=
  fieldOk path ∧ fieldOk version ∧ ∀ r ∈ rs, ∀ m, r.1 = some (some m) → fieldOk m.path ∧ fieldOk m.version

theorem FieldsOk.pack {path version : Str} {rs : List Request} (h : FieldsOk path version rs) {r : Request} (hr : r ∈ rs) :
    fieldOk ((newComposer path version).pack r.1).name ∧ fieldOk ((newComposer path version).pack r.1).version := by
  obtain ⟨h1, h2, h3⟩ := h
  rcases hp : r.1 with _ | (_ | m)
  · exact ⟨h1, h2⟩
  · exact ⟨h1, h2⟩
  · exact h3 r hr m hp

/-- **C05** for what the composer answers: in any coherent history of requests, two different entities that the same package declares never get the same symbol,
with whatever packages they are asked for. -/
theorem C05_composed (scopes : Scopes) (path version : Str) (rs : List Request) (hc : Coherent rs) (hf : FieldsOk path version rs)
    (pkgPath : Str) (P : WellFormedPackage pkgPath scopes) (i j : Nat) (p q : Option (Option ModIdent)) (o₁ o₂ : Obj)
    (hi : rs[i]? = some (p, some o₁)) (hj : rs[j]? = some (q, some o₂)) (hp₁ : o₁.self.pkg = some pkgPath) (hp₂ : o₂.self.pkg = some pkgPath)
    (h₁ : P.Declares (entityOf o₁)) (h₂ : P.Declares (entityOf o₂)) (hne : entityOf o₁ ≠ entityOf o₂) (s₁ s₂ : Str)
    (hs₁ : ((newComposer path version).run scopes rs).2[i]? = some s₁) (hs₂ : ((newComposer path version).run scopes rs).2[j]? = some s₂)
    (hsym : s₁ ≠ []) : s₁ ≠ s₂ := by
  rintro rfl
  obtain ⟨r₁, hr₁, pth₁, e₁, hd₁, hs₁⟩ := answer_made scopes path version rs hc i p o₁ hi s₁ hs₁ hsym
  obtain ⟨r₂, hr₂, pth₂, e₂, hd₂, hs₂⟩ := answer_made scopes path version rs hc j q o₂ hj s₁ hs₂ hsym
  rw [hp₁, Option.some.injEq] at e₁
  rw [hp₂, Option.some.injEq] at e₂
  subst e₁ e₂
  have k₁ := hf.pack hr₁
  have k₂ := hf.pack hr₂
  exact C05_distinct_entities_distinct_symbols _ scopes P _ _ h₁ h₂ _ _ _ _ k₁.1 k₁.2 k₂.1 k₂.2 hd₁ hne (hs₁.symm.trans hs₂)

/-- **C06** for what the composer answers: in any coherent history, a symbol that is answered for an object can be decoded, and the suffix of its last
descriptor is the only one that belongs to the kind of the entity. -/
theorem C06_composed (scopes : Scopes) (path version : Str) (rs : List Request) (hc : Coherent rs) (hf : FieldsOk path version rs)
    (i : Nat) (p : Option (Option ModIdent)) (o : Obj) (hi : rs[i]? = some (p, some o)) (s : Str)
    (hs : ((newComposer path version).run scopes rs).2[i]? = some s) (hne : s ≠ []) :
    ∃ name vers ds d, decodeSymbol s = some ⟨go!"scip-go", go!"gomod", name, vers, ds⟩ ∧ ds.getLast? = some d ∧
      ∀ sfx, Spec.kindMatches (kindForObject (some (entityOf o))) sfx ↔ sfx = d.suffix := by
  obtain ⟨r, hr, pth, _, hd, rfl⟩ := answer_made scopes path version rs hc i p o hi s hs hne
  obtain ⟨d, h1, h2⟩ := C06_kind_matches_last_descriptor scopes pth (entityOf o) hd
  have k := hf.pack hr
  exact ⟨_, _, _, d, C01_symbol_roundtrip _ _ _ k.1 k.2, h1, h2⟩

namespace ComposedSample

def T : ObjData := ⟨1, .typeName (.named (.struct [2])), go!"T", some go!"p", 1⟩
def X : ObjData := ⟨2, .var true, go!"X", some go!"p", 2⟩
def scopes : Scopes := fun _ => [T]

/-- The package `p` with `type T struct { X int }`. -/
def P : WellFormedPackage go!"p" scopes where
  scopeObjs := [T]
  methods := []
  fields := [X]
  scope_eq := rfl
  scope_kinds := by simp [T]
  scope_unique := by simp
  method_recv := by simp
  method_recv_named := by simp
  method_unique := by simp
  fields_cls := by simp [X]
  field_unique := by simp

/-- A history in which the field is asked for first with one package, then with another, and the type in between. -/
def history : List Request :=
  [(none, some (.plain X)), (some (some ⟨go!"m", go!"v1"⟩), some (.plain T)), (some (some ⟨go!"m", go!"v1"⟩), some (.plain X))]

theorem coherent : Coherent history := by
  intro r₁ h₁ r₂ h₂ o₁ o₂ e₁ e₂ h
  simp only [history, List.mem_cons, List.not_mem_nil, or_false] at h₁ h₂
  rcases h₁ with rfl | rfl | rfl <;> rcases h₂ with rfl | rfl | rfl <;> cases e₁ <;> cases e₂ <;> revert h <;> decide

theorem fields : FieldsOk go!"x" go!"y" history := by
  refine ⟨by decide, by decide, ?_⟩
  intro r hr m h
  simp only [history, List.mem_cons, List.not_mem_nil, or_false] at hr
  rcases hr with rfl | rfl | rfl <;> cases h <;> decide

theorem answers : ((newComposer go!"x" go!"y").run scopes history).2 =
    [go!"scip-go gomod x y p/T#X.", go!"scip-go gomod m v1 p/T#", go!"scip-go gomod x y p/T#X."] := by decide +kernel

/-- C05_composed and C06_composed apply to the history. -/
example : go!"scip-go gomod x y p/T#X." ≠ go!"scip-go gomod m v1 p/T#" :=
  C05_composed scopes go!"x" go!"y" history coherent fields go!"p" P 2 1 _ _ (.plain X) (.plain T) rfl rfl rfl rfl (.inr (.inr List.mem_cons_self)) (.inl List.mem_cons_self)
    (by decide) _ _ (by rw [answers]; rfl) (by rw [answers]; rfl) (by decide)

example := C06_composed scopes go!"x" go!"y" history coherent fields 2 _ (.plain X) rfl go!"scip-go gomod x y p/T#X." (by rw [answers]; rfl) (by decide)

end ComposedSample

end Verif
