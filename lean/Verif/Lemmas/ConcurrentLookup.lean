import Verif.Spec.ConcurrentLookup
/-! # Invariants of the tables under concurrent calls (for C109) -/
namespace Verif.ConcurrentLookup
open Spec

/-- `GetSymbolOfObject` in the steps of the machine. -/
theorem ofObject_eq (scopes : Scopes) (g : Global) (obj : Obj) : g.getSymbolOfObject scopes obj =
    if obj.self.objId ∈ g.skipped then (g, .skip)
    else match next obj with
      | .answer f => (g, f)
      | .mark => ({ g with skipped := obj.self.objId :: g.skipped }, .skip)
      | .search path =>
        match (testPackageCombinations path).findSome? (fun c => g.getSymbolInformation c obj.self.pos) with
        | some info => (g, .info info)
        | none =>
          match g.symbols.lookup path with
          | some r =>
            let (c, sym) := g.composer.compose scopes (some r.module) (some obj)
            if sym = [] then ({ g with composer := c }, .error) else ({ g with composer := c }, .info (composedInfo sym))
          | none => (g, .error) := by
  unfold Global.getSymbolOfObject next
  by_cases hs : obj.self.objId ∈ g.skipped
  · simp [hs]
  · simp only [hs, if_false]
    cases obj.self.cls <;> cases obj.self.pkg <;> simp only [] <;> first | rfl | (split <;> rfl)

theorem next_mark {obj : Obj} (h : next obj = .mark) : Predeclared obj := by
  unfold next at h
  unfold Predeclared
  cases hc : obj.self.cls <;> cases hp : obj.self.pkg <;> rw [hc, hp] at h <;> simp only [] at h <;> first
    | exact ⟨rfl, _, rfl⟩
    | (split at h <;> exact Next.noConfusion h)
    | exact Next.noConfusion h

theorem predeclared_next {obj : Obj} (h : Predeclared obj) : next obj = .mark := by
  obtain ⟨hp, k, hc⟩ := h
  unfold next
  rw [hc, hp]

theorem set_same (s : State) (t : Nat) (x : Thread) : (s.set t x).threads t = x := by simp [State.set]
theorem set_other (s : State) {t u : Nat} (x : Thread) (h : u ≠ t) : (s.set t x).threads u = s.threads u := by simp [State.set, h]

theorem forall_set {s : State} {t : Nat} {x : Thread} {P : Nat → Thread → Prop} (hx : P t x) (h : ∀ u, u ≠ t → P u (s.threads u)) :
    ∀ u, P u ((s.set t x).threads u) := by
  intro u
  by_cases hu : u = t
  · subst hu; rw [set_same]; exact hx
  · rw [set_other s x hu]; exact h u hu

/-- The call a goroutine is working on. -/
def inFlight : Pc → List Call
  | .outside => []
  | .waiting c | .holding c | .written c _ => [c]
  | .halfway path m => [.setPkgSymbol path m]
  | .marking obj | .searching obj _ _ | .composing obj _ _ => [.ofObject obj]

/-- The goroutine is between `Lock` and `Unlock`. -/
def inside : Pc → Bool
  | .holding _ | .halfway _ _ | .written _ _ => true
  | _ => false

/-- The goroutine is in a lookup. -/
def looking : Pc → Bool
  | .marking _ | .searching _ _ _ | .composing _ _ _ => true
  | _ => false

/-- What the holder of the mutex is doing, when the tables were `g₁` when it got it. -/
def Doing (scopes : Scopes) (g₁ g : Global) : Pc → Prop
  | .holding _ => g = g₁
  | .halfway path m => g = { g₁ with pkgSymbols := (path, pkgSymbolText path m) :: g₁.pkgSymbols }
  | .written c a => oneCall scopes g₁ c = (g, a)
  | _ => False

/-- What a lookup has found so far. -/
def LookOk (g : Global) : Pc → Prop
  | .marking obj => next obj = .mark
  | .searching obj path left => obj.self.objId ∉ g.skipped ∧ next obj = .search path ∧
      ∃ done, testPackageCombinations path = done ++ left ∧ ∀ c ∈ done, g.getSymbolInformation c obj.self.pos = none
  | .composing obj path m => obj.self.objId ∉ g.skipped ∧ next obj = .search path ∧
      (∀ c ∈ testPackageCombinations path, g.getSymbolInformation c obj.self.pos = none) ∧ ∃ r, g.symbols.lookup path = some r ∧ r.module = m
  | _ => True

/-- The goroutines either all fill the tables or all look things up. -/
def OneKind (calls : Nat → List Call) : Prop := (∀ t, ∀ c ∈ calls t, Update c) ∨ ∀ t, ∀ c ∈ calls t, Lookup c

structure Inv (scopes : Scopes) (g : Global) (calls : Nat → List Call) (s : State) (log : List Finished) (g₁ : Global) : Prop where
  run : inOrder scopes g (log.map (·.call)) = (g₁, log.map (·.answer))
  holder : (s.locked = false ∧ s.g = g₁ ∧ ∀ t, inside (s.threads t).pc = false) ∨
    ∃ t, s.locked = true ∧ (∀ u, inside (s.threads u).pc = true → u = t) ∧ Doing scopes g₁ s.g (s.threads t).pc
  returned : ∀ t, finishedBy log t = (s.threads t).returned
  progress : ∀ t, (s.threads t).returned.map (·.1) ++ inFlight (s.threads t).pc ++ (s.threads t).todo = calls t
  look : ∀ t, LookOk s.g (s.threads t).pc

theorem finishedBy_snoc (log : List Finished) (c : Finished) (t : Nat) :
    finishedBy (log ++ [c]) t = finishedBy log t ++ (if c.thread = t then [(c.call, c.answer)] else []) := by
  unfold finishedBy
  rw [List.filter_append, List.map_append]
  by_cases h : c.thread = t <;> simp [h]

theorem inOrder_append (scopes : Scopes) (a b : List Call) (g : Global) :
    inOrder scopes g (a ++ b) = ((inOrder scopes (inOrder scopes g a).1 b).1, (inOrder scopes g a).2 ++ (inOrder scopes (inOrder scopes g a).1 b).2) := by
  induction a generalizing g with
  | nil => rfl
  | cons c a ih => simp [inOrder, ih]

theorem run_snoc {scopes : Scopes} {g g₁ g₂ : Global} {log : List Finished} {c : Finished}
    (h : inOrder scopes g (log.map (·.call)) = (g₁, log.map (·.answer))) (hc : oneCall scopes g₁ c.call = (g₂, c.answer)) :
    inOrder scopes g ((log ++ [c]).map (·.call)) = (g₂, (log ++ [c]).map (·.answer)) := by
  rw [List.map_append, inOrder_append, h]
  simp [inOrder, hc]

theorem doing_inside {scopes : Scopes} {g₁ g : Global} {pc : Pc} (h : Doing scopes g₁ g pc) : inside pc = true := by
  cases pc <;> first | rfl | exact h.elim

theorem inFlight_mem {scopes g calls s log g₁} (h : Inv scopes g calls s log g₁) {t : Nat} {c : Call} (hc : c ∈ inFlight (s.threads t).pc) :
    c ∈ calls t := by
  rw [← h.progress t]
  simp [hc]

theorem todo_mem {scopes g calls s log g₁} (h : Inv scopes g calls s log g₁) {t : Nat} {c : Call} (hc : c ∈ (s.threads t).todo) :
    c ∈ calls t := by
  rw [← h.progress t]
  simp [hc]

/-- Which calls hold the mutex. -/
def PcOk : Pc → Prop
  | .waiting c | .holding c | .written c _ => Update c
  | _ => True

theorem update_not_lookup {c : Call} (h : Update c) (h' : Lookup c) : False := by
  cases c <;> first | exact h | exact h'

theorem isUpdate_iff {c : Call} : c.isUpdate = true ↔ Update c := by
  cases c <;> simp [Call.isUpdate, Update]

/-- A goroutine that holds the mutex is filling the tables (whatever the calls are). -/
theorem pcOk_step {scopes : Scopes} {s s' : State} {u : Nat} {acc} (hst : Step scopes s u acc s') (h : ∀ t, PcOk (s.threads t).pc) :
    ∀ t, PcOk (s'.threads t).pc := by
  have key : ∀ (x : Thread), PcOk x.pc → ∀ v, PcOk ((s.set u x).threads v).pc :=
    fun x hx => forall_set (P := fun _ y => PcOk y.pc) hx (fun v _ => h v)
  have hu := h u
  cases hst with
  | enter c cs hpc htodo hc => exact key _ (isUpdate_iff.1 hc)
  | lock c hpc hfree => rw [hpc] at hu; exact key _ hu
  | addWrite path r hpc => exact key _ trivial
  | pkgWrite path m hpc => exact key _ trivial
  | tableWrite path m hpc => exact key _ trivial
  | unlock c a hpc => exact key _ trivial
  | readPkgSymbol path cs hpc htodo => exact key _ trivial
  | readPackage path cs hpc htodo => exact key _ trivial
  | readInfo path pos cs hpc htodo => exact key _ trivial
  | skipHit obj cs hpc htodo hs => exact key _ trivial
  | decided obj cs f hpc htodo hs hn => exact key _ trivial
  | toMark obj cs hpc htodo hs hn => exact key _ trivial
  | mark obj hpc => exact key _ trivial
  | toSearch obj path cs hpc htodo hs hn => exact key _ trivial
  | hit obj path c left i hpc hi => exact key _ trivial
  | miss obj path c left hpc hi => exact key _ trivial
  | unknown obj path hpc hr => exact key _ trivial
  | known obj path r hpc hr => exact key _ trivial
  | compose obj path m c sym hpc hcs => exact key _ trivial

theorem pcOk_steps {scopes : Scopes} {s s' : State} (hst : Steps scopes s s') (h : ∀ t, PcOk (s.threads t).pc) : ∀ t, PcOk (s'.threads t).pc := by
  induction hst with
  | refl => exact h
  | step _ hs ih => exact pcOk_step hs ih

/-- At most one goroutine is inside, and then the mutex is held (whatever the calls are). -/
structure Mutex (s : State) : Prop where
  free : s.locked = false → ∀ t, inside (s.threads t).pc = false
  one : ∀ t u, inside (s.threads t).pc = true → inside (s.threads u).pc = true → t = u
  held : s.locked = true → ∃ t, inside (s.threads t).pc = true

theorem mutex_step {scopes : Scopes} {s s' : State} {u : Nat} {acc} (hst : Step scopes s u acc s') (h : Mutex s) : Mutex s' := by
  -- the goroutine stays on its side of the mutex
  have same : ∀ (x : Thread) (g : Global), inside x.pc = inside (s.threads u).pc → Mutex { s.set u x with g := g } := by
    intro x g hx
    have e : ∀ v, inside ((s.set u x).threads v).pc = inside (s.threads v).pc := by
      intro v
      by_cases hv : v = u
      · subst hv; rw [set_same, hx]
      · rw [set_other s x hv]
    refine ⟨fun hl t => ?_, fun a b ha hb => ?_, fun hl => ?_⟩
    · show inside ((s.set u x).threads t).pc = false
      rw [e]; exact h.free hl t
    · refine h.one a b ?_ ?_
      · rw [← e]; exact ha
      · rw [← e]; exact hb
    · obtain ⟨t, ht⟩ := h.held hl
      exact ⟨t, (e t).trans ht⟩
  cases hst with
  | enter c cs hpc htodo hc => exact same _ s.g (by rw [hpc]; rfl)
  | lock c hpc hfree =>
    refine ⟨fun hl => by simp at hl, ?_, fun _ => ⟨u, ?_⟩⟩
    · have : ∀ v, inside ((s.move u (.holding c)).threads v).pc = true → v = u :=
        forall_set (P := fun v y => inside y.pc = true → v = u) (fun _ => rfl) (fun v _ hv => by rw [h.free hfree v] at hv; simp at hv)
      intro a b ha hb
      rw [this a ha, this b hb]
    · show inside ((s.move u (.holding c)).threads u).pc = true
      unfold State.move
      rw [set_same]; rfl
  | addWrite path r hpc => exact same _ _ (by rw [hpc]; rfl)
  | pkgWrite path m hpc => exact same _ _ (by rw [hpc]; rfl)
  | tableWrite path m hpc => exact same _ _ (by rw [hpc]; rfl)
  | unlock c a hpc =>
    have hn : ∀ v, inside ((s.ret u c a).threads v).pc = false :=
      forall_set (P := fun v y => inside y.pc = false) rfl (fun v hv => by
        cases hi : inside (s.threads v).pc with
        | false => rfl
        | true => exact absurd (h.one v u hi (by rw [hpc]; rfl)) hv)
    exact ⟨fun _ => hn, fun a b ha _ => by rw [hn a] at ha; simp at ha, fun hl => by simp at hl⟩
  | readPkgSymbol path cs hpc htodo => exact same _ s.g (by rw [hpc])
  | readPackage path cs hpc htodo => exact same _ s.g (by rw [hpc])
  | readInfo path pos cs hpc htodo => exact same _ s.g (by rw [hpc])
  | skipHit obj cs hpc htodo hs => exact same _ s.g (by rw [hpc])
  | decided obj cs f hpc htodo hs hn => exact same _ s.g (by rw [hpc])
  | toMark obj cs hpc htodo hs hn => exact same _ s.g (by rw [hpc]; rfl)
  | mark obj hpc => exact same _ _ (by rw [hpc]; rfl)
  | toSearch obj path cs hpc htodo hs hn => exact same _ s.g (by rw [hpc]; rfl)
  | hit obj path c left i hpc hi => exact same _ s.g (by rw [hpc]; rfl)
  | miss obj path c left hpc hi => exact same _ s.g (by rw [hpc]; rfl)
  | unknown obj path hpc hr => exact same _ s.g (by rw [hpc]; rfl)
  | known obj path r hpc hr => exact same _ s.g (by rw [hpc]; rfl)
  | compose obj path m c sym hpc hcs => exact same _ _ (by rw [hpc]; rfl)

theorem mutex_start (g : Global) (calls : Nat → List Call) : Mutex (start g calls) :=
  ⟨fun _ _ => rfl, fun _ _ h => by simp [start, inside] at h, fun h => by simp [start] at h⟩

theorem mutex_steps {scopes : Scopes} {s s' : State} (hst : Steps scopes s s') (h : Mutex s) : Mutex s' := by
  induction hst with
  | refl => exact h
  | step _ hs ih => exact mutex_step hs ih

/-- If the goroutines only look things up, nobody holds the mutex. -/
theorem lookups_free {scopes g calls s log g₁} (h : Inv scopes g calls s log g₁) (hp : ∀ t, PcOk (s.threads t).pc)
    (hk : ∀ t, ∀ c ∈ calls t, Lookup c) : s.locked = false ∧ s.g = g₁ ∧ ∀ t, inside (s.threads t).pc = false := by
  rcases h.holder with h1 | ⟨t, _, _, hd⟩
  · exact h1
  · have hc := fun c hc => hk t c (inFlight_mem h (c := c) hc)
    have hpt := hp t
    cases hpc : (s.threads t).pc with
    | holding c => rw [hpc] at hc hpt; exact (update_not_lookup hpt (hc c (by simp [inFlight]))).elim
    | written c a => rw [hpc] at hc hpt; exact (update_not_lookup hpt (hc c (by simp [inFlight]))).elim
    | halfway path m => rw [hpc] at hc; exact (hc (.setPkgSymbol path m) (by simp [inFlight])).elim
    | _ => rw [hpc] at hd; exact hd.elim

/-- If the goroutines only fill the tables, nobody is in a lookup. -/
theorem updates_look {scopes g calls s log g₁} (h : Inv scopes g calls s log g₁) (hk : ∀ t, ∀ c ∈ calls t, Update c) (g' : Global) (t : Nat) :
    LookOk g' (s.threads t).pc := by
  have hc := fun c hc => hk t c (inFlight_mem h (c := c) hc)
  cases hpc : (s.threads t).pc with
  | searching obj path left => rw [hpc] at hc; exact (hc (.ofObject obj) (by simp [inFlight])).elim
  | composing obj path m => rw [hpc] at hc; exact (hc (.ofObject obj) (by simp [inFlight])).elim
  | marking obj => rw [hpc] at hc; exact (hc (.ofObject obj) (by simp [inFlight])).elim
  | _ => trivial

/-- A goroutine that does not hold the mutex moves on within its call. -/
theorem inv_move {scopes g calls s log g₁} (h : Inv scopes g calls s log g₁) {t : Nat} {x : Thread} (hret : x.returned = (s.threads t).returned)
    (hprog : inFlight x.pc ++ x.todo = inFlight (s.threads t).pc ++ (s.threads t).todo) (hout : inside (s.threads t).pc = false)
    (hx : inside x.pc = false) (hlook : LookOk s.g x.pc) : Inv scopes g calls (s.set t x) log g₁ := by
  refine ⟨h.run, ?_, ?_, ?_, ?_⟩
  · rcases h.holder with ⟨h1, h2, h3⟩ | ⟨u, h1, h2, h3⟩
    · exact .inl ⟨h1, h2, forall_set (P := fun _ y => inside y.pc = false) hx (fun u _ => h3 u)⟩
    · have hu : u ≠ t := by
        rintro rfl
        rw [doing_inside h3] at hout
        simp at hout
      refine .inr ⟨u, h1, forall_set (P := fun v y => inside y.pc = true → v = u) (fun hy => by rw [hx] at hy; simp at hy) (fun v _ hv => h2 v hv), ?_⟩
      rw [set_other s x hu]
      exact h3
  · exact forall_set (P := fun u y => finishedBy log u = y.returned) (by rw [hret]; exact h.returned t) (fun u _ => h.returned u)
  · refine forall_set (P := fun u y => y.returned.map (·.1) ++ inFlight y.pc ++ y.todo = calls u) ?_ (fun u _ => h.progress u)
    rw [List.append_assoc, hprog, hret, ← List.append_assoc]
    exact h.progress t
  · exact forall_set (P := fun _ y => LookOk s.g y.pc) hlook (fun u _ => h.look u)

/-- A lookup returns. -/
theorem inv_return {scopes g calls s log g₁} (h : Inv scopes g calls s log g₁)
    (hfree : s.locked = false ∧ s.g = g₁ ∧ ∀ t, inside (s.threads t).pc = false) {t : Nat} {cs : List Call} {c : Call} {a : Answer} {g' : Global}
    (hprog : inFlight (s.threads t).pc ++ (s.threads t).todo = c :: cs) (hcall : oneCall scopes s.g c = (g', a))
    (hsame : ∀ pc, LookOk s.g pc → LookOk g' pc) :
    Inv scopes g calls { s.set t ⟨cs, .outside, (s.threads t).returned ++ [(c, a)]⟩ with g := g' } (log ++ [⟨t, c, a⟩]) g' := by
  obtain ⟨f1, f2, f3⟩ := hfree
  refine ⟨run_snoc h.run (by rw [← f2]; exact hcall), .inl ⟨f1, rfl, ?_⟩, ?_, ?_, ?_⟩
  · exact forall_set (s := s) (P := fun _ y => inside y.pc = false) rfl (fun u _ => f3 u)
  · refine forall_set (s := s) (P := fun u y => finishedBy (log ++ [⟨t, c, a⟩]) u = y.returned) ?_ (fun u hu => ?_)
    · rw [finishedBy_snoc, h.returned t]; simp
    · rw [finishedBy_snoc, h.returned u]; simp [Ne.symm hu]
  · refine forall_set (s := s) (P := fun u y => y.returned.map (·.1) ++ inFlight y.pc ++ y.todo = calls u) ?_ (fun u _ => h.progress u)
    rw [← h.progress t, List.append_assoc ((s.threads t).returned.map _), hprog]
    simp [inFlight]
  · exact forall_set (s := s) (P := fun _ y => LookOk g' y.pc) trivial (fun u _ => hsame _ (h.look u))

/-- The holder of the mutex moves on and keeps it. -/
theorem inv_holder {scopes g calls s log g₁} (h : Inv scopes g calls s log g₁) (hk : ∀ t, ∀ c ∈ calls t, Update c) {t : Nat} {pc : Pc}
    {g' : Global} (hin : inside (s.threads t).pc = true) (hflight : inFlight pc = inFlight (s.threads t).pc) (hlook : LookOk g' pc)
    (hdo : Doing scopes g₁ s.g (s.threads t).pc → Doing scopes g₁ g' pc) :
    Inv scopes g calls { s.move t pc with g := g' } log g₁ := by
  refine ⟨h.run, ?_, ?_, ?_, ?_⟩
  · rcases h.holder with ⟨_, _, h3⟩ | ⟨u, h1, h2, h3⟩
    · rw [h3 t] at hin; simp at hin
    · have hu := h2 t hin
      subst hu
      refine .inr ⟨t, h1, forall_set (s := s) (P := fun u x => inside x.pc = true → u = t) (fun _ => rfl) (fun u _ hu => h2 u hu), ?_⟩
      show Doing scopes g₁ g' ((s.set t _).threads t).pc
      rw [set_same]
      exact hdo h3
  · exact forall_set (s := s) (P := fun u x => finishedBy log u = x.returned) (h.returned t) (fun u _ => h.returned u)
  · refine forall_set (s := s) (P := fun u x => x.returned.map (·.1) ++ inFlight x.pc ++ x.todo = calls u) ?_ (fun u _ => h.progress u)
    rw [← h.progress t, ← hflight]
  · exact forall_set (s := s) (P := fun _ y => LookOk g' y.pc) hlook (fun u _ => updates_look h hk g' u)

theorem searched_all {g : Global} {obj : Obj} {path : Str} (h : ∀ c ∈ testPackageCombinations path, g.getSymbolInformation c obj.self.pos = none) :
    (testPackageCombinations path).findSome? (fun c => g.getSymbolInformation c obj.self.pos) = none :=
  List.findSome?_eq_none_iff.2 h

theorem searched_hit {g : Global} {obj : Obj} {path c : Str} {left done : List Str} {i : SymInfo}
    (hd : testPackageCombinations path = done ++ c :: left) (hn : ∀ c ∈ done, g.getSymbolInformation c obj.self.pos = none)
    (hi : g.getSymbolInformation c obj.self.pos = some i) :
    (testPackageCombinations path).findSome? (fun c => g.getSymbolInformation c obj.self.pos) = some i := by
  rw [hd, List.findSome?_append, List.findSome?_eq_none_iff.2 hn]
  simp [hi]

theorem inv_step {scopes g calls s log g₁ s' u acc} (hk : OneKind calls) (h : Inv scopes g calls s log g₁) (hp : ∀ t, PcOk (s.threads t).pc)
    (hst : Step scopes s u acc s') : ∃ l g₂, Inv scopes g calls s' (log ++ l) g₂ := by
  -- the calls are lookups if the goroutine is in one
  have lk : ∀ {c : Call}, c ∈ inFlight (s.threads u).pc ∨ c ∈ (s.threads u).todo → ¬ Update c → ∀ t, ∀ c ∈ calls t, Lookup c := by
    intro c hc hn
    rcases hk with hk | hk
    · exact absurd (hk u c (hc.elim (inFlight_mem h) (todo_mem h))) hn
    · exact hk
  have up : ∀ {c : Call}, c ∈ inFlight (s.threads u).pc ∨ c ∈ (s.threads u).todo → Update c → ∀ t, ∀ c ∈ calls t, Update c := by
    intro c hc hn
    rcases hk with hk | hk
    · exact hk
    · exact (update_not_lookup hn (hk u c (hc.elim (inFlight_mem h) (todo_mem h)))).elim
  -- a lookup that returns at once
  have once : ∀ {cs : List Call} {c : Call} {a : Answer}, (s.threads u).pc = .outside → (s.threads u).todo = c :: cs → ¬ Update c →
      oneCall scopes s.g c = (s.g, a) → ∃ l g₂, Inv scopes g calls (s.once u cs c a) (log ++ l) g₂ := by
    intro cs c a hpc htodo hn hcall
    exact ⟨_, _, inv_return h (lookups_free h hp (lk (.inr (by rw [htodo]; simp)) hn)) (by rw [hpc, htodo]; rfl) hcall (fun _ => id)⟩
  -- a lookup that returns after some steps
  have ret : ∀ {c : Call} {a : Answer} {g' : Global}, inFlight (s.threads u).pc = [c] → ¬ Update c → oneCall scopes s.g c = (g', a) →
      (∀ pc, LookOk s.g pc → LookOk g' pc) → ∃ l g₂, Inv scopes g calls { s.ret u c a with g := g' } (log ++ l) g₂ := by
    intro c a g' hfl hn hcall hsame
    exact ⟨_, _, inv_return h (lookups_free h hp (lk (.inl (by rw [hfl]; simp)) hn)) (by rw [hfl]; rfl) hcall hsame⟩
  -- within a lookup
  have go : ∀ {x : Thread}, x.returned = (s.threads u).returned → inFlight x.pc ++ x.todo = inFlight (s.threads u).pc ++ (s.threads u).todo →
      inside (s.threads u).pc = false → inside x.pc = false → LookOk s.g x.pc → ∃ l g₂, Inv scopes g calls (s.set u x) (log ++ l) g₂ := by
    intro x h1 h2 h3 h4 h5
    exact ⟨[], g₁, by rw [List.append_nil]; exact inv_move h h1 h2 h3 h4 h5⟩
  have hlu := h.look u
  cases hst with
  | enter c cs hpc htodo hc => exact go rfl (by rw [hpc, htodo]; rfl) (by rw [hpc]; rfl) rfl trivial
  | lock c hpc hfree =>
    have hu := hp u
    rw [hpc] at hu
    refine ⟨[], g₁, by simpa using h.run, ?_, ?_, ?_, ?_⟩
    · rcases h.holder with ⟨h1, h2, h3⟩ | ⟨v, h1, _⟩
      · refine .inr ⟨u, rfl, forall_set (s := s) (P := fun v x => inside x.pc = true → v = u) (fun _ => rfl) (fun v _ hv => ?_), ?_⟩
        · rw [h3 v] at hv; simp at hv
        · show Doing scopes g₁ s.g ((s.set u _).threads u).pc
          rw [set_same]
          exact h2
      · rw [hfree] at h1; simp at h1
    · rw [List.append_nil]
      exact forall_set (s := s) (P := fun v x => finishedBy log v = x.returned) (h.returned u) (fun v _ => h.returned v)
    · refine forall_set (s := s) (P := fun v x => x.returned.map (·.1) ++ inFlight x.pc ++ x.todo = calls v) ?_ (fun v _ => h.progress v)
      rw [← h.progress u, hpc]
      rfl
    · exact forall_set (s := s) (P := fun _ x => LookOk s.g x.pc) trivial (fun v _ => h.look v)
  | addWrite path r hpc =>
    refine ⟨[], g₁, ?_⟩
    rw [List.append_nil]
    refine inv_holder h (up (c := .add path r) (.inl (by rw [hpc]; simp [inFlight])) trivial) (by rw [hpc]; rfl) (by rw [hpc]; rfl) trivial (fun hd => ?_)
    rw [hpc] at hd
    have hd : s.g = g₁ := hd
    rw [hd]
    rfl
  | pkgWrite path m hpc =>
    refine ⟨[], g₁, ?_⟩
    rw [List.append_nil]
    refine inv_holder h (up (c := .setPkgSymbol path m) (.inl (by rw [hpc]; simp [inFlight])) trivial) (by rw [hpc]; rfl) (by rw [hpc]; rfl) trivial
      (fun hd => ?_)
    rw [hpc] at hd
    have hd : s.g = g₁ := hd
    rw [hd]
    rfl
  | tableWrite path m hpc =>
    refine ⟨[], g₁, ?_⟩
    rw [List.append_nil]
    refine inv_holder h (up (c := .setPkgSymbol path m) (.inl (by rw [hpc]; simp [inFlight])) trivial) (by rw [hpc]; rfl) (by rw [hpc]; rfl) trivial
      (fun hd => ?_)
    rw [hpc] at hd
    have hd : s.g = { g₁ with pkgSymbols := (path, pkgSymbolText path m) :: g₁.pkgSymbols } := hd
    rw [hd]
    rfl
  | unlock c a hpc =>
    rcases h.holder with ⟨_, _, h3⟩ | ⟨v, h1, h2, h3⟩
    · have := h3 u
      rw [hpc] at this
      simp [inside] at this
    · have hv : u = v := h2 u (by rw [hpc]; rfl)
      subst hv
      rw [hpc] at h3
      have h3 : oneCall scopes g₁ c = (s.g, a) := h3
      refine ⟨[⟨u, c, a⟩], s.g, run_snoc h.run h3, .inl ⟨rfl, rfl, ?_⟩, ?_, ?_, ?_⟩
      · refine forall_set (s := s) (P := fun v x => inside x.pc = false) rfl (fun v hv => ?_)
        cases hi : inside (s.threads v).pc with
        | false => rfl
        | true => exact absurd (h2 v hi) hv
      · refine forall_set (s := s) (P := fun v x => finishedBy (log ++ [⟨u, c, a⟩]) v = x.returned) ?_ ?_
        · rw [finishedBy_snoc, h.returned u]; simp
        · intro v hv
          rw [finishedBy_snoc, h.returned v]
          simp [Ne.symm hv]
      · refine forall_set (s := s) (P := fun v x => x.returned.map (·.1) ++ inFlight x.pc ++ x.todo = calls v) ?_ (fun v _ => h.progress v)
        rw [← h.progress u, hpc]
        simp [inFlight]
      · exact forall_set (s := s) (P := fun _ x => LookOk s.g x.pc) trivial (fun v _ => h.look v)
  | readPkgSymbol path cs hpc htodo => exact once hpc htodo id rfl
  | readPackage path cs hpc htodo => exact once hpc htodo id rfl
  | readInfo path pos cs hpc htodo => exact once hpc htodo id rfl
  | skipHit obj cs hpc htodo hs =>
    exact once hpc htodo id (by simp [oneCall, ofObject_eq, hs])
  | decided obj cs f hpc htodo hs hn =>
    exact once hpc htodo id (by simp [oneCall, ofObject_eq, hs, hn])
  | toMark obj cs hpc htodo hs hn =>
    have := lk (c := .ofObject obj) (.inr (by rw [htodo]; simp)) id u (.ofObject obj) (todo_mem h (by rw [htodo]; simp))
    exact absurd (next_mark hn) this
  | mark obj hpc =>
    rw [hpc] at hlu
    have := lk (c := .ofObject obj) (.inl (by rw [hpc]; simp [inFlight])) id u (.ofObject obj) (inFlight_mem h (by rw [hpc]; simp [inFlight]))
    exact absurd (next_mark hlu) this
  | toSearch obj path cs hpc htodo hs hn =>
    exact go rfl (by rw [hpc, htodo]; rfl) (by rw [hpc]; rfl) rfl ⟨hs, hn, [], rfl, by simp⟩
  | hit obj path c left i hpc hi =>
    rw [hpc] at hlu
    obtain ⟨h1, h2, done, h3, h4⟩ := hlu
    exact ret (g' := s.g) (by rw [hpc]; rfl) id (by simp [oneCall, ofObject_eq, h1, h2, searched_hit h3 h4 hi]) (fun _ => id)
  | miss obj path c left hpc hi =>
    rw [hpc] at hlu
    obtain ⟨h1, h2, done, h3, h4⟩ := hlu
    refine go rfl (by rw [hpc]; rfl) (by rw [hpc]; rfl) rfl ⟨h1, h2, done ++ [c], by rw [h3]; simp, ?_⟩
    intro d hd
    rcases List.mem_append.1 hd with hd | hd
    · exact h4 d hd
    · rw [List.mem_singleton.1 hd]; exact hi
  | unknown obj path hpc hr =>
    rw [hpc] at hlu
    obtain ⟨h1, h2, done, h3, h4⟩ := hlu
    rw [List.append_nil] at h3
    exact ret (g' := s.g) (by rw [hpc]; rfl) id (by simp [oneCall, ofObject_eq, h1, h2, searched_all (h3 ▸ h4), hr]) (fun _ => id)
  | known obj path r hpc hr =>
    rw [hpc] at hlu
    obtain ⟨h1, h2, done, h3, h4⟩ := hlu
    rw [List.append_nil] at h3
    exact go rfl (by rw [hpc]; rfl) (by rw [hpc]; rfl) rfl ⟨h1, h2, by rw [h3]; exact h4, r, hr, rfl⟩
  | compose obj path m c sym hpc hcs =>
    rw [hpc] at hlu
    obtain ⟨h1, h2, h3, r, h4, rfl⟩ := hlu
    refine ret (by rw [hpc]; rfl) id ?_ ?_
    · by_cases hsym : sym = []
      · simp [oneCall, ofObject_eq, h1, h2, searched_all h3, h4, hcs, hsym]
      · simp [oneCall, ofObject_eq, h1, h2, searched_all h3, h4, hcs, hsym]
    · intro pc hpc'
      cases pc <;> exact hpc'

end Verif.ConcurrentLookup
