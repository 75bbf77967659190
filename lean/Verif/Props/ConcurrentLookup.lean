import Verif.Lemmas.ConcurrentLookup
import Verif.Props.Lookup
/-! # C109: the tables may be filled concurrently, and read concurrently, but not both at once -/
namespace Verif
open Spec ConcurrentLookup

namespace ConcurrentLookup

theorem inv_start (scopes : Scopes) (g : Global) (calls : Nat → List Call) : Inv scopes g calls (start g calls) [] g :=
  ⟨rfl, .inl ⟨rfl, rfl, fun _ => rfl⟩, fun _ => rfl, fun t => by simp [start, inFlight], fun _ => trivial⟩

theorem inv_steps {scopes : Scopes} {g : Global} {calls : Nat → List Call} {s s' : State} {log : List Finished} {g₁ : Global} (hk : OneKind calls)
    (h : Inv scopes g calls s log g₁) (hp : ∀ t, PcOk (s.threads t).pc) (hst : Steps scopes s s') :
    ∃ l g₂, Inv scopes g calls s' (log ++ l) g₂ := by
  induction hst with
  | refl => exact ⟨[], g₁, by simpa using h⟩
  | step hs1 hs ih =>
    obtain ⟨l, g₂, h1⟩ := ih
    obtain ⟨l', g₃, h2⟩ := inv_step hk h1 (pcOk_steps hs1 hp) hs
    exact ⟨l ++ l', g₃, by rw [← List.append_assoc]; exact h2⟩

theorem pcOk_start (g : Global) (calls : Nat → List Call) : ∀ t, PcOk ((start g calls).threads t).pc := fun _ => trivial

end ConcurrentLookup

/-- **C109** (filling).  However many goroutines call `Add` and `SetPkgSymbol`, and however their steps interleave: the calls that have returned can be put in an
order, which agrees with the order of each goroutine's calls, and with time (those that have returned in the state `s` come before those that return later), such
that every call got the answer it gets if the calls are made one after the other in this order; and whenever nobody holds the mutex the tables are those that
these calls leave. -/
theorem C109_updates (scopes : Scopes) (g : Global) (calls : Nat → List Call) (hk : ∀ t, ∀ c ∈ calls t, Update c) (s s' : State)
    (h : Steps scopes (start g calls) s) (h' : Steps scopes s s') :
    ∃ log later : List Finished, (inOrder scopes g ((log ++ later).map (·.call))).2 = (log ++ later).map (·.answer) ∧
      (∀ t, finishedBy log t = (s.threads t).returned) ∧ (∀ t, finishedBy (log ++ later) t = (s'.threads t).returned) ∧
      (∀ t, ∃ todo, (s'.threads t).returned.map (·.1) ++ todo = calls t) ∧
      (s'.locked = false → s'.g = (inOrder scopes g ((log ++ later).map (·.call))).1) := by
  obtain ⟨log, g₁, h1⟩ := inv_steps (.inl hk) (inv_start scopes g calls) (pcOk_start g calls) h
  obtain ⟨l, g₂, h2⟩ := inv_steps (.inl hk) h1 (pcOk_steps h (pcOk_start g calls)) h'
  refine ⟨[] ++ log, l, ?_, h1.returned, h2.returned, fun t => ⟨_, by rw [← List.append_assoc]; exact h2.progress t⟩, ?_⟩
  · rw [h2.run]
  · intro hl
    rw [h2.run]
    rcases h2.holder with ⟨_, h3, _⟩ | ⟨_, h3, _⟩
    · exact h3
    · rw [hl] at h3; simp at h3

/-- **C109** (reading).  The same for goroutines that only look things up, none of them a predeclared type, in tables that may be anything at the beginning. -/
theorem C109_lookups (scopes : Scopes) (g : Global) (calls : Nat → List Call) (hk : ∀ t, ∀ c ∈ calls t, Lookup c) (s s' : State)
    (h : Steps scopes (start g calls) s) (h' : Steps scopes s s') :
    ∃ log later : List Finished, (inOrder scopes g ((log ++ later).map (·.call))).2 = (log ++ later).map (·.answer) ∧
      (∀ t, finishedBy log t = (s.threads t).returned) ∧ (∀ t, finishedBy (log ++ later) t = (s'.threads t).returned) ∧
      (∀ t, ∃ todo, (s'.threads t).returned.map (·.1) ++ todo = calls t) ∧
      s'.g = (inOrder scopes g ((log ++ later).map (·.call))).1 := by
  obtain ⟨log, g₁, h1⟩ := inv_steps (.inr hk) (inv_start scopes g calls) (pcOk_start g calls) h
  have hp := pcOk_steps h (pcOk_start g calls)
  obtain ⟨l, g₂, h2⟩ := inv_steps (.inr hk) h1 hp h'
  refine ⟨[] ++ log, l, ?_, h1.returned, h2.returned, fun t => ⟨_, by rw [← List.append_assoc]; exact h2.progress t⟩, ?_⟩
  · rw [h2.run]
  · rw [h2.run]
    exact (lookups_free h2 (pcOk_steps h' hp) hk).2.1

namespace ConcurrentLookup

/-- What a step may access, by the call that it belongs to. -/
theorem step_access {scopes : Scopes} {s s' : State} {t : Nat} {acc : List Access} (hst : Step scopes s t acc s')
    (hm : ∀ o, (s.threads t).pc = .marking o → next o = .mark) {a : Access} (ha : a ∈ acc) :
    ∃ c, currentCall (s.threads t) = some c ∧
      ((Update c ∧ inside (s.threads t).pc = true ∧ a.loc ≠ .skipped) ∨ (¬ Update c ∧ a.loc ≠ .skipped ∧ a.write = false) ∨
        (∃ o, c = .ofObject o ∧ a.loc = .skipped ∧ (a.write = true → Predeclared o))) := by
  unfold currentCall
  cases hst with
  | enter c cs hpc htodo hc => simp at ha
  | lock c hpc hfree => simp at ha
  | addWrite path r hpc => rw [hpc]; simp only [List.mem_singleton] at ha; subst ha; exact ⟨_, rfl, .inl ⟨trivial, rfl, by simp⟩⟩
  | pkgWrite path m hpc => rw [hpc]; simp only [List.mem_singleton] at ha; subst ha; exact ⟨_, rfl, .inl ⟨trivial, rfl, by simp⟩⟩
  | tableWrite path m hpc => rw [hpc]; simp only [List.mem_singleton] at ha; subst ha; exact ⟨_, rfl, .inl ⟨trivial, rfl, by simp⟩⟩
  | unlock c a hpc => simp at ha
  | readPkgSymbol path cs hpc htodo =>
    rw [hpc, htodo]; simp only [List.mem_singleton] at ha; subst ha; exact ⟨_, rfl, .inr (.inl ⟨id, by simp, rfl⟩)⟩
  | readPackage path cs hpc htodo =>
    rw [hpc, htodo]; simp only [List.mem_singleton] at ha; subst ha; exact ⟨_, rfl, .inr (.inl ⟨id, by simp, rfl⟩)⟩
  | readInfo path pos cs hpc htodo =>
    rw [hpc, htodo]; simp only [List.mem_singleton] at ha; subst ha; exact ⟨_, rfl, .inr (.inl ⟨id, by simp, rfl⟩)⟩
  | skipHit obj cs hpc htodo hs =>
    rw [hpc, htodo]; simp only [List.mem_singleton] at ha; subst ha; exact ⟨_, rfl, .inr (.inr ⟨obj, rfl, rfl, by simp⟩)⟩
  | decided obj cs f hpc htodo hs hn =>
    rw [hpc, htodo]; simp only [List.mem_singleton] at ha; subst ha; exact ⟨_, rfl, .inr (.inr ⟨obj, rfl, rfl, by simp⟩)⟩
  | toMark obj cs hpc htodo hs hn =>
    rw [hpc, htodo]; simp only [List.mem_singleton] at ha; subst ha; exact ⟨_, rfl, .inr (.inr ⟨obj, rfl, rfl, by simp⟩)⟩
  | mark obj hpc =>
    have := next_mark (hm obj hpc)
    rw [hpc]; simp only [List.mem_singleton] at ha; subst ha; exact ⟨_, rfl, .inr (.inr ⟨obj, rfl, rfl, fun _ => this⟩)⟩
  | toSearch obj path cs hpc htodo hs hn =>
    rw [hpc, htodo]; simp only [List.mem_singleton] at ha; subst ha; exact ⟨_, rfl, .inr (.inr ⟨obj, rfl, rfl, by simp⟩)⟩
  | hit obj path c left i hpc hi =>
    rw [hpc]; simp only [List.mem_singleton] at ha; subst ha; exact ⟨_, rfl, .inr (.inl ⟨id, by simp, rfl⟩)⟩
  | miss obj path c left hpc hi =>
    rw [hpc]; simp only [List.mem_singleton] at ha; subst ha; exact ⟨_, rfl, .inr (.inl ⟨id, by simp, rfl⟩)⟩
  | unknown obj path hpc hr =>
    rw [hpc]; simp only [List.mem_singleton] at ha; subst ha; exact ⟨_, rfl, .inr (.inl ⟨id, by simp, rfl⟩)⟩
  | known obj path r hpc hr =>
    rw [hpc]; simp only [List.mem_singleton] at ha; subst ha; exact ⟨_, rfl, .inr (.inl ⟨id, by simp, rfl⟩)⟩
  | compose obj path m c sym hpc hcs => simp at ha

/-- Only predeclared types are put into `skippedTypes`, and every call is one of those to be made. -/
structure Calls (calls : Nat → List Call) (s : State) : Prop where
  marking : ∀ t o, (s.threads t).pc = .marking o → next o = .mark
  progress : ∀ t, ∃ cs, cs ++ inFlight (s.threads t).pc ++ (s.threads t).todo = calls t

theorem calls_step {scopes : Scopes} {calls : Nat → List Call} {s s' : State} {t : Nat} {acc} (hst : Step scopes s t acc s') (h : Calls calls s) :
    Calls calls s' := by
  have key : ∀ (x : Thread) (g : Global) (b : Bool), (∀ o, x.pc = .marking o → next o = .mark) →
      (∃ l, l ++ inFlight x.pc ++ x.todo = inFlight (s.threads t).pc ++ (s.threads t).todo) → Calls calls { s.set t x with g := g, locked := b } := by
    intro x g b hx hl
    refine ⟨forall_set (s := s) (P := fun _ y => ∀ o, y.pc = .marking o → next o = .mark) hx (fun u _ => h.marking u),
      forall_set (s := s) (P := fun u y => ∃ cs, cs ++ inFlight y.pc ++ y.todo = calls u) ?_ (fun u _ => h.progress u)⟩
    obtain ⟨cs, hcs⟩ := h.progress t
    obtain ⟨l, hl⟩ := hl
    refine ⟨cs ++ l, ?_⟩
    rw [← hcs, List.append_assoc cs (inFlight (s.threads t).pc), ← hl]
    simp only [List.append_assoc]
  cases hst with
  | enter c cs hpc htodo hc => exact key _ s.g s.locked (by simp) ⟨[], by rw [hpc, htodo]; rfl⟩
  | lock c hpc hfree => exact key _ s.g true (by simp) ⟨[], by rw [hpc]; rfl⟩
  | addWrite path r hpc => exact key _ _ s.locked (by simp) ⟨[], by rw [hpc]; rfl⟩
  | pkgWrite path m hpc => exact key _ _ s.locked (by simp) ⟨[], by rw [hpc]; rfl⟩
  | tableWrite path m hpc => exact key _ _ s.locked (by simp) ⟨[], by rw [hpc]; rfl⟩
  | unlock c a hpc => exact key _ s.g false (by simp) ⟨[c], by rw [hpc]; rfl⟩
  | readPkgSymbol path cs hpc htodo => exact key _ s.g s.locked (by simp) ⟨[.pkgSymbol path], by rw [hpc, htodo]; rfl⟩
  | readPackage path cs hpc htodo => exact key _ s.g s.locked (by simp) ⟨[.package path], by rw [hpc, htodo]; rfl⟩
  | readInfo path pos cs hpc htodo => exact key _ s.g s.locked (by simp) ⟨[.information path pos], by rw [hpc, htodo]; rfl⟩
  | skipHit obj cs hpc htodo hs => exact key _ s.g s.locked (by simp) ⟨[.ofObject obj], by rw [hpc, htodo]; rfl⟩
  | decided obj cs f hpc htodo hs hn => exact key _ s.g s.locked (by simp) ⟨[.ofObject obj], by rw [hpc, htodo]; rfl⟩
  | toMark obj cs hpc htodo hs hn => exact key _ s.g s.locked (by simpa using hn) ⟨[], by rw [hpc, htodo]; rfl⟩
  | mark obj hpc => exact key _ _ s.locked (by simp) ⟨[.ofObject obj], by rw [hpc]; rfl⟩
  | toSearch obj path cs hpc htodo hs hn => exact key _ s.g s.locked (by simp) ⟨[], by rw [hpc, htodo]; rfl⟩
  | hit obj path c left i hpc hi => exact key _ s.g s.locked (by simp) ⟨[.ofObject obj], by rw [hpc]; rfl⟩
  | miss obj path c left hpc hi => exact key _ s.g s.locked (by simp) ⟨[], by rw [hpc]; rfl⟩
  | unknown obj path hpc hr => exact key _ s.g s.locked (by simp) ⟨[.ofObject obj], by rw [hpc]; rfl⟩
  | known obj path r hpc hr => exact key _ s.g s.locked (by simp) ⟨[], by rw [hpc]; rfl⟩
  | compose obj path m c sym hpc hcs => exact key _ _ s.locked (by simp) ⟨[.ofObject obj], by rw [hpc]; rfl⟩

theorem calls_steps {scopes : Scopes} {calls : Nat → List Call} {s s' : State} (hst : Steps scopes s s') (h : Calls calls s) : Calls calls s' := by
  induction hst with
  | refl => exact h
  | step _ hs ih => exact calls_step hs ih

theorem calls_start (g : Global) (calls : Nat → List Call) : Calls calls (start g calls) :=
  ⟨fun _ o h => by simp [start] at h, fun t => ⟨[], by simp [start, inFlight]⟩⟩

theorem currentCall_mem {calls : Nat → List Call} {s : State} (h : Calls calls s) {t : Nat} {c : Call} (hc : currentCall (s.threads t) = some c) :
    c ∈ calls t := by
  obtain ⟨cs, hcs⟩ := h.progress t
  rw [← hcs]
  unfold currentCall at hc
  cases hpc : (s.threads t).pc with
  | outside =>
    rw [hpc] at hc
    have hc : (s.threads t).todo.head? = some c := hc
    exact List.mem_append_right _ (List.mem_of_mem_head? hc)
  | _ => rw [hpc] at hc; simp only [Option.some.injEq] at hc; subst hc; simp [inFlight]

end ConcurrentLookup

/-- **C109** (what a data race needs).  Whatever is called: if two goroutines are about to make accesses that must not happen at once, then one of them is filling the
tables while the other looks something up, or one of them looks up a predeclared type while the other looks up some object. -/
theorem C109_race_causes (scopes : Scopes) (g : Global) (calls : Nat → List Call) (s : State) (h : Steps scopes (start g calls) s) (hr : Race scopes s) :
    ∃ t u c d, t ≠ u ∧ c ∈ calls t ∧ d ∈ calls u ∧ currentCall (s.threads t) = some c ∧ currentCall (s.threads u) = some d ∧
      ((Update c ∧ ¬ Update d) ∨ ∃ o o', c = .ofObject o ∧ d = .ofObject o' ∧ Predeclared o) := by
  obtain ⟨t, u, acc, acc', s₁, s₂, hne, h1, h2, a, ha, b, hb, hloc, hw⟩ := hr
  have hm := mutex_steps h (mutex_start g calls)
  have hcl := calls_steps h (calls_start g calls)
  obtain ⟨c, hc, hac⟩ := step_access h1 (hcl.marking t) ha
  obtain ⟨d, hd, hbd⟩ := step_access h2 (hcl.marking u) hb
  have mc := currentCall_mem hcl hc
  have md := currentCall_mem hcl hd
  rcases hac with ⟨c1, c2, c3⟩ | ⟨c1, c2, c3⟩ | ⟨o, c1, c2, c3⟩
  · rcases hbd with ⟨d1, d2, d3⟩ | ⟨d1, d2, d3⟩ | ⟨o', d1, d2, d3⟩
    · exact absurd (hm.one t u c2 d2) hne
    · exact ⟨t, u, c, d, hne, mc, md, hc, hd, .inl ⟨c1, d1⟩⟩
    · exact absurd (hloc.trans d2) c3
  · rcases hbd with ⟨d1, d2, d3⟩ | ⟨d1, d2, d3⟩ | ⟨o', d1, d2, d3⟩
    · exact ⟨u, t, d, c, hne.symm, md, mc, hd, hc, .inl ⟨d1, c1⟩⟩
    · rw [c3, d3] at hw; simp at hw
    · exact absurd (hloc.trans d2) c2
  · rcases hbd with ⟨d1, d2, d3⟩ | ⟨d1, d2, d3⟩ | ⟨o', d1, d2, d3⟩
    · exact absurd (hloc.symm.trans c2) d3
    · exact absurd (hloc.symm.trans c2) d2
    · rcases hw with hw | hw
      · exact ⟨t, u, c, d, hne, mc, md, hc, hd, .inr ⟨o, o', c1, d1, c3 hw⟩⟩
      · exact ⟨u, t, d, c, hne.symm, md, mc, hd, hc, .inr ⟨o', o, d1, c1, d3 hw⟩⟩

/-- **C109** (no data race).  If all goroutines fill the tables, or all look things up and no predeclared types, there is no data race. -/
theorem C109_race_free (scopes : Scopes) (g : Global) (calls : Nat → List Call)
    (hk : (∀ t, ∀ c ∈ calls t, Update c) ∨ ∀ t, ∀ c ∈ calls t, Lookup c) (s : State) (h : Steps scopes (start g calls) s) : ¬ Race scopes s := by
  intro hr
  obtain ⟨t, u, c, d, _, mc, md, _, _, h1⟩ := C109_race_causes scopes g calls s h hr
  rcases hk with hk | hk
  · rcases h1 with ⟨_, h1⟩ | ⟨o, o', rfl, _⟩
    · exact h1 (hk u d md)
    · exact hk t _ mc
  · rcases h1 with ⟨h1, _⟩ | ⟨o, o', rfl, rfl, h1⟩
    · exact update_not_lookup h1 (hk t c mc)
    · exact hk t _ mc h1

/-- **C109** (the mutex does not protect readers).  A lookup while a package is being added is a data race, whatever the tables and the packages are. -/
theorem C109_race_read_during_add (scopes : Scopes) (g : Global) (path path' : Str) (r : PkgRecord) :
    ∃ s, Steps scopes (start g (fun t => if t = 0 then [.add path r] else if t = 1 then [.package path'] else [])) s ∧ Race scopes s := by
  have h0 : Steps scopes (start g (fun t => if t = 0 then [.add path r] else if t = 1 then [.package path'] else [])) _ := .refl _
  have h1 := Steps.step h0 (.enter 0 (.add path r) [] rfl rfl rfl)
  have h2 := Steps.step h1 (.lock 0 (.add path r) rfl rfl)
  exact ⟨_, h2, 0, 1, _, _, _, _, by decide, .addWrite 0 path r rfl, .readPackage 1 path' [] rfl rfl, _, List.mem_singleton.2 rfl, _,
    List.mem_singleton.2 rfl, rfl, .inl rfl⟩

/-- **C109** (`skippedTypes` is not protected at all).  Two goroutines that look up predeclared types that have not been looked up before run into a data race. -/
theorem C109_race_predeclared (scopes : Scopes) (g : Global) (o o' : Obj) (ho : Predeclared o) (ho' : Predeclared o') (hs : o.self.objId ∉ g.skipped)
    (hs' : o'.self.objId ∉ g.skipped) :
    ∃ s, Steps scopes (start g (fun t => if t = 0 then [.ofObject o] else if t = 1 then [.ofObject o'] else [])) s ∧ Race scopes s := by
  have h0 : Steps scopes (start g (fun t => if t = 0 then [.ofObject o] else if t = 1 then [.ofObject o'] else [])) _ := .refl _
  have h1 := Steps.step h0 (.toMark 0 o [] rfl rfl hs (predeclared_next ho))
  have h2 := Steps.step h1 (.toMark 1 o' [] rfl rfl hs' (predeclared_next ho'))
  exact ⟨_, h2, 0, 1, _, _, _, _, by decide, .mark 0 o rfl, .mark 1 o' rfl, _, List.mem_singleton.2 rfl, _, List.mem_singleton.2 rfl, rfl, .inl rfl⟩

/-- **C109** (no deadlock).  As long as some goroutine has something to do, some goroutine can do something, whatever is called. -/
theorem C109_no_deadlock (scopes : Scopes) (g : Global) (calls : Nat → List Call) (s : State) (h : Steps scopes (start g calls) s) (t : Nat)
    (hbusy : ¬ Through (s.threads t)) : ∃ u acc s', Step scopes s u acc s' := by
  have hp := pcOk_steps h (pcOk_start g calls)
  have hm := mutex_steps h (mutex_start g calls)
  have hin : ∀ u, inside (s.threads u).pc = true → ∃ u acc s', Step scopes s u acc s' := by
    intro u hu
    have hpu := hp u
    cases hpc : (s.threads u).pc with
    | holding c =>
      rw [hpc] at hpu
      cases c with
      | add path r => exact ⟨_, _, _, .addWrite u path r hpc⟩
      | setPkgSymbol path m => exact ⟨_, _, _, .pkgWrite u path m hpc⟩
      | _ => exact hpu.elim
    | halfway path m => exact ⟨_, _, _, .tableWrite u path m hpc⟩
    | written c a => exact ⟨_, _, _, .unlock u c a hpc⟩
    | _ => rw [hpc] at hu; simp [inside] at hu
  cases hpc : (s.threads t).pc with
  | outside =>
    cases htodo : (s.threads t).todo with
    | nil => exact absurd ⟨hpc, htodo⟩ hbusy
    | cons c cs =>
      cases c with
      | add path r => exact ⟨_, _, _, .enter t _ cs hpc htodo rfl⟩
      | setPkgSymbol path m => exact ⟨_, _, _, .enter t _ cs hpc htodo rfl⟩
      | pkgSymbol path => exact ⟨_, _, _, .readPkgSymbol t path cs hpc htodo⟩
      | package path => exact ⟨_, _, _, .readPackage t path cs hpc htodo⟩
      | information path pos => exact ⟨_, _, _, .readInfo t path pos cs hpc htodo⟩
      | ofObject obj =>
        by_cases hs : obj.self.objId ∈ s.g.skipped
        · exact ⟨_, _, _, .skipHit t obj cs hpc htodo hs⟩
        · cases hn : next obj with
          | answer f => exact ⟨_, _, _, .decided t obj cs f hpc htodo hs hn⟩
          | mark => exact ⟨_, _, _, .toMark t obj cs hpc htodo hs hn⟩
          | search path => exact ⟨_, _, _, .toSearch t obj path cs hpc htodo hs hn⟩
  | waiting c =>
    cases hl : s.locked with
    | false => exact ⟨_, _, _, .lock t c hpc hl⟩
    | true =>
      obtain ⟨u, hu⟩ := hm.held hl
      exact hin u hu
  | holding c => exact hin t (by rw [hpc]; rfl)
  | halfway path m => exact hin t (by rw [hpc]; rfl)
  | written c a => exact hin t (by rw [hpc]; rfl)
  | marking obj => exact ⟨_, _, _, .mark t obj hpc⟩
  | searching obj path left =>
    cases left with
    | nil =>
      cases hr : s.g.symbols.lookup path with
      | none => exact ⟨_, _, _, .unknown t obj path hpc hr⟩
      | some r => exact ⟨_, _, _, .known t obj path r hpc hr⟩
    | cons c left =>
      cases hi : s.g.getSymbolInformation c obj.self.pos with
      | none => exact ⟨_, _, _, .miss t obj path c left hpc hi⟩
      | some i => exact ⟨_, _, _, .hit t obj path c left i hpc hi⟩
  | composing obj path m => exact ⟨_, _, _, .compose t obj path m _ _ hpc rfl⟩

namespace ConcurrentLookup

/-- How much is still to be done in a call. -/
def left : Pc → Nat
  | .outside => 0
  | .written .. => 1
  | .halfway .. => 2
  | .holding .. => 3
  | .waiting .. => 4
  | .marking .. => 1
  | .composing .. => 1
  | .searching _ _ l => l.length + 2

/-- How much goroutine `t` has still to do. -/
def work (s : State) (t : Nat) : Nat := 6 * (s.threads t).todo.length + left (s.threads t).pc

end ConcurrentLookup

/-- **C109** (every call returns).  Every step brings exactly one goroutine nearer to the end of its calls, so `k` calls take at most `6 * k` steps. -/
theorem C109_steps_bounded (scopes : Scopes) (s s' : State) (t : Nat) (acc : List Access) (h : Step scopes s t acc s') :
    work s' t < work s t ∧ ∀ u, u ≠ t → work s' u = work s u := by
  have key : ∀ (x : Thread) (g : Global) (b : Bool), 6 * x.todo.length + left x.pc < work s t →
      work { s.set t x with g := g, locked := b } t < work s t ∧ ∀ u, u ≠ t → work { s.set t x with g := g, locked := b } u = work s u := by
    intro x g b hx
    refine ⟨?_, fun u hu => ?_⟩
    · unfold work at hx ⊢
      show 6 * ((s.set t x).threads t).todo.length + left ((s.set t x).threads t).pc < _
      rw [set_same]; exact hx
    · unfold work
      show 6 * ((s.set t x).threads u).todo.length + left ((s.set t x).threads u).pc = _
      rw [set_other s x hu]
  cases h with
  | enter c cs hpc htodo hc => exact key _ s.g s.locked (by simp [work, hpc, htodo, left]; omega)
  | lock c hpc hfree => exact key _ s.g true (by simp [work, hpc, left])
  | addWrite path r hpc => exact key _ _ s.locked (by simp [work, hpc, left])
  | pkgWrite path m hpc => exact key _ _ s.locked (by simp [work, hpc, left])
  | tableWrite path m hpc => exact key _ _ s.locked (by simp [work, hpc, left])
  | unlock c a hpc => exact key _ s.g false (by simp [work, hpc, left])
  | readPkgSymbol path cs hpc htodo => exact key _ s.g s.locked (by simp [work, hpc, htodo, left])
  | readPackage path cs hpc htodo => exact key _ s.g s.locked (by simp [work, hpc, htodo, left])
  | readInfo path pos cs hpc htodo => exact key _ s.g s.locked (by simp [work, hpc, htodo, left])
  | skipHit obj cs hpc htodo hs => exact key _ s.g s.locked (by simp [work, hpc, htodo, left])
  | decided obj cs f hpc htodo hs hn => exact key _ s.g s.locked (by simp [work, hpc, htodo, left])
  | toMark obj cs hpc htodo hs hn => exact key _ s.g s.locked (by simp [work, hpc, htodo, left]; omega)
  | mark obj hpc => exact key _ _ s.locked (by simp [work, hpc, left])
  | toSearch obj path cs hpc htodo hs hn => exact key _ s.g s.locked (by simp [work, hpc, htodo, left, testPackageCombinations]; omega)
  | hit obj path c l i hpc hi => exact key _ s.g s.locked (by simp [work, hpc, left])
  | miss obj path c l hpc hi => exact key _ s.g s.locked (by simp [work, hpc, left])
  | unknown obj path hpc hr => exact key _ s.g s.locked (by simp [work, hpc, left])
  | known obj path r hpc hr => exact key _ s.g s.locked (by simp [work, hpc, left])
  | compose obj path m c sym hpc hcs => exact key _ _ s.locked (by simp [work, hpc, left])

namespace ConcurrentLookup

/-- What is known about a package depends on the updates that are about it only. -/
theorem lookup_inOrder {scopes : Scopes} (path : Str) (p : Finished → Bool) : ∀ (log : List Finished) (g g' : Global),
    (∀ f ∈ log, Update f.call) → (∀ f ∈ log, p f = false → ¬ About path f.call) →
    g.symbols.lookup path = g'.symbols.lookup path → g.pkgSymbols.lookup path = g'.pkgSymbols.lookup path →
    (inOrder scopes g (log.map (·.call))).1.symbols.lookup path = (inOrder scopes g' ((log.filter p).map (·.call))).1.symbols.lookup path ∧
    (inOrder scopes g (log.map (·.call))).1.pkgSymbols.lookup path = (inOrder scopes g' ((log.filter p).map (·.call))).1.pkgSymbols.lookup path := by
  intro log
  induction log with
  | nil => intro g g' _ _ h1 h2; exact ⟨h1, h2⟩
  | cons f log ih =>
    intro g g' hu ha h1 h2
    have hu' : ∀ f ∈ log, Update f.call := fun f hf => hu f (List.mem_cons_of_mem _ hf)
    have ha' : ∀ f ∈ log, p f = false → ¬ About path f.call := fun f hf => ha f (List.mem_cons_of_mem _ hf)
    have huf := hu f (by simp)
    cases hpf : p f with
    | true =>
      rw [List.filter_cons_of_pos hpf, List.map_cons, List.map_cons]
      simp only [inOrder]
      apply ih _ _ hu' ha'
      · cases hc : f.call with
        | add q r => simp only [oneCall, Global.add, List.lookup_cons, h1]
        | setPkgSymbol q m => simp only [oneCall, Global.setPkgSymbol, List.lookup_cons, h1]
        | _ => rw [hc] at huf; exact huf.elim
      · cases hc : f.call with
        | add q r => exact h2
        | setPkgSymbol q m => simp only [oneCall, Global.setPkgSymbol, List.lookup_cons, h2]
        | _ => rw [hc] at huf; exact huf.elim
    | false =>
      rw [List.filter_cons_of_neg (by rw [hpf]; simp), List.map_cons]
      simp only [inOrder]
      have hab := ha f (by simp) hpf
      apply ih _ _ hu' ha'
      · cases hc : f.call with
        | add q r =>
          rw [hc] at hab
          have hab : q ≠ path := hab
          have : (path == q) = false := by simpa using Ne.symm hab
          simp only [oneCall, Global.add, List.lookup_cons, this]; exact h1
        | setPkgSymbol q m =>
          rw [hc] at hab
          have hab : q ≠ path := hab
          have : (path == q) = false := by simpa using Ne.symm hab
          simp only [oneCall, Global.setPkgSymbol, List.lookup_cons, this]; exact h1
        | _ => rw [hc] at huf; exact huf.elim
      · cases hc : f.call with
        | add q r => exact h2
        | setPkgSymbol q m =>
          rw [hc] at hab
          have hab : q ≠ path := hab
          have : (path == q) = false := by simpa using Ne.symm hab
          simp only [oneCall, Global.setPkgSymbol, List.lookup_cons, this]; exact h2
        | _ => rw [hc] at huf; exact huf.elim

end ConcurrentLookup

/-- **C109** (the schedule does not matter).  If goroutines fill the tables and only goroutine `t` makes calls about some package, then, when all calls have returned,
what is known about this package is what `t` alone would have left. -/
theorem C109_schedule_independent (scopes : Scopes) (g : Global) (calls : Nat → List Call) (hk : ∀ t, ∀ c ∈ calls t, Update c) (s : State)
    (h : Steps scopes (start g calls) s) (hdone : ∀ t, Through (s.threads t)) (path : Str) (t : Nat)
    (hone : ∀ u, u ≠ t → ∀ c ∈ calls u, ¬ About path c) :
    s.g.symbols.lookup path = (inOrder scopes g (calls t)).1.symbols.lookup path ∧
    s.g.pkgSymbols.lookup path = (inOrder scopes g (calls t)).1.pkgSymbols.lookup path := by
  obtain ⟨log, g₁, h1⟩ := inv_steps (.inl hk) (inv_start scopes g calls) (pcOk_start g calls) h
  rw [List.nil_append] at h1
  have hg : s.g = (inOrder scopes g (log.map (·.call))).1 := by
    rw [h1.run]
    rcases h1.holder with ⟨_, h3, _⟩ | ⟨v, _, _, h3⟩
    · exact h3
    · rw [(hdone v).1] at h3; exact h3.elim
  have hret : ∀ u, (finishedBy log u).map (·.1) = calls u := by
    intro u
    rw [h1.returned u, ← h1.progress u, (hdone u).1, (hdone u).2]
    simp [inFlight]
  have hmem : ∀ f ∈ log, f.call ∈ calls f.thread := by
    intro f hf
    rw [← hret]
    exact List.mem_map.2 ⟨(f.call, f.answer), List.mem_map.2 ⟨f, List.mem_filter.2 ⟨hf, by simp⟩, rfl⟩, rfl⟩
  have := lookup_inOrder (scopes := scopes) path (fun f => f.thread = t) log g g (fun f hf => hk _ _ (hmem f hf))
    (fun f hf hp => hone f.thread (by simpa using hp) _ (hmem f hf)) rfl rfl
  have he : (log.filter (fun f => f.thread = t)).map (·.call) = calls t := by
    rw [← hret]
    unfold finishedBy
    rw [List.map_map]
    rfl
  rw [he] at this
  rw [hg]
  exact this

/-- Two goroutines fill the tables, then all calls have returned; the hypotheses of the last theorem hold for both packages. -/
example :
    let calls : Nat → List Call := fun t => if t = 0 then [.setPkgSymbol go!"p" ⟨go!"m", go!"v1"⟩] else if t = 1 then [.add go!"q" ⟨none, []⟩] else []
    let g : Global := ⟨[], [], newComposer go!"m" go!"v1", []⟩
    (∃ s, Steps (fun _ => []) (start g calls) s ∧ (∀ t, Through (s.threads t)) ∧ s.g.getPkgSymbol go!"p" = some go!"scip-go gomod m v1 p/" ∧
      s.g.symbols.lookup go!"q" = some ⟨none, []⟩) ∧ (∀ t, ∀ c ∈ calls t, Update c) ∧
    (∀ u, u ≠ 0 → ∀ c ∈ calls u, ¬ About go!"p" c) ∧ (∀ u, u ≠ 1 → ∀ c ∈ calls u, ¬ About go!"q" c) := by
  intro calls g
  refine ⟨?_, ?_, ?_, ?_⟩
  · have h0 : Steps (fun _ => []) (start g calls) (start g calls) := .refl _
    have h1 := Steps.step h0 (.enter 1 (.add go!"q" ⟨none, []⟩) [] rfl rfl rfl)
    have h2 := Steps.step h1 (.enter 0 (.setPkgSymbol go!"p" ⟨go!"m", go!"v1"⟩) [] rfl rfl rfl)
    have h3 := Steps.step h2 (.lock 0 _ rfl rfl)
    have h4 := Steps.step h3 (.pkgWrite 0 go!"p" _ rfl)
    have h5 := Steps.step h4 (.tableWrite 0 go!"p" _ rfl)
    have h6 := Steps.step h5 (.unlock 0 _ _ rfl)
    have h7 := Steps.step h6 (.lock 1 _ rfl rfl)
    have h8 := Steps.step h7 (.addWrite 1 go!"q" _ rfl)
    have h9 := Steps.step h8 (.unlock 1 _ _ rfl)
    refine ⟨_, h9, ?_, by decide +kernel, by decide +kernel⟩
    intro t
    match t with
    | 0 => exact ⟨rfl, rfl⟩
    | 1 => exact ⟨rfl, rfl⟩
    | n + 2 => exact ⟨rfl, rfl⟩
  · intro t c hc
    simp only [calls] at hc
    split at hc
    · simp only [List.mem_singleton] at hc; subst hc; trivial
    · split at hc
      · simp only [List.mem_singleton] at hc; subst hc; trivial
      · simp at hc
  · intro u hu c hc
    simp only [calls, if_neg hu] at hc
    split at hc
    · simp only [List.mem_singleton] at hc; subst hc; exact (by decide : ¬ go!"q" = go!"p")
    · simp at hc
  · intro u hu c hc
    simp only [calls, if_neg hu] at hc
    split at hc
    · simp only [List.mem_singleton] at hc; subst hc; exact (by decide : ¬ go!"p" = go!"q")
    · simp at hc

namespace ConcurrentLookup

/-- The objects that are looked up. -/
def objectsOf (cs : List Call) : List Obj := cs.filterMap (fun c => match c with | .ofObject o => some o | _ => none)

theorem inOrder_lookups (scopes : Scopes) : ∀ (cs : List Call) (g : Global), (∀ c ∈ cs, Lookup c) →
    (inOrder scopes g cs).1 = (g.lookups scopes (objectsOf cs)).1 := by
  intro cs
  induction cs with
  | nil => intro g _; rfl
  | cons c cs ih =>
    intro g h
    have hc := h c (by simp)
    have ih := fun g => ih g (fun c hc => h c (List.mem_cons_of_mem _ hc))
    cases c with
    | add path r => exact hc.elim
    | setPkgSymbol path m => exact hc.elim
    | ofObject o => exact ih _
    | _ => exact ih g

end ConcurrentLookup

/-- **C109** (what lookups answer).  If goroutines only look things up, in tables that have just been filled, and no predeclared types, and the objects are told apart
by their addresses: then every call returns, under every schedule, what it would return if it were the only one. -/
theorem C109_answers (scopes : Scopes) (g : Global) (hg : g.Fresh) (calls : Nat → List Call) (hk : ∀ t, ∀ c ∈ calls t, Lookup c)
    (hc : ∀ t u o o', .ofObject o ∈ calls t → .ofObject o' ∈ calls u → (entityOf o).id = (entityOf o').id → entityOf o = entityOf o' ∧ o.self.pkg = o'.self.pkg)
    (hw : ∀ t o, .ofObject o ∈ calls t → WellFormedObj o) (s : State) (h : Steps scopes (start g calls) s) :
    ∀ t c a, (c, a) ∈ (s.threads t).returned → c ∈ calls t ∧ a = (oneCall scopes g c).2 := by
  obtain ⟨log, g₁, h1⟩ := inv_steps (.inr hk) (inv_start scopes g calls) (pcOk_start g calls) h
  rw [List.nil_append] at h1
  have hmem : ∀ f ∈ log, f.call ∈ calls f.thread := by
    intro f hf
    rw [← h1.progress f.thread, ← h1.returned f.thread]
    refine List.mem_append_left _ (List.mem_append_left _ (List.mem_map.2 ⟨(f.call, f.answer), ?_, rfl⟩))
    exact List.mem_map.2 ⟨f, List.mem_filter.2 ⟨hf, by simp⟩, rfl⟩
  intro t c a hr
  rw [← h1.returned] at hr
  obtain ⟨f, hf, he⟩ := List.mem_map.1 hr
  obtain ⟨hf, ht⟩ := List.mem_filter.1 hf
  simp only [Prod.mk.injEq] at he
  simp only [decide_eq_true_eq] at ht
  obtain ⟨rfl, rfl⟩ := he
  refine ⟨ht ▸ hmem f hf, ?_⟩
  obtain ⟨pre, post, rfl⟩ := List.append_of_mem hf
  have hlen : ∀ (cs : List Call) (g : Global), (inOrder scopes g cs).2.length = cs.length := by
    intro cs
    induction cs with
    | nil => intro g; rfl
    | cons c cs ih => intro g; simp [inOrder, ih]
  have hans : f.answer = (oneCall scopes (inOrder scopes g (pre.map (·.call))).1 f.call).2 := by
    have := congrArg Prod.snd h1.run
    rw [List.map_append, List.map_append, inOrder_append] at this
    have := (List.append_inj this (by rw [hlen]; simp)).2
    simp only [List.map_cons, inOrder, List.cons.injEq] at this
    exact this.1.symm
  rw [hans]
  have hpre : ∀ c ∈ pre.map (·.call), ∃ t, c ∈ calls t := by
    intro c hc
    obtain ⟨d, hd, rfl⟩ := List.mem_map.1 hc
    exact ⟨_, hmem d (by simp [hd])⟩
  rw [inOrder_lookups scopes _ g (fun c hc => by obtain ⟨t, h⟩ := hpre c hc; exact hk t c h)]
  have hobj : ∀ o ∈ objectsOf (pre.map (·.call)), ∃ t, .ofObject o ∈ calls t := by
    intro o ho
    obtain ⟨c, hc, he⟩ := List.mem_filterMap.1 ho
    cases c with
    | ofObject o' => simp only [Option.some.injEq] at he; subst he; exact hpre _ hc
    | _ => simp at he
  obtain ⟨f1, f2⟩ := lookups_frame scopes g (objectsOf (pre.map (·.call)))
  have hmf := hmem f hf
  cases hfc : f.call with
  | add path r => rw [hfc] at hmf; exact (hk _ _ hmf).elim
  | setPkgSymbol path m => rw [hfc] at hmf; exact (hk _ _ hmf).elim
  | pkgSymbol path => simp only [oneCall, Global.getPkgSymbol, f2]
  | package path => simp only [oneCall, f1]
  | information path pos => simp only [oneCall, Global.getSymbolInformation, f1]
  | ofObject o =>
    rw [hfc] at hmf
    have hall : ∀ x ∈ objectsOf (pre.map (·.call)) ++ [o], ∃ t, .ofObject x ∈ calls t := by
      intro x hx
      rcases List.mem_append.1 hx with hx | hx
      · exact hobj x hx
      · rw [List.mem_singleton.1 hx]; exact ⟨_, hmf⟩
    simp only [oneCall]
    rw [C20_history_independent scopes g hg _ o ?_ ?_]
    · intro o₁ h₁ o₂ h₂
      obtain ⟨t₁, m₁⟩ := hall o₁ h₁
      obtain ⟨t₂, m₂⟩ := hall o₂ h₂
      exact hc t₁ t₂ o₁ o₂ m₁ m₂
    · intro x hx
      obtain ⟨t, m⟩ := hall x hx
      exact hw t x m

/-- Two goroutines look up the same constant, which no table has, and one of them the package; both get the symbol that the composer makes. -/
example :
    let k : ObjData := ⟨8, .const, go!"K", some go!"p", 4⟩
    let calls : Nat → List Call := fun t => if t = 0 then [.ofObject (.plain k)] else if t = 1 then [.pkgSymbol go!"p", .ofObject (.plain k)] else []
    let g : Global := ⟨[(go!"p", ⟨none, []⟩)], [(go!"p", go!"x")], newComposer go!"d" go!"v0", []⟩
    (∃ s, Steps (fun _ => []) (start g calls) s ∧
      (s.threads 0).returned.map (·.2) = [.found (.info (composedInfo go!"scip-go gomod d v0 p/K."))] ∧
      (s.threads 1).returned.map (·.2) = [.symbol (some go!"x"), .found (.info (composedInfo go!"scip-go gomod d v0 p/K."))]) ∧
    (∀ t, ∀ c ∈ calls t, Lookup c) ∧ g.Fresh := by
  intro k calls g
  refine ⟨?_, ?_, by constructor <;> rfl⟩
  · have h0 : Steps (fun _ => []) (start g calls) (start g calls) := .refl _
    have h1 := Steps.step h0 (.toSearch 0 (.plain k) go!"p" [] rfl rfl (by simp [start, g]) rfl)
    have h2 := Steps.step h1 (.readPkgSymbol 1 go!"p" [.ofObject (.plain k)] rfl rfl)
    have h3 := Steps.step h2 (.toSearch 1 (.plain k) go!"p" [] rfl rfl (by simp [start, g, State.set, State.once]) rfl)
    have h4 := Steps.step h3 (.miss 1 (.plain k) go!"p" _ _ rfl rfl)
    have h5 := Steps.step h4 (.miss 0 (.plain k) go!"p" _ _ rfl rfl)
    have h6 := Steps.step h5 (.miss 0 (.plain k) go!"p" _ _ rfl rfl)
    have h7 := Steps.step h6 (.miss 0 (.plain k) go!"p" _ _ rfl rfl)
    have h8 := Steps.step h7 (.known 0 (.plain k) go!"p" ⟨none, []⟩ rfl rfl)
    have h9 := Steps.step h8 (.miss 1 (.plain k) go!"p" _ _ rfl rfl)
    have h10 := Steps.step h9 (.miss 1 (.plain k) go!"p" _ _ rfl rfl)
    have h11 := Steps.step h10 (.known 1 (.plain k) go!"p" ⟨none, []⟩ rfl rfl)
    have h12 := Steps.step h11 (.compose 1 (.plain k) go!"p" none _ _ rfl rfl)
    have h13 := Steps.step h12 (.compose 0 (.plain k) go!"p" none _ _ rfl rfl)
    exact ⟨_, h13, by decide +kernel, by decide +kernel⟩
  · intro t c hc
    have hn : Lookup (.ofObject (.plain k)) := fun h => by
      have h1 : some go!"p" = none := h.1
      simp at h1
    simp only [calls] at hc
    split at hc
    · simp only [List.mem_singleton] at hc; subst hc; exact hn
    · split at hc
      · simp only [List.mem_cons, List.not_mem_nil, or_false] at hc
        rcases hc with rfl | rfl
        · trivial
        · exact hn
      · simp at hc

end Verif
