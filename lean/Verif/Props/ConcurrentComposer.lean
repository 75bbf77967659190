import Verif.Model.ConcurrentComposer
import Verif.Props.Composer
/-! # C90: `Compose` may be called concurrently -/
namespace Verif
open Spec ConcurrentComposer

namespace ConcurrentComposer

/-- A finished call: who called, what was asked, what was answered. -/
structure Call where
  thread : Nat
  request : Request
  answer : Str

/-- What the calls of goroutine `t` were and returned, in the order of the log. -/
def returnsOf (log : List Call) (t : Nat) : List (Request × Str) := (log.filter (fun c => c.thread = t)).map (fun c => (c.request, c.answer))

/-- The request a goroutine is working on. -/
def inFlight : Pc → List Request
  | .outside => []
  | .waiting p o _ | .looking p o _ | .describing p o _ | .storing p o _ | .stored p o | .unlocking p o _ => [(p, some o)]

/-- The goroutine is between `Lock` and `Unlock`: only there is the table read or written. -/
def inside : Pc → Bool
  | .outside | .waiting .. => false
  | _ => true

end ConcurrentComposer

/-- The requests of the log in this order, one after the other, on a fresh composer, have these answers. -/
def Spec.AnsweredInOrder (scopes : Scopes) (path version : Str) (log : List Call) : Prop :=
  ((newComposer path version).run scopes (log.map (·.request))).2 = log.map (·.answer)

namespace ConcurrentComposer

/-- What the holder of the mutex is doing, when the composer was `c₀` when it got it. -/
def Doing (scopes : Scopes) (c₀ c : Composer) : Pc → Prop
  | .looking _ _ _ => c = c₀
  | .describing _ o _ => c = c₀ ∧ c.compositions.lookup o.canon.id = none
  | .storing p o ds => c = c₀ ∧ c.compositions.lookup o.canon.id = none ∧ ds ≠ [] ∧ ∃ path, o.self.pkg = some path ∧ ds = describe scopes path o.canon ∧
      c₀.compose scopes p (some o) = ({ c₀ with compositions := (o.canon.id, formatSymbol (c₀.pack p) ds) :: c₀.compositions }, formatSymbol (c₀.pack p) ds)
  | .stored p o => ∃ a, c.compositions.lookup o.canon.id = some a ∧ c₀.compose scopes p (some o) = (c, a)
  | .unlocking p o a => c₀.compose scopes p (some o) = (c, a)
  | _ => False

/-- The path of the package is that of the object. -/
def PathOk : Pc → Prop
  | .waiting _ o path | .looking _ o path | .describing _ o path => o.self.pkg = some path
  | _ => True

structure Inv (scopes : Scopes) (path version : Str) (calls : Nat → List Request) (s : State) (log : List Call) (c₀ : Composer) : Prop where
  run : (newComposer path version).run scopes (log.map (·.request)) = (c₀, log.map (·.answer))
  holder : (s.locked = false ∧ s.composer = c₀ ∧ ∀ t, inside (s.threads t).pc = false) ∨
    ∃ t, s.locked = true ∧ (∀ u, inside (s.threads u).pc = true → u = t) ∧ Doing scopes c₀ s.composer (s.threads t).pc
  returned : ∀ t, returnsOf log t = (s.threads t).returned
  progress : ∀ t, (s.threads t).returned.map (·.1) ++ inFlight (s.threads t).pc ++ (s.threads t).todo = calls t
  path : ∀ t, PathOk (s.threads t).pc

theorem set_same (s : State) (t : Nat) (x : Thread) : (s.set t x).threads t = x := by simp [State.set]
theorem set_other (s : State) {t u : Nat} (x : Thread) (h : u ≠ t) : (s.set t x).threads u = s.threads u := by simp [State.set, h]

theorem returnsOf_snoc (log : List Call) (c : Call) (t : Nat) :
    returnsOf (log ++ [c]) t = returnsOf log t ++ (if c.thread = t then [(c.request, c.answer)] else []) := by
  unfold returnsOf
  rw [List.filter_append, List.map_append]
  by_cases h : c.thread = t <;> simp [h]

/-- A property of all goroutines after one of them has changed. -/
theorem forall_set {s : State} {t : Nat} {x : Thread} {P : Nat → Thread → Prop} (hx : P t x) (h : ∀ u, u ≠ t → P u (s.threads u)) :
    ∀ u, P u ((s.set t x).threads u) := by
  intro u
  by_cases hu : u = t
  · subst hu; rw [set_same]; exact hx
  · rw [set_other s x hu]; exact h u hu

theorem doing_inside {scopes : Scopes} {c₀ c : Composer} {pc : Pc} (h : Doing scopes c₀ c pc) : inside pc = true := by
  cases pc <;> first | rfl | exact h.elim

/-- The holder moves on and keeps the mutex. -/
theorem inv_holder {scopes : Scopes} {path version : Str} {calls : Nat → List Request} {s : State} {log : List Call} {c₀ : Composer}
    (h : Inv scopes path version calls s log c₀) {t : Nat} {pc : Pc} {c : Composer} (hin : inside (s.threads t).pc = true)
    (hflight : inFlight pc = inFlight (s.threads t).pc) (hpath : PathOk pc)
    (hdo : s.locked = true → Doing scopes c₀ s.composer (s.threads t).pc → Doing scopes c₀ c pc) :
    Inv scopes path version calls { s.set t { s.threads t with pc := pc } with composer := c } log c₀ := by
  refine ⟨h.run, ?_, ?_, ?_, ?_⟩
  · rcases h.holder with ⟨_, _, h3⟩ | ⟨u, h1, h2, h3⟩
    · rw [h3 t] at hin; simp at hin
    · have hu := h2 t hin
      subst hu
      refine .inr ⟨t, h1, forall_set (P := fun u x => inside x.pc = true → u = t) (fun _ => rfl) (fun u _ hu => h2 u hu), ?_⟩
      rw [show (State.threads { s.set t { s.threads t with pc := pc } with composer := c } t) = { s.threads t with pc := pc } from set_same s t _]
      exact hdo h1 h3
  · exact forall_set (s := s) (P := fun u x => returnsOf log u = x.returned) (h.returned t) (fun u _ => h.returned u)
  · refine forall_set (s := s) (P := fun u x => x.returned.map (·.1) ++ inFlight x.pc ++ x.todo = calls u) ?_ (fun u _ => h.progress u)
    rw [← h.progress t, ← hflight]
  · exact forall_set (s := s) (P := fun u x => PathOk x.pc) hpath (fun u _ => h.path u)

/-- A goroutine that does not hold the mutex changes, and still does not hold it. -/
theorem holder_outside {scopes : Scopes} {s : State} {c₀ : Composer} {t : Nat} {x : Thread}
    (h : (s.locked = false ∧ s.composer = c₀ ∧ ∀ t, inside (s.threads t).pc = false) ∨
      ∃ t, s.locked = true ∧ (∀ u, inside (s.threads u).pc = true → u = t) ∧ Doing scopes c₀ s.composer (s.threads t).pc)
    (hout : inside (s.threads t).pc = false) (hx : inside x.pc = false) :
    ((s.set t x).locked = false ∧ (s.set t x).composer = c₀ ∧ ∀ u, inside ((s.set t x).threads u).pc = false) ∨
      ∃ u, (s.set t x).locked = true ∧ (∀ v, inside ((s.set t x).threads v).pc = true → v = u) ∧
        Doing scopes c₀ (s.set t x).composer ((s.set t x).threads u).pc := by
  rcases h with ⟨h1, h2, h3⟩ | ⟨u, h1, h2, h3⟩
  · exact .inl ⟨h1, h2, forall_set (P := fun _ y => inside y.pc = false) hx (fun u _ => h3 u)⟩
  · have hu : u ≠ t := by
      rintro rfl
      rw [doing_inside h3] at hout
      simp at hout
    refine .inr ⟨u, h1, forall_set (P := fun v y => inside y.pc = true → v = u) (fun hy => by rw [hx] at hy; simp at hy) (fun v _ hv => h2 v hv), ?_⟩
    rw [set_other s x hu]
    exact h3

/-- A finished call is appended to the log. -/
theorem run_snoc {scopes : Scopes} {path version : Str} {log : List Call} {c₀ : Composer} {c : Call} {c₁ : Composer}
    (h : (newComposer path version).run scopes (log.map (·.request)) = (c₀, log.map (·.answer)))
    (hc : c₀.compose scopes c.request.1 c.request.2 = (c₁, c.answer)) :
    (newComposer path version).run scopes ((log ++ [c]).map (·.request)) = (c₁, (log ++ [c]).map (·.answer)) := by
  rw [List.map_append, Composer.run_append, h]
  simp [Composer.run, hc]

theorem inv_step {scopes : Scopes} {path version : Str} {calls : Nat → List Request} {s s' : State} {log : List Call} {c₀ : Composer}
    (h : Inv scopes path version calls s log c₀) (hst : Step scopes s s') : ∃ l c₁, Inv scopes path version calls s' (log ++ l) c₁ := by
  cases hst with
  | refuse t r rs hpc htodo hr =>
    have hcomp : c₀.compose scopes r.1 r.2 = (c₀, []) := by
      obtain ⟨p, o⟩ := r
      cases o with
      | none => rfl
      | some o => simp [Composer.compose, hr o rfl]
    refine ⟨[⟨t, r, []⟩], c₀, run_snoc h.run hcomp, holder_outside h.holder (by rw [hpc]; rfl) rfl, ?_, ?_, ?_⟩
    · refine forall_set (P := fun u x => returnsOf (log ++ [⟨t, r, []⟩]) u = x.returned) ?_ ?_
      · rw [returnsOf_snoc, h.returned t]; simp
      · intro u hu
        rw [returnsOf_snoc, h.returned u]
        simp [Ne.symm hu]
    · refine forall_set (P := fun u x => x.returned.map (·.1) ++ inFlight x.pc ++ x.todo = calls u) ?_ (fun u _ => h.progress u)
      rw [← h.progress t, htodo, hpc]
      simp [inFlight]
    · exact forall_set (P := fun u x => PathOk x.pc) trivial (fun u _ => h.path u)
  | enter t p obj pth rs hpc htodo hpath =>
    refine ⟨[], c₀, by simpa using h.run, holder_outside h.holder (by rw [hpc]; rfl) rfl, ?_, ?_, ?_⟩
    · rw [List.append_nil]
      exact forall_set (P := fun u x => returnsOf log u = x.returned) (h.returned t) (fun u _ => h.returned u)
    · refine forall_set (P := fun u x => x.returned.map (·.1) ++ inFlight x.pc ++ x.todo = calls u) ?_ (fun u _ => h.progress u)
      rw [← h.progress t, htodo, hpc]
      simp [inFlight]
    · exact forall_set (P := fun u x => PathOk x.pc) hpath (fun u _ => h.path u)
  | lock t p obj pth hpc hfree =>
    refine ⟨[], c₀, by simpa using h.run, ?_, ?_, ?_, ?_⟩
    · rcases h.holder with ⟨h1, h2, h3⟩ | ⟨u, h1, _⟩
      · refine .inr ⟨t, rfl, forall_set (s := s) (P := fun u x => inside x.pc = true → u = t) (fun _ => rfl) (fun u _ hu => ?_), ?_⟩
        · rw [h3 u] at hu; simp at hu
        · show Doing scopes c₀ s.composer ((s.set t _).threads t).pc
          rw [set_same]
          exact h2
      · rw [hfree] at h1; simp at h1
    · rw [List.append_nil]
      exact forall_set (s := s) (P := fun u x => returnsOf log u = x.returned) (h.returned t) (fun u _ => h.returned u)
    · refine forall_set (s := s) (P := fun u x => x.returned.map (·.1) ++ inFlight x.pc ++ x.todo = calls u) ?_ (fun u _ => h.progress u)
      rw [← h.progress t, hpc]
      rfl
    · have := h.path t
      rw [hpc] at this
      exact forall_set (s := s) (P := fun u x => PathOk x.pc) this (fun u _ => h.path u)
  | hit t p obj pth a hpc hl =>
    refine ⟨[], c₀, ?_⟩
    rw [List.append_nil]
    have hp := h.path t
    rw [hpc] at hp
    refine inv_holder h (by rw [hpc]; rfl) (by rw [hpc]; rfl) trivial (fun _ hd => ?_)
    rw [hpc] at hd
    have hd : s.composer = c₀ := hd
    show c₀.compose scopes p (some obj) = (s.composer, a)
    have hp : obj.self.pkg = some pth := hp
    rw [hd] at hl ⊢
    simp [Composer.compose, hp, hl]
  | miss t p obj pth hpc hl =>
    refine ⟨[], c₀, ?_⟩
    rw [List.append_nil]
    have hp := h.path t
    rw [hpc] at hp
    refine inv_holder h (by rw [hpc]; rfl) (by rw [hpc]; rfl) hp (fun _ hd => ?_)
    rw [hpc] at hd
    exact ⟨hd, hl⟩
  | nothing t p obj pth hpc hd =>
    refine ⟨[], c₀, ?_⟩
    rw [List.append_nil]
    have hp := h.path t
    rw [hpc] at hp
    have hp : obj.self.pkg = some pth := hp
    refine inv_holder h (by rw [hpc]; rfl) (by rw [hpc]; rfl) trivial (fun _ hdo => ?_)
    rw [hpc] at hdo
    obtain ⟨h1, h2⟩ := hdo
    show c₀.compose scopes p (some obj) = (s.composer, [])
    rw [h1] at h2 ⊢
    simp [Composer.compose, hp, h2, hd]
  | described t p obj pth hpc hd =>
    refine ⟨[], c₀, ?_⟩
    rw [List.append_nil]
    have hp := h.path t
    rw [hpc] at hp
    have hp : obj.self.pkg = some pth := hp
    refine inv_holder h (by rw [hpc]; rfl) (by rw [hpc]; rfl) trivial (fun _ hdo => ?_)
    rw [hpc] at hdo
    obtain ⟨h1, h2⟩ := hdo
    refine ⟨h1, h2, hd, pth, hp, rfl, ?_⟩
    rw [h1] at h2
    simp [Composer.compose, hp, h2, hd]
  | store t p obj ds hpc =>
    refine ⟨[], c₀, ?_⟩
    rw [List.append_nil]
    refine inv_holder h (by rw [hpc]; rfl) (by rw [hpc]; rfl) trivial (fun _ hdo => ?_)
    rw [hpc] at hdo
    obtain ⟨h1, h2, h3, pth, h4, h5, h6⟩ := hdo
    refine ⟨formatSymbol (c₀.pack p) ds, ?_, ?_⟩
    · rw [h1]; simp
    · rw [h6, h1]
  | readBack t p obj hpc =>
    refine ⟨[], c₀, ?_⟩
    rw [List.append_nil]
    refine inv_holder h (by rw [hpc]; rfl) (by rw [hpc]; rfl) trivial (fun _ hdo => ?_)
    rw [hpc] at hdo
    obtain ⟨a, h1, h2⟩ := hdo
    show c₀.compose scopes p (some obj) = (s.composer, (s.composer.compositions.lookup obj.canon.id).getD [])
    rw [h1, h2]
    rfl
  | unlock t p obj a hpc =>
    rcases h.holder with ⟨_, _, h3⟩ | ⟨u, h1, h2, h3⟩
    · have := h3 t
      rw [hpc] at this
      simp [inside] at this
    · have hu : t = u := h2 t (by rw [hpc]; rfl)
      subst hu
      rw [hpc] at h3
      have h3 : c₀.compose scopes p (some obj) = (s.composer, a) := h3
      refine ⟨[⟨t, (p, some obj), a⟩], s.composer, run_snoc h.run h3, .inl ⟨rfl, rfl, ?_⟩, ?_, ?_, ?_⟩
      · refine forall_set (s := s) (P := fun u x => inside x.pc = false) rfl (fun u hu => ?_)
        cases hi : inside (s.threads u).pc with
        | false => rfl
        | true => exact absurd (h2 u hi) hu
      · refine forall_set (s := s) (P := fun u x => returnsOf (log ++ [⟨t, (p, some obj), a⟩]) u = x.returned) ?_ ?_
        · rw [returnsOf_snoc, h.returned t]; simp
        · intro u hu
          rw [returnsOf_snoc, h.returned u]
          simp [Ne.symm hu]
      · refine forall_set (s := s) (P := fun u x => x.returned.map (·.1) ++ inFlight x.pc ++ x.todo = calls u) ?_ (fun u _ => h.progress u)
        rw [← h.progress t, hpc]
        simp [inFlight]
      · exact forall_set (s := s) (P := fun u x => PathOk x.pc) trivial (fun u _ => h.path u)

theorem inv_start (scopes : Scopes) (path version : Str) (calls : Nat → List Request) :
    Inv scopes path version calls (start path version calls) [] (newComposer path version) :=
  ⟨rfl, .inl ⟨rfl, rfl, fun _ => rfl⟩, fun _ => rfl, fun t => by simp [start, inFlight], fun _ => trivial⟩

theorem inv_steps {scopes : Scopes} {path version : Str} {calls : Nat → List Request} {s s' : State} {log : List Call} {c₀ : Composer}
    (h : Inv scopes path version calls s log c₀) (hst : Steps scopes s s') : ∃ l c₁, Inv scopes path version calls s' (log ++ l) c₁ := by
  induction hst with
  | refl => exact ⟨[], c₀, by simpa using h⟩
  | step _ hs ih =>
    obtain ⟨l, c₁, h1⟩ := ih
    obtain ⟨l', c₂, h2⟩ := inv_step h1 hs
    exact ⟨l ++ l', c₂, by rw [← List.append_assoc]; exact h2⟩

end ConcurrentComposer
open ConcurrentComposer

/-- **C90** (linearizable).  However many goroutines call `Compose` on one composer and however their steps interleave: the calls that have
returned can be put in an order, which agrees with the order of each goroutine's calls, and in which a call that has returned (in the state
`s`) comes before all those that return later (up to the state `s'`), such that everybody got the answer that the calls made one after the other
in this order, on a fresh composer, get.  Every goroutine has made a beginning of the calls it was to make. -/
theorem C90_linearizable (scopes : Scopes) (path version : Str) (calls : Nat → List Request) (s s' : State)
    (h : Steps scopes (start path version calls) s) (h' : Steps scopes s s') :
    ∃ log later : List Call, AnsweredInOrder scopes path version (log ++ later) ∧ (∀ t, returnsOf log t = (s.threads t).returned) ∧
      (∀ t, returnsOf (log ++ later) t = (s'.threads t).returned) ∧ ∀ t, ∃ todo, (s'.threads t).returned.map (·.1) ++ todo = calls t := by
  obtain ⟨log, c₀, h1⟩ := inv_steps (inv_start scopes path version calls) h
  obtain ⟨l, c₁, h2⟩ := inv_steps h1 h'
  refine ⟨[] ++ log, l, ?_, h1.returned, h2.returned, fun t => ⟨_, by rw [← List.append_assoc]; exact h2.progress t⟩⟩
  unfold AnsweredInOrder
  rw [h2.run]

/-- **C90** (no data race).  At most one goroutine at a time is where the table is read or written. -/
theorem C90_mutual_exclusion (scopes : Scopes) (path version : Str) (calls : Nat → List Request) (s : State)
    (h : Steps scopes (start path version calls) s) (t u : Nat) (ht : inside (s.threads t).pc = true) (hu : inside (s.threads u).pc = true) : t = u := by
  obtain ⟨log, c₀, h1⟩ := inv_steps (inv_start scopes path version calls) h
  rcases h1.holder with ⟨_, _, h3⟩ | ⟨v, _, h3, _⟩
  · rw [h3 t] at ht; simp at ht
  · rw [h3 t ht, h3 u hu]

/-- A step that can touch the table is only taken by a goroutine that holds the mutex. -/
theorem C90_table_only_inside (scopes : Scopes) (s s' : State) (h : Step scopes s s') (hc : s'.composer ≠ s.composer) :
    ∃ t, inside (s.threads t).pc = true := by
  cases h with
  | store t p obj ds hpc => exact ⟨t, by rw [hpc]; rfl⟩
  | _ => exact absurd rfl hc

/-- **C90** (no deadlock).  As long as some goroutine has something to do, some goroutine can do something. -/
theorem C90_no_deadlock (scopes : Scopes) (path version : Str) (calls : Nat → List Request) (s : State)
    (h : Steps scopes (start path version calls) s) (t : Nat) (hbusy : (s.threads t).pc ≠ .outside ∨ (s.threads t).todo ≠ []) :
    ∃ s', Step scopes s s' := by
  obtain ⟨log, c₀, h1⟩ := inv_steps (inv_start scopes path version calls) h
  have hin : ∀ u, inside (s.threads u).pc = true → ∃ s', Step scopes s s' := by
    intro u hu
    cases hpc : (s.threads u).pc with
    | outside => rw [hpc] at hu; simp [inside] at hu
    | waiting => rw [hpc] at hu; simp [inside] at hu
    | looking p o path =>
      cases hl : s.composer.compositions.lookup o.canon.id with
      | none => exact ⟨_, .miss u p o path hpc hl⟩
      | some a => exact ⟨_, .hit u p o path a hpc hl⟩
    | describing p o path =>
      by_cases hd : describe scopes path o.canon = []
      · exact ⟨_, .nothing u p o path hpc hd⟩
      · exact ⟨_, .described u p o path hpc hd⟩
    | storing p o ds => exact ⟨_, .store u p o ds hpc⟩
    | stored p o => exact ⟨_, .readBack u p o hpc⟩
    | unlocking p o a => exact ⟨_, .unlock u p o a hpc⟩
  by_cases hi : inside (s.threads t).pc = true
  · exact hin t hi
  · cases hpc : (s.threads t).pc with
    | outside =>
      rw [hpc] at hbusy
      cases htodo : (s.threads t).todo with
      | nil => rw [htodo] at hbusy; simp at hbusy
      | cons r rs =>
        obtain ⟨p, o⟩ := r
        cases o with
        | none => exact ⟨_, .refuse t (p, none) rs hpc htodo (by simp)⟩
        | some o =>
          cases hpath : o.self.pkg with
          | none => exact ⟨_, .refuse t (p, some o) rs hpc htodo (by rintro o' h; simp only [Option.some.injEq] at h; subst h; exact hpath)⟩
          | some path => exact ⟨_, .enter t p o path rs hpc htodo hpath⟩
    | waiting p o path =>
      cases hl : s.locked with
      | false => exact ⟨_, .lock t p o path hpc hl⟩
      | true =>
        rcases h1.holder with ⟨h3, _⟩ | ⟨u, _, _, h3⟩
        · rw [hl] at h3; simp at h3
        · exact hin u (doing_inside h3)
    | _ => rw [hpc] at hi; simp [inside] at hi

namespace ConcurrentComposer
/-- How much is still to be done in a call. -/
def left : Pc → Nat
  | .outside => 0
  | .unlocking .. => 1
  | .stored .. => 2
  | .storing .. => 3
  | .describing .. => 4
  | .looking .. => 5
  | .waiting .. => 6

/-- How much goroutine `t` has still to do. -/
def work (s : State) (t : Nat) : Nat := 7 * (s.threads t).todo.length + left (s.threads t).pc

theorem work_set {s : State} {t : Nat} {x : Thread} {c : Composer} {b : Bool} (u : Nat) :
    work { s.set t x with composer := c, locked := b } u = if u = t then 7 * x.todo.length + left x.pc else work s u := by
  unfold work
  by_cases h : u = t
  · subst h; simp [State.set]
  · simp [State.set, h]
end ConcurrentComposer

/-- **C90** (every call returns).  Every step brings exactly one goroutine nearer to the end of its calls, so a schedule on which `n`
goroutines make `k` calls altogether has at most `7 * k` steps; as there is no deadlock all calls return. -/
theorem C90_steps_bounded (scopes : Scopes) (s s' : State) (h : Step scopes s s') :
    ∃ t, work s' t < work s t ∧ ∀ u, u ≠ t → work s' u = work s u := by
  have key : ∀ (t : Nat) (x : Thread) (c : Composer) (b : Bool), 7 * x.todo.length + left x.pc < work s t →
      ∃ t', work { s.set t x with composer := c, locked := b } t' < work s t' ∧
        ∀ u, u ≠ t' → work { s.set t x with composer := c, locked := b } u = work s u := by
    intro t x c b hx
    refine ⟨t, ?_, fun u hu => ?_⟩
    · rw [work_set, if_pos rfl]; exact hx
    · rw [work_set, if_neg hu]
  cases h with
  | refuse t r rs hpc htodo hr => exact key t _ s.composer s.locked (by simp [work, hpc, htodo, left])
  | enter t p obj path rs hpc htodo hpath => exact key t _ s.composer s.locked (by simp [work, hpc, htodo, left]; omega)
  | lock t p obj path hpc hfree => exact key t _ s.composer true (by simp [work, hpc, left])
  | hit t p obj path a hpc hl => exact key t _ s.composer s.locked (by simp [work, hpc, left])
  | miss t p obj path hpc hl => exact key t _ s.composer s.locked (by simp [work, hpc, left])
  | nothing t p obj path hpc hd => exact key t _ s.composer s.locked (by simp [work, hpc, left])
  | described t p obj path hpc hd => exact key t _ s.composer s.locked (by simp [work, hpc, left])
  | store t p obj ds hpc => exact key t _ _ s.locked (by simp [work, hpc, left])
  | readBack t p obj hpc => exact key t _ s.composer s.locked (by simp [work, hpc, left])
  | unlock t p obj a hpc => exact key t _ s.composer false (by simp [work, hpc, left])

/-- **C90** (the schedule does not matter).  If the requests are about entities that are told apart by their address, and all requests about
one entity come with the same package, then every call of every goroutine returns, under every schedule, what the call returns on a composer of its
own. -/
theorem C90_schedule_independent (scopes : Scopes) (path version : Str) (calls : Nat → List Request) (s : State)
    (h : Steps scopes (start path version calls) s)
    (hc : ∀ t u, ∀ r ∈ calls t, ∀ r' ∈ calls u, ∀ o o', r.2 = some o → r'.2 = some o' →
      ((entityOf o).id = (entityOf o').id → entityOf o = entityOf o' ∧ o.self.pkg = o'.self.pkg) ∧ (entityOf o = entityOf o' → r.1 = r'.1)) :
    ∀ t r a, (r, a) ∈ (s.threads t).returned → r ∈ calls t ∧ a = ((newComposer path version).compose scopes r.1 r.2).2 := by
  obtain ⟨log, _, hlog⟩ := C90_linearizable scopes path version calls s s h (.refl s)
  obtain ⟨hans, hret, _, hcalls⟩ := hlog
  have hans : AnsweredInOrder scopes path version log := by
    unfold AnsweredInOrder at hans ⊢
    rw [List.map_append, List.map_append, Composer.run_append] at hans
    exact (List.append_inj hans (by
      have : ∀ (rs : List Request) (c : Composer), (c.run scopes rs).2.length = rs.length := by
        intro rs
        induction rs with
        | nil => intro c; rfl
        | cons r rs ih => intro c; simp [Composer.run, ih]
      rw [this]; simp)).1
  have hin : ∀ c ∈ log, (c.request, c.answer) ∈ (s.threads c.thread).returned ∧ c.request ∈ calls c.thread := by
    intro c hc
    have h1 : (c.request, c.answer) ∈ (s.threads c.thread).returned := by
      rw [← hret]
      exact List.mem_map.2 ⟨c, List.mem_filter.2 ⟨hc, by simp⟩, rfl⟩
    obtain ⟨todo, ht⟩ := hcalls c.thread
    exact ⟨h1, by rw [← ht]; exact List.mem_append_left _ (List.mem_map.2 ⟨_, h1, rfl⟩)⟩
  intro t r a hr
  rw [← hret] at hr
  obtain ⟨c, hc1, hc2⟩ := List.mem_map.1 hr
  obtain ⟨hc1, hc3⟩ := List.mem_filter.1 hc1
  simp only [Prod.mk.injEq] at hc2
  simp only [decide_eq_true_eq] at hc3
  obtain ⟨rfl, rfl⟩ := hc2
  refine ⟨hc3 ▸ (hin c hc1).2, ?_⟩
  obtain ⟨pre, post, rfl⟩ := List.append_of_mem hc1
  have hstep : c.answer = (((newComposer path version).run scopes (pre.map (·.request))).1.compose scopes c.request.1 c.request.2).2 := by
    unfold AnsweredInOrder at hans
    rw [List.map_append, List.map_append, Composer.run_append] at hans
    have hl : ∀ (rs : List Request) (c : Composer), (c.run scopes rs).2.length = rs.length := by
      intro rs
      induction rs with
      | nil => intro c; rfl
      | cons r rs ih => intro c; simp [Composer.run, ih]
    have := (List.append_inj hans (by rw [hl]; simp)).2
    simp only [List.map_cons, Composer.run, List.cons.injEq] at this
    exact this.1.symm
  rw [hstep]
  obtain ⟨⟨p, o⟩, hreq⟩ : ∃ r, c.request = r := ⟨_, rfl⟩
  rw [hreq]
  cases o with
  | none => rfl
  | some o =>
    refine C03_history_independent scopes path version (pre.map (·.request)) p o ?_ ?_
    · have hmem : ∀ r ∈ pre.map (·.request) ++ [(p, some o)], ∃ t, r ∈ calls t := by
        intro r hr
        rcases List.mem_append.1 hr with hr | hr
        · obtain ⟨d, hd, rfl⟩ := List.mem_map.1 hr
          exact ⟨_, (hin d (by simp [hd])).2⟩
        · simp only [List.mem_singleton] at hr
          subst hr
          exact ⟨_, hreq ▸ (hin c (by simp)).2⟩
      intro r₁ h₁ r₂ h₂ o₁ o₂ e₁ e₂ hid
      obtain ⟨t₁, m₁⟩ := hmem r₁ h₁
      obtain ⟨t₂, m₂⟩ := hmem r₂ h₂
      exact (hc t₁ t₂ r₁ m₁ r₂ m₂ o₁ o₂ e₁ e₂).1 hid
    · intro r hr o' ho' hent
      obtain ⟨d, hd, rfl⟩ := List.mem_map.1 hr
      have m₁ := (hin d (by simp [hd])).2
      have m₂ := (hin c (by simp)).2
      rw [hreq] at m₂
      exact (hc _ _ _ m₁ _ m₂ o' o ho' rfl).2 hent

/-- Two goroutines ask for the same constant at once, one of them also for nothing: one waits for the other and then finds the symbol in the
table; the hypothesis of the last theorem holds too. -/
example :
    let k : ObjData := ⟨8, .const, go!"K", some go!"p", 4⟩
    let calls : Nat → List Request := fun t => if t = 0 then [(none, some (.plain k)), (none, none)] else if t = 1 then [(none, some (.plain k))] else []
    (∃ s, Steps (fun _ => []) (start go!"d" go!"v0" calls) s ∧
      (s.threads 0).returned = [((none, some (.plain k)), go!"scip-go gomod d v0 p/K."), ((none, none), [])] ∧
      (s.threads 1).returned = [((none, some (.plain k)), go!"scip-go gomod d v0 p/K.")]) ∧
    ∀ t u, ∀ r ∈ calls t, ∀ r' ∈ calls u, ∀ o o', r.2 = some o → r'.2 = some o' →
      ((entityOf o).id = (entityOf o').id → entityOf o = entityOf o' ∧ o.self.pkg = o'.self.pkg) ∧ (entityOf o = entityOf o' → r.1 = r'.1) := by
  intro k calls
  constructor
  · have h0 : Steps (fun _ => []) (start go!"d" go!"v0" calls) (start go!"d" go!"v0" calls) := .refl _
    have h1 := Steps.step h0 (.enter 1 none (.plain k) go!"p" [] rfl rfl rfl)
    have h2 := Steps.step h1 (.enter 0 none (.plain k) go!"p" [(none, none)] rfl rfl rfl)
    have h3 := Steps.step h2 (.lock 1 none (.plain k) go!"p" rfl rfl)
    have h4 := Steps.step h3 (.miss 1 none (.plain k) go!"p" rfl rfl)
    have h5 := Steps.step h4 (.described 1 none (.plain k) go!"p" rfl (by decide))
    have h6 := Steps.step h5 (.store 1 none (.plain k) _ rfl)
    have h7 := Steps.step h6 (.readBack 1 none (.plain k) rfl)
    have h8 := Steps.step h7 (.unlock 1 none (.plain k) _ rfl)
    have h9 := Steps.step h8 (.lock 0 none (.plain k) go!"p" rfl rfl)
    have h10 := Steps.step h9 (.hit 0 none (.plain k) go!"p" _ rfl rfl)
    have h11 := Steps.step h10 (.unlock 0 none (.plain k) _ rfl)
    have h12 := Steps.step h11 (.refuse 0 (none, none) [] rfl rfl (by simp))
    exact ⟨_, h12, by decide +kernel, by decide +kernel⟩
  · intro t u r hr r' hr' o o' ho ho'
    have hk : ∀ t, ∀ r ∈ calls t, ∀ o, r.2 = some o → r = (none, some (Obj.plain k)) := by
      intro t r hr o ho
      simp only [calls] at hr
      split at hr
      · simp only [List.mem_cons, List.not_mem_nil, or_false] at hr
        rcases hr with rfl | rfl
        · rfl
        · simp at ho
      · split at hr
        · simpa using hr
        · simp at hr
    have e := hk t r hr o ho
    have e' := hk u r' hr' o' ho'
    subst e e'
    simp only [Option.some.injEq] at ho ho'
    subst ho ho'
    exact ⟨fun _ => ⟨rfl, rfl⟩, fun _ => rfl⟩

end Verif
