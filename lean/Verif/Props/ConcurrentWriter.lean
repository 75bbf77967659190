import Verif.Model.ConcurrentWriter
import Verif.Props.Cmd
/-! # C53: concurrent writes never interleave -/
namespace Verif
open Pb ConcurrentWriter

namespace Spec

/-- A finished call of the writer: who called, with what message, whether it returned without error, and the bytes it put in the file. -/
structure Call where
  thread : Nat
  msg : Index.Message
  ok : Bool
  bytes : Bytes

/-- A successful call has put exactly the encoding of its message in the file; one that returned an error a proper part of its
beginning (nothing, if the message could not be encoded). -/
def Call.Sound (c : Call) : Prop :=
  if c.ok then marshal (indexOf c.msg) = some c.bytes
  else (marshal (indexOf c.msg) = none ∧ c.bytes = []) ∨ ∃ rest, rest ≠ [] ∧ marshal (indexOf c.msg) = some (c.bytes ++ rest)

/-- What the calls of goroutine `t` returned, in the order of the file. -/
def returnsOf (log : List Call) (t : Nat) : List (Index.Message × Bool) := (log.filter (fun c => c.thread = t)).map (fun c => (c.msg, c.ok))

/-- The message a goroutine is about to write or is writing. -/
def inFlight : Pc → List Index.Message
  | .outside => []
  | .marshalled m _ => [m]
  | .writing m _ _ => [m]
  | .unlocking m _ => [m]

/-- Goroutine `t` is inside `file.Write` or has just left it. -/
def inside : Pc → Bool
  | .writing .. => true
  | .unlocking .. => true
  | _ => false

end Spec
open Spec

/-- What the current holder of the mutex has written. -/
def WriterPartial (s : State) (cur : Bytes) : Prop :=
  (s.locked = false ∧ cur = [] ∧ ∀ t, inside (s.threads t).pc = false) ∨
  ∃ t, s.locked = true ∧ (∀ u, inside (s.threads u).pc = true → u = t) ∧
    ((∃ m b rest, (s.threads t).pc = .writing m b rest ∧ marshal (indexOf m) = some b ∧ cur ++ rest = b) ∨
     ∃ m ok, (s.threads t).pc = .unlocking m ok ∧ Call.Sound ⟨t, m, ok, cur⟩)

/-- The invariant. -/
def WriterInv (calls : Nat → List Index.Message) (s : State) (log : List Call) (cur : Bytes) : Prop :=
  s.file = (log.map (·.bytes)).flatten ++ cur ∧ WriterPartial s cur ∧ (∀ c ∈ log, c.Sound) ∧ (∀ t, returnsOf log t = (s.threads t).returned) ∧
  (∀ t, (s.threads t).returned.map (·.1) ++ inFlight (s.threads t).pc ++ (s.threads t).todo = calls t) ∧
  ∀ t m b, (s.threads t).pc = .marshalled m b → marshal (indexOf m) = some b

theorem State.set_same (s : State) (t : Nat) (x : Thread) : (s.set t x).threads t = x := by simp [State.set]
theorem State.set_other (s : State) {t u : Nat} (x : Thread) (h : u ≠ t) : (s.set t x).threads u = s.threads u := by simp [State.set, h]

theorem returnsOf_snoc (log : List Call) (c : Call) (t : Nat) :
    returnsOf (log ++ [c]) t = returnsOf log t ++ (if c.thread = t then [(c.msg, c.ok)] else []) := by
  unfold returnsOf
  rw [List.filter_append, List.map_append]
  by_cases h : c.thread = t <;> simp [h]

theorem writer_inv_start (calls : Nat → List Index.Message) : WriterInv calls (start calls) [] [] := by
  refine ⟨rfl, .inl ⟨rfl, rfl, fun _ => rfl⟩, by simp, fun _ => rfl, fun t => by simp [start, inFlight], ?_⟩
  intro t m b h
  simp [start] at h

theorem writer_inv_step (calls : Nat → List Index.Message) {s s' : State} {log : List Call} {cur : Bytes} (h : WriterInv calls s log cur) (hst : Step s s') :
    ∃ log' cur', WriterInv calls s' log' cur' := by
  obtain ⟨hfile, hpart, hsound, hret, hprog, hmar⟩ := h
  cases hst with
  | marshal t m ms b hpc htodo hb =>
    refine ⟨log, cur, hfile, ?_, hsound, ?_, ?_, ?_⟩
    · rcases hpart with ⟨h1, h2, h3⟩ | ⟨u, h1, h2, h3⟩
      · refine .inl ⟨h1, h2, fun v => ?_⟩
        by_cases hv : v = t
        · subst hv; rw [State.set_same]; rfl
        · rw [State.set_other s _ hv]; exact h3 v
      · have hu : u ≠ t := by
          rintro rfl
          rcases h3 with ⟨_, _, _, h3, _⟩ | ⟨_, _, h3, _⟩ <;> simp [hpc] at h3
        refine .inr ⟨u, h1, fun v hv => ?_, ?_⟩
        · by_cases hvt : v = t
          · subst hvt; rw [State.set_same] at hv; simp [inside] at hv
          · rw [State.set_other s _ hvt] at hv; exact h2 v hv
        · rw [State.set_other s _ hu]; exact h3
    · intro v
      rw [hret v]
      by_cases hv : v = t
      · subst hv; rw [State.set_same]
      · rw [State.set_other s _ hv]
    · intro v
      by_cases hv : v = t
      · subst hv
        rw [State.set_same, ← hprog v, htodo, hpc]
        simp [inFlight]
      · rw [State.set_other s _ hv]; exact hprog v
    · intro v m' b' hv'
      by_cases hv : v = t
      · subst hv
        rw [State.set_same] at hv'
        simp only [Pc.marshalled.injEq] at hv'
        obtain ⟨rfl, rfl⟩ := hv'
        exact hb
      · rw [State.set_other s _ hv] at hv'; exact hmar v m' b' hv'
  | marshalFails t m ms hpc htodo hb =>
    refine ⟨log ++ [⟨t, m, false, []⟩], cur, ?_, ?_, ?_, ?_, ?_, ?_⟩
    · simpa [State.set] using hfile
    · rcases hpart with ⟨h1, h2, h3⟩ | ⟨u, h1, h2, h3⟩
      · refine .inl ⟨h1, h2, fun v => ?_⟩
        by_cases hv : v = t
        · subst hv; rw [State.set_same]; rfl
        · rw [State.set_other s _ hv]; exact h3 v
      · have hu : u ≠ t := by
          rintro rfl
          rcases h3 with ⟨_, _, _, h3, _⟩ | ⟨_, _, h3, _⟩ <;> simp [hpc] at h3
        refine .inr ⟨u, h1, fun v hv => ?_, ?_⟩
        · by_cases hvt : v = t
          · subst hvt; rw [State.set_same] at hv; simp [inside] at hv
          · rw [State.set_other s _ hvt] at hv; exact h2 v hv
        · rw [State.set_other s _ hu]; exact h3
    · intro c hc
      rcases List.mem_append.1 hc with hc | hc
      · exact hsound c hc
      · simp only [List.mem_singleton] at hc
        subst hc
        simp [Call.Sound, hb]
    · intro v
      rw [returnsOf_snoc, hret v]
      by_cases hv : v = t
      · subst hv; rw [State.set_same]; simp
      · rw [State.set_other s _ hv]; simp [Ne.symm hv]
    · intro v
      by_cases hv : v = t
      · subst hv
        rw [State.set_same, ← hprog v, htodo, hpc]
        simp [inFlight]
      · rw [State.set_other s _ hv]; exact hprog v
    · intro v m' b' hv'
      by_cases hv : v = t
      · subst hv; rw [State.set_same] at hv'; simp at hv'
      · rw [State.set_other s _ hv] at hv'; exact hmar v m' b' hv'
  | lock t m b hpc hfree =>
    refine ⟨log, cur, hfile, ?_, hsound, ?_, ?_, ?_⟩
    · rcases hpart with ⟨h1, h2, h3⟩ | ⟨u, h1, _⟩
      · refine .inr ⟨t, rfl, fun v hv => ?_, .inl ⟨m, b, b, ?_, hmar t m b hpc, by simp [h2]⟩⟩
        · by_cases hvt : v = t
          · exact hvt
          · simp only [State.set_other s _ hvt] at hv
            rw [h3 v] at hv; simp at hv
        · simp [State.set]
      · rw [hfree] at h1; simp at h1
    · intro v
      rw [hret v]
      by_cases hv : v = t
      · subst hv; simp only [State.set_same]
      · simp only [State.set_other s _ hv]
    · intro v
      by_cases hv : v = t
      · subst hv
        simp only [State.set_same]
        rw [← hprog v, hpc]
        simp [inFlight]
      · simp only [State.set_other s _ hv]; exact hprog v
    · intro v m' b' hv'
      by_cases hv : v = t
      · subst hv; simp only [State.set_same] at hv'; simp at hv'
      · simp only [State.set_other s _ hv] at hv'; exact hmar v m' b' hv'
  | write t m b x y hpc hx =>
    refine ⟨log, cur ++ x, ?_, ?_, hsound, ?_, ?_, ?_⟩
    · simp only [hfile, List.append_assoc]
    · rcases hpart with ⟨h1, h2, h3⟩ | ⟨u, h1, h2, h3⟩
      · have := h3 t
        rw [hpc] at this
        simp [inside] at this
      · have hu : t = u := h2 t (by rw [hpc]; rfl)
        subst hu
        refine .inr ⟨t, h1, fun v hv => ?_, .inl ?_⟩
        · by_cases hvt : v = t
          · exact hvt
          · simp only [State.set_other s _ hvt] at hv; exact h2 v hv
        · rcases h3 with ⟨m', b', rest, h3, h4, h5⟩ | ⟨_, _, h3, _⟩
          · rw [hpc] at h3
            simp only [Pc.writing.injEq] at h3
            obtain ⟨rfl, rfl, rfl⟩ := h3
            exact ⟨m, b, y, by simp only [State.set_same], h4, by rw [← h5]; simp⟩
          · simp [hpc] at h3
    · intro v
      rw [hret v]
      by_cases hv : v = t
      · subst hv; simp only [State.set_same]
      · simp only [State.set_other s _ hv]
    · intro v
      by_cases hv : v = t
      · subst hv
        simp only [State.set_same]
        rw [← hprog v, hpc]
        simp [inFlight]
      · simp only [State.set_other s _ hv]; exact hprog v
    · intro v m' b' hv'
      by_cases hv : v = t
      · subst hv; simp only [State.set_same] at hv'; simp at hv'
      · simp only [State.set_other s _ hv] at hv'; exact hmar v m' b' hv'
  | wrote t m b hpc =>
    refine ⟨log, cur, hfile, ?_, hsound, ?_, ?_, ?_⟩
    · rcases hpart with ⟨h1, h2, h3⟩ | ⟨u, h1, h2, h3⟩
      · have := h3 t
        rw [hpc] at this
        simp [inside] at this
      · have hu : t = u := h2 t (by rw [hpc]; rfl)
        subst hu
        refine .inr ⟨t, h1, fun v hv => ?_, .inr ?_⟩
        · by_cases hvt : v = t
          · exact hvt
          · simp only [State.set_other s _ hvt] at hv; exact h2 v hv
        · rcases h3 with ⟨m', b', rest, h3, h4, h5⟩ | ⟨_, _, h3, _⟩
          · rw [hpc] at h3
            simp only [Pc.writing.injEq] at h3
            obtain ⟨rfl, rfl, rfl⟩ := h3
            exact ⟨m, true, by simp only [State.set_same], by simpa [Call.Sound] using h4.trans (by simpa using h5.symm)⟩
          · simp [hpc] at h3
    · intro v
      rw [hret v]
      by_cases hv : v = t
      · subst hv; simp only [State.set_same]
      · simp only [State.set_other s _ hv]
    · intro v
      by_cases hv : v = t
      · subst hv
        simp only [State.set_same]
        rw [← hprog v, hpc]
        simp [inFlight]
      · simp only [State.set_other s _ hv]; exact hprog v
    · intro v m' b' hv'
      by_cases hv : v = t
      · subst hv; simp only [State.set_same] at hv'; simp at hv'
      · simp only [State.set_other s _ hv] at hv'; exact hmar v m' b' hv'
  | writeFails t m b rest hpc hrest =>
    refine ⟨log, cur, hfile, ?_, hsound, ?_, ?_, ?_⟩
    · rcases hpart with ⟨h1, h2, h3⟩ | ⟨u, h1, h2, h3⟩
      · have := h3 t
        rw [hpc] at this
        simp [inside] at this
      · have hu : t = u := h2 t (by rw [hpc]; rfl)
        subst hu
        refine .inr ⟨t, h1, fun v hv => ?_, .inr ?_⟩
        · by_cases hvt : v = t
          · exact hvt
          · simp only [State.set_other s _ hvt] at hv; exact h2 v hv
        · rcases h3 with ⟨m', b', rest', h3, h4, h5⟩ | ⟨_, _, h3, _⟩
          · rw [hpc] at h3
            simp only [Pc.writing.injEq] at h3
            obtain ⟨rfl, rfl, rfl⟩ := h3
            refine ⟨m, false, by simp only [State.set_same], ?_⟩
            have : Call.Sound ⟨t, m, false, cur⟩ := by
              simp only [Call.Sound, Bool.false_eq_true, if_false]
              exact .inr ⟨rest, hrest, by rw [h5]; exact h4⟩
            exact this
          · simp [hpc] at h3
    · intro v
      rw [hret v]
      by_cases hv : v = t
      · subst hv; simp only [State.set_same]
      · simp only [State.set_other s _ hv]
    · intro v
      by_cases hv : v = t
      · subst hv
        simp only [State.set_same]
        rw [← hprog v, hpc]
        simp [inFlight]
      · simp only [State.set_other s _ hv]; exact hprog v
    · intro v m' b' hv'
      by_cases hv : v = t
      · subst hv; simp only [State.set_same] at hv'; simp at hv'
      · simp only [State.set_other s _ hv] at hv'; exact hmar v m' b' hv'
  | unlock t m ok hpc =>
    rcases hpart with ⟨h1, h2, h3⟩ | ⟨u, h1, h2, h3⟩
    · have := h3 t
      rw [hpc] at this
      simp [inside] at this
    · have hu : t = u := h2 t (by rw [hpc]; rfl)
      subst hu
      have hsnd : Call.Sound ⟨t, m, ok, cur⟩ := by
        rcases h3 with ⟨m', b', rest', h3, _⟩ | ⟨m', ok', h3, h4⟩
        · simp [hpc] at h3
        · rw [hpc] at h3
          simp only [Pc.unlocking.injEq] at h3
          obtain ⟨rfl, rfl⟩ := h3
          exact h4
      refine ⟨log ++ [⟨t, m, ok, cur⟩], [], ?_, .inl ⟨rfl, rfl, fun v => ?_⟩, ?_, ?_, ?_, ?_⟩
      · simp [hfile, State.set]
      · by_cases hv : v = t
        · subst hv; simp only [State.set_same]; rfl
        · simp only [State.set_other s _ hv]
          cases hi : inside (s.threads v).pc with
          | false => rfl
          | true => exact absurd (h2 v hi) hv
      · intro c hc
        rcases List.mem_append.1 hc with hc | hc
        · exact hsound c hc
        · simp only [List.mem_singleton] at hc
          subst hc
          exact hsnd
      · intro v
        rw [returnsOf_snoc, hret v]
        by_cases hv : v = t
        · subst hv; simp only [State.set_same]; simp
        · simp only [State.set_other s _ hv]; simp [Ne.symm hv]
      · intro v
        by_cases hv : v = t
        · subst hv
          simp only [State.set_same]
          rw [← hprog v, hpc]
          simp [inFlight]
        · simp only [State.set_other s _ hv]; exact hprog v
      · intro v m' b' hv'
        by_cases hv : v = t
        · subst hv; simp only [State.set_same] at hv'; simp at hv'
        · simp only [State.set_other s _ hv] at hv'; exact hmar v m' b' hv'

theorem writer_reachable_inv {calls : Nat → List Index.Message} {s : State} (h : Reachable calls s) : ∃ log cur, WriterInv calls s log cur := by
  induction h with
  | start => exact ⟨_, _, writer_inv_start calls⟩
  | step _ hst ih => obtain ⟨log, cur, h⟩ := ih; exact writer_inv_step calls h hst

/-- **C53.** In every state of every schedule the file consists of the contributions of the finished calls, one after the other, and
then a beginning of the one message that is being written: the file is `log ++ cur`.  Each goroutine's calls are in the order it
made them, and a call that returned without error has contributed exactly its message.  (A call that returned an error contributes
a beginning of its message, so as long as no write fails the file is a sequence of whole messages and at most one partial one.) -/
theorem C53_no_interleaving (calls : Nat → List Index.Message) (s : State) (h : Reachable calls s) :
    ∃ (log : List Call) (cur : Bytes), s.file = (log.map (·.bytes)).flatten ++ cur ∧ (∀ c ∈ log, c.Sound) ∧
      (∀ t, returnsOf log t = (s.threads t).returned ∧ ∃ later, (s.threads t).returned.map (·.1) ++ later = calls t) ∧
      (cur = [] ∨ ∃ t m rest, inFlight (s.threads t).pc = [m] ∧ marshal (indexOf m) = some (cur ++ rest)) := by
  obtain ⟨log, cur, h1, h2, h3, h4, h5, _⟩ := writer_reachable_inv h
  refine ⟨log, cur, h1, h3, fun t => ⟨h4 t, _, by rw [← List.append_assoc]; exact h5 t⟩, ?_⟩
  rcases h2 with ⟨_, h2, _⟩ | ⟨t, _, _, ⟨m, b, rest, h6, h7, h8⟩ | ⟨m, ok, h6, h7⟩⟩
  · exact .inl h2
  · exact .inr ⟨t, m, rest, by rw [h6]; rfl, by rw [h7, h8]⟩
  · unfold Call.Sound at h7
    cases ok with
    | true => simp only [if_true] at h7; exact .inr ⟨t, m, [], by rw [h6]; rfl, by simpa using h7⟩
    | false =>
      simp only [Bool.false_eq_true, if_false] at h7
      rcases h7 with ⟨_, h7⟩ | ⟨rest, _, h7⟩
      · exact .inl h7
      · exact .inr ⟨t, m, rest, by rw [h6]; rfl, h7⟩

/-- At most one goroutine is inside `file.Write`. -/
theorem C53_mutual_exclusion (calls : Nat → List Index.Message) (s : State) (h : Reachable calls s) (t u : Nat)
    (ht : inside (s.threads t).pc = true) (hu : inside (s.threads u).pc = true) : t = u := by
  obtain ⟨log, cur, _, h2, _⟩ := writer_reachable_inv h
  rcases h2 with ⟨_, _, h3⟩ | ⟨v, _, h3, _⟩
  · rw [h3 t] at ht; simp at ht
  · rw [h3 t ht, h3 u hu]

/-- No deadlock: as long as some goroutine has something to do, some goroutine can do something. -/
theorem C53_no_deadlock (calls : Nat → List Index.Message) (s : State) (h : Reachable calls s) (t : Nat)
    (hbusy : (s.threads t).pc ≠ .outside ∨ (s.threads t).todo ≠ []) : ∃ s', Step s s' := by
  obtain ⟨log, cur, _, h2, _⟩ := writer_reachable_inv h
  have hin : ∀ u, inside (s.threads u).pc = true → ∃ s', Step s s' := by
    intro u hu
    cases hpc : (s.threads u).pc with
    | outside => rw [hpc] at hu; simp [inside] at hu
    | marshalled => rw [hpc] at hu; simp [inside] at hu
    | writing m b rest =>
      cases rest with
      | nil => exact ⟨_, .wrote u m b hpc⟩
      | cons c cs => exact ⟨_, .write u m b [c] cs (by rw [hpc]; rfl) (by simp)⟩
    | unlocking m ok => exact ⟨_, .unlock u m ok hpc⟩
  cases hpc : (s.threads t).pc with
  | writing m b rest => exact hin t (by rw [hpc]; rfl)
  | unlocking m ok => exact hin t (by rw [hpc]; rfl)
  | outside =>
    cases htodo : (s.threads t).todo with
    | nil => rw [hpc, htodo] at hbusy; simp at hbusy
    | cons m ms =>
      cases hm : marshal (indexOf m) with
      | none => exact ⟨_, .marshalFails t m ms hpc htodo hm⟩
      | some b => exact ⟨_, .marshal t m ms b hpc htodo hm⟩
  | marshalled m b =>
    rcases h2 with ⟨hfree, _, _⟩ | ⟨u, _, _, ⟨m', b', r, hu, _⟩ | ⟨m', ok, hu, _⟩⟩
    · exact ⟨_, .lock t m b hpc hfree⟩
    · exact hin u (by rw [hu]; rfl)
    · exact hin u (by rw [hu]; rfl)

theorem marshalled_of_log (log : List Call) (h : ∀ c ∈ log, c.Sound) (hok : ∀ c ∈ log, c.ok = true) :
    Marshalled (log.map (·.msg)) (log.map (·.bytes)) := by
  induction log with
  | nil => exact .nil
  | cons c l ih =>
    have hc := h c (by simp)
    unfold Call.Sound at hc
    rw [hok c (by simp)] at hc
    exact .cons hc (ih (fun x hx => h x (by simp [hx])) (fun x hx => hok x (by simp [hx])))

/-- When all calls have returned without error, the file decodes to the messages of all goroutines in some order `ms` that keeps
every goroutine's own order. -/
theorem C53_all_written (calls : Nat → List Index.Message) (s : State) (h : Reachable calls s)
    (hdone : ∀ t, (s.threads t).pc = .outside ∧ (s.threads t).todo = []) (hok : ∀ t r, r ∈ (s.threads t).returned → r.2 = true)
    (hsize : s.file.length < 2 ^ 64) :
    ∃ log : List Call, (∀ t, (log.filter (fun c => c.thread = t)).map (·.msg) = calls t) ∧
      ((metadataOf (log.map (·.msg))).length ≤ 1 →
        Pb.Spec.unmarshal s.file = some { metadata := (metadataOf (log.map (·.msg))).head?, documents := documentsOf (log.map (·.msg))
                                          externalSymbols := externalsOf (log.map (·.msg)) }) := by
  obtain ⟨log, cur, h1, h2, h3, h4, h5, _⟩ := writer_reachable_inv h
  have hlog : ∀ c ∈ log, c.ok = true := by
    intro c hc
    refine hok c.thread (c.msg, c.ok) ?_
    rw [← h4 c.thread]
    exact List.mem_map.2 ⟨c, List.mem_filter.2 ⟨hc, by simp⟩, rfl⟩
  have hcur : cur = [] := by
    rcases h2 with ⟨_, h2, _⟩ | ⟨t, _, _, ⟨m, b, rest, h6, _⟩ | ⟨m, ok, h6, _⟩⟩
    · exact h2
    · rw [(hdone t).1] at h6; simp at h6
    · rw [(hdone t).1] at h6; simp at h6
  subst hcur
  rw [List.append_nil] at h1
  refine ⟨log, ?_, ?_⟩
  · intro t
    have := h5 t
    rw [(hdone t).1, (hdone t).2, ← h4 t] at this
    simp only [inFlight, returnsOf, List.append_nil, List.map_map] at this
    exact this
  · intro hone
    rw [h1]
    exact C52_file_decodes _ _ (marshalled_of_log log h3 hlog) hone (by rw [← h1]; exact hsize)

/-! ## An execution: two goroutines, the second one gets the mutex first and its write is split -/
namespace ConcurrentWriterSample

def m0 : Index.Message := .external go!"a" []
def m1 : Index.Message := .external go!"b" []
def calls : Nat → List Index.Message := fun t => if t = 0 then [m0] else if t = 1 then [m1] else []
def b0 : Bytes := [26, 3, 10, 1, 97]
def b1 : Bytes := [26, 3, 10, 1, 98]
theorem e0 : marshal (indexOf m0) = some b0 := by decide +kernel
theorem e1 : marshal (indexOf m1) = some b1 := by decide +kernel

/-- The first has marshalled its message, the second holds the mutex and has written two of five bytes. -/
theorem midway : ∃ s, Reachable calls s ∧ s.file = [26, 3] ∧ inside (s.threads 1).pc = true ∧ (s.threads 0).pc = .marshalled m0 b0 := by
  refine ⟨_, .step (.step (.step (.step .start (.marshal 0 m0 [] b0 rfl rfl e0)) (.marshal 1 m1 [] b1 rfl rfl e1)) (.lock 1 m1 b1 rfl rfl))
    (.write 1 m1 b1 [26, 3] [10, 1, 98] rfl (by simp)), ?_, ?_, ?_⟩ <;> rfl

/-- Everything is written: the second message first. -/
theorem finished : ∃ s, Reachable calls s ∧ s.file = b1 ++ b0 ∧ (∀ t, (s.threads t).pc = .outside ∧ (s.threads t).todo = []) ∧
    ∀ t r, r ∈ (s.threads t).returned → r.2 = true := by
  refine ⟨_, .step (.step (.step (.step (.step (.step (.step (.step (.step (.step (.step .start
    (.marshal 0 m0 [] b0 rfl rfl e0)) (.marshal 1 m1 [] b1 rfl rfl e1)) (.lock 1 m1 b1 rfl rfl))
    (.write 1 m1 b1 [26, 3] [10, 1, 98] rfl (by simp))) (.write 1 m1 b1 [10, 1, 98] [] rfl (by simp))) (.wrote 1 m1 b1 rfl))
    (.unlock 1 m1 true rfl)) (.lock 0 m0 b0 rfl rfl)) (.write 0 m0 b0 b0 [] rfl (by simp [b0]))) (.wrote 0 m0 b0 rfl))
    (.unlock 0 m0 true rfl), rfl, ?_, ?_⟩
  · intro t
    by_cases h0 : t = 0
    · subst h0; exact ⟨rfl, rfl⟩
    · by_cases h1 : t = 1
      · subst h1; exact ⟨rfl, rfl⟩
      · simp [State.set, start, calls, h0, h1]
  · intro t r hr
    by_cases h0 : t = 0
    · subst h0; simp [State.set, start] at hr; rw [hr]
    · by_cases h1 : t = 1
      · subst h1; simp [State.set, start] at hr; rw [hr]
      · simp [State.set, start, h0, h1] at hr

end ConcurrentWriterSample
end Verif
