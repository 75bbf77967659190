import Verif.Lemmas.Digits
import Verif.Model.Stdout
import Verif.Props.Progress
import Verif.Props.Commands
/-! # C89: what goes to standard output -/
namespace Verif
open Cmd Output Commands Pb Stdout

/-- The bytes of the index among what was written to standard output. -/
def Spec.indexPart : List Shown → Bytes
  | [] => []
  | .message b :: l => b ++ indexPart l
  | _ :: l => indexPart l

/-- Nothing but bytes of the index was written. -/
def Spec.OnlyIndex (shown : List Shown) : Prop := ∀ x ∈ shown, ∃ b, x = .message b

/-- No byte of the index was written. -/
def Spec.NoIndex (shown : List Shown) : Prop := ∀ x ∈ shown, ∀ b, x ≠ .message b

namespace Stdout
open Spec

theorem indexPart_append (a b : List Shown) : indexPart (a ++ b) = indexPart a ++ indexPart b := by
  induction a with
  | nil => rfl
  | cons x a ih => cases x <;> simp [indexPart, ih]

theorem indexPart_none {l : List Shown} (h : NoIndex l) : indexPart l = [] := by
  induction l with
  | nil => rfl
  | cons x l ih =>
    cases x with
    | message b => exact absurd rfl (h _ (by simp) b)
    | text s => exact ih fun y hy => h y (by simp [hy])
    | time d => exact ih fun y hy => h y (by simp [hy])

theorem render_onlyIndex (showTime : Int → Str) {l : List Shown} (h : OnlyIndex l) : render showTime l = indexPart l := by
  induction l with
  | nil => rfl
  | cons x l ih =>
    obtain ⟨b, rfl⟩ := h x (by simp)
    have := ih fun y hy => h y (by simp [hy])
    simp only [render, List.flatMap_cons, Shown.bytes, indexPart] at this ⊢
    rw [this]

theorem noIndex_append {a b : List Shown} (ha : NoIndex a) (hb : NoIndex b) : NoIndex (a ++ b) := by
  intro x hx
  rcases List.mem_append.1 hx with h | h
  · exact ha x h
  · exact hb x h

theorem onlyIndex_append {a b : List Shown} (ha : OnlyIndex a) (hb : OnlyIndex b) : OnlyIndex (a ++ b) := by
  intro x hx
  rcases List.mem_append.1 hx with h | h
  · exact ha x h
  · exact hb x h

theorem task_noIndex (level : Level) (name : Str) (d : Int) : NoIndex (task level name d) := by
  intro x hx b
  simp only [task, List.mem_map] at hx
  obtain ⟨p, _, rfl⟩ := hx
  cases p <;> simp [ofPiece]

theorem task_quiet {level : Level} (h : level > levelWarn) (name : Str) (d : Int) : task level name d = [] := by
  simp [task, withProgress, h]

theorem options_noIndex (S : Surroundings) (sh : SharedFlags) (d : Int) : NoIndex (options S sh d) := by
  unfold Stdout.options
  split
  · intro x hx; simp at hx
  · split
    · intro x hx; simp at hx
    · split
      · split
        · intro x hx; simp at hx
        · intro x hx; simp only [List.mem_singleton] at hx; subst hx; simp
      · exact task_noIndex _ _ _

theorem options_quiet (S : Surroundings) (sh : SharedFlags) (d : Int) (hq : sh.quiet = true) : options S sh d = [] := by
  unfold Stdout.options
  split
  · rfl
  · have hl : getLogLevel sh.quiet sh.verbose = some levelError := by simp [getLogLevel, hq]
    rw [hl]
    simp only
    split
    · simp [levelError, levelWarn]
    · exact task_quiet (by decide) _ _

theorem parallel_noIndex {level : Level} {name : Str} {n : Nat} {l : List Shown} (h : Parallel level name n l) : NoIndex l := by
  obtain ⟨s, _, _, rfl⟩ := h
  intro x hx
  obtain ⟨y, _, hy⟩ := List.mem_flatMap.1 hx
  cases y <;> simp [ofLine] at hy
  · subst hy; simp
  · rcases hy with h | h | h <;> subst h <;> simp
  · subst hy; simp

theorem parallel_quiet {level : Level} {name : Str} {n : Nat} {l : List Shown} (hq : level > levelWarn) (h : Parallel level name n l) : l = [] := by
  obtain ⟨s, hs, _, rfl⟩ := h
  rw [(C60_progress level [n] n (by simp) s hs).2.1 hq]
  rfl

theorem chunks_onlyIndex (disk : Disk) (c : Bytes) (ms : List Index.Message) : OnlyIndex (chunks disk c ms) := by
  induction ms generalizing c with
  | nil => intro x hx; simp [chunks] at hx
  | cons m ms ih =>
    intro x hx
    simp only [chunks, List.mem_cons] at hx
    rcases hx with h | h
    · exact ⟨_, h⟩
    · exact ih _ x h

theorem chunks_content (disk : Disk) (c : Bytes) (ms : List Index.Message) :
    ms.foldl (fun c m => c ++ appended disk c m) c = c ++ indexPart (chunks disk c ms) := by
  induction ms generalizing c with
  | nil => simp [chunks, indexPart]
  | cons m ms ih => rw [List.foldl_cons, ih]; simp [chunks, indexPart]

theorem content_append (disk : Disk) (a b : List Index.Message) :
    contentAfter disk (a ++ b) = contentAfter disk a ++ indexPart (chunks disk (contentAfter disk a) b) := by
  unfold contentAfter
  rw [List.foldl_append, chunks_content]

/-- The third list is an interleaving of the first two. -/
inductive Shuffle {α : Type} : List α → List α → List α → Prop where
  | nil : Shuffle [] [] []
  | left {a : α} {as bs cs : List α} : Shuffle as bs cs → Shuffle (a :: as) bs (a :: cs)
  | right {b : α} {as bs cs : List α} : Shuffle as bs cs → Shuffle as (b :: bs) (b :: cs)

theorem shuffle_left {α : Type} {a b c : List α} (h : Shuffle a b c) (x : List α) : Shuffle (a ++ x) b (c ++ x) := by
  induction h with
  | nil =>
    induction x with
    | nil => exact .nil
    | cons y x ih => exact .left ih
  | left _ ih => exact .left ih
  | right _ ih => exact .right ih

theorem shuffle_right {α : Type} {a b c : List α} (h : Shuffle a b c) (x : List α) : Shuffle a (b ++ x) (c ++ x) := by
  induction h with
  | nil =>
    induction x with
    | nil => exact .nil
    | cons y x ih => exact .right ih
  | left _ ih => exact .left ih
  | right _ ih => exact .right ih

/-- What the working goroutine writes and what the progress shows is shuffled. -/
theorem writing_shuffle {level : Level} {name : Str} {n : Nat} {todo : List Shown} {s : Progress.State} {rest shown : List Shown}
    (h : Writing level name n todo s rest shown) : Progress.Reachable level [n] n s ∧
      ∃ written, todo = written ++ rest ∧ Shuffle (s.out.flatMap (ofLine name)) written shown := by
  induction h with
  | start => exact ⟨.start, [], rfl, .nil⟩
  | @write s m rest shown _ _ ih =>
    obtain ⟨h1, w, h2, h3⟩ := ih
    exact ⟨h1, w ++ [m], by rw [h2]; simp, shuffle_right h3 [m]⟩
  | step _ hst _ ho ih =>
    obtain ⟨h1, w, h2, h3⟩ := ih
    refine ⟨.step h1 hst, w, h2, ?_⟩
    rw [ho, List.flatMap_append]
    exact shuffle_left h3 _

theorem parallelWriting_shuffle {level : Level} {name : Str} {n : Nat} {todo shown : List Shown} (h : ParallelWriting level name n todo shown) :
    ∃ lines, Parallel level name n lines ∧ Shuffle lines todo shown := by
  obtain ⟨s, h1, h2⟩ := h
  obtain ⟨h3, w, h4, h5⟩ := writing_shuffle h1
  rw [List.append_nil] at h4
  subst h4
  exact ⟨_, ⟨s, h3, h2, rfl⟩, h5⟩

/-- Once all working goroutines are done there is nothing left to write. -/
theorem writing_done {level : Level} {name : Str} {n : Nat} {todo : List Shown} {s : Progress.State} {rest shown : List Shown}
    (h : Writing level name n todo s rest shown) (hd : ∀ w ∈ s.workers, w.done = true) : rest = [] := by
  induction h with
  | start => exact absurd (hd ⟨n, false⟩ (by simp [Progress.start])) (by simp)
  | write _ hw ih =>
    obtain ⟨k, hw⟩ := hw
    exact absurd (hd ⟨k, false⟩ (by simp [hw])) (by simp)
  | step _ _ hr _ _ => exact hr hd

/-- The last count, the time and the end of the line come after all that the working goroutine writes. -/
theorem writing_end {level : Level} {name : Str} {n : Nat} {todo : List Shown} {s : Progress.State} {rest shown : List Shown}
    (h : Writing level name n todo s rest shown) (hr : s.pc = .returned) (hl : level ≤ levelWarn) :
    rest = [] ∧ ∃ (lines : List Progress.Line) (elapsed : Int) (before : List Shown), Shuffle (lines.flatMap (ofLine name)) todo before ∧ (∀ l ∈ lines, ∃ c, l = Progress.Line.progress c n) ∧
      shown = before ++ ([Progress.Line.progress n n] ++ (if level < levelWarn then [Progress.Line.finished (humanElapsed elapsed)] else []) ++ [Progress.Line.newline]).flatMap (ofLine name) := by
  induction h with
  | start => simp [Progress.start] at hr
  | write h hw ih =>
    obtain ⟨h1, _⟩ := ih hr
    simp at h1
  | @step s s' rest shown lines h hst hdone ho ih =>
    have hreach := (writing_shuffle h).1
    have hok := Progress.reachable_ok (tasks := [n]) (by simp) hreach
    by_cases hs : s.pc = .returned
    · obtain ⟨h1, h2⟩ := ih hs
      have hout := (C60_silent_after_return level n s s' hs hst).2
      have hlines : lines = [] := by
        rw [hout] at ho
        exact List.self_eq_append_right.1 ho
      subst hlines
      exact ⟨h1, by simpa using h2⟩
    · cases hst with
      | finish elapsed hpc hc =>
        have hwd : ∀ w ∈ s.workers, w.done = true := Progress.unfinished_zero (by rw [← hok.wg]; exact hok.closed hc)
        have hrest := writing_done h hwd
        subst hrest
        obtain ⟨_, w, hw, hsh⟩ := writing_shuffle h
        rw [List.append_nil] at hw
        subst hw
        obtain ⟨cs, hcs, _⟩ := ((C60_progress level [n] n (by simp) s hreach).2.2.1 hs)
        refine ⟨rfl, s.out, elapsed, shown, hsh, ?_, ?_⟩
        · intro l hl
          rw [hcs] at hl
          obtain ⟨c, _, rfl⟩ := List.mem_map.1 hl
          exact ⟨c, rfl⟩
        · simp only [List.append_assoc, List.append_cancel_left_eq] at ho
          rw [← ho]
          simp only [List.append_assoc]
      | quietReturn hq hpc hwg => unfold Level at *; omega
      | _ => simp_all

theorem shuffle_parts {a b c : List Shown} (h : Shuffle a b c) (ha : NoIndex a) : indexPart c = indexPart b := by
  induction h with
  | nil => rfl
  | @left x as bs cs _ ih =>
    have := ih fun y hy => ha y (by simp [hy])
    cases x with
    | message m => exact absurd rfl (ha _ (by simp) m)
    | text s => exact this
    | time d => exact this
  | @right x as bs cs _ ih =>
    have := ih ha
    cases x <;> simp [indexPart, this]

theorem shuffle_nil {a b c : List Shown} (h : Shuffle a b c) (ha : a = []) : c = b := by
  induction h with
  | nil => rfl
  | left _ _ => simp at ha
  | right _ ih => rw [ih ha]

theorem whole_quiet {disk : Disk} {level : Level} {skip : Bool} {loaded : Except Str (GoMap Index.Package × GoMap Index.Package)} {r : Index.Run}
    {shown : List Shown} (hq : level > levelWarn) (h : Whole disk level skip loaded r shown) : OnlyIndex shown := by
  unfold Whole at h
  split at h
  · subst h; intro x hx; simp at hx
  · split at h
    · subst h; exact chunks_onlyIndex _ _ _
    · obtain ⟨elapsed, h⟩ := h
      cases loaded with
      | error e =>
        simp only at h
        rw [h, loading, task_quiet hq, List.append_nil]
        exact chunks_onlyIndex _ _ _
      | ok x =>
        obtain ⟨project, all⟩ := x
        obtain ⟨v, i, mixed, total, hv, hi, hm, rfl⟩ := h
        obtain ⟨f, hf, hm⟩ := parallelWriting_shuffle hm
        have e1 := parallel_quiet hq hv
        have e2 : i = [] := by
          split at hi
          · exact hi
          · exact parallel_quiet hq hi
        have e3 := shuffle_nil hm (parallel_quiet hq hf)
        rw [e1, e2, e3, loading, task_quiet hq]
        simp only [List.append_nil]
        exact onlyIndex_append (onlyIndex_append (chunks_onlyIndex _ _ _) (chunks_onlyIndex _ _ _)) (chunks_onlyIndex _ _ _)

theorem indexing_quiet {disk : Disk} {level : Level} {skip : Bool} {loaded : Except Str (GoMap Index.Package × GoMap Index.Package)}
    {r : Index.Run} {shown : List Shown} (hq : level > levelWarn) (h : Indexing disk level skip loaded r shown) : OnlyIndex shown := by
  unfold Indexing at h
  split at h
  · obtain ⟨whole, h1, h2⟩ := h
    exact fun x hx => whole_quiet hq h1 x (h2.subset hx)
  · exact whole_quiet hq h

/-- If a run of `Index` is described, the bytes of the index in it are the content written. -/
theorem whole_content {disk : Disk} {level : Level} {skip : Bool} {loaded : Except Str (GoMap Index.Package × GoMap Index.Package)}
    {D : Index.Deps} {o : Index.Opts} {ord : Index.MapOrders} {shown : List Shown}
    (h : Whole disk level skip loaded (Index.index D o ord (writer disk) loaded) shown) :
    indexPart shown = contentAfter disk (Index.index D o ord (writer disk) loaded).messages := by
  have hlater := (C50_write_failure D o ord (writer disk) loaded).2.1
  have herr : ∀ e, loaded = .error e → (Index.index D o ord (writer disk) loaded).messages.length ≤ 1 := by
    intro e he
    subst he
    unfold Index.index
    simp only
    split <;> simp
  generalize Index.index D o ord (writer disk) loaded = r at *
  unfold Whole at h
  split at h
  · rename_i hm; rw [hm, h]; rfl
  · rename_i m rest hm
    rw [hm]
    have hone : ∀ (a : Index.Message) l, contentAfter disk (a :: l) =
        indexPart (chunks disk [] [a]) ++ indexPart (chunks disk (contentAfter disk [a]) l) := by
      intro a l
      have := content_append disk [a] l
      rw [List.singleton_append] at this
      rw [this]
      simp [contentAfter, chunks, indexPart]
    split at h
    · rename_i e hw
      have : rest = [] := by
        by_contra hne
        have := hlater [] m rest hm hne
        rw [hw] at this; simp at this
      subst this
      rw [h, hone]
      simp [chunks, indexPart]
    · obtain ⟨elapsed, h⟩ := h
      cases loaded with
      | error e =>
        have : rest = [] := by
          have := herr e rfl
          rw [hm] at this
          simpa using this
        subst this
        simp only at h
        rw [h, indexPart_append, loading, indexPart_none (task_noIndex _ _ _), hone]
        simp [chunks, indexPart]
      | ok x =>
        obtain ⟨project, all⟩ := x
        obtain ⟨v, i, mixed, total, hv, hi, hmix, rfl⟩ := h
        obtain ⟨f, hf, hmix⟩ := parallelWriting_shuffle hmix
        have hi' : indexPart i = [] := by
          split at hi
          · rw [hi]; rfl
          · exact indexPart_none (parallel_noIndex hi)
        simp only [indexPart_append]
        rw [loading, indexPart_none (task_noIndex _ _ _), indexPart_none (parallel_noIndex hv), hi',
          shuffle_parts hmix (parallel_noIndex hf)]
        simp only [List.append_nil]
        rw [← hone, ← content_append, List.cons_append, List.takeWhile_append_dropWhile]

theorem indexing_noIndex (l : List Shown) : NoIndex (l.filter isProgress) := by
  intro x hx b he
  subst he
  simp [isProgress] at hx

/-- The first byte of a message of an index is the tag of field 1, 2 or 3. -/
theorem marshalled_first {ms : List Index.Message} {bs : List Bytes} (h : Spec.Marshalled ms bs) :
    bs.flatten = [] ∨ ∃ c rest, bs.flatten = c :: rest ∧ (c = 10 ∨ c = 18 ∨ c = 26) := by
  cases h with
  | nil => exact .inl rfl
  | @cons m b ms bs hm _ =>
    right
    have hb : b = encodeFields (indexOf m).fields := by
      unfold marshal at hm
      split at hm
      · simpa using hm.symm
      · simp at hm
    have h1 : encodeVarint (1 * 8 + 2) = [10] := by simp [encodeVarint]
    have h2 : encodeVarint (2 * 8 + 2) = [18] := by simp [encodeVarint]
    have h3 : encodeVarint (3 * 8 + 2) = [26] := by simp [encodeVarint]
    rw [hb]
    cases m with
    | metadata x =>
      suffices ∃ l, (encodeFields (indexOf (.metadata x)).fields :: bs).flatten = 10 :: l from
        this.elim fun l h => ⟨_, l, h, .inl rfl⟩
      simp only [indexOf, Pb.Index.fields, fMsg, fMsgs, Option.toList, List.map_cons, List.map_nil, List.append_nil, encodeFields, List.flatMap_cons,
        List.flatMap_nil, encodeField, wireType, h1, List.flatten_cons, List.cons_append, List.nil_append]
      exact ⟨_, rfl⟩
    | document p os ss =>
      suffices ∃ l, (encodeFields (indexOf (.document p os ss)).fields :: bs).flatten = 18 :: l from
        this.elim fun l h => ⟨_, l, h, .inr (.inl rfl)⟩
      simp only [indexOf, Pb.Index.fields, fMsg, fMsgs, Option.toList, List.map_cons, List.map_nil, List.append_nil, encodeFields, List.flatMap_cons,
        List.flatMap_nil, encodeField, wireType, h2, List.flatten_cons, List.cons_append, List.nil_append]
      exact ⟨_, rfl⟩
    | external y rs =>
      suffices ∃ l, (encodeFields (indexOf (.external y rs)).fields :: bs).flatten = 26 :: l from
        this.elim fun l h => ⟨_, l, h, .inr (.inr rfl)⟩
      simp only [indexOf, Pb.Index.fields, fMsg, fMsgs, Option.toList, List.map_cons, List.map_nil, List.append_nil, encodeFields, List.flatMap_cons,
        List.flatMap_nil, encodeField, wireType, h3, List.flatten_cons, List.cons_append, List.nil_append]
      exact ⟨_, rfl⟩

end Stdout
open Stdout

/-- The options without the log level. -/
def Spec.optionsOf : Res (IndexOpts × Level) → Res IndexOpts
  | .ok (o, _) => .ok o
  | .error e => .error e
  | .crash => .crash

/-- **C89.** The bytes of the index on standard output are, for the output `-`, exactly what the run has written, in order; for another output
there are none. -/
theorem C89_index_part (D : Index.Deps) (ord : Index.MapOrders) (load : IndexOpts → Except Str (GoMap Index.Package × GoMap Index.Package))
    (S : Surroundings) (sh : SharedFlags) (W : World) (profile : Int) (output : Str) (before : Target) (shown : List Shown)
    (h : Command S sh W profile output load (indexingOf D ord load) shown) :
    let r := Cmd.run W profile output (Spec.optionsOf (makeOptions S sh)) (indexingOf D ord load) before
    (output = go!"-" → r.exit ≠ .crash → Spec.indexPart shown = r.piped) ∧ (output ≠ go!"-" → Spec.NoIndex shown ∧ r.piped = []) := by
  intro r
  have hr : r = Cmd.run W profile output (Spec.optionsOf (makeOptions S sh)) (indexingOf D ord load) before := rfl
  clear_value r
  unfold Command at h
  unfold Cmd.run at hr
  split at h
  · rename_i e hp
    rw [hp] at hr
    subst h hr
    exact ⟨fun _ _ => rfl, fun _ => ⟨by intro x hx; simp at hx, rfl⟩⟩
  · rename_i hp
    rw [hp] at hr
    simp only at hr
    obtain ⟨elapsed, h⟩ := h
    cases hm : makeOptions S sh with
    | error e =>
      rw [hm] at h hr
      simp only [Spec.optionsOf] at h hr
      subst h hr
      exact ⟨fun _ _ => indexPart_none (options_noIndex _ _ _), fun _ => ⟨options_noIndex _ _ _, rfl⟩⟩
    | crash =>
      rw [hm] at h hr
      simp only [Spec.optionsOf] at h hr
      subst h hr
      exact ⟨fun _ _ => indexPart_none (options_noIndex _ _ _), fun _ => ⟨options_noIndex _ _ _, rfl⟩⟩
    | ok x =>
      obtain ⟨o, level⟩ := x
      rw [hm] at h hr
      simp only [Spec.optionsOf] at h hr
      by_cases ho : output = go!"-"
      · rw [if_pos ho] at h hr
        refine ⟨fun _ hc => ?_, fun hne => absurd ho hne⟩
        obtain ⟨l, hl, rfl⟩ := h
        rw [Stdout.indexPart_append, indexPart_none (options_noIndex _ _ _), List.nil_append]
        have hcr : (indexingOf D ord load o (writer W.disk)).outcome ≠ .crash := by
          intro hx
          rw [hx] at hr
          rw [hr] at hc
          exact hc rfl
        unfold Indexing at hl
        rw [if_neg hcr] at hl
        have := whole_content (D := D) (o := ⟨o.moduleRoot, o.moduleVersion, o.skipImplementations, o.arguments⟩) (ord := ord) hl
        rw [this, hr]
        split <;> rfl
      · rw [if_neg ho] at h hr
        refine ⟨fun he => absurd he ho, fun _ => ?_⟩
        cases hc : W.create with
        | some e =>
          rw [hc] at h hr
          simp only at h hr
          subst h hr
          exact ⟨options_noIndex _ _ _, rfl⟩
        | none =>
          rw [hc] at h hr
          simp only at h hr
          obtain ⟨l, _, rfl⟩ := h
          refine ⟨noIndex_append (options_noIndex _ _ _) (indexing_noIndex _), ?_⟩
          rw [hr]
          split <;> rfl

/-- **C89**, as far as it holds: with `--quiet` nothing but the index goes to standard output, so that the bytes there are exactly those of
the index (for the output `-`), or none.  (Without `--quiet` this fails: `C89_progress_in_output`.) -/
theorem C89_standard_output_partial (D : Index.Deps) (ord : Index.MapOrders)
    (load : IndexOpts → Except Str (GoMap Index.Package × GoMap Index.Package)) (showTime : Int → Str)
    (S : Surroundings) (sh : SharedFlags) (W : World) (profile : Int) (output : Str) (before : Target) (shown : List Shown)
    (hq : sh.quiet = true) (h : Command S sh W profile output load (indexingOf D ord load) shown) :
    let r := Cmd.run W profile output (Spec.optionsOf (makeOptions S sh)) (indexingOf D ord load) before
    Spec.OnlyIndex shown ∧ (r.exit ≠ .crash → render showTime shown = r.piped) ∧ (output ≠ go!"-" → render showTime shown = []) := by
  intro r
  have honly : Spec.OnlyIndex shown := by
    unfold Command at h
    split at h
    · subst h; intro x hx; simp at hx
    · obtain ⟨elapsed, h⟩ := h
      rw [options_quiet S sh elapsed hq] at h
      cases hm : makeOptions S sh with
      | error e => rw [hm] at h; simp only at h; subst h; intro x hx; simp at hx
      | crash => rw [hm] at h; simp only at h; subst h; intro x hx; simp at hx
      | ok x =>
        obtain ⟨o, level⟩ := x
        have hl : level > levelWarn := by
          have hg : getLogLevel sh.quiet sh.verbose = some levelError := by simp [getLogLevel, hq]
          unfold makeOptions at hm
          rw [hg] at hm
          simp only at hm
          split at hm
          · simp at hm
          · split at hm
            · simp at hm
            · simp at hm
            · simp only [Res.ok.injEq, Prod.mk.injEq] at hm
              rw [← hm.2]; decide
        rw [hm] at h
        simp only at h
        split at h
        · obtain ⟨l, hl', rfl⟩ := h
          exact indexing_quiet hl hl'
        · split at h
          · subst h; intro x hx; simp at hx
          · obtain ⟨l, hl', rfl⟩ := h
            exact fun x hx => indexing_quiet hl hl' x (List.mem_filter.1 (by simpa using hx)).1
  obtain ⟨h1, h2⟩ := C89_index_part D ord load S sh W profile output before shown h
  refine ⟨honly, fun hc => ?_, fun hne => ?_⟩
  · rw [render_onlyIndex showTime honly]
    by_cases ho : output = go!"-"
    · exact h1 ho hc
    · rw [indexPart_none (h2 ho).1]; exact (h2 ho).2.symm
  · rw [render_onlyIndex showTime honly, indexPart_none (h2 hne).1]

/-- **C89** is false without `--quiet`: standard output always begins with a progress line (if the flags are taken at all), and so is never an
index, not even one of another project: with the output `-` it cannot be read as an index as it is. -/
theorem C89_progress_in_output (load : IndexOpts → Except Str (GoMap Index.Package × GoMap Index.Package)) (showTime : Int → Str)
    (indexing : IndexOpts → Index.Writer → Index.Run)
    (S : Surroundings) (sh : SharedFlags) (W : World) (profile : Int) (output : Str) (shown : List Shown)
    (hq : sh.quiet = false) (hv : 0 ≤ sh.verbose) (root : Str) (hroot : S.abs sh.moduleRoot = .ok root) (hp : 0 < profile → W.createProfile = none)
    (h : Command S sh W profile output load indexing shown) :
    (∃ rest, render showTime shown = Pb.bytes go!"Resolving module name\n" ++ rest) ∧
    ∀ ms bs, Spec.Marshalled ms bs → render showTime shown ≠ bs.flatten := by
  obtain ⟨level, hl, hle⟩ : ∃ level, getLogLevel sh.quiet sh.verbose = some level ∧ level ≤ levelWarn := by
    rw [hq]
    exact C61_log_level.1 _ hv
  have hopt : ∀ elapsed, ∃ l, options S sh elapsed = .text go!"Resolving module name\n" :: l := by
    intro elapsed
    unfold Stdout.options
    rw [hroot]
    simp only [hl]
    have hn : ¬ level > levelWarn := by unfold Level at *; omega
    split
    · exact ⟨[], by rw [if_neg hn]⟩
    · unfold task withProgress
      rw [if_neg hn]
      split
      · exact ⟨_, rfl⟩
      · exact ⟨_, rfl⟩
  have hstart : ∃ l, shown = .text go!"Resolving module name\n" :: l := by
    unfold Command at h
    have hprof : (if profile > 0 then W.createProfile else none) = none := by
      split
      · rename_i h; exact hp h
      · rfl
    rw [hprof] at h
    obtain ⟨elapsed, h⟩ := h
    obtain ⟨l, hl⟩ := hopt elapsed
    rw [hl] at h
    split at h
    · exact ⟨_, h⟩
    · exact ⟨_, h⟩
    · split at h
      · obtain ⟨l', _, h⟩ := h; exact ⟨_, h⟩
      · split at h
        · exact ⟨_, h⟩
        · obtain ⟨l', _, h⟩ := h; exact ⟨_, h⟩
  obtain ⟨l, rfl⟩ := hstart
  refine ⟨⟨render showTime l, rfl⟩, fun ms bs hms he => ?_⟩
  have hb : render showTime (.text go!"Resolving module name\n" :: l) = 82 :: (Pb.bytes go!"esolving module name\n" ++ render showTime l) := rfl
  rw [hb] at he
  rcases marshalled_first hms with h0 | ⟨c, rest, h0, hc⟩
  · rw [h0] at he; simp at he
  · rw [h0] at he
    simp only [List.cons.injEq] at he
    rcases hc with hc | hc | hc <;> rw [hc] at he <;> exact absurd he.1 (by decide)

/-! ## C76: everything that the listing commands print -/

/-- The text on standard output. -/
def Spec.textOf (showTime : Int → Str) : List Shown → Str
  | [] => []
  | .text s :: l => s ++ textOf showTime l
  | .time d :: l => showTime d ++ textOf showTime l
  | .message _ :: l => textOf showTime l

/-- The lines that announce a task: none in quiet mode, its name by default, a time and an empty line with more verbosity. -/
def Spec.taskLines (level : Level) (name : Str) (time : Str) : List Str :=
  if level > levelWarn then [] else if level < levelWarn then [name, go!"Finished in " ++ time ++ go!".", []] else [name]

namespace Stdout

theorem textOf_append (showTime : Int → Str) (a b : List Shown) : Spec.textOf showTime (a ++ b) = Spec.textOf showTime a ++ Spec.textOf showTime b := by
  induction a with
  | nil => rfl
  | cons x a ih => cases x <;> simp [Spec.textOf, ih]

end Stdout

/-- A progress line: carriage return, the name of the task, how many are done and how many there are, in decimal. -/
def Spec.progressLine (name : Str) (c n : Nat) : Str :=
  go!"\r" ++ name ++ go!" [" ++ (Nat.repr c).toList ++ go!"/" ++ (Nat.repr n).toList ++ go!"]"

/-- **C60**, the text: whatever the schedule, `WithProgressParallel` prints nothing in quiet mode, and otherwise one line that is rewritten
in place (carriage returns only): counts that never decrease, at last the full count, then with more verbosity than by default a time, and
the end of the line. -/
theorem C60_text (level : Level) (name : Str) (n : Nat) (shown : List Shown) (showTime : Int → Str) (h : Parallel level name n shown) :
    (level > levelWarn → shown = []) ∧
    (level ≤ levelWarn → ∃ (cs : List Nat) (elapsed : Int), cs ≠ [] ∧ (cs ++ [n]).Pairwise (· ≤ ·) ∧
      Spec.textOf showTime shown = (cs ++ [n]).flatMap (Spec.progressLine name · n) ++
        (if level < levelWarn then go!" Finished in " ++ showTime (humanElapsed elapsed) ++ go!"." else []) ++ go!"\n") := by
  obtain ⟨s, hs, hr, rfl⟩ := h
  obtain ⟨h1, h2, _, _⟩ := C60_progress level [n] n (by simp) s hs
  refine ⟨fun hl => by rw [h2 hl]; rfl, fun hl => ?_⟩
  obtain ⟨cs, elapsed, hne, hp, ho⟩ := (h1 hr).2.2 hl
  refine ⟨cs, elapsed, hne, hp, ?_⟩
  have hline : ∀ c, Spec.textOf showTime (ofLine name (.progress c n)) = Spec.progressLine name c n := by
    intro c
    simp only [ofLine, Spec.textOf, Spec.progressLine, natDigits_eq_repr, List.append_nil]
  have hlines : ∀ l : List Nat, Spec.textOf showTime ((l.map (Progress.Line.progress · n)).flatMap (ofLine name)) = l.flatMap (Spec.progressLine name · n) := by
    intro l
    induction l with
    | nil => rfl
    | cons c l ih => rw [List.map_cons, List.flatMap_cons, textOf_append, hline, ih, List.flatMap_cons]
  rw [ho]
  have e : cs.map (Progress.Line.progress · n) ++ [.progress n n] = (cs ++ [n]).map (Progress.Line.progress · n) := by simp
  rw [e, List.flatMap_append, List.flatMap_append, textOf_append, textOf_append, hlines]
  congr 2
  split <;> simp [ofLine, Spec.textOf]

namespace Stdout

theorem chunks_marshalled (disk : Disk) (pre ms : List Index.Message) (h : ∀ a m b, ms = a ++ m :: b → writer disk (pre ++ a) m = none) :
    ∃ bs, Spec.Marshalled ms bs ∧ chunks disk (contentAfter disk pre) ms = bs.map Shown.message := by
  induction ms generalizing pre with
  | nil => exact ⟨[], .nil, rfl⟩
  | cons m ms ih =>
    have hw := h [] m ms rfl
    rw [List.append_nil] at hw
    obtain ⟨bs, h1, h2⟩ := ih (pre ++ [m]) (fun a m' b e => by
      have := h (m :: a) m' b (by rw [e]; rfl)
      simpa using this)
    rw [contentAfter_snoc] at h2
    unfold writer at hw
    split at hw
    · simp at hw
    · rename_i b hb
      split at hw
      · rename_i hd
        have ha : appended disk (contentAfter disk pre) m = b := by simp [appended, hb, hd]
        refine ⟨b :: bs, .cons hb h1, ?_⟩
        rw [chunks, h2, ha]
        rfl
      · simp at hw

theorem takeWhile_documents {ds es : List Index.Message} (hd : ∀ m ∈ ds, Spec.isDocument m) (he : ∀ m ∈ es, Spec.isExternal m) :
    (ds ++ es).takeWhile isDocument = ds ∧ (ds ++ es).dropWhile isDocument = es := by
  induction ds with
  | nil =>
    cases es with
    | nil => exact ⟨rfl, rfl⟩
    | cons e es =>
      have := he e (by simp)
      cases e <;> first | exact this.elim | exact ⟨rfl, rfl⟩
  | cons d ds ih =>
    have h1 := hd d (by simp)
    obtain ⟨h2, h3⟩ := ih fun m hm => hd m (by simp [hm])
    cases d with
    | metadata => exact h1.elim
    | external => exact h1.elim
    | document p os ss =>
      have hx : isDocument (.document p os ss) = true := rfl
      simp only [List.cons_append, List.takeWhile_cons, List.dropWhile_cons, hx, if_true, h2, h3, and_self]

end Stdout

/-- The end of the progress of a task: the last count, with more verbosity than by default a time, and the end of the line. -/
def Spec.progressEnd (level : Level) (name : Str) (n : Nat) (time : Int) : List Shown :=
  [.text (Spec.progressLine name n n)] ++ (if level < levelWarn then [.text go!" Finished in ", .time time, .text go!"."] else []) ++ [.text go!"\n"]

/-- **C89**, what is mixed with what: with the output `-` and without `--quiet`, if the run succeeds, standard output is: progress without any byte
of the index; the metadata; progress without any byte of the index; the documents, in order, between progress lines of "Visiting Project Files";
then the end of this progress, when all documents are written; then the external symbols, one directly after the other. -/
theorem C89_order (D : Index.Deps) (ord : Index.MapOrders) (load : IndexOpts → Except Str (GoMap Index.Package × GoMap Index.Package))
    (S : Surroundings) (sh : SharedFlags) (W : World) (profile : Int) (shown : List Shown) (o : IndexOpts) (level : Level)
    (hp : 0 < profile → W.createProfile = none) (ho : makeOptions S sh = .ok (o, level)) (hl : level ≤ levelWarn)
    (hok : (indexingOf D ord load o (writer W.disk)).outcome = .ok)
    (h : Command S sh W profile go!"-" load (indexingOf D ord load) shown) :
    ∃ project all md ds es bmd bds bes before middle lines documents time, load o = .ok (project, all) ∧
      (indexingOf D ord load o (writer W.disk)).messages = .metadata md :: (ds ++ es) ∧
      (∀ m ∈ ds, Spec.isDocument m) ∧ (∀ m ∈ es, Spec.isExternal m) ∧
      Spec.Marshalled [.metadata md] [bmd] ∧ Spec.Marshalled ds bds ∧ Spec.Marshalled es bes ∧
      Spec.NoIndex before ∧ Spec.NoIndex middle ∧
      (∀ x ∈ lines, ∃ c, x = .text (Spec.progressLine go!"Visiting Project Files" c project.length)) ∧
      Shuffle lines (bds.map .message) documents ∧
      shown = before ++ [.message bmd] ++ middle ++ documents ++ Spec.progressEnd level go!"Visiting Project Files" project.length time ++ bes.map .message := by
  have hprof : (if profile > 0 then W.createProfile else none) = none := by
    split
    · rename_i h; exact hp h
    · rfl
  unfold Command at h
  rw [hprof] at h
  simp only at h
  obtain ⟨elapsed, h⟩ := h
  rw [ho] at h
  simp only [if_true] at h
  obtain ⟨l, hi, rfl⟩ := h
  have hwrites := (C50_write_failure D ⟨o.moduleRoot, o.moduleVersion, o.skipImplementations, o.arguments⟩ ord (writer W.disk) (load o)).2.2.2 hok
  obtain ⟨md, ds, es, hm, _, _, _, _, _, _, hds, hes, _⟩ := C49_message_order D ⟨o.moduleRoot, o.moduleVersion, o.skipImplementations, o.arguments⟩ ord
    (writer W.disk) (load o)
  obtain ⟨project, all, _, _, _, _, _, _, hload, _⟩ := C49_success_is_complete D ⟨o.moduleRoot, o.moduleVersion, o.skipImplementations, o.arguments⟩ ord
    (writer W.disk) (load o) hok
  have hwrites : ∀ a m b, (indexingOf D ord load o (writer W.disk)).messages = a ++ m :: b → writer W.disk a m = none := hwrites
  have hm : (indexingOf D ord load o (writer W.disk)).messages = .metadata md :: (ds ++ es) := hm
  unfold Indexing at hi
  rw [if_neg (by rw [hok]; simp)] at hi
  unfold Whole at hi
  rw [hm] at hi hwrites
  simp only at hi
  rw [hwrites [] (.metadata md) (ds ++ es) rfl] at hi
  obtain ⟨elapsed', hi⟩ := hi
  rw [hload] at hi
  simp only at hi
  obtain ⟨v, i, mixed, total, hv, hi', hmix, rfl⟩ := hi
  obtain ⟨e1, e2⟩ := takeWhile_documents hds hes
  rw [e1] at hmix
  obtain ⟨s, hs, hr⟩ := hmix
  obtain ⟨_, lines, d, before, h1, h2, rfl⟩ := writing_end hs hr hl
  obtain ⟨bm, hbm, cm⟩ := chunks_marshalled W.disk [] [.metadata md] (by
    intro a m b e
    cases a with
    | nil => simp only [List.nil_append, List.cons.injEq] at e; rw [← e.1]; exact hwrites [] _ _ rfl
    | cons x a => simp at e)
  obtain ⟨bds, hbds, cds⟩ := chunks_marshalled W.disk [.metadata md] ds (by
    intro a m b e
    exact hwrites (.metadata md :: a) m (b ++ es) (by rw [e]; simp))
  obtain ⟨bes, hbes, ces⟩ := chunks_marshalled W.disk (.metadata md :: ds) es (by
    intro a m b e
    exact hwrites (.metadata md :: (ds ++ a)) m b (by rw [e]; simp))
  obtain ⟨bmd, rfl⟩ : ∃ b, bm = [b] := by
    cases hbm with
    | cons _ h => cases h; exact ⟨_, rfl⟩
  rw [cds] at h1
  have hprog : ∀ c n, ofLine go!"Visiting Project Files" (.progress c n) = [.text (Spec.progressLine go!"Visiting Project Files" c n)] := by
    intro c n
    simp only [ofLine, Spec.progressLine, natDigits_eq_repr]
  refine ⟨project, all, md, ds, es, bmd, bds, bes, options S sh elapsed, loading level elapsed' ++ v ++ i, lines.flatMap (ofLine go!"Visiting Project Files"),
    before, humanElapsed d, hload, hm, hds, hes, hbm, hbds, hbes, options_noIndex _ _ _,
    noIndex_append (noIndex_append (task_noIndex _ _ _) (parallel_noIndex hv)) ?_, ?_, h1, ?_⟩
  · split at hi'
    · rw [hi']; intro x hx; simp at hx
    · exact parallel_noIndex hi'
  · intro x hx
    obtain ⟨y, hy, hx⟩ := List.mem_flatMap.1 hx
    obtain ⟨c, rfl⟩ := h2 y hy
    rw [hprog] at hx
    exact ⟨c, by simpa using hx⟩
  · have cm' : chunks W.disk [] [.metadata md] = [.message bmd] := cm
    rw [e1, e2, ces, cm']
    have hend : ([Progress.Line.progress project.length project.length] ++ (if level < levelWarn then [Progress.Line.finished (humanElapsed d)] else []) ++
        [Progress.Line.newline]).flatMap (ofLine go!"Visiting Project Files") = Spec.progressEnd level go!"Visiting Project Files" project.length (humanElapsed d) := by
      unfold Spec.progressEnd
      rw [List.flatMap_append, List.flatMap_append, List.flatMap_singleton, hprog]
      split <;> simp [ofLine]
    rw [hend]
    simp only [List.append_assoc]

/-- **C89**, another output: what is printed is a text that is also possible with the output `-` (there with the messages in between). -/
theorem C89_same_text (load : IndexOpts → Except Str (GoMap Index.Package × GoMap Index.Package)) (indexing : IndexOpts → Index.Writer → Index.Run)
    (S : Surroundings) (sh : SharedFlags) (W : World) (profile : Int) (output : Str) (showTime : Int → Str) (shown : List Shown)
    (hout : output ≠ go!"-") (hc : W.create = none) (h : Command S sh W profile output load indexing shown) :
    ∃ l, Command S sh W profile go!"-" load indexing l ∧ Spec.textOf showTime shown = Spec.textOf showTime l := by
  have hf : ∀ l : List Shown, Spec.textOf showTime (l.filter isProgress) = Spec.textOf showTime l := by
    intro l
    induction l with
    | nil => rfl
    | cons x l ih =>
      cases x with
      | text s => rw [List.filter_cons_of_pos (by rfl), Spec.textOf, Spec.textOf, ih]
      | time d => rw [List.filter_cons_of_pos (by rfl), Spec.textOf, Spec.textOf, ih]
      | message b => rw [List.filter_cons_of_neg (by simp [isProgress]), Spec.textOf, ih]
  unfold Command at h ⊢
  cases hp : (if profile > 0 then W.createProfile else none) with
  | some e => rw [hp] at h; exact ⟨shown, h, rfl⟩
  | none =>
    rw [hp] at h
    simp only at h ⊢
    obtain ⟨elapsed, h⟩ := h
    cases hm : makeOptions S sh with
    | error e => rw [hm] at h; exact ⟨shown, ⟨elapsed, h⟩, rfl⟩
    | crash => rw [hm] at h; exact ⟨shown, ⟨elapsed, h⟩, rfl⟩
    | ok x =>
      obtain ⟨o, level⟩ := x
      rw [hm] at h
      simp only [if_neg hout, hc] at h
      obtain ⟨l, hl, rfl⟩ := h
      refine ⟨Stdout.options S sh elapsed ++ l, ⟨elapsed, ?_⟩, ?_⟩
      · simp only [if_true]
        exact ⟨l, hl, rfl⟩
      · rw [textOf_append, textOf_append, hf]

namespace Stdout

theorem linesOf_task {showTime : Int → Str} (ht : ∀ d, '\n' ∉ showTime d) (level : Level) {name : Str} (hn : '\n' ∉ name) (d : Int) (s : Str) :
    Spec.linesOf (Spec.textOf showTime (task level name d) ++ s) = Spec.taskLines level name (showTime (humanElapsed d)) ++ Spec.linesOf s := by
  unfold task withProgress Spec.taskLines
  by_cases h : level > levelWarn
  · rw [if_pos h, if_pos h]; rfl
  · rw [if_neg h, if_neg h]
    by_cases h2 : level < levelWarn
    · rw [if_pos h2, if_pos h2]
      have e : Spec.textOf showTime ((((), [Piece.text (name ++ go!"\n")] ++ [Piece.text go!"Finished in ", .time (humanElapsed d), .text go!".\n\n"]) :
          Unit × List Piece).2.map ofPiece) ++ s =
          name ++ '\n' :: ((go!"Finished in " ++ showTime (humanElapsed d) ++ go!".") ++ '\n' :: ([] ++ '\n' :: s)) := by
        simp [Spec.textOf, ofPiece]
      rw [e, linesOf_line hn, linesOf_line (by simp [ht]), linesOf_line (by simp)]
      rfl
    · rw [if_neg h2, if_neg h2]
      have e : Spec.textOf showTime ((((), [Piece.text (name ++ go!"\n")]) : Unit × List Piece).2.map ofPiece) ++ s = name ++ '\n' :: s := by
        simp [Spec.textOf, ofPiece]
      rw [e, linesOf_line hn]
      rfl

theorem options_task {S : Surroundings} {sh : SharedFlags} {o : IndexOpts} {level : Level} (h : makeOptions S sh = .ok (o, level)) (d : Int) :
    options S sh d = task level go!"Resolving module name" d := by
  unfold makeOptions at h
  unfold Stdout.options
  split at h
  · simp at h
  · rename_i root hr
    split at h
    · simp at h
    · rename_i l hl
      rw [hl, hr]
      simp only
      split at h
      · simp at h
      · simp at h
      · rename_i p b hm
        simp only [Res.ok.injEq, Prod.mk.injEq] at h
        rw [hm]
        simp only [h.2]

end Stdout

/-- **C76**, all of standard output of the command `packages`: the lines that announce resolving the module name and loading (none with
`--quiet`), then a heading, the project's packages, a heading, all packages. -/
theorem C76_packages_output {env : Loader.Env} {opts : Loader.Opts} {g : Loader.Graph} {pkgs : Nat → Loader.PkgSt}
    {order : Nat → Nat → List Nat} {fuel : Nat} {l : Loader.Loaded} (ho : Loader.Spec.ValidOrder g order)
    (h : Loader.loadPackages env opts (some (g, pkgs)) order fuel = some (some l))
    (S : Surroundings) (sh : SharedFlags) (o : IndexOpts) (level : Level) (hS : makeOptions S sh = .ok (o, level))
    (load : IndexOpts → Except Str (GoMap (Option Loader.Kept) × GoMap Loader.Kept)) (hl : load o = .ok (l.project, l.st.all))
    (hline : ∀ k v, l.st.all.get k = some v → '\n' ∉ k) (showTime : Int → Str) (ht : ∀ d, '\n' ∉ showTime d) (e e' : Int) :
    ∃ current deps t t', Spec.linesOf (Spec.textOf showTime (listing S sh e e' fun x => packagesRun x (packagesOf load))) =
        Spec.taskLines level go!"Resolving module name" t ++ Spec.taskLines level go!"Loading Packages" t' ++
        [go!"Current packages"] ++ current ++ [go!"Dependency packages"] ++ deps ∧
      Spec.NoIndex (listing S sh e e' fun x => packagesRun x (packagesOf load)) ∧
      current.Pairwise (fun a b => Str.lt a b = true) ∧ deps.Pairwise (fun a b => Str.lt a b = true) ∧
      (∀ k, k ∈ current ↔ ∃ v, l.project.get k = some v) ∧ (∀ k, k ∈ deps ↔ ∃ v, l.st.all.get k = some v) := by
  obtain ⟨current, deps, h1, _, h2, h3, h4, h5⟩ := C76_packages_listing ho h o load hl hline
  refine ⟨current, deps, showTime (humanElapsed e), showTime (humanElapsed e'), ?_, ?_, h2, h3, h4, h5⟩
  · unfold Stdout.listing
    rw [hS]
    simp only [textOf_append]
    rw [options_task hS, List.append_assoc, linesOf_task ht _ (by decide), loading, linesOf_task ht _ (by decide), Spec.textOf, Spec.textOf,
      List.append_nil, h1]
    simp only [List.append_assoc]
  · unfold Stdout.listing
    rw [hS]
    refine noIndex_append (noIndex_append (options_noIndex _ _ _) (task_noIndex _ _ _)) ?_
    intro x hx
    simp only [List.mem_singleton] at hx
    subst hx
    simp

/-- With `--quiet` the listing commands print nothing but their listing. -/
theorem C76_quiet_output (showTime : Int → Str) (S : Surroundings) (sh : SharedFlags) (hq : sh.quiet = true) (body : Res IndexOpts → Listing) (e e' : Int) :
    Spec.textOf showTime (listing S sh e e' body) = (body (Spec.optionsOf (makeOptions S sh))).printed := by
  unfold Stdout.listing
  rw [options_quiet S sh e hq]
  cases hm : makeOptions S sh with
  | error _ => simp [Spec.textOf, Spec.optionsOf]
  | crash => simp [Spec.textOf, Spec.optionsOf]
  | ok x =>
    obtain ⟨o, level⟩ := x
    have hl : level > levelWarn := by
      have hg : getLogLevel sh.quiet sh.verbose = some levelError := by simp [getLogLevel, hq]
      unfold makeOptions at hm
      rw [hg] at hm
      simp only at hm
      split at hm
      · simp at hm
      · split at hm
        · simp at hm
        · simp at hm
        · simp only [Res.ok.injEq, Prod.mk.injEq] at hm
          rw [← hm.2]; decide
    simp [Spec.textOf, Spec.optionsOf, loading, task_quiet hl]

end Verif
