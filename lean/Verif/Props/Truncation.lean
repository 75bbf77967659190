import Verif.Props.Index
/-! # C50: a failing writer cuts the output off, and changes nothing else -/
namespace Verif
open Spec Index

theorem writeDocuments_done (D : Deps) (ord : MapOrders) (w : Writer) (heap : Impl.Heap) (docs : Docs) :
    ∀ (fs : List (Package × SourceFile)) (g : Global) (done : List Message), done <+: (writeDocuments D ord w heap docs fs g done).messages := by
  intro fs
  induction fs with
  | nil => intro g done; exact List.prefix_refl _
  | cons e fs ih =>
    intro g done
    obtain ⟨p, f⟩ := e
    unfold writeDocuments
    split
    · exact ih _ _
    · split
      · exact List.prefix_refl _
      · split
        · exact List.prefix_append _ _
        · exact (List.prefix_append _ _).trans (ih _ _)

theorem writeExternals_done (w : Writer) : ∀ (ms done : List Message), done <+: (writeExternals w ms done).messages := by
  intro ms
  induction ms with
  | nil => intro done; exact List.prefix_refl _
  | cons m ms ih =>
    intro done
    unfold writeExternals
    split
    · exact List.prefix_append _ _
    · exact (List.prefix_append _ _).trans (ih _)

theorem writeDocuments_cut (D : Deps) (ord : MapOrders) (w : Writer) (heap : Impl.Heap) (docs : Docs) :
    ∀ (fs : List (Package × SourceFile)) (g : Global) (done : List Message),
      let r := writeDocuments D ord w heap docs fs g done
      let r' := writeDocuments D ord (fun _ _ => none) heap docs fs g done
      r.messages <+: r'.messages ∧ ((∀ e, r.outcome ≠ .failed e) → r = r') := by
  intro fs
  induction fs with
  | nil => intro g done; exact ⟨List.prefix_refl _, fun _ => rfl⟩
  | cons e fs ih =>
    intro g done
    obtain ⟨p, f⟩ := e
    simp only
    unfold writeDocuments
    split
    · exact ih _ _
    · split
      · exact ⟨List.prefix_refl _, fun _ => rfl⟩
      · simp only
        split
        · exact ⟨writeDocuments_done _ _ _ _ _ _ _ _, fun h => absurd rfl (h _)⟩
        · exact ih _ _

theorem writeExternals_cut (w : Writer) : ∀ (ms done : List Message),
    let r := writeExternals w ms done
    let r' := writeExternals (fun _ _ => none) ms done
    r.messages <+: r'.messages ∧ ((∀ e, r.outcome ≠ .failed e) → r = r') := by
  intro ms
  induction ms with
  | nil => intro done; exact ⟨List.prefix_refl _, fun _ => rfl⟩
  | cons m ms ih =>
    intro done
    simp only
    unfold writeExternals
    simp only
    split
    · exact ⟨writeExternals_done _ _ _, fun h => absurd rfl (h _)⟩
    · exact ih _

/-- **C50.** Compared with a run in which every write succeeds, a failing write cuts the output off: what has been written is a beginning of
what would have been written, and if no write fails the runs are the same. -/
theorem C50_cut_off (D : Deps) (o : Opts) (ord : MapOrders) (w : Writer) (loaded : Except Str (GoMap Package × GoMap Package)) :
    let r := index D o ord w loaded
    let r' := index D o ord (fun _ _ => none) loaded
    r.messages <+: r'.messages ∧ ((∀ a m b, Written r a m b → w a m = none) → r = r') := by
  have docs_then : ∀ (w : Writer) (heap : Impl.Heap) (docs : Docs) (fs : List (Package × SourceFile)) (g : Global) (ex : List Message) (rd : Run),
      rd = writeDocuments D ord w heap docs fs g [.metadata (metadata D o)] →
      [.metadata (metadata D o)] <+: (match rd with | ⟨done, .ok⟩ => writeExternals w ex done | r => r : Run).messages := by
    intro w heap docs fs g ex rd hrd
    have := writeDocuments_done D ord w heap docs fs g [.metadata (metadata D o)]
    rw [← hrd] at this
    split
    · exact this.trans (writeExternals_done _ _ _)
    · exact this
  have first : [.metadata (metadata D o)] <+: (index D o ord (fun _ _ => none) loaded).messages := by
    unfold index
    simp only
    split
    · exact List.prefix_refl _
    · split
      · exact List.prefix_refl _
      · split
        · exact List.prefix_refl _
        · exact docs_then _ _ _ _ _ _ _ rfl
  have key : (index D o ord w loaded).messages <+: (index D o ord (fun _ _ => none) loaded).messages ∧
      ((∀ a m b e, Written (index D o ord w loaded) a m b → w a m ≠ some e) → index D o ord w loaded = index D o ord (fun _ _ => none) loaded) := by
    obtain ⟨c1, c2, c3, c4⟩ := C50_write_failure D o ord w loaded
    generalize hi : index D o ord (fun _ _ => none) loaded = r' at first ⊢
    generalize hr : index D o ord w loaded = r at c1 c2 c3 c4 ⊢
    unfold index at hr hi
    simp only at hr hi
    cases hw : w [] (.metadata (metadata D o)) with
    | some e =>
      simp only [hw] at hr
      subst hr
      exact ⟨first, fun h => absurd hw (h [] _ [] e rfl)⟩
    | none =>
      simp only [hw] at hr
      cases loaded with
      | error e =>
        simp only at hr hi
        rw [← hr, ← hi]
        exact ⟨List.prefix_refl _, fun _ => rfl⟩
      | ok pa =>
        obtain ⟨project, all⟩ := pa
        simp only at hr hi
        cases hv : indexVisitPackages o ord project all with
        | none =>
          simp only [hv] at hr hi
          rw [← hr, ← hi]
          exact ⟨List.prefix_refl _, fun _ => rfl⟩
        | some dg =>
          obtain ⟨docs, g⟩ := dg
          simp only [hv] at hr hi
          cases him : implementations D o ord project all g with
          | none =>
            simp only [him] at hr hi
            rw [← hr, ← hi]
            exact ⟨List.prefix_refl _, fun _ => rfl⟩
          | some x =>
            obtain ⟨g', heap, ex⟩ := x
            simp only [him] at hr hi
            have hcut := writeDocuments_cut D ord w heap docs (filesOf (sortedValues project)) g' [.metadata (metadata D o)]
            simp only at hcut
            generalize writeDocuments D ord w heap docs (filesOf (sortedValues project)) g' [.metadata (metadata D o)] = rd at hr hcut
            generalize writeDocuments D ord (fun _ _ => none) heap docs (filesOf (sortedValues project)) g' [.metadata (metadata D o)] = rd' at hi hcut
            obtain ⟨ms, out⟩ := rd
            cases out with
            | ok =>
              have := hcut.2 (by simp)
              subst this
              simp only at hr hi
              have hc := writeExternals_cut w ex ms
              simp only at hc
              rw [hr, hi] at hc
              refine ⟨hc.1, fun h => hc.2 fun e he => ?_⟩
              rcases c3 e he with ⟨a, m, hm, hwm⟩ | ⟨h1, _⟩
              · exact h a m [] e hm hwm
              · simp at h1
            | crash =>
              have := hcut.2 (by simp)
              subst this
              simp only at hr hi
              rw [← hr, ← hi]
              exact ⟨List.prefix_refl _, fun _ => rfl⟩
            | failed e =>
              simp only at hr
              subst hr
              refine ⟨?_, fun h => ?_⟩
              · have h1 := hcut.1
                obtain ⟨ms', out'⟩ := rd'
                cases out' with
                | ok => simp only at hi; rw [← hi]; exact h1.trans (writeExternals_done _ _ _)
                | crash => simp only at hi; rw [← hi]; exact h1
                | failed e' => simp only at hi; rw [← hi]; exact h1
              · exfalso
                rcases c3 e rfl with ⟨a, m, hm, hwm⟩ | ⟨h1, _⟩
                · exact h a m [] e hm hwm
                · simp at h1
  exact ⟨key.1, fun h => key.2 fun a m b e hm he => by rw [h a m b hm] at he; simp at he⟩

end Verif
