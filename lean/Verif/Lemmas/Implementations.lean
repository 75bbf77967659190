import Verif.Lemmas.Extract
/-! # Lemmas: the implementation pass on the heap -/
namespace Verif.Impl
open Verif Verif.Spec

/-- The pass relates description `r` of the type (or of one of its methods) to the symbol `x` of the interface (or of its
method of the same identity). -/
def Relates (E : Ext) (ty iface : ImplDef) (r : Ref) (x : Str) : Prop :=
  passes E ty iface = true ∧ ((r = ty.symbol.ref ∧ x = iface.symbol.sym) ∨
    ∃ id m, (id, m) ∈ iface.methods ∧ ∃ s, ty.methods.lookup id = some s ∧ s.ref = r ∧ x = m.sym)

/-- The descriptions of a type and its methods. -/
def Touches (ty : ImplDef) (r : Ref) : Prop := r = ty.symbol.ref ∨ ∃ e ∈ ty.methods, e.2.ref = r

theorem Relates.touches {E ty iface r x} (h : Relates E ty iface r x) : Touches ty r := by
  rcases h.2 with ⟨h, _⟩ | ⟨id, m, _, s, h1, h2, _⟩
  · exact .inl h
  · refine .inr ⟨(id, s), ?_, h2⟩
    clear h2
    generalize ty.methods = l at h1
    induction l with
    | nil => simp at h1
    | cons e l ih =>
      obtain ⟨k, v⟩ := e
      rw [List.lookup_cons] at h1
      split at h1
      · rename_i hk
        simp only [Option.some.injEq] at h1
        have : id = k := by simpa using hk
        subst h1; subst this; simp
      · exact List.mem_cons_of_mem _ (ih h1)

theorem mem_append_heap {h : Heap} {r r' : Ref} {y x : Str} :
    x ∈ (h.append r y) r' ↔ x ∈ h r' ∨ (r' = r ∧ x = y) := by
  unfold Heap.append Heap.set
  split
  · rename_i e; subst e; simp
  · rename_i e; simp [e]

theorem addMethods_mem (ty : ImplDef) (r : Ref) (x : Str) : ∀ (ms : List (Str × SymRef)) (h : Heap),
    x ∈ addMethods ty ms h r ↔ x ∈ h r ∨ ∃ id m, (id, m) ∈ ms ∧ ∃ s, ty.methods.lookup id = some s ∧ s.ref = r ∧ x = m.sym := by
  intro ms
  induction ms with
  | nil => intro h; simp [addMethods]
  | cons e ms ih =>
    obtain ⟨id, m⟩ := e
    intro h
    unfold addMethods
    cases hl : ty.methods.lookup id with
    | none =>
      simp only
      rw [ih]
      constructor
      · rintro (h' | ⟨i, n, h1, h2⟩)
        · exact .inl h'
        · exact .inr ⟨i, n, by simp [h1], h2⟩
      · rintro (h' | ⟨i, n, h1, s, h2, h3⟩)
        · exact .inl h'
        · rcases List.mem_cons.1 h1 with e | h1
          · simp only [Prod.mk.injEq] at e; rw [e.1, hl] at h2; simp at h2
          · exact .inr ⟨i, n, h1, s, h2, h3⟩
    | some s =>
      simp only
      rw [ih, mem_append_heap]
      constructor
      · rintro ((h' | ⟨rfl, rfl⟩) | ⟨i, n, h1, h2⟩)
        · exact .inl h'
        · exact .inr ⟨id, m, by simp, s, hl, rfl, rfl⟩
        · exact .inr ⟨i, n, by simp [h1], h2⟩
      · rintro (h' | ⟨i, n, h1, s', h2, h3, h4⟩)
        · exact .inl (.inl h')
        · rcases List.mem_cons.1 h1 with e | h1
          · simp only [Prod.mk.injEq] at e
            obtain ⟨rfl, rfl⟩ := e
            rw [hl] at h2; simp only [Option.some.injEq] at h2; subst h2
            exact .inl (.inr ⟨h3.symm, h4⟩)
          · exact .inr ⟨i, n, h1, s', h2, h3, h4⟩

theorem addInterfaces_mem (E : Ext) (ty : ImplDef) (r : Ref) (x : Str) : ∀ (vs : List IfaceVisit) (h : Heap),
    (∀ v ∈ vs, v.methods.Perm v.iface.methods) →
    (x ∈ addInterfaces E ty vs h r ↔ x ∈ h r ∨ ∃ v ∈ vs, Relates E ty v.iface r x) := by
  intro vs
  induction vs with
  | nil => intro h _; simp [addInterfaces]
  | cons v vs ih =>
    intro h hp
    have ih := fun h => ih h (fun w hw => hp w (by simp [hw]))
    unfold addInterfaces
    split
    · rename_i hps
      rw [ih, addMethods_mem, mem_append_heap]
      have : ∀ id m, (id, m) ∈ v.methods ↔ (id, m) ∈ v.iface.methods := fun id m => (hp v (by simp)).mem_iff
      simp only [this]
      constructor
      · rintro (((h' | h') | h') | ⟨w, hw, h'⟩)
        · exact .inl h'
        · exact .inr ⟨v, by simp, hps, .inl h'⟩
        · exact .inr ⟨v, by simp, hps, .inr h'⟩
        · exact .inr ⟨w, by simp [hw], h'⟩
      · rintro (h' | ⟨w, hw, h'⟩)
        · exact .inl (.inl (.inl h'))
        · rcases List.mem_cons.1 hw with rfl | hw
          · rcases h'.2 with h2 | h2
            · exact .inl (.inl (.inr h2))
            · exact .inl (.inr h2)
          · exact .inr ⟨w, hw, h'⟩
    · rename_i hps
      rw [ih]
      constructor
      · rintro (h' | ⟨w, hw, h'⟩)
        · exact .inl h'
        · exact .inr ⟨w, by simp [hw], h'⟩
      · rintro (h' | ⟨w, hw, h'⟩)
        · exact .inl h'
        · rcases List.mem_cons.1 hw with rfl | hw
          · exact absurd h'.1 hps
          · exact .inr ⟨w, hw, h'⟩

/-- A part of the pass that does not touch `r` leaves it alone. -/
theorem addMethods_frame (ty : ImplDef) (r : Ref) (hr : ¬ Touches ty r) : ∀ (ms : List (Str × SymRef)) (h : Heap),
    addMethods ty ms h r = h r := by
  intro ms
  induction ms with
  | nil => intro h; rfl
  | cons e ms ih =>
    obtain ⟨id, m⟩ := e
    intro h
    unfold addMethods
    cases hl : ty.methods.lookup id with
    | none => exact ih h
    | some s =>
      simp only
      rw [ih]
      unfold Heap.append Heap.set
      rw [if_neg]
      rintro rfl
      refine hr (.inr ⟨(id, s), ?_, rfl⟩)
      clear ih hr
      generalize ty.methods = l at hl
      induction l with
      | nil => simp at hl
      | cons e l ih =>
        obtain ⟨k, v⟩ := e
        rw [List.lookup_cons] at hl
        split at hl
        · rename_i hk
          simp only [Option.some.injEq] at hl
          have : id = k := by simpa using hk
          subst hl; subst this; simp
        · exact List.mem_cons_of_mem _ (ih hl)

theorem addInterfaces_frame (E : Ext) (ty : ImplDef) (r : Ref) (hr : ¬ Touches ty r) : ∀ (vs : List IfaceVisit) (h : Heap),
    addInterfaces E ty vs h r = h r := by
  intro vs
  induction vs with
  | nil => intro h; rfl
  | cons v vs ih =>
    intro h
    unfold addInterfaces
    split
    · rw [ih, addMethods_frame ty r hr]
      unfold Heap.append Heap.set
      rw [if_neg]
      exact fun e => hr (.inl e)
    · exact ih h

theorem canonMethods_mem (r : Ref) (x : Str) : ∀ (ms : List (Str × SymRef)) (h : Heap),
    x ∈ canonMethods ms h r ↔ x ∈ h r := by
  intro ms
  induction ms with
  | nil => intro h; rfl
  | cons e ms ih =>
    obtain ⟨id, m⟩ := e
    intro h
    unfold canonMethods
    rw [ih]
    unfold Heap.set
    split
    · rename_i e; rw [mem_canonicalize, e]
    · rfl

theorem canonMethods_sorted (r : Ref) : ∀ (ms : List (Str × SymRef)) (h : Heap),
    (StrictlySorted (h r) ∨ ∃ e ∈ ms, e.2.ref = r) → StrictlySorted (canonMethods ms h r) := by
  intro ms
  induction ms with
  | nil => intro h hs; simpa [canonMethods] using hs
  | cons e ms ih =>
    obtain ⟨id, m⟩ := e
    intro h hs
    unfold canonMethods
    apply ih
    by_cases hr : r = m.ref
    · left
      unfold Heap.set
      rw [if_pos hr]
      exact canonicalize_sorted _
    · rcases hs with hs | ⟨e, he, h'⟩
      · left
        unfold Heap.set
        rw [if_neg hr]; exact hs
      · rcases List.mem_cons.1 he with rfl | he
        · exact absurd h'.symm hr
        · exact .inr ⟨e, he, h'⟩

theorem canonMethods_frame (r : Ref) : ∀ (ms : List (Str × SymRef)) (h : Heap),
    (∀ e ∈ ms, e.2.ref ≠ r) → canonMethods ms h r = h r := by
  intro ms
  induction ms with
  | nil => intro h hs; rfl
  | cons e ms ih =>
    obtain ⟨id, m⟩ := e
    intro h hs
    unfold canonMethods
    rw [ih _ (fun e he => hs e (by simp [he]))]
    unfold Heap.set
    rw [if_neg]
    intro e; exact hs (id, m) (by simp) e.symm

/-- What a pass needs of its orders: methods are enumerated completely. -/
def MethodsOk (vs : List TypeVisit) : Prop :=
  ∀ v ∈ vs, v.canon.Perm v.ty.methods ∧ ∀ w ∈ v.ifaces, w.methods.Perm w.iface.methods

/-- One pass: members, sortedness, frame and counter. -/
theorem findImplementations_spec (E : Ext) : ∀ (vs : List TypeVisit) (h : Heap) (n : Nat), MethodsOk vs →
    (∀ r x, x ∈ (findImplementations E vs (h, n)).1 r ↔
      x ∈ h r ∨ ∃ v ∈ vs, ∃ w ∈ v.ifaces, Relates E v.ty w.iface r x) ∧
    (∀ r, (StrictlySorted (h r) ∨ ∃ v ∈ vs, Touches v.ty r) → StrictlySorted ((findImplementations E vs (h, n)).1 r)) ∧
    (∀ r, (∀ v ∈ vs, ¬ Touches v.ty r) → (findImplementations E vs (h, n)).1 r = h r) ∧
    (findImplementations E vs (h, n)).2 = n + vs.length := by
  intro vs
  induction vs with
  | nil =>
    intro h n _
    refine ⟨by simp [findImplementations], ?_, by simp [findImplementations], by simp [findImplementations]⟩
    intro r hr
    simpa [findImplementations] using hr
  | cons v vs ih =>
    intro h n hok
    obtain ⟨hcan, hmeth⟩ := hok v (by simp)
    obtain ⟨h1, hh1⟩ : ∃ h1, h1 = addInterfaces E v.ty v.ifaces h := ⟨_, rfl⟩
    obtain ⟨h2, hh2⟩ : ∃ h2, h2 = canonMethods v.canon (h1.set v.ty.symbol.ref (canonicalize (h1 v.ty.symbol.ref))) := ⟨_, rfl⟩
    have hstep : findImplementations E (v :: vs) (h, n) = findImplementations E vs (h2, n + 1) := by
      rw [findImplementations, ← hh1, ← hh2]
    obtain ⟨i1, i2, i3, i4⟩ := ih h2 (n + 1) (fun w hw => hok w (by simp [hw]))
    have hmem : ∀ r x, x ∈ h2 r ↔ x ∈ h r ∨ ∃ w ∈ v.ifaces, Relates E v.ty w.iface r x := by
      intro r x
      rw [← addInterfaces_mem E v.ty r x v.ifaces h hmeth, ← hh1, hh2, canonMethods_mem]
      unfold Heap.set
      split
      · rename_i e; rw [mem_canonicalize, e]
      · rfl
    have hframe : ∀ r, ¬ Touches v.ty r → h2 r = h r := by
      intro r hr
      rw [hh2, canonMethods_frame]
      · unfold Heap.set
        rw [if_neg (fun e => hr (.inl e)), hh1, addInterfaces_frame E v.ty r hr]
      · intro e he e'
        exact hr (.inr ⟨e, hcan.mem_iff.1 he, e'⟩)
    have hsort : ∀ r, Touches v.ty r → StrictlySorted (h2 r) := by
      intro r hr
      rw [hh2]
      apply canonMethods_sorted
      rcases hr with rfl | ⟨e, he, hr⟩
      · left
        unfold Heap.set
        rw [if_pos rfl]
        exact canonicalize_sorted _
      · exact .inr ⟨e, hcan.mem_iff.2 he, hr⟩
    rw [hstep]
    refine ⟨?_, ?_, ?_, ?_⟩
    · intro r x
      rw [i1, hmem]
      constructor
      · rintro ((h' | ⟨w, hw, h'⟩) | ⟨u, hu, h'⟩)
        · exact .inl h'
        · exact .inr ⟨v, by simp, w, hw, h'⟩
        · exact .inr ⟨u, by simp [hu], h'⟩
      · rintro (h' | ⟨u, hu, w, hw, h'⟩)
        · exact .inl (.inl h')
        · rcases List.mem_cons.1 hu with rfl | hu
          · exact .inl (.inr ⟨w, hw, h'⟩)
          · exact .inr ⟨u, hu, w, hw, h'⟩
    · intro r hr
      apply i2
      by_cases ht : Touches v.ty r
      · exact .inl (hsort r ht)
      · rcases hr with hr | ⟨u, hu, hr⟩
        · left; rw [hframe r ht]; exact hr
        · rcases List.mem_cons.1 hu with rfl | hu
          · exact absurd hr ht
          · exact .inr ⟨u, hu, hr⟩
    · intro r hr
      rw [i3 r (fun u hu => hr u (by simp [hu])), hframe r (hr v (by simp))]
    · rw [i4]; simp; omega

/-- One pass over all pairs of two maps. -/
theorem pass_spec (E : Ext) {cs ifs : List (Str × ImplDef)} {vs : List TypeVisit} (hv : Enumerates cs ifs vs)
    (h : Heap) (n : Nat) :
    (∀ r x, x ∈ (findImplementations E vs (h, n)).1 r ↔
      x ∈ h r ∨ ∃ c ∈ cs, ∃ i ∈ ifs, Relates E c.2 i.2 r x) ∧
    (∀ r, (StrictlySorted (h r) ∨ ∃ c ∈ cs, Touches c.2 r) → StrictlySorted ((findImplementations E vs (h, n)).1 r)) ∧
    (∀ r, (∀ c ∈ cs, ¬ Touches c.2 r) → (findImplementations E vs (h, n)).1 r = h r) ∧
    (findImplementations E vs (h, n)).2 = n + cs.length := by
  obtain ⟨hp, hrest⟩ := hv
  have hok : MethodsOk vs := fun v hv => ⟨(hrest v hv).2.1, (hrest v hv).2.2⟩
  obtain ⟨s1, s2, s3, s4⟩ := findImplementations_spec E vs h n hok
  have hty : ∀ v ∈ vs, ∃ c ∈ cs, c.2 = v.ty := by
    intro v hv
    have := hp.mem_iff.1 (List.mem_map.2 ⟨v, hv, rfl⟩)
    obtain ⟨c, hc, e⟩ := List.mem_map.1 this
    exact ⟨c, hc, e⟩
  have hty' : ∀ c ∈ cs, ∃ v ∈ vs, v.ty = c.2 := by
    intro c hc
    have := hp.mem_iff.2 (List.mem_map.2 ⟨c, hc, rfl⟩)
    obtain ⟨v, hv, e⟩ := List.mem_map.1 this
    exact ⟨v, hv, e⟩
  refine ⟨?_, ?_, ?_, ?_⟩
  · intro r x
    rw [s1]
    constructor
    · rintro (h' | ⟨v, hv, w, hw, h'⟩)
      · exact .inl h'
      · obtain ⟨c, hc, e⟩ := hty v hv
        obtain ⟨i, hi, e'⟩ := List.mem_map.1 ((hrest v hv).1.mem_iff.1 (List.mem_map.2 ⟨w, hw, rfl⟩))
        exact .inr ⟨c, hc, i, hi, by rw [e, e']; exact h'⟩
    · rintro (h' | ⟨c, hc, i, hi, h'⟩)
      · exact .inl h'
      · obtain ⟨v, hv, e⟩ := hty' c hc
        obtain ⟨w, hw, e'⟩ := List.mem_map.1 ((hrest v hv).1.mem_iff.2 (List.mem_map.2 ⟨i, hi, rfl⟩))
        exact .inr ⟨v, hv, w, hw, by rw [e, e']; exact h'⟩
  · intro r hr
    apply s2
    rcases hr with h' | ⟨c, hc, h'⟩
    · exact .inl h'
    · obtain ⟨v, hv, e⟩ := hty' c hc
      exact .inr ⟨v, hv, by rw [e]; exact h'⟩
  · intro r hr
    apply s3
    intro v hv
    obtain ⟨c, hc, e⟩ := hty v hv
    rw [← e]; exact hr c hc
  · rw [s4]
    have := hp.length_eq
    simp at this
    omega

end Verif.Impl
