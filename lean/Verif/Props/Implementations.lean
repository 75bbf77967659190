import Verif.Lemmas.Implementations
import Verif.Props.Fingerprint
import Verif.Lemmas.Identical
/-! # C30-C36: implementation relationships -/
namespace Verif
open Spec Impl

/-! ### C30: the prefilters -/

theorem nodup_subset_length {α : Type} [DecidableEq α] {a b : List α} (hn : a.Nodup) (h : ∀ x ∈ a, x ∈ b) :
    a.length ≤ b.length := by
  induction a generalizing b with
  | nil => simp
  | cons x a ih =>
    have hx : x ∈ b := h x (by simp)
    have hn' := List.nodup_cons.1 hn
    have := ih hn'.2 (b := b.erase x) (by
      intro y hy
      refine (List.mem_erase_of_ne ?_).2 (h y (by simp [hy]))
      rintro rfl; exact hn'.1 hy)
    rw [List.length_erase_of_mem hx] at this
    have : 0 < b.length := List.length_pos_of_mem hx
    simp; omega

theorem methodMask_bit (E : Ext) : ∀ (ms : List Method) (k : BitVec 64), methodMask E ms = some k → ∀ j,
    (k.getLsbD j = true ↔ ∃ m ∈ ms, ∃ fp b, Fp.encode E.lex m.sig = some (fp, b) ∧
      (1#64 <<< bitIndex (E.crc (m.id ++ fp))).getLsbD j = true) := by
  intro ms
  induction ms with
  | nil =>
    intro k h j
    simp only [methodMask, Option.some.injEq] at h
    subst h
    simp
  | cons m ms ih =>
    intro k h j
    unfold methodMask at h
    cases he : Fp.encode E.lex m.sig with
    | none => rw [he] at h; simp at h
    | some x =>
      obtain ⟨fp, b⟩ := x
      rw [he] at h
      cases hr : methodMask E ms with
      | none => rw [hr] at h; simp at h
      | some k' =>
        rw [hr] at h
        simp only [Option.bind_eq_bind, Option.bind_some, pure, Option.some.injEq] at h
        subst h
        rw [BitVec.getLsbD_or, Bool.or_eq_true, ih k' hr j]
        constructor
        · rintro (h | ⟨n, hn, fp', b', h1, h2⟩)
          · exact ⟨m, by simp, fp, b, he, h⟩
          · exact ⟨n, by simp [hn], fp', b', h1, h2⟩
        · rintro ⟨n, hn, fp', b', h1, h2⟩
          rcases List.mem_cons.1 hn with rfl | hn
          · rw [he] at h1; simp only [Option.some.injEq, Prod.mk.injEq] at h1
            rw [← h1.1] at h2; exact .inl h2
          · exact .inr ⟨n, hn, fp', b', h1, h2⟩

/-- **C30**: if a type or the pointer to it implements an interface, then it has at least as many methods and its mask
covers the interface's mask, for every hash function. -/
theorem C30_prefilters_lose_nothing (E : Ext) (t i : NamedT) (mt mi : BitVec 64) (himp : ImplementsSome E t i)
    (hone : (i.methods.map Method.id).Nodup) (hmt : methodMask E t.methods = some mt)
    (hmi : methodMask E i.methods = some mi) :
    i.methods.length ≤ t.methods.length ∧ mt &&& mi = mi := by
  have himp' : ∀ m ∈ i.methods, ∃ n ∈ t.methods, n.id = m.id ∧ Fp.Spec.Identical n.sig m.sig := by
    intro m hm
    rcases himp with h | h <;> obtain ⟨n, hn, _, h1, h2⟩ := h.2 m hm <;> exact ⟨n, hn, h1, h2⟩
  constructor
  · have := nodup_subset_length (b := t.methods.map Method.id) hone (by
      intro x hx
      obtain ⟨m, hm, rfl⟩ := List.mem_map.1 hx
      obtain ⟨n, hn, h1, _⟩ := himp' m hm
      exact List.mem_map.2 ⟨n, hn, h1⟩)
    simpa using this
  · apply BitVec.eq_of_getLsbD_eq
    intro j hj
    rw [BitVec.getLsbD_and]
    cases hb : mi.getLsbD j with
    | false => simp
    | true =>
      obtain ⟨m, hm, fp, b, he, hbit⟩ := (methodMask_bit E _ _ hmi j).1 hb
      obtain ⟨n, hn, hid, hident⟩ := himp' m hm
      have hfp := C26_identical_types_equal_fingerprints E.lex _ _ hident
      have : mt.getLsbD j = true := by
        refine (methodMask_bit E _ _ hmt j).2 ⟨n, hn, fp, b, ?_, ?_⟩
        · rw [hfp]; exact he
        · rw [hid]; exact hbit
      simp [this]

/-! ### The result of the whole pass -/

theorem implements_iff (E : Ext) (ptr : Bool) (t i : NamedT) :
    implements E ptr t i = true ↔ Implements E ptr t i := by
  unfold implements Implements
  simp only [Bool.and_eq_true, List.all_eq_true, List.any_eq_true, Bool.or_eq_true, beq_iff_eq, Fp.identical_iff]
  constructor
  · rintro ⟨h1, h2⟩
    refine ⟨h1, fun m hm => ?_⟩
    obtain ⟨n, hn, ⟨h3, h4⟩, h5⟩ := h2 m hm
    exact ⟨n, hn, h3, h4, h5⟩
  · rintro ⟨h1, h2⟩
    refine ⟨h1, fun m hm => ?_⟩
    obtain ⟨n, hn, h3, h4, h5⟩ := h2 m hm
    exact ⟨n, hn, ⟨h3, h4⟩, h5⟩

theorem hasUnexported_false (ms : List Method) :
    hasUnexportedMethods ms = false ↔ ∀ m ∈ ms, Spec.Exported m.obj.self.name := by
  induction ms with
  | nil => simp [hasUnexportedMethods]
  | cons m ms ih =>
    unfold hasUnexportedMethods
    split
    · rename_i h
      rw [ih]
      simp only [List.mem_cons, forall_eq_or_imp]
      exact ⟨fun h' => ⟨(isExported_iff _).1 h, h'⟩, fun h' => h'.2⟩
    · rename_i h
      simp only [List.mem_cons, forall_eq_or_imp, Bool.true_eq_false, false_iff, not_and]
      exact fun h' => absurd ((isExported_iff _).2 h') h

/-- The tests of the pass, in terms of Go's rules. -/
theorem passes_iff {E : Ext} {scopes g b b' d e t s p i s' p'}
    (hd : IsImpl E scopes g b d t s p) (he : IsImpl E scopes g b' e i s' p') (hi : i.isIface = true)
    (hone : (i.methods.map Method.id).Nodup) :
    passes E d e = true ↔ ImplementsSome E t i ∧ (AllExported i ∨ p = p') := by
  have key : ImplementsSome E t i ↔ (implements E false t i || implements E true t i) = true := by
    unfold ImplementsSome
    rw [Bool.or_eq_true, implements_iff E, implements_iff E]
  unfold passes
  rw [hd.named, he.named, hd.path, he.path, hd.count, he.count, he.unexported]
  rw [if_neg (by simp [hi])]
  constructor
  · intro h
    split at h
    · simp at h
    · rename_i h1
      split at h
      · simp at h
      · split at h
        · simp at h
        · refine ⟨key.2 h, ?_⟩
          by_cases hp : p = p'
          · exact .inr hp
          · left
            unfold AllExported
            rw [← hasUnexported_false]
            apply Bool.eq_false_iff.2
            intro hu
            exact h1 ⟨hu, hp⟩
  · rintro ⟨himp, hx⟩
    obtain ⟨f1, f2⟩ := C30_prefilters_lose_nothing E t i d.mask e.mask himp hone hd.mask he.mask
    rw [if_neg, if_neg (by omega), if_neg (by simp [f2])]
    · exact key.1 himp
    · rintro ⟨hu, hp⟩
      rcases hx with hx | hx
      · rw [(hasUnexported_false _).2 hx] at hu; simp at hu
      · exact hp hx

/-- What the pass should relate: `ref` is the description of a type of side `b` that implements an interface of side `b'`
with symbol `x`, or the description of one of its methods, `x` being the symbol of the interface method of the same identity. -/
def ShouldRelate (E : Ext) (scopes : Scopes) (g : Global) (pkgs all : List Pkg) (b b' : Bool) (ref : Ref) (x : Str) : Prop :=
  ∃ t st pt i si qi, Described scopes g b (side pkgs all b) t st pt ∧ t.isIface = false ∧
    Described scopes g b' (side pkgs all b') i si qi ∧ i.isIface = true ∧ i.methods ≠ [] ∧ ImplementsSome E t i ∧
    (AllExported i ∨ pt = qi) ∧
    ((ref = st.ref ∧ x = si.sym) ∨ ∃ n ∈ t.methods, ∃ m ∈ i.methods, n.id = m.id ∧ ∃ sn sm,
      MethodDescribed scopes g b st.sym n sn ∧ MethodDescribed scopes g b' si.sym m sm ∧ ref = sn.ref ∧ x = sm.sym)

theorem described_nodup {scopes g all pkgs} (hcons : Consistent g all) (hsub : ∀ p ∈ pkgs, p ∈ all) {b : Bool} {t s p}
    (hd : Described scopes g b (side pkgs all b) t s p) : (t.methods.map Method.id).Nodup := by
  have hmem : ∀ q ∈ side pkgs all b, q ∈ all := by
    cases b with
    | true => exact hsub
    | false => intro q hq; exact (List.mem_filter.1 hq).1
  apply hcons.oneMethod
  cases hd with
  | source h1 h2 h3 h4 h5 h6 h7 h8 =>
    exact mem_methodSets (hmem _ h1) (by rw [h3]; exact List.mem_append_left _ h4) h6
  | exported h1 h2 h3 h4 h5 h6 h7 h8 h9 =>
    exact mem_methodSets (hmem _ h1) (by rw [h4]; exact List.mem_append_right _ h5) h7

/-- The relations between two maps are what they should be. -/
theorem relates_iff {E : Ext} {scopes g all pkgs}
    (hcons : Consistent g all) (hsub : ∀ p ∈ pkgs, p ∈ all) {b b' : Bool} {st st' : State}
    (hs : Sound E scopes g (askedObjs all) b (side pkgs all b) st)
    (hs' : Sound E scopes g (askedObjs all) b' (side pkgs all b') st') (ref x) :
    (∃ c ∈ st.concretes, ∃ i ∈ st'.ifaces, Relates E c.2 i.2 ref x) → ShouldRelate E scopes g pkgs all b b' ref x := by
  rintro ⟨c, hc, i, hi, hrel⟩
  obtain ⟨t, sy, p, hD, hti, htm, hk, hI⟩ := hs.concretes c hc
  obtain ⟨t', sy', p', hD', hti', htm', hk', hI'⟩ := hs'.ifaces i hi
  obtain ⟨himp, hx⟩ := (passes_iff hI hI' hti' (described_nodup hcons hsub hD')).1 hrel.1
  refine ⟨t, sy, p, t', sy', p', hD, hti, hD', hti', htm', himp, hx, ?_⟩
  rcases hrel.2 with ⟨h1, h2⟩ | ⟨id, m, hm, s, hl, h1, h2⟩
  · exact .inl ⟨by rw [h1, hI.symbol], by rw [h2, hI'.symbol]⟩
  · obtain ⟨m', hm', hid', hmd'⟩ := (hI'.methods id m).1 hm
    obtain ⟨n, hn, hidn, hmdn⟩ := (hI.methods id s).1 ((lookup_of_mem hI.keys).1 hl)
    exact .inr ⟨n, hn, m', hm', by rw [hidn, hid'], s, m, hmdn, hmd', h1.symm, h2⟩

theorem implementsSome_methods {E : Ext} {t i : NamedT} (h : ImplementsSome E t i) (hi : i.methods ≠ []) : t.methods ≠ [] := by
  obtain ⟨m, ms, hm⟩ := List.exists_cons_of_ne_nil hi
  intro ht
  rcases h with h | h <;> obtain ⟨n, hn, _⟩ := h.2 m (by rw [hm]; simp) <;> rw [ht] at hn <;> simp at hn

/-- With distinct symbols every described type is in the maps. -/
theorem recorded_impl {E : Ext} {scopes g U b ps} {st : State} (hs : Sound E scopes g U b ps st)
    (hrec : ∀ t sy path, Described scopes g b ps t sy path → Recorded st t sy)
    (hdist : SymbolsDistinct scopes g b ps) {t s p} (hd : Described scopes g b ps t s p) (hm : t.methods ≠ []) :
    ∃ e ∈ (if t.isIface then st.ifaces else st.concretes), IsImpl E scopes g b e.2 t s p := by
  have := hrec t s p hd hm
  by_cases hi : t.isIface = true
  · rw [if_pos hi] at this ⊢
    obtain ⟨e, he, hk⟩ := List.mem_map.1 this
    obtain ⟨t', s', p', hD', _, _, hk', hI'⟩ := hs.ifaces e he
    obtain ⟨rfl, rfl, rfl⟩ := hdist _ _ _ _ _ _ hD' hd (by rw [← hk', hk])
    exact ⟨e, he, hI'⟩
  · rw [if_neg hi] at this ⊢
    obtain ⟨e, he, hk⟩ := List.mem_map.1 this
    obtain ⟨t', s', p', hD', _, _, hk', hI'⟩ := hs.concretes e he
    obtain ⟨rfl, rfl, rfl⟩ := hdist _ _ _ _ _ _ hD' hd (by rw [← hk', hk])
    exact ⟨e, he, hI'⟩

theorem relates_complete {E : Ext} {scopes g all pkgs}
    (hcons : Consistent g all) (hsub : ∀ p ∈ pkgs, p ∈ all) {b b' : Bool} {st st' : State}
    (hs : Sound E scopes g (askedObjs all) b (side pkgs all b) st)
    (hs' : Sound E scopes g (askedObjs all) b' (side pkgs all b') st')
    (hr : ∀ t sy path, Described scopes g b (side pkgs all b) t sy path → Recorded st t sy)
    (hr' : ∀ t sy path, Described scopes g b' (side pkgs all b') t sy path → Recorded st' t sy)
    (hdist : SymbolsDistinct scopes g b (side pkgs all b)) (hdist' : SymbolsDistinct scopes g b' (side pkgs all b'))
    (ref x) (h : ShouldRelate E scopes g pkgs all b b' ref x) :
    ∃ c ∈ st.concretes, ∃ i ∈ st'.ifaces, Relates E c.2 i.2 ref x := by
  obtain ⟨t, sy, p, i, si, qi, hD, hti, hD', hii, hne, himp, hx, hrel⟩ := h
  obtain ⟨c, hc, hI⟩ := recorded_impl hs hr hdist hD (implementsSome_methods himp hne)
  obtain ⟨e, he, hI'⟩ := recorded_impl hs' hr' hdist' hD' hne
  rw [if_neg (by simp [hti])] at hc
  rw [if_pos hii] at he
  refine ⟨c, hc, e, he, (passes_iff hI hI' hii (described_nodup hcons hsub hD')).2 ⟨himp, hx⟩, ?_⟩
  rcases hrel with ⟨h1, h2⟩ | ⟨n, hn, m, hm, hnm, sn, sm, h1, h2, h3, h4⟩
  · exact .inl ⟨by rw [h1, hI.symbol], by rw [h2, hI'.symbol]⟩
  · refine .inr ⟨m.id, sm, (hI'.methods _ _).2 ⟨m, hm, rfl, h2⟩, sn, ?_, h3.symm, h4⟩
    exact (lookup_of_mem hI.keys).2 ((hI.methods _ _).2 ⟨n, hn, hnm, h1⟩)

/-- The maps of a run and its final heap. -/
theorem run_spec {E : Ext} {scopes g h pkgs all orders r}
    (hcons : Consistent g all) (hsub : ∀ p ∈ pkgs, p ∈ all) (hord : ValidOrders orders)
    (hrun : addImplementations E scopes g h pkgs all orders = some r) :
    ∃ loc rem : State, Sound E scopes g (askedObjs all) true pkgs loc ∧
      (∀ t sy path, Described scopes g true pkgs t sy path → Recorded loc t sy) ∧
      Sound E scopes g (askedObjs all) false (remotePackages pkgs all) rem ∧
      (∀ t sy path, Described scopes g false (remotePackages pkgs all) t sy path → Recorded rem t sy) ∧
      (∀ ref x, x ∈ r.heap ref ↔ x ∈ h ref ∨ (∃ c ∈ loc.concretes, ∃ i ∈ loc.ifaces, Relates E c.2 i.2 ref x) ∨
        (∃ c ∈ loc.concretes, ∃ i ∈ rem.ifaces, Relates E c.2 i.2 ref x) ∨
        (∃ c ∈ rem.concretes, ∃ i ∈ loc.ifaces, Relates E c.2 i.2 ref x)) ∧
      (∀ ref, (StrictlySorted (h ref) ∨ (∃ c ∈ loc.concretes, Touches c.2 ref) ∨ ∃ c ∈ rem.concretes, Touches c.2 ref) →
        StrictlySorted (r.heap ref)) ∧
      (∀ ref, (∀ c ∈ loc.concretes, ¬ Touches c.2 ref) → (∀ c ∈ rem.concretes, ¬ Touches c.2 ref) → r.heap ref = h ref) ∧
      r.total = loc.concretes.length * 2 + rem.concretes.length ∧ r.count = r.total ∧
      r.external.Perm ((rem.concretes.filter (fun e => r.heap e.2.symbol.ref ≠ [])).map (fun e => e.2.symbol)) := by
  unfold addImplementations at hrun
  split at hrun
  · simp at hrun
  · rename_i loc hloc
    split at hrun
    · simp at hrun
    · rename_i rem hrem
      obtain ⟨hL, hLr⟩ := extract_spec hcons hsub (GInv.refl hcons.fresh) hloc
      obtain ⟨hR, hRr⟩ := extract_spec (ps := remotePackages pkgs all) hcons (fun p hp => (List.mem_filter.1 hp).1) hL.ginv hrem
      obtain ⟨o1, o2, o3, o4⟩ := hord loc rem
      simp only [Option.some.injEq] at hrun
      obtain ⟨s1, e1⟩ : ∃ s1, s1 = findImplementations E (orders loc rem).localLocal (h, 0) := ⟨_, rfl⟩
      obtain ⟨s2, e2⟩ : ∃ s2, s2 = findImplementations E (orders loc rem).localRemote s1 := ⟨_, rfl⟩
      obtain ⟨s3, e3⟩ : ∃ s3, s3 = findImplementations E (orders loc rem).remoteLocal s2 := ⟨_, rfl⟩
      rw [← e1, ← e2, ← e3] at hrun
      obtain ⟨a1, a2, a3, a4⟩ := pass_spec E o1 h 0
      have hb := pass_spec E o2 s1.1 s1.2
      have hc := pass_spec E o3 s2.1 s2.2
      rw [show (s1.1, s1.2) = s1 from rfl] at hb
      rw [show (s2.1, s2.2) = s2 from rfl] at hc
      obtain ⟨b1, b2, b3, b4⟩ := hb
      obtain ⟨c1, c2, c3, c4⟩ := hc
      rw [← e1] at a1 a2 a3 a4
      rw [← e2] at b1 b2 b3 b4
      rw [← e3] at c1 c2 c3 c4
      have hheap : r.heap = s3.1 := by rw [← hrun]
      refine ⟨loc, rem, hL, hLr, hR, hRr, ?_, ?_, ?_, by rw [← hrun], ?_, ?_⟩
      · intro ref x
        rw [hheap, c1, b1, a1]
        simp only [or_assoc]
      · intro ref hr
        rw [hheap]
        apply c2
        rcases hr with hr | hr | hr
        · exact .inl (b2 _ (.inl (a2 _ (.inl hr))))
        · exact .inl (b2 _ (.inr hr))
        · exact .inr hr
      · intro ref h1 h2
        rw [hheap, c3 _ h2, b3 _ h1, a3 _ h1]
      · rw [← hrun]
        show s3.2 = _
        rw [c4, b4, a4]
        simp only
        omega
      · rw [hheap, ← hrun]
        show (List.map _ (List.filter _ _)).Perm _
        have := (o4.filter (fun t => decide (s3.1 t.symbol.ref ≠ []))).map (fun t => t.symbol)
        refine this.trans ?_
        rw [List.filter_map, List.map_map]
        exact List.Perm.refl _

/-- Everything the pass adds is as it should be (no assumption on symbols). -/
theorem C31_added_relationships_are_real {E : Ext} {scopes g h pkgs all orders r}
    (hcons : Consistent g all) (hsub : ∀ p ∈ pkgs, p ∈ all) (hord : ValidOrders orders)
    (hrun : addImplementations E scopes g h pkgs all orders = some r) (ref : Ref) (x : Str) (hx : x ∈ r.heap ref) :
    x ∈ h ref ∨ ∃ b b', (b = true ∨ b' = true) ∧ ShouldRelate E scopes g pkgs all b b' ref x := by
  obtain ⟨loc, rem, hL, _, hR, _, hmem, _⟩ := run_spec hcons hsub hord hrun
  rcases (hmem ref x).1 hx with hx | hx | hx | hx
  · exact .inl hx
  · exact .inr ⟨true, true, .inl rfl, relates_iff hcons hsub hL hL ref x hx⟩
  · exact .inr ⟨true, false, .inl rfl, relates_iff hcons hsub hL hR ref x hx⟩
  · exact .inr ⟨false, true, .inr rfl, relates_iff hcons hsub hR hL ref x hx⟩

/-- **C31** (types): if the description of a type ends up with a relationship to `x`, then `x` is the symbol of an interface
that the type or the pointer to it implements. -/
theorem C31_type_relationships_are_real {E : Ext}
    {scopes g h pkgs all orders r} (hcons : Consistent g all) (hsub : ∀ p ∈ pkgs, p ∈ all) (hord : ValidOrders orders)
    (hdist : DescriptionsDistinct scopes g pkgs all) (hempty : ∀ ref, h ref = [])
    (hrun : addImplementations E scopes g h pkgs all orders = some r) {b t s p}
    (ht : Described scopes g b (side pkgs all b) t s p) (x : Str) (hx : x ∈ r.heap s.ref) :
    ∃ b' i si qi, (b = true ∨ b' = true) ∧ Described scopes g b' (side pkgs all b') i si qi ∧ i.isIface = true ∧
      t.isIface = false ∧ x = si.sym ∧ ImplementsSome E t i := by
  rcases C31_added_relationships_are_real hcons hsub hord hrun _ x hx with hx | ⟨b₁, b', hb, hrel⟩
  · rw [hempty] at hx; simp at hx
  · obtain ⟨t', st, pt, i, si, qi, hD, hti, hD', hii, hne, himp, _, h1 | ⟨n, hn, m, hm, hnm, sn, sm, h1, h2, h3, h4⟩⟩ := hrel
    · obtain ⟨rfl, rfl, rfl, rfl⟩ := hdist.types _ _ _ _ _ _ _ _ ht hD h1.1
      exact ⟨b', i, si, qi, hb, hD', hii, hti, h1.2, himp⟩
    · exact absurd h3 (hdist.methods _ _ _ _ _ _ _ _ _ _ ht hD hn h1)

/-- **C31** (methods): if any other description ends up with a relationship to `x`, it is the description of a method of
a type that implements an interface, and `x` is the symbol of the interface's method of the same identity. -/
theorem C31_method_relationships_are_real {E : Ext}
    {scopes g h pkgs all orders r} (hcons : Consistent g all) (hsub : ∀ p ∈ pkgs, p ∈ all) (hord : ValidOrders orders)
    (hempty : ∀ ref, h ref = [])
    (hrun : addImplementations E scopes g h pkgs all orders = some r) (ref : Ref)
    (href : ∀ b t s p, Described scopes g b (side pkgs all b) t s p → ref ≠ s.ref) (x : Str) (hx : x ∈ r.heap ref) :
    ∃ b b' t st pt i si qi n m sn sm, (b = true ∨ b' = true) ∧ Described scopes g b (side pkgs all b) t st pt ∧
      Described scopes g b' (side pkgs all b') i si qi ∧ ImplementsSome E t i ∧ n ∈ t.methods ∧ m ∈ i.methods ∧
      n.id = m.id ∧ MethodDescribed scopes g b st.sym n sn ∧ MethodDescribed scopes g b' si.sym m sm ∧
      ref = sn.ref ∧ x = sm.sym := by
  rcases C31_added_relationships_are_real hcons hsub hord hrun _ x hx with hx | ⟨b, b', hb, hrel⟩
  · rw [hempty] at hx; simp at hx
  · obtain ⟨t, st, pt, i, si, qi, hD, hti, hD', hii, hne, himp, _, h1 | ⟨n, hn, m, hm, hnm, sn, sm, h1, h2, h3, h4⟩⟩ := hrel
    · exact absurd h1.1 (href _ _ _ _ hD)
    · exact ⟨b, b', t, st, pt, i, si, qi, n, m, sn, sm, hb, hD, hD', himp, hn, hm, hnm, h1, h2, h3, h4⟩

/-- Exactly what the pass relates. -/
theorem heap_iff {E : Ext} {scopes g h pkgs all orders r}
    (hcons : Consistent g all) (hsub : ∀ p ∈ pkgs, p ∈ all) (hord : ValidOrders orders)
    (hdist : ∀ b, SymbolsDistinct scopes g b (side pkgs all b))
    (hrun : addImplementations E scopes g h pkgs all orders = some r) (ref : Ref) (x : Str) :
    x ∈ r.heap ref ↔ x ∈ h ref ∨ ∃ b b', (b = true ∨ b' = true) ∧ ShouldRelate E scopes g pkgs all b b' ref x := by
  constructor
  · exact C31_added_relationships_are_real hcons hsub hord hrun ref x
  · obtain ⟨loc, rem, hL, hLr, hR, hRr, hmem, _⟩ := run_spec hcons hsub hord hrun
    rintro (hx | ⟨b, b', hb, hrel⟩)
    · exact (hmem ref x).2 (.inl hx)
    · apply (hmem ref x).2
      right
      cases b with
      | true =>
        cases b' with
        | true => exact .inl (relates_complete hcons hsub hL hL hLr hLr (hdist true) (hdist true) ref x hrel)
        | false => exact .inr (.inl (relates_complete hcons hsub hL hR hLr hRr (hdist true) (hdist false) ref x hrel))
      | false =>
        cases b' with
        | true => exact .inr (.inr (relates_complete hcons hsub hR hL hRr hLr (hdist false) (hdist true) ref x hrel))
        | false => simp at hb

/-- **C32** (interfaces with exported methods only, or of the type's own package; missing: types of another package that
get an unexported method by embedding, see `C32_embedding_across_packages_lost`): a project type that implements a
non-empty interface carries the relationship, and so do its methods. -/
theorem C32_every_implementation_partial {E : Ext}
    {scopes g h pkgs all orders r} (hcons : Consistent g all) (hsub : ∀ p ∈ pkgs, p ∈ all) (hord : ValidOrders orders)
    (hdist : ∀ b, SymbolsDistinct scopes g b (side pkgs all b))
    (hrun : addImplementations E scopes g h pkgs all orders = some r)
    {t st pt b' i si qi} (ht : Described scopes g true pkgs t st pt) (htc : t.isIface = false)
    (hi : Described scopes g b' (side pkgs all b') i si qi) (hii : i.isIface = true) (hne : i.methods ≠ [])
    (himp : ImplementsSome E t i) (hx : AllExported i ∨ pt = qi) :
    si.sym ∈ r.heap st.ref ∧ ∀ n ∈ t.methods, ∀ m ∈ i.methods, n.id = m.id → ∀ sn sm,
      MethodDescribed scopes g true st.sym n sn → MethodDescribed scopes g b' si.sym m sm → sm.sym ∈ r.heap sn.ref := by
  constructor
  · exact (heap_iff hcons hsub hord hdist hrun _ _).2 (.inr ⟨true, b', .inl rfl, t, st, pt, i, si, qi, ht, htc, hi, hii,
      hne, himp, hx, .inl ⟨rfl, rfl⟩⟩)
  · intro n hn m hm hnm sn sm h1 h2
    exact (heap_iff hcons hsub hord hdist hrun _ _).2 (.inr ⟨true, b', .inl rfl, t, st, pt, i, si, qi, ht, htc, hi, hii,
      hne, himp, hx, .inr ⟨n, hn, m, hm, hnm, sn, sm, h1, h2, rfl, rfl⟩⟩)

/-- **C34**: the relationships of a description are unchanged or strictly sorted by symbol (so without duplicates), and
sorting again changes nothing. -/
theorem C34_sorted_duplicate_free {E : Ext}
    {scopes g h pkgs all orders r} (hcons : Consistent g all) (hsub : ∀ p ∈ pkgs, p ∈ all) (hord : ValidOrders orders)
    (hrun : addImplementations E scopes g h pkgs all orders = some r) (ref : Ref) :
    r.heap ref = h ref ∨ ((r.heap ref).Pairwise (fun a b => Str.lt a b = true) ∧ (r.heap ref).Nodup ∧
      canonicalize (r.heap ref) = r.heap ref) := by
  obtain ⟨loc, rem, hL, hLr, hR, hRr, hmem, hsort, hframe, _⟩ := run_spec hcons hsub hord hrun
  by_cases h1 : ∃ c ∈ loc.concretes, Touches c.2 ref
  · right
    have := hsort ref (.inr (.inl h1))
    exact ⟨this, this.imp (fun h e => by rw [e, Str.lt_irrefl] at h; simp at h), sorted_ext (canonicalize_sorted _) this (fun _ => mem_canonicalize)⟩
  · by_cases h2 : ∃ c ∈ rem.concretes, Touches c.2 ref
    · right
      have := hsort ref (.inr (.inr h2))
      exact ⟨this, this.imp (fun h e => by rw [e, Str.lt_irrefl] at h; simp at h), sorted_ext (canonicalize_sorted _) this (fun _ => mem_canonicalize)⟩
    · left
      exact hframe ref (fun c hc ht => h1 ⟨c, hc, ht⟩) (fun c hc ht => h2 ⟨c, hc, ht⟩)

/-- **C36**: the counter ends at the announced total. -/
theorem C36_counter_reaches_total {E : Ext}
    {scopes g h pkgs all orders r} (hcons : Consistent g all) (hsub : ∀ p ∈ pkgs, p ∈ all) (hord : ValidOrders orders)
    (hrun : addImplementations E scopes g h pkgs all orders = some r) : r.count = r.total := by
  obtain ⟨loc, rem, _, _, _, _, _, _, _, _, h, _⟩ := run_spec hcons hsub hord hrun
  exact h

/-- **C35**: the external symbols are exactly the descriptions of the dependency types that implement a project interface
of exported methods, and their relationships name exactly these interfaces. -/
theorem C35_external_symbols {E : Ext}
    {scopes g h pkgs all orders r} (hcons : Consistent g all) (hsub : ∀ p ∈ pkgs, p ∈ all) (hord : ValidOrders orders)
    (hdist : ∀ b, SymbolsDistinct scopes g b (side pkgs all b)) (hdesc : DescriptionsDistinct scopes g pkgs all)
    (hempty : ∀ ref, h ref = []) (hrun : addImplementations E scopes g h pkgs all orders = some r) :
    (∀ s, s ∈ r.external ↔ ∃ t p i si qi, Described scopes g false (remotePackages pkgs all) t s p ∧ t.isIface = false ∧
      Described scopes g true pkgs i si qi ∧ i.isIface = true ∧ i.methods ≠ [] ∧ AllExported i ∧ ImplementsSome E t i) ∧
    (∀ t s p, Described scopes g false (remotePackages pkgs all) t s p → t.isIface = false → ∀ x, x ∈ r.heap s.ref ↔
      ∃ i si qi, Described scopes g true pkgs i si qi ∧ i.isIface = true ∧ i.methods ≠ [] ∧ AllExported i ∧
        ImplementsSome E t i ∧ x = si.sym) := by
  have hpath : ∀ t s p i si qi, Described scopes g false (remotePackages pkgs all) t s p →
      Described scopes g true pkgs i si qi → p ≠ qi := by
    intro t s p i si qi h1 h2
    have a : ∃ q ∈ remotePackages pkgs all, q.path = p := by
      cases h1 with
      | source h => exact ⟨_, h, rfl⟩
      | exported h => exact ⟨_, h, rfl⟩
    have b : ∃ q ∈ pkgs, q.path = qi := by
      cases h2 with
      | source h => exact ⟨_, h, rfl⟩
      | exported h => exact ⟨_, h, rfl⟩
    obtain ⟨q, hq, rfl⟩ := a
    obtain ⟨q', hq', rfl⟩ := b
    intro e
    have := (List.mem_filter.1 hq).2
    simp only [decide_eq_true_eq] at this
    exact this (List.mem_map.2 ⟨q', hq', e.symm⟩)
  have hrel : ∀ t s p, Described scopes g false (remotePackages pkgs all) t s p → t.isIface = false → ∀ x, x ∈ r.heap s.ref ↔
      ∃ i si qi, Described scopes g true pkgs i si qi ∧ i.isIface = true ∧ i.methods ≠ [] ∧ AllExported i ∧
        ImplementsSome E t i ∧ x = si.sym := by
    intro t s p ht htc x
    rw [heap_iff hcons hsub hord hdist hrun, hempty]
    constructor
    · rintro (hx | ⟨b, b', hb, t', st, pt, i, si, qi, hD, hti, hD', hii, hne, himp, hex, h1 | ⟨n, hn, m, hm, hnm, sn, sm, h1, h2, h3, h4⟩⟩)
      · simp at hx
      · obtain ⟨rfl, rfl, rfl, rfl⟩ := hdesc.types false _ _ _ _ _ _ _ ht hD h1.1
        have hb' : b' = true := by simpa using hb
        subst hb'
        refine ⟨i, si, qi, hD', hii, hne, ?_, himp, h1.2⟩
        rcases hex with hex | hex
        · exact hex
        · exact absurd hex (hpath _ _ _ _ _ _ ht hD')
      · exact absurd h3 (hdesc.methods false _ _ _ _ _ _ _ _ _ ht hD hn h1)
    · rintro ⟨i, si, qi, hD', hii, hne, hex, himp, rfl⟩
      exact .inr ⟨false, true, .inr rfl, t, s, p, i, si, qi, ht, htc, hD', hii, hne, himp, .inl hex, .inl ⟨rfl, rfl⟩⟩
  refine ⟨?_, hrel⟩
  intro s
  obtain ⟨loc, rem, hL, hLr, hR, hRr, hmem, hsort, hframe, _, _, hext⟩ := run_spec hcons hsub hord hrun
  rw [hext.mem_iff]
  simp only [List.mem_map, List.mem_filter, decide_eq_true_eq]
  constructor
  · rintro ⟨e, ⟨he, hne⟩, rfl⟩
    obtain ⟨t, sy, p, hD, hti, _, _, hI⟩ := hR.concretes e he
    obtain ⟨x, xs, hx⟩ := List.exists_cons_of_ne_nil hne
    rw [hI.symbol] at hx ⊢
    obtain ⟨i, si, qi, h1, h2, h3, h4, h5, _⟩ := (hrel t sy p hD hti x).1 (by rw [hx]; simp)
    exact ⟨t, p, i, si, qi, hD, hti, h1, h2, h3, h4, h5⟩
  · rintro ⟨t, p, i, si, qi, hD, hti, h1, h2, h3, h4, h5⟩
    obtain ⟨e, he, hI⟩ := recorded_impl hR hRr (hdist false) hD (implementsSome_methods h5 h3)
    rw [if_neg (by simp [hti])] at he
    refine ⟨e, ⟨he, ?_⟩, hI.symbol⟩
    rw [hI.symbol]
    have := (hrel t s p hD hti si.sym).2 ⟨i, si, qi, h1, h2, h3, h4, h5, rfl⟩
    intro hn; rw [hn] at this; simp at this

/-- The part that C32 misses: an interface with an unexported method is never related to a type of another package, not
even to one that implements it (by embedding a type of the interface's package). -/
theorem C32_embedding_across_packages_lost {E : Ext} {scopes g h pkgs all orders r} (hcons : Consistent g all)
    (hsub : ∀ p ∈ pkgs, p ∈ all) (hord : ValidOrders orders) (hdist : ∀ b, SymbolsDistinct scopes g b (side pkgs all b))
    (hdesc : DescriptionsDistinct scopes g pkgs all) (hempty : ∀ ref, h ref = [])
    (hrun : addImplementations E scopes g h pkgs all orders = some r) {t st pt i si qi}
    (ht : Described scopes g true pkgs t st pt) (hi : Described scopes g true pkgs i si qi)
    (hun : ¬ AllExported i) (hp : pt ≠ qi)
    (hdep : ∀ i' s' p', Described scopes g false (remotePackages pkgs all) i' s' p' → s'.sym ≠ si.sym) :
    si.sym ∉ r.heap st.ref := by
  intro hx
  rcases (heap_iff hcons hsub hord hdist hrun _ _).1 hx with hx | ⟨b, b', hb, t', st', pt', i', si', qi', hD, hti, hD', hii, hne, himp, hex, h1 | ⟨n, hn, m, hm, hnm, sn, sm, h1, h2, h3, h4⟩⟩
  · rw [hempty] at hx; simp at hx
  · obtain ⟨rfl, rfl, rfl, rfl⟩ := hdesc.types true _ _ _ _ _ _ _ ht hD h1.1
    cases b' with
    | false => exact hdep _ _ _ hD' h1.2.symm
    | true =>
      obtain ⟨rfl, rfl, rfl⟩ := hdist true _ _ _ _ _ _ hi hD' h1.2
      rcases hex with hex | hex
      · exact hun hex
      · exact hp hex
  · exact absurd h3 (hdesc.methods true _ _ _ _ _ _ _ _ _ ht hD hn h1)

/-- **C32**, exactly what is emitted for project types: the relationships of a project type are the symbols of the non-empty interfaces that it (or the pointer
to it) implements and that have exported methods only or belong to its own package. -/
theorem C32_exact_types {E : Ext} {scopes g h pkgs all orders r} (hcons : Consistent g all)
    (hsub : ∀ p ∈ pkgs, p ∈ all) (hord : ValidOrders orders) (hdist : ∀ b, SymbolsDistinct scopes g b (side pkgs all b))
    (hdesc : DescriptionsDistinct scopes g pkgs all) (hempty : ∀ ref, h ref = [])
    (hrun : addImplementations E scopes g h pkgs all orders = some r) {t st pt}
    (ht : Described scopes g true pkgs t st pt) (htc : t.isIface = false) (x : Str) :
    x ∈ r.heap st.ref ↔ ∃ b' i si qi, Described scopes g b' (side pkgs all b') i si qi ∧ i.isIface = true ∧ i.methods ≠ [] ∧
      ImplementsSome E t i ∧ (AllExported i ∨ pt = qi) ∧ x = si.sym := by
  rw [heap_iff hcons hsub hord hdist hrun, hempty]
  constructor
  · rintro (hx | ⟨b, b', hb, t', st', pt', i, si, qi, hD, hti, hD', hii, hne, himp, hex, h1 | ⟨n, hn, m, hm, hnm, sn, sm, h1, h2, h3, h4⟩⟩)
    · simp at hx
    · obtain ⟨rfl, rfl, rfl, rfl⟩ := hdesc.types true _ _ _ _ _ _ _ ht hD h1.1
      exact ⟨b', i, si, qi, hD', hii, hne, himp, hex, h1.2⟩
    · exact absurd h3 (hdesc.methods true _ _ _ _ _ _ _ _ _ ht hD hn h1)
  · rintro ⟨b', i, si, qi, hD', hii, hne, himp, hex, rfl⟩
    exact .inr ⟨true, b', .inl rfl, t, st, pt, i, si, qi, ht, htc, hD', hii, hne, himp, hex, .inl ⟨rfl, rfl⟩⟩

/-- **C32**, exactly what is emitted for methods: the relationships of a description that is not a type's are the symbols of the methods of the same identity of
the interfaces that some type with this method is related to. -/
theorem C32_exact_methods {E : Ext} {scopes g h pkgs all orders r} (hcons : Consistent g all)
    (hsub : ∀ p ∈ pkgs, p ∈ all) (hord : ValidOrders orders) (hdist : ∀ b, SymbolsDistinct scopes g b (side pkgs all b))
    (hempty : ∀ ref, h ref = [])
    (hrun : addImplementations E scopes g h pkgs all orders = some r) (ref : Ref)
    (href : ∀ b t s p, Described scopes g b (side pkgs all b) t s p → ref ≠ s.ref) (x : Str) :
    x ∈ r.heap ref ↔ ∃ b b' t st pt i si qi n m sn sm, (b = true ∨ b' = true) ∧ Described scopes g b (side pkgs all b) t st pt ∧
      t.isIface = false ∧ Described scopes g b' (side pkgs all b') i si qi ∧ i.isIface = true ∧ ImplementsSome E t i ∧
      (AllExported i ∨ pt = qi) ∧ n ∈ t.methods ∧ m ∈ i.methods ∧ n.id = m.id ∧ MethodDescribed scopes g b st.sym n sn ∧
      MethodDescribed scopes g b' si.sym m sm ∧ ref = sn.ref ∧ x = sm.sym := by
  rw [heap_iff hcons hsub hord hdist hrun, hempty]
  constructor
  · rintro (hx | ⟨b, b', hb, t, st, pt, i, si, qi, hD, hti, hD', hii, hne, himp, hex, h1 | ⟨n, hn, m, hm, hnm, sn, sm, h1, h2, h3, h4⟩⟩)
    · simp at hx
    · exact absurd h1.1 (href _ _ _ _ hD)
    · exact ⟨b, b', t, st, pt, i, si, qi, n, m, sn, sm, hb, hD, hti, hD', hii, himp, hex, hn, hm, hnm, h1, h2, h3, h4⟩
  · rintro ⟨b, b', t, st, pt, i, si, qi, n, m, sn, sm, hb, hD, hti, hD', hii, himp, hex, hn, hm, hnm, h1, h2, h3, h4⟩
    exact .inr ⟨b, b', hb, t, st, pt, i, si, qi, hD, hti, hD', hii, List.ne_nil_of_mem hm, himp, hex,
      .inr ⟨n, hn, m, hm, hnm, sn, sm, h1, h2, h3, h4⟩⟩

/-! ### C33: order independence -/

theorem Spec.SamePackage.symm {p q : Pkg} (h : SamePackage p q) : SamePackage q p := by
  cases h with
  | mk h => exact .mk h.symm
  | refl => exact .refl

theorem Spec.SameListing.symm {a b : List Pkg} (h : SameListing a b) : SameListing b a := by
  refine ⟨fun p hp => ?_, fun p hp => ?_⟩
  · obtain ⟨q, hq, hs⟩ := h.2 p hp; exact ⟨q, hq, hs.symm⟩
  · obtain ⟨q, hq, hs⟩ := h.1 p hp; exact ⟨q, hq, hs.symm⟩

theorem Spec.SamePackage.facts {p q : Pkg} (h : SamePackage p q) : p.path = q.path ∧ p.name = q.name ∧ p.module = q.module ∧
    p.scope = q.scope ∧ (p.defs = none ↔ q.defs = none) ∧
    ∀ ds, p.defs = some ds → ∃ ds', q.defs = some ds' ∧ ∀ d, d ∈ ds ↔ d ∈ ds' := by
  cases h with
  | mk h =>
    refine ⟨rfl, rfl, rfl, rfl, by simp, ?_⟩
    intro ds hds
    simp only [Option.some.injEq] at hds
    subst hds
    exact ⟨_, rfl, fun d => h.mem_iff⟩
  | refl => exact ⟨rfl, rfl, rfl, rfl, Iff.rfl, fun ds hds => ⟨ds, hds, fun _ => Iff.rfl⟩⟩

theorem described_same {scopes g b} {ps ps' : List Pkg} (h : SameListing ps ps') {t s p}
    (hd : Described scopes g b ps t s p) : Described scopes g b ps' t s p := by
  cases hd with
  | source h1 h2 h3 h4 h5 h6 h7 h8 =>
    obtain ⟨q, hq, hs⟩ := h.1 _ h1
    obtain ⟨e1, e2, e3, e4, _, e6⟩ := hs.facts
    obtain ⟨ds', e7, e8⟩ := e6 _ h3
    rw [e1] at h7 ⊢
    exact .source hq (by rw [← e2]; exact h2) e7 ((e8 _).1 h4) (by rw [← e4]; exact h5) h6 h7 h8
  | exported h1 h2 h3 h4 h5 h6 h7 h8 h9 =>
    obtain ⟨q, hq, hs⟩ := h.1 _ h1
    obtain ⟨e1, e2, e3, e4, e5, e6⟩ := hs.facts
    rw [e1]
    exact .exported hq (by rw [← e2]; exact h2) (e5.1 h3) (by rw [← e4]; exact h4) h5 h6 h7 (by rw [← e3]; exact h8) h9

theorem remote_same {pkgs pkgs' all all' : List Pkg} (h : SameListing pkgs pkgs') (h' : SameListing all all') :
    SameListing (remotePackages pkgs all) (remotePackages pkgs' all') := by
  have key : ∀ {pkgs pkgs' all all' : List Pkg}, SameListing pkgs pkgs' → SameListing all all' →
      ∀ p ∈ remotePackages pkgs all, ∃ q ∈ remotePackages pkgs' all', SamePackage p q := by
    intro pkgs pkgs' all all' h h' p hp
    obtain ⟨hp1, hp2⟩ := List.mem_filter.1 hp
    obtain ⟨q, hq, hs⟩ := h'.1 p hp1
    refine ⟨q, List.mem_filter.2 ⟨hq, ?_⟩, hs⟩
    simp only [decide_eq_true_eq] at hp2 ⊢
    intro hm
    obtain ⟨q', hq', e⟩ := List.mem_map.1 hm
    obtain ⟨p', hp', hs'⟩ := h.2 q' hq'
    exact hp2 (List.mem_map.2 ⟨p', hp', by rw [hs'.facts.1, e, hs.facts.1]⟩)
  refine ⟨key h h', fun q hq => ?_⟩
  obtain ⟨p, hp, hs⟩ := key h.symm h'.symm q hq
  exact ⟨p, hp, hs.symm⟩

theorem side_same {pkgs pkgs' all all' : List Pkg} (h : SameListing pkgs pkgs') (h' : SameListing all all') (b : Bool) :
    SameListing (side pkgs all b) (side pkgs' all' b) := by
  cases b with
  | true => exact h
  | false => exact remote_same h h'

theorem shouldRelate_same {E scopes g} {pkgs pkgs' all all' : List Pkg} (h : SameListing pkgs pkgs')
    (h' : SameListing all all') {b b' ref x} (hr : ShouldRelate E scopes g pkgs all b b' ref x) :
    ShouldRelate E scopes g pkgs' all' b b' ref x := by
  obtain ⟨t, st, pt, i, si, qi, hD, hti, hD', rest⟩ := hr
  exact ⟨t, st, pt, i, si, qi, described_same (side_same h h' b) hD, hti, described_same (side_same h h' b') hD', rest⟩

theorem methodSets_same {a b : List Pkg} (h : SameListing a b) {n : NamedT} (hn : n ∈ methodSets a) : n ∈ methodSets b := by
  obtain ⟨p, hp, hn⟩ := List.mem_flatMap.1 hn
  obtain ⟨d, hd, he⟩ := List.mem_filterMap.1 hn
  obtain ⟨q, hq, hs⟩ := h.1 p hp
  obtain ⟨_, _, _, e4, e5, e6⟩ := hs.facts
  refine List.mem_flatMap.2 ⟨q, hq, List.mem_filterMap.2 ⟨d, ?_, he⟩⟩
  rcases List.mem_append.1 hd with hd | hd
  · cases hds : p.defs with
    | none => rw [hds] at hd; simp at hd
    | some ds =>
      obtain ⟨ds', e7, e8⟩ := e6 ds hds
      rw [hds] at hd
      rw [e7]
      exact List.mem_append_left _ ((e8 d).1 hd)
  · rw [← e4]; exact List.mem_append_right _ hd

theorem askedObjs_same {a b : List Pkg} (h : SameListing a b) {o : Obj} (ho : o ∈ askedObjs a) : o ∈ askedObjs b := by
  rcases List.mem_append.1 ho with ho | ho
  · obtain ⟨n, hn, ho⟩ := List.mem_flatMap.1 ho
    exact List.mem_append_left _ (List.mem_flatMap.2 ⟨n, methodSets_same h hn, ho⟩)
  · obtain ⟨p, hp, ho⟩ := List.mem_flatMap.1 ho
    obtain ⟨q, hq, hs⟩ := h.1 p hp
    exact List.mem_append_right _ (List.mem_flatMap.2 ⟨q, hq, by rw [← hs.facts.2.2.2.1]; exact ho⟩)

theorem consistent_same {g : Global} {a b : List Pkg} (h : SameListing a b) (hc : Consistent g a) : Consistent g b where
  fresh := hc.fresh
  coherent := fun o₁ h₁ o₂ h₂ => hc.coherent o₁ (askedObjs_same h.symm h₁) o₂ (askedObjs_same h.symm h₂)
  wellFormed := fun o ho => hc.wellFormed o (askedObjs_same h.symm ho)
  funcs := fun n hn => hc.funcs n (methodSets_same h.symm hn)
  oneMethod := fun n hn => hc.oneMethod n (methodSets_same h.symm hn)
  scopeTypes := by
    intro p hp ds hds d hd
    obtain ⟨q, hq, hs⟩ := h.2 p hp
    rw [← hs.facts.1]
    exact hc.scopeTypes q hq ds (by rw [hs.facts.2.2.2.1]; exact hds) d hd
  modules := by
    intro p hp r hr
    obtain ⟨q, hq, hs⟩ := h.2 p hp
    rw [← hs.facts.2.2.1]
    exact hc.modules q hq r (by rw [hs.facts.1]; exact hr)
  registered := by
    intro p hp
    obtain ⟨q, hq, hs⟩ := h.2 p hp
    rw [← hs.facts.1]
    exact hc.registered q hq

theorem external_iff {E : Ext} {scopes g h pkgs all orders r} (hcons : Consistent g all) (hsub : ∀ p ∈ pkgs, p ∈ all)
    (hord : ValidOrders orders) (hdist : ∀ b, SymbolsDistinct scopes g b (side pkgs all b))
    (hrun : addImplementations E scopes g h pkgs all orders = some r) :
    r.external.Nodup ∧ ∀ s, s ∈ r.external ↔ ∃ t p, Described scopes g false (remotePackages pkgs all) t s p ∧
      t.isIface = false ∧ t.methods ≠ [] ∧ r.heap s.ref ≠ [] := by
  obtain ⟨loc, rem, hL, hLr, hR, hRr, hmem, hsort, hframe, _, _, hext⟩ := run_spec hcons hsub hord hrun
  constructor
  · rw [hext.nodup_iff]
    have hk : rem.concretes.Pairwise (fun a b => a.1 ≠ b.1) := by
      have := hR.ckeys
      rw [List.Nodup, List.pairwise_map] at this
      exact this
    have hk' : (rem.concretes.filter (fun e => decide (r.heap e.2.symbol.ref ≠ []))).Pairwise (fun a b => a.1 ≠ b.1) :=
      hk.sublist List.filter_sublist
    rw [List.Nodup, List.pairwise_map]
    refine List.Pairwise.imp_of_mem ?_ hk'
    intro a b ha hb hab e
    obtain ⟨_, sa, _, _, _, _, ka, ia⟩ := hR.concretes a (List.mem_filter.1 ha).1
    obtain ⟨_, sb, _, _, _, _, kb, ib⟩ := hR.concretes b (List.mem_filter.1 hb).1
    apply hab
    rw [ka, kb, ← ia.symbol, ← ib.symbol, e]
  · intro s
    rw [hext.mem_iff]
    simp only [List.mem_map, List.mem_filter, decide_eq_true_eq]
    constructor
    · rintro ⟨e, ⟨he, hne⟩, rfl⟩
      obtain ⟨t, sy, p, hD, hti, hm, _, hI⟩ := hR.concretes e he
      rw [hI.symbol] at hne ⊢
      exact ⟨t, p, hD, hti, hm, hne⟩
    · rintro ⟨t, p, hD, hti, hm, hne⟩
      obtain ⟨e, he, hI⟩ := recorded_impl hR hRr (hdist false) hD hm
      rw [if_neg (by simp [hti])] at he
      exact ⟨e, ⟨he, by rw [hI.symbol]; exact hne⟩, hI.symbol⟩

/-- **C33**: two runs on the same packages, listed in different orders (packages, definitions) and with different orders of
map iteration, leave the same relationships in every description and give the same external symbols up to order. -/
theorem C33_order_independent {E : Ext} {scopes g h pkgs pkgs' all all' orders orders' r r'} (hcons : Consistent g all)
    (hsub : ∀ p ∈ pkgs, p ∈ all) (hsub' : ∀ p ∈ pkgs', p ∈ all') (hord : ValidOrders orders) (hord' : ValidOrders orders')
    (hdist : ∀ b, SymbolsDistinct scopes g b (side pkgs all b)) (hsame : SameListing pkgs pkgs')
    (hsameAll : SameListing all all') (hempty : ∀ ref, h ref = [])
    (hrun : addImplementations E scopes g h pkgs all orders = some r)
    (hrun' : addImplementations E scopes g h pkgs' all' orders' = some r') :
    (∀ ref, r.heap ref = r'.heap ref) ∧ r.external.Perm r'.external := by
  have hcons' := consistent_same hsameAll hcons
  have hdist' : ∀ b, SymbolsDistinct scopes g b (side pkgs' all' b) := by
    intro b t s p t' s' p' h1 h2
    exact hdist b _ _ _ _ _ _ (described_same (side_same hsame hsameAll b).symm h1)
      (described_same (side_same hsame hsameAll b).symm h2)
  have hheap : ∀ ref, r.heap ref = r'.heap ref := by
    intro ref
    obtain ⟨_, _, _, _, _, _, _, hs, _⟩ := run_spec hcons hsub hord hrun
    obtain ⟨_, _, _, _, _, _, _, hs', _⟩ := run_spec hcons' hsub' hord' hrun'
    have hn : StrictlySorted (h ref) := by rw [hempty]; exact List.Pairwise.nil
    apply sorted_ext (hs ref (.inl hn)) (hs' ref (.inl hn))
    intro x
    rw [heap_iff hcons hsub hord hdist hrun, heap_iff hcons' hsub' hord' hdist' hrun']
    constructor
    · rintro (hx | ⟨b, b', hb, hr⟩)
      · exact .inl hx
      · exact .inr ⟨b, b', hb, shouldRelate_same hsame hsameAll hr⟩
    · rintro (hx | ⟨b, b', hb, hr⟩)
      · exact .inl hx
      · exact .inr ⟨b, b', hb, shouldRelate_same hsame.symm hsameAll.symm hr⟩
  refine ⟨hheap, ?_⟩
  obtain ⟨n1, m1⟩ := external_iff hcons hsub hord hdist hrun
  obtain ⟨n2, m2⟩ := external_iff hcons' hsub' hord' hdist' hrun'
  rw [List.perm_ext_iff_of_nodup n1 n2]
  intro s
  rw [m1, m2]
  constructor
  · rintro ⟨t, p, h1, h2, h3, h4⟩
    exact ⟨t, p, described_same (remote_same hsame hsameAll) h1, h2, h3, by rw [← hheap]; exact h4⟩
  · rintro ⟨t, p, h1, h2, h3, h4⟩
    exact ⟨t, p, described_same (remote_same hsame hsameAll).symm h1, h2, h3, by rw [hheap]; exact h4⟩

/-! ### No crash -/

theorem methodMask_some (E : Ext) (hL : Fp.Spec.LexOk E.lex) : ∀ ms : List Method,
    (∀ m ∈ ms, Fp.Spec.Valid E.lex m.sig) → ∃ k, methodMask E ms = some k := by
  intro ms
  induction ms with
  | nil => intro _; exact ⟨_, rfl⟩
  | cons m ms ih =>
    intro h
    obtain ⟨s, b, he, _⟩ := C28_parse_infallible E.lex hL m.sig (h m (by simp))
    obtain ⟨k, hk⟩ := ih (fun n hn => h n (by simp [hn]))
    exact ⟨_, by rw [methodMask, he, hk]; rfl⟩

theorem methodSymbols_some (scopes : Scopes) (project : Bool) (sym : Str) : ∀ (ms : List Method) (g : Global) (acc),
    (∀ m ∈ ms, WellFormedObj m.obj ∧ ∃ s, m.obj.self.cls = .func s) →
    ∃ x, methodSymbols scopes project sym g ms acc = some x := by
  intro ms
  induction ms with
  | nil => intro g acc _; exact ⟨_, rfl⟩
  | cons m ms ih =>
    intro g acc h
    obtain ⟨hw, s, hs⟩ := h m (by simp)
    have hnp := (C20_classification scopes g m.obj hw).1 (by intro i hi; rw [hs] at hi; simp at hi)
    have ih := fun g acc => ih g acc (fun n hn => h n (by simp [hn]))
    unfold methodSymbols
    obtain ⟨g1, a, hga⟩ : ∃ g1 a, g.getSymbolOfObject scopes m.obj = (g1, a) := ⟨_, _, rfl⟩
    rw [hga] at hnp ⊢
    cases a with
    | panic => simp at hnp
    | error => exact ih _ _
    | skip => exact ih _ _
    | info i => exact ih _ _

/-- The signatures of all methods are types of a checked program. -/
def ValidSignatures (E : Ext) (all : List Pkg) : Prop := ∀ n ∈ methodSets all, ∀ m ∈ n.methods, Fp.Spec.Valid E.lex m.sig

theorem classify_some {E : Ext} (hL : Fp.Spec.LexOk E.lex) {g0 all scopes project t sy p} {s : State} (hcons : Consistent g0 all)
    (hv : ValidSignatures E all) (ht : t ∈ methodSets all) : ∃ s', classify E scopes project t sy p s = some s' := by
  unfold classify
  split
  · exact ⟨_, rfl⟩
  · obtain ⟨x, hx⟩ := methodSymbols_some scopes project sy.sym t.methods s.g []
      (fun m hm => ⟨hcons.wellFormed _ (mem_askedObjs ht hm), hcons.funcs t ht m hm⟩)
    obtain ⟨k, hk⟩ := methodMask_some E hL t.methods (hv t ht)
    rw [hx, hk]
    simp only [Option.bind_eq_bind, Option.bind_some, pure]
    split <;> exact ⟨_, rfl⟩

theorem extractPkg_some {E : Ext} (hL : Fp.Spec.LexOk E.lex) {g0 all scopes project} (hcons : Consistent g0 all)
    (hv : ValidSignatures E all) {p : Pkg} (hp : p ∈ all) (s : State) : ∃ s', extractPkg E scopes project p s = some s' := by
  have hdefs : ∀ (ds0 : List (Option TypeDef)), p.defs = some ds0 → ∀ (table : Table) (ds : List (Option TypeDef)) (s : State),
      (∀ d ∈ ds, d ∈ ds0) → ∃ s', extractDefs E scopes project p table ds s = some s' := by
    intro ds0 h0 table ds
    induction ds with
    | nil => intro s _; exact ⟨_, rfl⟩
    | cons x ds ih =>
      intro s hsub
      have ih := fun s => ih s (fun d hd => hsub d (by simp [hd]))
      cases x with
      | none => exact ih s
      | some d =>
        unfold extractDefs
        split
        · exact ih s
        · split
          · exact ih s
          · rename_i t ht
            split
            · exact ih s
            · rename_i i hi
              obtain ⟨s', hs'⟩ := classify_some (E := E) hL (scopes := scopes) (project := project) (s := s)
                (sy := ⟨.entry p.path d.obj.pos, i.symbol⟩) (p := p.path) hcons hv
                (mem_methodSets hp (by rw [h0]; exact List.mem_append_left _ (hsub _ (by simp))) ht)
              rw [hs']
              exact ih s'
  have hscope : ∀ (ds0 : List (Option TypeDef)), p.scope = some ds0 → ∀ (ds : List (Option TypeDef)) (s : State),
      (∀ d ∈ ds, d ∈ ds0) → ∃ s', extractScope E scopes project p ds s = some s' := by
    intro ds0 h0 ds
    induction ds with
    | nil => intro s _; exact ⟨_, rfl⟩
    | cons x ds ih =>
      intro s hsub
      have ih := fun s => ih s (fun d hd => hsub d (by simp [hd]))
      cases x with
      | none => exact ih s
      | some d =>
        unfold extractScope
        split
        · exact ih s
        · split
          · exact ih s
          · rename_i t ht
            dsimp only
            split
            · exact ih _
            · obtain ⟨s', hs'⟩ := classify_some (E := E) hL (scopes := scopes) (project := project)
                (s := { s with g := { s.g with composer := (s.g.composer.compose scopes (some p.module) (some (Obj.plain d.obj))).1 } })
                (sy := ⟨.type project (s.g.composer.compose scopes (some p.module) (some (Obj.plain d.obj))).2,
                  (s.g.composer.compose scopes (some p.module) (some (Obj.plain d.obj))).2⟩) (p := p.path) hcons hv
                (mem_methodSets hp (by rw [h0]; exact List.mem_append_right _ (hsub _ (by simp))) ht)
              rw [hs']
              exact ih s'
  unfold extractPkg
  split
  · exact ⟨_, rfl⟩
  · split
    · rename_i ds hds
      split
      · exact ⟨_, rfl⟩
      · exact hdefs ds hds _ ds s (fun _ h => h)
    · split
      · rename_i ds hds
        exact hscope ds hds ds s (fun _ h => h)
      · exact ⟨_, rfl⟩

theorem extract_some {E : Ext} (hL : Fp.Spec.LexOk E.lex) {g0 all scopes project} (hcons : Consistent g0 all)
    (hv : ValidSignatures E all) : ∀ (ps : List Pkg) (s : State), (∀ p ∈ ps, p ∈ all) →
    ∃ s', extractAll E scopes project ps s = some s' := by
  intro ps
  induction ps with
  | nil => intro s _; exact ⟨_, rfl⟩
  | cons p ps ih =>
    intro s h
    obtain ⟨s', hs'⟩ := extractPkg_some (E := E) hL (scopes := scopes) (project := project) hcons hv (h p (by simp)) s
    unfold extractAll
    rw [hs']
    exact ih s' (fun q hq => h q (by simp [hq]))

/-- The pass never crashes on packages the type checker accepted: the hypothesis `= some r` of the other theorems is met. -/
theorem C33_never_crashes (E : Ext) (hL : Fp.Spec.LexOk E.lex) (scopes g h) (pkgs all : List Pkg) (orders)
    (hcons : Consistent g all) (hsub : ∀ p ∈ pkgs, p ∈ all) (hv : ValidSignatures E all) :
    ∃ r, addImplementations E scopes g h pkgs all orders = some r := by
  unfold addImplementations
  obtain ⟨s, hs⟩ := extract_some (E := E) hL (scopes := scopes) (project := true) hcons hv pkgs ⟨g, [], []⟩ hsub
  rw [show extract E scopes true g pkgs = some s from hs]
  obtain ⟨s', hs'⟩ := extract_some (E := E) hL (scopes := scopes) (project := false) hcons hv (remotePackages pkgs all) ⟨s.g, [], []⟩
    (fun p hp => (List.mem_filter.1 hp).1)
  simp only
  rw [show extract E scopes false s.g (remotePackages pkgs all) = some s' from hs']
  exact ⟨_, rfl⟩

end Verif
