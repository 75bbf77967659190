import Verif.Spec.Places
/-! # Every place declares at most one entity -/
namespace Verif
open Spec Index

theorem placesList_append (a b : List Node) : placesList (a ++ b) = placesList a ++ placesList b := by
  induction a with
  | nil => rfl
  | cons n a ih => simp [placesList, ih]

theorem places_eq (n : Node) : places n = ownPlaces n ++ placesList (children n) := by
  cases n <;> simp [places, ownPlaces, children, placesList, placesList_append]

theorem mem_placesList {q : Nat} {ns : List Node} : q ∈ placesList ns ↔ ∃ n ∈ ns, q ∈ places n := by
  induction ns with
  | nil => simp [placesList]
  | cons n ns ih => simp [placesList, ih]

/-- Two members of a list that share a place are the same. -/
theorem same_of_place {ns : List Node} (h : (placesList ns).Nodup) {a b : Node} (ha : a ∈ ns) (hb : b ∈ ns) {q : Nat} (qa : q ∈ places a)
    (qb : q ∈ places b) : a = b := by
  induction ns with
  | nil => simp at ha
  | cons n ns ih =>
    rw [placesList, List.nodup_append] at h
    rcases List.mem_cons.1 ha with ea | ha' <;> rcases List.mem_cons.1 hb with eb | hb'
    · rw [ea, eb]
    · exact absurd rfl (h.2.2 q (ea ▸ qa) q (mem_placesList.2 ⟨b, hb', qb⟩))
    · exact absurd rfl (h.2.2 q (eb ▸ qb) q (mem_placesList.2 ⟨a, ha', qa⟩))
    · exact ih h.2.1 ha' hb'

/-- A place tells where in a list a node stands. -/
theorem split_of_place {ns : List Node} (h : (placesList ns).Nodup) {pre pre' post post' : List Node} {a b : Node} (ha : ns = pre ++ a :: post)
    (hb : ns = pre' ++ b :: post') {q : Nat} (qa : q ∈ places a) (qb : q ∈ places b) : pre = pre' ∧ a = b ∧ post = post' := by
  induction ns generalizing pre pre' with
  | nil => simp at ha
  | cons n ns ih =>
    rw [placesList, List.nodup_append] at h
    cases pre with
    | nil =>
      simp only [List.nil_append, List.cons.injEq] at ha
      obtain ⟨rfl, rfl⟩ := ha
      cases pre' with
      | nil =>
        simp only [List.nil_append, List.cons.injEq] at hb
        exact ⟨rfl, hb⟩
      | cons x pre' =>
        simp only [List.cons_append, List.cons.injEq] at hb
        exact absurd rfl (h.2.2 q qa q (mem_placesList.2 ⟨b, by rw [hb.2]; simp, qb⟩))
    | cons x pre =>
      simp only [List.cons_append, List.cons.injEq] at ha
      obtain ⟨rfl, ha⟩ := ha
      cases pre' with
      | nil =>
        simp only [List.nil_append, List.cons.injEq] at hb
        exact absurd rfl (h.2.2 q (hb.1 ▸ qb) q (mem_placesList.2 ⟨a, by rw [ha]; simp, qa⟩))
      | cons y pre' =>
        simp only [List.cons_append, List.cons.injEq] at hb
        obtain ⟨rfl, hb⟩ := hb
        obtain ⟨rfl, h2, h3⟩ := ih h.2.1 ha hb
        exact ⟨rfl, h2, h3⟩

theorem nodup_child {n c : Node} (h : (places n).Nodup) (hc : c ∈ children n) : (places c).Nodup := by
  rw [places_eq, List.nodup_append] at h
  have h := h.2.1
  generalize children n = ns at h hc
  induction ns with
  | nil => simp at hc
  | cons m ns ih =>
    rw [placesList, List.nodup_append] at h
    rcases List.mem_cons.1 hc with rfl | hc
    · exact h.1
    · exact ih h.2.1 hc

theorem nodup_children {n : Node} (h : (places n).Nodup) : (placesList (children n)).Nodup := by
  rw [places_eq, List.nodup_append] at h
  exact h.2.1

theorem place_child {n c : Node} (hc : c ∈ children n) {q : Nat} (hq : q ∈ places c) : q ∈ places n := by
  rw [places_eq, List.mem_append]
  exact .inr (mem_placesList.2 ⟨c, hc, hq⟩)

theorem place_own {n : Node} {q : Nat} (hq : q ∈ ownPlaces n) : q ∈ places n := by
  rw [places_eq, List.mem_append]
  exact .inl hq

theorem own_not_child {n c : Node} (h : (places n).Nodup) (hc : c ∈ children n) {q : Nat} (ho : q ∈ ownPlaces n) : q ∉ places c := by
  rw [places_eq, List.nodup_append] at h
  exact fun hq => h.2.2 q ho q (mem_placesList.2 ⟨c, hc, hq⟩) rfl

theorem nodup_own {n : Node} (h : (places n).Nodup) : (ownPlaces n).Nodup := by
  rw [places_eq, List.nodup_append] at h
  exact h.1

theorem nodup_member {ns : List Node} (h : (placesList ns).Nodup) {n : Node} (hn : n ∈ ns) : (places n).Nodup :=
  nodup_child (n := .other ns) (by simpa [places] using h) (by simpa [children] using hn)

theorem same_name {names : List Ident} (h : (names.map (·.pos)).Nodup) {i j : Ident} (hi : i ∈ names) (hj : j ∈ names) (e : i.pos = j.pos) : i = j := by
  induction names with
  | nil => simp at hi
  | cons n names ih =>
    rw [List.map_cons, List.nodup_cons] at h
    rcases List.mem_cons.1 hi with ei | hi' <;> rcases List.mem_cons.1 hj with ej | hj'
    · rw [ei, ej]
    · exact absurd (List.mem_map.2 ⟨j, hj', by rw [← e, ei]⟩) h.1
    · exact absurd (List.mem_map.2 ⟨i, hi', by rw [e, ej]⟩) h.1
    · exact ih h.2 hi' hj'

theorem HasField.child {t f : Node} (h : HasField t f) : f ∈ children t := by cases h <;> simpa [children]

theorem EmbeddedName.place {t : Node} {i : Ident} (h : EmbeddedName t i) : i.pos ∈ places t := by
  induction h with
  | ident => simp [places, ownPlaces]
  | selector => simp [places, ownPlaces]
  | star _ ih => simpa [places] using ih
  | index _ ih => simp [places, ih]
  | unary _ ih => simpa [places] using ih

theorem EmbeddedName.unique {t : Node} {i j : Ident} (h : EmbeddedName t i) (h' : EmbeddedName t j) : i = j := by
  induction h with
  | ident => cases h'; rfl
  | selector => cases h'; rfl
  | star _ ih => cases h' with | star h' => exact ih h'
  | index _ ih => cases h' with | index h' => exact ih h'
  | unary _ ih => cases h' with | unary h' => exact ih h'

theorem Reaches.place {t l : Node} (h : Reaches t l) {q : Nat} (hq : q ∈ places l) : q ∈ places t := by
  induction h with
  | struct => exact hq
  | iface => exact hq
  | mapKey _ ih => simp [places, ih hq]
  | mapValue _ ih => simp [places, ih hq]
  | array _ ih => simp [places, ih hq]
  | star _ ih => simpa [places] using ih hq

theorem Reaches.nodup {t l : Node} (h : Reaches t l) (hn : (places t).Nodup) : (places l).Nodup := by
  induction h with
  | struct => exact hn
  | iface => exact hn
  | mapKey _ ih => exact ih (nodup_child hn (by simp [children]))
  | mapValue _ ih => exact ih (nodup_child hn (by simp [children]))
  | array _ ih => exact ih (nodup_child hn (by simp [children]))
  | star _ ih => exact ih (nodup_child hn (by simp [children]))

theorem Reaches.unique {t l m : Node} (h : Reaches t l) (h' : Reaches t m) (hn : (places t).Nodup) {q : Nat} (ql : q ∈ places l) (qm : q ∈ places m) :
    l = m := by
  induction h with
  | struct => cases h'; rfl
  | iface => cases h'; rfl
  | @mapKey k v l hk ih =>
    cases h' with
    | mapKey h' => exact ih h' (nodup_child hn (by simp [children])) ql
    | mapValue h' =>
      rw [places, List.nodup_append] at hn
      exact absurd rfl (hn.2.2 q (Reaches.place hk ql) q (Reaches.place h' qm))
  | @mapValue k v l hk ih =>
    cases h' with
    | mapKey h' =>
      rw [places, List.nodup_append] at hn
      exact absurd rfl (hn.2.2 q (Reaches.place h' qm) q (Reaches.place hk ql))
    | mapValue h' => exact ih h' (nodup_child hn (by simp [children])) ql
  | array _ ih => cases h' with | array h' => exact ih h' (nodup_child hn (by simp [children])) ql
  | star _ ih => cases h' with | star h' => exact ih h' (nodup_child hn (by simp [children])) ql

section
variable {key : Node → Str} {isI : Bool}

theorem Member.place {t : Node} {o p : List Descriptor} {i : Ident} (h : Member key isI t o i p) : i.pos ∈ places t := by
  induction h with
  | named hf hi => exact place_child (HasField.child hf) (place_own (by simp only [ownPlaces, List.mem_append, List.mem_map]; exact .inl ⟨_, hi, rfl⟩))
  | embedded _ hf he => exact place_child (HasField.child hf) (by rw [places, List.mem_append]; exact .inr (EmbeddedName.place he))
  | embeddedLit _ hf _ ih => exact place_child (HasField.child hf) (by rw [places, List.mem_append]; exact .inr ih)
  | anon hf _ hr _ _ ih => exact place_child (HasField.child hf) (by rw [places, List.mem_append]; exact .inr (Reaches.place hr ih))

/-- The field of a type that a place lies in. -/
theorem field_unique {t f g : Node} (hn : (places t).Nodup) (hf : HasField t f) (hg : HasField t g) {q : Nat} (qf : q ∈ places f) (qg : q ∈ places g) :
    f = g := same_of_place (nodup_children hn) (HasField.child hf) (HasField.child hg) qf qg

theorem place_name {pos names typ d c} {i : Ident} (hi : i ∈ names) : i.pos ∈ ownPlaces (.field pos names typ d c) := by
  simp only [ownPlaces, List.mem_append, List.mem_map]; exact .inl ⟨_, hi, rfl⟩

theorem place_type {pos names typ d c} {q : Nat} (h : q ∈ places typ) : q ∈ places (.field pos names typ d c) :=
  place_child (by simp [children]) h

theorem names_nodup {pos names typ d c} (h : (places (.field pos names typ d c)).Nodup) : (names.map (·.pos)).Nodup := by
  have := nodup_own h
  simp only [ownPlaces, List.nodup_append] at this
  exact this.1

theorem name_not_type {pos names typ d c} (h : (places (.field pos names typ d c)).Nodup) {i : Ident} (hi : i ∈ names) : i.pos ∉ places typ :=
  own_not_child h (by simp [children]) (place_name hi)

theorem Member.unique {t : Node} {o p p' : List Descriptor} {i j : Ident} (h : Member key isI t o i p) (h' : Member key isI t o j p')
    (hn : (places t).Nodup) (e : i.pos = j.pos) : i = j ∧ p = p' := by
  induction h generalizing j p' with
  | @named t o pos names typ d c i hf hi =>
    have qf : i.pos ∈ places (.field pos names typ d c) := place_own (place_name hi)
    cases h' with
    | named hf' hj =>
      cases field_unique hn hf hf' qf (by rw [e]; exact place_own (place_name hj))
      cases same_name (names_nodup (nodup_child hn (HasField.child hf))) hi hj e
      exact ⟨rfl, rfl⟩
    | embedded _ hf' he =>
      cases field_unique hn hf hf' qf (by rw [e]; exact place_type (EmbeddedName.place he))
      simp at hi
    | embeddedLit _ hf' hm =>
      cases field_unique hn hf hf' qf (by rw [e]; exact place_type (Member.place hm))
      simp at hi
    | anon hf' _ hr _ hm =>
      have hq := Reaches.place hr (Member.place hm)
      cases field_unique hn hf hf' qf (by rw [e]; exact place_type hq)
      exact absurd (by rw [e]; exact hq) (name_not_type (nodup_child hn (HasField.child hf)) hi)
  | @embedded t o pos typ d c i hI hf he =>
    have qf : i.pos ∈ places (.field pos [] typ d c) := place_type (EmbeddedName.place he)
    cases h' with
    | named hf' hj =>
      cases field_unique hn hf hf' qf (by rw [e]; exact place_own (place_name hj))
      simp at hj
    | embedded _ hf' he' =>
      cases field_unique hn hf hf' qf (by rw [e]; exact place_type (EmbeddedName.place he'))
      cases EmbeddedName.unique he he'
      exact ⟨rfl, rfl⟩
    | embeddedLit hI' _ _ => rw [hI] at hI'; simp at hI'
    | anon hf' hne hr _ hm =>
      cases field_unique hn hf hf' qf (by rw [e]; exact place_type (Reaches.place hr (Member.place hm)))
      simp at hne
  | @embeddedLit t o pos typ d c i p hI hf hm ih =>
    have qf : i.pos ∈ places (.field pos [] typ d c) := place_type (Member.place hm)
    cases h' with
    | named hf' hj =>
      cases field_unique hn hf hf' qf (by rw [e]; exact place_own (place_name hj))
      simp at hj
    | embedded hI' _ _ => rw [hI] at hI'; simp at hI'
    | embeddedLit _ hf' hm' =>
      cases field_unique hn hf hf' qf (by rw [e]; exact place_type (Member.place hm'))
      exact ih hm' (nodup_child (nodup_child hn (HasField.child hf)) (by simp [children])) e
    | anon hf' hne hr _ hm' =>
      cases field_unique hn hf hf' qf (by rw [e]; exact place_type (Reaches.place hr (Member.place hm')))
      simp at hne
  | @anon t o pos names typ d c lit i p hf hne hr hk hm ih =>
    have hq := Reaches.place hr (Member.place hm)
    have qf : i.pos ∈ places (.field pos names typ d c) := place_type hq
    cases h' with
    | named hf' hj =>
      cases field_unique hn hf hf' qf (by rw [e]; exact place_own (place_name hj))
      exact absurd (by rw [← e]; exact hq) (name_not_type (nodup_child hn (HasField.child hf)) hj)
    | embedded _ hf' he =>
      cases field_unique hn hf hf' qf (by rw [e]; exact place_type (EmbeddedName.place he))
      simp at hne
    | embeddedLit _ hf' hm' =>
      cases field_unique hn hf hf' qf (by rw [e]; exact place_type (Member.place hm'))
      simp at hne
    | anon hf' _ hr' _ hm' =>
      cases field_unique hn hf hf' qf (by rw [e]; exact place_type (Reaches.place hr' (Member.place hm')))
      have ht : (places typ).Nodup := nodup_child (nodup_child hn (HasField.child hf)) (by simp [children])
      cases Reaches.unique hr hr' ht (Member.place hm) (by rw [e]; exact Member.place hm')
      exact ih hm' (Reaches.nodup hr ht) e

theorem TypeSpecDeclares.place {pkg : Str} {s : Node} {i : Ident} {p : List Descriptor} (h : TypeSpecDeclares key pkg s i p) : i.pos ∈ places s := by
  cases h with
  | name => exact place_own (by simp [ownPlaces])
  | member hm => exact place_child (c := _) (by simp [children]) (Member.place hm)

theorem TypeSpecDeclares.unique {pkg : Str} {s : Node} {i j : Ident} {p p' : List Descriptor} (h : TypeSpecDeclares key pkg s i p)
    (h' : TypeSpecDeclares key pkg s j p') (hn : (places s).Nodup) (e : i.pos = j.pos) : i = j ∧ p = p' := by
  cases h with
  | name =>
    cases h' with
    | name => exact ⟨rfl, rfl⟩
    | member hm => exact absurd (Member.place hm) (own_not_child hn (by simp [children]) (by simp [ownPlaces, e]))
  | member hm =>
    cases h' with
    | name => exact absurd (Member.place hm) (own_not_child hn (by simp [children]) (by simp [ownPlaces, e]))
    | member hm' => exact Member.unique hm hm' (nodup_child hn (by simp [children])) e

end

theorem ResultMethod.place {n : Node} {i : Ident} (h : ResultMethod n i) : i.pos ∈ places n := by
  induction h with
  | iface hf hi => exact place_child (c := _) (by simpa [children] using hf) (place_own (place_name hi))
  | result hr _ ih => exact place_child (c := _) (by simp [children, hr]) ih
  | field _ ih => exact place_type ih
  | struct hf _ ih => exact place_child (c := _) (by simpa [children] using hf) ih
  | selector _ ih => exact place_child (by simp [children]) ih
  | star _ ih => exact place_child (by simp [children]) ih
  | paren _ ih => exact place_child (by simp [children]) ih
  | indexX _ ih => exact place_child (c := _) (by simp [children]) ih
  | indexI hy _ ih => exact place_child (c := _) (by simp [children, hy]) ih
  | unary _ ih => exact place_child (by simp [children]) ih
  | arrayLen hy _ ih => exact place_child (c := _) (by simp [children, hy]) ih
  | arrayElt _ ih => exact place_child (c := _) (by simp [children]) ih
  | mapKey _ ih => exact place_child (c := _) (by simp [children]) ih
  | mapValue _ ih => exact place_child (c := _) (by simp [children]) ih
  | chan _ ih => exact place_child (by simp [children]) ih
  | other hy _ ih => exact place_child (c := _) (by simpa [children] using hy) ih

theorem mem_identifiersList_iff {i : Ident} {ns : List Node} : i ∈ identifiersList ns ↔ ∃ n ∈ ns, i ∈ identifiers n := by
  induction ns with
  | nil => simp [identifiersList]
  | cons n ns ih => simp [identifiersList, ih]

/-- The identifiers of a node itself. -/
def ownIdents : Node → List Ident
  | .ident i => [i]
  | .selector _ s => [s]
  | .field _ names _ _ _ => names
  | .importSpec _ name _ => name.toList
  | .typeSpec name _ _ _ => [name]
  | .valueSpec _ names _ _ _ _ => names
  | .funcDecl _ name _ _ _ _ _ => [name]
  | _ => []

theorem mem_identifiers_iff {n : Node} {i : Ident} : i ∈ identifiers n ↔ i ∈ ownIdents n ∨ i ∈ identifiersList (children n) := by
  simp only [mem_identifiersList_iff]
  cases n <;> simp [identifiers, ownIdents, children, mem_identifiersList_iff]
  case funcT => grind
  case valueSpec => grind
  case funcDecl => grind

theorem ownIdents_places {n : Node} : List.Sublist ((ownIdents n).map (·.pos)) (ownPlaces n) := by
  cases n <;> simp [ownIdents, ownPlaces]

/-- Identifiers have their own places. -/
theorem ident_place {n : Node} {i : Ident} (h : i ∈ identifiers n) : i.pos ∈ places n := by
  induction n using nodeInduction with
  | h n ih =>
    rcases mem_identifiers_iff.1 h with h | h
    · exact place_own (ownIdents_places.subset (List.mem_map_of_mem h))
    · obtain ⟨c, hc, h⟩ := mem_identifiersList_iff.1 h
      exact place_child hc (ih c hc h)

theorem ident_unique {n : Node} (hn : (places n).Nodup) {i j : Ident} (hi : i ∈ identifiers n) (hj : j ∈ identifiers n) (e : i.pos = j.pos) : i = j := by
  induction n using nodeInduction with
  | h n ih =>
    rcases mem_identifiers_iff.1 hi with h | h <;> rcases mem_identifiers_iff.1 hj with h' | h'
    · exact same_name ((nodup_own hn).sublist ownIdents_places) h h' e
    · obtain ⟨c, hc, h'⟩ := mem_identifiersList_iff.1 h'
      exact absurd (ident_place h') (e ▸ own_not_child hn hc (ownIdents_places.subset (List.mem_map_of_mem h)))
    · obtain ⟨c, hc, h⟩ := mem_identifiersList_iff.1 h
      exact absurd (ident_place h) (e ▸ own_not_child hn hc (ownIdents_places.subset (List.mem_map_of_mem h')))
    · obtain ⟨c, hc, h⟩ := mem_identifiersList_iff.1 h
      obtain ⟨c', hc', h'⟩ := mem_identifiersList_iff.1 h'
      cases same_of_place (nodup_children hn) hc hc' (ident_place h) (by rw [e]; exact ident_place h')
      exact ih c hc (nodup_child hn hc) h h'

theorem identifiers_up {i : Ident} {n c : Node} (hc : c ∈ children n) (h : i ∈ identifiers c) : i ∈ identifiers n :=
    mem_identifiers_iff.2 (.inr (mem_identifiersList_iff.2 ⟨_, hc, h⟩))

theorem ResultMethod.ident {n : Node} {i : Ident} (h : ResultMethod n i) : i ∈ identifiers n := by
  induction h with
  | @iface ms pos names typ d c i hf hi => exact identifiers_up (c := .field pos names typ d c) (by simpa [children] using hf) (mem_identifiers_iff.2 (.inl hi))
  | result hr _ ih => exact identifiers_up (c := _) (by simp [children, hr]) ih
  | field _ ih => exact identifiers_up (c := _) (by simp [children]) ih
  | struct hf _ ih => exact identifiers_up (c := _) (by simpa [children] using hf) ih
  | selector _ ih => exact identifiers_up (by simp [children]) ih
  | star _ ih => exact identifiers_up (by simp [children]) ih
  | paren _ ih => exact identifiers_up (by simp [children]) ih
  | indexX _ ih => exact identifiers_up (c := _) (by simp [children]) ih
  | indexI hy _ ih => exact identifiers_up (c := _) (by simp [children, hy]) ih
  | unary _ ih => exact identifiers_up (by simp [children]) ih
  | arrayLen hy _ ih => exact identifiers_up (c := _) (by simp [children, hy]) ih
  | arrayElt _ ih => exact identifiers_up (c := _) (by simp [children]) ih
  | mapKey _ ih => exact identifiers_up (c := _) (by simp [children]) ih
  | mapValue _ ih => exact identifiers_up (c := _) (by simp [children]) ih
  | chan _ ih => exact identifiers_up (by simp [children]) ih
  | other hy _ ih => exact identifiers_up (c := _) (by simpa [children] using hy) ih

theorem RecvExprBase.unique {n : Node} {a b : Str} (h : RecvExprBase n a) (h' : RecvExprBase n b) : a = b := by
  induction h with
  | ident => cases h'; rfl
  | star _ ih => cases h' with | star h' => exact ih h'
  | paren _ ih => cases h' with | paren h' => exact ih h'
  | index _ ih => cases h' with | index h' => exact ih h'

theorem RecvPath.unique {n : List Node} {a b : List Descriptor} (h : RecvPath n a) (h' : RecvPath n b) : a = b := by
  cases h with
  | func => cases h'; rfl
  | method h => cases h' with | method h' => rw [RecvExprBase.unique h h']

theorem FuncDeclares.place {pkg : Str} {d : Node} {i : Ident} {p : List Descriptor} (h : FuncDeclares pkg d i p) : i.pos ∈ places d := by
  cases h with
  | name => exact place_own (by simp [ownPlaces])
  | result _ hm => exact place_child (c := _) (by simp [children]) (ResultMethod.place hm)

theorem FuncDeclares.unique {pkg : Str} {d : Node} {i j : Ident} {p p' : List Descriptor} (h : FuncDeclares pkg d i p) (h' : FuncDeclares pkg d j p')
    (hn : (places d).Nodup) (e : i.pos = j.pos) : i = j ∧ p = p' := by
  cases h with
  | name hr =>
    cases h' with
    | name hr' => cases RecvPath.unique hr hr'; exact ⟨rfl, rfl⟩
    | result _ hm => exact absurd (ResultMethod.place hm) (own_not_child hn (by simp [children]) (by simp [ownPlaces, e]))
  | result hr hm =>
    cases h' with
    | name => exact absurd (ResultMethod.place hm) (own_not_child hn (by simp [children]) (by simp [ownPlaces, e]))
    | result hr' hm' =>
      cases RecvPath.unique hr hr'
      cases ident_unique (nodup_child hn (by simp [children])) (ResultMethod.ident hm) (ResultMethod.ident hm') e
      exact ⟨rfl, rfl⟩

section
variable {key : Node → Str} {sname : Nat → List Ident → Str}

theorem place_embedded {pos typ d c} : pos ∈ places (.field pos [] typ d c) := by
  by_cases h : pos ∈ (identifiers typ).map (·.pos)
  · obtain ⟨i, hi, rfl⟩ := List.mem_map.1 h
    exact place_type (ident_place hi)
  · exact place_own (by simp only [ownPlaces, List.map_nil, List.nil_append]; rw [if_pos ⟨trivial, h⟩]; simp)

theorem VarDeclares.place {o p : List Descriptor} {n : Node} {i : Ident} {q : Nat} (h : VarDeclares key sname o n i p q) : q ∈ places n := by
  induction h with
  | name hi => exact place_own (by simp only [ownPlaces, List.mem_map]; exact ⟨_, hi, rfl⟩)
  | inType _ ht _ _ ih => exact place_child (c := _) (by simp [children, ht]) ih
  | inValue _ _ hv _ ih => exact place_child (c := _) (by simp [children, hv]) ih
  | decl _ hs _ ih => exact place_child (c := _) (by simp [children, hs]) ih
  | named hi => exact place_own (place_name hi)
  | embedded _ => exact place_embedded
  | anon _ hr _ hf _ ih => exact place_type (Reaches.place hr (place_child (HasField.child hf) ih))
  | descend _ hc _ ih => exact place_child (by simp [hc]) ih

theorem VarDeclares.unique {o p p' : List Descriptor} {n : Node} {i j : Ident} {q : Nat} (h : VarDeclares key sname o n i p q)
    (h' : VarDeclares key sname o n j p' q) (hn : (places n).Nodup) : i = j ∧ p = p' := by
  have apart : ∀ {pos names typ vs d c q t v} {pre post : List Node}, (places (.valueSpec pos names typ vs d c)).Nodup → t ∈ typ → vs = pre ++ v :: post →
      q ∈ places t → q ∈ places v → False := by
    intro pos names typ vs d c q t v pre post hn ht hv qt qv
    obtain ⟨x, y, rfl⟩ := List.append_of_mem ht
    have h1 := nodup_children hn
    simp only [children] at h1
    have := (split_of_place h1 (pre := x) (post := y ++ vs) (pre' := x ++ t :: y ++ pre) (post' := post) (by simp) (by simp [hv]) qt qv).1
    have := congrArg List.length this
    simp at this
  induction h generalizing j p' with
  | @name o pos names typ vs d c i hi =>
    have own : ∀ {i : Ident}, i ∈ names → i.pos ∈ ownPlaces (.valueSpec pos names typ vs d c) := fun hi => by
      simp only [ownPlaces, List.mem_map]; exact ⟨_, hi, rfl⟩
    generalize hq : i.pos = q at h'
    cases h' with
    | name hj => cases same_name (names := names) (nodup_own hn) hi hj hq; exact ⟨rfl, rfl⟩
    | inType _ ht _ hm => exact absurd (VarDeclares.place hm) (own_not_child hn (by simp [children, ht]) (hq ▸ own hi))
    | inValue _ _ hv hm => exact absurd (VarDeclares.place hm) (own_not_child hn (by simp [children, hv]) (hq ▸ own hi))
    | descend hp => simp [isPlain] at hp
  | @inType o pos names typ t vs d c i p q hne ht hopen hm ih =>
    have hc : t ∈ children (.valueSpec pos names typ vs d c) := by simp [children, ht]
    cases h' with
    | name hj => exact absurd (VarDeclares.place hm) (own_not_child hn hc (by simp only [ownPlaces, List.mem_map]; exact ⟨_, hj, rfl⟩))
    | inType _ ht' _ hm' =>
      cases same_of_place (nodup_children hn) hc (by simp [children, ht']) (VarDeclares.place hm) (VarDeclares.place hm')
      exact ih hm' (nodup_child hn hc)
    | inValue _ _ hv hm' => exact (apart hn ht hv (VarDeclares.place hm) (VarDeclares.place hm')).elim
    | descend hp => simp [isPlain] at hp
  | @inValue o pos names typ vs pre v post d c i p q hne hh hv hm ih =>
    have hc : v ∈ children (.valueSpec pos names typ vs d c) := by simp [children, hv]
    cases h' with
    | name hj => exact absurd (VarDeclares.place hm) (own_not_child hn hc (by simp only [ownPlaces, List.mem_map]; exact ⟨_, hj, rfl⟩))
    | inType _ ht' _ hm' => exact (apart hn ht' hv (VarDeclares.place hm') (VarDeclares.place hm)).elim
    | @inValue _ _ _ _ _ pre' v' post' _ _ _ _ _ _ _ hv' hm' =>
      have h1 := nodup_children hn
      simp only [children] at h1
      obtain ⟨e, rfl, _⟩ := split_of_place h1 (pre := typ ++ pre) (post := post) (pre' := typ ++ pre') (post' := post') (by simp [hv]) (by simp [hv'])
        (VarDeclares.place hm) (VarDeclares.place hm')
      rw [← List.append_cancel_left e] at hm'
      exact ih hm' (nodup_child hn hc)
    | descend hp => simp [isPlain] at hp
  | @decl o tok specs pre s post doc i p q _ hs hm ih =>
    have hc : s ∈ children (.genDecl tok specs doc) := by simp [children, hs]
    cases h' with
    | decl _ hs' hm' =>
      have h1 := nodup_children hn
      simp only [children] at h1
      obtain ⟨rfl, rfl, _⟩ := split_of_place h1 hs hs' (VarDeclares.place hm) (VarDeclares.place hm')
      exact ih hm' (nodup_child hn hc)
    | descend hp => simp [isPlain] at hp
  | named hi =>
    generalize hq : Ident.pos _ = q at h'
    cases h' with
    | named hj => cases same_name (names_nodup hn) hi hj hq; exact ⟨rfl, rfl⟩
    | embedded => simp at hi
    | anon _ hr _ hf hm =>
      exact absurd (Reaches.place hr (place_child (HasField.child hf) (VarDeclares.place hm))) (hq ▸ name_not_type hn hi)
    | descend hp => simp [isPlain] at hp
  | embedded he =>
    cases h' with
    | named hj => simp at hj
    | embedded he' => cases EmbeddedName.unique he he'; exact ⟨rfl, rfl⟩
    | anon hne => simp at hne
    | descend hp => simp [isPlain] at hp
  | anon hne hr hk hf hm ih =>
    have ht := nodup_child hn (c := _) (List.mem_singleton.2 rfl)
    have ql := place_child (HasField.child hf) (VarDeclares.place hm)
    cases h' with
    | named hj => exact absurd (Reaches.place hr ql) (name_not_type hn hj)
    | embedded => simp at hne
    | anon _ hr' _ hf' hm' =>
      cases Reaches.unique hr hr' ht ql (place_child (HasField.child hf') (VarDeclares.place hm'))
      have hl := Reaches.nodup hr ht
      cases field_unique hl hf hf' (VarDeclares.place hm) (VarDeclares.place hm')
      exact ih hm' (nodup_child hl (HasField.child hf))
    | descend hp => simp [isPlain] at hp
  | descend hp hc hm ih =>
    cases h' with
    | name => simp [isPlain] at hp
    | inType => simp [isPlain] at hp
    | inValue => simp [isPlain] at hp
    | decl => simp [isPlain] at hp
    | named => simp [isPlain] at hp
    | embedded => simp [isPlain] at hp
    | anon => simp [isPlain] at hp
    | descend _ hc' hm' =>
      obtain ⟨rfl, rfl, _⟩ := split_of_place (nodup_children hn) hc hc' (VarDeclares.place hm) (VarDeclares.place hm')
      exact ih hm' (nodup_child hn (by simp [hc]))

end

/-! ## Declarations and packages -/

theorem DeclsDeclare.decl {env : PkgEnv} {decls : List Node} {i : Ident} {p : List Descriptor} {q : Nat} (h : DeclsDeclare env decls i p q) :
    ∃ d ∈ decls, q ∈ places d := by
  cases h with
  | typ h =>
    obtain ⟨tok, specs, doc, spec, hd, hs, ht⟩ := h
    exact ⟨_, hd, place_child (c := spec) (by simpa [children] using hs) (TypeSpecDeclares.place ht)⟩
  | func hd h => exact ⟨_, hd, FuncDeclares.place h⟩
  | var hd _ h => exact ⟨_, hd, VarDeclares.place h⟩

theorem TypeSpecDeclares.spec {key : Node → Str} {pkg : Str} {s : Node} {i : Ident} {p : List Descriptor} (h : TypeSpecDeclares key pkg s i p) :
    ∃ n tps typ d, s = .typeSpec n tps typ d := by cases h <;> exact ⟨_, _, _, _, rfl⟩

theorem DeclsDeclare.unique {env : PkgEnv} {decls : List Node} (hn : (placesList decls).Nodup) (hv : ValueSpecs decls) {i j : Ident}
    {p p' : List Descriptor} {q : Nat} (h : DeclsDeclare env decls i p q) (h' : DeclsDeclare env decls j p' q) : i = j ∧ p = p' := by
  generalize hq : q = q' at h'
  have no : ∀ {tok specs doc n tps typ d}, .genDecl tok specs doc ∈ decls → tok = .var ∨ tok = .const → .typeSpec n tps typ d ∉ specs := by
    intro tok specs doc n tps typ d hd ht hs
    obtain ⟨_, _, _, _, _, _, e⟩ := hv _ _ _ hd ht _ hs
    simp at e
  cases h with
  | typ h =>
    obtain ⟨tok, specs, doc, spec, hd, hs, ht⟩ := h
    have hs' : spec ∈ children (.genDecl tok specs doc) := by simpa [children] using hs
    have qd := place_child hs' (TypeSpecDeclares.place ht)
    cases h' with
    | typ h =>
      obtain ⟨tok', specs', doc', spec', hd', hsp, ht'⟩ := h
      have hsp' : spec' ∈ children (.genDecl tok' specs' doc') := by simpa [children] using hsp
      cases same_of_place hn hd hd' qd (by rw [hq]; exact place_child hsp' (TypeSpecDeclares.place ht'))
      have hg := nodup_member hn hd
      cases same_of_place (nodup_children hg) hs' hsp' (TypeSpecDeclares.place ht) (by rw [hq]; exact TypeSpecDeclares.place ht')
      exact TypeSpecDeclares.unique ht ht' (nodup_child hg hs') hq
    | func hd' h =>
      cases same_of_place hn hd hd' qd (by rw [hq]; exact FuncDeclares.place h)
      cases h
    | var hd' htok h =>
      cases same_of_place hn hd hd' qd (by rw [hq]; exact VarDeclares.place h)
      obtain ⟨_, _, _, _, rfl⟩ := TypeSpecDeclares.spec ht
      exact absurd hs (no hd htok)
  | func hd h =>
    cases h' with
    | typ h' =>
      obtain ⟨tok', specs', doc', spec', hd', hsp, ht'⟩ := h'
      have hsp' : spec' ∈ children (.genDecl tok' specs' doc') := by simpa [children] using hsp
      cases same_of_place hn hd hd' (FuncDeclares.place h) (by rw [hq]; exact place_child hsp' (TypeSpecDeclares.place ht'))
      cases h
    | func hd' h' =>
      cases same_of_place hn hd hd' (FuncDeclares.place h) (by rw [hq]; exact FuncDeclares.place h')
      exact FuncDeclares.unique h h' (nodup_member hn hd) hq
    | var hd' htok h' =>
      cases same_of_place hn hd hd' (FuncDeclares.place h) (by rw [hq]; exact VarDeclares.place h')
      cases h
  | var hd htok h =>
    cases h' with
    | typ h' =>
      obtain ⟨tok', specs', doc', spec', hd', hsp, ht'⟩ := h'
      have hsp' : spec' ∈ children (.genDecl tok' specs' doc') := by simpa [children] using hsp
      cases same_of_place hn hd hd' (VarDeclares.place h) (by rw [hq]; exact place_child hsp' (TypeSpecDeclares.place ht'))
      obtain ⟨_, _, _, _, rfl⟩ := TypeSpecDeclares.spec ht'
      exact absurd hsp (no hd htok)
    | func hd' h' =>
      cases same_of_place hn hd hd' (VarDeclares.place h) (by rw [hq]; exact FuncDeclares.place h')
      cases h'
    | var hd' htok' h' =>
      cases same_of_place hn hd hd' (VarDeclares.place h) (by rw [hq]; exact VarDeclares.place h')
      subst hq
      exact VarDeclares.unique h h' (nodup_member hn hd)

theorem PackageDeclares.place {env : PkgEnv} {files : List Node} {i : Ident} {p : List Descriptor} {q : Nat} (h : PackageDeclares env files i p q) :
    ∃ name decls, .file name decls ∈ files ∧ DeclsDeclare env decls i p q ∧ q ∈ placesList decls := by
  obtain ⟨name, decls, hf, h⟩ := h
  exact ⟨name, decls, hf, h, mem_placesList.2 (DeclsDeclare.decl h)⟩

/-- At each place of a parsed package at most one entity is declared. -/
theorem PackageDeclares.unique {env : PkgEnv} {files : List Node} (hn : (placesList files).Nodup)
    (hv : ∀ name decls, .file name decls ∈ files → ValueSpecs decls) {i j : Ident} {p p' : List Descriptor} {q : Nat}
    (h : PackageDeclares env files i p q) (h' : PackageDeclares env files j p' q) : i = j ∧ p = p' := by
  obtain ⟨name, decls, hf, h, hq⟩ := PackageDeclares.place h
  obtain ⟨name', decls', hf', h', hq'⟩ := PackageDeclares.place h'
  have up : ∀ {name decls}, q ∈ placesList decls → q ∈ places (.file name decls) := fun h => by simp [places, h]
  cases same_of_place hn hf hf' (up hq) (up hq')
  exact DeclsDeclare.unique (by simpa [children] using nodup_children (nodup_member hn hf)) (hv _ _ hf) h h'

theorem PackageDeclares.not_clause {env : PkgEnv} {files : List Node} (hn : (placesList files).Nodup) {name : Ident} {decls : List Node}
    (hf : .file name decls ∈ files) {i : Ident} {p : List Descriptor} : ¬ PackageDeclares env files i p name.pos := by
  intro h
  obtain ⟨name', decls', hf', h', hq⟩ := PackageDeclares.place h
  cases same_of_place hn hf hf' (q := name.pos) (place_own (by simp [ownPlaces])) (by simp [places, hq])
  have := nodup_member hn hf
  rw [places, List.nodup_append] at this
  exact this.2.2 name.pos (by simp [ownPlaces]) _ hq rfl

theorem DeclaredAs.place {p : Package} {q : Nat} {sym : Str} (h : DeclaredAs p q sym) : q ∈ placesList (p.files.map SourceFile.node) := by
  rcases h with ⟨i, ds, h, _⟩ | ⟨f, hf, rfl, _⟩
  · obtain ⟨name, decls, hf, _, hq⟩ := PackageDeclares.place h
    exact mem_placesList.2 ⟨_, hf, by simp [places, hq]⟩
  · exact mem_placesList.2 ⟨f.node, List.mem_map_of_mem (List.mem_of_head? hf), place_own (by simp [SourceFile.node, ownPlaces])⟩

/-! ## Documentation -/

theorem Below.trans {a b c : Node} (h : Below a b) (h' : Below b c) : Below a c := by
  induction h with
  | refl => exact h'
  | child hc _ ih => exact .child hc (ih h')

/-- `i` is the name of a field below `n`. -/
def FieldBelow (n : Node) (i : Ident) : Prop :=
  ∃ pos names typ d c, Below n (.field pos names typ d c) ∧ (i ∈ names ∨ names = [] ∧ EmbeddedName typ i)

theorem FieldBelow.child {n c : Node} {i : Ident} (hc : c ∈ children n) (h : FieldBelow c i) : FieldBelow n i := by
  obtain ⟨pos, names, typ, d, c', hb, hi⟩ := h
  exact ⟨pos, names, typ, d, c', .child hc hb, hi⟩

theorem FieldBelow.reaches {t l : Node} {i : Ident} (h : Reaches t l) (hf : FieldBelow l i) : FieldBelow t i := by
  induction h with
  | struct => exact hf
  | iface => exact hf
  | mapKey _ ih => exact FieldBelow.child (by simp [children]) (ih hf)
  | mapValue _ ih => exact FieldBelow.child (by simp [children]) (ih hf)
  | array _ ih => exact FieldBelow.child (by simp [children]) (ih hf)
  | star _ ih => exact FieldBelow.child (by simp [children]) (ih hf)

theorem Member.field {key : Node → Str} {isI : Bool} {t : Node} {o p : List Descriptor} {i : Ident} (h : Member key isI t o i p) : FieldBelow t i := by
  induction h with
  | named hf hi => exact ⟨_, _, _, _, _, .child (HasField.child hf) (.refl _), .inl hi⟩
  | embedded _ hf he => exact ⟨_, _, _, _, _, .child (HasField.child hf) (.refl _), .inr ⟨rfl, he⟩⟩
  | embeddedLit _ hf _ ih => exact FieldBelow.child (HasField.child hf) (FieldBelow.child (by simp [children]) ih)
  | anon hf _ hr _ _ ih => exact FieldBelow.child (HasField.child hf) (FieldBelow.child (by simp [children]) (FieldBelow.reaches hr ih))

theorem ResultMethod.field' {n : Node} {i : Ident} (h : ResultMethod n i) : FieldBelow n i := by
  induction h with
  | @iface ms pos names typ d c i hf hi => exact ⟨pos, names, typ, d, c, .child (by simpa [children] using hf) (.refl _), .inl hi⟩
  | result hr _ ih => exact FieldBelow.child (by simp [children, hr]) ih
  | field _ ih => exact FieldBelow.child (by simp [children]) ih
  | struct hf _ ih => exact FieldBelow.child (by simpa [children] using hf) ih
  | selector _ ih => exact FieldBelow.child (by simp [children]) ih
  | star _ ih => exact FieldBelow.child (by simp [children]) ih
  | paren _ ih => exact FieldBelow.child (by simp [children]) ih
  | indexX _ ih => exact FieldBelow.child (by simp [children]) ih
  | indexI hy _ ih => exact FieldBelow.child (by simp [children, hy]) ih
  | unary _ ih => exact FieldBelow.child (by simp [children]) ih
  | arrayLen hy _ ih => exact FieldBelow.child (by simp [children, hy]) ih
  | arrayElt _ ih => exact FieldBelow.child (by simp [children]) ih
  | mapKey _ ih => exact FieldBelow.child (by simp [children]) ih
  | mapValue _ ih => exact FieldBelow.child (by simp [children]) ih
  | chan _ ih => exact FieldBelow.child (by simp [children]) ih
  | other hy _ ih => exact FieldBelow.child (by simpa [children] using hy) ih

theorem NoneDeclared.noDecl {n : Node} (h : NoneDeclared n) : NoDecl n := by
  induction h with
  | mk h _ _ ih => exact .mk h ih

theorem NoneDeclared.child {n c : Node} (h : NoneDeclared n) (hc : c ∈ children n) : NoneDeclared c := by
  cases h with
  | mk _ _ h => exact h c hc

theorem NoneDeclared.reaches {t l : Node} (h : Reaches t l) (hn : NoneDeclared t) : NoneDeclared l := by
  induction h with
  | struct => exact hn
  | iface => exact hn
  | mapKey _ ih => exact ih (NoneDeclared.child hn (by simp [children]))
  | mapValue _ ih => exact ih (NoneDeclared.child hn (by simp [children]))
  | array _ ih => exact ih (NoneDeclared.child hn (by simp [children]))
  | star _ ih => exact ih (NoneDeclared.child hn (by simp [children]))

theorem VarDeclares.field {key : Node → Str} {sname : Nat → List Ident → Str} {o p : List Descriptor} {n : Node} {i : Ident} {q : Nat}
    (h : VarDeclares key sname o n i p q) (hn : NoneDeclared n) : FieldBelow n i := by
  induction h with
  | name => cases hn with | mk _ h _ => exact absurd rfl (h _ _ _ _ _ _)
  | inType => cases hn with | mk _ h _ => exact absurd rfl (h _ _ _ _ _ _)
  | inValue => cases hn with | mk _ h _ => exact absurd rfl (h _ _ _ _ _ _)
  | decl ht =>
    cases hn with
    | mk h _ _ => exact absurd ht (by simpa using h _ _ _ rfl)
  | named hi => exact ⟨_, _, _, _, _, .refl _, .inl hi⟩
  | embedded he => exact ⟨_, _, _, _, _, .refl _, .inr ⟨rfl, he⟩⟩
  | anon _ hr _ hf _ ih =>
    have hl := NoneDeclared.reaches hr (NoneDeclared.child hn (by simp [children]))
    exact FieldBelow.child (by simp [children]) (FieldBelow.reaches hr (FieldBelow.child (HasField.child hf) (ih (NoneDeclared.child hl (HasField.child hf)))))
  | descend _ hc _ ih => exact FieldBelow.child (by simp [hc]) (ih (NoneDeclared.child hn (by simp [hc])))

theorem FieldBelow.documented {decls : List Node} {d : Node} {i : Ident} (hd : d ∈ decls) (h : FieldBelow d i) : ∃ docs, DocumentedAs decls i docs := by
  obtain ⟨pos, names, typ, own, c, hb, hi⟩ := h
  exact ⟨_, .field hd hb hi⟩

/-- Every declared entity has comments of its own. -/
theorem DeclsDeclare.documented {env : PkgEnv} {decls : List Node} (hv : ValueSpecs decls) (hnest : NoNestedDeclarations decls) {i : Ident}
    {p : List Descriptor} {q : Nat} (h : DeclsDeclare env decls i p q) : ∃ docs, DocumentedAs decls i docs := by
  cases h with
  | typ h =>
    obtain ⟨tok, specs, doc, spec, hd, hs, ht⟩ := h
    cases ht with
    | name n tps typ d => exact ⟨_, .typ hd hs⟩
    | member hm =>
      exact FieldBelow.documented hd (FieldBelow.child (by simpa [children] using hs) (FieldBelow.child (by simp [children]) (Member.field hm)))
  | func hd h =>
    cases h with
    | name => exact ⟨_, .func hd⟩
    | result _ hm => exact FieldBelow.documented hd (FieldBelow.child (by simp [children]) (ResultMethod.field' hm))
  | @var tok specs doc i p q hd htok h =>
    cases h with
    | @decl _ _ _ _ s _ _ _ _ _ _ hsp h =>
      have hs : s ∈ specs := by simp [hsp]
      obtain ⟨pos, names, typ, vs, d, c, rfl⟩ := hv _ _ _ hd htok _ hs
      have none : ∀ {c'}, c' ∈ children (.valueSpec pos names typ vs d c) → NoneDeclared c' := hnest _ _ _ hd htok _ hs _
      cases h with
      | name hi =>
        clear hsp
        obtain ⟨pre, post, rfl⟩ := List.append_of_mem hs
        refine ⟨_, .value hd htok hi fun s hs' => ?_⟩
        have hs'' : s ∈ pre ++ Node.valueSpec pos names typ vs d c :: post := List.mem_append_left _ hs'
        obtain ⟨pos', names', typ', vs', d', c', rfl⟩ := hv _ _ _ hd htok _ hs''
        exact .mk (by simp) fun c' hc' => NoneDeclared.noDecl (hnest _ _ _ hd htok _ hs'' _ hc')
      | @inType _ _ _ _ t _ _ _ _ _ _ _ ht _ h =>
        have hc : t ∈ children (.valueSpec pos names typ vs d c) := by simp only [children, List.mem_append]; exact .inl ht
        exact FieldBelow.documented hd (FieldBelow.child (by simpa [children] using hs) (FieldBelow.child hc (VarDeclares.field h (none hc))))
      | @inValue _ _ _ _ _ _ v _ _ _ _ _ _ _ _ hvs h =>
        have hc : v ∈ children (.valueSpec pos names typ vs d c) := by simp [children, hvs]
        exact FieldBelow.documented hd (FieldBelow.child (by simpa [children] using hs) (FieldBelow.child hc (VarDeclares.field h (none hc))))
      | descend hp => simp [isPlain] at hp
    | descend hp => simp [isPlain] at hp

end Verif
