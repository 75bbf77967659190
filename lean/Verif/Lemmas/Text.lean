import Verif.Spec.Text
import Verif.Lemmas.Unicode
import Verif.Lemmas.Trim
import Verif.Lemmas.Filepath
import Verif.Lemmas.Digits
import Verif.Model.Wire
/-! # UTF-8 texts -/
namespace Verif
open Spec Unicode

theorem text_nil : Text [] := ⟨[], by simp, rfl⟩

theorem text_utf8 {r : Nat} (h : Scalar r) : Text (utf8 r) := ⟨[r], by simpa using h, by simp⟩

theorem text_append {a b : Str} (ha : Text a) (hb : Text b) : Text (a ++ b) := by
  obtain ⟨rs, h1, rfl⟩ := ha
  obtain ⟨ss, h2, rfl⟩ := hb
  exact ⟨rs ++ ss, fun r hr => (List.mem_append.1 hr).elim (h1 r) (h2 r), by simp⟩

theorem utf8_ascii {c : Char} (h : c.toNat < 128) : utf8 c.toNat = [c] := by
  rw [utf8, if_pos h, byte_of_toNat]

theorem text_char {c : Char} (h : c.toNat < 128) : Text [c] := by
  rw [← utf8_ascii h]
  exact text_utf8 (.inl (by omega))

theorem text_cons {c : Char} {s : Str} (h : c.toNat < 128) (hs : Text s) : Text (c :: s) := text_append (text_char h) hs

theorem text_ascii {s : Str} (h : ∀ c ∈ s, c.toNat < 128) : Text s := by
  induction s with
  | nil => exact text_nil
  | cons c s ih => exact text_cons (h c (by simp)) (ih fun x hx => h x (by simp [hx]))

theorem text_ascii' {s : Str} (h : s.all (fun c => c.toNat < 128) = true) : Text s :=
  text_ascii fun c hc => by simpa using List.all_eq_true.1 h c hc

theorem text_flatten {l : List Str} (h : ∀ s ∈ l, Text s) : Text l.flatten := by
  induction l with
  | nil => exact text_nil
  | cons a l ih => exact text_append (h a (by simp)) (ih fun x hx => h x (by simp [hx]))

theorem text_flatMap {α : Type} {l : List α} {f : α → Str} (h : ∀ s ∈ l, Text (f s)) : Text (l.flatMap f) := by
  rw [List.flatMap_def]
  exact text_flatten (by simpa using h)

/-- Induction over the characters of a text. -/
theorem text_induction {P : Str → Prop} (h0 : P []) (h1 : ∀ r s, Scalar r → Text s → P s → P (utf8 r ++ s)) {s : Str} (h : Text s) : P s := by
  obtain ⟨rs, hr, rfl⟩ := h
  induction rs with
  | nil => exact h0
  | cons r rs ih =>
    rw [List.flatMap_cons]
    have hr' : ∀ x ∈ rs, Scalar x := fun x hx => hr x (by simp [hx])
    exact h1 r _ (hr r (by simp)) ⟨rs, hr', rfl⟩ (ih hr')

/-- A byte in the middle of a character. -/
def continuation (c : Char) : Bool := decide (128 ≤ c.toNat) && decide (c.toNat < 192)

theorem scalar_lt {r : Nat} (h : Scalar r) : r < 0x110000 := by unfold Scalar at h; omega

/-- The encoding of a character is a byte that is no continuation byte, and then continuation bytes. -/
theorem utf8_shape {r : Nat} (h : Scalar r) : ∃ c t, utf8 r = c :: t ∧ continuation c = false ∧ ∀ x ∈ t, continuation x = true := by
  have hr := scalar_lt h
  have hc : ∀ n, n < 64 → continuation (byte (0x80 + n)) = true := by
    intro n hn
    unfold continuation
    rw [byte_toNat (by omega)]
    simp; omega
  have hl : ∀ n, n < 256 → (n < 128 ∨ 192 ≤ n) → continuation (byte n) = false := by
    intro n hn h
    unfold continuation
    rw [byte_toNat hn]
    simp; omega
  unfold utf8
  split
  · exact ⟨_, _, rfl, hl _ (by omega) (by omega), by simp⟩
  · split
    · refine ⟨_, _, rfl, hl _ (by omega) (by omega), ?_⟩
      simp only [List.mem_singleton]
      rintro x rfl
      exact hc _ (by omega)
    · split
      · refine ⟨_, _, rfl, hl _ (by omega) (by omega), ?_⟩
        simp only [List.mem_cons, List.not_mem_nil, or_false]
        rintro x (rfl | rfl) <;> exact hc _ (by omega)
      · refine ⟨_, _, rfl, hl _ (by omega) (by omega), ?_⟩
        simp only [List.mem_cons, List.not_mem_nil, or_false]
        rintro x (rfl | rfl | rfl) <;> exact hc _ (by omega)

theorem utf8_not_ascii {r : Nat} (h : Scalar r) (h1 : ¬ r < 128) : ∀ c ∈ utf8 r, 128 ≤ c.toNat := by
  have hr := scalar_lt h
  unfold utf8
  rw [if_neg h1]
  have hb : ∀ n, n < 256 → 128 ≤ n → 128 ≤ (byte n).toNat := fun n h1 h2 => by rw [byte_toNat h1]; exact h2
  split
  · simp only [List.mem_cons, List.not_mem_nil, or_false]
    rintro x (rfl | rfl) <;> exact hb _ (by omega) (by omega)
  · split
    · simp only [List.mem_cons, List.not_mem_nil, or_false]
      rintro x (rfl | rfl | rfl) <;> exact hb _ (by omega) (by omega)
    · simp only [List.mem_cons, List.not_mem_nil, or_false]
      rintro x (rfl | rfl | rfl | rfl) <;> exact hb _ (by omega) (by omega)

/-- A text starts with no continuation byte. -/
theorem text_head {s : Str} (h : Text s) : ∀ c, s.head? = some c → continuation c = false := by
  refine text_induction (P := fun s => ∀ c, s.head? = some c → continuation c = false) ?_ ?_ h
  · simp
  · intro r s hr _ _ c hc
    obtain ⟨a, t, h1, h2, _⟩ := utf8_shape hr
    rw [h1] at hc
    simp only [List.cons_append, List.head?_cons, Option.some.injEq] at hc
    exact hc ▸ h2

/-- A text may be cut before every byte that is no continuation byte. -/
theorem text_cut {a b : Str} (h : Text (a ++ b)) (hb : ∀ c, b.head? = some c → continuation c = false) : Text a ∧ Text b := by
  have key : ∀ s, Text s → ∀ a, s = a ++ b → Text a ∧ Text b := by
    intro s hs
    refine text_induction (P := fun s => ∀ a, s = a ++ b → Text a ∧ Text b) ?_ ?_ hs
    · intro a ha
      obtain ⟨rfl, rfl⟩ := List.append_eq_nil_iff.1 ha.symm
      exact ⟨text_nil, text_nil⟩
    · intro r s hr hs ih a ha
      rcases List.append_eq_append_iff.1 ha with ⟨x, h1, h2⟩ | ⟨x, h1, h2⟩
      · obtain ⟨h3, h4⟩ := ih x h2
        exact ⟨h1 ▸ text_append (text_utf8 hr) h3, h4⟩
      · cases x with
        | nil =>
          simp only [List.append_nil] at h1
          simp only [List.nil_append] at h2
          exact ⟨h1 ▸ text_utf8 hr, h2 ▸ hs⟩
        | cons c x =>
          have hc := hb c (by rw [h2]; rfl)
          obtain ⟨d, t, h3, h4, h5⟩ := utf8_shape hr
          rw [h3] at h1
          cases a with
          | nil => exact ⟨text_nil, by rw [h2, ← List.nil_append (c :: x), ← h1, ← h3]; exact text_append (text_utf8 hr) hs⟩
          | cons e a =>
            simp only [List.cons_append, List.cons.injEq] at h1
            have := h5 c (by rw [h1.2]; simp)
            rw [hc] at this
            simp at this
  exact key _ h a rfl

theorem text_drop {a b : Str} (h : Text (a ++ b)) (ha : Text a) : Text b := by
  have key : ∀ a, Text a → ∀ b, Text (a ++ b) → Text b := by
    intro a ha
    refine text_induction (P := fun a => ∀ b, Text (a ++ b) → Text b) ?_ ?_ ha
    · exact fun b hb => hb
    · intro r s hr _ ih b hb
      rw [List.append_assoc] at hb
      obtain ⟨rs, h1, h2⟩ := hb
      cases rs with
      | nil =>
        obtain ⟨c, t, h3, _⟩ := utf8_shape hr
        rw [h3] at h2
        simp at h2
      | cons r' rs =>
        rw [List.flatMap_cons] at h2
        have e1 := firstRune_utf8 r hr (s ++ b)
        rw [h2, firstRune_utf8 r' (h1 r' (by simp))] at e1
        simp only [Option.some.injEq] at e1
        subst e1
        exact ih b ⟨rs, fun x hx => h1 x (by simp [hx]), List.append_cancel_left h2⟩
  exact key a ha b h

theorem text_take {a b : Str} (h : Text (a ++ b)) (hb : Text b) : Text a := (text_cut h (text_head hb)).1

theorem ascii_head {c : Char} (h : c.toNat < 128) {s : Str} : ∀ d, (c :: s).head? = some d → continuation d = false := by
  intro d hd
  simp only [List.head?_cons, Option.some.injEq] at hd
  subst hd
  unfold continuation
  simp; omega

theorem text_of_cons {c : Char} {s : Str} (h : Text (c :: s)) (hc : c.toNat < 128) : Text s := text_drop (a := [c]) h (text_char hc)

theorem text_trimPrefix {s p : Str} (h : Text s) (hp : Text p) : Text (Str.trimPrefix s p) := by
  unfold Str.trimPrefix Str.hasPrefix
  split
  · rename_i e
    obtain ⟨t, rfl⟩ := List.isPrefixOf_iff_prefix.1 e
    rw [List.drop_left]
    exact text_drop h hp
  · exact h

theorem text_trimSuffix {s p : Str} (h : Text s) (hp : Text p) : Text (Str.trimSuffix s p) := by
  unfold Str.trimSuffix Str.hasSuffix
  split
  · rename_i e
    obtain ⟨t, rfl⟩ := List.isSuffixOf_iff_suffix.1 e
    rw [List.length_append, Nat.add_sub_cancel, List.take_left]
    exact text_take h hp
  · exact h

theorem text_allBlank {s : Str} (h : AllBlank s) : Text s := by
  obtain ⟨ws, h1, rfl⟩ := h
  refine text_flatten fun w hw => ?_
  obtain ⟨r, hr, rfl⟩ := h1 w hw
  have : ∀ r ∈ whiteSpace, r < 0xD800 := by decide
  exact text_utf8 (.inl (this r hr))

theorem text_trimSpace {s : Str} (h : Text s) : Text (Str.trimSpace s) := by
  obtain ⟨a, b, h1, h2, h3, _⟩ := trimSpace_trimmed s
  rw [h1] at h
  exact text_drop (text_take h (text_allBlank h3)) (text_allBlank h2)

theorem splitOn_prefix {c : Char} {w : Str} (hc : c ∉ w) (s : Str) :
    ∃ h t, Str.splitOn c s = h :: t ∧ Str.splitOn c (w ++ s) = (w ++ h) :: t := by
  induction w with
  | nil =>
    cases e : Str.splitOn c s with
    | nil => exact absurd e (Filepath.splitOn_ne_nil c s)
    | cons h t => exact ⟨h, t, rfl, e⟩
  | cons d w ih =>
    simp only [List.mem_cons, not_or] at hc
    obtain ⟨h, t, h1, h2⟩ := ih hc.2
    refine ⟨h, t, h1, ?_⟩
    rw [List.cons_append, Str.splitOn, if_neg (fun e => hc.1 e.symm), h2]
    rfl

theorem not_mem_utf8 {c : Char} (hc : c.toNat < 128) {r : Nat} (hr : Scalar r) (h : r ≠ c.toNat) : c ∉ utf8 r := by
  intro hm
  by_cases hl : r < 128
  · rw [utf8, if_pos hl] at hm
    simp only [List.mem_singleton] at hm
    exact h (by rw [hm, byte_toNat (by omega)])
  · have := utf8_not_ascii hr hl c hm
    omega

theorem text_splitOn {c : Char} (hc : c.toNat < 128) {s : Str} (h : Text s) : ∀ x ∈ Str.splitOn c s, Text x := by
  refine text_induction (P := fun s => ∀ x ∈ Str.splitOn c s, Text x) ?_ ?_ h
  · simp only [Str.splitOn, List.mem_singleton]
    rintro x rfl
    exact text_nil
  · intro r s hr _ ih x hx
    by_cases e : r = c.toNat
    · rw [e, utf8_ascii hc] at hx
      simp only [List.singleton_append, Str.splitOn, if_true, List.mem_cons] at hx
      rcases hx with rfl | hx
      · exact text_nil
      · exact ih x hx
    · obtain ⟨h, t, h1, h2⟩ := splitOn_prefix (not_mem_utf8 hc hr e) s
      rw [h2] at hx
      rw [h1] at ih
      rcases List.mem_cons.1 hx with rfl | hx
      · exact text_append (text_utf8 hr) (ih h (by simp))
      · exact ih x (by simp [hx])

theorem text_join {sep : Str} (hs : Text sep) {l : List Str} (h : ∀ x ∈ l, Text x) : Text (Str.join sep l) := by
  fun_induction Str.join sep l with
  | case1 => exact text_nil
  | case2 a => exact h a (by simp)
  | case3 a b r ih => exact text_append (text_append (h a (by simp)) hs) (ih fun x hx => h x (by simp [hx]))

theorem doubleChar_append (x : Char) (a b : Str) : doubleChar x (a ++ b) = doubleChar x a ++ doubleChar x b := by
  induction a with
  | nil => rfl
  | cons c a ih =>
    simp only [List.cons_append, doubleChar, ih]
    split <;> rfl

theorem doubleChar_id {x : Char} {a : Str} (h : x ∉ a) : doubleChar x a = a := by
  induction a with
  | nil => rfl
  | cons c a ih =>
    simp only [List.mem_cons, not_or] at h
    rw [doubleChar, if_neg (fun e => h.1 e.symm), ih h.2]

theorem text_doubleChar {x : Char} (hx : x.toNat < 128) {s : Str} (h : Text s) : Text (doubleChar x s) := by
  refine text_induction (P := fun s => Text (doubleChar x s)) text_nil ?_ h
  intro r s hr _ ih
  rw [doubleChar_append]
  refine text_append ?_ ih
  by_cases e : r = x.toNat
  · rw [e, utf8_ascii hx, doubleChar, if_pos rfl]
    exact text_cons hx (text_cons hx text_nil)
  · rw [doubleChar_id (not_mem_utf8 hx hr e)]
    exact text_utf8 hr

theorem text_natDigits (n : Nat) : Text (Str.natDigits n) := by
  fun_induction Str.natDigits n with
  | case1 n h => exact text_char (by unfold Str.digitChar; rw [show Char.ofNat (48 + n) = byte (48 + n) from rfl, byte_toNat (by omega)]; omega)
  | case2 n h ih =>
    refine text_append ih (text_char ?_)
    unfold Str.digitChar
    rw [show Char.ofNat (48 + n % 10) = byte (48 + n % 10) from rfl, byte_toNat (by omega)]
    omega

/-! ## Symbols -/

theorem text_writeIdent {s : Str} (h : Text s) : Text (writeIdent s) := by
  unfold writeIdent
  split
  · exact h
  · exact text_cons (by decide) (text_append (text_doubleChar (by decide) h) (text_ascii' rfl))

theorem text_writeDescriptors {ds : List Descriptor} (h : ∀ d ∈ ds, Text d.name) : Text (writeDescriptors ds) := by
  induction ds with
  | nil => exact text_nil
  | cons d ds ih =>
    refine text_append (text_append (text_writeIdent (h d (by simp))) ?_) (ih fun x hx => h x (by simp [hx]))
    cases d.suffix <;> exact text_ascii' rfl

theorem text_packageField {s : Str} (h : Text s) : Text (writePackageField s) := by
  unfold writePackageField
  split
  · exact text_ascii' rfl
  · exact text_doubleChar (by decide) h

theorem text_formatSymbol {p : ScipPackage} {ds : List Descriptor} (h1 : Text p.name) (h2 : Text p.version) (h3 : ∀ d ∈ ds, Text d.name) :
    Text (formatSymbol p ds) := by
  unfold formatSymbol
  refine text_append (text_packageField (text_ascii' rfl)) (text_cons (by decide) ?_)
  refine text_append (text_packageField (text_ascii' rfl)) (text_cons (by decide) ?_)
  refine text_append (text_packageField h1) (text_cons (by decide) ?_)
  exact text_append (text_packageField h2) (text_cons (by decide) (text_writeDescriptors h3))

theorem text_localSymbol (n : Nat) : Text (localSymbol n) := text_append (text_ascii' rfl) (text_natDigits n)

/-! ## Paths -/

theorem text_cleanStep {rooted : Bool} {stack : List Str} {c : Str} (h : ∀ x ∈ stack, Text x) (hc : Text c) :
    ∀ x ∈ Filepath.cleanStep rooted stack c, Text x := by
  unfold Filepath.cleanStep
  split
  · exact h
  · split
    · split
      · split
        · simp
        · simp only [List.mem_singleton]; rintro x rfl; exact text_ascii' rfl
      · rename_i top rest
        split
        · intro x hx
          rcases List.mem_cons.1 hx with rfl | hx
          · exact text_ascii' rfl
          · exact h x hx
        · exact fun x hx => h x (by simp [hx])
    · intro x hx
      rcases List.mem_cons.1 hx with rfl | hx
      · exact hc
      · exact h x hx

theorem text_cleanComps {s : Str} (h : Text s) : ∀ x ∈ Filepath.cleanComps s, Text x := by
  have key : ∀ l : List Str, (∀ x ∈ l, Text x) → ∀ stack : List Str, (∀ x ∈ stack, Text x) → ∀ x ∈ l.foldl (Filepath.cleanStep (Filepath.isAbs s)) stack, Text x := by
    intro l
    induction l with
    | nil => exact fun _ stack hs => hs
    | cons c l ih => exact fun hl stack hs => ih (fun x hx => hl x (by simp [hx])) _ (text_cleanStep hs (hl c (by simp)))
  intro x hx
  exact key (Filepath.comps s) (text_splitOn (c := '/') (by decide) h) [] (by simp) x (by simpa [Filepath.cleanComps] using hx)

theorem text_clean {s : Str} (h : Text s) : Text (Filepath.clean s) := by
  have hj : Text (Str.join go!"/" (Filepath.cleanComps s)) := text_join (text_ascii' rfl) (text_cleanComps h)
  unfold Filepath.clean
  split
  · exact text_cons (by decide) hj
  · split
    · exact text_ascii' rfl
    · exact hj

theorem text_pieces {s : Str} (h : Text s) : ∀ x ∈ Filepath.pieces s, Text x := by
  unfold Filepath.pieces
  split
  · simp
  · exact text_splitOn (by decide) h

theorem text_dropCommon {as bs : List Str} (h : ∀ x ∈ bs, Text x) : ∀ x ∈ (Filepath.dropCommon as bs).2, Text x := by
  obtain ⟨c, _, h2, _⟩ := Filepath.dropCommon_spec as bs
  intro x hx
  exact h x (by rw [h2]; simp [hx])

theorem text_unroot {s : Str} (h : Text s) : Text (if Filepath.isAbs s then s.drop 1 else s) := by
  split
  · rename_i e
    cases s with
    | nil => exact text_nil
    | cons c s =>
      simp only [Filepath.isAbs, List.head?_cons, beq_iff_eq, Option.some.injEq] at e
      subst e
      exact text_of_cons h (by decide)
  · exact h

theorem text_rel {a b r : Str} (hb : Text b) (h : Filepath.rel a b = some r) : Text r := by
  unfold Filepath.rel at h
  by_cases h1 : Filepath.clean b = Filepath.clean a
  · rw [if_pos h1] at h
    cases h; exact text_ascii' rfl
  · rw [if_neg h1] at h
    dsimp only at h
    generalize (if Filepath.clean a = go!"." then [] else Filepath.clean a) = base at h
    by_cases h2 : Filepath.isAbs base ≠ Filepath.isAbs (Filepath.clean b)
    · rw [if_pos h2] at h
      simp at h
    · rw [if_neg h2] at h
      have ht := text_dropCommon (as := Filepath.pieces (if Filepath.isAbs base then base.drop 1 else base)) (text_pieces (text_unroot (text_clean hb)))
      generalize Filepath.dropCommon _ _ = q at h ht
      obtain ⟨q1, q2⟩ := q
      cases q1 with
      | nil =>
        cases h
        exact text_join (text_ascii' rfl) ht
      | cons b' bs =>
        simp only at h
        split at h
        · simp at h
        · cases h
          refine text_join (text_ascii' rfl) ?_
          intro x hx
          rcases List.mem_append.1 hx with hx | hx
          · obtain ⟨_, _, rfl⟩ := List.mem_map.1 hx
            exact text_ascii' rfl
          · exact ht x hx

/-! ## What `proto.Marshal` checks -/

theorem bytes_utf8 {r : Nat} (h : Scalar r) : Pb.bytes (utf8 r) = String.utf8EncodeChar (Char.ofNat r) := by
  have hr := scalar_lt h
  have hv : r.isValidChar := by unfold Nat.isValidChar; unfold Scalar at h; omega
  have hval : (Char.ofNat r).val.toNat = r := by
    simp only [Char.ofNat, hv, dif_pos, Char.ofNatAux]
    rfl
  unfold String.utf8EncodeChar
  simp only [hval]
  unfold utf8 Pb.bytes
  by_cases h1 : r < 0x80
  · rw [if_pos h1, if_pos (show r ≤ 127 by omega)]
    simp [byte_toNat (show r < 256 by omega)]
  · rw [if_neg h1, if_neg (show ¬ r ≤ 127 by omega)]
    by_cases h2 : r < 0x800
    · rw [if_pos h2, if_pos (show r ≤ 2047 by omega)]
      simp only [List.map_cons, List.map_nil]
      rw [byte_toNat (by omega), byte_toNat (by omega), Nat.mod_eq_of_lt (show r / 64 < 32 by omega), Nat.add_comm 192, Nat.add_comm 128]
    · rw [if_neg h2, if_neg (show ¬ r ≤ 2047 by omega)]
      by_cases h3 : r < 0x10000
      · rw [if_pos h3, if_pos (show r ≤ 65535 by omega)]
        simp only [List.map_cons, List.map_nil]
        rw [byte_toNat (by omega), byte_toNat (by omega), byte_toNat (by omega), Nat.mod_eq_of_lt (show r / 4096 < 16 by omega), Nat.add_comm 224,
          Nat.add_comm 128, Nat.add_comm 128]
      · rw [if_neg h3, if_neg (show ¬ r ≤ 65535 by omega)]
        simp only [List.map_cons, List.map_nil]
        rw [byte_toNat (by omega), byte_toNat (by omega), byte_toNat (by omega), byte_toNat (by omega),
          Nat.mod_eq_of_lt (show r / 262144 < 8 by omega), Nat.add_comm 240, Nat.add_comm 128, Nat.add_comm 128, Nat.add_comm 128]

/-- A text passes the check. -/
theorem valid_of_text {s : Str} (h : Text s) : Pb.validUtf8 (Pb.bytes s) = true := by
  obtain ⟨rs, h1, rfl⟩ := h
  unfold Pb.validUtf8
  rw [ByteArray.validateUTF8_eq_true_iff]
  refine ⟨rs.map Char.ofNat, ?_⟩
  unfold List.utf8Encode
  congr 1
  induction rs with
  | nil => rfl
  | cons r rs ih =>
    rw [List.flatMap_cons, List.map_cons, List.flatMap_cons, ← ih fun x hx => h1 x (by simp [hx]), ← bytes_utf8 (h1 r (by simp))]
    simp [Pb.bytes]

/-- Only texts pass the check. -/
theorem text_of_valid {s : Str} (hs : ∀ c ∈ s, c.toNat < 256) (h : Pb.validUtf8 (Pb.bytes s) = true) : Text s := by
  unfold Pb.validUtf8 at h
  rw [ByteArray.validateUTF8_eq_true_iff] at h
  obtain ⟨m, hm'⟩ := h
  have hm : Pb.bytes s = m.flatMap String.utf8EncodeChar := by
    have := congrArg (fun b : ByteArray => b.data.toList) hm'
    simpa [List.utf8Encode] using this
  clear hm'
  have hsc : ∀ r ∈ m.map Char.toNat, Scalar r := by
    intro r hr
    obtain ⟨c, _, rfl⟩ := List.mem_map.1 hr
    have := c.valid
    unfold Scalar
    simp only [Char.toNat]
    unfold UInt32.isValidChar Nat.isValidChar at this
    omega
  refine ⟨m.map Char.toNat, hsc, ?_⟩
  have hb : Pb.bytes s = Pb.bytes ((m.map Char.toNat).flatMap utf8) := by
    rw [hm]
    clear hm
    induction m with
    | nil => rfl
    | cons c m ih =>
      rw [List.map_cons, List.flatMap_cons, List.flatMap_cons, ih fun x hx => hsc x (by simp only [List.map_cons, List.mem_cons]; exact .inr hx)]
      simp only [Pb.bytes, List.map_append]
      rw [← Pb.bytes, ← Pb.bytes, bytes_utf8 (hsc _ (by simp))]
      simp
  have inj : ∀ a b : Str, (∀ c ∈ a, c.toNat < 256) → (∀ c ∈ b, c.toNat < 256) → Pb.bytes a = Pb.bytes b → a = b := by
    intro a
    induction a with
    | nil => intro b _ _ h; cases b with
      | nil => rfl
      | cons => simp [Pb.bytes] at h
    | cons x a ih =>
      intro b ha hb h
      cases b with
      | nil => simp [Pb.bytes] at h
      | cons y b =>
        simp only [Pb.bytes, List.map_cons, List.cons.injEq] at h
        have hx := ha x (by simp)
        have hy := hb y (by simp)
        have e : x.toNat = y.toNat := by
          have := congrArg UInt8.toNat h.1
          simpa [UInt8.toNat_ofNat, Nat.mod_eq_of_lt hx, Nat.mod_eq_of_lt hy] using this
        rw [show x = y from by rw [← byte_of_toNat x, e, byte_of_toNat], ih b (fun c hc => ha c (by simp [hc])) (fun c hc => hb c (by simp [hc])) h.2]
  refine inj _ _ hs ?_ hb
  intro c hc
  obtain ⟨r, hr, hc⟩ := List.mem_flatMap.1 hc
  have := scalar_lt (hsc r hr)
  revert hc
  unfold utf8
  have hbt : ∀ n, n < 256 → (byte n).toNat < 256 := fun n h => by rw [byte_toNat h]; exact h
  repeat' split
  all_goals
    simp only [List.mem_cons, List.not_mem_nil, or_false]
    rintro (rfl | rfl | rfl | rfl)
    all_goals exact hbt _ (by omega)

end Verif
