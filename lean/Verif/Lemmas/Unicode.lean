import Verif.Spec.Unicode
namespace Verif.Unicode
open Spec

theorem byte_toNat {n : Nat} (h : n < 256) : (byte n).toNat = n := by
  have : n.isValidChar := by left; omega
  simp [byte, Char.ofNat, this, Char.toNat, Char.ofNatAux]

theorem byte_of_toNat (c : Char) : byte c.toNat = c := by simp [byte]

theorem upper_scalar {r : Nat} (h : isUpper r = true) : Scalar r := by
  have key : ∀ t ∈ upperRanges, t.1 ≤ t.2.1 ∧ (t.2.1 < 0xD800 ∨ (0xDFFF < t.1 ∧ t.2.1 < 0x110000)) := by decide +kernel
  simp only [isUpper, List.any_eq_true, Bool.and_eq_true, decide_eq_true_eq] at h
  obtain ⟨⟨lo, hi, st⟩, hm, ⟨h1, h2⟩, _⟩ := h
  have := key _ hm
  simp only at this h1 h2
  rcases this.2 with h | h
  · left; omega
  · right; omega

theorem isUpper_iff (r : Nat) : isUpper r = true ↔ UpperCase r := by
  have key : ∀ t ∈ upperRanges, 0 < t.2.2 := by decide +kernel
  simp only [isUpper, List.any_eq_true, Bool.and_eq_true, decide_eq_true_eq, beq_iff_eq, UpperCase]
  constructor
  · rintro ⟨⟨lo, hi, st⟩, hm, ⟨h1, h2⟩, h3⟩
    refine ⟨lo, hi, st, (r - lo) / st, hm, ?_, h2⟩
    have := Nat.div_add_mod (r - lo) st
    simp only at h1 h3
    rw [h3, Nat.mul_comm] at this
    omega
  · rintro ⟨lo, hi, st, k, hm, hr, h2⟩
    refine ⟨⟨lo, hi, st⟩, hm, ⟨?_, h2⟩, ?_⟩
    · show lo ≤ r; omega
    · show (r - lo) % st = 0
      rw [hr, Nat.add_sub_cancel_left, Nat.mul_mod_left]

theorem rune2 {r : Nat} (h0 : ¬ r < 0x80) (h : r < 0x800) (a b : Char) (rest : Str) (h1 : a.toNat = 0xC0 + r / 64) (h2 : b.toNat = 0x80 + r % 64) :
    firstRune (a :: b :: rest) = some r := by
  unfold firstRune
  dsimp only
  rw [if_neg (by omega), if_pos (by simp [inRange]; omega), if_pos (by simp [inRange]; omega)]
  exact congrArg some (by omega)

theorem rune3 {r : Nat} (hs : Scalar r) (h0 : ¬ r < 0x800) (h : r < 0x10000) (a b c : Char) (rest : Str) (h1 : a.toNat = 0xE0 + r / 4096)
    (h2 : b.toNat = 0x80 + r / 64 % 64) (h3 : c.toNat = 0x80 + r % 64) : firstRune (a :: b :: c :: rest) = some r := by
  unfold Scalar at hs
  unfold firstRune
  dsimp only
  rw [if_neg (by omega), if_neg (by simp [inRange]; omega), if_pos (by simp [inRange]; omega), if_pos (by simp [inRange, second3]; omega)]
  exact congrArg some (by omega)

theorem rune4 {r : Nat} (h0 : ¬ r < 0x10000) (h : r < 0x110000) (a b c d : Char) (rest : Str) (h1 : a.toNat = 0xF0 + r / 262144)
    (h2 : b.toNat = 0x80 + r / 4096 % 64) (h3 : c.toNat = 0x80 + r / 64 % 64) (h4 : d.toNat = 0x80 + r % 64) :
    firstRune (a :: b :: c :: d :: rest) = some r := by
  unfold firstRune
  dsimp only
  rw [if_neg (by omega), if_neg (by simp [inRange]; omega), if_neg (by simp [inRange]; omega), if_pos (by simp [inRange]; omega),
    if_pos (by simp [inRange, second4]; omega)]
  exact congrArg some (by omega)

/-- Decoding inverts encoding. -/
theorem firstRune_utf8 (r : Nat) (h : Scalar r) (rest : Str) : firstRune (utf8 r ++ rest) = some r := by
  have h' := h
  unfold Scalar at h
  unfold utf8
  split
  · have h1 := byte_toNat (show r < 256 by omega)
    unfold firstRune
    dsimp only [List.cons_append]
    rw [if_pos (by omega), h1]
  · split
    · exact rune2 (by assumption) (by assumption) _ _ rest (byte_toNat (by omega)) (byte_toNat (by omega))
    · split
      · exact rune3 h' (by assumption) (by assumption) _ _ _ rest (byte_toNat (by omega)) (byte_toNat (by omega)) (byte_toNat (by omega))
      · exact rune4 (by assumption) (by omega) _ _ _ _ rest (byte_toNat (by omega)) (byte_toNat (by omega)) (byte_toNat (by omega))
          (byte_toNat (by omega))

theorem cons_byte (a : Char) (r : Str) (n : Nat) (h : a.toNat = n) : a :: r = byte n :: r := by rw [← h, byte_of_toNat]

/-- What is decoded is what the string starts with. -/
theorem firstRune_some {s : Str} {r : Nat} (h : firstRune s = some r) : Scalar r ∧ ∃ rest, s = utf8 r ++ rest := by
  unfold firstRune at h
  split at h
  · simp at h
  · rename_i a t
    split at h
    · rename_i ha
      simp only [Option.some.injEq] at h
      subst h
      refine ⟨.inl (by omega), t, ?_⟩
      rw [utf8, if_pos ha, byte_of_toNat]; rfl
    · split at h
      · rename_i ha1 ha
        simp only [inRange, Bool.and_eq_true, decide_eq_true_eq] at ha
        split at h
        · rename_i b u
          split at h
          · rename_i hb
            simp only [inRange, Bool.and_eq_true, decide_eq_true_eq] at hb
            simp only [Option.some.injEq] at h
            subst h
            refine ⟨.inl (by omega), u, ?_⟩
            rw [utf8, if_neg (by omega), if_pos (by omega)]
            rw [cons_byte a _ _ (show a.toNat = 0xC0 + ((a.toNat - 0xC0) * 64 + (b.toNat - 0x80)) / 64 by omega),
              cons_byte b _ _ (show b.toNat = 0x80 + ((a.toNat - 0xC0) * 64 + (b.toNat - 0x80)) % 64 by omega)]
            rfl
          · simp at h
        · simp at h
      · split at h
        · rename_i ha1 ha2 ha
          simp only [inRange, Bool.and_eq_true, decide_eq_true_eq] at ha
          split at h
          · rename_i b c u
            split at h
            · rename_i hb
              simp only [second3, inRange, Bool.and_eq_true, decide_eq_true_eq] at hb
              simp only [Option.some.injEq] at h
              obtain ⟨⟨⟨⟨hb1, hb2⟩, hE0⟩, hED⟩, hc1, hc2⟩ := hb
              simp only [Bool.or_eq_true, bne_iff_ne, decide_eq_true_eq] at hE0 hED
              subst h
              refine ⟨by unfold Scalar; omega, u, ?_⟩
              rw [utf8, if_neg (by omega), if_neg (by omega), if_pos (by omega)]
              rw [cons_byte a _ _ (show a.toNat = 0xE0 + ((a.toNat - 0xE0) * 4096 + (b.toNat - 0x80) * 64 + (c.toNat - 0x80)) / 4096 by omega),
                cons_byte b _ _ (show b.toNat = 0x80 + ((a.toNat - 0xE0) * 4096 + (b.toNat - 0x80) * 64 + (c.toNat - 0x80)) / 64 % 64 by omega),
                cons_byte c _ _ (show c.toNat = 0x80 + ((a.toNat - 0xE0) * 4096 + (b.toNat - 0x80) * 64 + (c.toNat - 0x80)) % 64 by omega)]
              rfl
            · simp at h
          · simp at h
        · split at h
          · rename_i ha1 ha2 ha3 ha
            simp only [inRange, Bool.and_eq_true, decide_eq_true_eq] at ha
            split at h
            · rename_i b c d u
              split at h
              · rename_i hb
                simp only [second4, inRange, Bool.and_eq_true, decide_eq_true_eq] at hb
                simp only [Option.some.injEq] at h
                obtain ⟨⟨⟨⟨⟨hb1, hb2⟩, hF0⟩, hF4⟩, hc1, hc2⟩, hd1, hd2⟩ := hb
                simp only [Bool.or_eq_true, bne_iff_ne, decide_eq_true_eq] at hF0 hF4
                subst h
                refine ⟨by unfold Scalar; omega, u, ?_⟩
                rw [utf8, if_neg (by omega), if_neg (by omega), if_neg (by omega)]
                rw [cons_byte a _ _ (show a.toNat = 0xF0 + ((a.toNat - 0xF0) * 262144 + (b.toNat - 0x80) * 4096 + (c.toNat - 0x80) * 64 + (d.toNat - 0x80)) / 262144 by omega),
                  cons_byte b _ _ (show b.toNat = 0x80 + ((a.toNat - 0xF0) * 262144 + (b.toNat - 0x80) * 4096 + (c.toNat - 0x80) * 64 + (d.toNat - 0x80)) / 4096 % 64 by omega),
                  cons_byte c _ _ (show c.toNat = 0x80 + ((a.toNat - 0xF0) * 262144 + (b.toNat - 0x80) * 4096 + (c.toNat - 0x80) * 64 + (d.toNat - 0x80)) / 64 % 64 by omega),
                  cons_byte d _ _ (show d.toNat = 0x80 + ((a.toNat - 0xF0) * 262144 + (b.toNat - 0x80) * 4096 + (c.toNat - 0x80) * 64 + (d.toNat - 0x80)) % 64 by omega)]
                rfl
              · simp at h
            · simp at h
          · simp at h

end Verif.Unicode

namespace Verif
open Unicode Spec

/-- The program's test decides the Go specification's definition, for every byte string. -/
theorem isExported_iff (s : Str) : isExported s = true ↔ Exported s := by
  unfold isExported Exported
  constructor
  · intro h
    split at h
    · rename_i r hr
      obtain ⟨_, rest, hs⟩ := firstRune_some hr
      exact ⟨r, rest, (isUpper_iff r).1 h, hs⟩
    · simp at h
  · rintro ⟨r, rest, hu, rfl⟩
    rw [firstRune_utf8 r (upper_scalar ((isUpper_iff r).2 hu)) rest]
    exact (isUpper_iff r).2 hu

instance (s : Str) : Decidable (Exported s) := decidable_of_iff _ (isExported_iff s)

end Verif
