import Verif.Model.Symbol
/-! # Decimal numerals are injective -/
namespace Verif

/-- The value of a numeral. -/
def digitsVal (s : Str) : Nat := s.foldl (fun a c => 10 * a + (c.toNat - 48)) 0

theorem digitChar_val (d : Nat) (h : d < 10) : (Str.digitChar d).toNat - 48 = d := by
  have : ∀ d : Fin 10, (Str.digitChar d.val).toNat - 48 = d.val := by decide
  exact this ⟨d, h⟩

theorem digitsVal_natDigits (n : Nat) : digitsVal (Str.natDigits n) = n := by
  unfold Str.natDigits
  split
  · rename_i h
    simp [digitsVal, digitChar_val n h]
  · rename_i h
    have ih := digitsVal_natDigits (n / 10)
    unfold digitsVal at ih ⊢
    rw [List.foldl_append, ih]
    simp only [List.foldl_cons, List.foldl_nil]
    rw [digitChar_val _ (Nat.mod_lt _ (by omega))]
    omega
termination_by n

/-- The decimal digits are those of `Nat.repr`. -/
theorem natDigits_eq_repr (n : Nat) : Str.natDigits n = (Nat.repr n).toList := by
  rw [Nat.toList_repr]
  have hd : ∀ d, d < 10 → Str.digitChar d = d.digitChar := by decide
  induction n using Nat.strongRecOn with
  | ind n ih =>
    unfold Str.natDigits
    rw [Nat.toDigits_eq_if (by decide)]
    split
    · rw [hd n (by assumption)]
    · rw [ih (n / 10) (by omega), hd (n % 10) (by omega)]

theorem natDigits_inj {m n : Nat} (h : Str.natDigits m = Str.natDigits n) : m = n := by
  rw [← digitsVal_natDigits m, h, digitsVal_natDigits]

theorem localSymbol_inj {m n : Nat} (h : localSymbol m = localSymbol n) : m = n := by
  unfold localSymbol at h
  exact natDigits_inj (List.append_cancel_left h)

theorem localSymbol_prefix (n : Nat) : (localSymbol n).hasPrefix go!"local " = true := by
  simp [localSymbol, Str.hasPrefix]

end Verif
