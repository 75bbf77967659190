import Verif.Model.Output
import Mathlib.Tactic.SplitIfs
/-! # C59: displayed durations -/
namespace Verif
open Output

/-- The step to which a duration is cut, from the smallest unit on. -/
theorem humanElapsed_cases (d : Int) :
    (d < 1000 ∧ humanElapsed d = d) ∨
    (1000 ≤ d ∧ d < 1000000 ∧ humanElapsed d = d - d % 10) ∨
    (1000000 ≤ d ∧ d < 1000000000 ∧ humanElapsed d = d - d % 10000) ∨
    (1000000000 ≤ d ∧ d < 60000000000 ∧ humanElapsed d = d - d % 10000000) ∨
    (60000000000 ≤ d ∧ d < 3600000000000 ∧ humanElapsed d = d - d % 1000000000) ∨
    (3600000000000 ≤ d ∧ humanElapsed d = d - d % 60000000000) := by
  have hc : ∀ n, countUnits d durations = n → humanElapsed d =
      (if n ≥ 2 then truncate d (if (durations.getD (n - 1) 0).tdiv (durations.getD (n - 2) 0) > 100 then durations.getD (n - 2) 0 * 10 else durations.getD (n - 2) 0) else d) := by
    intro n h
    unfold humanElapsed
    rw [h]
  have ht : ∀ m : Int, 0 < m → 0 ≤ d → truncate d m = d - d % m := by
    intro m hm hd
    unfold truncate
    rw [if_neg (by omega), Int.tmod_eq_emod_of_nonneg hd]
  have e1 : nanosecond = 1 := rfl
  have e2 : microsecond = 1000 := rfl
  have e3 : millisecond = 1000000 := rfl
  have e4 : second = 1000000000 := rfl
  have e5 : minute = 60000000000 := rfl
  have e6 : hour = 3600000000000 := rfl
  by_cases h1 : d < 1
  · have : countUnits d durations = 0 := by simp only [durations, countUnits, e1, e2, e3, e4, e5, e6]; split_ifs <;> omega
    exact .inl ⟨by omega, by rw [hc 0 this]; rfl⟩
  by_cases h2 : d < 1000
  · have : countUnits d durations = 1 := by simp only [durations, countUnits, e1, e2, e3, e4, e5, e6]; split_ifs <;> omega
    exact .inl ⟨by omega, by rw [hc 1 this]; rfl⟩
  right
  by_cases h3 : d < 1000000
  · have : countUnits d durations = 2 := by simp only [durations, countUnits, e1, e2, e3, e4, e5, e6]; split_ifs <;> omega
    refine .inl ⟨by omega, h3, ?_⟩
    rw [hc 2 this]
    exact ht 10 (by decide) (by omega)
  right
  by_cases h4 : d < 1000000000
  · have : countUnits d durations = 3 := by simp only [durations, countUnits, e1, e2, e3, e4, e5, e6]; split_ifs <;> omega
    refine .inl ⟨by omega, h4, ?_⟩
    rw [hc 3 this]
    exact ht 10000 (by decide) (by omega)
  right
  by_cases h5 : d < 60000000000
  · have : countUnits d durations = 4 := by simp only [durations, countUnits, e1, e2, e3, e4, e5, e6]; split_ifs <;> omega
    refine .inl ⟨by omega, h5, ?_⟩
    rw [hc 4 this]
    exact ht 10000000 (by decide) (by omega)
  right
  by_cases h6 : d < 3600000000000
  · have : countUnits d durations = 5 := by simp only [durations, countUnits, e1, e2, e3, e4, e5, e6]; split_ifs <;> omega
    refine .inl ⟨by omega, h6, ?_⟩
    rw [hc 5 this]
    exact ht 1000000000 (by decide) (by omega)
  · have : countUnits d durations = 6 := by simp only [durations, countUnits, e1, e2, e3, e4, e5, e6]; split_ifs <;> omega
    refine .inr ⟨by omega, ?_⟩
    rw [hc 6 this]
    exact ht 60000000000 (by decide) (by omega)

/-- The units of time, in nanoseconds. -/
def Spec.timeUnits : List Int := [1, 1000, 1000 ^ 2, 1000 ^ 3, 60 * 1000 ^ 3, 3600 * 1000 ^ 3]

/-- **C59.** For every duration: what is shown is never more than was measured, less than 1/61 of it is lost, durations below a microsecond
and negative ones are shown exactly, the number of the leading unit (and so the leading unit) is kept, a longer duration is never shown
as a shorter one, and cutting twice changes nothing. -/
theorem C59_human_elapsed (d : Int) :
    humanElapsed d ≤ d ∧
    (0 < d → 61 * (d - humanElapsed d) < d) ∧
    (d < 1000 → humanElapsed d = d) ∧
    (∀ u ∈ Spec.timeUnits, (u ≤ humanElapsed d ↔ u ≤ d) ∧ ((∀ v ∈ Spec.timeUnits, u < v → d < v) → humanElapsed d / u = d / u)) ∧
    (∀ e, d ≤ e → humanElapsed d ≤ humanElapsed e) ∧
    humanElapsed (humanElapsed d) = humanElapsed d := by
  have hd := humanElapsed_cases d
  refine ⟨by omega, by omega, by omega, ?_, ?_, ?_⟩
  · intro u hu
    have hall : ∀ v, v ∈ Spec.timeUnits ↔ v = 1 ∨ v = 1000 ∨ v = 1000000 ∨ v = 1000000000 ∨ v = 60000000000 ∨ v = 3600000000000 := by
      intro v; simp [Spec.timeUnits]
    rw [hall] at hu
    have hv1 : (∀ v ∈ Spec.timeUnits, u < v → d < v) → (u < 1000 → d < 1000) ∧ (u < 1000000 → d < 1000000) ∧ (u < 1000000000 → d < 1000000000) ∧
        (u < 60000000000 → d < 60000000000) ∧ (u < 3600000000000 → d < 3600000000000) := by
      intro h
      exact ⟨h _ ((hall _).2 (by simp)), h _ ((hall _).2 (by simp)), h _ ((hall _).2 (by simp)), h _ ((hall _).2 (by simp)), h _ ((hall _).2 (by simp))⟩
    constructor
    · rcases hu with rfl | rfl | rfl | rfl | rfl | rfl <;> omega
    · intro h
      have hv := hv1 h
      rcases hu with rfl | rfl | rfl | rfl | rfl | rfl <;> omega
  · intro e he
    have hee := humanElapsed_cases e
    omega
  · have hh := humanElapsed_cases (humanElapsed d)
    omega

/-- The bound is tight: no smaller fraction works. -/
theorem C59_bound_tight : ∃ d : Int, 0 < d ∧ 62 * (d - humanElapsed d) > d := ⟨60 * 10 ^ 9 + 999999999, by decide +kernel, by decide +kernel⟩

/-- 5m12.123s is shown as 5m12s, 725.891ms as 725.89ms. -/
example : humanElapsed 312123000000 = 312000000000 ∧ humanElapsed 725891234 = 725890000 ∧ humanElapsed (-5) = -5 := by decide +kernel

end Verif
