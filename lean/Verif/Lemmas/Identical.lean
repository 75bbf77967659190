import Verif.Model.Identical
import Verif.Spec.Fingerprint
/-! # `identical` decides type identity -/
namespace Verif.Fp
open Verif Verif.Fp.Spec

theorem identical_of_unalias {t u : Ty} (h : Identical t (unalias u)) : Identical t u := by
  cases u with
  | alias u => exact .aliasR (identical_of_unalias (by simpa [unalias] using h))
  | _ => simpa [unalias] using h

theorem identical_congr_unalias (t u v : Ty) (h : unalias u = unalias v) : identical t u = identical t v := by
  cases t with
  | alias t => simp only [identical]; exact identical_congr_unalias t u v h
  | union => simp [identical]
  | _ => simp only [identical, h]

theorem sameHdr_iff (h k : FieldHdr) : sameHdr h k = true ↔ sameField h k := by
  simp [sameHdr, sameField, and_assoc, isExported_iff]

mutual
theorem identical_sound (t u : Ty) (h : identical t u = true) : Identical t u := by
  cases t with
  | alias t => exact .aliasL (identical_sound t u (by simpa [identical] using h))
  | union => simp [identical] at h
  | named d p n as =>
    unfold identical at h
    apply identical_of_unalias
    split at h
    · rename_i e
      rw [e]
      simp only [Bool.and_eq_true, decide_eq_true_eq] at h
      obtain ⟨⟨⟨rfl, rfl⟩, rfl⟩, h⟩ := h
      exact .named (identicalEach_sound _ _ h)
    · simp at h
  | array l t =>
    unfold identical at h
    apply identical_of_unalias
    split at h
    · rename_i e
      rw [e]
      simp only [Bool.and_eq_true, decide_eq_true_eq] at h
      obtain ⟨rfl, h⟩ := h
      exact .array (identical_sound _ _ h)
    · simp at h
  | slice t =>
    unfold identical at h
    apply identical_of_unalias
    split at h
    · rename_i e
      rw [e]
      exact .slice (identical_sound _ _ h)
    · simp at h
  | ptr t =>
    unfold identical at h
    apply identical_of_unalias
    split at h
    · rename_i e
      rw [e]
      exact .ptr (identical_sound _ _ h)
    · simp at h
  | map k t =>
    unfold identical at h
    apply identical_of_unalias
    split at h
    · rename_i e
      rw [e]
      simp only [Bool.and_eq_true] at h
      exact .map (identical_sound _ _ h.1) (identical_sound _ _ h.2)
    · simp at h
  | chan d t =>
    unfold identical at h
    apply identical_of_unalias
    split at h
    · rename_i e
      rw [e]
      simp only [Bool.and_eq_true, decide_eq_true_eq] at h
      obtain ⟨rfl, h⟩ := h
      exact .chan (identical_sound _ _ h)
    · simp at h
  | basic b =>
    unfold identical at h
    apply identical_of_unalias
    split at h
    · rename_i e
      rw [e]
      simp only [decide_eq_true_eq] at h
      subst h
      exact .basic
    · simp at h
  | sig ps v rs =>
    unfold identical at h
    apply identical_of_unalias
    split at h
    · rename_i e
      rw [e]
      simp only [Bool.and_eq_true, beq_iff_eq] at h
      obtain ⟨⟨rfl, h1⟩, h2⟩ := h
      exact .sig (identicalEach_sound _ _ h1) (identicalEach_sound _ _ h2)
    · simp at h
  | struct fs =>
    unfold identical at h
    apply identical_of_unalias
    split at h
    · rename_i e
      rw [e]
      exact .struct (identicalFields_sound _ _ h)
    · simp at h
  | iface ms =>
    unfold identical at h
    apply identical_of_unalias
    split at h
    · rename_i e
      rw [e]
      exact .iface (identicalMethods_sound _ _ h)
    · simp at h
  | typeParam i n =>
    unfold identical at h
    apply identical_of_unalias
    split at h
    · rename_i e
      rw [e]
      simp only [Bool.and_eq_true, decide_eq_true_eq] at h
      obtain ⟨rfl, rfl⟩ := h
      exact .typeParam
    · simp at h
theorem identicalEach_sound (ts us : Tys) (h : identicalEach ts us = true) : IdenticalEach ts us := by
  cases ts with
  | nil => cases us with
    | nil => exact .nil
    | cons u us => simp [identicalEach] at h
  | cons t ts => cases us with
    | nil => simp [identicalEach] at h
    | cons u us =>
      simp only [identicalEach, Bool.and_eq_true] at h
      exact .cons (identical_sound t u h.1) (identicalEach_sound ts us h.2)
theorem identicalFields_sound (ts us : Fields) (h : identicalFields ts us = true) : IdenticalFields ts us := by
  cases ts with
  | nil => cases us with
    | nil => exact .nil
    | cons k u us => simp [identicalFields] at h
  | cons k t ts => cases us with
    | nil => simp [identicalFields] at h
    | cons l u us =>
      simp only [identicalFields, Bool.and_eq_true] at h
      exact .cons ((sameHdr_iff _ _).1 h.1.1) (identical_sound t u h.1.2) (identicalFields_sound ts us h.2)
theorem identicalMethods_sound (ts us : Methods) (h : identicalMethods ts us = true) : IdenticalMethods ts us := by
  cases ts with
  | nil => cases us with
    | nil => exact .nil
    | cons k u us => simp [identicalMethods] at h
  | cons k t ts => cases us with
    | nil => simp [identicalMethods] at h
    | cons l u us =>
      simp only [identicalMethods, Bool.and_eq_true, decide_eq_true_eq] at h
      obtain ⟨⟨rfl, h1⟩, h2⟩ := h
      exact .cons (identical_sound t u h1) (identicalMethods_sound ts us h2)
end

mutual
theorem identical_complete : ∀ {t u : Ty}, Identical t u → identical t u = true
  | _, _, .aliasL h => by simp only [identical]; exact identical_complete h
  | _, _, .aliasR (u := u) h => by rw [identical_congr_unalias _ (.alias u) u (by simp [unalias])]; exact identical_complete h
  | _, _, .named h => by simp [identical, unalias, identicalEach_complete h]
  | _, _, .array h => by simp [identical, unalias, identical_complete h]
  | _, _, .slice h => by simp [identical, unalias, identical_complete h]
  | _, _, .ptr h => by simp [identical, unalias, identical_complete h]
  | _, _, .map h1 h2 => by simp [identical, unalias, identical_complete h1, identical_complete h2]
  | _, _, .chan h => by simp [identical, unalias, identical_complete h]
  | _, _, .basic => by simp [identical, unalias]
  | _, _, .sig h1 h2 => by simp [identical, unalias, identicalEach_complete h1, identicalEach_complete h2]
  | _, _, .struct h => by simp [identical, unalias, identicalFields_complete h]
  | _, _, .iface h => by simp [identical, unalias, identicalMethods_complete h]
  | _, _, .typeParam => by simp [identical, unalias]
theorem identicalEach_complete : ∀ {ts us : Tys}, IdenticalEach ts us → identicalEach ts us = true
  | _, _, .nil => rfl
  | _, _, .cons h1 h2 => by simp [identicalEach, identical_complete h1, identicalEach_complete h2]
theorem identicalFields_complete : ∀ {ts us : Fields}, IdenticalFields ts us → identicalFields ts us = true
  | _, _, .nil => rfl
  | _, _, .cons h0 h1 h2 => by
    simp [identicalFields, (sameHdr_iff _ _).2 h0, identical_complete h1, identicalFields_complete h2]
theorem identicalMethods_complete : ∀ {ts us : Methods}, IdenticalMethods ts us → identicalMethods ts us = true
  | _, _, .nil => rfl
  | _, _, .cons h1 h2 => by simp [identicalMethods, identical_complete h1, identicalMethods_complete h2]
end

theorem identical_iff (t u : Ty) : identical t u = true ↔ Identical t u :=
  ⟨identical_sound t u, identical_complete⟩

end Verif.Fp
