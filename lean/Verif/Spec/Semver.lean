import Verif.Model.Str
/-!
# Specification: semantic versions (semver.org, with Go's leading `v` and short forms) and Go pseudo-versions
(https://go.dev/ref/mod#versions, https://go.dev/ref/mod#pseudo-versions)
-/
namespace Verif.Semver.Spec

def Digit (c : Char) : Prop := '0' ≤ c ∧ c ≤ '9'
def Letter (c : Char) : Prop := ('A' ≤ c ∧ c ≤ 'Z') ∨ ('a' ≤ c ∧ c ≤ 'z')
def Digits (s : Str) : Prop := s ≠ [] ∧ ∀ c ∈ s, Digit c
/-- A number without leading zero. -/
def Number (s : Str) : Prop := Digits s ∧ (s = ['0'] ∨ s.head? ≠ some '0')
/-- An identifier of letters, digits and hyphens. -/
def Identifier (s : Str) : Prop := s ≠ [] ∧ ∀ c ∈ s, Letter c ∨ Digit c ∨ c = '-'
/-- A prerelease identifier: if it is a number it has no leading zero. -/
def PreIdentifier (s : Str) : Prop := Identifier s ∧ (Digits s → Number s)

/-- Nothing, or the mark followed by dot separated parts. -/
def Suffix (mark : Char) (P : Str → Prop) (s : Str) : Prop :=
  s = [] ∨ ∃ (a : Str) (r : List Str), P a ∧ (∀ x ∈ r, P x) ∧ s = mark :: (a ++ r.flatMap ('.' :: ·))

/-- `s` is a semantic version with build metadata `b` (with its `+`; empty if there is none). -/
inductive Version : Str → Str → Prop
  | major {M} : Number M → Version ('v' :: M) []
  | minor {M m} : Number M → Number m → Version ('v' :: (M ++ '.' :: m)) []
  | full {M m p pre b} : Number M → Number m → Number p → Suffix '-' PreIdentifier pre → Suffix '+' Identifier b →
      Version ('v' :: (M ++ '.' :: (m ++ '.' :: (p ++ pre ++ b)))) b

/-- `s` has the shape of a pseudo-version with revision `rev`: `vX.0.0-T-rev`, `vX.Y.Z-0.T-rev` or `vX.Y.Z-pre.0.T-rev`,
possibly with build metadata, where the timestamp `T` has 14 digits. -/
def PseudoShape (s rev : Str) : Prop :=
  ∃ major mid time b, Digits major ∧
    (mid = go!"0.0-" ∨ ∃ minor patch pre, Digits minor ∧ Digits patch ∧
      (pre = [] ∨ ∃ q, '+' ∉ q ∧ pre = q ++ go!".") ∧ mid = minor ++ go!"." ++ patch ++ go!"-" ++ pre ++ go!"0.") ∧
    Digits time ∧ time.length = 14 ∧ rev ≠ [] ∧ (∀ c ∈ rev, Letter c ∨ Digit c) ∧ Suffix '+' Identifier b ∧
    s = go!"v" ++ major ++ go!"." ++ mid ++ time ++ go!"-" ++ rev ++ b

/-- A pseudo-version with its revision. -/
def PseudoVersion (s rev : Str) : Prop := (∃ b, Version s b) ∧ PseudoShape s rev

end Verif.Semver.Spec
