import Verif.Lemmas.Trim
import Verif.Model.Git
import Verif.Lemmas.Semver
import Verif.Props.RelativePath
import Mathlib.Data.List.Infix
/-! # C62–C65: defaults taken from the repository -/
namespace Verif
open Git Cmd Filepath Spec

/-! ## C62: remotes -/

theorem hasPrefix_append (p s : Str) : Str.hasPrefix (p ++ s) p = true := by simp [Str.hasPrefix]
theorem trimPrefix_append (p s : Str) : Str.trimPrefix (p ++ s) p = s := by simp [Str.trimPrefix, hasPrefix_append]
theorem trimSuffix_append (s p : Str) : Str.trimSuffix (s ++ p) p = s := by simp [Str.trimSuffix, Str.hasSuffix]
theorem trimSuffix_other {s p : Str} (h : ¬ p <:+ s) : Str.trimSuffix s p = s := by
  have : Str.hasSuffix s p = false := by
    cases hs : Str.hasSuffix s p with
    | false => rfl
    | true => exact absurd (List.isSuffixOf_iff_suffix.1 hs) h
  simp [Str.trimSuffix, this]

theorem parseRemote_ssh (parseUrl : Str → Option (Str × Str)) {h p : Str} (hh : ':' ∉ h) (hp : ':' ∉ p) :
    parseRemote parseUrl (go!"git@" ++ h ++ go!":" ++ p) = .ok (h ++ go!"/" ++ Str.trimSuffix p go!".git") := by
  have e : go!"git@" ++ h ++ go!":" ++ p = (go!"git@" ++ h) ++ ':' :: p := by simp
  have hc : ':' ∉ go!"git@" ++ h := by simp [hh]
  unfold parseRemote
  have hpre : Str.hasPrefix (go!"git@" ++ h ++ go!":" ++ p) go!"git@" = true := by rw [List.append_assoc, List.append_assoc]; exact hasPrefix_append _ _
  simp only [hpre, if_true]
  rw [e, splitOn_append hc, splitOn_single hp]
  simp only [Str.join, trimPrefix_append]

namespace Spec
/-- A character without special meaning in addresses. -/
def NameChar (c : Char) : Prop := Semver.Spec.Letter c ∨ Semver.Spec.Digit c ∨ c = '-' ∨ c = '.' ∨ c = '_'
def Scheme (s : Str) : Prop := s ≠ [] ∧ ∀ c ∈ s, Semver.Spec.Letter c
/-- A host or user name. -/
def HostName (s : Str) : Prop := s ≠ [] ∧ ∀ c ∈ s, NameChar c
/-- A path. -/
def PathName (s : Str) : Prop := ∀ c ∈ s, NameChar c ∨ c = '/'

/-- What is used of `url.Parse`: an address made of scheme, host and path is taken apart into host name and path; a user name and a
port number are not part of the host name. -/
structure UrlParser (parseUrl : Str → Option (Str × Str)) : Prop where
  parses : ∀ scheme h p, Scheme scheme → HostName h → PathName p →
    parseUrl (scheme ++ go!"://" ++ h ++ go!"/" ++ p) = some (h, go!"/" ++ p)
  withUser : ∀ scheme user h p, Scheme scheme → HostName user → HostName h → PathName p →
    parseUrl (scheme ++ go!"://" ++ user ++ go!"@" ++ h ++ go!"/" ++ p) = some (h, go!"/" ++ p)
  withPort : ∀ scheme user h port p, Scheme scheme → HostName user → HostName h → PathName p → (∀ c ∈ port, Semver.Spec.Digit c) →
    parseUrl (scheme ++ go!"://" ++ user ++ go!"@" ++ h ++ go!":" ++ port ++ go!"/" ++ p) = some (h, go!"/" ++ p)

/-- The forms in which the remote with host `h` and path `p` may be given. -/
inductive Form (h p : Str) : Str → Prop where
  | ssh : Form h p (go!"git@" ++ h ++ go!":" ++ p)
  | url (scheme : Str) : Scheme scheme → Form h p (scheme ++ go!"://" ++ h ++ go!"/" ++ p)
  | user (scheme user : Str) : Scheme scheme → HostName user → Form h p (scheme ++ go!"://" ++ user ++ go!"@" ++ h ++ go!"/" ++ p)
  | port (scheme user port : Str) : Scheme scheme → HostName user → (∀ c ∈ port, Semver.Spec.Digit c) →
      Form h p (scheme ++ go!"://" ++ user ++ go!"@" ++ h ++ go!":" ++ port ++ go!"/" ++ p)
end Spec

theorem nameChar_not {c : Char} (h : NameChar c) : c ≠ ':' ∧ c ≠ '@' ∧ c ≠ '/' := by
  refine ⟨?_, ?_, ?_⟩ <;> (rintro rfl; revert h; simp only [NameChar, Semver.Spec.Letter, Semver.Spec.Digit]; decide)
theorem letter_not {c : Char} (h : Semver.Spec.Letter c) : c ≠ ':' ∧ c ≠ '@' ∧ c ≠ '/' := nameChar_not (.inl h)
theorem host_not {s : Str} (h : HostName s) : ':' ∉ s ∧ '@' ∉ s ∧ '/' ∉ s :=
  ⟨fun hm => (nameChar_not (h.2 _ hm)).1 rfl, fun hm => (nameChar_not (h.2 _ hm)).2.1 rfl, fun hm => (nameChar_not (h.2 _ hm)).2.2 rfl⟩
theorem scheme_not {s : Str} (h : Scheme s) : ':' ∉ s ∧ '@' ∉ s ∧ '/' ∉ s :=
  ⟨fun hm => (letter_not (h.2 _ hm)).1 rfl, fun hm => (letter_not (h.2 _ hm)).2.1 rfl, fun hm => (letter_not (h.2 _ hm)).2.2 rfl⟩
theorem path_not {s : Str} (h : PathName s) : ':' ∉ s := by
  intro hm
  rcases h _ hm with h | h
  · exact (nameChar_not h).1 rfl
  · exact absurd h (by decide)

/-- An address that url.Parse takes apart gives host and path (without `.git`), unless it has the ssh form. -/
theorem parseRemote_url (parseUrl : Str → Option (Str × Str)) {u h p : Str} (hu : parseUrl u = some (h, p))
    (hno : ¬ go!"git@" <+: u) : parseRemote parseUrl u = .ok (h ++ Str.trimSuffix p go!".git") := by
  have : Str.hasPrefix u go!"git@" = false := by
    cases hs : Str.hasPrefix u go!"git@" with
    | false => rfl
    | true => exact absurd (List.isPrefixOf_iff_prefix.1 hs) hno
  unfold parseRemote
  simp [this, hu]

theorem notGit_of_scheme {scheme rest : Str} (hs : '@' ∉ scheme) (hne : scheme ≠ []) : ¬ go!"git@" <+: scheme ++ go!"://" ++ rest := by
  rintro ⟨t, ht⟩
  match scheme, hs, hne, ht with
  | [a], _, _, ht => simp at ht
  | [a, b], _, _, ht => simp at ht
  | [a, b, c], _, _, ht => simp at ht
  | a :: b :: c :: d :: l, hs, _, ht =>
    simp only [List.cons_append, List.cons.injEq, List.nil_append] at ht
    rw [← ht.2.2.2.1] at hs
    simp at hs

theorem git_not_of_slash {p : Str} (h : ¬ go!".git" <:+ p) : ¬ go!".git" <:+ go!"/" ++ p := by
  rintro ⟨t, ht⟩
  cases t with
  | nil => simp at ht
  | cons a t =>
    simp only [List.cons_append, List.nil_append, List.cons.injEq] at ht
    exact h ⟨t, ht.2⟩

theorem name_of_form {parseUrl : Str → Option (Str × Str)} (hP : UrlParser parseUrl) {h p u : Str} (hu : Form h p u) (hh : HostName h) (hp : PathName p) :
    parseRemote parseUrl u = .ok (h ++ go!"/" ++ Str.trimSuffix p go!".git") ∨ parseRemote parseUrl u = .ok (h ++ Str.trimSuffix (go!"/" ++ p) go!".git") := by
  cases hu with
  | ssh => exact .inl (parseRemote_ssh parseUrl (host_not hh).1 (path_not hp))
  | url scheme hs =>
    refine .inr (parseRemote_url parseUrl (hP.parses scheme h p hs hh hp) ?_)
    have := notGit_of_scheme (rest := h ++ go!"/" ++ p) (scheme_not hs).2.1 hs.1
    simpa [List.append_assoc] using this
  | user scheme user hs hus =>
    refine .inr (parseRemote_url parseUrl (hP.withUser scheme user h p hs hus hh hp) ?_)
    have := notGit_of_scheme (rest := user ++ go!"@" ++ h ++ go!"/" ++ p) (scheme_not hs).2.1 hs.1
    simpa [List.append_assoc] using this
  | port scheme user port hs hus hport =>
    refine .inr (parseRemote_url parseUrl (hP.withPort scheme user h port p hs hus hh hp hport) ?_)
    have := notGit_of_scheme (rest := user ++ go!"@" ++ h ++ go!":" ++ port ++ go!"/" ++ p) (scheme_not hs).2.1 hs.1
    simpa [List.append_assoc] using this

/-- **C62.** Every form of the remote with host `h` and path `p`, with and without `.git` at the end, gives the name `h/p`. -/
theorem C62_same_name (parseUrl : Str → Option (Str × Str)) (hP : UrlParser parseUrl) (h p u : Str) (hh : HostName h) (hp : PathName p)
    (hgit : ¬ go!".git" <:+ p) (hu : Form h p u ∨ Form h (p ++ go!".git") u) : parseRemote parseUrl u = .ok (h ++ go!"/" ++ p) := by
  have hpg : PathName (p ++ go!".git") := by
    intro c hc
    rcases List.mem_append.1 hc with hc | hc
    · exact hp c hc
    · left
      simp only [List.mem_cons, List.not_mem_nil, or_false] at hc
      unfold NameChar Semver.Spec.Letter Semver.Spec.Digit
      rcases hc with rfl | rfl | rfl | rfl <;> decide
  rcases hu with hu | hu
  · rcases name_of_form hP hu hh hp with e | e
    · rw [e, trimSuffix_other hgit]
    · rw [e, trimSuffix_other (git_not_of_slash hgit)]; simp
  · rcases name_of_form hP hu hh hpg with e | e
    · rw [e, trimSuffix_append]
    · rw [e, ← List.append_assoc, trimSuffix_append]; simp

/-- The ssh forms, for any host and path without a colon. -/
theorem C62_ssh (parseUrl : Str → Option (Str × Str)) (h p : Str) (h1 : ':' ∉ h) (h2 : ':' ∉ p) (h3 : ¬ go!".git" <:+ p) :
    parseRemote parseUrl (go!"git@" ++ h ++ go!":" ++ p) = .ok (h ++ go!"/" ++ p) ∧
    parseRemote parseUrl (go!"git@" ++ h ++ go!":" ++ p ++ go!".git") = .ok (h ++ go!"/" ++ p) := by
  refine ⟨by rw [parseRemote_ssh parseUrl h1 h2, trimSuffix_other h3], ?_⟩
  rw [List.append_assoc _ p, parseRemote_ssh parseUrl h1 (by simp [h2]), trimSuffix_append]

/-- A line of output: not empty, no white space at the ends. -/
def Spec.Line (s : Str) : Prop := s ≠ [] ∧ Verif.Spec.NoBlankEnds s

theorem trimSpace_line {y : Str} (h : Spec.Line y) : Str.trimSpace (y ++ go!"\n") = y := by
  rw [trimSpace_iff]
  refine ⟨[], go!"\n", rfl, ⟨[], by simp, rfl⟩, ⟨[go!"\n"], ?_, rfl⟩, h.2⟩
  intro w hw
  rw [List.mem_singleton] at hw
  subst hw
  exact ⟨0x0A, by decide, by decide +kernel⟩

/-- What `git remote get-url origin` prints is the remote and a newline. -/
theorem C62_infer (parseUrl : Str → Option (Str × Str)) (u : Str) (hu : Spec.Line u) :
    inferRepo parseUrl ⟨u ++ go!"\n", none⟩ = parseRemote parseUrl u := by
  simp [inferRepo, command, trimSpace_line hu]

/-- **C62**, a remote that is in neither form is an error that shows it; an error of git is passed on. -/
theorem C62_errors (parseUrl : Str → Option (Str × Str)) (u text e : Str) (h : parseUrl u = none) (hs : ¬ go!"git@" <+: u) (hu : Spec.Line u) :
    inferRepo parseUrl ⟨u ++ go!"\n", none⟩ = .error (go!"unrecognized remote URL: " ++ u) ∧ inferRepo parseUrl ⟨text, some e⟩ = .error e := by
  refine ⟨?_, rfl⟩
  have : Str.hasPrefix u go!"git@" = false := by
    rw [Bool.eq_false_iff]
    intro hc
    exact hs (List.isPrefixOf_iff_prefix.1 hc)
  simp [inferRepo, command, trimSpace_line hu, parseRemote, h, this]

/-! A parser that meets the specification. -/
namespace UrlSample

def after (c : Char) (s : Str) : Str := (s.dropWhile (· != c)).drop 1

/-- The host name of an authority. -/
def hostOf (a : Str) : Str := (if a.contains '@' then after '@' a else a).takeWhile (· != ':')

def parse (u : Str) : Option (Str × Str) :=
  let rest := (after ':' u).drop 2
  some (hostOf (rest.takeWhile (· != '/')), rest.dropWhile (· != '/'))

theorem after_append {c : Char} {a s : Str} (h : c ∉ a) : after c (a ++ c :: s) = s := by
  unfold after
  rw [List.dropWhile_append_of_pos (fun x hx => by simp; rintro rfl; exact h hx)]
  simp
theorem takeWhile_append_stop {c : Char} {a s : Str} (h : c ∉ a) : (a ++ c :: s).takeWhile (· != c) = a := by
  rw [List.takeWhile_append_of_pos (fun x hx => by simp; rintro rfl; exact h hx)]
  simp
theorem dropWhile_append_stop {c : Char} {a s : Str} (h : c ∉ a) : (a ++ c :: s).dropWhile (· != c) = c :: s := by
  rw [List.dropWhile_append_of_pos (fun x hx => by simp; rintro rfl; exact h hx)]
  simp
theorem takeWhile_all {c : Char} {a : Str} (h : c ∉ a) : a.takeWhile (· != c) = a := by
  induction a with
  | nil => rfl
  | cons x a ih =>
    simp only [List.mem_cons, not_or] at h
    rw [List.takeWhile_cons_of_pos (by simp; exact fun e => h.1 e.symm), ih h.2]

theorem parse_of {scheme a p : Str} (hs : Scheme scheme) (ha : '/' ∉ a) : parse (scheme ++ go!"://" ++ a ++ go!"/" ++ p) = some (hostOf a, go!"/" ++ p) := by
  have e : scheme ++ go!"://" ++ a ++ go!"/" ++ p = scheme ++ ':' :: ('/' :: '/' :: (a ++ '/' :: p)) := by simp
  unfold parse
  rw [e, after_append (scheme_not hs).1]
  simp only [List.drop_succ_cons, List.drop_zero]
  rw [takeWhile_append_stop ha, dropWhile_append_stop ha]
  rfl

theorem parser : UrlParser parse where
  parses scheme h p hs hh hp := by
    have hn := host_not hh
    have e : hostOf h = h := by simp [hostOf, hn.2.1, takeWhile_all hn.1]
    rw [parse_of hs hn.2.2, e]
  withUser scheme user h p hs hu hh hp := by
    have hn := host_not hh
    have hn' := host_not hu
    have e : hostOf (user ++ go!"@" ++ h) = h := by
      have : user ++ go!"@" ++ h = user ++ '@' :: h := by simp
      rw [this]
      simp [hostOf, after_append hn'.2.1, takeWhile_all hn.1]
    have := parse_of (p := p) hs (a := user ++ go!"@" ++ h) (by simp [hn.2.2, hn'.2.2])
    rw [e] at this
    simpa [List.append_assoc] using this
  withPort scheme user h port p hs hu hh hp hport := by
    have hn := host_not hh
    have hn' := host_not hu
    have hd : '/' ∉ port := fun hm => by
      have := hport _ hm
      revert this; unfold Semver.Spec.Digit; decide
    have e : hostOf (user ++ go!"@" ++ h ++ go!":" ++ port) = h := by
      have : user ++ go!"@" ++ h ++ go!":" ++ port = user ++ '@' :: (h ++ ':' :: port) := by simp
      rw [this]
      simp [hostOf, after_append hn'.2.1, takeWhile_append_stop hn.1]
    have := parse_of (p := p) hs (a := user ++ go!"@" ++ h ++ go!":" ++ port) (by simp [hn.2.2, hn'.2.2, hd])
    rw [e] at this
    simpa [List.append_assoc] using this

example : parseRemote parse go!"ssh://git@phabricator.company.com:2222/diffusion/COMPANY/companay.git" = .ok go!"phabricator.company.com/diffusion/COMPANY/companay" := by
  decide +kernel
example : parseRemote parse go!"git@github.com:scip-code/scip-go.git" = .ok go!"github.com/scip-code/scip-go" :=
  (C62_ssh parse go!"github.com" go!"scip-code/scip-go" (by decide) (by decide) (by decide)).2
example : parseRemote parse go!"https://github.com/scip-code/scip-go" = .ok go!"github.com/scip-code/scip-go" :=
  C62_same_name parse parser go!"github.com" go!"scip-code/scip-go" _ ⟨by decide, by unfold NameChar Semver.Spec.Letter Semver.Spec.Digit; decide⟩
    (by unfold PathName NameChar Semver.Spec.Letter Semver.Spec.Digit; decide) (by decide)
    (.inl (.url go!"https" ⟨by decide, by unfold Semver.Spec.Letter; decide⟩))

end UrlSample

/-! ## C63: the module version -/

/-- What `git tag` prints: one tag per line. -/
def Spec.tagOutput (tags : List Str) : Str := (tags.map (· ++ go!"\n")).flatten

theorem tagOutput_eq (tags : List Str) (h : tags ≠ []) : Spec.tagOutput tags = Str.join go!"\n" tags ++ go!"\n" := by
  induction tags with
  | nil => exact absurd rfl h
  | cons a l ih =>
    cases l with
    | nil => simp [Spec.tagOutput, Str.join]
    | cons b l =>
      have := ih (by simp)
      have e : Spec.tagOutput (a :: b :: l) = a ++ go!"\n" ++ Spec.tagOutput (b :: l) := by simp [Spec.tagOutput]
      rw [e, this]
      simp [Str.join]

theorem join_line (tags : List Str) (h : tags ≠ []) (ht : ∀ t ∈ tags, Spec.Line t) : Spec.Line (Str.join go!"\n" tags) := by
  induction tags with
  | nil => exact absurd rfl h
  | cons a l ih =>
    cases l with
    | nil => exact ht a (by simp)
    | cons b l =>
      obtain ⟨i1, i2⟩ := ih (by simp) (fun t ht' => ht t (by simp [ht']))
      obtain ⟨a1, a2⟩ := ht a (by simp)
      show Spec.Line (a ++ go!"\n" ++ Str.join go!"\n" (b :: l))
      rw [List.append_assoc]
      exact ⟨by simp, noBlankEnds_lines a1 i1 a2 i2⟩

/-- A name git allows for a tag (git-check-ref-format allows more restricted ones only): not empty, on one line, no white space at the ends. -/
def Spec.TagName (t : Str) : Prop := t ≠ [] ∧ '\n' ∉ t ∧ Verif.Spec.NoBlankEnds t

theorem tagName_line {t : Str} (h : Spec.TagName t) : Spec.Line t := ⟨h.1, h.2.2⟩

/-- **C63.** With tags at the commit, the version is the first tag that is a semantic version, or the first tag if there is none;
without tags it is the first 12 characters of the commit id. -/
theorem C63_module_version (tags : List Str) (ht : ∀ t ∈ tags, Spec.TagName t) (id : Str) (hid : Spec.TagName id) (hlen : 12 ≤ id.length) :
    (∀ before t later b, tags = before ++ t :: later → Semver.Spec.Version t b → (∀ x ∈ before, ∀ b, ¬ Semver.Spec.Version x b) →
      inferModuleVersion ⟨Spec.tagOutput tags, none⟩ ⟨id ++ go!"\n", none⟩ = .ok t) ∧
    (∀ t later, tags = t :: later → (∀ x ∈ tags, ∀ b, ¬ Semver.Spec.Version x b) →
      inferModuleVersion ⟨Spec.tagOutput tags, none⟩ ⟨id ++ go!"\n", none⟩ = .ok t) ∧
    (tags = [] → inferModuleVersion ⟨Spec.tagOutput tags, none⟩ ⟨id ++ go!"\n", none⟩ = .ok (id.take 12)) := by
  have hlines : tags ≠ [] → command ⟨Spec.tagOutput tags, none⟩ = (Str.join go!"\n" tags, none) ∧ Str.splitOn '\n' (Str.join go!"\n" tags) = tags ∧
      Str.join go!"\n" tags ≠ [] := by
    intro hne
    have hl := join_line tags hne (fun t h => tagName_line (ht t h))
    refine ⟨by simp [command, tagOutput_eq tags hne, trimSpace_line hl], splitOn_join (fun x hx hm => ?_) hne, hl.1⟩
    exact (ht x hx).2.1 hm
  have hvalid : ∀ x, (∀ b, ¬ Semver.Spec.Version x b) → Semver.isValid x = false := by
    intro x hx
    cases hv : Semver.isValid x with
    | false => rfl
    | true => obtain ⟨b, hb⟩ := Semver.isValid_iff.1 hv; exact absurd hb (hx b)
  refine ⟨?_, ?_, ?_⟩
  · intro before t later b e hv hb
    have hne : tags ≠ [] := by rw [e]; simp
    obtain ⟨h1, h2, h3⟩ := hlines hne
    unfold inferModuleVersion
    simp only [h1, h2]
    rw [if_pos h3]
    have : tags.find? Semver.isValid = some t := by
      rw [e, List.find?_append, List.find?_cons_of_pos (Semver.isValid_iff.2 ⟨b, hv⟩)]
      have : before.find? Semver.isValid = none := List.find?_eq_none.2 (fun x hx => by simp [hvalid x (hb x hx)])
      rw [this]; rfl
    simp [this]
  · intro t later e hb
    have hne : tags ≠ [] := by rw [e]; simp
    obtain ⟨h1, h2, h3⟩ := hlines hne
    unfold inferModuleVersion
    simp only [h1, h2]
    rw [if_pos h3]
    have : tags.find? Semver.isValid = none := List.find?_eq_none.2 (fun x hx => by simp [hvalid x (hb x hx)])
    simp only [this]
    rw [e]
    rfl
  · intro e
    subst e
    have h1 : command ⟨Spec.tagOutput [], none⟩ = ([], none) := rfl
    unfold inferModuleVersion
    simp only [h1, ne_eq, not_true_eq_false, if_false]
    simp only [command, trimSpace_line (tagName_line hid)]
    split
    · omega
    · rfl

/-- Errors of git are reported, with what git printed; an id shorter than 12 characters makes the program panic. -/
theorem C63_errors (t h e : Str) (head : Output) (hs : (Str.trimSpace h).length < 12) :
    inferModuleVersion ⟨t, some e⟩ head = .error (go!"failed to tags for current commit: " ++ e ++ go!"\n" ++ Str.trimSpace t) ∧
    inferModuleVersion ⟨[], none⟩ ⟨h, some e⟩ = .error (go!"failed to get current commit: " ++ e ++ go!"\n" ++ Str.trimSpace h) ∧
    inferModuleVersion ⟨[], none⟩ ⟨h, none⟩ = .crash := by
  refine ⟨rfl, rfl, ?_⟩
  · simp only [inferModuleVersion, command]
    have : Str.trimSpace [] = [] := rfl
    rw [this]
    simp [hs]

/-- Two tags, the second a version; no version; no tag. -/
example : inferModuleVersion ⟨go!"latest\nv1.2.3\n", none⟩ ⟨[], none⟩ = .ok go!"v1.2.3" ∧
    inferModuleVersion ⟨go!"latest\nrelease\n", none⟩ ⟨[], none⟩ = .ok go!"latest" ∧
    inferModuleVersion ⟨[], none⟩ ⟨go!"0123456789abcdef\n", none⟩ = .ok go!"0123456789ab" := by decide +kernel
example : inferModuleVersion ⟨Spec.tagOutput [go!"latest", go!"v1"], none⟩ ⟨go!"0123456789abcdef" ++ go!"\n", none⟩ = .ok go!"v1" :=
  (C63_module_version [go!"latest", go!"v1"] (by unfold Spec.TagName; decide) go!"0123456789abcdef" (by unfold Spec.TagName; decide) (by decide)).1
    [go!"latest"] go!"v1" [] [] rfl (.major ⟨⟨by decide, by unfold Semver.Spec.Digit; decide⟩, .inr (by decide)⟩) (by
      intro x hx b hv
      simp only [List.mem_singleton] at hx
      subst hx
      have : Semver.isValid go!"latest" = true := Semver.isValid_iff.2 ⟨b, hv⟩
      revert this; decide +kernel)

/-! ## C64: the module name -/

/-- What is used of `vcs.RepoRootForImportPath`: the root is a beginning of the import path. -/
def Spec.RootsOk (E : ModuleEnv) : Prop := ∀ name root, E.repoRoot name = .ok root → root <+: name

/-- **C64** (what holds): an explicit name is used as it is; otherwise the name in `go.mod`; a `go.mod` that cannot be parsed is reported;
without a `go.mod` the repository (the root of the repository with the rest of the path).  In each case it is the standard library
exactly if the name is `std`.  Missing: a repository that cannot be resolved is not reported (C64_failure_swallowed), and a `go.mod`
without module directive makes the program panic (C64_no_directive). -/
theorem C64_module_name_partial (E : ModuleEnv) (dir repo inName : Str) :
    (inName ≠ [] → moduleName E dir repo inName = .ok (inName, decide (inName = go!"std"))) ∧
    (∀ data path, inName = [] → E.readGoMod (goModIn dir) = some data → E.parseGoMod data = .ok (some path) →
      moduleName E dir repo inName = .ok (path, decide (path = go!"std"))) ∧
    (∀ data e, inName = [] → E.readGoMod (goModIn dir) = some data → E.parseGoMod data = .error e →
      moduleName E dir repo inName = .error (go!"failed to parse go.mod: " ++ e)) ∧
    (∀ root, inName = [] → E.readGoMod (goModIn dir) = none → E.repoRoot repo = .ok root → Spec.RootsOk E →
      moduleName E dir repo inName = .ok (repo, decide (repo = go!"std"))) := by
  refine ⟨?_, ?_, ?_, ?_⟩
  · intro h
    unfold moduleName
    simp only [h, ne_eq, not_false_eq_true, if_true]
    by_cases hs : inName = go!"std" <;> simp [hs]
  · intro data path h1 h2 h3
    subst h1
    unfold moduleName
    simp only [ne_eq, not_true_eq_false, if_false, h2, h3]
    by_cases hs : path = go!"std" <;> simp [hs]
  · intro data e h1 h2 h3
    subst h1
    unfold moduleName
    simp [h2, h3]
  · intro root h1 h2 h3 h4
    subst h1
    have hpre := h4 repo root h3
    have e : root ++ Str.trimPrefix repo root = repo := by
      obtain ⟨t, rfl⟩ := hpre
      rw [trimPrefix_append]
    unfold moduleName resolveModuleName
    simp only [ne_eq, not_true_eq_false, if_false, h2, h3, e]
    by_cases hs : repo = go!"std" <;> simp [hs]

/-- **C64** fails here: without `go.mod` a repository that cannot be resolved is not reported; the module name is silently empty. -/
theorem C64_failure_swallowed (E : ModuleEnv) (dir repo e : Str) (h1 : E.readGoMod (goModIn dir) = none) (h2 : E.repoRoot repo = .error e) :
    moduleName E dir repo [] = .ok ([], false) ∧
    resolveModuleName E repo repo =
      .error (e ++ go!"\n\nMake sure your git repo has a remote (git remote add origin git@github.com:owner/repo)") := by
  unfold moduleName resolveModuleName
  simp [h1, h2]

/-- **C64** fails here: a `go.mod` without module directive makes the program panic. -/
theorem C64_no_directive (E : ModuleEnv) (dir repo data : Str) (h1 : E.readGoMod (goModIn dir) = some data) (h2 : E.parseGoMod data = .ok none) :
    moduleName E dir repo [] = .crash := by
  unfold moduleName
  simp [h1, h2]

namespace ModuleSample
def E (mod : Option Str) : ModuleEnv :=
  ⟨fun p => if p = go!"/w/go.mod" then mod else none,
   fun d => if d = go!"module std" then .ok (some go!"std") else if d = [] then .ok none else .error go!"unknown directive",
   fun n => if Str.hasPrefix n go!"github.com/a/b" then .ok go!"github.com/a/b" else .error go!"unrecognized import path"⟩
theorem rootsOk (m : Option Str) : Spec.RootsOk (E m) := by
  intro name root h
  simp only [E] at h
  split at h
  · rename_i hp
    simp only [Except.ok.injEq] at h
    subst h
    exact List.isPrefixOf_iff_prefix.1 hp
  · simp at h
example : moduleName (E (some go!"module std")) go!"/w" [] [] = .ok (go!"std", true) :=
  (C64_module_name_partial (E (some go!"module std")) go!"/w" [] []).2.1 go!"module std" go!"std" rfl (by decide +kernel) (by decide +kernel)
example : moduleName (E none) go!"/w" go!"github.com/a/b/c" [] = .ok (go!"github.com/a/b/c", false) :=
  (C64_module_name_partial (E none) go!"/w" go!"github.com/a/b/c" []).2.2.2 go!"github.com/a/b" rfl (by decide +kernel) (by decide +kernel) (rootsOk _)
/-- No remote configured: the name is empty and no error is reported. -/
example : moduleName (E none) go!"/w" [] [] = .ok ([], false) :=
  (C64_failure_swallowed (E none) go!"/w" [] go!"unrecognized import path" (by decide +kernel) (by decide +kernel)).1
example : moduleName (E (some [])) go!"/w" go!"r" [] = .crash := C64_no_directive (E (some [])) go!"/w" go!"r" [] (by decide +kernel) (by decide +kernel)
end ModuleSample

/-! ## C65: the default module root -/

/-- The cleaned path of a directory. -/
def Spec.pathOf (d : List Str) : Str := '/' :: Str.join go!"/" d

theorem directory_pathOf {d : List Str} (h : ∀ x ∈ d, Name x) : directory (pathOf d) = d := by
  have e : pathOf d = [] ++ '/' :: Str.join go!"/" d := rfl
  unfold directory
  rw [e, splitOn_sep]
  cases d with
  | nil => rfl
  | cons a l =>
    rw [splitOn_join (fun x hx => (h x hx).2.2.2) (by simp), List.foldl_append]
    have : (Str.splitOn '/' []).foldl enter [] = [] := rfl
    rw [this, enter_names _ _ h]
    rfl

theorem pathOf_abs (d : List Str) : Absolute (pathOf d) := rfl

theorem join_snoc (l : List Str) (x : Str) (h : l ≠ []) : Str.join go!"/" (l ++ [x]) = Str.join go!"/" l ++ go!"/" ++ x := by
  induction l with
  | nil => exact absurd rfl h
  | cons a l ih =>
    cases l with
    | nil => simp [Str.join]
    | cons b l =>
      have := ih (by simp)
      simp only [List.cons_append, Str.join] at this ⊢
      rw [this]
      simp

theorem pathOf_snoc (l : List Str) (x : Str) : pathOf (l ++ [x]) = (if l = [] then [] else pathOf l) ++ '/' :: x := by
  unfold pathOf
  by_cases h : l = []
  · subst h; rfl
  · rw [if_neg h, join_snoc l x h]; simp

theorem dir_pathOf {l : List Str} {x : Str} (h : ∀ y ∈ l ++ [x], Name y) : dir (pathOf (l ++ [x])) = pathOf l := by
  have hx : '/' ∉ x := (h x (by simp)).2.2.2
  have hl : ∀ y ∈ l, Name y := fun y hy => h y (by simp [hy])
  unfold dir
  rw [pathOf_snoc]
  have e : ((if l = [] then [] else pathOf l) ++ '/' :: x).reverse = x.reverse ++ '/' :: (if l = [] then [] else pathOf l).reverse := by simp
  rw [e, UrlSample.dropWhile_append_stop (by simpa using hx)]
  simp only [List.reverse_cons, List.reverse_reverse]
  have habs : Absolute ((if l = [] then [] else pathOf l) ++ ['/']) := by
    split
    · rfl
    · rfl
  rw [clean_abs habs]
  have : directory ((if l = [] then [] else pathOf l) ++ ['/']) = l := by
    unfold directory
    rw [splitOn_sep, List.foldl_append]
    split
    · rename_i h0; subst h0; rfl
    · have := directory_pathOf hl
      unfold directory at this
      rw [this]
      simp [Str.splitOn, enter]
  rw [this]
  rfl

theorem dir_root : dir (pathOf []) = pathOf [] := by decide +kernel

theorem goModIn_pathOf {d : List Str} (h : ∀ x ∈ d, Name x) : goModIn (pathOf d) = pathOf (d ++ [go!"go.mod"]) := by
  have h0 : pathOf d ≠ [] := by simp [pathOf]
  unfold goModIn
  rw [if_neg h0]
  have habs : Absolute (pathOf d ++ go!"/go.mod") := rfl
  rw [clean_abs habs]
  have : directory (pathOf d ++ go!"/go.mod") = d ++ [go!"go.mod"] := by
    have e : pathOf d ++ go!"/go.mod" = pathOf d ++ '/' :: go!"go.mod" := rfl
    have hd := directory_pathOf h
    unfold directory at hd ⊢
    rw [e, splitOn_sep, List.foldl_append, hd]
    rfl
  rw [this]
  rfl

/-- `d` is the closest directory at or above `wd` with a `go.mod`. -/
def Spec.Closest (stat : Str → Stat) (wd d : List Str) : Prop :=
  AtOrAbove d wd ∧ stat (pathOf (d ++ [go!"go.mod"])) = .found ∧ ∀ e, AtOrAbove e wd → stat (pathOf (e ++ [go!"go.mod"])) = .found → AtOrAbove e d

theorem pathOf_prefix {a b : List Str} (h : a <+: b) : pathOf a <+: pathOf b := by
  obtain ⟨t, rfl⟩ := h
  induction t generalizing a with
  | nil => simp
  | cons x t ih =>
    have := ih (a := a ++ [x])
    simp only [List.append_assoc, List.cons_append, List.nil_append] at this
    refine List.IsPrefix.trans ?_ this
    rw [pathOf_snoc]
    split
    · rename_i h0; subst h0; exact ⟨x, rfl⟩
    · exact List.prefix_append _ _

theorem search_outside {stat : Str → Stat} {root : Str} {wd : List Str} (hn : ∀ x ∈ wd, Name x) (hout : ¬ root <+: pathOf wd)
    (hstat : ∀ d, AtOrAbove d wd → stat (pathOf (d ++ [go!"go.mod"])) ≠ .error) (fuel : Nat) (d : List Str) (hd : AtOrAbove d wd)
    (hfuel : d.length < fuel) (hbelow : ∀ e, AtOrAbove e wd → stat (pathOf (e ++ [go!"go.mod"])) = .found → AtOrAbove e d) :
    (∃ c, Closest stat wd c ∧ searchLoop stat (pathOf wd) root fuel (pathOf d) = some (Git.rel (pathOf wd) (pathOf c))) ∨
    (∀ e, AtOrAbove e wd → stat (pathOf (e ++ [go!"go.mod"])) = .missing) ∧ searchLoop stat (pathOf wd) root fuel (pathOf d) = some go!"." := by
  induction fuel generalizing d with
  | zero => simp at hfuel
  | succ fuel ih =>
    have hnd : ∀ x ∈ d, Name x := fun x hx => hn x (hd.subset hx)
    have hp : Str.hasPrefix (pathOf d) root = false := by
      cases hs : Str.hasPrefix (pathOf d) root with
      | false => rfl
      | true => exact absurd ((List.isPrefixOf_iff_prefix.1 hs).trans (pathOf_prefix hd)) hout
    rw [searchLoop, hp]
    simp only [Bool.false_eq_true, if_false]
    rw [goModIn_pathOf hnd]
    cases hs : stat (pathOf (d ++ [go!"go.mod"])) with
    | error => exact absurd hs (hstat d hd)
    | found => exact .inl ⟨d, ⟨hd, hs, hbelow⟩, rfl⟩
    | missing =>
      simp only
      rcases List.eq_nil_or_concat d with h0 | ⟨l, x, h0⟩
      · subst h0
        rw [dir_root, if_pos rfl]
        refine .inr ⟨fun e he => ?_, rfl⟩
        cases hse : stat (pathOf (e ++ [go!"go.mod"])) with
        | missing => rfl
        | error => exact absurd hse (hstat e he)
        | found =>
          have := hbelow e he hse
          unfold AtOrAbove at this
          rw [List.prefix_nil] at this
          subst this
          rw [hs] at hse; simp at hse
      · rw [List.concat_eq_append] at h0
        subst h0
        have hdir := dir_pathOf hnd
        rw [hdir]
        have hne : pathOf l ≠ pathOf (l ++ [x]) := by
          intro e
          have h1 := directory_pathOf (d := l) (fun y hy => hnd y (by simp [hy]))
          rw [e, directory_pathOf hnd] at h1
          have := congrArg List.length h1
          simp at this
        rw [if_neg hne]
        refine ih l ((List.prefix_append l [x]).trans hd) (by simp at hfuel; omega) ?_
        intro e he hse
        have h1 := hbelow e he hse
        unfold AtOrAbove at h1 ⊢
        rcases List.prefix_concat_iff.1 h1 with h2 | h2
        · rw [h2, hs] at hse; simp at hse
        · exact h2

/-- **C65** (what holds): if the textual path of the working directory does not start with the reported repository root (as when it was
entered through a symbolic link) and no file system error occurs, the result leads to the closest directory with a `go.mod` at or above
the working directory, and is `.` if there is none.  Missing: the same for working directories inside the repository
(C65_inside_repository shows that it fails there). -/
theorem C65_closest_partial (stat : Str → Stat) (root : Str) (wd : List Str) (hn : ∀ x ∈ wd, x ≠ [] ∧ x ≠ go!"." ∧ x ≠ go!".." ∧ '/' ∉ x)
    (hout : ¬ root <+: pathOf wd) (hstat : ∀ d, AtOrAbove d wd → stat (pathOf (d ++ [go!"go.mod"])) ≠ .error) (fuel : Nat) (hf : wd.length < fuel) :
    ∃ r, searchForGoMod stat fuel (pathOf wd) root = some r ∧
      ((∃ c, Closest stat wd c ∧ directory (pathOf wd ++ '/' :: r) = c) ∨
       (∀ e, AtOrAbove e wd → stat (pathOf (e ++ [go!"go.mod"])) = .missing) ∧ r = go!".") := by
  rcases search_outside (stat := stat) hn hout hstat fuel wd (List.prefix_refl _) hf (fun e he _ => he) with ⟨c, hc, h⟩ | ⟨h1, h2⟩
  · refine ⟨_, h, .inl ⟨c, hc, ?_⟩⟩
    have hnc : ∀ x ∈ c, Name x := fun x hx => hn x (hc.1.subset hx)
    obtain ⟨r, h3, _, h4⟩ := C73_leads_to_file (pathOf wd) (pathOf c) (pathOf_abs _) (pathOf_abs _)
    unfold Git.rel
    rw [h3]
    simp only
    rw [h4, directory_pathOf hnc]
  · exact ⟨_, h2, .inr ⟨h1, rfl⟩⟩

/-- **C65** fails inside the repository (and outside of any repository, where the root is empty): the result is always `.`, whatever
`go.mod` files there are. -/
theorem C65_inside_repository (stat : Str → Stat) (root wd : Str) (fuel : Nat) (h : root <+: wd) : searchForGoMod stat (fuel + 1) wd root = some go!"." := by
  unfold searchForGoMod searchLoop
  have : Str.hasPrefix wd root = true := List.isPrefixOf_iff_prefix.2 h
  simp [this]

/-- **C65**, a file system error ends the search with the working directory itself. -/
theorem C65_stat_error (stat : Str → Stat) (root wd : Str) (fuel : Nat) (h : ¬ root <+: wd) (he : stat (goModIn wd) = .error) :
    searchForGoMod stat (fuel + 1) wd root = some go!"." := by
  unfold searchForGoMod searchLoop
  have : Str.hasPrefix wd root = false := by
    rw [Bool.eq_false_iff]
    intro hc
    exact h (List.isPrefixOf_iff_prefix.1 hc)
  simp [this, he]

/-- So whenever the closest `go.mod` is not in the working directory itself, the default is wrong. -/
theorem C65_wrong_inside (stat : Str → Stat) (root : Str) (wd c : List Str) (fuel : Nat) (hn : ∀ x ∈ wd, x ≠ [] ∧ x ≠ go!"." ∧ x ≠ go!".." ∧ '/' ∉ x)
    (h : root <+: pathOf wd) (_hc : Closest stat wd c) (hne : c ≠ wd) :
    ∃ r, searchForGoMod stat (fuel + 1) (pathOf wd) root = some r ∧ directory (pathOf wd ++ '/' :: r) ≠ c := by
  refine ⟨_, C65_inside_repository stat root (pathOf wd) fuel h, ?_⟩
  have hd := directory_pathOf (d := wd) hn
  have : directory (pathOf wd ++ '/' :: go!".") = wd := by
    unfold directory at hd ⊢
    rw [splitOn_sep, List.foldl_append, hd]
    simp [Str.splitOn, enter]
  rw [this]
  exact Ne.symm hne

namespace SearchSample
/-- A repository `/r` with a `go.mod` in `/r/m`; `/l` is a link to `/r`. -/
def stat (p : Str) : Stat := if p = go!"/r/m/go.mod" ∨ p = go!"/l/m/go.mod" then .found else .missing
def wd : List Str := [go!"r", go!"m", go!"cmd"]
def linked : List Str := [go!"l", go!"m", go!"cmd"]
example : pathOf wd = go!"/r/m/cmd" := rfl
example : searchForGoMod stat 9 (pathOf wd) go!"/r" = some go!"." := by decide +kernel
example : searchForGoMod stat 9 (pathOf linked) go!"/r" = some go!".." := by decide +kernel
example := C65_closest_partial stat go!"/r" linked (by decide +kernel) (by decide +kernel) (by intro d _; unfold stat; split <;> simp) 9 (by decide)
theorem closest : Closest stat wd [go!"r", go!"m"] := by
  refine ⟨by unfold AtOrAbove; decide +kernel, by decide +kernel, ?_⟩
  intro e he hs
  have : e ∈ wd.inits := (List.mem_inits e wd).2 he
  have key : ∀ e ∈ wd.inits, stat (pathOf (e ++ [go!"go.mod"])) = .found → e <+: [go!"r", go!"m"] := by decide +kernel
  exact key e this hs
example : ∃ r, searchForGoMod stat 9 (pathOf wd) go!"/r" = some r ∧ directory (pathOf wd ++ '/' :: r) ≠ [go!"r", go!"m"] :=
  C65_wrong_inside stat go!"/r" wd _ 8 (by decide +kernel) (by decide +kernel) closest (by decide +kernel)
end SearchSample

end Verif
