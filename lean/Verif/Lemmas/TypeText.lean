import Verif.Spec.TypeText
import Verif.Props.Document
import Verif.Lemmas.Digits
/-! # A reader for the text of a type; reading inverts printing -/
namespace Verif.Ts
open Spec

/-- The word at the beginning, and what comes after it. -/
def word (s : Str) : Str := s.takeWhile pathChar
def after (s : Str) : Str := s.dropWhile pathChar

/-- A qualified name, divided at the last dot. -/
def pathPart (w : Str) : Str := ((w.reverse.dropWhile (· != '.')).drop 1).reverse
def namePart (w : Str) : Str := (w.reverse.takeWhile (· != '.')).reverse

def leaf (own : List Str) (w : Str) (args : TList Str) : TExpr Str :=
  if '.' ∈ w then .ref (some (pathPart w)) (namePart w) args
  else if w ∈ predeclared ∨ w ∈ own then .ref none w args
  else .tparam w

/-- The name before a parameter, and the rest. -/
def paramName (s : Str) : Str × Str :=
  match s with
  | '.' :: r => ([], '.' :: r)
  | s =>
    if word s = [] ∨ word s = go!"chan" then ([], s)
    else match after s with
      | ' ' :: r => (word s, r)
      | _ => ([], s)

def fieldName (s : Str) : Option Str × Str :=
  if word s = [] then (none, s)
  else match after s with
    | ' ' :: '"' :: _ => (none, s)
    | ' ' :: '|' :: _ => (none, s)
    | ' ' :: '=' :: _ => (none, s)
    | ' ' :: '`' :: _ => (none, s)
    | ' ' :: r => (some (word s), r)
    | _ => (none, s)

def readTag (unquote : Str → Option Str) (s : Str) : Option (Str × Str) :=
  match s with
  | ' ' :: '"' :: r =>
    match scanQuote r with
    | some (q, t) => (unquote ('"' :: q)).map (fun u => (u, t))
    | none => none
  | ' ' :: '`' :: r => some (r.takeWhile (· != '`'), (r.dropWhile (· != '`')).drop 1)
  | s => some ([], s)

def isMethod (s : Str) : Bool := s.head? != some '~' && word s != go!"func" && (after s).head? == some '('

/-- One term without `~` is no union. -/
def elemOf : Terms Str → TExpr Str
  | .cons false t .nil => t
  | ts => .union ts

section
variable (own : List Str) (unquote : Str → Option Str)
mutual
def pType : Nat → Str → Option (TExpr Str × Str)
  | 0, _ => none
  | n + 1, s =>
    match s with
    | '*' :: r => (pType n r).map (fun x => (.ptr x.1, x.2))
    | '[' :: r =>
      match r with
      | ']' :: r => (pType n r).map (fun x => (.slice x.1, x.2))
      | r => (pType n ((after r).drop 1)).map (fun x => (.array (digitsVal (word r)) x.1, x.2))
    | '<' :: r => (pType n (r.drop 6)).map (fun x => (.chan .recv x.1, x.2))
    | s => pWord n (word s) (after s)
def pWord : Nat → Str → Str → Option (TExpr Str × Str)
  | 0, _, _ => none
  | n + 1, w, r =>
    if w = go!"map" then
      match pType n (r.drop 1) with
      | some (k, r) => (pType n (r.drop 1)).map (fun x => (.map k x.1, x.2))
      | none => none
    else if w = go!"chan" then
      match r with
      | ' ' :: '(' :: r => (pType n r).map (fun x => (.chan .both x.1, x.2.drop 1))
      | ' ' :: r => (pType n r).map (fun x => (.chan .both x.1, x.2))
      | r => (pType n (r.drop 3)).map (fun x => (.chan .send x.1, x.2))
    else if w = go!"func" then (pSig n r).map (fun x => (.func x.1, x.2))
    else if w = go!"struct" then (pFields n (r.drop 1)).map (fun x => (.struct x.1, x.2))
    else if w = go!"interface" then (pElems n (r.drop 1)).map (fun x => (.iface x.1 x.2.1, x.2.2))
    else
      match r with
      | '*' :: r => some (.tparam w.dropLast, r.drop 18)
      | '[' :: r => (pList n r).map (fun x => (leaf own w x.1, x.2))
      | r => some (leaf own w .nil, r)
def pList : Nat → Str → Option (TList Str × Str)
  | 0, _ => none
  | n + 1, s =>
    match pType n s with
    | some (t, ',' :: r) => (pList n (r.drop 1)).map (fun x => (.cons t x.1, x.2))
    | some (t, _ :: r) => some (.cons t .nil, r)
    | _ => none
def pSig : Nat → Str → Option (Sig Str × Str)
  | 0, _ => none
  | n + 1, s =>
    match pParams0 n (s.drop 1) with
    | some (ps, v, r) => (pResults n r).map (fun x => (.mk ps v x.1, x.2))
    | none => none
def pParams0 : Nat → Str → Option (Params Str × Bool × Str)
  | 0, _ => none
  | n + 1, s =>
    match s with
    | ')' :: r => some (.nil, false, r)
    | s => pParams n s
def pResults : Nat → Str → Option (Params Str × Str)
  | 0, _ => none
  | n + 1, s =>
    match s with
    | ' ' :: r =>
      match r with
      | '"' :: _ => some (.nil, s)
      | '|' :: _ => some (.nil, s)
      | '=' :: _ => some (.nil, s)
      | '`' :: _ => some (.nil, s)
      | '(' :: r => (pParams n r).map (fun x => (x.1, x.2.2))
      | r => (pType n r).map (fun x => (.cons [] x.1 .nil, x.2))
    | s => some (.nil, s)
def pParams : Nat → Str → Option (Params Str × Bool × Str)
  | 0, _ => none
  | n + 1, s =>
    match (paramName s).2 with
    | '.' :: r => (pType n (r.drop 2)).map (fun x => (.cons (paramName s).1 (.slice x.1) .nil, true, x.2.drop 1))
    | r =>
      match pType n r with
      | some (t, ',' :: r) => (pParams n (r.drop 1)).map (fun x => (.cons (paramName s).1 t x.1, x.2))
      | some (t, _ :: r) => some (.cons (paramName s).1 t .nil, false, r)
      | _ => none
def pFields : Nat → Str → Option (Fields Str × Str)
  | 0, _ => none
  | n + 1, s =>
    match s with
    | '}' :: r => some (.nil, r)
    | s =>
      match pType n (fieldName s).2 with
      | none => none
      | some (t, r) =>
        match readTag unquote r with
        | some (tag, ';' :: r) => (pFields n (r.drop 1)).map (fun x => (.cons (fieldName s).1 t tag x.1, x.2))
        | some (tag, _ :: r) => some (.cons (fieldName s).1 t tag .nil, r)
        | _ => none
def pElems : Nat → Str → Option (Methods Str × TList Str × Str)
  | 0, _ => none
  | n + 1, s =>
    match s with
    | '}' :: r => some (.nil, .nil, r)
    | s =>
      if isMethod s then
        match pSig n (after s) with
        | some (g, ';' :: r) => (pElems n (r.drop 1)).map (fun x => (.cons (word s) g x.1, x.2))
        | some (g, _ :: r) => some (.cons (word s) g .nil, .nil, r)
        | _ => none
      else (pEmbedded n s).map (fun x => (.nil, x))
def pEmbedded : Nat → Str → Option (TList Str × Str)
  | 0, _ => none
  | n + 1, s =>
    match pTerms n s with
    | some (ts, ';' :: r) => (pEmbedded n (r.drop 1)).map (fun x => (.cons (elemOf ts) x.1, x.2))
    | some (ts, _ :: r) => some (.cons (elemOf ts) .nil, r)
    | _ => none
def pTerms : Nat → Str → Option (Terms Str × Str)
  | 0, _ => none
  | n + 1, s =>
    match pType n (if s.head? = some '~' then s.drop 1 else s) with
    | some (t, ' ' :: '|' :: r) => (pTerms n (r.drop 1)).map (fun x => (.cons (s.head? == some '~') t x.1, x.2))
    | some (t, r) => some (.cons (s.head? == some '~') t .nil, r)
    | none => none
end
end

section
variable (own : List Str) (unquote : Str → Option Str)
theorem pType_succ (n : Nat) (s : Str) : pType own unquote (n + 1) s =
    match s with
    | '*' :: r => (pType own unquote n r).map (fun x => (.ptr x.1, x.2))
    | '[' :: r =>
      match r with
      | ']' :: r => (pType own unquote n r).map (fun x => (.slice x.1, x.2))
      | r => (pType own unquote n ((after r).drop 1)).map (fun x => (.array (digitsVal (word r)) x.1, x.2))
    | '<' :: r => (pType own unquote n (r.drop 6)).map (fun x => (.chan .recv x.1, x.2))
    | s => pWord own unquote n (word s) (after s) := by
  rfl

theorem pWord_succ (n : Nat) (w : Str) (r : Str) : pWord own unquote (n + 1) w r =
    if w = go!"map" then
      match pType own unquote n (r.drop 1) with
      | some (k, r) => (pType own unquote n (r.drop 1)).map (fun x => (.map k x.1, x.2))
      | none => none
    else if w = go!"chan" then
      match r with
      | ' ' :: '(' :: r => (pType own unquote n r).map (fun x => (.chan .both x.1, x.2.drop 1))
      | ' ' :: r => (pType own unquote n r).map (fun x => (.chan .both x.1, x.2))
      | r => (pType own unquote n (r.drop 3)).map (fun x => (.chan .send x.1, x.2))
    else if w = go!"func" then (pSig own unquote n r).map (fun x => (.func x.1, x.2))
    else if w = go!"struct" then (pFields own unquote n (r.drop 1)).map (fun x => (.struct x.1, x.2))
    else if w = go!"interface" then (pElems own unquote n (r.drop 1)).map (fun x => (.iface x.1 x.2.1, x.2.2))
    else
      match r with
      | '*' :: r => some (.tparam w.dropLast, r.drop 18)
      | '[' :: r => (pList own unquote n r).map (fun x => (leaf own w x.1, x.2))
      | r => some (leaf own w .nil, r) := by
  rfl

theorem pList_succ (n : Nat) (s : Str) : pList own unquote (n + 1) s =
    match pType own unquote n s with
    | some (t, ',' :: r) => (pList own unquote n (r.drop 1)).map (fun x => (.cons t x.1, x.2))
    | some (t, _ :: r) => some (.cons t .nil, r)
    | _ => none := by
  rfl

theorem pSig_succ (n : Nat) (s : Str) : pSig own unquote (n + 1) s =
    match pParams0 own unquote n (s.drop 1) with
    | some (ps, v, r) => (pResults own unquote n r).map (fun x => (.mk ps v x.1, x.2))
    | none => none := by
  rfl

theorem pParams0_succ (n : Nat) (s : Str) : pParams0 own unquote (n + 1) s =
    match s with
    | ')' :: r => some (.nil, false, r)
    | s => pParams own unquote n s := by
  rfl

theorem pResults_succ (n : Nat) (s : Str) : pResults own unquote (n + 1) s =
    match s with
    | ' ' :: r =>
      match r with
      | '"' :: _ => some (.nil, s)
      | '|' :: _ => some (.nil, s)
      | '=' :: _ => some (.nil, s)
      | '`' :: _ => some (.nil, s)
      | '(' :: r => (pParams own unquote n r).map (fun x => (x.1, x.2.2))
      | r => (pType own unquote n r).map (fun x => (.cons [] x.1 .nil, x.2))
    | s => some (.nil, s) := by
  rfl

theorem pParams_succ (n : Nat) (s : Str) : pParams own unquote (n + 1) s =
    match (paramName s).2 with
    | '.' :: r => (pType own unquote n (r.drop 2)).map (fun x => (.cons (paramName s).1 (.slice x.1) .nil, true, x.2.drop 1))
    | r =>
      match pType own unquote n r with
      | some (t, ',' :: r) => (pParams own unquote n (r.drop 1)).map (fun x => (.cons (paramName s).1 t x.1, x.2))
      | some (t, _ :: r) => some (.cons (paramName s).1 t .nil, false, r)
      | _ => none := by
  rfl

theorem pFields_succ (n : Nat) (s : Str) : pFields own unquote (n + 1) s =
    match s with
    | '}' :: r => some (.nil, r)
    | s =>
      match pType own unquote n (fieldName s).2 with
      | none => none
      | some (t, r) =>
        match readTag unquote r with
        | some (tag, ';' :: r) => (pFields own unquote n (r.drop 1)).map (fun x => (.cons (fieldName s).1 t tag x.1, x.2))
        | some (tag, _ :: r) => some (.cons (fieldName s).1 t tag .nil, r)
        | _ => none := by
  rfl

theorem pElems_succ (n : Nat) (s : Str) : pElems own unquote (n + 1) s =
    match s with
    | '}' :: r => some (.nil, .nil, r)
    | s =>
      if isMethod s then
        match pSig own unquote n (after s) with
        | some (g, ';' :: r) => (pElems own unquote n (r.drop 1)).map (fun x => (.cons (word s) g x.1, x.2))
        | some (g, _ :: r) => some (.cons (word s) g .nil, .nil, r)
        | _ => none
      else (pEmbedded own unquote n s).map (fun x => (.nil, x)) := by
  rfl

theorem pEmbedded_succ (n : Nat) (s : Str) : pEmbedded own unquote (n + 1) s =
    match pTerms own unquote n s with
    | some (ts, ';' :: r) => (pEmbedded own unquote n (r.drop 1)).map (fun x => (.cons (elemOf ts) x.1, x.2))
    | some (ts, _ :: r) => some (.cons (elemOf ts) .nil, r)
    | _ => none := by
  rfl

theorem pTerms_succ (n : Nat) (s : Str) : pTerms own unquote (n + 1) s =
    match pType own unquote n (if s.head? = some '~' then s.drop 1 else s) with
    | some (t, ' ' :: '|' :: r) => (pTerms own unquote n (r.drop 1)).map (fun x => (.cons (s.head? == some '~') t x.1, x.2))
    | some (t, r) => some (.cons (s.head? == some '~') t .nil, r)
    | none => none := by
  rfl

end

/-! ## Words -/

theorem word_append {w s : Str} (hw : ∀ c ∈ w, pathChar c = true) (hs : ∀ c, s.head? = some c → pathChar c = false) : word (w ++ s) = w ∧ after (w ++ s) = s := by
  have h0 : s.takeWhile pathChar = [] ∧ s.dropWhile pathChar = s := by
    cases s with
    | nil => exact ⟨rfl, rfl⟩
    | cons c r => simp [List.takeWhile, List.dropWhile, hs c rfl]
  unfold word after
  rw [List.takeWhile_append_of_pos hw, List.dropWhile_append_of_pos hw, h0.1, h0.2]
  simp

/-- What can come after a type. -/
def Stop (s : Str) : Prop := s = [] ∨ (∃ c r, s = c :: r ∧ c ∈ [',', ';', ')', ']', '}']) ∨ ∃ c r, s = ' ' :: c :: r ∧ c ∈ ['"', '|', '=', '`']

theorem Stop.head {s : Str} (h : Stop s) : ∀ c, s.head? = some c → c ∈ [',', ';', ')', ']', '}', ' '] := by
  intro c hc
  rcases h with rfl | ⟨d, r, rfl, hd⟩ | ⟨d, r, rfl, hd⟩
  · simp at hc
  · simp only [List.head?_cons, Option.some.injEq] at hc
    subst hc
    simp only [List.mem_cons, List.not_mem_nil, or_false] at hd ⊢
    grind
  · simp only [List.head?_cons, Option.some.injEq] at hc
    subst hc
    decide

theorem Stop.notPath {s : Str} (h : Stop s) : ∀ c, s.head? = some c → pathChar c = false := by
  intro c hc
  have := h.head c hc
  have all : ∀ c ∈ [',', ';', ')', ']', '}', ' '], pathChar c = false := by decide
  exact all c this

theorem stop_cons {c : Char} {r : Str} (h : c ∈ [',', ';', ')', ']', '}']) : Stop (c :: r) := .inr (.inl ⟨c, r, rfl, h⟩)

theorem predeclared_word {w : Str} (h : w ∈ predeclared) : Identifier w := by
  have all : ∀ w ∈ predeclared, w ≠ [] ∧ (∀ c ∈ w, pathChar c = true) ∧ '.' ∉ w ∧ '/' ∉ w ∧ w ∉ keywords ∧ '~' ∉ w := by decide +kernel
  exact all w h

theorem keyword_word {w : Str} (h : w ∈ keywords) : w ≠ [] ∧ (∀ c ∈ w, pathChar c = true) ∧ '.' ∉ w ∧ '/' ∉ w := by
  have all : ∀ w ∈ keywords, w ≠ [] ∧ (∀ c ∈ w, pathChar c = true) ∧ '.' ∉ w ∧ '/' ∉ w := by decide +kernel
  exact all w h

/-- The five words that begin a type. -/
def typeWords : List Str := [go!"map", go!"chan", go!"func", go!"struct", go!"interface"]

theorem typeWords_keywords {w : Str} (h : w ∈ typeWords) : w ∈ keywords := by
  have all : ∀ w ∈ typeWords, w ∈ keywords := by decide +kernel
  exact all w h

/-- The text of a declared type without its arguments is a word. -/
theorem typeName_word {pkg : Option Str} {n : Str} {args : TList Str} (h : WellFormed own (.ref pkg n args)) :
    typeName id pkg n ≠ [] ∧ (∀ c ∈ typeName id pkg n, pathChar c = true) ∧ typeName id pkg n ∉ typeWords ∧
    (∀ c, (typeName id pkg n).head? = some c → c ≠ '.' ∧ c ≠ '~') ∧ ∀ a, leaf own (typeName id pkg n) a = .ref pkg n a := by
  cases pkg with
  | none =>
    have h' : (n ∈ predeclared ∨ n ∈ own ∧ Identifier n) ∧ WellFormedL own args := by simpa [WellFormed] using h
    obtain ⟨h1, h2, h3, h4, h5, h6⟩ : Identifier n := h'.1.elim predeclared_word (fun h => h.2)
    refine ⟨h1, h2, fun hc => h5 (typeWords_keywords hc), ?_, ?_⟩
    · intro c hc
      refine ⟨?_, ?_⟩ <;> rintro rfl
      · exact h3 (List.mem_of_mem_head? hc)
      · exact h6 (List.mem_of_mem_head? hc)
    · intro a
      have : n ∈ predeclared ∨ n ∈ own := h'.1.imp id (fun h => h.1)
      simp [typeName, leaf, h3, this]
  | some p =>
    have h' : ImportPath p ∧ Identifier n ∧ WellFormedL own args := by simpa [WellFormed] using h
    obtain ⟨⟨hp, hp1, hp2, hp3⟩, ⟨h1, h2, h3, h4, h5, h6⟩, _⟩ := h'
    obtain ⟨c, r, rfl, hc⟩ : ∃ c r, p = c :: r ∧ c ≠ '.' ∧ c ≠ '~' := by
      cases p with
      | nil => exact absurd rfl hp1
      | cons c r => exact ⟨c, r, rfl, fun h => hp2 (by simp [h]), fun h => hp3 (by simp [h])⟩
    have ht : typeName id (some (c :: r)) n = (c :: r) ++ '.' :: n := by simp [typeName]
    rw [ht]
    have hdot : '.' ∈ (c :: r) ++ '.' :: n := by simp
    refine ⟨by simp, ?_, ?_, ?_, ?_⟩
    · intro d hd
      rcases List.mem_append.1 hd with hd | hd
      · exact hp d hd
      · rcases List.mem_cons.1 hd with rfl | hd
        · decide
        · exact h2 d hd
    · intro hk
      exact (keyword_word (typeWords_keywords hk)).2.2.1 hdot
    · intro d hd
      simp at hd
      subst hd
      exact hc
    · intro a
      unfold leaf
      rw [if_pos hdot]
      have hrev : ((c :: r) ++ '.' :: n).reverse = n.reverse ++ '.' :: (c :: r).reverse := by simp
      have hpos : ∀ x ∈ n.reverse, (x != '.') = true := by
        intro x hx
        have : x ∈ n := by simpa using hx
        simp only [bne_iff_ne, ne_eq]
        rintro rfl
        exact h3 this
      unfold pathPart namePart
      rw [hrev, List.takeWhile_append_of_pos hpos, List.dropWhile_append_of_pos hpos]
      simp

/-! ## How the text of a type begins -/

/-- The text of a type begins with `*`, `[` or `<`, or with a word that is not continued by a space unless it is `chan`. -/
inductive Begins (t : Str) : Prop
  | sign {c r} : t = c :: r → c ∈ ['*', '[', '<'] → Begins t
  | words {w r} : t = w ++ r → w ≠ [] → (∀ c ∈ w, pathChar c = true) → (∀ c, w.head? = some c → c ≠ '.' ∧ c ≠ '~') →
      (r = [] ∨ (∃ c r', r = c :: r' ∧ c ∈ ['[', '(', '{', '*', '<'] ∧ (c = '(' → w = go!"func")) ∨ w = go!"chan" ∧ ∃ r', r = ' ' :: r') → Begins t

theorem begins (quote : Str → Str) (t : TExpr Str) (h : WellFormed own t) : Begins (render quote id t) := by
  cases t with
  | ref pkg n args =>
    obtain ⟨h1, h2, _, h4, _⟩ := typeName_word h
    cases args with
    | nil => exact .words (w := typeName id pkg n) (r := []) (by simp [render]) h1 h2 h4 (.inl rfl)
    | cons t ts => exact .words (w := typeName id pkg n) (by rw [render]) h1 h2 h4 (.inr (.inl ⟨_, _, rfl, by decide, fun h => absurd h (by decide)⟩))
  | tparam n =>
    have h' : Identifier n ∧ n ∉ own := by simpa [WellFormed] using h
    obtain ⟨⟨h1, h2, h3, _, _, h6⟩, _⟩ := h'
    have h4 : ∀ c, n.head? = some c → c ≠ '.' ∧ c ≠ '~' := by
      intro c hc
      refine ⟨?_, ?_⟩ <;> rintro rfl
      · exact h3 (List.mem_of_mem_head? hc)
      · exact h6 (List.mem_of_mem_head? hc)
    by_cases hp : n ∈ predeclared
    · refine .words (w := n ++ ['/']) (r := go!"* type parameter */") (by simp [render, tparamText, hp]) (by simp) ?_ ?_
        (.inr (.inl ⟨_, _, rfl, by decide, fun h => absurd h (by decide)⟩))
      · intro c hc
        rcases List.mem_append.1 hc with hc | hc
        · exact h2 c hc
        · simp at hc
          subst hc
          decide
      · intro c hc
        cases n with
        | nil => exact absurd rfl h1
        | cons d r => exact h4 c (by simpa using hc)
    · exact .words (w := n) (r := []) (by simp [render, tparamText, hp]) h1 h2 h4 (.inl rfl)
  | array n e => exact .sign (by rw [render]) (by decide)
  | slice e => exact .sign (by rw [render]) (by decide)
  | ptr e => exact .sign (by rw [render]) (by decide)
  | map k e =>
    exact .words (w := go!"map") (by rw [render]; rfl) (by decide) (by decide) (by decide) (.inr (.inl ⟨_, _, rfl, by decide, by decide⟩))
  | chan d e =>
    cases d with
    | both => exact .words (w := go!"chan") (by rw [render]; rfl) (by decide) (by decide) (by decide) (.inr (.inr ⟨rfl, _, rfl⟩))
    | send => exact .words (w := go!"chan") (by rw [render]; rfl) (by decide) (by decide) (by decide) (.inr (.inl ⟨_, _, rfl, by decide, by decide⟩))
    | recv => exact .sign (by rw [render]; rfl) (by decide)
  | func g =>
    cases g with
    | mk ps v rs =>
      exact .words (w := go!"func") (by rw [render, renderSig]) (by decide) (by decide) (by decide) (.inr (.inl ⟨_, _, rfl, by decide, fun _ => rfl⟩))
  | struct fs => exact .words (w := go!"struct") (by rw [render]; rfl) (by decide) (by decide) (by decide) (.inr (.inl ⟨_, _, rfl, by decide, by decide⟩))
  | iface ms es => exact .words (w := go!"interface") (by rw [render]; rfl) (by decide) (by decide) (by decide) (.inr (.inl ⟨_, _, rfl, by decide, by decide⟩))
  | union ts => simp [WellFormed] at h

theorem Begins.head {t : Str} (h : Begins t) : ∃ c r, t = c :: r ∧ (c ≠ '.' ∧ c ≠ '~') ∧ c ∉ [' ', ',', ';', '(', ')', ']', '{', '}', '"', '|', '`', '='] := by
  cases h with
  | @sign c r h1 h2 =>
    refine ⟨c, r, h1, ?_⟩
    simp only [List.mem_cons, List.not_mem_nil, or_false] at h2
    rcases h2 with rfl | rfl | rfl <;> decide
  | @words w r h1 h2 h3 h4 _ =>
    cases w with
    | nil => exact absurd rfl h2
    | cons c w =>
      refine ⟨c, w ++ r, by simpa using h1, h4 c rfl, ?_⟩
      have := h3 c List.mem_cons_self
      intro hc
      have all : ∀ c ∈ [' ', ',', ';', '(', ')', ']', '{', '}', '"', '|', '`', '='], pathChar c = false := by decide
      rw [all c hc] at this
      simp at this

/-- A stop that is not the space before a tag. -/
def Stop' (s : Str) : Prop := s = [] ∨ ∃ c r, s = c :: r ∧ c ∈ [',', ';', ')', ']', '}']

theorem Stop'.stop {s : Str} (h : Stop' s) : Stop s := by
  rcases h with h | h
  · exact .inl h
  · exact .inr (.inl h)

theorem Begins.noName {t : Str} (h : Begins t) {s : Str} (hs : Stop' s) : paramName (t ++ s) = ([], t ++ s) := by
  cases h with
  | @sign c r h1 h2 =>
    subst h1
    have hw : word (c :: (r ++ s)) = [] := by
      simp only [List.mem_cons, List.not_mem_nil, or_false] at h2
      rcases h2 with rfl | rfl | rfl <;> rfl
    unfold paramName
    simp only [List.cons_append, hw, true_or, if_true]
    split <;> simp_all
  | @words w r h1 h2 h3 h4 h5 =>
    subst h1
    have hstop : ∀ c, (r ++ s).head? = some c → pathChar c = false := by
      intro c hc
      rcases h5 with rfl | ⟨d, r', rfl, hd, _⟩ | ⟨_, r', rfl⟩
      · exact hs.stop.notPath c hc
      · simp at hc
        subst hc
        simp only [List.mem_cons, List.not_mem_nil, or_false] at hd
        rcases hd with rfl | rfl | rfl | rfl | rfl <;> decide
      · simp at hc
        subst hc
        decide
    obtain ⟨e1, e2⟩ := word_append h3 hstop
    rw [List.append_assoc]
    generalize hx : w ++ (r ++ s) = x at e1 e2
    unfold paramName
    split
    · rfl
    · rw [e1, e2]
      by_cases hch : w = go!"chan"
      · simp [hch]
      · simp only [h2, hch, or_self, if_false]
        split
        · rename_i r'' heq
          exfalso
          rcases h5 with rfl | ⟨d, r', rfl, hd, _⟩ | ⟨h, _⟩
          · rcases hs with rfl | ⟨c, r3, rfl, hc⟩
            · simp at heq
            · simp at heq
              obtain ⟨rfl, _⟩ := heq
              simp at hc
          · simp at heq
            obtain ⟨rfl, _⟩ := heq
            simp at hd
          · exact hch h
        · rfl

theorem paramName_ident {n x : Str} (h : Identifier n) : paramName (n ++ ' ' :: x) = (n, x) := by
  obtain ⟨h1, h2, h3, h4, h5, h6⟩ := h
  obtain ⟨e1, e2⟩ := word_append (s := ' ' :: x) h2 (by intro c hc; simp at hc; subst hc; decide)
  have hch : n ≠ go!"chan" := by
    rintro rfl
    exact h5 (by decide)
  unfold paramName
  split
  · rename_i r heq
    exfalso
    cases n with
    | nil => exact h1 rfl
    | cons c n => simp at heq; exact h3 (by simp [heq.1])
  · rw [e1, e2]
    simp [h1, hch]

theorem fieldName_ident {n : Str} {x : Str} (h : Identifier n) (hx : ∀ c, x.head? = some c → c ∉ ['"', '|', '=', '`']) : fieldName (n ++ ' ' :: x) = (some n, x) := by
  obtain ⟨h1, h2, h3, h4, h5, h6⟩ := h
  obtain ⟨e1, e2⟩ := word_append (s := ' ' :: x) h2 (by intro c hc; simp at hc; subst hc; decide)
  unfold fieldName
  rw [e1, e2, if_neg h1]
  cases x with
  | nil => rfl
  | cons c x =>
    have := hx c rfl
    split
    · rename_i heq; simp at heq; simp [heq.1] at this
    · rename_i heq; simp at heq; simp [heq.1] at this
    · rename_i heq; simp at heq; simp [heq.1] at this
    · rename_i heq; simp at heq; simp [heq.1] at this
    · rename_i heq; simp at heq; rw [← heq]
    · rename_i heq; exact absurd rfl (heq _)

theorem fieldName_embedded (quote : Str → Str) {t : TExpr Str} (he : Embeddable t) (h : WellFormed own t) {s : Str} (hs : Stop s) :
    fieldName (render quote id t ++ s) = (none, render quote id t ++ s) := by
  have hptr : ∀ e, t = .ptr e → fieldName (render quote id t ++ s) = (none, render quote id t ++ s) := by
    rintro e rfl
    rw [render]
    rfl
  match t, he with
  | .ptr e, _ => exact hptr e rfl
  | .ref pkg n args, _ =>
    obtain ⟨h1, h2, _, h4, _⟩ := typeName_word h
    have : ∃ r, render quote id (.ref pkg n args) = typeName id pkg n ++ r ∧ (r = [] ∨ ∃ r', r = '[' :: r') := by
      cases args with
      | nil => exact ⟨[], by simp [render], .inl rfl⟩
      | cons t ts => exact ⟨_, by rw [render], .inr ⟨_, rfl⟩⟩
    obtain ⟨r, e, hr⟩ := this
    rw [e, List.append_assoc]
    have hstop : ∀ c, (r ++ s).head? = some c → pathChar c = false := by
      intro c hc
      rcases hr with rfl | ⟨r', rfl⟩
      · exact hs.notPath c hc
      · simp at hc
        subst hc
        decide
    obtain ⟨e1, e2⟩ := word_append h2 hstop
    unfold fieldName
    rw [e1, e2, if_neg h1]
    rcases hr with rfl | ⟨r', rfl⟩
    · rcases hs with rfl | ⟨c, r3, rfl, hc⟩ | ⟨c, r3, rfl, hc⟩
      · rfl
      · simp only [List.nil_append]
        split
        · rfl
        · rfl
        · rfl
        · rfl
        · rename_i heq; simp at heq; obtain ⟨rfl, _⟩ := heq; simp at hc
        · rfl
      · simp only [List.mem_cons, List.not_mem_nil, or_false] at hc
        rcases hc with rfl | rfl | rfl | rfl <;> rfl
    · rfl

end Verif.Ts
