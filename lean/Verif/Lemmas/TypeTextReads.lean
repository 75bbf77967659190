import Verif.Lemmas.TypeText
/-! # Reading inverts printing -/
namespace Verif.Ts
open Spec

/-- With enough fuel, the reader gives this. -/
def Reads {α : Type} (p : Nat → Option α) (x : α) : Prop := ∃ N, ∀ n, N ≤ n → p n = some x

theorem Reads.succ {α : Type} {p : Nat → Option α} {x : α} (h : Reads (fun n => p (n + 1)) x) : Reads p x := by
  obtain ⟨N, h⟩ := h
  refine ⟨N + 1, fun n hn => ?_⟩
  obtain ⟨m, rfl⟩ : ∃ m, n = m + 1 := ⟨n - 1, by omega⟩
  exact h m (by omega)

theorem Reads.bind {α β : Type} {p : Nat → Option α} {q : Nat → Option β} {x : α} {y : β} (h : Reads p x)
    (hq : ∀ n, p n = some x → q n = some y) : Reads q y := by
  obtain ⟨N, h⟩ := h
  exact ⟨N, fun n hn => hq n (h n hn)⟩

theorem Reads.bind2 {α β γ : Type} {p : Nat → Option α} {p' : Nat → Option β} {q : Nat → Option γ} {x : α} {x' : β} {y : γ} (h : Reads p x)
    (h' : Reads p' x') (hq : ∀ n, p n = some x → p' n = some x' → q n = some y) : Reads q y := by
  obtain ⟨N, h⟩ := h
  obtain ⟨M, h'⟩ := h'
  exact ⟨N + M, fun n hn => hq n (h n (by omega)) (h' n (by omega))⟩

theorem Reads.pure {α : Type} {p : Nat → Option α} {x : α} (h : ∀ n, p n = some x) : Reads p x := ⟨0, fun n _ => h n⟩

section
variable (own : List Str) (unquote : Str → Option Str)

theorem pType_word (n : Nat) {s : Str} (h : word s ≠ []) : pType own unquote (n + 1) s = pWord own unquote n (word s) (after s) := by
  rw [pType_succ]
  split
  · exact absurd rfl h
  · exact absurd rfl h
  · exact absurd rfl h
  · rfl

theorem pType_of_word {w r : Str} (n : Nat) (h1 : w ≠ []) (h2 : ∀ c ∈ w, pathChar c = true) (h3 : ∀ c, r.head? = some c → pathChar c = false) :
    pType own unquote (n + 1) (w ++ r) = pWord own unquote n w r := by
  obtain ⟨e1, e2⟩ := word_append h2 h3
  rw [pType_word own unquote n (by rw [e1]; exact h1), e1, e2]

theorem pWord_leaf (n : Nat) {w r : Str} (hw : w ∉ typeWords) : pWord own unquote (n + 1) w r =
    match r with
      | '*' :: r => some (.tparam w.dropLast, r.drop 18)
      | '[' :: r => (pList own unquote n r).map (fun x => (leaf own w x.1, x.2))
      | r => some (leaf own w .nil, r) := by
  simp only [typeWords, List.mem_cons, List.not_mem_nil, or_false, not_or] at hw
  obtain ⟨h1, h2, h3, h4, h5⟩ := hw
  rw [pWord_succ]
  simp only [h1, h2, h3, h4, h5, if_false]
  rfl

theorem natDigits_chars (n : Nat) : Str.natDigits n ≠ [] ∧ ∀ c ∈ Str.natDigits n, pathChar c = true := by
  have hd : ∀ d : Fin 10, pathChar (Str.digitChar d.val) = true := by decide
  have hd' : ∀ d, d < 10 → pathChar (Str.digitChar d) = true := fun d h => hd ⟨d, h⟩
  induction n using Nat.strongRecOn with
  | ind n ih =>
    unfold Str.natDigits
    split
    · rename_i h
      refine ⟨by simp, ?_⟩
      intro c hc
      simp at hc
      subst hc
      exact hd' n h
    · rename_i h
      refine ⟨by simp, ?_⟩
      intro c hc
      rcases List.mem_append.1 hc with hc | hc
      · exact (ih (n / 10) (by omega)).2 c hc
      · simp at hc
        subst hc
        exact hd' _ (Nat.mod_lt _ (by omega))

end

section
variable {own : List Str} {quote : Str → Str} {unquote : Str → Option Str}

theorem renderParams_rest (v : Bool) (n : Str) (t : TExpr Str) (ps : Params Str) :
    renderParams quote id false v (.cons n t ps) = ',' :: ' ' :: renderParams quote id true v (.cons n t ps) := by
  cases ps <;> rfl

theorem renderFields_rest (n : Option Str) (t : TExpr Str) (tag : Str) (fs : Fields Str) :
    renderFields quote id false (.cons n t tag fs) = ';' :: ' ' :: renderFields quote id true (.cons n t tag fs) := by
  rfl

theorem renderMethods_rest (n : Str) (g : Sig Str) (ms : Methods Str) :
    renderMethods quote id false (.cons n g ms) = ';' :: ' ' :: renderMethods quote id true (.cons n g ms) := by
  rfl

theorem renderEmbedded_rest (t : TExpr Str) (ts : TList Str) :
    renderEmbedded quote id false (.cons t ts) = ';' :: ' ' :: renderEmbedded quote id true (.cons t ts) := by
  rfl

/-- A type can be read. -/
def ReadsType (own : List Str) (quote : Str → Str) (unquote : Str → Option Str) (t : TExpr Str) : Prop :=
  ∀ s, Stop s → Reads (fun n => pType own unquote n (render quote id t ++ s)) (t, s)

theorem reads_ref_args {pkg : Option Str} {n : Str} {t : TExpr Str} {ts : TList Str} (h : WellFormed own (.ref pkg n (.cons t ts))) {s : Str}
    (hl : Reads (fun n => pList own unquote n (render quote id t ++ (renderRest quote id ts ++ ']' :: s))) (.cons t ts, s)) :
    Reads (fun k => pType own unquote k (render quote id (.ref pkg n (.cons t ts)) ++ s)) (.ref pkg n (.cons t ts), s) := by
  obtain ⟨h1, h2, h3, _, h5⟩ := typeName_word h
  apply Reads.succ
  apply Reads.succ
  refine hl.bind fun k hk => ?_
  rw [render]
  have : typeName id pkg n ++ '[' :: (render quote id t ++ renderRest quote id ts ++ [']']) ++ s =
      typeName id pkg n ++ '[' :: (render quote id t ++ (renderRest quote id ts ++ ']' :: s)) := by simp
  rw [this, pType_of_word own unquote _ h1 h2 (by intro c hc; simp at hc; subst hc; decide), pWord_leaf own unquote _ h3]
  simp only [hk, Option.map_some, h5]

theorem reads_ref_nil {pkg : Option Str} {n : Str} (h : WellFormed own (.ref pkg n .nil)) : ReadsType own quote unquote (.ref pkg n .nil) := by
  intro s hs
  obtain ⟨h1, h2, h3, _, h5⟩ := typeName_word h
  apply Reads.succ
  apply Reads.succ
  refine Reads.pure fun k => ?_
  rw [render, pType_of_word own unquote _ h1 h2 hs.notPath, pWord_leaf own unquote _ h3, h5]
  split
  · have := hs.head _ rfl; simp at this
  · have := hs.head _ rfl; simp at this
  · rfl

theorem reads_tparam {n : Str} (h : Identifier n) (hown : n ∉ own) : ReadsType own quote unquote (.tparam n) := by
  intro s hs
  obtain ⟨h1, h2, h3, h4, h5, h6⟩ := h
  have hw : n ∉ typeWords := fun hc => h5 (typeWords_keywords hc)
  apply Reads.succ
  apply Reads.succ
  refine Reads.pure fun k => ?_
  rw [render, tparamText]
  by_cases hp : n ∈ predeclared
  · have hw' : n ++ ['/'] ∉ typeWords := by
      intro hc
      exact (keyword_word (typeWords_keywords hc)).2.2.2 (by simp)
    have : n ++ go!"/* type parameter */" ++ s = (n ++ ['/']) ++ '*' :: (go!" type parameter */" ++ s) := by simp
    rw [if_pos hp, this, pType_of_word own unquote _ (by simp) (by
      intro c hc
      rcases List.mem_append.1 hc with hc | hc
      · exact h2 c hc
      · simp at hc
        subst hc
        decide) (by intro c hc; simp at hc; subst hc; decide), pWord_leaf own unquote _ hw']
    simp
  · rw [if_neg hp, pType_of_word own unquote _ h1 h2 hs.notPath, pWord_leaf own unquote _ hw]
    have hl : leaf own n .nil = .tparam n := by simp [leaf, hp, h3, hown]
    rw [hl]
    split
    · have := hs.head _ rfl; simp at this
    · have := hs.head _ rfl; simp at this
    · rfl

theorem reads_array {l : Nat} {e : TExpr Str} (he : ReadsType own quote unquote e) : ReadsType own quote unquote (.array l e) := by
  intro s hs
  apply Reads.succ
  refine (he s hs).bind fun k hk => ?_
  obtain ⟨h1, h2⟩ := natDigits_chars l
  obtain ⟨e1, e2⟩ := word_append (s := ']' :: (render quote id e ++ s)) h2 (by intro c hc; simp at hc; subst hc; decide)
  rw [render]
  have : '[' :: (Str.natDigits l ++ ']' :: render quote id e) ++ s = '[' :: (Str.natDigits l ++ ']' :: (render quote id e ++ s)) := by simp
  rw [this, pType_succ]
  simp only
  generalize hx : Str.natDigits l ++ ']' :: (render quote id e ++ s) = x at e1 e2
  split
  · exfalso
    cases hd : Str.natDigits l with
    | nil => exact h1 hd
    | cons c r =>
      rw [hd] at hx h2
      simp at hx
      have := h2 c List.mem_cons_self
      rw [hx.1] at this
      exact absurd this (by decide)
  · rw [e1, e2]
    simp [hk, digitsVal_natDigits]

theorem reads_slice {e : TExpr Str} (he : ReadsType own quote unquote e) : ReadsType own quote unquote (.slice e) := by
  intro s hs
  apply Reads.succ
  refine (he s hs).bind fun k hk => ?_
  rw [render]
  show pType own unquote (k + 1) ('[' :: ']' :: (render quote id e ++ s)) = _
  rw [pType_succ]
  simp [hk]

theorem reads_ptr {e : TExpr Str} (he : ReadsType own quote unquote e) : ReadsType own quote unquote (.ptr e) := by
  intro s hs
  apply Reads.succ
  refine (he s hs).bind fun k hk => ?_
  rw [render]
  show pType own unquote (k + 1) ('*' :: (render quote id e ++ s)) = _
  rw [pType_succ]
  simp [hk]

theorem reads_map {a e : TExpr Str} (ha : ReadsType own quote unquote a) (he : ReadsType own quote unquote e) : ReadsType own quote unquote (.map a e) := by
  intro s hs
  apply Reads.succ
  apply Reads.succ
  refine (ha (']' :: (render quote id e ++ s)) (stop_cons (by decide))).bind2 (he s hs) fun k hk hk' => ?_
  rw [render]
  have : go!"map[" ++ (render quote id a ++ ']' :: render quote id e) ++ s =
      go!"map" ++ '[' :: (render quote id a ++ ']' :: (render quote id e ++ s)) := by simp
  rw [this, pType_of_word own unquote _ (by decide) (by decide) (by intro c hc; simp at hc; subst hc; decide), pWord_succ]
  simp [hk, hk']

theorem reads_chan {d : Dir} {e : TExpr Str} (hw : WellFormed own e) (he : ReadsType own quote unquote e) : ReadsType own quote unquote (.chan d e) := by
  intro s hs
  apply Reads.succ
  apply Reads.succ
  by_cases hp : chanParens d e = true
  · refine (he (')' :: s) (stop_cons (by decide))).bind fun k hk => ?_
    have hd : d = .both := by
      cases d <;> first | rfl | (simp [chanParens] at hp)
    subst hd
    rw [render, if_pos hp, chanText]
    have : go!"chan " ++ '(' :: (render quote id e ++ [')']) ++ s = go!"chan" ++ ' ' :: '(' :: (render quote id e ++ ')' :: s) := by simp
    rw [this, pType_of_word own unquote _ (by decide) (by decide) (by intro c hc; simp at hc; subst hc; decide), pWord_succ]
    simp [hk]
  · cases d with
    | both =>
      refine (he s hs).bind fun k hk => ?_
      rw [render, if_neg hp, chanText]
      obtain ⟨c, r, hr, _, hc⟩ := (begins quote e hw).head
      rw [hr] at hk ⊢
      have : go!"chan " ++ c :: r ++ s = go!"chan" ++ ' ' :: (c :: (r ++ s)) := by simp
      rw [this, pType_of_word own unquote _ (by decide) (by decide) (by intro c hc; simp at hc; subst hc; decide), pWord_succ]
      have hc' : c ≠ '(' := by
        rintro rfl
        simp at hc
      simp only [List.cons_append] at hk
      simp [hk]
      split
      · rename_i heq; simp at heq; exact absurd heq.1 hc'
      · rename_i heq; simp at heq; rw [← heq, hk]; rfl
      · rename_i heq; exact absurd rfl (heq _)
    | send =>
      refine (he s hs).bind fun k hk => ?_
      rw [render, if_neg hp, chanText]
      have : go!"chan<- " ++ render quote id e ++ s = go!"chan" ++ '<' :: '-' :: ' ' :: (render quote id e ++ s) := by simp
      rw [this, pType_of_word own unquote _ (by decide) (by decide) (by intro c hc; simp at hc; subst hc; decide), pWord_succ]
      simp [hk]
    | recv =>
      refine Reads.bind (p := fun n => pType own unquote (n + 1) (render quote id e ++ s)) (x := (e, s)) ?_ fun k hk => ?_
      · obtain ⟨N, h⟩ := he s hs
        exact ⟨N, fun n hn => h (n + 1) (by omega)⟩
      rw [render, if_neg hp, chanText]
      have : go!"<-chan " ++ render quote id e ++ s = '<' :: (go!"-chan " ++ (render quote id e ++ s)) := by simp
      rw [this, pType_succ]
      simp [hk]

theorem reads_func {g : Sig Str} (hg : ∀ s, Stop s → Reads (fun n => pSig own unquote n (renderSig quote id g ++ s)) (g, s)) :
    ReadsType own quote unquote (.func g) := by
  intro s hs
  apply Reads.succ
  apply Reads.succ
  refine (hg s hs).bind fun k hk => ?_
  rw [render, List.append_assoc, pType_of_word own unquote _ (by decide) (by decide) (by
    intro c hc
    cases g with
    | mk ps v rs =>
      rw [renderSig] at hc
      simp at hc
      subst hc
      decide), pWord_succ]
  simp [hk]

theorem reads_struct {fs : Fields Str} (hf : ∀ s, Reads (fun n => pFields own unquote n (renderFields quote id true fs ++ '}' :: s)) (fs, s)) :
    ReadsType own quote unquote (.struct fs) := by
  intro s hs
  apply Reads.succ
  apply Reads.succ
  refine (hf s).bind fun k hk => ?_
  rw [render]
  have : go!"struct{" ++ (renderFields quote id true fs ++ ['}']) ++ s = go!"struct" ++ '{' :: (renderFields quote id true fs ++ '}' :: s) := by simp
  rw [this, pType_of_word own unquote _ (by decide) (by decide) (by intro c hc; simp at hc; subst hc; decide), pWord_succ]
  simp [hk]

theorem reads_iface {ms : Methods Str} {es : TList Str}
    (hf : ∀ s, Reads (fun n => pElems own unquote n (renderMethods quote id true ms ++ (renderEmbedded quote id (noMethods ms) es ++ '}' :: s))) (ms, es, s)) :
    ReadsType own quote unquote (.iface ms es) := by
  intro s hs
  apply Reads.succ
  apply Reads.succ
  refine (hf s).bind fun k hk => ?_
  rw [render]
  have : go!"interface{" ++ (renderMethods quote id true ms ++ (renderEmbedded quote id (noMethods ms) es ++ ['}'])) ++ s =
      go!"interface" ++ '{' :: (renderMethods quote id true ms ++ (renderEmbedded quote id (noMethods ms) es ++ '}' :: s)) := by simp
  rw [this, pType_of_word own unquote _ (by decide) (by decide) (by intro c hc; simp at hc; subst hc; decide), pWord_succ]
  simp [hk]

theorem reads_list_one {t : TExpr Str} (ht : ReadsType own quote unquote t) (s : Str) :
    Reads (fun n => pList own unquote n (render quote id t ++ (renderRest quote id .nil ++ ']' :: s))) (.cons t .nil, s) := by
  apply Reads.succ
  refine (ht (']' :: s) (stop_cons (by decide))).bind fun k hk => ?_
  rw [renderRest, List.nil_append, pList_succ, hk]
  simp

theorem reads_list_more {t t' : TExpr Str} {ts : TList Str} (ht : ReadsType own quote unquote t) {s : Str}
    (hts : Reads (fun n => pList own unquote n (render quote id t' ++ (renderRest quote id ts ++ ']' :: s))) (.cons t' ts, s)) :
    Reads (fun n => pList own unquote n (render quote id t ++ (renderRest quote id (.cons t' ts) ++ ']' :: s))) (.cons t (.cons t' ts), s) := by
  apply Reads.succ
  refine (ht (',' :: ' ' :: (render quote id t' ++ (renderRest quote id ts ++ ']' :: s))) (stop_cons (by decide))).bind2 hts fun k hk hk' => ?_
  have : render quote id t ++ (renderRest quote id (.cons t' ts) ++ ']' :: s) =
      render quote id t ++ ',' :: ' ' :: (render quote id t' ++ (renderRest quote id ts ++ ']' :: s)) := by
    rw [renderRest]
    simp
  rw [this, pList_succ, hk]
  simp [hk']

/-- An element of an interface, or a constraint, can be read. -/
def ReadsElem (own : List Str) (quote : Str → Str) (unquote : Str → Option Str) (t : TExpr Str) : Prop :=
  ∃ ts, elemOf ts = t ∧ ∀ s, Stop' s → Reads (fun n => pTerms own unquote n (render quote id t ++ s)) (ts, s)

theorem Stop'.noBar {s : Str} (h : Stop' s) : ∀ r, s ≠ ' ' :: r := by
  rintro r rfl
  rcases h with h | ⟨c, r', h, hc⟩
  · simp at h
  · simp only [List.cons.injEq] at h
    obtain ⟨rfl, _⟩ := h
    simp at hc

theorem begins_noTilde {t : TExpr Str} (hw : WellFormed own t) (s : Str) : (render quote id t ++ s).head? ≠ some '~' := by
  obtain ⟨c, r, hr, hc, _⟩ := (begins quote t hw).head
  rw [hr]
  simpa using hc.2

/-- One term, at the end. -/
theorem reads_term_one {tilde : Bool} {t : TExpr Str} (hw : WellFormed own t) (ht : ReadsType own quote unquote t) {s : Str} (hs : Stop' s) :
    Reads (fun n => pTerms own unquote n ((if tilde then go!"~" else []) ++ (render quote id t ++ s))) (.cons tilde t .nil, s) := by
  apply Reads.succ
  refine (ht s hs.stop).bind fun k hk => ?_
  have hn := begins_noTilde (quote := quote) hw s
  rw [pTerms_succ]
  have e : (if ((if tilde then go!"~" else []) ++ (render quote id t ++ s)).head? = some '~' then ((if tilde then go!"~" else []) ++ (render quote id t ++ s)).drop 1
      else (if tilde then go!"~" else []) ++ (render quote id t ++ s)) = render quote id t ++ s := by
    cases tilde
    · simp only [Bool.false_eq_true, if_false, List.nil_append, if_neg hn]
    · simp
  have e' : (((if tilde then go!"~" else []) ++ (render quote id t ++ s)).head? == some '~') = tilde := by
    cases tilde
    · simpa using hn
    · simp
  rw [e, e', hk]
  split
  · rename_i heq; simp at heq; exact absurd heq.2 (hs.noBar _)
  · rename_i heq; simp at heq; obtain ⟨rfl, rfl⟩ := heq; rfl
  · rename_i heq; simp at heq

/-- A term before others. -/
theorem reads_term_more {tilde : Bool} {t : TExpr Str} {ts : Terms Str} {x s : Str} (hw : WellFormed own t) (ht : ReadsType own quote unquote t)
    (hts : Reads (fun n => pTerms own unquote n x) (ts, s)) :
    Reads (fun n => pTerms own unquote n ((if tilde then go!"~" else []) ++ (render quote id t ++ ' ' :: '|' :: ' ' :: x))) (.cons tilde t ts, s) := by
  apply Reads.succ
  refine (ht (' ' :: '|' :: ' ' :: x) (.inr (.inr ⟨_, _, rfl, by decide⟩))).bind2 hts fun k hk hk' => ?_
  have hn := begins_noTilde (quote := quote) hw (' ' :: '|' :: ' ' :: x)
  rw [pTerms_succ]
  have e : (if ((if tilde then go!"~" else []) ++ (render quote id t ++ ' ' :: '|' :: ' ' :: x)).head? = some '~' then
      ((if tilde then go!"~" else []) ++ (render quote id t ++ ' ' :: '|' :: ' ' :: x)).drop 1
      else (if tilde then go!"~" else []) ++ (render quote id t ++ ' ' :: '|' :: ' ' :: x)) = render quote id t ++ ' ' :: '|' :: ' ' :: x := by
    cases tilde
    · simp only [Bool.false_eq_true, if_false, List.nil_append, if_neg hn]
    · simp
  have e' : (((if tilde then go!"~" else []) ++ (render quote id t ++ ' ' :: '|' :: ' ' :: x)).head? == some '~') = tilde := by
    cases tilde
    · simpa using hn
    · simp
  rw [e, e', hk]
  simp [hk']

theorem renderTerms_rest (tilde : Bool) (t : TExpr Str) (ts : Terms Str) :
    renderTerms quote id false (.cons tilde t ts) = ' ' :: '|' :: ' ' :: renderTerms quote id true (.cons tilde t ts) := by
  rfl

theorem elemOf_proper {ts : Terms Str} (h : Proper ts) : elemOf ts = .union ts := by
  match ts, h with
  | .cons true t .nil, _ => rfl
  | .cons false t .nil, h => simp [Proper] at h
  | .cons b _ (.cons _ _ _), _ => cases b <;> rfl

theorem reads_elem_plain {t : TExpr Str} (hw : WellFormed own t) (ht : ReadsType own quote unquote t) : ReadsElem own quote unquote t :=
  ⟨.cons false t .nil, rfl, fun _ hs => reads_term_one (tilde := false) hw ht hs⟩

theorem reads_embedded_one {t : TExpr Str} (ht : ReadsElem own quote unquote t) (s : Str) :
    Reads (fun n => pEmbedded own unquote n (renderEmbedded quote id true (.cons t .nil) ++ '}' :: s)) (.cons t .nil, s) := by
  obtain ⟨us, e, ht⟩ := ht
  apply Reads.succ
  refine (ht ('}' :: s) (.inr ⟨_, _, rfl, by decide⟩)).bind fun k hk => ?_
  have : renderEmbedded quote id true (.cons t .nil) ++ '}' :: s = render quote id t ++ '}' :: s := by simp [renderEmbedded]
  rw [this, pEmbedded_succ, hk]
  simp [e]

theorem reads_embedded_more {t t' : TExpr Str} {ts : TList Str} (ht : ReadsElem own quote unquote t) {s : Str}
    (hts : Reads (fun n => pEmbedded own unquote n (renderEmbedded quote id true (.cons t' ts) ++ '}' :: s)) (.cons t' ts, s)) :
    Reads (fun n => pEmbedded own unquote n (renderEmbedded quote id true (.cons t (.cons t' ts)) ++ '}' :: s)) (.cons t (.cons t' ts), s) := by
  obtain ⟨us, e, ht⟩ := ht
  apply Reads.succ
  refine (ht (';' :: ' ' :: (renderEmbedded quote id true (.cons t' ts) ++ '}' :: s)) (.inr ⟨_, _, rfl, by decide⟩)).bind2 hts fun k hk hk' => ?_
  have : renderEmbedded quote id true (.cons t (.cons t' ts)) ++ '}' :: s =
      render quote id t ++ ';' :: ' ' :: (renderEmbedded quote id true (.cons t' ts) ++ '}' :: s) := by
    show (render quote id t ++ renderEmbedded quote id false (.cons t' ts)) ++ '}' :: s = _
    rw [renderEmbedded_rest]
    simp
  rw [this, pEmbedded_succ, hk]
  simp [hk', e]

theorem isMethod_plain {t : TExpr Str} (hw : WellFormed own t) {s : Str} (hs : Stop s) :
    isMethod (render quote id t ++ s) = false ∧ ∀ r, render quote id t ++ s ≠ '}' :: r := by
  obtain ⟨c, r, hr, _, hc⟩ := (begins quote t hw).head
  refine ⟨?_, ?_⟩
  · cases begins quote t hw with
    | @sign c r h1 h2 =>
      rw [h1]
      simp only [List.mem_cons, List.not_mem_nil, or_false] at h2
      rcases h2 with rfl | rfl | rfl <;> rfl
    | @words w r h1 h2 h3 h4 h5 =>
      rw [h1, List.append_assoc]
      have hstop : ∀ c, (r ++ s).head? = some c → pathChar c = false := by
        intro c hc
        rcases h5 with rfl | ⟨d, r', rfl, hd, _⟩ | ⟨_, r', rfl⟩
        · exact hs.notPath c hc
        · simp at hc
          subst hc
          simp only [List.mem_cons, List.not_mem_nil, or_false] at hd
          rcases hd with rfl | rfl | rfl | rfl | rfl <;> decide
        · simp at hc
          subst hc
          decide
      obtain ⟨e1, e2⟩ := word_append h3 hstop
      unfold isMethod
      rw [e1, e2, Bool.and_assoc]
      refine Bool.and_eq_false_imp.2 fun _ => ?_
      rcases h5 with rfl | ⟨d, r', rfl, hd, hf⟩ | ⟨_, r', rfl⟩
      · cases hh : s.head? with
        | none => simp [hh]
        | some d =>
          have := hs.head d hh
          simp only [List.nil_append, hh, Bool.and_eq_false_imp]
          intro _
          simp only [List.mem_cons, List.not_mem_nil, or_false] at this
          rcases this with rfl | rfl | rfl | rfl | rfl | rfl <;> rfl
      · by_cases hd' : d = '('
        · simp [hf hd']
        · simp [hd']
      · simp
  · intro r' h
    rw [hr] at h
    simp only [List.cons_append, List.cons.injEq] at h
    obtain ⟨rfl, _⟩ := h
    simp at hc

theorem isMethod_embedded {t : TExpr Str} (hw : WellFormed own t ∨ WellFormedU own t) {s : Str} (hs : Stop s) :
    isMethod (render quote id t ++ s) = false ∧ ∀ r, render quote id t ++ s ≠ '}' :: r := by
  rcases hw with hw | hw
  · exact isMethod_plain hw hs
  · cases t with
    | union ts =>
      have h' : Proper ts ∧ WellFormedT own ts := by simpa [WellFormedU] using hw
      cases ts with
      | nil => simp [Proper] at h'
      | cons tilde t ts =>
        have ht : WellFormed own t := by
          have : WellFormed own t ∧ WellFormedT own ts := by simpa [WellFormedT] using h'.2
          exact this.1
        have hx : ∃ x, render quote id (.union (.cons tilde t ts)) ++ s = (if tilde then go!"~" else []) ++ (render quote id t ++ x) ∧ Stop x := by
          cases ts with
          | nil => exact ⟨s, by simp [render, renderTerms], hs⟩
          | cons tilde' t' ts' =>
            refine ⟨' ' :: '|' :: ' ' :: (renderTerms quote id true (.cons tilde' t' ts') ++ s), ?_, .inr (.inr ⟨_, _, rfl, by decide⟩)⟩
            show ((if tilde then go!"~" else []) ++ (render quote id t ++ renderTerms quote id false (.cons tilde' t' ts'))) ++ s = _
            rw [renderTerms_rest]
            simp
        obtain ⟨x, hx, hxs⟩ := hx
        rw [hx]
        cases tilde
        · simpa using isMethod_plain (quote := quote) ht hxs
        · exact ⟨rfl, by simp⟩
    | _ => simp [WellFormedU] at hw

/-- The elements of an interface, given that its embedded elements can be read. -/
theorem reads_elems_nil {es : TList Str} (hw : WellFormedE own es) {s : Str}
    (he : es ≠ .nil → Reads (fun n => pEmbedded own unquote n (renderEmbedded quote id true es ++ '}' :: s)) (es, s)) :
    Reads (fun n => pElems own unquote n (renderMethods quote id true .nil ++ (renderEmbedded quote id true es ++ '}' :: s))) (.nil, es, s) := by
  apply Reads.succ
  cases es with
  | nil => exact Reads.pure fun k => rfl
  | cons t ts =>
    refine (he (by simp)).bind fun k hk => ?_
    have hw' : (WellFormed own t ∨ WellFormedU own t) ∧ WellFormedE own ts := by simpa [WellFormedE] using hw
    have hrest : ∃ x, renderEmbedded quote id true (.cons t ts) ++ '}' :: s = render quote id t ++ x ∧ Stop x := by
      cases ts with
      | nil => exact ⟨'}' :: s, by simp [renderEmbedded], stop_cons (by decide)⟩
      | cons t' ts' =>
        refine ⟨';' :: ' ' :: (renderEmbedded quote id true (.cons t' ts') ++ '}' :: s), ?_, stop_cons (by decide)⟩
        show (render quote id t ++ renderEmbedded quote id false (.cons t' ts')) ++ '}' :: s = _
        rw [renderEmbedded_rest]
        simp
    obtain ⟨x, hx, hstop⟩ := hrest
    rw [renderMethods, List.nil_append]
    rw [hx] at hk ⊢
    obtain ⟨h1, h2⟩ := isMethod_embedded (quote := quote) hw'.1 hstop
    rw [pElems_succ]
    split
    · rename_i r heq; exact absurd heq (h2 r)
    · simp [h1, hk]

theorem reads_elems_cons {m : Str} {g : Sig Str} {ms : Methods Str} {es : TList Str} {s : Str} (hm : Identifier m)
    (hg : ∀ s, Stop s → Reads (fun n => pSig own unquote n (renderSig quote id g ++ s)) (g, s))
    (hms : Reads (fun n => pElems own unquote n (renderMethods quote id true ms ++ (renderEmbedded quote id (noMethods ms) es ++ '}' :: s))) (ms, es, s)) :
    Reads (fun n => pElems own unquote n (renderMethods quote id true (.cons m g ms) ++ (renderEmbedded quote id (noMethods (.cons m g ms)) es ++ '}' :: s)))
      (.cons m g ms, es, s) := by
  obtain ⟨h1, h2, h3, h4, h5, h6⟩ := hm
  have hfunc : m ≠ go!"func" := by
    rintro rfl
    exact h5 (by decide)
  have hword : ∀ x, word (m ++ (renderSig quote id g ++ x)) = m ∧ after (m ++ (renderSig quote id g ++ x)) = renderSig quote id g ++ x := by
    intro x
    refine word_append h2 ?_
    intro c hc
    cases g with
    | mk ps v rs =>
      rw [renderSig] at hc
      simp at hc
      subst hc
      decide
  have hmeth : ∀ x, isMethod (m ++ (renderSig quote id g ++ x)) = true := by
    intro x
    unfold isMethod
    rw [(hword x).1, (hword x).2]
    cases g with
    | mk ps v rs =>
      rw [renderSig]
      have : (m ++ ('(' :: (renderParams quote id true v ps ++ ')' :: renderResults quote id rs) ++ x)).head? ≠ some '~' := by
        cases m with
        | nil => exact absurd rfl h1
        | cons c m =>
          simp only [List.cons_append, List.head?_cons, ne_eq, Option.some.injEq]
          rintro rfl
          exact h6 List.mem_cons_self
      simp only [Bool.and_eq_true, bne_iff_ne, ne_eq]
      exact ⟨⟨this, hfunc⟩, rfl⟩
  have hnb : ∀ x r, m ++ (renderSig quote id g ++ x) ≠ '}' :: r := by
    intro x r h
    cases m with
    | nil => exact h1 rfl
    | cons c m =>
      simp only [List.cons_append, List.cons.injEq] at h
      have := h2 c List.mem_cons_self
      rw [h.1] at this
      exact absurd this (by decide)
  apply Reads.succ
  by_cases hlast : ms = .nil ∧ es = .nil
  · obtain ⟨rfl, rfl⟩ := hlast
    refine (hg ('}' :: s) (stop_cons (by decide))).bind fun k hk => ?_
    have : renderMethods quote id true (.cons m g .nil) ++ (renderEmbedded quote id (noMethods (.cons m g .nil)) .nil ++ '}' :: s) =
        m ++ (renderSig quote id g ++ '}' :: s) := by simp [renderMethods, renderEmbedded]
    rw [this, pElems_succ]
    split
    · rename_i r heq; exact absurd heq (hnb _ r)
    · rw [if_pos (hmeth _), (hword _).1, (hword _).2, hk]
      simp
  · have hnext : renderMethods quote id true (.cons m g ms) ++ (renderEmbedded quote id (noMethods (.cons m g ms)) es ++ '}' :: s) =
        m ++ (renderSig quote id g ++ ';' :: ' ' :: (renderMethods quote id true ms ++ (renderEmbedded quote id (noMethods ms) es ++ '}' :: s))) := by
      cases ms with
      | nil =>
        cases es with
        | nil => exact absurd ⟨rfl, rfl⟩ hlast
        | cons t ts =>
          show (m ++ (renderSig quote id g ++ renderMethods quote id false .nil)) ++ (renderEmbedded quote id false (.cons t ts) ++ '}' :: s) = _
          rw [renderEmbedded_rest]
          simp [renderMethods, noMethods]
      | cons m' g' ms' =>
        show (m ++ (renderSig quote id g ++ renderMethods quote id false (.cons m' g' ms'))) ++ (renderEmbedded quote id false es ++ '}' :: s) = _
        rw [renderMethods_rest]
        simp [noMethods]
    refine (hg (';' :: ' ' :: (renderMethods quote id true ms ++ (renderEmbedded quote id (noMethods ms) es ++ '}' :: s)))
      (stop_cons (by decide))).bind2 hms fun k hk hk' => ?_
    rw [hnext, pElems_succ]
    split
    · rename_i r heq; exact absurd heq (hnb _ r)
    · rw [if_pos (hmeth _), (hword _).1, (hword _).2, hk]
      simp [hk']

/-- The name of a parameter as it is written. -/
def prefixOf (n : Str) : Str := if n = [] then [] else n ++ go!" "

theorem paramName_prefix {n : Str} (hn : n = [] ∨ Identifier n) {t : TExpr Str} (hw : WellFormed own t) {x : Str} (hx : Stop' x) :
    paramName (prefixOf n ++ (render quote id t ++ x)) = (n, render quote id t ++ x) := by
  rcases hn with rfl | hn
  · simp only [prefixOf, if_true, List.nil_append]
    exact (begins quote t hw).noName hx
  · rw [prefixOf, if_neg hn.1, List.append_assoc]
    exact paramName_ident hn

theorem paramName_variadic {n : Str} (hn : n = [] ∨ Identifier n) (x : Str) : paramName (prefixOf n ++ ('.' :: x)) = (n, '.' :: x) := by
  rcases hn with rfl | hn
  · rfl
  · rw [prefixOf, if_neg hn.1, List.append_assoc]
    exact paramName_ident hn

theorem reads_params_variadic {n : Str} {e : TExpr Str} (hn : n = [] ∨ Identifier n) (he : ReadsType own quote unquote e) (s : Str) :
    Reads (fun k => pParams own unquote k (renderParams quote id true true (.cons n (.slice e) .nil) ++ ')' :: s)) (.cons n (.slice e) .nil, true, s) := by
  apply Reads.succ
  refine (he (')' :: s) (stop_cons (by decide))).bind fun k hk => ?_
  have : renderParams quote id true true (.cons n (.slice e) .nil) ++ ')' :: s = prefixOf n ++ '.' :: '.' :: '.' :: (render quote id e ++ ')' :: s) := by
    show (prefixOf n ++ (go!"..." ++ render quote id e)) ++ ')' :: s = _
    simp
  rw [this, pParams_succ, paramName_variadic hn]
  simp [hk]

theorem reads_params_one {n : Str} {t : TExpr Str} (hn : n = [] ∨ Identifier n) (hw : WellFormed own t) (ht : ReadsType own quote unquote t) (s : Str) :
    Reads (fun k => pParams own unquote k (renderParams quote id true false (.cons n t .nil) ++ ')' :: s)) (.cons n t .nil, false, s) := by
  apply Reads.succ
  refine (ht (')' :: s) (stop_cons (by decide))).bind fun k hk => ?_
  have : renderParams quote id true false (.cons n t .nil) ++ ')' :: s = prefixOf n ++ (render quote id t ++ ')' :: s) := by
    show (prefixOf n ++ render quote id t) ++ ')' :: s = _
    simp
  rw [this, pParams_succ, paramName_prefix hn hw (.inr ⟨_, _, rfl, by decide⟩)]
  obtain ⟨c, r, hr, hc, _⟩ := (begins quote t hw).head
  split
  · rename_i heq; rw [hr] at heq; simp at heq; exact absurd heq.1 hc.1
  · simp [hk]

theorem reads_params_more {n n' : Str} {t t' : TExpr Str} {ps : Params Str} {v : Bool} (hn : n = [] ∨ Identifier n) (hw : WellFormed own t)
    (ht : ReadsType own quote unquote t) {s : Str}
    (hps : Reads (fun k => pParams own unquote k (renderParams quote id true v (.cons n' t' ps) ++ ')' :: s)) (.cons n' t' ps, v, s)) :
    Reads (fun k => pParams own unquote k (renderParams quote id true v (.cons n t (.cons n' t' ps)) ++ ')' :: s)) (.cons n t (.cons n' t' ps), v, s) := by
  apply Reads.succ
  refine (ht (',' :: ' ' :: (renderParams quote id true v (.cons n' t' ps) ++ ')' :: s)) (stop_cons (by decide))).bind2 hps fun k hk hk' => ?_
  have : renderParams quote id true v (.cons n t (.cons n' t' ps)) ++ ')' :: s =
      prefixOf n ++ (render quote id t ++ ',' :: ' ' :: (renderParams quote id true v (.cons n' t' ps) ++ ')' :: s)) := by
    show (prefixOf n ++ (render quote id t ++ renderParams quote id false v (.cons n' t' ps))) ++ ')' :: s = _
    rw [renderParams_rest]
    simp
  rw [this, pParams_succ, paramName_prefix hn hw (.inr ⟨_, _, rfl, by decide⟩)]
  obtain ⟨c, r, hr, hc, _⟩ := (begins quote t hw).head
  split
  · rename_i heq; rw [hr] at heq; simp at heq; exact absurd heq.1 hc.1
  · simp [hk, hk']

/-- What the parameters begin with is not a closing parenthesis. -/
theorem params_head {n : Str} {t : TExpr Str} {ps : Params Str} {v : Bool} (hn : n = [] ∨ Identifier n) (hw : WellFormed own t) (s : Str) :
    ∃ c r, renderParams quote id true v (.cons n t ps) ++ s = c :: r ∧ c ≠ ')' := by
  obtain ⟨c, r, hr, _, hc⟩ := (begins quote t hw).head
  rcases hn with rfl | hn
  · have hc' : c ≠ ')' := by
      rintro rfl
      simp at hc
    have h1 : ∀ x, ∃ c r, render quote id t ++ x = c :: r ∧ c ≠ ')' := fun x => ⟨c, r ++ x, by rw [hr]; simp, hc'⟩
    cases ps with
    | nil =>
      cases v with
      | false =>
        show ∃ c r, ([] ++ ([] ++ render quote id t)) ++ s = c :: r ∧ c ≠ ')'
        exact h1 s
      | true =>
        cases t <;> first
          | exact h1 s
          | exact ⟨'.', _, rfl, by decide⟩
    | cons n' t' ps =>
      show ∃ c r, (([] ++ ([] ++ (render quote id t ++ renderParams quote id false v (.cons n' t' ps)))) ++ s) = c :: r ∧ c ≠ ')'
      simp only [List.nil_append, List.append_assoc]
      exact h1 _
  · obtain ⟨h1, h2, _⟩ := hn
    have : ∃ x, renderParams quote id true v (.cons n t ps) ++ s = n ++ x := by
      have hp : prefixOf n = n ++ go!" " := if_neg h1
      have : ∃ x, renderParams quote id true v (.cons n t ps) = prefixOf n ++ x := by
        cases ps with
        | nil =>
          cases v with
          | false => exact ⟨render quote id t, rfl⟩
          | true => cases t <;> exact ⟨_, rfl⟩
        | cons n' t' ps => exact ⟨_, rfl⟩
      obtain ⟨x, hx⟩ := this
      rw [hx, hp, List.append_assoc, List.append_assoc]
      exact ⟨_, rfl⟩
    obtain ⟨x, hx⟩ := this
    cases n with
    | nil => exact absurd rfl h1
    | cons d n =>
      refine ⟨d, n ++ x, by rw [hx]; simp, ?_⟩
      rintro rfl
      exact absurd (h2 ')' List.mem_cons_self) (by decide)

theorem reads_sig {ps rs : Params Str} {v : Bool} (hw : WellFormedP own ps) (hv : v = true → LastIsSlice ps)
    (hps : ∀ s, ps ≠ .nil → Reads (fun n => pParams own unquote n (renderParams quote id true v ps ++ ')' :: s)) (ps, v, s))
    (hrs : ∀ s, Stop s → Reads (fun n => pResults own unquote n (renderResults quote id rs ++ s)) (rs, s)) :
    ∀ s, Stop s → Reads (fun n => pSig own unquote n (renderSig quote id (.mk ps v rs) ++ s)) (.mk ps v rs, s) := by
  intro s hs
  have h0 : Reads (fun n => pParams0 own unquote n (renderParams quote id true v ps ++ ')' :: (renderResults quote id rs ++ s)))
      (ps, v, renderResults quote id rs ++ s) := by
    apply Reads.succ
    cases ps with
    | nil =>
      have hv' : v = false := by
        cases v with
        | false => rfl
        | true => exact (hv rfl).elim
      subst hv'
      exact Reads.pure fun k => rfl
    | cons n t ps =>
      have hw' : (n = [] ∨ Identifier n) ∧ WellFormed own t ∧ WellFormedP own ps := by simpa [WellFormedP] using hw
      refine (hps (renderResults quote id rs ++ s) (by simp)).bind fun k hk => ?_
      obtain ⟨c, r, hc, hne⟩ := params_head (quote := quote) (ps := ps) (v := v) hw'.1 hw'.2.1 (')' :: (renderResults quote id rs ++ s))
      rw [hc] at hk ⊢
      rw [pParams0_succ]
      split
      · rename_i heq; simp at heq; exact absurd heq.1 hne
      · exact hk
  apply Reads.succ
  refine h0.bind2 (hrs s hs) fun k hk hk' => ?_
  have : renderSig quote id (.mk ps v rs) ++ s = '(' :: (renderParams quote id true v ps ++ ')' :: (renderResults quote id rs ++ s)) := by
    rw [renderSig]
    simp
  rw [this, pSig_succ]
  simp [hk, hk']

theorem reads_results_nil : ∀ s, Stop s → Reads (fun n => pResults own unquote n (renderResults quote id .nil ++ s)) (.nil, s) := by
  intro s hs
  apply Reads.succ
  refine Reads.pure fun k => ?_
  rw [renderResults, List.nil_append, pResults_succ]
  rcases hs with rfl | ⟨c, r, rfl, hc⟩ | ⟨c, r, rfl, hc⟩
  · rfl
  · split
    · rename_i heq; simp at heq; obtain ⟨rfl, _⟩ := heq; simp at hc
    · rfl
  · simp only [List.mem_cons, List.not_mem_nil, or_false] at hc
    rcases hc with rfl | rfl | rfl | rfl <;> rfl

theorem reads_results_one {t : TExpr Str} (hw : WellFormed own t) (ht : ReadsType own quote unquote t) :
    ∀ s, Stop s → Reads (fun n => pResults own unquote n (renderResults quote id (.cons [] t .nil) ++ s)) (.cons [] t .nil, s) := by
  intro s hs
  apply Reads.succ
  refine (ht s hs).bind fun k hk => ?_
  have : renderResults quote id (.cons [] t .nil) ++ s = ' ' :: (render quote id t ++ s) := by
    simp [renderResults]
  rw [this, pResults_succ]
  obtain ⟨c, r, hr, _, hc⟩ := (begins quote t hw).head
  rw [hr] at hk ⊢
  simp only [List.cons_append] at hk ⊢
  split
  · rename_i heq; simp at heq; obtain ⟨rfl, _⟩ := heq; simp at hc
  · rename_i heq; simp at heq; obtain ⟨rfl, _⟩ := heq; simp at hc
  · rename_i heq; simp at heq; obtain ⟨rfl, _⟩ := heq; simp at hc
  · rename_i heq; simp at heq; obtain ⟨rfl, _⟩ := heq; simp at hc
  · rename_i heq; simp at heq; obtain ⟨rfl, _⟩ := heq; simp at hc
  · simp [hk]

theorem reads_results_list {n : Str} {t : TExpr Str} {rs : Params Str} (hne : rs ≠ .nil ∨ n ≠ [])
    (hps : ∀ s, Reads (fun k => pParams own unquote k (renderParams quote id true false (.cons n t rs) ++ ')' :: s)) (.cons n t rs, false, s)) :
    ∀ s, Stop s → Reads (fun k => pResults own unquote k (renderResults quote id (.cons n t rs) ++ s)) (.cons n t rs, s) := by
  intro s hs
  apply Reads.succ
  refine (hps s).bind fun k hk => ?_
  have : renderResults quote id (.cons n t rs) ++ s = ' ' :: '(' :: (renderParams quote id true false (.cons n t rs) ++ ')' :: s) := by
    cases rs with
    | nil =>
      have hn : n ≠ [] := by
        rcases hne with h | h
        · exact absurd rfl h
        · exact h
      have h1 : renderParams quote id true false (.cons n t .nil) = prefixOf n ++ render quote id t := rfl
      rw [renderResults, h1, prefixOf]
      simp [hn]
    | cons n' t' rs =>
      have h1 : renderParams quote id true false (.cons n t (.cons n' t' rs)) =
        prefixOf n ++ (render quote id t ++ renderParams quote id false false (.cons n' t' rs)) := rfl
      rw [renderResults, h1, prefixOf]
      simp
  rw [this, pResults_succ]
  simp [hk]

theorem readTag_none {s : Str} (h : Stop' s) : readTag unquote s = some ([], s) := by
  unfold readTag
  split
  · exact absurd rfl (h.noBar _)
  · exact absurd rfl (h.noBar _)
  · rfl

theorem readTag_some (hq : Literals quote unquote) (tag s : Str) : readTag unquote (' ' :: (quote tag ++ s)) = some (tag, s) := by
  rcases hq tag with ⟨body, e, hb, hu⟩ | ⟨hn, e⟩
  case inr =>
    have : ' ' :: (quote tag ++ s) = ' ' :: '`' :: (tag ++ '`' :: s) := by rw [e]; simp
    have hp : ∀ c ∈ tag, (c != '`') = true := by
      intro c hc
      simp only [bne_iff_ne, ne_eq]
      rintro rfl
      exact hn hc
    rw [this]
    unfold readTag
    simp only [List.takeWhile_append_of_pos hp, List.dropWhile_append_of_pos hp]
    simp
  rw [e] at hu ⊢
  have : ' ' :: ('"' :: (body ++ ['"']) ++ s) = ' ' :: '"' :: (body ++ '"' :: s) := by simp
  rw [this]
  unfold readTag
  simp [scanQuote_body body s hb, hu]

/-- The tag as it is written. -/
def tagText (quote : Str → Str) (tag : Str) : Str := if tag = [] then [] else ' ' :: quote tag

theorem readTag_text (hq : Literals quote unquote) (tag : Str) {s : Str} (h : Stop' s) : readTag unquote (tagText quote tag ++ s) = some (tag, s) ∧ Stop (tagText quote tag ++ s) := by
  unfold tagText
  by_cases ht : tag = []
  · simp [ht, readTag_none h, h.stop]
  · simp only [ht, if_false, List.cons_append]
    refine ⟨readTag_some hq tag s, ?_⟩
    rcases hq tag with ⟨body, e, _⟩ | ⟨_, e⟩ <;> rw [e] <;> exact .inr (.inr ⟨_, _, rfl, by decide⟩)

theorem reads_fields_nil (s : Str) : Reads (fun n => pFields own unquote n (renderFields quote id true .nil ++ '}' :: s)) (.nil, s) :=
  Reads.succ (Reads.pure fun _ => rfl)

/-- The name of a field as it is written. -/
def fieldPrefix : Option Str → Str
  | none => []
  | some n => n ++ go!" "

theorem renderFields_cons (n : Option Str) (t : TExpr Str) (tag : Str) (fs : Fields Str) :
    renderFields quote id true (.cons n t tag fs) = fieldPrefix n ++ (render quote id t ++ (tagText quote tag ++ renderFields quote id false fs)) := by
  cases n <;> rfl

theorem reads_fields_cons (hq : Literals quote unquote) {n : Option Str} {t : TExpr Str} {tag : Str} {fs : Fields Str}
    (hw : WellFormedF own (.cons n t tag fs)) (ht : ReadsType own quote unquote t) {s : Str}
    (hfs : Reads (fun n => pFields own unquote n (renderFields quote id true fs ++ '}' :: s)) (fs, s)) :
    Reads (fun k => pFields own unquote k (renderFields quote id true (.cons n t tag fs) ++ '}' :: s)) (.cons n t tag fs, s) := by
  have hwt : WellFormed own t := by
    cases n with
    | none => have : Embeddable t ∧ WellFormed own t ∧ WellFormedF own fs := by simpa [WellFormedF] using hw
              exact this.2.1
    | some n => have : Identifier n ∧ WellFormed own t ∧ WellFormedF own fs := by simpa [WellFormedF] using hw
                exact this.2.1
  obtain ⟨c, r, hr, _, hc⟩ := (begins quote t hwt).head
  have hname : ∀ x, Stop x → fieldName (fieldPrefix n ++ (render quote id t ++ x)) = (n, render quote id t ++ x) := by
    intro x hx
    cases n with
    | none =>
      have : Embeddable t ∧ WellFormed own t ∧ WellFormedF own fs := by simpa [WellFormedF] using hw
      exact fieldName_embedded quote this.1 hwt hx
    | some n =>
      have : Identifier n ∧ WellFormed own t ∧ WellFormedF own fs := by simpa [WellFormedF] using hw
      rw [fieldPrefix, List.append_assoc]
      refine fieldName_ident this.1 ?_
      intro d hd
      rw [hr] at hd
      simp at hd
      subst hd
      intro hd
      simp only [List.mem_cons, List.not_mem_nil, or_false] at hd
      rcases hd with rfl | rfl | rfl | rfl <;> simp at hc
  have hnb : ∀ x y, fieldPrefix n ++ (render quote id t ++ x) ≠ '}' :: y := by
    intro x y h
    cases n with
    | none =>
      rw [fieldPrefix, hr] at h
      simp at h
      obtain ⟨rfl, _⟩ := h
      simp at hc
    | some n =>
      have : Identifier n ∧ WellFormed own t ∧ WellFormedF own fs := by simpa [WellFormedF] using hw
      obtain ⟨⟨h1, h2, _⟩, _⟩ := this
      cases n with
      | nil => exact h1 rfl
      | cons d n =>
        simp [fieldPrefix] at h
        have := h2 d List.mem_cons_self
        rw [h.1] at this
        exact absurd this (by decide)
  apply Reads.succ
  cases fs with
  | nil =>
    have hx : Stop' ('}' :: s) := .inr ⟨_, _, rfl, by decide⟩
    refine (ht (tagText quote tag ++ '}' :: s) (readTag_text hq tag hx).2).bind fun k hk => ?_
    have : renderFields quote id true (.cons n t tag .nil) ++ '}' :: s = fieldPrefix n ++ (render quote id t ++ (tagText quote tag ++ '}' :: s)) := by
      rw [renderFields_cons, renderFields]
      simp
    rw [this, pFields_succ]
    split
    · rename_i heq; exact absurd heq (hnb _ _)
    · rw [hname _ (readTag_text hq tag hx).2, hk]
      simp only [(readTag_text hq tag hx).1]
      rfl
  | cons n' t' tag' fs' =>
    have hx : Stop' (';' :: ' ' :: (renderFields quote id true (.cons n' t' tag' fs') ++ '}' :: s)) := .inr ⟨_, _, rfl, by decide⟩
    refine (ht _ (readTag_text hq tag hx).2).bind2 hfs fun k hk hk' => ?_
    have : renderFields quote id true (.cons n t tag (.cons n' t' tag' fs')) ++ '}' :: s =
        fieldPrefix n ++ (render quote id t ++ (tagText quote tag ++ ';' :: ' ' :: (renderFields quote id true (.cons n' t' tag' fs') ++ '}' :: s))) := by
      rw [renderFields_cons, renderFields_rest]
      simp
    rw [this, pFields_succ]
    split
    · rename_i heq; exact absurd heq (hnb _ _)
    · rw [hname _ (readTag_text hq tag hx).2, hk]
      simp only [(readTag_text hq tag hx).1]
      simp [hk']

end

section
variable {own : List Str} {quote : Str → Str} {unquote : Str → Option Str}

mutual
theorem reads_type (hq : Literals quote unquote) : ∀ t : TExpr Str, WellFormed own t → ReadsType own quote unquote t
  | .ref pkg n .nil, h => reads_ref_nil h
  | .ref pkg n (.cons t ts), h => by
    have hl : WellFormed own t ∧ WellFormedL own ts := by
      cases pkg with
      | none => exact (by simpa [WellFormed, WellFormedL] using h : (n ∈ predeclared ∨ n ∈ own ∧ Identifier n) ∧ WellFormed own t ∧ WellFormedL own ts).2
      | some p => exact (by simpa [WellFormed, WellFormedL] using h : ImportPath p ∧ Identifier n ∧ WellFormed own t ∧ WellFormedL own ts).2.2
    intro s hs
    exact reads_ref_args h (reads_rest hq ts hl.2 t (reads_type hq t hl.1) s)
  | .tparam n, h => by
    have h' : Identifier n ∧ n ∉ own := by simpa [WellFormed] using h
    exact reads_tparam h'.1 h'.2
  | .array l e, h => reads_array (reads_type hq e (by simpa [WellFormed] using h))
  | .slice e, h => reads_slice (reads_type hq e (by simpa [WellFormed] using h))
  | .ptr e, h => reads_ptr (reads_type hq e (by simpa [WellFormed] using h))
  | .map a e, h => by
    have h' : WellFormed own a ∧ WellFormed own e := by simpa [WellFormed] using h
    exact reads_map (reads_type hq a h'.1) (reads_type hq e h'.2)
  | .chan d e, h => reads_chan (by simpa [WellFormed] using h) (reads_type hq e (by simpa [WellFormed] using h))
  | .func g, h => reads_func (reads_signature hq g (by simpa [WellFormed] using h))
  | .struct fs, h => reads_struct (fun s => reads_fields hq fs (by simpa [WellFormed] using h) s)
  | .iface ms es, h => by
    have h' : WellFormedM own ms ∧ WellFormedE own es := by simpa [WellFormed] using h
    exact reads_iface (fun s => reads_methods hq ms h'.1 es h'.2 (fun s hne => reads_embedded hq es h'.2 hne s) s)
  | .union ts, h => by simp [WellFormed] at h
theorem reads_rest (hq : Literals quote unquote) : ∀ ts : TList Str, WellFormedL own ts → ∀ t, ReadsType own quote unquote t → ∀ s,
    Reads (fun n => pList own unquote n (render quote id t ++ (renderRest quote id ts ++ ']' :: s))) (.cons t ts, s)
  | .nil, _, t, ht, s => reads_list_one ht s
  | .cons t' ts, h, t, ht, s => by
    have h' : WellFormed own t' ∧ WellFormedL own ts := by simpa [WellFormedL] using h
    exact reads_list_more ht (reads_rest hq ts h'.2 t' (reads_type hq t' h'.1) s)
theorem reads_embedded (hq : Literals quote unquote) : ∀ es : TList Str, WellFormedE own es → es ≠ .nil → ∀ s,
    Reads (fun n => pEmbedded own unquote n (renderEmbedded quote id true es ++ '}' :: s)) (es, s)
  | .nil, _, hne, _ => absurd rfl hne
  | .cons t .nil, h, _, s => by
    have h' : (WellFormed own t ∨ WellFormedU own t) ∧ WellFormedE own .nil := by simpa [WellFormedE] using h
    exact reads_embedded_one (h'.1.elim (fun h => reads_elem_plain h (reads_type hq t h)) (reads_union hq t)) s
  | .cons t (.cons t' ts), h, _, s => by
    have h' : (WellFormed own t ∨ WellFormedU own t) ∧ WellFormedE own (.cons t' ts) := by simpa [WellFormedE] using h
    exact reads_embedded_more (h'.1.elim (fun h => reads_elem_plain h (reads_type hq t h)) (reads_union hq t))
      (reads_embedded hq (.cons t' ts) h'.2 (by simp) s)
theorem reads_union (hq : Literals quote unquote) : ∀ t : TExpr Str, WellFormedU own t → ReadsElem own quote unquote t
  | .union ts, h => by
    have h' : Proper ts ∧ WellFormedT own ts := by simpa [WellFormedU] using h
    refine ⟨ts, elemOf_proper h'.1, fun s hs => ?_⟩
    rw [render]
    exact reads_terms hq ts h'.2 (by rintro rfl; simp [Proper] at h') s hs
  | .ref _ _ _, h | .tparam _, h | .array _ _, h | .slice _, h | .ptr _, h | .map _ _, h | .chan _ _, h | .func _, h | .struct _, h | .iface _ _, h => by
    simp [WellFormedU] at h
theorem reads_terms (hq : Literals quote unquote) : ∀ ts : Terms Str, WellFormedT own ts → ts ≠ .nil → ∀ s, Stop' s →
    Reads (fun n => pTerms own unquote n (renderTerms quote id true ts ++ s)) (ts, s)
  | .nil, _, hne, _, _ => absurd rfl hne
  | .cons tilde t .nil, h, _, s, hs => by
    have h' : WellFormed own t ∧ WellFormedT own .nil := by simpa [WellFormedT] using h
    have e : renderTerms quote id true (.cons tilde t .nil) ++ s = (if tilde then go!"~" else []) ++ (render quote id t ++ s) := by simp [renderTerms]
    rw [e]
    exact reads_term_one h'.1 (reads_type hq t h'.1) hs
  | .cons tilde t (.cons tilde' t' ts), h, _, s, hs => by
    have h' : WellFormed own t ∧ WellFormedT own (.cons tilde' t' ts) := by simpa [WellFormedT] using h
    have e : renderTerms quote id true (.cons tilde t (.cons tilde' t' ts)) ++ s =
        (if tilde then go!"~" else []) ++ (render quote id t ++ ' ' :: '|' :: ' ' :: (renderTerms quote id true (.cons tilde' t' ts) ++ s)) := by
      show ((if tilde then go!"~" else []) ++ (render quote id t ++ renderTerms quote id false (.cons tilde' t' ts))) ++ s = _
      rw [renderTerms_rest]
      simp
    rw [e]
    exact reads_term_more h'.1 (reads_type hq t h'.1) (reads_terms hq (.cons tilde' t' ts) h'.2 (by simp) s hs)
theorem reads_methods (hq : Literals quote unquote) : ∀ ms : Methods Str, WellFormedM own ms → ∀ es, WellFormedE own es →
    (∀ s, es ≠ .nil → Reads (fun n => pEmbedded own unquote n (renderEmbedded quote id true es ++ '}' :: s)) (es, s)) → ∀ s,
    Reads (fun n => pElems own unquote n (renderMethods quote id true ms ++ (renderEmbedded quote id (noMethods ms) es ++ '}' :: s))) (ms, es, s)
  | .nil, _, es, hes, he, s => reads_elems_nil hes (he s)
  | .cons m g ms, h, es, hes, he, s => by
    have h' : Identifier m ∧ WellFormedS own g ∧ WellFormedM own ms := by simpa [WellFormedM] using h
    exact reads_elems_cons h'.1 (reads_signature hq g h'.2.1) (reads_methods hq ms h'.2.2 es hes he s)
theorem reads_signature (hq : Literals quote unquote) : ∀ g : Sig Str, WellFormedS own g → ∀ s, Stop s →
    Reads (fun n => pSig own unquote n (renderSig quote id g ++ s)) (g, s)
  | .mk ps v rs, h => by
    have h' : WellFormedP own ps ∧ WellFormedP own rs ∧ (v = true → LastIsSlice ps) := by simpa [WellFormedS] using h
    exact reads_sig h'.1 h'.2.2 (fun s hne => reads_params hq ps h'.1 v h'.2.2 hne s) (reads_results hq rs h'.2.1)
theorem reads_params (hq : Literals quote unquote) : ∀ ps : Params Str, WellFormedP own ps → ∀ v, (v = true → LastIsSlice ps) → ps ≠ .nil → ∀ s,
    Reads (fun n => pParams own unquote n (renderParams quote id true v ps ++ ')' :: s)) (ps, v, s)
  | .nil, _, _, _, hne, _ => absurd rfl hne
  | .cons n (.slice e) .nil, h, true, _, _, s => by
    have h' : (n = [] ∨ Identifier n) ∧ WellFormed own (.slice e) ∧ WellFormedP own .nil := by simpa [WellFormedP] using h
    exact reads_params_variadic h'.1 (reads_type hq e (by simpa [WellFormed] using h'.2.1)) s
  | .cons n t .nil, h, false, _, _, s => by
    have h' : (n = [] ∨ Identifier n) ∧ WellFormed own t ∧ WellFormedP own .nil := by simpa [WellFormedP] using h
    exact reads_params_one h'.1 h'.2.1 (reads_type hq t h'.2.1) s
  | .cons n t (.cons n' t' ps), h, v, hv, _, s => by
    have h' : (n = [] ∨ Identifier n) ∧ WellFormed own t ∧ WellFormedP own (.cons n' t' ps) := by simpa [WellFormedP] using h
    exact reads_params_more h'.1 h'.2.1 (reads_type hq t h'.2.1)
      (reads_params hq (.cons n' t' ps) h'.2.2 v (fun e => by have := hv e; simpa [LastIsSlice] using this) (by simp) s)
theorem reads_results (hq : Literals quote unquote) : ∀ rs : Params Str, WellFormedP own rs → ∀ s, Stop s →
    Reads (fun n => pResults own unquote n (renderResults quote id rs ++ s)) (rs, s)
  | .nil, _ => reads_results_nil
  | .cons n t rs, h => by
    have h' : (n = [] ∨ Identifier n) ∧ WellFormed own t ∧ WellFormedP own rs := by simpa [WellFormedP] using h
    by_cases hne : rs ≠ .nil ∨ n ≠ []
    · exact reads_results_list hne (fun s => reads_params hq (.cons n t rs) h false (by simp) (by simp) s)
    · have h1 : rs = .nil := by
        cases rs with
        | nil => rfl
        | cons n' t' rs => exact absurd (.inl (by simp)) hne
      have h2 : n = [] := by
        cases n with
        | nil => rfl
        | cons c n => exact absurd (.inr (by simp)) hne
      subst h1
      subst h2
      exact reads_results_one h'.2.1 (reads_type hq t h'.2.1)
theorem reads_fields (hq : Literals quote unquote) : ∀ fs : Fields Str, WellFormedF own fs → ∀ s,
    Reads (fun n => pFields own unquote n (renderFields quote id true fs ++ '}' :: s)) (fs, s)
  | .nil, _, s => reads_fields_nil s
  | .cons n t tag fs, h, s => by
    have h' : WellFormed own t ∧ WellFormedF own fs := by
      cases n with
      | none => exact (by simpa [WellFormedF] using h : Embeddable t ∧ WellFormed own t ∧ WellFormedF own fs).2
      | some n => exact (by simpa [WellFormedF] using h : Identifier n ∧ WellFormed own t ∧ WellFormedF own fs).2
    exact reads_fields_cons hq h (reads_type hq t h'.1) (reads_fields hq fs h'.2 s)
end

/-- Two types with the same text are equal. -/
theorem render_injective (hq : Literals quote unquote) {a b : TExpr Str} (ha : WellFormed own a) (hb : WellFormed own b)
    (h : render quote id a = render quote id b) : a = b := by
  obtain ⟨N, hN⟩ := reads_type hq a ha [] (.inl rfl)
  obtain ⟨M, hM⟩ := reads_type hq b hb [] (.inl rfl)
  have h1 := hN (N + M) (by omega)
  have h2 := hM (N + M) (by omega)
  simp only [← h, h1, Option.some.injEq, Prod.mk.injEq] at h2
  exact h2.1

end
end Verif.Ts
