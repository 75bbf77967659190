import Verif.Lemmas.Signature
/-! # Signatures: reading inverts printing -/
namespace Verif.Sign
open Ts Ts.Spec Sign.Spec
set_option autoImplicit false

/-- The name of a type parameter, and the rest. -/
def pTName (s : Str) : Str × Str :=
  match after s with
  | '*' :: r => ((word s).dropLast, r.drop 18)
  | r => (word s, r)

def pNames : Nat → Str → Option (List Str × Str)
  | 0, _ => none
  | k + 1, s =>
    match (pTName s).2 with
    | ',' :: r => (pNames k (r.drop 1)).map (fun x => ((pTName s).1 :: x.1, x.2))
    | ' ' :: r => some ([(pTName s).1], r)
    | _ => none

section
variable (own : List Str) (unquote : Str → Option Str)

def pTParams : Nat → Str → Option (WTParams × Str)
  | 0, _ => none
  | k + 1, s =>
    match pNames k s with
    | none => none
    | some (ns, r) =>
      match pTerms own unquote k r with
      | some (ts, ',' :: r) => (pTParams k (r.drop 1)).map (fun x => ((ns, elemOf ts) :: x.1, x.2))
      | some (ts, _ :: r) => some ([(ns, elemOf ts)], r)
      | _ => none

def pOptT (k : Nat) (s : Str) : Option (WTParams × Str) :=
  match s with
  | '[' :: r => pTParams own unquote k r
  | s => some ([], s)

def nameOf (w : Str) : Option Str × Str :=
  match leaf own w .nil with
  | .ref p n _ => (p, n)
  | _ => (none, w)

def pRecv (k : Nat) (s : Str) : Option (Option WRecv × Str) :=
  match s with
  | '(' :: r =>
    if word r = go!"interface" then some (some .iface, (after r).drop 2)
    else
      match pOptT own unquote k (after (if r.head? = some '*' then r.drop 1 else r)) with
      | none => none
      | some (tps, x) =>
        some (some (.named (r.head? == some '*') (nameOf own (word (if r.head? = some '*' then r.drop 1 else r))).1
          (nameOf own (word (if r.head? = some '*' then r.drop 1 else r))).2 tps), x.drop 2)
  | s => some (none, s)

def pFunc (k : Nat) (s : Str) : Option (Option WRecv × Str × WTParams × Sig Str) :=
  match pRecv own unquote k s with
  | none => none
  | some (rc, r) =>
    match pOptT own unquote k (after r) with
    | none => none
    | some (tps, r') => (pSig own unquote k r').map (fun x => (rc, word r, tps, x.1))
end

/-! ## The texts -/

def groupText (quote : Str → Str) (g : List Str × TExpr Str) : Str := Str.join go!", " (g.1.map tparamText) ++ ' ' :: render quote id g.2
def listText (quote : Str → Str) (tps : WTParams) : Str := Str.join go!", " (tps.map (groupText quote))
def optText (quote : Str → Str) (tps : WTParams) : Str := if tps = [] then [] else '[' :: (listText quote tps ++ [']'])
def wrecvText (quote : Str → Str) : Option WRecv → Str
  | none => []
  | some .iface => go!"(interface)."
  | some (.named ptr pkg name tps) => '(' :: ((if ptr then ['*'] else []) ++ (typeName id pkg name ++ optText quote tps) ++ go!").")
def funcText (quote : Str → Str) (recv : Option WRecv) (name : Str) (tps : WTParams) (sig : Sig Str) : Str :=
  wrecvText quote recv ++ (name ++ (optText quote tps ++ renderSig quote id sig))

/-! ## Reading -/

theorem pTName_text {n x : Str} (h : Identifier n) (hx : ∀ c, x.head? = some c → pathChar c = false ∧ c ≠ '*') : pTName (tparamText n ++ x) = (n, x) := by
  obtain ⟨h1, h2, h3, h4, h5, h6⟩ := h
  unfold tparamText
  split
  · have hw : ∀ c ∈ n ++ ['/'], pathChar c = true := by
      intro c hc
      rcases List.mem_append.1 hc with hc | hc
      · exact h2 c hc
      · simp at hc; subst hc; decide
    obtain ⟨e1, e2⟩ := word_append (s := '*' :: (go!" type parameter */" ++ x)) hw (by intro c hc; simp at hc; subst hc; decide)
    have e : n ++ go!"/* type parameter */" ++ x = (n ++ ['/']) ++ '*' :: (go!" type parameter */" ++ x) := by simp
    rw [e]
    unfold pTName
    rw [e1, e2]
    simp
  · obtain ⟨e1, e2⟩ := word_append (s := x) h2 (fun c hc => (hx c hc).1)
    unfold pTName
    rw [e1, e2]
    split
    · rename_i r
      exact absurd rfl (hx '*' rfl).2
    · rfl

theorem reads_names {ns : List Str} (hne : ns ≠ []) (h : ∀ n ∈ ns, Identifier n) (x : Str) :
    Reads (fun k => pNames k (Str.join go!", " (ns.map tparamText) ++ ' ' :: x)) (ns, x) := by
  induction ns with
  | nil => exact absurd rfl hne
  | cons n ns ih =>
    apply Reads.succ
    cases ns with
    | nil =>
      refine Reads.pure fun k => ?_
      have e := pTName_text (x := ' ' :: x) (h n (by simp)) (by intro c hc; simp at hc; subst hc; decide)
      show pNames (k + 1) (tparamText n ++ ' ' :: x) = _
      simp only [pNames, e]
    | cons m ns =>
      refine (ih (by simp) (fun a ha => h a (by simp [ha]))).bind fun k hk => ?_
      have e0 : Str.join go!", " ((n :: m :: ns).map tparamText) ++ ' ' :: x =
          tparamText n ++ ',' :: ' ' :: (Str.join go!", " ((m :: ns).map tparamText) ++ ' ' :: x) := by
        simp [Str.join]
      have e := pTName_text (x := ',' :: ' ' :: (Str.join go!", " ((m :: ns).map tparamText) ++ ' ' :: x)) (h n (by simp))
        (by intro c hc; simp at hc; subst hc; decide)
      rw [e0]
      simp only [pNames, e, List.drop_succ_cons, List.drop_zero, hk, Option.map_some]

section
variable {own : List Str} {quote : Str → Str} {unquote : Str → Option Str}

theorem reads_constraint (hq : Literals quote unquote) {t : TExpr Str} (h : WellFormed own t ∨ WellFormedU own t) : ReadsElem own quote unquote t :=
  h.elim (fun h => reads_elem_plain h (reads_type hq t h)) (reads_union hq t)

theorem reads_tparams (hq : Literals quote unquote) {tps : WTParams} (hne : tps ≠ []) (h : WellFormedTParams own tps) (x : Str) :
    Reads (fun k => pTParams own unquote k (listText quote tps ++ ']' :: x)) (tps, x) := by
  induction tps with
  | nil => exact absurd rfl hne
  | cons g tps ih =>
    obtain ⟨hg1, hg2, hg3⟩ := h g (by simp)
    obtain ⟨ts, he, ht⟩ := reads_constraint hq hg3
    apply Reads.succ
    cases tps with
    | nil =>
      have e0 : listText quote [g] ++ ']' :: x = Str.join go!", " (g.1.map tparamText) ++ ' ' :: (render quote id g.2 ++ ']' :: x) := by
        simp [listText, Str.join, groupText]
      refine (reads_names hg1 hg2 (render quote id g.2 ++ ']' :: x)).bind2 (ht (']' :: x) (.inr ⟨_, _, rfl, by decide⟩)) fun k hk hk' => ?_
      rw [e0]
      simp only [pTParams, hk, hk']
      show some ([(g.1, elemOf ts)], x) = _
      rw [he]
    | cons g' tps =>
      have e0 : listText quote (g :: g' :: tps) ++ ']' :: x =
          Str.join go!", " (g.1.map tparamText) ++ ' ' :: (render quote id g.2 ++ ',' :: ' ' :: (listText quote (g' :: tps) ++ ']' :: x)) := by
        simp [listText, Str.join, groupText]
      obtain ⟨N, hN⟩ := ih (by simp) (fun a ha => h a (by simp [ha]))
      obtain ⟨A, hA⟩ := reads_names hg1 hg2 (render quote id g.2 ++ ',' :: ' ' :: (listText quote (g' :: tps) ++ ']' :: x))
      obtain ⟨B, hB⟩ := ht (',' :: ' ' :: (listText quote (g' :: tps) ++ ']' :: x)) (.inr ⟨_, _, rfl, by decide⟩)
      refine ⟨N + A + B, fun k hk => ?_⟩
      have h1 := hN k (by omega)
      have h2 := hA k (by omega)
      have h3 := hB k (by omega)
      simp only at h1 h2 h3
      rw [e0]
      simp only [pTParams, h2, h3]
      show (pTParams own unquote k (listText quote (g' :: tps) ++ ']' :: x)).map (fun y => ((g.1, elemOf ts) :: y.1, y.2)) = _
      rw [h1, he]
      rfl

theorem reads_opt (hq : Literals quote unquote) {tps : WTParams} (h : WellFormedTParams own tps) {x : Str} (hx : ∀ c, x.head? = some c → c ≠ '[') :
    Reads (fun k => pOptT own unquote k (optText quote tps ++ x)) (tps, x) := by
  unfold optText
  split
  · rename_i h0
    subst h0
    refine Reads.pure fun k => ?_
    rw [List.nil_append]
    unfold pOptT
    split
    · exact absurd rfl (hx _ rfl)
    · rfl
  · rename_i h0
    refine (reads_tparams hq h0 h x).bind fun k hk => ?_
    have e : '[' :: (listText quote tps ++ [']']) ++ x = '[' :: (listText quote tps ++ ']' :: x) := by simp
    rw [e]
    exact hk

theorem optText_head (tps : WTParams) {x : Str} (hx : ∀ c, x.head? = some c → pathChar c = false) :
    ∀ c, (optText quote tps ++ x).head? = some c → pathChar c = false := by
  intro c hc
  unfold optText at hc
  split at hc
  · exact hx c (by simpa using hc)
  · simp at hc; subst hc; decide

theorem nameOf_text {pkg : Option Str} {n : Str} (h : WellFormed own (.ref pkg n .nil)) : nameOf own (typeName id pkg n) = (pkg, n) := by
  unfold nameOf
  rw [(typeName_word h).2.2.2.2]

theorem reads_recv (hq : Literals quote unquote) {r : WRecv} (h : WellFormedRecv own r) (x : Str) :
    Reads (fun k => pRecv own unquote k (wrecvText quote (some r) ++ x)) (some r, x) := by
  cases r with
  | iface => exact Reads.pure fun k => rfl
  | named ptr pkg name tps =>
    have hw : WellFormed own (.ref pkg name .nil) := h.1
    obtain ⟨h1, h2, h3, h4, _⟩ := typeName_word hw
    refine (reads_opt hq (x := ')' :: '.' :: x) h.2 (by intro c hc; simp at hc; subst hc; decide)).bind fun k hk => ?_
    obtain ⟨e1, e2⟩ := word_append (s := optText quote tps ++ ')' :: '.' :: x) h2
      (optText_head tps (by intro c hc; simp at hc; subst hc; decide))
    have e : wrecvText quote (some (.named ptr pkg name tps)) ++ x =
        '(' :: ((if ptr then ['*'] else []) ++ (typeName id pkg name ++ (optText quote tps ++ ')' :: '.' :: x))) := by
      simp [wrecvText]
    have hstar : ∀ y, (typeName id pkg name ++ y).head? ≠ some '*' := by
      intro y hy
      cases ht : typeName id pkg name with
      | nil => exact h1 ht
      | cons c w =>
        rw [ht] at hy
        simp at hy
        have := h2 c (by rw [ht]; simp)
        rw [hy] at this
        exact absurd this (by decide)
    have hi : typeName id pkg name ≠ go!"interface" := by
      intro hc
      exact h3 (by rw [hc]; decide)
    have hi' : word ((if ptr then ['*'] else []) ++ (typeName id pkg name ++ (optText quote tps ++ ')' :: '.' :: x))) ≠ go!"interface" := by
      cases ptr
      · simpa [e1] using hi
      · intro hc; revert hc; simp [word, List.takeWhile, show pathChar '*' = false by decide]
    have es : (if ((if ptr then ['*'] else []) ++ (typeName id pkg name ++ (optText quote tps ++ ')' :: '.' :: x))).head? = some '*' then
        ((if ptr then ['*'] else []) ++ (typeName id pkg name ++ (optText quote tps ++ ')' :: '.' :: x))).drop 1
        else (if ptr then ['*'] else []) ++ (typeName id pkg name ++ (optText quote tps ++ ')' :: '.' :: x))) =
        typeName id pkg name ++ (optText quote tps ++ ')' :: '.' :: x) := by
      cases ptr
      · simp only [Bool.false_eq_true, if_false, List.nil_append, if_neg (hstar _)]
      · simp
    have ep : (((if ptr then ['*'] else []) ++ (typeName id pkg name ++ (optText quote tps ++ ')' :: '.' :: x))).head? == some '*') = ptr := by
      cases ptr
      · have := hstar (optText quote tps ++ ')' :: '.' :: x)
        simpa only [Bool.false_eq_true, if_false, List.nil_append, beq_eq_false_iff_ne, ne_eq] using this
      · simp
    rw [e]
    simp only [pRecv]
    rw [if_neg hi', es, ep, e1, e2, hk]
    simp only [nameOf_text hw, List.drop_succ_cons, List.drop_zero]

theorem renderSig_head (sig : Sig Str) : ∃ r, renderSig quote id sig = '(' :: r := by
  cases sig with
  | mk ps v rs => exact ⟨_, by rw [renderSig]⟩

theorem reads_func_text (hq : Literals quote unquote) {recv : Option WRecv} {name : Str} {tps : WTParams} {sig : Sig Str}
    (hr : ∀ r, recv = some r → WellFormedRecv own r) (hn : Identifier name) (ht : WellFormedTParams own tps) (hs : WellFormedS own sig) :
    Reads (fun k => pFunc own unquote k (funcText quote recv name tps sig)) (recv, name, tps, sig) := by
  obtain ⟨r, er⟩ := renderSig_head (quote := quote) sig
  have hrecv : Reads (fun k => pRecv own unquote k (funcText quote recv name tps sig)) (recv, name ++ (optText quote tps ++ renderSig quote id sig)) := by
    cases recv with
    | some r => exact reads_recv hq (hr r rfl) _
    | none =>
      refine Reads.pure fun k => ?_
      simp only [funcText, wrecvText, List.nil_append]
      cases hnn : name with
      | nil => exact absurd hnn hn.1
      | cons c w =>
        have hc : c ≠ '(' := by
          rintro rfl
          exact absurd (hn.2.1 '(' (by rw [hnn]; simp)) (by decide)
        unfold pRecv
        split
        · rename_i heq; simp at heq; exact absurd heq.1 hc
        · rfl
  have hhead : ∀ c, (renderSig quote id sig).head? = some c → c = '(' := by
    intro c hc; rw [er] at hc; simp at hc; exact hc.symm
  obtain ⟨e1, e2⟩ := word_append (s := optText quote tps ++ renderSig quote id sig) hn.2.1
    (optText_head tps (by intro c hc; rw [hhead c hc]; decide))
  have hopt := reads_opt hq (x := renderSig quote id sig) ht (by intro c hc; rw [hhead c hc]; decide)
  have hsig : Reads (fun k => pSig own unquote k (renderSig quote id sig)) (sig, []) := by
    have := reads_signature hq sig hs [] (.inl rfl)
    simpa using this
  obtain ⟨A, hA⟩ := hrecv
  obtain ⟨B, hB⟩ := hopt
  obtain ⟨C, hC⟩ := hsig
  refine ⟨A + B + C, fun k hk => ?_⟩
  have a := hA k (by omega)
  have b := hB k (by omega)
  have c := hC k (by omega)
  simp only at a b c ⊢
  unfold pFunc
  rw [a]
  simp only [e1, e2, b, c, Option.map_some]

theorem funcText_injective (hq : Literals quote unquote) {recv recv' : Option WRecv} {name name' : Str} {tps tps' : WTParams} {sig sig' : Sig Str}
    (hr : ∀ r, recv = some r → WellFormedRecv own r) (hn : Identifier name) (ht : WellFormedTParams own tps) (hs : WellFormedS own sig)
    (hr' : ∀ r, recv' = some r → WellFormedRecv own r) (hn' : Identifier name') (ht' : WellFormedTParams own tps') (hs' : WellFormedS own sig')
    (h : funcText quote recv name tps sig = funcText quote recv' name' tps' sig') : recv = recv' ∧ name = name' ∧ tps = tps' ∧ sig = sig' := by
  obtain ⟨N, hN⟩ := reads_func_text hq hr hn ht hs
  obtain ⟨M, hM⟩ := reads_func_text hq hr' hn' ht' hs'
  have h1 := hN (N + M) (by omega)
  have h2 := hM (N + M) (by omega)
  simp only [← h, h1, Option.some.injEq, Prod.mk.injEq] at h2
  exact h2

/-- A name and a type, and what follows. -/
theorem named_injective (hq : Literals quote unquote) {n n' : Str} {t t' : TExpr Str} {x x' : Str} (hn : Identifier n) (hn' : Identifier n')
    (ht : WellFormed own t) (ht' : WellFormed own t') (hx : Stop x) (hx' : Stop x')
    (h : n ++ ' ' :: (render quote id t ++ x) = n' ++ ' ' :: (render quote id t' ++ x')) : n = n' ∧ t = t' ∧ x = x' := by
  have w := fun (m : Str) (hm : Identifier m) (y : Str) => word_append (s := ' ' :: y) hm.2.1 (by intro c hc; simp at hc; subst hc; decide)
  have e1 := congrArg word h
  rw [(w n hn _).1, (w n' hn' _).1] at e1
  subst e1
  simp only [List.append_cancel_left_eq, List.cons.injEq, true_and] at h
  obtain ⟨N, hN⟩ := reads_type hq t ht x hx
  obtain ⟨M, hM⟩ := reads_type hq t' ht' x' hx'
  have h1 := hN (N + M) (by omega)
  have h2 := hM (N + M) (by omega)
  simp only [← h, h1, Option.some.injEq, Prod.mk.injEq] at h2
  exact ⟨rfl, h2⟩

/-! ## Type declarations -/

/-- A type declaration after its name and type parameters. -/
def pRhs (own : List Str) (unquote : Str → Option Str) (k : Nat) (n : Str) (tps : WTParams) (s : Str) : Option Entity :=
  if s.head? = some '=' then (pType own unquote k (s.drop 2)).map (fun y => .alias n tps y.1)
  else
    match pType own unquote k s with
    | some (t, []) => some (.definition n tps t)
    | some (_, _ :: y) => (pTerms own unquote k y).map (fun z => .typeParameter (word s) (elemOf z.1))
    | none => none

/-- A type declaration without the word `type`. -/
def pDecl (own : List Str) (unquote : Str → Option Str) (k : Nat) (s : Str) : Option Entity :=
  match pOptT own unquote k (after s) with
  | none => none
  | some (tps, r) => pRhs own unquote k (word s) tps (r.drop 1)

def declared (quote : Str → Str) (n : Str) (tps : WTParams) (rhs : Str) : Str := n ++ (optText quote tps ++ ' ' :: rhs)

theorem reads_declared (hq : Literals quote unquote) {n : Str} {tps : WTParams} (hn : Identifier n) (htp : WellFormedTParams own tps) {rhs : Str} {e : Entity}
    (h : Reads (fun k => pRhs own unquote k n tps rhs) e) : Reads (fun k => pDecl own unquote k (declared quote n tps rhs)) e := by
  obtain ⟨e1, e2⟩ := word_append (s := optText quote tps ++ ' ' :: rhs) hn.2.1
    (optText_head tps (by intro c hc; simp at hc; subst hc; decide))
  refine (reads_opt hq (x := ' ' :: rhs) htp (by intro c hc; simp at hc; subst hc; decide)).bind2 h fun k hk hk' => ?_
  unfold pDecl declared
  rw [e1, e2, hk]
  simp only [List.drop_succ_cons, List.drop_zero, hk']

theorem reads_definition (hq : Literals quote unquote) {n : Str} {tps : WTParams} {t : TExpr Str} (hn : Identifier n) (htp : WellFormedTParams own tps)
    (ht : WellFormed own t) : Reads (fun k => pDecl own unquote k (declared quote n tps (render quote id t))) (.definition n tps t) := by
  apply reads_declared hq hn htp
  have h := reads_type hq t ht [] (.inl rfl)
  simp only [List.append_nil] at h
  refine h.bind fun k hk => ?_
  obtain ⟨c, r, hr, _, hc⟩ := (begins quote t ht).head
  have hc' : (render quote id t).head? ≠ some '=' := by
    rw [hr]
    rintro h
    simp at h
    subst h
    simp at hc
  unfold pRhs
  rw [if_neg hc', hk]

theorem reads_alias (hq : Literals quote unquote) {n : Str} {tps : WTParams} {t : TExpr Str} (hn : Identifier n) (htp : WellFormedTParams own tps)
    (ht : WellFormed own t) : Reads (fun k => pDecl own unquote k (declared quote n tps ('=' :: ' ' :: render quote id t))) (.alias n tps t) := by
  apply reads_declared hq hn htp
  have h := reads_type hq t ht [] (.inl rfl)
  simp only [List.append_nil] at h
  refine h.bind fun k hk => ?_
  unfold pRhs
  rw [if_pos (by rfl)]
  simp only [List.drop_succ_cons, List.drop_zero, hk, Option.map_some]

theorem reads_typeParameter (hq : Literals quote unquote) {n : Str} {t : TExpr Str} (hn : Identifier n) (ht : WellFormed own t ∨ WellFormedU own t) :
    Reads (fun k => pDecl own unquote k (declared quote go!"parameter" [] (n ++ ' ' :: render quote id t))) (.typeParameter n t) := by
  apply reads_declared hq (by unfold Identifier; decide +kernel) (by intro g hg; simp at hg)
  obtain ⟨ts, he, h⟩ := reads_constraint hq ht
  have h := h [] (.inl rfl)
  simp only [List.append_nil] at h
  apply Reads.succ
  apply Reads.succ
  refine Reads.bind (p := fun k => pTerms own unquote (k + 2) (render quote id t)) (x := (ts, [])) ?_ fun k hk => ?_
  · obtain ⟨N, hN⟩ := h
    exact ⟨N, fun k hk => hN (k + 2) (by omega)⟩
  obtain ⟨e1, e2⟩ := word_append (s := ' ' :: render quote id t) hn.2.1 (by intro c hc; simp at hc; subst hc; decide)
  have hh : (n ++ ' ' :: render quote id t).head? ≠ some '=' := by
    cases hnn : n with
    | nil => exact absurd hnn hn.1
    | cons c w =>
      intro hc
      simp at hc
      exact absurd (hn.2.1 c (by rw [hnn]; simp)) (by rw [hc]; decide)
  have hp : pType own unquote (k + 2) (n ++ ' ' :: render quote id t) = some (leaf own n .nil, ' ' :: render quote id t) := by
    rw [pType_of_word own unquote (k + 1) hn.1 hn.2.1 (by intro c hc; simp at hc; subst hc; decide),
      pWord_leaf own unquote k (fun hc => hn.2.2.2.2.1 (typeWords_keywords hc))]
    rfl
  show pRhs own unquote (k + 2) _ _ _ = _
  unfold pRhs
  rw [if_neg hh, hp]
  simp only [e1, hk, Option.map_some, he]

/-! ## The text of an entity -/

/-- The word for the kind of entity, and what follows. -/
def kindWord : Entity → Str
  | .variable _ _ => go!"var"
  | .field _ _ => go!"field"
  | .constant _ _ _ => go!"const"
  | .function _ _ _ _ => go!"func"
  | .label _ => go!"label"
  | .typeParameter _ _ => go!"type"
  | .definition _ _ _ => go!"type"
  | .alias _ _ _ => go!"type"

def bodyText (quote : Str → Str) : Entity → Str
  | .variable n t => n ++ ' ' :: render quote id t
  | .field n t => n ++ ' ' :: render quote id t
  | .constant n t _ => n ++ ' ' :: render quote id t
  | .function r n tps sig => funcText quote r n tps sig
  | .label n => n
  | .typeParameter n t => declared quote go!"parameter" [] (n ++ ' ' :: render quote id t)
  | .definition n tps t => declared quote n tps (render quote id t)
  | .alias n tps t => declared quote n tps ('=' :: ' ' :: render quote id t)

def entityText (quote : Str → Str) (e : Entity) : Str := kindWord e ++ ' ' :: bodyText quote e

theorem entityText_split {e e' : Entity} {x x' : Str} (h : kindWord e ++ ' ' :: x = kindWord e' ++ ' ' :: x') : kindWord e = kindWord e' ∧ x = x' := by
  have w : ∀ (e : Entity) (x : Str), word (kindWord e ++ ' ' :: x) = kindWord e := fun e x =>
    (word_append (s := ' ' :: x) (by cases e <;> simp only [kindWord] <;> decide) (by intro c hc; simp at hc; subst hc; decide)).1
  have h1 := congrArg word h
  rw [w, w] at h1
  rw [h1] at h
  exact ⟨h1, by simpa using h⟩

theorem reads_eq {α : Type} {p q : Nat → Option α} {x y : α} (hx : Reads p x) (hy : Reads q y) (h : p = q) : x = y := by
  subst h
  obtain ⟨N, hN⟩ := hx
  obtain ⟨M, hM⟩ := hy
  have h1 := hN (N + M) (by omega)
  have h2 := hM (N + M) (by omega)
  rw [h1] at h2
  exact Option.some.inj h2

/-- Is it a type? -/
def _root_.Verif.Sign.Spec.Entity.isType : Entity → Bool
  | .typeParameter _ _ => true
  | .definition _ _ _ => true
  | .alias _ _ _ => true
  | _ => false

theorem typeText_injective (hq : Literals quote unquote) {e e' : Entity} (he : WellFormedEntity own e) (he' : WellFormedEntity own e')
    (ht : e.isType = true) (ht' : e'.isType = true) (h : bodyText quote e = bodyText quote e') : e = e' := by
  have all : ∀ e : Entity, WellFormedEntity own e → e.isType = true → Reads (fun k => pDecl own unquote k (bodyText quote e)) e := by
    intro e he ht
    cases e with
    | typeParameter n t => exact reads_typeParameter hq he.1 he.2
    | definition n tps t => exact reads_definition hq he.1 he.2.1 he.2.2
    | alias n tps t => exact reads_alias hq he.1 he.2.1 he.2.2
    | _ => simp [Entity.isType] at ht
  exact reads_eq (all e he ht) (all e' he' ht') (by rw [h])

theorem named_type_injective (hq : Literals quote unquote) {n n' : Str} {t t' : TExpr Str} (hn : Identifier n) (hn' : Identifier n')
    (ht : WellFormed own t) (ht' : WellFormed own t') (h : n ++ ' ' :: render quote id t = n' ++ ' ' :: render quote id t') : n = n' ∧ t = t' := by
  have := named_injective (x := []) (x' := []) hq hn hn' ht ht' (.inl rfl) (.inl rfl) (by simpa using h)
  exact ⟨this.1, this.2.1⟩

/-- The text determines the entity, except for the value of a constant. -/
theorem entityText_injective (hq : Literals quote unquote) {e e' : Entity} (he : WellFormedEntity own e) (he' : WellFormedEntity own e')
    (h : entityText quote e = entityText quote e') : e.withoutValue = e'.withoutValue := by
  obtain ⟨hk, hb⟩ := entityText_split h
  cases e <;> cases e' <;> first
    | (exfalso; simp only [kindWord] at hk; revert hk; decide)
    | (rw [typeText_injective hq he he' rfl rfl hb])
    | skip
  · obtain ⟨rfl, rfl⟩ := named_type_injective hq he.1 he'.1 he.2 he'.2 hb
    rfl
  · obtain ⟨rfl, rfl⟩ := named_type_injective hq he.1 he'.1 he.2 he'.2 hb
    rfl
  · obtain ⟨rfl, rfl⟩ := named_type_injective hq he.1 he'.1 he.2 he'.2 hb
    rfl
  · obtain ⟨h1, h2, h3, h4⟩ := he
    obtain ⟨h1', h2', h3', h4'⟩ := he'
    obtain ⟨rfl, rfl, rfl, rfl⟩ := funcText_injective hq h1 h2 h3 h4 h1' h2' h3' h4' hb
    rfl
  · exact congrArg Entity.label hb

end

/-! ## The text of an object -/

section
variable {quote : Str → Str} {qf : Pkg → Str} {f : Pkg → Option Str}

theorem optText_written (h : ∀ p, qf p = (f p).getD []) (hne : ∀ p, f p ≠ some []) (tps : TParams) :
    optTParams quote qf tps = optText quote (writtenTParams f tps) := by
  unfold optTParams optText
  cases tps with
  | nil => rfl
  | cons g tps =>
    have e : ∀ tps : TParams, tps.map (fun g => Str.join go!", " (g.1.map tparamText) ++ ' ' :: render quote qf g.2) =
        (writtenTParams f tps).map (groupText quote) := by
      intro tps
      simp only [writtenTParams, List.map_map]
      apply List.map_congr_left
      intro g _
      simp only [Function.comp, groupText]
      rw [render_relabel quote qf f h hne]
    rw [if_neg (by simp), if_neg (by simp [writtenTParams]), tparamList, listText, e]

theorem recvText_written (h : ∀ p, qf p = (f p).getD []) (hne : ∀ p, f p ≠ some []) {r : Recv} {w : WRecv} (hw : writtenRecv f r = some w) :
    '(' :: (recvText quote qf r ++ go!").") = wrecvText quote (some w) := by
  cases r with
  | iface => simp [writtenRecv] at hw; subst hw; rfl
  | named ptr pkg n tps =>
    simp [writtenRecv] at hw
    subst hw
    simp only [recvText, wrecvText]
    rw [typeName_relabel qf f h hne, optText_written h hne]
  | typ t => simp [writtenRecv] at hw

theorem own_name (v : View) (hown : ∀ p, v.pkg = some p → qf p = []) : typeName qf v.pkg v.name = v.name := by
  cases hp : v.pkg with
  | none => rfl
  | some p => simp [typeName, hown p hp]

theorem own_objName (v : View) (hown : ∀ p, v.pkg = some p → qf p = []) : objName qf v = v.name := by
  unfold objName
  split
  · exact own_name v hown
  · rfl

/-- `types.ObjectString` writes the entity. -/
theorem objectString_entity (h : ∀ p, qf p = (f p).getD []) (hne : ∀ p, f p ≠ some []) {v : View} (hown : ∀ p, v.pkg = some p → qf p = [])
    {e : Entity} (hd : Describes f v e) : objectString quote qf v = entityText quote e := by
  have hr := render_relabel quote qf f h hne
  have ho := own_objName v hown
  cases hd with
  | «variable» hc => simp only [objectString, hc, hr, ho]; rfl
  | field hc => simp only [objectString, hc, hr, ho]; rfl
  | constant hc => simp only [objectString, hc, hr, ho]; rfl
  | function hc =>
    simp only [objectString, hc, funcName, own_name v hown, optText_written h hne, renderSig_relabel quote qf f h hne]
    rfl
  | method hc hw =>
    simp only [objectString, hc, funcName, recvText_written h hne hw, optText_written h hne, renderSig_relabel quote qf f h hne]
    simp [entityText, kindWord, bodyText, funcText]
  | label hc => simp only [objectString, hc, ho]; rfl
  | typeParameter hc => simp only [objectString, hc, declText, hr, ho]; rfl
  | definition hc =>
    simp only [objectString, hc, declText, hr, ho, optText_written h hne]
    simp [entityText, kindWord, bodyText, declared]
  | alias hc =>
    simp only [objectString, hc, declText, hr, ho, optText_written h hne]
    simp [entityText, kindWord, bodyText, declared]

end
end Verif.Sign
