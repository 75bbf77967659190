import Verif.Spec.Protobuf
/-! # Lemmas: decoding what was encoded -/
namespace Verif.Pb
open Spec

theorem encodeVarint_lt {n : Nat} (h : n < 128) : encodeVarint n = [UInt8.ofNat n] := by
  rw [encodeVarint, if_pos h]
theorem encodeVarint_ge {n : Nat} (h : ¬ n < 128) : encodeVarint n = UInt8.ofNat (n % 128 + 128) :: encodeVarint (n / 128) := by
  rw [encodeVarint, if_neg h]

theorem encodeVarint_ne (n : Nat) : encodeVarint n ≠ [] := by
  by_cases h : n < 128
  · rw [encodeVarint_lt h]; simp
  · rw [encodeVarint_ge h]; simp

theorem toNat_small {n : Nat} (h : n < 256) : (UInt8.ofNat n).toNat = n := by
  simp [UInt8.toNat_ofNat', Nat.mod_eq_of_lt h]

theorem varint_encode (k n : Nat) (r : Bytes) (hk : n < 128 ^ (k + 1)) : varint (k + 1) (encodeVarint n ++ r) = some (n, r) := by
  induction k generalizing n with
  | zero =>
    have h : n < 128 := by simpa using hk
    rw [encodeVarint_lt h]
    simp [varint, toNat_small (show n < 256 by omega), h]
  | succ k ih =>
    by_cases h : n < 128
    · rw [encodeVarint_lt h]
      simp [varint, toNat_small (show n < 256 by omega), h]
    · rw [encodeVarint_ge h]
      have h1 : n % 128 + 128 < 256 := by omega
      have h2 : n / 128 < 128 ^ (k + 1) := by
        rw [Nat.div_lt_iff_lt_mul (by decide)]
        rw [Nat.pow_succ] at hk
        exact hk
      simp only [List.cons_append, varint, toNat_small h1]
      rw [if_neg (by omega), ih _ h2]
      simp only [Option.some.injEq, Prod.mk.injEq, and_true]
      omega

theorem varint64_encode {n : Nat} (r : Bytes) (h : n < 2 ^ 64) : varint64 (encodeVarint n ++ r) = some (n, r) := by
  unfold varint64
  rw [varint_encode 9 n r (Nat.lt_of_lt_of_le h (by decide))]
  simp [h]

/-- A varint cut short is not a varint. -/
theorem varint_cut (k n : Nat) (p s : Bytes) (h : encodeVarint n = p ++ s) (hs : s ≠ []) : varint k p = none := by
  induction p generalizing k n with
  | nil => cases k <;> rfl
  | cons b p ih =>
    cases k with
    | zero => rfl
    | succ k =>
      by_cases hn : n < 128
      · rw [encodeVarint_lt hn] at h
        simp at h
        exact absurd h.2.2 hs
      · rw [encodeVarint_ge hn] at h
        simp only [List.cons_append, List.cons.injEq] at h
        obtain ⟨rfl, h⟩ := h
        simp only [varint]
        rw [toNat_small (by omega), if_neg (by omega), ih k _ h]

theorem varint64_cut (n : Nat) (p s : Bytes) (h : encodeVarint n = p ++ s) (hs : s ≠ []) : varint64 p = none := by
  unfold varint64
  rw [varint_cut 10 n p s h hs]

/-- Fields that the encoder writes: number and value fit. -/
def OkField (f : Nat × Val) : Prop :=
  0 < f.1 ∧ f.1 < 2 ^ 29 ∧ match f.2 with
    | .varint n => n < 2 ^ 64
    | .fixed64 b => b.length = 8
    | .len b => b.length < 2 ^ 64
    | .fixed32 b => b.length = 4

theorem takeExactly_append (a b : Bytes) : takeExactly a.length (a ++ b) = some (a, b) := by
  simp [takeExactly]

theorem wireType_lt (v : Val) : wireType v < 8 := by cases v <;> simp [wireType]

theorem field_encode (f : Nat × Val) (r : Bytes) (h : OkField f) : field (encodeField f ++ r) = some (f, r) := by
  obtain ⟨n, v⟩ := f
  obtain ⟨h1, h2, h3⟩ := h
  simp only at h1 h2 h3
  have hw := wireType_lt v
  unfold field encodeField
  rw [List.append_assoc, varint64_encode _ (by simp only; omega)]
  simp only [Option.bind_some]
  have hd : (n * 8 + wireType v) / 8 = n := by omega
  have hm : (n * 8 + wireType v) % 8 = wireType v := by omega
  rw [hd, hm, if_neg (by omega)]
  cases v with
  | varint x => simp only [wireType, value]; rw [varint64_encode _ h3]; rfl
  | fixed64 b => simp only [wireType, value]; rw [← h3, takeExactly_append]; rfl
  | len b =>
    simp only [wireType, value]
    rw [List.append_assoc, varint64_encode _ h3]
    simp only [Option.bind_some]
    rw [takeExactly_append]; rfl
  | fixed32 b => simp only [wireType, value]; rw [← h3, takeExactly_append]; rfl

theorem encodeField_ne (f : Nat × Val) : encodeField f ≠ [] := by
  unfold encodeField
  intro h
  exact encodeVarint_ne _ (List.append_eq_nil_iff.1 h).1

theorem fieldsUpTo_cons (k : Nat) (f : Nat × Val) (r : Bytes) (h : OkField f) :
    fieldsUpTo (k + 1) (encodeField f ++ r) = (fieldsUpTo k r).map (fun fs => f :: fs) := by
  obtain ⟨b, rest, hb⟩ := List.exists_cons_of_ne_nil (show encodeField f ++ r ≠ [] by simp [encodeField_ne])
  rw [hb, fieldsUpTo, ← hb, field_encode _ _ h]
  · rfl
  · simp

/-- Fuel beyond the length changes nothing. -/
theorem fieldsUpTo_enough (fs : Fields) (h : ∀ f ∈ fs, OkField f) (k : Nat) (hk : (encodeFields fs).length ≤ k) :
    fieldsUpTo k (encodeFields fs) = some fs := by
  induction fs generalizing k with
  | nil => simp [encodeFields, fieldsUpTo]
  | cons f fs ih =>
    have he : encodeFields (f :: fs) = encodeField f ++ encodeFields fs := by simp [encodeFields]
    rw [he] at hk ⊢
    have := List.length_pos_iff.2 (encodeField_ne f)
    simp only [List.length_append] at hk
    obtain ⟨k, rfl⟩ : ∃ k', k = k' + 1 := ⟨k - 1, by omega⟩
    rw [fieldsUpTo_cons _ _ _ (h f (by simp)), ih (fun x hx => h x (by simp [hx])) k (by omega)]
    rfl

theorem fields_encode (fs : Fields) (h : ∀ f ∈ fs, OkField f) : fields (encodeFields fs) = some fs :=
  fieldsUpTo_enough fs h _ (Nat.le_refl _)

/-- A field cut short is not a field. -/
theorem field_cut (f : Nat × Val) (p s : Bytes) (h : OkField f) (he : encodeField f = p ++ s) (hs : s ≠ []) : field p = none := by
  obtain ⟨n, v⟩ := f
  obtain ⟨h1, h2, h3⟩ := h
  simp only at h1 h2 h3
  have hw := wireType_lt v
  unfold encodeField at he
  rcases List.append_eq_append_iff.1 he with ⟨a, ha, hb⟩ | ⟨a, ha, hb⟩
  · -- the tag is complete
    simp only at ha hb
    unfold field
    rw [ha, varint64_encode _ (by omega)]
    simp only [Option.bind_some]
    have hd : (n * 8 + wireType v) / 8 = n := by omega
    have hm : (n * 8 + wireType v) % 8 = wireType v := by omega
    rw [hd, hm, if_neg (by omega)]
    have hval : value (wireType v) a = none := by
      cases v with
      | varint x =>
        simp only [wireType, value]
        rw [varint64_cut x a s hb hs]; rfl
      | fixed64 b =>
        simp only [wireType, value, takeExactly]
        have := List.length_pos_iff.2 hs
        simp only at hb h3
        have : b.length = a.length + s.length := by rw [hb]; simp
        rw [if_neg (by omega)]; rfl
      | fixed32 b =>
        simp only [wireType, value, takeExactly]
        have := List.length_pos_iff.2 hs
        simp only at hb h3
        have : b.length = a.length + s.length := by rw [hb]; simp
        rw [if_neg (by omega)]; rfl
      | len b =>
        simp only [wireType, value]
        simp only at hb
        rcases List.append_eq_append_iff.1 hb with ⟨c, hc, hd⟩ | ⟨c, hc, hd⟩
        · rw [hc, varint64_encode _ h3]
          simp only [Option.bind_some, takeExactly]
          have := List.length_pos_iff.2 hs
          have : b.length = c.length + s.length := by rw [hd]; simp
          rw [if_neg (by omega)]; rfl
        · by_cases hcn : c = []
          · subst hcn
            simp only [List.append_nil] at hc
            rw [← hc]
            have := varint64_encode [] h3
            rw [List.append_nil] at this
            rw [this]
            simp only [Option.bind_some, takeExactly]
            simp only [List.nil_append] at hd
            have := List.length_pos_iff.2 hs
            rw [hd] at this
            simp only [List.length_nil]
            rw [if_neg (by omega)]; rfl
          · rw [varint64_cut _ _ _ hc hcn]; rfl
    rw [hval]; rfl
  · by_cases han : a = []
    · subst han
      simp only [List.append_nil, List.nil_append] at ha hb
      unfold field
      have := varint64_encode (n := n * 8 + wireType v) [] (by omega)
      rw [List.append_nil] at this
      rw [← ha, this]
      simp only [Option.bind_some]
      have hd : (n * 8 + wireType v) / 8 = n := by omega
      have hm : (n * 8 + wireType v) % 8 = wireType v := by omega
      rw [hd, hm, if_neg (by omega)]
      have hval : value (wireType v) [] = none := by
        cases v <;> rfl
      rw [hval]; rfl
    · unfold field
      rw [varint64_cut _ _ _ ha han]; rfl

theorem fieldsUpTo_cut (fs : Fields) (h : ∀ f ∈ fs, OkField f) (f : Nat × Val) (hf : OkField f) (p s : Bytes)
    (he : encodeField f = p ++ s) (hp : p ≠ []) (hs : s ≠ []) (k : Nat) : fieldsUpTo k (encodeFields fs ++ p) = none := by
  induction fs generalizing k with
  | nil =>
    obtain ⟨b, p', rfl⟩ := List.exists_cons_of_ne_nil hp
    cases k with
    | zero => rfl
    | succ k =>
      simp only [encodeFields, List.flatMap_nil, List.nil_append]
      rw [fieldsUpTo, field_cut f _ s hf he hs]
      · rfl
      · simp
  | cons g fs ih =>
    have e : encodeFields (g :: fs) ++ p = encodeField g ++ (encodeFields fs ++ p) := by simp [encodeFields]
    rw [e]
    cases k with
    | zero =>
      obtain ⟨b, rest, hb⟩ := List.exists_cons_of_ne_nil (show encodeField g ++ (encodeFields fs ++ p) ≠ [] by simp [encodeField_ne])
      rw [hb]; rfl
    | succ k => rw [fieldsUpTo_cons _ _ _ (h g (by simp)), ih (fun x hx => h x (by simp [hx]))]; rfl

/-! ## Getters on the builders -/

theorem lens_append (n : Nat) (a b : Fields) : lens n (a ++ b) = lens n a ++ lens n b := by simp [lens]
theorem varints_append (n : Nat) (a b : Fields) : varints n (a ++ b) = varints n a ++ varints n b := by simp [varints]

theorem getInts_append (n : Nat) (a b : Fields) :
    getInts n (a ++ b) = (getInts n a).bind (fun x => (getInts n b).map (fun y => x ++ y)) := by
  induction a with
  | nil => simp only [List.nil_append, getInts, Option.bind_some]; cases getInts n b <;> rfl
  | cons f a ih =>
    obtain ⟨k, v⟩ := f
    simp only [List.cons_append, getInts]
    split
    · cases v with
      | varint x => simp only [ih]; cases getInts n a <;> simp; cases getInts n b <;> simp
      | len x =>
        simp only [ih]
        cases unpack x with
        | none => rfl
        | some is => cases getInts n a <;> simp; cases getInts n b <;> simp
      | fixed64 => exact ih
      | fixed32 => exact ih
    · exact ih

theorem lens_fInt (n k : Nat) (i : Int32) : lens n (fInt k i) = [] := by unfold fInt; split <;> simp [lens]
theorem lens_fBool (n k : Nat) (b : Bool) : lens n (fBool k b) = [] := by unfold fBool; split <;> simp [lens]
theorem lens_fStr (n k : Nat) (s : Bytes) : lens n (fStr k s) = if k = n ∧ s ≠ [] then [s] else [] := by
  unfold fStr; by_cases hs : s = [] <;> by_cases hk : k = n <;> simp [lens, hs, hk]
theorem lens_fStrs (n k : Nat) (ss : List Bytes) : lens n (fStrs k ss) = if k = n then ss else [] := by
  unfold fStrs lens
  rw [List.filterMap_map]
  split
  · rename_i h; subst h; simp [Function.comp_def]
  · rename_i h; simp [Function.comp_def, h]
theorem lens_fInts (n k : Nat) (is : List Int32) (h : k ≠ n) : lens n (fInts k is) = [] := by
  unfold fInts; split <;> simp [lens, h]
theorem lens_fMsgs {α : Type} (n k : Nat) (fields : α → Fields) (xs : List α) :
    lens n (fMsgs k fields xs) = if k = n then xs.map (fun x => encodeFields (fields x)) else [] := by
  unfold fMsgs lens
  rw [List.filterMap_map]
  split
  · rename_i h; subst h; simp only [Function.comp_def, if_true]; exact (List.filterMap_eq_map (f := fun x => encodeFields (fields x)) ▸ rfl)
  · rename_i h; simp [Function.comp_def, h]

theorem varints_fInt (n k : Nat) (i : Int32) : varints n (fInt k i) = if k = n ∧ i ≠ 0 then [int32Bits i] else [] := by
  unfold fInt; by_cases hs : i = 0 <;> by_cases hk : k = n <;> simp [varints, hs, hk]
theorem varints_fBool (n k : Nat) (b : Bool) : varints n (fBool k b) = if k = n ∧ b = true then [1] else [] := by
  unfold fBool; by_cases hs : b = true <;> by_cases hk : k = n <;> simp [varints, hs, hk]
theorem varints_fStr (n k : Nat) (s : Bytes) : varints n (fStr k s) = [] := by unfold fStr; split <;> simp [varints]
theorem varints_fStrs (n k : Nat) (ss : List Bytes) : varints n (fStrs k ss) = [] := by simp [fStrs, varints]
theorem varints_fInts (n k : Nat) (is : List Int32) : varints n (fInts k is) = [] := by unfold fInts; split <;> simp [varints]
theorem varints_fMsgs {α : Type} (n k : Nat) (fields : α → Fields) (xs : List α) : varints n (fMsgs k fields xs) = [] := by
  simp [fMsgs, varints]

theorem int32_bits (i : Int32) : int32 (int32Bits i) = i := by
  unfold int32 int32Bits
  apply Int32.toInt_inj.1
  rw [Int32.toInt_ofNat']
  have h1 := i.minValue_le_toInt
  have h2 := i.toInt_le
  have e1 : Int32.minValue.toInt = -2147483648 := by decide
  have e2 : Int32.maxValue.toInt = 2147483647 := by decide
  have e3 : (Int32.size : Int) = 4294967296 := by decide
  rw [e1] at h1
  rw [e2] at h2
  rw [Int.toNat_of_nonneg (Int.emod_nonneg _ (by decide))]
  simp only [Int.bmod]
  split <;> simp only [e3] at * <;> omega

theorem int32Bits_lt (i : Int32) : int32Bits i < 2 ^ 64 := by
  unfold int32Bits; omega

theorem unpackUpTo_encode (is : List Int32) (k : Nat) (hk : (is.flatMap (fun i => encodeVarint (int32Bits i))).length ≤ k) :
    unpackUpTo k (is.flatMap (fun i => encodeVarint (int32Bits i))) = some is := by
  induction is generalizing k with
  | nil => simp [unpackUpTo]
  | cons i is ih =>
    simp only [List.flatMap_cons] at hk ⊢
    have := List.length_pos_iff.2 (encodeVarint_ne (int32Bits i))
    simp only [List.length_append] at hk
    obtain ⟨k, rfl⟩ : ∃ k', k = k' + 1 := ⟨k - 1, by omega⟩
    obtain ⟨b, rest, hb⟩ := List.exists_cons_of_ne_nil
      (show encodeVarint (int32Bits i) ++ is.flatMap (fun i => encodeVarint (int32Bits i)) ≠ [] by simp [encodeVarint_ne])
    rw [hb, unpackUpTo, ← hb, varint64_encode _ (int32Bits_lt i)]
    · simp only [Option.bind_some]
      rw [ih k (by omega), int32_bits]; rfl
    · simp

theorem unpack_encode (is : List Int32) : unpack (is.flatMap (fun i => encodeVarint (int32Bits i))) = some is :=
  unpackUpTo_encode is _ (Nat.le_refl _)

theorem getInts_fInts (n k : Nat) (is : List Int32) : getInts n (fInts k is) = some (if k = n then is else []) := by
  unfold fInts
  split
  · rename_i h; subst h; simp [getInts]
  · simp only [getInts]
    split
    · rw [unpack_encode]; simp
    · rfl

theorem getInts_ne {n : Nat} {fs : Fields} (h : ∀ f ∈ fs, f.1 ≠ n) : getInts n fs = some [] := by
  induction fs with
  | nil => rfl
  | cons f fs ih =>
    obtain ⟨k, v⟩ := f
    simp only [getInts]
    rw [if_neg (h (k, v) (by simp))]
    exact ih (fun f hf => h f (by simp [hf]))

/-- The number of every field of a builder. -/
theorem num_fInt {k : Nat} {i : Int32} {f : Nat × Val} (h : f ∈ fInt k i) : f.1 = k := by unfold fInt at h; split at h <;> simp_all
theorem num_fBool {k : Nat} {i : Bool} {f : Nat × Val} (h : f ∈ fBool k i) : f.1 = k := by unfold fBool at h; split at h <;> simp_all
theorem num_fStr {k : Nat} {i : Bytes} {f : Nat × Val} (h : f ∈ fStr k i) : f.1 = k := by unfold fStr at h; split at h <;> simp_all
theorem num_fStrs {k : Nat} {i : List Bytes} {f : Nat × Val} (h : f ∈ fStrs k i) : f.1 = k := by
  unfold fStrs at h; obtain ⟨_, _, rfl⟩ := List.mem_map.1 h; rfl
theorem num_fInts {k : Nat} {i : List Int32} {f : Nat × Val} (h : f ∈ fInts k i) : f.1 = k := by unfold fInts at h; split at h <;> simp_all
theorem num_fMsgs {α : Type} {k : Nat} {fields : α → Fields} {i : List α} {f : Nat × Val} (h : f ∈ fMsgs k fields i) : f.1 = k := by
  unfold fMsgs at h; obtain ⟨_, _, rfl⟩ := List.mem_map.1 h; rfl

theorem getInts_fInt (n k : Nat) (i : Int32) (h : k ≠ n) : getInts n (fInt k i) = some [] :=
  getInts_ne (fun _ hf => by rw [num_fInt hf]; exact h)
theorem getInts_fStr (n k : Nat) (i : Bytes) (h : k ≠ n) : getInts n (fStr k i) = some [] :=
  getInts_ne (fun _ hf => by rw [num_fStr hf]; exact h)
theorem getInts_fStrs (n k : Nat) (i : List Bytes) (h : k ≠ n) : getInts n (fStrs k i) = some [] :=
  getInts_ne (fun _ hf => by rw [num_fStrs hf]; exact h)
theorem getInts_fMsgs {α : Type} (n k : Nat) (fields : α → Fields) (i : List α) (h : k ≠ n) : getInts n (fMsgs k fields i) = some [] :=
  getInts_ne (fun _ hf => by rw [num_fMsgs hf]; exact h)

/-! ## Sizes -/

theorem length_encodeField_len (n : Nat) (b : Bytes) : b.length ≤ (encodeField (n, .len b)).length := by
  simp only [encodeField, List.length_append]; omega

theorem length_le_encodeFields {fs : Fields} {f : Nat × Val} (h : f ∈ fs) : (encodeField f).length ≤ (encodeFields fs).length := by
  obtain ⟨a, b, rfl⟩ := List.append_of_mem h
  simp [encodeFields]; omega

/-- A short message has only fields that fit. -/
theorem ok_of_short {fs : Fields} (hs : (encodeFields fs).length < 2 ^ 64) (hn : ∀ f ∈ fs, 0 < f.1 ∧ f.1 < 2 ^ 29)
    (hv : ∀ f ∈ fs, match f.2 with | .varint n => n < 2 ^ 64 | .len _ => True | _ => False) : ∀ f ∈ fs, OkField f := by
  intro f hf
  obtain ⟨h1, h2⟩ := hn f hf
  refine ⟨h1, h2, ?_⟩
  have h3 := hv f hf
  obtain ⟨n, v⟩ := f
  cases v with
  | varint x => exact h3
  | fixed64 => exact h3.elim
  | fixed32 => exact h3.elim
  | len b => exact Nat.lt_of_le_of_lt (Nat.le_trans (length_encodeField_len n b) (length_le_encodeFields hf)) hs

end Verif.Pb
