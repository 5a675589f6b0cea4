import Verif.Model.Encoding
import Mathlib.Tactic.Ring
import Mathlib.Tactic.Conv
/-!
# Properties of the encodings
-/
namespace D1

attribute [-simp] UInt8.ofNat_add UInt8.ofNat_mul UInt8.ofNat_sub

theorem ofNat_toNat (a : UInt8) (n : Nat) (h : n = a.toNat) : UInt8.ofNat n = a := by
  subst h; exact UInt8.ofNat_toNat

theorem toNat_ofNat_lt {n : Nat} (h : n < 256) : (UInt8.ofNat n).toNat = n := by
  rw [UInt8.toNat_ofNat']; exact Nat.mod_eq_of_lt h

theorem toNat_lt (a : UInt8) : a.toNat < 256 := a.toNat_lt

/-! ## Base 64 -/

theorem b64Val_char (url : Bool) : ∀ n, n < 64 → b64Val url (b64Char url n) = some n := by
  cases url <;> decide

/-- The alphabet contains neither line breaks, nor the padding character, nor anything JSON escapes. -/
theorem b64Char_plain (url : Bool) : ∀ n, n < 64 →
    b64Char url n ≠ 10 ∧ b64Char url n ≠ 13 ∧ b64Char url n ≠ 61 := by
  cases url <;> decide

theorem b64DecAux_enc (url : Bool) (b : Bytes) : b64DecAux url (b64Enc url b) = some b := by
  match b with
  | [] => rfl
  | [a] =>
    have ha := toNat_lt a
    have e1 := b64Val_char url (a.toNat / 4) (by omega)
    have e2 := b64Val_char url (a.toNat % 4 * 16) (by omega)
    cases url <;> simp [b64Enc, b64DecAux, e1, e2] <;> exact ofNat_toNat _ _ (by omega)
  | [a, b] =>
    have ha := toNat_lt a; have hb := toNat_lt b
    have e1 := b64Val_char url (a.toNat / 4) (by omega)
    have e2 := b64Val_char url (a.toNat % 4 * 16 + b.toNat / 16) (by omega)
    have e3 := b64Val_char url (b.toNat % 16 * 4) (by omega)
    have p3 := b64Char_plain url (b.toNat % 16 * 4) (by omega)
    cases url <;> simp [b64Enc, b64DecAux, e1, e2, e3, p3] <;>
      exact ⟨ofNat_toNat _ _ (by omega), ofNat_toNat _ _ (by omega)⟩
  | a :: b :: c :: r =>
    have ha := toNat_lt a; have hb := toNat_lt b; have hc := toNat_lt c
    have e1 := b64Val_char url (a.toNat / 4) (by omega)
    have e2 := b64Val_char url (a.toNat % 4 * 16 + b.toNat / 16) (by omega)
    have e3 := b64Val_char url (b.toNat % 16 * 4 + c.toNat / 64) (by omega)
    have e4 := b64Val_char url (c.toNat % 64) (by omega)
    have p3 := b64Char_plain url (b.toNat % 16 * 4 + c.toNat / 64) (by omega)
    have p4 := b64Char_plain url (c.toNat % 64) (by omega)
    have ih := b64DecAux_enc url r
    simp [b64Enc, b64DecAux, e1, e2, e3, e4, p3, p4, ih]
    exact ⟨ofNat_toNat _ _ (by omega), ofNat_toNat _ _ (by omega), ofNat_toNat _ _ (by omega)⟩

/-- Every character of an encoding is in the alphabet or is padding. -/
theorem b64Enc_mem (url : Bool) (b : Bytes) : ∀ x ∈ b64Enc url b, (∃ n, n < 64 ∧ x = b64Char url n) ∨ x = 61 := by
  match b with
  | [] => simp [b64Enc]
  | [a] =>
    have ha := toNat_lt a
    intro x hx
    cases url <;> simp [b64Enc] at hx
    · rcases hx with h | h | h
      · left; exact ⟨_, by omega, h⟩
      · left; exact ⟨_, by omega, h⟩
      · right; exact h
    · rcases hx with h | h
      · left; exact ⟨_, by omega, h⟩
      · left; exact ⟨_, by omega, h⟩
  | [a, b] =>
    have ha := toNat_lt a; have hb := toNat_lt b
    intro x hx
    cases url <;> simp [b64Enc] at hx
    · rcases hx with h | h | h | h
      · left; exact ⟨_, by omega, h⟩
      · left; exact ⟨_, by omega, h⟩
      · left; exact ⟨_, by omega, h⟩
      · right; exact h
    · rcases hx with h | h | h
      · left; exact ⟨_, by omega, h⟩
      · left; exact ⟨_, by omega, h⟩
      · left; exact ⟨_, by omega, h⟩
  | a :: b :: c :: r =>
    have ha := toNat_lt a; have hb := toNat_lt b; have hc := toNat_lt c
    have ih := b64Enc_mem url r
    intro x hx
    simp [b64Enc] at hx
    rcases hx with h | h | h | h | h
    · left; exact ⟨_, by omega, h⟩
    · left; exact ⟨_, by omega, h⟩
    · left; exact ⟨_, by omega, h⟩
    · left; exact ⟨_, by omega, h⟩
    · exact ih x h

theorem b64Enc_filter (url : Bool) (b : Bytes) : (b64Enc url b).filter (fun c => c ≠ 10 ∧ c ≠ 13) = b64Enc url b := by
  rw [List.filter_eq_self]
  intro x hx
  rcases b64Enc_mem url b x hx with ⟨n, hn, rfl⟩ | rfl
  · have := b64Char_plain url n hn; simp [this.1, this.2.1]
  · decide

theorem b64Dec_enc (url : Bool) (b : Bytes) : b64Dec url (b64Enc url b) = some b := by
  rw [b64Dec, b64Enc_filter, b64DecAux_enc]

theorem b64Enc_inj (url : Bool) {a b : Bytes} (h : b64Enc url a = b64Enc url b) : a = b := by
  have := b64Dec_enc url a
  rw [h, b64Dec_enc] at this
  exact (Option.some.inj this).symm

/-- Length of padded base64. -/
theorem b64Enc_length_std (b : Bytes) : (b64Enc false b).length = 4 * ((b.length + 2) / 3) := by
  match b with
  | [] => rfl
  | [a] => simp [b64Enc]
  | [a, b] => simp [b64Enc]
  | a :: b :: c :: r =>
    have := b64Enc_length_std r
    simp [b64Enc, this]
    omega

/-! ## Big-endian integers -/

theorem be32Val_be32 (n : Nat) (h : n < 2 ^ 32) (r : Bytes) : be32Val (be32 n ++ r) = n := by
  simp [be32Val, be32]
  omega

@[simp] theorem be32_length (n : Nat) : (be32 n).length = 4 := rfl
@[simp] theorem be64_length (n : Nat) : (be64 n).length = 8 := rfl

/-! ## uvarint -/

theorem uvarintAux_inj (f : Nat) : ∀ x y r s, x < 2 ^ (7 * (f + 1)) → y < 2 ^ (7 * (f + 1)) →
    uvarintAux f x ++ r = uvarintAux f y ++ s → x = y ∧ r = s := by
  induction f with
  | zero =>
    intro x y r s hx hy h
    simp [uvarintAux] at h
    obtain ⟨h, rfl⟩ := h
    have := congrArg UInt8.toNat h
    rw [toNat_ofNat_lt (by omega), toNat_ofNat_lt (by omega)] at this
    exact ⟨this, rfl⟩
  | succ f ih =>
    intro x y r s hx hy h
    have h7 : 2 ^ (7 * (f + 1 + 1)) = 2 ^ (7 * (f + 1)) * 128 := by
      rw [show 7 * (f + 1 + 1) = 7 * (f + 1) + 7 by ring, Nat.pow_add]
    simp only [uvarintAux] at h
    split at h <;> split at h <;> simp at h
    · obtain ⟨h, rfl⟩ := h
      have := congrArg UInt8.toNat h
      rw [toNat_ofNat_lt (by omega), toNat_ofNat_lt (by omega)] at this
      exact ⟨this, rfl⟩
    · have := congrArg UInt8.toNat h.1
      rw [toNat_ofNat_lt (by omega), toNat_ofNat_lt (by omega)] at this
      omega
    · have := congrArg UInt8.toNat h.1
      rw [toNat_ofNat_lt (by omega), toNat_ofNat_lt (by omega)] at this
      omega
    · have e := congrArg UInt8.toNat h.1
      rw [toNat_ofNat_lt (by omega), toNat_ofNat_lt (by omega)] at e
      obtain ⟨e2, rfl⟩ := ih (x / 128) (y / 128) r s (by omega) (by omega) h.2
      exact ⟨by omega, rfl⟩

theorem uvarint_inj {x y : Nat} (hx : x < 2 ^ 64) (hy : y < 2 ^ 64) (h : uvarint x = uvarint y) : x = y :=
  (uvarintAux_inj 9 x y [] [] (by omega) (by omega) (by simpa [uvarint] using h)).1

theorem uvarintAux_length (f x : Nat) : (uvarintAux f x).length ≤ f + 1 ∧ 0 < (uvarintAux f x).length := by
  induction f generalizing x with
  | zero => simp [uvarintAux]
  | succ f ih =>
    simp only [uvarintAux]; split
    · simp
    · have := ih (x / 128); simp; omega

/-! ## Hexadecimal and decimal -/

theorem hexDigit_inj : ∀ a, a < 16 → ∀ b, b < 16 → hexDigit a = hexDigit b → a = b := by decide

theorem hexDigit_mem : ∀ a, a < 16 → hexDigit a ≠ 58 ∧ hexDigit a ≠ 45 := by decide

theorem hexEnc_inj : ∀ {a b : Bytes}, hexEnc a = hexEnc b → a = b
  | [], [], _ => rfl
  | [], _ :: _, h => by simp [hexEnc] at h
  | _ :: _, [], h => by simp [hexEnc] at h
  | x :: a, y :: b, h => by
    simp [hexEnc] at h
    have hx := toNat_lt x; have hy := toNat_lt y
    have e1 := hexDigit_inj _ (by omega) _ (by omega) h.1
    have e2 := hexDigit_inj _ (by omega) _ (by omega) h.2.1
    have : x = y := UInt8.toNat_inj.mp (by omega)
    rw [this, hexEnc_inj h.2.2]

theorem hexEnc_not_colon (a : Bytes) : (58 : UInt8) ∉ hexEnc a := by
  induction a with
  | nil => simp [hexEnc]
  | cons x a ih =>
    have hx := toNat_lt x
    have h1 := (hexDigit_mem (x.toNat / 16) (by omega)).1
    have h2 := (hexDigit_mem (x.toNat % 16) (by omega)).1
    simp only [hexEnc, List.mem_cons, not_or]
    exact ⟨h1.symm, h2.symm, ih⟩

@[simp] theorem hexEnc_length (a : Bytes) : (hexEnc a).length = 2 * a.length := by
  induction a with
  | nil => rfl
  | cons x a ih => simp [hexEnc, ih]; omega

/-- Value of a string of decimal digits. -/
def decVal (b : Bytes) : Nat := b.foldl (fun v d => v * 10 + (d.toNat - 48)) 0

theorem decVal_append (b : Bytes) (d : UInt8) : decVal (b ++ [d]) = decVal b * 10 + (d.toNat - 48) := by
  simp [decVal]

theorem decVal_decAux (f n : Nat) (h : n ≤ f) : decVal (decAux f n) = n := by
  induction f generalizing n with
  | zero =>
    have : n = 0 := by omega
    subst this; rfl
  | succ f ih =>
    simp only [decAux]
    split
    · simp only [decVal, List.foldl]; rw [toNat_ofNat_lt (by omega)]; omega
    · rw [decVal_append, ih _ (by omega), toNat_ofNat_lt (by omega)]; omega

theorem decVal_decEnc (n : Nat) : decVal (decEnc n) = n := decVal_decAux n n (Nat.le_refl n)

theorem decEnc_inj {a b : Nat} (h : decEnc a = decEnc b) : a = b := by
  rw [← decVal_decEnc a, h, decVal_decEnc]

theorem decAux_digit (f n : Nat) : ∀ d ∈ decAux f n, 48 ≤ d.toNat ∧ d.toNat ≤ 57 := by
  induction f generalizing n with
  | zero => intro d hd; simp only [decAux, List.mem_singleton] at hd; subst hd; rw [toNat_ofNat_lt (by omega)]; omega
  | succ f ih =>
    intro d hd
    simp only [decAux] at hd
    split at hd
    · simp only [List.mem_singleton] at hd; subst hd; rw [toNat_ofNat_lt (by omega)]; omega
    · simp only [List.mem_append, List.mem_singleton] at hd
      rcases hd with hd | hd
      · exact ih _ d hd
      · subst hd; rw [toNat_ofNat_lt (by omega)]; omega

theorem decEnc_digit (n : Nat) : ∀ d ∈ decEnc n, 48 ≤ d.toNat ∧ d.toNat ≤ 57 := decAux_digit n n

theorem decAux_ne_nil (f n : Nat) : decAux f n ≠ [] := by
  cases f <;> simp [decAux]; split <;> simp

theorem decEnc_ne_nil (n : Nat) : decEnc n ≠ [] := decAux_ne_nil n n

/-! ## UTF-8 -/

/-- Reading a rune looks only at the bytes of the rune. -/
theorem runeLen_le (b : UInt8) (r : Bytes) : runeLen b r ≤ (b :: r).length := by
  simp only [runeLen]
  split
  · simp
  split
  · split
    · split <;> simp
    · simp
  split
  · split
    · split <;> simp
    · simp
  split
  · split
    · split <;> simp
    · simp
  · simp

theorem runeLen_append (b : UInt8) (r x : Bytes) (h : runeLen b r ≠ 0) : runeLen b (r ++ x) = runeLen b r := by
  revert h
  simp only [runeLen]
  split
  · simp
  split
  · match r with
    | [] => simp
    | b1 :: _ => simp
  split
  · match r with
    | [] => simp
    | [_] => simp
    | b1 :: b2 :: _ => simp
  split
  · match r with
    | [] => simp
    | [_] => simp
    | [_, _] => simp
    | b1 :: b2 :: b3 :: _ => simp
  · simp

/-- The rune read does not depend on what follows it. -/
theorem runeLen_take (b : UInt8) (r : Bytes) (h : runeLen b r ≠ 0) :
    runeLen b (r.take (runeLen b r - 1)) = runeLen b r := by
  revert h
  simp only [runeLen]
  split
  · simp
  split
  · match r with
    | [] => simp
    | b1 :: _ => simp only; split <;> simp_all
  split
  · match r with
    | [] => simp
    | [_] => simp
    | b1 :: b2 :: _ => simp only; split <;> simp_all
  split
  · match r with
    | [] => simp
    | [_] => simp
    | [_, _] => simp
    | b1 :: b2 :: b3 :: _ => simp only; split <;> simp_all
  · simp

/-- Enough fuel is enough. -/
theorem chunksAux_fuel (f g : Nat) (s : Bytes) (hf : s.length ≤ f) (hg : s.length ≤ g) :
    chunksAux f s = chunksAux g s := by
  induction f generalizing g s with
  | zero =>
    have : s = [] := List.length_eq_zero_iff.mp (by omega)
    subst this; cases g <;> rfl
  | succ f ih =>
    cases s with
    | nil => cases g <;> rfl
    | cons b r =>
      cases g with
      | zero => simp at hg
      | succ g =>
        simp only [chunksAux]
        simp at hf hg
        split
        · rw [ih g r hf hg]
        · rename_i h
          have := runeLen_le b r
          rw [ih g _ (by simp; omega) (by simp; omega)]

theorem chunks_nil : chunks [] = [] := rfl

theorem chunks_cons (b : UInt8) (r : Bytes) : chunks (b :: r) =
    if runeLen b r = 0 then .bad b :: chunks r
    else .valid ((b :: r).take (runeLen b r)) :: chunks ((b :: r).drop (runeLen b r)) := by
  simp only [chunks, List.length_cons, chunksAux]
  split
  · rfl
  · have := runeLen_le b r
    rw [chunksAux_fuel r.length _ _ (by simp; omega) (Nat.le_refl _)]

/-- A well-formed UTF-8 sequence of one rune. -/
def IsRune (bs : Bytes) : Prop := ∃ b r, bs = b :: r ∧ runeLen b r = bs.length

theorem chunks_rune (bs s : Bytes) (h : IsRune bs) : chunks (bs ++ s) = .valid bs :: chunks s := by
  obtain ⟨b, r, rfl, hl⟩ := h
  have h0 : runeLen b r ≠ 0 := by rw [hl]; simp
  have he := runeLen_append b r s h0
  rw [List.cons_append, chunks_cons, if_neg (by rw [he]; exact h0), he, hl]
  simp

/-- Every chunk is a rune or a bad byte. -/
theorem chunks_isRune (s : Bytes) : ∀ c ∈ chunks s, ∀ bs, c = .valid bs → IsRune bs := by
  induction hn : s.length using Nat.strongRecOn generalizing s with
  | ind n ih =>
    cases s with
    | nil => simp [chunks_nil]
    | cons b r =>
      rw [chunks_cons]
      split
      · intro c hc bs e
        simp at hc
        rcases hc with rfl | hc
        · simp at e
        · exact ih r.length (by simp at hn; omega) r rfl c hc bs e
      · rename_i h0
        have hle := runeLen_le b r
        intro c hc bs e
        simp only [List.mem_cons] at hc
        rcases hc with rfl | hc
        · simp only [Chunk.valid.injEq] at e
          subst e
          obtain ⟨k, hk⟩ : ∃ k, runeLen b r = k + 1 := ⟨runeLen b r - 1, by omega⟩
          refine ⟨b, r.take k, by rw [hk]; rfl, ?_⟩
          have := runeLen_take b r h0
          rw [hk] at this hle
          simp only [Nat.add_sub_cancel] at this
          rw [this, hk]
          simp at hle ⊢
          omega
        · exact ih _ (by simp at hn ⊢; omega) _ rfl c hc bs e

theorem isRune_replacement : IsRune [0xEF, 0xBF, 0xBD] := ⟨0xEF, [0xBF, 0xBD], rfl, by decide⟩

theorem chunks_flatMap_san (cs : List Chunk) (h : ∀ c ∈ cs, ∀ bs, c = .valid bs → IsRune bs) :
    chunks (cs.flatMap Chunk.san) = cs.map (fun c => .valid c.san) := by
  induction cs with
  | nil => rfl
  | cons c cs ih =>
    rw [List.flatMap_cons, chunks_rune, ih (fun c' hc => h c' (List.mem_cons_of_mem _ hc)), List.map_cons]
    cases c with
    | valid bs => exact h _ (List.mem_cons_self) bs rfl
    | bad b => exact isRune_replacement

theorem chunks_sanitize (s : Bytes) : chunks (sanitize s) = (chunks s).map (fun c => .valid c.san) :=
  chunks_flatMap_san _ (chunks_isRune s)

theorem sanitize_idem (s : Bytes) : sanitize (sanitize s) = sanitize s := by
  conv_lhs => rw [sanitize, chunks_sanitize]
  rw [sanitize, List.flatMap_map]
  rfl

theorem sanitize_valid_output (s : Bytes) : validUtf8 (sanitize s) = true := by
  simp [validUtf8, chunks_sanitize]

/-- The chunks of a string make up the string. -/
theorem chunks_flatten (s : Bytes) : (chunks s).flatMap (fun c => match c with | .valid bs => bs | .bad b => [b]) = s := by
  induction hn : s.length using Nat.strongRecOn generalizing s with
  | ind n ih =>
    cases s with
    | nil => rfl
    | cons b r =>
      rw [chunks_cons]
      split
      · simp [ih r.length (by simp at hn; omega) r rfl]
      · have hle := runeLen_le b r
        rw [List.flatMap_cons, ih _ (by simp at hn ⊢; omega) _ rfl, List.take_append_drop]

theorem sanitize_of_valid {s : Bytes} (h : validUtf8 s = true) : sanitize s = s := by
  conv_rhs => rw [← chunks_flatten s]
  rw [sanitize]
  simp only [validUtf8, List.all_eq_true] at h
  generalize chunks s = cs at h ⊢
  induction cs with
  | nil => rfl
  | cons c cs ih =>
    rw [List.flatMap_cons, List.flatMap_cons, ih (fun x hx => h x (List.mem_cons_of_mem _ hx))]
    cases c with
    | valid bs => rfl
    | bad b => have := h _ (List.mem_cons_self); simp at this

theorem sanitize_eq_iff (s : Bytes) : sanitize s = s ↔ validUtf8 s = true :=
  ⟨fun h => by rw [← h]; exact sanitize_valid_output s, sanitize_of_valid⟩

/-- ASCII strings are valid UTF-8. -/
theorem validUtf8_ascii (s : Bytes) (h : ∀ b ∈ s, b.toNat < 128) : validUtf8 s = true := by
  induction s with
  | nil => rfl
  | cons b r ih =>
    have hb := h b (List.mem_cons_self)
    have hr : runeLen b r = 1 := by simp [runeLen, hb]
    have := ih (fun x hx => h x (List.mem_cons_of_mem _ hx))
    simp only [validUtf8, chunks_cons, hr]
    simpa [validUtf8] using this

end D1
