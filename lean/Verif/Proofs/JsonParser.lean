import Verif.Model.Json
import Verif.Proofs.Data
/-!
# A JSON reader that satisfies the assumption made about `json.Unmarshal`

`Prims.unmarshal` is a parameter of the model.  This file defines a reader for the subset of JSON in use and proves
that it returns the sanitized value for every text the model writes, so the assumption is satisfiable.
-/
namespace D1
attribute [-simp] UInt8.ofNat_add UInt8.ofNat_mul UInt8.ofNat_sub

/-- Value of a hexadecimal digit. -/
def hexVal (c : UInt8) : Nat :=
  if 48 ≤ c.toNat ∧ c.toNat ≤ 57 then c.toNat - 48
  else if 97 ≤ c.toNat ∧ c.toNat ≤ 102 then c.toNat - 87
  else if 65 ≤ c.toNat ∧ c.toNat ≤ 70 then c.toNat - 55 else 0

/-- UTF-8 of a code point below 0x10000; surrogates become U+FFFD. -/
def utf8Bmp (n : Nat) : Bytes :=
  if n < 0x80 then [UInt8.ofNat n]
  else if n < 0x800 then [UInt8.ofNat (0xC0 + n / 64), UInt8.ofNat (0x80 + n % 64)]
  else if 0xD800 ≤ n ∧ n < 0xE000 then [0xEF, 0xBF, 0xBD]
  else [UInt8.ofNat (0xE0 + n / 4096), UInt8.ofNat (0x80 + n / 64 % 64), UInt8.ofNat (0x80 + n % 64)]

/-- Meaning of the one-letter escapes. -/
def escLetter (c : UInt8) : UInt8 :=
  if c = 110 then 10 else if c = 114 then 13 else if c = 116 then 9 else if c = 98 then 8 else if c = 102 then 12 else c

/-- Prepend to the string part. -/
def consStr (x : Bytes) : Option (Bytes × Bytes) → Option (Bytes × Bytes)
  | some (s, r) => some (x ++ s, r)
  | none => none

/-- Reads the rest of a string literal after its opening quote. -/
def unesc : Bytes → Option (Bytes × Bytes)
  | [] => none
  | b :: r =>
    if b = 34 then some ([], r)
    else if b = 92 then match r with
      | [] => none
      | c :: r' =>
        if c = 117 then match r' with
          | h1 :: h2 :: h3 :: h4 :: r'' =>
            consStr (utf8Bmp (((hexVal h1 * 16 + hexVal h2) * 16 + hexVal h3) * 16 + hexVal h4)) (unesc r'')
          | _ => none
        else consStr [escLetter c] (unesc r')
    else consStr [b] (unesc r)

theorem consStr_append (x y : Bytes) (o : Option (Bytes × Bytes)) : consStr x (consStr y o) = consStr (x ++ y) o := by
  cases o <;> simp [consStr]

/-- Escaping one ASCII byte and reading it back; checked for all 128 of them. -/
theorem escAscii_forms : ∀ n, n < 128 →
    (escAscii (UInt8.ofNat n) = [UInt8.ofNat n] ∧ UInt8.ofNat n ≠ 34 ∧ UInt8.ofNat n ≠ 92) ∨
    (∃ c, c < 128 ∧ escAscii (UInt8.ofNat n) = [92, UInt8.ofNat c] ∧ UInt8.ofNat c ≠ 117 ∧ escLetter (UInt8.ofNat c) = UInt8.ofNat n) ∨
    (escAscii (UInt8.ofNat n) = [92, 117, 48, 48, hexDigit (n / 16), hexDigit (n % 16)] ∧
      utf8Bmp (((hexVal 48 * 16 + hexVal 48) * 16 + hexVal (hexDigit (n / 16))) * 16 + hexVal (hexDigit (n % 16))) =
        [UInt8.ofNat n]) := by
  decide +kernel

theorem unesc_ascii (b : UInt8) (h : b.toNat < 128) (x : Bytes) : unesc (escAscii b ++ x) = consStr [b] (unesc x) := by
  have hf := escAscii_forms b.toNat h
  rw [UInt8.ofNat_toNat] at hf
  rcases hf with ⟨h1, h2, h3⟩ | ⟨c, _, h1, h2, h3⟩ | ⟨h1, h2⟩
  · rw [h1, List.cons_append, List.nil_append, unesc.eq_def]
    simp [h2, h3]
  · rw [h1, List.cons_append, List.cons_append, List.nil_append, unesc.eq_def]
    simp [h2, h3]
  · rw [h1]
    simp only [List.cons_append, List.nil_append]
    rw [unesc.eq_def]
    simp [h2]

theorem unesc_high (bs : Bytes) (h : ∀ b ∈ bs, 128 ≤ b.toNat) (x : Bytes) : unesc (bs ++ x) = consStr bs (unesc x) := by
  induction bs with
  | nil =>
    rw [List.nil_append]
    cases unesc x <;> simp [consStr]
  | cons b r ih =>
    have hb := h b (List.mem_cons_self)
    have h1 : b ≠ 34 := by intro e; subst e; simp at hb
    have h2 : b ≠ 92 := by intro e; subst e; simp at hb
    rw [List.cons_append, unesc.eq_def]
    simp only [h1, h2, if_false]
    rw [ih fun y hy => h y (List.mem_cons_of_mem _ hy), consStr_append]
    rfl

theorem contIn_high {b : UInt8} {lo hi : Nat} (h : contIn b lo hi = true) (hl : 128 ≤ lo) : 128 ≤ b.toNat := by
  simp [contIn] at h; omega

theorem accept2_high (n : Nat) : 128 ≤ (accept2 n).1 := by
  simp only [accept2]
  split; · simp
  split; · simp
  split; · simp
  split <;> simp

/-- The bytes of a multi-byte UTF-8 sequence are all at least 0x80. -/
theorem isRune_high (bs : Bytes) (h : IsRune bs) (h2 : bs.length ≠ 1) : ∀ b ∈ bs, 128 ≤ b.toNat := by
  obtain ⟨b, r, rfl, hl⟩ := h
  simp only [runeLen] at hl
  split at hl; · exact absurd hl.symm h2
  rename_i hb
  split at hl
  · rename_i h3
    match r with
    | [] => simp at hl
    | b1 :: r' =>
      simp only at hl
      split at hl
      · rename_i hc
        simp at hl; subst hl
        intro x hx
        simp only [List.mem_cons, List.not_mem_nil, or_false] at hx
        rcases hx with rfl | rfl
        · omega
        · exact contIn_high hc (by omega)
      · simp at hl
  split at hl
  · match r with
    | [] => simp at hl
    | [_] => simp at hl
    | b1 :: b2 :: r' =>
      simp only at hl
      split at hl
      · rename_i hc
        simp only [Bool.and_eq_true] at hc
        simp at hl; subst hl
        intro x hx
        simp only [List.mem_cons, List.not_mem_nil, or_false] at hx
        rcases hx with rfl | rfl | rfl
        · omega
        · exact contIn_high hc.1 (accept2_high _)
        · exact contIn_high hc.2 (by omega)
      · simp at hl
  split at hl
  · match r with
    | [] => simp at hl
    | [_] => simp at hl
    | [_, _] => simp at hl
    | b1 :: b2 :: b3 :: r' =>
      simp only at hl
      split at hl
      · rename_i hc
        simp only [Bool.and_eq_true] at hc
        simp at hl; subst hl
        intro x hx
        simp only [List.mem_cons, List.not_mem_nil, or_false] at hx
        rcases hx with rfl | rfl | rfl | rfl
        · omega
        · exact contIn_high hc.1.1 (accept2_high _)
        · exact contIn_high hc.1.2 (by omega)
        · exact contIn_high hc.2 (by omega)
      · simp at hl
  · simp at hl

theorem isRune_single (b : UInt8) (h : IsRune [b]) : b.toNat < 128 := by
  obtain ⟨b', r, he, hl⟩ := h
  simp at he
  obtain ⟨rfl, rfl⟩ := he
  simp only [runeLen] at hl
  split at hl
  · assumption
  · split at hl
    · simp at hl
    split at hl
    · simp at hl
    split at hl <;> simp at hl

theorem unesc_chunk (c : Chunk) (hc : ∀ bs, c = .valid bs → IsRune bs) (x : Bytes) :
    unesc (escChunk c ++ x) = consStr c.san (unesc x) := by
  match c with
  | .bad _ =>
    simp only [escChunk, List.cons_append, List.nil_append]
    rw [unesc.eq_def]
    simp only [Chunk.san]
    simp [show utf8Bmp (((hexVal 102 * 16 + hexVal 102) * 16 + hexVal 102) * 16 + hexVal 100) = [0xEF, 0xBF, 0xBD] by decide]
  | .valid bs =>
    have hr := hc bs rfl
    rw [Chunk.san]
    by_cases h1 : bs.length = 1
    · match bs, h1 with
      | [b], _ =>
        have : escChunk (.valid [b]) = escAscii b := by rfl
        rw [this]
        exact unesc_ascii b (isRune_single b hr) x
    · have hh := isRune_high bs hr h1
      by_cases e1 : bs = [0xE2, 0x80, 0xA8]
      · subst e1
        show unesc (92 :: 117 :: 50 :: 48 :: 50 :: 56 :: x) = _
        rw [unesc.eq_def]
        simp [show utf8Bmp (((hexVal 50 * 16 + hexVal 48) * 16 + hexVal 50) * 16 + hexVal 56) = [0xE2, 0x80, 0xA8] by decide]
      by_cases e2 : bs = [0xE2, 0x80, 0xA9]
      · subst e2
        show unesc (92 :: 117 :: 50 :: 48 :: 50 :: 57 :: x) = _
        rw [unesc.eq_def]
        simp [show utf8Bmp (((hexVal 50 * 16 + hexVal 48) * 16 + hexVal 50) * 16 + hexVal 57) = [0xE2, 0x80, 0xA9] by decide]
      have : escChunk (.valid bs) = bs := by
        unfold escChunk
        split
        · rename_i b he; cases he; simp at h1
        · rename_i he; cases he; exact absurd rfl e1
        · rename_i he; cases he; exact absurd rfl e2
        · rename_i he; cases he; rfl
        · rename_i he; cases he
      rw [this]
      exact unesc_high bs hh x

theorem unesc_render (s : GoString) (x : Bytes) :
    unesc ((chunks s).flatMap escChunk ++ 34 :: x) = some (sanitize s, x) := by
  rw [sanitize]
  have h := chunks_isRune s
  generalize chunks s = cs at h
  induction cs with
  | nil => rw [List.flatMap_nil, List.nil_append, unesc.eq_def]; simp
  | cons c cs ih =>
    rw [List.flatMap_cons, List.append_assoc, unesc_chunk c (h c (List.mem_cons_self)),
      ih fun c' hc' => h c' (List.mem_cons_of_mem _ hc')]
    simp [consStr]

/-! ## Values -/

/-- Reads decimal digits. -/
def digits : Nat → Bytes → Nat × Bytes
  | v, [] => (v, [])
  | v, b :: r => if 48 ≤ b.toNat ∧ b.toNat ≤ 57 then digits (v * 10 + (b.toNat - 48)) r else (v, b :: r)

/-- What follows a value in the texts of this file. -/
def Stop : Bytes → Prop
  | [] => True
  | b :: _ => ¬ (48 ≤ b.toNat ∧ b.toNat ≤ 57)

theorem digits_append (ds : Bytes) (h : ∀ d ∈ ds, 48 ≤ d.toNat ∧ d.toNat ≤ 57) (v : Nat) (r : Bytes) (hr : Stop r) :
    digits v (ds ++ r) = (ds.foldl (fun v d => v * 10 + (d.toNat - 48)) v, r) := by
  induction ds generalizing v with
  | nil =>
    cases r with
    | nil => rfl
    | cons b r => simp only [List.nil_append, digits, if_neg hr, List.foldl_nil]
  | cons d ds ih =>
    rw [List.cons_append, digits, if_pos (h d (List.mem_cons_self)), ih (fun x hx => h x (List.mem_cons_of_mem _ hx))]
    rfl

theorem digits_decEnc (n : Nat) (r : Bytes) (hr : Stop r) : digits 0 (decEnc n ++ r) = (n, r) := by
  rw [digits_append _ (decEnc_digit n) _ _ hr]
  have := decVal_decEnc n
  rw [decVal] at this
  rw [this]

mutual
/-- Reads a value. -/
def parseVal : Nat → Bytes → Option (J × Bytes)
  | 0, _ => none
  | _ + 1, [] => none
  | f + 1, b :: r =>
    if b = 34 then match unesc r with
      | some (s, r') => some (.str s, r')
      | none => none
    else if b = 123 then match r with
      | 125 :: r' => some (.obj .nil, r')
      | _ => match parseFields f r with
        | some (fs, r') => some (.obj fs, r')
        | none => none
    else if b = 110 then match r with
      | 117 :: 108 :: 108 :: r' => some (.null, r')
      | _ => none
    else if 48 ≤ b.toNat ∧ b.toNat ≤ 57 then some (.num (digits 0 (b :: r)).1, (digits 0 (b :: r)).2)
    else none
/-- Reads one or more fields and the closing brace. -/
def parseFields : Nat → Bytes → Option (JFields × Bytes)
  | 0, _ => none
  | f + 1, r => match r with
    | 34 :: r1 => match unesc r1 with
      | some (k, 58 :: r2) => match parseVal f r2 with
        | some (v, 125 :: r3) => some (.cons k v .nil, r3)
        | some (v, 44 :: r3) => match parseFields f r3 with
          | some (fs, r4) => some (.cons k v fs, r4)
          | none => none
        | _ => none
      | _ => none
    | _ => none
end

mutual
/-- Nesting depth plus width: how much fuel reading needs. -/
def J.fuel : J → Nat
  | .obj fs => 1 + fs.fuel
  | _ => 1
def JFields.fuel : JFields → Nat
  | .nil => 0
  | .cons _ v r => 1 + v.fuel + r.fuel
end

mutual
theorem parseVal_render (j : J) (f : Nat) (hf : j.fuel ≤ f) (x : Bytes) (hx : Stop x) :
    parseVal f (j.render ++ x) = some (j.san, x) := by
  match j with
  | .null =>
    obtain ⟨f, rfl⟩ : ∃ g, f = g + 1 := ⟨f - 1, by simp [J.fuel] at hf; omega⟩
    simp [J.render, parseVal, J.san]
  | .str s =>
    obtain ⟨f, rfl⟩ : ∃ g, f = g + 1 := ⟨f - 1, by simp [J.fuel] at hf; omega⟩
    simp only [J.render, renderStr, List.append_assoc, List.cons_append, List.nil_append, parseVal, if_pos, unesc_render]
    rfl
  | .num n =>
    obtain ⟨f, rfl⟩ : ∃ g, f = g + 1 := ⟨f - 1, by simp [J.fuel] at hf; omega⟩
    have hd := digits_decEnc n x hx
    have hn := decEnc_ne_nil n
    have hdig := decEnc_digit n
    simp only [J.render]
    generalize decEnc n = ds at hd hn hdig
    match ds with
    | b :: ds =>
      have hb := hdig b (List.mem_cons_self)
      have h1 : b ≠ 34 := by intro e; subst e; simp at hb
      have h2 : b ≠ 123 := by intro e; subst e; simp at hb
      have h3 : b ≠ 110 := by intro e; subst e; simp at hb
      rw [List.cons_append] at hd ⊢
      simp only [parseVal, h1, h2, h3, if_false]
      rw [if_pos hb, hd]
      rfl
  | .obj .nil =>
    obtain ⟨f, rfl⟩ : ∃ g, f = g + 1 := ⟨f - 1, by simp [J.fuel] at hf; omega⟩
    simp [J.render, JFields.render, parseVal, J.san, JFields.san]
  | .obj (.cons k v r) =>
    obtain ⟨f, rfl⟩ : ∃ g, f = g + 1 := ⟨f - 1, by simp [J.fuel] at hf; omega⟩
    have ih := parseFields_render k v r f (by simp only [J.fuel, JFields.fuel] at hf ⊢; omega) x
    simp only [J.render, List.append_assoc, List.cons_append, List.nil_append, parseVal]
    simp only [JFields.render, renderStr, List.append_assoc, List.cons_append, List.nil_append, if_true] at ih ⊢
    simp [ih, J.san, JFields.san]
theorem parseFields_render (k : GoString) (v : J) (r : JFields) (f : Nat) (hf : (JFields.cons k v r).fuel ≤ f) (x : Bytes) :
    parseFields f ((JFields.cons k v r).render true ++ 125 :: x) = some ((JFields.cons k v r).san, x) := by
  obtain ⟨f, rfl⟩ : ∃ g, f = g + 1 := ⟨f - 1, by simp [JFields.fuel] at hf; omega⟩
  match r with
  | .nil =>
    have ih := parseVal_render v f (by simp only [JFields.fuel] at hf; omega) (125 :: x) (by simp [Stop])
    simp only [JFields.render, renderStr, List.append_assoc, List.cons_append, List.nil_append, if_true, parseFields,
      unesc_render, ih]
    rfl
  | .cons k' v' r' =>
    have ih := parseVal_render v f (by simp only [JFields.fuel] at hf; omega)
      (44 :: ((JFields.cons k' v' r').render true ++ 125 :: x)) (by simp [Stop])
    have ih2 := parseFields_render k' v' r' f (by simp only [JFields.fuel] at hf ⊢; omega) x
    have e : (JFields.cons k' v' r').render false = 44 :: (JFields.cons k' v' r').render true := by
      simp [JFields.render]
    rw [JFields.render, e]
    simp only [renderStr, List.append_assoc, List.cons_append, List.nil_append, if_true, parseFields,
      unesc_render, ih, ih2]
    rfl
end

mutual
theorem J.fuel_le (j : J) : j.fuel ≤ j.render.length := by
  match j with
  | .null => simp [J.fuel, J.render]
  | .str s => simp [J.fuel, J.render, renderStr]
  | .num n =>
    have := List.length_pos_iff.mpr (decEnc_ne_nil n)
    simp only [J.fuel, J.render]; omega
  | .obj fs =>
    have := JFields.fuel_le fs true
    simp [J.fuel, J.render]; omega
theorem JFields.fuel_le (fs : JFields) (b : Bool) : fs.fuel ≤ (fs.render b).length := by
  match fs with
  | .nil => simp [JFields.fuel]
  | .cons k v r =>
    have h1 := J.fuel_le v
    have h2 := JFields.fuel_le r false
    simp [JFields.fuel, JFields.render, renderStr]; omega
end

/-- The reader. -/
def parseJson (b : Bytes) : Option J := match parseVal b.length b with
  | some (j, []) => some j
  | _ => none

theorem parseJson_render (j : J) : parseJson j.render = some j.san := by
  have := parseVal_render j j.render.length j.fuel_le [] trivial
  rw [List.append_nil] at this
  rw [parseJson, this]

end D1
