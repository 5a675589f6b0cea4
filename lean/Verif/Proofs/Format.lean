import Verif.Spec.Format
import Verif.Proofs.JsonParser
/-!
# The modelled encoders write JSON and base64
-/
namespace D1
open Spec
attribute [-simp] UInt8.ofNat_add UInt8.ofNat_mul UInt8.ofNat_sub

/-! ## UTF-8 -/

theorem ofNat_eq {n : Nat} {b : UInt8} (h : n = b.toNat) : UInt8.ofNat n = b := by rw [h, UInt8.ofNat_toNat]

theorem isRune_utf8 {bs : Bytes} (h : IsRune bs) : ∃ c, Scalar c ∧ utf8 c = bs ∧ (bs.length ≠ 1 → 0x80 ≤ c) := by
  obtain ⟨b, r, rfl, hl⟩ := h
  have hb := b.toNat_lt
  simp only [runeLen] at hl
  split at hl
  · rename_i h1
    cases r with
    | cons => simp at hl
    | nil => exact ⟨b.toNat, .inl (by omega), by rw [utf8, if_pos h1, UInt8.ofNat_toNat], fun h => absurd rfl h⟩
  rename_i h80
  split at hl
  · rename_i h3
    match r with
    | [] => simp at hl
    | b1 :: r' =>
      simp only at hl
      split at hl
      · rename_i hc
        simp at hl; subst hl
        simp only [contIn, decide_eq_true_eq] at hc
        refine ⟨(b.toNat - 0xC0) * 64 + (b1.toNat - 0x80), .inl (by omega), ?_, fun _ => by omega⟩
        rw [utf8, if_neg (by omega), if_pos (by omega)]
        simp only [List.cons.injEq, and_true]
        exact ⟨ofNat_eq (by omega), ofNat_eq (by omega)⟩
      · simp at hl
  split at hl
  · rename_i h3
    match r with
    | [] => simp at hl
    | [_] => simp at hl
    | b1 :: b2 :: r' =>
      simp only at hl
      split at hl
      · rename_i hc
        simp at hl; subst hl
        simp only [contIn, decide_eq_true_eq, Bool.and_eq_true] at hc
        obtain ⟨⟨c1, c2⟩, c3, c4⟩ := hc
        have hh : (b.toNat = 0xE0 → 0xA0 ≤ b1.toNat) ∧ (b.toNat = 0xED → b1.toNat ≤ 0x9F) ∧ 0x80 ≤ b1.toNat ∧ b1.toNat ≤ 0xBF := by
          simp only [accept2] at c1 c2
          split at c1
          · simp_all; omega
          split at c1
          · simp_all; omega
          split at c1
          · simp_all
          split at c1
          · simp_all
          · simp_all
        obtain ⟨k1, k2, k3, k4⟩ := hh
        refine ⟨(b.toNat - 0xE0) * 4096 + (b1.toNat - 0x80) * 64 + (b2.toNat - 0x80), ?_, ?_, fun _ => by omega⟩
        · unfold Scalar; omega
        · rw [utf8, if_neg (by omega), if_neg (by omega), if_pos (by omega)]
          simp only [List.cons.injEq, and_true]
          exact ⟨ofNat_eq (by omega), ofNat_eq (by omega), ofNat_eq (by omega)⟩
      · simp at hl
  split at hl
  · rename_i h3
    match r with
    | [] => simp at hl
    | [_] => simp at hl
    | [_, _] => simp at hl
    | b1 :: b2 :: b3 :: r' =>
      simp only at hl
      split at hl
      · rename_i hc
        simp at hl; subst hl
        simp only [contIn, decide_eq_true_eq, Bool.and_eq_true] at hc
        obtain ⟨⟨⟨c1, c2⟩, c3, c4⟩, c5, c6⟩ := hc
        have hh : (b.toNat = 0xF0 → 0x90 ≤ b1.toNat) ∧ (b.toNat = 0xF4 → b1.toNat ≤ 0x8F) ∧ 0x80 ≤ b1.toNat ∧ b1.toNat ≤ 0xBF := by
          simp only [accept2] at c1 c2
          split at c1
          · simp_all
          split at c1
          · simp_all
          split at c1
          · simp_all; omega
          split at c1
          · simp_all; omega
          · simp_all
        obtain ⟨k1, k2, k3, k4⟩ := hh
        refine ⟨(b.toNat - 0xF0) * 262144 + (b1.toNat - 0x80) * 4096 + (b2.toNat - 0x80) * 64 + (b3.toNat - 0x80), ?_, ?_, fun _ => by omega⟩
        · unfold Scalar; omega
        · rw [utf8, if_neg (by omega), if_neg (by omega), if_neg (by omega)]
          simp only [List.cons.injEq, and_true]
          exact ⟨ofNat_eq (by omega), ofNat_eq (by omega), ofNat_eq (by omega), ofNat_eq (by omega)⟩
      · simp at hl
  · simp at hl

/-! ## Strings -/

theorem hexDigit_is {n : Nat} (h : n < 16) : HexDigit (hexDigit n) n := by
  unfold HexDigit hexDigit
  split
  · left
    rw [UInt8.toNat_ofNat_of_lt' (by simp [UInt8.size]; omega)]
    omega
  · right; right
    rw [UInt8.toNat_ofNat_of_lt' (by simp [UInt8.size]; omega)]
    omega

theorem escape_low {n : Nat} (h : n < 256) : Escape [92, 117, 48, 48, hexDigit (n / 16), hexDigit (n % 16)] n :=
  ⟨_, _, _, _, 0, 0, n / 16, n % 16, rfl, .inl (by decide), .inl (by decide), hexDigit_is (by omega), hexDigit_is (by omega), by omega⟩

theorem escAscii_char (b : UInt8) (h : b.toNat < 128) : Char8259 (escAscii b) b.toNat := by
  have hu : utf8 b.toNat = [b] := by rw [utf8, if_pos h, UInt8.ofNat_toNat]
  unfold escAscii
  split
  · rename_i hs
    simp only [htmlSafe, decide_eq_true_eq] at hs
    rw [← hu]
    exact .plain _ (.inl (by omega)) hs.1 (by omega) (by omega)
  split
  · rename_i hs
    rcases hs with rfl | rfl
    · exact .short _ _ (by decide)
    · exact .short _ _ (by decide)
  split
  · rename_i hs; subst hs; exact .short _ _ (by decide)
  split
  · rename_i hs; subst hs; exact .short _ _ (by decide)
  split
  · rename_i hs; subst hs; exact .short _ _ (by decide)
  · exact .hex _ _ (escape_low (by omega)) (.inl (by omega))

theorem escChunk_char (c : Chunk) (hc : ∀ bs, c = .valid bs → IsRune bs) : ∃ n, Char8259 (escChunk c) n ∧ utf8 n = c.san := by
  cases c with
  | bad b =>
    refine ⟨0xFFFD, .hex _ _ ⟨_, _, _, _, 15, 15, 15, 13, rfl, .inr (.inr (by decide)), .inr (.inr (by decide)), .inr (.inr (by decide)),
      .inr (.inr (by decide)), by decide⟩ (.inr (by decide)), show utf8 0xFFFD = [0xEF, 0xBF, 0xBD] by decide⟩
  | valid bs =>
    have hr := hc bs rfl
    by_cases h1 : bs.length = 1
    · match bs, h1 with
      | [b], _ =>
        have hb := isRune_single b hr
        exact ⟨b.toNat, escAscii_char b hb, by rw [utf8, if_pos hb, UInt8.ofNat_toNat]; rfl⟩
    · by_cases e1 : bs = [0xE2, 0x80, 0xA8]
      · subst e1
        exact ⟨0x2028, .hex _ _ ⟨_, _, _, _, 2, 0, 2, 8, rfl, .inl (by decide), .inl (by decide), .inl (by decide), .inl (by decide), by decide⟩
          (.inl (by decide)), by decide⟩
      by_cases e2 : bs = [0xE2, 0x80, 0xA9]
      · subst e2
        exact ⟨0x2029, .hex _ _ ⟨_, _, _, _, 2, 0, 2, 9, rfl, .inl (by decide), .inl (by decide), .inl (by decide), .inl (by decide), by decide⟩
          (.inl (by decide)), by decide⟩
      have : escChunk (.valid bs) = bs := by
        unfold escChunk
        split
        · rename_i b he; cases he; simp at h1
        · rename_i he; cases he; exact absurd rfl e1
        · rename_i he; cases he; exact absurd rfl e2
        · rename_i he; cases he; rfl
        · rename_i he; cases he
      obtain ⟨n, n1, n2, n3⟩ := isRune_utf8 hr
      have := n3 h1
      exact ⟨n, by rw [‹escChunk _ = _›, ← n2]; exact .plain n n1 (by omega) (by omega) (by omega), n2⟩

theorem chars_render (s : GoString) : Chars ((chunks s).flatMap escChunk) (sanitize s) := by
  rw [sanitize]
  have h := chunks_isRune s
  generalize chunks s = cs at h
  induction cs with
  | nil => exact .nil
  | cons c cs ih =>
    obtain ⟨n, h1, h2⟩ := escChunk_char c (h c List.mem_cons_self)
    rw [List.flatMap_cons, List.flatMap_cons, ← h2]
    exact .cons h1 (ih fun c' hc' => h c' (List.mem_cons_of_mem _ hc'))

/-! ## Values -/

theorem decAux_digits (f n : Nat) (h : n < 10 ^ (f + 1)) : Digits (decAux f n) n := by
  induction f generalizing n with
  | zero =>
    rw [decAux, Nat.mod_eq_of_lt (by omega)]
    exact .one n (by omega)
  | succ f ih =>
    rw [decAux]
    split
    · exact .one n ‹_›
    · have := Digits.more (n % 10) (ih (n / 10) (by rw [Nat.pow_succ] at h; omega)) (by omega) (by omega)
      rwa [show n / 10 * 10 + n % 10 = n by omega] at this

theorem decEnc_digits (n : Nat) : Digits (decEnc n) n := decAux_digits n n ((Nat.lt_pow_self (by omega)).trans (Nat.pow_lt_pow_right (by omega) (by omega)))

theorem render_comma (k : GoString) (v : J) (r : JFields) : (JFields.cons k v r).render false = [44] ++ (JFields.cons k v r).render true := by
  simp [JFields.render]

mutual
theorem text_render : ∀ j : J, Text j.render j.san
  | .null => Text.null
  | .str s => Text.str (chars_render s)
  | .num n => Text.num (decEnc_digits n)
  | .obj fs => by
    rcases members_render fs with h | h
    · subst h; exact Text.empty
    · exact Text.obj h
theorem members_render : ∀ fs : JFields, fs = .nil ∨ Members (fs.render true) fs.san
  | .nil => .inl rfl
  | .cons k v r => .inr (by
    rcases members_render r with h | h
    · subst h
      have := Members.one (chars_render k) (text_render v)
      simpa [JFields.render, JFields.san, renderStr] using this
    · cases r with
      | nil => exact absurd h (by rintro ⟨⟩)
      | cons k' v' r =>
        have := Members.more (chars_render k) (text_render v) h
        rw [JFields.render, render_comma]
        simpa [JFields.san, renderStr] using this)
end

/-! ## Nothing that means something elsewhere -/

instance (t : Bytes) : Decidable (Tame t) := inferInstanceAs (Decidable (∀ c ∈ t, 0x20 ≤ c.toNat ∧ c ≠ 38 ∧ c ≠ 60 ∧ c ≠ 62))

theorem Spec.Tame.append {a b : Bytes} (ha : Tame a) (hb : Tame b) : Tame (a ++ b) := fun c hc => by
  rcases List.mem_append.mp hc with h | h
  · exact ha c h
  · exact hb c h

theorem tame_flatMap {α : Type} {f : α → Bytes} {l : List α} (h : ∀ a ∈ l, Tame (f a)) : Tame (l.flatMap f) := fun c hc => by
  obtain ⟨a, ha, hc⟩ := List.mem_flatMap.mp hc
  exact h a ha c hc

theorem tame_safe {b : UInt8} (h : htmlSafe b = true) : Tame [b] := fun c hc => by
  rw [List.mem_singleton] at hc
  subst hc
  simp only [htmlSafe, decide_eq_true_eq] at h
  refine ⟨h.1, ?_, ?_, ?_⟩ <;> rintro rfl <;> simp at h

theorem tame_high {b : UInt8} (h : 128 ≤ b.toNat) : 0x20 ≤ b.toNat ∧ b ≠ 38 ∧ b ≠ 60 ∧ b ≠ 62 := by
  refine ⟨by omega, ?_, ?_, ?_⟩ <;> rintro rfl <;> simp at h

theorem escAscii_tame (b : UInt8) (h : b.toNat < 128) : Tame (escAscii b) := by
  unfold escAscii
  split
  · exact tame_safe ‹_›
  split
  · rename_i hs
    rcases hs with rfl | rfl <;> decide
  split
  · decide
  split
  · decide
  split
  · decide
  · have h1 := tame_safe (hexDigit_safe (b.toNat / 16) (by omega))
    have h2 := tame_safe (hexDigit_safe (b.toNat % 16) (by omega))
    exact Tame.append (a := [92, 117, 48, 48]) (by decide) (h1.append h2)

theorem escChunk_tame (c : Chunk) (hc : ∀ bs, c = .valid bs → IsRune bs) : Tame (escChunk c) := by
  cases c with
  | bad b => exact (by decide : Tame [92, 117, 102, 102, 102, 100])
  | valid bs =>
    have hr := hc bs rfl
    by_cases h1 : bs.length = 1
    · match bs, h1 with
      | [b], _ => exact escAscii_tame b (isRune_single b hr)
    · unfold escChunk
      split
      · rename_i b he; cases he; simp at h1
      · decide
      · decide
      · rename_i he; cases he; exact fun c hc => tame_high (isRune_high _ hr h1 c hc)
      · rename_i he; cases he

theorem renderStr_tame (s : GoString) : Tame (renderStr s) :=
  Tame.append (Tame.append (by decide) (tame_flatMap fun c hc => escChunk_tame c (chunks_isRune s c hc))) (by decide)

theorem decEnc_tame (n : Nat) : Tame (decEnc n) := fun c hc => by
  have := decEnc_digit n c hc
  refine ⟨by omega, ?_, ?_, ?_⟩ <;> rintro rfl <;> simp at this

mutual
theorem render_tame : ∀ j : J, Tame j.render
  | .null => (by decide : Tame [110, 117, 108, 108])
  | .str s => renderStr_tame s
  | .num n => decEnc_tame n
  | .obj fs => Tame.append (Tame.append (by decide) (members_tame fs true)) (by decide)
theorem members_tame : ∀ (fs : JFields) (f : Bool), Tame (fs.render f)
  | .nil, _ => (by decide : Tame [])
  | .cons k v r, f => by
    refine (((Tame.append ?_ (renderStr_tame k)).append ?_).append (render_tame v)).append (members_tame r false)
    · cases f <;> decide
    · decide
end

/-! ## A text says one thing -/

theorem ofNat_inj {a b : Nat} (ha : a < 256) (hb : b < 256) (h : UInt8.ofNat a = UInt8.ofNat b) : a = b := by
  have := congrArg UInt8.toNat h
  rwa [UInt8.toNat_ofNat_of_lt' ha, UInt8.toNat_ofNat_of_lt' hb] at this

theorem utf8_det {c c' : Nat} (hc : Scalar c) (hc' : Scalar c') {x y : Bytes} (h : utf8 c ++ x = utf8 c' ++ y) : c = c' ∧ x = y := by
  unfold Scalar at hc hc'
  unfold utf8 at h
  by_cases h1 : c < 0x80 <;> by_cases h2 : c < 0x800 <;> by_cases h3 : c < 0x10000 <;> try omega
  all_goals
    by_cases h1' : c' < 0x80 <;> by_cases h2' : c' < 0x800 <;> by_cases h3' : c' < 0x10000 <;> try omega
  all_goals
    simp only [h1, h2, h3, h1', h2', h3', if_true, if_false, List.cons_append, List.nil_append, List.cons.injEq] at h
    first
    | (exfalso; have := ofNat_inj (by omega) (by omega) h.1; omega)
    | (exact ⟨ofNat_inj (by omega) (by omega) h.1, h.2⟩)
    | (obtain ⟨e1, e2, e⟩ := h
       have := ofNat_inj (by omega) (by omega) e1
       have := ofNat_inj (by omega) (by omega) e2
       exact ⟨by omega, e⟩)
    | (obtain ⟨e1, e2, e3, e⟩ := h
       have := ofNat_inj (by omega) (by omega) e1
       have := ofNat_inj (by omega) (by omega) e2
       have := ofNat_inj (by omega) (by omega) e3
       exact ⟨by omega, e⟩)
    | (obtain ⟨e1, e2, e3, e4, e⟩ := h
       have := ofNat_inj (by omega) (by omega) e1
       have := ofNat_inj (by omega) (by omega) e2
       have := ofNat_inj (by omega) (by omega) e3
       have := ofNat_inj (by omega) (by omega) e4
       exact ⟨by omega, e⟩)

theorem utf8_head {c : Nat} (hc : Scalar c) : ∃ b r, utf8 c = b :: r ∧ (b.toNat = c ∨ 128 ≤ b.toNat) := by
  unfold Scalar at hc
  unfold utf8
  split
  · exact ⟨_, _, rfl, .inl (UInt8.toNat_ofNat_of_lt' (by simp [UInt8.size]; omega))⟩
  split
  · exact ⟨_, _, rfl, .inr (by rw [UInt8.toNat_ofNat_of_lt' (by simp [UInt8.size]; omega)]; omega)⟩
  split
  · exact ⟨_, _, rfl, .inr (by rw [UInt8.toNat_ofNat_of_lt' (by simp [UInt8.size]; omega)]; omega)⟩
  · exact ⟨_, _, rfl, .inr (by rw [UInt8.toNat_ofNat_of_lt' (by simp [UInt8.size]; omega)]; omega)⟩

theorem hexDigit_det {c : UInt8} {v v' : Nat} (h : HexDigit c v) (h' : HexDigit c v') : v = v' := by
  unfold HexDigit at h h'; omega

theorem hexDigit_lt {c : UInt8} {v : Nat} (h : HexDigit c v) : v < 16 := by
  unfold HexDigit at h; omega

theorem escape_det {t t' x y : Bytes} {v v' : Nat} (h : Escape t v) (h' : Escape t' v') (e : t ++ x = t' ++ y) : t = t' ∧ v = v' ∧ x = y := by
  obtain ⟨a, b, c, d, va, vb, vc, vd, rfl, ha, hb, hc, hd, rfl⟩ := h
  obtain ⟨a', b', c', d', va', vb', vc', vd', rfl, ha', hb', hc', hd', rfl⟩ := h'
  simp only [List.cons_append, List.nil_append, List.cons.injEq, true_and] at e
  obtain ⟨rfl, rfl, rfl, rfl, rfl⟩ := e
  rw [hexDigit_det ha ha', hexDigit_det hb hb', hexDigit_det hc hc', hexDigit_det hd hd']
  exact ⟨rfl, rfl, rfl⟩

/-- How a character begins. -/
theorem char_head {t : Bytes} {c : Nat} (h : Char8259 t c) : (∃ b r, t = b :: r ∧ b ≠ 34 ∧ b ≠ 92) ∨
    (∃ e, t = [92, e] ∧ e ≠ 117 ∧ (e, c) ∈ shortEscapes) ∨ ∃ r, t = 92 :: 117 :: r := by
  cases h with
  | plain c h1 h2 h3 h4 =>
    obtain ⟨b, r, e, hb⟩ := utf8_head h1
    refine .inl ⟨b, r, e, ?_, ?_⟩ <;> rintro rfl <;> rcases hb with hb | hb <;> simp at hb <;> omega
  | short e c h => exact .inr (.inl ⟨e, rfl, by rintro rfl; simp [shortEscapes] at h, h⟩)
  | hex t c h =>
    obtain ⟨a, b, c, d, _, _, _, _, rfl, _⟩ := h
    exact .inr (.inr ⟨_, rfl⟩)
  | pair t t' h l h1 h2 =>
    obtain ⟨a, b, c, d, _, _, _, _, rfl, _⟩ := h1
    exact .inr (.inr ⟨_, rfl⟩)

theorem short_det {e : UInt8} {c c' : Nat} (h : (e, c) ∈ shortEscapes) (h' : (e, c') ∈ shortEscapes) : c = c' := by
  simp only [shortEscapes, List.mem_cons, Prod.mk.injEq, List.not_mem_nil, or_false] at h h'
  rcases h with ⟨rfl, rfl⟩ | ⟨rfl, rfl⟩ | ⟨rfl, rfl⟩ | ⟨rfl, rfl⟩ | ⟨rfl, rfl⟩ | ⟨rfl, rfl⟩ | ⟨rfl, rfl⟩ | ⟨rfl, rfl⟩ <;> simp at h' <;> omega

theorem char_det {t t' x y : Bytes} {c c' : Nat} (h : Char8259 t c) (h' : Char8259 t' c') (e : t ++ x = t' ++ y) : t = t' ∧ c = c' ∧ x = y := by
  have hh := char_head h
  have hh' := char_head h'
  rcases hh with ⟨b, r, rfl, b1, b2⟩ | ⟨k, rfl, k1, k2⟩ | ⟨r, rfl⟩ <;> rcases hh' with ⟨b', r', rfl, b1', b2'⟩ | ⟨k', rfl, k1', k2'⟩ | ⟨r', rfl⟩ <;>
    simp only [List.cons_append, List.nil_append, List.cons.injEq, true_and] at e
  · generalize ht : b :: r = t at h
    generalize ht' : b' :: r' = t' at h'
    have e' : t ++ x = t' ++ y := by rw [← ht, ← ht', List.cons_append, List.cons_append, e.1, e.2]
    have key : ∀ {t : Bytes} {c : Nat} {b : UInt8} {r : Bytes}, Char8259 t c → b :: r = t → b ≠ 92 → Scalar c ∧ t = utf8 c := by
      intro t c b r h ht hb
      cases h with
      | plain c h1 => exact ⟨h1, rfl⟩
      | short e c => cases ht; exact absurd rfl hb
      | hex t c h =>
        obtain ⟨_, _, _, _, _, _, _, _, rfl, _⟩ := h
        cases ht; exact absurd rfl hb
      | pair t t' h l h1 =>
        obtain ⟨_, _, _, _, _, _, _, _, rfl, _⟩ := h1
        cases ht; exact absurd rfl hb
    obtain ⟨s1, rfl⟩ := key h ht b2
    obtain ⟨s2, rfl⟩ := key h' ht' b2'
    obtain ⟨rfl, rfl⟩ := utf8_det s1 s2 e'
    exact ⟨rfl, rfl, rfl⟩
  · exact absurd e.1 b2
  · exact absurd e.1 b2
  · exact absurd e.1.symm b2'
  · obtain ⟨rfl, rfl⟩ := e
    exact ⟨rfl, short_det k2 k2', rfl⟩
  · exact absurd e.1 k1
  · exact absurd e.1.symm b2'
  · exact absurd e.1.symm k1'
  · generalize ht : 92 :: 117 :: r = t at h
    generalize ht' : 92 :: 117 :: r' = t' at h'
    have e' : t ++ x = t' ++ y := by rw [← ht, ← ht', List.cons_append, List.cons_append, List.cons_append, List.cons_append, e]
    have key : ∀ {t : Bytes} {c : Nat} {r : Bytes}, Char8259 t c → 92 :: 117 :: r = t → (Escape t c ∧ Scalar c) ∨
        ∃ u u' h l, t = u ++ u' ∧ Escape u (0xD800 + h) ∧ Escape u' (0xDC00 + l) ∧ h < 0x400 ∧ c = 0x10000 + h * 0x400 + l := by
      intro t c r h ht
      cases h with
      | plain c h1 _ _ h4 =>
        obtain ⟨b, r, e, hb⟩ := utf8_head h1
        rw [e] at ht
        cases ht
        rcases hb with hb | hb
        · exact absurd hb.symm h4
        · simp at hb
      | short e c h => cases ht; simp [shortEscapes] at h
      | hex t c h h2 => exact .inl ⟨h, h2⟩
      | pair t t' h l h1 h2 h3 h4 => exact .inr ⟨_, _, h, l, rfl, h1, h2, h3, rfl⟩
    rcases key h ht with ⟨q1, q2⟩ | ⟨u, u', a, l, rfl, q1, q2, q3, rfl⟩ <;> rcases key h' ht' with ⟨p1, p2⟩ | ⟨w, w', a', l', rfl, p1, p2, p3, rfl⟩
    · exact escape_det q1 p1 e'
    · rw [List.append_assoc] at e'
      have := (escape_det q1 p1 e').2.1
      unfold Scalar at q2; omega
    · rw [List.append_assoc] at e'
      have := (escape_det q1 p1 e').2.1
      unfold Scalar at p2; omega
    · rw [List.append_assoc, List.append_assoc] at e'
      obtain ⟨rfl, r2, r3⟩ := escape_det q1 p1 e'
      obtain ⟨rfl, r4, r5⟩ := escape_det q2 p2 r3
      exact ⟨rfl, by omega, r5⟩

theorem char_start {t : Bytes} {c : Nat} (h : Char8259 t c) : ∃ b r, t = b :: r ∧ b ≠ 34 := by
  rcases char_head h with ⟨b, r, rfl, h, _⟩ | ⟨e, rfl, _⟩ | ⟨r, rfl⟩
  · exact ⟨b, r, rfl, h⟩
  · exact ⟨_, _, rfl, by decide⟩
  · exact ⟨_, _, rfl, by decide⟩

theorem chars_det {t v t' v' x y : Bytes} (h : Chars t v) (h' : Chars t' v') (e : t ++ 34 :: x = t' ++ 34 :: y) : t = t' ∧ v = v' ∧ x = y := by
  induction h generalizing t' v' with
  | nil =>
    cases h' with
    | nil => exact ⟨rfl, rfl, (List.cons.inj e).2⟩
    | cons hc _ =>
      obtain ⟨b, r, rfl, hb⟩ := char_start hc
      exact absurd (List.cons.inj e).1.symm hb
  | cons hc _ ih =>
    cases h' with
    | nil =>
      obtain ⟨b, r, rfl, hb⟩ := char_start hc
      exact absurd (List.cons.inj e).1 hb
    | cons hc' h' =>
      rw [List.append_assoc, List.append_assoc] at e
      obtain ⟨rfl, rfl, e⟩ := char_det hc hc' e
      obtain ⟨rfl, rfl, e⟩ := ih h' e
      exact ⟨rfl, rfl, e⟩

theorem digits_read {t : Bytes} {n : Nat} (h : Digits t n) : (∀ d ∈ t, 48 ≤ d.toNat ∧ d.toNat ≤ 57) ∧ t ≠ [] ∧
    t.foldl (fun v d => v * 10 + (d.toNat - 48)) 0 = n := by
  induction h with
  | one d hd =>
    have : (UInt8.ofNat (48 + d)).toNat = 48 + d := UInt8.toNat_ofNat_of_lt' (by simp [UInt8.size]; omega)
    exact ⟨by simp [this]; omega, by simp, by simp [this]⟩
  | more d _ _ hd ih =>
    have : (UInt8.ofNat (48 + d)).toNat = 48 + d := UInt8.toNat_ofNat_of_lt' (by simp [UInt8.size]; omega)
    refine ⟨fun c hc => ?_, by simp, ?_⟩
    · rcases List.mem_append.mp hc with hc | hc
      · exact ih.1 c hc
      · rw [List.mem_singleton.mp hc, this]; omega
    · rw [List.foldl_append, ih.2.2]
      simp [this]

theorem digits_det {t t' x y : Bytes} {n n' : Nat} (h : Digits t n) (h' : Digits t' n') (hx : Stop x) (hy : Stop y) (e : t ++ x = t' ++ y) :
    t = t' ∧ n = n' ∧ x = y := by
  obtain ⟨h1, -, h2⟩ := digits_read h
  obtain ⟨h1', -, h2'⟩ := digits_read h'
  have e1 := digits_append t h1 0 x hx
  have e2 := digits_append t' h1' 0 y hy
  rw [e, e2, h2, h2'] at e1
  cases e1
  exact ⟨List.append_cancel_right e, rfl, rfl⟩

/-- The first byte of the text of a value. -/
def startOf : J → UInt8 → Prop
  | .null, b => b = 110
  | .str _, b => b = 34
  | .num _, b => 48 ≤ b.toNat ∧ b.toNat ≤ 57
  | .obj _, b => b = 123

theorem text_start {t : Bytes} {j : J} (h : Text t j) : ∃ b r, t = b :: r ∧ startOf j b := by
  cases h with
  | null => exact ⟨_, _, rfl, by simp only [startOf]; decide⟩
  | str => exact ⟨_, _, rfl, rfl⟩
  | num h =>
    obtain ⟨h1, h2, _⟩ := digits_read h
    cases t with
    | nil => exact absurd rfl h2
    | cons b r => exact ⟨b, r, rfl, h1 b List.mem_cons_self⟩
  | empty => exact ⟨_, _, rfl, by simp only [startOf]; decide⟩
  | obj => exact ⟨_, _, rfl, rfl⟩

theorem start_eq {t t' x y : Bytes} {a b : J} (h : Text t a) (h' : Text t' b) (e : t ++ x = t' ++ y) : ∃ c, startOf a c ∧ startOf b c := by
  obtain ⟨c, r, rfl, hc⟩ := text_start h
  obtain ⟨c', r', rfl, hc'⟩ := text_start h'
  exact ⟨c, hc, by rwa [(List.cons.inj e).1]⟩

theorem members_start {t : Bytes} {fs : JFields} (h : Members t fs) : ∃ r, t = 34 :: r := by
  cases h <;> exact ⟨_, rfl⟩

theorem stop_cons {c : UInt8} {x : Bytes} (h : ¬(48 ≤ c.toNat ∧ c.toNat ≤ 57)) : Stop (c :: x) := h

theorem null_text : ascii "null" = [110, 117, 108, 108] := by decide
theorem empty_text : ascii "{}" = [123, 125] := by decide

mutual
theorem text_det : ∀ {t : Bytes} {a : J}, Text t a → ∀ {t' : Bytes} {b : J} {x y : Bytes}, Text t' b → Stop x → Stop y → t ++ x = t' ++ y →
    t = t' ∧ a = b ∧ x = y
  | _, _, .null, _, _, _, _, h', _, _, e => by
    obtain ⟨c, hc, hc'⟩ := start_eq Text.null h' e
    cases hc
    cases h' with
    | null => exact ⟨rfl, rfl, List.append_cancel_left e⟩
    | str | empty | obj => cases hc'
    | num => exact absurd hc'.2 (by decide)
  | _, _, .str hs, _, _, _, _, h', _, _, e => by
    obtain ⟨c, hc, hc'⟩ := start_eq (Text.str hs) h' e
    cases hc
    cases h' with
    | str hs' =>
      simp only [List.append_assoc, List.cons_append, List.nil_append, List.cons.injEq, true_and] at e
      obtain ⟨rfl, rfl, rfl⟩ := chars_det hs hs' e
      exact ⟨rfl, rfl, rfl⟩
    | null | empty | obj => cases hc'
    | num => exact absurd hc'.1 (by decide)
  | _, _, .num hd, _, _, _, _, h', hx, hy, e => by
    obtain ⟨c, hc, hc'⟩ := start_eq (Text.num hd) h' e
    cases h' with
    | num hd' =>
      obtain ⟨rfl, rfl, rfl⟩ := digits_det hd hd' hx hy e
      exact ⟨rfl, rfl, rfl⟩
    | null => cases hc'; exact absurd hc.2 (by decide)
    | str => cases hc'; exact absurd hc.1 (by decide)
    | empty => cases hc'; exact absurd hc.2 (by decide)
    | obj => cases hc'; exact absurd hc.2 (by decide)
  | _, _, .empty, _, _, _, _, h', _, _, e => by
    obtain ⟨c, hc, hc'⟩ := start_eq Text.empty h' e
    cases hc
    cases h' with
    | empty => exact ⟨rfl, rfl, List.append_cancel_left e⟩
    | obj hm =>
      obtain ⟨r, rfl⟩ := members_start hm
      rw [empty_text] at e
      simp at e
    | null | str => cases hc'
    | num => exact absurd hc'.2 (by decide)
  | _, _, .obj hm, _, _, _, _, h', _, _, e => by
    obtain ⟨c, hc, hc'⟩ := start_eq (Text.obj hm) h' e
    cases hc
    cases h' with
    | obj hm' =>
      simp only [List.append_assoc, List.cons_append, List.nil_append, List.cons.injEq, true_and] at e
      obtain ⟨rfl, rfl, rfl⟩ := members_det hm hm' e
      exact ⟨rfl, rfl, rfl⟩
    | empty =>
      obtain ⟨r, rfl⟩ := members_start hm
      rw [empty_text] at e
      simp at e
    | null | str => cases hc'
    | num => exact absurd hc'.2 (by decide)
theorem members_det : ∀ {t : Bytes} {a : JFields}, Members t a → ∀ {t' : Bytes} {b : JFields} {x y : Bytes}, Members t' b →
    t ++ 125 :: x = t' ++ 125 :: y → t = t' ∧ a = b ∧ x = y
  | _, _, .one hk ht, _, _, _, _, h', e => by
    cases h' with
    | one hk' ht' =>
      simp only [List.append_assoc, List.cons_append, List.nil_append, List.cons.injEq, true_and] at e
      obtain ⟨rfl, rfl, e⟩ := chars_det hk hk' e
      obtain ⟨rfl, rfl, e⟩ := text_det ht ht' (stop_cons (by decide)) (stop_cons (by decide)) (List.cons.inj e).2
      exact ⟨rfl, rfl, (List.cons.inj e).2⟩
    | more hk' ht' hm' =>
      simp only [List.append_assoc, List.cons_append, List.nil_append, List.cons.injEq, true_and] at e
      obtain ⟨rfl, rfl, e⟩ := chars_det hk hk' e
      obtain ⟨rfl, rfl, e⟩ := text_det ht ht' (stop_cons (by decide)) (stop_cons (by decide)) (List.cons.inj e).2
      cases e
  | _, _, .more hk ht hm, _, _, _, _, h', e => by
    cases h' with
    | one hk' ht' =>
      simp only [List.append_assoc, List.cons_append, List.nil_append, List.cons.injEq, true_and] at e
      obtain ⟨rfl, rfl, e⟩ := chars_det hk hk' e
      obtain ⟨rfl, rfl, e⟩ := text_det ht ht' (stop_cons (by decide)) (stop_cons (by decide)) (List.cons.inj e).2
      cases e
    | more hk' ht' hm' =>
      simp only [List.append_assoc, List.cons_append, List.nil_append, List.cons.injEq, true_and] at e
      obtain ⟨rfl, rfl, e⟩ := chars_det hk hk' e
      obtain ⟨rfl, rfl, e⟩ := text_det ht ht' (stop_cons (by decide)) (stop_cons (by decide)) (List.cons.inj e).2
      obtain ⟨rfl, rfl, e⟩ := members_det hm hm' (List.cons.inj e).2
      exact ⟨rfl, rfl, e⟩
end

/-! ## Base64 -/

theorem bitsOf_split (m n x y : Nat) (hy : y < 2 ^ n) : bitsOf (m + n) (x * 2 ^ n + y) = bitsOf m x ++ bitsOf n y := by
  induction n generalizing y with
  | zero =>
    have : y = 0 := by omega
    subst this
    simp [bitsOf]
  | succ n ih =>
    have e : x * 2 ^ (n + 1) + y = (x * 2 ^ n + y / 2) * 2 + y % 2 := by rw [Nat.pow_succ, ← Nat.mul_assoc]; omega
    rw [← Nat.add_assoc, bitsOf, bitsOf, ← List.append_assoc, ← ih (y / 2) (by rw [Nat.pow_succ] at hy; omega)]
    congr 2
    · rw [e]; omega
    · rw [e]; congr 1; simp only [eq_iff_iff]; omega

theorem bitsOf_zero (n : Nat) : bitsOf n 0 = List.replicate n false := by
  induction n with
  | zero => rfl
  | succ n ih => rw [bitsOf, ih, List.replicate_succ']; rfl

theorem b64Char_alphabet (url : Bool) : ∀ v, v < 64 → b64Char url v = (alphabet url).getD v 0 := by
  cases url <;> decide +kernel

theorem b64_values (url : Bool) : ∀ b : Bytes, ∃ (vs : List Nat) (zeros pad : Nat), (∀ v ∈ vs, v < 64) ∧ zeros < 6 ∧ pad < 4 ∧
    vs.flatMap (bitsOf 6) = b.flatMap (fun x => bitsOf 8 x.toNat) ++ List.replicate zeros false ∧
    b64Enc url b = vs.map (b64Char url) ++ List.replicate pad 61 ∧ if url then pad = 0 else 4 ∣ (b64Enc url b).length
  | [] => ⟨[], 0, 0, by simp, by omega, by omega, by simp, by simp [b64Enc], by simp [b64Enc]⟩
  | [a] => by
    have ha := a.toNat_lt
    refine ⟨[a.toNat / 4, a.toNat % 4 * 16], 4, if url then 0 else 2, ?_, by omega, by split <;> omega, ?_, ?_, ?_⟩
    · simp; omega
    · have e1 := bitsOf_split 6 2 (a.toNat / 4) (a.toNat % 4) (by omega)
      have e2 := bitsOf_split 2 4 (a.toNat % 4) 0 (by omega)
      rw [show a.toNat / 4 * 2 ^ 2 + a.toNat % 4 = a.toNat by omega] at e1
      simp only [List.flatMap_cons, List.flatMap_nil, List.append_nil]
      rw [show (8 : Nat) = 6 + 2 from rfl, e1, ← bitsOf_zero, List.append_assoc, ← e2]
      rfl
    · cases url <;> rfl
    · cases url
      · simp [b64Enc]
      · simp
  | [a, b] => by
    have ha := a.toNat_lt
    have hb := b.toNat_lt
    refine ⟨[a.toNat / 4, a.toNat % 4 * 16 + b.toNat / 16, b.toNat % 16 * 4], 2, if url then 0 else 1, ?_, by omega, by split <;> omega, ?_, ?_, ?_⟩
    · simp; omega
    · have e1 := bitsOf_split 6 2 (a.toNat / 4) (a.toNat % 4) (by omega)
      have e2 := bitsOf_split 2 4 (a.toNat % 4) (b.toNat / 16) (by omega)
      have e3 := bitsOf_split 4 4 (b.toNat / 16) (b.toNat % 16) (by omega)
      have e4 := bitsOf_split 4 2 (b.toNat % 16) 0 (by omega)
      rw [show a.toNat / 4 * 2 ^ 2 + a.toNat % 4 = a.toNat by omega] at e1
      rw [show b.toNat / 16 * 2 ^ 4 + b.toNat % 16 = b.toNat by omega] at e3
      simp only [List.flatMap_cons, List.flatMap_nil, List.append_nil]
      rw [show bitsOf 8 a.toNat = _ from e1, show bitsOf 8 b.toNat = _ from e3, show bitsOf 6 (a.toNat % 4 * 16 + b.toNat / 16) = _ from e2,
        show bitsOf 6 (b.toNat % 16 * 4) = _ from e4, ← bitsOf_zero]
      simp only [List.append_assoc]
    · cases url <;> rfl
    · cases url
      · simp [b64Enc]
      · simp
  | a :: b :: c :: r => by
    have ha := a.toNat_lt
    have hb := b.toNat_lt
    have hc := c.toNat_lt
    obtain ⟨vs, zeros, pad, h1, h2, h3, h4, h5, h6⟩ := b64_values url r
    refine ⟨a.toNat / 4 :: (a.toNat % 4 * 16 + b.toNat / 16) :: (b.toNat % 16 * 4 + c.toNat / 64) :: c.toNat % 64 :: vs, zeros, pad, ?_, h2, h3, ?_, ?_, ?_⟩
    · intro v hv
      simp only [List.mem_cons] at hv
      rcases hv with rfl | rfl | rfl | rfl | hv
      · omega
      · omega
      · omega
      · omega
      · exact h1 v hv
    · have e1 := bitsOf_split 6 2 (a.toNat / 4) (a.toNat % 4) (by omega)
      have e2 := bitsOf_split 2 4 (a.toNat % 4) (b.toNat / 16) (by omega)
      have e3 := bitsOf_split 4 4 (b.toNat / 16) (b.toNat % 16) (by omega)
      have e4 := bitsOf_split 4 2 (b.toNat % 16) (c.toNat / 64) (by omega)
      have e5 := bitsOf_split 2 6 (c.toNat / 64) (c.toNat % 64) (by omega)
      rw [show a.toNat / 4 * 2 ^ 2 + a.toNat % 4 = a.toNat by omega] at e1
      rw [show b.toNat / 16 * 2 ^ 4 + b.toNat % 16 = b.toNat by omega] at e3
      rw [show c.toNat / 64 * 2 ^ 6 + c.toNat % 64 = c.toNat by omega] at e5
      simp only [List.flatMap_cons]
      rw [show bitsOf 8 a.toNat = _ from e1, show bitsOf 8 b.toNat = _ from e3, show bitsOf 8 c.toNat = _ from e5,
        show bitsOf 6 (a.toNat % 4 * 16 + b.toNat / 16) = _ from e2, show bitsOf 6 (b.toNat % 16 * 4 + c.toNat / 64) = _ from e4, h4]
      simp only [List.append_assoc]
    · rw [b64Enc, h5]; rfl
    · cases url
      · simp only [b64Enc, List.length_cons] at h6 ⊢
        simp only [Bool.false_eq_true, if_false] at h6 ⊢
        omega
      · exact h6

theorem base64_enc (url : Bool) (b : Bytes) : Base64 url (b64Enc url b) b := by
  obtain ⟨vs, zeros, pad, h1, h2, h3, h4, h5, h6⟩ := b64_values url b
  refine ⟨vs, zeros, pad, h1, h2, h3, h4, ?_, h6⟩
  rw [h5]
  congr 1
  exact List.map_congr_left fun v hv => b64Char_alphabet url v (h1 v hv)

theorem bitsOf_length (n x : Nat) : (bitsOf n x).length = n := by
  induction n generalizing x with
  | zero => rfl
  | succ n ih => simp [bitsOf, ih]

theorem bitsOf_det {n x y : Nat} (hx : x < 2 ^ n) (hy : y < 2 ^ n) (h : bitsOf n x = bitsOf n y) : x = y := by
  induction n generalizing x y with
  | zero => omega
  | succ n ih =>
    rw [Nat.pow_succ] at hx hy
    obtain ⟨h1, h2⟩ := List.append_inj h (by simp [bitsOf_length])
    have := ih (by omega) (by omega) h1
    have h3 : x % 2 = 1 ↔ y % 2 = 1 := by simpa using h2
    omega

theorem bytes_det : ∀ {b b' : Bytes} {z z' : Nat}, z < 6 → z' < 6 → b.flatMap (fun x => bitsOf 8 x.toNat) ++ List.replicate z false =
    b'.flatMap (fun x => bitsOf 8 x.toNat) ++ List.replicate z' false → b = b'
  | [], [], _, _, _, _, _ => rfl
  | [], y :: b', z, z', hz, _, h => by
    have := congrArg List.length h
    simp [bitsOf_length] at this
    omega
  | x :: b, [], z, z', _, hz, h => by
    have := congrArg List.length h
    simp [bitsOf_length] at this
    omega
  | x :: b, y :: b', z, z', hz, hz', h => by
    simp only [List.flatMap_cons, List.append_assoc] at h
    obtain ⟨h1, h2⟩ := List.append_inj h (by simp [bitsOf_length])
    rw [UInt8.toNat_inj.mp (bitsOf_det x.toNat_lt y.toNat_lt h1), bytes_det hz hz' h2]

theorem alphabet_no_pad (url : Bool) : ∀ v, v < 64 → (alphabet url).getD v 0 ≠ 61 := by
  cases url <;> decide +kernel

theorem alphabet_inj (url : Bool) : ∀ v, v < 64 → ∀ w, w < 64 → (alphabet url).getD v 0 = (alphabet url).getD w 0 → v = w := by
  cases url <;> decide +kernel

theorem base64_det {url : Bool} {t b b' : Bytes} (h : Base64 url t b) (h' : Base64 url t b') : b = b' := by
  obtain ⟨vs, z, p, h1, h2, _, h4, h5, _⟩ := h
  obtain ⟨vs', z', p', h1', h2', _, h4', h5', _⟩ := h'
  have cutOff : ∀ (vs : List Nat) (p : Nat), (∀ v ∈ vs, v < 64) →
      (vs.map (fun v => (alphabet url).getD v 0) ++ List.replicate p 61).takeWhile (· != 61) = vs.map fun v => (alphabet url).getD v 0 := by
    intro vs p h
    rw [List.takeWhile_append_of_pos]
    · cases p <;> simp [List.replicate_succ]
    · intro x hx
      obtain ⟨v, hv, rfl⟩ := List.mem_map.mp hx
      exact bne_iff_ne.mpr (alphabet_no_pad url v (h v hv))
  have e : vs.map (fun v => (alphabet url).getD v 0) = vs'.map fun v => (alphabet url).getD v 0 := by
    rw [← cutOff vs p h1, ← cutOff vs' p' h1', ← h5, ← h5']
  have e' : vs = vs' := by
    clear h4 h4' h5 h5'
    induction vs generalizing vs' with
    | nil => cases vs' <;> simp_all
    | cons v vs ih =>
      cases vs' with
      | nil => simp at e
      | cons v' vs' =>
        simp only [List.map_cons, List.cons.injEq] at e
        rw [alphabet_inj url v (h1 v List.mem_cons_self) v' (h1' v' List.mem_cons_self) e.1,
          ih (fun x hx => h1 x (List.mem_cons_of_mem _ hx)) vs' (fun x hx => h1' x (List.mem_cons_of_mem _ hx)) e.2]
  subst e'
  exact bytes_det h2 h2' (h4.symm.trans h4')

end D1
