import Verif.Model.Kmac
import Verif.Spec.Sp800185
import Verif.Proofs.Data
import Mathlib.Tactic.NormNum
/-!
# KMAC encodings
-/
namespace D1
attribute [-simp] UInt8.ofNat_add UInt8.ofNat_mul UInt8.ofNat_sub
open Spec

theorem ofNat_eq_zero (n : Nat) : UInt8.ofNat n = 0 ↔ n % 256 = 0 := by
  rw [← UInt8.toNat_inj, UInt8.toNat_ofNat']; simp

/-- The number of bytes of a 64-bit value. -/
theorem exists_byteCount (x : Nat) (h : x < 2 ^ 64) : ∃ n, IsByteCount x n ∧ n ≤ 8 := by
  have key : ∀ n, 0 < n → n ≤ 8 → x < 256 ^ n → (n = 1 ∨ 256 ^ (n - 1) ≤ x) → ∃ n, IsByteCount x n ∧ n ≤ 8 := by
    intro n h0 h8 h1 h2
    refine ⟨n, ⟨h0, h1, fun m hm hx => ?_⟩, h8⟩
    rcases h2 with rfl | h2
    · omega
    · rcases Nat.lt_or_ge m n with hlt | hge
      · have : 256 ^ m ≤ 256 ^ (n - 1) := Nat.pow_le_pow_right (by omega) (by omega)
        omega
      · exact hge
  by_cases h1 : x < 256; · exact key 1 (by omega) (by omega) (by simpa using h1) (.inl rfl)
  by_cases h2 : x < 256 ^ 2; · exact key 2 (by omega) (by omega) h2 (.inr (by simpa using h1))
  by_cases h3 : x < 256 ^ 3; · exact key 3 (by omega) (by omega) h3 (.inr (by simpa using h2))
  by_cases h4 : x < 256 ^ 4; · exact key 4 (by omega) (by omega) h4 (.inr (by simpa using h3))
  by_cases h5 : x < 256 ^ 5; · exact key 5 (by omega) (by omega) h5 (.inr (by simpa using h4))
  by_cases h6 : x < 256 ^ 6; · exact key 6 (by omega) (by omega) h6 (.inr (by simpa using h5))
  by_cases h7 : x < 256 ^ 7; · exact key 7 (by omega) (by omega) h7 (.inr (by simpa using h6))
  exact key 8 (by omega) (by omega) (by omega) (.inr (by simpa using h7))

theorem byteCount_unique {x n m : Nat} (h : IsByteCount x n) (h' : IsByteCount x m) : n = m := by
  have := h.2.2 m h'.1 h'.2.1
  have := h'.2.2 n h.1 h.2.1
  omega

theorem byteCount_ge {x n : Nat} (h : IsByteCount x n) (h2 : n ≠ 1) : 256 ^ (n - 1) ≤ x := by
  obtain ⟨h0, h1, hm⟩ := h
  rcases Nat.lt_or_ge x (256 ^ (n - 1)) with hlt | hge
  · have := hm (n - 1) (by omega) hlt; omega
  · exact hge

theorem skipZeros_eq (b : Bytes) (hi k : Nat) (hk : k ≤ hi) (he : k = hi ∨ b.getD k 0 ≠ 0) :
    ∀ f lo, lo ≤ k → k - lo ≤ f → (∀ j, lo ≤ j → j < k → b.getD j 0 = 0) → skipZeros b hi f lo = k
  | 0, lo, h1, h2, _ => by rw [skipZeros]; omega
  | f + 1, lo, h1, h2, hz => by
    rw [skipZeros]
    by_cases h : lo = k
    · subst h
      rw [if_neg]
      rintro ⟨h3, h4⟩
      rcases he with he | he
      · omega
      · exact he h4
    · rw [if_pos ⟨by omega, hz lo (by omega) (by omega)⟩]
      exact skipZeros_eq b hi k hk he f (lo + 1) (by omega) (by omega) (fun j h3 h4 => hz j (by omega) h4)

theorem getD_append (a b : Bytes) (i : Nat) (h : i < a.length) : (a ++ b).getD i 0 = a.getD i 0 := by
  simp [List.getD_eq_getElem?_getD, List.getElem?_append_left h]

theorem be64_eq (x : Nat) : be64 x = bytesBE 8 x := by
  simp only [be64, bytesBE, List.range, List.range.loop, List.map_cons, List.map_nil]
  norm_num

theorem bytesBE_length (n x : Nat) : (bytesBE n x).length = n := by simp [bytesBE]

theorem bytesBE_get (n x i : Nat) (h : i < n) : (bytesBE n x).getD i 0 = UInt8.ofNat (x / 256 ^ (n - 1 - i)) := by
  rw [List.getD_eq_getElem?_getD, List.getElem?_eq_getElem (by rw [bytesBE_length]; exact h)]
  simp [bytesBE]

theorem bytesBE_drop (m n x : Nat) (h : n ≤ m) : (bytesBE m x).drop (m - n) = bytesBE n x := by
  apply List.ext_getElem (by simp [bytesBE]; omega)
  intro i h1 h2
  simp only [bytesBE, List.getElem_drop, List.getElem_map, List.getElem_range]
  simp [bytesBE] at h2
  congr 3
  omega

theorem be64_high (x n i : Nat) (h : x < 256 ^ n) (hi : i + n < 8) : (be64 x).getD i 0 = 0 := by
  rw [be64_eq, bytesBE_get _ _ _ (by omega), Nat.div_eq_of_lt]
  · rfl
  · exact Nat.lt_of_lt_of_le h (Nat.pow_le_pow_right (by omega) (by omega))

theorem be64_first (x n : Nat) (h : IsByteCount x n) (h8 : n ≤ 8) (h1 : n ≠ 1) : (be64 x).getD (8 - n) 0 ≠ 0 := by
  have hpos := h.1
  rw [be64_eq, bytesBE_get _ _ _ (by omega), show 8 - 1 - (8 - n) = n - 1 by omega, Ne, ofNat_eq_zero]
  have hge := byteCount_ge h h1
  have hlt : x < 256 ^ (n - 1) * 256 := by
    have := h.2.1
    rwa [← Nat.pow_succ, show (n - 1).succ = n by omega]
  have h3 : x / 256 ^ (n - 1) < 256 := Nat.div_lt_of_lt_mul hlt
  have h4 : 0 < x / 256 ^ (n - 1) := Nat.div_pos hge (Nat.pow_pos (by omega))
  omega

/-- `leftEncode` for a value of `n` bytes. -/
theorem leftEncode_eq (x n : Nat) (h : IsByteCount x n) (h8 : n ≤ 8) : leftEncode x = UInt8.ofNat n :: bytesBE n x := by
  have hpos := h.1
  have hi : skipZeros (0 :: be64 x) 8 8 1 = 9 - n := by
    apply skipZeros_eq _ _ _ (by omega)
    · by_cases h1 : n = 1
      · left; omega
      · right
        rw [show 9 - n = (8 - n) + 1 by omega, List.getD_cons_succ]
        exact be64_first x n h h8 h1
    · omega
    · omega
    · intro j h1 h2
      obtain ⟨j, rfl⟩ : ∃ k, j = k + 1 := ⟨j - 1, by omega⟩
      rw [List.getD_cons_succ]
      exact be64_high x n j h.2.1 (by omega)
  simp only [leftEncode, hi]
  rw [show 9 - (9 - n) = n by omega, show 9 - n - 1 = 8 - n by omega, be64_eq]
  have hl : 8 - n < (0 :: bytesBE 8 x).length := by simp [bytesBE_length]; omega
  rw [List.drop_set, if_neg (by omega), Nat.sub_self, List.drop_eq_getElem_cons hl, List.set_cons_zero, List.drop_succ_cons,
    bytesBE_drop 8 n x h8]

/-- `rightEncode` for a value of `n` bytes. -/
theorem rightEncode_eq (x n : Nat) (h : IsByteCount x n) (h8 : n ≤ 8) : rightEncode x = bytesBE n x ++ [UInt8.ofNat n] := by
  have hpos := h.1
  have hbl : (be64 x).length = 8 := rfl
  have hi : skipZeros (be64 x ++ [0]) 7 8 0 = 8 - n := by
    apply skipZeros_eq _ _ _ (by omega)
    · by_cases h1 : n = 1
      · left; omega
      · right
        rw [getD_append _ _ _ (by omega)]
        exact be64_first x n h h8 h1
    · omega
    · omega
    · intro j h1 h2
      rw [getD_append _ _ _ (by omega)]
      exact be64_high x n j h.2.1 (by omega)
  simp only [rightEncode, hi]
  rw [show 8 - (8 - n) = n by omega, List.set_append, if_neg (by omega), hbl, List.drop_append, hbl,
    show 8 - n - 8 = 0 by omega, be64_eq, bytesBE_drop 8 n x h8]
  rfl

/-- The number that big-endian bytes denote. -/
def valBE (b : Bytes) : Nat := b.foldl (fun v d => v * 256 + d.toNat) 0

theorem bytesBE_succ (n x : Nat) : bytesBE (n + 1) x = bytesBE n (x / 256) ++ [UInt8.ofNat x] := by
  simp only [bytesBE, List.range_succ, List.map_append, List.map_cons, List.map_nil]
  congr 1
  · apply List.map_congr_left
    intro i hi
    simp only [List.mem_range] at hi
    rw [Nat.div_div_eq_div_mul, ← Nat.pow_succ', show (n - 1 - i).succ = n + 1 - 1 - i by omega]
  · simp

theorem valBE_bytesBE (n x : Nat) (h : x < 256 ^ n) : valBE (bytesBE n x) = x := by
  induction n generalizing x with
  | zero => simp at h; subst h; rfl
  | succ n ih =>
    have h2 : x / 256 < 256 ^ n := Nat.div_lt_of_lt_mul (by rw [Nat.pow_succ] at h; omega)
    have := ih (x / 256) h2
    simp only [valBE] at this ⊢
    rw [bytesBE_succ, List.foldl_append, this, List.foldl_cons, List.foldl_nil, UInt8.toNat_ofNat']
    omega

theorem ofNat_small_inj {a b : Nat} (ha : a ≤ 8) (hb : b ≤ 8) (h : UInt8.ofNat a = UInt8.ofNat b) : a = b := by
  have := congrArg UInt8.toNat h
  rwa [toNat_ofNat_lt (by omega), toNat_ofNat_lt (by omega)] at this

/-- `leftEncode` is injective even when followed by anything. -/
theorem leftEncode_append_inj {x y : Nat} (hx : x < 2 ^ 64) (hy : y < 2 ^ 64) {r s : Bytes}
    (h : leftEncode x ++ r = leftEncode y ++ s) : x = y ∧ r = s := by
  obtain ⟨n, hn, hn8⟩ := exists_byteCount x hx
  obtain ⟨m, hm, hm8⟩ := exists_byteCount y hy
  rw [leftEncode_eq x n hn hn8, leftEncode_eq y m hm hm8] at h
  simp only [List.cons_append, List.cons.injEq] at h
  have e := ofNat_small_inj hn8 hm8 h.1
  subst e
  obtain ⟨h1, h2⟩ := List.append_inj h.2 (by simp [bytesBE_length])
  refine ⟨?_, h2⟩
  rw [← valBE_bytesBE n x hn.2.1, h1, valBE_bytesBE n y hm.2.1]

/-- `rightEncode` is injective even when preceded by anything. -/
theorem rightEncode_append_inj {x y : Nat} (hx : x < 2 ^ 64) (hy : y < 2 ^ 64) {r s : Bytes}
    (h : r ++ rightEncode x = s ++ rightEncode y) : x = y ∧ r = s := by
  obtain ⟨n, hn, hn8⟩ := exists_byteCount x hx
  obtain ⟨m, hm, hm8⟩ := exists_byteCount y hy
  rw [rightEncode_eq x n hn hn8, rightEncode_eq y m hm hm8, ← List.append_assoc, ← List.append_assoc] at h
  obtain ⟨h1, h2⟩ := List.append_inj' h (by simp)
  simp only [List.cons.injEq, and_true] at h2
  have e := ofNat_small_inj hn8 hm8 h2
  subst e
  obtain ⟨h3, h4⟩ := List.append_inj' h1 (by simp [bytesBE_length])
  refine ⟨?_, h3⟩
  rw [← valBE_bytesBE n x hn.2.1, h4, valBE_bytesBE n y hm.2.1]

theorem leftEncode_length_pos (x : Nat) (hx : x < 2 ^ 64) : 2 ≤ (leftEncode x).length ∧ (leftEncode x).length ≤ 9 := by
  obtain ⟨n, hn, hn8⟩ := exists_byteCount x hx
  rw [leftEncode_eq x n hn hn8]
  have := hn.1
  simp [bytesBE_length]; omega

/-! ## What the sponge absorbs -/

/-- The bytes the sponge has absorbed when `Sum` squeezes: cSHAKE header, padded key, message, encoded tag length. -/
def kmacInput (rate : Nat) (key custom msg : Bytes) (tagSize : Nat) : Bytes :=
  bytepad (leftEncode (kmacName.length * 8) ++ kmacName ++ leftEncode (custom.length * 8) ++ custom) rate ++
    bytepad (leftEncode (key.length * 8) ++ key) rate ++ msg ++ rightEncode (tagSize * 8)

theorem newKMAC256_eq (key : Bytes) (tagSize : Nat) (custom : Bytes) (hk : 32 ≤ key.length) (ht : 8 ≤ tagSize) :
    newKMAC256 key tagSize custom = some
      ⟨(newCShake 136 kmacName custom).write (bytepad (leftEncode (key.length * 8) ++ key) 136), tagSize,
        leftEncode (key.length * 8) ++ key, 136⟩ := by
  rw [newKMAC256, if_neg (by omega), newKMAC, if_neg (by rw [kmacMinimumTagSize]; omega)]

theorem foldl_write_absorbed (k : Kmac) (ms : List Bytes) :
    (ms.foldl Kmac.write k).shake.absorbed = k.shake.absorbed ++ ms.flatten ∧
    (ms.foldl Kmac.write k).shake.rate = k.shake.rate ∧ (ms.foldl Kmac.write k).tagSize = k.tagSize ∧
    (ms.foldl Kmac.write k).shake.initBlock = k.shake.initBlock ∧ (ms.foldl Kmac.write k).initBlock = k.initBlock ∧
    (ms.foldl Kmac.write k).blockSize = k.blockSize := by
  induction ms generalizing k with
  | nil => simp
  | cons m ms ih =>
    simp only [List.foldl_cons, List.flatten_cons]
    obtain ⟨h1, h2, h3, h4, h5, h6⟩ := ih (k.write m)
    refine ⟨?_, ?_, ?_, ?_, ?_, ?_⟩
    · rw [h1]; simp [Kmac.write, CShake.write]
    · rw [h2]; rfl
    · rw [h3]; rfl
    · rw [h4]; rfl
    · rw [h5]; rfl
    · rw [h6]; rfl

theorem kmacKdf_eq (P : Prims) (size : Nat) (kik label : Bytes) (context : List Bytes) (hk : 32 ≤ kik.length)
    (hs : 8 ≤ size) :
    kmacKdf P size kik label context = some (P.sponge 136 (kmacInput 136 kik label context.flatten size) size) := by
  rw [kmacKdf, newKMAC256_eq kik size label hk hs, Option.map_some]
  congr 1
  obtain ⟨h1, h2, h3, -⟩ := foldl_write_absorbed
    ⟨(newCShake 136 kmacName label).write (bytepad (leftEncode (kik.length * 8) ++ kik) 136), size,
        leftEncode (kik.length * 8) ++ kik, 136⟩ context
  simp only [Kmac.sum, CShake.read, List.nil_append]
  simp only [CShake.write] at h1 h2 h3 ⊢
  rw [h1, h2, h3]
  rfl

theorem tag_eq (P : Prims) (t : Tagger) (data : J) (hk : t.key.length = 32) :
    t.tag P data = some (P.sponge 136 (kmacInput 136 t.key data.render [] 32) 32) := by
  rw [Tagger.tag, newKMAC256_eq _ _ _ (by omega) (by simp [tagLen]), Option.map_some]
  congr 1
  simp only [Kmac.sum, CShake.read, CShake.write, List.nil_append, kmacInput, List.append_nil]
  rfl

theorem bytepad_append_inj {x y : Bytes} {w : Nat} (hw : w < 2 ^ 64) {r s : Bytes}
    (hlen : x.length = y.length) (h : bytepad x w ++ r = bytepad y w ++ s) : x = y ∧ r = s := by
  simp only [bytepad, List.append_assoc] at h
  obtain ⟨_, h1⟩ := leftEncode_append_inj hw hw h
  obtain ⟨h2, h3⟩ := List.append_inj h1 hlen
  refine ⟨h2, ?_⟩
  rw [h2] at h3
  exact List.append_cancel_left h3

/-- A padded encoding of a length-prefixed string determines the string, whatever follows. -/
theorem bytepad_str_inj {pre x y : Bytes} {w : Nat} (hw : w < 2 ^ 64) {r s : Bytes}
    (hx : x.length * 8 < 2 ^ 64) (hy : y.length * 8 < 2 ^ 64)
    (h : bytepad (pre ++ leftEncode (x.length * 8) ++ x) w ++ r = bytepad (pre ++ leftEncode (y.length * 8) ++ y) w ++ s) :
    x = y ∧ r = s := by
  have h0 := h
  simp only [bytepad, List.append_assoc] at h
  obtain ⟨_, h1⟩ := leftEncode_append_inj hw hw h
  have h2 := List.append_cancel_left h1
  obtain ⟨h3, h4⟩ := leftEncode_append_inj hx hy h2
  have hl : x.length = y.length := by omega
  have hxy : x = y := (List.append_inj h4 hl).1
  refine ⟨hxy, ?_⟩
  rw [hxy] at h0
  exact List.append_cancel_left h0

theorem kmacInput_inj {rate : Nat} (hr : rate < 2 ^ 64) {k k' c c' m m' : Bytes} {t t' : Nat}
    (hk : k.length * 8 < 2 ^ 64) (hk' : k'.length * 8 < 2 ^ 64) (hc : c.length * 8 < 2 ^ 64)
    (hc' : c'.length * 8 < 2 ^ 64) (ht : t * 8 < 2 ^ 64) (ht' : t' * 8 < 2 ^ 64)
    (h : kmacInput rate k c m t = kmacInput rate k' c' m' t') : k = k' ∧ c = c' ∧ m = m' ∧ t = t' := by
  simp only [kmacInput] at h
  obtain ⟨h1, h2⟩ := bytepad_str_inj (pre := leftEncode (kmacName.length * 8) ++ kmacName)
    (r := bytepad (leftEncode (k.length * 8) ++ k) rate ++ (m ++ rightEncode (t * 8)))
    (s := bytepad (leftEncode (k'.length * 8) ++ k') rate ++ (m' ++ rightEncode (t' * 8))) hr hc hc'
    (by simpa only [List.append_assoc] using h)
  have h3 := bytepad_str_inj (pre := []) hr hk hk' (by simpa using h2)
  obtain ⟨h4, h5⟩ := h3
  obtain ⟨h6, h7⟩ := rightEncode_append_inj ht ht' h5
  exact ⟨h4, h1, h7, by omega⟩

end D1
