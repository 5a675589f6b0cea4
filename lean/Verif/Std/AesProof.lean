import Verif.Std.Aes
/-!
# AES is a permutation of the 16-byte blocks under every key
-/
namespace D1.Std
open D1

theorem forall_u8 (p : UInt8 → Prop) [DecidablePred p] (h : ∀ n : Fin 256, p (UInt8.ofNat n.val)) (x : UInt8) : p x := by
  have := h ⟨x.toNat, x.toNat_lt⟩
  simpa using this

theorem invSbox_sbox : ∀ x : UInt8, invSbox (sbox x) = x := forall_u8 _ (by decide +kernel)
theorem sbox_invSbox : ∀ x : UInt8, sbox (invSbox x) = x := forall_u8 _ (by decide +kernel)

/-- Multiplication by x is linear. -/
theorem xtime_xor (a b : UInt8) : xtime (a ^^^ b) = xtime a ^^^ xtime b := by
  have hs : (a ^^^ b) <<< 1 = a <<< 1 ^^^ b <<< 1 := UInt8.shiftLeft_xor ..
  have hm : (a ^^^ b) &&& 0x80 = (a &&& 0x80) ^^^ (b &&& 0x80) := by
    simp only [← UInt8.toBitVec_inj, UInt8.toBitVec_xor, UInt8.toBitVec_and]
    ext i
    simp [Bool.and_xor_distrib_right]
  have hc : ∀ x : UInt8, x &&& 0x80 = 0 ∨ x &&& 0x80 = 0x80 := forall_u8 _ (by decide +kernel)
  have hf : ∀ x : UInt8, xtime x = x <<< 1 ^^^ (if x &&& 0x80 = 0 then 0 else 0x1b) := fun x => by
    rw [xtime]; split <;> simp
  have hg : (if (a &&& 0x80) ^^^ (b &&& 0x80) = 0 then (0 : UInt8) else 0x1b)
      = (if a &&& 0x80 = 0 then 0 else 0x1b) ^^^ (if b &&& 0x80 = 0 then 0 else 0x1b) := by
    rcases hc a with ha | ha <;> rcases hc b with hb | hb <;> rw [ha, hb] <;> rfl
  rw [hf, hf, hf, hs, hm, hg]
  ac_rfl

theorem xorBytes_length (rk s : Bytes) : (xorBytes rk s).length = s.length := by simp [xorBytes]

theorem xorBytes_twice (rk s : Bytes) : xorBytes rk (xorBytes rk s) = s := by
  apply List.ext_getElem (by simp [xorBytes])
  intro i h1 h2
  simp only [xorBytes, List.getElem_mapIdx]
  rw [UInt8.xor_assoc, UInt8.xor_self, UInt8.xor_zero]

theorem invSubBytes_subBytes (s : Bytes) : invSubBytes (subBytes s) = s := by
  simp [invSubBytes, subBytes, Function.comp_def, invSbox_sbox]

theorem subBytes_invSubBytes (s : Bytes) : subBytes (invSubBytes s) = s := by
  simp [invSubBytes, subBytes, Function.comp_def, sbox_invSbox]

theorem list16 {s : Bytes} (h : s.length = 16) :
    ∃ a b c d e f g i j k l m n o p q, s = [a, b, c, d, e, f, g, i, j, k, l, m, n, o, p, q] := by
  match s, h with
  | [a, b, c, d, e, f, g, i, j, k, l, m, n, o, p, q], _ => exact ⟨a, b, c, d, e, f, g, i, j, k, l, m, n, o, p, q, rfl⟩

theorem invShiftRows_shiftRows {s : Bytes} (h : s.length = 16) : invShiftRows (shiftRows s) = s := by
  obtain ⟨a, b, c, d, e, f, g, i, j, k, l, m, n, o, p, q, rfl⟩ := list16 h
  rfl

theorem shiftRows_invShiftRows {s : Bytes} (h : s.length = 16) : shiftRows (invShiftRows s) = s := by
  obtain ⟨a, b, c, d, e, f, g, i, j, k, l, m, n, o, p, q, rfl⟩ := list16 h
  rfl

theorem shiftRows_length (s : Bytes) : (shiftRows s).length = 16 := by simp [shiftRows]
theorem invShiftRows_length (s : Bytes) : (invShiftRows s).length = 16 := by simp [invShiftRows]

theorem mixColumns_length (s : Bytes) : (mixColumns s).length = s.length := by
  fun_induction mixColumns s <;> simp_all

theorem invMixColumns_length (s : Bytes) : (invMixColumns s).length = s.length := by
  fun_induction invMixColumns s <;> simp_all

/-- One row of a product of the two matrices, applied to one byte. -/
theorem mix_one : ∀ x : UInt8,
    mul14 (mul2 x) ^^^ mul11 x ^^^ mul13 x ^^^ mul9 (mul3 x) = x ∧
    mul14 (mul3 x) ^^^ mul11 (mul2 x) ^^^ mul13 x ^^^ mul9 x = 0 ∧
    mul14 x ^^^ mul11 (mul3 x) ^^^ mul13 (mul2 x) ^^^ mul9 x = 0 ∧
    mul14 x ^^^ mul11 x ^^^ mul13 (mul3 x) ^^^ mul9 (mul2 x) = 0 := forall_u8 _ (by decide +kernel)

theorem mul9_xor (a b : UInt8) : mul9 (a ^^^ b) = mul9 a ^^^ mul9 b := by simp only [mul9, xtime_xor]; ac_rfl
theorem mul11_xor (a b : UInt8) : mul11 (a ^^^ b) = mul11 a ^^^ mul11 b := by simp only [mul11, xtime_xor]; ac_rfl
theorem mul13_xor (a b : UInt8) : mul13 (a ^^^ b) = mul13 a ^^^ mul13 b := by simp only [mul13, xtime_xor]; ac_rfl
theorem mul14_xor (a b : UInt8) : mul14 (a ^^^ b) = mul14 a ^^^ mul14 b := by simp only [mul14, xtime_xor]; ac_rfl
theorem mul2_xor (a b : UInt8) : mul2 (a ^^^ b) = mul2 a ^^^ mul2 b := by simp only [mul2, xtime_xor]
theorem mul3_xor (a b : UInt8) : mul3 (a ^^^ b) = mul3 a ^^^ mul3 b := by simp only [mul3, xtime_xor]; ac_rfl

/-- The circulant rows act alike: one row of `invMixColumns` on a mixed column. -/
theorem mix_row (a b c d : UInt8) :
    mul14 (mul2 a ^^^ mul3 b ^^^ c ^^^ d) ^^^ mul11 (a ^^^ mul2 b ^^^ mul3 c ^^^ d) ^^^
      mul13 (a ^^^ b ^^^ mul2 c ^^^ mul3 d) ^^^ mul9 (mul3 a ^^^ b ^^^ c ^^^ mul2 d) = a := by
  simp only [mul9_xor, mul11_xor, mul13_xor, mul14_xor]
  calc _ = (mul14 (mul2 a) ^^^ mul11 a ^^^ mul13 a ^^^ mul9 (mul3 a)) ^^^
        (mul14 (mul3 b) ^^^ mul11 (mul2 b) ^^^ mul13 b ^^^ mul9 b) ^^^
        (mul14 c ^^^ mul11 (mul3 c) ^^^ mul13 (mul2 c) ^^^ mul9 c) ^^^
        (mul14 d ^^^ mul11 d ^^^ mul13 (mul3 d) ^^^ mul9 (mul2 d)) := by ac_rfl
    _ = a := by rw [(mix_one a).1, (mix_one b).2.1, (mix_one c).2.2.1, (mix_one d).2.2.2]; simp

theorem unmix_one : ∀ x : UInt8,
    mul2 (mul14 x) ^^^ mul3 (mul9 x) ^^^ mul13 x ^^^ mul11 x = x ∧
    mul2 (mul11 x) ^^^ mul3 (mul14 x) ^^^ mul9 x ^^^ mul13 x = 0 ∧
    mul2 (mul13 x) ^^^ mul3 (mul11 x) ^^^ mul14 x ^^^ mul9 x = 0 ∧
    mul2 (mul9 x) ^^^ mul3 (mul13 x) ^^^ mul11 x ^^^ mul14 x = 0 := forall_u8 _ (by decide +kernel)

theorem unmix_row (a b c d : UInt8) :
    mul2 (mul14 a ^^^ mul11 b ^^^ mul13 c ^^^ mul9 d) ^^^ mul3 (mul9 a ^^^ mul14 b ^^^ mul11 c ^^^ mul13 d) ^^^
      (mul13 a ^^^ mul9 b ^^^ mul14 c ^^^ mul11 d) ^^^ (mul11 a ^^^ mul13 b ^^^ mul9 c ^^^ mul14 d) = a := by
  simp only [mul2_xor, mul3_xor]
  calc _ = (mul2 (mul14 a) ^^^ mul3 (mul9 a) ^^^ mul13 a ^^^ mul11 a) ^^^
        (mul2 (mul11 b) ^^^ mul3 (mul14 b) ^^^ mul9 b ^^^ mul13 b) ^^^
        (mul2 (mul13 c) ^^^ mul3 (mul11 c) ^^^ mul14 c ^^^ mul9 c) ^^^
        (mul2 (mul9 d) ^^^ mul3 (mul13 d) ^^^ mul11 d ^^^ mul14 d) := by ac_rfl
    _ = a := by rw [(unmix_one a).1, (unmix_one b).2.1, (unmix_one c).2.2.1, (unmix_one d).2.2.2]; simp

theorem invMixColumns_mixColumns (s : Bytes) : invMixColumns (mixColumns s) = s := by
  fun_induction mixColumns s with
  | case1 a b c d r ih =>
    rw [invMixColumns, ih]
    have h1 := mix_row a b c d
    have h2 := mix_row b c d a
    have h3 := mix_row c d a b
    have h4 := mix_row d a b c
    congr 1
    congr 1
    · refine Eq.trans ?_ h2; ac_rfl
    congr 1
    · refine Eq.trans ?_ h3; ac_rfl
    congr 1
    · refine Eq.trans ?_ h4; ac_rfl
  | case2 r hr => rw [invMixColumns]; exact hr

theorem mixColumns_invMixColumns (s : Bytes) : mixColumns (invMixColumns s) = s := by
  fun_induction invMixColumns s with
  | case1 a b c d r ih =>
    rw [mixColumns, ih]
    have h1 := unmix_row a b c d
    have h2 := unmix_row b c d a
    have h3 := unmix_row c d a b
    have h4 := unmix_row d a b c
    congr 1
    congr 1
    · refine Eq.trans ?_ h2; ac_rfl
    congr 1
    · refine Eq.trans ?_ h3; ac_rfl
    congr 1
    · refine Eq.trans ?_ h4; ac_rfl
  | case2 r hr => rw [mixColumns]; exact hr

theorem subBytes_length (s : Bytes) : (subBytes s).length = s.length := by simp [subBytes]
theorem invSubBytes_length (s : Bytes) : (invSubBytes s).length = s.length := by simp [invSubBytes]

theorem aesRound_length (s rk : Bytes) : (aesRound s rk).length = 16 := by
  rw [aesRound, xorBytes_length, mixColumns_length, shiftRows_length]

theorem aesInvRound_length (s rk : Bytes) : (aesInvRound s rk).length = 16 := by
  rw [aesInvRound, invMixColumns_length, xorBytes_length, invSubBytes_length, invShiftRows_length]

theorem foldl_aesRound_length (rks : List Bytes) {s : Bytes} (h : s.length = 16) :
    (rks.foldl aesRound s).length = 16 := by
  induction rks generalizing s with
  | nil => exact h
  | cons a r ih => exact ih (aesRound_length _ _)

theorem foldl_aesInvRound_length (rks : List Bytes) {s : Bytes} (h : s.length = 16) :
    (rks.foldl aesInvRound s).length = 16 := by
  induction rks generalizing s with
  | nil => exact h
  | cons a r ih => exact ih (aesInvRound_length _ _)

/-- Undoing the rounds: each inverse round undoes the linear part of its round and the substitution of the next. -/
theorem invRounds (rks : List Bytes) {s : Bytes} (h : s.length = 16) :
    invSubBytes (invShiftRows (rks.reverse.foldl aesInvRound (shiftRows (subBytes (rks.foldl aesRound s))))) = s := by
  induction rks generalizing s with
  | nil =>
    simp only [List.reverse_nil, List.foldl_nil]
    rw [invShiftRows_shiftRows (by rw [subBytes_length, h]), invSubBytes_subBytes]
  | cons rk rks ih =>
    have h' := aesRound_length s rk
    rw [List.foldl_cons, List.reverse_cons, List.foldl_append, List.foldl_cons, List.foldl_nil, aesInvRound, ih h',
      aesRound, xorBytes_twice, invMixColumns_mixColumns, invShiftRows_shiftRows (by rw [subBytes_length, h]),
      invSubBytes_subBytes]

theorem rounds_inv (rks : List Bytes) {s : Bytes} (h : s.length = 16) :
    shiftRows (subBytes (rks.foldl aesRound (invSubBytes (invShiftRows (rks.reverse.foldl aesInvRound s))))) = s := by
  induction rks generalizing s with
  | nil =>
    simp only [List.reverse_nil, List.foldl_nil]
    rw [subBytes_invSubBytes, shiftRows_invShiftRows h]
  | cons rk rks ih =>
    have e := ih h
    have hl := foldl_aesInvRound_length rks.reverse h
    rw [List.reverse_cons, List.foldl_append, List.foldl_cons]
    simp only [List.foldl_cons, List.foldl_nil]
    have : aesRound (invSubBytes (invShiftRows (aesInvRound (rks.reverse.foldl aesInvRound s) rk))) rk
        = invSubBytes (invShiftRows (rks.reverse.foldl aesInvRound s)) := by
      rw [aesRound, subBytes_invSubBytes, shiftRows_invShiftRows (aesInvRound_length _ _), aesInvRound,
        mixColumns_invMixColumns, xorBytes_twice]
    rw [this]
    exact e

theorem cipherWith_length (rks : List Bytes) (s : Bytes) : (cipherWith rks s).length = 16 := by
  simp only [cipherWith, xorBytes_length, shiftRows_length]

theorem invCipherWith_length (rks : List Bytes) (s : Bytes) : (invCipherWith rks s).length = 16 := by
  simp only [invCipherWith, xorBytes_length, invSubBytes_length, invShiftRows_length]

theorem invCipherWith_cipherWith (rks : List Bytes) {s : Bytes} (h : s.length = 16) :
    invCipherWith rks (cipherWith rks s) = s := by
  simp only [invCipherWith, cipherWith, xorBytes_twice]
  rw [invRounds _ (by rw [xorBytes_length, h]), xorBytes_twice]

theorem cipherWith_invCipherWith (rks : List Bytes) {s : Bytes} (h : s.length = 16) :
    cipherWith rks (invCipherWith rks s) = s := by
  simp only [invCipherWith, cipherWith, xorBytes_twice]
  rw [rounds_inv _ (by rw [xorBytes_length, h]), xorBytes_twice]

theorem aesEnc_length (k b : Bytes) : (aesEnc k b).length = 16 := by rw [aesEnc, cipherWith_length]
theorem aesDec_length (k b : Bytes) : (aesDec k b).length = 16 := by rw [aesDec, invCipherWith_length]
theorem aesDec_aesEnc (k : Bytes) {b : Bytes} (h : b.length = 16) : aesDec k (aesEnc k b) = b := by
  rw [aesDec, aesEnc, invCipherWith_cipherWith _ h]
theorem aesEnc_aesDec (k : Bytes) {b : Bytes} (h : b.length = 16) : aesEnc k (aesDec k b) = b := by
  rw [aesDec, aesEnc, cipherWith_invCipherWith _ h]

end D1.Std
