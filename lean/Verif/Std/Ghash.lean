import Verif.Std.Field
import Mathlib.Algebra.Polynomial.Roots
/-!
# GHASH as a polynomial in the hash key

The tag of SP 800-38D is a polynomial in the hash key, masked by one block of key stream.  Two different texts have different
polynomials, and a polynomial over a field has no more roots than its degree: so there are few hash keys under which both texts
have given tags.
-/
namespace D1.Std
open D1 Polynomial
set_option maxRecDepth 20000

/-! ## Bytes and numbers -/

theorem beNat_concat (b : Bytes) (x : UInt8) : beNat (b ++ [x]) = beNat b * 256 + x.toNat := by
  rw [beNat, List.foldl_append]; rfl

theorem beNat_lt (b : Bytes) : beNat b < 2 ^ (8 * b.length) := by
  induction b using List.reverseRecOn with
  | nil => exact Nat.one_pos
  | append_singleton b x ih =>
    rw [beNat_concat, List.length_append, List.length_singleton, Nat.mul_add, pow_add]
    have := x.toNat_lt
    have h8 : (2 : Nat) ^ (8 * 1) = 256 := by norm_num
    rw [h8]
    have : beNat b + 1 ≤ 2 ^ (8 * b.length) := ih
    nlinarith

theorem beNat_inj {a b : Bytes} (hl : a.length = b.length) (h : beNat a = beNat b) : a = b := by
  induction a using List.reverseRecOn generalizing b with
  | nil => exact (List.length_eq_zero_iff.mp hl.symm).symm
  | append_singleton a x ih =>
    rcases List.eq_nil_or_concat b with rfl | ⟨b', y, rfl⟩
    · simp at hl
    · rw [List.concat_eq_append] at *
      rw [beNat_concat, beNat_concat] at h
      have hx := x.toNat_lt
      have hy := y.toNat_lt
      have h1 : x.toNat = y.toNat := by omega
      have h2 : beNat a = beNat b' := by omega
      rw [ih (by simpa using hl) h2, UInt8.toNat_inj.mp h1]

theorem xor_digit (u v : Nat) (x y : UInt8) : (u * 256 + x.toNat) ^^^ (v * 256 + y.toNat) = (u ^^^ v) * 256 + (x ^^^ y).toNat := by
  have hx : x.toNat < 2 ^ 8 := x.toNat_lt
  have hy : y.toNat < 2 ^ 8 := y.toNat_lt
  have hxy : (x ^^^ y).toNat < 2 ^ 8 := (x ^^^ y).toNat_lt
  rw [show (256 : Nat) = 2 ^ 8 by norm_num, Nat.mul_comm u, Nat.mul_comm v, Nat.mul_comm (u ^^^ v)]
  apply Nat.eq_of_testBit_eq
  intro i
  rw [Nat.testBit_xor, Nat.testBit_two_pow_mul_add _ hx, Nat.testBit_two_pow_mul_add _ hy, Nat.testBit_two_pow_mul_add _ hxy]
  split
  · rw [UInt8.toNat_xor, Nat.testBit_xor]
  · rw [Nat.testBit_xor]

theorem xorBytes_concat (r s : Bytes) (x y : UInt8) (h : r.length = s.length) :
    xorBytes (r ++ [x]) (s ++ [y]) = xorBytes r s ++ [y ^^^ x] := by
  rw [xorBytes, List.mapIdx_append, xorBytes]
  congr 1
  · apply List.ext_getElem (by simp)
    intro i h1 h2
    rw [List.getElem_mapIdx, List.getElem_mapIdx]
    have : i < r.length := by rw [h]; simpa using h1
    rw [List.getD_eq_getElem?_getD, List.getD_eq_getElem?_getD, List.getElem?_append_left this]
  · simp [← h]

theorem beNat_xorBytes {r s : Bytes} (h : r.length = s.length) : beNat (xorBytes r s) = beNat r ^^^ beNat s := by
  induction s using List.reverseRecOn generalizing r with
  | nil =>
    rw [List.length_eq_zero_iff.mp h]; rfl
  | append_singleton s y ih =>
    rcases List.eq_nil_or_concat r with rfl | ⟨r', x, rfl⟩
    · simp at h
    · rw [List.concat_eq_append] at *
      have h' : r'.length = s.length := by simpa using h
      rw [xorBytes_concat _ _ _ _ h', beNat_concat, beNat_concat, beNat_concat, xor_digit, ih h', UInt8.xor_comm]

theorem beBytes_succ (n v : Nat) : beBytes (n + 1) v = beBytes n (v >>> 8) ++ [UInt8.ofNat v] := by
  rw [beBytes, List.range_succ, List.map_append, beBytes]
  congr 1
  · apply List.map_congr_left
    intro i hi
    have := List.mem_range.mp hi
    rw [← Nat.shiftRight_add, show 8 + 8 * (n - 1 - i) = 8 * (n + 1 - 1 - i) by omega]
  · simp

theorem beNat_beBytes (n v : Nat) : beNat (beBytes n v) = v % 2 ^ (8 * n) := by
  induction n generalizing v with
  | zero => simp [beBytes, beNat, Nat.mod_one]
  | succ n ih =>
    rw [beBytes_succ, beNat_concat, ih, UInt8.toNat_ofNat', Nat.shiftRight_eq_div_pow, Nat.mul_add, pow_add]
    rw [Nat.mul_comm (2 ^ (8 * n)) (2 ^ (8 * 1)), Nat.mod_mul]
    have : (2 : Nat) ^ (8 * 1) = 256 := by norm_num
    rw [this]
    omega

theorem beBytes_inj {n u v : Nat} (hu : u < 2 ^ (8 * n)) (hv : v < 2 ^ (8 * n)) (h : beBytes n u = beBytes n v) : u = v := by
  have := congrArg beNat h
  rwa [beNat_beBytes, beNat_beBytes, Nat.mod_eq_of_lt hu, Nat.mod_eq_of_lt hv] at this

/-! ## The polynomial of a text -/

/-- The `i`-th block. -/
def blk (x : Bytes) (i : Nat) : Nat := beNat ((x.drop (16 * i)).take 16)

theorem blk_lt (x : Bytes) (i : Nat) : blk x i < 2 ^ 128 := by
  refine lt_of_lt_of_le (beNat_lt _) (Nat.pow_le_pow_right (by decide) ?_)
  rw [List.length_take]; omega

theorem ghashFrom_gf {h : Nat} (hh : h < 2 ^ 128) (n : Nat) : ∀ {y : Nat} (x : Bytes), y < 2 ^ 128 →
    gf (ghashFrom h n y x) = gf y * gf h ^ n + ∑ i ∈ Finset.range n, gf (blk x i) * gf h ^ (n - i) ∧ ghashFrom h n y x < 2 ^ 128 := by
  induction n with
  | zero => intro y x hy; exact ⟨by simp [ghashFrom], hy⟩
  | succ n ih =>
    intro y x hy
    obtain ⟨hm, hl⟩ := gf_mul (y ^^^ beNat (x.take 16)) hh
    obtain ⟨e1, e2⟩ := ih (x.drop 16) hl
    refine ⟨?_, e2⟩
    rw [ghashFrom, e1, hm, gf_xor, Finset.sum_range_succ']
    have hb : ∀ i, blk (x.drop 16) i = blk x (i + 1) := fun i => by
      rw [blk, blk, List.drop_drop, show 16 + 16 * i = 16 * (i + 1) by omega]
    have h0 : beNat (x.take 16) = blk x 0 := by rw [blk, Nat.mul_zero, List.drop_zero]
    have hs : ∀ i ∈ Finset.range n, gf (blk (x.drop 16) i) * gf h ^ (n - i) = gf (blk x (i + 1)) * gf h ^ (n + 1 - (i + 1)) := by
      intro i _
      rw [hb, Nat.add_sub_add_right]
    rw [Finset.sum_congr rfl hs, h0, Nat.sub_zero, pow_succ']
    ring

/-- The polynomial of `n` blocks. -/
noncomputable def hashPoly (n : Nat) (x : Bytes) : GF[X] := ∑ i ∈ Finset.range n, C (gf (blk x i)) * X ^ (n - i)

theorem hashPoly_eval {h : Nat} (hh : h < 2 ^ 128) (x : Bytes) :
    (hashPoly (x.length / 16) x).eval (gf h) = gf (ghash h x) ∧ ghash h x < 2 ^ 128 := by
  obtain ⟨h1, h2⟩ := ghashFrom_gf hh (x.length / 16) (y := 0) x (by decide)
  refine ⟨?_, h2⟩
  rw [ghash, h1, gf_zero, zero_mul, zero_add, hashPoly, eval_finsetSum]
  refine Finset.sum_congr rfl fun i _ => ?_
  rw [eval_mul, eval_C, eval_pow, eval_X]

theorem hashPoly_coeff {n i : Nat} (x : Bytes) (hi : i < n) : (hashPoly n x).coeff (n - i) = gf (blk x i) := by
  rw [hashPoly, finsetSum_coeff]
  rw [Finset.sum_eq_single i]
  · rw [coeff_C_mul, coeff_X_pow, if_pos rfl, mul_one]
  · intro j hj hji
    have := Finset.mem_range.mp hj
    rw [coeff_C_mul, coeff_X_pow, if_neg (by omega), mul_zero]
  · intro h
    exact absurd (Finset.mem_range.mpr hi) h

theorem hashPoly_natDegree (n : Nat) (x : Bytes) : (hashPoly n x).natDegree ≤ n := by
  rw [hashPoly]
  refine natDegree_sum_le_of_forall_le _ _ fun i _ => ?_
  exact le_trans (natDegree_C_mul_X_pow_le _ _) (Nat.sub_le _ _)

/-! ## What is authenticated -/

/-- What the tag covers: associated data, ciphertext and their lengths. -/
def authText (a c : Bytes) : Bytes := pad16 a ++ pad16 c ++ beBytes 8 (8 * a.length) ++ beBytes 8 (8 * c.length)

/-- The number of 16-byte blocks that hold `n` bytes. -/
def nBlocks (n : Nat) : Nat := (n + 15) / 16

theorem pad16_length (x : Bytes) : (pad16 x).length = 16 * nBlocks x.length := by
  rw [pad16, List.length_append, List.length_replicate, nBlocks]; omega

theorem authText_length (a c : Bytes) : (authText a c).length = 16 * (nBlocks a.length + nBlocks c.length + 1) := by
  simp only [authText, List.length_append, pad16_length, beBytes_length]; omega

theorem authText_blocks (a c : Bytes) : (authText a c).length / 16 = nBlocks a.length + nBlocks c.length + 1 := by
  rw [authText_length]; omega

theorem authText_last (a c : Bytes) :
    (authText a c).drop (16 * (nBlocks a.length + nBlocks c.length)) = beBytes 8 (8 * a.length) ++ beBytes 8 (8 * c.length) := by
  rw [authText, List.append_assoc]
  exact List.drop_left' (by rw [List.length_append, pad16_length, pad16_length]; omega)

theorem pad16_inj {a a' : Bytes} (hl : a.length = a'.length) (h : pad16 a = pad16 a') : a = a' := by
  have := congrArg (List.take a.length) h
  rwa [pad16, pad16, List.take_left' rfl, List.take_left' hl.symm] at this

theorem authText_inj {a c a' c' : Bytes} (ha : a.length = a'.length) (hc : c.length = c'.length) (h : authText a c = authText a' c') :
    a = a' ∧ c = c' := by
  rw [authText, authText] at h
  have h := (List.append_inj' (List.append_inj' h (by rw [beBytes_length, beBytes_length])).1 (by rw [beBytes_length, beBytes_length])).1
  obtain ⟨h1, h2⟩ := List.append_inj h (by rw [pad16_length, pad16_length, ha])
  exact ⟨pad16_inj ha h1, pad16_inj hc h2⟩

/-- Two texts of whole blocks are equal when their blocks are. -/
theorem eq_of_blk {n : Nat} : ∀ {x y : Bytes}, x.length = 16 * n → y.length = 16 * n → (∀ i < n, blk x i = blk y i) → x = y := by
  induction n with
  | zero =>
    intro x y hx hy _
    rw [List.length_eq_zero_iff.mp hx, List.length_eq_zero_iff.mp hy]
  | succ n ih =>
    intro x y hx hy h
    rw [← List.take_append_drop 16 x, ← List.take_append_drop 16 y]
    congr 1
    · have h0 := h 0 (by omega)
      rw [blk, blk, Nat.mul_zero, List.drop_zero, List.drop_zero] at h0
      exact beNat_inj (by rw [List.length_take, List.length_take]; omega) h0
    · refine ih (by rw [List.length_drop]; omega) (by rw [List.length_drop]; omega) fun i hi => ?_
      have := h (i + 1) (by omega)
      rwa [blk, blk, Nat.mul_add, Nat.mul_one, Nat.add_comm, ← List.drop_drop, ← List.drop_drop] at this

/-- The polynomial of associated data and ciphertext. -/
noncomputable def tagPoly (a c : Bytes) : GF[X] := hashPoly (nBlocks a.length + nBlocks c.length + 1) (authText a c)

theorem tagPoly_inj {a c a' c' : Bytes} (ha : a.length < 2 ^ 61) (hc : c.length < 2 ^ 61) (ha' : a'.length < 2 ^ 61)
    (hc' : c'.length < 2 ^ 61) (h : ∀ i, 0 < i → (tagPoly a c).coeff i = (tagPoly a' c').coeff i) : a = a' ∧ c = c' := by
  have last : ∀ a c : Bytes, (tagPoly a c).coeff 1 = gf (beNat (beBytes 8 (8 * a.length) ++ beBytes 8 (8 * c.length))) := by
    intro a c
    have := hashPoly_coeff (n := nBlocks a.length + nBlocks c.length + 1) (i := nBlocks a.length + nBlocks c.length) (authText a c)
      (by omega)
    rw [Nat.add_sub_cancel_left] at this
    rw [tagPoly, this, blk, authText_last, List.take_of_length_le]
    rw [List.length_append, beBytes_length, beBytes_length]
  have h1 := h 1 (by decide)
  rw [last, last] at h1
  have lt : ∀ u v, beNat (beBytes 8 u ++ beBytes 8 v) < 2 ^ 128 := fun u v => by
    refine lt_of_lt_of_le (beNat_lt _) ?_
    rw [List.length_append, beBytes_length, beBytes_length]
  have h2 := beNat_inj (by simp [beBytes_length]) (gf_inj (lt _ _) (lt _ _) h1)
  obtain ⟨h3, h4⟩ := List.append_inj h2 (by rw [beBytes_length, beBytes_length])
  have e61 : (2 : Nat) ^ (8 * 8) = 8 * 2 ^ 61 := by norm_num
  have la : a.length = a'.length := by
    have := beBytes_inj (by rw [e61]; omega) (by rw [e61]; omega) h3
    omega
  have lc : c.length = c'.length := by
    have := beBytes_inj (by rw [e61]; omega) (by rw [e61]; omega) h4
    omega
  refine authText_inj la lc (eq_of_blk (authText_length a c) (by rw [authText_length, la, lc]) fun i hi => ?_)
  have hi' := h (nBlocks a.length + nBlocks c.length + 1 - i) (by omega)
  rw [tagPoly, tagPoly, ← la, ← lc, hashPoly_coeff _ hi, hashPoly_coeff _ hi] at hi'
  exact gf_inj (blk_lt _ _) (blk_lt _ _) hi'

theorem hashKey_lt (k : Bytes) : hashKey k < 2 ^ 128 := by
  have := beNat_lt (aesEnc k (List.replicate 16 0))
  rwa [aesEnc_length] at this

/-- The tag is the value of the polynomial at the hash key, masked. -/
theorem gcmTag_poly (k n a c : Bytes) :
    gf (beNat (gcmTag k n a c)) = gf (beNat (aesEnc k (beBytes 16 (preCounter k n)))) + (tagPoly a c).eval (gf (hashKey k)) := by
  obtain ⟨h1, h2⟩ := hashPoly_eval (hashKey_lt k) (authText a c)
  rw [gcmTag, gctr, beBytes_length]
  have hks : keyStream k ((16 + 15) / 16) (preCounter k n) = aesEnc k (beBytes 16 (preCounter k n)) := by
    show keyStream k (0 + 1) _ = _
    rw [keyStream, keyStream, List.append_nil]
  rw [hks, beNat_xorBytes (by rw [aesEnc_length, beBytes_length]), gf_xor]
  congr 1
  rw [beNat_beBytes, ← authText, Nat.mod_eq_of_lt h2, ← h1, authText_blocks, tagPoly]

/-! ## Few hash keys allow two different messages -/

/-- The polynomial whose roots are the hash keys under which both texts have the given tags. -/
noncomputable def clashPoly (a c t a' c' t' : Bytes) : GF[X] :=
  tagPoly a c - tagPoly a' c' - C (gf (beNat t) - gf (beNat t'))

theorem clashPoly_root {k n a c a' c' : Bytes} :
    (clashPoly a c (gcmTag k n a c) a' c' (gcmTag k n a' c')).eval (gf (hashKey k)) = 0 := by
  rw [clashPoly, eval_sub, eval_sub, eval_C, gcmTag_poly, gcmTag_poly]
  ring

theorem clashPoly_ne {a c t a' c' t' : Bytes} (ha : a.length < 2 ^ 61) (hc : c.length < 2 ^ 61) (ha' : a'.length < 2 ^ 61)
    (hc' : c'.length < 2 ^ 61) (hne : (a, c) ≠ (a', c')) : clashPoly a c t a' c' t' ≠ 0 := by
  intro h0
  obtain ⟨h1, h2⟩ := tagPoly_inj ha hc ha' hc' fun i hi => by
    have := congrArg (fun p => p.coeff i) h0
    simp only [clashPoly, coeff_sub, coeff_zero, coeff_C, if_neg (Nat.pos_iff_ne_zero.mp hi), sub_zero] at this
    exact sub_eq_zero.mp this
  exact hne (by rw [h1, h2])

theorem clashPoly_natDegree (a c t a' c' t' : Bytes) : (clashPoly a c t a' c' t').natDegree ≤
    max (nBlocks a.length + nBlocks c.length + 1) (nBlocks a'.length + nBlocks c'.length + 1) := by
  rw [clashPoly, natDegree_sub_C]
  refine le_trans (natDegree_sub_le _ _) ?_
  exact max_le_max (hashPoly_natDegree _ _) (hashPoly_natDegree _ _)

/-- The hash keys under which both texts have the given tags: no more of them than there are blocks. -/
theorem clash_keys {a c a' c' : Bytes} (t t' : Bytes) (ha : a.length < 2 ^ 61) (hc : c.length < 2 ^ 61) (ha' : a'.length < 2 ^ 61)
    (hc' : c'.length < 2 ^ 61) (hne : (a, c) ≠ (a', c')) :
    ∃ S : Finset Nat, S.card ≤ max (nBlocks a.length + nBlocks c.length + 1) (nBlocks a'.length + nBlocks c'.length + 1) ∧
      ∀ k n, gcmTag k n a c = t → gcmTag k n a' c' = t' → hashKey k ∈ S := by
  classical
  let R := (clashPoly a c t a' c' t').roots.toFinset
  let g : GF → Nat := fun r => if h : ∃ m < 2 ^ 128, gf m = r then h.choose else 0
  refine ⟨R.image g, ?_, ?_⟩
  · refine le_trans Finset.card_image_le (le_trans (Multiset.toFinset_card_le _) (le_trans (card_roots' _) (clashPoly_natDegree ..)))
  · rintro k n rfl rfl
    refine Finset.mem_image.mpr ⟨gf (hashKey k), ?_, ?_⟩
    · rw [Multiset.mem_toFinset, mem_roots (clashPoly_ne ha hc ha' hc' hne)]
      exact clashPoly_root
    · have hex : ∃ m < 2 ^ 128, gf m = gf (hashKey k) := ⟨_, hashKey_lt k, rfl⟩
      show (if h : ∃ m < 2 ^ 128, gf m = gf (hashKey k) then h.choose else 0) = _
      rw [dif_pos hex]
      exact gf_inj hex.choose_spec.1 (hashKey_lt k) hex.choose_spec.2

end D1.Std
