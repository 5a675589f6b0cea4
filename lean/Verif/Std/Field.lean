import Verif.Std.Gcm
import Mathlib.RingTheory.AdjoinRoot
import Mathlib.FieldTheory.Finite.Basic
import Mathlib.Dynamics.PeriodicPts.Defs
/-!
# The field behind GHASH

SP 800-38D multiplies blocks as polynomials over the field with two elements modulo x^128 + x^7 + x^2 + x + 1.  Here that is
proved of the bitwise algorithm `gfMul`, and that the polynomial is irreducible, so that a product of blocks is zero only if one
of them is.
-/
namespace D1.Std
open Polynomial
set_option maxRecDepth 20000

/-- x^128 + x^7 + x^2 + x + 1. -/
noncomputable def gcmPoly : (ZMod 2)[X] := X ^ 128 + (X ^ 7 + X ^ 2 + X + 1)

/-- A block as a polynomial: the most significant bit is the constant coefficient. -/
noncomputable def blockPoly (n : Nat) : (ZMod 2)[X] :=
  ∑ i ∈ Finset.range 128, if n.testBit (127 - i) then X ^ i else 0

theorem blockPoly_coeff (n k : Nat) : (blockPoly n).coeff k = if k < 128 ∧ n.testBit (127 - k) = true then 1 else 0 := by
  rw [blockPoly, finsetSum_coeff]
  have : ∀ i ∈ Finset.range 128, (if n.testBit (127 - i) = true then (X : (ZMod 2)[X]) ^ i else 0).coeff k =
      if i = k then (if n.testBit (127 - k) = true then 1 else 0) else 0 := by
    intro i _
    by_cases hik : i = k
    · subst hik
      by_cases hb : n.testBit (127 - i) = true <;> simp [hb]
    · rw [if_neg hik]
      by_cases hb : n.testBit (127 - i) = true
      · rw [if_pos hb, coeff_X_pow, if_neg (fun h => hik h.symm)]
      · rw [if_neg hb, coeff_zero]
  rw [Finset.sum_congr rfl this, Finset.sum_ite_eq' (Finset.range 128) k]
  by_cases hk : k < 128
  · simp [hk]
  · simp [hk]

theorem blockPoly_zero : blockPoly 0 = 0 := by
  ext k
  simp [blockPoly_coeff]

theorem blockPoly_xor (a b : Nat) : blockPoly (a ^^^ b) = blockPoly a + blockPoly b := by
  ext k
  rw [coeff_add, blockPoly_coeff, blockPoly_coeff, blockPoly_coeff, Nat.testBit_xor]
  by_cases hk : k < 128
  · cases a.testBit (127 - k) <;> cases b.testBit (127 - k) <;> simp [hk]
    decide
  · simp [hk]

theorem blockPoly_inj {a b : Nat} (ha : a < 2 ^ 128) (hb : b < 2 ^ 128) (h : blockPoly a = blockPoly b) : a = b := by
  apply Nat.eq_of_testBit_eq
  intro i
  by_cases hi : i < 128
  · have := congrArg (fun p => p.coeff (127 - i)) h
    simp only [blockPoly_coeff] at this
    rw [show 127 - (127 - i) = i by omega] at this
    have hl : 127 - i < 128 := by omega
    simp only [hl, true_and] at this
    cases h1 : a.testBit i <;> cases h2 : b.testBit i <;> simp [h1, h2] at this ⊢
  · rw [Nat.testBit_lt_two_pow (lt_of_lt_of_le ha (Nat.pow_le_pow_right (by decide) (by omega))),
      Nat.testBit_lt_two_pow (lt_of_lt_of_le hb (Nat.pow_le_pow_right (by decide) (by omega)))]

theorem blockPoly_degree (n : Nat) : (blockPoly n).degree < (128 : ℕ) := by
  rw [degree_lt_iff_coeff_zero]
  intro m hm
  rw [blockPoly_coeff, if_neg (fun h => absurd h.1 (by omega))]

/-- The block x of a block: the second component of `gfStep`. -/
def timesX (v : Nat) : Nat := if v.testBit 0 then (v >>> 1) ^^^ (0xe1 <<< 120) else v >>> 1

theorem blockPoly_shift {v : Nat} (hv : v < 2 ^ 128) :
    X * blockPoly v = blockPoly (v >>> 1) + if v.testBit 0 then X ^ 128 else 0 := by
  ext k
  rw [coeff_add]
  cases k with
  | zero =>
    rw [coeff_X_mul_zero, blockPoly_coeff, Nat.testBit_shiftRight, Nat.testBit_lt_two_pow (by simpa using hv)]
    cases v.testBit 0 <;> simp
  | succ k =>
    rw [coeff_X_mul, blockPoly_coeff, blockPoly_coeff, Nat.testBit_shiftRight]
    rcases Nat.lt_trichotomy k 127 with hk | hk | hk
    · rw [show 1 + (127 - (k + 1)) = 127 - k by omega]
      have h1 : k < 128 := by omega
      have h2 : k + 1 < 128 := by omega
      have h3 : (if v.testBit 0 then (X : (ZMod 2)[X]) ^ 128 else 0).coeff (k + 1) = 0 := by
        split
        · rw [coeff_X_pow, if_neg (by omega)]
        · rw [coeff_zero]
      rw [h3]
      simp [h1, h2]
    · subst hk
      cases v.testBit 0 <;> simp
    · have h3 : (if v.testBit 0 then (X : (ZMod 2)[X]) ^ 128 else 0).coeff (k + 1) = 0 := by
        split
        · rw [coeff_X_pow, if_neg (by omega)]
        · rw [coeff_zero]
      rw [h3, if_neg (by omega), if_neg (by omega), add_zero]

theorem two_eq_zero' (p : (ZMod 2)[X]) : p + p = 0 := by
  ext k
  rw [coeff_add, coeff_zero]
  exact CharTwo.add_self_eq_zero _

theorem blockPoly_e1 : blockPoly (0xe1 <<< 120) = X ^ 7 + X ^ 2 + X + 1 := by
  ext k
  rw [blockPoly_coeff]
  simp only [coeff_add, coeff_X_pow, coeff_X, coeff_one]
  by_cases hk : k < 128
  · have : ∀ k < 128, (if k < 128 ∧ (0xe1 <<< 120 : Nat).testBit (127 - k) = true then (1 : ZMod 2) else 0) =
      (if k = 7 then 1 else 0) + (if k = 2 then 1 else 0) + (if 1 = k then 1 else 0) + (if k = 0 then 1 else 0) := by decide
    exact this k hk
  · rw [if_neg (fun h => hk h.1), if_neg (by omega), if_neg (by omega), if_neg (by omega), if_neg (by omega)]
    simp

theorem blockPoly_timesX {v : Nat} (hv : v < 2 ^ 128) :
    blockPoly (timesX v) = X * blockPoly v + if v.testBit 0 then gcmPoly else 0 := by
  have hs := blockPoly_shift hv
  have h2 := two_eq_zero' ((X : (ZMod 2)[X]) ^ 128)
  have he := blockPoly_e1
  rw [gcmPoly, timesX]
  generalize (X : (ZMod 2)[X]) ^ 128 = q at hs h2 ⊢
  generalize 0xe1 <<< 120 = e at he ⊢
  rw [hs]
  split
  · rw [blockPoly_xor, he, add_assoc (blockPoly _) q, ← add_assoc q q, h2, zero_add]
  · rw [add_zero, add_zero]

theorem timesX_lt {v : Nat} (hv : v < 2 ^ 128) : timesX v < 2 ^ 128 := by
  have h1 : v >>> 1 < 2 ^ 128 := by rw [Nat.shiftRight_eq_div_pow]; omega
  rw [timesX]
  split
  · exact Nat.xor_lt_two_pow h1 (by decide)
  · exact h1

/-! ## Blocks as elements of the ring of polynomials modulo `gcmPoly` -/

/-- The ring. -/
abbrev GF := AdjoinRoot gcmPoly

/-- The element of a block. -/
noncomputable def gf (n : Nat) : GF := AdjoinRoot.mk gcmPoly (blockPoly n)

theorem gf_zero : gf 0 = 0 := by rw [gf, blockPoly_zero, map_zero]

theorem gf_xor (a b : Nat) : gf (a ^^^ b) = gf a + gf b := by rw [gf, blockPoly_xor, map_add, ← gf, ← gf]

theorem lowPoly_degree : (X ^ 7 + X ^ 2 + X + 1 : (ZMod 2)[X]).degree < (128 : ℕ) := by
  have : (X ^ 7 + X ^ 2 + X + 1 : (ZMod 2)[X]).degree ≤ (7 : ℕ) := by compute_degree!
  exact lt_of_le_of_lt this (by norm_cast)

theorem gcmPoly_monic : gcmPoly.Monic := monic_X_pow_add lowPoly_degree

theorem gcmPoly_degree : gcmPoly.degree = (128 : ℕ) := by
  rw [gcmPoly, degree_add_eq_left_of_degree_lt (by rw [degree_X_pow]; exact lowPoly_degree), degree_X_pow]

theorem gf_inj {a b : Nat} (ha : a < 2 ^ 128) (hb : b < 2 ^ 128) (h : gf a = gf b) : a = b := by
  rw [gf, gf, AdjoinRoot.mk_eq_mk] at h
  have hd : (blockPoly a - blockPoly b).degree < gcmPoly.degree := by
    rw [gcmPoly_degree]
    exact lt_of_le_of_lt (degree_sub_le _ _) (max_lt (blockPoly_degree a) (blockPoly_degree b))
  exact blockPoly_inj ha hb (sub_eq_zero.mp (eq_zero_of_dvd_of_degree_lt h hd))

theorem gf_timesX {v : Nat} (hv : v < 2 ^ 128) : gf (timesX v) = AdjoinRoot.root gcmPoly * gf v := by
  rw [gf, blockPoly_timesX hv, map_add, map_mul, AdjoinRoot.mk_X]
  have : AdjoinRoot.mk gcmPoly (if v.testBit 0 = true then gcmPoly else 0) = 0 := by
    split
    · exact AdjoinRoot.mk_self
    · exact map_zero _
  rw [this, add_zero, ← gf]

theorem gf_mul (x : Nat) {y : Nat} (hy : y < 2 ^ 128) : gf (gfMul x y) = gf x * gf y ∧ gfMul x y < 2 ^ 128 := by
  have inv : ∀ n, ∀ zv, zv = (List.range n).foldl (gfStep x) (0, y) →
      zv.1 < 2 ^ 128 ∧ zv.2 < 2 ^ 128 ∧ gf zv.2 = AdjoinRoot.root gcmPoly ^ n * gf y ∧
      gf zv.1 = (∑ i ∈ Finset.range n, if x.testBit (127 - i) then AdjoinRoot.root gcmPoly ^ i else 0) * gf y := by
    intro n
    induction n with
    | zero =>
      rintro zv rfl
      exact ⟨by show 0 < _; decide, hy, by simp, by simp [gf_zero]⟩
    | succ n ih =>
      rintro zv rfl
      obtain ⟨h1, h2, h3, h4⟩ := ih _ rfl
      rw [List.range_succ, List.foldl_append]
      set s := (List.range n).foldl (gfStep x) (0, y)
      have e : [n].foldl (gfStep x) s = (if x.testBit (127 - n) then s.1 ^^^ s.2 else s.1, timesX s.2) := rfl
      rw [e, Finset.sum_range_succ, add_mul, ← h4]
      refine ⟨?_, timesX_lt h2, ?_, ?_⟩
      · show (if x.testBit (127 - n) then s.1 ^^^ s.2 else s.1) < _
        split
        · exact Nat.xor_lt_two_pow h1 h2
        · exact h1
      · show gf (timesX s.2) = _
        rw [gf_timesX h2, h3, pow_succ']; ring
      · show gf (if x.testBit (127 - n) then s.1 ^^^ s.2 else s.1) = _
        cases x.testBit (127 - n)
        · simp
        · simp only [if_true]
          rw [gf_xor, h3]
  obtain ⟨h1, -, -, h4⟩ := inv 128 _ rfl
  refine ⟨?_, h1⟩
  have hx : gf x = ∑ i ∈ Finset.range 128, if x.testBit (127 - i) then AdjoinRoot.root gcmPoly ^ i else 0 := by
    rw [gf, blockPoly, map_sum]
    refine Finset.sum_congr rfl fun i _ => ?_
    split
    · rw [map_pow, AdjoinRoot.mk_X]
    · rw [map_zero]
  rw [gfMul, h4, hx]

/-! ## The ring is a field -/

/-- The square of the square … of a block. -/
def sqIter : Nat → Nat → Nat
  | 0, n => n
  | k + 1, n => sqIter k (gfMul n n)

theorem gf_sqIter (k : Nat) : ∀ {n : Nat}, n < 2 ^ 128 → gf (sqIter k n) = gf n ^ 2 ^ k ∧ sqIter k n < 2 ^ 128 := by
  induction k with
  | zero => intro n hn; exact ⟨by rw [sqIter, pow_zero, pow_one], hn⟩
  | succ k ih =>
    intro n hn
    obtain ⟨h1, h2⟩ := gf_mul n hn
    obtain ⟨h3, h4⟩ := ih h2
    exact ⟨by rw [sqIter, h3, h1, ← pow_two, ← pow_mul, ← pow_succ'], h4⟩

/-- The block x. -/
def blockX : Nat := 2 ^ 126
/-- The block 1. -/
def blockOne : Nat := 2 ^ 127

theorem gf_one : gf blockOne = 1 := by
  have : blockPoly blockOne = 1 := by
    ext k
    rw [blockPoly_coeff, coeff_one, blockOne]
    by_cases hk : k < 128
    · have : ∀ k < 128, (if k < 128 ∧ (2 ^ 127 : Nat).testBit (127 - k) = true then (1 : ZMod 2) else 0) = if k = 0 then 1 else 0 := by
        decide
      exact this k hk
    · rw [if_neg (fun h => hk h.1), if_neg (by omega)]
  rw [gf, this, map_one]

theorem gf_X : gf blockX = AdjoinRoot.root gcmPoly := by
  have : blockPoly blockX = X := by
    ext k
    rw [blockPoly_coeff, coeff_X, blockX]
    by_cases hk : k < 128
    · have : ∀ k < 128, (if k < 128 ∧ (2 ^ 126 : Nat).testBit (127 - k) = true then (1 : ZMod 2) else 0) = if 1 = k then 1 else 0 := by
        decide
      exact this k hk
    · rw [if_neg (fun h => hk h.1), if_neg (by omega)]
  rw [gf, this, AdjoinRoot.mk_X]

theorem sqIter_128 : sqIter 128 blockX = blockX := by decide +kernel

theorem sqIter_64 : gfMul (sqIter 64 blockX ^^^ blockX) 31972403664298480875478317702777361017 = blockOne := by decide +kernel

theorem root_128 : (AdjoinRoot.root gcmPoly : GF) ^ 2 ^ 128 = AdjoinRoot.root gcmPoly := by
  rw [← gf_X, ← (gf_sqIter 128 (n := blockX) (by decide)).1, sqIter_128]

theorem root_64 : ∃ u : GF, ((AdjoinRoot.root gcmPoly : GF) ^ 2 ^ 64 + AdjoinRoot.root gcmPoly) * u = 1 := by
  refine ⟨gf 31972403664298480875478317702777361017, ?_⟩
  rw [← gf_X, ← (gf_sqIter 64 (n := blockX) (by decide)).1, ← gf_xor, ← (gf_mul _ (by decide)).1, sqIter_64, gf_one]

theorem sq_iterate {F : Type} [Monoid F] (k : Nat) (y : F) : (fun y : F => y ^ 2)^[k] y = y ^ 2 ^ k := by
  induction k with
  | zero => simp
  | succ k ih => rw [Function.iterate_succ_apply', ih, ← pow_mul, ← pow_succ]

theorem gf_finite : Module.Finite (ZMod 2) GF := gcmPoly_monic.finite_adjoinRoot

theorem gf_card : Nat.card GF = 2 ^ 128 := by
  have := gf_finite
  rw [Module.natCard_eq_pow_finrank (K := ZMod 2), (AdjoinRoot.powerBasis' gcmPoly_monic).finrank]
  simp only [Nat.card_eq_fintype_card, ZMod.card]
  congr 1
  show gcmPoly.natDegree = 128
  exact natDegree_eq_of_degree_eq_some gcmPoly_degree

theorem gf_maximal_bot (m : Ideal GF) [hm : m.IsMaximal] : Function.Injective (Ideal.Quotient.mk m) := by
  letI := Ideal.Quotient.field m
  have hfin := gf_finite
  haveI : Finite GF := Module.finite_of_finite (ZMod 2)
  haveI : Finite (GF ⧸ m) := Finite.of_surjective _ Ideal.Quotient.mk_surjective
  haveI : Module.Finite (ZMod 2) (GF ⧸ m) := Module.Finite.of_finite
  letI : Fintype (GF ⧸ m) := Fintype.ofFinite _
  have hc : Nat.card (GF ⧸ m) = 2 ^ Module.finrank (ZMod 2) (GF ⧸ m) := by
    rw [Module.natCard_eq_pow_finrank (K := ZMod 2), Nat.card_eq_fintype_card, ZMod.card]
  generalize Module.finrank (ZMod 2) (GF ⧸ m) = d at hc
  set a : GF ⧸ m := Ideal.Quotient.mk m (AdjoinRoot.root gcmPoly) with ha
  have p1 : Function.IsPeriodicPt (fun y : GF ⧸ m => y ^ 2) 128 a := by
    show (fun y : GF ⧸ m => y ^ 2)^[128] a = a
    rw [sq_iterate, ha, ← map_pow, root_128]
  have p2 : Function.IsPeriodicPt (fun y : GF ⧸ m => y ^ 2) d a := by
    show (fun y : GF ⧸ m => y ^ 2)^[d] a = a
    rw [sq_iterate, ← hc, Nat.card_eq_fintype_card, FiniteField.pow_card]
  have hdvd : 128 ∣ d := by
    have p3 := p1.gcd p2
    have hg : Nat.gcd 128 d ∣ 2 ^ 7 := Nat.gcd_dvd_left 128 d
    obtain ⟨k, hk, hk2⟩ := (Nat.dvd_prime_pow Nat.prime_two).mp hg
    rcases Nat.lt_or_ge k 7 with hlt | hge
    · exfalso
      have h64 : Nat.gcd 128 d ∣ 64 := by
        rw [hk2]; exact pow_dvd_pow 2 (show k ≤ 6 by omega)
      have p4 : (fun y : GF ⧸ m => y ^ 2)^[64] a = a := p3.trans_dvd h64
      rw [sq_iterate] at p4
      obtain ⟨u, hu⟩ := root_64
      have hu1 := congrArg (Ideal.Quotient.mk m) hu
      rw [map_mul, map_add, map_pow, ← ha, p4, map_one] at hu1
      haveI : CharP (GF ⧸ m) 2 := charP_of_injective_algebraMap (algebraMap (ZMod 2) (GF ⧸ m)).injective 2
      rw [CharTwo.add_self_eq_zero, zero_mul] at hu1
      exact zero_ne_one hu1
    · have : k = 7 := by omega
      have h7 : Nat.gcd 128 d = 128 := by rw [hk2, this]; rfl
      rw [← h7]; exact Nat.gcd_dvd_right 128 d
  have hle : Nat.card GF ≤ Nat.card (GF ⧸ m) := by
    rw [gf_card, hc]
    refine Nat.pow_le_pow_right (by decide) (Nat.le_of_dvd (Nat.pos_of_ne_zero fun h0 => ?_) hdvd)
    rw [h0, pow_zero] at hc
    have := Nat.card_eq_one_iff_unique.mp hc
    exact absurd (this.1.elim (0 : GF ⧸ m) 1) zero_ne_one
  exact ((Nat.bijective_iff_surjective_and_card _).mpr
    ⟨Ideal.Quotient.mk_surjective, le_antisymm hle (Nat.card_le_card_of_surjective _ Ideal.Quotient.mk_surjective)⟩).1

theorem gf_nontrivial : Nontrivial GF := by
  refine ⟨⟨gf 0, gf 1, fun h => ?_⟩⟩
  exact absurd (gf_inj (by decide) (by decide) h) (by decide)

/-- Blocks have no zero divisors: x^128 + x^7 + x^2 + x + 1 is irreducible. -/
instance gf_isDomain : IsDomain GF := by
  have := gf_nontrivial
  obtain ⟨m, hm⟩ := Ideal.exists_maximal GF
  letI := Ideal.Quotient.field m
  exact (gf_maximal_bot m).isDomain (Ideal.Quotient.mk m)

theorem gfMul_eq_zero {x y : Nat} (hx : x < 2 ^ 128) (hy : y < 2 ^ 128) (h : gfMul x y = 0) : x = 0 ∨ y = 0 := by
  have h1 := (gf_mul x hy).1
  rw [h, gf_zero] at h1
  rcases mul_eq_zero.mp h1.symm with h2 | h2
  · exact .inl (gf_inj hx (by decide) (h2.trans gf_zero.symm))
  · exact .inr (gf_inj hy (by decide) (h2.trans gf_zero.symm))

end D1.Std
