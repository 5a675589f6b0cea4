import Verif.Spec.Sp80038F
import Verif.Proofs.Crypto
import Verif.Props.Crypto
/-!
# C66: key wrapping is KWP of NIST SP 800-38F
-/
namespace D1
attribute [-simp] UInt8.ofNat_add UInt8.ofNat_mul UInt8.ofNat_sub

open Spec

/-- All semiblocks have eight bytes. -/
def Semi (d : List Bytes) : Prop := ∀ b ∈ d, b.length = 8

theorem semiblocks_spec (n : Nat) (b : Bytes) (h : b.length = 8 * n) :
    (semiblocks n b).length = n ∧ Semi (semiblocks n b) ∧ (semiblocks n b).flatten = b := by
  induction n generalizing b with
  | zero => simp [semiblocks, Semi]; exact List.length_eq_zero_iff.mp (by simpa using h)
  | succ n ih =>
    obtain ⟨h1, h2, h3⟩ := ih (b.drop 8) (by simp; omega)
    refine ⟨by simp [semiblocks, h1], ?_, by simp [semiblocks, h3]⟩
    intro x hx
    simp only [semiblocks, List.mem_cons] at hx
    rcases hx with rfl | hx
    · simp; omega
    · exact h2 x hx

theorem semi_flatten_length (d : List Bytes) (h : Semi d) : d.flatten.length = 8 * d.length := by
  induction d with
  | nil => rfl
  | cons b d ih =>
    have h1 := h b (List.mem_cons_self)
    have h2 := ih (fun x hx => h x (List.mem_cons_of_mem _ hx))
    simp only [List.flatten_cons, List.length_append, List.length_cons]
    omega

theorem semi_split (d : List Bytes) (h : Semi d) (j : Nat) (hj : j < d.length) :
    d.flatten = (d.take j).flatten ++ d[j] ++ (d.drop (j + 1)).flatten ∧ (d.take j).flatten.length = 8 * j ∧
      d[j].length = 8 := by
  refine ⟨?_, ?_, h _ (List.getElem_mem hj)⟩
  · have := congrArg List.flatten (List.take_append_drop j d).symm
    rwa [List.drop_eq_getElem_cons hj, List.flatten_append, List.flatten_cons, ← List.append_assoc] at this
  · rw [semi_flatten_length _ (fun x hx => h x (List.mem_of_mem_take hx))]; simp; omega

theorem xorRound_spec (a : Bytes) (t : Nat) (ha : a.length = 8) (ht : t < 2 ^ 32) :
    xorRound a t = xorBytes a (bytesBE 8 t) := by
  apply List.ext_getElem (by simp [xorBytes, bytesBE, ha])
  intro i h1 h2
  have hi : i < 8 := by simpa [ha] using h1
  simp only [xorRound, xorBytes, bytesBE, List.getElem_mapIdx, List.getElem_zipWith, List.getElem_map, List.getElem_range]
  split
  · rfl
  · rename_i h4
    have : t / 256 ^ (8 - 1 - i) = 0 := by
      apply Nat.div_eq_of_lt
      refine lt_of_lt_of_le ht ?_
      have : (256 : Nat) ^ 4 ≤ 256 ^ (8 - 1 - i) := Nat.pow_le_pow_right (by omega) (by omega)
      omega
    rw [this]; simp

section
variable {P : Prims} (L : P.Laws) (key : Bytes)
include L

/-- One turn of the code's loop, in place, is one step of the standard, on shifted registers. -/
theorem wA_forward (bc i j : Nat) (a : Bytes) (d : List Bytes) (hd : Semi d) (hl : d.length = bc) (ha : a.length = 8)
    (hj : j < bc) (ht : roundConst bc i j < 2 ^ 32) :
    ∃ a' d', Semi d' ∧ d'.length = bc ∧ a'.length = 8 ∧
      wA P key bc (a, d.flatten) (i, j) = (a', d'.flatten) ∧
      wForward (P.aesEnc key) (roundConst bc i j) (a, d.drop j ++ d.take j) = (a', d'.drop (j + 1) ++ d'.take (j + 1)) := by
  have hjd : j < d.length := by omega
  obtain ⟨s1, s2, s3⟩ := semi_split d hd j hjd
  have hx : (d.flatten.drop (8 * j)).take 8 = d[j] := by
    rw [s1, List.append_assoc, List.drop_left' s2, List.take_left' s3]
  have hb : (a ++ d[j]).length = 16 := by simp only [List.length_append]; omega
  have ho := L.aes_len key _ hb
  refine ⟨xorBytes ((P.aesEnc key (a ++ d[j])).take 8) (bytesBE 8 (roundConst bc i j)),
    d.set j ((P.aesEnc key (a ++ d[j])).drop 8), ?_, by simp [hl], by simp [xorBytes, bytesBE, ho], ?_, ?_⟩
  · intro x hx
    rcases List.mem_or_eq_of_mem_set hx with h | rfl
    · exact hd x h
    · simp [ho]
  · simp only [wA, hx]
    rw [xorRound_spec _ _ (by simp [ho]) ht]
    congr 1
    have e1 : (d.set j ((P.aesEnc key (a ++ d[j])).drop 8)).flatten =
        (d.take j).flatten ++ (P.aesEnc key (a ++ d[j])).drop 8 ++ (d.drop (j + 1)).flatten := by
      rw [List.set_eq_take_append_cons_drop, if_pos hjd]; simp
    have ho8 : ((P.aesEnc key (a ++ d[j])).drop 8).length = 8 := by simp [ho]
    have hfl := semi_flatten_length d hd
    rw [e1, copyAt_fit _ _ _ (by omega), ho8]
    congr 1
    · congr 1
      rw [s1, List.append_assoc, List.take_left' s2]
    · conv_lhs => rw [s1]
      rw [List.drop_left' (by simp only [List.length_append]; omega)]
  · rw [List.drop_eq_getElem_cons hjd]
    simp only [List.cons_append, wForward]
    rw [List.drop_set_of_lt (by omega), List.set_eq_take_append_cons_drop, if_pos hjd,
      show d.take j ++ (P.aesEnc key (a ++ d[j])).drop 8 :: d.drop (j + 1) =
        (d.take j ++ [(P.aesEnc key (a ++ d[j])).drop 8]) ++ d.drop (j + 1) by simp,
      List.take_left' (by simp; omega), List.append_assoc]

/-- The turns of one round. -/
theorem wRound (bc i m : Nat) (hm : m ≤ bc) (ht : i * bc + bc < 2 ^ 32) (x0 : Bytes × List Bytes) (a : Bytes)
    (d : List Bytes) (hd : Semi d) (hl : d.length = bc) (ha : a.length = 8)
    (hx : stepsUp (wForward (P.aesEnc key)) (i * bc) x0 = (a, d)) :
    ∃ a' d', Semi d' ∧ d'.length = bc ∧ a'.length = 8 ∧
      ((List.range m).map fun j => (i, j)).foldl (wA P key bc) (a, d.flatten) = (a', d'.flatten) ∧
      stepsUp (wForward (P.aesEnc key)) (i * bc + m) x0 = (a', d'.drop m ++ d'.take m) := by
  induction m with
  | zero => exact ⟨a, d, hd, hl, ha, rfl, by simpa using hx⟩
  | succ m ih =>
    obtain ⟨a1, d1, h1, h2, h3, h4, h5⟩ := ih (by omega)
    obtain ⟨a2, d2, k1, k2, k3, k4, k5⟩ := wA_forward L key bc i m a1 d1 h1 h2 h3 (by omega)
      (by simp only [roundConst]; omega)
    refine ⟨a2, d2, k1, k2, k3, ?_, ?_⟩
    · rw [List.range_succ, List.map_append, List.foldl_append, h4]; exact k4
    · rw [← Nat.add_assoc, stepsUp, h5]; exact k5

/-- The rounds. -/
theorem wRounds (bc n : Nat) (ht : n * bc < 2 ^ 32) (a : Bytes) (d : List Bytes) (hd : Semi d) (hl : d.length = bc)
    (ha : a.length = 8) :
    ∃ a' d', Semi d' ∧ d'.length = bc ∧ a'.length = 8 ∧
      ((List.range n).flatMap fun i => (List.range bc).map fun j => (i, j)).foldl (wA P key bc) (a, d.flatten) =
        (a', d'.flatten) ∧
      stepsUp (wForward (P.aesEnc key)) (n * bc) (a, d) = (a', d') := by
  induction n with
  | zero => exact ⟨a, d, hd, hl, ha, rfl, by simp [stepsUp]⟩
  | succ n ih =>
    have hnb : (n + 1) * bc = n * bc + bc := Nat.succ_mul n bc
    obtain ⟨a1, d1, h1, h2, h3, h4, h5⟩ := ih (by omega)
    obtain ⟨a2, d2, k1, k2, k3, k4, k5⟩ := wRound L key bc n bc (le_refl _) (by omega) (a, d) a1 d1 h1 h2 h3 h5
    refine ⟨a2, d2, k1, k2, k3, ?_, ?_⟩
    · rw [List.range_succ, List.flatMap_append, List.foldl_append, h4]; simpa using k4
    · rw [hnb, k5, ← k2]; simp

/-- The loops of `computeW` compute Algorithm 1. -/
theorem wPerm_kwW (d : Bytes) (h8 : 8 ≤ d.length) (hm : d.length % 8 = 0) (hs : d.length < 2 ^ 31) :
    wPerm P key d = kwW (P.aesEnc key) d := by
  obtain ⟨s1, s2, s3⟩ := semiblocks_spec (d.length / 8 - 1) (d.drop 8) (by simp; omega)
  obtain ⟨a, d', -, -, -, h4, h5⟩ := wRounds L key (d.length / 8 - 1) 6 (by omega) (d.take 8) _ s2 s1 (by simp; omega)
  rw [s3] at h4
  simp only [wPerm, kwW, h5]
  rw [show wSchedule (d.length / 8 - 1) = (List.range 6).flatMap fun i => (List.range (d.length / 8 - 1)).map fun j => (i, j)
    from rfl, h4]

theorem wBackward_wForward (t : Nat) (a : Bytes) (r : List Bytes) (hr : Semi r) (h0 : r ≠ []) (ha : a.length = 8) :
    Semi (wForward (P.aesEnc key) t (a, r)).2 ∧ (wForward (P.aesEnc key) t (a, r)).2.length = r.length ∧
      (wForward (P.aesEnc key) t (a, r)).1.length = 8 ∧
      wBackward (P.aesDec key) t (wForward (P.aesEnc key) t (a, r)) = (a, r) := by
  cases r with
  | nil => exact absurd rfl h0
  | cons x r =>
    have hx : x.length = 8 := hr x (List.mem_cons_self)
    have hb : (a ++ x).length = 16 := by simp only [List.length_append]; omega
    have ho := L.aes_len key _ hb
    have hd := L.aes_dec_enc key _ hb
    simp only [wForward]
    generalize P.aesEnc key (a ++ x) = o at ho hd
    have hxx : xorBytes (xorBytes (o.take 8) (bytesBE 8 t)) (bytesBE 8 t) = o.take 8 := by
      apply List.ext_getElem (by simp [xorBytes, bytesBE, ho])
      intro i h1 h2
      simp only [xorBytes, List.getElem_zipWith]
      rw [UInt8.xor_assoc, UInt8.xor_self, UInt8.xor_zero]
    refine ⟨?_, by simp, by simp [xorBytes, bytesBE, ho], ?_⟩
    · intro y hy
      rcases List.mem_append.mp hy with h | h
      · exact hr y (List.mem_cons_of_mem _ h)
      · rw [List.mem_singleton.mp h]; simp [ho]
    · have key2 : ∀ l : List Bytes, l = r ++ [o.drop 8] →
          wBackward (P.aesDec key) t (xorBytes (o.take 8) (bytesBE 8 t), l) = (a, x :: r) := by
        intro l hl
        cases l with
        | nil => simp at hl
        | cons y l =>
          have e1 : (y :: l).getLast (List.cons_ne_nil _ _) = o.drop 8 := by simp [hl]
          have e2 : (y :: l).dropLast = r := by simp [hl]
          simp only [wBackward, e1, e2, hxx, List.take_append_drop, hd]
          rw [List.take_left' ha, List.drop_left' ha]
      exact key2 _ rfl

theorem stepsDown_stepsUp (s : Nat) (a : Bytes) (r : List Bytes) (hr : Semi r) (h0 : r ≠ []) (ha : a.length = 8) :
    (∃ a' r', stepsUp (wForward (P.aesEnc key)) s (a, r) = (a', r') ∧ Semi r' ∧ r'.length = r.length ∧ a'.length = 8) ∧
    stepsDown (wBackward (P.aesDec key)) s (stepsUp (wForward (P.aesEnc key)) s (a, r)) = (a, r) := by
  induction s with
  | zero => exact ⟨⟨a, r, rfl, hr, rfl, ha⟩, rfl⟩
  | succ s ih =>
    obtain ⟨⟨a', r', h1, h2, h3, h4⟩, h5⟩ := ih
    have h0' : r' ≠ [] := by
      intro h; subst h
      exact h0 (List.length_eq_zero_iff.mp h3.symm)
    obtain ⟨k1, k2, k3, k4⟩ := wBackward_wForward L key (s + 1) a' r' h2 h0' h4
    refine ⟨⟨(wForward (P.aesEnc key) (s + 1) (a', r')).1, (wForward (P.aesEnc key) (s + 1) (a', r')).2,
      by rw [stepsUp, h1], k1, by omega, k3⟩, ?_⟩
    · rw [stepsUp, stepsDown, h1, k4, ← h1, h5]

omit L in
theorem semiblocks_flatten (r : List Bytes) (hr : Semi r) : semiblocks r.length r.flatten = r := by
  induction r with
  | nil => rfl
  | cons x r ih =>
    have hx : x.length = 8 := hr x (List.mem_cons_self)
    simp only [List.length_cons, semiblocks, List.flatten_cons]
    rw [List.take_left' hx, List.drop_left' hx, ih (fun y hy => hr y (List.mem_cons_of_mem _ hy))]

/-- The standard's Algorithm 2 undoes its Algorithm 1. -/
theorem kwWInv_kwW (d : Bytes) (h16 : 16 ≤ d.length) (hm : d.length % 8 = 0) :
    kwWInv (P.aesDec key) (kwW (P.aesEnc key) d) = d := by
  obtain ⟨s1, s2, s3⟩ := semiblocks_spec (d.length / 8 - 1) (d.drop 8) (by simp; omega)
  have h0 : semiblocks (d.length / 8 - 1) (d.drop 8) ≠ [] := by
    intro h; rw [h] at s1; simp at s1; omega
  have ha : (d.take 8).length = 8 := by simp; omega
  obtain ⟨⟨a', r', h1, h2, h3, h4⟩, h5⟩ := stepsDown_stepsUp L key (6 * (d.length / 8 - 1)) (d.take 8) _ s2 h0 ha
  have hfl := semi_flatten_length r' h2
  rw [s1] at h3
  have hk : kwW (P.aesEnc key) d = a' ++ r'.flatten := by simp only [kwW, h1]
  have hlen : (a' ++ r'.flatten).length / 8 = d.length / 8 := by simp only [List.length_append]; omega
  rw [hk]
  simp only [kwWInv, hlen]
  rw [List.take_left' h4, List.drop_left' h4, ← h3, semiblocks_flatten _ h2, h3, ← h1, h5]
  simp only [s3, List.take_append_drop]

/-- The loops of `invertW` compute Algorithm 2. -/
theorem wPermInv_kwWInv (d : Bytes) (h16 : 16 ≤ d.length) (hm : d.length % 8 = 0) (hs : d.length < 2 ^ 31) :
    wPermInv P key d = kwWInv (P.aesDec key) d := by
  have hl := wPermInv_length L key d (by omega) hm
  have h1 := kwWInv_kwW L key (wPermInv P key d) (by omega) (by omega)
  rw [← wPerm_kwW L key _ (by omega) (by omega) (by omega), wPerm_wPermInv L key d (by omega) hm] at h1
  exact h1.symm

/-- C66: wrapping a key of 16 to 8192 bytes is KWP-AE of the standard under the wrapping key. -/
theorem C66_wrap_standard (data : Bytes) (h1 : 16 ≤ data.length) (h2 : data.length ≤ 8192) :
    kwpWrap P key data = .ok (kwpAE (P.aesEnc key) data) := by
  have hp : kwpPlain data = icv2 ++ bytesBE 4 data.length ++ data ++ List.replicate (padBytes data.length) 0 := by
    have hs := wrappingSize_eq data.length
    have e : wrappingSize data.length - 8 - data.length = padBytes data.length := by
      simp only [padBytes]; omega
    have e4 : be32 data.length = bytesBE 4 data.length := by
      simp [be32, bytesBE, List.range_succ]
    rw [kwpPlain, e, kwpIv, e4]
    congr 3
  have hl := kwpPlain_length data
  have hs := wrappingSize_eq data.length
  rw [kwpWrap_eq L key data h1 h2, wPerm_kwW L key _ (by omega) (by omega) (by omega)]
  simp only [kwpAE]
  rw [if_neg (by omega), ← hp]

omit L in
theorem be32Val_valueBE (u : Bytes) (h : 4 ≤ u.length) : be32Val u = valueBE (u.take 4) := by
  match u, h with
  | b0 :: b1 :: b2 :: b3 :: r, _ =>
    simp only [be32Val, valueBE, List.take_succ_cons, List.take_zero, List.getD_cons_zero, List.getD_cons_succ,
      List.foldl_cons, List.foldl_nil]
    omega

omit L in
theorem be32Val_icv2 (u : Bytes) (h : 4 ≤ u.length) : be32Val u = ivPrefix ↔ u.take 4 = icv2 := by
  constructor
  · intro e
    rw [← be32_be32Val u h, e]; decide
  · intro e
    rw [be32Val_valueBE u h, e]; decide

/-- C66: unwrapping a string of a size that `Unwrap` accepts is KWP-AD of the standard. -/
theorem C66_unwrap_standard (c : Bytes) (h1 : 24 ≤ c.length) (h2 : c.length ≤ 8200) (hm : c.length % 8 = 0) (k : Bytes) :
    kwpUnwrap P key c = .ok k ↔ kwpAD (P.aesDec key) c = some k := by
  have w16 : wrappingSize minWrapSize = 24 := rfl
  have w8192 : wrappingSize maxWrapSize = 8200 := rfl
  have hl := wPermInv_length L key c (by omega) hm
  rw [kwpUnwrap, if_neg (by omega), if_neg (by omega), if_neg (by omega), invertW_eq L key c h1 hm]
  simp only [kwpAD]
  rw [if_neg (show ¬ c.length / 8 = 2 by omega), ← wPermInv_kwWInv L key c (by omega) hm (by omega)]
  generalize wPermInv P key c = s at hl
  rw [← be32Val_valueBE (s.drop 4) (by simp; omega)]
  generalize be32Val (s.drop 4) = plen
  have hw := wrappingSize_eq plen
  by_cases hi : be32Val s = ivPrefix
  · rw [if_neg (show ¬ be32Val s ≠ ivPrefix from fun h => h hi),
      if_neg (show ¬ s.take 4 ≠ icv2 from fun h => h ((be32Val_icv2 s (by omega)).mp hi))]
    by_cases hp : wrappingSize plen = s.length
    · rw [if_neg (show ¬ wrappingSize plen ≠ s.length from fun h => h hp),
        if_neg (show ¬ (8 * (((c.length / 8 : Nat) : Int) - 1) - (plen : Int) < 0 ∨
          8 * (((c.length / 8 : Nat) : Int) - 1) - (plen : Int) > 7) by omega)]
      have e : s.length - (8 * (((c.length / 8 : Nat) : Int) - 1) - (plen : Int)).toNat = 8 + plen := by omega
      have e2 : (s.drop (8 + plen)).length = (8 * (((c.length / 8 : Nat) : Int) - 1) - (plen : Int)).toNat := by
        rw [List.length_drop]; omega
      rw [e, ← e2]
      by_cases hz : (s.drop (8 + plen)).any (· ≠ 0) = true
      · rw [if_pos hz, if_pos]
        · simp
        · intro hh
          rw [hh] at hz
          simp at hz
      · rw [if_neg hz, if_neg]
        · simp
        · simp only [ne_eq, Decidable.not_not]
          rw [List.eq_replicate_iff]
          refine ⟨rfl, fun b hb => ?_⟩
          simp only [ne_eq, decide_not, List.any_eq_true, not_exists, not_and, Bool.not_eq_true',
            decide_eq_false_iff_not, Decidable.not_not] at hz
          simpa using hz b hb
    · rw [if_pos (show wrappingSize plen ≠ s.length from hp),
        if_pos (show 8 * (((c.length / 8 : Nat) : Int) - 1) - (plen : Int) < 0 ∨
          8 * (((c.length / 8 : Nat) : Int) - 1) - (plen : Int) > 7 by omega)]
      simp
  · rw [if_pos (show be32Val s ≠ ivPrefix from hi),
      if_pos (show s.take 4 ≠ icv2 from fun h => hi ((be32Val_icv2 s (by omega)).mpr h))]
    simp

end

/-- A concrete case: a 17-byte key under the toy cipher, 18 steps of the standard. -/
example : kwpWrap toyPrims (List.replicate 32 7) (List.replicate 17 5) =
    .ok (kwpAE (toyPrims.aesEnc (List.replicate 32 7)) (List.replicate 17 5)) :=
  C66_wrap_standard toyLaws _ _ (by decide) (by decide)

/-- A concrete case: the standard accepts what the code wrapped. -/
example : ∃ c, c.length = 32 ∧ kwpWrap toyPrims (List.replicate 32 7) (List.replicate 17 5) = .ok c ∧
    kwpAD (toyPrims.aesDec (List.replicate 32 7)) c = some (List.replicate 17 5) := by
  obtain ⟨c, h1, h2, h3⟩ := C47_wrap_unwrap toyLaws (List.replicate 32 7) _ (List.replicate 17 5) rfl (by decide) (by decide)
  have h4 : c.length = 32 := by rw [h2]; decide
  exact ⟨c, h4, h1, (C66_unwrap_standard toyLaws _ c (by omega) (by omega) (by omega) _).mp h3⟩

end D1
