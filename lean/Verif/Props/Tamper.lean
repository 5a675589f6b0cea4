import Verif.Std.Ghash
import Verif.Std.Instance
import Verif.Props.Crash
/-!
# Changed ciphertexts with the real AES-GCM: C80

Elsewhere AES-GCM is any scheme that opens what it sealed, and theorems about changed data end with "or AES-GCM accepts a
forgery".  Here it is the algorithm of SP 800-38D, and it is proved how rarely that can happen: the hash of GCM is a polynomial
over a field.
-/
namespace D1
open Spec Prog Std

attribute [local irreducible] aesEnc aesDec pbkdf2 cshakeSponge

/-- The zero block, whose encryption is the hash key of GCM. -/
def zeroBlock : Bytes := List.replicate 16 0

/-! ## What is accepted -/

/-- `Decrypt` accepts exactly the ciphertexts whose tag is that of SP 800-38D. -/
theorem gcmDecrypt_std {c a key p : Bytes} (h : gcmDecrypt stdPrims c a key = .ok p) :
    key.length = 32 ∧ 28 ≤ c.length ∧
      gcmTag key (c.drop (c.length - 12)) a (c.take (c.length - 28)) = (c.drop (c.length - 28)).take 16 := by
  obtain ⟨hk, nonce, hc⟩ := (gcmDecrypt_ok_iff stdLaws c a key p).mp h
  have hn : nonce.1.length = 12 := nonce.2
  set b := gctr key (inc32 (preCounter key nonce.1)) p with hb
  have hc : c = b ++ (gcmTag key nonce.1 a b ++ nonce.1) := by
    rw [hc, gcmBox]
    show gcmSeal key nonce.1 a p ++ nonce.1 = _
    rw [gcmSeal, List.append_assoc]
  have ht := gcmTag_length key nonce.1 a b
  have hl : c.length = b.length + 28 := by
    rw [hc, List.length_append, List.length_append, ht, hn]
  have h1 : c.take (c.length - 28) = b := by rw [hl, Nat.add_sub_cancel, hc]; exact List.take_left' rfl
  have h2 : c.drop (c.length - 28) = gcmTag key nonce.1 a b ++ nonce.1 := by rw [hl, Nat.add_sub_cancel, hc]; exact List.drop_left' rfl
  have h3 : c.drop (c.length - 12) = nonce.1 := by
    rw [hl, hc, ← List.append_assoc]
    exact List.drop_left' (by rw [List.length_append, ht]; omega)
  exact ⟨hk, by omega, by rw [h1, h2, h3, List.take_left' ht]⟩

/-- A ciphertext is its body, its tag and its nonce. -/
theorem split_ct {c c' : Bytes} (h : 28 ≤ c.length) (h' : 28 ≤ c'.length) (h1 : c.take (c.length - 28) = c'.take (c'.length - 28))
    (h2 : (c.drop (c.length - 28)).take 16 = (c'.drop (c'.length - 28)).take 16)
    (h3 : c.drop (c.length - 12) = c'.drop (c'.length - 12)) : c = c' := by
  have e : ∀ {x : Bytes}, 28 ≤ x.length → x = x.take (x.length - 28) ++ ((x.drop (x.length - 28)).take 16 ++ x.drop (x.length - 12)) := by
    intro x hx
    have : x.drop (x.length - 12) = (x.drop (x.length - 28)).drop 16 := by
      rw [List.drop_drop]; congr 1; omega
    rw [this, List.take_append_drop, List.take_append_drop]
  rw [e h, e h', h1, h2, h3]

theorem gcmDecrypt_refused {P : Prims} {c a key : Bytes} (h : ∀ p, gcmDecrypt P c a key ≠ .ok p) :
    gcmDecrypt P c a key = .error .aead := by
  revert h
  unfold gcmDecrypt
  intro h
  split; · rfl
  split; · rfl
  simp only at h ⊢
  rename_i h1 h2
  rw [if_neg h1, if_neg h2] at h
  split
  · rfl
  · rename_i p hp
    rw [hp] at h
    exact absurd rfl (h _)

/-! ## Any change -/

/-- C80: for any two different ciphertexts with the same nonce — with whatever associated data — there are no more 16-byte blocks than
the longer of them has blocks, such that `AES256GCM.Decrypt` accepts both only under keys that encrypt the zero block to one of
these blocks.  The blocks are the same for all keys. -/
theorem C80_few_keys (c a c' a' : Bytes) (hn : c.drop (c.length - 12) = c'.drop (c'.length - 12)) (hne : (c, a) ≠ (c', a'))
    (hc : c.length < 2 ^ 61) (ha : a.length < 2 ^ 61) (hc' : c'.length < 2 ^ 61) (ha' : a'.length < 2 ^ 61) :
    ∃ S : Finset Bytes,
      S.card ≤ max ((a.length + 15) / 16 + (c.length - 28 + 15) / 16 + 1) ((a'.length + 15) / 16 + (c'.length - 28 + 15) / 16 + 1) ∧
      ∀ key p p', gcmDecrypt stdPrims c a key = .ok p → gcmDecrypt stdPrims c' a' key = .ok p' → aesEnc key zeroBlock ∈ S := by
  classical
  by_cases heq : (a, c.take (c.length - 28)) = (a', c'.take (c'.length - 28))
  · refine ⟨∅, by rw [Finset.card_empty]; exact Nat.zero_le _, fun key p p' h h' => ?_⟩
    exfalso
    obtain ⟨-, hl, ht⟩ := gcmDecrypt_std h
    obtain ⟨-, hl', ht'⟩ := gcmDecrypt_std h'
    obtain ⟨rfl, hb⟩ := Prod.mk.inj heq
    apply hne
    rw [split_ct hl hl' hb (by rw [← ht, ← ht', hb, hn]) hn]
  · have hlt : ∀ {x : Bytes}, x.length < 2 ^ 61 → (x.take (x.length - 28)).length < 2 ^ 61 := fun {x} h => by
      rw [List.length_take]; omega
    obtain ⟨S, hS, hk⟩ := clash_keys ((c.drop (c.length - 28)).take 16) ((c'.drop (c'.length - 28)).take 16) ha (hlt hc) ha' (hlt hc') heq
    refine ⟨S.image (beBytes 16), ?_, fun key p p' h h' => ?_⟩
    · refine le_trans Finset.card_image_le (le_trans hS ?_)
      have hl : ∀ x : Bytes, (x.take (x.length - 28)).length = x.length - 28 := fun x => by rw [List.length_take]; omega
      rw [hl, hl]; exact le_refl _
    · obtain ⟨-, hl, ht⟩ := gcmDecrypt_std h
      obtain ⟨-, hl', ht'⟩ := gcmDecrypt_std h'
      refine Finset.mem_image.mpr ⟨hashKey key, hk key _ ht (by rw [hn]; exact ht'), ?_⟩
      refine beNat_inj (by rw [beBytes_length, aesEnc_length]) ?_
      rw [beNat_beBytes, Nat.mod_eq_of_lt (hashKey_lt key)]; rfl

/-! ## A change within one block -/

theorem ext_block {x y : Bytes} {m : Nat} (h : ∀ j, j / 16 = m → x[j]? = y[j]?) : blk x m = blk y m := by
  rw [blk, blk]
  congr 1
  apply List.ext_getElem?
  intro i
  rw [List.getElem?_take, List.getElem?_take]
  split
  · rw [List.getElem?_drop, List.getElem?_drop]
    exact h _ (by omega)
  · rfl

/-- Two texts of the same length that differ in one block have different hashes, unless the hash key is zero. -/
theorem hash_one_block {h : Nat} (hh : h < 2 ^ 128) (h0 : h ≠ 0) {x y : Bytes} {n m : Nat} (hx : x.length = 16 * n) (hy : y.length = 16 * n)
    (hd : ∀ j, j / 16 ≠ m → x[j]? = y[j]?) (hne : x ≠ y) :
    (hashPoly n x).eval (gf h) ≠ (hashPoly n y).eval (gf h) := by
  intro he
  have hm : m < n := by
    by_contra hm
    apply hne
    apply List.ext_getElem?
    intro j
    by_cases hj : j / 16 = m
    · rw [List.getElem?_eq_none (by omega), List.getElem?_eq_none (by omega)]
    · exact hd j hj
  have hb : ∀ i, i ≠ m → blk x i = blk y i := fun i hi => ext_block fun j hj => hd j (by omega)
  rw [hashPoly, hashPoly, Polynomial.eval_finsetSum, Polynomial.eval_finsetSum, ← sub_eq_zero, ← Finset.sum_sub_distrib,
    Finset.sum_eq_single m] at he
  · simp only [Polynomial.eval_mul, Polynomial.eval_C, Polynomial.eval_pow, Polynomial.eval_X] at he
    rw [← sub_mul] at he
    rcases mul_eq_zero.mp he with h1 | h1
    · apply hne
      refine eq_of_blk hx hy fun i _ => ?_
      by_cases hi : i = m
      · rw [hi]; exact gf_inj (blk_lt _ _) (blk_lt _ _) (sub_eq_zero.mp h1)
      · exact hb i hi
    · exact h0 (gf_inj hh (by decide) ((pow_eq_zero_iff (by omega)).mp h1 |>.trans gf_zero.symm))
  · intro i _ hi
    rw [hb i hi, sub_self]
  · intro h
    exact absurd (Finset.mem_range.mpr hm) h

theorem hashKey_ne {key : Bytes} (h : aesEnc key zeroBlock ≠ zeroBlock) : hashKey key ≠ 0 := by
  intro h0
  apply h
  refine beNat_inj (by rw [aesEnc_length]; rfl) ?_
  have : beNat zeroBlock = 0 := by decide
  rw [this]; exact h0

/-- Different tags for texts that differ in one block of the associated data or of the ciphertext. -/
theorem tag_one_block {key n a c a' c' : Bytes} (h : aesEnc key zeroBlock ≠ zeroBlock) (hl : a'.length = a.length) (hlc : c'.length = c.length)
    {m : Nat} (hd : ∀ j, j / 16 ≠ m → (authText a' c')[j]? = (authText a c)[j]?) (hne : authText a' c' ≠ authText a c) :
    gcmTag key n a' c' ≠ gcmTag key n a c := by
  intro ht
  have := congrArg (fun t => gf (beNat t)) ht
  simp only [gcmTag_poly] at this
  have := add_left_cancel this
  rw [tagPoly, tagPoly, hl, hlc] at this
  refine hash_one_block (hashKey_lt key) (hashKey_ne h) ?_ ?_ hd hne this
  · rw [authText_length, hl, hlc]
  · rw [authText_length]

theorem pad16_get {x y : Bytes} (hl : x.length = y.length) {j : Nat} (h : x[j]? = y[j]?) : (pad16 x)[j]? = (pad16 y)[j]? := by
  rw [pad16, pad16, hl]
  by_cases hj : j < y.length
  · rw [List.getElem?_append_left (by omega), List.getElem?_append_left hj, h]
  · rw [List.getElem?_append_right (by omega), List.getElem?_append_right (by omega), hl]

theorem append_get {x x' : Bytes} (y : Bytes) {j : Nat} (hl : x'.length = x.length) (h : x'[j]? = x[j]?) :
    (x' ++ y)[j]? = (x ++ y)[j]? := by
  rw [List.getElem?_append, List.getElem?_append, hl, h]

theorem append_get_right (x : Bytes) {y y' : Bytes} {j : Nat} (h : x.length ≤ j → y'[j - x.length]? = y[j - x.length]?) :
    (x ++ y')[j]? = (x ++ y)[j]? := by
  rw [List.getElem?_append, List.getElem?_append]
  split
  · rfl
  · exact h (by omega)

theorem authText_get_c {a c c' : Bytes} (hl : c'.length = c.length) {m : Nat} (hd : ∀ j, j / 16 ≠ m → c'[j]? = c[j]?) (j : Nat)
    (hj : j / 16 ≠ nBlocks a.length + m) : (authText a c')[j]? = (authText a c)[j]? := by
  have hp : (pad16 c').length = (pad16 c).length := by rw [pad16_length, pad16_length, hl]
  have hpa := pad16_length a
  simp only [authText, hl, List.append_assoc]
  refine append_get_right _ fun h1 => append_get _ hp (pad16_get hl (hd _ fun e => hj ?_))
  rw [hpa] at e h1
  omega

theorem authText_get_a {a a' c : Bytes} (hl : a'.length = a.length) {m : Nat} (hd : ∀ j, j / 16 ≠ m → a'[j]? = a[j]?) (j : Nat)
    (hj : j / 16 ≠ m) : (authText a' c)[j]? = (authText a c)[j]? := by
  have hp : (pad16 a').length = (pad16 a).length := by rw [pad16_length, pad16_length, hl]
  simp only [authText, hl, List.append_assoc]
  exact append_get _ hp (pad16_get hl (hd _ hj))

/-- C80: a ciphertext that was changed within one 16-byte block of its body is refused, except under a key that encrypts the zero block
to itself. -/
theorem C80_one_block {c c' a key p : Bytes} (hok : gcmDecrypt stdPrims c a key = .ok p) (hk : aesEnc key zeroBlock ≠ zeroBlock)
    (hl : c'.length = c.length) (i : Nat) (hd : ∀ j, j / 16 ≠ i ∨ c.length - 28 ≤ j → c'[j]? = c[j]?) (hne : c' ≠ c) :
    gcmDecrypt stdPrims c' a key = .error .aead := by
  refine gcmDecrypt_refused fun p' h' => ?_
  obtain ⟨-, hl1, ht⟩ := gcmDecrypt_std hok
  obtain ⟨-, hl2, ht'⟩ := gcmDecrypt_std h'
  have hdrop : c'.drop (c.length - 28) = c.drop (c.length - 28) := by
    apply List.ext_getElem?
    intro j
    rw [List.getElem?_drop, List.getElem?_drop]
    exact hd _ (.inr (by omega))
  have hdrop' : c'.drop (c.length - 12) = c.drop (c.length - 12) := by
    have := congrArg (List.drop 16) hdrop
    rwa [List.drop_drop, List.drop_drop, show c.length - 28 + 16 = c.length - 12 by omega] at this
  rw [hl, hdrop, hdrop', ← ht] at ht'
  refine tag_one_block hk rfl (by rw [List.length_take, List.length_take, hl]) (m := nBlocks a.length + i) ?_ ?_ ht'
  · refine authText_get_c (by rw [List.length_take, List.length_take, hl]) fun j hj => ?_
    rw [List.getElem?_take, List.getElem?_take]
    split
    · exact hd j (.inl hj)
    · rfl
  · intro he
    obtain ⟨-, hc⟩ := authText_inj rfl (by rw [List.length_take, List.length_take, hl]) he
    apply hne
    rw [← List.take_append_drop (c.length - 28) c', hdrop, hc, List.take_append_drop]

/-- C80: a ciphertext whose tag was changed is refused under every key. -/
theorem C80_tag {c c' a key p : Bytes} (hok : gcmDecrypt stdPrims c a key = .ok p) (hb : c'.take (c'.length - 28) = c.take (c.length - 28))
    (hn : c'.drop (c'.length - 12) = c.drop (c.length - 12)) (hne : c' ≠ c) : gcmDecrypt stdPrims c' a key = .error .aead := by
  refine gcmDecrypt_refused fun p' h' => ?_
  obtain ⟨-, hl1, ht⟩ := gcmDecrypt_std hok
  obtain ⟨-, hl2, ht'⟩ := gcmDecrypt_std h'
  exact hne (split_ct hl2 hl1 hb (by rw [← ht, ← ht', hb, hn]) hn)

/-- C80: a ciphertext is refused with associated data that was changed within one 16-byte block. -/
theorem C80_data_one_block {c a a' key p : Bytes} (hok : gcmDecrypt stdPrims c a key = .ok p) (hk : aesEnc key zeroBlock ≠ zeroBlock)
    (hl : a'.length = a.length) (i : Nat) (hd : ∀ j, j / 16 ≠ i → a'[j]? = a[j]?) (hne : a' ≠ a) :
    gcmDecrypt stdPrims c a' key = .error .aead := by
  refine gcmDecrypt_refused fun p' h' => ?_
  obtain ⟨-, hl1, ht⟩ := gcmDecrypt_std hok
  obtain ⟨-, hl2, ht'⟩ := gcmDecrypt_std h'
  rw [← ht] at ht'
  refine tag_one_block hk hl rfl (m := i) (authText_get_a hl hd) ?_ ht'
  intro he
  exact hne (authText_inj hl rfl he).1

/-! ## Seen from D1 -/

/-- The stored form of an object with another ciphertext. -/
def tampered (so : SealedObject) (ct : Bytes) : SealedObject := { so with ciphertext := some ct }

/-- `Decrypt` by a caller on the access list, when the record of the object holds another ciphertext. -/
theorem run_decrypt_tampered {d : D1} {env : Env} (hf : NoFault env) {t : GoString} {oid : Oid} {w wi : World} {i : Identity} {a : Access}
    {o : Object} {k : BytesN 32} {n : BytesN 12} {ct : Bytes} (hi : (d.idProvider t).run env w = (.ok i, wi))
    (hs : scopeIn scopeDecrypt i.scopes = true) (ha : AccAt stdPrims d wi.store oid a)
    (hk : a.wrappedDEK = some (kwpBox stdPrims d.objectCryptor.kwp k.1)) (hl : Lists i scopeDecrypt a)
    (ho : wi.store oid.1 dtObject = some (tampered (sealedObj stdPrims oid o k n) ct).toJ.render) :
    ∃ w', (d.decrypt stdPrims t oid).run env w =
      (match gcmDecrypt stdPrims ct (objectAad oid o.associatedData).render k.1 with
        | .error e => .err e
        | .ok b => match (stdPrims.unmarshal b).bind J.toBytes with
          | none => .err .json
          | some p => .ok ⟨p, o.associatedData⟩, w') := by
  obtain ⟨b, hb, hacc⟩ := accepts_of_accAt stdLaws ha
  rw [decrypt_eq, Prog.run_bind_ok env (run_guard_listed hf hi hs hb hacc hl)]
  have h1 : (getSealedObject stdPrims oid).run env (wi.next wi.store) =
      (.ok (tampered (sealedObj stdPrims oid o k n) ct), (wi.next wi.store).next wi.store) := by
    rw [getSealedObject, Prog.bind_eq, Prog.run_bind_ok env (run_ioGet_some hf _ (wi.next wi.store) _ _ _ ho)]
    simp only [stdLaws.unmarshal_render, Option.bind_some, SealedObject.ofJ_toJ stdLaws, Prog.pure_eq, Prog.run_ret, sealedObj, tampered]
  rw [Prog.run_bind_ok env h1, SealedObject.unseal, hk]
  refine ⟨(wi.next wi.store).next wi.store, ?_⟩
  have hu : NBytes.bytes (some (kwpBox stdPrims d.objectCryptor.kwp k.1)) = kwpBox stdPrims d.objectCryptor.kwp k.1 := rfl
  have hoid : (tampered (sealedObj stdPrims oid o k n) ct).oid = oid := rfl
  have had : (tampered (sealedObj stdPrims oid o k n) ct).associatedData = o.associatedData := rfl
  have hct : (tampered (sealedObj stdPrims oid o k n) ct).ciphertext.bytes = ct := rfl
  rw [hu, hoid, had, hct, Cryptor.decrypt, kwpUnwrap_box stdLaws _ _ k.2]
  simp only
  cases gcmDecrypt stdPrims ct (objectAad oid o.associatedData).render k.1 with
  | error e => rfl
  | ok b =>
    simp only
    cases (stdPrims.unmarshal b).bind J.toBytes with
    | none => rfl
    | some p => rfl

/-- C80: an object whose stored ciphertext was changed within one block is not decrypted, whoever asks: `Decrypt` reports an error. -/
theorem C80_decrypt {d : D1} {env : Env} (hf : NoFault env) {t : GoString} {oid : Oid} {w wi : World} {i : Identity} {a : Access}
    {o : Object} {k : BytesN 32} {n : BytesN 12} {ct : Bytes} (hi : (d.idProvider t).run env w = (.ok i, wi))
    (hs : scopeIn scopeDecrypt i.scopes = true) (ha : AccAt stdPrims d wi.store oid a)
    (hk : a.wrappedDEK = some (kwpBox stdPrims d.objectCryptor.kwp k.1)) (hl : Lists i scopeDecrypt a)
    (ho : wi.store oid.1 dtObject = some (tampered (sealedObj stdPrims oid o k n) ct).toJ.render)
    (hz : aesEnc k.1 zeroBlock ≠ zeroBlock) (hlen : ct.length = (sealedObj stdPrims oid o k n).ciphertext.bytes.length) (m : Nat)
    (hd : ∀ j, j / 16 ≠ m ∨ ct.length - 28 ≤ j → ct[j]? = (sealedObj stdPrims oid o k n).ciphertext.bytes[j]?)
    (hne : ct ≠ (sealedObj stdPrims oid o k n).ciphertext.bytes) :
    ∃ w', (d.decrypt stdPrims t oid).run env w = (.err .aead, w') := by
  obtain ⟨w', h⟩ := run_decrypt_tampered hf hi hs ha hk hl ho
  have hg : gcmDecrypt stdPrims (sealedObj stdPrims oid o k n).ciphertext.bytes (objectAad oid o.associatedData).render k.1 =
      .ok (J.ofBytes o.plaintext).render := gcmDecrypt_box stdLaws _ _ _ n k.2
  rw [C80_one_block hg hz hlen m (by rw [← hlen]; exact hd) hne] at h
  exact ⟨w', h⟩

/-- C80: for each changed ciphertext with the old nonce, `Decrypt` reports an error under all data encryption keys but few. -/
theorem C80_decrypt_few (oid : Oid) (ad : NBytes) (c ct : Bytes) (hn : ct.drop (ct.length - 12) = c.drop (c.length - 12)) (hne : ct ≠ c)
    (hc : c.length < 2 ^ 61) (hct : ct.length < 2 ^ 61) (had : (objectAad oid ad).render.length < 2 ^ 61) :
    ∃ S : Finset Bytes, S.card ≤ ((objectAad oid ad).render.length + 15) / 16 + (max c.length ct.length - 28 + 15) / 16 + 1 ∧
      ∀ {d : D1} {env : Env}, NoFault env → ∀ {t : GoString} {w wi : World} {i : Identity} {a : Access} {p : NBytes} {k : BytesN 32}
        {n : BytesN 12}, (d.idProvider t).run env w = (.ok i, wi) → scopeIn scopeDecrypt i.scopes = true →
        AccAt stdPrims d wi.store oid a → a.wrappedDEK = some (kwpBox stdPrims d.objectCryptor.kwp k.1) → Lists i scopeDecrypt a →
        (sealedObj stdPrims oid ⟨p, ad⟩ k n).ciphertext = some c →
        wi.store oid.1 dtObject = some (tampered (sealedObj stdPrims oid ⟨p, ad⟩ k n) ct).toJ.render →
        aesEnc k.1 zeroBlock ∉ S → ∃ w', (d.decrypt stdPrims t oid).run env w = (.err .aead, w') := by
  obtain ⟨S, hS, hk⟩ := C80_few_keys ct (objectAad oid ad).render c (objectAad oid ad).render hn
    (fun h => hne (Prod.mk.inj h).1) hct had hc had
  refine ⟨S, le_trans hS (by omega), ?_⟩
  intro d env hf t w wi i a p k n hi hs ha hwk hl hcs ho hz
  obtain ⟨w', h⟩ := run_decrypt_tampered hf hi hs ha hwk hl ho
  have hg : gcmDecrypt stdPrims c (objectAad oid ad).render k.1 = .ok (J.ofBytes p).render := by
    have e : (sealedObj stdPrims oid ⟨p, ad⟩ k n).ciphertext.bytes = c := by rw [hcs]; rfl
    rw [← e]
    exact gcmDecrypt_box stdLaws _ _ _ n k.2
  rw [gcmDecrypt_refused fun q hq => hz (hk _ _ _ hq hg)] at h
  exact ⟨w', h⟩

/-- A key that does not encrypt the zero block to itself, and a ciphertext under it with one changed byte. -/
example : aesEnc (List.replicate 32 0) zeroBlock ≠ zeroBlock ∧
    ∃ c c' : Bytes, gcmDecrypt stdPrims c [9] (List.replicate 32 0) = .ok [1, 2, 3] ∧ c'.length = c.length ∧ c' ≠ c ∧
      ∀ j, j / 16 ≠ 0 ∨ c.length - 28 ≤ j → c'[j]? = c[j]? := by
  refine ⟨by decide +kernel, gcmBox stdPrims (List.replicate 32 0) (List.replicate 12 4) [9] [1, 2, 3], ?_⟩
  have hok : gcmDecrypt stdPrims (gcmBox stdPrims (List.replicate 32 0) (List.replicate 12 4) [9] [1, 2, 3]) [9] (List.replicate 32 0) =
    .ok [1, 2, 3] := gcmDecrypt_box stdLaws _ _ _ ⟨List.replicate 12 4, rfl⟩ rfl
  have hlen := gcmBox_length stdLaws (List.replicate 32 0) [9] [1, 2, 3] ⟨List.replicate 12 4, rfl⟩
  generalize gcmBox stdPrims (List.replicate 32 0) (List.replicate 12 4) [9] [1, 2, 3] = c at hok hlen ⊢
  have hl : c.length = 31 := hlen
  match c, hl with
  | x :: r, hl =>
    refine ⟨(x ^^^ 1) :: r, hok, rfl, ?_, ?_⟩
    · intro h
      have h1 : x ^^^ 1 = x := (List.cons.inj h).1
      have : (x ^^^ 1) ^^^ x = 0 := by rw [h1, UInt8.xor_self]
      rw [UInt8.xor_comm x 1, UInt8.xor_assoc, UInt8.xor_self] at this
      exact absurd this (by decide)
    · intro j hj
      rcases j with _ | j
      · rcases hj with hj | hj
        · exact absurd rfl hj
        · omega
      · rfl

end D1
