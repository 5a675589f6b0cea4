import Verif.Model.Crypto
import Verif.Proofs.Kwp
import Verif.Proofs.Prog
/-!
# AES-GCM buffers and the Cryptor
-/
namespace D1

/-! ## AES-GCM -/

/-- The output of `AES256GCM.Encrypt` for a given nonce: ciphertext, tag, nonce. -/
def gcmBox (P : Prims) (key nonce aad p : Bytes) : Bytes := P.gcmSeal key nonce aad p ++ nonce

/-- The key wrapping of a 16- to 8192-byte key. -/
def kwpBox (P : Prims) (kwp key : Bytes) : Bytes := wPerm P kwp (kwpPlain key)

section
variable {P : Prims} (L : P.Laws)
include L

theorem gcmBox_length (key aad p : Bytes) (nonce : BytesN nonceLength) : (gcmBox P key nonce.1 aad p).length = p.length + 28 := by
  simp only [gcmBox, List.length_append, L.gcm_len, nonce.2, nonceLength]

theorem gcmEncrypt_eq (p aad key : Bytes) (hk : key.length = 32) :
    gcmEncrypt P p aad key = (randBytes nonceLength).bind fun nonce => .ret (gcmBox P key nonce.1 aad p) := by
  rw [gcmEncrypt, if_neg (by simp [hk, keyLength])]
  simp only [Prog.bind_eq, Prog.pure_eq]
  congr 1
  funext nonce
  congr 1
  have hn : nonce.1.length = 12 := nonce.2
  have ho : overhead = 28 := rfl
  have ht : tagLength = 16 := rfl
  rw [copyAt_fit (p ++ _) _ _ (by simp [ho, ht, hn]), ho, ht]
  have e1 : (p ++ List.replicate 28 (0 : UInt8)).drop (p.length + 16 + nonce.1.length) = [] :=
    List.drop_of_length_le (by simp [hn])
  have e2 : (p ++ List.replicate 28 (0 : UInt8)).take (p.length + 16) = p ++ List.replicate 16 0 := by
    rw [List.take_append, List.take_of_length_le (by omega)]; simp
  rw [e1, e2, List.append_nil, List.append_assoc, List.take_left' rfl]
  have hs := L.gcm_len key nonce.1 aad p
  rw [copyAt_zero _ _ (by simp [hs, hn]), hs]
  congr 1
  rw [← List.append_assoc, List.drop_left' (by simp)]

/-- Exactly what `AES256GCM.Decrypt` accepts. -/
theorem gcmDecrypt_ok_iff (c aad key p : Bytes) :
    gcmDecrypt P c aad key = .ok p ↔
      key.length = 32 ∧ ∃ nonce : BytesN nonceLength, c = gcmBox P key nonce.1 aad p := by
  constructor
  · intro h
    rw [gcmDecrypt] at h
    split at h; · simp at h
    rename_i h1
    split at h; · simp at h
    rename_i h2
    have ho : overhead = 28 := rfl
    have hn : nonceLength = 12 := rfl
    rw [ho] at h2
    simp only [keyLength, ne_eq, Decidable.not_not] at h1
    refine ⟨h1, ⟨⟨c.drop (c.length - nonceLength), by simp [hn]; omega⟩, ?_⟩⟩
    simp only at h
    split at h; · simp at h
    rename_i q hq
    have hc := L.gcm_seal_open _ _ _ _ _ hq
    have hl := congrArg List.length hc
    rw [L.gcm_len, List.length_take, hn] at hl
    simp only [Except.ok.injEq] at h
    rw [copyAt_zero _ _ (by omega), ho, List.take_left' (by omega)] at h
    subst h
    rw [gcmBox, ← hc, List.take_append_drop]
  · rintro ⟨hk, nonce, rfl⟩
    have hl := gcmBox_length L key aad p nonce
    have hn : nonceLength = 12 := rfl
    have ho : overhead = 28 := rfl
    have hs := L.gcm_len key nonce.1 aad p
    have hnl : nonce.1.length = 12 := nonce.2
    have e : (gcmBox P key nonce.1 aad p).length - nonceLength = (P.gcmSeal key nonce.1 aad p).length := by omega
    rw [gcmDecrypt, if_neg (by simp [hk, keyLength]), if_neg (by omega)]
    simp only [e]
    rw [show (gcmBox P key nonce.1 aad p).drop _ = nonce.1 from List.drop_left' rfl,
      show (gcmBox P key nonce.1 aad p).take _ = P.gcmSeal key nonce.1 aad p from List.take_left' rfl,
      L.gcm_open_seal]
    simp only
    rw [copyAt_zero _ _ (by omega), hl, ho, List.take_left' (by omega)]

theorem gcmDecrypt_box (key aad p : Bytes) (nonce : BytesN nonceLength) (hk : key.length = 32) :
    gcmDecrypt P (gcmBox P key nonce.1 aad p) aad key = .ok p :=
  (gcmDecrypt_ok_iff L _ _ _ _).mpr ⟨hk, nonce, rfl⟩

/-! ## Cryptor -/

theorem kwpWrap_box (kwp key : Bytes) (hk : key.length = 32) : kwpWrap P kwp key = .ok (kwpBox P kwp key) :=
  kwpWrap_eq L kwp key (by omega) (by omega)

theorem kwpUnwrap_box (kwp key : Bytes) (hk : key.length = 32) : kwpUnwrap P kwp (kwpBox P kwp key) = .ok key :=
  kwpUnwrap_perm L kwp key (by omega) (by omega)

theorem kwpBox_length (kwp key : Bytes) : (kwpBox P kwp key).length = wrappingSize key.length := by
  have := kwpPlain_length key
  have hs := wrappingSize_eq key.length
  rw [kwpBox, wPerm_length L _ _ (by omega) (by omega), this]

/-- `Cryptor.Encrypt` draws a key and a nonce and nothing else happens. -/
theorem Cryptor.encrypt_eq (c : Cryptor) (p a : J) :
    c.encrypt P p a = (randBytes 32).bind fun key => (randBytes 12).bind fun nonce =>
      .ret (kwpBox P c.kwp key.1, gcmBox P key.1 nonce.1 a.render p.render) := by
  simp only [Cryptor.encrypt, Prog.bind_eq, Prog.pure_eq]
  show (randBytes 32).bind _ = _
  congr 1
  funext key
  rw [gcmEncrypt_eq L _ _ _ key.2, Prog.bind_assoc]
  congr 1
  funext nonce
  rw [Prog.ret_bind, kwpWrap_box L _ _ key.2]
  rfl

/-- Exactly what `Cryptor.Decrypt` accepts. -/
theorem Cryptor.decrypt_ok_iff {α : Type} (c : Cryptor) (dec : J → Option α) (a : J) (w ct : Bytes) (v : α) :
    c.decrypt P dec a w ct = .ok v ↔
      ∃ (key : BytesN 32) (nonce : BytesN 12) (p : Bytes) (j : J), w = kwpBox P c.kwp key.1 ∧
        ct = gcmBox P key.1 nonce.1 a.render p ∧ P.unmarshal p = some j ∧ dec j = some v := by
  constructor
  · intro h
    rw [Cryptor.decrypt] at h
    split at h; · simp at h
    rename_i key hkey
    simp only at h
    split at h; · simp at h
    rename_i p hp
    obtain ⟨hk, nonce, hc⟩ := (gcmDecrypt_ok_iff L _ _ _ _).mp hp
    split at h; · simp at h
    rename_i v' hv
    simp only [Except.ok.injEq] at h
    subst h
    obtain ⟨j, hj, hd⟩ := Option.bind_eq_some_iff.mp hv
    exact ⟨⟨key, hk⟩, nonce, p, j, (kwpUnwrap_ok L _ _ _ hkey).1, hc, hj, hd⟩
  · rintro ⟨key, nonce, p, j, rfl, rfl, hj, hd⟩
    rw [Cryptor.decrypt, kwpUnwrap_box L _ _ key.2]
    simp only
    rw [gcmDecrypt_box L _ _ _ nonce key.2]
    simp only [hj, Option.bind_some, hd]

theorem Cryptor.decrypt_box {α : Type} (c : Cryptor) (dec : J → Option α) (a p : J) (key : BytesN 32)
    (nonce : BytesN 12) :
    c.decrypt P dec a (kwpBox P c.kwp key.1) (gcmBox P key.1 nonce.1 a.render p.render) =
      match dec p.san with
      | none => .error .json
      | some v => .ok v := by
  rw [Cryptor.decrypt, kwpUnwrap_box L _ _ key.2]
  simp only
  rw [gcmDecrypt_box L _ _ _ nonce key.2]
  simp only [L.unmarshal_render, Option.bind_some]
  cases dec p.san <;> rfl

theorem kwpBox_inj (kwp k k' : Bytes) (h : k.length = 32) (h' : k'.length = 32) (e : kwpBox P kwp k = kwpBox P kwp k') :
    k = k' := by
  have h1 := kwpUnwrap_box L kwp k h
  rw [e, kwpUnwrap_box L kwp k' h'] at h1
  simpa using h1.symm

end

end D1
