import Verif.Proofs.Yields
import Verif.Proofs.Instance
/-!
# Properties of crypto/: C47, C48, C49, C50, C57, C68
-/
namespace D1
attribute [-simp] UInt8.ofNat_add UInt8.ofNat_mul UInt8.ofNat_sub

/-! ## C47 -/

/-- C47: every key of 16 to 8192 bytes wraps to `8 * ceil(len / 8) + 8` bytes, which unwrap to the key. -/
theorem C47_wrap_unwrap {P : Prims} (L : P.Laws) (kek kwp key : Bytes) (hk : newKWP kek = .ok kwp)
    (h1 : 16 ≤ key.length) (h2 : key.length ≤ 8192) :
    ∃ w, kwpWrap P kwp key = .ok w ∧ w.length = 8 * ((key.length + 7) / 8) + 8 ∧ kwpUnwrap P kwp w = .ok key := by
  refine ⟨kwpBox P kwp key, kwpWrap_eq L kwp key h1 h2, ?_, kwpUnwrap_perm L kwp key (by omega) h2⟩
  rw [kwpBox_length L, wrappingSize_eq]

/-- C47: exactly 16- and 32-byte wrapping keys are usable. -/
theorem C47_wrapping_keys (kek : Bytes) : (∃ kwp, newKWP kek = .ok kwp) ↔ kek.length = 16 ∨ kek.length = 32 := by
  unfold newKWP
  split <;> simp_all

/-- C47: keys of other sizes are refused. -/
theorem C47_wrap_refuses (P : Prims) (kwp key : Bytes) (h : key.length < 16 ∨ 8192 < key.length) :
    kwpWrap P kwp key = .error .kwp := by
  have h1 : minWrapSize = 16 := rfl
  have h2 : maxWrapSize = 8192 := rfl
  unfold kwpWrap
  split; · rfl
  split; · rfl
  omega

/-- A concrete case: a 17-byte key (not a multiple of eight) under a 32-byte wrapping key. -/
example : ∃ w, kwpWrap toyPrims (List.replicate 32 7) (List.replicate 17 5) = .ok w ∧ w.length = 32 ∧
    kwpUnwrap toyPrims (List.replicate 32 7) w = .ok (List.replicate 17 5) :=
  C47_wrap_unwrap toyLaws (List.replicate 32 7) _ _ rfl (by decide) (by decide)

/-! ## C48

Full statement: `kwpUnwrap P kwp c = .ok k → kwpWrap P kwp k = .ok c`.  It is false of the code: `Unwrap` does not check
the encoded size against the minimum that `Wrap` enforces. -/

/-- C48, the part that holds: whatever unwraps to a key of at least 16 bytes is the wrapping of that key. -/
theorem C48_unwrap_genuine_partial {P : Prims} (L : P.Laws) (kwp c k : Bytes) (h : kwpUnwrap P kwp c = .ok k)
    (hk : 16 ≤ k.length) : kwpWrap P kwp k = .ok c := by
  obtain ⟨hc, _, h3⟩ := kwpUnwrap_ok L kwp c k h
  rw [hc]; exact kwpWrap_eq L kwp k hk h3

/-- C48: no two strings unwrap to the same key. -/
theorem C48_unwrap_injective {P : Prims} (L : P.Laws) (kwp c c' k : Bytes) (h : kwpUnwrap P kwp c = .ok k)
    (h' : kwpUnwrap P kwp c' = .ok k) : c = c' := by
  rw [(kwpUnwrap_ok L kwp c k h).1, (kwpUnwrap_ok L kwp c' k h').1]

/-- C48: everything that is not a multiple of eight bytes between 24 and 8200 bytes is refused. -/
theorem C48_unwrap_sizes (P : Prims) (kwp c : Bytes) (h : c.length < 24 ∨ 8200 < c.length ∨ c.length % 8 ≠ 0) :
    kwpUnwrap P kwp c = .error .kwp := by
  have w16 : wrappingSize minWrapSize = 24 := rfl
  have w8192 : wrappingSize maxWrapSize = 8200 := rfl
  simp only [kwpUnwrap, w16, w8192]
  split; · rfl
  split; · rfl
  split; · rfl
  omega

/-- C48, refutation: for every block cipher and wrapping key, `Unwrap` accepts 24-byte strings for keys of 9 to 15 bytes
that `Wrap` refuses. -/
theorem C48_false {P : Prims} (L : P.Laws) (kwp k : Bytes) (h1 : 9 ≤ k.length) (h2 : k.length < 16) :
    ∃ c, c.length = 24 ∧ kwpUnwrap P kwp c = .ok k ∧ kwpWrap P kwp k = .error .kwp :=
  ⟨kwpBox P kwp k, by rw [kwpBox_length L, wrappingSize_eq]; omega, kwpUnwrap_perm L kwp k h1 (by omega),
    C47_wrap_refuses P kwp k (by omega)⟩

example : ∃ c : Bytes, c.length = 24 ∧ kwpUnwrap toyPrims (List.replicate 32 7) c = .ok (List.replicate 9 1) ∧
    kwpWrap toyPrims (List.replicate 32 7) (List.replicate 9 1) = .error .kwp :=
  C48_false toyLaws _ _ (by decide) (by decide)

/-! ## C49 -/

/-- C49: whatever the random source answers, what `Encrypt` returns is ciphertext and tag followed by the nonce drawn,
28 bytes longer than the plaintext, and decrypts to it. -/
theorem C49_gcm_round_trip {P : Prims} (L : P.Laws) (p aad key c : Bytes) (tr : List Prog.Event)
    (h : Prog.Yields (gcmEncrypt P p aad key) tr (.ok c)) :
    gcmDecrypt P c aad key = .ok p ∧ c.length = p.length + 28 ∧
      ∃ nonce : BytesN 12, tr = [⟨.rand 12, (some nonce : Option (BytesN 12))⟩] ∧
        c = P.gcmSeal key nonce.1 aad p ++ nonce.1 ∧ c.drop (p.length + 16) = nonce.1 := by
  by_cases hk : key.length = 32
  · rw [gcmEncrypt_eq L p aad key hk, Prog.yields_bind_ok] at h
    obtain ⟨tr1, tr2, nonce, rfl, h1, h2⟩ := h
    obtain ⟨rfl, h3⟩ := Prog.yields_ret.mp h2
    cases h3
    rcases yields_rand.mp h1 with ⟨b, rfl, hb⟩ | ⟨_, hb⟩ <;> cases hb
    refine ⟨gcmDecrypt_box L key aad p _ hk, gcmBox_length L key aad p _, ⟨nonce, rfl, rfl, ?_⟩⟩
    exact List.drop_left' (L.gcm_len _ _ _ _)
  · rw [gcmEncrypt, if_pos (by simpa [keyLength] using hk)] at h
    simp at h

/-- C49: the only failures of `Encrypt` are a wrong key size and a failing random source. -/
theorem C49_gcm_encrypt_total {P : Prims} (L : P.Laws) (p aad key : Bytes) (tr : List Prog.Event) (o : Outcome Bytes)
    (h : Prog.Yields (gcmEncrypt P p aad key) tr o) :
    (∃ c, o = .ok c) ∨ (key.length = 32 ∧ o = .err .rand) ∨ (key.length ≠ 32 ∧ tr = [] ∧ o = .err .aead) := by
  by_cases hk : key.length = 32
  · rw [gcmEncrypt_eq L p aad key hk, Prog.yields_bind] at h
    rcases h with ⟨_, _, _, _, _, h2⟩ | ⟨e, h1, rfl⟩ | ⟨h1, rfl⟩ | ⟨h1, rfl⟩
    · exact .inl ⟨_, (Prog.yields_ret.mp h2).2⟩
    all_goals rcases yields_rand.mp h1 with ⟨b, _, hb⟩ | ⟨_, hb⟩ <;> cases hb
    exact .inr (.inl ⟨hk, rfl⟩)
  · rw [gcmEncrypt, if_pos (by simpa [keyLength] using hk)] at h
    exact .inr (.inr ⟨hk, Prog.yields_err.mp h⟩)

/-- C49: `Decrypt` refuses keys that are not 32 bytes and inputs below 28 bytes. -/
theorem C49_gcm_decrypt_refuses (P : Prims) (c aad key : Bytes) (h : key.length ≠ 32 ∨ c.length < 28) :
    gcmDecrypt P c aad key = .error .aead := by
  have h1 : keyLength = 32 := rfl
  have h2 : overhead = 28 := rfl
  unfold gcmDecrypt
  split; · rfl
  rw [if_pos (by omega)]

/-- C49: `Decrypt` accepts exactly what `Encrypt` with some nonce produces. -/
theorem C49_gcm_decrypt_exact {P : Prims} (L : P.Laws) (c aad key p : Bytes) :
    gcmDecrypt P c aad key = .ok p ↔
      key.length = 32 ∧ ∃ nonce : BytesN 12, c = P.gcmSeal key nonce.1 aad p ++ nonce.1 :=
  gcmDecrypt_ok_iff L c aad key p

example : ∃ c, Prog.Yields (gcmEncrypt toyPrims [1, 2, 3] [9] (List.replicate 32 7))
    [⟨.rand 12, (some ⟨List.replicate 12 4, rfl⟩ : Option (BytesN 12))⟩] (.ok c) ∧ c.length = 31 :=
  ⟨_, .op _ _ _ _ _ (.ret _), rfl⟩

/-! ## C50 -/

/-- C50: what `Encrypt` produced decrypts under the same associated data to the value (as its JSON text reads). -/
theorem C50_cryptor_round_trip {P : Prims} (L : P.Laws) {α : Type} (c : Cryptor) (dec : J → Option α) (p a : J)
    (w ct : Bytes) (v : α) (tr : List Prog.Event) (h : Prog.Yields (c.encrypt P p a) tr (.ok (w, ct)))
    (hv : dec p.san = some v) : c.decrypt P dec a w ct = .ok v := by
  rw [Cryptor.encrypt_eq L, Prog.yields_bind_ok] at h
  obtain ⟨tr1, tr2, key, rfl, h1, h2⟩ := h
  obtain ⟨tr3, tr4, nonce, rfl, h3, h4⟩ := Prog.yields_bind_ok.mp h2
  obtain ⟨_, h5⟩ := Prog.yields_ret.mp h4
  cases h5
  rw [Cryptor.decrypt_box L, hv]

/-- C50 for `[]byte` values, where reading the JSON text is exact: the very value comes back, nil or not. -/
theorem C50_cryptor_round_trip_bytes {P : Prims} (L : P.Laws) (c : Cryptor) (p : NBytes) (a : J)
    (w ct : Bytes) (tr : List Prog.Event) (h : Prog.Yields (c.encrypt P (.ofBytes p) a) tr (.ok (w, ct))) :
    c.decrypt P J.toBytes a w ct = .ok p :=
  C50_cryptor_round_trip L c J.toBytes _ a w ct p tr h (by simp)

/-- C50: accepting a genuine pair under other associated data means that AES-GCM opened a ciphertext, under the key it
was sealed with, for associated data it was not sealed with. -/
theorem C50_cryptor_binds_data {P : Prims} (L : P.Laws) {α : Type} (c : Cryptor) (dec : J → Option α) (p a a' : J)
    (w ct : Bytes) (v : α) (tr : List Prog.Event) (h : Prog.Yields (c.encrypt P p a) tr (.ok (w, ct)))
    (hd : c.decrypt P dec a' w ct = .ok v) (hne : a'.render ≠ a.render) :
    ∃ (key : BytesN 32) (nonce : BytesN 12) (q : Bytes), (∃ e, e ∈ tr ∧ e = ⟨.rand 32, (some key : Option (BytesN 32))⟩) ∧
      a'.render ≠ a.render ∧ P.gcmOpen key.1 nonce.1 a'.render (P.gcmSeal key.1 nonce.1 a.render p.render) = some q := by
  rw [Cryptor.encrypt_eq L, Prog.yields_bind_ok] at h
  obtain ⟨tr1, tr2, key, rfl, h1, h2⟩ := h
  obtain ⟨tr3, tr4, nonce, rfl, h3, h4⟩ := Prog.yields_bind_ok.mp h2
  obtain ⟨_, h5⟩ := Prog.yields_ret.mp h4
  cases h5
  obtain ⟨key', nonce', q, j, hw, hc, _, _⟩ := (Cryptor.decrypt_ok_iff L c dec a' _ _ v).mp hd
  have hk := kwpBox_inj L _ _ _ key.2 key'.2 hw
  refine ⟨key, nonce, q, ?_, hne, ?_⟩
  · rcases yields_rand.mp h1 with ⟨b, rfl, hb⟩ | ⟨_, hb⟩ <;> cases hb
    exact ⟨_, by simp, rfl⟩
  · have hl := congrArg List.length hc
    simp only [gcmBox] at hc hl
    obtain ⟨e1, e2⟩ := List.append_inj' hc (by rw [nonce.2, nonce'.2])
    rw [e1, e2, hk, L.gcm_open_seal]

example : ∃ tr w ct, Prog.Yields ((Cryptor.mk (List.replicate 32 7)).encrypt toyPrims (.ofBytes none) (.str [65])) tr
    (.ok (w, ct)) ∧ (Cryptor.mk (List.replicate 32 7)).decrypt toyPrims J.toBytes (.str [65]) w ct = .ok none := by
  have h := Cryptor.encrypt_eq toyLaws (Cryptor.mk (List.replicate 32 7)) (.ofBytes none) (.str [65])
  refine ⟨[⟨.rand 32, (some ⟨List.replicate 32 1, rfl⟩ : Option (BytesN 32))⟩,
    ⟨.rand 12, (some ⟨List.replicate 12 2, rfl⟩ : Option (BytesN 12))⟩],
    kwpBox toyPrims (List.replicate 32 7) (List.replicate 32 1),
    gcmBox toyPrims (List.replicate 32 1) (List.replicate 12 2) (J.str [65]).render (J.ofBytes none).render, ?_, ?_⟩
  · rw [h]; exact .op _ _ _ _ _ (.op _ _ _ _ _ (.ret _))
  · exact Cryptor.decrypt_box toyLaws (Cryptor.mk (List.replicate 32 7)) J.toBytes _ _ ⟨List.replicate 32 1, rfl⟩
      ⟨List.replicate 12 2, rfl⟩

/-! ## C57 -/

/-- C57: a generated password verifies against its record, which is 40 bytes long; the password is the base64 text of
the 32 random bytes drawn first and the salt the eight bytes drawn next. -/
theorem C57_password_verifies {P : Prims} (L : P.Laws) (pwd rec : Bytes) (tr : List Prog.Event)
    (h : Prog.Yields (generatePassword P) tr (.ok (pwd, rec))) :
    comparePassword P pwd rec = some true ∧ rec.length = 40 ∧
      ∃ (b : BytesN 32) (salt : BytesN 8), tr = [⟨.rand 32, (some b : Option (BytesN 32))⟩,
        ⟨.rand 8, (some salt : Option (BytesN 8))⟩] ∧ pwd = b64Enc true b.1 ∧ rec = salt.1 ++ P.pbkdf2 pwd salt.1 := by
  simp only [generatePassword, Prog.bind_eq, Prog.pure_eq, passwordLength, saltLength, Prog.yields_bind_ok] at h
  obtain ⟨tr1, _, b, rfl, h1, tr3, tr4, salt, rfl, h3, h4⟩ := h
  obtain ⟨rfl, h5⟩ := Prog.yields_ret.mp h4
  cases h5
  rcases yields_rand.mp h1 with ⟨_, rfl, hb⟩ | ⟨_, hb⟩ <;> cases hb
  rcases yields_rand.mp h3 with ⟨_, rfl, hb⟩ | ⟨_, hb⟩ <;> cases hb
  have hl : (salt.1 ++ P.pbkdf2 (b64Enc true b.1) salt.1).length = 40 := by
    rw [List.length_append, salt.2, L.pbkdf2_len]
  refine ⟨?_, hl, ⟨b, salt, rfl, rfl, rfl⟩⟩
  rw [comparePassword, if_neg (by rw [hl, saltLength]; omega)]
  simp [List.take_left' (i := saltLength) salt.2, List.drop_left' (i := saltLength) salt.2]

/-- C57: `Compare` accepts a password exactly when PBKDF2 maps it to the same hash as the generated one. -/
theorem C57_only_collisions_verify {P : Prims} (L : P.Laws) (pwd rec pwd' : Bytes) (tr : List Prog.Event)
    (h : Prog.Yields (generatePassword P) tr (.ok (pwd, rec))) :
    ∃ salt : BytesN 8, comparePassword P pwd' rec = some (decide (P.pbkdf2 pwd' salt.1 = P.pbkdf2 pwd salt.1)) := by
  obtain ⟨_, hl, b, salt, _, _, hr⟩ := C57_password_verifies L pwd rec tr h
  refine ⟨salt, ?_⟩
  rw [comparePassword, if_neg (by rw [hl, saltLength]; omega), hr]
  simp [List.take_left' (i := saltLength) salt.2, List.drop_left' (i := saltLength) salt.2]

/-- C57: `Compare` panics exactly on records shorter than the salt. -/
theorem C57_compare_panics_iff (P : Prims) (pwd rec : Bytes) : comparePassword P pwd rec = none ↔ rec.length < 8 := by
  have h : saltLength = 8 := rfl
  unfold comparePassword
  split <;> simp <;> omega

example : ∃ tr pwd rec, Prog.Yields (generatePassword toyPrims) tr (.ok (pwd, rec)) :=
  ⟨[⟨.rand 32, (some ⟨List.replicate 32 1, rfl⟩ : Option (BytesN 32))⟩,
    ⟨.rand 8, (some ⟨List.replicate 8 2, rfl⟩ : Option (BytesN 8))⟩], _, _, .op _ _ _ _ _ (.op _ _ _ _ _ (.ret _))⟩

/-! ## C68: the mock random source -/

/-- Successive calls of a `MockRandom`: the answers, and the bytes left. -/
def mockCalls (bytes : Bytes) : List Nat → List (Except Err Bytes) × Bytes
  | [] => ([], bytes)
  | n :: ns =>
    let r := mockRandom bytes n
    let rs := mockCalls r.2 ns
    (r.1 :: rs.1, rs.2)

/-- The bytes of the successful answers. -/
def handedOut : List (Except Err Bytes) → Bytes
  | [] => []
  | .ok b :: r => b ++ handedOut r
  | .error _ :: r => handedOut r

/-- C68: over any sequence of requests, the successful answers and the bytes left are exactly the bytes given, in order:
nothing is handed out twice and nothing is skipped. -/
theorem C68_mock_in_order (ns : List Nat) (bytes : Bytes) :
    handedOut (mockCalls bytes ns).1 ++ (mockCalls bytes ns).2 = bytes := by
  induction ns generalizing bytes with
  | nil => rfl
  | cons n ns ih =>
    simp only [mockCalls, mockRandom]
    split
    · exact ih bytes
    · simp only [handedOut, List.append_assoc, ih, List.take_append_drop]

/-- C68: a request is answered with the number of bytes asked for, unless fewer are left, and then it fails and takes
nothing. -/
theorem C68_mock_length (bytes : Bytes) (n : Nat) :
    (n ≤ bytes.length ∧ (∃ b, (mockRandom bytes n).1 = .ok b ∧ b.length = n)) ∨
      (bytes.length < n ∧ mockRandom bytes n = (.error .rand, bytes)) := by
  rw [mockRandom]
  split
  · exact .inr ⟨by omega, rfl⟩
  · exact .inl ⟨by omega, _, rfl, by simp; omega⟩

example : mockCalls [1, 2, 3, 4, 5] [2, 4, 3] = ([.ok [1, 2], .error .rand, .ok [3, 4, 5]], []) := by decide

end D1
