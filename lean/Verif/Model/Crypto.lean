import Verif.Model.Kwp
import Verif.Model.Prog
/-!
# crypto/aes.go, crypto/cryptor.go, crypto/random.go, crypto/password.go
-/
namespace D1

/-! ## crypto/aes.go -/

/-- crypto/aes.go:29. -/
def keyLength : Nat := 32
/-- crypto/aes.go:30. -/
def nonceLength : Nat := 12
/-- crypto/aes.go:31. -/
def tagLength : Nat := 16
/-- crypto/aes.go:32. -/
def overhead : Nat := tagLength + nonceLength

/-- `AES256GCM.Encrypt` (crypto/aes.go:34-60).  `aesgcm.Seal(data[:0], …)` writes ciphertext and tag over the front of
the buffer, whose capacity always suffices. -/
def gcmEncrypt (P : Prims) (plaintext aad key : Bytes) : Prog Bytes :=
  if key.length ≠ keyLength then .err .aead
  else do
    let ciphertext := plaintext ++ List.replicate overhead (0 : UInt8)
    let nonce ← randBytes nonceLength
    let ciphertext := copyAt ciphertext (plaintext.length + tagLength) nonce.1
    let data := ciphertext.take plaintext.length
    return copyAt ciphertext 0 (P.gcmSeal key nonce.1 aad data)

/-- `AES256GCM.Decrypt` (crypto/aes.go:62-88).  The plaintext is read back from the front of the ciphertext buffer,
where `Open` put it. -/
def gcmDecrypt (P : Prims) (ciphertext aad key : Bytes) : Except Err Bytes :=
  if key.length ≠ keyLength then .error .aead
  else if ciphertext.length < overhead then .error .aead
  else
    let data := ciphertext.take (ciphertext.length - nonceLength)
    let nonce := ciphertext.drop (ciphertext.length - nonceLength)
    match P.gcmOpen key nonce aad data with
    | none => .error .aead
    | some p => .ok ((copyAt ciphertext 0 p).take (ciphertext.length - overhead))

/-! ## crypto/cryptor.go -/

/-- crypto/cryptor.go:24. -/
def encryptionKeyLength : Nat := 32
/-- crypto/cryptor.go:25. -/
def wrapperKeyLength : Nat := 32

/-- `Cryptor` (crypto/cryptor.go:30-34) with the native random source and AES-256-GCM is determined by its key
wrapper. -/
structure Cryptor where
  kwp : Bytes
  deriving DecidableEq

/-- `NewAESCryptor` (crypto/cryptor.go:37-52). -/
def newAESCryptor (kek : Bytes) : Except Err Cryptor :=
  if kek.length ≠ wrapperKeyLength then .error .invalidKeyLength
  else match newKWP kek with
    | .error e => .error e
    | .ok k => .ok ⟨k⟩

/-- `Cryptor.Encrypt` (crypto/cryptor.go:54-81); returns (wrappedKey, ciphertext).  The values are given by their JSON
form; marshalling the repository's types does not fail. -/
def Cryptor.encrypt (P : Prims) (c : Cryptor) (plaintext data : J) : Prog (Bytes × Bytes) := do
  let plaintextBytes := plaintext.render
  let dataBytes := data.render
  let key ← randBytes encryptionKeyLength
  let ciphertext ← gcmEncrypt P plaintextBytes dataBytes key.1
  let wrappedKey ← Prog.ofExcept (kwpWrap P c.kwp key.1)
  return (wrappedKey, ciphertext)

/-- `Cryptor.Decrypt` (crypto/cryptor.go:83-103) up to the conversion of the JSON value into the target type, which
`dec` performs. -/
def Cryptor.decrypt {α : Type} (P : Prims) (c : Cryptor) (dec : J → Option α) (data : J)
    (wrappedKey ciphertext : Bytes) : Except Err α :=
  match kwpUnwrap P c.kwp wrappedKey with
  | .error e => .error e
  | .ok key =>
    let dataBytes := data.render
    match gcmDecrypt P ciphertext dataBytes key with
    | .error e => .error e
    | .ok plaintextBytes => match (P.unmarshal plaintextBytes).bind dec with
      | none => .error .json
      | some v => .ok v

/-! ## crypto/random.go -/

/-- `MockRandom.GetBytes` (crypto/random.go:40-47): takes the next `n` bytes of the given ones; returns the new state. -/
def mockRandom (bytes : Bytes) (n : Nat) : Except Err Bytes × Bytes :=
  if n > bytes.length then (.error .rand, bytes) else (.ok (bytes.take n), bytes.drop n)

/-! ## crypto/password.go -/

/-- crypto/password.go:26-28. -/
def passwordLength : Nat := 32
def saltLength : Nat := 8
def hashLength : Nat := 32

/-- `GeneratePassword` (crypto/password.go:40-56); returns (password, saltAndHash). -/
def generatePassword (P : Prims) : Prog (GoString × Bytes) := do
  let passwordBytes ← randBytes passwordLength
  let password := b64Enc true passwordBytes.1
  let salt ← randBytes saltLength
  let hash := P.pbkdf2 password salt.1
  return (password, salt.1 ++ hash)

/-- `Compare` (crypto/password.go:58-62); slicing a record shorter than the salt panics (`none`). -/
def comparePassword (P : Prims) (password : GoString) (saltAndHash : Bytes) : Option Bool :=
  if saltAndHash.length < saltLength then none
  else
    let salt := saltAndHash.take saltLength
    let hash := saltAndHash.drop saltLength
    some (decide (P.pbkdf2 password salt = hash))

end D1
