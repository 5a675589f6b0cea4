import Verif.Model.Json
/-!
# External primitives

The parts of the Go standard library and third-party libraries that the model treats as functions.  `Prims` gives
the functions, `Prims.Laws` what is assumed about them.  Both appear explicitly in every theorem that needs them;
`Verif/Proofs/Instance*.lean` proves the laws satisfiable.  Nothing here is a Lean axiom.
-/
namespace D1

structure Prims where
  /-- `crypto/aes` block encryption: key, 16-byte block. -/
  aesEnc : Bytes → Bytes → Bytes
  /-- `crypto/aes` block decryption. -/
  aesDec : Bytes → Bytes → Bytes
  /-- `cipher.NewGCM(aes).Seal`: key, nonce, associated data, plaintext; returns ciphertext and tag. -/
  gcmSeal : Bytes → Bytes → Bytes → Bytes → Bytes
  /-- `cipher.NewGCM(aes).Open`: key, nonce, associated data, ciphertext and tag. -/
  gcmOpen : Bytes → Bytes → Bytes → Bytes → Option Bytes
  /-- The Keccak sponge as used by cSHAKE (golang.org/x/crypto/sha3): rate, absorbed bytes, output length. -/
  sponge : Nat → Bytes → Nat → Bytes
  /-- `pbkdf2.Key(password, salt, 10000, 32, sha3.New256)` (crypto/password.go:52,65). -/
  pbkdf2 : Bytes → Bytes → Bytes
  /-- `json.Unmarshal` as far as the JSON value; type errors are raised by the decoders of Model/Json.lean. -/
  unmarshal : Bytes → Option J
  /-- `uuid.UnmarshalText`. -/
  uuidParse : Bytes → Option Oid
  /-- `time.Time.MarshalJSON` without the quotes.  Simplification: it does not fail (years 0 to 9999). -/
  timeText : GoTime → Bytes
  /-- `time.Time.UnmarshalJSON`. -/
  timeParse : Bytes → Option GoTime

structure Prims.Laws (P : Prims) : Prop where
  /-- AES is a permutation of 16-byte blocks for each key. -/
  aes_len : ∀ k b, b.length = 16 → (P.aesEnc k b).length = 16
  aes_dec_enc : ∀ k b, b.length = 16 → P.aesDec k (P.aesEnc k b) = b
  aes_dec_len : ∀ k b, b.length = 16 → (P.aesDec k b).length = 16
  aes_enc_dec : ∀ k b, b.length = 16 → P.aesEnc k (P.aesDec k b) = b
  /-- GCM appends a 16-byte tag. -/
  gcm_len : ∀ k n a p, (P.gcmSeal k n a p).length = p.length + 16
  /-- GCM decrypts what it encrypted. -/
  gcm_open_seal : ∀ k n a p, P.gcmOpen k n a (P.gcmSeal k n a p) = some p
  /-- GCM is deterministic given the nonce: it opens only what sealing the result would produce. -/
  gcm_seal_open : ∀ k n a c p, P.gcmOpen k n a c = some p → c = P.gcmSeal k n a p
  /-- The sponge can be squeezed to any length. -/
  sponge_len : ∀ r x n, (P.sponge r x n).length = n
  /-- The requested hash length is 32 (`hashLength`, crypto/password.go:28). -/
  pbkdf2_len : ∀ p s, (P.pbkdf2 p s).length = 32
  /-- Reading JSON text gives back the value, with every invalid UTF-8 byte replaced by U+FFFD. -/
  unmarshal_render : ∀ j : J, P.unmarshal j.render = some j.san
  uuid_parse : ∀ u, P.uuidParse (uuidText u) = some u
  /-- A time read back denotes the same instant and prints the same (its `*Location` may differ). -/
  time_parse : ∀ t, ∃ t', P.timeParse (P.timeText t) = some t' ∧ t'.ns = t.ns ∧ P.timeText t' = P.timeText t
  /-- RFC 3339 text consists of digits and `- : . + T Z`, none of which JSON escapes. -/
  time_plain : ∀ t, ∀ b ∈ P.timeText t, htmlSafe b = true

end D1
