import Verif.Std.Gcm
import Verif.Std.Keccak
import Verif.Std.Time
/-!
# The external primitives as the standards define them
-/
namespace D1.Std
open D1

/-- `uuid.UnmarshalText` for the canonical form with lower-case digits, which is what `MarshalText` writes; the
library accepts other forms as well. -/
def uuidParse (s : Bytes) : Option Oid :=
  match parseUuid s with
  | some u => if uuidText u = s then some u else none
  | none => none

/-- AES (FIPS 197), GCM (SP 800-38D), the cSHAKE sponge (FIPS 202, SP 800-185), PBKDF2 with HMAC-SHA3-256 (RFC 8018),
JSON, UUIDs and RFC 3339 times. -/
def stdPrims : Prims where
  aesEnc := aesEnc
  aesDec := aesDec
  gcmSeal := gcmSeal
  gcmOpen := gcmOpen
  sponge := cshakeSponge
  pbkdf2 := pbkdf2
  unmarshal := parseJson
  uuidParse := uuidParse
  timeText := timeText
  timeParse := timeParse

attribute [local irreducible] aesEnc aesDec pbkdf2 cshakeSponge gcmSeal gcmOpen

/-- Every law assumed of the primitives is true of the standard algorithms. -/
theorem stdLaws : stdPrims.Laws where
  aes_len k b _ := aesEnc_length k b
  aes_dec_enc k b h := aesDec_aesEnc k h
  aes_dec_len k b _ := aesDec_length k b
  aes_enc_dec k b h := aesEnc_aesDec k h
  gcm_len k n a p := show (gcmSeal k n a p).length = p.length + 16 from gcmSeal_length k n a p
  gcm_open_seal k n a p := show gcmOpen k n a (gcmSeal k n a p) = some p from gcmOpen_gcmSeal k n a p
  gcm_seal_open k n a c p := show gcmOpen k n a c = some p → c = gcmSeal k n a p from gcmSeal_gcmOpen k n a c p
  sponge_len r x n := cshakeSponge_length r x n
  pbkdf2_len p s := pbkdf2_length p s
  unmarshal_render := parseJson_render
  uuid_parse u := by
    show uuidParse (uuidText u) = some u
    rw [uuidParse, parseUuid_text]
    exact if_pos rfl
  time_parse t := show ∃ t', timeParse (timeText t) = some t' ∧ t'.ns = t.ns ∧ timeText t' = timeText t from
    timeParse_timeText t
  time_plain t := show ∀ b ∈ timeText t, htmlSafe b = true from timeText_plain t

end D1.Std
