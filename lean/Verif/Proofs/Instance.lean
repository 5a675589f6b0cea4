import Verif.Proofs.JsonParser
/-!
# An instance of the external primitives

A concrete `Prims` for which all laws hold.  The JSON and UUID readers are real; the cryptographic functions are toys of
the right shape.  It shows that `Prims.Laws` is satisfiable and provides the concrete cases next to the theorems.
-/
namespace D1
attribute [-simp] UInt8.ofNat_add UInt8.ofNat_mul UInt8.ofNat_sub

/-- Reads pairs of hexadecimal digits. -/
def hexDec : Bytes → Bytes
  | a :: b :: r => UInt8.ofNat (hexVal a * 16 + hexVal b) :: hexDec r
  | _ => []

theorem hexVal_digit : ∀ n, n < 16 → hexVal (hexDigit n) = n := by decide

theorem hexDec_enc (b : Bytes) : hexDec (hexEnc b) = b := by
  induction b with
  | nil => rfl
  | cons a r ih =>
    have := toNat_lt a
    simp only [hexEnc, hexDec, ih]
    rw [hexVal_digit _ (by omega), hexVal_digit _ (by omega), ofNat_toNat a _ (by omega)]

/-- Reads a UUID: drop the dashes, decode the digits. -/
def parseUuid (s : Bytes) : Option Oid :=
  let b := hexDec (s.filter (· ≠ 45))
  if h : b.length = 16 then some ⟨b, h⟩ else none

theorem hexEnc_append (a b : Bytes) : hexEnc (a ++ b) = hexEnc a ++ hexEnc b := by
  induction a with
  | nil => rfl
  | cons x a ih => simp [hexEnc, ih]

theorem hexEnc_filter (b : Bytes) : (hexEnc b).filter (· ≠ 45) = hexEnc b := by
  induction b with
  | nil => rfl
  | cons a r ih =>
    have := toNat_lt a
    have h1 := (hexDigit_mem (a.toNat / 16) (by omega)).2
    have h2 := (hexDigit_mem (a.toNat % 16) (by omega)).2
    simp only [hexEnc, List.filter_cons, decide_eq_true h1, decide_eq_true h2, if_true, ih]

theorem parseUuid_text (u : Oid) : parseUuid (uuidText u) = some u := by
  have h : hexDec ((uuidText u).filter (· ≠ 45)) = u.1 := by
    have e : ([45] : Bytes).filter (· ≠ 45) = [] := by decide
    simp only [uuidText, List.filter_append, hexEnc_filter, e, List.append_nil]
    simp only [← hexEnc_append, hexDec_enc]
    have h1 : ∀ (l : Bytes) (a b : Nat), l.take a ++ (l.drop a).take b = l.take (a + b) := fun l a b => by
      rw [List.take_add]
    rw [h1, show 4 + 2 = 6 from rfl, h1, show 6 + 2 = 8 from rfl, h1, show 8 + 2 = 10 from rfl, List.take_append_drop]
  rw [parseUuid]
  simp only [h]
  rw [dif_pos u.2]

/-- Integers as natural numbers. -/
def zig (i : Int) : Nat := if 0 ≤ i then 2 * i.toNat else 2 * (-i).toNat - 1
def zag (n : Nat) : Int := if n % 2 = 0 then (n / 2 : Nat) else -((n / 2 : Nat) + 1)

theorem zag_zig (i : Int) : zag (zig i) = i := by
  unfold zag zig
  split <;> split <;> omega

/-- A small polynomial hash. -/
def toyHash (b : Bytes) : Nat := b.foldl (fun h x => (h * 257 + x.toNat + 1) % (2 ^ 61 - 1)) 7

/-- `n` bytes of a number. -/
def toyBytes (h n : Nat) : Bytes := (List.range n).map fun i => UInt8.ofNat (h / 256 ^ (i % 8) + i)

/-- XOR with the key. -/
def toyXor (k b : Bytes) : Bytes := b.mapIdx fun i x => x ^^^ k.getD i 0

/-- Unambiguous concatenation. -/
def toyCat (xs : List Bytes) : Bytes := xs.flatMap fun x => uvarint x.length ++ x

def toyTag (k n a p : Bytes) : Bytes := toyBytes (toyHash (toyCat [k, n, a, p])) 16

/-- The instance. -/
def toyPrims : Prims where
  aesEnc := toyXor
  aesDec := toyXor
  gcmSeal k n a p := p ++ toyTag k n a p
  gcmOpen k n a c :=
    if 16 ≤ c.length ∧ c.drop (c.length - 16) = toyTag k n a (c.take (c.length - 16)) then some (c.take (c.length - 16))
    else none
  sponge r x n := toyBytes (toyHash (toyCat [uvarint r, x])) n
  pbkdf2 p s := toyBytes (toyHash (toyCat [p, s])) 32
  unmarshal := parseJson
  uuidParse := parseUuid
  timeText t := decEnc (zig t.ns)
  timeParse s := some ⟨zag (decVal s), 0⟩

theorem toyXor_xor (k b : Bytes) : toyXor k (toyXor k b) = b := by
  apply List.ext_getElem (by simp [toyXor])
  intro i h1 h2
  simp only [toyXor, List.getElem_mapIdx]
  rw [UInt8.xor_assoc, UInt8.xor_self, UInt8.xor_zero]

theorem toyTag_length (k n a p : Bytes) : (toyTag k n a p).length = 16 := by simp [toyTag, toyBytes]

theorem toyLaws : toyPrims.Laws where
  aes_len k b h := by simp [toyPrims, toyXor, h]
  aes_dec_enc k b _ := toyXor_xor k b
  aes_dec_len k b h := by simp [toyPrims, toyXor, h]
  aes_enc_dec k b _ := toyXor_xor k b
  gcm_len k n a p := by simp [toyPrims, toyTag_length]
  gcm_open_seal k n a p := by simp [toyPrims, toyTag_length]
  gcm_seal_open k n a c p h := by
    simp only [toyPrims] at h ⊢
    split at h
    · rename_i hc
      simp only [Option.some.injEq] at h
      subst h
      rw [← hc.2, List.take_append_drop]
    · simp at h
  sponge_len r x n := by simp [toyPrims, toyBytes]
  pbkdf2_len p s := by simp [toyPrims, toyBytes]
  unmarshal_render := parseJson_render
  uuid_parse := parseUuid_text
  time_parse t := ⟨⟨t.ns, 0⟩, by simp [toyPrims, decVal_decEnc, zag_zig], rfl, rfl⟩
  time_plain t b hb := by
    have := decEnc_digit _ b hb
    simp [htmlSafe]
    omega

end D1
