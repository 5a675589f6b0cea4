import Verif.Proofs.Kmac
import Verif.Proofs.Instance
import Verif.Model.Index
/-!
# Properties of crypto/kmac.go, crypto/kdf.go, crypto/tagger.go: C35, C52, C53, C54, C55, C56, C73
-/
namespace D1
attribute [-simp] UInt8.ofNat_add UInt8.ofNat_mul UInt8.ofNat_sub
open Spec

/-! ## C52 -/

/-- C52: `leftEncode` is the standard's left_encode for every 64-bit value. -/
theorem C52_leftEncode (x : Nat) (h : x < 2 ^ 64) : IsLeftEncode x (leftEncode x) := by
  obtain ⟨n, hn, h8⟩ := exists_byteCount x h
  exact ⟨n, hn, leftEncode_eq x n hn h8⟩

/-- C52: `rightEncode` is the standard's right_encode for every 64-bit value. -/
theorem C52_rightEncode (x : Nat) (h : x < 2 ^ 64) : IsRightEncode x (rightEncode x) := by
  obtain ⟨n, hn, h8⟩ := exists_byteCount x h
  exact ⟨n, hn, rightEncode_eq x n hn h8⟩

/-- The specification determines the encoding. -/
theorem C52_spec_unique (x : Nat) (b c : Bytes) (hb : IsLeftEncode x b) (hc : IsLeftEncode x c) : b = c := by
  obtain ⟨n, hn, rfl⟩ := hb
  obtain ⟨m, hm, rfl⟩ := hc
  rw [byteCount_unique hn hm]

/-- C52: `leftEncode` is injective and prefix-free. -/
theorem C52_leftEncode_prefix_free (x y : Nat) (hx : x < 2 ^ 64) (hy : y < 2 ^ 64) (r : Bytes)
    (h : leftEncode x ++ r = leftEncode y) : x = y ∧ r = [] :=
  leftEncode_append_inj hx hy (by simpa using h)

/-- C52: `rightEncode` is injective, and no encoding is a proper suffix of another. -/
theorem C52_rightEncode_suffix_free (x y : Nat) (hx : x < 2 ^ 64) (hy : y < 2 ^ 64) (r : Bytes)
    (h : r ++ rightEncode x = rightEncode y) : x = y ∧ r = [] :=
  rightEncode_append_inj hx hy (by simpa using h)

example : leftEncode 256 = [2, 1, 0] ∧ rightEncode 256 = [1, 0, 2] ∧ leftEncode 0 = [1, 0] ∧
    leftEncode (2 ^ 64 - 1) = [8, 255, 255, 255, 255, 255, 255, 255, 255] := by decide

/-! ## C53

Full statement: `IsBytepad x w (bytepad x w)` for every `x` and `0 < w < 2 ^ 64`.  It is false of the code: when
left_encode(w) and the input already fill whole blocks the code appends another full block of zeros. -/

/-- C53, the part that holds: unless the data is already aligned, `bytepad` is the standard's bytepad. -/
theorem C53_bytepad_partial (x : Bytes) (w : Nat) (h0 : 0 < w) (hw : w < 2 ^ 64)
    (hal : ((leftEncode w).length + x.length) % w ≠ 0) : IsBytepad x w (bytepad x w) := by
  have hlt := Nat.mod_lt ((leftEncode w).length + x.length) h0
  have hdm := Nat.div_add_mod ((leftEncode w).length + x.length) w
  refine ⟨leftEncode w, w - ((leftEncode w).length + x.length) % w, C52_leftEncode w hw, ?_, ?_, by omega⟩
  · simp [bytepad]
  · simp only [bytepad, List.length_append, List.length_replicate]
    rw [show (leftEncode w).length + x.length + (w - ((leftEncode w).length + x.length) % w) =
      w * (((leftEncode w).length + x.length) / w + 1) by rw [Nat.mul_add]; omega]
    exact Nat.mul_mod_right _ _

/-- C53, refutation: whenever the data is already aligned the result differs from the standard's. -/
theorem C53_false (x : Bytes) (w : Nat) (h0 : 0 < w) (hw : w < 2 ^ 64)
    (hal : ((leftEncode w).length + x.length) % w = 0) : ¬ IsBytepad x w (bytepad x w) := by
  rintro ⟨l, k, hl, he, _, hk⟩
  have := C52_spec_unique w _ _ hl (C52_leftEncode w hw)
  subst this
  have h2 := congrArg List.length he
  simp [bytepad, hal] at h2
  omega

/-- A KMAC256 key of 131 bytes hits the refuted case. -/
example : ((leftEncode 136).length + (leftEncode (131 * 8) ++ List.replicate 131 (7 : UInt8)).length) % 136 = 0 := by
  decide +kernel

/-- C53: with the 32-byte keys that this library uses, the key block is the standard's. -/
theorem C53_key_block (key : Bytes) (h : key.length = 32) :
    IsBytepad (leftEncode (key.length * 8) ++ key) 136 (bytepad (leftEncode (key.length * 8) ++ key) 136) := by
  apply C53_bytepad_partial _ _ (by omega) (by omega)
  rw [List.length_append, h]
  decide +kernel

/-! ## C54 -/

/-- Calls on a KMAC object. -/
inductive KmacOp where
  | write (p : Bytes)
  | sum (b : Bytes)
  | reset

/-- The code: the results of the `Sum` calls. -/
def runKmac (P : Prims) : Kmac → List KmacOp → List Bytes
  | _, [] => []
  | k, .write p :: r => runKmac P (k.write p) r
  | k, .sum b :: r => k.sum P b :: runKmac P k r
  | k, .reset :: r => runKmac P k.reset r

/-- The specification: only the bytes written since the last reset are remembered. -/
def specKmac (mac : Bytes → Bytes) : Bytes → List KmacOp → List Bytes
  | _, [] => []
  | msg, .write p :: r => specKmac mac (msg ++ p) r
  | msg, .sum b :: r => (b ++ mac msg) :: specKmac mac msg r
  | _, .reset :: r => specKmac mac [] r

theorem runKmac_aux (P : Prims) (rate : Nat) (key custom : Bytes) (tagSize : Nat) (ops : List KmacOp) (k : Kmac) (msg : Bytes)
    (hi : k.initBlock = leftEncode (key.length * 8) ++ key) (hb : k.blockSize = rate) (ht : k.tagSize = tagSize)
    (hr : k.shake.rate = rate) (hs : k.shake.initBlock = (newCShake rate kmacName custom).initBlock)
    (ha : k.shake.absorbed = (newCShake rate kmacName custom).absorbed ++
      bytepad (leftEncode (key.length * 8) ++ key) rate ++ msg) :
    runKmac P k ops = specKmac (fun m => P.sponge rate (kmacInput rate key custom m tagSize) tagSize) msg ops := by
  induction ops generalizing k msg with
  | nil => rfl
  | cons op ops ih =>
    cases op with
    | write p => exact ih (k.write p) (msg ++ p) hi hb ht hr hs (by simp [Kmac.write, CShake.write, ha])
    | sum b =>
      simp only [runKmac, specKmac]
      rw [ih k msg hi hb ht hr hs ha]
      congr 2
      simp only [Kmac.sum, CShake.read, CShake.write, ha, hr, ht, kmacInput]
      rfl
    | reset =>
      refine ih k.reset [] hi hb ht hr hs ?_
      simp only [Kmac.reset, Kmac.write, CShake.write, CShake.reset, hs, hr, hi, hb, List.append_nil]
      rfl

/-- C54 for KMAC256: every sequence of calls on a fresh object. -/
theorem C54_kmac256 (P : Prims) (key custom : Bytes) (tagSize : Nat) (k : Kmac)
    (h : newKMAC256 key tagSize custom = some k) (ops : List KmacOp) :
    runKmac P k ops = specKmac (fun m => P.sponge 136 (kmacInput 136 key custom m tagSize) tagSize) [] ops := by
  simp only [newKMAC256, newKMAC] at h
  split at h; · simp at h
  split at h; · simp at h
  cases h
  exact runKmac_aux P 136 key custom tagSize ops _ [] rfl rfl rfl rfl rfl (by simp [CShake.write])

/-- C54 for KMAC128. -/
theorem C54_kmac128 (P : Prims) (key custom : Bytes) (tagSize : Nat) (k : Kmac)
    (h : newKMAC128 key tagSize custom = some k) (ops : List KmacOp) :
    runKmac P k ops = specKmac (fun m => P.sponge 168 (kmacInput 168 key custom m tagSize) tagSize) [] ops := by
  simp only [newKMAC128, newKMAC] at h
  split at h; · simp at h
  split at h; · simp at h
  cases h
  exact runKmac_aux P 168 key custom tagSize ops _ [] rfl rfl rfl rfl rfl (by simp [CShake.write])

/-- C54: constructing a KMAC panics exactly for keys or tags that are too short. -/
theorem C54_kmac_panics (key custom : Bytes) (tagSize : Nat) :
    (newKMAC256 key tagSize custom = none ↔ key.length < 32 ∨ tagSize < 8) ∧
    (newKMAC128 key tagSize custom = none ↔ key.length < 16 ∨ tagSize < 8) := by
  have h : kmacMinimumTagSize = 8 := rfl
  constructor
  · unfold newKMAC256 newKMAC
    split
    · simp; omega
    · split <;> simp <;> omega
  · unfold newKMAC128 newKMAC
    split
    · simp; omega
    · split <;> simp <;> omega

example : (newKMAC256 (List.replicate 32 1) 32 [9]).isSome ∧ specKmac (fun m => m) [] [.write [1], .sum [7], .write [2],
    .sum [], .reset, .write [3], .sum []] = [[7, 1], [1, 2], [3]] := by decide

/-! ## C55 -/

/-- C55: `Sum` squeezes the sponge over an encoding of (key, tag size, customization, message) that is injective for all
lengths that 64-bit bit counts can express. -/
theorem C55_kmac_unambiguous : ∃ enc : Bytes → Nat → Bytes → Bytes → Bytes,
    (∀ (P : Prims) (key : Bytes) (tagSize : Nat) (custom : Bytes) (k : Kmac), newKMAC256 key tagSize custom = some k →
      ∀ (ms : List Bytes) (b : Bytes),
        (ms.foldl Kmac.write k).sum P b = b ++ P.sponge 136 (enc key tagSize custom ms.flatten) tagSize) ∧
    ∀ k t c m k' t' c' m', k.length * 8 < 2 ^ 64 → k'.length * 8 < 2 ^ 64 → c.length * 8 < 2 ^ 64 →
      c'.length * 8 < 2 ^ 64 → t * 8 < 2 ^ 64 → t' * 8 < 2 ^ 64 → enc k t c m = enc k' t' c' m' →
      k = k' ∧ t = t' ∧ c = c' ∧ m = m' := by
  refine ⟨fun k t c m => kmacInput 136 k c m t, ?_, ?_⟩
  · intro P key tagSize custom k h ms b
    simp only [newKMAC256, newKMAC] at h
    split at h; · simp at h
    split at h; · simp at h
    cases h
    obtain ⟨h1, h2, h3, -⟩ := foldl_write_absorbed
      ⟨(newCShake 136 kmacName custom).write (bytepad (leftEncode (key.length * 8) ++ key) 136), tagSize,
        leftEncode (key.length * 8) ++ key, 136⟩ ms
    simp only [Kmac.sum, CShake.read]
    simp only [CShake.write] at h1 h2 h3 ⊢
    rw [h1, h2, h3]
    rfl
  · intro k t c m k' t' c' m' h1 h2 h3 h4 h5 h6 he
    obtain ⟨e1, e2, e3, e4⟩ := kmacInput_inj (by omega) h1 h2 h3 h4 h5 h6 he
    exact ⟨e1, e4, e2, e3⟩

/-! ## C56

Full statement: different (label, context list) pairs feed different inputs to the sponge.  It is false of the code: the
contexts are simply concatenated. -/

/-- C56, the part that holds: different labels, or context lists with different concatenations (in particular different
single contexts, the only way the library uses it), feed different inputs to the sponge. -/
theorem C56_kdf_separation_partial : ∃ enc : Bytes → Bytes → Bytes → Bytes,
    (∀ (P : Prims) (kik label : Bytes) (context : List Bytes), 32 ≤ kik.length →
      kmacKdf P 32 kik label context = some (P.sponge 136 (enc kik label context.flatten) 32)) ∧
    ∀ k l x k' l' x', k.length * 8 < 2 ^ 64 → k'.length * 8 < 2 ^ 64 → l.length * 8 < 2 ^ 64 → l'.length * 8 < 2 ^ 64 →
      enc k l x = enc k' l' x' → k = k' ∧ l = l' ∧ x = x' := by
  refine ⟨fun k l x => kmacInput 136 k l x 32, ?_, ?_⟩
  · intro P kik label context hk
    exact kmacKdf_eq P 32 kik label context hk (by omega)
  · intro k l x k' l' x' h1 h2 h3 h4 he
    obtain ⟨e1, e2, e3, _⟩ := kmacInput_inj (by omega) h1 h2 h3 h4 (by omega) (by omega) he
    exact ⟨e1, e2, e3⟩

/-- C56, refutation: moving the boundary between two contexts changes nothing. -/
theorem C56_false (P : Prims) (size : Nat) (kik label a b : Bytes) :
    kmacKdf P size kik label [a, b] = kmacKdf P size kik label [a ++ b] := by
  simp only [kmacKdf]
  congr 1
  funext k
  simp [Kmac.write, CShake.write]

example : ([[1], [2, 3]] : List Bytes) ≠ [[1, 2, 3]] ∧
    kmacKdf toyPrims 32 (List.replicate 32 1) labelId [[1], [2, 3]] = kmacKdf toyPrims 32 (List.replicate 32 1) labelId [[1, 2, 3]] :=
  ⟨by decide, C56_false _ _ _ _ _ _⟩

/-! ## C35 -/

/-- The label under which the index stores the node with the given counter of a keyword. -/
def nodeLabel (P : Prims) (i : SecureIndex) (kw : GoString) (ctr : Nat) : Prog Bytes := do
  let (tagger, _) ← i.getTaggerAndCryptor P kw
  Prog.ofPanic ((⟨[], ctr⟩ : Node).nextLabel P tagger)

/-- Two given inputs are different, but the sponge maps them to the same 32 bytes. -/
def Collides (P : Prims) (x y : Bytes) : Prop := x ≠ y ∧ P.sponge 136 x 32 = P.sponge 136 y 32

/-- What the index feeds to the sponge for the tagger key of a keyword. -/
def taggerInput (i : SecureIndex) (kw : GoString) : Bytes := kmacInput 136 i.indexKey labelLabel kw 32

/-- What the index feeds to the sponge for the label of a keyword and counter. -/
def labelInput (P : Prims) (i : SecureIndex) (kw : GoString) (ctr : Nat) : Bytes :=
  kmacInput 136 (P.sponge 136 (taggerInput i kw) 32) (J.ofBytes (some (uvarint ctr))).render [] 32

theorem getTaggerAndCryptor_eq {P : Prims} (L : P.Laws) (i : SecureIndex) (hk : i.indexKey.length = 32) (kw : GoString) :
    i.getTaggerAndCryptor P kw = .ret (⟨P.sponge 136 (kmacInput 136 i.indexKey labelLabel kw 32) 32⟩,
      ⟨P.sponge 136 (kmacInput 136 i.indexKey labelId kw 32) 32⟩) := by
  simp only [SecureIndex.getTaggerAndCryptor, Prog.bind_eq, Prog.pure_eq, taggerKeyLength, encryptionKeyLength]
  rw [kmacKdf_eq P 32 _ _ _ (by omega) (by omega), kmacKdf_eq P 32 _ _ _ (by omega) (by omega)]
  simp only [Prog.ofPanic_some, Prog.ret_bind, List.flatten_cons, List.flatten_nil, List.append_nil]
  rw [newKMAC256Tagger, if_neg (by simp [L.sponge_len, taggerKeyLength])]
  rw [newAESCryptor, if_neg (by simp [L.sponge_len, wrapperKeyLength]), newKWP, if_pos (.inr (L.sponge_len _ _ _))]
  rfl

theorem renderCounter_length (ctr : Nat) : (J.ofBytes (some (uvarint ctr))).render.length * 8 < 2 ^ 64 := by
  have h := (uvarintAux_length 9 ctr).1
  simp only [J.ofBytes, J.render]
  rw [renderStr_plain _ (b64Enc_safe _ _)]
  simp only [List.length_append, b64Enc_length_std, List.length_cons, List.length_nil]
  simp only [uvarint]
  omega

/-- The label of a keyword and counter. -/
def ixLabel (P : Prims) (i : SecureIndex) (kw : GoString) (ctr : Nat) : Bytes := P.sponge 136 (labelInput P i kw ctr) 32

theorem nodeLabel_eq {P : Prims} (L : P.Laws) (i : SecureIndex) (hk : i.indexKey.length = 32) (kw : GoString) (ctr : Nat) :
    nodeLabel P i kw ctr = .ret (ixLabel P i kw ctr) := by
  simp only [nodeLabel, Prog.bind_eq, getTaggerAndCryptor_eq L i hk kw, Prog.ret_bind, Node.nextLabel]
  rw [tag_eq P _ _ (L.sponge_len _ _ _)]
  rfl

/-- C35: labels exist, are 32 bytes long, and two different (keyword, counter) pairs have different labels unless the
sponge collides on the two inputs made for the tagger keys or on the two inputs made for the labels. -/
theorem C35_labels {P : Prims} (L : P.Laws) (i : SecureIndex) (hk : i.indexKey.length = 32) :
    (∀ kw ctr, ∃ l, nodeLabel P i kw ctr = .ret l ∧ l.length = 32) ∧
    ∀ kw kw' ctr ctr' l, ctr < 2 ^ 64 → ctr' < 2 ^ 64 → nodeLabel P i kw ctr = .ret l → nodeLabel P i kw' ctr' = .ret l →
      (kw = kw' ∧ ctr = ctr') ∨ Collides P (taggerInput i kw) (taggerInput i kw') ∨
        Collides P (labelInput P i kw ctr) (labelInput P i kw' ctr') := by
  refine ⟨fun kw ctr => ⟨_, nodeLabel_eq L i hk kw ctr, L.sponge_len _ _ _⟩, ?_⟩
  intro kw kw' ctr ctr' l h1 h2 e e'
  rw [nodeLabel_eq L i hk] at e e'
  injection e with e
  injection e' with e'
  rw [← e'] at e
  by_cases hne : labelInput P i kw ctr = labelInput P i kw' ctr'
  · obtain ⟨k1, c1, _, _⟩ := kmacInput_inj (by omega) (by rw [L.sponge_len]; omega) (by rw [L.sponge_len]; omega)
      (renderCounter_length _) (renderCounter_length _) (by omega) (by omega) hne
    have hc := ofBytes_render_inj L c1
    have hctr := uvarint_inj h1 h2 (Option.some.inj hc)
    by_cases hkw : kw = kw'
    · exact .inl ⟨hkw, hctr⟩
    · refine .inr (.inl ⟨fun he => hkw ?_, k1⟩)
      obtain ⟨_, _, e3, _⟩ := kmacInput_inj (by omega) (by rw [hk]; omega) (by rw [hk]; omega) (by decide) (by decide)
        (by omega) (by omega) he
      exact e3
  · exact .inr (.inr ⟨hne, e⟩)

example : (SecureIndex.mk (fun _ => .err .idNotAuthenticated) (List.replicate 32 3)).indexKey.length = 32 := rfl

/-! ## C73 -/

/-- A purpose of a key of the index, as the bytes of its name: "label" for making labels, "id" for sealing identifiers. -/
inductive Purpose where
  | label
  | id
  deriving DecidableEq

def Purpose.name : Purpose → Bytes
  | .label => [108, 97, 98, 101, 108]
  | .id => [105, 100]

/-- What is fed to the sponge for the key of a purpose and a keyword. -/
def purposeInput (i : SecureIndex) (p : Purpose) (kw : GoString) : Bytes := kmacInput 136 i.indexKey p.name kw 32

/-- The key the index uses for a purpose and a keyword. -/
def purposeKey (P : Prims) (i : SecureIndex) (p : Purpose) (kw : GoString) : Prog Bytes := do
  let (tagger, cryptor) ← i.getTaggerAndCryptor P kw
  return match p with
    | .label => tagger.key
    | .id => cryptor.kwp

/-- C73: no two keys of the index are the same, whether for two keywords or for two purposes, unless the sponge collides on the two inputs they
are made from. -/
theorem C73_keys_separate {P : Prims} (L : P.Laws) (i : SecureIndex) (hk : i.indexKey.length = 32) :
    (∀ p kw, ∃ k, purposeKey P i p kw = .ret k ∧ k.length = 32) ∧
    ∀ p p' kw kw' k, purposeKey P i p kw = .ret k → purposeKey P i p' kw' = .ret k →
      (p = p' ∧ kw = kw') ∨ Collides P (purposeInput i p kw) (purposeInput i p' kw') := by
  have heq : ∀ p kw, purposeKey P i p kw = .ret (P.sponge 136 (purposeInput i p kw) 32) := by
    intro p kw
    simp only [purposeKey, Prog.bind_eq, getTaggerAndCryptor_eq L i hk kw, Prog.ret_bind, Prog.pure_eq]
    cases p <;> rfl
  refine ⟨fun p kw => ⟨_, heq p kw, L.sponge_len _ _ _⟩, fun p p' kw kw' k h h' => ?_⟩
  rw [heq] at h h'
  injection h with h
  injection h' with h'
  by_cases hne : purposeInput i p kw = purposeInput i p' kw'
  · have hl : ∀ p : Purpose, p.name.length * 8 < 2 ^ 64 := fun p => by cases p <;> decide
    obtain ⟨-, e2, e3, -⟩ := kmacInput_inj (by omega) (by rw [hk]; omega) (by rw [hk]; omega) (hl p) (hl p') (by omega) (by omega) hne
    refine .inl ⟨?_, e3⟩
    cases p <;> cases p' <;> first | rfl | (exact absurd e2 (by decide))
  · exact .inr ⟨hne, h.trans h'.symm⟩

example : purposeKey toyPrims ⟨fun _ => .err .idNotAuthenticated, List.replicate 32 3⟩ .label [1] ≠
    purposeKey toyPrims ⟨fun _ => .err .idNotAuthenticated, List.replicate 32 3⟩ .id [1] := by
  intro h
  have : ∀ a b : Prog Bytes, a = b → (a.run ⟨fun _ _ => none, fun t => ⟨t, 0⟩, fun _ => .none⟩ ⟨fun _ _ => none, 0⟩).1 =
    (b.run ⟨fun _ _ => none, fun t => ⟨t, 0⟩, fun _ => .none⟩ ⟨fun _ _ => none, 0⟩).1 := fun a b h => by rw [h]
  exact absurd (this _ _ h) (by decide +kernel)

end D1
