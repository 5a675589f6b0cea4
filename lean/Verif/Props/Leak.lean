import Verif.Props.Guard
import Verif.Model.Index
import Verif.Model.Standalone
/-!
# C20 to C22: ciphertext sizes, what reaches the IO Provider, key lengths
-/
namespace D1
open Spec Prog
attribute [-simp] UInt8.ofNat_add UInt8.ofNat_mul UInt8.ofNat_sub

/-! ## C20 -/

/-- The size of the ciphertext of an object: base64 in quotes (or `null`), a 16-byte tag and a 12-byte nonce. -/
def cipherSize : NBytes → Nat
  | none => 32
  | some p => 4 * ((p.length + 2) / 3) + 30

theorem ofBytes_render_length (p : NBytes) : (J.ofBytes p).render.length + 28 = cipherSize p := by
  cases p with
  | none => rfl
  | some p =>
    have : (J.ofBytes (some p)).render = renderStr (b64Enc false p) := rfl
    rw [this, renderStr_plain _ (b64Enc_safe false p)]
    simp only [List.length_append, List.length_singleton, b64Enc_length_std, cipherSize]
    omega

/-- The stored object record and the size of the ciphertext in it. -/
def StoredSize (s : Store) (oid : Oid) (n : Nat) : Prop :=
  ∃ (ct : Bytes) (ad : NBytes), s oid.1 dtObject = some (SealedObject.toJ ⟨some ct, ad, oid⟩).render ∧ ct.length = n

section
variable {P : Prims} (L : P.Laws) {d : D1} {env : Env}
include L

theorem storedSize_of_objAt {s : Store} {oid : Oid} {o : Object} {dek : NBytes} (h : ObjAt P d s oid o dek) :
    StoredSize s oid (cipherSize o.plaintext) := by
  obtain ⟨k, n, h, _⟩ := h
  refine ⟨_, _, h, ?_⟩
  exact (gcmBox_length L k.1 _ _ n).trans (ofBytes_render_length _)

/-- C20, the sizes as they are: a successful `Encrypt` stores exactly `4 * ceil(len / 3) + 30` bytes (32 for a nil plaintext). -/
theorem C20_encrypt_size {t : GoString} {o : Object} {gs : List GoString} {w w' : World} {oid : Oid}
    (h : (d.encrypt P t o gs).run env w = (.ok oid, w')) : StoredSize w'.store oid (cipherSize o.plaintext) := by
  obtain ⟨_, _, _, _, a, _, ho, _⟩ := encrypt_stored L h
  exact storedSize_of_objAt L ho

/-- C20: the same for `Update`. -/
theorem C20_update_size {t : GoString} {o : Object} {w w' : World} {oid : Oid}
    (h : (d.update P t oid o).run env w = (.ok (), w')) : StoredSize w'.store oid (cipherSize o.plaintext) := by
  obtain ⟨_, a, _, ho, _⟩ := C19_update_stored L h
  exact storedSize_of_objAt L ho

omit L in
theorem StoredSize.unique (L : P.Laws) {s : Store} {oid : Oid} {n m : Nat} (h : StoredSize s oid n) (h' : StoredSize s oid m) : n = m := by
  obtain ⟨ct, ad, h1, rfl⟩ := h
  obtain ⟨ct', ad', h2, rfl⟩ := h'
  rw [h1] at h2
  have h3 := render_san L (Option.some.inj h2)
  have h4 := congrArg (SealedObject.ofJ P) h3
  rw [SealedObject.ofJ_toJ L, SealedObject.ofJ_toJ L] at h4
  simp only [Option.some.injEq, SealedObject.mk.injEq] at h4
  rw [h4.1]

/-- C20: the documented size `len + 48` is right exactly for plaintexts of 46, 50 or 54 bytes.  What is missing is every other
length, for which the documented claim is false. -/
theorem C20_documented_partial {t : GoString} {o : Object} {gs : List GoString} {w w' : World} {oid : Oid}
    (h : (d.encrypt P t o gs).run env w = (.ok oid, w')) :
    StoredSize w'.store oid (o.plaintext.bytes.length + 48) ↔ o.plaintext.bytes.length ∈ [46, 50, 54] := by
  have hs := C20_encrypt_size L h
  have e : StoredSize w'.store oid (o.plaintext.bytes.length + 48) ↔ o.plaintext.bytes.length + 48 = cipherSize o.plaintext :=
    ⟨fun h => h.unique L hs, fun e => by rw [e]; exact hs⟩
  rw [e]
  cases hp : o.plaintext with
  | none => simp [NBytes.bytes, cipherSize]
  | some p =>
    simp only [NBytes.bytes, Option.getD_some, cipherSize, List.mem_cons, List.not_mem_nil, or_false]
    omega

/-- C20 is false: the 16-byte plaintext of a successful `Encrypt` is not stored in 64 bytes. -/
theorem C20_false {t : GoString} {o : Object} {gs : List GoString} {w w' : World} {oid : Oid}
    (h : (d.encrypt P t o gs).run env w = (.ok oid, w')) (hl : o.plaintext.bytes.length = 16) :
    ¬ StoredSize w'.store oid (o.plaintext.bytes.length + 48) := by
  rw [C20_documented_partial L h, hl]
  decide

end

/-- Concrete case: an `Encrypt` that succeeds, with a plaintext of 16 bytes. -/
theorem toy_encrypt_ok (o : Object) : ∃ oid w1, (toyD1.encrypt toyPrims [7] o [[8]]).run toyEnv ⟨fun _ _ => none, 0⟩ = (.ok oid, w1) := by
  have hi : (toyD1.idProvider [7]).run toyEnv ⟨fun _ _ => none, 0⟩ =
      (.ok ⟨[7], scopeAll, [([50], ⟨[50], scopeAll⟩)]⟩, ⟨fun _ _ => none, 0⟩) := rfl
  obtain ⟨w', h, _⟩ := run_call toyLaws toyEnv_noFault toyEnv_randOk (toyD1_idpOk _)
    (rel_empty toyPrims toyD1 (fun _ _ => none) (fun _ => ⟨rfl, rfl⟩)) (w := ⟨fun _ _ => none, 0⟩) (.encrypt [7] o [[8]])
  have hs : ∀ f, (step sanitize emptyVault (whoIs toyD1 toyEnv ⟨fun _ _ => none, 0⟩ [7]) f (.encrypt [7] o [[8]])).1 =
      .ok (.oid f) := by
    intro f
    have hw : whoIs toyD1 toyEnv ⟨fun _ _ => none, 0⟩ [7] = some ⟨[7], scopeAll, [([50], ⟨[50], scopeAll⟩)]⟩ := rfl
    have ha : authenticate (some ⟨[7], scopeAll, [([50], ⟨[50], scopeAll⟩)]⟩) scopeEncrypt =
        .ok ⟨[7], scopeAll, [([50], ⟨[50], scopeAll⟩)]⟩ := by
      simp only [authenticate]; rw [if_pos (by decide)]
    simp only [step, hw, ha, emptyVault]
  simp only [Call.token] at h
  rw [hs] at h
  simp only [callProg, toOutcome] at h
  obtain ⟨oid, w1, h1, _⟩ := (Prog.run_bind_ok_iff toyEnv).mp h
  exact ⟨oid, w1, h1⟩

example : ∃ oid w', (toyD1.encrypt toyPrims [7] ⟨some (List.replicate 16 1), none⟩ [[8]]).run toyEnv ⟨fun _ _ => none, 0⟩ = (.ok oid, w') ∧
    StoredSize w'.store oid 54 ∧ ¬ StoredSize w'.store oid 64 := by
  obtain ⟨oid, w1, h⟩ := toy_encrypt_ok ⟨some (List.replicate 16 1), none⟩
  exact ⟨oid, w1, h, C20_encrypt_size toyLaws h, C20_false toyLaws h rfl⟩

/-! ## C21

Two worlds that differ only in the AEAD and in the data.  `P` seals with `P.gcmSeal`, the other world with `s'`; all other
primitives are the same.  If the AEAD outputs on the data agree, the two calls are the same program: they send the same requests
and give the same results, whatever the IO Provider, the clock and the random source answer. -/

/-- The primitives with another AEAD. -/
def Prims.withAead (P : Prims) (s : Bytes → Bytes → Bytes → Bytes → Bytes) (o : Bytes → Bytes → Bytes → Bytes → Option Bytes) : Prims :=
  { P with gcmSeal := s, gcmOpen := o }

section
variable {P : Prims} {s' : Bytes → Bytes → Bytes → Bytes → Bytes} {o' : Bytes → Bytes → Bytes → Bytes → Option Bytes}

theorem kwpBox_withAead (kwp key : Bytes) : kwpBox (P.withAead s' o') kwp key = kwpBox P kwp key := rfl

/-- A program's continuation only matters at results the program can give. -/
theorem Prog.bind_congr {α β : Type} {p : Prog α} {k k' : α → Prog β} (h : ∀ a, (∃ tr, Yields p tr (.ok a)) → k a = k' a) :
    p.bind k = p.bind k' := by
  induction p with
  | ret a => exact h a ⟨[], .ret a⟩
  | op e c ih =>
    simp only [op_bind]
    congr 1
    funext r
    exact ih r fun a ⟨tr, ht⟩ => h a ⟨_, .op e c r tr _ ht⟩
  | _ => rfl

/-- The access list that `Encrypt` seals for creator `i`. -/
def firstAccess (gs : List GoString) (i : Identity) (dek : Bytes) : Access := ⟨some ((gs ++ [i.id]).foldl setInsert []), some dek⟩

theorem sealObject_congr (L : P.Laws) (L' : (P.withAead s' o').Laws) {o₁ o₂ : Object} (had : o₂.associatedData = o₁.associatedData)
    {oid : Oid} {c : Cryptor} (h : ∀ (k : BytesN 32) (n : BytesN 12),
      s' k.1 n.1 (objectAad oid o₂.associatedData).render (J.ofBytes o₂.plaintext).render =
        P.gcmSeal k.1 n.1 (objectAad oid o₁.associatedData).render (J.ofBytes o₁.plaintext).render) :
    o₂.seal (P.withAead s' o') oid c = o₁.seal P oid c := by
  simp only [Object.seal, Prog.bind_eq, Cryptor.encrypt_eq L, Cryptor.encrypt_eq L', Prog.bind_assoc, kwpBox_withAead]
  congr 1; funext k; congr 1; funext n
  simp only [gcmBox, Prog.ret_bind, Prog.pure_eq, had]
  have := h k n
  rw [had] at this
  simp only [Prims.withAead, this]

theorem sealAccess_congr (L : P.Laws) (L' : (P.withAead s' o').Laws) {a₁ a₂ : Access} {oid : Oid} {c : Cryptor}
    (h : ∀ (k : BytesN 32) (n : BytesN 12), s' k.1 n.1 (J.ofBytes (some oid.1)).render a₂.toJ.render =
      P.gcmSeal k.1 n.1 (J.ofBytes (some oid.1)).render a₁.toJ.render) :
    a₂.seal (P.withAead s' o') oid c = a₁.seal P oid c := by
  simp only [Access.seal, Prog.bind_eq, Cryptor.encrypt_eq L, Cryptor.encrypt_eq L', Prog.bind_assoc, kwpBox_withAead]
  congr 1; funext k; congr 1; funext n
  simp only [gcmBox, Prog.ret_bind, Prog.pure_eq]
  simp only [Prims.withAead, h k n]

/-- C21 for `Encrypt`: two objects with the same associated data and two group lists whose AEAD outputs agree give the same
program. -/
theorem C21_encrypt (L : P.Laws) (L' : (P.withAead s' o').Laws) (d : D1) (t : GoString) {o₁ o₂ : Object} {gs₁ gs₂ : List GoString}
    (had : o₂.associatedData = o₁.associatedData)
    (hobj : ∀ (oid : Oid) (k : BytesN 32) (n : BytesN 12),
      s' k.1 n.1 (objectAad oid o₂.associatedData).render (J.ofBytes o₂.plaintext).render =
        P.gcmSeal k.1 n.1 (objectAad oid o₁.associatedData).render (J.ofBytes o₁.plaintext).render)
    (hacc : ∀ (oid : Oid) (i : Identity) (k₀ : Bytes) (k : BytesN 32) (n : BytesN 12), (∃ tr, Yields (d.idProvider t) tr (.ok i)) →
      s' k.1 n.1 (J.ofBytes (some oid.1)).render (firstAccess gs₂ i k₀).toJ.render =
        P.gcmSeal k.1 n.1 (J.ofBytes (some oid.1)).render (firstAccess gs₁ i k₀).toJ.render) :
    d.encrypt (P.withAead s' o') t o₂ gs₂ = d.encrypt P t o₁ gs₁ := by
  simp only [D1.encrypt, Prog.bind_eq]
  apply Prog.bind_congr
  rintro i ⟨tr, hi⟩
  obtain ⟨hi, _⟩ := yields_verifyAccess_ok.mp hi
  congr 1; funext oid
  rw [sealObject_congr L L' had (hobj oid)]
  congr 1; funext r
  simp only [newAccess, Access.addGroups, addToSet_some, Option.map_some, Prog.ofPanic_some, Prog.ret_bind]
  have := sealAccess_congr (c := d.accessCryptor) L L' (hacc oid i r.1 · · ⟨tr, hi⟩)
  simp only [firstAccess] at this
  rw [this]

/-- C21 for `Update`: the same, when the two AEADs open access records of the object alike. -/
theorem C21_update (L : P.Laws) (L' : (P.withAead s' o').Laws) (d : D1) (t : GoString) (oid : Oid) {o₁ o₂ : Object}
    (had : o₂.associatedData = o₁.associatedData)
    (hobj : ∀ (k : BytesN 32) (n : BytesN 12),
      s' k.1 n.1 (objectAad oid o₂.associatedData).render (J.ofBytes o₂.plaintext).render =
        P.gcmSeal k.1 n.1 (objectAad oid o₁.associatedData).render (J.ofBytes o₁.plaintext).render)
    (hacc : ∀ k n c, o' k n (J.ofBytes (some oid.1)).render c = P.gcmOpen k n (J.ofBytes (some oid.1)).render c)
    (hacc' : ∀ k n p, s' k n (J.ofBytes (some oid.1)).render p = P.gcmSeal k n (J.ofBytes (some oid.1)).render p) :
    d.update (P.withAead s' o') t oid o₂ = d.update P t oid o₁ := by
  have hg : guardProg (P.withAead s' o') d t scopeUpdate oid = guardProg P d t scopeUpdate oid := by
    simp only [guardProg]
    congr 1; funext i
    have e1 : getSealedAccess (P.withAead s' o') oid = getSealedAccess P oid := rfl
    rw [e1]
    apply Prog.bind_congr
    rintro sa ⟨tr, hsa⟩
    have ho : sa.oid = oid := by
      rcases yields_getSealedAccess.mp hsa with ⟨_, _, _, _, h⟩ | ⟨_, _, _, h⟩ | ⟨_, _, h⟩ <;> cases h
      rfl
    have e2 : sa.unseal (P.withAead s' o') d.accessCryptor = sa.unseal P d.accessCryptor := by
      simp only [SealedAccess.unseal, Cryptor.decrypt, ho]
      have e3 : ∀ w, kwpUnwrap (P.withAead s' o') d.accessCryptor.kwp w = kwpUnwrap P d.accessCryptor.kwp w := fun _ => rfl
      rw [e3]
      have e4 : ∀ key c, gcmDecrypt (P.withAead s' o') c (J.ofBytes (some oid.1)).render key =
          gcmDecrypt P c (J.ofBytes (some oid.1)).render key := by
        intro key c
        simp only [gcmDecrypt]
        have : ∀ k n c, (P.withAead s' o').gcmOpen k n (J.ofBytes (some oid.1)).render c =
          P.gcmOpen k n (J.ofBytes (some oid.1)).render c := hacc
        rw [this]
      simp only [e4]
      rfl
    simp only [D1.authorizeAccess, e2]
  rw [update_eq, update_eq, hg, sealObject_congr L L' had hobj]
  congr 1; funext a
  congr 1; funext r
  rw [sealAccess_congr L L' fun k n => hacc' _ _ _]

end

/-! ### The hypotheses of C21 can be met for any two plaintexts of the same length

Any two data of equal length can be exchanged in any AEAD that obeys the laws, giving another AEAD that obeys them. -/

/-- Exchanges two prefixes. -/
def swapPre (A B p : Bytes) : Bytes :=
  if A = p.take A.length then B ++ p.drop A.length else if B = p.take B.length then A ++ p.drop B.length else p

theorem swapPre_swap {A B : Bytes} (h : A.length = B.length) (p : Bytes) : swapPre A B (swapPre A B p) = p := by
  unfold swapPre
  split
  · rename_i h1
    have hp : A ++ p.drop A.length = p := by conv_rhs => rw [← List.take_append_drop A.length p, ← h1]
    split
    · rename_i h2
      rw [List.take_left' h.symm] at h2
      subst h2
      simp only [hp]
    · rw [if_pos (List.take_left' rfl).symm, List.drop_left, hp]
  · rename_i h1
    split
    · rename_i h2
      have hp : B ++ p.drop B.length = p := by conv_rhs => rw [← List.take_append_drop B.length p, ← h2]
      rw [if_pos (List.take_left' rfl).symm, List.drop_left, hp]
    · rfl

theorem swapPre_length {A B : Bytes} (h : A.length = B.length) (p : Bytes) : (swapPre A B p).length = p.length := by
  unfold swapPre
  split
  · rename_i h1
    have := congrArg List.length h1
    simp only [List.length_take, List.length_append, List.length_drop] at this ⊢
    omega
  · split
    · rename_i h2
      have := congrArg List.length h2
      simp only [List.length_take, List.length_append, List.length_drop] at this ⊢
      omega
    · rfl

theorem swapPre_snd {A B : Bytes} (h : A.length = B.length) (r : Bytes) : swapPre A B (B ++ r) = A ++ r := by
  have h1 : swapPre A B (A ++ r) = B ++ r := by
    unfold swapPre
    rw [if_pos (List.take_left' rfl).symm, List.drop_left]
  rw [← h1, swapPre_swap h]

/-- The primitives with an AEAD that exchanges data first. -/
def Prims.exchange (P : Prims) (f : Bytes → Bytes → Bytes) : Prims :=
  P.withAead (fun k n a p => P.gcmSeal k n a (f a p)) (fun k n a c => (P.gcmOpen k n a c).map (f a))

theorem exchange_laws {P : Prims} (L : P.Laws) {f : Bytes → Bytes → Bytes} (hf : ∀ a p, f a (f a p) = p)
    (hl : ∀ a p, (f a p).length = p.length) : (P.exchange f).Laws where
  aes_len := L.aes_len
  aes_dec_enc := L.aes_dec_enc
  aes_dec_len := L.aes_dec_len
  aes_enc_dec := L.aes_enc_dec
  gcm_len k n a p := by
    show (P.gcmSeal k n a (f a p)).length = _
    rw [L.gcm_len, hl]
  gcm_open_seal k n a p := by
    show (P.gcmOpen k n a (P.gcmSeal k n a (f a p))).map (f a) = _
    rw [L.gcm_open_seal]; simp [hf]
  gcm_seal_open k n a c p h := by
    have h' : (P.gcmOpen k n a c).map (f a) = some p := h
    obtain ⟨q, hq, rfl⟩ := Option.map_eq_some_iff.mp h'
    show c = P.gcmSeal k n a (f a (f a q))
    rw [hf]
    exact L.gcm_seal_open _ _ _ _ _ hq
  sponge_len := L.sponge_len
  pbkdf2_len := L.pbkdf2_len
  unmarshal_render := L.unmarshal_render
  uuid_parse := L.uuid_parse
  time_parse := L.time_parse
  time_plain := L.time_plain

/-- C21: for any two objects of the same size with the same associated data there is an AEAD under which `Update` with one is
the same program as `Update` with the other under the given AEAD.  (Associated data not empty: otherwise object and access
ciphertexts have the same associated data.) -/
theorem C21_update_indistinguishable {P : Prims} (L : P.Laws) (d : D1) (t : GoString) (oid : Oid) (o₁ o₂ : Object)
    (had : o₂.associatedData = o₁.associatedData) (hne : o₁.associatedData.bytes ≠ [])
    (hlen : cipherSize o₁.plaintext = cipherSize o₂.plaintext) :
    ∃ P' : Prims, P'.Laws ∧ d.update P' t oid o₂ = d.update P t oid o₁ := by
  have hl : (J.ofBytes o₁.plaintext).render.length = (J.ofBytes o₂.plaintext).render.length := by
    have h1 := ofBytes_render_length o₁.plaintext
    have h2 := ofBytes_render_length o₂.plaintext
    omega
  let f : Bytes → Bytes → Bytes := fun a p =>
    if a = (objectAad oid o₁.associatedData).render then
      swapPre (J.ofBytes o₁.plaintext).render (J.ofBytes o₂.plaintext).render p else p
  have hL : (P.exchange f).Laws := by
    apply exchange_laws L
    · intro a p; simp only [f]; split
      · exact swapPre_swap hl p
      · rfl
    · intro a p; simp only [f]; split
      · rw [swapPre_length hl]
      · rfl
  have hna : (J.ofBytes (some oid.1)).render ≠ (objectAad oid o₁.associatedData).render := by
    intro h
    have := ofBytes_render_inj L h
    simp only [Option.some.injEq] at this
    exact hne (by simpa using this.symm)
  refine ⟨P.exchange f, hL, C21_update L hL d t oid had ?_ ?_ ?_⟩
  · intro k n
    simp only [f, had, if_true]
    have := swapPre_snd hl []
    simp only [List.append_nil] at this
    rw [this]
  · intro k n c
    simp only [f, if_neg hna]
    cases P.gcmOpen k n (J.ofBytes (some oid.1)).render c <;> rfl
  · intro k n p
    simp only [f, if_neg hna]

/-- The text of an access list up to and including the groups, and what follows. -/
def accPre (gs : List GoString) (i : Identity) : Bytes :=
  [123] ++ renderStr nGroups ++ [58] ++ (J.ofSet (some ((gs ++ [i.id]).foldl setInsert []))).render

theorem firstAccess_render (gs : List GoString) (i : Identity) (dek : Bytes) : (firstAccess gs i dek).toJ.render =
    accPre gs i ++ ([44] ++ renderStr nWrappedDEK ++ [58] ++ (J.ofBytes (some dek)).render ++ [125]) := by
  simp only [firstAccess, Access.toJ, J.render, JFields.render, accPre, if_true, List.append_assoc, List.nil_append,
    List.append_nil, Bool.false_eq_true, if_false]

theorem ofBytes_render_head (p : NBytes) : ∃ b r, (J.ofBytes p).render = b :: r ∧ b ≠ 123 := by
  cases p with
  | none => exact ⟨110, _, rfl, by decide⟩
  | some p => exact ⟨34, _, rfl, by decide⟩

theorem swapPre_head {x y : UInt8} (a b p : Bytes) (hx : x ≠ 123) (hy : y ≠ 123) (hp : p.head? ≠ some 123) :
    (swapPre (x :: a) (y :: b) p).head? ≠ some 123 := by
  unfold swapPre
  split
  · simpa using hy
  · split
    · simpa using hx
    · exact hp

theorem swapPre_head' (a b p : Bytes) (hp : p.head? = some 123) : (swapPre (123 :: a) (123 :: b) p).head? = some 123 := by
  unfold swapPre
  split
  · rfl
  · split
    · rfl
    · exact hp

/-- C21: for any two objects of the same size with the same associated data and any two group lists of the same encoded size,
there is an AEAD under which `Encrypt` with one is the same program as `Encrypt` with the other under the given AEAD.  (The token
belongs to one identity.) -/
theorem C21_encrypt_indistinguishable {P : Prims} (L : P.Laws) (d : D1) (t : GoString) (i : Identity)
    (hid : ∀ j tr, Yields (d.idProvider t) tr (.ok j) → j = i) (o₁ o₂ : Object) (gs₁ gs₂ : List GoString)
    (had : o₂.associatedData = o₁.associatedData) (hlen : cipherSize o₁.plaintext = cipherSize o₂.plaintext)
    (hgs : (accPre gs₁ i).length = (accPre gs₂ i).length) :
    ∃ P' : Prims, P'.Laws ∧ d.encrypt P' t o₂ gs₂ = d.encrypt P t o₁ gs₁ := by
  have hl : (J.ofBytes o₁.plaintext).render.length = (J.ofBytes o₂.plaintext).render.length := by
    have h1 := ofBytes_render_length o₁.plaintext
    have h2 := ofBytes_render_length o₂.plaintext
    omega
  let f : Bytes → Bytes → Bytes := fun _ p =>
    if p.head? = some 123 then swapPre (accPre gs₁ i) (accPre gs₂ i) p
    else swapPre (J.ofBytes o₁.plaintext).render (J.ofBytes o₂.plaintext).render p
  obtain ⟨b1, r1, e1, hb1⟩ := ofBytes_render_head o₁.plaintext
  obtain ⟨b2, r2, e2, hb2⟩ := ofBytes_render_head o₂.plaintext
  have hL : (P.exchange f).Laws := by
    apply exchange_laws L
    · intro a p
      by_cases hp : p.head? = some 123
      · have h1 : f a p = swapPre (accPre gs₁ i) (accPre gs₂ i) p := if_pos hp
        have h2 : (f a p).head? = some 123 := by rw [h1]; exact swapPre_head' _ _ p hp
        have h3 : f a (f a p) = swapPre (accPre gs₁ i) (accPre gs₂ i) (f a p) := if_pos h2
        rw [h3, h1, swapPre_swap hgs]
      · have h1 : f a p = swapPre (J.ofBytes o₁.plaintext).render (J.ofBytes o₂.plaintext).render p := if_neg hp
        have h2 : (f a p).head? ≠ some 123 := by rw [h1, e1, e2]; exact swapPre_head _ _ p hb1 hb2 hp
        have h3 : f a (f a p) = swapPre (J.ofBytes o₁.plaintext).render (J.ofBytes o₂.plaintext).render (f a p) := if_neg h2
        rw [h3, h1, swapPre_swap hl]
    · intro a p; simp only [f]; split
      · rw [swapPre_length hgs]
      · rw [swapPre_length hl]
  refine ⟨P.exchange f, hL, C21_encrypt L hL d t had ?_ ?_⟩
  · intro oid k n
    have h1 : f (objectAad oid o₂.associatedData).render (J.ofBytes o₂.plaintext).render = (J.ofBytes o₁.plaintext).render := by
      simp only [f]
      rw [if_neg (by rw [e2]; simpa using hb2)]
      have := swapPre_snd hl []
      simpa only [List.append_nil] using this
    rw [h1, had]
  · rintro oid j k₀ k n ⟨tr, hj⟩
    obtain rfl := hid j tr hj
    have h1 : f (J.ofBytes (some oid.1)).render (firstAccess gs₂ j k₀).toJ.render = (firstAccess gs₁ j k₀).toJ.render := by
      simp only [f]
      rw [if_pos (by rw [firstAccess_render]; rfl), firstAccess_render, firstAccess_render, swapPre_snd hgs]
    rw [h1]

/-- Concrete case: two different objects and two different group lists. -/
example : ∃ P' : Prims, P'.Laws ∧
    toyD1.encrypt P' [7] ⟨some [1, 2, 3], some [9]⟩ [[8], [4]] = toyD1.encrypt toyPrims [7] ⟨some [4, 5, 6], some [9]⟩ [[5], [6]] :=
  C21_encrypt_indistinguishable toyLaws toyD1 [7] ⟨[7], scopeAll, [([50], ⟨[50], scopeAll⟩)]⟩
    (fun _ _ h => by simpa using (yields_ret.mp h).2) _ _ _ _ rfl rfl (by decide)

/-! ## C22 -/

/-- C22: `New` succeeds exactly when the Key Provider answers and the three keys it uses are 32 bytes long. -/
theorem C22_new (keys : Except Err Keys) (idp : IdProvider) :
    ((∃ d, newD1 keys idp = .ok d) ↔ ∃ k, keys = .ok k ∧ k.kek.length = 32 ∧ k.aek.length = 32 ∧ k.tek.length = 32) ∧
    (∀ k, keys = .ok k → ∀ e, newD1 keys idp = .error e → e = .invalidKeyLength) ∧
    ∀ k, keys = .ok k → ∀ d, newD1 keys idp = .ok d →
      d = ⟨idp, ⟨k.kek⟩, ⟨k.aek⟩, ⟨k.tek⟩⟩ := by
  cases keys with
  | error e => simp [newD1]
  | ok k =>
    simp only [newD1, newAESCryptor, newKWP, wrapperKeyLength]
    by_cases h1 : k.kek.length = 32 <;> by_cases h2 : k.aek.length = 32 <;> by_cases h3 : k.tek.length = 32 <;>
      simp [h1, h2, h3]

/-- C22: a failing Key Provider's error is returned by both constructors that use it. -/
theorem C22_keyProvider (e : Err) (idp : IdProvider) :
    newD1 (.error e) idp = .error e ∧ newSecureIndex (.error e) idp = .error e := ⟨rfl, rfl⟩

/-- C22: `NewSecureIndex` succeeds exactly for a 32-byte index key. -/
theorem C22_newSecureIndex (k : Keys) (idp : IdProvider) :
    newSecureIndex (.ok k) idp = if k.iek.length = 32 then .ok ⟨idp, k.iek⟩ else .error .invalidMasterKeyLength := by
  simp only [newSecureIndex, masterKeyLength]
  by_cases h : k.iek.length = 32 <;> simp [h]

/-- C22: `NewStandalone` succeeds exactly for three 32-byte keys. -/
theorem C22_newStandalone (c : StandaloneConfig) :
    newStandalone c = if c.uek.length = 32 ∧ c.gek.length = 32 ∧ c.tek.length = 32 then .ok ⟨⟨c.uek⟩, ⟨c.gek⟩, ⟨c.tek⟩⟩
      else .error .invalidKeyLength := by
  simp only [newStandalone, newAESCryptor, newKWP, wrapperKeyLength]
  by_cases h1 : c.uek.length = 32 <;> by_cases h2 : c.gek.length = 32 <;> by_cases h3 : c.tek.length = 32 <;>
    simp [h1, h2, h3]

/-- C22: `NewKMAC256Tagger` and `NewAESCryptor`. -/
theorem C22_parts (key : Bytes) :
    newKMAC256Tagger key = (if key.length = 32 then .ok ⟨key⟩ else .error .invalidKeyLength) ∧
    newAESCryptor key = (if key.length = 32 then .ok ⟨key⟩ else .error .invalidKeyLength) := by
  simp only [newKMAC256Tagger, newAESCryptor, newKWP, wrapperKeyLength, taggerKeyLength]
  by_cases h : key.length = 32 <;> simp [h]

example : ∃ d, newD1 (.ok ⟨List.replicate 32 1, List.replicate 32 2, List.replicate 32 3, []⟩)
    (fun _ => .err .idNotAuthenticated) = .ok d := (C22_new _ _).1.mpr ⟨_, rfl, rfl, rfl, rfl⟩

end D1
