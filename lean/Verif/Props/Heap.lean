import Verif.Proofs.Heap
import Verif.Proofs.D1Run
import Verif.Proofs.Instance
/-!
# C51, C62, C67: what happens to the caller's buffers
-/
namespace D1

variable {P : Prims}

/-! ## C51: `Cryptor.Decrypt` leaves its arguments alone -/

/-- `AES256GCM.Decrypt` on a buffer of its own: it answers what the value-level function answers, and only that buffer
changes. -/
theorem gcmDecryptH_own (L : P.Laws) (g : Heap UInt8) (c : Bytes) (aad key : Slice) (ha : aad.Ok g) (hk : key.Ok g) :
    ∃ c', (gcmDecryptH P (g ++ [c]) ⟨g.length, 0, c.length, c.length⟩ aad key).2 = g ++ [c'] ∧
      match (gcmDecryptH P (g ++ [c]) ⟨g.length, 0, c.length, c.length⟩ aad key).1,
        gcmDecrypt P c (aad.val g) (key.val g) with
      | .ok s, .ok p => s.val (g ++ [c']) = p
      | .error e, .error e' => e = e'
      | _, _ => False := by
  rw [gcmDecryptH, gcmDecrypt, key.val_length g hk]
  split
  · exact ⟨c, rfl, rfl⟩
  split
  · exact ⟨c, rfl, rfl⟩
  rename_i hlen
  have e1 : ∀ i j, i ≤ j → j ≤ c.length → (Slice.sub ⟨g.length, 0, c.length, c.length⟩ i j).val (g ++ [c]) =
      (c.drop i).take (j - i) := by
    intro i j _ _; simp [Slice.sub, Slice.val]
  have en : overhead = 28 := rfl
  have en' : nonceLength = 12 := rfl
  rw [en] at hlen
  simp only [key.val_append g _ hk, aad.val_append g _ ha, en, en']
  rw [e1 0 _ (by omega) (by omega), e1 _ c.length (by omega) (by omega), List.drop_zero, Nat.sub_zero,
    List.take_of_length_le (l := List.drop (c.length - 12) c) (by simp)]
  cases ho : P.gcmOpen (key.val g) (c.drop (c.length - 12)) (aad.val g) (c.take (c.length - 12)) with
  | none => 
    refine ⟨overwrite c 0 (List.replicate (c.length - 12 - 0 - tagLength) 0), ?_, rfl⟩
    simp only [Slice.sub, store_one]
  | some p =>
    refine ⟨copyAt c 0 p, ?_, ?_⟩
    · simp only [Slice.sub, store_one]; rfl
    · simp only [Slice.sub, Slice.val, array_one]; simp

/-- C51: `Cryptor.Decrypt` answers what it answers on values, and every array that existed before the call, the ones of
`wrappedKey` and `ciphertext` among them, is unchanged after it.  This holds for every capacity of the buffers made on
the way, whether or not the two arguments overlap, and when decryption fails. -/
theorem C51_decrypt_leaves_arguments (L : P.Laws) {α : Type} (c : Cryptor) (sp : Spares) (dec : J → Option α)
    (h : Heap UInt8) (data : J) (wrappedKey ciphertext : Slice) (hw : wrappedKey.Ok h) (hc : ciphertext.Ok h) :
    (c.decryptH P sp dec h data wrappedKey ciphertext).1 =
        c.decrypt P dec data (wrappedKey.val h) (ciphertext.val h) ∧
      h <+: (c.decryptH P sp dec h data wrappedKey ciphertext).2 := by
  rw [Cryptor.decryptH, Cryptor.decrypt]
  obtain ⟨t, h1, h2⟩ := kwpUnwrapH_refines L c.kwp h wrappedKey hw
  revert h1 h2
  generalize kwpUnwrapH P c.kwp h wrappedKey = r
  generalize kwpUnwrap P c.kwp (wrappedKey.val h) = v
  obtain ⟨r, g⟩ := r
  intro h1 h2
  simp only at h1 h2
  cases r <;> cases v <;> simp only at h2 ⊢
  · subst h1 h2; exact ⟨rfl, List.prefix_append _ _⟩
  · obtain ⟨h2, h3, h4⟩ := h2
    rename_i key k
    subst h1 h3
    simp only [goNew, List.append_nil, List.length_replicate, List.length_nil, Nat.add_zero]
    have hlc := ciphertext.val_length h hc
    generalize hdb : data.render ++ sp.data = db
    have hcv : ∀ g : Heap UInt8, ciphertext.val (h ++ t ++ [db] ++ g) = ciphertext.val h := by
      intro g; rw [List.append_assoc, List.append_assoc, ciphertext.val_append h _ hc]
    rw [hcv]
    generalize ciphertext.val h = ct at hlc ⊢
    have e1 : goCopy (h ++ t ++ [db] ++ [List.replicate ciphertext.len 0])
        ⟨(h ++ t ++ [db]).length, 0, ciphertext.len, ciphertext.len⟩ ct = h ++ t ++ [db] ++ [ct] := by
      simp only [goCopy, store_one]
      rw [List.take_of_length_le (by omega), overwrite_all _ _ (by simp [hlc])]
    rw [e1, ← hlc]
    have hdbl : db.length = data.render.length + sp.data.length := by rw [← hdb]; simp
    have hda : Slice.Ok ⟨(h ++ t).length, 0, data.render.length, data.render.length + sp.data.length⟩ (h ++ t ++ [db]) := by
      refine ⟨?_, ?_⟩
      · rw [array_one, hdbl]; simp
      · simp
    have hdv : Slice.val ⟨(h ++ t).length, 0, data.render.length, data.render.length + sp.data.length⟩
        (h ++ t ++ [db]) = data.render := by
      simp only [Slice.val, array_one, List.drop_zero, ← hdb]; simp
    obtain ⟨c', g1, g2⟩ := gcmDecryptH_own L (h ++ t ++ [db]) ct
      ⟨(h ++ t).length, 0, data.render.length, data.render.length + sp.data.length⟩ key hda (key.ok_append _ _ h2)
    rw [hdv, key.val_append _ _ h2] at g2
    revert g1 g2
    generalize gcmDecryptH P (h ++ t ++ [db] ++ [ct]) ⟨(h ++ t ++ [db]).length, 0, ct.length, ct.length⟩
      ⟨(h ++ t).length, 0, data.render.length, data.render.length + sp.data.length⟩ key = r
    generalize gcmDecrypt P ct data.render (key.val (h ++ t)) = v
    obtain ⟨r, g⟩ := r
    intro g1 g2
    simp only at g1
    subst g1
    have hpre : h <+: h ++ t ++ [db] ++ [c'] := by
      rw [List.append_assoc, List.append_assoc]; exact List.prefix_append _ _
    cases r <;> cases v <;> simp only at g2 ⊢
    · subst g2; exact ⟨rfl, hpre⟩
    · rw [g2]
      rename_i p
      cases (P.unmarshal p).bind dec <;> exact ⟨rfl, hpre⟩

/-- C51: so it can be repeated, at any time as long as nobody else writes to the two buffers, with the same result. -/
theorem C51_decrypt_repeatable (L : P.Laws) {α : Type} (c : Cryptor) (sp sp' : Spares) (dec : J → Option α)
    (h h' : Heap UInt8) (data : J) (wrappedKey ciphertext : Slice) (hw : wrappedKey.Ok h) (hc : ciphertext.Ok h)
    (hh : (c.decryptH P sp dec h data wrappedKey ciphertext).2 <+: h') :
    (c.decryptH P sp' dec h' data wrappedKey ciphertext).1 = (c.decryptH P sp dec h data wrappedKey ciphertext).1 := by
  obtain ⟨e, hp⟩ := C51_decrypt_leaves_arguments L c sp dec h data wrappedKey ciphertext hw hc
  obtain ⟨t, rfl⟩ := hp.trans hh
  rw [e, (C51_decrypt_leaves_arguments L c sp' dec _ data wrappedKey ciphertext (wrappedKey.ok_append h t hw)
    (ciphertext.ok_append h t hc)).1, wrappedKey.val_append h t hw, ciphertext.val_append h t hc]

/-! ## `Cryptor.Encrypt` and the buffer of `AES256GCM.Encrypt` -/

/-- The two writes of `AES256GCM.Encrypt` after the buffer was extended: the nonce at the end, and ciphertext and tag
over the plaintext. -/
theorem sealed_buffer (A S N : Bytes) (off n : Nat) (hS : S.length = n + 16) (hN : N.length = 12)
    (hA : off + (n + 28) ≤ A.length) :
    ((overwrite (overwrite A (off + (n + 16)) N) off S).drop off).take (n + 28) = S ++ N := by
  have h1 : (overwrite A (off + (n + 16)) N).length = A.length := overwrite_length _ _ _ (by omega)
  apply List.ext_getElem?
  intro i
  by_cases hi : i < n + 28
  · rw [List.getElem?_take_of_lt hi, List.getElem?_drop, overwrite_get _ _ _ (by omega),
      overwrite_get _ _ _ (by omega)]
    by_cases h2 : i < n + 16
    · rw [if_pos (by omega), List.getElem?_append_left (by omega), Nat.add_sub_cancel_left]
    · rw [if_neg (by omega), if_pos (by omega), List.getElem?_append_right (by omega)]
      congr 1; omega
  · rw [List.getElem?_take_eq_none (by omega), List.getElem?_eq_none (by simp; omega)]

/-- `AES256GCM.Encrypt`: the answer is ciphertext, tag and nonce.  Only the array of the plaintext can have changed. -/
theorem gcmEncryptH_spec (L : P.Laws) (nonce : BytesN nonceLength) (spare : Bytes) (g : Heap UInt8) (p aad key : Slice)
    (hp : p.Ok g) (ha : aad.Ok g) (hk : key.Ok g) (hpa : aad.arr ≠ p.arr) (hpk : key.arr ≠ p.arr)
    (hal : p.arr < g.length) (haa : aad.arr < g.length) (hka : key.arr < g.length)
    (h32 : key.len = keyLength) :
    ∃ s, (gcmEncryptH P (.ok nonce.1) spare g p aad key).1 = .ok s ∧
      s.Ok (gcmEncryptH P (.ok nonce.1) spare g p aad key).2 ∧
      s.val (gcmEncryptH P (.ok nonce.1) spare g p aad key).2 =
        gcmBox P (key.val g) nonce.1 (aad.val g) (p.val g) ∧
      ((s.arr = p.arr ∧ ∃ x, (gcmEncryptH P (.ok nonce.1) spare g p aad key).2 = g.set p.arr x) ∨
        (s.arr = g.length ∧ ∃ x, (gcmEncryptH P (.ok nonce.1) spare g p aad key).2 = g ++ [x])) := by
  have hn : nonce.1.length = 12 := nonce.2
  have hl := p.val_length g hp
  obtain ⟨hp1, hp2⟩ := hp
  rw [gcmEncryptH, if_neg (by simpa using h32), goAppend]
  have hz : (List.replicate overhead (0 : UInt8)).length = 28 := by simp [overhead, tagLength, nonceLength]
  rw [hz]
  by_cases hc : p.len + 28 ≤ p.cap
  · rw [if_pos hc]
    simp only [goCopy, Slice.sub, Nat.add_zero, Nat.sub_zero]
    have ht : nonce.1.take (p.len + 28 - (p.len + tagLength)) = nonce.1 :=
      List.take_of_length_le (by simp only [tagLength]; omega)
    rw [ht]
    have hset : ∀ x a, a ≠ p.arr → Heap.array (g.set p.arr x) a = g.array a := by
      intro x a h; simp [Heap.array, List.getElem?_set, Ne.symm h]
    have hself : ∀ x, Heap.array (g.set p.arr x) p.arr = x := by
      intro x; simp [Heap.array, hal]
    have hset2 : ∀ x a, a ≠ p.arr → Heap.array (g.set p.arr x) a = g.array a := hset
    generalize hA : overwrite (g.array p.arr) (p.off + p.len) (List.replicate overhead 0) = A
    have hAl : A.length = (g.array p.arr).length := by rw [← hA]; exact overwrite_length _ _ _ (by omega)
    have e1 : g.store p.arr (p.off + p.len) (List.replicate overhead 0) = g.set p.arr A := by rw [Heap.store, hA]
    have e2 : Heap.store (g.set p.arr A) p.arr (p.off + (p.len + tagLength)) nonce.1 =
        g.set p.arr (overwrite A (p.off + (p.len + 16)) nonce.1) := by
      rw [Heap.store, hself, List.set_set]; rfl
    rw [e1, e2]
    generalize hB : overwrite A (p.off + (p.len + 16)) nonce.1 = B
    have ek : key.val (g.set p.arr B) = key.val g := by rw [Slice.val, hset _ _ hpk]; rfl
    have ea : aad.val (g.set p.arr B) = aad.val g := by rw [Slice.val, hset _ _ hpa]; rfl
    have ed : Slice.val ⟨p.arr, p.off, p.len, p.cap⟩ (g.set p.arr B) = p.val g := by
      rw [Slice.val, Slice.val, hself]
      show (B.drop p.off).take p.len = ((g.array p.arr).drop p.off).take p.len
      apply List.ext_getElem?
      intro i
      by_cases hi : i < p.len
      · rw [List.getElem?_take_of_lt hi, List.getElem?_take_of_lt hi, List.getElem?_drop, List.getElem?_drop, ← hB,
          overwrite_get _ _ _ (by omega), if_neg (by omega), ← hA, overwrite_get _ _ _ (by omega), if_neg (by omega)]
      · simp [List.getElem?_take, hi]
    rw [ek, ea, ed]
    have hS := L.gcm_len (key.val g) nonce.1 (aad.val g) (p.val g)
    rw [hl] at hS
    have e3 : Heap.store (g.set p.arr B) p.arr p.off (P.gcmSeal (key.val g) nonce.1 (aad.val g) (p.val g)) =
        g.set p.arr (overwrite B p.off (P.gcmSeal (key.val g) nonce.1 (aad.val g) (p.val g))) := by
      rw [Heap.store, hself, List.set_set]
    rw [e3]
    refine ⟨_, rfl, ?_, ?_, .inl ⟨rfl, _, rfl⟩⟩
    · refine ⟨?_, hc⟩
      simp only [hself]
      rw [overwrite_length _ _ _ (by rw [← hB, overwrite_length _ _ _ (by omega)]; omega), ← hB,
        overwrite_length _ _ _ (by omega), hAl]
      exact hp1
    · simp only [Slice.val, hself]
      rw [← hB]
      exact sealed_buffer A _ _ _ _ hS hn (by omega)
  · rw [if_neg hc]
    simp only [goNew, goCopy, Slice.sub, Nat.zero_add, Nat.add_zero, Nat.sub_zero]
    generalize hA : p.val g ++ List.replicate overhead (0 : UInt8) ++ spare = A
    have hAl : A.length = p.len + 28 + spare.length := by rw [← hA]; simp only [List.length_append, hl, hz]
    have hx : (p.val g ++ List.replicate overhead (0 : UInt8)).length = p.len + 28 := by
      simp only [List.length_append, hl, hz]
    rw [hx]
    have ht : nonce.1.take (p.len + 28 - (p.len + tagLength)) = nonce.1 :=
      List.take_of_length_le (by simp only [tagLength]; omega)
    rw [ht, store_one]
    generalize hB : overwrite A (p.len + tagLength) nonce.1 = B
    rw [key.val_append g _ hk, aad.val_append g _ ha, store_one]
    have ed : Slice.val ⟨g.length, 0, p.len, p.len + 28 + spare.length⟩ (g ++ [B]) = p.val g := by
      simp only [Slice.val, array_one, List.drop_zero]
      apply List.ext_getElem?
      intro i
      have hl' : ((g.array p.arr).drop p.off).take p.len = p.val g := rfl
      rw [hl']
      by_cases hi : i < p.len
      · rw [List.getElem?_take_of_lt hi, ← hB, overwrite_get _ _ _ (by simp only [tagLength]; omega),
          if_neg (by simp only [tagLength]; omega), ← hA, List.append_assoc, List.getElem?_append_left (by omega)]
      · rw [List.getElem?_take_eq_none (by omega), List.getElem?_eq_none (by omega)]
    rw [ed]
    have hS := L.gcm_len (key.val g) nonce.1 (aad.val g) (p.val g)
    rw [hl] at hS
    refine ⟨_, rfl, ?_, ?_, .inr ⟨rfl, _, rfl⟩⟩
    · refine ⟨?_, by simp⟩
      simp only [array_one]
      rw [overwrite_length _ _ _ (by omega), ← hB, overwrite_length _ _ _ (by simp only [tagLength]; omega), hAl]
      omega
    · have := sealed_buffer A _ _ 0 p.len hS hn (by omega)
      rw [Slice.val]
      simp only [array_one]
      rw [← hB]
      rwa [Nat.zero_add] at this

/-! ### Writes preserve what they do not touch -/

section frame
variable {α : Type}

theorem overwrite_length' (xs : List α) (pos : Nat) (ys : List α) : (overwrite xs pos ys).length = xs.length := by
  simp [overwrite]; omega

theorem array_store (g : Heap α) (a pos : Nat) (x : List α) (b : Nat) :
    (g.store a pos x).array b = if b = a ∧ a < g.length then overwrite (g.array a) pos x else g.array b := by
  by_cases h : b = a
  · subst h
    by_cases hl : b < g.length
    · simp [Heap.store, Heap.array, hl]
    · simp [Heap.store, Heap.array, hl]
  · simp [Heap.store, Heap.array, List.getElem?_set, Ne.symm h, h]

theorem Slice.ok_store (s : Slice) (g : Heap α) (a pos : Nat) (x : List α) (h : s.Ok g) : s.Ok (g.store a pos x) := by
  refine ⟨?_, h.2⟩
  rw [array_store]
  split
  · rename_i he; rw [overwrite_length', ← he.1]; exact h.1
  · exact h.1

theorem Slice.val_store (s : Slice) (g : Heap α) (a pos : Nat) (x : List α) (h : s.arr ≠ a) :
    s.val (g.store a pos x) = s.val g := by
  rw [Slice.val, array_store, if_neg (by simp [h])]; rfl

theorem prefix_store (h g : Heap α) (a pos : Nat) (x : List α) (hp : h <+: g) (ha : h.length ≤ a) :
    h <+: g.store a pos x := by
  obtain ⟨t, rfl⟩ := hp
  rw [Heap.store, List.set_append, if_neg (by omega)]
  exact List.prefix_append _ _

end frame

/-- `AES256GCM.Encrypt` on a buffer made after `h` leaves the arrays of `h` alone, whatever the random source answers. -/
theorem gcmEncryptH_prefix (random : Except Err Bytes) (spare : Bytes) (h g : Heap UInt8) (p aad key : Slice)
    (hp : h <+: g) (ha : h.length ≤ p.arr) :
    h <+: (gcmEncryptH P random spare g p aad key).2 ∧
      (∀ s : Slice, s.Ok g → s.Ok (gcmEncryptH P random spare g p aad key).2) ∧
      (∀ s : Slice, s.Ok g → s.arr ≠ p.arr → s.arr < g.length → s.val (gcmEncryptH P random spare g p aad key).2 = s.val g) ∧
      (∀ s, (gcmEncryptH P random spare g p aad key).1 = .ok s → h.length ≤ s.arr ∧ (s.arr = p.arr ∨ s.arr = g.length)) := by
  rw [gcmEncryptH]
  split
  · exact ⟨hp, fun _ h => h, fun _ _ _ _ => rfl, by simp⟩
  · rw [goAppend]
    have hle : h.length ≤ g.length := hp.length_le
    by_cases hc : p.len + (List.replicate overhead (0 : UInt8)).length ≤ p.cap
    · rw [if_pos hc]
      simp only [goCopy, Slice.sub]
      cases random with
      | error e =>
        exact ⟨prefix_store _ _ _ _ _ hp ha, fun s hs => s.ok_store _ _ _ _ hs,
          fun s _ hne _ => s.val_store _ _ _ _ hne, by simp⟩
      | ok nonce =>
        refine ⟨prefix_store _ _ _ _ _ (prefix_store _ _ _ _ _ (prefix_store _ _ _ _ _ hp ha) ha) ha,
          fun s hs => s.ok_store _ _ _ _ (s.ok_store _ _ _ _ (s.ok_store _ _ _ _ hs)), fun s _ hne _ => ?_, ?_⟩
        · rw [s.val_store _ _ _ _ hne, s.val_store _ _ _ _ hne, s.val_store _ _ _ _ hne]
        · rintro s ⟨⟩; exact ⟨ha, .inl rfl⟩
    · rw [if_neg hc]
      simp only [goNew, goCopy, Slice.sub]
      have hp' : ∀ x, h <+: g ++ [x] := fun x => hp.trans (List.prefix_append _ _)
      cases random with
      | error e =>
        exact ⟨hp' _, fun s hs => s.ok_append _ _ hs, fun s hs _ _ => s.val_append _ _ hs, by simp⟩
      | ok nonce =>
        refine ⟨prefix_store _ _ _ _ _ (prefix_store _ _ _ _ _ (hp' _) hle) hle,
          fun s hs => s.ok_store _ _ _ _ (s.ok_store _ _ _ _ (s.ok_append _ _ hs)), fun s hs _ hlt => ?_, ?_⟩
        · rw [s.val_store _ _ _ _ (by omega), s.val_store _ _ _ _ (by omega),
            s.val_append _ _ hs]
        · rintro s ⟨⟩; exact ⟨hle, .inr rfl⟩

/-- C51: `Cryptor.Encrypt`, although it encrypts in place, leaves every array that existed before the call unchanged. -/
theorem C51_encrypt_leaves_arrays (L : P.Laws) (c : Cryptor) (sp : Spares) (key nonce : Except Err Bytes)
    (h : Heap UInt8) (plaintext data : J) : h <+: (c.encryptH P sp key nonce h plaintext data).2 := by
  rw [Cryptor.encryptH]
  simp only [goNew]
  have hp2 : ∀ x y, h <+: h ++ [x] ++ [y] := fun x y => by rw [List.append_assoc]; exact List.prefix_append _ _
  cases key with
  | error e => exact hp2 _ _
  | ok k =>
    simp only [List.append_nil, List.length_nil, Nat.add_zero]
    generalize hd1 : plaintext.render ++ sp.plaintext = d1
    generalize hd2 : data.render ++ sp.data = d2
    have hk : Slice.Ok ⟨(h ++ [d1] ++ [d2]).length, 0, k.length, k.length⟩ (h ++ [d1] ++ [d2] ++ [k]) := by
      refine ⟨?_, Nat.le_refl _⟩; rw [array_one]; simp
    obtain ⟨f1, f2, -, -⟩ := gcmEncryptH_prefix (P := P) nonce sp.grown h (h ++ [d1] ++ [d2] ++ [k])
      ⟨h.length, 0, plaintext.render.length, plaintext.render.length + sp.plaintext.length⟩
      ⟨(h ++ [d1]).length, 0, data.render.length, data.render.length + sp.data.length⟩
      ⟨(h ++ [d1] ++ [d2]).length, 0, k.length, k.length⟩ ((hp2 _ _).trans (List.prefix_append _ _)) (Nat.le_refl _)
    have f3 := f2 _ hk
    revert f1 f3
    generalize gcmEncryptH P nonce sp.grown (h ++ [d1] ++ [d2] ++ [k])
      ⟨h.length, 0, plaintext.render.length, plaintext.render.length + sp.plaintext.length⟩
      ⟨(h ++ [d1]).length, 0, data.render.length, data.render.length + sp.data.length⟩
      ⟨(h ++ [d1] ++ [d2]).length, 0, k.length, k.length⟩ = r
    obtain ⟨r, g⟩ := r
    intro f1 f3
    cases r with
    | error e => exact f1
    | ok ct =>
      simp only at f1 f3 ⊢
      obtain ⟨t, w1, -⟩ := kwpWrapH_refines L c.kwp g _ f3
      revert w1
      generalize kwpWrapH P c.kwp g ⟨(h ++ [d1] ++ [d2]).length, 0, k.length, k.length⟩ = r
      obtain ⟨r, g'⟩ := r
      intro w1
      simp only at w1
      subst w1
      cases r <;> exact f1.trans (List.prefix_append _ _)

/-- C51: and what it returns are two new slices holding what the value-level `Encrypt` returns for the same random
bytes. -/
theorem C51_encrypt_answer (L : P.Laws) (c : Cryptor) (sp : Spares) (h : Heap UInt8) (plaintext data : J) :
    c.encrypt P plaintext data = (randBytes 32).bind fun key => (randBytes 12).bind fun nonce =>
      Prog.ofExcept ((c.encryptH P sp (.ok key.1) (.ok nonce.1) h plaintext data).1.map fun r =>
        (r.1.val (c.encryptH P sp (.ok key.1) (.ok nonce.1) h plaintext data).2,
          r.2.val (c.encryptH P sp (.ok key.1) (.ok nonce.1) h plaintext data).2)) := by
  rw [Cryptor.encrypt_eq L]
  congr 1
  funext key
  congr 1
  funext nonce
  have hk32 : key.1.length = 32 := key.2
  rw [Cryptor.encryptH]
  simp only [goNew, List.append_nil, List.length_nil, Nat.add_zero]
  generalize hd1 : plaintext.render ++ sp.plaintext = d1
  generalize hd2 : data.render ++ sp.data = d2
  generalize hg : h ++ [d1] ++ [d2] ++ [key.1] = g
  have hlg : g.length = h.length + 3 := by rw [← hg]; simp
  have hd1l : d1.length = plaintext.render.length + sp.plaintext.length := by rw [← hd1]; simp
  have hd2l : d2.length = data.render.length + sp.data.length := by rw [← hd2]; simp
  have a1 : g.array h.length = d1 := by rw [← hg]; simp [Heap.array, List.append_assoc]
  have a2 : g.array (h ++ [d1]).length = d2 := by
    rw [← hg, array_append (h ++ [d1] ++ [d2]) _ _ (by simp), array_one]
  have a3 : g.array (h ++ [d1] ++ [d2]).length = key.1 := by rw [← hg, array_one]
  generalize hp : (⟨h.length, 0, plaintext.render.length, plaintext.render.length + sp.plaintext.length⟩ : Slice) = p
  generalize ha : (⟨(h ++ [d1]).length, 0, data.render.length, data.render.length + sp.data.length⟩ : Slice) = aad
  generalize hk : (⟨(h ++ [d1] ++ [d2]).length, 0, key.1.length, key.1.length⟩ : Slice) = k
  have op : p.Ok g := by subst hp; exact ⟨by simp only [a1, hd1l]; omega, by simp⟩
  have oa : aad.Ok g := by subst ha; exact ⟨by simp only [a2, hd2l]; omega, by simp⟩
  have ok : k.Ok g := by subst hk; exact ⟨by simp only [a3]; omega, by simp⟩
  have vp : p.val g = plaintext.render := by subst hp; simp only [Slice.val, a1, ← hd1]; simp
  have va : aad.val g = data.render := by subst ha; simp only [Slice.val, a2, ← hd2]; simp
  have vk : k.val g = key.1 := by subst hk; simp only [Slice.val, a3]; simp
  have rp : p.arr = h.length := by subst hp; rfl
  have ra : aad.arr = h.length + 1 := by subst ha; simp
  have rk : k.arr = h.length + 2 := by subst hk; simp
  obtain ⟨s, e1, e2, e3, e4⟩ := gcmEncryptH_spec L nonce sp.grown g p aad k op oa ok (by omega) (by omega) (by omega)
    (by omega) (by omega) (by subst hk; exact hk32)
  obtain ⟨-, f2, f3, -⟩ := gcmEncryptH_prefix (P := P) (.ok nonce.1) sp.grown h g p aad k
    (by rw [← hg, List.append_assoc, List.append_assoc]; exact List.prefix_append _ _) (by omega)
  have ok' := f2 k ok
  have vk' := f3 k ok (by omega) (by omega)
  rw [vp, va, vk] at e3
  rw [vk] at vk'
  have e4' : s.arr < g.length + 1 := by rcases e4 with ⟨e, -⟩ | ⟨e, -⟩ <;> omega
  clear e4 f2 f3
  revert e1 e2 e3 ok' vk'
  generalize gcmEncryptH P (.ok nonce.1) sp.grown g p aad k = r
  obtain ⟨r, g'⟩ := r
  intro e1 e2 e3 ok' vk'
  simp only at e1 e2 e3 ok' vk'
  subst e1
  simp only
  obtain ⟨t, w1, w2⟩ := kwpWrapH_refines L c.kwp g' k ok'
  rw [vk', kwpWrap_box L _ _ hk32] at w2
  revert w1 w2
  generalize kwpWrapH P c.kwp g' k = r
  obtain ⟨r, g''⟩ := r
  intro w1 w2
  simp only at w1 w2
  cases r with
  | error e => exact w2.elim
  | ok w =>
    obtain ⟨-, w3, -⟩ := w2
    subst w1
    simp only [Except.map, Prog.ofExcept]
    rw [w3, s.val_append _ _ e2, e3]

/-! ## C62: appending to the caller's slices -/

section append
variable {α : Type}

theorem Slice.Ok.lt {s : Slice} {h : Heap α} (hs : s.Ok h) (hc : 0 < s.cap) : s.arr < h.length := by
  rcases Nat.lt_or_ge s.arr h.length with hl | hl
  · exact hl
  · have : h.array s.arr = [] := by simp [Heap.array, List.getElem?_eq_none hl]
    have := hs.1
    simp_all

/-- What `append` answers. -/
theorem goAppend_val (spare : List α) (h : Heap α) (s : Slice) (xs : List α) (hs : s.Ok h) (hx : 0 < xs.length) :
    (goAppend spare h s xs).1.val (goAppend spare h s xs).2 = s.val h ++ xs ∧
      (goAppend spare h s xs).1.Ok (goAppend spare h s xs).2 := by
  have hl := s.val_length h hs
  have ha : s.len + xs.length ≤ s.cap → s.arr < h.length := fun hc => hs.lt (by omega)
  obtain ⟨h1, h2⟩ := hs
  rw [goAppend]
  split
  · rename_i hc
    replace ha := ha hc
    refine ⟨?_, ⟨?_, hc⟩⟩
    · rw [Slice.val]
      simp only [array_store, ha, and_self, if_true]
      apply List.ext_getElem?
      intro i
      by_cases hi : i < s.len + xs.length
      · rw [List.getElem?_take_of_lt hi, List.getElem?_drop, overwrite_get _ _ _ (by omega)]
        by_cases hi' : i < s.len
        · rw [if_neg (by omega), List.getElem?_append_left (by omega), Slice.val, List.getElem?_take_of_lt hi',
            List.getElem?_drop]
        · rw [if_pos (by omega), List.getElem?_append_right (by omega)]
          congr 1; omega
      · rw [List.getElem?_take_eq_none (by omega), List.getElem?_eq_none (by simp; omega)]
    · simp only [array_store, ha, and_self, if_true, overwrite_length']; exact h1
  · simp only [goNew]
    refine ⟨?_, ?_, ?_⟩
    · rw [Slice.val]; simp only [array_one, List.drop_zero]
      exact List.take_left' rfl
    · simp only [array_one, List.length_append]; omega
    · simp

/-- `append` writes in place when there is room: the elements behind the slice in the caller's array are replaced. -/
theorem goAppend_writes (spare : List α) (h : Heap α) (s : Slice) (xs : List α) (hs : s.Ok h) (hx : 0 < xs.length)
    (hc : s.len + xs.length ≤ s.cap) (a i : Nat) :
    ((goAppend spare h s xs).2.array a)[i]? =
      if a = s.arr ∧ s.off + s.len ≤ i ∧ i < s.off + s.len + xs.length then xs[i - (s.off + s.len)]?
      else (h.array a)[i]? := by
  have ha : s.arr < h.length := hs.lt (by omega)
  obtain ⟨h1, h2⟩ := hs
  rw [goAppend, if_pos hc]
  simp only [array_store, ha, and_true]
  by_cases hh : a = s.arr
  · subst hh
    simp only [if_true, true_and]
    rw [overwrite_get _ _ _ (by omega)]
  · simp [hh]

/-- Without room nothing that existed is written to. -/
theorem goAppend_fresh (spare : List α) (h : Heap α) (s : Slice) (xs : List α) (hc : s.cap < s.len + xs.length) :
    h <+: (goAppend spare h s xs).2 ∧ (goAppend spare h s xs).1.arr = h.length := by
  rw [goAppend, if_neg (by omega)]
  exact ⟨List.prefix_append _ _, rfl⟩

/-- In either case the elements of the slices the caller passed stay what they were, unless the caller passed a slice that
overlaps the spare capacity of the one appended to. -/
theorem goAppend_keeps (spare : List α) (h : Heap α) (s r : Slice) (xs : List α) (hs : s.Ok h) (hr : r.Ok h)
    (hx : 0 < xs.length)
    (hd : r.arr = s.arr → r.off + r.len ≤ s.off + s.len ∨ s.off + s.len + xs.length ≤ r.off) :
    r.val (goAppend spare h s xs).2 = r.val h := by
  by_cases hc : s.len + xs.length ≤ s.cap
  · apply List.ext_getElem?
    intro i
    rw [Slice.val, Slice.val]
    by_cases hi : i < r.len
    · rw [List.getElem?_take_of_lt hi, List.getElem?_take_of_lt hi, List.getElem?_drop, List.getElem?_drop,
        goAppend_writes spare h s xs hs hx hc, if_neg]
      rintro ⟨e, _, _⟩
      rcases hd e with h | h <;> omega
    · simp [List.getElem?_take, hi]
  · rw [goAppend, if_neg hc]; exact r.val_append h _ hr

end append

/-- A call of `Bolt` on values (io/bolt.go:55-100). -/
def BoltCall.onValues (c : BoltCall) (h : Heap UInt8) (id : Bytes) (dt : DataType) (m : KV) : Except IoErr Bytes × KV :=
  match c with
  | .put data => let r := boltProvider.put id dt (data.val h) m; (r.1.map fun _ => [], r.2)
  | .get => boltProvider.get id dt m
  | .update data => let r := boltProvider.update id dt (data.val h) m; (r.1.map fun _ => [], r.2)
  | .delete => let r := boltProvider.delete id dt m; (r.1.map fun _ => [], r.2)

/-- The data slice of a call. -/
def BoltCall.data : BoltCall → Option Slice
  | .put d => some d
  | .update d => some d
  | _ => none

/-- The transaction of a call answers what the method answers on values, once the key is right. -/
theorem BoltCall.tx_eq (c : BoltCall) (h g : Heap UInt8) (key : Slice) (id : Bytes) (dt : DataType) (m : KV)
    (hk : key.val g = boltKey id dt) (hd : ∀ d, c.data = some d → d.val g = d.val h) :
    c.tx g key m = c.onValues h id dt m := by
  cases c with
  | put d =>
    have := hd d rfl
    simp only [BoltCall.tx, BoltCall.onValues, boltProvider, hk, this]
    cases m (boltKey id dt) <;> rfl
  | get =>
    simp only [BoltCall.tx, BoltCall.onValues, boltProvider, hk]
    cases (m (boltKey id dt)).getD [] <;> rfl
  | update d =>
    have := hd d rfl
    simp only [BoltCall.tx, BoltCall.onValues, boltProvider, hk, this]
    cases m (boltKey id dt) <;> rfl
  | delete => simp only [BoltCall.tx, BoltCall.onValues, boltProvider, hk]; rfl

/-- C62, the part that holds: a method of `Bolt` running alone answers what it answers on values, the caller's `id` and
`data` read as before, and when `id` has no spare capacity for the three bytes of the data type, nothing that existed is
written to.

Missing: the bytes behind `id` in its array, see `C62_bolt_overwrites`. -/
theorem C62_bolt_partial (c : BoltCall) (spare : Bytes) (h : Heap UInt8) (id : Slice) (dt : DataType) (m : KV)
    (hi : id.Ok h)
    (hd : ∀ d, c.data = some d → d.Ok h ∧
      (d.arr = id.arr → d.off + d.len ≤ id.off + id.len ∨ id.off + id.len + 3 ≤ d.off)) :
    let r := boltCallH c spare h id dt m
    (r.1, r.2.1) = c.onValues h (id.val h) dt m ∧
      id.val r.2.2 = id.val h ∧ (∀ d, c.data = some d → d.val r.2.2 = d.val h) ∧
      (id.cap < id.len + 3 → h <+: r.2.2) := by
  have hv := (goAppend_val spare h id (dtBytes dt) hi (Nat.succ_pos _)).1
  have hid : id.val (goAppend spare h id (dtBytes dt)).2 = id.val h :=
    goAppend_keeps spare h id id _ hi hi (Nat.succ_pos _) (fun _ => .inl (Nat.le_refl _))
  have hdd : ∀ d, c.data = some d → d.val (goAppend spare h id (dtBytes dt)).2 = d.val h := fun d hc =>
    goAppend_keeps spare h id d _ hi (hd d hc).1 (Nat.succ_pos _) (hd d hc).2
  refine ⟨?_, hid, hdd, fun hc => (goAppend_fresh spare h id (dtBytes dt) hc).1⟩
  simp only [boltCallH, boltKeyH]
  exact c.tx_eq h _ _ _ dt m (hv.trans rfl) hdd

/-- C62 is false of `Bolt`: every method called with an `id` that has three bytes of spare capacity overwrites the three
bytes behind `id` in the caller's array with the data type. -/
theorem C62_bolt_overwrites (c : BoltCall) (spare : Bytes) (h : Heap UInt8) (id : Slice) (dt : DataType) (m : KV)
    (hi : id.Ok h) (hc : id.len + 3 ≤ id.cap) (i : Nat) (h3 : i < 3) :
    ((boltCallH c spare h id dt m).2.2.array id.arr)[id.off + id.len + i]? = (dtBytes dt)[i]? := by
  simp only [boltCallH, boltKeyH]
  rw [goAppend_writes spare h id (dtBytes dt) hi (Nat.succ_pos _) hc, if_pos ⟨rfl, by omega, by simp [dtBytes]; omega⟩]
  congr 1; omega

/-- C62 matters: two goroutines that call `Bolt` with the same `id` slice and different data types.  When the second
makes its key before the first runs its transaction, the first reads or writes the record of the other data type. -/
theorem C62_bolt_race (c : BoltCall) (spare spare' : Bytes) (h : Heap UInt8) (id : Slice) (dt dt' : DataType) (m : KV)
    (hi : id.Ok h) (hc : id.len + 3 ≤ id.cap)
    (hd : ∀ d, c.data = some d → d.Ok h ∧ d.arr ≠ id.arr) :
    let (key, h₁) := boltKeyH spare h id dt
    let (_, h₂) := boltKeyH spare' h₁ id dt'
    c.tx h₂ key m = c.onValues h (id.val h) dt' m := by
  have e : ∀ sp (g : Heap UInt8) t, boltKeyH sp g id t =
      (⟨id.arr, id.off, id.len + 3, id.cap⟩, g.store id.arr (id.off + id.len) (dtBytes t)) := by
    intro sp g t; simp only [boltKeyH, goAppend]; exact if_pos hc
  rw [e spare h dt]
  simp only
  have hi' : id.Ok (h.store id.arr (id.off + id.len) (dtBytes dt)) := id.ok_store _ _ _ _ hi
  have hv := (goAppend_val spare' (h.store id.arr (id.off + id.len) (dtBytes dt)) id (dtBytes dt') hi' (Nat.succ_pos _)).1
  have hk : boltKeyH spare' (h.store id.arr (id.off + id.len) (dtBytes dt)) id dt' = goAppend spare' _ id (dtBytes dt') :=
    rfl
  rw [← hk, e spare' _ dt'] at hv
  rw [e spare' _ dt']
  refine c.tx_eq h _ _ _ dt' m (hv.trans ?_) ?_
  · have : id.val (h.store id.arr (id.off + id.len) (dtBytes dt)) = id.val h := by
      have := goAppend_keeps spare h id id (dtBytes dt) hi hi (Nat.succ_pos _) (fun _ => .inl (Nat.le_refl _))
      rwa [show goAppend spare h id (dtBytes dt) = boltKeyH spare h id dt from rfl, e spare h dt] at this
    rw [this]; rfl
  · intro d hcd
    rw [d.val_store _ _ _ _ (hd d hcd).2, d.val_store _ _ _ _ (hd d hcd).2]

/-! ### The groups of `Encrypt` -/

/-- C62, the part that holds: `Encrypt` adds the groups it was given and the caller, the caller's `groups` read as
before, and without spare capacity nothing that existed is written to.

Missing: the element behind `groups` in its array, see `C62_encrypt_overwrites`. -/
theorem C62_encrypt_partial (spare : List GoString) (h : Heap GoString) (groups : Slice) (caller : GoString) (a : Access)
    (hg : groups.Ok h) :
    let (s, h') := encryptAppendH spare h groups caller
    encryptAddGroupsH h' s a = a.addGroups (groups.val h ++ [caller]) ∧
      groups.val h' = groups.val h ∧ (groups.cap = groups.len → h <+: h') := by
  refine ⟨?_, goAppend_keeps spare h groups groups _ hg hg (Nat.succ_pos _) (fun _ => .inl (Nat.le_refl _)),
    fun hc => (goAppend_fresh spare h groups [caller] (by simp; omega)).1⟩
  have := (goAppend_val spare h groups [caller] hg (Nat.succ_pos _)).1
  show a.addGroups ((goAppend spare h groups [caller]).1.val (goAppend spare h groups [caller]).2) = _
  rw [this]

/-- C62 is false of `Encrypt`: with spare capacity it writes the ID of the caller behind `groups` into the array that
was passed. -/
theorem C62_encrypt_overwrites (spare : List GoString) (h : Heap GoString) (groups : Slice) (caller : GoString)
    (hg : groups.Ok h) (hc : groups.len < groups.cap) :
    ((encryptAppendH spare h groups caller).2.array groups.arr)[groups.off + groups.len]? = some caller := by
  rw [encryptAppendH, goAppend_writes spare h groups [caller] hg (Nat.succ_pos _) (by simpa using Nat.succ_le_of_lt hc), if_pos (by simp)]
  simp

/-- C62 matters: two goroutines that call `Encrypt` with the same `groups` slice, for different callers.  When the second
appends before the first walks over its groups, the first object is shared with the second caller, and the first caller
is locked out of the object it just made. -/
theorem C62_encrypt_race (spare spare' : List GoString) (h : Heap GoString) (groups : Slice) (alice bob : GoString)
    (dek : Bytes) (hg : groups.Ok h) (hc : groups.len < groups.cap) (hne : alice ≠ bob)
    (hal : alice ∉ groups.val h) :
    let (s, h₁) := encryptAppendH spare h groups alice
    let (_, h₂) := encryptAppendH spare' h₁ groups bob
    ∃ a, encryptAddGroupsH h₂ s (newAccess dek) = some a ∧ a.containsGroups [bob] = true ∧
      a.containsGroups [alice] = false := by
  have e : ∀ sp (g : Heap GoString) x, encryptAppendH sp g groups x =
      (⟨groups.arr, groups.off, groups.len + 1, groups.cap⟩, g.store groups.arr (groups.off + groups.len) [x]) := by
    intro sp g x; simp only [encryptAppendH, goAppend]; exact if_pos (by simpa using Nat.succ_le_of_lt hc)
  rw [e spare h alice]
  simp only
  have hg' := groups.ok_store h groups.arr (groups.off + groups.len) [alice] hg
  have hv := (goAppend_val spare' _ groups [bob] hg' (Nat.succ_pos _)).1
  rw [show ∀ g : Heap GoString, goAppend spare' g groups [bob] = encryptAppendH spare' g groups bob from fun _ => rfl,
    e spare' _ bob] at hv
  have hk : groups.val (h.store groups.arr (groups.off + groups.len) [alice]) = groups.val h := by
    have := goAppend_keeps spare h groups groups [alice] hg hg (Nat.succ_pos _) (fun _ => .inl (Nat.le_refl _))
    rwa [show goAppend spare h groups [alice] = encryptAppendH spare h groups alice from rfl, e spare h alice] at this
  rw [hk] at hv
  rw [e spare' _ bob]
  refine ⟨⟨some ((groups.val h ++ [bob]).foldl setInsert []), some dek⟩, ?_, ?_, ?_⟩
  · simp only [encryptAddGroupsH, hv, Access.addGroups, newAccess, addToSet_some]; rfl
  · simp only [Access.containsGroups, List.all_cons, List.all_nil, Bool.and_true, GoSet.has]
    simpa using (mem_foldl_setInsert (groups.val h ++ [bob]) [] bob).mpr (.inr (by simp))
  · simp only [Access.containsGroups, List.all_cons, List.all_nil, Bool.and_true, GoSet.has]
    have : alice ∉ (groups.val h ++ [bob]).foldl setInsert [] := by
      rw [mem_foldl_setInsert]; simp [hal, hne]
    simpa using this

/-! ## C67: `Mem` holds on to the slices it is given -/

/-- The map of `Mem` as seen by readers: the bytes that the stored slices hold at the moment. -/
def MemMap.now (m : MemMap) (h : Heap UInt8) : KV := fun k => (m k).map (·.val h)

/-- C67, the part that holds: as long as nobody writes to the arrays of the slices that were stored, each method of `Mem`
is what it is on values: it answers the same, and the map stands for the same afterwards.

Missing: callers that do write to them, see `C67_put_aliases` and `C67_get_aliases`. -/
theorem C67_mem_partial (h h' : Heap UInt8) (m : MemMap) (id data : Slice) (dt : DataType)
    (hk : ∀ k s, m k = some s → s.val h' = s.val h) (hi : id.val h' = id.val h) (hd : data.val h' = data.val h) :
    m.now h' = m.now h ∧
    (let r := memPutH h' id dt data m;
      (r.1, r.2.now h') = memProvider.put (id.val h) dt (data.val h) (m.now h)) ∧
    ((memGetH h' id dt m).map (·.val h'), m.now h') = memProvider.get (id.val h) dt (m.now h) ∧
    (let r := memUpdateH h' id dt data m;
      (r.1, r.2.now h') = memProvider.update (id.val h) dt (data.val h) (m.now h)) ∧
    (let r := memDeleteH h' id dt m;
      (r.1, r.2.now h') = memProvider.delete (id.val h) dt (m.now h)) := by
  have e : m.now h' = m.now h := by
    funext k
    simp only [MemMap.now]
    cases hm : m k with
    | none => rfl
    | some s => simp [hk k s hm]
  have eset : ∀ v : Option Slice, MemMap.now (fun k => if k = memKey (id.val h) dt then v else m k) h' =
      (m.now h).set (memKey (id.val h) dt) (v.map (·.val h')) := by
    intro v; funext k; rw [← e]; simp only [MemMap.now, KV.set]; split <;> rfl
  refine ⟨e, ?_, ?_, ?_, ?_⟩
  · simp only [memPutH, memProvider, hi]
    cases hm : m (memKey (id.val h) dt) with
    | none =>
      have hv : m.now h (memKey (id.val h) dt) = none := by simp [MemMap.now, hm]
      simp only [hv, eset, Option.map_some, hd]
    | some s => simp only [e, MemMap.now, hm, Option.map_some]
  · simp only [memGetH, memProvider, hi]
    cases hm : m (memKey (id.val h) dt) with
    | none => simp only [e, MemMap.now, hm, Option.map_none]; rfl
    | some s => simp only [e, MemMap.now, hm, Option.map_some, ← hk _ s hm]; rfl
  · simp only [memUpdateH, memProvider, hi]
    cases hm : m (memKey (id.val h) dt) with
    | none => simp only [e, MemMap.now, hm, Option.map_none]
    | some s =>
      have hv : m.now h (memKey (id.val h) dt) = some (s.val h) := by simp [MemMap.now, hm]
      simp only [hv, eset, Option.map_some, hd]
  · simp only [memDeleteH, memProvider, hi]
    rw [eset]; rfl

theorem goCopy_val {α : Type} (h : Heap α) (s : Slice) (x : List α) (hs : s.Ok h) (hx : x.length = s.len) :
    s.val (goCopy h s x) = x := by
  rw [goCopy, List.take_of_length_le (by omega)]
  by_cases hl : s.arr < h.length
  · obtain ⟨h1, h2⟩ := hs
    simp only [Slice.val, array_store, hl, and_self, if_true]
    apply List.ext_getElem?
    intro i
    by_cases hi : i < s.len
    · rw [List.getElem?_take_of_lt hi, List.getElem?_drop, overwrite_get _ _ _ (by omega), if_pos (by omega)]
      congr 1; omega
    · rw [List.getElem?_take_eq_none (by omega), List.getElem?_eq_none (by omega)]
  · have h0 : s.len = 0 := by
      by_contra hne
      exact hl (hs.lt (by have := hs.2; omega))
    rw [h0] at hx
    rw [List.eq_nil_of_length_eq_zero hx]
    simp [Slice.val, h0]

/-- C67 is false of `Mem`: what `Get` answers follows whatever the caller of `Put` writes into the buffer afterwards. -/
theorem C67_put_aliases (h : Heap UInt8) (m : MemMap) (id data : Slice) (dt : DataType) (x : Bytes)
    (hn : m (memKey (id.val h) dt) = none) (hd : data.Ok h) (hx : x.length = data.len) (ha : id.arr ≠ data.arr) :
    (memPutH h id dt data m).1 = .ok () ∧
      (memGetH (goCopy h data x) id dt (memPutH h id dt data m).2).map (·.val (goCopy h data x)) = .ok x := by
  have hid : id.val (goCopy h data x) = id.val h := id.val_store _ _ _ _ ha
  simp only [memPutH, hn, memGetH, hid, if_true]
  refine ⟨trivial, ?_⟩
  show Except.ok _ = Except.ok _
  congr 1
  exact goCopy_val h data x hd hx

/-- C67 is false of `Mem`: writing into what `Get` returned changes what the next `Get` returns. -/
theorem C67_get_aliases (h : Heap UInt8) (m : MemMap) (id data : Slice) (dt : DataType) (x : Bytes)
    (hg : memGetH h id dt m = .ok data) (hd : data.Ok h) (hx : x.length = data.len)
    (ha : id.arr ≠ data.arr) :
    (memGetH (goCopy h data x) id dt m).map (·.val (goCopy h data x)) = .ok x := by
  have hid : id.val (goCopy h data x) = id.val h := id.val_store _ _ _ _ ha
  have : memGetH (goCopy h data x) id dt m = .ok data := by rw [← hg]; simp only [memGetH, hid]
  rw [this]
  show Except.ok _ = Except.ok _
  congr 1
  exact goCopy_val h data x hd hx

/-! ## Examples -/

/-- The copy in `Cryptor.Decrypt` is needed: after `AES256GCM.Decrypt` with a wrong key, the right key fails, too. -/
example :
    let key := List.replicate 32 (7 : UInt8)
    let box := gcmBox toyPrims key (List.replicate 12 1) [5] [65, 66, 67]
    let h : Heap UInt8 := [box, [5], key, List.replicate 32 8]
    let r := gcmDecryptH toyPrims h ⟨0, 0, 31, 31⟩ ⟨1, 0, 1, 1⟩ ⟨2, 0, 32, 32⟩
    let r' := gcmDecryptH toyPrims h ⟨0, 0, 31, 31⟩ ⟨1, 0, 1, 1⟩ ⟨3, 0, 32, 32⟩
    (r.1.toOption.map (·.val r.2)) = some [65, 66, 67] ∧ r'.1.toOption = none ∧
      (gcmDecryptH toyPrims r'.2 ⟨0, 0, 31, 31⟩ ⟨1, 0, 1, 1⟩ ⟨2, 0, 32, 32⟩).1.toOption = none := by
  decide +kernel

/-- C51: two decryptions of the same slices, which lie in one array and have spare capacity. -/
example :
    let c : Cryptor := ⟨List.replicate 32 9⟩
    let key := List.replicate 32 (7 : UInt8)
    let w := kwpBox toyPrims c.kwp key
    let box := gcmBox toyPrims key (List.replicate 12 1) (J.ofBytes (some [5])).render (J.ofBytes (some [65])).render
    let h : Heap UInt8 := [w ++ box ++ [0, 0, 0]]
    let sp : Spares := ⟨[], [1, 2], []⟩
    let r := c.decryptH toyPrims sp J.toBytes h (J.ofBytes (some [5])) ⟨0, 0, 40, 77⟩ ⟨0, 40, 34, 37⟩
    r.1 = .ok (some [65]) ∧ r.2.head? = h.head? ∧
      (c.decryptH toyPrims sp J.toBytes r.2 (J.ofBytes (some [5])) ⟨0, 0, 40, 77⟩ ⟨0, 40, 34, 37⟩).1 = .ok (some [65]) := by
  decide +kernel

/-- C62: a 16-byte ID with four bytes of spare capacity. -/
example : (boltCallH .get [] [List.replicate 20 9] ⟨0, 0, 16, 20⟩ 2 (fun _ => none)).2.2 =
    [List.replicate 16 9 ++ [2, 0, 0, 9]] := by decide

/-- C62: Alice and Bob encrypt at the same time, sharing a list with one group and room for another. -/
example :
    let h : Heap GoString := [[[71], []]]
    let (s, h₁) := encryptAppendH [] h ⟨0, 0, 1, 2⟩ [65]
    let (_, h₂) := encryptAppendH [] h₁ ⟨0, 0, 1, 2⟩ [66]
    s.val h₂ = [[71], [66]] := by decide

end D1
