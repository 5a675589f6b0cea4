import Verif.Model.Standalone
import Verif.Proofs.Crypto
/-!
# JSON round trips of the repository's types
-/
namespace D1
attribute [-simp] UInt8.ofNat_add UInt8.ofNat_mul UInt8.ofNat_sub

/-! ## Plain text -/

theorem htmlSafe_lt {b : UInt8} (h : htmlSafe b = true) : b.toNat < 128 := by
  simp [htmlSafe] at h; omega

theorem sanitize_plain (s : Bytes) (h : ∀ b ∈ s, htmlSafe b = true) : sanitize s = s :=
  sanitize_of_valid (validUtf8_ascii s fun b hb => htmlSafe_lt (h b hb))

theorem chunks_ascii (s : Bytes) (h : ∀ b ∈ s, b.toNat < 128) : chunks s = s.map (fun b => .valid [b]) := by
  induction s with
  | nil => rfl
  | cons b r ih =>
    have hb := h b (List.mem_cons_self)
    have h1 : runeLen b r = 1 := by simp [runeLen, show b.toNat < 0x80 from hb]
    rw [chunks_cons, h1]
    simp [ih fun x hx => h x (List.mem_cons_of_mem _ hx)]

/-- Strings of safe ASCII characters are written as they are. -/
theorem renderStr_plain (s : Bytes) (h : ∀ b ∈ s, htmlSafe b = true) : renderStr s = [34] ++ s ++ [34] := by
  rw [renderStr, chunks_ascii s fun b hb => htmlSafe_lt (h b hb)]
  congr 2
  induction s with
  | nil => rfl
  | cons b r ih =>
    have hb := h b (List.mem_cons_self)
    simp only [List.map_cons, List.flatMap_cons, ih fun x hx => h x (List.mem_cons_of_mem _ hx)]
    simp [escChunk, escAscii, hb]

theorem b64Char_safe (url : Bool) : ∀ n, n < 64 → htmlSafe (b64Char url n) = true := by
  cases url <;> decide

theorem b64Enc_safe (url : Bool) (b : Bytes) : ∀ x ∈ b64Enc url b, htmlSafe x = true := by
  intro x hx
  rcases b64Enc_mem url b x hx with ⟨n, hn, rfl⟩ | rfl
  · exact b64Char_safe url n hn
  · decide

@[simp] theorem sanitize_b64 (url : Bool) (b : Bytes) : sanitize (b64Enc url b) = b64Enc url b :=
  sanitize_plain _ (b64Enc_safe url b)

theorem hexDigit_safe : ∀ n, n < 16 → htmlSafe (hexDigit n) = true := by decide

theorem hexEnc_safe (b : Bytes) : ∀ x ∈ hexEnc b, htmlSafe x = true := by
  induction b with
  | nil => simp [hexEnc]
  | cons a r ih =>
    have := toNat_lt a
    intro x hx
    simp only [hexEnc, List.mem_cons] at hx
    rcases hx with rfl | rfl | hx
    · exact hexDigit_safe _ (by omega)
    · exact hexDigit_safe _ (by omega)
    · exact ih x hx

theorem uuidText_safe (u : Oid) : ∀ x ∈ uuidText u, htmlSafe x = true := by
  intro x hx
  simp only [uuidText, List.mem_append, List.mem_singleton] at hx
  rcases hx with (((((((hx | rfl) | hx) | rfl) | hx) | rfl) | hx) | rfl) | hx <;>
    first | exact hexEnc_safe _ x hx | decide

@[simp] theorem sanitize_uuidText (u : Oid) : sanitize (uuidText u) = uuidText u := sanitize_plain _ (uuidText_safe u)

theorem validUtf8_uuidText (u : Oid) : validUtf8 (uuidText u) = true := (sanitize_eq_iff _).mp (sanitize_uuidText u)

/-! ## Field names -/

@[simp] theorem san_nCiphertext : sanitize nCiphertext = nCiphertext := by decide
@[simp] theorem san_nAssociatedData : sanitize nAssociatedData = nAssociatedData := by decide
@[simp] theorem san_nOID : sanitize nOID = nOID := by decide
@[simp] theorem san_nGroups : sanitize nGroups = nGroups := by decide
@[simp] theorem san_nWrappedDEK : sanitize nWrappedDEK = nWrappedDEK := by decide
@[simp] theorem san_nWrappedKey : sanitize nWrappedKey = nWrappedKey := by decide
@[simp] theorem san_nExpiryTime : sanitize nExpiryTime = nExpiryTime := by decide
@[simp] theorem san_nIdentifier : sanitize nIdentifier = nIdentifier := by decide
@[simp] theorem san_nNextCounter : sanitize nNextCounter = nNextCounter := by decide
@[simp] theorem san_nSaltAndHash : sanitize nSaltAndHash = nSaltAndHash := by decide
@[simp] theorem san_nScopes : sanitize nScopes = nScopes := by decide
@[simp] theorem san_nUID : sanitize nUID = nUID := by decide
@[simp] theorem san_nGID : sanitize nGID = nGID := by decide

/-! ## Values -/

@[simp] theorem san_ofBytes (b : NBytes) : (J.ofBytes b).san = J.ofBytes b := by
  cases b <;> simp [J.ofBytes, J.san]

@[simp] theorem toBytes_ofBytes (b : NBytes) : (J.ofBytes b).toBytes = some b := by
  cases b <;> simp [J.ofBytes, J.toBytes, b64Dec_enc]

/-- A set read back from JSON: the keys with bad bytes replaced, in the same order. -/
def sanList (l : List GoString) : List GoString := (l.map sanitize).foldl setInsert []

theorem mem_setInsert (l : List GoString) (x y : GoString) : y ∈ setInsert l x ↔ y ∈ l ∨ y = x := by
  unfold setInsert
  split
  · constructor
    · exact Or.inl
    · rintro (h | rfl) <;> assumption
  · simp

theorem mem_foldl_setInsert (ks l : List GoString) (y : GoString) : y ∈ ks.foldl setInsert l ↔ y ∈ l ∨ y ∈ ks := by
  induction ks generalizing l with
  | nil => simp
  | cons k ks ih => simp only [List.foldl_cons, ih, mem_setInsert, List.mem_cons, or_assoc]

theorem setInsert_nodup {l : List GoString} (h : l.Nodup) (x : GoString) : (setInsert l x).Nodup := by
  unfold setInsert
  split
  · exact h
  · rename_i hx
    rw [List.nodup_append]
    exact ⟨h, by simp, fun a ha b hb => by simp at hb; subst hb; exact fun e => hx (e ▸ ha)⟩

theorem foldl_setInsert_nodup (ks : List GoString) {l : List GoString} (h : l.Nodup) : (ks.foldl setInsert l).Nodup := by
  induction ks generalizing l with
  | nil => exact h
  | cons k ks ih => exact ih (setInsert_nodup h k)

theorem mem_setErase (l : List GoString) (x y : GoString) : y ∈ setErase l x ↔ y ∈ l ∧ y ≠ x := by
  simp [setErase]

theorem mem_foldl_setErase (ks l : List GoString) (y : GoString) : y ∈ ks.foldl setErase l ↔ y ∈ l ∧ y ∉ ks := by
  induction ks generalizing l with
  | nil => simp
  | cons k ks ih => simp only [List.foldl_cons, ih, mem_setErase, List.mem_cons, not_or, and_assoc]

theorem mem_sanList (l : List GoString) (y : GoString) : y ∈ sanList l ↔ ∃ x ∈ l, sanitize x = y := by
  simp [sanList, mem_foldl_setInsert]

theorem sanList_nodup (l : List GoString) : (sanList l).Nodup := foldl_setInsert_nodup _ (by simp)

theorem mem_sanList_san (l : List GoString) (y : GoString) (h : y ∈ sanList l) : sanitize y = y := by
  obtain ⟨x, _, rfl⟩ := (mem_sanList l y).mp h
  exact sanitize_idem x

@[simp] theorem sanList_nil : sanList [] = [] := rfl

theorem JFields.keys_ofList (l : List GoString) :
    (JFields.ofList (l.map fun k => (k, J.obj .nil))).san.keys = some (l.map sanitize) := by
  induction l with
  | nil => rfl
  | cons k l ih => simp [JFields.ofList, JFields.san, JFields.keys, J.san, ih]

@[simp] theorem toSet_ofSet (s : GoSet) : (J.ofSet s).san.toSet = some (s.map sanList) := by
  cases s with
  | none => rfl
  | some l => simp [J.ofSet, J.san, J.toSet, JFields.keys_ofList, sanList]

@[simp] theorem toScope_ofScope (s : Scope) : (J.ofScope s).san.toScope = some s := by
  simp [J.ofScope, J.san, J.toScope, J.toU64, s.isLt]

/-! ## Structures -/

section
variable {P : Prims} (L : P.Laws)

include L in
theorem SealedObject.ofJ_toJ (o : SealedObject) : SealedObject.ofJ P o.toJ.san = some o := by
  simp [SealedObject.toJ, SealedObject.ofJ, J.san, JFields.san, J.fields, field, JFields.lookup, J.toUuid, J.toStr,
    L.uuid_parse, show nOID ≠ nCiphertext by decide, show nAssociatedData ≠ nCiphertext by decide,
    show nOID ≠ nAssociatedData by decide]

include L in
theorem SealedAccess.ofJ_toJ (a : SealedAccess) : SealedAccess.ofJ P a.toJ.san = some a := by
  simp [SealedAccess.toJ, SealedAccess.ofJ, J.san, JFields.san, J.fields, field, JFields.lookup, J.toUuid, J.toStr,
    L.uuid_parse, show nCiphertext ≠ nOID by decide, show nWrappedKey ≠ nOID by decide,
    show nWrappedKey ≠ nCiphertext by decide]

theorem Access.ofJ_toJ (a : Access) : Access.ofJ a.toJ.san = some ⟨a.groups.map sanList, a.wrappedDEK⟩ := by
  simp [Access.toJ, Access.ofJ, J.san, JFields.san, J.fields, field, JFields.lookup,
    show nWrappedDEK ≠ nGroups by decide]

theorem SealedNode.ofJ_toJ (n : SealedNode) : SealedNode.ofJ n.toJ.san = some n := by
  simp [SealedNode.toJ, SealedNode.ofJ, J.san, JFields.san, J.fields, field, JFields.lookup,
    show nWrappedKey ≠ nCiphertext by decide]

theorem Node.ofJ_toJ (n : Node) (h : n.nextCounter < 2 ^ 64) : Node.ofJ n.toJ.san = some ⟨sanitize n.identifier, n.nextCounter⟩ := by
  simp [Node.toJ, Node.ofJ, J.san, JFields.san, J.fields, field, JFields.lookup, J.toStr, J.toU64,
    show nNextCounter ≠ nIdentifier by decide]
  rw [if_pos (by omega)]
  rfl

theorem SealedGroup.ofJ_toJ (g : SealedGroup) : SealedGroup.ofJ g.toJ.san = some { g with gid := sanitize g.gid } := by
  simp [SealedGroup.toJ, SealedGroup.ofJ, J.san, JFields.san, J.fields, field, JFields.lookup, J.toStr,
    show nCiphertext ≠ nGID by decide, show nWrappedKey ≠ nGID by decide, show nWrappedKey ≠ nCiphertext by decide]

theorem Group.ofJ_toJ (g : Group) : Group.ofJ g.toJ.san = some g := by
  simp [Group.toJ, Group.ofJ, J.san, JFields.san, J.fields, field, JFields.lookup]

theorem SealedUser.ofJ_toJ (g : SealedUser) : SealedUser.ofJ g.toJ.san = some { g with uid := sanitize g.uid } := by
  simp [SealedUser.toJ, SealedUser.ofJ, J.san, JFields.san, J.fields, field, JFields.lookup, J.toStr,
    show nCiphertext ≠ nUID by decide, show nWrappedKey ≠ nUID by decide, show nWrappedKey ≠ nCiphertext by decide]

theorem User.ofJ_toJ (u : User) : User.ofJ u.toJ.san = some { u with groups := u.groups.map sanList } := by
  simp [User.toJ, User.ofJ, J.san, JFields.san, J.fields, field, JFields.lookup,
    show nScopes ≠ nSaltAndHash by decide, show nGroups ≠ nSaltAndHash by decide, show nGroups ≠ nScopes by decide]

include L in
theorem sanitize_timeText (t : GoTime) : sanitize (P.timeText t) = P.timeText t := sanitize_plain _ (L.time_plain t)

include L in
/-- A token read back has an expiry time denoting the same instant and printing the same. -/
theorem SealedToken.ofJ_toJ (t : SealedToken) : ∃ e, SealedToken.ofJ P (t.toJ P).san = some { t with expiryTime := e } ∧
    e.ns = t.expiryTime.ns ∧ P.timeText e = P.timeText t.expiryTime := by
  obtain ⟨e, h1, h2, h3⟩ := L.time_parse t.expiryTime
  refine ⟨e, ?_, h2, h3⟩
  simp [SealedToken.toJ, SealedToken.ofJ, J.san, JFields.san, J.fields, field, JFields.lookup, J.ofTime, J.toTime,
    sanitize_timeText L, h1, show nCiphertext ≠ nExpiryTime by decide, show nWrappedKey ≠ nExpiryTime by decide,
    show nWrappedKey ≠ nCiphertext by decide]

/-! ## Injectivity of JSON texts -/

include L in
theorem render_san {a b : J} (h : a.render = b.render) : a.san = b.san := by
  have := L.unmarshal_render a
  rw [h, L.unmarshal_render] at this
  exact (Option.some.inj this).symm

include L in
theorem ofBytes_render_inj {a b : NBytes} (h : (J.ofBytes a).render = (J.ofBytes b).render) : a = b := by
  have := render_san L h
  simp only [san_ofBytes] at this
  have h2 := congrArg J.toBytes this
  simpa using h2

include L in
theorem str_render_inj {a b : GoString} (h : (J.str a).render = (J.str b).render) : sanitize a = sanitize b := by
  have := render_san L h
  simpa [J.san] using this

include L in
theorem ofTime_render_inj {a b : GoTime} (h : (J.ofTime P a).render = (J.ofTime P b).render) :
    P.timeText a = P.timeText b ∧ a.ns = b.ns := by
  have h1 := str_render_inj L h
  rw [sanitize_timeText L, sanitize_timeText L] at h1
  refine ⟨h1, ?_⟩
  obtain ⟨a', ha, hans, _⟩ := L.time_parse a
  obtain ⟨b', hb, hbns, _⟩ := L.time_parse b
  rw [h1, hb] at ha
  cases ha
  omega

/-- The associated data of an object determines the ID and the user's associated data. -/
theorem objectAad_inj (L : P.Laws) {o o' : Oid} {a a' : NBytes} (h : (objectAad o a).render = (objectAad o' a').render) :
    o = o' ∧ a.bytes = a'.bytes := by
  have := ofBytes_render_inj L h
  simp only [Option.some.injEq] at this
  obtain ⟨h1, h2⟩ := List.append_inj this (by rw [o.2, o'.2])
  exact ⟨Subtype.ext h1, h2⟩

end

end D1
